import Verif.Spec.Message
import Verif.Proofs.Text
/-! # Lemmas about request messages -/
set_option linter.unusedSimpArgs false
namespace Am
open Spec

/-! ## Header lines -/

theorem not_mem_ws {a : Str} (h : ∀ c ∈ a, isWs c = true) : ':' ∉ a := fun hm => absurd (h _ hm) (by decide)

theorem first_unique {c : Char} {a b a' b' : Str} (h : a ++ c :: b = a' ++ c :: b') (ha : c ∉ a) (ha' : c ∉ a') : a = a' ∧ b = b' := by
  have h1 : splitOnce c (a ++ c :: b) = some (a, b) := splitOnce_some.2 ⟨rfl, ha⟩
  rw [h, splitOnce_some.2 ⟨rfl, ha'⟩] at h1
  simp only [Option.some.injEq, Prod.mk.injEq] at h1
  exact ⟨h1.1.symm, h1.2.symm⟩

/-- Trimming a line and then cutting it at its first colon gives the same trimmed parts as cutting it directly. -/
theorem headerOf_field {n v : Str} (hn : ':' ∉ n) : headerOf (n ++ ':' :: v) = some ⟨trim n, trim v⟩ := by
  obtain ⟨a, b, e, h1, h2, h3, h4⟩ := trim_trims (n ++ ':' :: v)
  have hm : ':' ∈ trim (n ++ ':' :: v) := by
    have : ':' ∈ n ++ ':' :: v := by simp
    rw [e] at this
    rcases List.mem_append.1 this with h | h
    · rcases List.mem_append.1 h with h | h
      · exact absurd h (not_mem_ws h1)
      · exact h
    · exact absurd h (not_mem_ws h2)
  obtain ⟨n', v', e', hn'⟩ := mem_first hm
  unfold headerOf
  rw [splitOnce_some.2 ⟨e', hn'⟩]
  rw [e'] at e
  have e2 : n ++ ':' :: v = (a ++ n') ++ ':' :: (v' ++ b) := by rw [e]; simp
  obtain ⟨rfl, rfl⟩ := first_unique e2 hn (by
    intro hm
    rcases List.mem_append.1 hm with h | h
    · exact not_mem_ws h1 h
    · exact hn' h)
  have t1 := trim_pad (a := a) (b := []) (s := n') h1 (by simp)
  have t2 := trim_pad (a := []) (b := b) (s := v') (by simp) h2
  rw [List.append_nil] at t1
  rw [List.nil_append] at t2
  rw [t1, t2]
  rfl

theorem headerOf_none {l : Str} (h : ':' ∉ l) : headerOf l = none := by
  unfold headerOf
  rw [splitOnce_none.2 (fun hm => h (trim_mem hm))]
  rfl

theorem isEmpty_trim {l : Str} : (trim l).isEmpty = true ↔ ∀ c ∈ l, isWs c = true := by
  rw [List.isEmpty_iff]; exact trim_empty

theorem headerLines_block : ∀ ls : List Str, HeaderBlock ls (headerLines ls).1 (headerLines ls).2 := by
  intro ls
  induction ls with
  | nil => exact .ends
  | cons l ls ih =>
    unfold headerLines
    by_cases hb : (trim l).isEmpty = true
    · rw [if_pos hb]
      exact .blank l ls (isEmpty_trim.1 hb)
    · rw [if_neg hb]
      by_cases hc : ':' ∈ l
      · obtain ⟨n, v, rfl, hn⟩ := mem_first hc
        rw [headerOf_field hn]
        exact .field n v _ _ ls _ _ hn (trim_trims n) (trim_trims v) ih
      · rw [headerOf_none hc]
        refine .skip l ls _ _ ?_ hc ih
        rw [isEmpty_trim] at hb
        exact Classical.byContradiction fun hx => hb fun c hm => by
          cases hw : isWs c with
          | true => rfl
          | false => exact absurd ⟨c, hm, hw⟩ hx

theorem headerBlock_unique {ls : List Str} {hs : List Header} {left : List Str} (h : HeaderBlock ls hs left) : headerLines ls = (hs, left) := by
  induction h with
  | ends => rfl
  | blank l r hb => unfold headerLines; rw [if_pos (isEmpty_trim.2 hb)]
  | skip l r hs left hne hc _ ih =>
    unfold headerLines
    rw [if_neg (by
      intro he
      obtain ⟨c, hm, hw⟩ := hne
      have := isEmpty_trim.1 he c hm
      rw [hw] at this
      cases this), ih, headerOf_none hc]
  | field n v name value r hs left hn h1 h2 _ ih =>
    unfold headerLines
    rw [if_neg (by
      intro he
      have := isEmpty_trim.1 he ':' (by simp)
      exact absurd this (by decide)), ih, headerOf_field hn, trim_unique h1, trim_unique h2]

/-- What the headers of a parsed message look like. -/
theorem headerBlock_shape {ls : List Str} {hs : List Header} {left : List Str} (h : HeaderBlock ls hs left) (hl : ∀ l ∈ ls, '\n' ∉ l) :
    (∀ x ∈ hs, ':' ∉ x.name ∧ '\n' ∉ x.name ∧ '\n' ∉ x.value ∧ Tight x.name ∧ Tight x.value) ∧ (∀ l ∈ left, l ∈ ls) := by
  induction h with
  | ends => exact ⟨by simp, by simp⟩
  | blank l r hb => exact ⟨by simp, fun x hx => List.mem_cons_of_mem _ hx⟩
  | skip l r hs left hne hc _ ih =>
    obtain ⟨i1, i2⟩ := ih fun x hx => hl x (List.mem_cons_of_mem _ hx)
    exact ⟨i1, fun x hx => List.mem_cons_of_mem _ (i2 x hx)⟩
  | field n v name value r hs left hn h1 h2 _ ih =>
    obtain ⟨i1, i2⟩ := ih fun x hx => hl x (List.mem_cons_of_mem _ hx)
    refine ⟨?_, fun x hx => List.mem_cons_of_mem _ (i2 x hx)⟩
    intro x hx
    rcases List.mem_cons.1 hx with rfl | hx
    · have hline := hl _ List.mem_cons_self
      have e1 := trim_unique h1
      have e2 := trim_unique h2
      simp only [← e1, ← e2]
      exact ⟨fun hm => hn (trim_mem hm), fun hm => hline (by simp [trim_mem hm]), fun hm => hline (by simp [trim_mem hm]), tight_trim _, tight_trim _⟩
    · exact i1 x hx

/-! ## The declared content type -/

theorem declares_iff {hs : List Header} {v : Str} : Declares hs v ↔ contentType hs = some v := by
  constructor
  · intro h
    induction h with
    | here h hs he => simp [contentType, List.find?_cons, he]
    | there h hs v hne _ ih =>
      have : (lower h.name == c!"content-type") = false := by simpa using hne
      simp only [contentType, List.find?_cons, this] at ih ⊢
      exact ih
  · intro h
    induction hs with
    | nil => simp [contentType] at h
    | cons x hs ih =>
      by_cases he : lower x.name = c!"content-type"
      · have : contentType (x :: hs) = some x.value := by simp [contentType, List.find?_cons, he]
        rw [this] at h
        rw [← Option.some.inj h]
        exact .here x hs he
      · have e : (lower x.name == c!"content-type") = false := by simpa using he
        have : contentType (x :: hs) = contentType hs := by simp [contentType, List.find?_cons, e]
        rw [this] at h
        exact .there x hs v he (ih h)

/-! ## Reading requests back -/

theorem wireLine_enc {s : Str} (h : '\n' ∉ s) (rest : List UInt8) : wireLine (utf8 (s ++ c!"\r\n") ++ rest) = some (s, rest) := by
  have e : utf8 (s ++ c!"\r\n") ++ rest = (utf8 s ++ [13]) ++ 10 :: rest := by
    rw [utf8_append, show utf8 c!"\r\n" = [13, 10] from by decide]
    simp
  have hno : ∀ b ∈ utf8 s ++ [13], (fun b : UInt8 => decide (b ≠ 10)) b = true := by
    intro b hb
    rcases List.mem_append.1 hb with hb | hb
    · exact decide_eq_true (utf8_no_lf h b hb)
    · rw [List.mem_singleton] at hb
      subst hb
      decide
  unfold wireLine
  dsimp only
  rw [e, takeWhile_app hno (by decide), dropWhile_app hno (by decide)]
  dsimp only
  rw [if_pos (by simp), List.dropLast_concat, fromUtf8_utf8]
  rfl

theorem ows_ws {c : Char} (h : ows c = true) : isWs c = true := by
  simp only [ows, Bool.or_eq_true, decide_eq_true_eq] at h
  rcases h with rfl | rfl <;> decide

theorem stripOws_tight {s : Str} (h : Tight s) : stripOws (' ' :: s) = s := by
  unfold stripOws
  rw [List.dropWhile_cons]
  simp only [show ows ' ' = true by decide, if_true]
  have h1 : s.dropWhile ows = s := by
    cases s with
    | nil => rfl
    | cons c s =>
      have := h.1 c rfl
      rw [List.dropWhile_cons]
      cases ho : ows c with
      | false => rfl
      | true => rw [ows_ws ho] at this; cases this
  rw [h1]
  have h2 : s.reverse.dropWhile ows = s.reverse := by
    cases hr : s.reverse with
    | nil => rfl
    | cons c r =>
      have : s.getLast? = some c := by rw [← List.head?_reverse, hr]; rfl
      have := h.2 c this
      rw [List.dropWhile_cons]
      cases ho : ows c with
      | false => rfl
      | true => rw [ows_ws ho] at this; cases this
  rw [h2, List.reverse_reverse]

theorem wireHeaders_enc : ∀ (hs : List Header), (∀ x ∈ hs, ':' ∉ x.name ∧ '\n' ∉ x.name ∧ '\n' ∉ x.value ∧ Tight x.name ∧ Tight x.value) →
    ∀ (rest : List UInt8) n, hs.length < n →
      wireHeaders n (utf8 (hs.flatMap Header.line ++ c!"\r\n") ++ rest) = some (hs.map fun h => (h.name, h.value), rest) := by
  intro hs
  induction hs with
  | nil =>
    intro _ rest n hn
    cases n with
    | zero => omega
    | succ n =>
      have := wireLine_enc (s := []) (by simp) rest
      rw [List.nil_append] at this
      rw [List.flatMap_nil, List.nil_append, wireHeaders, this]
      rfl
  | cons x hs ih =>
    intro hx rest n hn
    cases n with
    | zero => omega
    | succ n =>
      obtain ⟨h1, h2, h3, h4, h5⟩ := hx x List.mem_cons_self
      have hl : '\n' ∉ x.name ++ c!": " ++ x.value := by
        simp only [List.mem_append, not_or]
        exact ⟨⟨h2, by decide⟩, h3⟩
      have e : utf8 ((x :: hs).flatMap Header.line ++ c!"\r\n") ++ rest =
          utf8 ((x.name ++ c!": " ++ x.value) ++ c!"\r\n") ++ (utf8 (hs.flatMap Header.line ++ c!"\r\n") ++ rest) := by
        rw [List.flatMap_cons, List.append_assoc, utf8_append, List.append_assoc]
        rfl
      rw [wireHeaders, e, wireLine_enc hl]
      have hne : x.name ++ c!": " ++ x.value ≠ [] := by simp
      have hc : (x.name ++ c!": " ++ x.value).contains ':' = true := by simp
      have hno : ∀ c ∈ x.name, (fun c : Char => decide (c ≠ ':')) c = true := fun c hc => decide_eq_true fun he => h1 (he ▸ hc)
      have es : x.name ++ c!": " ++ x.value = x.name ++ ':' :: (' ' :: x.value) := by simp
      have ih' := ih (fun y hy => hx y (List.mem_cons_of_mem _ hy)) rest n (by simpa using hn)
      generalize hL : x.name ++ c!": " ++ x.value = L at *
      cases L with
      | nil => exact absurd rfl hne
      | cons c L =>
        dsimp only
        rw [if_pos hc, ih', es, takeWhile_app hno (by decide), dropWhile_app hno (by decide), List.drop_one, List.tail_cons, stripOws_tight h5]
        rfl

theorem splitBlank_one {w : Str} (h : ' ' ∉ w) : splitBlank w = [w] := by
  induction w with
  | nil => rfl
  | cons c w ih =>
    rw [splitBlank, if_neg (by intro he; subst he; exact h List.mem_cons_self), ih (fun hm => h (List.mem_cons_of_mem _ hm))]

theorem splitBlank_app {w : Str} (h : ' ' ∉ w) (r : Str) : splitBlank (w ++ ' ' :: r) = w :: splitBlank r := by
  induction w with
  | nil => rfl
  | cons c w ih =>
    rw [List.cons_append, splitBlank, if_neg (by intro he; subst he; exact h List.mem_cons_self), ih (fun hm => h (List.mem_cons_of_mem _ hm))]

/-- Reading back the bytes of any request whose path has no blank and no line feed and whose headers are trimmed and without line feeds. -/
theorem readWire_enc (r : Request) (content : Content) (hp : ' ' ∉ r.url.path ∧ '\n' ∉ r.url.path)
    (hh : ∀ x ∈ r.headers, ':' ∉ x.name ∧ '\n' ∉ x.name ∧ '\n' ∉ x.value ∧ Tight x.name ∧ Tight x.value) :
    readWire (r.wire content) = some (r.method.text, r.url.path, r.version.text, r.headers.map fun h => (h.name, h.value), content.bytes) := by
  have hm : ' ' ∉ r.method.text ∧ '\n' ∉ r.method.text := by cases r.method <;> decide
  have hv : ' ' ∉ r.version.text ∧ '\n' ∉ r.version.text := by cases r.version <;> decide
  have e : r.wire content = utf8 ((r.method.text ++ c!" " ++ r.url.path ++ c!" " ++ r.version.text) ++ c!"\r\n") ++
      (utf8 (r.headers.flatMap Header.line ++ c!"\r\n") ++ content.bytes) := by
    unfold Request.wire Request.line
    rw [List.append_assoc, utf8_append, List.append_assoc]
  have hl : '\n' ∉ r.method.text ++ c!" " ++ r.url.path ++ c!" " ++ r.version.text := by
    simp only [List.mem_append, not_or]
    exact ⟨⟨⟨⟨hm.2, by decide⟩, hp.2⟩, by decide⟩, hv.2⟩
  unfold readWire
  rw [e, wireLine_enc hl]
  dsimp only
  have es : r.method.text ++ c!" " ++ r.url.path ++ c!" " ++ r.version.text = r.method.text ++ ' ' :: (r.url.path ++ ' ' :: r.version.text) := by simp
  rw [es, splitBlank_app hm.1, splitBlank_app hp.1, splitBlank_one hv.1]
  dsimp only
  rw [wireHeaders_enc r.headers hh]
  · rfl
  · have : ∀ hs : List Header, hs.length ≤ (utf8 (hs.flatMap Header.line)).length := by
      intro hs
      induction hs with
      | nil => simp
      | cons x hs ih =>
        rw [List.flatMap_cons, utf8_append, List.length_append, List.length_cons]
        have : 1 ≤ (utf8 x.line).length := by
          have : (10 : UInt8) ∈ utf8 x.line := utf8_lf_mem (by simp [Header.line])
          exact List.length_pos_iff.2 (List.ne_nil_of_mem this)
        omega
    have := this r.headers
    rw [utf8_append, List.length_append, List.length_append]
    omega

/-! ## Form bodies -/

/-- The three ways a byte is written. -/
def ByteForm (b : UInt8) (bs : List UInt8) : Bool :=
  (bs == [b] && b != 37 && b != 43 && b != 38 && b != 61) || (bs == [43] && b == 32) ||
  (match bs with
    | [p, h, l] =>
      p == 37 && (match unhex h, unhex l with | some x, some y => UInt8.ofNat (16 * x + y) == b | _, _ => false) && h != 38 && h != 61 && l != 38 && l != 61
    | _ => false)

theorem formByte_form (b : UInt8) : ByteForm b (utf8 (formByte b)) = true := by
  have key : ∀ n : Fin 256, ByteForm (UInt8.ofNat n.val) (utf8 (formByte (UInt8.ofNat n.val))) = true := by decide +kernel
  have := key ⟨b.toNat, b.toNat_lt⟩
  rwa [show UInt8.ofNat b.toNat = b from UInt8.ofNat_toNat] at this

theorem unescape_plain {b : UInt8} (h1 : b ≠ 37) (h2 : b ≠ 43) (r : List UInt8) : unescape (b :: r) = b :: unescape r := by
  rw [unescape.eq_def]
  split
  · rename_i he; cases he
  · rename_i he
    cases he
    exact absurd rfl h1
  · rename_i he
    cases he
    rw [if_neg h2]

theorem unescape_byte (b : UInt8) (r : List UInt8) : unescape (utf8 (formByte b) ++ r) = b :: unescape r := by
  have h := formByte_form b
  generalize utf8 (formByte b) = bs at h
  simp only [ByteForm, Bool.or_eq_true, Bool.and_eq_true, beq_iff_eq, bne_iff_ne] at h
  rcases h with (h | h) | h
  · obtain ⟨⟨⟨⟨rfl, h1⟩, h2⟩, h3⟩, h4⟩ := h
    exact unescape_plain h1 h2 r
  · obtain ⟨rfl, rfl⟩ := h
    rfl
  · split at h
    · rename_i p x y
      simp only [Bool.and_eq_true, beq_iff_eq, bne_iff_ne] at h
      obtain ⟨⟨⟨⟨⟨rfl, h⟩, h1⟩, h2⟩, h3⟩, h4⟩ := h
      split at h
      · rename_i u v hu hv
        rw [beq_iff_eq] at h
        show unescape (37 :: x :: y :: r) = _
        rw [unescape, hu, hv]
        dsimp only
        rw [h]
      · cases h
    · cases h

theorem formByte_plain (b : UInt8) : ∀ x ∈ utf8 (formByte b), x ≠ 38 ∧ x ≠ 61 := by
  have h := formByte_form b
  generalize utf8 (formByte b) = bs at h
  simp only [ByteForm, Bool.or_eq_true, Bool.and_eq_true, beq_iff_eq, bne_iff_ne] at h
  rcases h with (h | h) | h
  · obtain ⟨⟨⟨⟨rfl, h1⟩, h2⟩, h3⟩, h4⟩ := h
    intro x hx
    rw [List.mem_singleton] at hx
    subst hx
    exact ⟨h3, h4⟩
  · obtain ⟨rfl, rfl⟩ := h
    decide
  · split at h
    · rename_i p x y
      simp only [Bool.and_eq_true, beq_iff_eq, bne_iff_ne] at h
      obtain ⟨⟨⟨⟨⟨rfl, h⟩, h1⟩, h2⟩, h3⟩, h4⟩ := h
      intro z hz
      simp only [List.mem_cons, List.not_mem_nil, or_false] at hz
      rcases hz with rfl | rfl | rfl
      · decide
      · exact ⟨h1, h2⟩
      · exact ⟨h3, h4⟩
    · cases h

theorem utf8_flatMap_form (bs : List UInt8) : utf8 (bs.flatMap formByte) = bs.flatMap fun b => utf8 (formByte b) := by
  induction bs with
  | nil => rfl
  | cons b bs ih => rw [List.flatMap_cons, List.flatMap_cons, utf8_append, ih]

theorem unescape_form (bs : List UInt8) : unescape (utf8 (bs.flatMap formByte)) = bs := by
  rw [utf8_flatMap_form]
  induction bs with
  | nil => rfl
  | cons b bs ih => rw [List.flatMap_cons, unescape_byte, ih]

theorem formText_plain (s : Str) : ∀ x ∈ utf8 (formText s), x ≠ 38 ∧ x ≠ 61 := by
  unfold formText
  rw [utf8_flatMap_form]
  intro x hx
  obtain ⟨b, _, hx⟩ := List.mem_flatMap.1 hx
  exact formByte_plain b x hx

theorem unescape_formText (s : Str) : fromUtf8 (unescape (utf8 (formText s))) = some s := by
  unfold formText
  rw [unescape_form, fromUtf8_utf8]

theorem formPair_enc (p : Str × Str) : formPair (utf8 (formText p.1 ++ c!"=" ++ formText p.2)) = some p := by
  have e : utf8 (formText p.1 ++ c!"=" ++ formText p.2) = utf8 (formText p.1) ++ 61 :: utf8 (formText p.2) := by
    rw [utf8_append, utf8_append, show utf8 c!"=" = [61] from by decide, List.append_assoc]
    rfl
  have hno : ∀ b ∈ utf8 (formText p.1), (fun b : UInt8 => decide (b ≠ 61)) b = true := fun b hb => decide_eq_true (formText_plain _ b hb).2
  unfold formPair
  rw [e, takeWhile_app hno (by decide), dropWhile_app hno (by decide), List.drop_one, List.tail_cons, unescape_formText, unescape_formText]

theorem splitByte_one {b : UInt8} {w : List UInt8} (h : b ∉ w) : splitByte b w = [w] := by
  induction w with
  | nil => rfl
  | cons c w ih =>
    rw [splitByte, if_neg (by intro he; subst he; exact h List.mem_cons_self), ih (fun hm => h (List.mem_cons_of_mem _ hm))]

theorem splitByte_app {b : UInt8} {w : List UInt8} (h : b ∉ w) (r : List UInt8) : splitByte b (w ++ b :: r) = w :: splitByte b r := by
  induction w with
  | nil => rw [List.nil_append, splitByte, if_pos rfl]
  | cons c w ih =>
    rw [List.cons_append, splitByte, if_neg (by intro he; subst he; exact h List.mem_cons_self), ih (fun hm => h (List.mem_cons_of_mem _ hm))]

theorem pair_no_amp (p : Str × Str) : (38 : UInt8) ∉ utf8 (formText p.1 ++ c!"=" ++ formText p.2) := by
  rw [utf8_append, utf8_append, List.mem_append, List.mem_append]
  rintro ((h | h) | h)
  · exact (formText_plain _ _ h).1 rfl
  · exact absurd h (by decide)
  · exact (formText_plain _ _ h).1 rfl

theorem pair_ne_nil (p : Str × Str) : (utf8 (formText p.1 ++ c!"=" ++ formText p.2)).isEmpty = false := by
  rw [utf8_append, utf8_append, show utf8 c!"=" = [61] from by decide]
  simp

theorem splitByte_form : ∀ (p : Str × Str) (ps : List (Str × Str)),
    splitByte 38 (utf8 (formEncode (p :: ps))) = (p :: ps).map fun p => utf8 (formText p.1 ++ c!"=" ++ formText p.2) := by
  intro p ps
  induction ps generalizing p with
  | nil => exact splitByte_one (pair_no_amp p)
  | cons q ps ih =>
    have e : formEncode (p :: q :: ps) = (formText p.1 ++ c!"=" ++ formText p.2) ++ '&' :: formEncode (q :: ps) := by
      simp [formEncode, joinStr]
    rw [e, utf8_append, utf8_cons, show String.utf8EncodeChar '&' = [38] from by decide]
    show splitByte 38 (_ ++ 38 :: utf8 (formEncode (q :: ps))) = _
    rw [splitByte_app (pair_no_amp p), ih q]
    rfl

theorem decodeAll_map {α β : Type} {f : α → Option β} {g : β → α} (h : ∀ b, f (g b) = some b) (l : List β) : decodeAll f (l.map g) = some l := by
  induction l with
  | nil => rfl
  | cons b l ih => rw [List.map_cons, decodeAll, h, ih]

/-- Decoding what `form_urlencoded` produces gives the pairs back. -/
theorem formDecode_enc (ps : List (Str × Str)) : formDecode (utf8 (formEncode ps)) = some ps := by
  unfold formDecode
  cases ps with
  | nil => decide
  | cons p ps =>
    rw [splitByte_form]
    have : ((p :: ps).map fun p => utf8 (formText p.1 ++ c!"=" ++ formText p.2)).filter (fun p => !p.isEmpty) =
        (p :: ps).map fun p => utf8 (formText p.1 ++ c!"=" ++ formText p.2) := by
      rw [List.filter_eq_self]
      intro x hx
      obtain ⟨q, _, rfl⟩ := List.mem_map.1 hx
      rw [pair_ne_nil]
      rfl
    rw [this]
    exact decodeAll_map formPair_enc _

theorem pairLines_spec (ls : List Str) : PairLines ls ((pairLines ls).map (·.2)) := by
  induction ls with
  | nil => exact .nil
  | cons l ls ih =>
    by_cases hc : ':' ∈ l
    · have hm : ':' ∈ trim l := by
        obtain ⟨a, b, e, h1, h2, _⟩ := trim_trims l
        rw [e] at hc
        rcases List.mem_append.1 hc with h | h
        · rcases List.mem_append.1 h with h | h
          · exact absurd h (not_mem_ws h1)
          · exact h
        · exact absurd h (not_mem_ws h2)
      obtain ⟨n, v, e, hn⟩ := mem_first hm
      have : pairLines (l :: ls) = (l, (n, v)) :: pairLines ls := by
        simp only [pairLines, List.filterMap_cons, splitOnce_some.2 ⟨e, hn⟩, Option.map_some]
      rw [this]
      exact .pair l n v ls _ (e ▸ trim_trims l) hn ih
    · have : pairLines (l :: ls) = pairLines ls := by
        simp only [pairLines, List.filterMap_cons, splitOnce_none.2 (fun hm => hc (trim_mem hm)), Option.map_none]
      rw [this]
      exact .skip l ls _ hc ih

theorem pairLines_unique {ls : List Str} {ps : List (Str × Str)} (h : PairLines ls ps) : (pairLines ls).map (·.2) = ps := by
  induction h with
  | nil => rfl
  | skip l r ps hc _ ih =>
    have : pairLines (l :: r) = pairLines r := by
      simp only [pairLines, List.filterMap_cons, splitOnce_none.2 (fun hm => hc (trim_mem hm)), Option.map_none]
    rw [this, ih]
  | pair l n v r ps ht hn _ ih =>
    have : pairLines (l :: r) = (l, (n, v)) :: pairLines r := by
      simp only [pairLines, List.filterMap_cons, splitOnce_some.2 ⟨trim_unique ht, hn⟩, Option.map_some]
    rw [this, List.map_cons, ih]

end Am
