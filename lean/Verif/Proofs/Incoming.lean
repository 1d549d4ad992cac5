import Verif.Spec.Response
import Verif.Proofs.Text
import Verif.Proofs.Decimal
import Verif.Proofs.Maps
import Verif.Proofs.Message
import Verif.Proofs.Response
/-! # Lemmas about reading responses -/
set_option linter.unusedSimpArgs false
namespace Am
open Spec

/-- Reading a line that is ended by a line feed. -/
theorem readLine_lf {l : Str} (hl : '\n' ∉ l) (r : Str) (f : Option Str) :
    readLine ⟨utf8 (l ++ '\n' :: r), f⟩ = .ok (l ++ ['\n'], ⟨utf8 r, f⟩) := by
  have e : utf8 (l ++ '\n' :: r) = utf8 l ++ 10 :: utf8 r := by
    rw [utf8_append, utf8_cons, show String.utf8EncodeChar '\n' = [10] from by decide]
    rfl
  have hno : ∀ b ∈ utf8 l, (fun b : UInt8 => decide (b ≠ 10)) b = true := fun b hb => decide_eq_true (utf8_no_lf hl b hb)
  unfold readLine
  dsimp only
  rw [e, if_pos (by simp), takeWhile_app hno (by decide), dropWhile_app hno (by decide)]
  have e2 : utf8 l ++ [10] = utf8 (l ++ ['\n']) := by rw [utf8_append]; rfl
  rw [e2, fromUtf8_utf8]
  rfl

/-- Reading the last line. -/
theorem readLine_last {l : Str} (hl : '\n' ∉ l) : readLine ⟨utf8 l, none⟩ = .ok (l, ⟨[], none⟩) := by
  unfold readLine
  dsimp only
  rw [if_neg (by
    intro h
    rw [List.contains_iff_mem] at h
    exact utf8_no_lf hl _ h rfl), fromUtf8_utf8]

theorem first_total (s : Str) : ∃ l r, FirstLine s l r := by
  rcases lines_split s with rfl | ⟨h1, _⟩ | ⟨l, r, h1, rfl⟩
  · exact ⟨_, _, .only [] (by simp)⟩
  · exact ⟨_, _, .only s h1⟩
  · exact ⟨_, _, .more l r h1⟩

theorem first_functional {s l r l' r' : Str} (h : FirstLine s l r) (h' : FirstLine s l' r') : l = l' ∧ r = r' := by
  cases h with
  | only _ hn =>
    cases h' with
    | only _ _ => exact ⟨rfl, rfl⟩
    | more l' r' _ => exact absurd hn (by simp)
  | more l r hn =>
    generalize hs : l ++ '\n' :: r = s at h'
    cases h' with
    | only _ hn' => subst hs; exact absurd hn' (by simp)
    | more l' r' hn' => exact first_unique hs hn hn'

theorem readLine_first {s l r : Str} (h : FirstLine s l r) : ∃ e, (∀ c ∈ e, isWs c = true) ∧ readLine ⟨utf8 s, none⟩ = .ok (l ++ e, ⟨utf8 r, none⟩) := by
  cases h with
  | only _ hn => exact ⟨[], by simp, by rw [List.append_nil]; exact readLine_last hn⟩
  | more l r hn => exact ⟨['\n'], by decide, readLine_lf hn r none⟩

theorem first_shorter {s l r : Str} (h : FirstLine s l r) (hne : l ≠ []) : (utf8 r).length < (utf8 s).length := by
  have key : ∀ {l : Str}, l ≠ [] → 0 < (utf8 l).length := by
    intro l hl
    cases l with
    | nil => exact absurd rfl hl
    | cons c l =>
      rw [utf8_cons, List.length_append, String.length_utf8EncodeChar]
      have := c.utf8Size_pos
      omega
  cases h with
  | only _ hn => exact key hne
  | more l r hn =>
    rw [utf8_append, List.length_append, utf8_cons, List.length_append]
    have := key hne
    omega

theorem isEmpty_trim_pad {l e : Str} (he : ∀ c ∈ e, isWs c = true) : (trim (l ++ e)).isEmpty = (trim l).isEmpty := by
  have := trim_pad (a := []) (b := e) (s := l) (by simp) he
  rw [List.nil_append] at this
  rw [this]

theorem respHeaderOf_field {n v e : Str} (hn : ':' ∉ n) (he : ∀ c ∈ e, isWs c = true) : respHeaderOf (n ++ ':' :: v ++ e) = some ⟨trim n, trim v⟩ := by
  unfold respHeaderOf
  have h1 : n ++ ':' :: v ++ e = n ++ ':' :: (v ++ e) := by simp
  rw [h1, splitOnce_some.2 ⟨rfl, hn⟩]
  have := trim_pad (a := []) (b := e) (s := v) (by simp) he
  rw [List.nil_append] at this
  show some (Header.mk (trim n) (trim (v ++ e))) = _
  rw [this]

theorem respHeaderOf_none {l e : Str} (hl : ':' ∉ l) (he : ∀ c ∈ e, isWs c = true) : respHeaderOf (l ++ e) = none := by
  unfold respHeaderOf
  rw [splitOnce_none.2 (by
    intro hm
    rcases List.mem_append.1 hm with h | h
    · exact hl h
    · exact not_mem_ws he h)]
  rfl

/-- Reading header lines follows `HeaderText`. -/
theorem readHeaders_text {s : Str} {hs : List Header} {body : Str} (h : HeaderText s hs body) :
    ∀ n, (utf8 s).length < n → readHeaders n ⟨utf8 s, none⟩ = .ok (hs, ⟨utf8 body, none⟩) := by
  induction h with
  | blank s l r hf hb =>
    intro n hn
    cases n with
    | zero => omega
    | succ n =>
      obtain ⟨e, he, hr⟩ := readLine_first hf
      rw [readHeaders, hr, Res.ok_bind]
      dsimp only
      rw [isEmpty_trim_pad he, if_pos (isEmpty_trim.2 hb)]
      rfl
  | skip s l r hs body hf hne hc _ ih =>
    intro n hn
    cases n with
    | zero => omega
    | succ n =>
      obtain ⟨e, he, hr⟩ := readLine_first hf
      obtain ⟨x, hx, hxw⟩ := hne
      have hlt := first_shorter hf (List.ne_nil_of_mem hx)
      rw [readHeaders, hr, Res.ok_bind]
      dsimp only
      rw [isEmpty_trim_pad he, if_neg (by intro hh; rw [isEmpty_trim.1 hh x hx] at hxw; cases hxw), ih n (by omega), Res.ok_bind]
      dsimp only
      rw [respHeaderOf_none hc he]
      rfl
  | field s a v name value r hs body hf hc h1 h2 _ ih =>
    intro n hn
    cases n with
    | zero => omega
    | succ n =>
      obtain ⟨e, he, hr⟩ := readLine_first hf
      have hlt := first_shorter hf (by simp)
      rw [readHeaders, hr, Res.ok_bind]
      dsimp only
      rw [isEmpty_trim_pad he, if_neg (by
        intro hh
        exact absurd (isEmpty_trim.1 hh ':' (by simp)) (by decide)), ih n (by omega), Res.ok_bind]
      dsimp only
      rw [respHeaderOf_field hc he, trim_unique h1, trim_unique h2]
      rfl

theorem headerText_total : ∀ (n : Nat) (s : Str), s.length ≤ n → ∃ hs body, HeaderText s hs body := by
  intro n
  induction n with
  | zero =>
    intro s hs
    have : s = [] := List.eq_nil_of_length_eq_zero (by omega)
    subst this
    exact ⟨_, _, .blank [] [] [] (.only [] (by simp)) (by simp)⟩
  | succ n ih =>
    intro s hs
    obtain ⟨l, r, hf⟩ := first_total s
    by_cases hb : ∀ c ∈ l, isWs c = true
    · exact ⟨_, _, .blank s l r hf hb⟩
    · have hx : ∃ c ∈ l, isWs c = false := Classical.byContradiction fun hno => hb fun c hc => by
        cases hw : isWs c with
        | true => rfl
        | false => exact absurd ⟨c, hc, hw⟩ hno
      have hlt : r.length ≤ n := by
        obtain ⟨c, hc, _⟩ := hx
        have := List.length_pos_iff.2 (List.ne_nil_of_mem hc)
        cases hf with
        | only _ _ => simp
        | more l r _ => simp at hs; omega
      obtain ⟨hs', body, ht⟩ := ih r hlt
      by_cases hc : ':' ∈ l
      · obtain ⟨a, v, rfl, ha⟩ := mem_first hc
        exact ⟨_, _, .field s a v _ _ r _ _ hf ha (trim_trims a) (trim_trims v) ht⟩
      · exact ⟨_, _, .skip s l r _ _ hf hx hc ht⟩

theorem words_pad {l e : Str} {ws : List Str} (h : Words l ws) (he : ∀ c ∈ e, isWs c = true) : Words (l ++ e) ws := by
  induction h with
  | none s hs =>
    refine .none _ fun c hc => ?_
    rcases List.mem_append.1 hc with h | h
    · exact hs c h
    · exact he c h
  | cons sp w r ws h1 h2 h3 h4 _ ih =>
    rw [List.append_assoc (sp ++ w)]
    refine .cons sp w _ ws h1 h2 h3 ?_ ih
    intro c hc
    cases r with
    | nil =>
      rw [List.nil_append] at hc
      exact he c (List.mem_of_head? hc)
    | cons d r => exact h4 c hc

/-- Reading a whole response. -/
theorem responseRead_text {s line rest body : Str} {ws : List Str} {hs : List Header} (hf : FirstLine s line rest) (hw : Words line ws)
    (hh : HeaderText rest hs body) :
    Response.read ⟨utf8 s, none⟩ = .ok ⟨parseText ws[0]?, parseStatus ws[1]?, parseText ws[2]?, hs, body⟩ := by
  obtain ⟨e, he, hr⟩ := readLine_first hf
  unfold Response.read
  rw [hr, Res.ok_bind]
  dsimp only
  rw [words_iff.1 (words_pad hw he), readHeaders_text hh _ (by simp), Res.ok_bind]
  dsimp only
  unfold readRest
  dsimp only
  rw [fromUtf8_utf8]
  rfl

theorem number16_iff {w : Option Str} {n : Nat} : Number16 w n ↔ w.bind (parseUnsigned 65535) = some n := by
  constructor
  · intro h
    cases h with
    | digits ds h1 h2 h3 =>
      show parseUnsigned 65535 ds = _
      rw [parseUnsigned_digits 65535 h1 h2, if_pos h3]
    | plus ds h1 h2 h3 =>
      show parseUnsigned 65535 ('+' :: ds) = _
      have e : parseUnsigned 65535 ('+' :: ds) = if ds.isEmpty || !ds.all isDigit then none else if digitsVal ds ≤ 65535 then some (digitsVal ds) else none := rfl
      have hall : ds.all isDigit = true := by rw [List.all_eq_true]; exact h2
      have he : ds.isEmpty = false := by cases ds with
        | nil => exact absurd rfl h1
        | cons c r => rfl
      rw [e, he, hall, digitsVal_eq]
      simp [h3]
  · intro h
    cases w with
    | none => cases h
    | some w =>
      obtain ⟨ds, h1, h2, h3, rfl, h5⟩ := parseUnsigned_some (show parseUnsigned 65535 w = some n from h)
      rcases h1 with rfl | rfl
      · exact .digits _ h2 h3 h5
      · exact .plus _ h2 h3 h5

theorem statusOf_iff {w : Option Str} {n : Nat} : StatusOf w n ↔ parseStatus w = n := by
  unfold StatusOf parseStatus
  cases hp : w.bind (parseUnsigned 65535) with
  | none =>
    constructor
    · rintro (h | ⟨_, h⟩)
      · rw [number16_iff.1 h] at hp; cases hp
      · exact h.symm
    · intro h
      exact Or.inr ⟨fun m hm => (by rw [number16_iff.1 hm] at hp; cases hp), h.symm⟩
  | some m =>
    constructor
    · rintro (h | ⟨h, _⟩)
      · rw [number16_iff.1 h] at hp; cases hp; rfl
      · exact absurd (number16_iff.2 hp) (h m)
    · intro h
      cases h
      exact Or.inl (number16_iff.2 hp)

/-! ## What was read -/

theorem readLine_bytes {r r' : Incoming} {l : Str} (h : readLine r = .ok (l, r')) : r.bytes = utf8 l ++ r'.bytes ∧ r'.failure = r.failure := by
  unfold readLine at h
  split at h
  · rename_i hc
    dsimp only at h
    split at h
    · rename_i s hs
      cases h
      refine ⟨?_, rfl⟩
      rw [utf8_of_fromUtf8 hs]
      dsimp only
      have hm : (10 : UInt8) ∈ r.bytes := List.contains_iff_mem.1 hc
      generalize r.bytes = bs at hm
      clear hs hc
      induction bs with
      | nil => cases hm
      | cons b bs ih =>
        rw [List.takeWhile_cons, List.dropWhile_cons]
        by_cases hb : b = 10
        · subst hb
          rw [if_neg (by decide), if_neg (by decide)]
          rfl
        · rw [if_pos (decide_eq_true hb), if_pos (decide_eq_true hb)]
          have := ih (by
            rcases List.mem_cons.1 hm with h | h
            · exact absurd h.symm hb
            · exact h)
          rw [List.cons_append, List.cons_append, ← this]
    · cases h
  · split at h
    · cases h
    · split at h
      · rename_i s hs
        cases h
        exact ⟨by rw [utf8_of_fromUtf8 hs]; simp, rfl⟩
      · cases h

theorem readHeaders_bytes : ∀ (n : Nat) {r r' : Incoming} {hs : List Header}, readHeaders n r = .ok (hs, r') →
    ∃ s, r.bytes = utf8 s ++ r'.bytes ∧ r'.failure = r.failure := by
  intro n
  induction n with
  | zero => intro r r' hs h; cases h
  | succ n ih =>
    intro r r' hs h
    rw [readHeaders] at h
    cases hl : readLine r with
    | err e => rw [hl] at h; cases h
    | panic => rw [hl] at h; cases h
    | hang => rw [hl] at h; cases h
    | ok p =>
      obtain ⟨l, r1⟩ := p
      obtain ⟨e1, f1⟩ := readLine_bytes hl
      rw [hl, Res.ok_bind] at h
      dsimp only at h
      split at h
      · cases h
        exact ⟨l, e1, f1⟩
      · cases hh : readHeaders n r1 with
        | err e => rw [hh] at h; cases h
        | panic => rw [hh] at h; cases h
        | hang => rw [hh] at h; cases h
        | ok q =>
          obtain ⟨hs1, r2⟩ := q
          obtain ⟨s, e2, f2⟩ := ih hh
          rw [hh, Res.ok_bind] at h
          dsimp only at h
          have : r' = r2 := by
            split at h <;> (cases h; rfl)
          subst this
          exact ⟨l ++ s, by rw [e1, e2, utf8_append, List.append_assoc], f2.trans f1⟩

/-- A response is only produced from a stream that ended properly and is valid UTF-8 throughout. -/
theorem responseRead_ok {r : Incoming} {resp : Response} (h : Response.read r = .ok resp) : r.failure = none ∧ ∃ s, r.bytes = utf8 s := by
  unfold Response.read at h
  cases hl : readLine r with
  | err e => rw [hl] at h; cases h
  | panic => rw [hl] at h; cases h
  | hang => rw [hl] at h; cases h
  | ok p =>
    obtain ⟨l, r1⟩ := p
    obtain ⟨e1, f1⟩ := readLine_bytes hl
    rw [hl, Res.ok_bind] at h
    dsimp only at h
    cases hh : readHeaders (r1.bytes.length + 1) r1 with
    | err e => rw [hh] at h; cases h
    | panic => rw [hh] at h; cases h
    | hang => rw [hh] at h; cases h
    | ok q =>
      obtain ⟨hs, r2⟩ := q
      obtain ⟨s, e2, f2⟩ := readHeaders_bytes _ hh
      rw [hh, Res.ok_bind] at h
      dsimp only at h
      unfold readRest at h
      cases hf : r2.failure with
      | some e => rw [hf] at h; cases h
      | none =>
        rw [hf] at h
        dsimp only at h
        cases hb : fromUtf8 r2.bytes with
        | none => rw [hb] at h; cases h
        | some b =>
          exact ⟨by rw [← f1, ← f2, hf], l ++ (s ++ b), by rw [e1, e2, ← utf8_of_fromUtf8 hb, utf8_append, utf8_append]⟩

/-! ## The header map -/

set_option linter.unusedSectionVars false
variable {F : Type} [Rt F]

theorem valuesOf_append (name : Str) (a b : List Header) : valuesOf name (a ++ b) = valuesOf name a ++ valuesOf name b := by
  induction a with
  | nil => rfl
  | cons h a ih =>
    rw [List.cons_append, valuesOf, valuesOf]
    split
    · rw [ih]; rfl
    · exact ih

theorem valuesOf_nil {name : Str} {hs : List Header} : valuesOf name hs = [] ↔ ∀ h ∈ hs, h.name ≠ name := by
  induction hs with
  | nil => simp [valuesOf]
  | cons h hs ih =>
    rw [valuesOf]
    by_cases he : h.name = name
    · rw [if_pos he]
      simp [he]
    · rw [if_neg he, ih]
      simp [he]

theorem headerMap_snoc (hs : List Header) (h : Header) : headerMap (F := F) (hs ++ [h]) = addHeader (headerMap hs) h := by
  unfold headerMap
  rw [List.foldl_append]
  rfl

theorem headerMap_values (hs : List Header) : KeysNodup (headerMap (F := F) hs) ∧ ∀ name, amGet name (headerMap (F := F) hs) =
    if valuesOf name hs = [] then none else some (.arr ((valuesOf name hs).map .str)) := by
  generalize hl : hs.length = n
  induction n generalizing hs with
  | zero =>
    have : hs = [] := List.eq_nil_of_length_eq_zero hl
    subst this
    exact ⟨by simp [headerMap, KeysNodup], fun _ => rfl⟩
  | succ n ih =>
    have hne : hs ≠ [] := by rintro rfl; cases hl
    obtain ⟨hs, h, rfl⟩ : ∃ a b, hs = a ++ [b] := ⟨hs.dropLast, hs.getLast hne, (List.dropLast_concat_getLast hne).symm⟩
    obtain ⟨i1, i2⟩ := ih hs (by simpa using hl)
    rw [headerMap_snoc]
    refine ⟨?_, fun name => ?_⟩
    · unfold addHeader
      split <;> exact amInsert_nodup i1
    · rw [valuesOf_append]
      have e1 : valuesOf name [h] = if h.name = name then [h.value] else [] := rfl
      rw [e1]
      unfold addHeader
      rw [i2 h.name]
      by_cases he : h.name = name
      · subst he
        rw [if_pos rfl, if_neg (show ¬ (valuesOf h.name hs ++ [h.value] = []) by simp)]
        by_cases hv : valuesOf h.name hs = []
        · rw [if_pos hv, hv]
          dsimp only
          rw [amGet_insert_self]
          rfl
        · rw [if_neg hv]
          dsimp only
          rw [amGet_insert_self]
          simp
      · rw [if_neg he, List.append_nil, ← i2 name]
        split <;> exact amGet_insert_ne _ _ he

end Am
