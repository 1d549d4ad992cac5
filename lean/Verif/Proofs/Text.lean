import Verif.Spec.Text
/-! # Facts about texts: UTF-8, trimming, words, lines -/
set_option linter.unusedSimpArgs false
namespace Am
open Spec

/-! ## UTF-8 -/

theorem fromUtf8_utf8 (s : Str) : fromUtf8 (utf8 s) = some s := by
  unfold fromUtf8 utf8
  have h : (⟨(s.flatMap String.utf8EncodeChar).toArray⟩ : ByteArray) = List.utf8Encode s := by
    rw [List.utf8Encode]; exact ByteArray.ext (by rw [List.data_toByteArray])
  rw [h, List.utf8Decode?_utf8Encode]
  simp

theorem utf8_of_fromUtf8 {bs : List UInt8} {s : Str} (h : fromUtf8 bs = some s) : utf8 s = bs := by
  unfold fromUtf8 at h
  rw [Option.map_eq_some_iff] at h
  obtain ⟨a, h1, h2⟩ := h
  have hs : (ByteArray.utf8Decode? ⟨bs.toArray⟩).isSome := by rw [h1]; rfl
  have := ByteArray.utf8Encode_get_utf8Decode? (b := ⟨bs.toArray⟩) (h := hs)
  have hg : (ByteArray.utf8Decode? ⟨bs.toArray⟩).get hs = a := by simp [h1]
  rw [hg, h2] at this
  have h3 := congrArg (fun b : ByteArray => b.data.toList) this
  simp only [List.utf8Encode, List.data_toByteArray] at h3
  exact h3

theorem utf8_nil : utf8 [] = [] := rfl
theorem utf8_cons (c : Char) (s : Str) : utf8 (c :: s) = String.utf8EncodeChar c ++ utf8 s := rfl
theorem utf8_append (a b : Str) : utf8 (a ++ b) = utf8 a ++ utf8 b := List.flatMap_append

theorem utf8_inj {a b : Str} (h : utf8 a = utf8 b) : a = b := by
  have := fromUtf8_utf8 a
  rw [h, fromUtf8_utf8] at this
  exact (Option.some.inj this).symm

/-- A byte below 128 in the encoding of a character is that character. -/
theorem utf8_small {c : Char} {b : UInt8} (h : b ∈ String.utf8EncodeChar c) (hb : b.toNat < 128) : c.toNat = b.toNat := by
  unfold String.utf8EncodeChar at h
  have hv : c.val.toNat = c.toNat := rfl
  dsimp only at h
  rw [hv] at h
  have hlt : ∀ k : Nat, k < 256 → 128 ≤ k → b = UInt8.ofNat k → False := by
    intro k hk h1 h2
    subst h2
    rw [UInt8.toNat_ofNat'] at hb
    omega
  split at h
  · rename_i hc
    rw [List.mem_singleton] at h
    subst h
    rw [UInt8.toNat_ofNat']
    omega
  · split at h
    · simp only [List.mem_cons, List.not_mem_nil, or_false] at h
      rcases h with h | h
      · exact (hlt _ (by omega) (by omega) h).elim
      · exact (hlt _ (by omega) (by omega) h).elim
    · split at h
      · simp only [List.mem_cons, List.not_mem_nil, or_false] at h
        rcases h with h | h | h
        · exact (hlt _ (by omega) (by omega) h).elim
        · exact (hlt _ (by omega) (by omega) h).elim
        · exact (hlt _ (by omega) (by omega) h).elim
      · simp only [List.mem_cons, List.not_mem_nil, or_false] at h
        rcases h with h | h | h | h
        · exact (hlt _ (by omega) (by omega) h).elim
        · exact (hlt _ (by omega) (by omega) h).elim
        · exact (hlt _ (by omega) (by omega) h).elim
        · exact (hlt _ (by omega) (by omega) h).elim

theorem char_of_toNat {c d : Char} (h : c.toNat = d.toNat) : c = d := by
  apply Char.ext
  exact UInt32.toNat_inj.1 h

theorem utf8_mem_small {s : Str} {b : UInt8} (h : b ∈ utf8 s) (hb : b.toNat < 128) : ∃ c ∈ s, c.toNat = b.toNat := by
  unfold utf8 at h
  obtain ⟨c, hc, hm⟩ := List.mem_flatMap.1 h
  exact ⟨c, hc, utf8_small hm hb⟩

theorem utf8_no_lf {s : Str} (h : '\n' ∉ s) : ∀ b ∈ utf8 s, b ≠ 10 := by
  intro b hb he
  subst he
  obtain ⟨c, hc, e⟩ := utf8_mem_small hb (by decide)
  have : c = '\n' := char_of_toNat e
  subst this
  exact h hc

theorem utf8_ascii {c : Char} (h : c.toNat < 128) : String.utf8EncodeChar c = [UInt8.ofNat c.toNat] := by
  unfold String.utf8EncodeChar
  dsimp only
  rw [if_pos (show c.val.toNat ≤ 0x7f from by have : c.val.toNat = c.toNat := rfl; omega)]
  rfl

theorem utf8_lf_mem {s : Str} (h : '\n' ∈ s) : (10 : UInt8) ∈ utf8 s := by
  unfold utf8
  exact List.mem_flatMap.2 ⟨'\n', h, by decide⟩

/-! ## Lists -/

theorem takeWhile_all_pred {α : Type} {p : α → Bool} {a : List α} (h : ∀ x ∈ a, p x = true) : a.takeWhile p = a := by
  induction a with
  | nil => rfl
  | cons x a ih => simp [List.takeWhile_cons, h x List.mem_cons_self, ih fun y hy => h y (List.mem_cons_of_mem _ hy)]

theorem takeWhile_app {α : Type} {p : α → Bool} {a b : List α} {x : α} (h : ∀ y ∈ a, p y = true) (hx : p x = false) :
    (a ++ x :: b).takeWhile p = a := by
  induction a with
  | nil => simp [List.takeWhile_cons, hx]
  | cons y a ih =>
    rw [List.cons_append, List.takeWhile_cons, h y List.mem_cons_self, ih fun z hz => h z (List.mem_cons_of_mem _ hz)]
    rfl

theorem dropWhile_all {α : Type} {p : α → Bool} {a : List α} (h : ∀ x ∈ a, p x = true) : a.dropWhile p = [] := by
  induction a with
  | nil => rfl
  | cons x a ih => simp [List.dropWhile_cons, h x List.mem_cons_self, ih fun y hy => h y (List.mem_cons_of_mem _ hy)]

theorem dropWhile_app {α : Type} {p : α → Bool} {a b : List α} {x : α} (h : ∀ y ∈ a, p y = true) (hx : p x = false) :
    (a ++ x :: b).dropWhile p = x :: b := by
  induction a with
  | nil => simp [List.dropWhile_cons, hx]
  | cons y a ih =>
    rw [List.cons_append, List.dropWhile_cons, h y List.mem_cons_self, ih fun z hz => h z (List.mem_cons_of_mem _ hz)]
    rfl

theorem dropWhile_pre {α : Type} {p : α → Bool} {a b : List α} (h : ∀ y ∈ a, p y = true) : (a ++ b).dropWhile p = b.dropWhile p := by
  induction a with
  | nil => rfl
  | cons y a ih =>
    rw [List.cons_append, List.dropWhile_cons, h y List.mem_cons_self]
    exact ih fun z hz => h z (List.mem_cons_of_mem _ hz)

/-! ## Trimming -/

theorem dropWhile_split {α : Type} (p : α → Bool) (s : List α) :
    ∃ a, s = a ++ s.dropWhile p ∧ (∀ c ∈ a, p c = true) ∧ (∀ c, (s.dropWhile p).head? = some c → p c = false) := by
  induction s with
  | nil => exact ⟨[], rfl, by simp, by simp⟩
  | cons c s ih =>
    rw [List.dropWhile_cons]
    by_cases h : p c = true
    · obtain ⟨a, h1, h2, h3⟩ := ih
      refine ⟨c :: a, by simp [h, ← h1], ?_, ?_⟩
      · intro x hx
        rcases List.mem_cons.1 hx with rfl | hx
        · exact h
        · exact h2 x hx
      · simpa [h] using h3
    · refine ⟨[], by simp [h], by simp, ?_⟩
      simp only [h, if_false, List.head?_cons, Option.some.injEq, Bool.false_eq_true]
      intro x hx
      subst hx
      simpa using h

theorem trimEnd_split (s : Str) : ∃ b, s = trimEnd s ++ b ∧ (∀ c ∈ b, isWs c = true) ∧ (∀ c, (trimEnd s).getLast? = some c → isWs c = false) := by
  obtain ⟨a, h1, h2, h3⟩ := dropWhile_split isWs s.reverse
  refine ⟨a.reverse, ?_, ?_, ?_⟩
  · unfold trimEnd
    rw [← List.reverse_append, ← h1, List.reverse_reverse]
  · intro c hc; exact h2 c (List.mem_reverse.1 hc)
  · intro c hc
    unfold trimEnd at hc
    rw [List.getLast?_reverse] at hc
    exact h3 c hc

theorem trim_trims (s : Str) : Trims s (trim s) := by
  obtain ⟨a, h1, h2, h3⟩ := dropWhile_split isWs s
  obtain ⟨b, h4, h5, h6⟩ := trimEnd_split (trimStart s)
  refine ⟨a, b, ?_, h2, h5, ?_, h6⟩
  · unfold trim
    rw [List.append_assoc, ← h4]
    exact h1
  · intro c hc
    unfold trim at hc
    apply h3
    have : (trimStart s).head? = some c := by
      rw [h4, List.head?_append, hc]
      rfl
    exact this

theorem trim_unique {s t : Str} (h : Trims s t) : trim s = t := by
  obtain ⟨a, b, rfl, ha, hb, h1, h2⟩ := h
  unfold trim trimStart
  rw [List.append_assoc, dropWhile_pre ha]
  cases t with
  | nil =>
    rw [List.nil_append, dropWhile_all hb]
    rfl
  | cons c t =>
    have hc := h1 c rfl
    rw [List.cons_append, List.dropWhile_cons, hc]
    simp only [if_false, Bool.false_eq_true]
    unfold trimEnd
    rw [← List.cons_append, List.reverse_append, dropWhile_pre (by intro x hx; exact hb x (List.mem_reverse.1 hx))]
    have : (c :: t).reverse.dropWhile isWs = (c :: t).reverse := by
      generalize hr : (c :: t).reverse = r
      cases r with
      | nil => rfl
      | cons d r =>
        have : (c :: t).getLast? = some d := by
          rw [← List.head?_reverse, hr]; rfl
        rw [List.dropWhile_cons, h2 d this]
        rfl
    rw [this, List.reverse_reverse]

theorem tight_trim (s : Str) : Tight (trim s) := by
  obtain ⟨a, b, _, _, _, h1, h2⟩ := trim_trims s
  exact ⟨h1, h2⟩

theorem trim_tight {s : Str} (h : Tight s) : trim s = s := trim_unique ⟨[], [], by simp, by simp, by simp, h.1, h.2⟩

theorem trim_mem {s : Str} {c : Char} (h : c ∈ trim s) : c ∈ s := by
  obtain ⟨a, b, e, _⟩ := trim_trims s
  rw [e]
  simp [h]

theorem trim_pad {a b s : Str} (ha : ∀ c ∈ a, isWs c = true) (hb : ∀ c ∈ b, isWs c = true) : trim (a ++ s ++ b) = trim s := by
  obtain ⟨a', b', e, h1, h2, h3, h4⟩ := trim_trims s
  refine trim_unique ⟨a ++ a', b' ++ b, ?_, ?_, ?_, h3, h4⟩
  · conv => lhs; rw [e]
    simp
  · intro c hc
    rcases List.mem_append.1 hc with hc | hc
    · exact ha c hc
    · exact h1 c hc
  · intro c hc
    rcases List.mem_append.1 hc with hc | hc
    · exact h2 c hc
    · exact hb c hc

theorem trim_empty {s : Str} : trim s = [] ↔ ∀ c ∈ s, isWs c = true := by
  constructor
  · intro h
    obtain ⟨a, b, e, h1, h2, _⟩ := trim_trims s
    rw [h, List.append_nil] at e
    rw [e]
    intro c hc
    rcases List.mem_append.1 hc with hc | hc
    · exact h1 c hc
    · exact h2 c hc
  · intro h
    have := trim_pad (a := s) (b := []) (s := []) h (by simp)
    simp only [List.append_nil] at this
    rw [this]
    rfl

theorem trim_trim (s : Str) : trim (trim s) = trim s := trim_tight (tight_trim s)

/-! ## `split_once` -/

theorem splitOnce_some {c : Char} {s a b : Str} : splitOnce c s = some (a, b) ↔ s = a ++ c :: b ∧ c ∉ a := by
  induction s generalizing a with
  | nil => simp [splitOnce]
  | cons x s ih =>
    unfold splitOnce
    by_cases h : x = c
    · subst h
      rw [if_pos rfl]
      constructor
      · intro h
        simp only [Option.some.injEq, Prod.mk.injEq] at h
        obtain ⟨rfl, rfl⟩ := h
        exact ⟨rfl, by simp⟩
      · rintro ⟨h1, h2⟩
        cases a with
        | nil =>
          simp only [List.nil_append, List.cons.injEq, true_and] at h1
          rw [h1]
        | cons y a =>
          simp only [List.cons_append, List.cons.injEq] at h1
          rw [h1.1] at h2
          exact absurd List.mem_cons_self h2
    · rw [if_neg h, Option.map_eq_some_iff]
      constructor
      · rintro ⟨⟨a', b'⟩, h1, h2⟩
        simp only [Prod.mk.injEq] at h2
        obtain ⟨rfl, rfl⟩ := h2
        obtain ⟨h3, h4⟩ := ih.1 h1
        refine ⟨by rw [h3]; rfl, ?_⟩
        intro hm
        rcases List.mem_cons.1 hm with hm | hm
        · exact h hm.symm
        · exact h4 hm
      · rintro ⟨h1, h2⟩
        cases a with
        | nil =>
          simp only [List.nil_append, List.cons.injEq] at h1
          exact absurd h1.1 h
        | cons y a =>
          simp only [List.cons_append, List.cons.injEq] at h1
          obtain ⟨rfl, h1⟩ := h1
          exact ⟨(a, b), ih.2 ⟨h1, fun hm => h2 (List.mem_cons_of_mem _ hm)⟩, rfl⟩

theorem mem_first {c : Char} {s : Str} (h : c ∈ s) : ∃ a b, s = a ++ c :: b ∧ c ∉ a := by
  induction s with
  | nil => cases h
  | cons y s ih =>
    by_cases hy : y = c
    · subst hy; exact ⟨[], s, rfl, by simp⟩
    · rcases List.mem_cons.1 h with h | h
      · exact absurd h.symm hy
      · obtain ⟨a, b, e, hn⟩ := ih h
        refine ⟨y :: a, b, by rw [e]; rfl, ?_⟩
        intro hm
        rcases List.mem_cons.1 hm with h | h
        · exact hy h.symm
        · exact hn h

theorem splitOnce_none {c : Char} {s : Str} : splitOnce c s = none ↔ c ∉ s := by
  constructor
  · intro h hm
    obtain ⟨a, b, h1, h2⟩ := mem_first hm
    rw [splitOnce_some.2 ⟨h1, h2⟩] at h
    cases h
  · intro h
    cases hs : splitOnce c s with
    | none => rfl
    | some p =>
      obtain ⟨a, b⟩ := p
      obtain ⟨e, _⟩ := splitOnce_some.1 hs
      rw [e] at h
      simp at h

/-! ## Words -/

theorem splitWsAux_word (w : Str) (hw : ∀ c ∈ w, isWs c = false) : ∀ (acc rest : Str),
    splitWsAux acc (w ++ rest) = splitWsAux (w.reverse ++ acc) rest := by
  induction w with
  | nil => intro acc rest; rfl
  | cons c w ih =>
    intro acc rest
    rw [List.cons_append, splitWsAux, hw c List.mem_cons_self]
    simp only [if_false, Bool.false_eq_true]
    rw [ih (fun d hd => hw d (List.mem_cons_of_mem _ hd))]
    simp

theorem splitWsAux_space (sp : Str) (hs : ∀ c ∈ sp, isWs c = true) : ∀ rest, splitWsAux [] (sp ++ rest) = splitWsAux [] rest := by
  induction sp with
  | nil => intro rest; rfl
  | cons c sp ih =>
    intro rest
    rw [List.cons_append, splitWsAux, hs c List.mem_cons_self]
    simp only [if_true, List.isEmpty_nil]
    exact ih (fun d hd => hs d (List.mem_cons_of_mem _ hd)) rest

/-- A leading space, then a word ended by white space or the end, then the rest. -/
theorem splitWs_cons {sp w rest : Str} (hs : ∀ c ∈ sp, isWs c = true) (hw : ∀ c ∈ w, isWs c = false) (hne : w ≠ [])
    (hr : ∀ c, rest.head? = some c → isWs c = true) : splitWs (sp ++ w ++ rest) = w :: splitWs rest := by
  unfold splitWs
  rw [List.append_assoc, splitWsAux_space sp hs, splitWsAux_word w hw]
  have he : (w.reverse ++ ([] : Str)).isEmpty = false := by
    cases w with
    | nil => exact absurd rfl hne
    | cons => simp
  cases rest with
  | nil =>
    rw [splitWsAux, he]
    simp [splitWsAux]
  | cons c rest =>
    rw [splitWsAux, hr c rfl]
    simp only [if_true, he, Bool.false_eq_true, if_false]
    conv => rhs; rw [splitWsAux, hr c rfl]
    simp

theorem splitWs_blank {s : Str} (h : ∀ c ∈ s, isWs c = true) : splitWs s = [] := by
  have := splitWsAux_space s h []
  rw [List.append_nil] at this
  exact this

theorem splitWs_no_ws_aux : ∀ (s acc : Str), (∀ c ∈ acc, isWs c = false) → ∀ w ∈ splitWsAux acc s, w ≠ [] ∧ (∀ c ∈ w, isWs c = false) ∧ ∀ c ∈ w, c ∈ acc ∨ c ∈ s := by
  intro s
  induction s with
  | nil =>
    intro acc ha w hw
    rw [splitWsAux] at hw
    split at hw
    · cases hw
    · rename_i h
      rw [List.mem_singleton] at hw
      subst hw
      refine ⟨by simpa using h, fun c hc => ha c (List.mem_reverse.1 hc), fun c hc => Or.inl (List.mem_reverse.1 hc)⟩
  | cons c s ih =>
    intro acc ha w hw
    rw [splitWsAux] at hw
    split at hw
    · split at hw
      · obtain ⟨h1, h2, h3⟩ := ih [] (by simp) w hw
        exact ⟨h1, h2, fun d hd => (h3 d hd).elim (fun h => by cases h) (fun h => Or.inr (List.mem_cons_of_mem _ h))⟩
      · rename_i h
        rcases List.mem_cons.1 hw with hw | hw
        · subst hw
          exact ⟨by simpa using h, fun d hd => ha d (List.mem_reverse.1 hd), fun d hd => Or.inl (List.mem_reverse.1 hd)⟩
        · obtain ⟨h1, h2, h3⟩ := ih [] (by simp) w hw
          exact ⟨h1, h2, fun d hd => (h3 d hd).elim (fun h => by cases h) (fun h => Or.inr (List.mem_cons_of_mem _ h))⟩
    · rename_i h
      obtain ⟨h1, h2, h3⟩ := ih (c :: acc) (by
        intro d hd
        rcases List.mem_cons.1 hd with rfl | hd
        · simpa using h
        · exact ha d hd) w hw
      refine ⟨h1, h2, fun d hd => ?_⟩
      rcases h3 d hd with h | h
      · rcases List.mem_cons.1 h with rfl | h
        · exact Or.inr List.mem_cons_self
        · exact Or.inl h
      · exact Or.inr (List.mem_cons_of_mem _ h)

theorem splitWs_word {s w : Str} (h : w ∈ splitWs s) : w ≠ [] ∧ (∀ c ∈ w, isWs c = false) ∧ ∀ c ∈ w, c ∈ s := by
  obtain ⟨h1, h2, h3⟩ := splitWs_no_ws_aux s [] (by simp) w h
  exact ⟨h1, h2, fun c hc => (h3 c hc).elim (fun h => by cases h) id⟩

/-! ## Lines -/

theorem linesAux_line (l : Str) (hl : '\n' ∉ l) : ∀ (acc rest : Str), linesAux acc (l ++ rest) = linesAux (l.reverse ++ acc) rest := by
  induction l with
  | nil => intro acc rest; rfl
  | cons c l ih =>
    intro acc rest
    rw [List.cons_append, linesAux, if_neg (by intro h; subst h; exact hl List.mem_cons_self), ih (fun h => hl (List.mem_cons_of_mem _ h))]
    simp

theorem lines_cons {l : Str} (hl : '\n' ∉ l) (rest : Str) : lines (l ++ '\n' :: rest) = stripCr l :: lines rest := by
  unfold lines
  rw [linesAux_line l hl, linesAux, if_pos rfl]
  simp

theorem lines_last {l : Str} (hl : '\n' ∉ l) (hne : l ≠ []) : lines l = [l] := by
  unfold lines
  have := linesAux_line l hl [] []
  rw [List.append_nil] at this
  rw [this, linesAux]
  simp [hne]

theorem lines_nil : lines [] = [] := rfl

theorem stripCr_id {l : Str} (h : l.getLast? ≠ some '\r') : stripCr l = l := by
  unfold stripCr; rw [if_neg h]

theorem stripCr_cr (l : Str) : stripCr (l ++ ['\r']) = l := by
  unfold stripCr; simp

theorem stripCr_mem {l : Str} {c : Char} (h : c ∈ stripCr l) : c ∈ l := by
  unfold stripCr at h
  split at h
  · exact List.dropLast_subset _ h
  · exact h

theorem lines_split (s : Str) : s = [] ∨ ('\n' ∉ s ∧ s ≠ []) ∨ ∃ l r, '\n' ∉ l ∧ s = l ++ '\n' :: r := by
  by_cases h : '\n' ∈ s
  · right; right
    cases hs : splitOnce '\n' s with
    | none => exact absurd h (splitOnce_none.1 hs)
    | some p =>
      obtain ⟨e, hn⟩ := splitOnce_some.1 (show splitOnce '\n' s = some (p.1, p.2) from hs)
      exact ⟨p.1, p.2, hn, e⟩
  · by_cases h2 : s = []
    · exact Or.inl h2
    · exact Or.inr (Or.inl ⟨h, h2⟩)

theorem lines_no_lf : ∀ (n : Nat) (s : Str), s.length ≤ n → ∀ l ∈ lines s, '\n' ∉ l ∧ ∀ c ∈ l, c ∈ s := by
  intro n
  induction n with
  | zero =>
    intro s hs l hl
    have : s = [] := List.eq_nil_of_length_eq_zero (by omega)
    subst this
    cases hl
  | succ n ih =>
    intro s hs l hl
    rcases lines_split s with h | ⟨h, h2⟩ | ⟨a, r, ha, rfl⟩
    · subst h; cases hl
    · rw [lines_last h h2, List.mem_singleton] at hl
      subst hl
      exact ⟨h, fun c hc => hc⟩
    · rw [lines_cons ha] at hl
      rcases List.mem_cons.1 hl with rfl | hl
      · exact ⟨fun hm => ha (stripCr_mem hm), fun c hc => by simp [stripCr_mem hc]⟩
      · obtain ⟨h1, h2⟩ := ih r (by simp at hs; omega) l hl
        exact ⟨h1, fun c hc => by simp [h2 c hc]⟩

theorem lines_mem {s l : Str} (h : l ∈ lines s) : '\n' ∉ l ∧ ∀ c ∈ l, c ∈ s := lines_no_lf s.length s (Nat.le_refl _) l h

/-! ## The specifications of words and lines are met -/

theorem lines_iff {s : Str} {ls : List Str} : Lines s ls ↔ lines s = ls := by
  constructor
  · intro h
    induction h with
    | nil => rfl
    | last l h1 h2 => exact lines_last h1 h2
    | lf l r ls h1 h2 _ ih =>
      rw [lines_cons h1, ih, stripCr_id]
      intro hc
      obtain ⟨l', e⟩ := List.getLast?_eq_some_iff.1 hc
      exact h2 l' e
    | crlf l r ls h1 _ ih =>
      have e : l ++ c!"\r\n" ++ r = (l ++ ['\r']) ++ '\n' :: r := by simp
      rw [e, lines_cons (by simp [h1]), ih, stripCr_cr]
  · intro h
    have key : ∀ n (s : Str), s.length ≤ n → Lines s (lines s) := by
      intro n
      induction n with
      | zero =>
        intro s hs
        have : s = [] := List.eq_nil_of_length_eq_zero (by omega)
        subst this
        exact .nil
      | succ n ih =>
        intro s hs
        rcases lines_split s with h | ⟨h, h2⟩ | ⟨a, r, ha, rfl⟩
        · subst h; exact .nil
        · rw [lines_last h h2]; exact .last s h h2
        · rw [lines_cons ha]
          have hr := ih r (by simp at hs; omega)
          by_cases hc : a.getLast? = some '\r'
          · obtain ⟨l', rfl⟩ := List.getLast?_eq_some_iff.1 hc
            rw [stripCr_cr]
            have e : l' ++ ['\r'] ++ '\n' :: r = l' ++ c!"\r\n" ++ r := by simp
            rw [e]
            exact .crlf l' r _ (fun h => ha (by simp [h])) hr
          · rw [stripCr_id hc]
            exact .lf a r _ ha (fun l' e => hc (by rw [e]; simp)) hr
    rw [← h]
    exact key s.length s (Nat.le_refl _)

theorem words_of_splitWs : ∀ (n : Nat) (s : Str), s.length ≤ n → Words s (splitWs s) := by
  intro n
  induction n with
  | zero =>
    intro s hs
    have : s = [] := List.eq_nil_of_length_eq_zero (by omega)
    subst this
    exact .none [] (by simp)
  | succ n ih =>
    intro s hs
    by_cases hb : ∀ c ∈ s, isWs c = true
    · rw [splitWs_blank hb]; exact .none s hb
    · obtain ⟨sp, h1, h2, h3⟩ := dropWhile_split isWs s
      obtain ⟨w, h4, h5, h6⟩ := dropWhile_split (fun c => !isWs c) (s.dropWhile isWs)
      generalize hr : (s.dropWhile isWs).dropWhile (fun c => !isWs c) = r at *
      generalize hd : s.dropWhile isWs = d at *
      have hw : ∀ c ∈ w, isWs c = false := fun c hc => by simpa using h5 c hc
      have hwne : w ≠ [] := by
        intro he
        subst he
        rw [List.nil_append] at h4
        subst h4
        cases hdd : d with
        | nil =>
          rw [hdd, List.append_nil] at h1
          rw [h1] at hb
          exact hb h2
        | cons c d' =>
          have a1 := h3 c (by rw [hdd]; rfl)
          have a2 := h6 c (by rw [hdd]; rfl)
          rw [a1] at a2
          simp at a2
      have hrh : ∀ c, r.head? = some c → isWs c = true := fun c hc => by simpa using h6 c hc
      have e : s = sp ++ w ++ r := by rw [List.append_assoc, ← h4]; exact h1
      rw [e, splitWs_cons h2 hw hwne hrh]
      refine .cons sp w r _ h2 hwne hw hrh (ih r ?_)
      have := congrArg List.length e
      have : 0 < w.length := List.length_pos_iff.2 hwne
      simp only [List.length_append] at *
      omega

theorem words_iff {s : Str} {ws : List Str} : Words s ws ↔ splitWs s = ws := by
  constructor
  · intro h
    induction h with
    | none s h => exact splitWs_blank h
    | cons sp w r ws h1 h2 h3 h4 _ ih => rw [splitWs_cons h1 h3 h2 h4, ih]
  · intro h
    rw [← h]
    exact words_of_splitWs s.length s (Nat.le_refl _)

end Am
