import Verif.Model.Bytes
import Verif.Proofs.Text
import Verif.Proofs.Template
/-! # C72: texts are never cut inside a character -/
set_option linter.unusedSimpArgs false
set_option linter.unusedSectionVars false
namespace Am
open Spec

/-! ## Character boundaries -/

/-- The first byte of a character's encoding is not a continuation byte. -/
theorem encode_first (c : Char) : ∃ b bs, String.utf8EncodeChar c = b :: bs ∧ (b.toNat < 128 ∨ 192 ≤ b.toNat) := by
  unfold String.utf8EncodeChar
  have hv : c.val.toNat = c.toNat := rfl
  have hm : c.toNat < 0x110000 := by
    have := c.valid
    unfold UInt32.isValidChar Nat.isValidChar at this
    rw [hv] at this
    omega
  dsimp only
  rw [hv]
  split
  · exact ⟨_, _, rfl, by rw [UInt8.toNat_ofNat']; omega⟩
  · split
    · exact ⟨_, _, rfl, by rw [UInt8.toNat_ofNat']; omega⟩
    · split
      · exact ⟨_, _, rfl, by rw [UInt8.toNat_ofNat']; omega⟩
      · exact ⟨_, _, rfl, by rw [UInt8.toNat_ofNat']; omega⟩

theorem boundary_utf8 (x y : Str) : boundary (utf8 x ++ utf8 y) (utf8 x).length = true := by
  unfold boundary
  split
  · rfl
  · cases y with
    | nil => simp [utf8_nil]
    | cons c y =>
      obtain ⟨b, bs, h, hb⟩ := encode_first c
      rw [utf8_cons, h]
      simp only [List.cons_append, List.getElem?_append_right (Nat.le_refl _), Nat.sub_self, List.getElem?_cons_zero]
      exact decide_eq_true hb

/-- The other bytes of a character's encoding are continuation bytes. -/
theorem encode_rest (c : Char) : ∀ b ∈ (String.utf8EncodeChar c).tail, 128 ≤ b.toNat ∧ b.toNat < 192 := by
  unfold String.utf8EncodeChar
  dsimp only
  split
  · intro b hb; cases hb
  · split
    · intro b hb
      simp only [List.tail_cons, List.mem_cons, List.not_mem_nil, or_false] at hb
      rw [hb, UInt8.toNat_ofNat']; omega
    · split
      · intro b hb
        simp only [List.tail_cons, List.mem_cons, List.not_mem_nil, or_false] at hb
        rcases hb with hb | hb <;> (rw [hb, UInt8.toNat_ofNat']; omega)
      · intro b hb
        simp only [List.tail_cons, List.mem_cons, List.not_mem_nil, or_false] at hb
        rcases hb with hb | hb | hb <;> (rw [hb, UInt8.toNat_ofNat']; omega)

/-- A position is a boundary exactly when it lies between two characters or at an end of the text. -/
theorem boundary_iff (s : Str) (n : Nat) : boundary (utf8 s) n = true ↔ ∃ x y, s = x ++ y ∧ n = (utf8 x).length := by
  constructor
  · intro h
    induction s generalizing n with
    | nil =>
      refine ⟨[], [], rfl, ?_⟩
      unfold boundary at h
      by_cases h0 : n = 0
      · exact h0
      · rw [if_neg h0] at h
        simpa [utf8_nil] using h
    | cons c s ih =>
      by_cases h0 : n = 0
      · exact ⟨[], c :: s, rfl, h0⟩
      · obtain ⟨b, bs, hb, _⟩ := encode_first c
        by_cases hl : n < (b :: bs).length
        · exfalso
          unfold boundary at h
          rw [if_neg h0, utf8_cons, hb, List.getElem?_append_left hl] at h
          have hr := encode_rest c
          rw [hb, List.tail_cons] at hr
          obtain ⟨k, rfl⟩ := Nat.exists_eq_succ_of_ne_zero h0
          rw [Nat.succ_eq_add_one, List.getElem?_cons_succ] at h
          have hk : k < bs.length := by simpa using hl
          rw [List.getElem?_eq_getElem hk] at h
          have h1 := hr bs[k] (List.getElem_mem hk)
          have h2 := of_decide_eq_true h
          omega
        · have hlen : (b :: bs).length ≤ n := Nat.le_of_not_lt hl
          by_cases he : n = (b :: bs).length
          · exact ⟨[c], s, rfl, by rw [utf8_cons, utf8_nil, List.append_nil, hb]; exact he⟩
          · have hb2 : boundary (utf8 s) (n - (b :: bs).length) = true := by
              unfold boundary at h ⊢
              rw [if_neg h0, utf8_cons, hb, List.getElem?_append_right hlen] at h
              rw [if_neg (by omega)]
              cases hg : (utf8 s)[n - (b :: bs).length]? with
              | some d => rw [hg] at h; exact h
              | none =>
                rw [hg] at h
                simp only [List.length_append, beq_iff_eq] at h ⊢
                omega
            obtain ⟨x, y, rfl, hx⟩ := ih _ hb2
            exact ⟨c :: x, y, rfl, by rw [utf8_cons, List.length_append, hb, ← hx]; omega⟩
  · rintro ⟨x, y, rfl, rfl⟩
    rw [utf8_append]
    exact boundary_utf8 x y

/-- C72, what cutting by byte positions does: it gives the characters between the positions if both lie between characters and are in order; in every
other case the program crashes. -/
theorem c72_cut (s : Str) (a b : Nat) :
    (∃ x y z, s = x ++ y ++ z ∧ a = (utf8 x).length ∧ b = (utf8 (x ++ y)).length ∧ slice (utf8 s) a b = .ok (utf8 y)) ∨
    ((¬ ∃ x y z, s = x ++ y ++ z ∧ a = (utf8 x).length ∧ b = (utf8 (x ++ y)).length) ∧ slice (utf8 s) a b = .panic ∧
      ∀ w, replaceBytes (utf8 s) a b w = .panic) := by
  by_cases h : ∃ x y z, s = x ++ y ++ z ∧ a = (utf8 x).length ∧ b = (utf8 (x ++ y)).length
  · obtain ⟨x, y, z, rfl, rfl, rfl⟩ := h
    exact Or.inl ⟨x, y, z, rfl, rfl, rfl, by
      unfold slice
      have h1 : boundary (utf8 (x ++ y ++ z)) (utf8 x).length = true := (boundary_iff _ _).2 ⟨x, y ++ z, by simp, rfl⟩
      have h2 : boundary (utf8 (x ++ y ++ z)) (utf8 (x ++ y)).length = true := (boundary_iff _ _).2 ⟨x ++ y, z, rfl, rfl⟩
      have h3 : (utf8 x).length ≤ (utf8 (x ++ y)).length := by rw [utf8_append, List.length_append]; omega
      rw [h1, h2]
      simp only [h3, decide_true, Bool.and_self, if_true]
      rw [utf8_append (x ++ y) z, List.take_left' rfl, utf8_append, List.drop_left' rfl]⟩
  · refine Or.inr ⟨h, ?_⟩
    have hn : ¬ (decide (a ≤ b) && boundary (utf8 s) a && boundary (utf8 s) b) = true := by
      intro hh
      rw [Bool.and_eq_true, Bool.and_eq_true, decide_eq_true_iff] at hh
      obtain ⟨⟨h1, h2⟩, h3⟩ := hh
      obtain ⟨x, y, rfl, rfl⟩ := (boundary_iff _ _).1 h2
      obtain ⟨x', y', he, rfl⟩ := (boundary_iff _ _).1 h3
      rcases List.append_eq_append_iff.1 he with ⟨m, rfl, rfl⟩ | ⟨m, rfl, rfl⟩
      · exact h ⟨x, m, y', by simp, rfl, rfl⟩
      · rw [utf8_append, List.length_append] at h1
        have hm : m = [] := by
          cases m with
          | nil => rfl
          | cons c m =>
            obtain ⟨b, bs, hb, _⟩ := encode_first c
            rw [utf8_cons, hb, List.length_append, List.length_cons] at h1
            omega
        subst hm
        exact h ⟨x', [], y, by simp, by simp, by simp⟩
    exact ⟨by unfold slice; rw [if_neg hn], fun w => by unfold replaceBytes; rw [if_neg hn]⟩

/-- A cut between characters succeeds and gives the characters between. -/
theorem slice_utf8 (x y z : Str) : slice (utf8 (x ++ y ++ z)) (utf8 x).length (utf8 (x ++ y)).length = .ok (utf8 y) := by
  unfold slice
  have h1 : boundary (utf8 (x ++ y ++ z)) (utf8 x).length = true := by
    rw [List.append_assoc, utf8_append]; exact boundary_utf8 _ _
  have h2 : boundary (utf8 (x ++ y ++ z)) (utf8 (x ++ y)).length = true := by
    rw [utf8_append]; exact boundary_utf8 _ _
  have h3 : (utf8 x).length ≤ (utf8 (x ++ y)).length := by rw [utf8_append, List.length_append]; omega
  rw [h1, h2]
  simp only [h3, decide_true, Bool.and_self, if_true]
  rw [utf8_append (x ++ y) z, List.take_left' rfl, utf8_append, List.drop_left' rfl]

theorem replaceBytes_utf8 (x y z w : Str) :
    replaceBytes (utf8 (x ++ y ++ z)) (utf8 x).length (utf8 (x ++ y)).length (utf8 w) = .ok (utf8 (x ++ w ++ z)) := by
  unfold replaceBytes
  have h1 : boundary (utf8 (x ++ y ++ z)) (utf8 x).length = true := by
    rw [List.append_assoc, utf8_append]; exact boundary_utf8 _ _
  have h2 : boundary (utf8 (x ++ y ++ z)) (utf8 (x ++ y)).length = true := by
    rw [utf8_append]; exact boundary_utf8 _ _
  have h3 : (utf8 x).length ≤ (utf8 (x ++ y)).length := by rw [utf8_append, List.length_append]; omega
  rw [h1, h2]
  simp only [h3, decide_true, Bool.and_self, if_true]
  have e1 : List.take (utf8 x).length (utf8 (x ++ y ++ z)) = utf8 x := by
    rw [List.append_assoc, utf8_append]; exact List.take_left' rfl
  have e2 : List.drop (utf8 (x ++ y)).length (utf8 (x ++ y ++ z)) = utf8 z := by
    rw [utf8_append (x ++ y) z]; exact List.drop_left' rfl
  rw [e1, e2, utf8_append, utf8_append]

theorem strOf_utf8 (s : Str) : strOf (utf8 s) = .ok s := by
  unfold strOf; rw [fromUtf8_utf8]

/-! ## Replacements, last one first -/

theorem replaceEach_utf8 (s : Str) (l : List ((Nat × Nat) × Str)) (t : Str) (p : Nat) (ht : t.take p = s.take p) (hp : p ≤ t.length)
    (hd : l.Pairwise fun x y => y.1.2 ≤ x.1.1) (hl : ∀ x ∈ l, x.1.1 ≤ x.1.2 ∧ x.1.2 ≤ p) :
    replaceEach (utf8 t) (l.map fun x => ((bytePos s x.1.1, bytePos s x.1.2), utf8 x.2)) = .ok (utf8 (replaceAll t l)) := by
  induction l generalizing t p with
  | nil => rfl
  | cons x l ih =>
    obtain ⟨⟨a, b⟩, w⟩ := x
    obtain ⟨hab, hbp⟩ := hl _ List.mem_cons_self
    dsimp only at hab hbp
    have hcut : ∀ k, k ≤ p → t.take k = s.take k := by
      intro k hk
      have := congrArg (List.take k) ht
      rwa [List.take_take, List.take_take, Nat.min_eq_left hk] at this
    have e1 : bytePos s a = (utf8 (t.take a)).length := by unfold bytePos; rw [hcut a (by omega)]
    have hta : t.take a ++ (t.take b).drop a = t.take b := by
      have := List.take_append_drop a (t.take b)
      rwa [List.take_take, Nat.min_eq_left hab] at this
    have e2 : bytePos s b = (utf8 (t.take a ++ (t.take b).drop a)).length := by
      unfold bytePos; rw [hta, hcut b hbp]
    have e3 : t = t.take a ++ (t.take b).drop a ++ t.drop b := by rw [hta, List.take_append_drop]
    have hr : replaceBytes (utf8 t) (bytePos s a) (bytePos s b) (utf8 w) = .ok (utf8 (replaceRange t a b w)) := by
      rw [e1, e2]
      conv => lhs; arg 1; rw [e3]
      rw [replaceBytes_utf8]; rfl
    simp only [List.map_cons, replaceEach, replaceAll]
    rw [hr]
    have hd' := List.pairwise_cons.1 hd
    apply ih (replaceRange t a b w) a
    · unfold replaceRange
      rw [List.append_assoc, List.take_append_of_le_length (by rw [List.length_take]; omega), List.take_take, Nat.min_self, hcut a (by omega)]
    · unfold replaceRange; simp only [List.length_append, List.length_take]; omega
    · exact hd'.2
    · intro y hy
      exact ⟨(hl y (List.mem_cons_of_mem _ hy)).1, hd'.1 y hy⟩

/-! ## Matches of the placeholder pattern -/

/-- Every match is a placeholder at its position. -/
theorem findAll_holes (n : Nat) (pre s : Str) : ∀ m ∈ findAll n pre.length s,
    ∃ x h y, pre ++ s = x ++ h ++ y ∧ IsHole h m.1 ∧ m.2.1 = x.length ∧ m.2.2 = (x ++ h).length ∧ pre.length ≤ x.length := by
  induction n generalizing pre s with
  | zero => intro m hm; cases s <;> cases hm
  | succ n ih =>
    intro m hm
    cases s with
    | nil => cases hm
    | cons c cs =>
      simp only [findAll] at hm
      cases hmt : matchAt (c :: cs) with
      | none =>
        rw [hmt] at hm
        dsimp only at hm
        have e : pre.length + 1 = (pre ++ [c]).length := by simp
        rw [e] at hm
        obtain ⟨x, h, y, h1, h2, h3, h4, h5⟩ := ih (pre ++ [c]) cs m hm
        exact ⟨x, h, y, by rw [← h1]; simp, h2, h3, h4, by rw [List.length_append] at h5; omega⟩
      | some q =>
        obtain ⟨name, rest⟩ := q
        rw [hmt] at hm
        dsimp only at hm
        obtain ⟨hl, hh, he⟩ := hole_of_matchAt hmt
        have e : pre.length + ((c :: cs).length - rest.length) = (pre ++ hl).length := by
          rw [he, List.length_append, List.length_append]; omega
        rw [e] at hm
        rcases List.mem_cons.1 hm with hm | hm
        · subst hm
          exact ⟨pre, hl, rest, by rw [he, List.append_assoc], hh, rfl, rfl, Nat.le_refl _⟩
        · obtain ⟨x, h, y, h1, h2, h3, h4, h5⟩ := ih (pre ++ hl) rest m hm
          exact ⟨x, h, y, by rw [← h1, he, List.append_assoc], h2, h3, h4, by rw [List.length_append] at h5; omega⟩

/-- Matches come in order and do not overlap. -/
theorem findAll_apart (n : Nat) (pre s : Str) : (findAll n pre.length s).Pairwise fun x y => x.2.2 ≤ y.2.1 := by
  induction n generalizing pre s with
  | zero => cases s <;> exact List.Pairwise.nil
  | succ n ih =>
    cases s with
    | nil => exact List.Pairwise.nil
    | cons c cs =>
      simp only [findAll]
      cases hmt : matchAt (c :: cs) with
      | none =>
        dsimp only
        have e : pre.length + 1 = (pre ++ [c]).length := by simp
        rw [e]; exact ih _ _
      | some q =>
        obtain ⟨name, rest⟩ := q
        dsimp only
        obtain ⟨hl, hh, he⟩ := hole_of_matchAt hmt
        have e : pre.length + ((c :: cs).length - rest.length) = (pre ++ hl).length := by
          rw [he, List.length_append, List.length_append]; omega
        rw [e]
        refine List.Pairwise.cons ?_ (ih _ _)
        intro m hm
        obtain ⟨x, h, y, h1, h2, h3, h4, h5⟩ := findAll_holes n (pre ++ hl) rest m hm
        dsimp only
        omega

theorem templates_holes {s : Str} {m : Str × Nat × Nat} (hm : m ∈ findTemplates s) :
    ∃ x h y, s = x ++ h ++ y ∧ IsHole h m.1 ∧ m.2.1 = x.length ∧ m.2.2 = (x ++ h).length := by
  obtain ⟨x, h, y, h1, h2, h3, h4, _⟩ := findAll_holes s.length [] s m hm
  exact ⟨x, h, y, h1, h2, h3, h4⟩

theorem templates_apart (s : Str) : (findTemplates s).Pairwise fun x y => x.2.2 ≤ y.2.1 := findAll_apart s.length [] s

theorem bytePos_append (x y : Str) : bytePos (x ++ y) x.length = (utf8 x).length := by
  unfold bytePos; rw [List.take_left' rfl]

/-- The name in a placeholder is what is left after taking off the braces and the blanks. -/
theorem hole_name {h name : Str} (hh : IsHole h name) : ∃ mid, h = '{' :: (mid ++ ['}']) ∧ trim mid = name := by
  obtain ⟨before, after, first, rest, rfl, rfl, hb, ha, hf, hw⟩ := hh
  refine ⟨before ++ (first :: rest) ++ after, rfl, trim_unique ⟨before, after, rfl, hb, ha, ?_, ?_⟩⟩
  · intro c hc; cases hc; exact wordStart_not_ws hf
  · intro c hc
    have := List.mem_of_getLast? hc
    rcases List.mem_cons.1 this with e | e
    · subst e; exact wordStart_not_ws hf
    · exact wordChar_not_ws (hw c e)

/-- **C72** (evaluator.rs:172): in whatever text the pattern matched, cutting out the match and then its first and last byte gives the name
inside the braces; no cut falls inside a character. -/
theorem c72_name {s : Str} {m : Str × Nat × Nat} (hm : m ∈ findTemplates s) :
    templateName (utf8 s) (bytePos s m.2.1) (bytePos s m.2.2) = .ok m.1 := by
  obtain ⟨x, h, y, rfl, hh, h1, h2⟩ := templates_holes hm
  obtain ⟨mid, he, ht⟩ := hole_name hh
  have p1 : bytePos (x ++ h ++ y) m.2.1 = (utf8 x).length := by rw [h1, List.append_assoc, bytePos_append]
  have p2 : bytePos (x ++ h ++ y) m.2.2 = (utf8 (x ++ h)).length := by rw [h2, bytePos_append]
  unfold templateName
  rw [p1, p2, slice_utf8]
  have hu : utf8 h = utf8 (c!"{" ++ mid ++ c!"}") := by rw [he]; rfl
  have hlen : (utf8 h).length = (utf8 mid).length + 2 := by
    rw [hu, utf8_append, utf8_append]
    simp only [List.length_append]
    have : (utf8 c!"{").length = 1 := by decide
    have : (utf8 c!"}").length = 1 := by decide
    omega
  have hs : slice (utf8 h) 1 ((utf8 h).length - 1) = .ok (utf8 mid) := by
    have := slice_utf8 c!"{" mid c!"}"
    rw [utf8_append c!"{" mid, List.length_append, ← hu] at this
    have e1 : (utf8 c!"{").length = 1 := by decide
    rw [e1] at this
    rw [show (utf8 h).length - 1 = 1 + (utf8 mid).length by omega]
    exact this
  show (if (utf8 h).length = 0 then Res.panic else _) = _
  rw [if_neg (by omega), hs]
  show (do let t ← strOf (utf8 mid); pure (trim t)) = _
  rw [strOf_utf8, ← ht]
  rfl

variable {F : Type} [Rt F]

theorem templateNames_ok (s : Str) (l : List (Str × Nat × Nat)) (hl : ∀ m ∈ l, m ∈ findTemplates s) :
    templateNames (utf8 s) (l.map fun m => (bytePos s m.2.1, bytePos s m.2.2)) =
      .ok (l.map fun m => (m.1, bytePos s m.2.1, bytePos s m.2.2)) := by
  induction l with
  | nil => rfl
  | cons m l ih =>
    simp only [List.map_cons, templateNames]
    rw [c72_name (hl m List.mem_cons_self), ih fun x hx => hl x (List.mem_cons_of_mem _ hx)]
    rfl

theorem templates_bounds {s : Str} {m : Str × Nat × Nat} (hm : m ∈ findTemplates s) : m.2.1 ≤ m.2.2 ∧ m.2.2 ≤ s.length := by
  obtain ⟨x, h, y, rfl, hh, h1, h2⟩ := templates_holes hm
  rw [h1, h2]; simp only [List.length_append]; omega

/-- **C72** (evaluator.rs:169-182): for every context and every message, with whatever characters in message and values, substituting by byte
positions never panics and gives the UTF-8 of the substituted text. -/
theorem c72_render (ctx : Context F) (message : Str) : renderBytes ctx message = .ok (utf8 (render ctx message)) := by
  unfold renderBytes findRanges
  rw [templateNames_ok message _ fun _ h => h]
  show replaceEach _ _ = _
  unfold render
  have := replaceEach_utf8 message ((findTemplates message).reverse.map fun m => (m.2, varText ctx m.1)) message message.length rfl (Nat.le_refl _)
    (by rw [List.pairwise_map, List.pairwise_reverse]; exact templates_apart message)
    (by
      intro x hx
      obtain ⟨m, hm, rfl⟩ := List.mem_map.1 hx
      exact templates_bounds (List.mem_reverse.1 hm))
  rw [← this]
  congr 1
  rw [← List.map_reverse, List.map_map, List.map_map]
  rfl

/-- **C72** (native.rs:23-45): `format` on any text and any arguments never panics: it gives the UTF-8 of the text that the model computes on
characters, or the same error. -/
theorem c72_format (s : Str) (args : List (Value F)) :
    (∃ t, nativeFormat (.str s :: args) = .ok (.str t) ∧ formatBytes s args = .ok (utf8 t)) ∨
      ∃ e, nativeFormat (.str s :: args) = .err e ∧ formatBytes s args = .err e := by
  unfold nativeFormat formatBytes
  have hlen : (findRanges s).reverse.length = ((findTemplates s).map (·.2)).reverse.length := by simp [findRanges]
  dsimp only
  rw [hlen]
  split
  · exact Or.inr ⟨_, rfl, rfl⟩
  · rename_i hn
    refine Or.inl ⟨_, rfl, ?_⟩
    have := replaceEach_utf8 s (((findTemplates s).map (·.2)).reverse.zip (args.reverse.map Value.display)) s s.length rfl (Nat.le_refl _)
      (by
        have hz : ((((findTemplates s).map (·.2)).reverse.zip (args.reverse.map Value.display)).map (·.1)).Pairwise fun x y => y.2 ≤ x.1 := by
          rw [List.map_fst_zip (by simp only [List.length_map, List.length_reverse] at hn ⊢; omega), List.pairwise_reverse, List.pairwise_map]
          exact templates_apart s
        rwa [List.pairwise_map] at hz)
      (by
        intro x hx
        have := (List.of_mem_zip hx).1
        obtain ⟨m, hm, e⟩ := List.mem_map.1 (List.mem_reverse.1 this)
        rw [← e]
        exact templates_bounds hm)
    rw [← this]
    congr 1
    unfold findRanges
    rw [← List.map_reverse, ← List.map_reverse, List.zip_map, List.zip_map, List.map_map]
    rfl

/-! ## Addresses and multipart parts -/

theorem split_first {c : Char} {s : Str} (h : c ∈ s) : ∃ x y, s = x ++ c :: y ∧ c ∉ x := by
  induction s with
  | nil => cases h
  | cons d s ih =>
    by_cases e : c = d
    · subst e; exact ⟨[], s, rfl, by simp⟩
    · rcases List.mem_cons.1 h with h | h
      · exact absurd h e
      · obtain ⟨x, y, rfl, hx⟩ := ih h
        exact ⟨d :: x, y, rfl, by simp [e, hx]⟩

theorem find_byte {c : Char} (hc : c.toNat < 128) (s : Str) :
    ((utf8 s).findIdx? (· == UInt8.ofNat c.toNat) = none ∧ c ∉ s) ∨
      ∃ x y, s = x ++ c :: y ∧ c ∉ x ∧ (utf8 s).findIdx? (· == UInt8.ofNat c.toNat) = some (utf8 x).length := by
  have hno : ∀ x : Str, c ∉ x → (utf8 x).findIdx? (· == UInt8.ofNat c.toNat) = none := by
    intro x hx
    rw [List.findIdx?_eq_none_iff]
    intro b hb
    cases e : b == UInt8.ofNat c.toNat with
    | false => rfl
    | true =>
      have e := beq_iff_eq.1 e
      have hb' : b.toNat = c.toNat := by rw [e, UInt8.toNat_ofNat']; omega
      obtain ⟨d, hd, hd'⟩ := utf8_mem_small hb (by omega)
      have := char_of_toNat (hd'.trans hb')
      subst this
      exact absurd hd hx
  by_cases hm : c ∈ s
  · right
    obtain ⟨x, y, rfl, hx⟩ := split_first hm
    refine ⟨x, y, rfl, hx, ?_⟩
    rw [utf8_append, List.findIdx?_append, hno x hx, utf8_cons, utf8_ascii hc]
    simp [List.findIdx?_cons]
  · exact Or.inl ⟨hno s hm, hm⟩

theorem takeWhile_until {c : Char} {x y : Str} (h : c ∉ x) : (x ++ c :: y).takeWhile (· ≠ c) = x :=
  takeWhile_app (fun d hd => by simp; intro e; subst e; exact h hd) (by simp)

theorem dropWhile_until {c : Char} {x y : Str} (h : c ∉ x) : (x ++ c :: y).dropWhile (· ≠ c) = c :: y :=
  dropWhile_app (fun d hd => by simp; intro e; subst e; exact h hd) (by simp)

/-- **C72** (url.rs:10-39): reading any text as an address never panics and gives the address the model computes on characters. -/
theorem c72_url (s : Str) : Url.ofBytes s = .ok (Url.ofStr s) := by
  unfold Url.ofBytes Url.ofStr
  dsimp only
  cases cutSep s with
  | none => rfl
  | some q =>
    obtain ⟨q1, r⟩ := q
    dsimp only
    generalize sepFirst r = t
    have tail : ∀ (host path : Str) (sch : Scheme),
        (do
          let (host, port) ←
            match (utf8 host).findIdx? (· == 58) with
            | some j => do
              let h ← slice (utf8 host) 0 j
              let p ← slice (utf8 host) (j + 1) (utf8 host).length
              let p ← strOf p
              pure (h, parseUnsigned 65535 p)
            | none => pure (utf8 host, none)
          let host ← strOf host
          let path ← strOf (utf8 path)
          pure (⟨sch, host, port.getD sch.port, path⟩ : Url) : Res Url) =
        .ok (if host.contains ':' then
          ⟨sch, host.takeWhile (· ≠ ':'), (parseUnsigned 65535 ((host.dropWhile (· ≠ ':')).drop 1)).getD sch.port, path⟩
        else ⟨sch, host, sch.port, path⟩) := by
      intro host path sch
      rcases find_byte (c := ':') (by decide) host with ⟨h1, h2⟩ | ⟨x, y, rfl, hx, h1⟩
      · change (utf8 host).findIdx? (· == 58) = none at h1
        rw [h1]
        have : host.contains ':' = false := by simpa using h2
        rw [this]
        show (do let host ← strOf (utf8 host); let path ← strOf (utf8 path); pure (⟨sch, host, _, path⟩ : Url) : Res Url) = _
        rw [strOf_utf8, strOf_utf8]
        rfl
      · change (utf8 (x ++ ':' :: y)).findIdx? (· == 58) = some _ at h1
        rw [h1]
        have : (x ++ ':' :: y).contains ':' = true := by simp
        rw [this, takeWhile_until hx, dropWhile_until hx]
        have s1 : slice (utf8 (x ++ ':' :: y)) 0 (utf8 x).length = .ok (utf8 x) := slice_utf8 [] x (':' :: y)
        have s2 : slice (utf8 (x ++ ':' :: y)) ((utf8 x).length + 1) (utf8 (x ++ ':' :: y)).length = .ok (utf8 y) := by
          have := slice_utf8 (x ++ c!":") y []
          rw [List.append_nil, List.append_assoc, utf8_append x c!":", List.length_append] at this
          exact this
        dsimp only
        rw [s1, s2]
        change (strOf (utf8 y)).bind _ = _
        rw [strOf_utf8]
        change (strOf (utf8 x)).bind _ = _
        rw [strOf_utf8]
        change (strOf (utf8 path)).bind _ = _
        rw [strOf_utf8]
        rfl
    rcases find_byte (c := '/') (by decide) t with ⟨h1, h2⟩ | ⟨x, y, rfl, hx, h1⟩
    · change (utf8 t).findIdx? (· == 47) = none at h1
      rw [h1]
      have : t.contains '/' = false := by simpa using h2
      rw [this]
      have e : t.takeWhile (· ≠ '/') = t := takeWhile_all_pred fun d hd => by simp; intro e; subst e; exact h2 hd
      rw [e]
      exact tail t c!"/" _
    · change (utf8 (x ++ '/' :: y)).findIdx? (· == 47) = some _ at h1
      rw [h1]
      have : (x ++ '/' :: y).contains '/' = true := by simp
      rw [this, takeWhile_until hx, dropWhile_until hx]
      have s1 : slice (utf8 (x ++ '/' :: y)) 0 (utf8 x).length = .ok (utf8 x) := slice_utf8 [] x ('/' :: y)
      have s2 : slice (utf8 (x ++ '/' :: y)) (utf8 x).length (utf8 (x ++ '/' :: y)).length = .ok (utf8 ('/' :: y)) := by
        have := slice_utf8 x ('/' :: y) []
        rwa [List.append_nil] at this
      dsimp only
      rw [s1, s2]
      exact tail x ('/' :: y) _

/-- **C72** (request.rs:67-72): taking off the `@` of a file part never panics. -/
theorem c72_part (p : Str × Str) : partBytes p = .ok (partOf p) := by
  unfold partBytes partOf
  dsimp only
  split
  · rename_i h
    cases ht : trim p.2 with
    | nil => rw [ht] at h; cases h
    | cons c v =>
      rw [ht] at h
      cases h
      have := slice_utf8 c!"@" v []
      rw [List.append_nil] at this
      have e1 : (utf8 c!"@").length = 1 := by decide
      rw [e1] at this
      change (slice (utf8 (c!"@" ++ v)) 1 (utf8 (c!"@" ++ v)).length).bind _ = _
      rw [this]
      show (strOf (utf8 v)).bind _ = _
      rw [strOf_utf8]
      rfl
  · rename_i h
    split
    · rename_i v hv; rw [hv] at h; exact absurd rfl h
    · rfl

/-! ## Examples -/

/-- A message with characters of two, three and four bytes before, inside (as blanks) and after a placeholder, and a value with such characters:
the byte positions differ from the character positions. -/
example : renderBytes (F := F) ⟨[(c!"name", .str c!"é€😀")], [], []⟩ (c!"GET http://é€😀/{ name }/ü") =
    .ok (utf8 c!"GET http://é€😀/é€😀/ü") := by
  rw [c72_render]
  rfl

example : findRanges c!"é€😀{a}" = [(9, 12)] ∧ (findTemplates c!"é€😀{a}").map (·.2) = [(3, 6)] := by decide +kernel

/-- Cutting at the character position instead would panic. -/
example : slice (utf8 c!"é€😀{a}") 3 6 = .panic := by decide +kernel

example : Url.ofBytes c!"http://münchen.de:8080/straße" = .ok ⟨.Http, c!"münchen.de", 8080, c!"/straße"⟩ := by
  rw [c72_url]; decide +kernel

example : partBytes (c!"datei ", c!" @größe.txt") = .ok (.file c!"datei" c!"größe.txt") := by
  rw [c72_part]; decide +kernel

end Am
