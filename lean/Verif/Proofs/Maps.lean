import Verif.Model.Basic
/-! # Association lists as finite maps -/
set_option linter.unusedSimpArgs false
namespace Am
variable {V : Type}

/-- The keys are distinct. -/
def KeysNodup (m : List (Str × V)) : Prop := (m.map Prod.fst).Nodup

theorem amGet_insert (k k' : Str) (v : V) (m : List (Str × V)) :
    amGet k (amInsert k' v m) = if k' = k then some v else amGet k m := by
  induction m with
  | nil => simp [amInsert, amGet]
  | cons p m ih =>
    obtain ⟨a, b⟩ := p
    simp only [amInsert]
    by_cases h : a = k'
    · subst h
      simp only [if_true, amGet]
      by_cases h2 : a = k <;> simp [h2]
    · simp only [h, if_false, amGet, ih]
      by_cases h2 : a = k
      · subst h2
        simp [Ne.symm h, h, show ¬ k' = a from fun h3 => h h3.symm]
      · simp [h2]

theorem amGet_insert_self (k : Str) (v : V) (m : List (Str × V)) : amGet k (amInsert k v m) = some v := by
  simp [amGet_insert]

theorem amGet_insert_ne {k k' : Str} (v : V) (m : List (Str × V)) (h : k' ≠ k) : amGet k (amInsert k' v m) = amGet k m := by
  simp [amGet_insert, h]

theorem amInsert_keys (k : Str) (v : V) (m : List (Str × V)) (x : Str) :
    x ∈ (amInsert k v m).map Prod.fst ↔ x = k ∨ x ∈ m.map Prod.fst := by
  induction m with
  | nil => simp [amInsert]
  | cons p m ih =>
    obtain ⟨a, b⟩ := p
    simp only [amInsert]
    by_cases h : a = k
    · subst h; simp
    · simp only [h, if_false, List.map_cons, List.mem_cons, ih]
      constructor
      · rintro (h1 | h1 | h1)
        · exact Or.inr (Or.inl h1)
        · exact Or.inl h1
        · exact Or.inr (Or.inr h1)
      · rintro (h1 | h1 | h1)
        · exact Or.inr (Or.inl h1)
        · exact Or.inl h1
        · exact Or.inr (Or.inr h1)

theorem amInsert_nodup {k : Str} {v : V} {m : List (Str × V)} (h : KeysNodup m) : KeysNodup (amInsert k v m) := by
  induction m with
  | nil => simp [amInsert, KeysNodup]
  | cons p m ih =>
    obtain ⟨a, b⟩ := p
    simp only [KeysNodup, List.map_cons, List.nodup_cons] at h
    simp only [amInsert]
    by_cases h1 : a = k
    · subst h1
      simp only [if_true, KeysNodup, List.map_cons, List.nodup_cons]
      exact h
    · simp only [h1, if_false, KeysNodup, List.map_cons, List.nodup_cons]
      refine ⟨?_, ih h.2⟩
      rw [amInsert_keys]
      rintro (h2 | h2)
      · exact h1 h2
      · exact h.1 h2

theorem amGet_none {k : Str} {m : List (Str × V)} : amGet k m = none ↔ k ∉ m.map Prod.fst := by
  induction m with
  | nil => simp [amGet]
  | cons p m ih =>
    obtain ⟨a, b⟩ := p
    simp only [amGet, List.map_cons, List.mem_cons]
    by_cases h : a = k
    · simp [h]
    · simp only [h, if_false, ih, not_or]
      exact ⟨fun h1 => ⟨fun h2 => h h2.symm, h1⟩, fun h1 => h1.2⟩

theorem amGet_mem {k : Str} {v : V} {m : List (Str × V)} (h : amGet k m = some v) : (k, v) ∈ m := by
  induction m with
  | nil => cases h
  | cons p m ih =>
    obtain ⟨a, b⟩ := p
    simp only [amGet] at h
    split at h
    · rename_i h1; simp at h; subst h; subst h1; exact List.mem_cons_self
    · exact List.mem_cons_of_mem _ (ih h)

theorem amGet_of_mem {k : Str} {v : V} {m : List (Str × V)} (hn : KeysNodup m) (h : (k, v) ∈ m) : amGet k m = some v := by
  induction m with
  | nil => cases h
  | cons p m ih =>
    obtain ⟨a, b⟩ := p
    simp only [KeysNodup, List.map_cons, List.nodup_cons] at hn
    simp only [amGet]
    rcases List.mem_cons.1 h with h1 | h1
    · cases h1; simp
    · have : a ≠ k := by
        intro h2; subst h2
        exact hn.1 (List.mem_map.2 ⟨_, h1, rfl⟩)
      simp [this, ih hn.2 h1]

theorem amErase_keys {k : Str} {m : List (Str × V)} (hn : KeysNodup m) (x : Str) :
    amGet x (amErase k m) = if x = k then none else amGet x m := by
  induction m with
  | nil => simp [amErase, amGet]
  | cons p m ih =>
    obtain ⟨a, b⟩ := p
    simp only [KeysNodup, List.map_cons, List.nodup_cons] at hn
    simp only [amErase]
    by_cases h : a = k
    · subst h
      simp only [if_true, amGet]
      by_cases h2 : x = a
      · subst h2; simp [amGet_none.2 hn.1]
      · simp [h2, show ¬ a = x from fun h3 => h2 h3.symm]
    · simp only [h, if_false, amGet, ih hn.2]
      by_cases h2 : a = x
      · subst h2; simp [h]
      · simp [h2]

theorem amGet_extend (k : Str) (m l : List (Str × V)) (hn : KeysNodup l) :
    amGet k (amExtend m l) = (amGet k l).or (amGet k m) := by
  induction l generalizing m with
  | nil => simp [amExtend, amGet]
  | cons p l ih =>
    obtain ⟨a, b⟩ := p
    simp only [KeysNodup, List.map_cons, List.nodup_cons] at hn
    have := ih (amInsert a b m) hn.2
    simp only [amExtend, List.foldl_cons] at this ⊢
    rw [this, amGet_insert]
    simp only [amGet]
    by_cases h : a = k
    · subst h; simp [amGet_none.2 hn.1]
    · simp [h]

theorem amExtend_nodup {m l : List (Str × V)} (hm : KeysNodup m) : KeysNodup (amExtend m l) := by
  induction l generalizing m with
  | nil => exact hm
  | cons p l ih => exact ih (amInsert_nodup hm)

end Am
