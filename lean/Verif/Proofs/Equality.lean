import Verif.Proofs.Maps
import Verif.Spec.Semantics
/-! # Equality of values -/
set_option linter.unusedSimpArgs false
set_option linter.unusedSectionVars false
namespace Am
open Spec
variable {F : Type} [Rt F]

/-- A list without duplicates whose members all occur in another list is not longer than that list. -/
theorem nodup_length_le {α : Type} [DecidableEq α] : ∀ {l r : List α}, l.Nodup → (∀ x ∈ l, x ∈ r) → l.length ≤ r.length := by
  intro l
  induction l with
  | nil => intro r _ _; exact Nat.zero_le _
  | cons a l ih =>
    intro r hn hs
    have hn := List.nodup_cons.1 hn
    have ha : a ∈ r := hs a (List.mem_cons_self ..)
    have := ih (r := r.erase a) hn.2 (fun x hx => by
      have hxa : x ≠ a := fun h => hn.1 (h ▸ hx)
      exact (List.mem_erase_of_ne hxa).2 (hs x (List.mem_cons_of_mem _ hx)))
    rw [List.length_erase_of_mem ha] at this
    have : 0 < r.length := List.length_pos_of_mem ha
    simp only [List.length_cons]
    omega

/-- Two lists without duplicates, equally long, one contained in the other: the other is contained in the one. -/
theorem nodup_mem_of_length {α : Type} [DecidableEq α] {l r : List α} (hl : l.Nodup) (hr : r.Nodup) (hs : ∀ x ∈ l, x ∈ r)
    (h : l.length = r.length) : ∀ x ∈ r, x ∈ l := by
  intro x hx
  by_cases hxl : x ∈ l
  · exact hxl
  · have := nodup_length_le (l := x :: l) (r := r) (List.nodup_cons.2 ⟨hxl, hl⟩) (by
      intro y hy
      rcases List.mem_cons.1 hy with e | e
      · exact e ▸ hx
      · exact hs y e)
    simp only [List.length_cons] at this
    omega

theorem amGet_isSome {V : Type} {k : Str} {m : List (Str × V)} : (amGet k m).isSome = true ↔ k ∈ m.map Prod.fst := by
  have := @amGet_none V k m
  cases h : amGet k m with
  | none => simp [h] at this ⊢; exact this
  | some v => simp [h] at this ⊢; exact this

mutual
theorem eq_same : ∀ (a b : Value F), Proper a → Proper b → (a.eq b = true ↔ Same a b)
  | .null, b, _, _ => by
    cases b <;> first
      | exact ⟨fun _ => .null, fun _ => rfl⟩
      | exact ⟨fun h => (by simp [Value.eq] at h), fun h => (by cases h)⟩
  | .int i, b, _, _ => by
    cases b with
    | int j =>
      constructor
      · intro h
        have h : (i == j) = true := h
        have h := eq_of_beq h
        exact h ▸ .int i
      · intro h; cases h; exact beq_self_eq_true i
    | _ => exact ⟨fun h => (by simp [Value.eq] at h), fun h => (by cases h)⟩
  | .float x, b, _, _ => by
    cases b with
    | float y => exact ⟨fun h => .float h, fun h => (by cases h; assumption)⟩
    | _ => exact ⟨fun h => (by simp [Value.eq] at h), fun h => (by cases h)⟩
  | .bool i, b, _, _ => by
    cases b with
    | bool j =>
      constructor
      · intro h
        have h : (i == j) = true := h
        have h := eq_of_beq h
        exact h ▸ .bool i
      · intro h; cases h; exact beq_self_eq_true i
    | _ => exact ⟨fun h => (by simp [Value.eq] at h), fun h => (by cases h)⟩
  | .str i, b, _, _ => by
    cases b with
    | str j =>
      constructor
      · intro h
        have h : (i == j) = true := h
        have h := eq_of_beq h
        exact h ▸ .str i
      · intro h; cases h; exact beq_self_eq_true i
    | _ => exact ⟨fun h => (by simp [Value.eq] at h), fun h => (by cases h)⟩
  | .arr l, b, ha, hb => by
    cases b with
    | arr r =>
      have hl : ∀ v ∈ l, Proper v := by cases ha; assumption
      have hr : ∀ v ∈ r, Proper v := by cases hb; assumption
      have := eqList_same l r hl hr
      constructor
      · intro h
        have := this.1 h
        exact .arr this.1 this.2
      · intro h
        cases h with
        | arr h1 h2 => exact this.2 ⟨h1, h2⟩
    | _ => exact ⟨fun h => (by simp [Value.eq] at h), fun h => (by cases h)⟩
  | .map l, b, ha, hb => by
    cases b with
    | map r =>
      have hln : KeysNodup l := by cases ha; assumption
      have hrn : KeysNodup r := by cases hb; assumption
      have hl : ∀ k v, (k, v) ∈ l → Proper v := by cases ha; assumption
      have hr : ∀ k v, (k, v) ∈ r → Proper v := by cases hb; assumption
      have := eqPairs_same l r hl hr
      have e : (Value.map l : Value F).eq (.map r) = (l.length == r.length && Value.eqPairs l r) := rfl
      rw [e, Bool.and_eq_true, beq_iff_eq, this]
      constructor
      · rintro ⟨h1, h2⟩
        have hs : ∀ k ∈ l.map Prod.fst, k ∈ r.map Prod.fst := by
          intro k hk
          obtain ⟨p, hp, e⟩ := List.mem_map.1 hk
          obtain ⟨w, hw, -⟩ := h2 p.1 p.2 hp
          rw [← e]
          exact amGet_isSome.1 (by rw [hw]; rfl)
        have hs' := nodup_mem_of_length hln hrn hs (by simpa using h1)
        refine .map (fun k => ?_) (fun k a b h3 h4 => ?_)
        · rw [Bool.eq_iff_iff, amGet_isSome, amGet_isSome]
          exact ⟨hs k, hs' k⟩
        · obtain ⟨w, hw, hs⟩ := h2 k a (amGet_mem h3)
          rw [h4] at hw
          cases hw
          exact hs
      · intro h
        cases h with
        | map h1 h2 =>
          have hs : ∀ k, k ∈ l.map Prod.fst ↔ k ∈ r.map Prod.fst := by
            intro k
            rw [← amGet_isSome, ← amGet_isSome, h1 k]
          constructor
          · have a1 := nodup_length_le hln (fun k => (hs k).1)
            have a2 := nodup_length_le hrn (fun k => (hs k).2)
            simp only [List.length_map] at a1 a2
            omega
          · intro k v hk
            have hg := amGet_of_mem hln hk
            have : (amGet k r).isSome = true := by rw [← h1 k, hg]; rfl
            obtain ⟨w, hw⟩ := Option.isSome_iff_exists.1 this
            exact ⟨w, hw, h2 k v w hg hw⟩
    | _ => exact ⟨fun h => (by simp [Value.eq] at h), fun h => (by cases h)⟩
termination_by structural a => a
theorem eqList_same : ∀ (l r : List (Value F)), (∀ v ∈ l, Proper v) → (∀ v ∈ r, Proper v) →
    (Value.eqList l r = true ↔ l.length = r.length ∧ ∀ (i : Nat) a b, l[i]? = some a → r[i]? = some b → Same a b)
  | [], r, _, _ => by
    cases r with
    | nil => exact ⟨fun _ => ⟨rfl, fun i a b h => (by simp at h)⟩, fun _ => rfl⟩
    | cons y r => exact ⟨fun h => (by simp [Value.eqList] at h), fun h => (by simp at h)⟩
  | x :: l, r, hl, hr => by
    cases r with
    | nil => exact ⟨fun h => (by simp [Value.eqList] at h), fun h => (by simp at h)⟩
    | cons y r =>
      have h1 := eq_same x y (hl x (List.mem_cons_self ..)) (hr y (List.mem_cons_self ..))
      have h2 := eqList_same l r (fun v h => hl v (List.mem_cons_of_mem _ h)) (fun v h => hr v (List.mem_cons_of_mem _ h))
      have e : Value.eqList (x :: l) (y :: r) = (x.eq y && Value.eqList l r) := rfl
      rw [e, Bool.and_eq_true, h1, h2]
      constructor
      · rintro ⟨h3, h4, h5⟩
        refine ⟨by simp [h4], fun i a b ha hb => ?_⟩
        cases i with
        | zero => simp at ha hb; subst ha; subst hb; exact h3
        | succ i => exact h5 i a b (by simpa using ha) (by simpa using hb)
      · rintro ⟨h3, h4⟩
        exact ⟨h4 0 x y rfl rfl, by simpa using h3, fun i a b ha hb => h4 (i + 1) a b (by simpa using ha) (by simpa using hb)⟩
termination_by structural l => l
theorem eqPairs_same : ∀ (l r : List (Str × Value F)), (∀ k v, (k, v) ∈ l → Proper v) → (∀ k v, (k, v) ∈ r → Proper v) →
    (Value.eqPairs l r = true ↔ ∀ k v, (k, v) ∈ l → ∃ w, amGet k r = some w ∧ Same v w)
  | [], r, _, _ => ⟨fun _ k v h => absurd h (List.not_mem_nil), fun _ => rfl⟩
  | (k, v) :: l, r, hl, hr => by
    have h2 := eqPairs_same l r (fun k v h => hl k v (List.mem_cons_of_mem _ h)) hr
    have h1 : ∀ w, amGet k r = some w → (v.eq w = true ↔ Same v w) := fun w hw =>
      eq_same v w (hl k v (List.mem_cons_self ..)) (hr k w (amGet_mem hw))
    have e : Value.eqPairs ((k, v) :: l) r = ((match amGet k r with | some w => v.eq w | none => false) && Value.eqPairs l r) := rfl
    rw [e, Bool.and_eq_true, h2]
    constructor
    · rintro ⟨h3, h4⟩ k' v' hm
      rcases List.mem_cons.1 hm with e | e
      · cases e
        cases hg : amGet k r with
        | none => rw [hg] at h3; cases h3
        | some w => rw [hg] at h3; exact ⟨w, rfl, (h1 w hg).1 h3⟩
      · exact h4 k' v' e
    · intro h
      constructor
      · obtain ⟨w, hw, hs⟩ := h k v (List.mem_cons_self ..)
        rw [hw]
        exact (h1 w hw).2 hs
      · exact fun k' v' hm => h k' v' (List.mem_cons_of_mem _ hm)
termination_by structural l => l
end

end Am
