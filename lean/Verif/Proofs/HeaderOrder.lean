import Verif.Spec.HeaderOrder
import Verif.Props.HeaderCase
import Verif.Props.Shown
import Verif.Proofs.Equality
import Verif.Proofs.ProperValues
/-!
# The order of headers: messages, responses, values
-/
set_option linter.unusedSimpArgs false
set_option linter.unusedSectionVars false
namespace Am
open Spec
variable {F : Type}

/-! ## Requests -/

theorem headerLines_skip {l : Str} (h1 : ∃ c ∈ l, isWs c = false) (h2 : ':' ∉ l) (r : List Str) : headerLines (l :: r) = headerLines r :=
  headerBlock_unique (.skip l r _ _ h1 h2 (headerLines_block r))

theorem headerLines_field {n v : Str} (h : ':' ∉ n) (r : List Str) :
    headerLines ((n ++ ':' :: v) :: r) = (⟨trim n, trim v⟩ :: (headerLines r).1, (headerLines r).2) :=
  headerBlock_unique (.field n v _ _ r _ _ h (trim_trims n) (trim_trims v) (headerLines_block r))

theorem headerLines_moved {ls ls' : List Str} (h : MovedLines ls ls') :
    (headerLines ls').2 = (headerLines ls).2 ∧ Moved (headerLines ls).1 (headerLines ls').1 := by
  induction h with
  | same ls => exact ⟨rfl, .same _⟩
  | swap n v n' v' r h1 h2 h3 =>
    rw [headerLines_field h1, headerLines_field h2, headerLines_field h2, headerLines_field h1]
    exact ⟨rfl, .swap _ _ _ (h3 _ _ (trim_trims n) (trim_trims n'))⟩
  | cons l hl _ ih =>
    by_cases hc : ':' ∈ l
    · obtain ⟨n, v, rfl, hn⟩ := List.eq_append_cons_of_mem hc
      rw [headerLines_field hn, headerLines_field hn]
      exact ⟨ih.1, .cons _ ih.2⟩
    · rw [headerLines_skip hl hc, headerLines_skip hl hc]
      exact ih
  | trans _ _ ih1 ih2 => exact ⟨ih2.1.trans ih1.1, .trans ih1.2 ih2.2⟩

theorem moved_perm {hs hs' : List Header} (h : Moved hs hs') : hs.Perm hs' := by
  induction h with
  | same => exact .refl _
  | swap a b hs _ => exact .swap _ _ _
  | cons a _ ih => exact .cons _ ih
  | trans _ _ ih1 ih2 => exact .trans ih1 ih2

theorem moved_symm {hs hs' : List Header} (h : Moved hs hs') : Moved hs' hs := by
  induction h with
  | same => exact .same _
  | swap a b hs hn => exact .swap _ _ _ fun h => hn (sameLetters_lower.2 (sameLetters_lower.1 h).symm)
  | cons a _ ih => exact .cons _ ih
  | trans _ _ ih1 ih2 => exact .trans ih2 ih1

theorem contentType_moved {hs hs' : List Header} (h : Moved hs hs') : contentType hs' = contentType hs := by
  unfold contentType
  have key : hs'.find? (fun h => lower h.name == c!"content-type") = hs.find? (fun h => lower h.name == c!"content-type") := by
    induction h with
    | same => rfl
    | swap a b hs hn =>
      rw [List.find?_cons, List.find?_cons, List.find?_cons, List.find?_cons]
      cases ha : lower a.name == c!"content-type" <;> cases hb : lower b.name == c!"content-type" <;> try rfl
      exact absurd (sameLetters_lower.2 ((eq_of_beq ha).trans (eq_of_beq hb).symm)) hn
    | cons a _ ih => rw [List.find?_cons, List.find?_cons, ih]
    | trans _ _ ih1 ih2 => exact ih2.trans ih1
  first
    | rw [key]
    | exact congrArg _ key

/-! ## Responses -/

theorem headerText_uniq {s : Str} {hs hs' : List Header} {b b' : Str} (hh : HeaderText s hs b) (hh' : HeaderText s hs' b') : hs = hs' ∧ b = b' := by
  have h1 := readHeaders_text hh _ (Nat.lt_succ_self _)
  rw [readHeaders_text hh' _ (Nat.lt_succ_self _)] at h1
  simp only [Res.ok.injEq, Prod.mk.injEq, Incoming.mk.injEq] at h1
  exact ⟨h1.1.symm, (utf8_inj h1.2.1).symm⟩

theorem headerText_moved {s s' : Str} (h : MovedText s s') : ∀ {hs : List Header} {body : Str}, HeaderText s hs body →
    ∃ hs', HeaderText s' hs' body ∧ Moved hs hs' := by
  have line : ∀ {n v : Str}, '\n' ∉ n → '\n' ∉ v → '\n' ∉ n ++ ':' :: v := by
    intro n v hn hv hm
    rcases List.mem_append.1 hm with h | h
    · exact hn h
    · rcases List.mem_cons.1 h with h | h
      · cases h
      · exact hv h
  induction h with
  | same s => intro hs body hb; exact ⟨hs, hb, .same hs⟩
  | swap n v n' v' r hnl h1 h2 h3 =>
    intro hs body hb
    simp only [List.mem_append, not_or] at hnl
    obtain ⟨⟨⟨l1, l2⟩, l3⟩, l4⟩ := hnl
    obtain ⟨hs2, b2, hb2⟩ := headerText_total r.length r (Nat.le_refl _)
    have e1 := HeaderText.field _ n' v' _ _ r hs2 b2 (.more _ r (line l3 l4)) h2 (trim_trims n') (trim_trims v') hb2
    have e2 := HeaderText.field _ n v _ _ _ _ b2 (.more _ _ (line l1 l2)) h1 (trim_trims n) (trim_trims v) e1
    obtain ⟨rfl, rfl⟩ := headerText_uniq hb e2
    have f1 := HeaderText.field _ n v _ _ r hs2 _ (.more _ r (line l1 l2)) h1 (trim_trims n) (trim_trims v) hb2
    have f2 := HeaderText.field _ n' v' _ _ _ _ _ (.more _ _ (line l3 l4)) h2 (trim_trims n') (trim_trims v') f1
    exact ⟨_, f2, .swap _ _ _ (h3 _ _ (trim_trims n) (trim_trims n'))⟩
  | @cons l r r' hl hn _ ih =>
    intro hs body hb
    obtain ⟨hs2, b2, hb2⟩ := headerText_total r.length r (Nat.le_refl _)
    by_cases hc : ':' ∈ l
    · obtain ⟨n, v, rfl, hcn⟩ := List.eq_append_cons_of_mem hc
      obtain ⟨rfl, rfl⟩ := headerText_uniq hb (.field _ n v _ _ r hs2 b2 (.more _ r hn) hcn (trim_trims n) (trim_trims v) hb2)
      obtain ⟨hs', h1, h2⟩ := ih hb2
      exact ⟨_, .field _ n v _ _ r' hs' _ (.more _ r' hn) hcn (trim_trims n) (trim_trims v) h1, .cons _ h2⟩
    · obtain ⟨rfl, rfl⟩ := headerText_uniq hb (.skip _ l r hs2 b2 (.more l r hn) hl hc hb2)
      obtain ⟨hs', h1, h2⟩ := ih hb2
      exact ⟨hs', .skip _ l r' hs' _ (.more l r' hn) hl hc h1, h2⟩
  | trans _ _ ih1 ih2 =>
    intro hs body hb
    obtain ⟨hs', h1, h2⟩ := ih1 hb
    obtain ⟨hs'', h3, h4⟩ := ih2 h1
    exact ⟨hs'', h3, .trans h2 h4⟩

theorem valuesOf_moved {hs hs' : List Header} (h : Moved hs hs') (name : Str) : valuesOf name hs' = valuesOf name hs := by
  induction h with
  | same => rfl
  | swap a b hs hn =>
    unfold valuesOf
    unfold valuesOf
    by_cases ha : a.name = name
    · by_cases hb : b.name = name
      · exact absurd (sameLetters_lower.2 (congrArg lower (ha.trans hb.symm))) hn
      · rw [if_neg hb, if_pos ha, if_pos ha, if_neg hb]
    · by_cases hb : b.name = name
      · rw [if_pos hb, if_neg ha, if_neg ha, if_pos hb]
      · rw [if_neg hb, if_neg ha, if_neg ha, if_neg hb]
  | cons a _ ih =>
    unfold valuesOf
    rw [ih]
  | trans _ _ ih1 ih2 => exact ih2.trans ih1

/-! ## Values -/

theorem unordered_refl : ∀ {v : Value F}, Proper v → Unordered v v := by
  intro v h
  induction h with
  | null => exact .null
  | int i => exact .int i
  | float f => exact .float f
  | bool b => exact .bool b
  | str s => exact .str s
  | arr _ ih =>
    refine .arr rfl fun i a b ha hb => ?_
    rw [ha] at hb
    cases hb
    exact ih a (List.mem_of_getElem? ha)
  | map hn _ ih =>
    refine .map hn hn (fun _ => rfl) fun k a b ha hb => ?_
    rw [ha] at hb
    cases hb
    exact ih k a (amGet_mem ha)

theorem unordered_symm {v w : Value F} (h : Unordered v w) : Unordered w v := by
  induction h with
  | null => exact .null
  | int i => exact .int i
  | float f => exact .float f
  | bool b => exact .bool b
  | str s => exact .str s
  | arr hl _ ih => exact .arr hl.symm fun i a b ha hb => ih i b a hb ha
  | map hn hn' hk _ ih => exact .map hn' hn (fun k => (hk k).symm) fun k a b ha hb => ih k b a hb ha

theorem unordered_proper {v w : Value F} (h : Unordered v w) : Proper v := by
  induction h with
  | null => exact .null
  | int i => exact .int i
  | float f => exact .float f
  | bool b => exact .bool b
  | str s => exact .str s
  | @arr l r hl _ ih =>
    refine .arr fun v hv => ?_
    obtain ⟨i, hi⟩ := List.getElem?_of_mem hv
    have : i < r.length := by rw [← hl]; exact (List.getElem?_eq_some_iff.1 hi).1
    exact ih i v r[i] hi (List.getElem?_eq_getElem this)
  | @map l r hn hn' hk _ ih =>
    refine .map hn fun k v hv => ?_
    have hg := amGet_of_mem hn hv
    have := hk k
    rw [hg] at this
    cases hr : amGet k r with
    | none => rw [hr] at this; cases this
    | some b => exact ih k v b hg hr

/-- A value without larger maps has only one order. -/
theorem unordered_oneWay {v : Value F} (h : OneWay v) : ∀ {w : Value F}, Unordered v w → w = v := by
  induction h with
  | null => intro w h; cases h; rfl
  | int => intro w h; cases h; rfl
  | float => intro w h; cases h; rfl
  | bool => intro w h; cases h; rfl
  | str => intro w h; cases h; rfl
  | arr items _ ih =>
    intro w h
    cases h with
    | arr hl hi =>
      congr 1
      refine List.ext_getElem hl.symm fun i h1 h2 => ?_
      exact ih _ (List.getElem_mem h2) (hi i _ _ (List.getElem?_eq_getElem h2) (List.getElem?_eq_getElem h1))
  | none =>
    intro w h
    cases h with
    | @map _ r hn hn' hk hv =>
      cases r with
      | nil => rfl
      | cons p r =>
        have := hk p.1
        have hg : (amGet p.1 (p :: r)).isSome = true := amGet_isSome.2 List.mem_cons_self
        rw [hg] at this
        cases this
  | one k v _ ih =>
    intro w h
    cases h with
    | @map _ r hn hn' hk hv =>
      have only : ∀ x ∈ r.map Prod.fst, x = k := by
        intro x hx
        have h1 := (hk x).trans (amGet_isSome.2 hx)
        have h2 := amGet_isSome.1 h1
        simpa using h2
      have hkr : k ∈ r.map Prod.fst := amGet_isSome.1 ((hk k).symm.trans (amGet_isSome.2 (by simp)))
      match r, hkr, only, hn', hk, hv with
      | [(k', v')], _, only, _, _, hv =>
        have e : k' = k := only k' (by simp)
        subst e
        have g : ∀ x : Value F, amGet k' [(k', x)] = some x := fun x => amGet_of_mem (by simp [KeysNodup]) List.mem_cons_self
        rw [ih (hv k' v v' (g v) (g v'))]
      | p :: q :: r, _, only, hn', _, _ =>
        have h1 := only p.1 (by simp)
        have h2 := only q.1 (by simp)
        simp [h1, h2] at hn'

theorem same_unordered [Rt F] {a b : Value F} (h : Same a b) : ∀ {a' b' : Value F}, Unordered a a' → Unordered b b' → Same a' b' := by
  induction h with
  | null => intro a' b' h h'; cases h; cases h'; exact .null
  | int => intro a' b' h h'; cases h; cases h'; exact .int _
  | float hf => intro a' b' h h'; cases h; cases h'; exact .float hf
  | bool => intro a' b' h h'; cases h; cases h'; exact .bool _
  | str => intro a' b' h h'; cases h; cases h'; exact .str _
  | @arr l r hlen _ ih =>
    intro a' b' h h'
    cases h with
    | @arr _ l' hl hi =>
      cases h' with
      | @arr _ r' hr hj =>
        refine .arr (hl.symm.trans (hlen.trans hr)) fun i a b ha hb => ?_
        have h1 : i < l.length := by rw [hl]; exact (List.getElem?_eq_some_iff.1 ha).1
        have h2 : i < r.length := by rw [hr]; exact (List.getElem?_eq_some_iff.1 hb).1
        exact ih i l[i] r[i] (List.getElem?_eq_getElem h1) (List.getElem?_eq_getElem h2) (hi i _ a (List.getElem?_eq_getElem h1) ha)
          (hj i _ b (List.getElem?_eq_getElem h2) hb)
  | @map l r hk _ ih =>
    intro a' b' h h'
    cases h with
    | @map _ l' n1 n1' k1 v1 =>
      cases h' with
      | @map _ r' n2 n2' k2 v2 =>
        refine .map (fun k => (k1 k).symm.trans ((hk k).trans (k2 k))) fun k a b ha hb => ?_
        have e1 := k1 k
        have e2 := k2 k
        rw [ha] at e1
        rw [hb] at e2
        obtain ⟨x, hx⟩ := Option.isSome_iff_exists.1 e1
        obtain ⟨y, hy⟩ := Option.isSome_iff_exists.1 e2
        exact ih k x y hx hy (v1 k x a hx ha) (v2 k y b hy hb)

theorem eq_unordered [Rt F] {a b a' b' : Value F} (h : Unordered a a') (h' : Unordered b b') : a'.eq b' = a.eq b := by
  have e1 := eq_same a b (unordered_proper h) (unordered_proper h')
  have e2 := eq_same a' b' (unordered_proper (unordered_symm h)) (unordered_proper (unordered_symm h'))
  have e3 : Same a' b' ↔ Same a b := ⟨fun x => same_unordered x (unordered_symm h) (unordered_symm h'), fun x => same_unordered x h h'⟩
  rw [Bool.eq_iff_iff, e1, e2, e3]

theorem cmp_unordered [Rt F] {a b a' b' : Value F} (h : Unordered a a') (h' : Unordered b b') : a'.cmp b' = a.cmp b := by
  cases h <;> cases h' <;> rfl

theorem falsy_unordered {a a' : Value F} [Rt F] (h : Unordered a a') : a'.falsy = a.falsy := by
  cases h <;> rfl

theorem compare_unordered [Rt F] (k : Kind) {a b a' b' : Value F} (h : Unordered a a') (h' : Unordered b b') : compareValues k a' b' = compareValues k a b := by
  have e1 := eq_unordered h h'
  have e2 := cmp_unordered h h'
  unfold compareValues Value.lt Value.gt Value.le Value.ge
  rw [e1, e2]

theorem get_unordered {l r : List (Str × Value F)} (h : Unordered (.map l) (.map r)) (k : Str) :
    (amGet k l = none ∧ amGet k r = none) ∨ ∃ a b, amGet k l = some a ∧ amGet k r = some b ∧ Unordered a b := by
  cases h with
  | map _ _ hk hv =>
    have := hk k
    cases hl : amGet k l with
    | none =>
      cases hr : amGet k r with
      | none => exact .inl ⟨rfl, rfl⟩
      | some b => rw [hl, hr] at this; cases this
    | some a =>
      cases hr : amGet k r with
      | none => rw [hl, hr] at this; cases this
      | some b => exact .inr ⟨a, b, rfl, rfl, hv k a b hl hr⟩

theorem insert_unordered {l r : List (Str × Value F)} (h : Unordered (.map l) (.map r)) {a b : Value F} (hab : Unordered a b) (k : Str) :
    Unordered (.map (amInsert k a l)) (.map (amInsert k b r)) := by
  have hg := get_unordered h
  cases h with
  | map hn hn' hk hv =>
    refine .map (amInsert_nodup hn) (amInsert_nodup hn') (fun x => ?_) fun x u w hu hw => ?_
    · rw [amGet_insert, amGet_insert]
      split
      · rfl
      · exact hk x
    · rw [amGet_insert] at hu hw
      split at hu
      · rename_i e
        rw [if_pos e] at hw
        cases hu
        cases hw
        exact hab
      · rename_i e
        rw [if_neg e] at hw
        exact hv x u w hu hw

theorem length_unordered {l r : List (Str × Value F)} (h : Unordered (.map l) (.map r)) : r.length = l.length := by
  cases h with
  | map hn hn' hk _ =>
    have h1 := nodup_length_le hn (r := r.map Prod.fst) fun x hx => amGet_isSome.1 ((hk x).symm.trans (amGet_isSome.2 hx))
    have h2 := nodup_length_le hn' (r := l.map Prod.fst) fun x hx => amGet_isSome.1 ((hk x).trans (amGet_isSome.2 hx))
    rw [List.length_map, List.length_map] at h1 h2
    omega

theorem headerMap_moved [Rt F] {hs hs' : List Header} (h : Moved hs hs') : Unordered (.map (headerMap (F := F) hs)) (.map (headerMap hs')) := by
  have e : ∀ k, amGet k (headerMap (F := F) hs') = amGet k (headerMap hs) := fun k => by
    rw [(headerMap_values hs).2, (headerMap_values hs').2, valuesOf_moved h]
  have hp := headerMap_proper (F := F) hs
  refine .map (headerMap_values hs).1 (headerMap_values hs').1 (fun k => by rw [e]) fun k a b ha hb => ?_
  rw [e, ha] at hb
  cases hb
  exact unordered_refl (proper_get hp ha)

end Am
