import Verif.Spec.Stats
import Verif.Proofs.Maps
/-! # C34: statistics -/
set_option linter.unusedSimpArgs false
namespace Am
open Spec

/-- The map after a sequence of additions. -/
def addAll (l : List (Str × Nat)) (s : Stats) : Stats := l.foldl (fun s p => s.add p.1 p.2) s

theorem stats_get_add (s : Stats) (name k : Str) (t : Nat) :
    amGet k (s.add name t) = if name = k then some (match amGet k s with | some st => st.add t | none => Stat.new t) else amGet k s := by
  unfold Stats.add
  by_cases h : name = k
  · subst h
    rw [if_pos rfl]
    cases amGet name s <;> exact amGet_insert_self _ _ _
  · rw [if_neg h]
    cases amGet name s <;> exact amGet_insert_ne _ _ h

theorem isStat_new (t : Nat) : IsStat [t] (Stat.new t) := by
  simp [IsStat, Stat.new]

theorem isStat_add {ts : List Nat} {s : Stat} (h : IsStat ts s) (t : Nat) : IsStat (ts ++ [t]) (s.add t) := by
  obtain ⟨h1, h2, ⟨h3, h4⟩, ⟨h5, h6⟩, _, _⟩ := h
  simp only [IsStat, Stat.add, List.length_append, List.length_cons, List.length_nil, List.sum_append, List.sum_cons, List.sum_nil, Nat.add_zero,
    Nat.zero_add, List.mem_append, List.mem_cons, List.not_mem_nil, or_false]
  refine ⟨by omega, by omega, ⟨?_, ?_⟩, ⟨?_, ?_⟩, ?_, ?_⟩
  · split
    · exact Or.inr rfl
    · exact Or.inl h3
  · intro x hx
    rcases hx with hx | hx
    · have := h4 x hx; split <;> omega
    · subst hx; split <;> omega
  · split
    · exact Or.inr rfl
    · exact Or.inl h5
  · intro x hx
    rcases hx with hx | hx
    · have := h6 x hx; split <;> omega
    · subst hx; split <;> omega
  · rw [h1, h2]; exact Nat.div_mul_le_self _ _
  · rw [h1, h2]
    have := Nat.lt_div_mul_add (a := ts.sum + t) (b := ts.length + 1) (by omega)
    rw [Nat.add_mul, Nat.one_mul]
    exact this

theorem timesOf_snoc (name : Str) (l : List (Str × Nat)) (p : Str × Nat) :
    timesOf name (l ++ [p]) = timesOf name l ++ if p.1 = name then [p.2] else [] := by
  simp only [timesOf, List.filter_append, List.map_append]
  by_cases h : p.1 = name <;> simp [h]

/-- C34: after any sequence of additions, a name never added is absent, and every other name has the statistic of exactly the timings added
under it. Every name occurs once. -/
theorem c34_exact (l : List (Str × Nat)) :
    KeysNodup (addAll l []) ∧ ∀ name, (timesOf name l = [] → amGet name (addAll l []) = none) ∧
      (timesOf name l ≠ [] → ∃ s, amGet name (addAll l []) = some s ∧ IsStat (timesOf name l) s) := by
  have key : ∀ n, ∀ l : List (Str × Nat), l.length = n → KeysNodup (addAll l []) ∧ ∀ name, (timesOf name l = [] → amGet name (addAll l []) = none) ∧
      (timesOf name l ≠ [] → ∃ s, amGet name (addAll l []) = some s ∧ IsStat (timesOf name l) s) := by
    intro n
    induction n with
    | zero =>
      intro l hl
      have : l = [] := List.eq_nil_of_length_eq_zero hl
      subst this
      exact ⟨List.nodup_nil, fun name => ⟨fun _ => rfl, fun h => absurd rfl h⟩⟩
    | succ n ih =>
      intro l hl
      have hne : l ≠ [] := by intro h; subst h; simp at hl
      rw [← List.dropLast_concat_getLast hne]
      generalize hp : l.getLast hne = p
      have hl' : l.dropLast.length = n := by simp [hl]
      generalize l.dropLast = l' at hl'
      obtain ⟨i1, i2⟩ := ih l' hl'
      have e : addAll (l' ++ [p]) [] = (addAll l' []).add p.1 p.2 := by simp [addAll]
      rw [e]
      refine ⟨?_, ?_⟩
      · unfold Stats.add
        split <;> exact amInsert_nodup i1
      · intro name
        obtain ⟨j1, j2⟩ := i2 name
        rw [timesOf_snoc, stats_get_add]
        by_cases h : p.1 = name
        · rw [if_pos h, if_pos h]
          refine ⟨fun hc => absurd hc (by simp), fun _ => ⟨_, rfl, ?_⟩⟩
          by_cases hn : timesOf name l' = []
          · rw [j1 hn, hn]
            exact isStat_new p.2
          · obtain ⟨s, k1, k2⟩ := j2 hn
            rw [k1]
            exact isStat_add k2 p.2
        · rw [if_neg h, if_neg h, List.append_nil]
          exact ⟨j1, j2⟩
  exact key l.length l rfl

/-- A list of timings has only one statistic. -/
theorem isStat_unique {ts ts' : List Nat} {s s' : Stat} (hp : ts.Perm ts') (hne : ts ≠ []) (h : IsStat ts s) (h' : IsStat ts' s') : s = s' := by
  obtain ⟨a1, a2, ⟨a3, a4⟩, ⟨a5, a6⟩, a7, a8⟩ := h
  obtain ⟨b1, b2, ⟨b3, b4⟩, ⟨b5, b6⟩, b7, b8⟩ := h'
  have hl := hp.length_eq
  have hs : ts.sum = ts'.sum := hp.sum_nat
  have hpos : 0 < ts.length := List.length_pos_iff.2 hne
  have m1 := b4 _ (hp.mem_iff.1 a3)
  have m2 := a4 _ (hp.mem_iff.2 b3)
  have m3 := b6 _ (hp.mem_iff.1 a5)
  have m4 := a6 _ (hp.mem_iff.2 b5)
  rw [← hl, ← hs] at b7 b8
  have m5 : s.avg < s'.avg + 1 := Nat.lt_of_mul_lt_mul_right (Nat.lt_of_le_of_lt a7 b8)
  have m6 : s'.avg < s.avg + 1 := Nat.lt_of_mul_lt_mul_right (Nat.lt_of_le_of_lt b7 a8)
  cases s; cases s'
  simp only [Stat.mk.injEq] at *
  omega

/-- C34: reordering the additions changes nothing: every name has the same statistic, or none, as before. -/
theorem c34_order (l l' : List (Str × Nat)) (h : l.Perm l') (name : Str) : amGet name (addAll l []) = amGet name (addAll l' []) := by
  have hp : (timesOf name l).Perm (timesOf name l') := (h.filter _).map _
  obtain ⟨a1, a2⟩ := (c34_exact l).2 name
  obtain ⟨b1, b2⟩ := (c34_exact l').2 name
  by_cases hn : timesOf name l = []
  · rw [a1 hn, b1 (by rw [hn] at hp; exact hp.symm.eq_nil)]
  · obtain ⟨s, k1, k2⟩ := a2 hn
    obtain ⟨s', k1', k2'⟩ := b2 (fun hc => hn (by rw [hc] at hp; exact hp.eq_nil))
    rw [k1, k1', isStat_unique hp hn k2 k2']

/-- C34: the entries themselves are the same up to their order in the map. -/
theorem c34_order_entries (l l' : List (Str × Nat)) (h : l.Perm l') : (addAll l []).Perm (addAll l' []) := by
  have n1 := (c34_exact l).1
  have n2 := (c34_exact l').1
  have nd : ∀ {m : Stats}, KeysNodup m → m.Nodup := fun hn => List.Pairwise.imp (fun h he => h (by rw [he])) (List.pairwise_map.1 hn)
  refine (List.perm_ext_iff_of_nodup (nd n1) (nd n2)).2 ?_
  intro ⟨k, v⟩
  exact ⟨fun hm => amGet_mem (by rw [← c34_order l l' h]; exact amGet_of_mem n1 hm),
    fun hm => amGet_mem (by rw [c34_order l l' h]; exact amGet_of_mem n2 hm)⟩

/-- Concrete case: three timings under `a` and one under `b`, in two orders. -/
example : addAll [(c!"a", 3), (c!"b", 7), (c!"a", 0), (c!"a", 5)] [] = [(c!"a", ⟨3, 8, 2, 5, 0⟩), (c!"b", ⟨1, 7, 7, 7, 7⟩)] ∧
    addAll [(c!"b", 7), (c!"a", 5), (c!"a", 3), (c!"a", 0)] [] = [(c!"b", ⟨1, 7, 7, 7, 7⟩), (c!"a", ⟨3, 8, 2, 5, 0⟩)] := by decide

end Am
