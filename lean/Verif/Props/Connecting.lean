import Verif.Model.Stream
/-!
# Connecting: C47, C48
-/
set_option linter.unusedSimpArgs false
namespace Am

/-! ## C47 -/

theorem rotate_nil_right {α : Type} (a : List α) : rotate a [] = a := by
  induction a with
  | nil => rw [rotate]
  | cons x a ih => rw [rotate, ih]

theorem rotate_nil_left {α : Type} (b : List α) : rotate [] b = b := by
  induction b with
  | nil => rw [rotate]
  | cons x b ih => rw [rotate, ih]

/-- C47: the sequences alternate, starting with the first, until one runs out; then come the rest of the other. -/
theorem c47_alternates {α : Type} (a b : List α) :
    (∀ i, i < a.length → i < b.length → (rotate a b)[2 * i]? = a[i]? ∧ (rotate a b)[2 * i + 1]? = b[i]?) ∧
    (rotate a b).drop (2 * min a.length b.length) = a.drop (min a.length b.length) ++ b.drop (min a.length b.length) := by
  induction a generalizing b with
  | nil => exact ⟨fun i h => by simp at h, by simp [rotate_nil_left]⟩
  | cons x a ih =>
    cases b with
    | nil => exact ⟨fun i _ h => by simp at h, by simp [rotate_nil_right]⟩
    | cons y b =>
      obtain ⟨i1, i2⟩ := ih b
      rw [rotate]
      refine ⟨?_, ?_⟩
      · intro i ha hb
        cases i with
        | zero => exact ⟨rfl, rfl⟩
        | succ i =>
          obtain ⟨j1, j2⟩ := i1 i (by simpa using ha) (by simpa using hb)
          rw [show 2 * (i + 1) = 2 * i + 1 + 1 by omega]
          simp only [List.getElem?_cons_succ]
          exact ⟨j1, j2⟩
      · have e : min (x :: a).length (y :: b).length = min a.length b.length + 1 := by simp only [List.length_cons]; omega
        rw [e, show 2 * (min a.length b.length + 1) = 2 * min a.length b.length + 1 + 1 by omega]
        simp only [List.drop_succ_cons]
        exact i2

/-- C47: nothing is lost or repeated. -/
theorem c47_perm {α : Type} (a b : List α) : (rotate a b).Perm (a ++ b) := by
  induction a generalizing b with
  | nil => rw [rotate_nil_left]; exact .refl _
  | cons x a ih =>
    cases b with
    | nil => rw [rotate_nil_right, List.append_nil]
    | cons y b =>
      rw [rotate]
      refine .cons x ?_
      refine .trans (.cons y (ih b)) ?_
      exact List.perm_middle.symm

/-- C47: both sequences keep their order. -/
theorem c47_order {α : Type} (a b : List α) : a.Sublist (rotate a b) ∧ b.Sublist (rotate a b) := by
  induction a generalizing b with
  | nil => rw [rotate_nil_left]; exact ⟨List.nil_sublist _, List.Sublist.refl _⟩
  | cons x a ih =>
    cases b with
    | nil => rw [rotate_nil_right]; exact ⟨List.Sublist.refl _, List.nil_sublist _⟩
    | cons y b =>
      rw [rotate]
      exact ⟨.cons_cons x (.cons y (ih b).1), .cons x (.cons_cons y (ih b).2)⟩

/-- C47: the addresses tried are the resolved addresses, each once. -/
theorem c47_addresses (addrs : List Addr) : (attemptOrder addrs).Perm addrs :=
  (c47_perm _ _).trans (List.filter_append_perm _ _)

theorem rotate_filter_left {a b : List Addr} (ha : ∀ x ∈ a, x.v6 = true) (hb : ∀ x ∈ b, x.v6 = false) : (rotate a b).filter (·.v6) = a := by
  induction a generalizing b with
  | nil => rw [rotate_nil_left, List.filter_eq_nil_iff]; intro x hx; rw [hb x hx]; simp
  | cons x a ih =>
    cases b with
    | nil => rw [rotate_nil_right, List.filter_eq_self]; exact ha
    | cons y b =>
      rw [rotate, List.filter_cons, if_pos (ha x List.mem_cons_self), List.filter_cons, if_neg (by rw [hb y List.mem_cons_self]; simp),
        ih (fun z hz => ha z (List.mem_cons_of_mem _ hz)) (fun z hz => hb z (List.mem_cons_of_mem _ hz))]

theorem rotate_filter_right {a b : List Addr} (ha : ∀ x ∈ a, x.v6 = true) (hb : ∀ x ∈ b, x.v6 = false) : (rotate a b).filter (!·.v6) = b := by
  induction a generalizing b with
  | nil => rw [rotate_nil_left, List.filter_eq_self]; intro x hx; rw [hb x hx]; rfl
  | cons x a ih =>
    cases b with
    | nil => rw [rotate_nil_right, List.filter_eq_nil_iff]; intro x hx; rw [ha x hx]; simp
    | cons y b =>
      rw [rotate, List.filter_cons, if_neg (by rw [ha x List.mem_cons_self]; simp), List.filter_cons, if_pos (by rw [hb y List.mem_cons_self]; rfl),
        ih (fun z hz => ha z (List.mem_cons_of_mem _ hz)) (fun z hz => hb z (List.mem_cons_of_mem _ hz))]

/-- C47: within each family the addresses keep the order in which they were resolved. -/
theorem c47_families (addrs : List Addr) :
    (attemptOrder addrs).filter (·.v6) = addrs.filter (·.v6) ∧ (attemptOrder addrs).filter (!·.v6) = addrs.filter (!·.v6) := by
  have ha : ∀ x ∈ addrs.filter (·.v6), x.v6 = true := fun x hx => (List.mem_filter.1 hx).2
  have hb : ∀ x ∈ addrs.filter (!·.v6), x.v6 = false := fun x hx => by simpa using (List.mem_filter.1 hx).2
  exact ⟨rotate_filter_left ha hb, rotate_filter_right ha hb⟩

/-- C47: the first address tried is an IPv6 address if there is one, and families alternate while both have addresses left. -/
theorem c47_first (addrs : List Addr) :
    ((∃ a ∈ addrs, a.v6 = true) → ∃ a, (attemptOrder addrs).head? = some a ∧ a.v6 = true) ∧
    (∀ i, i < (addrs.filter (·.v6)).length → i < (addrs.filter (!·.v6)).length →
      ∃ a b, (attemptOrder addrs)[2 * i]? = some a ∧ a.v6 = true ∧ (attemptOrder addrs)[2 * i + 1]? = some b ∧ b.v6 = false) := by
  constructor
  · rintro ⟨a, ha, hv⟩
    have hm : a ∈ addrs.filter (·.v6) := List.mem_filter.2 ⟨ha, hv⟩
    unfold attemptOrder
    cases hf : addrs.filter (·.v6) with
    | nil => rw [hf] at hm; cases hm
    | cons x l =>
      have hx : x.v6 = true := (List.mem_filter.1 (show x ∈ addrs.filter (·.v6) by rw [hf]; exact List.mem_cons_self)).2
      cases addrs.filter (!·.v6) with
      | nil => exact ⟨x, by rw [rotate_nil_right]; rfl, hx⟩
      | cons y l' => exact ⟨x, by rw [rotate]; rfl, hx⟩
  · intro i h1 h2
    obtain ⟨e1, e2⟩ := (c47_alternates (addrs.filter (·.v6)) (addrs.filter (!·.v6))).1 i h1 h2
    refine ⟨(addrs.filter (·.v6))[i], (addrs.filter (!·.v6))[i], ?_, ?_, ?_, ?_⟩
    · rw [← List.getElem?_eq_getElem h1]; exact e1
    · exact (List.mem_filter.1 (List.getElem_mem h1)).2
    · rw [← List.getElem?_eq_getElem h2]; exact e2
    · simpa using (List.mem_filter.1 (List.getElem_mem h2)).2

/-- Concrete case: one IPv4 address first, then three IPv6 ones. -/
example : attemptOrder [⟨false, 0⟩, ⟨true, 1⟩, ⟨true, 2⟩, ⟨true, 3⟩] = [⟨true, 1⟩, ⟨false, 0⟩, ⟨true, 2⟩, ⟨true, 3⟩] := by
  simp [attemptOrder, rotate]

/-! ## C48 -/

/-- What holds at every moment of a race: `handled` are the addresses whose result was received and was a failure, oldest first. -/
structure RaceInv (up : Addr → Bool) (addrs : List Addr) (r : Race) (handled : List Addr) : Prop where
  results : ∀ p ∈ r.queue, p.2 = up p.1
  failures : ∀ a ∈ handled, up a = false
  error : r.error = handled.head?
  /-- every address is in exactly one place, except the one connected to -/
  places : ∀ a, r.pc = .connected a → up a = true ∧ (r.todo ++ r.running ++ r.queue.map Prod.fst ++ handled ++ [a]).Perm addrs
  rest : (∀ a, r.pc ≠ .connected a) → (r.todo ++ r.running ++ r.queue.map Prod.fst ++ handled).Perm addrs
  drained : r.pc = .drain → r.todo = []
  over : ∀ e, r.pc = .failed e → e = handled.head? ∧ r.todo = [] ∧ r.running = [] ∧ r.queue = []

theorem race_inv_init (up : Addr → Bool) (addrs : List Addr) : RaceInv up addrs (Race.init addrs) [] := by
  refine ⟨by simp [Race.init], by simp, rfl, fun a h => by simp [Race.init] at h, fun _ => ?_, fun h => by simp [Race.init] at h, fun e h => by simp [Race.init] at h⟩
  simpa [Race.init] using c47_addresses addrs

theorem perm_move {α : Type} {a b c d : List α} {x : α} : (a ++ b ++ (x :: c) ++ d).Perm (a ++ b ++ c ++ (d ++ [x])) := by
  have h1 : (a ++ b ++ (x :: c) ++ d).Perm (x :: (a ++ b ++ c ++ d)) := by
    have : a ++ b ++ (x :: c) ++ d = (a ++ b) ++ x :: (c ++ d) := by simp
    rw [this]
    refine List.perm_middle.trans ?_
    simp
  refine h1.trans ?_
  have e : a ++ b ++ c ++ (d ++ [x]) = (a ++ b ++ c ++ d) ++ [x] := by simp
  rw [e]
  exact List.perm_append_singleton x _ |>.symm

theorem race_inv_handle {up : Addr → Bool} {addrs : List Addr} {r : Race} {handled : List Addr} {a : Addr} {ok : Bool} {q : List (Addr × Bool)} {next : RacePc}
    (h : RaceInv up addrs r handled) (hq : r.queue = (a, ok) :: q) (hpc : ∀ x, r.pc ≠ .connected x) (hnext : (next = .head) ∨ (next = .drain ∧ r.todo = [])) :
    ∃ handled', RaceInv up addrs ({ r with queue := q }.handle next a ok) handled' := by
  have hok := h.results (a, ok) (by rw [hq]; exact List.mem_cons_self)
  have hrest := h.rest hpc
  rw [hq] at hrest
  simp only [List.map_cons] at hrest
  cases ok with
  | true =>
    refine ⟨handled, ?_, h.failures, h.error, ?_, ?_, ?_, ?_⟩
    · intro p hp; exact h.results p (by rw [hq]; exact List.mem_cons_of_mem _ hp)
    · intro x hx
      simp only [Race.handle, if_true, RacePc.connected.injEq] at hx
      subst hx
      refine ⟨hok.symm, ?_⟩
      simp only [Race.handle, if_true]
      refine List.Perm.trans ?_ hrest
      rw [List.append_assoc _ handled]
      exact perm_move.symm
    · intro hx; exact absurd rfl (hx a)
    · intro hx; simp [Race.handle] at hx
    · intro e hx; simp [Race.handle] at hx
  | false =>
    refine ⟨handled ++ [a], ?_, ?_, ?_, ?_, ?_, ?_, ?_⟩
    · intro p hp
      exact h.results p (by rw [hq]; exact List.mem_cons_of_mem _ (by simpa [Race.handle] using hp))
    · intro x hx
      rcases List.mem_append.1 hx with hx | hx
      · exact h.failures x hx
      · rw [List.mem_singleton] at hx; subst hx; exact hok.symm
    · simp only [Race.handle, Bool.false_eq_true, if_false]
      rw [h.error]
      cases handled <;> rfl
    · intro x hx
      simp only [Race.handle, Bool.false_eq_true, if_false] at hx
      rcases hnext with rfl | ⟨rfl, _⟩ <;> cases hx
    · intro _
      simp only [Race.handle, Bool.false_eq_true, if_false]
      exact perm_move.symm.trans hrest
    · intro hx
      simp only [Race.handle, Bool.false_eq_true, if_false] at hx ⊢
      rcases hnext with rfl | ⟨rfl, ht⟩
      · cases hx
      · exact ht
    · intro e hx
      simp only [Race.handle, Bool.false_eq_true, if_false] at hx
      rcases hnext with rfl | ⟨rfl, _⟩ <;> cases hx

theorem race_inv_step {up : Addr → Bool} {addrs : List Addr} {r r' : Race} {handled : List Addr} {s : RaceStep}
    (h : RaceInv up addrs r handled) (hs : r.step up s = some r') : ∃ handled', RaceInv up addrs r' handled' := by
  cases s with
  | main =>
    simp only [Race.step] at hs
    split at hs
    · rename_i a rest hpc ht
      cases hs
      refine ⟨handled, h.results, h.failures, h.error, ?_, ?_, ?_, ?_⟩
      · intro x hx; cases hx
      · intro _
        have := h.rest (by rw [hpc]; intro x hx; cases hx)
        rw [ht] at this
        dsimp only
        refine List.Perm.trans ?_ this
        have e : rest ++ (r.running ++ [a]) ++ r.queue.map Prod.fst ++ handled = (rest ++ r.running) ++ a :: (r.queue.map Prod.fst ++ handled) := by simp
        rw [e]
        refine List.perm_middle.trans ?_
        simp
      · intro hx; cases hx
      · intro e hx; cases hx
    · rename_i hpc ht
      cases hs
      refine ⟨handled, h.results, h.failures, h.error, ?_, ?_, ?_, ?_⟩
      · intro x hx; cases hx
      · intro _; exact h.rest (by rw [hpc]; intro x hx; cases hx)
      · intro _; exact ht
      · intro e hx; cases hx
    · cases hs
  | finish a =>
    simp only [Race.step] at hs
    split at hs
    · rename_i ha
      cases hs
      have hp : (r.todo ++ r.running.erase a ++ (r.queue ++ [(a, up a)]).map Prod.fst ++ handled).Perm (r.todo ++ r.running ++ r.queue.map Prod.fst ++ handled) := by
        have h1 : (r.running.erase a ++ (r.queue.map Prod.fst ++ [a])).Perm (r.running ++ r.queue.map Prod.fst) := by
          rw [← List.append_assoc]
          refine (List.perm_append_singleton a _).trans ?_
          exact (List.perm_cons_erase ha).symm.append_right _
        simp only [List.map_append, List.map_cons, List.map_nil]
        rw [List.append_assoc r.todo, List.append_assoc r.todo r.running]
        exact (h1.append_left _).append_right _
      refine ⟨handled, ?_, h.failures, h.error, ?_, ?_, h.drained, ?_⟩
      · intro p hx
        rcases List.mem_append.1 hx with hx | hx
        · exact h.results p hx
        · rw [List.mem_singleton] at hx; subst hx; rfl
      · intro x hx
        obtain ⟨h1, h2⟩ := h.places x hx
        exact ⟨h1, (hp.append_right [x]).trans h2⟩
      · intro hx; exact hp.trans (h.rest hx)
      · intro e hx
        obtain ⟨_, _, h3, _⟩ := h.over e hx
        rw [h3] at ha; cases ha
    · cases hs
  | recv =>
    simp only [Race.step] at hs
    split at hs
    · rename_i a ok q hpc hq
      cases hs
      exact race_inv_handle h hq (by rw [hpc]; intro x hx; cases hx) (Or.inl rfl)
    · rename_i a ok q hpc hq
      cases hs
      exact race_inv_handle h hq (by rw [hpc]; intro x hx; cases hx) (Or.inr ⟨rfl, h.drained hpc⟩)
    · cases hs
  | timeout =>
    simp only [Race.step] at hs
    split at hs
    · rename_i hpc
      cases hs
      refine ⟨handled, h.results, h.failures, h.error, ?_, ?_, ?_, ?_⟩
      · intro x hx; cases hx
      · intro _; exact h.rest (by rw [hpc]; intro x hx; cases hx)
      · intro hx; cases hx
      · intro e hx; cases hx
    · cases hs
  | giveUp =>
    simp only [Race.step] at hs
    split at hs
    · rename_i hpc hq hr
      cases hs
      refine ⟨handled, h.results, h.failures, h.error, ?_, ?_, ?_, ?_⟩
      · intro x hx; cases hx
      · intro _; exact h.rest (by rw [hpc]; intro x hx; cases hx)
      · intro hx; cases hx
      · intro e hx
        injection hx with hx
        exact ⟨by rw [← hx, h.error], h.drained hpc, hr, hq⟩
    · cases hs

theorem race_inv_run {up : Addr → Bool} {addrs : List Addr} {r r' : Race} {handled : List Addr} {l : List RaceStep}
    (h : RaceInv up addrs r handled) (hs : r.run up l = some r') : ∃ handled', RaceInv up addrs r' handled' := by
  induction l generalizing r handled with
  | nil => cases hs; exact ⟨handled, h⟩
  | cons s l ih =>
    rw [Race.run, Option.bind_eq_some_iff] at hs
    obtain ⟨r1, h1, h2⟩ := hs
    obtain ⟨_, h3⟩ := race_inv_step h h1
    exact ih h3 h2

/-- C48: a returned stream belongs to one of the addresses, and its attempt succeeded. -/
theorem c48_connected (up : Addr → Bool) (addrs : List Addr) (l : List RaceStep) (r : Race) (a : Addr)
    (h : (Race.init addrs).run up l = some r) (hc : r.pc = .connected a) : a ∈ addrs ∧ up a = true := by
  obtain ⟨handled, hi⟩ := race_inv_run (race_inv_init up addrs) h
  obtain ⟨h1, h2⟩ := hi.places a hc
  exact ⟨h2.mem_iff.1 (by simp), h1⟩

/-- C48: an error is returned only after every attempt failed; it is no-connection-available exactly when there is no address. -/
theorem c48_failed (up : Addr → Bool) (addrs : List Addr) (l : List RaceStep) (r : Race) (e : Option Addr)
    (h : (Race.init addrs).run up l = some r) (hc : r.pc = .failed e) :
    (∀ a ∈ addrs, up a = false) ∧ (raceError e = .noConnectionAvailable ↔ addrs = []) ∧ (raceError e = .tcpConnectFailed ↔ addrs ≠ []) := by
  obtain ⟨handled, hi⟩ := race_inv_run (race_inv_init up addrs) h
  obtain ⟨h1, h2, h3, h4⟩ := hi.over e hc
  have hp := hi.rest (by rw [hc]; intro x hx; cases hx)
  rw [h2, h3, h4] at hp
  simp only [List.map_nil, List.append_nil, List.nil_append] at hp
  refine ⟨fun a ha => hi.failures a (hp.mem_iff.2 ha), ?_, ?_⟩
  · subst h1
    cases handled with
    | nil => have := hp.nil_eq; subst this; simp [raceError]
    | cons a t =>
      simp only [List.head?_cons, raceError, reduceCtorEq, false_iff]
      intro he; rw [he] at hp; exact absurd hp.eq_nil (by simp)
  · subst h1
    cases handled with
    | nil => have := hp.nil_eq; subst this; simp [raceError]
    | cons a t =>
      simp only [List.head?_cons, raceError, true_iff]
      intro he; rw [he] at hp; exact absurd hp.eq_nil (by simp)

/-- C48: if some attempt succeeds, the race never ends in an error. -/
theorem c48_some_up (up : Addr → Bool) (addrs : List Addr) (l : List RaceStep) (r : Race) (h : (Race.init addrs).run up l = some r)
    (hu : ∃ a ∈ addrs, up a = true) (e : Option Addr) : r.pc ≠ .failed e := by
  intro hc
  obtain ⟨a, ha, hau⟩ := hu
  rw [(c48_failed up addrs l r e h hc).1 a ha] at hau
  cases hau

/-- The race is over. -/
def Race.ended (r : Race) : Prop := (∃ a, r.pc = .connected a) ∨ ∃ e, r.pc = .failed e

/-- C48: while the race is not over something can happen: an attempt finishes, or main can go on. Once all attempts have finished, main itself
can go on. -/
theorem c48_progress (up : Addr → Bool) (r : Race) (h : ¬ r.ended) :
    (∃ s r', r.step up s = some r') ∧ (r.running = [] → ∃ s r', (∀ a, s ≠ .finish a) ∧ r.step up s = some r') := by
  have main : r.running = [] → ∃ s r', (∀ a, s ≠ .finish a) ∧ r.step up s = some r' := by
    intro hr
    cases hpc : r.pc with
    | head =>
      cases ht : r.todo with
      | nil => exact ⟨.main, _, (by intro a h; cases h), by simp only [Race.step, hpc, ht]; rfl⟩
      | cons a t => exact ⟨.main, _, (by intro a h; cases h), by simp only [Race.step, hpc, ht]; rfl⟩
    | wait => exact ⟨.timeout, _, (by intro a h; cases h), by simp only [Race.step, hpc]; rfl⟩
    | drain =>
      cases hq : r.queue with
      | nil => exact ⟨.giveUp, _, (by intro a h; cases h), by simp only [Race.step, hpc, hq, hr]; rfl⟩
      | cons p q => exact ⟨.recv, _, (by intro a h; cases h), by simp only [Race.step, hpc, hq]; rfl⟩
    | connected a => exact absurd (Or.inl ⟨a, hpc⟩) h
    | failed e => exact absurd (Or.inr ⟨e, hpc⟩) h
  refine ⟨?_, main⟩
  cases hr : r.running with
  | nil =>
    obtain ⟨s, r', _, h⟩ := main hr
    exact ⟨s, r', h⟩
  | cons a t => exact ⟨.finish a, _, by simp only [Race.step, hr]; rw [if_pos List.mem_cons_self]⟩

/-- How many steps a race can still take at most. -/
def Race.measure (r : Race) : Nat :=
  (match r.pc with | .head => 2 | .wait => 3 | .drain => 1 | _ => 0) + 4 * r.todo.length + 2 * r.running.length + r.queue.length

theorem race_measure {up : Addr → Bool} {r r' : Race} {s : RaceStep} (h : r.step up s = some r') : r'.measure < r.measure := by
  have handle : ∀ (q : List (Addr × Bool)) (next : RacePc) (a : Addr) (ok : Bool), r.queue = (a, ok) :: q →
      ((r.pc = .wait ∧ next = .head) ∨ (r.pc = .drain ∧ next = .drain)) → ({ r with queue := q }.handle next a ok).measure < r.measure := by
    intro q next a ok hq hn
    cases ok <;> rcases hn with ⟨h1, rfl⟩ | ⟨h1, rfl⟩ <;> simp [Race.handle, Race.measure, hq, h1] <;> omega
  cases s with
  | main =>
    simp only [Race.step] at h
    split at h
    · rename_i a rest hpc ht; cases h; simp [Race.measure, hpc, ht]; omega
    · rename_i hpc ht; cases h; simp [Race.measure, hpc, ht]
    · cases h
  | finish a =>
    simp only [Race.step] at h
    split at h
    · rename_i ha
      cases h
      have := List.length_erase_of_mem ha
      have := List.length_pos_iff.2 (List.ne_nil_of_mem ha)
      simp only [Race.measure, List.length_append, List.length_cons, List.length_nil]
      omega
    · cases h
  | recv =>
    simp only [Race.step] at h
    split at h
    · rename_i a ok q hpc hq; cases h; exact handle q .head a ok hq (Or.inl ⟨hpc, rfl⟩)
    · rename_i a ok q hpc hq; cases h; exact handle q .drain a ok hq (Or.inr ⟨hpc, rfl⟩)
    · cases h
  | timeout =>
    simp only [Race.step] at h
    split at h
    · rename_i hpc; cases h; simp [Race.measure, hpc]
    · cases h
  | giveUp =>
    simp only [Race.step] at h
    split at h
    · rename_i hpc hq hr; cases h; simp [Race.measure, hpc]
    · cases h

/-- C48: every schedule ends: a race over `n` addresses takes at most `4 n + 2` steps, so every maximal schedule ends the race. -/
theorem c48_ends (up : Addr → Bool) (addrs : List Addr) (l : List RaceStep) (r : Race) (h : (Race.init addrs).run up l = some r) :
    l.length ≤ 4 * addrs.length + 2 := by
  have key : ∀ (l : List RaceStep) (r r' : Race), r.run up l = some r' → l.length + r'.measure ≤ r.measure := by
    intro l
    induction l with
    | nil => intro r r' h; cases h; simp
    | cons s l ih =>
      intro r r' h
      rw [Race.run, Option.bind_eq_some_iff] at h
      obtain ⟨r1, h1, h2⟩ := h
      have := race_measure h1
      have := ih r1 r' h2
      rw [List.length_cons]
      omega
  have := key l _ _ h
  have e : (Race.init addrs).measure = 4 * addrs.length + 2 := by
    have := (c47_addresses addrs).length_eq
    simp only [Race.init, Race.measure, this, List.length_nil]
    omega
  omega

/-- C48: the result of a race that can go no further: a connection if and only if some attempt succeeds. -/
theorem c48_result (up : Addr → Bool) (addrs : List Addr) (l : List RaceStep) (r : Race) (h : (Race.init addrs).run up l = some r)
    (hm : ∀ s, r.step up s = none) : ((∃ a, r.pc = .connected a) ↔ ∃ a ∈ addrs, up a = true) ∧ ((∃ e, r.pc = .failed e) ↔ ∀ a ∈ addrs, up a = false) := by
  have he : r.ended := Classical.byContradiction fun hn => by
    obtain ⟨⟨s, r', hs⟩, _⟩ := c48_progress up r hn
    rw [hm s] at hs
    cases hs
  refine ⟨⟨?_, ?_⟩, ?_, ?_⟩
  · rintro ⟨a, ha⟩
    exact ⟨a, c48_connected up addrs l r a h ha⟩
  · intro hu
    rcases he with hc | ⟨e, hf⟩
    · exact hc
    · exact absurd hf (c48_some_up up addrs l r h hu e)
  · rintro ⟨e, hf⟩
    exact (c48_failed up addrs l r e h hf).1
  · intro hd
    rcases he with ⟨a, hc⟩ | hf
    · obtain ⟨h1, h2⟩ := c48_connected up addrs l r a h hc
      rw [hd a h1] at h2
      cases h2
    · exact hf

/-- C48: with one address the result is that of its attempt. -/
theorem c48_direct (up : Addr → Bool) (a : Addr) : (connectDirect up a = .connected a ↔ up a = true) ∧ (connectDirect up a = .failed (some a) ↔ up a = false) := by
  unfold connectDirect
  cases up a <;> simp

/-- Concrete case: three addresses of which the last tried works; the first attempt is slow, its failure arrives last. -/
example : ((Race.init [⟨true, 1⟩, ⟨false, 2⟩, ⟨false, 3⟩]).run (fun a => a.id == 3)
    [.main, .timeout, .main, .finish ⟨false, 2⟩, .recv, .main, .finish ⟨false, 3⟩, .finish ⟨true, 1⟩, .recv]).map (·.pc) = some (.connected ⟨false, 3⟩) := by
  simp [Race.init, attemptOrder, rotate, Race.run, Race.step, Race.handle]

/-- Concrete case: no address. -/
example : ((Race.init []).run (fun _ => true) [.main, .giveUp]).map (·.pc) = some (.failed none) ∧ raceError none = .noConnectionAvailable := by
  simp [Race.init, attemptOrder, rotate, Race.run, Race.step, raceError]

end Am
