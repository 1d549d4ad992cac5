import Verif.Proofs.EvalCalls
import Verif.Spec.Http
/-! # Reading a response always ends -/
set_option linter.unusedSimpArgs false
set_option linter.unusedSectionVars false
namespace Am
open Spec

theorem readLine_not_hang (r : Incoming) : readLine r ≠ .hang := by
  unfold readLine
  split
  · dsimp only; split <;> simp
  · split
    · simp
    · split <;> simp

theorem dropWhile_ten_length (bs : List UInt8) (h : bs.contains 10 = true) : ((bs.dropWhile (· ≠ 10)).drop 1).length < bs.length := by
  induction bs with
  | nil => simp at h
  | cons b bs ih =>
    rw [List.dropWhile_cons]
    by_cases hb : b = 10
    · subst hb; simp
    · have : decide (b ≠ 10) = true := by simp [hb]
      rw [if_pos this]
      have hc : bs.contains 10 = true := by
        simp only [List.contains_cons, Bool.or_eq_true, beq_iff_eq] at h
        rcases h with h | h
        · exact absurd h.symm hb
        · exact h
      have := ih hc
      simp only [List.length_cons]; omega

/-- A line that is read consumes something, or there was nothing left and the line is empty. -/
theorem readLine_consumes {r r' : Incoming} {l : Str} (h : readLine r = .ok (l, r')) :
    r'.bytes.length < r.bytes.length ∨ (r.bytes = [] ∧ l = [] ∧ r'.bytes = []) := by
  unfold readLine at h
  split at h
  · rename_i hc
    dsimp only at h
    split at h
    · injection h with h
      injection h with h1 h2
      subst h2
      exact Or.inl (dropWhile_ten_length _ hc)
    · cases h
  · split at h
    · cases h
    · split at h
      · rename_i s hs
        injection h with h
        injection h with h1 h2
        subst h2
        cases hb : r.bytes with
        | nil =>
          right
          refine ⟨rfl, ?_, rfl⟩
          rw [hb] at hs
          subst h1
          have : fromUtf8 [] = some [] := by decide
          rw [this] at hs
          injection hs with hs; exact hs.symm
        | cons b bs => left; simp
      · cases h

theorem readHeaders_not_hang (n : Nat) : ∀ r : Incoming, r.bytes.length < n → readHeaders n r ≠ .hang := by
  induction n with
  | zero => intro r h; omega
  | succ n ih =>
    intro r hn
    simp only [readHeaders]
    cases hl : readLine r with
    | err e => intro h; cases h
    | panic => intro h; cases h
    | hang => exact absurd hl (readLine_not_hang _)
    | ok p =>
      obtain ⟨l, r'⟩ := p
      rw [Res.ok_bind]
      dsimp only
      split
      · intro h; cases h
      · rename_i ht
        rcases readLine_consumes hl with h1 | ⟨_, h2, _⟩
        · refine Res.bind_ne_hang (ih r' (by omega)) ?_
          intro ⟨hs, r''⟩
          dsimp only
          split <;> (intro h; cases h)
        · subst h2; exact absurd rfl ht

theorem responseRead_not_hang (r : Incoming) : Response.read r ≠ .hang := by
  unfold Response.read
  refine Res.bind_ne_hang (readLine_not_hang _) ?_
  intro ⟨l, r'⟩
  refine Res.bind_ne_hang (readHeaders_not_hang _ _ (by simp)) ?_
  intro ⟨hs, r''⟩
  refine Res.bind_ne_hang ?_ ?_
  · unfold readRest
    split
    · simp
    · split <;> simp
  · intro b; simp [pure]

theorem durSub_not_hang (a b : Nat) : durSub a b ≠ .hang := by
  unfold durSub; split <;> simp

theorem connected_not_hang (c : Clocks) : Time.connected c ≠ .hang :=
  Res.bind_ne_hang (durSub_not_hang _ _) (fun _ h => by cases h)

theorem completed_not_hang (t : Time) (c : Clocks) : Time.completed t c ≠ .hang :=
  Res.bind_ne_hang (durSub_not_hang _ _) (fun _ => Res.bind_ne_hang (durSub_not_hang _ _) (fun _ => Res.bind_ne_hang (durSub_not_hang _ _)
    (fun _ => Res.bind_ne_hang (durSub_not_hang _ _) (fun _ => Res.bind_ne_hang (durSub_not_hang _ _) (fun _ h => by cases h)))))

theorem send_not_hang (net : Net) (sent : List Str) (m : Str) : send net sent m ≠ .hang := by
  unfold send exchange
  split
  · intro h; cases h
  · exact Res.bind_ne_hang (connected_not_hang _) (fun _ h => by cases h)
  · rename_i inc c _
    refine Res.bind_ne_hang (connected_not_hang _) (fun t => ?_)
    cases hr : Response.read inc with
    | ok rs => exact Res.bind_ne_hang (completed_not_hang _ _) (fun _ h => by cases h)
    | err e => intro h; cases h
    | panic => intro h; cases h
    | hang => exact absurd hr (responseRead_not_hang _)

theorem connected_mono {c : Clocks} (h : Monotone c) :
    Time.connected c = .ok { Time.default c.sys0 with resolve := c.res1 - c.res0, connect := c.conn - c.start - (c.res1 - c.res0) } := by
  obtain ⟨a, b, c1, d, e, f, g⟩ := h
  unfold Time.connected durSub since
  dsimp only
  rw [if_pos (by omega)]
  rfl

theorem completed_mono {c : Clocks} (h : Monotone c) (t : Time) (ht : t.resolve = c.res1 - c.res0)
    (ht' : t.connect = c.conn - c.start - (c.res1 - c.res0)) :
    Time.completed t c = .ok { t with
      delay := c.first - c.rd, read := c.last - c.rd - (c.first - c.rd), total := c.fin - c.start, fin := c.sys1,
      write := c.fin - c.start - t.resolve - t.connect - (c.last - c.rd - (c.first - c.rd)) - (c.first - c.rd) } := by
  obtain ⟨a, b, c1, d, e, f, g⟩ := h
  unfold Time.completed durSub since
  dsimp only
  rw [if_pos (by omega), Res.ok_bind]
  rw [if_pos (by omega), Res.ok_bind, if_pos (by omega), Res.ok_bind, if_pos (by omega), Res.ok_bind, if_pos (by omega)]
  rfl

theorem send_not_panic (net : Net) (sent : List Str) (m : Str) (h : Monotone (clocksOf (net.exch sent m))) : send net sent m ≠ .panic := by
  unfold send
  cases hx : net.exch sent m with
  | refused e c => intro h; cases h
  | broken e c =>
    rw [hx] at h
    simp only [exchange, clocksOf] at h ⊢
    rw [connected_mono h]
    intro h; cases h
  | answered inc c =>
    rw [hx] at h
    simp only [exchange, clocksOf] at h ⊢
    rw [connected_mono h, Res.ok_bind]
    cases hr : Response.read inc with
    | ok rs =>
      dsimp only
      rw [completed_mono h _ rfl rfl]
      intro h; cases h
    | err e => intro h; cases h
    | panic => exact absurd hr (responseRead_not_panic _)
    | hang => intro h; cases h

end Am
