import Verif.Model.ParserIndex
import Verif.Proofs.Parser
/-! # The index parser simulates the list parser, with the index always in bounds -/
set_option linter.unusedSimpArgs false
set_option linter.unusedSectionVars false
namespace Am
variable {F : Type} [Rt F]

/-- The index state stands at `s.cur` with `s.rest` after it; in particular its index is in bounds. -/
def At (i : IS) (s : PS) : Prop := i.tokens.drop i.index = s.cur :: s.rest

theorem At.bounds {i : IS} {s : PS} (h : At i s) : i.index < i.tokens.length := by
  have := congrArg List.length h
  simp at this
  omega

theorem At.cur {i : IS} {s : PS} (h : At i s) : i.cur = .ok s.cur := by
  have : i.tokens[i.index]? = some s.cur := by
    have h1 := congrArg List.head? h
    simpa using h1
  simp [IS.cur, this]

theorem At.peek {i : IS} {s : PS} (h : At i s) : i.peek = s.peek := by
  have h1 := congrArg (fun l => l[1]?) h
  simp at h1
  simp [IS.peek, PS.peek, h1, List.head?_eq_getElem?]

theorem At.peekIs {i : IS} {s : PS} (h : At i s) (k : Kind) : i.peekIs k = s.peekIs k := by
  simp only [IS.peekIs, PS.peekIs, h.peek]; cases s.peek <;> rfl

theorem At.peekPrec {i : IS} {s : PS} (h : At i s) : i.peekPrec = s.peekPrec := by
  simp only [IS.peekPrec, PS.peekPrec, h.peek]; cases s.peek <;> rfl

theorem At.next {i : IS} {s : PS} (h : At i s) : At i.next s.next := by
  obtain ⟨c, l⟩ := s
  have hl := congrArg List.length h
  simp at hl
  cases l with
  | nil =>
    simp at hl
    simp only [IS.next, PS.next]
    rw [if_neg (by omega)]
    exact h
  | cons t r =>
    simp at hl
    simp only [IS.next, PS.next]
    rw [if_pos (by omega)]
    have h1 := congrArg List.tail h
    simpa [At] using h1

/-- Same outcome, and related states when there is a result. -/
inductive Sim {α : Type} : Res (α × IS) → Res (α × PS) → Prop
  | ok (a : α) (i : IS) (s : PS) : At i s → Sim (.ok (a, i)) (.ok (a, s))
  | err (m : Str) : Sim (.err m) (.err m)
  | hang : Sim .hang .hang

theorem Sim.bind {α β : Type} {x : Res (α × IS)} {y : Res (α × PS)} {f : α × IS → Res (β × IS)} {g : α × PS → Res (β × PS)}
    (h : Sim x y) (hf : ∀ a i s, At i s → Sim (f (a, i)) (g (a, s))) : Sim (x >>= f) (y >>= g) := by
  cases h with
  | ok a i s hs => exact hf a i s hs
  | err m => exact .err m
  | hang => exact .hang

theorem At.expect {i : IS} {s : PS} (h : At i s) (k : Kind) :
    (∃ i' s', i.expect k = .ok i' ∧ s.expect k = .ok s' ∧ At i' s') ∨ (∃ m, i.expect k = .err m ∧ s.expect k = .err m) := by
  simp only [IS.expect, PS.expect, h.peek]
  cases s.peek with
  | none => exact Or.inr ⟨_, rfl, rfl⟩
  | some t =>
    by_cases hk : t.kind = k
    · simp only [hk, if_true]; exact Or.inl ⟨_, _, rfl, rfl, h.next⟩
    · simp only [hk, if_false]; exact Or.inr ⟨_, rfl, rfl⟩

theorem Sim.expect {β : Type} {i : IS} {s : PS} (h : At i s) (k : Kind) {f : IS → Res (β × IS)} {g : PS → Res (β × PS)}
    (hf : ∀ i s, At i s → Sim (f i) (g s)) : Sim (i.expect k >>= f) (s.expect k >>= g) := by
  rcases h.expect k with ⟨i', s', h1, h2, h3⟩ | ⟨m, h1, h2⟩
  · rw [h1, h2]; exact hf _ _ h3
  · rw [h1, h2]; exact .err m

theorem Sim.cur {β : Type} {i : IS} {s : PS} (h : At i s) {f : Token → Res (β × IS)} {y : Res (β × PS)} (hf : Sim (f s.cur) y) :
    Sim (i.cur >>= f) y := by
  rw [h.cur]; exact hf

theorem At.skipSemi {i : IS} {s : PS} (h : At i s) : At (iskipSemi i) (Am.skipSemi s) := by
  simp only [iskipSemi, Am.skipSemi, h.peekIs]
  split
  · exact h.next
  · exact h

/-- The two recursive calls simulate each other. -/
def SimPE (ipe : IPE F) (pe : PE F) : Prop := ∀ prec i s, At i s → Sim (ipe prec i) (pe prec s)

theorem sim_listLoop {ipe : IPE F} {pe : PE F} (h : SimPE ipe pe) (endK : Kind) (n : Nat) :
    ∀ i s, At i s → Sim (iparseListLoop ipe endK n i) (parseListLoop pe endK n s) := by
  induction n with
  | zero => intro i s _; exact .hang
  | succ n ih =>
    intro i s ha
    simp only [iparseListLoop, parseListLoop, ha.peekIs]
    split
    · exact .ok _ _ _ ha
    · refine Sim.bind (h _ _ _ ha.next) ?_
      intro e i1 s1 h1
      simp only [h1.peekIs]
      split
      · exact Sim.bind (ih _ _ h1) (fun es i2 s2 h2 => .ok _ _ _ h2)
      · exact Sim.expect h1 _ (fun i2 s2 h2 => Sim.bind (ih _ _ h2) (fun es i3 s3 h3 => .ok _ _ _ h3))

theorem sim_list {ipe : IPE F} {pe : PE F} (h : SimPE ipe pe) (endK : Kind) (n : Nat) {i : IS} {s : PS} (ha : At i s) :
    Sim (iparseList ipe n endK i) (parseList pe n endK s) :=
  Sim.bind (sim_listLoop h endK n i s ha) (fun _ _ _ h1 => Sim.expect h1 _ (fun _ _ h2 => .ok _ _ _ h2))

theorem sim_pairsLoop {ipe : IPE F} {pe : PE F} (h : SimPE ipe pe) (n : Nat) :
    ∀ i s, At i s → Sim (iparsePairsLoop ipe n i) (parsePairsLoop pe n s) := by
  induction n with
  | zero => intro i s _; exact .hang
  | succ n ih =>
    intro i s ha
    simp only [iparsePairsLoop, parsePairsLoop, ha.peekIs]
    split
    · exact .ok _ _ _ ha
    · refine Sim.bind (h _ _ _ ha.next) ?_
      intro e i1 s1 h1
      refine Sim.expect h1 _ ?_
      intro i2 s2 h2
      refine Sim.bind (h _ _ _ h2.next) ?_
      intro v i3 s3 h3
      simp only [h3.peekIs]
      split
      · exact Sim.bind (ih _ _ h3) (fun es i2 s2 h2 => .ok _ _ _ h2)
      · exact Sim.expect h3 _ (fun i2 s2 h2 => Sim.bind (ih _ _ h2) (fun es i3 s3 h3 => .ok _ _ _ h3))

theorem sim_blockLoop {ipe : IPE F} {pe : PE F} (h : SimPE ipe pe) (n : Nat) :
    ∀ i s, At i s → Sim (iparseBlockLoop ipe n i) (parseBlockLoop pe n s) := by
  induction n with
  | zero => intro i s _; exact .hang
  | succ n ih =>
    intro i s ha
    simp only [iparseBlockLoop, parseBlockLoop, ha.peekIs]
    split
    · exact .ok _ _ _ ha
    · exact Sim.bind (h _ _ _ ha.next) (fun e i1 s1 h1 => Sim.bind (ih _ _ h1.skipSemi) (fun es i2 s2 h2 => .ok _ _ _ h2))

theorem sim_block {ipe : IPE F} {pe : PE F} (h : SimPE ipe pe) (n : Nat) {i : IS} {s : PS} (ha : At i s) :
    Sim (iparseBlock ipe n i) (parseBlock pe n s) :=
  Sim.expect ha _ (fun _ _ h1 => Sim.bind (sim_blockLoop h n _ _ h1) (fun _ _ _ h2 => Sim.expect h2 _ (fun _ _ h3 => .ok _ _ _ h3)))

/-- `Sim` for the prefix part, which also returns a precedence. -/
inductive Sim3 : Res (Expr F × Nat × IS) → Res (Expr F × Nat × PS) → Prop
  | ok (e : Expr F) (p : Nat) (i : IS) (s : PS) : At i s → Sim3 (.ok (e, p, i)) (.ok (e, p, s))
  | err (m : Str) : Sim3 (.err m) (.err m)
  | hang : Sim3 .hang .hang

theorem Sim3.of {x : Res (Expr F × IS)} {y : Res (Expr F × PS)} (h : Sim x y) (p : Nat) :
    Sim3 (x >>= fun a => pure (a.1, p, a.2)) (y >>= fun a => pure (a.1, p, a.2)) := by
  cases h with
  | ok a i s hs => exact .ok a p i s hs
  | err m => exact .err m
  | hang => exact .hang

theorem Sim3.lit {x : Res (Expr F)} {i : IS} {s : PS} (h : At i s) (p : Nat) (hx : (∃ e, x = .ok e) ∨ ∃ m, x = .err m) :
    Sim3 (x >>= fun e => pure (e, p, i)) (x >>= fun e => pure (e, p, s)) := by
  rcases hx with ⟨e, rfl⟩ | ⟨m, rfl⟩
  · exact .ok e p i s h
  · exact .err m

theorem sim_prefix {ipe : IPE F} {pe : PE F} (h : SimPE ipe pe) (n prec : Nat) {i : IS} {s : PS} (ha : At i s) :
    Sim3 (iparsePrefix ipe n prec i) (parsePrefix pe n prec s) := by
  have hlet : Sim (iparseLet ipe i) (parseLet pe s) :=
    Sim.expect ha _ (fun i1 s1 h1 => Sim.cur h1 (Sim.expect h1 _ (fun i2 s2 h2 => Sim.bind (h _ _ _ h2.next)
      (fun v i3 s3 h3 => .ok _ _ _ h3.skipSemi))))
  have hun : Sim (iparseUnary ipe i) (parseUnary pe s) :=
    Sim.cur ha (Sim.bind (h _ _ _ ha.next) (fun v i3 s3 h3 => .ok _ _ _ h3))
  have hpar : Sim (iparseParen ipe i) (parseParen pe s) :=
    Sim.bind (h _ _ _ ha.next) (fun v i3 s3 h3 => Sim.expect h3 _ (fun _ _ h4 => .ok _ _ _ h4))
  have hif : Sim (iparseIf ipe n i) (parseIf pe n s) := by
    refine Sim.expect ha _ (fun i1 s1 h1 => Sim.bind (h _ _ _ h1.next) (fun c i2 s2 h2 => Sim.expect h2 _ (fun i3 s3 h3 =>
      Sim.bind (sim_block h n h3) (fun t i4 s4 h4 => ?_))))
    simp only [h4.peekIs]
    split
    · exact Sim.bind (sim_block h n h4.next) (fun e i5 s5 h5 => .ok _ _ _ h5)
    · exact .ok _ _ _ h4
  have harr : Sim (iparseArray ipe n i) (parseArray pe n s) := Sim.bind (sim_list h _ n ha) (fun _ _ _ h1 => .ok _ _ _ h1)
  have hmap : Sim (iparseMap ipe n i) (parseMap pe n s) :=
    Sim.bind (sim_pairsLoop h n _ _ ha) (fun _ _ _ h1 => Sim.expect h1 _ (fun _ _ h2 => .ok _ _ _ h2))
  have hbool : Sim3 (iparseBoolean i >>= fun e => pure (e, prec, i)) (parseBoolean (F := F) s >>= fun e => pure (e, prec, s)) := by
    simp only [iparseBoolean, parseBoolean, ha.cur, Res.ok_bind]
    cases parseBool s.cur.literal with
    | some b => exact .ok _ _ _ _ ha
    | none => exact .err _
  simp only [iparsePrefix, parsePrefix, ha.cur, Res.ok_bind]
  cases s.cur.kind <;> dsimp only
  case Ident => exact .ok _ _ _ _ ha
  case Integer =>
    simp only [iparseInteger, parseInteger, ha.cur, Res.ok_bind]
    cases parseI64 s.cur.literal with
    | some i => exact .ok _ _ _ _ ha
    | none => exact .err _
  case Float =>
    simp only [iparseFloat, parseFloat, ha.cur, Res.ok_bind]
    cases (Rt.fparse s.cur.literal : Option F) with
    | some i => exact .ok _ _ _ _ ha
    | none => exact .err _
  case True => exact hbool
  case False => exact hbool
  case String => exact .ok _ _ _ _ ha
  case Let => exact Sim3.of hlet 255
  case Not => exact Sim3.of hun prec
  case Sub => exact Sim3.of hun prec
  case Lp => exact Sim3.of hpar prec
  case If => exact Sim3.of hif prec
  case Ls => exact Sim3.of harr prec
  case Lb => exact Sim3.of hmap prec
  all_goals exact .err _

theorem sim_loop {ipe : IPE F} {pe : PE F} (h : SimPE ipe pe) (prec : Nat) (n : Nat) :
    ∀ left i s, At i s → Sim (iparseLoop ipe prec n left i) (parseLoop pe prec n left s) := by
  induction n with
  | zero => intro left i s _; exact .hang
  | succ n ih =>
    intro left i s ha
    simp only [iparseLoop, parseLoop, ha.peekIs, ha.peekPrec, ha.peek]
    split
    · cases s.peek with
      | none => exact ih _ _ _ ha
      | some t =>
        dsimp only
        split
        · exact Sim.bind (Sim.cur ha.next (Sim.bind (h _ _ _ ha.next.next) (fun v i3 s3 h3 => .ok _ _ _ h3)))
            (fun e i1 s1 h1 => ih _ _ _ h1)
        · split
          · refine Sim.bind (Sim.bind (sim_list h _ n ha.next) (fun args i1 s1 h1 => ?_)) (fun e i1 s1 h1 => ih _ _ _ h1)
            cases left <;> first | exact .ok _ _ _ h1 | exact .err _
          · split
            · exact Sim.bind (Sim.bind (h _ _ _ ha.next.next) (fun v i3 s3 h3 => Sim.expect h3 _ (fun _ _ h4 => .ok _ _ _ h4)))
                (fun e i1 s1 h1 => ih _ _ _ h1)
            · split
              · exact Sim.bind (Sim.expect ha.next _ (fun i1 s1 h1 => Sim.cur h1 (.ok _ _ _ h1))) (fun e i1 s1 h1 => ih _ _ _ h1)
              · exact ih _ _ _ ha
    · exact .ok _ _ _ ha

theorem sim_expr (n : Nat) : SimPE (iparseExpr (F := F) n) (parseExpr n) := by
  induction n with
  | zero => intro p i s _; exact .hang
  | succ n ih =>
    intro p i s ha
    simp only [iparseExpr, parseExpr]
    have := sim_prefix ih n p ha
    revert this
    generalize iparsePrefix (iparseExpr (F := F) n) n p i = x
    generalize parsePrefix (parseExpr (F := F) n) n p s = y
    intro hxy
    cases hxy with
    | ok e p i s hs => exact sim_loop ih p n e i s hs
    | err m => exact .err m
    | hang => exact .hang

theorem sim_item (n : Nat) (src : Source F) {i : IS} {s : PS} (ha : At i s) : Sim (iparseItem n src i) (parseItem n src s) := by
  have h := sim_expr (F := F) n
  refine Sim.cur ha ?_
  have hreq : Sim (iparseRequest (F := F) n i) (parseRequest n s) := by
    refine Sim.expect ha _ (fun i1 s1 h1 => Sim.cur h1 (Sim.expect h1 _ (fun i2 s2 h2 => Sim.cur h2 ?_)))
    simp only [h2.peekIs]
    split
    · exact Sim.bind (sim_list h _ n h2.next) (fun e i5 s5 h5 => .ok _ _ _ h5)
    · exact .ok _ _ _ h2
  have htest : Sim (iparseTest (F := F) n i) (parseTest n s) :=
    Sim.expect ha _ (fun i1 s1 h1 => Sim.cur h1 (Sim.bind (sim_block h n h1) (fun e i5 s5 h5 => .ok _ _ _ h5)))
  have hexp := h 0 _ _ ha
  simp only [parseItem]
  cases s.cur.kind <;> dsimp only
  case Request => exact Sim.bind hreq (fun a i1 s1 h1 => .ok _ _ _ h1)
  case Test => exact Sim.bind htest (fun a i1 s1 h1 => .ok _ _ _ h1)
  all_goals exact Sim.bind hexp (fun e i5 s5 h5 => .ok _ _ _ h5)

theorem sim_top (n k : Nat) : ∀ (src : Source F) (i : IS) (s : PS), At i s → iparseTop n k src i = parseTop n k src s := by
  induction k with
  | zero => intro src i s _; rfl
  | succ k ih =>
    intro src i s ha
    simp only [iparseTop, parseTop, ha.cur, Res.ok_bind]
    split
    · rfl
    · have := sim_item n src ha
      revert this
      generalize iparseItem n src i = x
      generalize parseItem n src s = y
      intro hxy
      cases hxy with
      | ok e i s hs => exact ih e _ _ hs.skipSemi.next
      | err m => rfl
      | hang => rfl

end Am
