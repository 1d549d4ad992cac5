import Verif.Props.Accepts
/-!
# Where reading fails, and how

First, the parser returns the message of `Wrong`. Second, derivations only look at the tokens they read and at the kind of the next one, so
the tokens behind can be exchanged. With both, what stands before the reported token is the beginning of a program and nothing that goes on
with the reported token is.
-/
set_option linter.unusedSimpArgs false
set_option linter.unusedSectionVars false
namespace Am
open Spec
variable {F : Type} [Rt F]

/-! ## The message -/

/-- The parser returns what is said about the first token of `at'`. -/
def Says (why : Fault F) (at' : List Token) (f : Fail) : Prop := ∃ t r, at' = t :: r ∧ f = .err (why.text t)

variable (F) in
theorem expect_fail {k : Kind} {c t : Token} {r : List Token} (h : t.kind ≠ k) :
    ∃ f, Says (.expects k : Fault F) (t :: r) f ∧ (PS.mk c (t :: r)).expect k = f.res := by
  refine ⟨_, ⟨t, r, rfl, rfl⟩, ?_⟩
  simp only [PS.expect, PS.peek, List.head?_cons, if_neg h, Fail.res, kind_words]
  rfl

theorem notBegins_of {k : Kind} (h : ¬ Begins k) : k ≠ .Ident ∧ k ≠ .Integer ∧ k ≠ .Float ∧ k ≠ .True ∧ k ≠ .False ∧ k ≠ .String ∧ k ≠ .Let ∧
    k ≠ .Not ∧ k ≠ .Sub ∧ k ≠ .Lp ∧ k ≠ .If ∧ k ≠ .Ls ∧ k ≠ .Lb := by
  simpa [Begins] using h

theorem faultItems_fails {k : Kind} (hk : Closing k) {ts at' : List Token} {why : Fault F} (h : FaultItems k ts why at') :
    ∀ c, ∃ N, ∀ n m, N ≤ n → N ≤ m → FailsIn (Says why at') (parseListLoop (parseExpr (F := F) n) k m ⟨c, ts⟩) := by
  induction h with
  | comma d e ts r hw hd1 hd2 =>
    intro c0
    obtain ⟨c1, N, hN⟩ := whole_done hw c0
    refine ⟨N + 1, fun n m hn hm => ?_⟩
    obtain ⟨m, rfl⟩ : ∃ j, m = j + 1 := ⟨m - 1, by omega⟩
    have e1 := hN n (by omega)
    obtain ⟨f, hf, ef⟩ := expect_fail F (c := c1) (r := r) hd2
    have hs := whole_head hw (endK_zero hk).1
    have hck : headIs k (d :: r) = false := head_not rfl hd1 r
    exact ⟨f, hf, by simp only [parseListLoop, peekIs_head, hs, Bool.false_eq_true, if_false, e1, Res.ok_bind, hck, ef, Fail.bind]⟩
  | next d e ts us at' why hd hw _ ih =>
    intro c0
    obtain ⟨c1, N, hN⟩ := whole_done hw c0
    obtain ⟨N2, hN2⟩ := ih d
    refine ⟨N + N2 + 1, fun n m hn hm => ?_⟩
    obtain ⟨m, rfl⟩ : ∃ j, m = j + 1 := ⟨m - 1, by omega⟩
    have e1 := hN n (by omega)
    obtain ⟨f, hf, e2⟩ := hN2 n m (by omega) (by omega)
    have hs := whole_head hw (endK_zero hk).1
    have hck : headIs k (d :: us) = false := head_not hd (by rcases hk with rfl | rfl <;> decide) us
    exact ⟨f, hf, by
      simp only [parseListLoop, peekIs_head, hs, Bool.false_eq_true, if_false, e1, Res.ok_bind, hck, expect_cons hd, e2, Fail.bind]⟩

theorem faultPairs_fails {ts at' : List Token} {why : Fault F} (h : FaultPairs ts why at') :
    ∀ c, ∃ N, ∀ n m, N ≤ n → N ≤ m → FailsIn (Says why at') (parsePairsLoop (parseExpr (F := F) n) m ⟨c, ts⟩) := by
  induction h with
  | colon d k ts r hw hd =>
    intro c0
    obtain ⟨c1, N, hN⟩ := whole_done hw c0
    refine ⟨N + 1, fun n m hn hm => ?_⟩
    obtain ⟨m, rfl⟩ : ∃ j, m = j + 1 := ⟨m - 1, by omega⟩
    have e1 := hN n (by omega)
    obtain ⟨f, hf, ef⟩ := expect_fail F (c := c1) (r := r) hd
    have hs := whole_head hw (k := .Rb) rfl
    exact ⟨f, hf, by simp only [parsePairsLoop, peekIs_head, hs, Bool.false_eq_true, if_false, e1, Res.ok_bind, ef, Fail.bind]⟩
  | comma d c k v ts us r hd hwk hwv hc1 hc2 =>
    intro c0
    obtain ⟨c1, N1, hN1⟩ := whole_done hwk c0
    obtain ⟨c2, N2, hN2⟩ := whole_done hwv d
    refine ⟨N1 + N2 + 1, fun n m hn hm => ?_⟩
    obtain ⟨m, rfl⟩ : ∃ j, m = j + 1 := ⟨m - 1, by omega⟩
    have e1 := hN1 n (by omega)
    have e2 := hN2 n (by omega)
    obtain ⟨f, hf, ef⟩ := expect_fail F (c := c2) (r := r) hc2
    have hs := whole_head hwk (k := .Rb) rfl
    have hck : headIs .Rb (c :: r) = false := head_not rfl hc1 r
    exact ⟨f, hf, by
      simp only [parsePairsLoop, peekIs_head, hs, Bool.false_eq_true, if_false, e1, Res.ok_bind, expect_cons hd, e2, hck, ef, Fail.bind]⟩
  | next d c k v ts us vs at' why hd hc hwk hwv _ ih =>
    intro c0
    obtain ⟨c1, N1, hN1⟩ := whole_done hwk c0
    obtain ⟨c2, N2, hN2⟩ := whole_done hwv d
    obtain ⟨N3, hN3⟩ := ih c
    refine ⟨N1 + N2 + N3 + 1, fun n m hn hm => ?_⟩
    obtain ⟨m, rfl⟩ : ∃ j, m = j + 1 := ⟨m - 1, by omega⟩
    have e1 := hN1 n (by omega)
    have e2 := hN2 n (by omega)
    obtain ⟨f, hf, e3⟩ := hN3 n m (by omega) (by omega)
    have hs := whole_head hwk (k := .Rb) rfl
    have hck : headIs .Rb (c :: vs) = false := head_not hc (by decide) vs
    exact ⟨f, hf, by
      simp only [parsePairsLoop, peekIs_head, hs, Bool.false_eq_true, if_false, e1, Res.ok_bind, expect_cons hd, e2, hck, expect_cons hc,
        e3, Fail.bind]⟩

theorem faulty_fails {p : Nat} {ts at' : List Token} {why : Fault F} (h : Faulty p ts why at') : Fails F (Says why at') p ts := by
  induction h with
  | operand p t r ht =>
    refine fails_prefix fun c0 => ⟨0, fun n _ => ⟨_, ⟨t, r, rfl, rfl⟩, ?_⟩⟩
    obtain ⟨h1, h2, h3, h4, h5, h6, h7, h8, h9, h10, h11, h12, h13⟩ := notBegins_of ht
    rw [next_cons]
    unfold parsePrefix
    split <;> first | contradiction | rfl
  | integer p t r hk hi =>
    refine fails_prefix fun c0 => ⟨0, fun n _ => ⟨_, ⟨t, r, rfl, rfl⟩, ?_⟩⟩
    have hn : parseI64 t.literal = none := by
      cases h : parseI64 t.literal with
      | none => rfl
      | some i => exact (hi i (parseI64_iff.1 h)).elim
    simp only [next_cons, parsePrefix, hk, parseInteger, hn]
    rfl
  | float p t r hk hi =>
    refine fails_prefix fun c0 => ⟨0, fun n _ => ⟨_, ⟨t, r, rfl, rfl⟩, ?_⟩⟩
    simp only [next_cons, parsePrefix, hk, parseFloat, hi]
    rfl
  | boolean p t r hk hb =>
    refine fails_prefix fun c0 => ⟨0, fun n _ => ⟨_, ⟨t, r, rfl, rfl⟩, ?_⟩⟩
    have hn : parseBool t.literal = none := by
      cases h : parseBool t.literal with
      | none => rfl
      | some b => exact (hb b (parseBool_iff h)).elim
    rcases hk with hk | hk <;>
    · simp only [next_cons, parsePrefix, hk, parseBoolean, hn]
      rfl
  | letName p l nm r hl hn =>
    refine fails_prefix fun c0 => ⟨0, fun n _ => ?_⟩
    obtain ⟨f, hf, ef⟩ := expect_fail F (c := l) (r := r) hn
    exact ⟨f, hf, by simp only [next_cons, parsePrefix, hl, parseLet, ef, Fail.bind]⟩
  | letAssign p l nm a r hl hn ha =>
    refine fails_prefix fun c0 => ⟨0, fun n _ => ?_⟩
    obtain ⟨f, hf, ef⟩ := expect_fail F (c := nm) (r := r) ha
    exact ⟨f, hf, by simp only [next_cons, parsePrefix, hl, parseLet, expect_cons hn, Res.ok_bind, ef, Fail.bind]⟩
  | paren p l c e ts r hl hw hc =>
    refine fails_prefix fun c0 => ?_
    obtain ⟨c1, N, hN⟩ := whole_done hw l
    refine ⟨N, fun n hn => ?_⟩
    obtain ⟨f, hf, ef⟩ := expect_fail F (c := c1) (r := r) hc
    exact ⟨f, hf, by simp only [next_cons, parsePrefix, hl, parseParen, hN n hn, Res.ok_bind, ef, Fail.bind]⟩
  | ifOpen p i l r hi hl =>
    refine fails_prefix fun c0 => ⟨0, fun n _ => ?_⟩
    obtain ⟨f, hf, ef⟩ := expect_fail F (c := i) (r := r) hl
    exact ⟨f, hf, by simp only [next_cons, parsePrefix, hi, parseIf, ef, Fail.bind]⟩
  | ifClose p i l c e ts r hi hl hw hc =>
    refine fails_prefix fun c0 => ?_
    obtain ⟨c1, N, hN⟩ := whole_done hw l
    refine ⟨N, fun n hn => ?_⟩
    obtain ⟨f, hf, ef⟩ := expect_fail F (c := c1) (r := r) hc
    exact ⟨f, hf, by simp only [next_cons, parsePrefix, hi, parseIf, expect_cons hl, hN n hn, Res.ok_bind, ef, Fail.bind]⟩
  | thenOpen p i l c b e ts r hi hl hc hw hb =>
    refine fails_prefix fun c0 => ?_
    obtain ⟨c1, N, hN⟩ := whole_done hw l
    refine ⟨N, fun n hn => ?_⟩
    obtain ⟨f, hf, ef⟩ := expect_fail F (c := c) (r := r) hb
    exact ⟨f, hf, by
      simp only [next_cons, parsePrefix, hi, parseIf, expect_cons hl, hN n hn, Res.ok_bind, expect_cons hc, parseBlock, ef, Fail.bind]⟩
  | elseOpen p i l c b d el b' e es ts us r hi hl hc hb hd hel hw hs hb' =>
    refine fails_prefix fun c0 => ?_
    obtain ⟨c1, N1, hN1⟩ := whole_done hw l
    obtain ⟨c2, N2, hN2⟩ := stmts_done hs b
    refine ⟨N1 + N2, fun n hn => ?_⟩
    have e1 := hN1 n (by omega)
    have e2 := hN2 n n (by omega) (by omega)
    obtain ⟨f, hf, ef⟩ := expect_fail F (c := el) (r := r) hb'
    exact ⟨f, hf, by
      simp only [next_cons, parsePrefix, hi, parseIf, expect_cons hl, Res.ok_bind, e1, expect_cons hc, parseBlock, expect_cons hb, e2,
        expect_cons hd, peekIs_head, head_is hel, if_true, ef, Fail.bind, Res.pure_eq]⟩
  | arr p l ts at' why hl hi =>
    refine fails_prefix fun c0 => ?_
    obtain ⟨N, hN⟩ := faultItems_fails (Or.inr rfl) hi l
    refine ⟨N, fun n hn => ?_⟩
    obtain ⟨f, hf, ef⟩ := hN n n hn hn
    exact ⟨f, hf, by simp only [next_cons, parsePrefix, hl, parseArray, parseList, ef, Fail.bind]⟩
  | map p l ts at' why hl hi =>
    refine fails_prefix fun c0 => ?_
    obtain ⟨N, hN⟩ := faultPairs_fails hi l
    refine ⟨N, fun n hn => ?_⟩
    obtain ⟨f, hf, ef⟩ := hN n n hn hn
    exact ⟨f, hf, by simp only [next_cons, parsePrefix, hl, parseMap, ef, Fail.bind]⟩
  | field p q d nm l e ts us r ho hx hq hd hn =>
    refine fails_extends ho hx fun c => ⟨1, fun n m _ hm => ?_⟩
    obtain ⟨m, rfl⟩ : ∃ j, m = j + 1 := ⟨m - 1, by omega⟩
    obtain ⟨f, hf, ef⟩ := expect_fail F (c := d) (r := r) hn
    exact ⟨f, hf, by rw [loop_field hq hd]; simp only [parseField, ef, Fail.bind]⟩
  | index p q b c l e i ts us vs r ho hx hq hb hw hc =>
    refine fails_extends ho hx fun c0 => ?_
    obtain ⟨c1, N, hN⟩ := whole_done hw b
    refine ⟨N + 1, fun n m hn hm => ?_⟩
    obtain ⟨m, rfl⟩ : ∃ j, m = j + 1 := ⟨m - 1, by omega⟩
    obtain ⟨f, hf, ef⟩ := expect_fail F (c := c1) (r := r) hc
    exact ⟨f, hf, by rw [loop_index hq hb]; simp only [parseIndex, hN n (by omega), Res.ok_bind, ef, Fail.bind]⟩
  | arg p q b l e ts us vs at' why ho hx hq hb hi =>
    refine fails_extends ho hx fun c0 => ?_
    obtain ⟨N, hN⟩ := faultItems_fails (Or.inl rfl) hi b
    refine ⟨N + 1, fun n m hn hm => ?_⟩
    obtain ⟨m, rfl⟩ : ∃ j, m = j + 1 := ⟨m - 1, by omega⟩
    obtain ⟨f, hf, ef⟩ := hN n m (by omega) (by omega)
    exact ⟨f, hf, by rw [loop_call hq hb]; simp only [parseCall, parseList, ef, Fail.bind]⟩
  | callee p q b c l e es ts us vs r ho hx hq hb hi he =>
    refine fails_extends ho hx fun c0 => ?_
    obtain ⟨c1, N, hN⟩ := items_done (Or.inl rfl) hi b
    obtain ⟨c', r', h1, hc⟩ := items_close hi
    cases h1
    refine ⟨N + 1, fun n m hn hm => ?_⟩
    obtain ⟨m, rfl⟩ : ∃ j, m = j + 1 := ⟨m - 1, by omega⟩
    have e1 := hN n m (by omega) (by omega)
    refine ⟨_, ⟨c, r, rfl, rfl⟩, ?_⟩
    rw [loop_call hq hb]
    simp only [parseCall, parseList, e1, Res.ok_bind, expect_cons hc, Res.pure_eq]
    cases e <;> first | exact (he _ rfl).elim | rfl
  | inside p q ts us at' why hi _ ih => exact inside_fails hi ih

theorem wrong_fails {ts at' : List Token} {why : Fault F} (h : Wrong ts why at') : FailsTop F (Says why at') ts := by
  induction h with
  | expr ts at' why h1 h2 h3 hf => exact fails_first h3 (fails_expr h1 h2 (faulty_fails hf))
  | requestName q nm r hq hn =>
    refine fails_first ⟨_, _, rfl, by rw [hq]; decide⟩ fun src c0 => ⟨0, fun n _ => ?_⟩
    obtain ⟨f, hf, ef⟩ := expect_fail F (c := q) (r := r) hn
    exact ⟨f, hf, by simp only [next_cons, parseItem, hq, parseRequest, ef, Fail.bind]⟩
  | requestText q nm m r hq hn hm =>
    refine fails_first ⟨_, _, rfl, by rw [hq]; decide⟩ fun src c0 => ⟨0, fun n _ => ?_⟩
    obtain ⟨f, hf, ef⟩ := expect_fail F (c := nm) (r := r) hm
    exact ⟨f, hf, by simp only [next_cons, parseItem, hq, parseRequest, expect_cons hn, Res.ok_bind, ef, Fail.bind]⟩
  | asserts q nm m b ts at' why hq hn hm hb hi =>
    exact fails_first ⟨_, _, rfl, by rw [hq]; decide⟩ (fails_asserts hq hn hm hb (faultItems_fails (Or.inr rfl) hi))
  | inAsserts q nm m b ts us at' why hq hn hm hb hin hf =>
    exact fails_first ⟨_, _, rfl, by rw [hq]; decide⟩ (fails_asserts hq hn hm hb (inItems_fails (Or.inr rfl) hin (faulty_fails hf)))
  | testName q nm r hq hn =>
    refine fails_first ⟨_, _, rfl, by rw [hq]; decide⟩ fun src c0 => ⟨0, fun n _ => ?_⟩
    obtain ⟨f, hf, ef⟩ := expect_fail F (c := q) (r := r) hn
    exact ⟨f, hf, by simp only [next_cons, parseItem, hq, parseTest, ef, Fail.bind]⟩
  | testOpen q nm b r hq hn hb =>
    refine fails_first ⟨_, _, rfl, by rw [hq]; decide⟩ fun src c0 => ⟨0, fun n _ => ?_⟩
    obtain ⟨f, hf, ef⟩ := expect_fail F (c := nm) (r := r) hb
    exact ⟨f, hf, by simp only [next_cons, parseItem, hq, parseTest, expect_cons hn, parseBlock, Res.ok_bind, ef, Fail.bind]⟩
  | inTest q nm b ts us at' why hq hn hb hin hf =>
    exact fails_first ⟨_, _, rfl, by rw [hq]; decide⟩ (fails_test hq hn hb hin (faulty_fails hf))
  | next i ts us at' why hi _ ih => exact fails_next hi ih

/-- What fails is not a program. -/
theorem failsTop_not {K : Fail → Prop} {ts : List Token} (h : FailsTop F K ts) (is : List (Item F)) : ¬ Program ts is := by
  intro hp
  obtain ⟨N1, hN1⟩ := program_done hp ⟨[], [], []⟩ Token.eof
  obtain ⟨N2, hN2⟩ := h ⟨[], [], []⟩ Token.eof
  have e1 := hN1 (N1 + N2) (N1 + N2) (by omega) (by omega)
  obtain ⟨f, _, e2⟩ := hN2 (N1 + N2) (N1 + N2) (by omega) (by omega)
  rw [e2] at e1
  cases f <;> cases e1

end Am
