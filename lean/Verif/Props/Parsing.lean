import Verif.Proofs.ParserTop
import Verif.Proofs.Decimal
import Verif.Props.Lexing
/-! # Parser properties C06, C08, C09, C11, C12 -/
set_option linter.unusedSimpArgs false
set_option linter.unusedSectionVars false
namespace Am
open Spec
variable {F : Type} [Rt F]

theorem segment_endsEof (text : Str) : ∃ t r, segment text = t :: r ∧ EndsEof (t :: r) ∧ EofLast (t :: r) := by
  obtain ⟨init, e, hi⟩ := c01_lex_total text
  cases hs : segment text with
  | nil => rw [hs] at e; simp at e
  | cons t r =>
    rw [hs] at e
    refine ⟨t, r, rfl, ⟨init, Token.eof, e, rfl⟩, ?_⟩
    intro a x b hx hk
    rw [e] at hx
    by_cases hb : b = []
    · exact hb
    · exfalso
      have hm : x ∈ init := by
        rw [List.append_eq_append_iff] at hx
        rcases hx with ⟨as, h1, h2⟩ | ⟨bs, h1, h2⟩
        · cases as with
          | nil => simp at h2; exact (hb h2.2).elim
          | cons y ys => simp at h2
        · cases bs with
          | nil => simp at h2; exact (hb h2.2).elim
          | cons y ys => simp at h2; rw [h1, ← h2.1]; simp
      exact hi x hm hk

/-- C06: fuel beyond the number of tokens does not change the result, so `parse` is the value of the loop. -/
theorem c06_enough_fuel (text : Str) (n : Nat) (h : (segment text).length ≤ n) : parseFuel (F := F) n text = parse text := by
  obtain ⟨t, r, hs, hE, _⟩ := segment_endsEof text
  unfold parse parseFuel
  rw [hs] at h ⊢
  simp at h
  exact parseTop_fuel n _ _ ⟨t, r⟩ hE (by dsimp only; omega) (by simp; omega) (by dsimp only; omega) (by simp; omega)

/-- C06: `hang` means that no number of steps is enough. -/
theorem c06_hang_iff (text : Str) : parse (F := F) text = .hang ↔ ∀ n, parseFuel (F := F) n text = .hang := by
  constructor
  · intro h n
    obtain ⟨t, r, hs, hE, _⟩ := segment_endsEof text
    have hmono : Res.Le (parseFuel (F := F) n text) (parseFuel (max n (segment text).length) text) := by
      unfold parseFuel
      rw [hs]
      exact parseTop_mono (Nat.le_max_left _ _) n _ _ _ (Nat.le_max_left _ _)
    rw [c06_enough_fuel text _ (Nat.le_max_right _ _), h] at hmono
    rcases hmono with h1 | h1 <;> exact h1
  · intro h; exact h _

/-- C06 is false: the parser does not return on the text `a!`. -/
theorem c06_parse_loops : ∀ n, parseFuel (F := F) n c!"a!" = .hang := (c06_hang_iff _).1 rfl

/-- C06 is false for plain response bodies, too. -/
theorem c06_body_loops : ∀ n, parseFuel (F := F) n c!"Hello World!" = .hang := (c06_hang_iff _).1 rfl

/-- The loop also occurs without an operand before `!`: a `let` operand ended by a semicolon. -/
theorem c06_let_loops : ∀ n, parseFuel (F := F) n c!"-let x = 1; !b" = .hang := (c06_hang_iff _).1 rfl

/-- C06 (partial): the parser returns whenever no `!` comes directly after a token that can end an operand and no `let`
directly after an operator. The full claim, without the condition, is false (`c06_parse_loops`). -/
theorem c06_terminates_partial (text : Str) (h : NoClash (segment text)) : parse (F := F) text ≠ .hang := by
  obtain ⟨t, r, hs, hE, _⟩ := segment_endsEof text
  unfold parse parseFuel
  rw [hs] at h ⊢
  intro hh
  have := parseTop_halt (F := F) (n := (t :: r).length + 1) ((t :: r).length + 1) ⟨[], [], []⟩ ⟨t, r⟩ hE h (by simp; omega) (by simp; omega)
  dsimp only at hh
  rw [hh] at this
  exact this

example : NoClash (segment c!"let a = !b; request r `x` [a != 1] test t { !a && -b }") := by decide
example : ¬ NoClash (segment c!"a!") := by decide

/-- C06: whether the parser returns depends on the tokens only. -/
theorem c06_tokens_only (a b : Str) (h : segment a = segment b) : parse (F := F) a = parse b := by
  unfold parse parseFuel; rw [h]

/-- What is accepted is a sequence of items, read token by token. -/
theorem parse_items (text : Str) (src : Source F) (h : parse text = .ok src) :
    ∃ items, ReadsSource items (segment text) ∧ src = items.foldl addItem ⟨[], [], []⟩ ∧ ∀ i ∈ items, ItemGrouped EndsInLet i := by
  obtain ⟨t, r, hs, hE, hL⟩ := segment_endsEof text
  unfold parse parseFuel at h
  rw [hs] at h ⊢
  exact parseTop_sound _ _ ⟨t, r⟩ src hE hL h

/-- All expressions a parsed source contains. -/
def AllGrouped (X : Expr F → Prop) (src : Source F) : Prop :=
  GroupedAll X src.exprs ∧ (∀ p ∈ src.requests, GroupedAll X p.2.2) ∧ (∀ p ∈ src.tests, GroupedAll X p.2)

theorem groupedAll_append {X : Expr F → Prop} {a b : List (Expr F)} (ha : GroupedAll X a) (hb : GroupedAll X b) : GroupedAll X (a ++ b) := by
  induction a with
  | nil => exact hb
  | cons e a ih => cases ha with | cons _ _ h1 h2 => exact .cons _ _ h1 (ih h2)

theorem mem_amInsert {V : Type} {k : Str} {v : V} {m : List (Str × V)} {p : Str × V} (h : p ∈ amInsert k v m) : p = (k, v) ∨ p ∈ m := by
  induction m with
  | nil => simp [amInsert] at h; exact Or.inl h
  | cons q m ih =>
    obtain ⟨a, b⟩ := q
    simp only [amInsert] at h
    split at h
    · rcases List.mem_cons.1 h with h | h
      · exact Or.inl h
      · exact Or.inr (List.mem_cons_of_mem _ h)
    · rcases List.mem_cons.1 h with h | h
      · exact Or.inr (by rw [h]; exact List.mem_cons_self)
      · rcases ih h with h | h
        · exact Or.inl h
        · exact Or.inr (List.mem_cons_of_mem _ h)

theorem allGrouped_fold {X : Expr F → Prop} (items : List (Item F)) : ∀ (src : Source F), AllGrouped X src →
    (∀ i ∈ items, ItemGrouped X i) → AllGrouped X (items.foldl addItem src) := by
  induction items with
  | nil => intro src h _; exact h
  | cons i items ih =>
    intro src h hi
    refine ih _ ?_ (fun j hj => hi j (List.mem_cons_of_mem _ hj))
    have hg := hi i List.mem_cons_self
    obtain ⟨h1, h2, h3⟩ := h
    cases i with
    | expr e => exact ⟨groupedAll_append h1 (.cons _ _ hg .nil), h2, h3⟩
    | request n m as =>
      refine ⟨h1, ?_, h3⟩
      intro p hp
      rcases mem_amInsert hp with rfl | hp
      · exact hg
      · exact h2 p hp
    | test n b =>
      refine ⟨h1, h2, ?_⟩
      intro p hp
      rcases mem_amInsert hp with rfl | hp
      · exact hg
      · exact h3 p hp

/-- C08 (partial): in every accepted source every node is grouped as the precedence table says, except that a left operand may be
looser if it ends in a `let`. The full claim has no exception and is false (`c08_let_breaks_precedence`). -/
theorem c08_grouped_partial (text : Str) (src : Source F) (h : parse text = .ok src) : AllGrouped EndsInLet src := by
  obtain ⟨items, _, rfl, hG⟩ := parse_items text src h
  exact allGrouped_fold items _ ⟨.nil, by simp, by simp⟩ hG

/-- C08 (partial): no exception at all when no `let` comes directly after an operator. -/
theorem c08_strict_partial (text : Str) (src : Source F) (h : parse text = .ok src) (hN : NoAdj OpLet (segment text)) :
    AllGrouped (fun _ => False) src := by
  obtain ⟨items, hR, rfl, hG⟩ := parse_items text src h
  exact allGrouped_fold items _ ⟨.nil, by simp, by simp⟩ (readsSource_strict hR hN hG)

/-- C08 is false: `1 + let x = 2; * 3` is read as `(1 + let x = 2) * 3`. -/
theorem c08_let_breaks_precedence :
    ∃ src : Source F, parse c!"1 + let x = 2; * 3" = .ok src ∧
      src.exprs = [.binary ⟨.Mul, c!"*"⟩ (.binary ⟨.Add, c!"+"⟩ (.int 1) (.letE c!"x" (.int 2))) (.int 3)] ∧
      ¬ AllGrouped (fun _ => False) src := by
  refine ⟨⟨[.binary ⟨.Mul, c!"*"⟩ (.binary ⟨.Add, c!"+"⟩ (.int 1) (.letE c!"x" (.int 2))) (.int 3)], [], []⟩, rfl, rfl, ?_⟩
  rintro ⟨h, _, _⟩
  cases h with
  | cons _ _ h1 _ =>
    cases h1 with
    | binary _ _ _ _ _ _ _ ho =>
      rcases ho with ho | ho
      · simp [tableLevel, strength] at ho
      · exact ho

example : ∃ src : Source F, parse c!"1 + 2 * 3 - 4 == -5[0].x" = .ok src ∧ NoAdj OpLet (segment c!"1 + 2 * 3 - 4 == -5[0].x") ∧
    src.exprs = [.binary ⟨.Eq, c!"=="⟩
      (.binary ⟨.Sub, c!"-"⟩ (.binary ⟨.Add, c!"+"⟩ (.int 1) (.binary ⟨.Mul, c!"*"⟩ (.int 2) (.int 3))) (.int 4))
      (.unary ⟨.Sub, c!"-"⟩ (.field (.index (.int 5) (.int 0)) c!"x"))] := ⟨_, rfl, by decide, rfl⟩

/-- C09. An accepted text is, token for token, a sequence of items (`ReadsSource`: optional semicolons and trailing commas are the
only tokens that leave no trace), and the result consists of exactly those items. -/
theorem c09_tokens_kept (text : Str) (src : Source F) (h : parse text = .ok src) :
    ∃ items, ReadsSource items (segment text) ∧ src = items.foldl addItem ⟨[], [], []⟩ := by
  obtain ⟨items, h1, h2, _⟩ := parse_items text src h
  exact ⟨items, h1, h2⟩

/-- C09: with the token texts of C04, punctuation and keyword tokens carry the fixed text of their kind, so nothing is hidden in them. -/
theorem c09_fixed_texts (text : Str) (t : Token) (h : t ∈ segment text) (x : Str) (hx : fixedText t.kind = some x) : t.literal = x := by
  rcases c04_tokens_ok text t h with rfl | ht
  · simp [Token.eof, fixedText] at hx
  · unfold TokenOk at ht
    obtain ⟨k, l⟩ := t
    cases k <;> simp_all [fixedText]

/-! ## C11 -/

/-- C11, the literal by itself: exact if it fits, an error otherwise. -/
theorem c11_literal (l : Str) (hne : l ≠ []) (hd : ∀ c ∈ l, isDigit c = true) :
    (decimal l ≤ 9223372036854775807 → ∃ i : Int64, parse (F := F) l = .ok ⟨[.int i], [], []⟩ ∧ i.toInt = decimal l) ∧
    (9223372036854775807 < decimal l → parse (F := F) l = .err (c!"parse integer error: " ++ l)) := by
  have hseg : segment l = [⟨.Integer, l⟩, Token.eof] := by
    have := lex_spell ⟨.Integer, l⟩ [] ⟨hne, hd⟩ (by rintro c r ⟨⟩)
    simp only [spell, List.append_nil, segment_nil] at this
    exact this
  have hpi := digits_cases hne hd
  unfold parse parseFuel
  rw [hseg]
  constructor
  · intro h
    rw [if_pos h] at hpi
    exact ⟨Int64.ofNat (decimal l), by
      simp [parseTop, parseItem, parseExpr, parsePrefix, parseInteger, hpi, Res.pure_eq, Res.ok_bind, parseLoop, PS.peekIs, PS.peek,
        PS.peekPrec, Token.eof, Token.precedence, Kind.precedence, skipSemi, PS.next], int64_exact _ h⟩
  · intro h
    rw [if_neg (by omega)] at hpi
    simp [parseTop, parseItem, parseExpr, parsePrefix, parseInteger, hpi, Res.err_bind]

/-- C11, anywhere in a source: every integer literal token that was accepted as `i` denotes exactly its decimal value. -/
theorem c11_every_literal (text : Str) (t : Token) (h : t ∈ segment text) (hk : t.kind = .Integer) (i : Int64)
    (hi : Reads (F := F) (.int i) [t]) : i.toInt = decimal t.literal ∧ decimal t.literal ≤ 9223372036854775807 := by
  cases hi with
  | int _ _ _ hp =>
    rcases c04_tokens_ok text t h with rfl | ht
    · simp [Token.eof] at hk
    · simp only [TokenOk, hk] at ht
      rw [← parseI64_iff, digits_cases ht.1 ht.2] at hp
      split at hp
      · rename_i hle
        simp at hp
        subst hp
        exact ⟨int64_exact _ hle, hle⟩
      · cases hp

example : decimal c!"9223372036854775807" = 9223372036854775807 ∧
    parse (F := F) c!"9223372036854775807" = .ok ⟨[.int 9223372036854775807], [], []⟩ ∧
    parse (F := F) c!"9223372036854775808" = .err c!"parse integer error: 9223372036854775808" := ⟨by decide, rfl, rfl⟩

/-! ## C12 -/

theorem fold_tables (items : List (Item F)) : ∀ src : Source F,
    (items.foldl addItem src).exprs = src.exprs ++ exprsOf items ∧
    (∀ n, amGet n (items.foldl addItem src).requests = (lastRequest n items).or (amGet n src.requests)) ∧
    (∀ n, amGet n (items.foldl addItem src).tests = (lastTest n items).or (amGet n src.tests)) ∧
    (KeysNodup src.requests → KeysNodup (items.foldl addItem src).requests) ∧
    (KeysNodup src.tests → KeysNodup (items.foldl addItem src).tests) := by
  induction items with
  | nil => intro src; simp [exprsOf, lastRequest, lastTest]
  | cons i items ih =>
    intro src
    obtain ⟨h1, h2, h3, h4, h5⟩ := ih (addItem src i)
    simp only [List.foldl_cons]
    cases i with
    | expr e => exact ⟨by rw [h1]; simp [addItem, exprsOf], h2, h3, h4, h5⟩
    | request nm m as =>
      refine ⟨h1, fun n => ?_, h3, fun hn => h4 (amInsert_nodup hn), h5⟩
      rw [h2]
      simp only [addItem, lastRequest, amGet_insert]
      by_cases hn : nm = n <;> cases lastRequest n items <;> simp [hn]
    | test nm b =>
      refine ⟨h1, h2, fun n => ?_, h4, fun hn => h5 (amInsert_nodup hn)⟩
      rw [h3]
      simp only [addItem, lastTest, amGet_insert]
      by_cases hn : nm = n <;> cases lastTest n items <;> simp [hn]

/-- C12. An accepted source is a sequence of items such that: expressions keep their order; each table maps a name to its last
definition and contains nothing else (lookups are exactly the last definitions, and no key occurs twice). -/
theorem c12_tables (text : Str) (src : Source F) (h : parse text = .ok src) :
    ∃ items, ReadsSource items (segment text) ∧ src.exprs = exprsOf items ∧
      (∀ n, amGet n src.requests = lastRequest n items) ∧ (∀ n, amGet n src.tests = lastTest n items) ∧
      KeysNodup src.requests ∧ KeysNodup src.tests := by
  obtain ⟨items, hR, rfl⟩ := c09_tokens_kept text src h
  obtain ⟨h1, h2, h3, h4, h5⟩ := fold_tables items ⟨[], [], []⟩
  exact ⟨items, hR, by simpa using h1, fun n => by simpa [amGet] using h2 n, fun n => by simpa [amGet] using h3 n,
    h4 (by simp [KeysNodup]), h5 (by simp [KeysNodup])⟩

/-- C12: what "last definition" means. -/
theorem c12_last (n : Str) (items : List (Item F)) (d : Str × List (Expr F)) :
    lastRequest n items = some d ↔ ∃ a b, items = a ++ .request n d.1 d.2 :: b ∧ ∀ m as, Item.request n m as ∉ b := by
  induction items with
  | nil => simp [lastRequest]
  | cons i items ih =>
    have keep : ∀ (hi : ∀ m as, i ≠ .request n m as), lastRequest n (i :: items) = lastRequest n items →
        (lastRequest n (i :: items) = some d ↔ ∃ a b, i :: items = a ++ .request n d.1 d.2 :: b ∧ ∀ m as, Item.request n m as ∉ b) := by
      intro hi he
      rw [he, ih]
      constructor
      · rintro ⟨a, b, h1, h2⟩
        exact ⟨i :: a, b, by simp [h1], h2⟩
      · rintro ⟨a, b, h1, h2⟩
        cases a with
        | nil => simp at h1; exact absurd h1.1 (hi _ _)
        | cons x a => simp at h1; exact ⟨a, b, h1.2, h2⟩
    cases i with
    | expr e => exact keep (by simp) rfl
    | test a b => exact keep (by simp) rfl
    | request nm m as =>
      by_cases hn : nm = n
      · subst hn
        simp only [lastRequest, if_true]
        cases hl : lastRequest nm items with
        | some d' =>
          rw [hl] at ih
          simp only [Option.some_or]
          rw [ih]
          constructor
          · rintro ⟨a, b, h1, h2⟩
            exact ⟨.request nm m as :: a, b, by simp [h1], h2⟩
          · rintro ⟨a, b, h1, h2⟩
            cases a with
            | nil =>
              exfalso
              simp at h1
              obtain ⟨a', b', h3, _⟩ := (show ∃ a b, items = a ++ Item.request nm d'.1 d'.2 :: b ∧ True by
                have : ∀ (its : List (Item F)) d', lastRequest nm its = some d' → ∃ a b, its = a ++ Item.request nm d'.1 d'.2 :: b := by
                  intro its
                  induction its with
                  | nil => intro d' h; cases h
                  | cons j its ihj =>
                    intro d' h
                    cases j with
                    | expr e => obtain ⟨a, b, h⟩ := ihj d' h; exact ⟨.expr e :: a, b, by simp [h]⟩
                    | test x y => obtain ⟨a, b, h⟩ := ihj d' h; exact ⟨.test x y :: a, b, by simp [h]⟩
                    | request x y z =>
                      simp only [lastRequest] at h
                      cases hx : lastRequest nm its with
                      | some q =>
                        rw [hx] at h; simp at h; subst h
                        obtain ⟨a, b, h⟩ := ihj q hx
                        exact ⟨.request x y z :: a, b, by simp [h]⟩
                      | none =>
                        rw [hx] at h; simp at h
                        obtain ⟨rfl, rfl⟩ := h
                        exact ⟨[], its, rfl⟩
                obtain ⟨a, b, h⟩ := this items d' hl
                exact ⟨a, b, h, trivial⟩)
              rw [h1.2] at h3
              exact h2 d'.1 d'.2 (by rw [h3]; simp)
            | cons x a => simp at h1; exact ⟨a, b, h1.2, h2⟩
        | none =>
          rw [hl] at ih
          simp only [Option.none_or, Option.some.injEq]
          constructor
          · rintro rfl
            refine ⟨[], items, rfl, ?_⟩
            intro m' as' hmem
            have : ∀ its : List (Item F), Item.request nm m' as' ∈ its → lastRequest nm its ≠ none := by
              intro its
              induction its with
              | nil => simp
              | cons j its ihj =>
                intro hj
                rcases List.mem_cons.1 hj with hj | hj
                · subst hj
                  simp only [lastRequest, if_true]
                  cases lastRequest nm its <;> simp
                · have := ihj hj
                  cases j with
                  | expr e => exact this
                  | test x y => exact this
                  | request x y z =>
                    simp only [lastRequest]
                    cases hx : lastRequest nm its with
                    | none => exact absurd hx this
                    | some q => simp
            exact this items hmem hl
          · rintro ⟨a, b, h1, h2⟩
            cases a with
            | nil => simp at h1; exact Prod.ext h1.1.1 h1.1.2
            | cons x a =>
              simp at h1
              have := ih.2 ⟨a, b, h1.2, h2⟩
              cases this
      · refine keep ?_ ?_
        · intro m' as' h; cases h; exact hn rfl
        · simp only [lastRequest, hn, if_false, Option.or_none]

example : ∃ src : Source F, parse c!"request r `a` 1 request s `b` request r `c` [x] 2" = .ok src ∧
    src.exprs = [.int 1, .int 2] ∧ src.requests = [(c!"r", (c!"c", [.ident c!"x"])), (c!"s", (c!"b", []))] := ⟨_, rfl, rfl, rfl⟩

end Am
