import Verif.Proofs.PrintsBackAgain
import Verif.Props.Printing
import Verif.Props.Accepts
/-! # C10: exactly which expressions of accepted sources are read back from their printed text -/
set_option linter.unusedSimpArgs false
set_option linter.unusedSectionVars false
namespace Am
open Spec
variable {F : Type} [Rt F]

mutual
theorem back_clean (e : Expr F) (hb : PrintsBack e) (hg : Grouped EndsInLet e) : Clean e := by
  match e, hg with
  | .int _, _ | .bool _, _ | .str _, _ | .ident _, _ => trivial
  | .float f, _ => exact hb
  | .arr es, .arr _ hg => exact back_cleanAll es hb hg
  | .map ps, .map _ hg => exact back_cleanPairs ps hb hg
  | .index l i, .index _ _ h1 h2 _ => exact ⟨back_clean l hb.2.1 h1, back_clean i hb.2.2 h2⟩
  | .field l n, .field _ _ h1 h2 =>
    refine ⟨?_, back_clean l hb.2.2 h1⟩
    rcases h2 with h2 | h2
    · obtain ⟨b1, b2, _⟩ := hb
      cases l with
      | binary op a b =>
        have : tableLevel op.kind ≤ 10 := by cases op.kind <;> simp [tableLevel]
        simp only [strength] at h2
        omega
      | unary op a => simp [strength] at h2
      | letE n v => exact absurd trivial b1
      | int i => cases b2
      | float f => cases b2
      | _ => rfl
    · exact absurd h2 hb.1
  | .letE _ v, .letE _ _ hg => exact back_clean v hb hg
  | .unary _ r, .unary _ _ _ hg _ => exact back_clean r hb hg
  | .binary _ l r, .binary _ _ _ _ h1 h2 _ _ => exact ⟨back_clean l hb.2.1 h1, back_clean r hb.2.2 h2⟩
  | .paren e, .paren _ hg => exact back_clean e hb hg
  | .ifE c t e, .ifE _ _ _ h1 h2 h3 => exact ⟨back_clean c hb.1 h1, back_cleanSeq t hb.2.1 h2, back_cleanSeq e hb.2.2 h3⟩
  | .call _ es, .call _ _ hg => exact back_cleanAll es hb hg
termination_by structural e
theorem back_cleanAll (es : List (Expr F)) (hb : PrintsBackAll es) (hg : GroupedAll EndsInLet es) : CleanAll es := by
  match es, hg with
  | [], _ => trivial
  | e :: es, .cons _ _ h1 h2 => exact ⟨back_clean e hb.1 h1, back_cleanAll es hb.2 h2⟩
termination_by structural es
theorem back_cleanSeq (es : List (Expr F)) (hb : PrintsBackSeq es) (hg : GroupedAll EndsInLet es) : CleanAll es := by
  match es, hg with
  | [], _ => trivial
  | e :: es, .cons _ _ h1 h2 => exact ⟨back_clean e hb.1 h1, back_cleanSeq es hb.2.2 h2⟩
termination_by structural es
theorem back_cleanPairs (ps : List (Expr F × Expr F)) (hb : PrintsBackPairs ps) (hg : GroupedPairs EndsInLet ps) : CleanPairs ps := by
  match ps, hg with
  | [], _ => trivial
  | (k, v) :: ps, .cons _ _ _ h1 h2 h3 => exact ⟨back_clean k hb.1 h1, back_clean v hb.2.1 h2, back_cleanPairs ps hb.2.2 h3⟩
termination_by structural ps
end

theorem items_whole {es : List (Expr F)} : ∀ {k : Kind} {ts rest : List Token}, Items k ts es rest → ∀ e ∈ es, ∃ us vs, Whole 0 us e vs := by
  induction es with
  | nil => intro k ts rest _ e he; cases he
  | cons a es ih =>
    intro k ts rest h e he
    cases h with
    | last _ c _ _ r _ h1 =>
      simp at he
      subst he
      exact ⟨_, _, h1⟩
    | cons _ c _ _ _ us _ _ h1 h2 =>
      rcases List.mem_cons.1 he with rfl | he
      · exact ⟨_, _, h1⟩
      · exact ih h2 e he

theorem stmts_whole {es : List (Expr F)} : ∀ {ts rest : List Token}, Stmts ts es rest → ∀ e ∈ es, ∃ us vs, Whole 0 us e vs := by
  induction es with
  | nil => intro ts rest _ e he; cases he
  | cons a es ih =>
    intro ts rest h e he
    cases h with
    | cons _ _ _ us _ h1 h2 =>
      rcases List.mem_cons.1 he with rfl | he
      · exact ⟨_, _, h1⟩
      · exact ih h2 e he

theorem program_whole {is : List (Item F)} {ts : List Token} (h : Program ts is) : ∀ i ∈ is, ∀ e ∈ itemExprs i, ∃ us vs, Whole 0 us e vs := by
  induction h with
  | nil => intro i hi; cases hi
  | cons i is ts us h1 _ ih =>
    intro j hj e he
    rcases List.mem_cons.1 hj with rfl | hj
    · cases h1 with
      | expr e' _ _ h => simp [itemExprs] at he; subst he; exact ⟨_, _, h⟩
      | request => cases he
      | asserts _ _ _ _ _ _ _ _ _ _ _ _ _ h => exact items_whole h e he
      | test _ _ _ _ _ _ _ _ _ _ _ h => exact stmts_whole h e he
    · exact ih j hj e he

/-- Where an expression of an accepted source comes from. -/
theorem returned_whole (text : Str) (src : Source F) (h : parse text = .ok src) (e : Expr F) (he : Returned src e) :
    Grouped EndsInLet e ∧ (∃ te, Reads e te ∧ ∀ t ∈ te, TokenOk t) ∧ ∃ us vs, Whole 0 us e vs := by
  have none : ¬ Returned (⟨[], [], []⟩ : Source F) e := by
    rintro (h | ⟨p, hp, h⟩ | ⟨p, hp, h⟩)
    · cases h
    · cases hp
    · cases hp
  refine ⟨?_, ?_, ?_⟩
  · obtain ⟨items, hR, rfl, hG⟩ := parse_items text src h
    rcases returned_item items _ e he with h | ⟨i, hi, he⟩
    · exact absurd h none
    · have := hG i hi
      cases i with
      | expr e' => simp [itemExprs] at he; subst he; exact this
      | request n m as => exact groupedAll_mem this e he
      | test n b => exact groupedAll_mem this e he
  · obtain ⟨items, hR, rfl, hG⟩ := parse_items text src h
    rcases returned_item items _ e he with h | ⟨i, hi, he⟩
    · exact absurd h none
    · obtain ⟨a, ti, b, h1, h2, hb⟩ := readsSource_items hR i hi
      obtain ⟨te, h3, h4⟩ := item_reads h1 e he
      refine ⟨te, h3, fun t ht => ?_⟩
      have hti := h4 t ht
      rcases c04_tokens_ok text t (by rw [h2]; simp [hti]) with rfl | h
      · obtain ⟨x, y, hxy⟩ := List.append_of_mem hti
        obtain ⟨t', r', hs, _, hL⟩ := segment_endsEof text
        rw [hs] at h2
        have := hL (a ++ x) Token.eof (y ++ b) (by rw [h2, hxy]; simp) rfl
        simp at this
        exact absurd this.2 hb
      · exact h
  · obtain ⟨is, hP, rfl⟩ := (c79_accepts text src).1 h
    rcases returned_item is _ e he with h | ⟨i, hi, he⟩
    · exact absurd h none
    · exact program_whole hP i hi e he

theorem amInsert_ne {V : Type} (k : Str) (v : V) (l : List (Str × V)) : amInsert k v l ≠ [] := by
  cases l with
  | nil => simp [amInsert]
  | cons p l =>
    obtain ⟨k', v'⟩ := p
    simp only [amInsert]
    split <;> simp

/-- A source of a single expression has a single item. -/
theorem single_item {e : Expr F} (is : List (Item F)) : ∀ src : Source F, is.foldl addItem src = ⟨[e], [], []⟩ →
    (src = ⟨[e], [], []⟩ ∧ is = []) ∨ (src = ⟨[], [], []⟩ ∧ is = [.expr e]) := by
  induction is with
  | nil => intro src h; exact Or.inl ⟨h, rfl⟩
  | cons i is ih =>
    intro src h
    obtain ⟨es, rs, ts⟩ := src
    right
    rcases ih _ h with ⟨h1, rfl⟩ | ⟨h1, _⟩
    · cases i with
      | expr e' =>
        simp only [addItem, Source.mk.injEq] at h1
        obtain ⟨h1, rfl, rfl⟩ := h1
        cases es with
        | nil => simp at h1; subst h1; exact ⟨rfl, rfl⟩
        | cons a es => simp at h1
      | request n m as =>
        simp only [addItem, Source.mk.injEq] at h1
        exact absurd h1.2.1 (amInsert_ne _ _ _)
      | test n b =>
        simp only [addItem, Source.mk.injEq] at h1
        exact absurd h1.2.2 (amInsert_ne _ _ _)
    · cases i with
      | expr e' => simp [addItem] at h1
      | request n m as =>
        simp only [addItem, Source.mk.injEq] at h1
        exact absurd h1.2.1 (amInsert_ne _ _ _)
      | test n b =>
        simp only [addItem, Source.mk.injEq] at h1
        exact absurd h1.2.2 (amInsert_ne _ _ _)

/-- A legible expression that can be read is what its printed text denotes if and only if it prints back. -/
theorem printed_exact (e : Expr F) (hg : Grouped EndsInLet e) (hf : Formed e) (hp : FloatsAll Legible e) {us vs : List Token} (hW : Whole 0 us e vs) :
    parse e.display = .ok ⟨[e], [], []⟩ ↔ PrintsBack e := by
  have hs := (display_tokens e hf hp []).1 (by rintro c r ⟨⟩)
  rw [List.append_nil, segment_nil] at hs
  constructor
  · intro h
    obtain ⟨is, hP, h1⟩ := (c79_accepts _ _).1 h
    rcases single_item is _ h1.symm with ⟨h2, _⟩ | ⟨_, rfl⟩
    · simp at h2
    · rw [hs] at hP
      revert hP
      generalize hz : dtoks e ++ [Token.eof] = z
      intro hP
      cases hP with
      | cons _ _ _ rest h3 h4 =>
        cases h3 with
        | expr _ _ _ h3 =>
          subst hz
          generalize hd : dropSemi rest = ds at h4
          cases h4 with
          | nil t ht =>
            have w0 : wt dotFloat rest = 0 := by
              cases rest with
              | nil => rfl
              | cons x r =>
                by_cases hx : x.kind = .Semi
                · simp only [dropSemi, if_pos hx] at hd
                  subst hd
                  simp [wt, hx, ht, dotFloat]
                · simp only [dropSemi, if_neg hx, List.cons.injEq] at hd
                  obtain ⟨rfl, rfl⟩ := hd
                  simp [wt, ht, dotFloat]
            have w1 : wt one rest = 1 := by
              rw [← wt_dropSemi, hd]
              simp [wt, ht, one]
            obtain ⟨t1, h5, h6⟩ := whole_reads h3
            have w2 := (reads_weight (w := dotFloat) ⟨rfl, rfl, rfl⟩ h6).2 rfl
            have w3 := congrArg (wt dotFloat) h5
            simp only [wt_append, w0, w2] at w3
            have w4 : wt dotFloat [Token.eof] = 0 := rfl
            have hc := (light e hp).2 (by omega)
            rw [clean_toks e hc] at h3
            obtain ⟨q, h7, _⟩ := whole_pr h3
            exact only e hf hc 0 q Token.eof [] rest h7 (Or.inl rfl) w1
  · intro hb
    have hc := back_clean e hb hg
    rw [clean_toks e hc] at hs
    have := (whole_again hW hf hb).closed (y := Token.eof) [] rfl (by decide) (by decide)
    refine (c79_accepts _ _).2 ⟨[.expr e], ?_, rfl⟩
    rw [hs]
    exact .cons _ _ _ _ (.expr e _ _ this) (.nil _ rfl)

/-- C10 (partial), exactly. If floats that can be written as literals are printed legibly, then an expression of an accepted source is what its
printed text denotes if and only if it prints back: its floats print as float literals that denote them, it has no field access on a number, no
left operand that ends in a `let`, and no block in which a statement ends in an operand `let` before one that begins with a bracket, a
parenthesis or a unary operator. -/
theorem c10_exact_partial (hl : LiteralsLegible F) (text : Str) (src : Source F) (h : parse text = .ok src) (e : Expr F) (he : Returned src e) :
    parse e.display = .ok ⟨[e], [], []⟩ ↔ PrintsBack e := by
  obtain ⟨hg, ⟨te, hR, hok⟩, us, vs, hW⟩ := returned_whole text src h e he
  exact printed_exact e hg (reads_formed hR hok) (reads_floats hl hR hok) hW

/-- Three floats: one and a half, one, and one that is too large. -/
abbrev threeFloats : Rt (Fin 3) :=
  ⟨fun a _ => a, fun a _ => a, fun a _ => a, fun a _ => a, fun a _ => a, fun a => a, fun _ => 1, fun _ _ => none, fun a b => a == b,
    fun s => if s = c!"1.5" then some 0 else if s = c!"1.0" then some 1 else some 2,
    fun f => if f = 0 then c!"1.5" else if f = 1 then c!"1" else c!"inf", fun _ => [], true, fun c => [c], fun l => l⟩

/-- The assumption about floats can be met, with floats of each kind. -/
example : @LiteralsLegible (Fin 3) threeFloats ∧ @PrintsBack (Fin 3) threeFloats (.arr [.float 0]) ∧ ¬ @PrintsBack (Fin 3) threeFloats (.float 1) := by
  letI := threeFloats
  have h0 : FloatPrints (F := Fin 3) 0 := ⟨⟨⟨'1', c!".5", rfl, by decide⟩, by decide, by decide⟩, rfl⟩
  refine ⟨fun s f _ _ => ?_, ⟨h0, trivial⟩, fun h => absurd (h : FloatPrints (F := Fin 3) 1).1.2.2 (by decide)⟩
  match f with
  | 0 => exact Or.inr (Or.inl h0)
  | 1 => exact Or.inl ⟨by decide, by decide⟩
  | 2 => exact Or.inr (Or.inr rfl)

/-- What prints back includes `let`s as last operands, everywhere in a tree. -/
example : PrintsBack (F := F) (.binary ⟨.Add, c!"+"⟩ (.paren (.unary ⟨.Sub, c!"-"⟩ (.letE c!"x" (.int 1))))
    (.ifE (.bool true) [.binary ⟨.Add, c!"+"⟩ (.int 1) (.letE c!"y" (.int 2)), .ident c!"y", .letE c!"z" (.int 4), .arr []] [])) := by
  simp [PrintsBack, PrintsBackAll, PrintsBackSeq, EndsInLet, StartsTight, LetTail]

/-- Such a tree is read from a text. -/
example : parse (F := F) c!"(-let x = 1;) + if (true) { 1 + let y = 2;; y; let z = 4; [] }" =
    .ok ⟨[.binary ⟨.Add, c!"+"⟩ (.paren (.unary ⟨.Sub, c!"-"⟩ (.letE c!"x" (.int 1))))
      (.ifE (.bool true) [.binary ⟨.Add, c!"+"⟩ (.int 1) (.letE c!"y" (.int 2)), .ident c!"y", .letE c!"z" (.int 4), .arr []] [])], [], []⟩ := rfl

/-- C10 is false for a fourth reason: two statements of a block can run together when they are printed. -/
theorem c10_false_block : ∃ (src : Source F) (e : Expr F), parse c!"if (true) { 1 + let x = 2;; -3 }" = .ok src ∧ src.exprs = [e] ∧
    parse e.display ≠ .ok ⟨[e], [], []⟩ := by
  refine ⟨⟨[.ifE (.bool true) [.binary ⟨.Add, c!"+"⟩ (.int 1) (.letE c!"x" (.int 2)), .unary ⟨.Sub, c!"-"⟩ (.int 3)] []], [], []⟩, _, rfl, rfl, ?_⟩
  have : parse (F := F) c!"if (true) { 1 + let x = 2;-3 }" = .ok ⟨[.ifE (.bool true)
      [.binary ⟨.Sub, c!"-"⟩ (.binary ⟨.Add, c!"+"⟩ (.int 1) (.letE c!"x" (.int 2))) (.int 3)] []], [], []⟩ := rfl
  intro h
  have h2 := this.symm.trans h
  simp at h2

end Am
