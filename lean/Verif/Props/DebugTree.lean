import Verif.Spec.DebugTree
import Verif.Props.PrintsBack
import Verif.Proofs.DebugBack
import Verif.Props.Parens
/-! # C97: the `Debug` text of an expression shows how it is grouped

`Debug for Expr` (syntax.rs:101-113) is what the tests of the parser look at. -/
set_option linter.unusedSimpArgs false
set_option linter.unusedSectionVars false
namespace Am
open Spec
variable {F : Type} [Rt F]

mutual
theorem debug_enclosed (e : Expr F) : e.debug = (enclosed e).display := by
  match e with
  | .index l i => simp [Expr.debug, enclosed, Expr.display, debug_enclosed l, debug_enclosed i]
  | .unary t r => simp [Expr.debug, enclosed, Expr.display, debug_enclosed r]
  | .binary t l r => simp [Expr.debug, enclosed, Expr.display, debug_enclosed l, debug_enclosed r]
  | .call f args => simp [Expr.debug, enclosed, Expr.display, debugList_enclosed args]
  | .int _ | .float _ | .bool _ | .str _ | .ident _ | .arr _ | .map _ | .field _ _ | .letE _ _ | .paren _ | .ifE _ _ _ => rfl
termination_by structural e
theorem debugList_enclosed (l : List (Expr F)) : Expr.debugList l = Expr.displayList (enclosedList l) := by
  match l with
  | [] => rfl
  | e :: l => simp [Expr.debugList, enclosedList, Expr.displayList, debug_enclosed e, debugList_enclosed l]
termination_by structural l
end

mutual
theorem noParens_enclosed (e : Expr F) : noParens (enclosed e) = noParens e := by
  match e with
  | .index l i => simp [enclosed, noParens, noParens_enclosed l, noParens_enclosed i]
  | .unary t r => simp [enclosed, noParens, noParens_enclosed r]
  | .binary t l r => simp [enclosed, noParens, noParens_enclosed l, noParens_enclosed r]
  | .call f args => simp [enclosed, noParens, noParensList_enclosed args]
  | .int _ | .float _ | .bool _ | .str _ | .ident _ | .arr _ | .map _ | .field _ _ | .letE _ _ | .paren _ | .ifE _ _ _ => rfl
termination_by structural e
theorem noParensList_enclosed (l : List (Expr F)) : noParensList (enclosedList l) = noParensList l := by
  match l with
  | [] => rfl
  | e :: l => simp [enclosedList, noParensList, noParens_enclosed e, noParensList_enclosed l]
termination_by structural l
end

theorem strength_enclosed (e : Expr F) : strength (enclosed e) = 14 := by cases e <;> rfl

theorem isLet_enclosed (e : Expr F) : isLet (enclosed e) = isLet e := by cases e <;> rfl

mutual
theorem enclosed_grouped {X : Expr F → Prop} (e : Expr F) (hg : Grouped X e) : Grouped X (enclosed e) := by
  have lv : ∀ k : Kind, tableLevel k < 14 := fun k => by cases k <;> simp [tableLevel]
  match e, hg with
  | .index l i, .index _ _ h1 h2 _ => exact .paren _ (.index _ _ (enclosed_grouped l h1) (enclosed_grouped i h2) (.inl (by rw [strength_enclosed]; omega)))
  | .unary t r, .unary _ _ h1 h2 _ => exact .paren _ (.unary _ _ h1 (enclosed_grouped r h2) (by rw [strength_enclosed]; omega))
  | .binary t l r, .binary _ _ _ h1 h2 h3 _ _ =>
    exact .paren _ (.binary _ _ _ h1 (enclosed_grouped l h2) (enclosed_grouped r h3) (by rw [strength_enclosed]; exact lv _)
      (.inl (by rw [strength_enclosed]; exact Nat.le_of_lt (lv _))))
  | .call f args, .call _ _ h => exact .call _ _ (enclosedList_grouped args h)
  | .int _, h | .float _, h | .bool _, h | .str _, h | .ident _, h | .arr _, h | .map _, h | .field _ _, h | .letE _ _, h | .paren _, h | .ifE _ _ _, h => exact h
termination_by structural e
theorem enclosedList_grouped {X : Expr F → Prop} (l : List (Expr F)) (hg : GroupedAll X l) : GroupedAll X (enclosedList l) := by
  match l, hg with
  | [], _ => exact .nil
  | e :: l, .cons _ _ h1 h2 => exact .cons _ _ (enclosed_grouped e h1) (enclosedList_grouped l h2)
termination_by structural l
end

mutual
theorem enclosed_formed (e : Expr F) (hf : Formed e) : Formed (enclosed e) := by
  match e, hf with
  | .index l i, h => exact ⟨enclosed_formed l h.1, enclosed_formed i h.2⟩
  | .unary t r, h => exact ⟨h.1, enclosed_formed r h.2⟩
  | .binary t l r, h => exact ⟨h.1, h.2.1, enclosed_formed l h.2.2.1, enclosed_formed r h.2.2.2⟩
  | .call f args, h => exact ⟨h.1, enclosedList_formed args h.2⟩
  | .int _, h | .float _, h | .bool _, h | .str _, h | .ident _, h | .arr _, h | .map _, h | .field _ _, h | .letE _ _, h | .paren _, h | .ifE _ _ _, h => exact h
termination_by structural e
theorem enclosedList_formed (l : List (Expr F)) (hf : FormedAll l) : FormedAll (enclosedList l) := by
  match l, hf with
  | [], _ => exact trivial
  | e :: l, h => exact ⟨enclosed_formed e h.1, enclosedList_formed l h.2⟩
termination_by structural l
end

mutual
theorem enclosed_printable (e : Expr F) (hp : Printable e) : Printable (enclosed e) := by
  match e, hp with
  | .index l i, h => exact ⟨by rw [isLet_enclosed]; exact h.1, enclosed_printable l h.2.1, enclosed_printable i h.2.2⟩
  | .unary t r, h => exact ⟨by rw [isLet_enclosed]; exact h.1, enclosed_printable r h.2⟩
  | .binary t l r, h => exact ⟨by rw [isLet_enclosed]; exact h.1, by rw [isLet_enclosed]; exact h.2.1, enclosed_printable l h.2.2.1, enclosed_printable r h.2.2.2⟩
  | .call f args, h => exact enclosedList_printable args h
  | .int _, h | .float _, h | .bool _, h | .str _, h | .ident _, h | .arr _, h | .map _, h | .field _ _, h | .letE _ _, h | .paren _, h | .ifE _ _ _, h => exact h
termination_by structural e
theorem enclosedList_printable (l : List (Expr F)) (hp : PrintableAll l) : PrintableAll (enclosedList l) := by
  match l, hp with
  | [], _ => exact trivial
  | e :: l, h => exact ⟨enclosed_printable e h.1, enclosedList_printable l h.2⟩
termination_by structural l
end

/-- C97: the `Debug` text is the text of the expression with parentheses around every operator and every index; the tree is the same but for these. -/
theorem c97_text (e : Expr F) : e.debug = (enclosed e).display ∧ noParens (enclosed e) = noParens e := ⟨debug_enclosed e, noParens_enclosed e⟩

/-- C97 (partial): the `Debug` text of a printable expression of an accepted source denotes that expression with these parentheses. The full claim is the same
without `Printable`; it is false (`c97_false`). -/
theorem c97_denotes_partial (text : Str) (src : Source F) (h : parse text = .ok src) (e : Expr F) (he : Returned src e) (hp : Printable e) :
    parse e.debug = .ok ⟨[enclosed e], [], []⟩ := by
  obtain ⟨hg, ⟨te, hR, hok⟩, _⟩ := returned_whole text src h e he
  have hf := enclosed_formed e (reads_formed hR hok)
  have hp := enclosed_printable e hp
  have hg := enclosed_grouped e hg
  have hs := display_segment _ hf hp hg [] (by rintro c r ⟨⟩)
  rw [List.append_nil, segment_nil] at hs
  rw [debug_enclosed]
  exact c59_expression _ _ _ (toks_writes _ hf hp hg) hs

/-- C97 (partial): two such expressions with the same `Debug` text differ only in parentheses, so they do the same (C93). -/
theorem c97_tells_partial (text text' : Str) (src src' : Source F) (h : parse text = .ok src) (h' : parse text' = .ok src') (e e' : Expr F)
    (he : Returned src e) (he' : Returned src' e') (hp : Printable e) (hp' : Printable e') (hd : e.debug = e'.debug) : noParens e = noParens e' := by
  have h1 := c97_denotes_partial text src h e he hp
  have h2 := c97_denotes_partial text' src' h' e' he' hp'
  rw [hd, h2] at h1
  have : enclosed e' = enclosed e := by injection h1 with h1; injection h1 with h1; injection h1
  rw [← noParens_enclosed e, ← this, noParens_enclosed]

mutual
theorem enclosed_floats {P : F → Prop} (e : Expr F) (hf : FloatsAll P e) : FloatsAll P (enclosed e) := by
  match e, hf with
  | .index l i, h => exact ⟨enclosed_floats l h.1, enclosed_floats i h.2⟩
  | .unary t r, h => exact enclosed_floats r h
  | .binary t l r, h => exact ⟨enclosed_floats l h.1, enclosed_floats r h.2⟩
  | .call f args, h => exact enclosedList_floats args h
  | .int _, h | .float _, h | .bool _, h | .str _, h | .ident _, h | .arr _, h | .map _, h | .field _ _, h | .letE _ _, h | .paren _, h | .ifE _ _ _, h => exact h
termination_by structural e
theorem enclosedList_floats {P : F → Prop} (l : List (Expr F)) (hf : FloatsList P l) : FloatsList P (enclosedList l) := by
  match l, hf with
  | [], _ => exact trivial
  | e :: l, h => exact ⟨enclosed_floats e h.1, enclosedList_floats l h.2⟩
termination_by structural l
end

/-- C97 (partial), exactly: if floats that can be written as literals are printed legibly, then the `Debug` text of an expression of an accepted source
denotes that expression with these parentheses if and only if the expression with these parentheses prints back. -/
theorem c97_exact_partial (hl : LiteralsLegible F) (text : Str) (src : Source F) (h : parse text = .ok src) (e : Expr F) (he : Returned src e) :
    parse e.debug = .ok ⟨[enclosed e], [], []⟩ ↔ PrintsBack (enclosed e) := by
  obtain ⟨hg, ⟨te, hR, hok⟩, us, vs, hW⟩ := returned_whole text src h e he
  obtain ⟨pre, hw⟩ := whole_enclosed (by omega) hW
  rw [debug_enclosed]
  exact printed_exact _ (enclosed_grouped e hg) (enclosed_formed e (reads_formed hR hok)) (enclosed_floats e (reads_floats hl hR hok))
    (hw [rpTok] (.inr (shuts_rpTok [])))

/-- C97 (partial): two expressions that print back with these parentheses and have the same `Debug` text differ only in parentheses. -/
theorem c97_tells_exact_partial (hl : LiteralsLegible F) (text text' : Str) (src src' : Source F) (h : parse text = .ok src) (h' : parse text' = .ok src')
    (e e' : Expr F) (he : Returned src e) (he' : Returned src' e') (hp : PrintsBack (enclosed e)) (hp' : PrintsBack (enclosed e')) (hd : e.debug = e'.debug) :
    noParens e = noParens e' := by
  have h1 := (c97_exact_partial hl text src h e he).2 hp
  have h2 := (c97_exact_partial hl text' src' h' e' he').2 hp'
  rw [hd, h2] at h1
  have : enclosed e' = enclosed e := by injection h1 with h1; injection h1 with h1; injection h1
  rw [← noParens_enclosed e, ← this, noParens_enclosed]

/-- Concrete case: a `let` at the end of a left operand. The `Display` text of this expression does not denote it, the `Debug` text does. -/
example : parse (F := F) c!"-let x = 1; + 2" = .ok ⟨[.binary ⟨.Add, c!"+"⟩ (.unary ⟨.Sub, c!"-"⟩ (.letE c!"x" (.int 1))) (.int 2)], [], []⟩ ∧
    PrintsBack (F := F) (enclosed (.binary ⟨.Add, c!"+"⟩ (.unary ⟨.Sub, c!"-"⟩ (.letE c!"x" (.int 1))) (.int 2))) ∧
    ¬ PrintsBack (F := F) (.binary ⟨.Add, c!"+"⟩ (.unary ⟨.Sub, c!"-"⟩ (.letE c!"x" (.int 1))) (.int 2)) ∧
    (Expr.binary ⟨.Add, c!"+"⟩ (.unary ⟨.Sub, c!"-"⟩ (.letE c!"x" (.int 1))) (.int 2) : Expr F).debug = c!"((-let x = 1) + 2)" :=
  ⟨rfl, by simp [enclosed, PrintsBack, EndsInLet], by simp [PrintsBack, EndsInLet], rfl⟩

/-- Concrete case: a product in a sum, and a negated index. -/
example : parse (F := F) c!"f(1 + 2 * 3, -a[0])" = .ok ⟨[.call c!"f" [.binary ⟨.Add, c!"+"⟩ (.int 1) (.binary ⟨.Mul, c!"*"⟩ (.int 2) (.int 3)),
      .unary ⟨.Sub, c!"-"⟩ (.index (.ident c!"a") (.int 0))]], [], []⟩ ∧
    (Expr.call c!"f" [.binary ⟨.Add, c!"+"⟩ (.int 1) (.binary ⟨.Mul, c!"*"⟩ (.int 2) (.int 3)), .unary ⟨.Sub, c!"-"⟩ (.index (.ident c!"a") (.int 0))] : Expr F).debug =
      c!"f((1 + (2 * 3)), (-(a[0])))" ∧
    Printable (F := F) (.call c!"f" [.binary ⟨.Add, c!"+"⟩ (.int 1) (.binary ⟨.Mul, c!"*"⟩ (.int 2) (.int 3)), .unary ⟨.Sub, c!"-"⟩ (.index (.ident c!"a") (.int 0))]) :=
  ⟨rfl, rfl, by simp [Printable, PrintableAll, isLet]⟩

/-- C97 is false: a field of a number is shown as a number with a point. -/
theorem c97_false : ∃ (src : Source F) (e : Expr F), parse c!"1 .x" = .ok src ∧ src.exprs = [e] ∧ parse e.debug ≠ .ok ⟨[enclosed e], [], []⟩ :=
  ⟨_, _, c10_false_field.1, rfl, c10_false_field.2⟩

end Am
