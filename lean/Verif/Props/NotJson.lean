import Verif.Spec.NotJson
import Verif.Props.JsonAll
import Verif.Props.Accepts
/-! # C102: what is taken for JSON -/
set_option linter.unusedSimpArgs false
set_option linter.unusedSectionVars false
namespace Am
open Spec
variable {F : Type} [Rt F]

mutual
theorem literal_eval : ∀ e : Expr F, Literal e e.eval
  | .int i => .int i
  | .float f => .float f
  | .bool b => .bool b
  | .str s => .str s
  | .arr es => .arr es _ (literal_items es)
  | .map ps => by
    obtain ⟨vs, h1, h2⟩ := literal_pairs ps
    exact .map ps vs _ h1 (h2 [] (by simp [KeysNodup])).1 fun k => by simpa [amGet] using (h2 [] (by simp [KeysNodup])).2 k
  | .ident _ => .other _ nofun nofun nofun nofun nofun nofun
  | .index _ _ => .other _ nofun nofun nofun nofun nofun nofun
  | .field _ _ => .other _ nofun nofun nofun nofun nofun nofun
  | .letE _ _ => .other _ nofun nofun nofun nofun nofun nofun
  | .unary _ _ => .other _ nofun nofun nofun nofun nofun nofun
  | .binary _ _ _ => .other _ nofun nofun nofun nofun nofun nofun
  | .paren _ => .other _ nofun nofun nofun nofun nofun nofun
  | .ifE _ _ _ => .other _ nofun nofun nofun nofun nofun nofun
  | .call _ _ => .other _ nofun nofun nofun nofun nofun nofun
theorem literal_items : ∀ es : List (Expr F), LiteralAll es (Expr.evalItems es)
  | [] => .nil
  | e :: es => .cons e es _ _ (literal_eval e) (literal_items es)
theorem literal_pairs : ∀ ps : List (Expr F × Expr F), ∃ vs, LiteralPairs ps vs ∧
    ∀ acc : List (Str × Value F), KeysNodup acc → KeysNodup (Expr.evalPairs acc ps) ∧ ∀ k, amGet k (Expr.evalPairs acc ps) = (lastValue k vs).or (amGet k acc)
  | [] => ⟨[], .nil, fun acc h => ⟨h, fun k => by simp [Expr.evalPairs, lastValue]⟩⟩
  | (k, e) :: ps => by
    obtain ⟨vs, h1, h2⟩ := literal_pairs ps
    refine ⟨(k.eval.display, e.eval) :: vs, .cons k e ps _ _ vs (literal_eval k) (literal_eval e) h1, fun acc h => ?_⟩
    obtain ⟨h3, h4⟩ := h2 (amInsert k.eval.display e.eval acc) (amInsert_nodup h)
    refine ⟨by simp only [Expr.evalPairs]; exact h3, fun n => ?_⟩
    simp only [Expr.evalPairs, lastValue]
    rw [h4, amGet_insert]
    cases lastValue n vs with
    | some v => rfl
    | none => by_cases hn : k.eval.display = n <;> simp [hn]
end

/-- C102, exactly: a response has the entry `json` if and only if its body is a program (C79) with at least one expression, and then the entry is the
literal value of the first one. -/
theorem c102_exact_partial (r : Response) (v : Value F) :
    ((∃ m, r.toMap (F := F) = .ok m ∧ amGet c!"json" m ≠ none) ↔ ∃ items : List (Item F), Program (segment r.body) items ∧ exprsOf items ≠ []) ∧
    ((∃ m, r.toMap (F := F) = .ok m ∧ amGet c!"json" m = some v) →
      ∃ items e es, Program (segment r.body) items ∧ exprsOf items = e :: es ∧ Literal e v) := by
  have hx : ∀ items : List (Item F), (items.foldl addItem (⟨[], [], []⟩ : Source F)).exprs = exprsOf items := fun items => by
    simpa using (fold_tables items ⟨[], [], []⟩).1
  have first : ∀ (m : List (Str × Value F)) (v : Value F), r.toMap = .ok m → amGet c!"json" m = some v →
      ∃ items e es, Program (segment r.body) items ∧ exprsOf items = e :: es ∧ Literal e v := by
    intro m v h hv
    obtain ⟨src, e, es, hp, he, rfl⟩ := json_first h hv
    obtain ⟨items, h1, rfl⟩ := (c79_accepts r.body src).1 hp
    exact ⟨items, e, es, h1, by rw [← hx, he], literal_eval e⟩
  refine ⟨⟨?_, ?_⟩, fun ⟨m, h1, h2⟩ => first m v h1 h2⟩
  · rintro ⟨m, h1, h2⟩
    obtain ⟨w, hw⟩ := Option.ne_none_iff_exists'.1 h2
    obtain ⟨items, e, es, h3, h4, -⟩ := first m w h1 hw
    exact ⟨items, h3, by rw [h4]; simp⟩
  · rintro ⟨items, h1, h2⟩
    have hp := (c79_accepts r.body _).2 ⟨items, h1, rfl⟩
    unfold Response.toMap
    rw [hp]
    dsimp only
    rw [hx]
    cases he : exprsOf items with
    | nil => exact absurd he h2
    | cons e es => exact ⟨_, rfl, by rw [amGet_insert_self]; simp⟩

/-- C102: the map of a response is missing altogether exactly if the parser never returns from the body. -/
theorem c102_endless (r : Response) : r.toMap (F := F) = .hang ↔ Endless F (segment r.body) := by
  rw [← c06_exact_partial]
  unfold Response.toMap
  cases hp : (parse r.body : Res (Source F)) with
  | ok src => dsimp only; cases src.exprs <;> simp
  | err e => simp
  | panic => simp
  | hang => simp

/-- The characters a JSON document can begin with. -/
theorem json_begins {j : JsonDoc} {s : Str} (h : JsonText j s) : ∃ c r, s = c :: r ∧ (c ∈ c!"ntf-\"[{" ∨ isDigit c = true) := by
  cases h with
  | null => exact ⟨'n', _, rfl, .inl (by decide)⟩
  | bool b => cases b <;> exact ⟨_, _, rfl, .inl (by decide)⟩
  | num n hn =>
    unfold JNum.text
    obtain ⟨⟨h1, h2⟩, -⟩ := hn
    cases n.neg with
    | true => exact ⟨'-', _, rfl, .inl (by decide)⟩
    | false =>
      cases hi : n.int with
      | nil => exact absurd hi h1
      | cons c r => exact ⟨c, _, by simp only [List.cons_append, List.nil_append, if_false, Bool.false_eq_true]; rfl, .inr (h2 c (by rw [hi]; exact List.mem_cons_self))⟩
  | str s _ => exact ⟨'"', _, rfl, .inl (by decide)⟩
  | noItems w _ => exact ⟨'[', _, rfl, .inl (by decide)⟩
  | arr j js s _ => exact ⟨'[', _, rfl, .inl (by decide)⟩
  | noMembers w _ => exact ⟨'{', _, rfl, .inl (by decide)⟩
  | obj m ms s _ => exact ⟨'{', _, rfl, .inl (by decide)⟩

/-- C102 is false: a plain text such as `hello` is no JSON, and yet the response has the entry `json`, namely null. -/
theorem c102_false : ¬ OnlyJson F ∧ ∃ m, (⟨c!"HTTP/1.1", 200, c!"OK", [⟨c!"Content-Type", c!"text/plain"⟩], c!"hello"⟩ : Response).toMap (F := F) = .ok m ∧ amGet c!"json" m = some .null := by
  have h1 : ∃ m, (⟨c!"HTTP/1.1", 200, c!"OK", [⟨c!"Content-Type", c!"text/plain"⟩], c!"hello"⟩ : Response).toMap (F := F) = .ok m ∧ amGet c!"json" m = some .null :=
    ⟨_, rfl, rfl⟩
  refine ⟨fun h => ?_, h1⟩
  obtain ⟨m, h2, h3⟩ := h1
  obtain ⟨j, w, s, w', hw, -, hj, e⟩ := h _ m h2 (by rw [h3]; simp)
  obtain ⟨c, r, rfl, hc⟩ := json_begins hj
  change c!"hello" = _ at e
  cases w with
  | nil =>
    simp only [List.nil_append, List.cons_append, List.cons.injEq] at e
    obtain ⟨rfl, -⟩ := e
    rcases hc with hc | hc
    · revert hc; decide
    · revert hc; decide
  | cons x w =>
    simp only [List.cons_append, List.cons.injEq] at e
    obtain ⟨rfl, -⟩ := e
    have := hw 'h' List.mem_cons_self
    revert this; decide

/-- Words after a number, and an answer in prose with a number in front: `json` is the number. -/
example : (∃ m, (⟨[], 200, [], [], c!"404 not found"⟩ : Response).toMap (F := F) = .ok m ∧ amGet c!"json" m = some (.int 404)) := ⟨_, rfl, rfl⟩

/-- Markup is rejected by the parser, so it has no `json`. -/
example : (∃ m, (⟨[], 200, [], [], c!"<p>1</p>"⟩ : Response).toMap (F := F) = .ok m ∧ amGet c!"json" m = none) := ⟨_, rfl, rfl⟩

/-- An array with a word in it is no JSON; the word counts as null. -/
example : (∃ m, (⟨[], 200, [], [], c!"[x, 1]"⟩ : Response).toMap (F := F) = .ok m ∧ amGet c!"json" m = some (.arr [.null, .int 1])) ∧
    Literal (F := F) (.arr [.ident c!"x", .int 1]) (.arr [.null, .int 1]) :=
  ⟨⟨_, rfl, rfl⟩, .arr _ _ (.cons _ _ _ _ (.other _ nofun nofun nofun nofun nofun nofun) (.cons _ _ _ _ (.int 1) .nil))⟩

end Am
