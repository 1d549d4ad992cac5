import Verif.Proofs.Template
import Verif.Model.Evaluator
/-! # C27, C28: templates and `format` -/
set_option linter.unusedSimpArgs false
namespace Am
open Spec
variable {F : Type} [Rt F]

/-- C27: the message sent consists of the pieces of the template, with every placeholder replaced by the text of its variable — `null` when
unbound — and every other character unchanged. There is exactly one way to cut the template into pieces. -/
theorem c27_render (ctx : Context F) (template : Str) :
    ∃ ps, Pieces template ps ∧ (∀ qs, Pieces template qs → qs = ps) ∧
      render ctx template = fillBy (fun name => match amGet name ctx.inner with | some v => v.display | none => c!"null") ps := by
  obtain ⟨ps, h1, h2, h3, h4⟩ := findAll_pieces template.length 0 template (Nat.le_refl _)
  refine ⟨ps, h1, fun qs hq => pieces_unique hq h1, ?_⟩
  rw [h3]
  have := h4 [] ((findTemplates template).map fun m => varText ctx m.1) rfl (by simp [findTemplates, h2])
  simp only [List.nil_append] at this
  unfold render
  rw [zip_map_reverse (findTemplates template) (·.2) (fun m => varText ctx m.1)]
  exact this

/-- Concrete case: adjacent and unclosed braces, white space, a value that looks like a placeholder, and an unbound variable. -/
example : render (⟨[(c!"a", .str c!"{b}"), (c!"b", .int 7)], [], []⟩ : Context F) c!"{{a}{ b }{x}{1}{" = c!"{{b}7null{1}{" := rfl

/-- C28: `format(s, v1..vn)` fails with an arity error exactly when the number of placeholders in `s` is not `n`, and otherwise returns `s`
with the placeholders replaced by the texts of the values in order. -/
theorem c28_format (s : Str) (args : List (Value F)) :
    ∃ ps, Pieces s ps ∧ (∀ qs, Pieces s qs → qs = ps) ∧
      (args.length ≠ holes ps → nativeFormat (.str s :: args) =
        .err (c!"wrong number of arguments. got=" ++ natStr args.length ++ c!", want=" ++ natStr (holes ps))) ∧
      (args.length = holes ps → nativeFormat (.str s :: args) = .ok (.str (fillWith ps (args.map Value.display)))) := by
  obtain ⟨ps, h1, h2, h3, h4⟩ := findAll_pieces s.length 0 s (Nat.le_refl _)
  have hl : (((findTemplates s).map (·.2)).reverse).length = holes ps := by simp [findTemplates, h2]
  refine ⟨ps, h1, fun qs hq => pieces_unique hq h1, ?_, ?_⟩
  · intro hn
    simp only [nativeFormat]
    rw [hl, if_pos (by simpa using hn), List.length_reverse]
  · intro he
    simp only [nativeFormat]
    rw [hl, if_neg (by simpa using he)]
    have := h4 [] (args.map Value.display) rfl (by simp [he])
    simp only [List.nil_append] at this
    rw [← this]
    congr 3
    rw [List.map_reverse]
    exact zip_reverse' _ _ (by simp [findTemplates, h2, he])

/-- C28: without arguments, or when the first argument is not a string, `format` fails. -/
theorem c28_format_needs_string (args : List (Value F)) (h : ∀ s rest, args ≠ .str s :: rest) : ∃ m, nativeFormat args = .err m := by
  cases args with
  | nil => exact ⟨_, rfl⟩
  | cons v args =>
    cases v with
    | str s => exact absurd rfl (h s args)
    | _ => exact ⟨_, rfl⟩

/-- C28: `print` outputs exactly the formatted text and `println` the same with a newline; both return null, and when formatting fails they
fail with the same message and output nothing. Nothing else changes. -/
theorem c28_print (args : List (Value F)) (s : St F) :
    (∀ v, nativeFormat args = .ok v → callNative c!"print" args s = (.ok .null, { s with out := s.out ++ v.display }) ∧
      callNative c!"println" args s = (.ok .null, { s with out := s.out ++ v.display ++ c!"\n" })) ∧
    (∀ m, nativeFormat args = .err m → callNative c!"print" args s = (.err m, s) ∧ callNative c!"println" args s = (.err m, s)) := by
  have hp : callNative c!"print" args s = (do
      let v ← M.lift (nativeFormat args)
      M.modify fun s => { s with out := s.out ++ v.display }
      pure .null : M F (Value F)) s := rfl
  have hl : callNative c!"println" args s = (do
      let v ← M.lift (nativeFormat args)
      M.modify fun s => { s with out := s.out ++ v.display ++ c!"\n" }
      pure .null : M F (Value F)) s := rfl
  rw [hp, hl]
  constructor
  · intro v hv
    rw [hv]
    exact ⟨rfl, rfl⟩
  · intro m hm
    rw [hm]
    exact ⟨rfl, rfl⟩

/-- C28: `format` is the native function called by that name, when no request has it. -/
theorem c28_called (net : Net) (args : List (Value F)) (s : St F) (h : s.ctx.request c!"format" = none) :
    callAt net 1 c!"format" args s = (nativeFormat args, s) := by
  simp only [callAt, h]
  rfl

example : nativeFormat ([.str c!"{a}-{b}!", .int 1, .str c!"{c}"] : List (Value F)) = .ok (.str c!"1-{c}!") := rfl
example : nativeFormat ([.str c!"{a}-{b}!", .int 1] : List (Value F)) = .err c!"wrong number of arguments. got=1, want=2" := rfl

end Am
