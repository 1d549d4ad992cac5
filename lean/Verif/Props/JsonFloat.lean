import Verif.Spec.JsonFloat
import Verif.Props.FloatText
import Verif.Props.JsonAll
/-! # C44 with `f64`

Nothing has to be assumed of floats: every JSON number with a fraction or an exponent denotes the float nearest to it. -/
set_option linter.unusedSimpArgs false
set_option linter.unusedSectionVars false
set_option exponentiation.threshold 100
namespace Am
open Spec

theorem jnum_says (n : JNum) (h : n.Ok) : NumberText n.text n.neg (decimal (n.int ++ n.decimals)) (n.power - (n.decimals.length : Int)) := by
  obtain ⟨⟨h1, h2⟩, _, h3, h4⟩ := h
  obtain ⟨neg, int, frac, exp⟩ := n
  dsimp only at *
  have hs : Sign (if neg then ['-'] else []) neg := by cases neg; exact .none; exact .minus
  have hm : Mantissa (int ++ (frac.map ('.' :: ·)).getD []) (decimal (int ++ frac.getD [])) (frac.getD []).length := by
    cases frac with
    | none =>
      show Mantissa (int ++ []) (decimal (int ++ [])) 0
      rw [List.append_nil]
      exact .whole int h1 h2
    | some f =>
      refine .point int f (fun e => h1 (List.append_eq_nil_iff.1 e).1) fun c hc => ?_
      rcases List.mem_append.1 hc with hc | hc
      · exact h2 c hc
      · exact (h3 f rfl).2 c hc
  have hx : Exponent ((exp.map fun x => x.1 :: (x.2.1.toList ++ x.2.2)).getD []) (JNum.power ⟨neg, int, frac, exp⟩) := by
    cases exp with
    | none => exact .none
    | some x =>
      obtain ⟨e, s, d⟩ := x
      obtain ⟨he, hs, hd⟩ := h4 e s d rfl
      cases s with
      | none => exact .plain e d he hd.1 hd.2
      | some c =>
        rcases hs c rfl with rfl | rfl
        · exact .plus e d he hd.1 hd.2
        · exact .minus e d he hd.1 hd.2
  have := NumberText.mk _ _ _ _ _ _ _ hs hm hx
  unfold JNum.text JNum.decimals
  rw [List.append_assoc, List.append_assoc]
  rw [List.append_assoc] at this
  cases frac <;> cases exp <;> exact this

theorem jnum_reads (b : Build) (n : JNum) (h : n.Ok) (f : F64) :
    @Rt.fparse F64 (rt64 b) n.text = some f ↔ IsFloat n.neg (decimal (n.int ++ n.decimals)) (n.power - (n.decimals.length : Int)) f := by
  have key : @Rt.fparse F64 (rt64 b) n.text = some (F64.ofDecimal n.neg (decimal (n.int ++ n.decimals)) (n.power - (n.decimals.length : Int))) :=
    (F64.parse_iff _ _).2 (.number _ _ _ _ _ (jnum_says n h) (F64.ofDecimal_isFloat ..))
  rw [key, F64.isFloat_of]
  exact ⟨fun h => Option.some.inj h, fun h => congrArg some h⟩

/-- C44 with `f64`: a number with a fraction or an exponent denotes the float nearest to it, and no other. -/
theorem c44_number (b : Build) (n : JNum) (h : n.Ok) (hn : ¬ (n.frac = none ∧ n.exp = none)) (v : Value F64) :
    @Denotes F64 (rt64 b) (.num n) v ↔ ∃ f, v = .float f ∧ IsFloat n.neg (decimal (n.int ++ n.decimals)) (n.power - (n.decimals.length : Int)) f := by
  constructor
  · intro hd
    cases hd with
    | int _ i h1 h2 _ => exact absurd ⟨h1, h2⟩ hn
    | float _ f _ hf => exact ⟨f, rfl, (jnum_reads b n h f).1 hf⟩
  · rintro ⟨f, rfl, hf⟩
    exact @Denotes.float F64 (rt64 b) n f hn ((jnum_reads b n h f).2 hf)

mutual
theorem simple_plain (b : Build) {j : JsonDoc} {s : Str} (h : JsonText j s) : @PlainJson F64 (rt64 b) j ↔ SimpleJson j := by
  match h with
  | .null => exact Iff.rfl
  | .bool _ => exact Iff.rfl
  | .num n hn =>
    refine ⟨fun h => ⟨h.1, h.2.1, h.2.2.1⟩, fun h => ⟨h.1, h.2.1, h.2.2, fun f _ => ⟨_, (jnum_reads b n hn _).2 (F64.ofDecimal_isFloat ..)⟩⟩⟩
  | .str _ _ => exact Iff.rfl
  | .noItems _ _ => exact Iff.rfl
  | .arr j js _ h => have ih := simple_plainAll b h; exact ih
  | .noMembers _ _ => exact Iff.rfl
  | .obj m ms _ h => have ih := simple_plainMembers b h; exact ih
termination_by structural h
theorem simple_plainAll (b : Build) {js : List JsonDoc} {s : Str} (h : JsonItems js s) : @PlainAll F64 (rt64 b) js ↔ SimpleAll js := by
  match h with
  | .last j _ _ _ _ _ h => have ih := simple_plain b h; exact ⟨fun h => ⟨ih.1 h.1, h.2⟩, fun h => ⟨ih.2 h.1, h.2⟩⟩
  | .cons j js _ _ _ _ _ _ h h' =>
    have ih := simple_plain b h
    have ih' := simple_plainAll b h'
    exact ⟨fun h => ⟨ih.1 h.1, ih'.1 h.2⟩, fun h => ⟨ih.2 h.1, ih'.2 h.2⟩⟩
termination_by structural h
theorem simple_plainMembers (b : Build) {ms : List (List JChar × JsonDoc)} {s : Str} (h : JsonMembers ms s) : @PlainMembers F64 (rt64 b) ms ↔ SimpleMembers ms := by
  match h with
  | .last k j _ _ _ _ _ _ _ _ _ _ h => have ih := simple_plain b h; exact ⟨fun h => ⟨h.1, ih.1 h.2.1, h.2.2⟩, fun h => ⟨h.1, ih.2 h.2.1, h.2.2⟩⟩
  | .cons k j ms _ _ _ _ _ _ _ _ _ _ _ h h' =>
    have ih := simple_plain b h
    have ih' := simple_plainMembers b h'
    exact ⟨fun h => ⟨h.1, ih.1 h.2.1, ih'.1 h.2.2⟩, fun h => ⟨h.1, ih.2 h.2.1, ih'.2 h.2.2⟩⟩
termination_by structural h
end

/-- C44 with `f64` (partial): a body without escapes, negative numbers, exponents and integers beyond 64 bits is exposed as the value it denotes. The full claim
is the same for every document. -/
theorem c44_f64_partial (b : Build) (r : Response) (j : JsonDoc) (h : JsonBody j r.body) (hs : SimpleJson j) :
    ∃ m v, @Response.toMap F64 (rt64 b) r = .ok m ∧ amGet c!"json" m = some v ∧ @Denotes F64 (rt64 b) j v := by
  have hp : @PlainJson F64 (rt64 b) j := by
    obtain ⟨w, s, w', _, _, ht, _⟩ := h
    exact (simple_plain b ht).2 hs
  exact @c44_json_partial F64 (rt64 b) r j h hp

/-- C44 with `f64`, exactly: for documents with distinct names none of which has an escaped quote, `json` is the value denoted if and only if the document is simple, or is
a single number whose exponent changes nothing. -/
theorem c44_f64_exact_partial (b : Build) (r : Response) (j : JsonDoc) (h : JsonBody j r.body) (hn : NamesJson j) (hd : DistinctJson j) :
    (∃ m v, @Response.toMap F64 (rt64 b) r = .ok m ∧ amGet c!"json" m = some v ∧ @Denotes F64 (rt64 b) j v) ↔
      SimpleJson j ∨ ∃ n, j = .num n ∧ @IdleExponent F64 (rt64 b) n := by
  rw [@c44_all_partial F64 (rt64 b) r j h hn hd]
  obtain ⟨w, s, w', _, _, ht, _⟩ := h
  rw [simple_plain b ht]

/-- Concrete case: `{"x": 0.1, "y": [null]}`, and the number in it. -/
example : SimpleJson (.obj [([.plain 'x'], .num ⟨false, c!"0", some c!"1", none⟩), ([.plain 'y'], .arr [.null])]) ∧
    IsFloat false (decimal (c!"0" ++ c!"1")) (0 - ((c!"1").length : Int)) (.fin false 7205759403792794 1018 (by decide)) := by
  refine ⟨by simp [SimpleJson, SimpleAll, SimpleMembers, SimpleNum, PlainStr], F64.isFloat_of.2 ?_⟩
  decide +kernel

/-- Concrete case for the other alternative: `1.5e0`. -/
example (b : Build) : @IdleExponent F64 (rt64 b) ⟨false, c!"1", some c!"5", some ('e', none, c!"0")⟩ := by
  refine ⟨rfl, c!"5", 'e', none, c!"0", rfl, rfl, .inl rfl, F64.ofDecimal false 15 (-1), ?_, ?_⟩
  · show F64.parse c!"1.5" = _
    decide +kernel
  · show F64.parse c!"1.5e0" = _
    decide +kernel

end Am
