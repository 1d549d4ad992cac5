import Verif.Proofs.Written
import Verif.Props.Equality
/-! # C85: a printed value can be read back -/
set_option linter.unusedSimpArgs false
set_option linter.unusedSectionVars false
namespace Am
open Spec
variable {F : Type} [Rt F]

/-- The 64-bit integers in place of the floats. -/
abbrev wholeFloats : Rt Int64 :=
  ⟨fun a _ => a, fun a _ => a, fun a _ => a, fun a _ => a, fun a _ => a, fun a => a, fun a => a, fun _ _ => none, fun a b => a == b,
    fun _ => none, fun a => intStr a.toInt, fun a => intStr a.toInt ++ c!".0", true, fun c => [c], fun l => l⟩

/-- The assumptions can be met. -/
example : @PrintsFair Int64 wholeFloats ∧ @FloatsShown Int64 wholeFloats := by
  letI := wholeFloats
  constructor
  · exact { order := fun l => .refl l, escape := fun c _ => Or.inl rfl }
  · have hd : ∀ c : Char, isDigit c = true → c ∈ c!"0123456789+-.einfNa" := by
      intro c hc
      simp only [isDigit, Bool.and_eq_true, decide_eq_true_eq] at hc
      have : c.toNat ∈ [48, 49, 50, 51, 52, 53, 54, 55, 56, 57] := by
        have h1 : 48 ≤ c.toNat := hc.1
        have h2 : c.toNat ≤ 57 := hc.2
        simp only [List.mem_cons, List.not_mem_nil, or_false]; omega
      have e : c = Char.ofNat c.toNat := (Char.ofNat_toNat c).symm
      simp only [List.mem_cons, List.not_mem_nil, or_false] at this
      rcases this with h | h | h | h | h | h | h | h | h | h <;> rw [e, h] <;> decide
    have hi : ∀ (i : Int) (c : Char), c ∈ intStr i → c ∈ c!"0123456789+-.einfNa" := by
      intro i c hc
      rcases decimal_chars (intStr_decimal i) c hc with h | h
      · exact hd c h
      · subst h; decide
    have inj : ∀ f g : Int64, intStr f.toInt = intStr g.toInt → (f == g) = true := by
      intro f g h
      have h1 := intStr_decimal f.toInt
      rw [h] at h1
      rw [Int64.toInt_inj.1 (decimal_unique h1 (intStr_decimal g.toInt))]
      exact beq_self_eq_true g
    refine { chars := ?_, display := fun f g h _ => inj f g h, debug := fun f g h _ => inj f g (List.append_cancel_right h) }
    intro f c h
    rcases h with h | h
    · exact hi _ c h
    · rcases List.mem_append.1 h with h | h
      · exact hi _ c h
      · simp only [List.mem_cons, List.not_mem_nil, or_false] at h
        rcases h with rfl | rfl <;> decide

/-- C85: the items of arrays and the entries of maps are written by the rules of `Spec.Written`. -/
theorem c85_written (hp : PrintsFair F) (v : Value F) : Written v v.debug := debug_written hp v

/-- C85: a value is printed by the rules of `Spec.Shown`. -/
theorem c85_shown (hp : PrintsFair F) (v : Value F) : Shown v v.display := display_shown hp v

/-- Concrete case: an array of one value of each kind, with a text that needs escapes. -/
example : (Value.arr [.null, .int (-5), .bool true, .str c!"a\"\\\n\x07", .arr []] : Value F).display =
    c!"[Null, Integer(-5), Boolean(true), String(\"a\\\"\\\\\\n\\u{7}\"), Array([])]" := by
  rfl

/-- C85: the text of a value inside an array or a map tells the value: two values written alike are equal (if the first is equal to itself,
which a value that holds a NaN is not). -/
theorem c85_reads (hf : FloatsShown F) {a b : Value F} {t : Str} (ha : Proper a) (hb : Proper b) (hs : Same a a) (h : Written a t) (g : Written b t) :
    Same a b :=
  alike_same hf (written_prefix (r := []) (r' := []) hf h g rfl).1 ha hb hs

/-- C85: the same of the text the program makes. -/
theorem c85_inside (hp : PrintsFair F) (hf : FloatsShown F) {a b : Value F} (ha : Proper a) (hb : Proper b) (hs : Same a a) (h : a.debug = b.debug) :
    Same a b :=
  c85_reads hf ha hb hs (c85_written hp a) (h ▸ c85_written hp b)

/-- The values whose printed text may be that of a value of another kind: one of two values is a text, or one is an integer and the other a
float. -/
def Confusable (a b : Value F) : Prop :=
  (∃ s, a = .str s) ∨ (∃ s, b = .str s) ∨ (∃ i f, a = .int i ∧ b = .float f) ∨ (∃ f i, a = .float f ∧ b = .int i)

/-- C85, as stated: two values printed alike are equal. -/
def C85 (F : Type) [Rt F] : Prop := ∀ a b : Value F, Proper a → Proper b → Same a a → a.display = b.display → Same a b

theorem float_not_text (hf : FloatsShown F) {f : F} {t : Str} {c : Char} (hc : c ∈ t) (hn : c ∉ c!"0123456789+-.einfNa") : Rt.fdisp f ≠ t :=
  fun h => hn (hf.chars f c (Or.inl (h ▸ hc)))

theorem decimal_not_text {i : Int} {t u : Str} {c : Char} (h : Decimal t i) (hc : c ∈ u) (hn : isDigit c = false ∧ c ≠ '-') : t ≠ u := by
  intro e
  subst e
  rcases decimal_chars h c hc with h | h
  · rw [hn.1] at h; cases h
  · exact hn.2 h

theorem shown_alike (hf : FloatsShown F) {a b : Value F} {t u : Str} (h : Shown a t) (g : Shown b u) (e : t = u) (ha : Proper a) (hb : Proper b)
    (hs : Same a a) : Same a b ∨ Confusable a b := by
  have items : ∀ {l r : List (Value F)} {x y : Str}, WrittenItems l x → WrittenItems r y → c!"[" ++ x ++ c!"]" = c!"[" ++ y ++ c!"]" →
      Twin (.arr l) (.arr r) := by
    intro l r x y hx hy e
    have e := List.append_cancel_left (as := c!"[") (by simpa only [List.append_assoc] using e)
    exact .arr _ _ (items_prefix hf hx hy (r := []) (r' := []) e).1
  have pairs : ∀ {l r l' r' : List (Str × Value F)} {x y : Str}, l'.Perm l → r'.Perm r → WrittenPairs l' x → WrittenPairs r' y →
      c!"{" ++ x ++ c!"}" = c!"{" ++ y ++ c!"}" → Twin (.map l) (.map r) := by
    intro l r l' r' x y h1 h2 hx hy e
    have e := List.append_cancel_left (as := c!"{") (by simpa only [List.append_assoc] using e)
    exact .map _ _ _ _ h1 h2 (pairs_prefix hf hx hy (r := []) (r' := []) e).1
  cases h with
  | str => exact Or.inr (Or.inl ⟨_, rfl⟩)
  | null =>
    cases g with
    | str => exact Or.inr (Or.inr (Or.inl ⟨_, rfl⟩))
    | null => exact Or.inl .null
    | int i _ hi => exact absurd e.symm (decimal_not_text hi (c := 'u') (by decide) (by decide))
    | float f => exact absurd e.symm (float_not_text hf (c := 'u') (by decide) (by decide))
    | yes => exact absurd e (by decide)
    | no => exact absurd e (by decide)
    | arr => simp at e
    | map => simp at e
  | int i _ hi =>
    cases g with
    | str => exact Or.inr (Or.inr (Or.inl ⟨_, rfl⟩))
    | null => exact absurd e (decimal_not_text hi (c := 'u') (by decide) (by decide))
    | int j _ hj =>
      subst e
      rw [Int64.toInt_inj.1 (decimal_unique hi hj)]
      exact Or.inl (.int j)
    | float f => exact Or.inr (Or.inr (Or.inr (Or.inl ⟨i, f, rfl, rfl⟩)))
    | yes => exact absurd e (decimal_not_text hi (c := 'u') (by decide) (by decide))
    | no => exact absurd e (decimal_not_text hi (c := 'l') (by decide) (by decide))
    | arr => exact absurd e (decimal_not_text hi (c := '[') (by simp) (by decide))
    | map => exact absurd e (decimal_not_text hi (c := '{') (by simp) (by decide))
  | float f =>
    cases g with
    | str => exact Or.inr (Or.inr (Or.inl ⟨_, rfl⟩))
    | null => exact absurd e (float_not_text hf (c := 'u') (by decide) (by decide))
    | int j _ hj => exact Or.inr (Or.inr (Or.inr (Or.inr ⟨f, j, rfl, rfl⟩)))
    | float g =>
      match hs with
      | .float hs => exact Or.inl (.float (hf.display f g e hs))
    | yes => exact absurd e (float_not_text hf (c := 'u') (by decide) (by decide))
    | no => exact absurd e (float_not_text hf (c := 'l') (by decide) (by decide))
    | arr => exact absurd e (float_not_text hf (c := '[') (by simp) (by decide))
    | map => exact absurd e (float_not_text hf (c := '{') (by simp) (by decide))
  | yes =>
    cases g with
    | str => exact Or.inr (Or.inr (Or.inl ⟨_, rfl⟩))
    | null => exact absurd e (by decide)
    | int i _ hi => exact absurd e.symm (decimal_not_text hi (c := 'u') (by decide) (by decide))
    | float f => exact absurd e.symm (float_not_text hf (c := 'u') (by decide) (by decide))
    | yes => exact Or.inl (.bool true)
    | no => exact absurd e (by decide)
    | arr => simp at e
    | map => simp at e
  | no =>
    cases g with
    | str => exact Or.inr (Or.inr (Or.inl ⟨_, rfl⟩))
    | null => exact absurd e (by decide)
    | int i _ hi => exact absurd e.symm (decimal_not_text hi (c := 'l') (by decide) (by decide))
    | float f => exact absurd e.symm (float_not_text hf (c := 'l') (by decide) (by decide))
    | yes => exact absurd e (by decide)
    | no => exact Or.inl (.bool false)
    | arr => simp at e
    | map => simp at e
  | arr vs x hx =>
    cases g with
    | str => exact Or.inr (Or.inr (Or.inl ⟨_, rfl⟩))
    | arr ws y hy => exact Or.inl (alike_same hf (items hx hy e) ha hb hs)
    | int i _ hi => exact absurd e.symm (decimal_not_text hi (c := '[') (by simp) (by decide))
    | float f => exact absurd e.symm (float_not_text hf (c := '[') (by simp) (by decide))
    | null => simp at e
    | yes => simp at e
    | no => simp at e
    | map => simp at e
  | map ps qs x h1 hx =>
    cases g with
    | str => exact Or.inr (Or.inr (Or.inl ⟨_, rfl⟩))
    | map ps' qs' y h2 hy => exact Or.inl (alike_same hf (pairs h1 h2 hx hy e) ha hb hs)
    | int i _ hi => exact absurd e.symm (decimal_not_text hi (c := '{') (by simp) (by decide))
    | float f => exact absurd e.symm (float_not_text hf (c := '{') (by simp) (by decide))
    | null => simp at e
    | yes => simp at e
    | no => simp at e
    | arr => simp at e

/-- C85: two values printed alike are equal, unless one is a text, or one an integer and the other a float. Missing: those pairs, for which
the claim fails (`c85_false`). -/
theorem c85_display_partial (hp : PrintsFair F) (hf : FloatsShown F) (a b : Value F) (ha : Proper a) (hb : Proper b) (hs : Same a a)
    (h : a.display = b.display) (hc : ¬ Confusable a b) : Same a b :=
  (shown_alike hf (c85_shown hp a) (c85_shown hp b) h ha hb hs).resolve_right hc

/-- C85: two texts printed alike are equal. -/
theorem c85_texts (s t : Str) (h : (Value.str s : Value F).display = (Value.str t : Value F).display) : s = t := h

/-- C85 fails: an integer and the text of its digits are printed alike but are not equal. -/
theorem c85_false : ¬ C85 F := by
  intro h
  have := h (.int 1) (.str c!"1") (.int _) (.str _) (.int _) rfl
  cases this

/-- C85 fails in a script: an assert that two values are equal fails and its report shows the same text on both sides. -/
example : (Value.int 1 : Value F).eq (.str c!"1") = false ∧ (Value.int 1 : Value F).display = (Value.str c!"1" : Value F).display := ⟨rfl, rfl⟩

/-- Inside an array the two differ. -/
example : (Value.arr [.int 1] : Value F).display = c!"[Integer(1)]" ∧ (Value.arr [.str c!"1"] : Value F).display = c!"[String(\"1\")]" := ⟨rfl, rfl⟩

/-- The exact extent of the failure: every value that is no text is printed like some text. -/
theorem c85_confused (v : Value F) : v.display = (Value.str v.display : Value F).display := rfl

end Am
