import Verif.Spec.Answers
/-!
# Where secrets go (C132)

Two runs of the same script are compared that start with different values of some variables, the secrets. Some requests are meant to carry them; what they
answer counts as secret too. `Guards table A Γ e τ` says that `e` deserves the trust `τ` (`Spec/Answers.lean`): values that depend on a secret only go into
the messages of the requests of `A` and where nothing can fail, nothing is decided and nothing is printed.
-/
namespace Am.Spec
open Am
variable {F : Type}

mutual
/-- The expression deserves this trust, with the requests of `A` meant to carry secrets. -/
inductive Guards (table : List (Str × (Str × List (Expr F)))) (A : Str → Prop) (Γ : Str → Trust) : Expr F → Trust → Prop
  | int (i : Int64) : Guards table A Γ (.int i) .same
  | float (f : F) : Guards table A Γ (.float f) .same
  | bool (b : Bool) : Guards table A Γ (.bool b) .same
  | str (s : Str) : Guards table A Γ (.str s) .same
  | ident (n : Str) : Guards table A Γ (.ident n) (Γ n)
  | arr (items : List (Expr F)) : GuardsAll table A Γ items .same → Guards table A Γ (.arr items) .same
  | arrAny (items : List (Expr F)) : GuardsAll table A Γ items .any → Guards table A Γ (.arr items) .any
  | map (pairs : List (Expr F × Expr F)) : GuardsPairs table A Γ pairs .same → Guards table A Γ (.map pairs) .same
  | mapAny (pairs : List (Expr F × Expr F)) : GuardsPairs table A Γ pairs .any → Guards table A Γ (.map pairs) .map
  | index (l i : Expr F) : Guards table A Γ l .same → Guards table A Γ i .same → Guards table A Γ (.index l i) .same
  | indexAny (l i : Expr F) : Guards table A Γ l .map → Guards table A Γ i .any → Guards table A Γ (.index l i) .any
  | field (l : Expr F) (n : Str) : Guards table A Γ l .same → Guards table A Γ (.field l n) .same
  | fieldAny (l : Expr F) (n : Str) : Guards table A Γ l .map → Guards table A Γ (.field l n) .any
  | letE (n : Str) (v : Expr F) : Guards table A Γ v (Γ n) → Guards table A Γ (.letE n v) (Γ n)
  | unary (t : Token) (r : Expr F) : Guards table A Γ r .same → Guards table A Γ (.unary t r) .same
  | not (t : Token) (r : Expr F) : t.kind = .Not → Guards table A Γ r .any → Guards table A Γ (.unary t r) .any
  | binary (t : Token) (l r : Expr F) : Guards table A Γ l .same → Guards table A Γ r .same → Guards table A Γ (.binary t l r) .same
  | compare (t : Token) (l r : Expr F) : isComparison t.kind = true → Guards table A Γ l .any → Guards table A Γ r .any →
      Guards table A Γ (.binary t l r) .any
  | logic (t : Token) (l r : Expr F) : t.kind = .La ∨ t.kind = .Lo → Guards table A Γ l .same → Guards table A Γ r .any →
      Guards table A Γ (.binary t l r) .any
  | paren (e : Expr F) (τ : Trust) : Guards table A Γ e τ → Guards table A Γ (.paren e) τ
  | ifE (c : Expr F) (t e : List (Expr F)) (τ : Trust) : Guards table A Γ c .same → GuardsBlock table A Γ t τ → GuardsBlock table A Γ e τ →
      Guards table A Γ (.ifE c t e) τ
  | native (f : Str) (args : List (Expr F)) : amGet f table = none → GuardsAll table A Γ args .same → Guards table A Γ (.call f args) .same
  /-- a request meant to carry secrets: anything may be put into its message; its answer is a map, and its asserts do not print -/
  | meant (f message : Str) (asserts args : List (Expr F)) : amGet f table = some (message, asserts) → A f → GuardsAll table A Γ args .any →
      (∀ g ∈ calledList asserts, g ≠ c!"print" ∧ g ≠ c!"println") → Guards table A Γ (.call f args) .map
  /-- any other request: only variables that are the same are put into its message, and so its answer is the same -/
  | other (f message : Str) (asserts args : List (Expr F)) : amGet f table = some (message, asserts) → ¬A f → GuardsAll table A Γ args .any →
      (∀ ps x, Pieces message ps → Piece.hole x ∈ ps → Γ x = .same) → Guards table A Γ (.call f args) .same
  | forget (e : Expr F) (τ : Trust) : Guards table A Γ e τ → Guards table A Γ e .any
/-- All expressions of a list deserve this trust. -/
inductive GuardsAll (table : List (Str × (Str × List (Expr F)))) (A : Str → Prop) (Γ : Str → Trust) : List (Expr F) → Trust → Prop
  | nil (τ : Trust) : GuardsAll table A Γ [] τ
  | cons (e : Expr F) (l : List (Expr F)) (τ : Trust) : Guards table A Γ e τ → GuardsAll table A Γ l τ → GuardsAll table A Γ (e :: l) τ
/-- All keys and values do. -/
inductive GuardsPairs (table : List (Str × (Str × List (Expr F)))) (A : Str → Prop) (Γ : Str → Trust) : List (Expr F × Expr F) → Trust → Prop
  | nil (τ : Trust) : GuardsPairs table A Γ [] τ
  | cons (k v : Expr F) (l : List (Expr F × Expr F)) (τ : Trust) : Guards table A Γ k τ → Guards table A Γ v τ → GuardsPairs table A Γ l τ →
      GuardsPairs table A Γ ((k, v) :: l) τ
/-- The value of a block, which is that of its last statement, does. -/
inductive GuardsBlock (table : List (Str × (Str × List (Expr F)))) (A : Str → Prop) (Γ : Str → Trust) : List (Expr F) → Trust → Prop
  | nil : GuardsBlock table A Γ [] .same
  | last (e : Expr F) (τ : Trust) : Guards table A Γ e τ → GuardsBlock table A Γ [e] τ
  | cons (e : Expr F) (l : List (Expr F)) (τ : Trust) : Guards table A Γ e .any → l ≠ [] → GuardsBlock table A Γ l τ → GuardsBlock table A Γ (e :: l) τ
  | forget (l : List (Expr F)) (τ : Trust) : GuardsBlock table A Γ l τ → GuardsBlock table A Γ l .any
end

/-- Both texts are messages of this request, with its placeholders filled in one way or another. -/
def MessagesOf (table : List (Str × (Str × List (Expr F)))) (f : Str) (m m' : Str) : Prop :=
  ∃ message asserts ps g g', amGet f table = some (message, asserts) ∧ Pieces message ps ∧ m = fillBy g ps ∧ m' = fillBy g' ps

/-- The message of the one run and the message of the other: the same, or both of a request meant to carry secrets. -/
def SecretPair (table : List (Str × (Str × List (Expr F)))) (A : Str → Prop) (m m' : Str) : Prop := m = m' ∨ ∃ f, A f ∧ MessagesOf table f m m'

/-- The servers asked by the other requests do not hear of the secrets: the answer to a message of such a request is the same after the same messages of
such requests, whatever the requests that carry secrets said. -/
def Unhearing (table : List (Str × (Str × List (Expr F)))) (A : Str → Prop) (net net' : Net) : Prop :=
  ∀ sent sent' m f, Each (SecretPair table A) sent sent' → ¬A f → MessagesOf table f m m → net.exch sent m = net'.exch sent' m

/-- Records of the same request, and the same record unless it carries secrets. -/
def KeptRecord (A : Str → Prop) (r r' : Record) : Prop := r.name = r'.name ∧ (¬A r.name → r = r')

/-- Two contexts with the same requests, the same variables up to trust, and the same records up to secrets. -/
structure ContextKept (table : List (Str × (Str × List (Expr F)))) (A : Str → Prop) (Γ : Str → Trust) (c c' : Context F) : Prop where
  left : c.requests = table
  right : c'.requests = table
  variables : ∀ x, (c.get x = none ∧ c'.get x = none) ∨ ∃ v w, c.get x = some v ∧ c'.get x = some w ∧ Trusted (Γ x) v w
  records : Each (KeptRecord A) c.records c'.records

/-- Also the same messages up to secrets and the same text printed. -/
structure Kept (table : List (Str × (Str × List (Expr F)))) (A : Str → Prop) (Γ : Str → Trust) (s t : St F) : Prop where
  ctx : ContextKept table A Γ s.ctx t.ctx
  sent : Each (SecretPair table A) s.sent t.sent
  out : s.out = t.out

/-- The first run has sent and printed the beginning of what the second has sent and printed, up to secrets. -/
def StillBehind (table : List (Str × (Str × List (Expr F)))) (A : Str → Prop) (s t : St F) : Prop :=
  (∃ begun, begun <+: t.sent ∧ Each (SecretPair table A) s.sent begun) ∧ s.out <+: t.out

end Am.Spec
