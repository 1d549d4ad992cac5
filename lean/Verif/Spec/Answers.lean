import Verif.Spec.Parens
import Verif.Spec.Joining
import Verif.Spec.Template
import Verif.Spec.Spread
/-!
# Where answers go (C125)

Two runs of the same script are compared, in which the servers answer differently. A variable or an expression is trusted to have the same value in
both runs, or to be a map in both, or not at all. `Carries table Γ e τ` says that `e` deserves the trust `τ` and does the same in both runs as far as
messages, printed text, trusted variables and errors are concerned: untrusted values only go where nothing can fail, nothing is decided and nothing is
sent or printed.
-/
namespace Am.Spec
open Am
variable {F : Type}

/-- What is known of a value in two runs with other answers. -/
inductive Trust where
  /-- It is the same value. -/
  | same
  /-- It is a map in both. -/
  | map
  /-- Nothing is known. -/
  | any
  deriving DecidableEq

/-- The value in the one run and the value in the other. -/
def Trusted : Trust → Value F → Value F → Prop
  | .same, v, w => v = w
  | .map, v, w => (∃ m, v = .map m) ∧ ∃ m, w = .map m
  | .any, _, _ => True

/-- `<`, `>`, `<=`, `>=`, `==`, `!=`. -/
def isComparison (k : Kind) : Bool := k == .Lt || k == .Gt || k == .Le || k == .Ge || k == .Eq || k == .Ne

mutual
/-- The expression deserves this trust. -/
inductive Carries (table : List (Str × (Str × List (Expr F)))) (Γ : Str → Trust) : Expr F → Trust → Prop
  | int (i : Int64) : Carries table Γ (.int i) .same
  | float (f : F) : Carries table Γ (.float f) .same
  | bool (b : Bool) : Carries table Γ (.bool b) .same
  | str (s : Str) : Carries table Γ (.str s) .same
  | ident (n : Str) : Carries table Γ (.ident n) (Γ n)
  | arr (items : List (Expr F)) : CarriesAll table Γ items .same → Carries table Γ (.arr items) .same
  | arrAny (items : List (Expr F)) : CarriesAll table Γ items .any → Carries table Γ (.arr items) .any
  | map (pairs : List (Expr F × Expr F)) : CarriesPairs table Γ pairs .same → Carries table Γ (.map pairs) .same
  | mapAny (pairs : List (Expr F × Expr F)) : CarriesPairs table Γ pairs .any → Carries table Γ (.map pairs) .map
  | index (l i : Expr F) : Carries table Γ l .same → Carries table Γ i .same → Carries table Γ (.index l i) .same
  | indexAny (l i : Expr F) : Carries table Γ l .map → Carries table Γ i .any → Carries table Γ (.index l i) .any
  | field (l : Expr F) (n : Str) : Carries table Γ l .same → Carries table Γ (.field l n) .same
  | fieldAny (l : Expr F) (n : Str) : Carries table Γ l .map → Carries table Γ (.field l n) .any
  | letE (n : Str) (v : Expr F) : Carries table Γ v (Γ n) → Carries table Γ (.letE n v) (Γ n)
  | unary (t : Token) (r : Expr F) : Carries table Γ r .same → Carries table Γ (.unary t r) .same
  | not (t : Token) (r : Expr F) : t.kind = .Not → Carries table Γ r .any → Carries table Γ (.unary t r) .any
  | binary (t : Token) (l r : Expr F) : Carries table Γ l .same → Carries table Γ r .same → Carries table Γ (.binary t l r) .same
  | compare (t : Token) (l r : Expr F) : isComparison t.kind = true → Carries table Γ l .any → Carries table Γ r .any →
      Carries table Γ (.binary t l r) .any
  | logic (t : Token) (l r : Expr F) : t.kind = .La ∨ t.kind = .Lo → Carries table Γ l .same → Carries table Γ r .any →
      Carries table Γ (.binary t l r) .any
  | paren (e : Expr F) (τ : Trust) : Carries table Γ e τ → Carries table Γ (.paren e) τ
  | ifE (c : Expr F) (t e : List (Expr F)) (τ : Trust) : Carries table Γ c .same → CarriesBlock table Γ t τ → CarriesBlock table Γ e τ →
      Carries table Γ (.ifE c t e) τ
  | native (f : Str) (args : List (Expr F)) : amGet f table = none → CarriesAll table Γ args .same → Carries table Γ (.call f args) .same
  /-- the answer of a request is a map; the variables put into its message are the same, and its asserts do not print -/
  | request (f message : Str) (asserts args : List (Expr F)) : amGet f table = some (message, asserts) → CarriesAll table Γ args .any →
      (∀ ps x, Pieces message ps → Piece.hole x ∈ ps → Γ x = .same) → (∀ g ∈ calledList asserts, g ≠ c!"print" ∧ g ≠ c!"println") →
      Carries table Γ (.call f args) .map
  | forget (e : Expr F) (τ : Trust) : Carries table Γ e τ → Carries table Γ e .any
/-- All expressions of a list deserve this trust. -/
inductive CarriesAll (table : List (Str × (Str × List (Expr F)))) (Γ : Str → Trust) : List (Expr F) → Trust → Prop
  | nil (τ : Trust) : CarriesAll table Γ [] τ
  | cons (e : Expr F) (l : List (Expr F)) (τ : Trust) : Carries table Γ e τ → CarriesAll table Γ l τ → CarriesAll table Γ (e :: l) τ
/-- All keys and values do. -/
inductive CarriesPairs (table : List (Str × (Str × List (Expr F)))) (Γ : Str → Trust) : List (Expr F × Expr F) → Trust → Prop
  | nil (τ : Trust) : CarriesPairs table Γ [] τ
  | cons (k v : Expr F) (l : List (Expr F × Expr F)) (τ : Trust) : Carries table Γ k τ → Carries table Γ v τ → CarriesPairs table Γ l τ →
      CarriesPairs table Γ ((k, v) :: l) τ
/-- The value of a block, which is that of its last statement, does. -/
inductive CarriesBlock (table : List (Str × (Str × List (Expr F)))) (Γ : Str → Trust) : List (Expr F) → Trust → Prop
  | nil : CarriesBlock table Γ [] .same
  | last (e : Expr F) (τ : Trust) : Carries table Γ e τ → CarriesBlock table Γ [e] τ
  | cons (e : Expr F) (l : List (Expr F)) (τ : Trust) : Carries table Γ e .any → l ≠ [] → CarriesBlock table Γ l τ → CarriesBlock table Γ (e :: l) τ
  | forget (l : List (Expr F)) (τ : Trust) : CarriesBlock table Γ l τ → CarriesBlock table Γ l .any
end

/-- Records of the same request, whatever was answered. -/
def SameAsked (r r' : Record) : Prop := r.name = r'.name ∧ r.request = r'.request

/-- Two contexts with the same requests, the same variables up to trust, and records of the same requests. -/
structure ContextAsked (table : List (Str × (Str × List (Expr F)))) (Γ : Str → Trust) (c c' : Context F) : Prop where
  left : c.requests = table
  right : c'.requests = table
  variables : ∀ x, (c.get x = none ∧ c'.get x = none) ∨ ∃ v w, c.get x = some v ∧ c'.get x = some w ∧ Trusted (Γ x) v w
  records : Each SameAsked c.records c'.records

/-- Also the same messages sent and the same text printed. -/
structure Asked (table : List (Str × (Str × List (Expr F)))) (Γ : Str → Trust) (s t : St F) : Prop where
  ctx : ContextAsked table Γ s.ctx t.ctx
  sent : s.sent = t.sent
  out : s.out = t.out

/-- The run came to a crash or never ended. -/
def Stopped {α : Type} (r : Res α) : Prop := r = .panic ∨ r = .hang

/-- The variables trusted to be maps are maps. -/
def Suits (Γ : Str → Trust) (c : Context F) : Prop := ∀ x v, c.get x = some v → Γ x = .map → ∃ m, v = .map m

/-- One execution of a test in two runs: the same text printed, the same requests sent. -/
def SameAskedTurn (p q : Str × List Record) : Prop := p.1 = q.1 ∧ Each SameAsked p.2 q.2

/-- All networks of a schedule encode multipart bodies like this. -/
def Encodes (multipart : List Part → Option (List UInt8)) (l : List RunStep) : Prop := ∀ i m, RunStep.work i m ∈ l → m.multipart = multipart

end Am.Spec
