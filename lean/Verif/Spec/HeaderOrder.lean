import Verif.Spec.HeaderCase
import Verif.Spec.Shown
import Verif.Spec.Semantics
/-!
# The order of headers (RFC 9110, 5.3: the order of fields with different names is not significant)
-/
namespace Am.Spec
open Am

/-- Two names in no matter which letter case, trimmed of blanks, are different. -/
def OtherNames (n n' : Str) : Prop := ∀ name name', Trims n name → Trims n' name' → ¬SameLetters name name'

/-- The same headers, some with different names exchanged. -/
inductive Moved : List Header → List Header → Prop
  | same (hs : List Header) : Moved hs hs
  | swap (a b : Header) (hs : List Header) : ¬SameLetters a.name b.name → Moved (a :: b :: hs) (b :: a :: hs)
  | cons (a : Header) {hs hs' : List Header} : Moved hs hs' → Moved (a :: hs) (a :: hs')
  | trans {hs hs' hs'' : List Header} : Moved hs hs' → Moved hs' hs'' → Moved hs hs''

/-- Lines of a message after the first one: header lines with different names are exchanged. Lines after the first blank one, the body, stay. -/
inductive MovedLines : List Str → List Str → Prop
  | same (ls : List Str) : MovedLines ls ls
  | swap (n v n' v' : Str) (r : List Str) : ':' ∉ n → ':' ∉ n' → OtherNames n n' →
      MovedLines ((n ++ ':' :: v) :: (n' ++ ':' :: v') :: r) ((n' ++ ':' :: v') :: (n ++ ':' :: v) :: r)
  | cons (l : Str) {r r' : List Str} : (∃ c ∈ l, isWs c = false) → MovedLines r r' → MovedLines (l :: r) (l :: r')
  | trans {r r' r'' : List Str} : MovedLines r r' → MovedLines r' r'' → MovedLines r r''

/-- Texts after the status line of a response: header lines with different names are exchanged. The body stays. -/
inductive MovedText : Str → Str → Prop
  | same (s : Str) : MovedText s s
  | swap (n v n' v' r : Str) : '\n' ∉ n ++ v ++ n' ++ v' → ':' ∉ n → ':' ∉ n' → OtherNames n n' →
      MovedText (n ++ ':' :: v ++ '\n' :: (n' ++ ':' :: v' ++ '\n' :: r)) (n' ++ ':' :: v' ++ '\n' :: (n ++ ':' :: v ++ '\n' :: r))
  | cons (l : Str) {r r' : Str} : (∃ c ∈ l, isWs c = false) → '\n' ∉ l → MovedText r r' → MovedText (l ++ '\n' :: r) (l ++ '\n' :: r')
  | trans {r r' r'' : Str} : MovedText r r' → MovedText r' r'' → MovedText r r''

/-- What comes back: the same, or a response in which header lines with different names are exchanged. -/
inductive MovedAnswer : Exchange → Exchange → Prop
  | same (x : Exchange) : MovedAnswer x x
  | moved (s s' line rest rest' : Str) (c : Clocks) : FirstLine s line rest → FirstLine s' line rest' → MovedText rest rest' →
      MovedAnswer (.answered ⟨utf8 s, none⟩ c) (.answered ⟨utf8 s', none⟩ c)

/-- Two networks whose servers answer the same, apart from the order of headers with different names. -/
def MovedNet (net net' : Net) : Prop := net'.multipart = net.multipart ∧ ∀ sent message, MovedAnswer (net.exch sent message) (net'.exch sent message)

/-- The same record, apart from the order of the headers of the response. -/
inductive MovedRecord : Record → Record → Prop
  | mk (r : Record) {hs : List Header} : Moved r.response.headers hs → MovedRecord r { r with response := { r.response with headers := hs } }

/-- The same records, apart from the order of the headers of the responses. -/
inductive MovedRecords : List Record → List Record → Prop
  | nil : MovedRecords [] []
  | cons {r r' : Record} {l l' : List Record} : MovedRecord r r' → MovedRecords l l' → MovedRecords (r :: l) (r' :: l')

variable {F : Type}

/-- The same value up to the order of the entries of maps, at every depth. -/
inductive Unordered : Value F → Value F → Prop
  | null : Unordered .null .null
  | int (i : Int64) : Unordered (.int i) (.int i)
  | float (f : F) : Unordered (.float f) (.float f)
  | bool (b : Bool) : Unordered (.bool b) (.bool b)
  | str (s : Str) : Unordered (.str s) (.str s)
  | arr {l r : List (Value F)} : l.length = r.length → (∀ (i : Nat) a b, l[i]? = some a → r[i]? = some b → Unordered a b) → Unordered (.arr l) (.arr r)
  | map {l r : List (Str × Value F)} : (l.map Prod.fst).Nodup → (r.map Prod.fst).Nodup → (∀ k, (amGet k l).isSome = (amGet k r).isSome) →
      (∀ k a b, amGet k l = some a → amGet k r = some b → Unordered a b) → Unordered (.map l) (.map r)

/-- The same state up to the order of the entries of maps and of the headers in the records: the same messages sent, the same text printed. -/
structure UnorderedSt (s s' : St F) : Prop where
  vars : Unordered (.map s.ctx.inner) (.map s'.ctx.inner)
  requests : s'.ctx.requests = s.ctx.requests
  records : MovedRecords s.ctx.records s'.ctx.records
  sent : s'.sent = s.sent
  out : s'.out = s.out

/-- The same outcome: results related by `R`, or the same error, crash or endless run. -/
inductive UnorderedRes {α : Type} (R : α → α → Prop) : Res α → Res α → Prop
  | ok {a b : α} : R a b → UnorderedRes R (.ok a) (.ok b)
  | err (e : Str) : UnorderedRes R (.err e) (.err e)
  | panic : UnorderedRes R .panic .panic
  | hang : UnorderedRes R .hang .hang

/-- The same outcome in the same state, up to order. -/
def UnorderedRun {α : Type} (R : α → α → Prop) (x y : Res α × St F) : Prop := UnorderedRes R x.1 y.1 ∧ UnorderedSt x.2 y.2

end Am.Spec
