import Verif.Proofs.Names
import Verif.Props.Parens
/-! # Names of variables and requests (C98)

Renaming the variables of a script and the requests it defines, everywhere and without making two names one, changes nothing but those names: every expression has
the same value, the same messages are sent, the same is printed, and only the names in records and in the two errors for unknown names differ. Asserts are left as
they are: they see the response and nothing else (C21). -/
set_option linter.unusedSimpArgs false
set_option linter.unusedSectionVars false
namespace Am
open Spec
variable {F : Type} [Rt F] {v f : Str → Str}

/-- C98: a block and the renamed block, from states that differ only in names. -/
theorem c98_block (hr : Renaming v f) (net : Net) (es : List (Expr F)) (hk : ∀ e ∈ es, KnownOps e) {s s' : St F} (hs : RenamedSt v f s s') :
    RenamedRes v f (runBlock net es s).1 (runBlock net (renamedList v f es) s').1 ∧ RenamedSt v f (runBlock net es s).2 (runBlock net (renamedList v f es) s').2 :=
  names_block hr (names_callAt hr net 1) es .null (opsList_known hk) s s' hs

/-- C98: in particular the values are the same, and one stops with an error exactly when the other does. -/
theorem c98_value (hr : Renaming v f) (net : Net) (es : List (Expr F)) (hk : ∀ e ∈ es, KnownOps e) {s s' : St F} (hs : RenamedSt v f s s') (x : Value F) :
    (runBlock net (renamedList v f es) s').1 = .ok x ↔ (runBlock net es s).1 = .ok x := by
  have h := (c98_block hr net es hk hs).1
  generalize (runBlock net es s).1 = a at h
  generalize (runBlock net (renamedList v f es) s').1 = b at h
  cases h with
  | ok a => exact Iff.rfl
  | err e e' _ => exact ⟨fun h => (nomatch h), fun h => (nomatch h)⟩
  | panic => exact Iff.rfl
  | hang => exact Iff.rfl

/-- C98: `am eval` on a source text and on one whose items are renamed. -/
theorem c98_text (hr : Renaming v f) (net : Net) {text text' : Str} {is is' : List (Item F)} (h1 : Accepted text is) (h2 : Accepted text' is')
    (h : Each (RenamedItem v f) is is') {s s' : St F} (hs : RenamedSt v f s s') :
    (evalText net text' s').1 = (evalText net text s).1 ∧ RenamedSaid v f (evalText net text s).2 (evalText net text' s').2 := by
  obtain ⟨a, b, _⟩ := renamedItems_source hr h (src := ⟨[], [], []⟩) (src' := ⟨[], [], []⟩) rfl .nil rfl
  have p1 := accepted_items h1
  have p2 := accepted_items h2
  generalize is.foldl addItem ⟨[], [], []⟩ = src at *
  generalize is'.foldl addItem ⟨[], [], []⟩ = src' at *
  unfold evalText
  rw [p1, p2]
  dsimp only
  have hx : RenamedSt v f { s with ctx := s.ctx.extend src.requests } { s' with ctx := s'.ctx.extend src'.requests } :=
    ⟨hs.variables, renamedDefinition_extend hr hs.requests b, hs.records, hs.sent, hs.out⟩
  have hb := c98_block hr net src.exprs (c93_known text src p1).1 hx
  rw [← a] at hb
  show (match runBlock net src'.exprs { s' with ctx := s'.ctx.extend src'.requests } with
      | (.ok v, s) => sayLine v.display s
      | (.err e, s) => sayLine e s
      | (.panic, s) => (.panic, s)
      | (.hang, s) => (.hang, s)).1 = (match runBlock net src.exprs { s with ctx := s.ctx.extend src.requests } with
      | (.ok v, s) => sayLine v.display s
      | (.err e, s) => sayLine e s
      | (.panic, s) => (.panic, s)
      | (.hang, s) => (.hang, s)).1 ∧ RenamedSaid v f (match runBlock net src.exprs { s with ctx := s.ctx.extend src.requests } with
      | (.ok v, s) => sayLine v.display s
      | (.err e, s) => sayLine e s
      | (.panic, s) => (.panic, s)
      | (.hang, s) => (.hang, s)).2 (match runBlock net src'.exprs { s' with ctx := s'.ctx.extend src'.requests } with
      | (.ok v, s) => sayLine v.display s
      | (.err e, s) => sayLine e s
      | (.panic, s) => (.panic, s)
      | (.hang, s) => (.hang, s)).2
  rcases hy : runBlock net src.exprs { s with ctx := s.ctx.extend src.requests } with ⟨r, t⟩
  rcases hz : runBlock net src'.exprs { s' with ctx := s'.ctx.extend src'.requests } with ⟨r', t'⟩
  rw [hy, hz] at hb
  obtain ⟨hb1, hb2⟩ := hb
  dsimp only at hb1 hb2
  cases hb1 with
  | ok x =>
    obtain ⟨k1, k2, k3, k4, k5⟩ := hb2
    exact ⟨rfl, .same ⟨k1, k2, k3, k4, congrArg (fun o => o ++ x.display ++ c!"\n") k5⟩⟩
  | err e e' he => exact ⟨rfl, .error e e' hb2 he⟩
  | panic => exact ⟨rfl, .same hb2⟩
  | hang => exact ⟨rfl, .same hb2⟩

theorem renamedTests_get (n : Str) : ∀ l : List (Str × List (Expr F)), amGet n (l.map fun p => (p.1, renamedList v f p.2)) = (amGet n l).map (renamedList v f)
  | [] => rfl
  | (k, b) :: l => by
    simp only [List.map_cons, amGet]
    by_cases h : k = n
    · rw [if_pos h, if_pos h]; rfl
    · rw [if_neg h, if_neg h]; exact renamedTests_get n l

/-- C98: `am test` on two such source texts comes to the same, with threads that run the renamed tests (what each iteration of them does is `c98_block`).
Without a test name, the tests have to be started in the same order. -/
theorem c98_start (hr : Renaming v f) (order order' : List (Str × List (Expr F)) → List (Str × List (Expr F))) (net : Net) (args : TestArgs) {text text' : Str}
    {is is' : List (Item F)} (h1 : Accepted text is) (h2 : Accepted text' is') (h : Each (RenamedItem v f) is is')
    (hord : args.name = none → (∀ l, order' (l.map fun p => (p.1, renamedList v f p.2)) = (order l).map fun p => (p.1, renamedList v f p.2)) ∧
      ∀ l p, p ∈ order l → p ∈ l) :
    StartedRenamed v f (startTest order net args text).1 (startTest order' net args text').1 ∧
    RenamedSaid v f (startTest order net args text).2 (startTest order' net args text').2 := by
  obtain ⟨a, b, c⟩ := renamedItems_source hr h (src := ⟨[], [], []⟩) (src' := ⟨[], [], []⟩) rfl .nil rfl
  have p1 := accepted_items h1
  have p2 := accepted_items h2
  generalize is.foldl addItem ⟨[], [], []⟩ = src at *
  generalize is'.foldl addItem ⟨[], [], []⟩ = src' at *
  have q1 := c93_known text src p1
  have hx := c98_block (F := F) hr net src.exprs q1.1
    (s := { (⟨Context.new, [], []⟩ : St F) with ctx := Context.new.extend src.requests })
    (s' := { (⟨Context.new, [], []⟩ : St F) with ctx := Context.new.extend src'.requests })
    ⟨rfl, renamedDefinition_extend hr .nil b, rfl, rfl, rfl⟩
  rw [← a] at hx
  unfold startTest setup
  rw [p1, p2]
  dsimp only at hx ⊢
  rcases hy : runBlock net src.exprs { ctx := Context.new.extend src.requests, sent := [], out := [] } with ⟨r, t⟩
  rcases hz : runBlock net src'.exprs { ctx := Context.new.extend src'.requests, sent := [], out := [] } with ⟨r', t'⟩
  rw [hy, hz] at hx
  obtain ⟨hb1, hb⟩ := hx
  dsimp only at hb1 hb
  have hw : ∀ (name : Str) (b : List (Expr F)), (∀ e ∈ b, KnownOps e) →
      WorkerRenamed v f (Worker.init args.record t.ctx name b) (Worker.init args.record t'.ctx name (renamedList v f b)) :=
    fun name b h1 => ⟨rfl, rfl, rfl, ⟨hb.variables, hb.requests, rfl, rfl, rfl⟩, rfl, rfl, h1⟩
  cases hb1 with
  | err m m' hm => exact ⟨.ended, .error m m' hb hm⟩
  | panic => exact ⟨.panicked, .same hb⟩
  | hang => exact ⟨.endless, .same hb⟩
  | ok x =>
    dsimp only
    unfold startWorkers
    cases hname : args.name with
    | none =>
      dsimp only
      obtain ⟨ho, hm⟩ := hord hname
      refine ⟨?_, .same hb⟩
      rw [c, ho, List.map_map]
      refine .threads _ _ _ ?_
      have : ∀ l : List (Str × List (Expr F)), (∀ p ∈ l, p ∈ src.tests) → Each (WorkerRenamed v f) (l.map fun p => Worker.init args.record t.ctx p.1 p.2)
          (l.map ((fun p => Worker.init args.record t'.ctx p.1 p.2) ∘ fun p => (p.1, renamedList v f p.2))) := by
        intro l
        induction l with
        | nil => intro _; exact .nil
        | cons p l ih =>
          intro hl
          exact .cons (hw p.1 p.2 (q1.2.2 p (hl p (List.mem_cons_self ..)))) (ih fun q hq => hl q (List.mem_cons_of_mem _ hq))
      exact this _ fun p hp => hm _ p hp
    | some name =>
      dsimp only
      rw [c, renamedTests_get]
      cases hg : amGet name src.tests with
      | none =>
        exact ⟨.threads _ _ _ .nil, .same ⟨hb.variables, hb.requests, hb.records, hb.sent, congrArg (fun o => o ++ (c!"Test not found: " ++ name) ++ c!"\n") hb.out⟩⟩
      | some b =>
        show StartedRenamed v f _ _ ∧ _
        dsimp only [Option.map]
        cases perThread (limits args.duration args.number).2 args.threads with
        | ok n => exact ⟨.threads _ _ _ (each_replicate (hw name b (q1.2.2 (name, b) (amGet_mem hg))) _), .same hb⟩
        | err m => exact ⟨.ended, .same hb⟩
        | panic => exact ⟨.panicked, .same hb⟩
        | hang => exact ⟨.endless, .same hb⟩

/-! ## Every text can be renamed -/

theorem hole_inside {h name : Str} (hh : IsHole h name) : ∃ inner, h = '{' :: inner ∧ ∀ c ∈ inner, c ≠ '{' := by
  obtain ⟨b, a, x, r, rfl, _, hb, ha, hx, hrr⟩ := hh
  refine ⟨_, rfl, fun c hc e => ?_⟩
  subst e
  simp only [List.mem_append, List.mem_cons, List.not_mem_nil, or_false] at hc
  rcases hc with ((hc | hc | hc) | hc) | hc
  · exact absurd (hb _ hc) (by decide)
  · subst hc; exact absurd hx (by decide)
  · exact absurd (hrr _ hc) (by decide)
  · exact absurd (ha _ hc) (by decide)
  · exact absurd hc (by decide)

theorem renamed_pieces (hv : ∀ n, IsName n → IsName (v n)) {m : Str} {ps : List Piece} (h : Pieces m ps) :
    ∃ m', Pieces m' (ps.map (Piece.renamed v)) ∧ ∀ p, (∀ c ∈ p, c ≠ '{') → p <+: m' → p <+: m := by
  induction h with
  | nil => exact ⟨[], .nil, fun p _ h => h⟩
  | @hole h name rest ps hh _ ih =>
    obtain ⟨m', i1, _⟩ := ih
    have hn : IsName name := by
      obtain ⟨_, _, x, r, _, e, _, _, hx, hrr⟩ := hh
      exact ⟨x, r, e, hx, hrr⟩
    obtain ⟨x, r, e, hx, hrr⟩ := hv name hn
    refine ⟨('{' :: ([] ++ (x :: r) ++ [] ++ ['}'])) ++ m', .hole ⟨[], [], x, r, rfl, e, fun _ h => (nomatch h), fun _ h => (nomatch h), hx, hrr⟩ i1, ?_⟩
    intro p hp hpre
    cases p with
    | nil => exact List.nil_prefix
    | cons c p =>
      obtain ⟨t, ht⟩ := hpre
      have : c = '{' := by
        rw [List.cons_append, List.cons_append] at ht
        exact (List.cons.inj ht).1
      exact absurd this (hp c (List.mem_cons_self ..))
  | @lit c rest ps hno _ ih =>
    obtain ⟨m', i1, i2⟩ := ih
    refine ⟨c :: m', .lit ?_ i1, ?_⟩
    · intro h name tail hh e
      obtain ⟨inner, rfl, hin⟩ := hole_inside hh
      obtain ⟨e1, e2⟩ := List.cons.inj e
      obtain ⟨tail', e3⟩ := i2 inner hin ⟨tail, e2.symm⟩
      exact hno ('{' :: inner) name tail' hh (by rw [e1, ← e3]; rfl)
    · intro p hp hpre
      cases p with
      | nil => exact List.nil_prefix
      | cons d p =>
        obtain ⟨t, ht⟩ := hpre
        obtain ⟨e1, e2⟩ := List.cons.inj ht
        obtain ⟨t', e3⟩ := i2 p (fun x hx => hp x (List.mem_cons_of_mem _ hx)) ⟨t, e2⟩
        exact ⟨t', by rw [← e3, e1]; rfl⟩

/-- C98: every message can be renamed: the placeholders take the new names, and nothing else becomes a placeholder or stops being one. -/
theorem c98_message (hv : ∀ n, IsName n → IsName (v n)) (m : Str) : ∃ m', RenamedText v m m' := by
  obtain ⟨ps, h, _⟩ := findAll_pieces m.length 0 m (Nat.le_refl _)
  obtain ⟨m', h', _⟩ := renamed_pieces hv h
  exact ⟨m', ps, h, h'⟩

/-- C98: so every list of items can be renamed. -/
theorem c98_items (hv : ∀ n, IsName n → IsName (v n)) : ∀ is : List (Item F), ∃ is', Each (RenamedItem v f) is is'
  | [] => ⟨[], .nil⟩
  | i :: is => by
    obtain ⟨is', h⟩ := c98_items hv is
    cases i with
    | expr e => exact ⟨_, .cons (.expr e) h⟩
    | request n m as =>
      obtain ⟨m', hm⟩ := c98_message hv m
      exact ⟨_, .cons (.request n m m' as hm) h⟩
    | test n b => exact ⟨_, .cons (.test n b) h⟩

/-! ## Concrete cases -/

/-- `a` and `b` change names. -/
def swapName (a b n : Str) : Str := if n = a then b else if n = b then a else n

theorem swapName_swap (a b n : Str) : swapName a b (swapName a b n) = n := by
  unfold swapName
  by_cases h : n = a
  · rw [if_pos h]
    by_cases h' : b = a
    · rw [if_pos h', h', h]
    · rw [if_neg h', if_pos rfl, h]
  · rw [if_neg h]
    by_cases h' : n = b
    · rw [if_pos h', if_pos rfl, h']
    · rw [if_neg h', if_neg h, if_neg h']

/-- Two names that change places are a renaming, unless a builtin function is among them. -/
theorem swapName_renaming (a b c d : Str) (hc : c ∉ builtin) (hd : d ∉ builtin) : Renaming (swapName a b) (swapName c d) where
  variables x y h := by rw [← swapName_swap a b x, h, swapName_swap]
  functions x y h := by rw [← swapName_swap c d x, h, swapName_swap]
  builtins n hn := by
    unfold swapName
    have h1 : n ≠ c := fun e => hc (e ▸ hn)
    have h2 : n ≠ d := fun e => hd (e ▸ hn)
    rw [if_neg h1, if_neg h2]

/-- `{x}` in a message becomes `{ token }`. -/
example : RenamedText (swapName c!"x" c!"token") c!"G {x}" c!"G { token }" := by
  refine ⟨[.lit 'G', .lit ' ', .hole c!"x"], ?_, ?_⟩
  · refine .lit ?_ (.lit ?_ (.hole (h := c!"{x}") (rest := []) ⟨[], [], 'x', [], rfl, rfl, fun _ h => (nomatch h), fun _ h => (nomatch h), rfl, fun _ h => (nomatch h)⟩ .nil))
    · rintro h n t ⟨_, _, _, _, rfl, _⟩ e; exact absurd (List.cons.inj e).1 (by decide)
    · rintro h n t ⟨_, _, _, _, rfl, _⟩ e; exact absurd (List.cons.inj e).1 (by decide)
  · refine .lit ?_ (.lit ?_ (.hole (h := c!"{ token }") (rest := []) (name := c!"token") ⟨[' '], [' '], 't', c!"oken", rfl, rfl, by decide, by decide, rfl, by decide⟩ .nil))
    · rintro h n t ⟨_, _, _, _, rfl, _⟩ e; exact absurd (List.cons.inj e).1 (by decide)
    · rintro h n t ⟨_, _, _, _, rfl, _⟩ e; exact absurd (List.cons.inj e).1 (by decide)

/-- A script and the renamed script. -/
example (m m' : Str) (hm : RenamedText (swapName c!"x" c!"token") m m') :
    Each (RenamedItem (F := F) (swapName c!"x" c!"token") (swapName c!"f" c!"login"))
      [.request c!"f" m [.binary ⟨.Eq, c!"=="⟩ (.ident c!"x") (.int 1)], .expr (.letE c!"x" (.int 1)), .expr (.call c!"f" [.ident c!"y"])]
      [.request c!"login" m' [.binary ⟨.Eq, c!"=="⟩ (.ident c!"x") (.int 1)], .expr (.letE c!"token" (.int 1)), .expr (.call c!"login" [.ident c!"y"])] :=
  .cons (.request c!"f" m m' _ hm) (.cons (.expr (.letE c!"x" (.int 1))) (.cons (.expr (.call c!"f" [.ident c!"y"])) .nil))

/-- Two such texts; the unknown variable is named as it is written in each. -/
example (net : Net) : (evalText (F := F) net c!"let x = 1 let u = x + 1 z" ⟨Context.new, [], []⟩).2.out = c!"ident:z not found\n" ∧
    (evalText (F := F) net c!"let y = 1 let v = y + 1 w" ⟨Context.new, [], []⟩).2.out = c!"ident:w not found\n" := ⟨rfl, rfl⟩

/-- Names that become one are no renaming: `let x = 1 let y = 2 x` shows 1; with `y` renamed to `x` it shows 2. -/
theorem c98_clash (net : Net) : (evalText (F := F) net c!"let x = 1 let y = 2 x" ⟨Context.new, [], []⟩).2.out = c!"1\n" ∧
    (evalText (F := F) net c!"let x = 1 let x = 2 x" ⟨Context.new, [], []⟩).2.out = c!"2\n" := ⟨rfl, rfl⟩

end Am
