import Verif.Spec.WriteOut
import Verif.Props.Unused
import Verif.Props.Extract
import Verif.Props.Injection
/-! # C134: values may be written out in templates -/
set_option linter.unusedSimpArgs false
set_option linter.unusedSectionVars false
namespace Am
open Spec
variable {F : Type} [Rt F] {text : Str → Option Str}

/-- A text without an opening brace begins no placeholder. -/
theorem c134_plain {t b : Str} (h : '{' ∉ t) : ∀ x y, t = x ++ y → y ≠ [] → NoHole (y ++ b) := by
  rintro x y rfl hy h' name tail ⟨before, after, first, rest, rfl, _⟩ he
  cases y with
  | nil => exact hy rfl
  | cons c y =>
    cases (List.cons.inj he).1
    exact h (List.mem_append_right _ List.mem_cons_self)

theorem fill_join (f : Str → Str) (a b : List Piece) : fillBy f (a ++ b) = fillBy f a ++ fillBy f b := by
  induction a with
  | nil => rfl
  | cons p a ih => cases p <;> simp [fillBy, ih]

/-- A text that begins no placeholder is cut into its characters. -/
theorem pieces_put {b : Str} {ps : List Piece} (hp : Pieces b ps) : ∀ t : Str, (∀ x y, t = x ++ y → y ≠ [] → NoHole (y ++ b)) → Pieces (t ++ b) (t.map .lit ++ ps)
  | [], _ => hp
  | c :: t, h => .lit (h [] (c :: t) rfl (List.cons_ne_nil _ _)) (pieces_put hp t fun x y e hy => h (c :: x) y (by rw [e]; rfl) hy)

theorem fill_plain (f : Str → Str) (t : Str) : fillBy f (t.map .lit) = t := by
  induction t with
  | nil => rfl
  | cons c t ih => simp [fillBy, ih]

/-- C134: for every choice of texts that gives the variables the texts written out, the two templates are filled in the same way. -/
theorem c134_fill {a b : Str} (h : PutIn text a b) : ∃ ps qs, Pieces a ps ∧ Pieces b qs ∧ ∀ f : Str → Str, (∀ n t, text n = some t → f n = t) → fillBy f ps = fillBy f qs := by
  induction h with
  | nil => exact ⟨[], [], .nil, .nil, fun _ _ => rfl⟩
  | lit h1 h2 _ ih =>
    obtain ⟨ps, qs, g1, g2, g3⟩ := ih
    exact ⟨_, _, .lit h1 g1, .lit h2 g2, fun f hf => by simp only [fillBy, g3 f hf]⟩
  | keep h1 _ ih =>
    obtain ⟨ps, qs, g1, g2, g3⟩ := ih
    exact ⟨_, _, .hole h1 g1, .hole h1 g2, fun f hf => by simp only [fillBy, g3 f hf]⟩
  | put h1 h2 h3 _ ih =>
    obtain ⟨ps, qs, g1, g2, g3⟩ := ih
    exact ⟨_, _, .hole h1 g1, pieces_put g2 _ h3, fun f hf => by simp only [fillBy, fill_join, fill_plain, g3 f hf, hf _ _ h2]⟩

theorem render_written {a b : Str} (h : PutIn text a b) {c : Context F} (hc : HaveTexts text c) : render c a = render c b := by
  obtain ⟨ps, qs, h1, h2, h3⟩ := c134_fill h
  obtain ⟨ps', a1, a2, a3⟩ := c27_render c a
  obtain ⟨qs', b1, b2, b3⟩ := c27_render c b
  rw [a3, b3, ← a2 ps h1, ← b2 qs h2]
  refine h3 _ fun n t ht => ?_
  obtain ⟨v, e1, e2⟩ := hc n t ht
  have : amGet n c.inner = some v := e1
  rw [this]
  exact e2

/-- In states that differ only in values written out, where the variables have these values, `m` and `m'` do the same and keep the values. -/
def WroteM (text : Str → Option Str) {α : Type} (_ : Nat) (m m' : M F α) : Prop := ∀ s t, DiffersIn text s t → HaveTexts text s.ctx →
  (m s).1 = (m' t).1 ∧ DiffersIn text (m s).2 (m' t).2 ∧ HaveTexts text (m s).2.ctx

theorem wrote_lift {α : Type} (n : Nat) (r : Res α) : WroteM (F := F) text n (M.lift r) (M.lift r) := fun _ _ h hv => ⟨rfl, h, hv⟩

theorem wrote_bind {α β : Type} {m n : Nat} {x y : M F α} {f g : α → M F β} (h : WroteM text m x y) (h' : ∀ a, WroteM text n (f a) (g a)) :
    WroteM text (m + n) (x >>= f) (y >>= g) := by
  intro s t hs hv
  have h1 := h s t hs hv
  show (M.bind x f s).1 = (M.bind y g t).1 ∧ DiffersIn text (M.bind x f s).2 (M.bind y g t).2 ∧ HaveTexts text (M.bind x f s).2.ctx
  unfold M.bind
  rcases hx : x s with ⟨r, s1⟩
  rcases hy : y t with ⟨r', t1⟩
  rw [hx, hy] at h1
  obtain ⟨h1, h2, h3⟩ := h1
  dsimp only at h1
  subst h1
  cases r with
  | ok a => exact h' a s1 t1 h2 h3
  | err e => exact ⟨rfl, h2, h3⟩
  | panic => exact ⟨rfl, h2, h3⟩
  | hang => exact ⟨rfl, h2, h3⟩

theorem wrote_closed : Closed (F := F) (WroteM text) where
  pure _ := fun _ _ h hv => ⟨rfl, h, hv⟩
  bind := wrote_bind
  mono := fun _ h => h
  ident n := by
    intro s t h hv
    have hg : s.ctx.get n = t.ctx.get n := by unfold Context.get; rw [h.1]
    unfold readVar
    rw [hg]
    split <;> exact ⟨rfl, h, hv⟩
  lift _ _ := wrote_lift 0 _

theorem wrote_write {n : Str} (hn : text n = none) (v : Value F) : WroteM text 0 (writeVar n v) (writeVar n v) := by
  intro s t ⟨h1, h2, h3, h4, h5⟩ hv
  refine ⟨rfl, ⟨congrArg (amInsert n v) h1, h2, h3, h4, h5⟩, fun x w hx => ?_⟩
  obtain ⟨u, e1, e2⟩ := hv x w hx
  refine ⟨u, ?_, e2⟩
  have hne : ¬ x = n := fun e => by rw [e, hn] at hx; cases hx
  rw [← e1]
  simp [writeVar, M.modify, Context.get, Context.set, amGet_insert, hne, Ne.symm hne]

theorem wrote_say (o : Str) : WroteM (F := F) text 0 (M.modify fun s => { s with out := s.out ++ o }) (M.modify fun s => { s with out := s.out ++ o }) := by
  intro s t ⟨h1, h2, h3, h4, h5⟩ hv
  exact ⟨rfl, ⟨h1, h2, h3, congrArg (· ++ o) h4, h5⟩, hv⟩

theorem wrote_native (name : Str) (args : List (Value F)) : WroteM text 1 (callNative name args) (callNative name args) := by
  unfold callNative
  simp only [List.append_assoc]
  split
  · exact wrote_bind (m := 1) (n := 0) (wrote_lift 1 _) fun v => wrote_bind (m := 0) (n := 0) (wrote_say _) fun _ => wrote_closed.pure _
  · split
    · exact wrote_bind (m := 1) (n := 0) (wrote_lift 1 _) fun v => wrote_bind (m := 0) (n := 0) (wrote_say _) fun _ => wrote_closed.pure _
    · repeat (first | exact wrote_lift 1 _ | split)

theorem wrote_inLocal {α : Type} (map : List (Str × Value F)) (m : M F α) : WroteM text 0 (inLocal map m) (inLocal map m) := by
  intro s t ⟨h1, h2, h3, h4, h5⟩ hv
  unfold inLocal
  rw [h3, h4]
  rcases m { ctx := Context.ofMap map, sent := t.sent, out := t.out } with ⟨r, u⟩
  cases r <;> exact ⟨rfl, ⟨h1, h2, rfl, rfl, h5⟩, hv⟩

theorem wrote_exchange (net : Net) (call : Call F) (name : Str) (asserts : List (Expr F)) (msg : Str) (before : List Str) :
    WroteM text 0 (exchangeOf net call name asserts msg before) (exchangeOf net call name asserts msg before) := by
  refine wrote_bind (m := 0) (n := 0) (fun s t ⟨h1, h2, h3, h4, h5⟩ hv => ⟨rfl, ⟨h1, h2, congrArg (· ++ [msg]) h3, h4, h5⟩, hv⟩) fun _ => ?_
  refine wrote_bind (m := 0) (n := 0) (wrote_lift 0 _) fun p => ?_
  refine wrote_bind (m := 0) (n := 0) (wrote_lift 0 _) fun map => ?_
  refine wrote_bind (m := 0) (n := 0) (wrote_inLocal map _) fun q => ?_
  refine wrote_bind (m := 0) (n := 0) (fun s t ⟨h1, h2, h3, h4, h5⟩ hv => ⟨rfl, ⟨h1, congrArg (· ++ [_]) h2, h3, h4, h5⟩, hv⟩) fun _ => ?_
  exact wrote_closed.pure _

theorem wrote_call (net : Net) (name : Str) (args : List (Value F)) : WroteM text 1 (callAt net 1 name args) (callAt net 1 name args) := by
  intro s t hs hv
  rcases hs.2.2.2.2 name with ⟨e1, e2⟩ | ⟨m, m', asserts, e1, e2, e3⟩
  · rw [callAt_none net args (show s.ctx.request name = none from e1), callAt_none net args (show t.ctx.request name = none from e2)]
    exact wrote_native name args s t hs hv
  · rw [callAt_some net args (show s.ctx.request name = some _ from e1), callAt_some net args (show t.ctx.request name = some _ from e2),
      callRequest_exchange, callRequest_exchange, render_written e3 hv, render_inner hs.1, hs.2.2.1]
    exact wrote_exchange net _ name asserts _ _ s t hs hv

theorem wrote_block (net : Net) (b : List (Expr F)) (acc : Value F) (hl : ∀ n ∈ letsList b, text n = none) :
    WroteM text 0 (evalBlock (callAt net 1) acc b) (evalBlock (callAt net 1) acc b) :=
  evalBlock_closed wrote_closed (wrote_call net) b acc (fun n hn v => wrote_write (hl n hn) v) (fun _ _ => .inl fun _ => wrote_lift 0 _)

/-- C134: where some variables have certain texts, a script that does not set them does the same, whether the templates of its requests name the variables or
contain their texts: it has the same outcome, sends and prints the same, and leaves the same variables and records. -/
theorem c134_block (net : Net) (b : List (Expr F)) {s t : St F} (h : DiffersIn text s t) (hv : HaveTexts text s.ctx) (hl : ∀ n ∈ letsList b, text n = none) :
    (runBlock net b s).1 = (runBlock net b t).1 ∧ DiffersIn text (runBlock net b s).2 (runBlock net b t).2 ∧ HaveTexts text (runBlock net b s).2.ctx :=
  wrote_block net b .null hl s t h hv

/-- C134: the script may set the variables first, as long as it calls only requests that stay as they are until then. -/
theorem c134_after (net : Net) (pre rest : List (Expr F)) {s t : St F} (h : DiffersIn text s t)
    (hp : ∀ f ∈ calledList pre, amGet f s.ctx.requests = amGet f t.ctx.requests) (hv : ∀ v s1, runBlock net pre s = (.ok v, s1) → HaveTexts text s1.ctx)
    (hl : ∀ n ∈ letsList rest, text n = none) :
    (runBlock net (pre ++ rest) s).1 = (runBlock net (pre ++ rest) t).1 ∧ DiffersIn text (runBlock net (pre ++ rest) s).2 (runBlock net (pre ++ rest) t).2 ∧
    ∀ v s1, runBlock net (pre ++ rest) s = (.ok v, s1) → HaveTexts text s1.ctx := by
  obtain ⟨h1, h2, h3, h4, h5⟩ := h
  have hn : Near s.ctx.requests t.ctx.requests s.out s.out s t := ⟨rfl, rfl, h1, h2, h3, [], by simp, by simp [h4]⟩
  obtain ⟨g1, g2⟩ := block_near (R := s.ctx.requests) (R' := t.ctx.requests) (P := s.out) (Q := s.out) net pre .null hp s t hn
  unfold runBlock at hv ⊢
  rcases hx : evalBlock (callAt net 1) .null pre s with ⟨r, s1⟩
  rcases hy : evalBlock (callAt net 1) .null pre t with ⟨r', t1⟩
  rw [hx, hy] at g1 g2
  dsimp only at g1 g2
  subst g1
  obtain ⟨o, o1, o2⟩ := g2.out
  have hw : DiffersIn text s1 t1 := ⟨g2.inner, g2.records, g2.sent, o1.trans o2.symm, by rw [g2.left, g2.right]; exact h5⟩
  by_cases hr : ∃ v, r = .ok v
  · obtain ⟨v, rfl⟩ := hr
    rw [evalBlock_append _ pre rest _ _ _ _ hx, evalBlock_append _ pre rest _ _ _ _ hy]
    obtain ⟨a, b, c⟩ := wrote_block net rest v hl s1 t1 hw (hv v s1 hx)
    exact ⟨a, b, fun v s1 e => by rw [e] at c; exact c⟩
  · have hr' : ∀ v, r ≠ .ok v := fun v e => hr ⟨v, e⟩
    rw [evalBlock_stop _ pre rest _ _ _ _ hx hr', evalBlock_stop _ pre rest _ _ _ _ hy hr']
    exact ⟨rfl, hw, fun v s1 e => absurd (congrArg Prod.fst e) (hr' v)⟩

theorem wrote_extend {l l' k k' : List (Str × (Str × List (Expr F)))} (h : WroteTable text l l') (hk : WroteTable text k k') (h1 : KeysNodup k) (h2 : KeysNodup k') :
    WroteTable text (amExtend l k) (amExtend l' k') := by
  intro n
  rw [amGet_extend n _ _ h1, amGet_extend n _ _ h2]
  rcases hk n with ⟨e1, e2⟩ | ⟨m, m', as, e1, e2, e3⟩
  · rw [e1, e2]; exact h n
  · rw [e1, e2]; exact .inr ⟨m, m', as, rfl, rfl, e3⟩

/-- The same outcome in states that differ only in values written out. -/
def WroteRes (text : Str → Option Str) {α : Type} (x y : Res α × St F) : Prop := x.1 = y.1 ∧ DiffersIn text x.2 y.2

/-- C134: `am eval` on two source texts that differ only in values written out. The first expressions set the variables, the others leave them. -/
theorem c134_text (net : Net) {prog prog' : Str} {is is' : List (Item F)} {pre rest : List (Expr F)} (h1 : Accepted prog is) (h2 : Accepted prog' is')
    (he : exprsOf is = pre ++ rest) (he' : exprsOf is' = pre ++ rest) (hr : WroteItems text is is')
    (hp : ∀ f ∈ calledList pre, lastRequest f is = lastRequest f is')
    (hv : ∀ v s1, runBlock net pre ⟨Context.new.extend (is.foldl addItem ⟨[], [], []⟩).requests, [], []⟩ = (.ok v, s1) → HaveTexts text s1.ctx)
    (hl : ∀ n ∈ letsList rest, text n = none) :
    (evalText (F := F) net prog ⟨Context.new, [], []⟩).1 = (evalText (F := F) net prog' ⟨Context.new, [], []⟩).1 ∧
    DiffersIn text (evalText (F := F) net prog ⟨Context.new, [], []⟩).2 (evalText (F := F) net prog' ⟨Context.new, [], []⟩).2 := by
  obtain ⟨a1, a2, _, a4, _⟩ := fold_tables is ⟨[], [], []⟩
  obtain ⟨b1, b2, _, b4, _⟩ := fold_tables is' ⟨[], [], []⟩
  have hk : WroteTable text (is.foldl addItem ⟨[], [], []⟩).requests (is'.foldl addItem ⟨[], [], []⟩).requests := by
    intro n
    rw [a2, b2]
    rcases hr n with ⟨e1, e2⟩ | ⟨m, m', as, e1, e2, e3⟩
    · rw [e1, e2]; exact .inl ⟨rfl, rfl⟩
    · rw [e1, e2]; exact .inr ⟨m, m', as, rfl, rfl, e3⟩
  have hn1 : KeysNodup (is.foldl addItem ⟨[], [], []⟩).requests := a4 (by simp [KeysNodup])
  have hn2 : KeysNodup (is'.foldl addItem ⟨[], [], []⟩).requests := b4 (by simp [KeysNodup])
  have hx := c134_after (text := text) net pre rest (s := ⟨Context.new.extend (is.foldl addItem ⟨[], [], []⟩).requests, [], []⟩)
    (t := ⟨Context.new.extend (is'.foldl addItem ⟨[], [], []⟩).requests, [], []⟩)
    ⟨rfl, rfl, rfl, rfl, wrote_extend (fun _ => .inl ⟨rfl, rfl⟩) hk hn1 hn2⟩
    (fun f hf => by
      show amGet f (amExtend _ _) = amGet f (amExtend _ _)
      rw [amGet_extend f _ _ hn1, amGet_extend f _ _ hn2, a2, b2, hp f hf]) hv hl
  unfold evalText
  rw [accepted_items h1, accepted_items h2]
  dsimp only
  rw [a1, b1, he, he', List.nil_append]
  show WroteRes text (match runBlock net (pre ++ rest) ⟨Context.new.extend (is.foldl addItem ⟨[], [], []⟩).requests, [], []⟩ with
      | (.ok v, s) => sayLine v.display s
      | (.err e, s) => sayLine e s
      | (.panic, s) => (.panic, s)
      | (.hang, s) => (.hang, s)) (match runBlock net (pre ++ rest) ⟨Context.new.extend (is'.foldl addItem ⟨[], [], []⟩).requests, [], []⟩ with
      | (.ok v, s) => sayLine v.display s
      | (.err e, s) => sayLine e s
      | (.panic, s) => (.panic, s)
      | (.hang, s) => (.hang, s))
  rcases hy : runBlock net (pre ++ rest) ⟨Context.new.extend (is.foldl addItem ⟨[], [], []⟩).requests, [], []⟩ with ⟨r, t⟩
  rcases hz : runBlock net (pre ++ rest) ⟨Context.new.extend (is'.foldl addItem ⟨[], [], []⟩).requests, [], []⟩ with ⟨r', t'⟩
  rw [hy, hz] at hx
  obtain ⟨c1, ⟨c2, c3, c4, c5, c6⟩, _⟩ := hx
  dsimp only at c1 c2 c3 c4 c5 c6
  subst c1
  cases r with
  | ok v => exact ⟨rfl, c2, c3, c4, congrArg (fun o => o ++ v.display ++ c!"\n") c5, c6⟩
  | err e => exact ⟨rfl, c2, c3, c4, congrArg (fun o => o ++ e ++ c!"\n") c5, c6⟩
  | panic => exact ⟨rfl, c2, c3, c4, c5, c6⟩
  | hang => exact ⟨rfl, c2, c3, c4, c5, c6⟩

/-! ## Sessions -/

theorem putIn_refl (a : Str) : PutIn text a a := by
  obtain ⟨ps, hp⟩ := pieces_exist a
  induction hp with
  | nil => exact .nil
  | hole h _ ih => exact .keep h ih
  | lit h _ ih => exact .lit h h ih

theorem wroteTable_refl (l : List (Str × (Str × List (Expr F)))) : WroteTable text l l := by
  intro n
  cases h : amGet n l with
  | none => exact .inl ⟨rfl, rfl⟩
  | some p => exact .inr ⟨p.1, p.1, p.2, rfl, rfl, putIn_refl _⟩

/-- One line of a session. -/
theorem wrote_line (net : Net) (line : Str) (hi : ∀ src, (parse line : Res (Source F)) = .ok src → ∀ n ∈ letsList src.exprs, text n = none) {s t : St F}
    (h : DiffersIn text s t) (hv : HaveTexts text s.ctx) :
    (evalText net line s).1 = (evalText net line t).1 ∧ DiffersIn text (evalText net line s).2 (evalText net line t).2 ∧ HaveTexts text (evalText net line s).2.ctx := by
  obtain ⟨h1, h2, h3, h4, h5⟩ := h
  cases hp : (parse line : Res (Source F)) with
  | ok src =>
    obtain ⟨items, _, _, _, _, hk, _⟩ := c12_tables line src hp
    have hx := c134_block (text := text) net src.exprs (s := { s with ctx := s.ctx.extend src.requests }) (t := { t with ctx := t.ctx.extend src.requests })
      ⟨h1, h2, h3, h4, wrote_extend h5 (wroteTable_refl _) hk hk⟩ hv (hi src hp)
    rw [evalText_ok s hp, evalText_ok t hp]
    rcases hy : runBlock net src.exprs { s with ctx := s.ctx.extend src.requests } with ⟨r, u⟩
    rcases hz : runBlock net src.exprs { t with ctx := t.ctx.extend src.requests } with ⟨r', u'⟩
    rw [hy, hz] at hx
    obtain ⟨c1, ⟨c2, c3, c4, c5, c6⟩, c7⟩ := hx
    dsimp only at c1 c2 c3 c4 c5 c6 c7
    subst c1
    cases r with
    | ok v => exact ⟨rfl, ⟨c2, c3, c4, congrArg (fun o => o ++ v.display ++ c!"\n") c5, c6⟩, c7⟩
    | err e => exact ⟨rfl, ⟨c2, c3, c4, congrArg (fun o => o ++ e ++ c!"\n") c5, c6⟩, c7⟩
    | panic => exact ⟨rfl, ⟨c2, c3, c4, c5, c6⟩, c7⟩
    | hang => exact ⟨rfl, ⟨c2, c3, c4, c5, c6⟩, c7⟩
  | err e =>
    unfold evalText
    rw [hp]
    exact ⟨rfl, ⟨h1, h2, h3, congrArg (fun o => o ++ e ++ c!"\n") h4, h5⟩, hv⟩
  | panic => unfold evalText; rw [hp]; exact ⟨rfl, ⟨h1, h2, h3, h4, h5⟩, hv⟩
  | hang => unfold evalText; rw [hp]; exact ⟨rfl, ⟨h1, h2, h3, h4, h5⟩, hv⟩

/-- C134: nothing in the rest of a session tells the difference, as long as no line sets the variables. -/
theorem c134_session (net : Net) (input : List Input)
    (hi : ∀ line src, Input.line line ∈ input → (parse line : Res (Source F)) = .ok src → ∀ n ∈ letsList src.exprs, text n = none) {s t : St F}
    (h : DiffersIn text s t) (hv : HaveTexts text s.ctx) :
    (replLoop net input s).1 = (replLoop net input t).1 ∧ DiffersIn text (replLoop net input s).2 (replLoop net input t).2 := by
  induction input generalizing s t with
  | nil => exact ⟨rfl, h⟩
  | cons i rest ih =>
    have ih := fun {s t} => @ih (fun line src h => hi line src (by simp [h])) s t
    cases i with
    | bad => exact ih h hv
    | line line =>
      unfold replLoop
      by_cases h1 : line = c!"exit"
      · rw [if_pos h1]; exact ⟨rfl, h⟩
      · rw [if_neg h1]
        by_cases h2 : (trim line).isEmpty = true
        · rw [if_pos h2]; exact ih h hv
        · rw [if_neg h2]
          obtain ⟨e1, e2, e3⟩ := wrote_line net line (fun src hp => hi line src (by simp) hp) h hv
          cases hx : evalText net line s with | mk r u =>
          cases hy : evalText net line t with | mk r' u' =>
          rw [hx, hy] at e1 e2
          rw [hx] at e3
          dsimp only at e1 e2 e3
          subst e1
          cases r with
          | ok a => rw [M.bind_ok hx, M.bind_ok hy]; exact ih e2 e3
          | err e => rw [M.bind_err hx, M.bind_err hy]; exact ⟨rfl, e2⟩
          | panic => rw [M.bind_panic hx, M.bind_panic hy]; exact ⟨rfl, e2⟩
          | hang => rw [M.bind_hang hx, M.bind_hang hy]; exact ⟨rfl, e2⟩

/-! ## Runs of tests -/

/-- C134: `am test name` on two source texts that differ only in values written out comes to the same. Neither the later expressions nor the test set the variables. -/
theorem c134_start (order order' : List (Str × List (Expr F)) → List (Str × List (Expr F))) (net : Net) (args : TestArgs) {prog prog' : Str}
    {is is' : List (Item F)} {pre rest : List (Expr F)} (h1 : Accepted prog is) (h2 : Accepted prog' is')
    (he : exprsOf is = pre ++ rest) (he' : exprsOf is' = pre ++ rest) (hr : WroteItems text is is')
    (hp : ∀ f ∈ calledList pre, lastRequest f is = lastRequest f is')
    (hv : ∀ v s1, runBlock net pre ⟨Context.new.extend (is.foldl addItem ⟨[], [], []⟩).requests, [], []⟩ = (.ok v, s1) → HaveTexts text s1.ctx)
    (hl : ∀ n ∈ letsList rest, text n = none)
    (name : Str) (hname : args.name = some name) (ht : lastTest name is = lastTest name is')
    (hb : ∀ b, lastTest name is = some b → ∀ n ∈ letsList b, text n = none) :
    WroteStarted text (startTest order net args prog).1 (startTest order' net args prog').1 ∧
    DiffersIn text (startTest order net args prog).2 (startTest order' net args prog').2 := by
  obtain ⟨a1, a2, a3, a4, _⟩ := fold_tables is ⟨[], [], []⟩
  obtain ⟨b1, b2, b3, b4, _⟩ := fold_tables is' ⟨[], [], []⟩
  have hk : WroteTable text (is.foldl addItem ⟨[], [], []⟩).requests (is'.foldl addItem ⟨[], [], []⟩).requests := by
    intro n
    rw [a2, b2]
    rcases hr n with ⟨e1, e2⟩ | ⟨m, m', as, e1, e2, e3⟩
    · rw [e1, e2]; exact .inl ⟨rfl, rfl⟩
    · rw [e1, e2]; exact .inr ⟨m, m', as, rfl, rfl, e3⟩
  have hn1 : KeysNodup (is.foldl addItem ⟨[], [], []⟩).requests := a4 (by simp [KeysNodup])
  have hn2 : KeysNodup (is'.foldl addItem ⟨[], [], []⟩).requests := b4 (by simp [KeysNodup])
  have hx := c134_after (text := text) net pre rest (s := ⟨Context.new.extend (is.foldl addItem ⟨[], [], []⟩).requests, [], []⟩)
    (t := ⟨Context.new.extend (is'.foldl addItem ⟨[], [], []⟩).requests, [], []⟩)
    ⟨rfl, rfl, rfl, rfl, wrote_extend (fun _ => .inl ⟨rfl, rfl⟩) hk hn1 hn2⟩
    (fun f hf => by
      show amGet f (amExtend _ _) = amGet f (amExtend _ _)
      rw [amGet_extend f _ _ hn1, amGet_extend f _ _ hn2, a2, b2, hp f hf]) hv hl
  unfold startTest setup
  rw [accepted_items h1, accepted_items h2]
  dsimp only
  rw [a1, b1, he, he', List.nil_append]
  rcases hy : runBlock net (pre ++ rest) ⟨Context.new.extend (is.foldl addItem ⟨[], [], []⟩).requests, [], []⟩ with ⟨r, t⟩
  rcases hz : runBlock net (pre ++ rest) ⟨Context.new.extend (is'.foldl addItem ⟨[], [], []⟩).requests, [], []⟩ with ⟨r', t'⟩
  rw [hy, hz] at hx
  obtain ⟨c1, ⟨c2, c3, c4, c5, c6⟩, c7⟩ := hx
  dsimp only at c1 c2 c3 c4 c5 c6
  subst c1
  cases r with
  | err m => exact ⟨.ended, c2, c3, c4, congrArg (fun o => o ++ m ++ c!"\n") c5, c6⟩
  | panic => exact ⟨.panicked, c2, c3, c4, c5, c6⟩
  | hang => exact ⟨.endless, c2, c3, c4, c5, c6⟩
  | ok v =>
    dsimp only
    unfold startWorkers
    rw [hname]
    dsimp only
    rw [a3, b3, ← ht]
    cases hlt : lastTest name is with
    | none => exact ⟨.threads _ _ _ .nil, c2, c3, c4, congrArg (fun o => o ++ (c!"Test not found: " ++ name) ++ c!"\n") c5, c6⟩
    | some test =>
      dsimp only [Option.or]
      cases perThread (limits args.duration args.number).2 args.threads with
      | ok n => exact ⟨.threads _ _ _ (each_replicate ⟨rfl, rfl, rfl, hb test hlt, c2, rfl, c6, c7 v t rfl, rfl, rfl⟩ _), c2, c3, c4, c5, c6⟩
      | err m => exact ⟨.ended, c2, c3, c4, c5, c6⟩
      | panic => exact ⟨.panicked, c2, c3, c4, c5, c6⟩
      | hang => exact ⟨.endless, c2, c3, c4, c5, c6⟩

theorem workerStep_wrote (cfg : Config) (cont : Bool) (i : Nat) (net : Net) {w w' : Worker F} (h : WroteWorker text w w') :
    (w.step cfg cont i net = none ∧ w'.step cfg cont i net = none) ∨
    ∃ v v' e, w.step cfg cont i net = some (v, e) ∧ w'.step cfg cont i net = some (v', e) ∧ WroteWorker text v v' := by
  obtain ⟨p, n, t, c, k, f⟩ := w
  obtain ⟨p', n', t', c', k', f'⟩ := w'
  obtain ⟨rfl, rfl, rfl, hlets, hi, hr, ht, hv, rfl, rfl⟩ := h
  dsimp only at hlets hi hr ht hv
  unfold Worker.step
  dsimp only
  cases p with
  | head =>
    dsimp only
    split
    · split <;> exact .inr ⟨_, _, _, rfl, rfl, ⟨rfl, rfl, rfl, hlets, hi, hr, ht, hv, rfl, rfl⟩⟩
    · exact .inr ⟨_, _, _, rfl, rfl, ⟨rfl, rfl, rfl, hlets, hi, hr, ht, hv, rfl, rfl⟩⟩
  | eval =>
    dsimp only
    have hx := c134_block net t (s := ⟨c, [], []⟩) (t := ⟨c', [], []⟩) ⟨hi, hr, rfl, rfl, ht⟩ hv hlets
    rcases hy : runBlock net t ⟨c, [], []⟩ with ⟨r, s⟩
    rcases hz : runBlock net t ⟨c', [], []⟩ with ⟨r', s'⟩
    rw [hy, hz] at hx
    obtain ⟨hb1, ⟨hb2, hrec, _, hb4, hb5⟩, hb6⟩ := hx
    dsimp only at hb1 hb2 hrec hb4 hb5 hb6
    subst hb1
    cases r with
    | ok v =>
      dsimp only [Context.takeRecords]
      rw [hrec, hb4]
      exact .inr ⟨_, _, _, rfl, rfl, ⟨rfl, rfl, rfl, hlets, hb2, rfl, hb5, hb6, rfl, rfl⟩⟩
    | err e =>
      dsimp only [Context.takeRecords]
      rw [hrec, hb4]
      split
      · exact .inr ⟨_, _, _, rfl, rfl, ⟨rfl, rfl, rfl, hlets, hb2, hrec, hb5, hb6, rfl, rfl⟩⟩
      · exact .inr ⟨_, _, _, rfl, rfl, ⟨rfl, rfl, rfl, hlets, hb2, rfl, hb5, hb6, rfl, rfl⟩⟩
    | panic =>
      dsimp only
      rw [hb4]
      exact .inr ⟨_, _, _, rfl, rfl, ⟨rfl, rfl, rfl, hlets, hb2, hrec, hb5, hb6, rfl, rfl⟩⟩
    | hang =>
      dsimp only
      rw [hb4]
      exact .inr ⟨_, _, _, rfl, rfl, ⟨rfl, rfl, rfl, hlets, hb2, hrec, hb5, hb6, rfl, rfl⟩⟩
  | print rs left => cases left <;> exact .inr ⟨_, _, _, rfl, rfl, ⟨rfl, rfl, rfl, hlets, hi, hr, ht, hv, rfl, rfl⟩⟩
  | write rs =>
    dsimp only
    split <;> exact .inr ⟨_, _, _, rfl, rfl, ⟨rfl, rfl, rfl, hlets, hi, hr, ht, hv, rfl, rfl⟩⟩
  | send rs => exact .inr ⟨_, _, _, rfl, rfl, ⟨rfl, rfl, rfl, hlets, hi, hr, ht, hv, rfl, rfl⟩⟩
  | done => exact .inl ⟨rfl, rfl⟩
  | stuck => exact .inl ⟨rfl, rfl⟩

theorem runWrote_done {ws ws' : List (Worker F)} (h : Each (WroteWorker text) ws ws') : (ws.all fun w => w.pc == .done) = ws'.all fun w => w.pc == .done := by
  induction h with
  | nil => rfl
  | cons h1 _ ih => simp only [List.all_cons, h1.pc, ih]

theorem runStep_wrote (cfg : Config) {r r' : Run F} (h : WroteRun text r r') (s : RunStep) :
    (r.step cfg s = none ∧ r'.step cfg s = none) ∨ ∃ q q', r.step cfg s = some q ∧ r'.step cfg s = some q' ∧ WroteRun text q q' := by
  obtain ⟨ws, ct, ch, ms, co, st, ou⟩ := r
  obtain ⟨ws', ct', ch', ms', co', st', ou'⟩ := r'
  obtain ⟨hw, rfl, rfl, rfl, rfl, rfl, rfl⟩ := h
  dsimp only at hw
  cases s with
  | work i net =>
    unfold Run.step
    dsimp only
    rcases hw.get i with ⟨h1, h2⟩ | ⟨w, w', h1, h2, h3⟩
    · rw [h1, h2]; exact .inl ⟨rfl, rfl⟩
    · rw [h1, h2]
      dsimp only
      rcases workerStep_wrote cfg ct i net h3 with ⟨h4, h5⟩ | ⟨v, v', e, h4, h5, h6⟩
      · rw [h4, h5]; exact .inl ⟨rfl, rfl⟩
      · rw [h4, h5]
        exact .inr ⟨_, _, rfl, rfl, ⟨hw.set i h6, rfl, rfl, rfl, rfl, rfl, rfl⟩⟩
  | stop => exact .inr ⟨_, _, rfl, rfl, ⟨hw, rfl, rfl, rfl, rfl, rfl, rfl⟩⟩
  | drop =>
    unfold Run.step
    dsimp only
    split
    · exact .inr ⟨_, _, rfl, rfl, ⟨hw, rfl, rfl, rfl, rfl, rfl, rfl⟩⟩
    · exact .inl ⟨rfl, rfl⟩
  | collect =>
    unfold Run.step
    dsimp only
    split
    · exact .inl ⟨rfl, rfl⟩
    · split
      · split
        · exact .inr ⟨_, _, rfl, rfl, ⟨hw, rfl, rfl, rfl, rfl, rfl, rfl⟩⟩
        · unfold Run.disconnected Run.workersDone
          dsimp only
          rw [runWrote_done hw]
          split
          · exact .inr ⟨_, _, rfl, rfl, ⟨hw, rfl, rfl, rfl, rfl, rfl, rfl⟩⟩
          · exact .inl ⟨rfl, rfl⟩
      · exact .inr ⟨_, _, rfl, rfl, ⟨hw, rfl, rfl, rfl, rfl, rfl, rfl⟩⟩

/-- C108: the runs of the tests are the same, step by step: the same output, the same record files, the same statistics. -/
theorem c134_run (cfg : Config) {r r' : Run F} (h : WroteRun text r r') (sched : List RunStep) :
    (r.run cfg sched = none ∧ r'.run cfg sched = none) ∨ ∃ q q', r.run cfg sched = some q ∧ r'.run cfg sched = some q' ∧ WroteRun text q q' := by
  induction sched generalizing r r' with
  | nil => exact .inr ⟨r, r', rfl, rfl, h⟩
  | cons s l ih =>
    unfold Run.run
    rcases runStep_wrote cfg h s with ⟨h2, h3⟩ | ⟨q, q', h2, h3, h4⟩
    · rw [h2, h3]; exact .inl ⟨rfl, rfl⟩
    · rw [h2, h3]; exact ih h4

/-- C108: threads that are alike make runs that are alike. -/
theorem c134_begin {ws ws' : List (Worker F)} (h : Each (WroteWorker text) ws ws') : WroteRun text (Run.init ws) (Run.init ws') :=
  ⟨h, rfl, rfl, rfl, rfl, rfl, rfl⟩

/-- C134: the text written out must not make a new placeholder with what stands around it: in `{{x}}`, where `x` is `y`, it would. -/
theorem c134_needed (k : Clocks) :
    (evalText (F := F) (refusing k) c!"request f `GET http://{{x}}/` let y = \"z\"; let x = \"y\"; f()" ⟨Context.new, [], []⟩).2.sent = [c!"GET http://{y}/"] ∧
    (evalText (F := F) (refusing k) c!"request f `GET http://{y}/` let y = \"z\"; let x = \"y\"; f()" ⟨Context.new, [], []⟩).2.sent = [c!"GET http://z/"] :=
  ⟨rfl, rfl⟩

theorem noHole_plain {c : Char} (h : c ≠ '{') (a : Str) : NoHole (c :: a) := by
  rintro h' name tail ⟨before, after, first, rest, rfl, _⟩ he
  exact h (List.cons.inj he).1

theorem written_plain {a b : Str} (h : PutIn text a b) : ∀ t : Str, '{' ∉ t → PutIn text (t ++ a) (t ++ b)
  | [], _ => h
  | c :: t, hc => .lit (noHole_plain (fun e => hc (e ▸ List.mem_cons_self)) _) (noHole_plain (fun e => hc (e ▸ List.mem_cons_self)) _)
      (written_plain h t fun hm => hc (List.mem_cons_of_mem _ hm))

/-- Concrete case: the host is written out, the path is not. -/
theorem written_host : PutIn (fun n => if n = c!"host" then some c!"h" else none) c!"GET http://{host}/{path}" c!"GET http://h/{path}" :=
  written_plain (a := c!"{host}/{path}") (b := c!"h/{path}")
    (.put (h := c!"{host}") (name := c!"host") (t := c!"h") ⟨[], [], 'h', c!"ost", by decide, by decide, by decide, by decide, by decide, by decide⟩ rfl
      (c134_plain (by decide))
      (written_plain (a := c!"{path}") (b := c!"{path}")
        (.keep (h := c!"{path}") (name := c!"path") (a := []) (b := []) ⟨[], [], 'p', c!"ath", by decide, by decide, by decide, by decide, by decide, by decide⟩ .nil) c!"/" (by decide)))
    c!"GET http://" (by decide)

/-- A state in which the variable has the text, and a script that leaves it. -/
example : HaveTexts (F := F) (fun n => if n = c!"host" then some c!"h" else none) ⟨[(c!"host", .str c!"h")], [], []⟩ ∧
    ∀ n ∈ letsList (F := F) [.letE c!"path" (.str c!"p"), .call c!"f" []], (if n = c!"host" then some c!"h" else none) = none := by
  refine ⟨fun n t h => ?_, ?_⟩
  · dsimp only at h
    split at h
    · next e => subst e; injection h with h; subst h; exact ⟨_, rfl, rfl⟩
    · cases h
  · simp [letsList, lets]

/-- C134: the two programs send the same. -/
example (k : Clocks) :
    (evalText (F := F) (refusing k) c!"request f `GET http://{host}/{path}` let host = \"h\"; let path = \"p\"; f()" ⟨Context.new, [], []⟩).2.sent = [c!"GET http://h/p"] ∧
    (evalText (F := F) (refusing k) c!"request f `GET http://h/{path}` let host = \"h\"; let path = \"p\"; f()" ⟨Context.new, [], []⟩).2.sent = [c!"GET http://h/p"] :=
  ⟨rfl, rfl⟩

/-- C134: a script that sets the variable anew afterwards does tell the difference. -/
theorem c134_set_again (k : Clocks) :
    (evalText (F := F) (refusing k) c!"request f `GET http://{host}/` let host = \"h\"; let host = \"g\"; f()" ⟨Context.new, [], []⟩).2.sent = [c!"GET http://g/"] ∧
    (evalText (F := F) (refusing k) c!"request f `GET http://h/` let host = \"h\"; let host = \"g\"; f()" ⟨Context.new, [], []⟩).2.sent = [c!"GET http://h/"] :=
  ⟨rfl, rfl⟩

end Am
