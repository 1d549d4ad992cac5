import Verif.Spec.AnyFill
import Verif.Props.Finding
import Verif.Props.EveryOrder
/-! # C127, C128: templates and names whatever the order of hash maps -/
set_option linter.unusedSimpArgs false
set_option linter.unusedSectionVars false
namespace Am
open Spec
variable {F : Type} [Rt F]

/-! ## Templates -/

/-- The names of the placeholders, in order. -/
def holeNames : List Piece → List Str
  | [] => []
  | .lit _ :: ps => holeNames ps
  | .hole n :: ps => n :: holeNames ps

theorem findAll_names {s : Str} {ps : List Piece} (h : Pieces s ps) : ∀ n pos, s.length ≤ n → (findAll n pos s).map (·.1) = holeNames ps := by
  induction h with
  | nil => intro n pos _; cases n <;> rfl
  | @hole h name rest ps hh hr ih =>
    intro n pos hn
    have hne : 0 < h.length := List.length_pos_iff.2 (hole_nonempty hh)
    have hm := matchAt_hole (rest := rest) hh
    rw [List.length_append] at hn
    cases hs : h ++ rest with
    | nil => exact absurd (List.append_eq_nil_iff.1 hs).1 (hole_nonempty hh)
    | cons c cs =>
      rw [hs] at hm
      cases n with
      | zero => omega
      | succ n =>
        simp only [findAll, hm, List.map_cons, holeNames]
        rw [ih n _ (by omega)]
  | @lit c rest ps hn hr ih =>
    intro n pos hl
    cases n with
    | zero => cases hl
    | succ n =>
      simp only [findAll, matchAt_none.2 hn, holeNames]
      exact ih n _ (by simpa using hl)

theorem shownList_append {a b : List (Value F)} {x y : List Str} (h1 : ShownList a x) (h2 : ShownList b y) : ShownList (a ++ b) (x ++ y) := by
  induction h1 with
  | nil => exact h2
  | cons h _ ih => exact .cons h ih

theorem shownList_reverse {a : List (Value F)} {x : List Str} (h : ShownList a x) : ShownList a.reverse x.reverse := by
  induction h with
  | nil => exact .nil
  | cons h _ ih => rw [List.reverse_cons, List.reverse_cons]; exact shownList_append ih (.cons h .nil)

theorem shownList_length {a : List (Value F)} {x : List Str} (h : ShownList a x) : x.length = a.length := by
  induction h with
  | nil => rfl
  | cons _ _ ih => simp [ih]

theorem holeNames_length : ∀ ps, (holeNames ps).length = holes ps
  | [] => rfl
  | .lit _ :: ps => holeNames_length ps
  | .hole _ :: ps => congrArg (· + 1) (holeNames_length ps)

theorem filledAs_iff {value : Str → Value F} : ∀ {ps : List Piece} {m : Str}, FilledAs value ps m ↔ ∃ us, ShownList ((holeNames ps).map value) us ∧ m = fillWith ps us
  | [], m => by
    constructor
    · intro h; cases h; exact ⟨[], .nil, rfl⟩
    · rintro ⟨us, _, rfl⟩; exact .nil
  | .lit c :: ps, m => by
    constructor
    · intro h
      cases h with | lit h =>
      obtain ⟨us, h1, rfl⟩ := filledAs_iff.1 h
      exact ⟨us, h1, rfl⟩
    · rintro ⟨us, h1, rfl⟩
      exact .lit (filledAs_iff.2 ⟨us, h1, rfl⟩)
  | .hole n :: ps, m => by
    constructor
    · intro h
      cases h with | hole ht h =>
      obtain ⟨us, h1, rfl⟩ := filledAs_iff.1 h
      exact ⟨_ :: us, .cons ht h1, rfl⟩
    · rintro ⟨us, h1, rfl⟩
      cases h1 with | cons ht h1 =>
      exact .hole ht (filledAs_iff.2 ⟨_, h1, rfl⟩)

/-- C127 (C27 in every order): the messages a template may be sent as are exactly its pieces with every placeholder replaced by some text of its variable — `null`
when unbound —, chosen anew for every placeholder. -/
theorem c127_render {ctx : Context F} {template m : Str} {ps : List Piece} (hp : Pieces template ps) :
    anyRender ctx template m ↔ FilledAs (fun x => (amGet x ctx.inner).getD .null) ps m := by
  obtain ⟨qs, h1, h2, _, h4⟩ := findAll_pieces template.length 0 template (Nat.le_refl _)
  cases pieces_unique hp h1
  have hnames : ((findTemplates template).map (·.1)) = holeNames ps := findAll_names hp _ _ (Nat.le_refl _)
  have hvals : (findTemplates template).map (fun m => (ctx.get m.1).getD .null) = (holeNames ps).map fun x => (amGet x ctx.inner).getD .null := by
    rw [← hnames, List.map_map]; rfl
  have hlen : (findTemplates template).length = holes ps := h2
  have key : ∀ us : List Str, us.length = holes ps → replaceAll template (((findTemplates template).reverse.map (·.2)).zip us.reverse) = fillWith ps us := by
    intro us hu
    have := h4 [] us rfl hu
    simp only [List.nil_append] at this
    rw [List.map_reverse, zip_reverse' _ _ (by simp [hlen, hu])]
    exact this
  rw [filledAs_iff, ← hvals]
  constructor
  · rintro ⟨ts, h5, h6⟩
    have h7 := shownList_reverse h5
    rw [List.map_reverse, List.reverse_reverse] at h7
    refine ⟨ts.reverse, h7, ?_⟩
    rw [← key _ (by rw [shownList_length h7]; simp [hlen]), List.reverse_reverse]
    exact h6
  · rintro ⟨us, h5, h6⟩
    refine ⟨us.reverse, ?_, ?_⟩
    · rw [List.map_reverse]; exact shownList_reverse h5
    · rw [key us (by rw [shownList_length h5]; simp [hlen])]; exact h6

/-- C127 (C28 in every order): `format` gives the text with its placeholders replaced in order by some texts of the arguments, and fails exactly when their numbers
differ. -/
theorem c127_format {s : Str} {args : List (Value F)} {ps : List Piece} (hp : Pieces s ps) (r : Res (Value F)) :
    (args.length ≠ holes ps → (anyFormat (.str s :: args) r ↔
      r = .err (c!"wrong number of arguments. got=" ++ natStr args.length ++ c!", want=" ++ natStr (holes ps)))) ∧
    (args.length = holes ps → (anyFormat (.str s :: args) r ↔ ∃ us, ShownList args us ∧ r = .ok (.str (fillWith ps us)))) := by
  obtain ⟨qs, h1, h2, _, h4⟩ := findAll_pieces s.length 0 s (Nat.le_refl _)
  cases pieces_unique hp h1
  obtain ⟨qs, k1, _, k2, _⟩ := c28_format s args
  cases pieces_unique hp k1
  have hlen : (((findTemplates s).map (·.2)).reverse).length = holes ps := by simp [findTemplates, h2]
  constructor
  · intro hn
    unfold anyFormat
    dsimp only
    rw [hlen, if_pos (by simpa using hn), k2 hn]
  · intro he
    unfold anyFormat
    dsimp only
    rw [hlen, if_neg (by simpa using he)]
    have key : ∀ us : List Str, us.length = holes ps → replaceAll s ((((findTemplates s).map (·.2)).reverse).zip us.reverse) = fillWith ps us := by
      intro us hu
      have := h4 [] us rfl hu
      simp only [List.nil_append] at this
      rw [zip_reverse' _ _ (by simp [findTemplates, h2, hu])]
      exact this
    constructor
    · rintro ⟨ts, h5, h6⟩
      have h7 := shownList_reverse h5
      rw [List.reverse_reverse] at h7
      refine ⟨ts.reverse, h7, ?_⟩
      rw [← key _ (by rw [shownList_length h7, he]), List.reverse_reverse]
      exact h6
    · rintro ⟨us, h5, h6⟩
      refine ⟨us.reverse, shownList_reverse h5, ?_⟩
      rw [key us (by rw [shownList_length h5, he])]; exact h6

/-! ## Names -/

theorem any_error_names {α : Type} {x r : Res α} {P : Str → Prop} (hp : ∀ e, P e → ¬ NameError e) (hr : anyError x P r) : NamesFine r := by
  intro e he
  cases x with
  | err e' =>
    obtain ⟨e'', h1, h2⟩ := hr
    rw [h2] at he
    cases he
    exact hp _ h1
  | _ => rw [show r = _ from hr] at he; cases he

theorem any_index_names {v k : Value F} {r : Res (Value F)} (hr : anyIndex v k r) : NamesFine r := by
  have key : anyError (indexValue v k) (fun e => ∃ t, DebuggedAs v t ∧ e = c!"index operator not support: " ++ t) r → NamesFine r :=
    any_error_names (by rintro e ⟨t, _, rfl⟩ hn; rcases nameError_first hn with ⟨t, h⟩ | ⟨t, h, _⟩ <;> cases h)
  cases v with
  | map l =>
    obtain ⟨t, _, rfl⟩ := hr
    exact (fun _ h => nomatch h)
  | _ => exact key hr

theorem any_format_names {vs : List (Value F)} {r : Res (Value F)} (hr : anyFormat vs r) : NamesFine r := by
  cases vs with
  | nil => rw [show r = _ from hr]; exact format_names _
  | cons v vs =>
    cases v with
    | str s =>
      unfold anyFormat at hr
      dsimp only at hr
      split at hr
      · rw [hr]; exact format_names _
      · obtain ⟨ts, _, rfl⟩ := hr
        exact (fun _ h => nomatch h)
    | _ => rw [show r = _ from hr]; exact format_names _

/-- `Finds` for every possible outcome. -/
def AnyFinds (table : List (Str × (Str × List (Expr F)))) (D D' : Str → Prop) {α : Type} (m : AnyM F α) : Prop :=
  ∀ s x, s.ctx.requests = table → HaveValues D s → m s x → x.2.ctx.requests = table ∧ HaveValues D x.2 ∧
    (∃ l, x.2.sent = s.sent ++ l ∧ ∀ y ∈ l, AnyFilledIn table y) ∧ (∀ a, x.1 = .ok a → HaveValues D' x.2) ∧ NamesFine x.1

variable {table : List (Str × (Str × List (Expr F)))} {D D1 D' : Str → Prop}

theorem AnyFinds.weaken {α : Type} {m : AnyM F α} (h : AnyFinds table D D1 m) (hd : ∀ x, D' x → D1 x) : AnyFinds table D D' m := by
  intro s x hs hv hx
  obtain ⟨h1, h2, h3, h4, h5⟩ := h s x hs hv hx
  exact ⟨h1, h2, h3, fun a hr x hx => h4 a hr x (hd x hx), h5⟩

theorem AnyFinds.lift {α : Type} {P : Res α → Prop} (hr : ∀ r, P r → NamesFine r) : AnyFinds table D D (.lift P : AnyM F α) := by
  rintro s ⟨r, t⟩ hs hv ⟨h1, h2⟩
  change t = s at h2
  subst h2
  exact ⟨hs, hv, ⟨[], (List.append_nil _).symm, (fun _ h => nomatch h)⟩, fun _ _ => hv, hr r h1⟩

theorem AnyFinds.text {α : Type} {P : α → Prop} : AnyFinds table D D (.text P : AnyM F α) := by
  rintro s x hs hv ⟨a, _, rfl⟩
  exact ⟨hs, hv, ⟨[], (List.append_nil _).symm, (fun _ h => nomatch h)⟩, fun _ _ => hv, (fun _ h => nomatch h)⟩

theorem AnyFinds.quiet {α : Type} {r : Res α} (hr : NamesFine r) : AnyFinds table D D (.det (M.lift r) : AnyM F α) := by
  rintro s x hs hv hx
  cases hx
  exact ⟨hs, hv, ⟨[], (List.append_nil _).symm, (fun _ h => nomatch h)⟩, fun _ _ => hv, hr⟩

theorem AnyFinds.pure {α : Type} (a : α) : AnyFinds table D D (.det (M.pure a) : AnyM F α) := AnyFinds.quiet (fun _ h => nomatch h)

theorem AnyFinds.bind {α β : Type} {m : AnyM F α} {f : α → AnyM F β} (hm : AnyFinds table D D1 m) (hd : ∀ x, D x → D1 x) (hf : ∀ a, AnyFinds table D1 D' (f a)) :
    AnyFinds table D D' (.bind m f) := by
  rintro s x hs hv ⟨⟨r, t⟩, hy, hx⟩
  obtain ⟨h1, h2, ⟨l, h3, hl⟩, h4, h5⟩ := hm s _ hs hv hy
  cases r with
  | ok a =>
    obtain ⟨g1, g2, ⟨l', g3, gl⟩, g4, g5⟩ := hf a t x h1 (h4 a rfl) hx
    refine ⟨g1, fun x hx => g2 x (hd x hx), ⟨l ++ l', by rw [g3, h3, List.append_assoc], fun x hx => ?_⟩, g4, g5⟩
    exact (List.mem_append.1 hx).elim (hl x) (gl x)
  | err e => cases hx; exact ⟨h1, h2, ⟨l, h3, hl⟩, (fun a h => nomatch h), fun e' h => h5 e' (by cases h; rfl)⟩
  | panic => cases hx; exact ⟨h1, h2, ⟨l, h3, hl⟩, (fun a h => nomatch h), (fun e' h => nomatch h)⟩
  | hang => cases hx; exact ⟨h1, h2, ⟨l, h3, hl⟩, (fun a h => nomatch h), (fun e' h => nomatch h)⟩

theorem AnyFinds.out (f : Str → Str) : AnyFinds table D D (.det (M.modify (F := F) fun s => { s with out := f s.out })) := by
  rintro s x hs hv hx
  cases hx
  exact ⟨hs, hv, ⟨[], (List.append_nil _).symm, (fun _ h => nomatch h)⟩, fun _ _ => hv, (fun _ h => nomatch h)⟩

theorem AnyFinds.native {name : Str} (hn : name ∈ builtins) (vs : List (Value F)) : AnyFinds table D D (anyNative name vs) := by
  unfold anyNative
  split
  · exact AnyFinds.bind (D1 := D) (AnyFinds.lift fun r hr => any_format_names hr) (fun _ h => h) fun v =>
      AnyFinds.bind (AnyFinds.out (fun o => o ++ v.display ++ c!"\n")) (fun _ h => h) fun _ => AnyFinds.pure _
  · split
    · exact AnyFinds.bind (D1 := D) (AnyFinds.lift fun r hr => any_format_names hr) (fun _ h => h) fun v =>
        AnyFinds.bind (AnyFinds.out (fun o => o ++ v.display)) (fun _ h => h) fun _ => AnyFinds.pure _
    · split
      · exact AnyFinds.lift fun r hr => any_format_names hr
      · rename_i h1 h2 h3
        unfold callNative
        rw [if_neg h1, if_neg h2, if_neg h3]
        split
        · exact AnyFinds.quiet (length_names vs)
        · split
          · exact AnyFinds.quiet (append_names vs)
          · rename_i h4 h5
            simp [builtins, h1, h2, h3, h4, h5] at hn

theorem AnyFinds.call (net : Net) {f : Str} (hf : amGet f table ≠ none ∨ f ∈ builtins) (vs : List (Value F)) (hk : KnownCall table D f) :
    AnyFinds table D D (anyCallAt net 1 f vs) := by
  intro s x hs hv hx
  unfold anyCallAt at hx
  cases hr : amGet f table with
  | none =>
    rw [show s.ctx.request f = none by rw [Context.request, hs, hr]] at hx
    exact AnyFinds.native (hf.resolve_left fun h => h hr) vs s x hs hv hx
  | some p =>
    obtain ⟨message, asserts⟩ := p
    rw [show s.ctx.request f = some (message, asserts) by rw [Context.request, hs, hr]] at hx
    dsimp only at hx
    obtain ⟨ps, h1, _, _⟩ := c27_render s.ctx message
    obtain ⟨text, ht, h⟩ := anyRequest_cases hx
    have hfill : ∀ y ∈ [text], AnyFilledIn table y := by
      intro y hy
      cases List.mem_singleton.1 hy
      exact ⟨f, message, asserts, ps, hr, h1, fun n => amGet n s.ctx.inner, fun y hy => hv y (hk message asserts ps y hr h1 hy), (c127_render h1).1 ht⟩
    obtain ⟨rq, rs, t, e, as, inner, out, _, h⟩ | ⟨h, _⟩ | ⟨out, h, _⟩ := h
    all_goals subst h
    · exact ⟨hs, hv, ⟨_, rfl, hfill⟩, fun _ _ => hv, (fun _ h => nomatch h)⟩
    · exact ⟨hs, hv, ⟨_, rfl, hfill⟩, (fun _ h => nomatch h), (fun _ h => nomatch h)⟩
    · exact ⟨hs, hv, ⟨_, rfl, hfill⟩, (fun _ h => nomatch h), (fun _ h => nomatch h)⟩

theorem AnyFinds.write (n : Str) (v : Value F) : AnyFinds table D (more D [n]) (.det (M.modify (F := F) fun s => { s with ctx := s.ctx.set n v })) := by
  intro s x hs hv hx
  cases hx
  have key : HaveValues (more D [n]) (writeVar n v s).2 := by
    intro x hx
    simp only [writeVar, M.modify, Context.get, Context.set, amGet_insert]
    split
    · simp
    · rename_i hne
      rcases hx with hx | hx
      · exact hv x hx
      · exact absurd (List.mem_singleton.1 hx).symm (fun h => hne (by simp [h]))
  exact ⟨hs, fun x hx => key x (.inl hx), ⟨[], (List.append_nil _).symm, (fun _ h => nomatch h)⟩, fun _ _ => key, (fun _ h => nomatch h)⟩

mutual
theorem any_finds_expr (net : Net) : ∀ (e : Expr F) (D : Str → Prop), (∀ f ∈ called e, amGet f table ≠ none ∨ f ∈ builtins) → KnownIn table D e →
    AnyFinds table D (more D (sure e)) (anyExpr (anyCallAt net 1) e)
  | .int _, D, _, _ | .float _, D, _, _ | .bool _, D, _, _ | .str _, D, _, _ => by
    simp only [anyExpr, sure]; exact (AnyFinds.pure _).weaken (fun x h => h.elim id (fun h => nomatch h))
  | .ident n, D, _, h => by
    simp only [KnownIn] at h
    intro s x hs hv hx
    simp only [anyExpr, AnyM.det] at hx
    subst hx
    cases hg : s.ctx.get n with
    | some v => exact ⟨hs, hv, ⟨[], (List.append_nil _).symm, (fun _ h => nomatch h)⟩, fun _ _ x hx => hv x (hx.elim id (fun h => nomatch h)), (fun _ h => nomatch h)⟩
    | none => exact absurd hg (hv n h)
  | .arr items, D, hc, h => by
    simp only [KnownIn] at h
    simp only [anyExpr, sure]
    exact AnyFinds.bind (any_finds_list net items D hc h) more_self (fun _ => AnyFinds.pure _)
  | .map pairs, D, hc, h => by
    simp only [KnownIn] at h
    simp only [anyExpr, sure]
    exact AnyFinds.bind (any_finds_pairs net pairs D [] hc h) more_self (fun _ => AnyFinds.pure _)
  | .index l i, D, hc, h => by
    simp only [KnownIn] at h
    simp only [anyExpr, sure]
    refine AnyFinds.bind (any_finds_expr net l D (fun f hf => hc f (List.mem_append_left _ hf)) h.1) more_self (fun v =>
      AnyFinds.bind (any_finds_expr net i _ (fun f hf => hc f (List.mem_append_right _ hf)) h.2) more_self (fun w => (AnyFinds.lift fun r hr => any_index_names hr).weaken ?_))
    intro x hx
    rcases hx with hx | hx
    · exact Or.inl (Or.inl hx)
    · exact (List.mem_append.1 hx).elim (fun h => Or.inl (Or.inr h)) Or.inr
  | .field l n, D, hc, h => by
    simp only [KnownIn] at h
    simp only [anyExpr, sure]
    exact AnyFinds.bind (any_finds_expr net l D hc h) more_self (fun v => AnyFinds.lift fun r hr => any_error_names (by rintro e ⟨t, _, rfl⟩ hn; rcases nameError_first hn with ⟨t, h⟩ | ⟨t, h, _⟩ <;> cases h) hr)
  | .letE n v, D, hc, h => by
    simp only [KnownIn] at h
    simp only [anyExpr, sure]
    refine AnyFinds.bind (any_finds_expr net v D hc h) more_self (fun w => AnyFinds.bind (AnyFinds.write n w) more_self (fun _ => (AnyFinds.pure _).weaken ?_))
    intro x hx
    rcases hx with hx | hx
    · exact Or.inl (Or.inl hx)
    · rcases List.mem_cons.1 hx with rfl | hx
      · exact Or.inr List.mem_cons_self
      · exact Or.inl (Or.inr hx)
  | .unary t r, D, hc, h => by
    simp only [KnownIn] at h
    simp only [anyExpr, sure]
    exact AnyFinds.bind (any_finds_expr net r D hc h) more_self (fun v => AnyFinds.lift fun r hr => any_error_names (by rintro e ⟨t, _, rfl⟩ hn; rcases nameError_first hn with ⟨t, h⟩ | ⟨t, h, _⟩ <;> cases h) hr)
  | .binary t l r, D, hc, h => by
    have hl := fun f hf => hc f (List.mem_append_left _ hf)
    have hr := fun f hf => hc f (List.mem_append_right _ hf)
    simp only [KnownIn] at h
    simp only [anyExpr, sure]
    cases ho : binaryOp (F := F) t.kind with
    | some op =>
      have : ¬ (t.kind = .La ∨ t.kind = .Lo) := by
        rintro (h | h) <;> rw [h] at ho <;> cases ho
      rw [if_neg this]
      refine AnyFinds.bind (any_finds_expr net l D hl h.1) more_self (fun v => AnyFinds.bind (any_finds_expr net r _ hr h.2) more_self (fun w =>
        (AnyFinds.lift fun r hr => any_error_names (by rintro e ⟨t, u, _, _, rfl⟩ hn; rcases nameError_first hn with ⟨t, h⟩ | ⟨t, h, _⟩ <;> cases h) hr).weaken ?_))
      intro x hx
      rcases hx with hx | hx
      · exact Or.inl (Or.inl hx)
      · exact (List.mem_append.1 hx).elim (fun h => Or.inl (Or.inr h)) Or.inr
    | none =>
      dsimp only
      by_cases hk : t.kind = .Lo
      · rw [if_pos hk, if_pos (Or.inr hk)]
        refine AnyFinds.bind (any_finds_expr net l D hl h.1) more_self (fun v => ?_)
        split
        · exact (any_finds_expr net r _ hr h.2).weaken (fun x hx => Or.inl hx)
        · exact AnyFinds.pure _
      · rw [if_neg hk]
        by_cases hk : t.kind = .La
        · rw [if_pos hk, if_pos (Or.inl hk)]
          refine AnyFinds.bind (any_finds_expr net l D hl h.1) more_self (fun v => ?_)
          split
          · exact AnyFinds.pure _
          · exact (any_finds_expr net r _ hr h.2).weaken (fun x hx => Or.inl hx)
        · rw [if_neg hk]
          intro s x hs hv hx
          cases hx
          refine ⟨hs, hv, ⟨[], (List.append_nil _).symm, (fun _ h => nomatch h)⟩, (fun a h => nomatch h), fun e he hn => ?_⟩
          cases he
          rcases nameError_first hn with ⟨t, h⟩ | ⟨t, h, _⟩ <;> cases h
  | .paren v, D, hc, h => by
    simp only [KnownIn] at h
    simp only [anyExpr, sure]
    exact any_finds_expr net v D hc h
  | .ifE c t e, D, hc, h => by
    simp only [KnownIn] at h
    simp only [anyExpr, sure]
    refine AnyFinds.bind (any_finds_expr net c D (fun f hf => hc f (List.mem_append_left _ hf)) h.1) more_self (fun v => ?_)
    split
    · refine (any_finds_block net e _ .null (fun f hf => hc f (List.mem_append_right _ (List.mem_append_right _ hf))) h.2.2).weaken ?_
      intro x hx
      rcases hx with hx | hx
      · exact Or.inl (Or.inl hx)
      · rcases List.mem_append.1 hx with hx | hx
        · exact Or.inl (Or.inr hx)
        · exact Or.inr (by simpa using (List.mem_filter.1 hx).2)
    · refine (any_finds_block net t _ .null (fun f hf => hc f (List.mem_append_right _ (List.mem_append_left _ hf))) h.2.1).weaken ?_
      intro x hx
      rcases hx with hx | hx
      · exact Or.inl (Or.inl hx)
      · rcases List.mem_append.1 hx with hx | hx
        · exact Or.inl (Or.inr hx)
        · exact Or.inr (List.mem_filter.1 hx).1
  | .call f args, D, hc, h => by
    simp only [KnownIn] at h
    simp only [anyExpr, sure]
    exact AnyFinds.bind (any_finds_list net args D (fun f hf => hc f (List.mem_cons_of_mem _ hf)) h.1) more_self
      (fun vs => AnyFinds.call net (hc f List.mem_cons_self) vs h.2)
termination_by structural e => e
theorem any_finds_list (net : Net) : ∀ (l : List (Expr F)) (D : Str → Prop), (∀ f ∈ calledList l, amGet f table ≠ none ∨ f ∈ builtins) → KnownList table D l →
    AnyFinds table D (more D (sureList l)) (anyList (anyCallAt net 1) l)
  | [], D, _, _ => by
    simp only [anyList, sureList]; exact (AnyFinds.pure _).weaken (fun x h => h.elim id (fun h => nomatch h))
  | e :: l, D, hc, h => by
    simp only [KnownList] at h
    simp only [anyList, sureList]
    refine AnyFinds.bind (any_finds_expr net e D (fun f hf => hc f (List.mem_append_left _ hf)) h.1) more_self (fun v =>
      AnyFinds.bind (any_finds_list net l _ (fun f hf => hc f (List.mem_append_right _ hf)) h.2) more_self (fun w => (AnyFinds.pure _).weaken ?_))
    intro x hx
    rcases hx with hx | hx
    · exact Or.inl (Or.inl hx)
    · exact (List.mem_append.1 hx).elim (fun h => Or.inl (Or.inr h)) Or.inr
termination_by structural l => l
theorem any_finds_pairs (net : Net) : ∀ (l : List (Expr F × Expr F)) (D : Str → Prop) (acc : List (Str × Value F)),
    (∀ f ∈ calledPairs l, amGet f table ≠ none ∨ f ∈ builtins) → KnownPairs table D l → AnyFinds table D (more D (surePairs l)) (anyPairs (anyCallAt net 1) acc l)
  | [], D, acc, _, _ => by
    simp only [anyPairs, surePairs]; exact (AnyFinds.pure _).weaken (fun x h => h.elim id (fun h => nomatch h))
  | (k, v) :: l, D, acc, hc, h => by
    simp only [KnownPairs] at h
    simp only [anyPairs, surePairs]
    refine AnyFinds.bind (any_finds_expr net k D (fun f hf => hc f (List.mem_append_left _ hf)) h.1) more_self (fun a =>
      AnyFinds.bind (any_finds_expr net v _ (fun f hf => hc f (List.mem_append_right _ (List.mem_append_left _ hf))) h.2.1) more_self (fun b =>
      AnyFinds.bind AnyFinds.text (fun _ h => h) fun t =>
      (any_finds_pairs net l _ _ (fun f hf => hc f (List.mem_append_right _ (List.mem_append_right _ hf))) h.2.2).weaken ?_))
    intro x hx
    rcases hx with hx | hx
    · exact Or.inl (Or.inl (Or.inl hx))
    · rcases List.mem_append.1 hx with hx | hx
      · exact Or.inl (Or.inl (Or.inr hx))
      · exact (List.mem_append.1 hx).elim (fun h => Or.inl (Or.inr h)) Or.inr
termination_by structural l => l
theorem any_finds_block (net : Net) : ∀ (l : List (Expr F)) (D : Str → Prop) (acc : Value F), (∀ f ∈ calledList l, amGet f table ≠ none ∨ f ∈ builtins) →
    KnownList table D l → AnyFinds table D (more D (sureList l)) (anyBlock (anyCallAt net 1) acc l)
  | [], D, acc, _, _ => by
    simp only [anyBlock, sureList]; exact (AnyFinds.pure _).weaken (fun x h => h.elim id (fun h => nomatch h))
  | e :: l, D, acc, hc, h => by
    simp only [KnownList] at h
    simp only [anyBlock, sureList]
    refine AnyFinds.bind (any_finds_expr net e D (fun f hf => hc f (List.mem_append_left _ hf)) h.1) more_self (fun v =>
      (any_finds_block net l _ v (fun f hf => hc f (List.mem_append_right _ hf)) h.2).weaken ?_)
    intro x hx
    rcases hx with hx | hx
    · exact Or.inl (Or.inl hx)
    · exact (List.mem_append.1 hx).elim (fun h => Or.inl (Or.inr h)) Or.inr
termination_by structural l => l
end

/-! ## C128 -/

/-- C128 whatever the order of hash maps: a script whose variables are set before they are read and which calls only what exists never fails for a missing name. -/
theorem c128_any_names {net : Net} {block : List (Expr F)} {D : Str → Prop} {s : St F} {x : Res (Value F) × St F} (hv : HaveValues D s)
    (hk : KnownList s.ctx.requests D block) (hc : CallsKnown s.ctx.requests block) (hx : anyRun net block s x) : ∀ e, x.1 = .err e → ¬ NameError e :=
  (any_finds_block net block D .null hc hk s x rfl hv hx).2.2.2.2

/-- C128: every message it sends is a template of its requests with every placeholder replaced by a text of a variable that has a value. -/
theorem c128_any_sent {net : Net} {block : List (Expr F)} {D : Str → Prop} {s : St F} {x : Res (Value F) × St F} (hv : HaveValues D s)
    (hk : KnownList s.ctx.requests D block) (hc : CallsKnown s.ctx.requests block) (hx : anyRun net block s x) :
    ∃ l, x.2.sent = s.sent ++ l ∧ ∀ m ∈ l, AnyFilledIn s.ctx.requests m :=
  (any_finds_block net block D .null hc hk s x rfl hv hx).2.2.1

/-- C128: if it has a value, the variables it certainly sets have values. -/
theorem c128_any_sure {net : Net} {block : List (Expr F)} {D : Str → Prop} {s t : St F} {v : Value F} (hv : HaveValues D s)
    (hk : KnownList s.ctx.requests D block) (hc : CallsKnown s.ctx.requests block) (hx : anyRun net block s (.ok v, t)) : HaveValues (more D (sureList block)) t :=
  (any_finds_block net block D .null hc hk s _ rfl hv hx).2.2.2.1 v rfl

/-- Concrete case: one template naming a map twice, filled in two ways. -/
example : FilledAs (F := F) (fun _ => .map [(c!"a", .int 1), (c!"b", .int 2)]) [.lit '/', .hole c!"m", .hole c!"m"]
    c!"/{\"a\": Integer(1), \"b\": Integer(2)}{\"b\": Integer(2), \"a\": Integer(1)}" :=
  .lit (.hole (t := c!"{\"a\": Integer(1), \"b\": Integer(2)}") (.map (.cons (.int 1) (.cons (.int 2) .nil)) (.refl _))
    (.hole (t := c!"{\"b\": Integer(2), \"a\": Integer(1)}") (m := []) (.map (.cons (.int 1) (.cons (.int 2) .nil)) (.swap _ _ [])) .nil))

/-- Concrete case: a script that prints a map twice passes both checks, and has a run that prints it in two ways. -/
example (net : Net) : KnownList [] (fun _ => False) ([printsMap, printsMap] : List (Expr F)) ∧ CallsKnown [] ([printsMap, printsMap] : List (Expr F)) ∧
    ∃ x : Res (Value F) × St F, anyRun net [printsMap, printsMap] ⟨Context.new, [], []⟩ x ∧
      x.2.out = c!"{\"a\": Integer(1), \"b\": Integer(2)}\n{\"b\": Integer(2), \"a\": Integer(1)}\n" := by
  refine ⟨?_, ?_, (.ok .null, ⟨Context.new, [], c!"{\"a\": Integer(1), \"b\": Integer(2)}\n{\"b\": Integer(2), \"a\": Integer(1)}\n"⟩),
    ⟨_, printsMap_any net rfl (.refl _), _, printsMap_any net rfl (.swap _ _ []), rfl⟩, rfl⟩
  · simp [KnownList, KnownIn, KnownPairs, printsMap, KnownCall, amGet]
  · intro f hf
    have : f = c!"println" := by simpa [calledList, called, calledPairs, printsMap] using hf
    exact .inr (by rw [this]; decide)

end Am
