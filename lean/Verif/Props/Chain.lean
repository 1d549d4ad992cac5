import Verif.Spec.Chain
import Verif.Props.Json
import Verif.Props.Asserting
import Verif.Props.Templates
import Verif.Proofs.FloatShow
import Verif.Spec.Semantics
import Verif.Model.Command
import Verif.Model.Float64
/-! # C110: what one answer says reaches the next request -/
set_option linter.unusedSimpArgs false
namespace Am
open Spec
variable {F : Type} [Rt F]

/-! ## Numerals -/

theorem digit_range {c : Char} (h : isDigit c = true) : 48 ≤ c.toNat ∧ c.toNat ≤ 57 := by
  have hc : '0' ≤ c ∧ c ≤ '9' := by simpa [isDigit] using h
  exact ⟨hc.1, hc.2⟩

theorem decimal_same : ∀ {a b : Str}, (∀ c ∈ a, isDigit c = true) → (∀ c ∈ b, isDigit c = true) → a.length = b.length → decimal a = decimal b → a = b
  | [], [], _, _, _, _ => rfl
  | [], _ :: _, _, _, h, _ => by cases h
  | _ :: _, [], _, _, h, _ => by cases h
  | c :: a, d :: b, ha, hb, hl, hv => by
    have hl' : a.length = b.length := by simpa using hl
    have h1 := F64.decimal_lt (s := a) fun x hx => ha x (List.mem_cons_of_mem _ hx)
    have h2 := F64.decimal_lt (s := b) fun x hx => hb x (List.mem_cons_of_mem _ hx)
    have hv' : (c.toNat - 48) * 10 ^ a.length + decimal a = (d.toNat - 48) * 10 ^ b.length + decimal b := hv
    rw [← hl'] at hv' h2
    have hp : 0 < 10 ^ a.length := Nat.pow_pos (by decide)
    have hq : c.toNat - 48 = d.toNat - 48 := by
      have e1 : ((c.toNat - 48) * 10 ^ a.length + decimal a) / 10 ^ a.length = ((d.toNat - 48) * 10 ^ a.length + decimal b) / 10 ^ a.length := by rw [hv']
      rwa [Nat.mul_comm, Nat.mul_add_div hp, Nat.mul_comm, Nat.mul_add_div hp, Nat.div_eq_of_lt h1, Nat.div_eq_of_lt h2, Nat.add_zero, Nat.add_zero] at e1
    have hr : decimal a = decimal b := by rw [hq] at hv'; omega
    have r1 := digit_range (ha c (List.mem_cons_self ..))
    have r2 := digit_range (hb d (List.mem_cons_self ..))
    rw [F64.char_same (show c.toNat = d.toNat by omega), decimal_same (fun x hx => ha x (List.mem_cons_of_mem _ hx)) (fun x hx => hb x (List.mem_cons_of_mem _ hx)) hl' hr]

/-- Digits without a superfluous zero are the way their number is printed. -/
theorem natStr_decimal {ds : Str} (h : Digits ds) (h0 : ds = ['0'] ∨ ds.head? ≠ some '0') : natStr (decimal ds) = ds := by
  rcases h0 with h0 | h0
  · rw [h0]; rfl
  · obtain ⟨hne, hd⟩ := h
    refine decimal_same (natStr_digits _) hd ?_ (decimal_natStr _)
    cases ds with
    | nil => exact absurd rfl hne
    | cons c r =>
      have hge := F64.decimal_ge (s := r) (hd c (List.mem_cons_self ..)) (fun e => h0 (by rw [e]; rfl))
      have hlt := F64.decimal_lt hd
      obtain ⟨b1, b2, b3⟩ := F64.natStr_bounds (decimal (c :: r))
      have hp : 0 < 10 ^ r.length := Nat.pow_pos (by decide)
      have b2 := b2 (by omega)
      generalize natStr (decimal (c :: r)) = t at *
      have x1 := (Nat.pow_lt_pow_iff_right (a := 10) (by decide)).1 (Nat.lt_of_le_of_lt hge b1)
      have x2 := (Nat.pow_lt_pow_iff_right (a := 10) (by decide)).1 (Nat.lt_of_le_of_lt b2 hlt)
      simp only [List.length_cons] at *
      omega

/-! ## Documents -/

/-- No character is half of a pair. -/
theorem no_surrogate (x : Char) : ¬ (0xD800 ≤ x.toNat ∧ x.toNat < 0xE000) := by
  rintro ⟨h1, h2⟩
  have := x.valid
  simp only [UInt32.isValidChar, Nat.isValidChar] at this
  have e : x.val.toNat = x.toNat := rfl
  omega

/-- A string denotes one text. -/
theorem jstrVal_unique {k : List JChar} {a b : Str} (ha : JStrVal k a) (hb : JStrVal k b) : a = b := by
  induction ha generalizing b with
  | nil => cases hb; rfl
  | plain c l s _ ih => cases hb with | plain _ _ _ h => rw [ih h]
  | short c l s _ ih => cases hb with | short _ _ _ h => rw [ih h]
  | unicode a b c d x l s hx _ ih =>
    cases hb with
    | unicode _ _ _ _ y _ _ hy h => rw [ih h, F64.char_same (hx.trans hy.symm)]
    | pair _ _ _ _ _ _ _ _ y _ _ h1 h2 => exact absurd ⟨hx ▸ h1, Nat.lt_of_lt_of_le (hx ▸ h2) (by decide)⟩ (no_surrogate x)
  | pair a b c d a' b' c' d' x l s h1 h2 h3 h4 hx _ ih =>
    cases hb with
    | unicode _ _ _ _ y _ _ hy h => exact absurd ⟨hy ▸ h1, Nat.lt_of_lt_of_le (hy ▸ h2) (by decide)⟩ (no_surrogate y)
    | pair _ _ _ _ _ _ _ _ y _ _ _ _ _ _ hy h => rw [ih h, F64.char_same (hx.trans hy.symm)]

theorem lastValue_append (k : Str) (l m : List (Str × Value F)) : lastValue k (l ++ m) = (lastValue k m).or (lastValue k l) := by
  induction l with
  | nil => show lastValue k m = (lastValue k m).or none; cases lastValue k m <;> rfl
  | cons p l ih =>
    obtain ⟨n, v⟩ := p
    simp only [List.cons_append, lastValue, ih]
    cases lastValue k m <;> rfl

theorem lastValue_absent {k : Str} {l : List (Str × Value F)} (h : ∀ p ∈ l, p.1 ≠ k) : lastValue k l = none := by
  induction l with
  | nil => rfl
  | cons p l ih =>
    obtain ⟨n, v⟩ := p
    simp only [lastValue]
    rw [ih fun q hq => h q (List.mem_cons_of_mem _ hq), if_neg (h (n, v) (List.mem_cons_self ..))]
    rfl

/-- The values of the members around one. -/
theorem members_split {before after : List (List JChar × JsonDoc)} {k : List JChar} {j : JsonDoc} {vs : List (Str × Value F)}
    (h : DenotesMembers (before ++ (k, j) :: after) vs) :
    ∃ v1 n v v2, vs = v1 ++ (n, v) :: v2 ∧ JStrVal k n ∧ Denotes j v ∧ DenotesMembers after v2 := by
  induction before generalizing vs with
  | nil =>
    cases h with
    | cons _ _ _ n v vs h1 h2 h3 => exact ⟨[], n, v, vs, rfl, h1, h2, h3⟩
  | cons m before ih =>
    cases h with
    | cons k' j' _ n' v' vs' h1 h2 h3 =>
      obtain ⟨v1, n, v, v2, e, r⟩ := ih h3
      exact ⟨(n', v') :: v1, n, v, v2, by rw [e]; rfl, r⟩

theorem members_have_names {ms : List (List JChar × JsonDoc)} {vs : List (Str × Value F)} (h : DenotesMembers ms vs) :
    ∀ p ∈ vs, ∃ m ∈ ms, JStrVal m.1 p.1 := by
  induction ms generalizing vs with
  | nil => cases h; simp
  | cons m ms ih =>
    cases h with
    | cons k j _ n v vs h1 h2 h3 =>
      intro p hp
      rcases List.mem_cons.1 hp with e | hp
      · exact ⟨(k, j), List.mem_cons_self .., by rw [e]; exact h1⟩
      · obtain ⟨q, hq, h⟩ := ih h3 p hp
        exact ⟨q, List.mem_cons_of_mem _ hq, h⟩

theorem items_split {before after : List JsonDoc} {j : JsonDoc} {vs : List (Value F)} (h : DenotesAll (before ++ j :: after) vs) :
    ∃ v, vs[before.length]? = some v ∧ Denotes j v := by
  induction before generalizing vs with
  | nil => cases h with | cons _ _ v vs h1 h2 => exact ⟨v, rfl, h1⟩
  | cons m before ih =>
    cases h with
    | cons _ _ v' vs h1 h2 =>
      obtain ⟨v, e, h⟩ := ih h2
      exact ⟨v, by simpa using e, h⟩

theorem toNat_small {i : Nat} (h : i < 2 ^ 63) : (Int64.ofNat i).toUInt64.toNat = i := by
  have : (Int64.ofNat i).toUInt64 = UInt64.ofNat i := rfl
  rw [this, UInt64.toNat_ofNat']
  exact Nat.mod_eq_of_lt (Nat.lt_trans h (by decide))

/-- The expression for a place of a document yields the value of what stands there. -/
theorem place_value {call : Call F} {j leaf : JsonDoc} {path : List Step} (h : JAt j path leaf) :
    ∀ {e : Expr F} {v : Value F} {s s1 : St F}, SmallSteps path → evalExpr call e s = (.ok v, s1) → Denotes j v →
      ∃ w, evalExpr call (placeExpr e path) s = (.ok w, s1) ∧ Denotes leaf w := by
  induction h with
  | here j => intro e v s s1 _ he hd; exact ⟨v, he, hd⟩
  | @member before after k name j leaf path hk ha _ ih =>
    intro e v s s1 hs he hd
    cases hd with
    | obj _ vs m hm _ hget =>
      obtain ⟨v1, n, w, v2, e1, hn, hw, hafter⟩ := members_split hm
      have hnn := jstrVal_unique hk hn
      subst hnn
      have hl : amGet name m = some w := by
        rw [hget, e1, lastValue_append]
        have : lastValue name v2 = none := lastValue_absent fun p hp e => by
          obtain ⟨q, hq, h⟩ := members_have_names hafter p hp
          exact ha q hq (e ▸ h)
        simp only [lastValue, this]
        simp
      refine ih (e := .field e name) (fun i hi => hs i (List.mem_cons_of_mem _ hi)) ?_ hw
      simp only [evalExpr]
      rw [M.bind_ok he, M.lift_run]
      simp only [fieldValue, hl, Option.getD_some]
  | @item before after j leaf path _ ih =>
    intro e v s s1 hs he hd
    cases hd with
    | arr _ vs hall =>
      obtain ⟨w, hw, hden⟩ := items_split hall
      refine ih (e := .index e (.int (Int64.ofNat before.length))) (fun i hi => hs i (List.mem_cons_of_mem _ hi)) ?_ hden
      simp only [evalExpr]
      rw [M.bind_ok he]
      have hp : (M.pure (Value.int (Int64.ofNat before.length)) : M F (Value F)) s1 = (.ok (.int (Int64.ofNat before.length)), s1) := rfl
      rw [M.bind_ok hp, M.lift_run]
      simp only [indexValue]
      rw [toNat_small (hs _ (List.mem_cons_self ..)), hw]
      rfl

mutual
theorem text_items : ∀ {js : List JsonDoc} {s : Str}, JsonItems js s → ∀ j ∈ js, ∃ t, JsonText j t
  | _, _, .last j w s w' _ _ h => fun x hx => by rw [List.mem_singleton.1 hx]; exact ⟨_, h⟩
  | _, _, .cons j js w s w' r _ _ h hr => fun x hx => by
    have ih := text_items hr
    rcases List.mem_cons.1 hx with e | hx
    · rw [e]; exact ⟨_, h⟩
    · exact ih x hx
theorem text_members : ∀ {ms : List (List JChar × JsonDoc)} {s : Str}, JsonMembers ms s → ∀ m ∈ ms, ∃ t, JsonText m.2 t
  | _, _, .last k j w w1 w2 s w3 _ _ _ _ _ h => fun x hx => by rw [List.mem_singleton.1 hx]; exact ⟨_, h⟩
  | _, _, .cons k j ms w w1 w2 s w3 r _ _ _ _ _ h hr => fun x hx => by
    have ih := text_members hr
    rcases List.mem_cons.1 hx with e | hx
    · rw [e]; exact ⟨_, h⟩
    · exact ih x hx
end

/-- What stands at a place of a document has a text. -/
theorem place_text {j leaf : JsonDoc} {path : List Step} (h : JAt j path leaf) : (∃ t, JsonText j t) → ∃ t, JsonText leaf t := by
  induction h with
  | here j => exact id
  | @member before after k name j leaf path _ _ _ ih =>
    rintro ⟨t, ht⟩
    generalize hg : before ++ (k, j) :: after = ms at ht
    have hm : (k, j) ∈ ms := by rw [← hg]; simp
    cases ht with
    | noMembers => cases hm
    | obj m ms s hms => exact ih (text_members hms _ hm)
  | @item before after j leaf path _ ih =>
    rintro ⟨t, ht⟩
    generalize hg : before ++ j :: after = js at ht
    have hm : j ∈ js := by rw [← hg]; simp
    cases ht with
    | noItems => cases hm
    | arr m ms s hms => exact ih (text_items hms _ hm)

/-- A leaf denotes a value that prints as its text. -/
theorem leaf_display {j : JsonDoc} {u t : Str} {v : Value F} (hu : LeafText j u) (ht : JsonText j t) (hd : Denotes j v) : v.display = u := by
  cases hu with
  | str hs => cases hd with | str _ x hx => rw [← jstrVal_unique hx hs]; rfl
  | @int n h1 h2 h3 =>
    cases hd with
    | int _ i _ _ hi =>
      cases ht with
      | num _ hok =>
        rw [h1] at hi
        show intStr i.toInt = n.int
        have hi' : i.toInt = (decimal n.int : Int) := hi
        rw [hi']
        unfold intStr
        rw [if_neg (by omega)]
        exact natStr_decimal hok.1 hok.2.1
    | float _ f h => exact absurd ⟨h2, h3⟩ h
  | bool b => cases hd; cases b <;> rfl
  | null => cases hd; rfl

/-! ## The chain -/

/-- The message of a template is its pieces with the texts of the variables. -/
theorem render_is_fillBy {ctx : Context F} {m : Str} {ps : List Piece} (h : Pieces m ps) : render ctx m = fillBy (textOf ctx.inner) ps := by
  obtain ⟨qs, _, h2, h3⟩ := c27_render ctx m
  rw [h3, h2 ps h]
  rfl

theorem fillBy_congr {f g : Str → Str} (h : ∀ y, f y = g y) (ps : List Piece) : fillBy f ps = fillBy g ps := by
  rw [show f = g from funext h]

/-- C110 (partial): a script that takes a string, an integer, a boolean or null out of the JSON answer of one request, at any depth, and keeps it in a
variable, sends the next request with the text of that value — for a string its text, for an integer its digits as the server wrote them —
in every place where the template names the variable, and with the texts of the other variables as they were before. One message is sent
for each of the two calls. The first request has no `let` in its asserts and its asserts do not panic; the document is one C44 covers. The full claim is the same for
every JSON document; it is false (`c110_false`). -/
theorem c110_chain_partial (net : Net) (f g x tf tg : Str) (asf asg : List (Expr F)) (pf pg : List Piece) (s : St F) (rq : Request) (rs : Response) (t : Time) (e : Str)
    (j leaf : JsonDoc) (path : List Step) (u : Str)
    (hf : s.ctx.request f = some (tf, asf)) (hg : s.ctx.request g = some (tg, asg)) (hl : letsList asf = []) (hpf : Pieces tf pf) (hpg : Pieces tg pg)
    (hs : send net s.sent (fillBy (textOf s.ctx.inner) pf) = .ok (rq, rs, t, e)) (hb : JsonBody j rs.body) (hj : PlainJson F j)
    (hat : JAt j path leaf) (hu : LeafText leaf u) (hsm : SmallSteps path) (hnp : (eval net (.call f []) s).1 ≠ .panic) :
    ∃ v s1, eval net (.letE x (placeExpr (.call f []) (.member c!"json" :: path))) s = (.ok v, s1) ∧ v.display = u ∧
      s1.ctx.inner = amInsert x v s.ctx.inner ∧ s1.sent = s.sent ++ [fillBy (textOf s.ctx.inner) pf] ∧
      (eval net (.call g []) s1).2.sent =
        s.sent ++ [fillBy (textOf s.ctx.inner) pf, fillBy (fun y => if y = x then u else textOf s.ctx.inner y) pg] := by
  rw [← render_is_fillBy hpf] at hs ⊢
  have hcall : ∀ (n : Str) (s : St F), eval net (.call n []) s = callAt net 1 n [] s := fun n s => by
    show (evalList (callAt net 1) [] >>= fun vs => callAt net 1 n vs) s = _
    have : evalList (callAt net 1) ([] : List (Expr F)) s = (.ok [], s) := rfl
    rw [M.bind_ok this]
  rw [hcall] at hnp
  obtain ⟨m, w, hm, hjs, hden⟩ := c44_json_partial (F := F) rs j hb hj
  rcases hc : callRequest_cases net 0 f tf asf s with ⟨rq', rs', t', e', map, as, ctx', o, h1, h2, h3, h4⟩ | ⟨o, h1, h2⟩ | ⟨o, h1, h2⟩
  rotate_left
  · rcases h2 with h2 | ⟨a, b, c, d, h2, h3⟩
    · rw [hs] at h2; cases h2
    · rw [hs] at h2; injection h2 with h2; injection h2 with _ h2; injection h2 with h2 _
      rw [← h2, hm] at h3; cases h3
  · rw [callAt_some net [] hf, h1] at hnp; exact absurd rfl hnp
  have hok : callAt net 1 f [] s = _ := (callAt_some net [] hf).trans h4
  obtain ⟨rq2, rs2, t2, e2, map2, g1, g2, g3⟩ := c21_returns_response net f tf asf s [] hf hl _ (by rw [hok])
  rw [hs] at g1; injection g1 with g1; injection g1 with _ g1; injection g1 with g1 _
  rw [← g1, hm] at g2; injection g2 with g2
  rw [g3, ← g2] at hok
  have hfield : evalExpr (callAt net 1) (.field (.call f []) c!"json") s = (.ok w, ⟨s.ctx.push ⟨f, t', rq', rs', as, e'⟩, s.sent ++ [render s.ctx tf], s.out ++ o⟩) := by
    show (evalExpr (callAt net 1) (.call f []) >>= fun v => M.lift (fieldValue v c!"json")) s = _
    have : evalExpr (callAt net 1) (.call f []) s = _ := (hcall f s).trans hok
    rw [M.bind_ok this, M.lift_run]
    simp only [fieldValue, hjs, Option.getD_some]
  obtain ⟨v, hv, hvd⟩ := place_value hat hsm hfield hden
  obtain ⟨_, tx, _, _, _, htx, _⟩ := hb
  obtain ⟨tl, htl⟩ := place_text hat ⟨tx, htx⟩
  have hdisp := leaf_display hu htl hvd
  refine ⟨v, ⟨(s.ctx.push ⟨f, t', rq', rs', as, e'⟩).set x v, s.sent ++ [render s.ctx tf], s.out ++ o⟩, ?_, hdisp, rfl, rfl, ?_⟩
  · show (evalExpr (callAt net 1) (placeExpr (.field (.call f []) c!"json") path) >>= _) s = _
    rw [M.bind_ok hv, M.bind_ok (M.modify_run _ _)]
    rfl
  · rw [hcall]
    have hg' : (⟨(s.ctx.push ⟨f, t', rq', rs', as, e'⟩).set x v, s.sent ++ [render s.ctx tf], s.out ++ o⟩ : St F).ctx.request g = some (tg, asg) := hg
    rw [(c21_isolated net g tg asg _ [] hg').1, render_is_fillBy hpg, List.append_assoc]
    refine congrArg (fun b => s.sent ++ [render s.ctx tf, b]) (fillBy_congr (fun y => ?_) pg)
    show textOf (amInsert x v s.ctx.inner) y = _
    unfold textOf
    by_cases hy : y = x
    · subst hy; rw [amGet_insert_self, if_pos rfl]; exact hdisp
    · rw [amGet_insert_ne _ _ (fun h => hy h.symm), if_neg hy]

/-- A network in which every server answers with this body. -/
def answering (body : Str) : Net := ⟨fun _ _ => .answered ⟨utf8 (c!"HTTP/1.1 200 OK\r\n\r\n" ++ body), none⟩ ⟨0, 0, 0, 0, 0, 0, 0, 0, 0, 0⟩, fun _ => none⟩

/-- The messages sent when a script file is evaluated. -/
def messages (net : Net) (script : Str) : List Str := (@evalText F64 (rt64 ⟨true, fun c => [c], id⟩) net script ⟨Context.new, [], []⟩).2.sent

set_option maxRecDepth 20000 in
/-- Concrete case: a token in an array of an object, used twice in the next request. -/
example : messages (answering c!"{\"user\": {\"tokens\": [\"a\", \"b7\"]}, \"n\": 10}")
    c!"request login `GET http://a/`\nrequest next `GET http://b/{t}\nX: { t }{n}`\nlet n = 1; let t = login().json.user.tokens[1]; next()" =
    [c!"GET http://a/", c!"GET http://b/b7\nX: b71"] := by decide +kernel

/-- Concrete case: the document, the place and the leaf of the script above meet the hypotheses. -/
example : JAt (.obj [([.plain 'u'], .obj [([.plain 't'], .arr [.str [.plain 'a'], .str [.plain 'b', .plain '7']])]), ([.plain 'n'], .null)])
      [.member c!"u", .member c!"t", .item 1] (.str [.plain 'b', .plain '7']) ∧ LeafText (.str [.plain 'b', .plain '7']) c!"b7" := by
  have hn : ∀ c (s : Str), JStrVal [.plain c] s → s = [c] := fun c s h => jstrVal_unique h (.plain _ _ _ .nil)
  refine ⟨.member (before := []) (.plain _ _ _ .nil) (fun m hm h => ?_) (.member (before := []) (after := []) (.plain _ _ _ .nil) (by simp)
    (.item (before := [.str [.plain 'a']]) (after := []) (.here _))), .str (.plain _ _ _ (.plain _ _ _ .nil))⟩
  rw [List.mem_singleton.1 hm] at h
  exact absurd (hn _ _ h) (by decide)

set_option maxRecDepth 20000 in
/-- C110 is false: a negative number reaches the next request as `null`, and a string with an escape with its backslash. -/
theorem c110_false :
    messages (answering c!"{\"id\": -7}") c!"request a `GET http://a/`\nrequest b `GET http://b/{t}`\nlet t = a().json.id; b()" =
      [c!"GET http://a/", c!"GET http://b/null"] ∧
    messages (answering c!"{\"next\": \"x\\/y\"}") c!"request a `GET http://a/`\nrequest b `GET http://b/{t}`\nlet t = a().json.next; b()" =
      [c!"GET http://a/", c!"GET http://b/x\\/y"] ∧
    JAt (.obj [([.plain 'i', .plain 'd'], .num ⟨true, c!"7", none, none⟩)]) [.member c!"id"] (.num ⟨true, c!"7", none, none⟩) ∧
    LeafText (.str [.plain 'x', .short '/', .plain 'y']) c!"x/y" := by
  refine ⟨by decide +kernel, by decide +kernel, .member (before := []) (after := []) (.plain _ _ _ (.plain _ _ _ .nil)) (by simp) (.here _),
    .str (.plain _ _ _ (.short _ _ _ (.plain _ _ _ .nil)))⟩

end Am
