import Verif.Spec.Json
import Verif.Proofs.Printing
import Verif.Props.Printing
import Verif.Props.Responses
/-! # C44: JSON bodies -/
set_option linter.unusedSimpArgs false
set_option linter.unusedSectionVars false
namespace Am
open Spec
variable {F : Type} [Rt F]

theorem jws_all {w : Str} (h : JWs w) : AllWs w := by
  intro c hc
  rcases h c hc with rfl | rfl | rfl | rfl <;> decide

theorem seg_jws {w : Str} (h : JWs w) (rest : Str) : segment (w ++ rest) = segment rest := segment_allWs w rest (jws_all h)

theorem closed_jws {w : Str} (h : JWs w) {rest : Str} (hr : EndsText rest) : EndsText (w ++ rest) := by
  cases w with
  | nil => exact hr
  | cons c w =>
    rw [List.cons_append]
    rcases h c (by simp) with rfl | rfl | rfl | rfl <;> exact closed_cons (by decide) (by decide)

/-- Followed by anything that ends an expression, the text is these tokens. -/
def SegsTo (s : Str) (ts : List Token) : Prop := ∀ rest, EndsText rest → segment (s ++ rest) = ts ++ segment rest

theorem plainStr_text {s : List JChar} (h : PlainStr s) (hok : ∀ c ∈ s, c.Ok) :
    ∃ x, JStrVal s x ∧ jstrText s = ['"'] ++ x ++ ['"'] ∧ '"' ∉ x := by
  suffices ∃ x, JStrVal s x ∧ s.flatMap JChar.text = x ∧ '"' ∉ x by
    obtain ⟨x, h1, h2, h3⟩ := this
    exact ⟨x, h1, by rw [jstrText, h2], h3⟩
  induction s with
  | nil => exact ⟨[], .nil, rfl, by simp⟩
  | cons a s ih =>
    obtain ⟨x, h1, h2, h3⟩ := ih (fun c hc => h c (by simp [hc])) (fun c hc => hok c (by simp [hc]))
    obtain ⟨c, rfl⟩ := h a (by simp)
    have ho := hok (.plain c) (by simp)
    refine ⟨c :: x, .plain c s x h1, by simp [JChar.text, h2], ?_⟩
    simp only [List.mem_cons, not_or]
    exact ⟨fun he => ho.1 he.symm, h3⟩

theorem seg_jstr {s : List JChar} (h : PlainStr s) (hok : ∀ c ∈ s, c.Ok) : ∃ x, JStrVal s x ∧ ∀ rest, segment (jstrText s ++ rest) = ⟨.String, x⟩ :: segment rest := by
  obtain ⟨x, h1, h2, h3⟩ := plainStr_text h hok
  exact ⟨x, h1, fun rest => by rw [h2]; exact lex_spell ⟨.String, x⟩ rest h3 (fun _ _ _ => rfl)⟩

theorem seg_jnum {n : JNum} (hok : n.Ok) (hp : PlainNum F n) :
    ∃ (e : Expr F) (t : Token), Writes e [t] ∧ SegsTo n.text [t] ∧ Denotes (.num n) e.eval := by
  obtain ⟨neg, int, frac, exp⟩ := n
  obtain ⟨h1, h2, h3, h4⟩ := hp
  obtain ⟨o1, o2, o3, o4⟩ := hok
  simp only at h1 h2 h3 h4 o1 o2 o3 o4
  subst h1 h2
  have noext : ∀ {k : Kind} {l : Str}, k = .Integer ∨ k = .Float → ∀ rest, EndsText rest → NoExt ⟨k, l⟩ rest := by
    intro k l hk rest hc c r hr
    obtain ⟨h1, h2⟩ := hc c r hr
    rcases hk with rfl | rfl <;> simp [extends', word_digit h1, h2]
  cases frac with
  | none =>
    have ht : JNum.text ⟨false, int, none, none⟩ = int := by simp [JNum.text]
    have hi := digits_cases o1.1 o1.2
    rw [if_pos (h3 rfl)] at hi
    refine ⟨.int (Int64.ofNat (decimal int)), ⟨.Integer, int⟩, .int _ _ rfl (parseI64_iff.1 hi), fun rest hc => ?_, ?_⟩
    · rw [ht]; exact lex_spell ⟨.Integer, int⟩ rest o1 (noext (Or.inl rfl) rest hc)
    · exact .int _ _ rfl rfl (by simp [int64_exact _ (h3 rfl)])
  | some f =>
    obtain ⟨x, hx⟩ := h4 f rfl
    have ht : JNum.text ⟨false, int, some f, none⟩ = int ++ '.' :: f := by simp [JNum.text]
    refine ⟨.float x, ⟨.Float, int ++ '.' :: f⟩, .float _ x rfl (by rw [← ht]; exact hx), fun rest hc => ?_, ?_⟩
    · rw [ht]
      refine lex_spell ⟨.Float, int ++ '.' :: f⟩ rest ?_ (noext (Or.inr rfl) rest hc)
      refine ⟨?_, ?_, by simp⟩
      · cases int with
        | nil => exact absurd rfl o1.1
        | cons c r => exact ⟨c, r ++ '.' :: f, rfl, o1.2 c (by simp)⟩
      · intro c hc
        simp only [List.mem_append, List.mem_cons] at hc
        rcases hc with hc | rfl | hc
        · exact Or.inl (o1.2 c hc)
        · exact Or.inr rfl
        · exact Or.inl ((o3 f rfl).2 c hc)
    · exact .float _ x (by simp) hx

theorem lastValue_evalPairs (ps : List (Expr F × Expr F)) : ∀ (acc : List (Str × Value F)), KeysNodup acc →
    KeysNodup (Expr.evalPairs acc ps) ∧
    ∀ k, amGet k (Expr.evalPairs acc ps) = (lastValue k (ps.map fun p => (p.1.eval.display, p.2.eval))).or (amGet k acc) := by
  induction ps with
  | nil => intro acc h; exact ⟨h, fun k => rfl⟩
  | cons p ps ih =>
    intro acc h
    obtain ⟨a, b⟩ := p
    obtain ⟨h1, h2⟩ := ih (amInsert a.eval.display b.eval acc) (amInsert_nodup h)
    refine ⟨h1, fun k => ?_⟩
    simp only [Expr.evalPairs, List.map_cons, lastValue]
    rw [h2 k, amGet_insert]
    cases lastValue k (ps.map fun p => (p.1.eval.display, p.2.eval)) with
    | some v => rfl
    | none => by_cases hk : a.eval.display = k <;> simp [hk]

mutual
/-- A plain document is an expression whose value is what the document denotes. -/
theorem json_reads {j : JsonDoc} {s : Str} (h : JsonText j s) (hp : PlainJson F j) :
    ∃ (e : Expr F) (ts : List Token), Writes e ts ∧ SegsTo s ts ∧ Denotes j e.eval := by
  match h with
  | .null => exact ⟨.ident c!"null", _, .ident ⟨.Ident, c!"null"⟩ rfl,
      fun rest hc => seg_ident (n := c!"null") ⟨⟨'n', c!"ull", rfl, by decide, by decide⟩, by decide⟩ (fun c r hr => (hc c r hr).1), .null⟩
  | .bool b =>
    refine ⟨.bool b, [⟨if b then .True else .False, boolStr b⟩], .bool _ b (by cases b <;> simp) rfl, fun rest hc => ?_, .bool b⟩
    cases b
    · exact lex_spell ⟨.False, c!"false"⟩ rest rfl fun c r hr => (hc c r hr).1
    · exact lex_spell ⟨.True, c!"true"⟩ rest rfl fun c r hr => (hc c r hr).1
  | .num n hok =>
    obtain ⟨e, t, h1, h2, h3⟩ := seg_jnum hok hp
    exact ⟨e, [t], h1, h2, h3⟩
  | .str s hok =>
    obtain ⟨x, h1, h2⟩ := seg_jstr hp hok
    exact ⟨.str x, [⟨.String, x⟩], .str ⟨.String, x⟩ rfl, fun rest _ => h2 rest, .str s x h1⟩
  | .noItems w hw =>
    refine ⟨.arr [], [fixTok .Ls, fixTok .Rs], .arr _ _ [] [] rfl rfl .nil, fun rest _ => ?_, .arr [] [] .nil⟩
    simp only [List.append_assoc]
    rw [seg_fixed .Ls _ rfl (fun _ => rfl), seg_jws hw, seg_fixed .Rs _ rfl (fun _ => rfl)]
    rfl
  | .arr j js s hi =>
    obtain ⟨es, ts, h1, h2, h3⟩ := jsonItems_reads hi hp
    refine ⟨.arr es, fixTok .Ls :: (ts ++ [fixTok .Rs]), .arr _ _ es ts rfl rfl h1, fun rest _ => ?_, .arr _ _ h3⟩
    simp only [List.append_assoc]
    rw [seg_fixed .Ls _ rfl (fun _ => rfl), h2 _ (closed_lit ']' [] (by decide) (by decide)), seg_fixed .Rs _ rfl (fun _ => rfl)]
    simp
  | .noMembers w hw =>
    refine ⟨.map [], [fixTok .Lb, fixTok .Rb], .map _ _ [] [] rfl rfl .nil, fun rest _ => ?_,
      .obj [] [] [] .nil (by simp [KeysNodup]) (fun k => rfl)⟩
    simp only [List.append_assoc]
    rw [seg_fixed .Lb _ rfl (fun _ => rfl), seg_jws hw, seg_fixed .Rb _ rfl (fun _ => rfl)]
    rfl
  | .obj m ms s hm =>
    obtain ⟨ps, ts, h1, h2, h3⟩ := jsonMembers_reads hm hp
    obtain ⟨h4, h5⟩ := lastValue_evalPairs ps [] (by simp [KeysNodup])
    refine ⟨.map ps, fixTok .Lb :: (ts ++ [fixTok .Rb]), .map _ _ ps ts rfl rfl h1, fun rest _ => ?_,
      .obj _ _ _ h3 h4 (fun k => by rw [h5 k]; simp [amGet])⟩
    simp only [List.append_assoc]
    rw [seg_fixed .Lb _ rfl (fun _ => rfl), h2 _ (closed_lit '}' [] (by decide) (by decide)), seg_fixed .Rb _ rfl (fun _ => rfl)]
    simp
theorem jsonItems_reads {js : List JsonDoc} {s : Str} (h : JsonItems js s) (hp : PlainAll F js) :
    ∃ (es : List (Expr F)) (ts : List Token), WritesList es ts ∧ SegsTo s ts ∧ DenotesAll js (Expr.evalItems es) := by
  match h with
  | .last j w s w' hw hw' hj =>
    obtain ⟨e, ts, h1, h2, h3⟩ := json_reads hj hp.1
    refine ⟨[e], ts, .last e ts h1, fun rest hc => ?_, .cons _ _ _ _ h3 .nil⟩
    simp only [List.append_assoc]
    rw [seg_jws hw, h2 _ (closed_jws hw' hc), seg_jws hw']
  | .cons j js w s w' r hw hw' hj hr =>
    obtain ⟨e, ts, h1, h2, h3⟩ := json_reads hj hp.1
    obtain ⟨es, tr, g1, g2, g3⟩ := jsonItems_reads hr hp.2
    refine ⟨e :: es, ts ++ fixTok .Comma :: tr, .cons e es _ ts tr rfl h1 g1, fun rest hc => ?_, .cons _ _ _ _ h3 g3⟩
    simp only [List.append_assoc]
    rw [seg_jws hw, h2 _ (closed_jws hw' (closed_lit ',' [] (by decide) (by decide))), seg_jws hw', seg_fixed .Comma _ rfl (fun _ => rfl),
      g2 rest hc]
    simp
theorem jsonMembers_reads {ms : List (List JChar × JsonDoc)} {s : Str} (h : JsonMembers ms s) (hp : PlainMembers F ms) :
    ∃ (ps : List (Expr F × Expr F)) (ts : List Token), WritesPairs ps ts ∧ SegsTo s ts ∧
      DenotesMembers ms (ps.map fun p => (p.1.eval.display, p.2.eval)) := by
  match h with
  | .last k j w w1 w2 s w3 hw hw1 hw2 hw3 hk hj =>
    obtain ⟨x, k1, k2⟩ := seg_jstr hp.1 hk
    obtain ⟨e, ts, h1, h2, h3⟩ := json_reads hj hp.2.1
    refine ⟨[(.str x, e)], ⟨.String, x⟩ :: fixTok .Colon :: ts,
      .last _ e (fixTok .Colon) [⟨.String, x⟩] ts rfl (.str ⟨.String, x⟩ rfl) h1, fun rest hc => ?_, .cons _ _ _ _ _ _ k1 h3 .nil⟩
    simp only [List.append_assoc]
    rw [seg_jws hw, k2, seg_jws hw1, seg_fixed .Colon _ rfl (fun _ => rfl), seg_jws hw2, h2 _ (closed_jws hw3 hc), seg_jws hw3]
    simp
  | .cons k j ms w w1 w2 s w3 r hw hw1 hw2 hw3 hk hj hr =>
    obtain ⟨x, k1, k2⟩ := seg_jstr hp.1 hk
    obtain ⟨e, ts, h1, h2, h3⟩ := json_reads hj hp.2.1
    obtain ⟨ps, tr, g1, g2, g3⟩ := jsonMembers_reads hr hp.2.2
    refine ⟨(.str x, e) :: ps, ⟨.String, x⟩ :: fixTok .Colon :: (ts ++ fixTok .Comma :: tr),
      .cons _ e ps (fixTok .Colon) (fixTok .Comma) [⟨.String, x⟩] ts tr rfl rfl (.str ⟨.String, x⟩ rfl) h1 g1, fun rest hc => ?_,
      .cons _ _ _ _ _ _ k1 h3 g3⟩
    simp only [List.append_assoc]
    rw [seg_jws hw, k2, seg_jws hw1, seg_fixed .Colon _ rfl (fun _ => rfl), seg_jws hw2,
      h2 _ (closed_jws hw3 (closed_lit ',' [] (by decide) (by decide))), seg_jws hw3, seg_fixed .Comma _ rfl (fun _ => rfl), g2 rest hc]
    simp
end

/-- C44 (partial). If the body is a JSON document without escapes, negative numbers and exponents, `json` is the value it denotes, in every
layout. The full claim is the same without `PlainJson`; it is false (`c44_false_negative`, `c44_false_escape`, `c44_false_exponent`). -/
theorem c44_json_partial (r : Response) (j : JsonDoc) (h : JsonBody j r.body) (hp : PlainJson F j) :
    ∃ m v, r.toMap (F := F) = .ok m ∧ amGet c!"json" m = some v ∧ Denotes j v := by
  obtain ⟨w, s, w', hw, hw', hj, hb⟩ := h
  obtain ⟨e, ts, h1, h2, h3⟩ := json_reads hj hp
  have hs : segment r.body = ts ++ [Token.eof] := by
    rw [hb, List.append_assoc, seg_jws hw, ← List.append_nil w', h2 _ (closed_jws hw' (by rintro c r ⟨⟩)), seg_jws hw', segment_nil]
  have := c59_expression r.body e ts h1 hs
  refine ⟨amInsert c!"json" e.eval r.baseMap, e.eval, ?_, amGet_insert_self _ _ _, h3⟩
  unfold Response.toMap
  rw [this]

/-- A response with this body. -/
def withBody (body : Str) : Response := ⟨[], 200, [], [], body⟩

/-- Concrete document for `c44_json_partial`: nested, with a repeated name and whitespace. -/
example : JsonBody (.obj [([.plain 'a'], .arr [.num ⟨false, c!"1", none, none⟩, .null]), ([.plain 'a'], .bool true)]) c!" {\"a\" : [1, null],\n\"a\":true}\n" ∧
    PlainJson F (.obj [([.plain 'a'], .arr [.num ⟨false, c!"1", none, none⟩, .null]), ([.plain 'a'], .bool true)]) ∧
    (withBody c!" {\"a\" : [1, null],\n\"a\":true}\n").toMap (F := F) =
      .ok (amInsert c!"json" (.map [(c!"a", .bool true)]) (withBody c!" {\"a\" : [1, null],\n\"a\":true}\n").baseMap) := by
  have okA : ∀ c ∈ [JChar.plain 'a'], c.Ok := by simp [JChar.Ok]
  refine ⟨⟨c!" ", _, c!"\n", by simp [JWs], by simp [JWs], .obj _ _ _ (.cons _ _ _ [] c!" " c!" " c!"[1, null]" [] c!"\n\"a\":true"
      (by simp [JWs]) (by simp [JWs]) (by simp [JWs]) (by simp [JWs]) okA
      (.arr _ _ c!"1, null" (.cons _ _ [] c!"1" [] c!" null" (by simp [JWs]) (by simp [JWs]) (.num ⟨false, c!"1", none, none⟩ ?_)
        (.last _ c!" " c!"null" [] (by simp [JWs]) (by simp [JWs]) .null)))
      (.last _ _ c!"\n" [] [] c!"true" [] (by simp [JWs]) (by simp [JWs]) (by simp [JWs]) (by simp [JWs]) okA (.bool true))), rfl⟩, ?_, rfl⟩
  · refine ⟨⟨by simp, by simp [isDigit]⟩, Or.inr (by decide), by simp, by simp⟩
  · simp [PlainJson, PlainAll, PlainMembers, PlainStr, PlainNum, decimal]

/-- C44 is false: a negative number is exposed as `null`. -/
theorem c44_false_negative : JsonBody (.num ⟨true, c!"1", none, none⟩) c!"-1" ∧ Denotes (F := F) (.num ⟨true, c!"1", none, none⟩) (.int (-1)) ∧
    ∃ m, (withBody c!"-1").toMap (F := F) = .ok m ∧ amGet c!"json" m = some .null ∧ ¬ Denotes (F := F) (.num ⟨true, c!"1", none, none⟩) .null := by
  refine ⟨⟨[], _, [], by simp [JWs], by simp [JWs], .num _ ?_, rfl⟩, .int _ _ rfl rfl (by decide), _, rfl, rfl, ?_⟩
  · exact ⟨⟨by simp, by simp [isDigit]⟩, Or.inr (by decide), by simp, by simp⟩
  · intro h; cases h

/-- C44 is false: an escape is not decoded. -/
theorem c44_false_escape : JsonBody (.str [.short 'n']) c!"\"\\n\"" ∧ Denotes (F := F) (.str [.short 'n']) (.str c!"\n") ∧
    ∃ m, (withBody c!"\"\\n\"").toMap (F := F) = .ok m ∧ amGet c!"json" m = some (.str c!"\\n") ∧
      ¬ Denotes (F := F) (.str [.short 'n']) (.str c!"\\n") := by
  refine ⟨⟨[], _, [], by simp [JWs], by simp [JWs], .str _ (by simp [JChar.Ok]), rfl⟩, .str _ _ (.short _ _ _ .nil), _, rfl, rfl, ?_⟩
  intro h
  cases h with
  | str _ _ h =>
    generalize hs : c!"\\n" = s at h
    cases h with
    | short _ _ _ h => cases h; simp at hs

/-- C44 is false: an exponent is cut off. -/
theorem c44_false_exponent : JsonBody (.num ⟨false, c!"1", none, some ('e', none, c!"5")⟩) c!"1e5" ∧
    ∃ m, (withBody c!"1e5").toMap (F := F) = .ok m ∧ amGet c!"json" m = some (.int 1) ∧
      ¬ Denotes (F := F) (.num ⟨false, c!"1", none, some ('e', none, c!"5")⟩) (.int 1) := by
  refine ⟨⟨[], _, [], by simp [JWs], by simp [JWs], .num _ ?_, rfl⟩, _, rfl, rfl, ?_⟩
  · refine ⟨⟨by simp, by simp [isDigit]⟩, Or.inr (by decide), by simp, ?_⟩
    rintro e s d ⟨⟩
    exact ⟨Or.inl rfl, by simp, by simp, by simp [isDigit]⟩
  · intro h; cases h with | int _ _ _ h _ => cases h

end Am
