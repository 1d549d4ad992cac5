import Verif.Props.Json
/-! # C44: exactly which JSON bodies are exposed as what they denote -/
set_option linter.unusedSimpArgs false
set_option linter.unusedSectionVars false
namespace Am
open Spec
variable {F : Type} [Rt F]

/-- The characters between the quotes. -/
def rawText (s : List JChar) : Str := s.flatMap JChar.text

theorem hexDigit_not_quote {a : Char} (h : (hexDigit a).isSome) : '"' ≠ a := by
  rintro rfl
  exact absurd h (by decide)

theorem raw_noQuote {s : List JChar} (h : NoQuoteStr s) (hok : ∀ c ∈ s, c.Ok) : '"' ∉ rawText s := by
  intro hm
  rw [rawText, List.mem_flatMap] at hm
  obtain ⟨c, hc, hm⟩ := hm
  have ho := hok c hc
  cases c with
  | plain x => rw [JChar.text, List.mem_singleton] at hm; exact ho.1 hm.symm
  | short x =>
    simp only [JChar.text, List.mem_cons, List.not_mem_nil, or_false] at hm
    rcases hm with hm | hm
    · exact absurd hm (by decide)
    · subst hm; exact h hc
  | unicode a b c d =>
    obtain ⟨h1, h2, h3, h4⟩ := ho
    simp only [JChar.text, List.mem_cons, List.not_mem_nil, or_false] at hm
    rcases hm with hm | hm | hm | hm | hm | hm
    · exact absurd hm (by decide)
    · exact absurd hm (by decide)
    · exact hexDigit_not_quote h1 hm
    · exact hexDigit_not_quote h2 hm
    · exact hexDigit_not_quote h3 hm
    · exact hexDigit_not_quote h4 hm

theorem seg_raw {s : List JChar} (h : NoQuoteStr s) (hok : ∀ c ∈ s, c.Ok) (rest : Str) :
    segment (jstrText s ++ rest) = ⟨.String, rawText s⟩ :: segment rest :=
  lex_spell ⟨.String, rawText s⟩ rest (raw_noQuote h hok) (fun _ _ _ => rfl)

/-- What a string denotes is not longer than what is between its quotes, and shorter if it has escapes. -/
theorem raw_length {s : List JChar} {x : Str} (h : JStrVal s x) : x.length ≤ (rawText s).length ∧ (x.length = (rawText s).length → PlainStr s ∧ x = rawText s) := by
  have plus : ∀ (c : JChar) (l : List JChar), rawText (c :: l) = c.text ++ rawText l := fun c l => rfl
  induction h with
  | nil => exact ⟨Nat.le_refl _, fun _ => ⟨(by intro c hc; cases hc), rfl⟩⟩
  | plain c l s _ ih =>
    rw [plus]
    simp only [JChar.text, List.length_cons, List.length_append, List.length_nil]
    refine ⟨by omega, fun he => ?_⟩
    obtain ⟨h1, h2⟩ := ih.2 (by omega)
    refine ⟨fun d hd => ?_, by rw [h2]; rfl⟩
    rcases List.mem_cons.1 hd with rfl | hd
    · exact ⟨c, rfl⟩
    · exact h1 d hd
  | short c l s _ ih =>
    rw [plus]
    simp only [JChar.text, List.length_cons, List.length_append, List.length_nil]
    exact ⟨by omega, fun he => by omega⟩
  | unicode a b c d x l s _ _ ih =>
    rw [plus]
    simp only [JChar.text, List.length_cons, List.length_append, List.length_nil]
    exact ⟨by omega, fun he => by omega⟩
  | pair a b c d a' b' c' d' x l s _ _ _ _ _ _ ih =>
    rw [plus, plus]
    simp only [JChar.text, List.length_cons, List.length_append, List.length_nil]
    exact ⟨by omega, fun he => by omega⟩

theorem plain_value {s : List JChar} (h : PlainStr s) : JStrVal s (rawText s) := by
  induction s with
  | nil => exact .nil
  | cons c s ih =>
    obtain ⟨x, rfl⟩ := h c (by simp)
    exact .plain x s _ (ih fun c hc => h c (by simp [hc]))

/-- A string denotes what is between its quotes exactly if it has no escapes. -/
theorem raw_denotes {s : List JChar} : JStrVal s (rawText s) ↔ PlainStr s :=
  ⟨fun h => ((raw_length h).2 rfl).1, plain_value⟩

/-- As many different names as there are names: the same names. -/
theorem perm_of_subset {α : Type} [DecidableEq α] : ∀ {x y : List α}, x.Nodup → (∀ a ∈ x, a ∈ y) → x.length = y.length → x.Perm y := by
  intro x
  induction x with
  | nil =>
    intro y _ _ hl
    cases y with
    | nil => exact .refl _
    | cons b y => cases hl
  | cons a x ih =>
    intro y hn hs hl
    rw [List.nodup_cons] at hn
    have ha := hs a (by simp)
    have hp := List.perm_cons_erase ha
    refine (List.Perm.cons a (ih hn.2 (fun b hb => ?_) ?_)).trans hp.symm
    · have : b ∈ a :: y.erase a := (hp.mem_iff).1 (hs b (by simp [hb]))
      rcases List.mem_cons.1 this with rfl | h
      · exact absurd hb hn.1
      · exact h
    · have := hp.length_eq
      simp only [List.length_cons] at this hl
      omega

theorem perm_sum {x y : List Nat} (h : x.Perm y) : x.sum = y.sum := h.sum_nat

/-- The members of an object beside the pairs they are read as. -/
inductive ReadAs : List (List JChar × JsonDoc) → List (Expr F × Expr F) → Prop
  | nil : ReadAs [] []
  | cons {k : List JChar} {j : JsonDoc} {e : Expr F} {ms : List (List JChar × JsonDoc)} {ps : List (Expr F × Expr F)} :
      (DistinctJson j → (Denotes j e.eval ↔ PlainJson F j)) → ReadAs ms ps → ReadAs ((k, j) :: ms) ((.str (rawText k), e) :: ps)

theorem lastValue_mem {k : Str} : ∀ {l : List (Str × Value F)} {v : Value F}, lastValue k l = some v → k ∈ l.map Prod.fst := by
  intro l
  induction l with
  | nil => intro v h; cases h
  | cons p l ih =>
    intro v h
    obtain ⟨n, w⟩ := p
    simp only [lastValue] at h
    cases hl : lastValue k l with
    | some u => exact List.mem_cons_of_mem _ (ih hl)
    | none =>
      rw [hl] at h
      simp only [Option.none_or] at h
      split at h
      · rename_i he; subst he; exact List.mem_cons_self
      · cases h

theorem lastValue_some {k : Str} : ∀ {l : List (Str × Value F)}, k ∈ l.map Prod.fst → ∃ v, lastValue k l = some v := by
  intro l
  induction l with
  | nil => intro h; cases h
  | cons p l ih =>
    intro h
    obtain ⟨n, w⟩ := p
    simp only [lastValue]
    cases hl : lastValue k l with
    | some u => exact ⟨u, rfl⟩
    | none =>
      simp only [List.map_cons, List.mem_cons] at h
      rcases h with rfl | h
      · exact ⟨w, by simp⟩
      · obtain ⟨v, hv⟩ := ih h
        rw [hv] at hl; cases hl

theorem members_names {ms : List (List JChar × JsonDoc)} {vs : List (Str × Value F)} (h : DenotesMembers ms vs) : NamesOf ms (vs.map Prod.fst) := by
  induction ms generalizing vs with
  | nil => cases h; exact .nil
  | cons m ms ih => cases h with | cons k j _ n v vs h1 h2 h3 => exact .cons _ _ _ _ _ h1 (ih h3)

theorem names_length {ms : List (List JChar × JsonDoc)} {ns : List Str} (h : NamesOf ms ns) : ns.length = ms.length := by
  induction h with
  | nil => rfl
  | cons _ _ _ _ _ _ _ ih => simp [ih]

theorem readAs_names {ms : List (List JChar × JsonDoc)} {ps : List (Expr F × Expr F)} (h : ReadAs ms ps) :
    (ps.map fun p => (p.1.eval.display, p.2.eval)).map Prod.fst = ms.map fun m => rawText m.1 := by
  induction h with
  | nil => rfl
  | cons _ _ ih => simp only [List.map_cons, ih]; rfl

/-- If the names denoted are together as long as the names written, there are no escapes in them. -/
theorem names_plain {ms : List (List JChar × JsonDoc)} {ns : List Str} (h : NamesOf ms ns) :
    (ns.map List.length).sum ≤ ((ms.map fun m => rawText m.1).map List.length).sum ∧
    ((ns.map List.length).sum = ((ms.map fun m => rawText m.1).map List.length).sum → (∀ m ∈ ms, PlainStr m.1) ∧ ns = ms.map fun m => rawText m.1) := by
  induction h with
  | nil => exact ⟨Nat.le_refl _, fun _ => ⟨(by intro m hm; cases hm), rfl⟩⟩
  | cons k j ms n ns h1 _ ih =>
    have hr := raw_length h1
    simp only [List.map_cons, List.sum_cons]
    refine ⟨by omega, fun he => ?_⟩
    obtain ⟨a, b⟩ := hr.2 (by omega)
    obtain ⟨c, d⟩ := ih.2 (by omega)
    refine ⟨fun m hm => ?_, by rw [b, d]⟩
    rcases List.mem_cons.1 hm with rfl | hm
    · exact a
    · exact c m hm

/-- Two lists of pairs with the same distinct names and the same lookups are the same. -/
theorem lastValue_ext : ∀ {a b : List (Str × Value F)}, a.map Prod.fst = b.map Prod.fst → (a.map Prod.fst).Nodup →
    (∀ k, lastValue k a = lastValue k b) → a = b := by
  intro a
  induction a with
  | nil => intro b h _ _; cases b with | nil => rfl | cons _ _ => cases h
  | cons p a ih =>
    intro b h hn hk
    cases b with
    | nil => cases h
    | cons q b =>
      obtain ⟨n, v⟩ := p
      obtain ⟨n', v'⟩ := q
      simp only [List.map_cons, List.cons.injEq] at h
      obtain ⟨rfl, h⟩ := h
      simp only [List.map_cons, List.nodup_cons] at hn
      have none_a : lastValue n a = none := by
        cases hl : lastValue n a with
        | none => rfl
        | some u => exact absurd (lastValue_mem hl) hn.1
      have none_b : lastValue n b = none := by
        cases hl : lastValue n b with
        | none => rfl
        | some u => exact absurd (by rw [h]; exact lastValue_mem hl) hn.1
      have h0 := hk n
      simp only [lastValue, none_a, none_b, Option.none_or, if_pos, Option.some.injEq] at h0
      subst h0
      refine congrArg _ (ih h hn.2 fun k => ?_)
      have := hk k
      simp only [lastValue] at this
      by_cases he : n = k
      · subst he; rw [none_a, none_b]
      · simpa [he] using this

/-- Members whose names are plain and whose values are all what they should be are plain, and the other way round. -/
theorem readAs_plain {ms : List (List JChar × JsonDoc)} {ps : List (Expr F × Expr F)} (h : ReadAs ms ps) (hd : DistinctMembers ms) :
    DenotesMembers ms (ps.map fun p => (p.1.eval.display, p.2.eval)) ↔ PlainMembers F ms := by
  induction h with
  | nil => exact ⟨fun _ => trivial, fun _ => .nil⟩
  | @cons k j e ms ps h1 _ ih =>
    have ih := ih hd.2
    have h1 := h1 hd.1
    constructor
    · intro h
      cases h with
      | cons _ _ _ _ _ _ a b c => exact ⟨raw_denotes.1 a, h1.1 b, ih.1 c⟩
    · rintro ⟨a, b, c⟩
      exact .cons _ _ _ _ _ _ (raw_denotes.2 a) (h1.2 b) (ih.2 c)

theorem object_exact {ms : List (List JChar × JsonDoc)} {ps : List (Expr F × Expr F)} (h : ReadAs ms ps) (hd : DistinctJson (.obj ms)) :
    Denotes (.obj ms) (.map (Expr.evalPairs [] ps)) ↔ PlainMembers F ms := by
  obtain ⟨h4, h5⟩ := lastValue_evalPairs ps [] (by simp [KeysNodup])
  have look : ∀ k, amGet k (Expr.evalPairs [] ps) = lastValue k (ps.map fun p => (p.1.eval.display, p.2.eval)) := fun k => by rw [h5 k]; simp [amGet]
  constructor
  · intro hden
    cases hden with
    | obj _ vs _ hm hk hl =>
      have hn := members_names hm
      have hnd := hd.1 _ hn
      have same : ∀ k, lastValue k vs = lastValue k (ps.map fun p => (p.1.eval.display, p.2.eval)) := fun k => by rw [← hl k, look k]
      have hperm : (vs.map Prod.fst).Perm (ms.map fun m => rawText m.1) := by
        refine perm_of_subset hnd (fun n hn' => ?_) (by rw [names_length hn, List.length_map])
        obtain ⟨v, hv⟩ := lastValue_some hn'
        rw [same] at hv
        rw [← readAs_names h]
        exact lastValue_mem hv
      obtain ⟨-, heq⟩ := (names_plain hn).2 (perm_sum (hperm.map List.length))
      have : vs = ps.map fun p => (p.1.eval.display, p.2.eval) := lastValue_ext (by rw [heq, readAs_names h]) hnd same
      subst this
      exact (readAs_plain h hd.2).1 hm
  · intro hp
    exact .obj _ _ _ ((readAs_plain h hd.2).2 hp) h4 look

theorem seg_rawNum {n : JNum} (hok : n.Ok) (hp : RawNum F n) :
    ∃ (e : Expr F) (ts : List Token), Writes e ts ∧ SegsTo n.text ts ∧ (Denotes (.num n) e.eval ↔ PlainNum F n) := by
  obtain ⟨neg, int, frac, exp⟩ := n
  obtain ⟨h2, h3, h4⟩ := hp
  simp only at h2 h3 h4
  subst h2
  have hpos : JNum.Ok ⟨false, int, frac, none⟩ := hok
  have hplain : PlainNum F ⟨false, int, frac, none⟩ := by
    refine ⟨rfl, rfl, h3, fun f hf => ?_⟩
    obtain ⟨x, hx⟩ := h4 f hf
    simp only at hf
    subst hf
    exact ⟨x, by simpa [JNum.text] using hx⟩
  obtain ⟨e, t, w, sg, d⟩ := seg_jnum hpos hplain
  cases neg with
  | false => exact ⟨e, [t], w, sg, fun _ => hplain, fun _ => d⟩
  | true =>
    refine ⟨.unary (fixTok .Sub) e, fixTok .Sub :: [t], ?_, fun rest hc => ?_, ?_⟩
    · refine .unary _ e [t] (Or.inr rfl) w ?_ ?_
      · cases e <;> first | (simp [strength]; done) | (exact nomatch d)
      · cases e <;> first | rfl | (exact nomatch d)
    · have e1 : JNum.text ⟨true, int, frac, none⟩ = ['-'] ++ JNum.text ⟨false, int, frac, none⟩ := by simp [JNum.text]
      rw [e1, List.append_assoc, seg_fixed .Sub _ rfl (fun _ => rfl), sg rest hc]
      rfl
    · constructor
      · intro h
        cases h
      · intro h
        cases h.1

mutual
/-- A raw document is an expression; its value is what the document denotes exactly if the document is plain. -/
theorem json_raw {j : JsonDoc} {s : Str} (h : JsonText j s) (hp : RawJson F j) :
    ∃ (e : Expr F) (ts : List Token), Writes e ts ∧ SegsTo s ts ∧ (DistinctJson j → (Denotes j e.eval ↔ PlainJson F j)) := by
  match h with
  | .null =>
    obtain ⟨e, ts, a, b, c⟩ := json_reads (F := F) .null trivial
    exact ⟨e, ts, a, b, fun _ => ⟨fun _ => trivial, fun _ => c⟩⟩
  | .bool b =>
    obtain ⟨e, ts, a, b', c⟩ := json_reads (F := F) (.bool b) trivial
    exact ⟨e, ts, a, b', fun _ => ⟨fun _ => trivial, fun _ => c⟩⟩
  | .num n hok =>
    obtain ⟨e, ts, a, b, c⟩ := seg_rawNum hok hp
    exact ⟨e, ts, a, b, fun _ => c⟩
  | .str s hok =>
    refine ⟨.str (rawText s), [⟨.String, rawText s⟩], .str ⟨.String, rawText s⟩ rfl, fun rest _ => seg_raw hp hok rest, fun _ => ?_⟩
    exact ⟨fun h => by cases h with | str _ _ h => exact raw_denotes.1 h, fun h => .str s _ (raw_denotes.2 h)⟩
  | .noItems w hw =>
    obtain ⟨e, ts, a, b, c⟩ := json_reads (F := F) (.noItems w hw) trivial
    exact ⟨e, ts, a, b, fun _ => ⟨fun _ => trivial, fun _ => c⟩⟩
  | .arr j js s hi =>
    obtain ⟨es, ts, h1, h2, h3⟩ := jsonItems_raw hi hp
    refine ⟨.arr es, fixTok .Ls :: (ts ++ [fixTok .Rs]), .arr _ _ es ts rfl rfl h1, fun rest _ => ?_, fun hd => ?_⟩
    · simp only [List.append_assoc]
      rw [seg_fixed .Ls _ rfl (fun _ => rfl), h2 _ (closed_lit ']' [] (by decide) (by decide)), seg_fixed .Rs _ rfl (fun _ => rfl)]
      simp
    · exact ⟨fun h => by cases h with | arr _ _ h => exact (h3 hd).1 h, fun h => .arr _ _ ((h3 hd).2 h)⟩
  | .noMembers w hw =>
    obtain ⟨e, ts, a, b, c⟩ := json_reads (F := F) (.noMembers w hw) trivial
    exact ⟨e, ts, a, b, fun _ => ⟨fun _ => trivial, fun _ => c⟩⟩
  | .obj m ms s hm =>
    obtain ⟨ps, ts, h1, h2, h3⟩ := jsonMembers_raw hm hp
    refine ⟨.map ps, fixTok .Lb :: (ts ++ [fixTok .Rb]), .map _ _ ps ts rfl rfl h1, fun rest _ => ?_, fun hd => object_exact h3 hd⟩
    simp only [List.append_assoc]
    rw [seg_fixed .Lb _ rfl (fun _ => rfl), h2 _ (closed_lit '}' [] (by decide) (by decide)), seg_fixed .Rb _ rfl (fun _ => rfl)]
    simp
theorem jsonItems_raw {js : List JsonDoc} {s : Str} (h : JsonItems js s) (hp : RawAll F js) :
    ∃ (es : List (Expr F)) (ts : List Token), WritesList es ts ∧ SegsTo s ts ∧ (DistinctAll js → (DenotesAll js (Expr.evalItems es) ↔ PlainAll F js)) := by
  match h with
  | .last j w s w' hw hw' hj =>
    obtain ⟨e, ts, h1, h2, h3⟩ := json_raw hj hp.1
    refine ⟨[e], ts, .last e ts h1, fun rest hc => ?_, fun hd => ?_⟩
    · simp only [List.append_assoc]
      rw [seg_jws hw, h2 _ (closed_jws hw' hc), seg_jws hw']
    · exact ⟨fun h => by cases h with | cons _ _ _ _ a b => exact ⟨(h3 hd.1).1 a, trivial⟩, fun h => .cons _ _ _ _ ((h3 hd.1).2 h.1) .nil⟩
  | .cons j js w s w' r hw hw' hj hr =>
    obtain ⟨e, ts, h1, h2, h3⟩ := json_raw hj hp.1
    obtain ⟨es, tr, g1, g2, g3⟩ := jsonItems_raw hr hp.2
    refine ⟨e :: es, ts ++ fixTok .Comma :: tr, .cons e es _ ts tr rfl h1 g1, fun rest hc => ?_, fun hd => ?_⟩
    · simp only [List.append_assoc]
      rw [seg_jws hw, h2 _ (closed_jws hw' (closed_lit ',' [] (by decide) (by decide))), seg_jws hw', seg_fixed .Comma _ rfl (fun _ => rfl),
        g2 rest hc]
      simp
    · exact ⟨fun h => by cases h with | cons _ _ _ _ a b => exact ⟨(h3 hd.1).1 a, (g3 hd.2).1 b⟩,
        fun h => .cons _ _ _ _ ((h3 hd.1).2 h.1) ((g3 hd.2).2 h.2)⟩
theorem jsonMembers_raw {ms : List (List JChar × JsonDoc)} {s : Str} (h : JsonMembers ms s) (hp : RawMembers F ms) :
    ∃ (ps : List (Expr F × Expr F)) (ts : List Token), WritesPairs ps ts ∧ SegsTo s ts ∧ ReadAs ms ps := by
  match h with
  | .last k j w w1 w2 s w3 hw hw1 hw2 hw3 hk hj =>
    obtain ⟨e, ts, h1, h2, h3⟩ := json_raw hj hp.2.1
    refine ⟨[(.str (rawText k), e)], ⟨.String, rawText k⟩ :: fixTok .Colon :: ts,
      .last _ e (fixTok .Colon) [⟨.String, rawText k⟩] ts rfl (.str ⟨.String, rawText k⟩ rfl) h1, fun rest hc => ?_, .cons h3 .nil⟩
    simp only [List.append_assoc]
    rw [seg_jws hw, seg_raw hp.1 hk, seg_jws hw1, seg_fixed .Colon _ rfl (fun _ => rfl), seg_jws hw2, h2 _ (closed_jws hw3 hc), seg_jws hw3]
    simp
  | .cons k j ms w w1 w2 s w3 r hw hw1 hw2 hw3 hk hj hr =>
    obtain ⟨e, ts, h1, h2, h3⟩ := json_raw hj hp.2.1
    obtain ⟨ps, tr, g1, g2, g3⟩ := jsonMembers_raw hr hp.2.2
    refine ⟨(.str (rawText k), e) :: ps, ⟨.String, rawText k⟩ :: fixTok .Colon :: (ts ++ fixTok .Comma :: tr),
      .cons _ e ps (fixTok .Colon) (fixTok .Comma) [⟨.String, rawText k⟩] ts tr rfl rfl (.str ⟨.String, rawText k⟩ rfl) h1 g1, fun rest hc => ?_,
      .cons h3 g3⟩
    simp only [List.append_assoc]
    rw [seg_jws hw, seg_raw hp.1 hk, seg_jws hw1, seg_fixed .Colon _ rfl (fun _ => rfl), seg_jws hw2,
      h2 _ (closed_jws hw3 (closed_lit ',' [] (by decide) (by decide))), seg_jws hw3, seg_fixed .Comma _ rfl (fun _ => rfl), g2 rest hc]
    simp
end

/-- C44, exactly: for a JSON document without escaped quotes and exponents, with representable digits and distinct names in its objects, in any
layout, the body is read, and `json` is the value the document denotes if and only if there is no escape and no negative number in it. -/
theorem c44_exact_partial (r : Response) (j : JsonDoc) (h : JsonBody j r.body) (hp : RawJson F j) (hd : DistinctJson j) :
    ∃ m v, r.toMap (F := F) = .ok m ∧ amGet c!"json" m = some v ∧ (Denotes j v ↔ PlainJson F j) := by
  obtain ⟨w, s, w', hw, hw', hj, hb⟩ := h
  obtain ⟨e, ts, h1, h2, h3⟩ := json_raw hj hp
  have hs : segment r.body = ts ++ [Token.eof] := by
    rw [hb, List.append_assoc, seg_jws hw, ← List.append_nil w', h2 _ (closed_jws hw' (by rintro c r ⟨⟩)), seg_jws hw', segment_nil]
  have := c59_expression r.body e ts h1 hs
  refine ⟨amInsert c!"json" e.eval r.baseMap, e.eval, ?_, amGet_insert_self _ _ _, h3 hd⟩
  unfold Response.toMap
  rw [this]

/-- Concrete case: the document `{"a":-1}` is raw with distinct names, but not plain. -/
example : RawJson F (.obj [([.plain 'a'], .num ⟨true, c!"1", none, none⟩)]) ∧ DistinctJson (.obj [([.plain 'a'], .num ⟨true, c!"1", none, none⟩)]) ∧
    ¬ PlainJson F (.obj [([.plain 'a'], .num ⟨true, c!"1", none, none⟩)]) := by
  refine ⟨⟨by simp [NoQuoteStr], ⟨rfl, fun _ => by decide, fun f hf => (by cases hf)⟩, trivial⟩, ⟨fun ns h => ?_, trivial, trivial⟩, fun h => ?_⟩
  · cases h with
    | cons _ _ _ n ns _ h => cases h; simp
  · cases h.2.1.1

end Am
