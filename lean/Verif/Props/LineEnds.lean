import Verif.Proofs.LineEnds
import Verif.Proofs.Changed
import Verif.Props.Laid
import Verif.Props.Accepts
/-!
# Line ends of source texts: C118
-/
set_option linter.unusedSimpArgs false
set_option linter.unusedSectionVars false
namespace Am
open Spec
variable {F : Type} [Rt F]

/-- C118, as stated: a script saved with the line ends of Windows does the same. -/
def LineEndsFree (F : Type) [Rt F] : Prop :=
  ∀ (net : Net), SeesRequests net → ∀ (text : Str) (is : List (Item F)), '\r' ∉ text → Accepted text is → ∀ (s s' : St F),
    SameButMessages WindowsText net.multipart s s' →
    (evalText net text s).1 = (evalText net (windows text) s').1 ∧ SameButMessages WindowsText net.multipart (evalText net text s).2 (evalText net (windows text) s').2

/-- **C118**, for reading: the changed text is the same program, but for the line ends inside quotes. -/
theorem c118_items (text : Str) (is : List (Item F)) (h : Accepted text is) : Accepted (windows text) (is.map (withTexts windows windows)) := by
  obtain ⟨_, tokens, h1, h2⟩ := h
  rw [← layout_segment h1] at h2
  obtain ⟨b, hb⟩ := segment_layout (windows text)
  refine ⟨b, _, hb, ?_⟩
  rw [segment_withText]
  exact program_withText windows windows h2

/-- Concrete case: a program over three lines with a string over two lines. -/
example : Accepted (F := F) c!"let a =\n\"b\nc\"" [.expr (.letE c!"a" (.str c!"b\nc"))] := by
  obtain ⟨b, hb⟩ := segment_layout c!"let a =\n\"b\nc\""
  have e : segment c!"let a =\n\"b\nc\"" = [⟨.Let, c!"let"⟩, ⟨.Ident, c!"a"⟩, ⟨.Assign, c!"="⟩, ⟨.String, c!"b\nc"⟩, Token.eof] := by decide +kernel
  rw [e] at hb
  refine ⟨b, _, hb, .cons _ _ _ [Token.eof] (.expr _ _ _ (.mk 0 255 _ _ _ [Token.eof] _ (.letE 0 _ _ _ _ _ [Token.eof] rfl rfl rfl
    (.mk 0 0 _ _ _ _ _ (.str 0 _ _ rfl) (.nil 0 _ _) ⟨_, _, rfl, by decide⟩)) (.nil _ _ _) ⟨_, _, rfl, by decide⟩)) (.nil _ rfl)⟩

/-- **C118**, for reading: one text is read, rejected or never read to the end exactly when the other is. -/
theorem c118_accepts (text : Str) :
    ((∃ src, parse (F := F) (windows text) = .ok src) ↔ ∃ src, parse (F := F) text = .ok src) ∧
    ((∃ m, parse (F := F) (windows text) = .err m) ↔ ∃ m, parse (F := F) text = .err m) ∧
    (parse (F := F) (windows text) = .hang ↔ parse (F := F) text = .hang) := by
  have hp : (∃ is : List (Item F), Program (segment (windows text)) is) ↔ ∃ is : List (Item F), Program (segment text) is := by
    constructor
    · rintro ⟨is, h⟩
      have := program_withText unwindows unwindows h
      rw [segment_back] at this
      exact ⟨_, this⟩
    · rintro ⟨is, h⟩
      have := program_withText windows windows h
      rw [← segment_withText] at this
      exact ⟨_, this⟩
  have he : Endless F (segment (windows text)) ↔ Endless F (segment text) := by
    constructor
    · intro h
      have := endless_withText unwindows unwindows h
      rw [segment_back] at this
      exact this
    · intro h
      have := endless_withText windows windows h
      rw [← segment_withText] at this
      exact this
  have ok : ∀ text, (∃ src, parse (F := F) text = .ok src) ↔ ∃ is : List (Item F), Program (segment text) is := by
    intro text
    constructor
    · rintro ⟨src, h⟩
      obtain ⟨is, h1, _⟩ := (c79_accepts text src).1 h
      exact ⟨is, h1⟩
    · rintro ⟨is, h⟩
      exact ⟨_, (c79_accepts text _).2 ⟨is, h, rfl⟩⟩
  refine ⟨?_, ?_, ?_⟩
  · rw [ok, ok, hp]
  · rw [c79_rejects, c79_rejects, hp, he]
  · rw [c06_exact_partial, c06_exact_partial, he]

/-- **C118**, for reading: when no string runs over several lines, the changed text is the same program, but for the line ends of messages. -/
theorem c118_program (text : Str) (is : List (Item F)) (h : Accepted text is) (ho : OneLineStrings text) (hr : '\r' ∉ text) :
    ∃ is', Accepted (windows text) is' ∧ Each (ChangedItem WindowsText) is is' := by
  obtain ⟨closed, tokens, h1, h2⟩ := h
  have ho' := ho closed tokens h1
  have hr' : ∀ t ∈ tokens, '\r' ∉ t.literal := fun t ht hm => hr (literal_mem h1 t ht _ hm)
  obtain ⟨b, hb⟩ := segment_layout (windows text)
  have e : segment (windows text) = tokens.map (withText id windows) := by
    rw [segment_withText, layout_segment h1]
    refine List.map_congr_left fun t ht => ?_
    by_cases hk : t.kind = .String
    · rw [withText_string _ _ hk, withText_string _ _ hk, windows_same (ho' t ht hk)]; rfl
    · by_cases hk' : t.kind = .Template
      · rw [withText_template _ _ hk', withText_template _ _ hk']
      · rw [withText_plain _ _ rfl hk hk', withText_plain _ _ rfl hk hk']
  refine ⟨is.map (withTexts id windows), ⟨b, _, hb, ?_⟩, ?_⟩
  · rw [e]; exact program_withText id windows h2
  · have hm : ∀ i ∈ is, ∀ n m as, i = .request n m as → '\r' ∉ m := by
      have same : tokens.map (withText id fun m => if '\r' ∈ m then [] else m) = tokens := by
        refine (List.map_congr_left fun t ht => ?_).trans (List.map_id _)
        by_cases hk : t.kind = .String
        · rw [withText_string _ _ hk, ← hk]; rfl
        · by_cases hk' : t.kind = .Template
          · rw [withText_template _ _ hk', if_neg (hr' t ht), ← hk']; rfl
          · rw [withText_plain _ _ rfl hk hk']; rfl
      have h3 := program_withText id (fun m => if '\r' ∈ m then [] else m) h2
      rw [same] at h3
      have h4 := c79_unique h2 h3
      intro i hi n m as e
      rw [h4] at hi
      obtain ⟨j, hj, e'⟩ := List.mem_map.1 hi
      subst e
      cases j with
      | expr x => cases e'
      | test n b => cases e'
      | request n' m' as' =>
        injection e' with _ e' _
        rw [← e']
        dsimp only
        by_cases hc : '\r' ∈ m'
        · rw [if_pos hc]; decide
        · rw [if_neg hc]; exact hc
    clear h2 e hb
    induction is with
    | nil => exact .nil
    | cons i is ih =>
      refine .cons ?_ (ih fun j hj => hm j (List.mem_cons_of_mem _ hj))
      cases i with
      | expr x => rw [withTexts, withStrings_id]; exact .expr x
      | request n m as => rw [withTexts, withStringsList_id]; exact .request n m _ as ⟨hm _ List.mem_cons_self n m as rfl, rfl⟩
      | test n b => rw [withTexts, withStringsList_id]; exact .test n b

/-- **C118**, for one message: filled with values without carriage returns, both are the same request with the same content. -/
theorem c118_message (mp : List Part → Option (List UInt8)) (ctx ctx' : Context F) (m m' : Str) (hc : ctx.inner = ctx'.inner) (h : WindowsText m m')
    (hv : NoReturns ctx.inner m) : SameRequest mp (render ctx m) (render ctx' m') := by
  obtain ⟨h1, rfl⟩ := h
  obtain ⟨ps, hp⟩ := pieces_exist m
  unfold SameRequest
  rw [← render_inner hc (windows m), render_pieces ctx hp, render_pieces ctx (pieces_windows hp)]
  refine request_withReturns mp (withReturns_fill _ ps) fun hm => ?_
  rcases fillBy_mem hm with ⟨h2⟩ | ⟨n, h2, h3⟩
  · exact h1 (pieces_lit_mem hp h2)
  · exact hv ps n hp h2 h3

/-- **C118**, for runs: when no string runs over several lines and no value put into a message has a carriage return, the script saved with the line ends of
Windows does the same. -/
theorem c118_text_partial (net : Net) (hnet : SeesRequests net) (text : Str) (is : List (Item F)) (hr : '\r' ∉ text) (h : Accepted text is) (ho : OneLineStrings text)
    (s s' : St F) (hs : SameButMessages WindowsText net.multipart s s')
    (hv : RunKeeps NoReturns net (is.foldl addItem ⟨[], [], []⟩).exprs { s with ctx := s.ctx.extend (is.foldl addItem ⟨[], [], []⟩).requests }) :
    (evalText net text s).1 = (evalText net (windows text) s').1 ∧ SameButMessages WindowsText net.multipart (evalText net text s).2 (evalText net (windows text) s').2 := by
  obtain ⟨is', h1, h2⟩ := c118_program text is h ho hr
  exact changed_text (fun mp ctx ctx' m m' => c118_message mp ctx ctx' m m') net hnet text (windows text) is is' h h1 h2 s s' hs hv

/-- **C118**, for tests: the same tests are found, and each test does the same. -/
theorem c118_tests_partial (text : Str) (is : List (Item F)) (hr : '\r' ∉ text) (h : Accepted text is) (ho : OneLineStrings text) :
    ∃ src src', parse (F := F) text = .ok src ∧ parse (F := F) (windows text) = .ok src' ∧ src.tests = src'.tests ∧ src.exprs = src'.exprs ∧
      Each (ChangedDefinition WindowsText) src.requests src'.requests := by
  obtain ⟨is', h1, h2⟩ := c118_program text is h ho hr
  exact changed_tests text (windows text) is is' h h1 h2

/-- **C118**, for the statements of a test. -/
theorem c118_block_partial (net : Net) (hnet : SeesRequests net) (es : List (Expr F)) (s s' : St F) (hs : SameButMessages WindowsText net.multipart s s')
    (h : RunKeeps NoReturns net es s) :
    (runBlock net es s).1 = (runBlock net es s').1 ∧ SameButMessages WindowsText net.multipart (runBlock net es s).2 (runBlock net es s').2 :=
  changed_block (fun mp ctx ctx' m m' => c118_message mp ctx ctx' m m') net hnet es s s' hs h

/-! ## Where it matters -/

/-- **C118** is false in general: the carriage returns get into strings over several lines. -/
theorem c118_false : ¬LineEndsFree F := by
  intro h
  have hp : Accepted (F := F) c!"length(\"a\nb\")" [.expr (.call c!"length" [.str c!"a\nb"])] := by
    obtain ⟨b, hb⟩ := segment_layout c!"length(\"a\nb\")"
    have e : segment c!"length(\"a\nb\")" = [⟨.Ident, c!"length"⟩, ⟨.Lp, c!"("⟩, ⟨.String, c!"a\nb"⟩, ⟨.Rp, c!")"⟩, Token.eof] := by decide +kernel
    rw [e] at hb
    exact ⟨b, _, hb, .cons _ _ _ [Token.eof] (.expr _ _ _ (.mk 0 0 _ _ _ _ _ (.ident 0 _ _ rfl) (.call 0 _ _ _ _ _ _ _ _ (by decide) rfl rfl
      (.last _ _ _ _ _ rfl (.mk 0 0 _ _ _ _ _ (.str 0 _ _ rfl) (.nil 0 _ _) ⟨_, _, rfl, by decide⟩)) (.nil 0 _ _)) ⟨_, _, rfl, by decide⟩)) (.nil _ rfl)⟩
  have := (h (refusing ⟨0, 0, 0, 0, 0, 0, 0, 0, 0, 0⟩) (fun _ _ _ _ _ _ => rfl) c!"length(\"a\nb\")" _ (by decide) hp ⟨Context.new, [], []⟩ ⟨Context.new, [], []⟩
    ⟨rfl, .nil, rfl, .nil, rfl⟩).2.out
  have e : (c!"3\n" : Str) = c!"4\n" := this
  exact absurd e (by decide)

/-- **C118** is also false without strings over several lines: a value that ends with a carriage return, at the end of a line of the message. -/
theorem c118_false_value : ¬∀ (net : Net), SeesRequests net → ∀ (es : List (Expr F)) (s s' : St F), SameButMessages WindowsText net.multipart s s' →
    (runBlock net es s).1 = (runBlock net es s').1 ∧ SameButMessages WindowsText net.multipart (runBlock net es s).2 (runBlock net es s').2 := by
  intro h
  have := (h (refusing ⟨0, 0, 0, 0, 0, 0, 0, 0, 0, 0⟩) (fun _ _ _ _ _ _ => rfl) [.call c!"f" []]
    ⟨⟨[(c!"x", .str c!"1\r")], [(c!"f", (c!"POST http://h/\n\n{x}\nend", []))], []⟩, [], []⟩
    ⟨⟨[(c!"x", .str c!"1\r")], [(c!"f", (c!"POST http://h/\r\n\r\n{x}\r\nend", []))], []⟩, [], []⟩
    ⟨rfl, .cons ⟨rfl, ⟨by dsimp only; decide, by dsimp only; decide⟩, rfl⟩ .nil, rfl, .nil, rfl⟩).2.sent
  have e : Each (SameRequest fun _ => none) [c!"POST http://h/\n\n1\r\nend"] [c!"POST http://h/\r\n\r\n1\r\r\nend"] := this
  cases e with
  | cons e _ => exact absurd e (by unfold SameRequest; decide +kernel)

/-- Concrete case: a script with a request over several lines, whose run keeps its values free of carriage returns. -/
example (k : Clocks) : OneLineStrings c!"request f `GET http://h/\nA: b`;\nf()" ∧ '\r' ∉ c!"request f `GET http://h/\nA: b`;\nf()" ∧
    RunKeeps (F := F) NoReturns (refusing k) [.call c!"f" []] ⟨⟨[], [(c!"f", (c!"GET http://h/\nA: b", []))], []⟩, [], []⟩ := by
  refine ⟨fun b tokens h t ht hk => ?_, by decide, ?_⟩
  · rw [← layout_segment h] at ht
    have e : segment c!"request f `GET http://h/\nA: b`;\nf()" =
      [⟨.Request, c!"request"⟩, ⟨.Ident, c!"f"⟩, ⟨.Template, c!"GET http://h/\nA: b"⟩, ⟨.Semi, c!";"⟩, ⟨.Ident, c!"f"⟩, ⟨.Lp, c!"("⟩, ⟨.Rp, c!")"⟩, Token.eof] := by decide +kernel
    rw [e] at ht
    revert hk
    revert t
    decide
  · have hp : Pieces c!"GET http://h/\nA: b" (c!"GET http://h/\nA: b".map .lit) := by
      have := pieces_plain (a := c!"GET http://h/\nA: b") (b := []) (by decide) .nil
      rw [List.append_nil, List.append_nil] at this
      exact this
    have hv : NoReturns (F := F) [] c!"GET http://h/\nA: b" := by
      intro ps n h1 h2
      rw [pieces_unique h1 hp] at h2
      obtain ⟨_, _, e⟩ := List.mem_map.1 h2
      cases e
    have e : evalBlock (careful NoReturns (callAt (refusing k) 1)) .null [.call c!"f" []]
          (⟨⟨[], [(c!"f", (c!"GET http://h/\nA: b", []))], []⟩, [], []⟩ : St F) =
        evalBlock (callAt (refusing k) 1) .null [.call c!"f" []] ⟨⟨[], [(c!"f", (c!"GET http://h/\nA: b", []))], []⟩, [], []⟩ := by
      have : careful NoReturns (callAt (refusing k) 1) c!"f" [] (⟨⟨[], [(c!"f", (c!"GET http://h/\nA: b", []))], []⟩, [], []⟩ : St F) =
        callAt (refusing k) 1 c!"f" [] ⟨⟨[], [(c!"f", (c!"GET http://h/\nA: b", []))], []⟩, [], []⟩ := if_pos hv
      simp only [evalBlock, evalExpr, evalList]
      show M.bind (M.bind (M.pure []) fun vs => careful _ _ _ vs) _ _ = M.bind (M.bind (M.pure []) fun vs => callAt _ _ _ vs) _ _
      unfold M.bind M.pure
      dsimp only
      rw [this]
    unfold RunKeeps
    rw [e]
    intro h
    cases (h : (Res.ok _ : Res (Value F)) = .hang)

end Am
