import Verif.Proofs.Laid
import Verif.Proofs.Changed
/-!
# The layout of messages: C117
-/
set_option linter.unusedSimpArgs false
set_option linter.unusedSectionVars false
namespace Am
open Spec
variable {F : Type} [Rt F]

/-- C117, as stated: runs in states that differ only in the layout of messages end the same, in such states. -/
def LayoutFree (F : Type) [Rt F] : Prop :=
  ∀ (net : Net), SeesRequests net → ∀ (es : List (Expr F)) (s s' : St F), SameButLaid net.multipart s s' →
    (runBlock net es s).1 = (runBlock net es s').1 ∧ SameButLaid net.multipart (runBlock net es s).2 (runBlock net es s').2

theorem inserted_shown (ctx : Context F) : inserted ctx.inner = shown ctx := rfl

/-- **C117**, for one message: filled with values that stay in their lines, messages that differ only in layout are the same request with the same content. -/
theorem c117_message (mp : List Part → Option (List UInt8)) (ctx ctx' : Context F) (m m' : Str) (hc : ctx.inner = ctx'.inner) (h : LaidText m m')
    (hv : StaysInLine ctx.inner m) : SameRequest mp (render ctx m) (render ctx' m') := by
  obtain ⟨ps, ps', h1, h2, h3⟩ := h
  unfold SameRequest
  rw [← render_inner hc m', render_pieces ctx h1, render_pieces ctx h2]
  exact laid_request mp h3 fun n hn => hv ps n h1 hn

/-! ## Runs and texts -/

/-- **C117**, for blocks: in a run in which the values for placeholders stay in their lines, the layout of messages changes nothing. -/
theorem c117_block_partial (net : Net) (hnet : SeesRequests net) (es : List (Expr F)) (s s' : St F) (hs : SameButLaid net.multipart s s')
    (h : RunStaysInLine net es s) :
    (runBlock net es s).1 = (runBlock net es s').1 ∧ SameButLaid net.multipart (runBlock net es s).2 (runBlock net es s').2 :=
  changed_block (fun mp ctx ctx' m m' => c117_message mp ctx ctx' m m') net hnet es s s' hs h

/-- **C117**, for texts: evaluating two texts whose messages differ only in layout. -/
theorem c117_text_partial (net : Net) (hnet : SeesRequests net) (text text' : Str) (is is' : List (Item F)) (h1 : Accepted text is) (h2 : Accepted text' is')
    (h : Each LaidItem is is') (s s' : St F) (hs : SameButLaid net.multipart s s')
    (hv : RunStaysInLine net (is.foldl addItem ⟨[], [], []⟩).exprs { s with ctx := s.ctx.extend (is.foldl addItem ⟨[], [], []⟩).requests }) :
    (evalText net text s).1 = (evalText net text' s').1 ∧ SameButLaid net.multipart (evalText net text s).2 (evalText net text' s').2 :=
  changed_text (fun mp ctx ctx' m m' => c117_message mp ctx ctx' m m') net hnet text text' is is' h1 h2 h s s' hs hv

/-- **C117**, for tests: the two texts have the same tests. -/
theorem c117_tests (text text' : Str) (is is' : List (Item F)) (h1 : Accepted text is) (h2 : Accepted text' is') (h : Each LaidItem is is') :
    ∃ src src', parse (F := F) text = .ok src ∧ parse (F := F) text' = .ok src' ∧ src.tests = src'.tests ∧ src.exprs = src'.exprs ∧
      Each LaidDefinition src.requests src'.requests :=
  changed_tests text text' is is' h1 h2 h

/-! ## Values that do not stay in their lines -/

/-- A placeholder in front of other pieces. -/
theorem pieces_var {x : Char} {rest : Str} {ps : List Piece} (hx : isWordStart x = true) (h : Pieces rest ps) : Pieces ('{' :: x :: '}' :: rest) (.hole [x] :: ps) :=
  .hole (h := ['{', x, '}']) ⟨[], [], x, [], rfl, rfl, (fun _ h => (nomatch h)), (fun _ h => (nomatch h)), hx, (fun _ h => (nomatch h))⟩ h

/-- A header with a placeholder, then a header that is indented or not. -/
theorem laid_indented (g : Str) (hg : ∀ c ∈ g, isWs c = true ∧ c ≠ '\n') :
    LaidText (c!"GET http://h/\nA: {x}\n" ++ g ++ c!"B: c") c!"GET http://h/\nA: {x}\nB: c" := by
  have hgap : Gap (g.map .lit) := by
    intro p hp
    obtain ⟨c, hc, rfl⟩ := List.mem_map.1 hp
    exact ⟨c, rfl, hg c hc⟩
  have hno : '{' ∉ g ++ c!"B: c" := by
    intro hc
    rcases List.mem_append.1 hc with hc | hc
    · exact absurd (hg _ hc).1 (by decide)
    · exact absurd hc (by decide)
  have nil : Gap [] := fun _ h => (nomatch h)
  refine ⟨c!"GET http://h/".map .lit ++ .lit '\n' :: (c!"A: ".map .lit ++ [.hole c!"x"] ++ .lit '\n' :: (g.map .lit ++ c!"B: c".map .lit)),
    c!"GET http://h/".map .lit ++ .lit '\n' :: (c!"A: ".map .lit ++ [.hole c!"x"] ++ .lit '\n' :: c!"B: c".map .lit), ?_, ?_, ?_⟩
  · have h0 : Pieces ('\n' :: (g ++ c!"B: c")) (.lit '\n' :: (g.map .lit ++ c!"B: c".map .lit)) := by
      have := pieces_plain (a := '\n' :: (g ++ c!"B: c")) (b := []) (by intro hc; rcases List.mem_cons.1 hc with hc | hc; cases hc; exact hno hc) .nil
      simpa using this
    have := pieces_plain (a := c!"GET http://h/\nA: ") (by decide) (pieces_var (x := 'x') rfl h0)
    simpa using this
  · have h0 : Pieces c!"\nB: c" (.lit '\n' :: c!"B: c".map .lit) := by
      have := pieces_plain (a := c!"\nB: c") (b := []) (by decide) .nil
      simpa using this
    have := pieces_plain (a := c!"GET http://h/\nA: ") (by decide) (pieces_var (x := 'x') rfl h0)
    simpa using this
  · have hw : LaidWords (c!"GET http://h/".map .lit) (c!"GET http://h/".map .lit) := .one _ (by unfold Unbroken; decide)
    have hb := LaidHead.last _ (c!"B: c".map .lit) [] [] (c!"B: c".map .lit) [] hgap nil nil nil (.same _ (by unfold Unbroken; decide))
    have ha := LaidHead.line [] (c!"A: ".map .lit ++ [.hole c!"x"]) [] _ [] (c!"A: ".map .lit ++ [.hole c!"x"]) [] _ nil nil nil nil
      (.same _ (by unfold Unbroken; decide)) ⟨'A', by decide, by decide⟩ hb
    have := Laid.more [] _ [] _ [] _ [] _ (fun _ h => (nomatch h)) nil (fun _ h => (nomatch h)) nil hw ⟨'G', by decide, by decide⟩ ha
    simpa using this

/-- **C117** is false when a value has a blank line: then the next header is part of the body, with its indentation. -/
theorem c117_false : ¬LayoutFree F := by
  intro h
  have := (h (refusing ⟨0, 0, 0, 0, 0, 0, 0, 0, 0, 0⟩) (fun _ _ _ _ _ _ => rfl) [.call c!"f" []]
    ⟨⟨[(c!"x", .str c!"1\n\n")], [(c!"f", (c!"GET http://h/\nA: {x}\n  B: c", []))], []⟩, [], []⟩
    ⟨⟨[(c!"x", .str c!"1\n\n")], [(c!"f", (c!"GET http://h/\nA: {x}\nB: c", []))], []⟩, [], []⟩
    ⟨rfl, .cons ⟨rfl, laid_indented c!"  " (by decide), rfl⟩ .nil, rfl, .nil, rfl⟩).2.sent
  have e : Each (SameRequest fun _ => none) [c!"GET http://h/\nA: 1\n\n\n  B: c"] [c!"GET http://h/\nA: 1\n\n\nB: c"] := this
  cases e with
  | cons e _ => exact absurd e (by unfold SameRequest; decide +kernel)

/-- Concrete case: a run that stays in its lines. -/
example (k : Clocks) : RunStaysInLine (F := F) (refusing k) [.call c!"f" []] ⟨⟨[(c!"x", .str c!"1")], [(c!"f", (c!"GET http://h/{x}", []))], []⟩, [], []⟩ := by
  have hp : Pieces c!"GET http://h/{x}" (c!"GET http://h/".map .lit ++ [.hole c!"x"]) := by
    have := pieces_plain (a := c!"GET http://h/") (by decide) (pieces_var (x := 'x') rfl .nil)
    simpa using this
  have hv : StaysInLine (F := F) [(c!"x", .str c!"1")] c!"GET http://h/{x}" := by
    intro ps n h1 h2
    rw [pieces_unique h1 hp] at h2
    have : n = c!"x" := by simpa using h2
    subst this
    exact ⟨by unfold inserted; simp only [amGet, if_true, Value.display]; decide, by unfold inserted; simp only [amGet, if_true, Value.display]; decide⟩
  have e : evalBlock (careful StaysInLine (callAt (refusing k) 1)) .null [.call c!"f" []]
        (⟨⟨[(c!"x", .str c!"1")], [(c!"f", (c!"GET http://h/{x}", []))], []⟩, [], []⟩ : St F) =
      evalBlock (callAt (refusing k) 1) .null [.call c!"f" []] ⟨⟨[(c!"x", .str c!"1")], [(c!"f", (c!"GET http://h/{x}", []))], []⟩, [], []⟩ := by
    have : careful StaysInLine (callAt (refusing k) 1) c!"f" [] (⟨⟨[(c!"x", .str c!"1")], [(c!"f", (c!"GET http://h/{x}", []))], []⟩, [], []⟩ : St F) =
      callAt (refusing k) 1 c!"f" [] ⟨⟨[(c!"x", .str c!"1")], [(c!"f", (c!"GET http://h/{x}", []))], []⟩, [], []⟩ := if_pos hv
    simp only [evalBlock, evalExpr, evalList]
    show M.bind (M.bind (M.pure []) fun vs => careful _ _ _ vs) _ _ = M.bind (M.bind (M.pure []) fun vs => callAt _ _ _ vs) _ _
    unfold M.bind M.pure
    dsimp only
    rw [this]
  unfold RunStaysInLine RunKeeps
  rw [e]
  intro h
  cases (h : (Res.ok _ : Res (Value F)) = .hang)

/-- Concrete case: an indented message with blanks around a colon, and the same message with carriage returns and without blanks. -/
example : LaidText c!"\n  POST   http://h/\n    A : {x}\n\nend\n" c!"POST http://h/\r\nA:{x}\r\n\r\nend\r\n" := by
  have nil : Gap [] := fun _ h => (nomatch h)
  have gap : ∀ s : Str, (∀ c ∈ s, isWs c = true ∧ c ≠ '\n') → Gap (s.map .lit) := by
    intro s hs p hp
    obtain ⟨c, hc, rfl⟩ := List.mem_map.1 hp
    exact ⟨c, rfl, hs c hc⟩
  refine ⟨c!"\n  POST   http://h/\n    A : ".map .lit ++ .hole c!"x" :: c!"\n\nend\n".map .lit,
    c!"POST http://h/\r\nA:".map .lit ++ .hole c!"x" :: c!"\r\n\r\nend\r\n".map .lit, ?_, ?_, ?_⟩
  · have h0 := pieces_plain (a := c!"\n\nend\n") (b := []) (by decide) .nil
    rw [List.append_nil, List.append_nil] at h0
    exact pieces_plain (a := c!"\n  POST   http://h/\n    A : ") (by decide) (pieces_var (x := 'x') rfl h0)
  · have h0 := pieces_plain (a := c!"\r\n\r\nend\r\n") (b := []) (by decide) .nil
    rw [List.append_nil, List.append_nil] at h0
    exact pieces_plain (a := c!"POST http://h/\r\nA:") (by decide) (pieces_var (x := 'x') rfl h0)
  · have hb : LaidBody (c!"end\n".map .lit) (c!"end\r\n".map .lit) :=
      .line (c!"end".map .lit) [.lit '\n'] [.lit '\r', .lit '\n'] [] [] (by unfold Unbroken; decide) (by decide) (.inl rfl) (.inr rfl) (.last [] (by unfold Unbroken; decide))
    have h1 := LaidHead.blank [] _ [.lit '\r'] _ nil (gap c!"\r" (by decide)) hb
    have hc := LaidLine.colon (c!"A".map .lit) (c!" ".map .lit) (c!" ".map .lit) [] [] [.hole c!"x"] (by
      intro p hp
      obtain ⟨c, hc, rfl⟩ := List.mem_map.1 hp
      exact ⟨c, rfl, by revert c; decide⟩) (gap _ (by decide)) (gap _ (by decide)) nil nil (by unfold Unbroken; decide)
    have h2 := LaidHead.line (c!"    ".map .lit) _ [] _ [] _ [.lit '\r'] _ (gap _ (by decide)) nil nil (gap c!"\r" (by decide)) hc ⟨'A', by decide, by decide⟩ h1
    have hw := LaidWords.cons (c!"POST".map .lit) (c!"   ".map .lit) _ (c!" ".map .lit) _ (by unfold Unbroken; decide) (gap _ (by decide)) (gap _ (by decide)) (by decide) (by decide)
      (.one (c!"http://h/".map .lit) (by unfold Unbroken; decide))
    exact Laid.more (c!"\n  ".map .lit) _ [] _ [] _ [.lit '\r'] _ (by
      intro p hp
      obtain ⟨c, hc, rfl⟩ := List.mem_map.1 hp
      exact ⟨c, rfl, by revert c; decide⟩) nil (fun _ h => (nomatch h)) (gap c!"\r" (by decide)) hw ⟨'P', by decide, by decide⟩ h2

end Am
