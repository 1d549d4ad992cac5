import Verif.Spec.Stdin
import Verif.Props.Silent
import Verif.Props.Policy
import Verif.Props.Bytes
import Verif.Props.Lexing
/-! # C101: the lines of the standard input -/
set_option linter.unusedSimpArgs false
set_option linter.unusedSectionVars false
namespace Am
open Spec
variable {F : Type} [Rt F]

/-- A byte below 128 at the end of a text is its last character. -/
theorem utf8_last {s : Str} {l : List UInt8} {b : UInt8} (h : utf8 s = l ++ [b]) (hb : b.toNat < 128) :
    ∃ s' c, s = s' ++ [c] ∧ utf8 s' = l ∧ c.toNat = b.toNat := by
  rcases List.eq_nil_or_concat s with rfl | ⟨s', c, rfl⟩
  · rw [utf8_nil] at h
    exact absurd h (by simp)
  · rw [List.concat_eq_append] at *
    have e : utf8 s' ++ String.utf8EncodeChar c = l ++ [b] := by
      rw [← h, utf8_append, utf8_cons, utf8_nil, List.append_nil]
    obtain ⟨x, y, hxy, -⟩ := encode_first c
    have hl : (String.utf8EncodeChar c).getLast? = some b := by
      have := congrArg List.getLast? e
      rw [List.getLast?_append, List.getLast?_append, hxy] at this
      rw [hxy]
      simpa using this
    have hc := utf8_small (List.mem_of_getLast? hl) hb
    have he : String.utf8EncodeChar c = [b] := by
      rw [utf8_ascii (by omega), hc]
      simp
    rw [he] at e
    exact ⟨s', c, rfl, List.append_cancel_right e, hc⟩

theorem notText_cr {l : List UInt8} (h : NotText l) : NotText (l ++ [13]) := by
  intro s hs
  obtain ⟨s', c, -, h2, -⟩ := utf8_last hs (by decide)
  exact h s' h2

theorem text_cr {l : List UInt8} {s : Str} (h : utf8 s = l) (hl : l.getLast? ≠ some 13) : s.getLast? ≠ some '\r' := by
  intro hs
  rcases List.eq_nil_or_concat s with rfl | ⟨s', c, rfl⟩
  · cases hs
  · rw [List.concat_eq_append] at *
    rw [List.getLast?_append] at hs
    simp only [List.getLast?_singleton, Option.some_or, Option.some.injEq] at hs
    subst hs
    rw [← h, utf8_append, utf8_cons, utf8_nil, List.append_nil, show String.utf8EncodeChar '\r' = [13] from by decide] at hl
    simp at hl

theorem chopEnd_lf {s : Str} (h : s.getLast? ≠ some '\r') : chopEnd (s ++ ['\n']) = s := by
  unfold chopEnd
  rw [if_pos (by simp), List.dropLast_concat, if_neg h]

theorem chopEnd_crlf (s : Str) : chopEnd (s ++ ['\r', '\n']) = s := by
  have : s ++ ['\r', '\n'] = (s ++ ['\r']) ++ ['\n'] := by simp
  unfold chopEnd
  rw [this, if_pos (by simp), List.dropLast_concat, if_pos (by simp), List.dropLast_concat]

theorem chopEnd_none {s : Str} (h : '\n' ∉ s) : chopEnd s = s := by
  unfold chopEnd
  rw [if_neg fun hl => h (List.mem_of_getLast? hl)]

theorem lineItem_bad {l : List UInt8} (h : NotText l) : lineItem l = .bad := by
  unfold lineItem
  cases hf : fromUtf8 l with
  | none => rfl
  | some s => exact absurd (utf8_of_fromUtf8 hf) (h s)

theorem lineItem_last {l : List UInt8} {i : Input} (hl : 10 ∉ l) (h : LineReads l i) : lineItem l = i := by
  cases h with
  | text s =>
    unfold lineItem
    rw [fromUtf8_utf8]
    exact congrArg Input.line (chopEnd_none fun hm => hl (utf8_lf_mem hm))
  | bad _ h => exact lineItem_bad h

theorem lineItem_lf {l : List UInt8} {i : Input} (hl : 10 ∉ l) (hr : l.getLast? ≠ some 13) (h : LineReads l i) : lineItem (l ++ [10]) = i := by
  unfold lineItem
  rcases textLine hl with ⟨s, rfl, -, h3⟩ | ⟨h1, h2⟩
  · rw [h3]
    dsimp only
    rw [chopEnd_lf (text_cr rfl hr)]
    generalize hu : utf8 s = l at h
    cases h with
    | text s' => rw [utf8_inj hu]
    | bad _ h => exact absurd hu (h s)
  · rw [h2]
    cases h with
    | text s => exact absurd rfl (h1 s)
    | bad _ h => rfl

theorem lineItem_crlf {l : List UInt8} {i : Input} (hl : 10 ∉ l) (h : LineReads l i) : lineItem (l ++ [13, 10]) = i := by
  cases h with
  | text s =>
    have e : utf8 s ++ [13, 10] = utf8 (s ++ ['\r', '\n']) := by
      rw [utf8_append, utf8_cons, utf8_cons, utf8_nil, show String.utf8EncodeChar '\r' = [13] from by decide, show String.utf8EncodeChar '\n' = [10] from by decide]
      rfl
    unfold lineItem
    rw [e, fromUtf8_utf8]
    exact congrArg Input.line (chopEnd_crlf s)
  | bad _ h =>
    have h1 := notText_cr h
    have h2 : (10 : UInt8) ∉ l ++ [13] := by simp [hl]
    have e : l ++ [13, 10] = l ++ [13] ++ [10] := by simp
    rw [e]
    unfold lineItem
    rcases textLine h2 with ⟨s, hs, -⟩ | ⟨-, h4⟩
    · exact absurd hs (h1 s)
    · rw [h4]

theorem stdinLines_line {l : List UInt8} (hl : 10 ∉ l) (rest : List UInt8) : ∀ cur, stdinLines cur (l ++ 10 :: rest) = lineItem (cur ++ l ++ [10]) :: stdinLines [] rest := by
  induction l with
  | nil => intro cur; simp [stdinLines]
  | cons b l ih =>
    intro cur
    have hb : b ≠ 10 := fun e => hl (by simp [e])
    rw [List.cons_append, stdinLines, if_neg hb, ih fun hm => hl (List.mem_cons_of_mem _ hm)]
    simp

theorem stdinLines_last {l : List UInt8} (hl : 10 ∉ l) : ∀ cur, stdinLines cur l = if cur ++ l = [] then [] else [lineItem (cur ++ l)] := by
  induction l with
  | nil => intro cur; simp [stdinLines]
  | cons b l ih =>
    intro cur
    have hb : b ≠ 10 := fun e => hl (by simp [e])
    rw [stdinLines, if_neg hb, ih fun hm => hl (List.mem_cons_of_mem _ hm)]
    simp

theorem lineReads_total (l : List UInt8) : ∃ i, LineReads l i := by
  by_cases h : ∃ s, utf8 s = l
  · obtain ⟨s, rfl⟩ := h
    exact ⟨_, .text s⟩
  · exact ⟨_, .bad l fun s hs => h ⟨s, hs⟩⟩

theorem inputLines_total : ∀ (n : Nat) (bs : List UInt8), bs.length ≤ n → ∃ is, InputLines bs is := by
  intro n
  induction n with
  | zero =>
    intro bs hn
    obtain rfl := List.eq_nil_of_length_eq_zero (Nat.le_zero.1 hn)
    exact ⟨[], .none⟩
  | succ n ih =>
    intro bs hn
    cases hc : bs.contains 10 with
    | false =>
      have hm : (10 : UInt8) ∉ bs := by simpa using hc
      by_cases hb : bs = []
      · subst hb; exact ⟨[], .none⟩
      · obtain ⟨i, hi⟩ := lineReads_total bs
        exact ⟨[i], .last bs i hb hm hi⟩
    | true =>
      obtain ⟨h1, h2⟩ := split_lf hc
      generalize bs.takeWhile (· ≠ 10) = l at h1 h2
      generalize (bs.dropWhile (· ≠ 10)).drop 1 = rest at h1
      subst h1
      obtain ⟨is, his⟩ := ih rest (by simp at hn; omega)
      by_cases hr : l.getLast? = some 13
      · obtain ⟨l', rfl⟩ : ∃ l', l = l' ++ [13] := by
          rcases List.eq_nil_or_concat l with rfl | ⟨l', c, rfl⟩
          · cases hr
          · rw [List.concat_eq_append] at *
            simp at hr
            exact ⟨l', by rw [hr]⟩
        obtain ⟨i, hi⟩ := lineReads_total l'
        refine ⟨i :: is, ?_⟩
        have := InputLines.crlf l' rest i is (fun hm => h2 (by simp [hm])) hi his
        simpa using this
      · obtain ⟨i, hi⟩ := lineReads_total l
        exact ⟨i :: is, .lf l rest i is h2 hr hi his⟩

theorem stdinLines_is {bs : List UInt8} {is : List Input} (h : InputLines bs is) : stdinLines [] bs = is := by
  induction h with
  | none => rfl
  | last l i h1 h2 h3 => rw [stdinLines_last h2, List.nil_append, if_neg h1, lineItem_last h2 h3]
  | lf l rest i is h1 h2 h3 _ ih => rw [stdinLines_line h1, List.nil_append, lineItem_lf h1 h2 h3, ih]
  | crlf l rest i is h1 h2 _ ih =>
    have e : l ++ 13 :: 10 :: rest = (l ++ [13]) ++ 10 :: rest := by simp
    rw [e, stdinLines_line (by simp [h1]), List.nil_append, ih]
    have e2 : l ++ [13] ++ [10] = l ++ [13, 10] := by simp
    rw [e2, lineItem_crlf h1 h2]

/-- C101: the lines of the REPL are the lines of the standard input, whatever its bytes are. -/
theorem c101_lines (bytes : List UInt8) (items : List Input) : stdinLines [] bytes = items ↔ InputLines bytes items := by
  constructor
  · intro h
    obtain ⟨is, his⟩ := inputLines_total bytes.length bytes (Nat.le_refl _)
    rw [← h, stdinLines_is his]
    exact his
  · exact stdinLines_is

theorem typed_lines (last : Str) (hl : OneLine last) : ∀ lines : List (Str × Bool), (∀ l ∈ lines, OneLine l.1 ∧ l.1.getLast? ≠ some '\r') →
    InputLines (utf8 (typed lines ++ last)) (lines.map (fun l => .line l.1) ++ if last = [] then [] else [.line last])
  | [], _ => by
    by_cases h : last = []
    · subst h; exact .none
    · rw [if_neg h]
      refine .last _ _ ?_ (fun hm => utf8_no_lf hl 10 hm rfl) (.text last)
      intro e
      exact h (utf8_inj (by rw [show typed [] ++ last = last from rfl] at e; rw [e, utf8_nil]))
  | (l, crlf) :: lines, h => by
    have ih := typed_lines last hl lines fun x hx => h x (List.mem_cons_of_mem _ hx)
    obtain ⟨h1, h2⟩ := h (l, crlf) List.mem_cons_self
    have hn : (10 : UInt8) ∉ utf8 l := fun hm => utf8_no_lf h1 10 hm rfl
    cases crlf with
    | false =>
      have e : utf8 (typed ((l, false) :: lines) ++ last) = utf8 l ++ 10 :: utf8 (typed lines ++ last) := by
        simp only [typed]
        simp only [utf8_append, utf8_cons, utf8_nil, show String.utf8EncodeChar '\n' = [10] from by decide, if_false, Bool.false_eq_true]
        simp
      rw [e]
      refine .lf _ _ _ _ hn ?_ (.text l) ih
      intro hg
      rcases List.eq_nil_or_concat l with rfl | ⟨l', c, rfl⟩
      · rw [utf8_nil] at hg; cases hg
      · rw [List.concat_eq_append] at *
        rcases List.eq_nil_or_concat (utf8 (l' ++ [c])) with hu | ⟨u, b, hu⟩
        · rw [hu] at hg; cases hg
        · rw [List.concat_eq_append] at hu
          rw [hu] at hg
          simp only [List.getLast?_append, List.getLast?_singleton, Option.some_or, Option.some.injEq] at hg
          subst hg
          obtain ⟨s', c', h3, -, h5⟩ := utf8_last hu (by decide)
          obtain ⟨-, rfl⟩ : l' = s' ∧ c = c' := by simpa using h3
          apply h2
          have : c = '\r' := Char.toNat_inj.1 (by rw [h5]; rfl)
          simp [this]
    | true =>
      have e : utf8 (typed ((l, true) :: lines) ++ last) = utf8 l ++ 13 :: 10 :: utf8 (typed lines ++ last) := by
        simp only [typed]
        simp only [utf8_append, utf8_cons, utf8_nil, show String.utf8EncodeChar '\n' = [10] from by decide, show String.utf8EncodeChar '\r' = [13] from by decide, if_true]
        simp
      rw [e]
      exact .crlf _ _ _ _ hn (.text l) ih

/-- C101: lines written one after the other, each with either kind of line end, are read as they were written; the last one needs no line end. -/
theorem c101_typed (net : Net) (lines : List (Str × Bool)) (last : Str) (h : ∀ l ∈ lines, OneLine l.1 ∧ l.1.getLast? ≠ some '\r') (hl : OneLine last) :
    amRepl (F := F) net (utf8 (typed lines ++ last)) = repl net (lines.map (fun l => .line l.1) ++ if last = [] then [] else [.line last]) [] [] := by
  unfold amRepl
  rw [stdinLines_is (typed_lines last hl lines h)]

/-- C101: in particular the kind of line end does not matter. -/
theorem c101_ends (net : Net) (lines lines' : List (Str × Bool)) (last : Str) (h : ∀ l ∈ lines, OneLine l.1 ∧ l.1.getLast? ≠ some '\r') (hl : OneLine last)
    (he : lines.map Prod.fst = lines'.map Prod.fst) :
    amRepl (F := F) net (utf8 (typed lines ++ last)) = amRepl net (utf8 (typed lines' ++ last)) := by
  have h' : ∀ l ∈ lines', OneLine l.1 ∧ l.1.getLast? ≠ some '\r' := by
    intro l hm
    obtain ⟨x, hx, e⟩ := List.mem_map.1 (he ▸ List.mem_map_of_mem hm : l.1 ∈ lines.map Prod.fst)
    rw [← e]
    exact h x hx
  rw [c101_typed net lines last h hl, c101_typed net lines' last h' hl]
  have e : ∀ ls : List (Str × Bool), ls.map (fun l => Input.line l.1) = (ls.map Prod.fst).map Input.line := fun ls => by simp
  rw [e, e, he]

/-- C101: a line that is not UTF-8 is passed over, whatever is before and after it: the run is that of the input without it. -/
theorem c101_skip (net : Net) (before after : List Input) (s : St F) : replLoop net (before ++ .bad :: after) s = replLoop net (before ++ after) s := by
  induction before generalizing s with
  | nil => rfl
  | cons i before ih =>
    cases i with
    | bad => exact ih s
    | line t =>
      simp only [List.cons_append, replLoop]
      split
      · rfl
      · split
        · exact ih s
        · change M.bind _ _ s = M.bind _ _ s
          unfold M.bind
          dsimp only
          generalize evalText net t s = q
          obtain ⟨r, s'⟩ := q
          cases r <;> first | rfl | exact ih s'

theorem layout_chars {b : Bool} {s : Str} {ts : List Token} (h : Layout b s ts) : ∀ t ∈ ts, t.kind = .Template → ∀ c ∈ t.literal, c ∈ s := by
  induction h with
  | eof ws _ =>
    intro t ht hk
    obtain rfl := List.mem_singleton.1 ht
    cases hk
  | tok closed ws t rest ts _ h1 _ _ ih =>
    intro u hu hk c hc
    rcases List.mem_cons.1 hu with rfl | hu
    · have : c ∈ spell u := by
        unfold spell
        rw [hk]
        simp [hc]
      simp [this]
    · simp [ih u hu hk c hc]
  | openString ws lit _ _ =>
    intro t ht hk
    simp only [List.mem_cons, List.not_mem_nil, or_false] at ht
    rcases ht with rfl | rfl <;> cases hk
  | openTemplate ws lit _ _ =>
    intro t ht hk c hc
    simp only [List.mem_cons, List.not_mem_nil, or_false] at ht
    rcases ht with rfl | rfl
    · simp at hc; simp [hc]
    · cases hk

theorem reads_templates {items : List (Item F)} {ts : List Token} (h : ReadsSource items ts) :
    ∀ n m as, Item.request n m as ∈ items → ∃ t ∈ ts, t.kind = .Template ∧ t.literal = m := by
  induction h with
  | nil t _ => intro n m as hm; cases hm
  | cons i is ti sm ts hi _ _ ih =>
    intro n m as hm
    rcases List.mem_cons.1 hm with rfl | hm
    · cases hi with
      | request r n m h1 h2 h3 => exact ⟨m, by simp, h3, rfl⟩
      | requestAsserts r n m lb rb es ts h1 h2 h3 h4 h5 h6 => exact ⟨m, by simp, h3, rfl⟩
    · obtain ⟨t, ht, h⟩ := ih n m as hm
      exact ⟨t, by simp [ht], h⟩

/-- C101: the message of a request consists of characters of the text that defines it. -/
theorem c101_message (text : Str) (src : Source F) (h : parse text = .ok src) (name message : Str) (asserts : List (Expr F))
    (hr : amGet name src.requests = some (message, asserts)) : ∀ c ∈ message, c ∈ text := by
  obtain ⟨items, h1, rfl⟩ := c09_tokens_kept text src h
  have h2 : amGet name (items.foldl addItem (⟨[], [], []⟩ : Source F)).requests = lastRequest name items := by
    simpa [amGet] using (fold_tables items (⟨[], [], []⟩ : Source F)).2.1 name
  rw [h2] at hr
  have hm : Item.request name message asserts ∈ items := by
    clear h1 h2 h
    induction items with
    | nil => cases hr
    | cons i items ih =>
      cases i with
      | expr e => exact List.mem_cons_of_mem _ (ih hr)
      | test n b => exact List.mem_cons_of_mem _ (ih hr)
      | request n m as =>
        unfold lastRequest at hr
        cases hl : lastRequest name items with
        | some p => rw [hl] at hr; cases hr; exact List.mem_cons_of_mem _ (ih hl)
        | none =>
          rw [hl] at hr
          simp only [Option.none_or] at hr
          split at hr
          · rename_i e; subst e; cases hr; exact List.mem_cons_self
          · cases hr
  obtain ⟨t, h3, h4, rfl⟩ := reads_templates h1 _ _ _ hm
  obtain ⟨b, hl⟩ := segment_layout text
  exact layout_chars hl t h3 h4

theorem oneLine_extend {text : Str} {src : Source F} {ctx : Context F} (hp : parse text = .ok src) (ht : OneLine text) (h : OneLineRequests ctx.requests) :
    OneLineRequests (ctx.extend src.requests).requests := by
  intro name message asserts hn
  have he := extend_request ctx hp name
  unfold Context.request at he
  rw [he] at hn
  cases hs : amGet name src.requests with
  | none => rw [hs] at hn; exact h _ _ _ hn
  | some p => rw [hs] at hn; cases hn; exact fun hc => ht (c101_message text src hp _ _ _ hs _ hc)

theorem evalText_requests (net : Net) (text : Str) (s : St F) :
    (evalText net text s).2.ctx.requests = s.ctx.requests ∨
    ∃ src : Source F, parse text = .ok src ∧ (evalText net text s).2.ctx.requests = (s.ctx.extend src.requests).requests := by
  cases hp : (parse text : Res (Source F)) with
  | err e => unfold evalText; rw [hp]; exact .inl rfl
  | panic => unfold evalText; rw [hp]; exact .inl rfl
  | hang => unfold evalText; rw [hp]; exact .inl rfl
  | ok src =>
    refine .inr ⟨src, rfl, ?_⟩
    have h1 := c19_requests_fixed net src.exprs { s with ctx := s.ctx.extend src.requests }
    rw [evalText_ok s hp]
    generalize runBlock net src.exprs { s with ctx := s.ctx.extend src.requests } = q at h1
    obtain ⟨r, s'⟩ := q
    cases r <;> exact h1

theorem oneLine_session (net : Net) : ∀ (input : List Input) (s : St F), OneLineRequests s.ctx.requests → (∀ text, .line text ∈ input → OneLine text) →
    OneLineRequests (replLoop net input s).2.ctx.requests
  | [], _, h, _ => h
  | .bad :: rest, s, h, ht => oneLine_session net rest s h fun t hm => ht t (List.mem_cons_of_mem _ hm)
  | .line text :: rest, s, h, ht => by
    have hr : ∀ s, OneLineRequests s.ctx.requests → OneLineRequests (replLoop net rest s).2.ctx.requests :=
      fun s h => oneLine_session net rest s h fun t hm => ht t (List.mem_cons_of_mem _ hm)
    have hx : OneLineRequests (evalText net text s).2.ctx.requests := by
      rcases evalText_requests net text s with e | ⟨src, hp, e⟩
      · rw [e]; exact h
      · rw [e]; exact oneLine_extend hp (ht text List.mem_cons_self) h
    unfold replLoop
    split
    · exact h
    · split
      · exact hr s h
      · change OneLineRequests (M.bind (evalText net text) (fun _ => replLoop net rest) s).2.ctx.requests
        unfold M.bind
        generalize evalText net text s = q at hx
        obtain ⟨r, s'⟩ := q
        cases r with
        | ok u => exact hr s' hx
        | err e => exact hx
        | panic => exact hx
        | hang => exact hx

theorem inputLines_one {bs : List UInt8} {is : List Input} (h : InputLines bs is) : ∀ text, .line text ∈ is → OneLine text := by
  have one : ∀ {l : List UInt8} {i : Input}, 10 ∉ l → LineReads l i → ∀ text, i = .line text → OneLine text := by
    intro l i hl hi text e
    cases hi with
    | text s => cases e; exact fun hm => hl (utf8_lf_mem hm)
    | bad => cases e
  induction h with
  | none => intro t hm; cases hm
  | last l i _ h2 h3 => intro t hm; exact one h2 h3 t (List.mem_singleton.1 hm).symm
  | lf l rest i is h1 _ h3 _ ih =>
    intro t hm
    rcases List.mem_cons.1 hm with e | hm
    · exact one h1 h3 t e.symm
    · exact ih t hm
  | crlf l rest i is h1 h3 _ ih =>
    intro t hm
    rcases List.mem_cons.1 hm with e | hm
    · exact one h1 h3 t e.symm
    · exact ih t hm

/-- C101: the line is the unit of input. Whatever is typed, no request that the session knows has a message of more than one line, so none has header
lines or a body of its own. -/
theorem c101_requests (net : Net) (bytes : List UInt8) : OneLineRequests (amRepl (F := F) net bytes).2.ctx.requests :=
  oneLine_session net _ _ (fun _ _ _ h => (nomatch h)) (inputLines_one ((c101_lines bytes _).1 rfl))

/-- The bytes of `let a = 1`, CR LF, `é` cut in half, LF, `a + 1`, LF, `exit`. -/
def typedBytes : List UInt8 := utf8 c!"let a = 1;\r\n" ++ [195, 10] ++ utf8 c!"a + 1;\nexit"

example : stdinLines [] typedBytes = [.line c!"let a = 1;", .bad, .line c!"a + 1;", .line c!"exit"] := by decide +kernel

example : (@amRepl F64 (rt64 ⟨true, fun c => [c], id⟩) luringNet typedBytes).2.out = c!"1\n2\n" := by decide +kernel

/-- A request with a header, which a file can define, is two lines at the prompt: the first defines a request without the header, the second is an error. -/
example : stdinLines [] (utf8 c!"request r `GET http://a/\nX: y`\n") = [.line c!"request r `GET http://a/", .line c!"X: y`"] ∧
    (match @parse F64 (rt64 ⟨true, fun c => [c], id⟩) c!"request r `GET http://a/\nX: y`" with
      | .ok src => (amGet c!"r" src.requests).map Prod.fst == some c!"GET http://a/\nX: y"
      | _ => false) = true ∧
    (match @parse F64 (rt64 ⟨true, fun c => [c], id⟩) c!"request r `GET http://a/" with
      | .ok src => (amGet c!"r" src.requests).map Prod.fst == some c!"GET http://a/"
      | _ => false) = true ∧
    (match @parse F64 (rt64 ⟨true, fun c => [c], id⟩) c!"X: y`" with
      | .err _ => true
      | _ => false) = true :=
  ⟨by decide +kernel, by decide +kernel, by decide +kernel, by decide +kernel⟩

end Am
