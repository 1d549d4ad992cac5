import Verif.Spec.Injection
import Verif.Props.Templates
import Verif.Props.Requests
/-! # C60: substituted values stay inside the header they are written in -/
set_option linter.unusedSimpArgs false
set_option linter.unusedSectionVars false
namespace Am
open Spec
variable {F : Type} [Rt F]

/-! ## Headers of a text, line by line -/

/-- The headers found in the text after the request line. -/
def textHeaders (s : Str) : List Header := (headerLines (lines s)).1

theorem stripCr_split (l : Str) : ∃ w, l = stripCr l ++ w ∧ ∀ c ∈ w, isWs c = true := by
  by_cases h : l.getLast? = some '\r'
  · obtain ⟨l', e⟩ := List.getLast?_eq_some_iff.1 h
    refine ⟨['\r'], ?_, by decide⟩
    rw [e, stripCr_cr]
  · exact ⟨[], by rw [stripCr_id h, List.append_nil], by simp⟩

theorem trim_stripCr (l : Str) : trim (stripCr l) = trim l := by
  obtain ⟨w, e, hw⟩ := stripCr_split l
  have := trim_pad (a := []) (s := stripCr l) (by simp) hw
  rw [List.nil_append, ← e] at this
  exact this.symm

/-- One line of a header block, as it acts on the headers: stop, nothing, or one header. -/
theorem headerLines_cons (l : Str) (ls : List Str) : (headerLines (l :: ls)).1 =
    if (trim l).isEmpty then [] else (headerOf l).toList ++ (headerLines ls).1 := by
  rw [headerLines]
  by_cases h : (trim l).isEmpty = true
  · rw [if_pos h, if_pos h]
  · rw [if_neg h, if_neg h]
    cases headerOf l <;> rfl

theorem headerOf_trim {l l' : Str} (h : trim l = trim l') : headerOf l = headerOf l' := by unfold headerOf; rw [h]

theorem headers_cons {l : Str} (hl : '\n' ∉ l) (r : Str) : textHeaders (l ++ '\n' :: r) =
    if (trim l).isEmpty then [] else (headerOf l).toList ++ textHeaders r := by
  unfold textHeaders
  rw [lines_cons hl, headerLines_cons, trim_stripCr, headerOf_trim (trim_stripCr l)]

theorem headers_last {l : Str} (hl : '\n' ∉ l) : textHeaders l = if (trim l).isEmpty then [] else (headerOf l).toList := by
  by_cases h : l = []
  · subst h; rfl
  · unfold textHeaders
    rw [lines_last hl h, headerLines_cons]
    simp [headerLines]

theorem headers_blank : ∀ w : Str, (∀ c ∈ w, isWs c = true) → textHeaders w = [] := by
  intro w hw
  rcases lines_split w with rfl | ⟨h, -⟩ | ⟨l, r, hl, rfl⟩
  · rfl
  · rw [headers_last h, if_pos (by rw [trim_empty.2 hw]; rfl)]
  · rw [headers_cons hl, if_pos (by rw [trim_empty.2 fun c hc => hw c (by simp [hc])]; rfl)]

/-- White space at the end of the text does not change the headers. -/
theorem headers_pad : ∀ (n : Nat) (s w : Str), s.length ≤ n → (∀ c ∈ w, isWs c = true) → textHeaders (s ++ w) = textHeaders s := by
  intro n
  induction n with
  | zero =>
    intro s w hs hw
    have : s = [] := List.eq_nil_of_length_eq_zero (by omega)
    subst this
    exact headers_blank _ hw
  | succ n ih =>
    intro s w hs hw
    have pad : ∀ (l x : Str), (∀ c ∈ x, isWs c = true) → trim (l ++ x) = trim l := fun l x hx => by
      have := trim_pad (a := []) (s := l) (by simp) hx
      simpa using this
    rcases lines_split s with rfl | ⟨h, -⟩ | ⟨l, r, hl, rfl⟩
    · exact headers_blank _ hw
    · rw [headers_last h]
      rcases lines_split w with rfl | ⟨h', -⟩ | ⟨l, r, hl, rfl⟩
      · rw [List.append_nil, headers_last h]
      · rw [headers_last (by simp [h, h']), pad s w hw, headerOf_trim (pad s w hw)]
      · have hw1 : ∀ c ∈ l, isWs c = true := fun c hc => hw c (by simp [hc])
        have hw2 : ∀ c ∈ r, isWs c = true := fun c hc => hw c (by simp [hc])
        rw [← List.append_assoc, headers_cons (by simp [h, hl]), pad s l hw1, headerOf_trim (pad s l hw1), headers_blank r hw2, List.append_nil]
    · rw [List.append_assoc, List.cons_append, headers_cons hl, headers_cons hl, ih r w (by simp at hs; omega) hw]

/-- The headers of a request, from the text after its first line. -/
theorem ofStr_headers (mp : List Part → Option (List UInt8)) {f r : Str} {c : Char} (hf : '\n' ∉ f) (hc : f.head? = some c) (hw : isWs c = false) :
    (Request.ofStr mp (f ++ '\n' :: r)).1.headers = textHeaders r := by
  have key : ∀ l ls, lines (trim (f ++ '\n' :: r)) = l :: ls → (Request.ofStr mp (f ++ '\n' :: r)).1.headers = (headerLines ls).1 := by
    intro l ls h
    unfold Request.ofStr
    rw [h]
  obtain ⟨a, b, e, ha, hb, h1, h2⟩ := trim_trims (f ++ '\n' :: r)
  have ha0 : a = [] := by
    cases a with
    | nil => rfl
    | cons x a =>
      cases f with
      | nil => cases hc
      | cons y f =>
        cases hc
        simp at e
        have := ha x List.mem_cons_self
        rw [← e.1, hw] at this
        cases this
  subst ha0
  rw [List.nil_append] at e
  rcases List.append_eq_append_iff.1 e with ⟨x, e1, e2⟩ | ⟨x, e1, e2⟩
  · -- the line feed is after f: trim = f ++ x
    cases x with
    | nil =>
      rw [List.append_nil] at e1
      rw [List.nil_append] at e2
      have hr : ∀ c ∈ r, isWs c = true := fun c hc => hb c (by rw [← e2]; simp [hc])
      rw [key f [] (by rw [e1]; exact lines_last hf (by rintro rfl; cases hc)), headers_blank r hr]
      rfl
    | cons y x =>
      simp at e2
      obtain ⟨rfl, rfl⟩ := e2
      rw [key (stripCr f) (lines x) (by rw [e1]; exact lines_cons hf x), headers_pad _ x b (Nat.le_refl _) hb]
      rfl
  · -- trim is a prefix of f
    have hr : ∀ c ∈ r, isWs c = true := fun c hc => hb c (by rw [e2]; simp [hc])
    have hn : '\n' ∉ trim (f ++ '\n' :: r) := fun hm => hf (by rw [e1]; simp [hm])
    have hne : trim (f ++ '\n' :: r) ≠ [] := by
      intro h0
      rw [trim_empty] at h0
      have := h0 c (by simp [List.mem_of_head? hc])
      rw [hw] at this
      cases this
    rw [key _ [] (lines_last hn hne), headers_blank r hr]
    rfl

/-! ## Pieces and line ends -/

theorem pieces_line {m : Str} {ps : List Piece} (h : Pieces m ps) : ∀ {l r : Str}, m = l ++ '\n' :: r → '\n' ∉ l → HolesOnLines m →
    ∃ pl pr, Pieces l pl ∧ Pieces r pr ∧ ps = pl ++ .lit '\n' :: pr := by
  induction h with
  | nil => intro l r e; simp at e
  | @hole hh name rest ps hi hp ih =>
    intro l r e hl ho
    have hno : '\n' ∉ hh := ho [] hh name rest (by simp) hi
    rcases List.append_eq_append_iff.1 e with ⟨x, e1, e2⟩ | ⟨x, e1, e2⟩
    · obtain ⟨pl, pr, i1, i2, i3⟩ := ih e2 (fun hm => hl (by rw [e1]; simp [hm]))
        (fun x' h' n' y' e' hi' => ho (hh ++ x') h' n' y' (by rw [e']; simp) hi')
      exact ⟨.hole name :: pl, pr, by rw [e1]; exact .hole hi i1, i2, by rw [i3]; rfl⟩
    · cases x with
      | nil =>
        rw [List.nil_append] at e2
        rw [List.append_nil] at e1
        obtain ⟨pl, pr, i1, i2, i3⟩ := ih (l := []) e2.symm (by simp)
          (fun x' h' n' y' e' hi' => ho (hh ++ x') h' n' y' (by rw [e']; simp) hi')
        exact ⟨.hole name :: pl, pr, by rw [← e1, ← List.append_nil hh]; exact .hole hi i1, i2, by rw [i3]; rfl⟩
      | cons y x =>
        simp at e2
        exact absurd (by rw [e1, ← e2.1]; simp) hno
  | @lit c rest ps hno hp ih =>
    intro l r e hl ho
    cases l with
    | nil =>
      simp at e
      obtain ⟨rfl, rfl⟩ := e
      exact ⟨[], ps, .nil, hp, rfl⟩
    | cons y l =>
      simp at e
      obtain ⟨rfl, e⟩ := e
      obtain ⟨pl, pr, i1, i2, i3⟩ := ih e (fun hm => hl (List.mem_cons_of_mem _ hm))
        (fun x' h' n' y' e' hi' => ho (c :: x') h' n' y' (by rw [e']; simp) hi')
      refine ⟨.lit c :: pl, pr, .lit (fun h' n' t hi' e' => ?_) i1, i2, by rw [i3]; rfl⟩
      apply hno h' n' (t ++ '\n' :: r) hi'
      rw [← List.append_assoc, ← e', e]
      rfl

/-- A text without an opening brace in front of another text is kept as it is. -/
theorem pieces_plain {a b : Str} {ps : List Piece} (ha : '{' ∉ a) (h : Pieces b ps) : Pieces (a ++ b) (a.map .lit ++ ps) := by
  induction a with
  | nil => exact h
  | cons c a ih =>
    refine .lit (fun h' n' t hi e => ?_) (ih fun hm => ha (List.mem_cons_of_mem _ hm))
    obtain ⟨x, y, z, w, e1, -⟩ := hi
    rw [e1] at e
    simp at e
    exact ha (by rw [e.1]; simp)

theorem fillBy_append (text : Str → Str) (a b : List Piece) : fillBy text (a ++ b) = fillBy text a ++ fillBy text b := by
  induction a with
  | nil => rfl
  | cons p a ih => cases p <;> simp [fillBy, ih]

theorem fillBy_plain (text : Str → Str) (a : Str) : fillBy text (a.map .lit) = a := by
  induction a with
  | nil => rfl
  | cons c a ih => simp [fillBy, ih]

/-- The text of a variable in a template. -/
def shown (ctx : Context F) (name : Str) : Str := match amGet name ctx.inner with | some v => v.display | none => c!"null"

theorem render_pieces (ctx : Context F) {m : Str} {ps : List Piece} (h : Pieces m ps) : render ctx m = fillBy (shown ctx) ps := by
  obtain ⟨qs, h1, h2, h3⟩ := c27_render ctx m
  rw [h3, ← h2 ps h]
  rfl

theorem pieces_exist (m : Str) : ∃ ps, Pieces m ps := by
  obtain ⟨ps, h1, -⟩ := findAll_pieces m.length 0 m (Nat.le_refl _)
  exact ⟨ps, h1⟩

/-- Substitution acts on the lines of a template separately. -/
theorem render_line (ctx : Context F) {l r : Str} (hl : '\n' ∉ l) (ho : HolesOnLines (l ++ '\n' :: r)) :
    render ctx (l ++ '\n' :: r) = render ctx l ++ '\n' :: render ctx r := by
  obtain ⟨ps, hp⟩ := pieces_exist (l ++ '\n' :: r)
  obtain ⟨pl, pr, h1, h2, h3⟩ := pieces_line hp rfl hl ho
  rw [render_pieces ctx hp, render_pieces ctx h1, render_pieces ctx h2, h3, fillBy_append]
  rfl

theorem render_plain (ctx : Context F) {a : Str} (ha : '{' ∉ a) (b : Str) : render ctx (a ++ b) = a ++ render ctx b := by
  obtain ⟨ps, hp⟩ := pieces_exist b
  rw [render_pieces ctx (pieces_plain ha hp), render_pieces ctx hp, fillBy_append, fillBy_plain]

theorem render_nil (ctx : Context F) : render ctx [] = [] := by rw [render_pieces ctx .nil]; rfl

theorem render_same (ctx : Context F) {a : Str} (ha : '{' ∉ a) : render ctx a = a := by
  have := render_plain ctx ha []
  simpa [render_nil] using this

theorem pieces_mentions {m : Str} {ps : List Piece} (h : Pieces m ps) : ∀ name, .hole name ∈ ps → Mentions m name := by
  induction h with
  | nil => intro name hm; cases hm
  | @hole hh nm rest ps hi _ ih =>
    intro name hm
    rcases List.mem_cons.1 hm with e | hm
    · cases e; exact ⟨[], hh, rest, by simp, hi⟩
    · obtain ⟨x, h', y, e, hi'⟩ := ih name hm
      exact ⟨hh ++ x, h', y, by rw [e]; simp, hi'⟩
  | @lit c rest ps _ _ ih =>
    intro name hm
    rcases List.mem_cons.1 hm with e | hm
    · cases e
    · obtain ⟨x, h', y, e, hi'⟩ := ih name hm
      exact ⟨c :: x, h', y, by rw [e]; simp, hi'⟩

theorem fillBy_mem {text : Str → Str} {ps : List Piece} {c : Char} (h : c ∈ fillBy text ps) :
    .lit c ∈ ps ∨ ∃ name, .hole name ∈ ps ∧ c ∈ text name := by
  induction ps with
  | nil => cases h
  | cons p ps ih =>
    cases p with
    | lit d =>
      rcases List.mem_cons.1 h with e | h
      · exact Or.inl (by simp [e])
      · rcases ih h with i | ⟨n, i1, i2⟩
        · exact Or.inl (by simp [i])
        · exact Or.inr ⟨n, by simp [i1], i2⟩
    | hole nm =>
      rcases List.mem_append.1 (show c ∈ text nm ++ fillBy text ps from h) with e | h
      · exact Or.inr ⟨nm, by simp, e⟩
      · rcases ih h with i | ⟨n, i1, i2⟩
        · exact Or.inl (by simp [i])
        · exact Or.inr ⟨n, by simp [i1], i2⟩

theorem pieces_lit_mem {m : Str} {ps : List Piece} (h : Pieces m ps) {c : Char} (hm : .lit c ∈ ps) : c ∈ m := by
  induction h with
  | nil => cases hm
  | hole _ _ ih => exact List.mem_append_right _ (ih (by simpa using hm))
  | lit _ _ ih =>
    rcases List.mem_cons.1 hm with e | hm
    · cases e; simp
    · exact List.mem_cons_of_mem _ (ih hm)

/-- A line stays one line when the values put into it are lines. -/
theorem render_no_lf (ctx : Context F) {l : Str} (hl : '\n' ∉ l) (hv : ∀ name, Mentions l name → '\n' ∉ shown ctx name) : '\n' ∉ render ctx l := by
  obtain ⟨ps, hp⟩ := pieces_exist l
  rw [render_pieces ctx hp]
  intro hm
  rcases fillBy_mem hm with h | ⟨n, h1, h2⟩
  · exact hl (pieces_lit_mem hp h)
  · exact hv n (pieces_mentions hp n h1) h2

theorem holesOnLines_left {a b : Str} (h : HolesOnLines (a ++ b)) : HolesOnLines a :=
  fun x h' n y e hi => h x h' n (y ++ b) (by rw [e]; simp) hi

theorem holesOnLines_right {a b : Str} (h : HolesOnLines (a ++ b)) : HolesOnLines b :=
  fun x h' n y e hi => h (a ++ x) h' n y (by rw [e]; simp) hi

theorem mentions_left {a b name : Str} (h : Mentions a name) : Mentions (a ++ b) name := by
  obtain ⟨x, h', y, e, hi⟩ := h
  exact ⟨x, h', y ++ b, by rw [e]; simp, hi⟩

theorem mentions_right {a b name : Str} (h : Mentions b name) : Mentions (a ++ b) name := by
  obtain ⟨x, h', y, e, hi⟩ := h
  exact ⟨a ++ x, h', y, by rw [e]; simp, hi⟩

theorem not_brace_of_ws {l : Str} (h : ∀ c ∈ l, isWs c = true) : '{' ∉ l := fun hm => by
  have := h _ hm
  exact absurd this (by decide)

theorem trim_isEmpty_false {l : Str} {c : Char} (hc : c ∈ l) (hw : isWs c = false) : (trim l).isEmpty = false := by
  cases h : (trim l).isEmpty with
  | false => rfl
  | true =>
    rw [List.isEmpty_iff, trim_empty] at h
    rw [h c hc] at hw
    cases hw

theorem count_trim (s : Str) : (trim s).countP (fun c => !isWs c) = s.countP fun c => !isWs c := by
  obtain ⟨a, b, e, ha, hb, -, -⟩ := trim_trims s
  have zero : ∀ w : Str, (∀ c ∈ w, isWs c = true) → w.countP (fun c => !isWs c) = 0 := fun w h => by
    rw [List.countP_eq_zero]
    intro c hc
    simp [h c hc]
  conv => rhs; rw [e]
  rw [List.countP_append, List.countP_append, zero a ha, zero b hb]
  omega

/-- A value that is cut at a line feed stays the same only if nothing but white space is cut off. -/
theorem trim_cut {l w : Str} (h : trim (l ++ '\n' :: w) = trim l) : ∀ c ∈ w, isWs c = true := by
  have h1 := congrArg (List.countP fun c => !isWs c) h
  rw [count_trim, count_trim, List.countP_append, List.countP_cons] at h1
  have h2 : w.countP (fun c => !isWs c) = 0 := by omega
  rw [List.countP_eq_zero] at h2
  intro c hc
  simpa using h2 c hc

/-- The headers of a text that starts with a header whose value is cut. -/
theorem headers_cut {n l t : Str} (hn : '\n' ∉ n) (h2 : ':' ∉ n) (hl : '\n' ∉ l) :
    textHeaders (n ++ ':' :: (l ++ '\n' :: t)) = ⟨trim n, trim l⟩ :: textHeaders t := by
  have e : n ++ ':' :: (l ++ '\n' :: t) = (n ++ ':' :: l) ++ '\n' :: t := by simp
  rw [e, headers_cons (by simp [hn, hl]), headerOf_field h2, trim_isEmpty_false (c := ':') (by simp) (by decide)]
  rfl

theorem headers_ws_line {w r : Str} (hw : ∀ c ∈ w, isWs c = true) : textHeaders (w ++ '\n' :: r) = [] := by
  rcases lines_split w with rfl | ⟨h, -⟩ | ⟨l, t, hl, rfl⟩
  · rw [headers_cons (by simp), if_pos (by rfl)]
  · rw [headers_cons h, if_pos (by rw [trim_empty.2 hw]; rfl)]
  · rw [List.append_assoc, List.cons_append, headers_cons hl, if_pos (by rw [trim_empty.2 fun c hc => hw c (by simp [hc])]; rfl)]

/-- The written headers with substituted values. -/
def written (ctx : Context F) (hs : List (Str × Str)) : List Header := hs.map fun p => ⟨trim p.1, trim (render ctx p.2)⟩

/-- The headers of the substituted text are the written headers with substituted values exactly if the values stay inside their headers. -/
theorem template_headers (ctx : Context F) {r : Str} {hs : List (Str × Str)} (h : HeaderTemplate r hs) : HolesOnLines r →
    (textHeaders (render ctx r) = written ctx hs ↔ ValuesKept (hs.map fun p => render ctx p.2)) := by
  induction h with
  | blankEnd r hb hn =>
    intro _
    rw [render_same ctx (not_brace_of_ws hb), headers_blank r hb]
    exact ⟨fun _ => trivial, fun _ => rfl⟩
  | blank l r hb hn =>
    intro ho
    rw [render_line ctx hn ho, render_same ctx (not_brace_of_ws hb), headers_cons hn, if_pos (by rw [trim_empty.2 hb]; rfl)]
    exact ⟨fun _ => trivial, fun _ => rfl⟩
  | skipEnd l hn h1 h2 =>
    intro ho
    rw [render_same ctx h1, headers_last hn, headerOf_none h2]
    refine ⟨fun _ => trivial, fun _ => ?_⟩
    simp [written]
  | skip l r hs hne hn h1 h2 _ ih =>
    intro ho
    obtain ⟨c, hc, hw⟩ := hne
    rw [render_line ctx hn ho, render_same ctx h1, headers_cons hn, headerOf_none h2, trim_isEmpty_false hc hw]
    have e : l ++ '\n' :: r = (l ++ ['\n']) ++ r := by simp
    rw [e] at ho
    have := ih (holesOnLines_right ho)
    simpa using this
  | fieldEnd n v hn h1 h2 hv' =>
    intro ho
    have e : n ++ ':' :: v = (n ++ [':']) ++ v := by simp
    have hr : render ctx (n ++ ':' :: v) = n ++ ':' :: render ctx v := by
      rw [e, render_plain ctx (by simp [h1])]; simp
    rw [hr]
    show _ ↔ ∀ l w', render ctx v = l ++ '\n' :: w' → _
    show textHeaders (n ++ ':' :: render ctx v) = [⟨trim n, trim (render ctx v)⟩] ↔ _
    generalize render ctx v = w
    by_cases hm : '\n' ∈ w
    · obtain ⟨l, t, rfl, hl⟩ := mem_first hm
      rw [headers_cut hn h2 hl]
      constructor
      · intro h l' w' he hl'
        obtain ⟨rfl, rfl⟩ := first_unique he hl hl'
        simp only [List.cons.injEq, Header.mk.injEq, true_and] at h
        exact trim_cut h.1.symm
      · intro h
        have ht := h l t rfl hl
        have e2 := trim_pad (a := []) (s := l) (b := '\n' :: t) (by simp) (by
          intro c hc
          rcases List.mem_cons.1 hc with rfl | hc
          · decide
          · exact ht c hc)
        rw [List.nil_append] at e2
        rw [headers_blank t ht, e2]
    · rw [headers_last (by simp [hn, hm]), headerOf_field h2, trim_isEmpty_false (c := ':') (by simp) (by decide)]
      refine ⟨fun _ l w' he _ => ?_, fun _ => rfl⟩
      exact absurd (by rw [he]; simp) hm
  | field n v r hs hn h1 h2 hv' _ ih =>
    intro ho
    have e : n ++ ':' :: v = (n ++ [':']) ++ v := by simp
    have hr : render ctx (n ++ ':' :: v) = n ++ ':' :: render ctx v := by
      rw [e, render_plain ctx (by simp [h1])]; simp
    have e3 : n ++ ':' :: v ++ '\n' :: r = (n ++ ':' :: v ++ ['\n']) ++ r := by simp
    rw [render_line ctx (by simp [hn, hv']) ho, hr]
    rw [e3] at ho
    have ih := ih (holesOnLines_right ho)
    show textHeaders (n ++ ':' :: render ctx v ++ '\n' :: render ctx r) = ⟨trim n, trim (render ctx v)⟩ :: written ctx hs ↔ _
    show _ ↔ ValuesKept (render ctx v :: hs.map fun p => render ctx p.2)
    generalize render ctx v = w
    have e4 : ∀ x : Str, n ++ ':' :: w ++ '\n' :: x = n ++ ':' :: (w ++ '\n' :: x) := by simp
    rw [e4]
    by_cases hm : '\n' ∈ w
    · obtain ⟨l, t, rfl, hl⟩ := mem_first hm
      have e5 : (l ++ '\n' :: t) ++ '\n' :: render ctx r = l ++ '\n' :: (t ++ '\n' :: render ctx r) := by simp
      rw [e5, headers_cut hn h2 hl]
      cases hs with
      | nil =>
        show _ ↔ ∀ l' w', l ++ '\n' :: t = l' ++ '\n' :: w' → _
        constructor
        · intro h l' w' he hl'
          obtain ⟨rfl, rfl⟩ := first_unique he hl hl'
          simp only [List.cons.injEq, Header.mk.injEq, true_and] at h
          exact trim_cut h.1.symm
        · intro h
          have ht := h l t rfl hl
          have e2 := trim_pad (a := []) (s := l) (b := '\n' :: t) (by simp) (by
            intro c hc
            rcases List.mem_cons.1 hc with rfl | hc
            · decide
            · exact ht c hc)
          rw [List.nil_append] at e2
          rw [headers_ws_line ht, e2]
          rfl
      | cons p hs =>
        constructor
        · intro h
          exfalso
          simp only [List.cons.injEq, Header.mk.injEq, true_and] at h
          rw [headers_ws_line (trim_cut h.1.symm)] at h
          cases h.2
        · intro h
          exact absurd hm h.1
    · rw [headers_cut hn h2 hm]
      have hk : ValuesKept (w :: hs.map fun p => render ctx p.2) ↔ ValuesKept (hs.map fun p => render ctx p.2) := by
        cases hs with
        | nil => exact ⟨fun _ => trivial, fun _ l w' he _ => absurd (by rw [he]; simp) hm⟩
        | cons p hs => exact ⟨fun h => h.2, fun h => ⟨hm, h⟩⟩
      rw [hk, ← ih]
      simp

theorem valuesKept_of {ws : List Str} (h : ∀ w ∈ ws, '\n' ∉ w) : ValuesKept ws := by
  induction ws with
  | nil => trivial
  | cons w ws ih =>
    have hw := h w (by simp)
    cases ws with
    | nil => exact fun l w' he _ => absurd (by rw [he]; simp) hw
    | cons x ws => exact ⟨hw, ih fun y hy => h y (by simp [hy])⟩

theorem template_lines {r : Str} {hs : List (Str × Str)} (h : HeaderTemplate r hs) : ∀ p ∈ hs, '\n' ∉ p.2 := by
  induction h with
  | blankEnd | blank | skipEnd => intro p hp; cases hp
  | skip _ _ _ _ _ _ _ _ ih => exact ih
  | fieldEnd n v _ _ _ hv => intro p hp; rw [List.mem_singleton] at hp; subst hp; exact hv
  | field n v r hs _ _ _ hv _ ih =>
    intro p hp
    rcases List.mem_cons.1 hp with rfl | hp
    · exact hv
    · exact ih p hp

/-! ## C60 -/

/-- C60, exactly when it holds: let a template consist of white space, a request line that starts with a character other than a brace,
and further text with the written headers `hs`, with placeholders in header values, the rest of the request line and the body, and let no
variable mentioned in the request line contain a line feed. Then the request has exactly the written headers (the same number in the same
order with the same names, each value being the written value with its placeholders replaced) if and only if the values stay inside their
headers; what the variables in the body are bound to does not matter.
Not covered: line feeds in the request line. -/
theorem c60_exact_partial (mp : List Part → Option (List UInt8)) (ctx : Context F) {m pre first rest : Str} {c : Char} {hs : List (Str × Str)}
    (hm : m = pre ++ (c :: first) ++ '\n' :: rest) (hpre : ∀ x ∈ pre, isWs x = true) (hc : isWs c = false) (hb : c ≠ '{') (hf : '\n' ∉ first)
    (hs' : HeaderTemplate rest hs) (ho : HolesOnLines m) (hv : ∀ name, Mentions first name → '\n' ∉ shown ctx name) :
    (Request.ofStr mp (render ctx m)).1.headers = (hs.map fun p => ⟨trim p.1, trim (render ctx p.2)⟩) ↔ ValuesKept (hs.map fun p => render ctx p.2) := by
  have hcn : c ≠ '\n' := by rintro rfl; exact absurd hc (by decide)
  have hcf : '\n' ∉ c :: first := by simp [hf, Ne.symm hcn]
  have e1 : m = (pre ++ [c]) ++ (first ++ '\n' :: rest) := by rw [hm]; simp
  have e2 : m = (pre ++ c :: first ++ ['\n']) ++ rest := by rw [hm]; simp
  have hr : render ctx m = pre ++ (c :: render ctx first ++ '\n' :: render ctx rest) := by
    have h2 : HolesOnLines (first ++ '\n' :: rest) := holesOnLines_right (a := pre ++ [c]) (by rw [← e1]; exact ho)
    rw [e1, render_plain ctx (by simp [not_brace_of_ws hpre, Ne.symm hb]), render_line ctx hf h2]
    simp
  have hfl : '\n' ∉ render ctx first := render_no_lf ctx hf hv
  have htrim : ∀ s : Str, Request.ofStr mp (pre ++ s) = Request.ofStr mp s := by
    intro s
    have := trim_pad (s := s) (b := []) hpre (by simp)
    rw [List.append_nil] at this
    unfold Request.ofStr
    rw [this]
  rw [hr, htrim, ofStr_headers mp (f := c :: render ctx first) (by simp [hfl, Ne.symm hcn]) rfl hc]
  exact template_headers ctx hs' (by rw [e2] at ho; exact holesOnLines_right ho)

/-- The last value may end with a line feed; an earlier value may not, and no value may have text after a line feed. -/
example : ValuesKept [c!" a", c!" b\n \n"] ∧ ¬ ValuesKept [c!" a\n", c!" b"] ∧ ¬ ValuesKept [c!" a\nX: 1"] := by
  refine ⟨⟨by decide, fun l w' he hl => ?_⟩, fun h => absurd h.1 (by decide), fun h => ?_⟩
  · obtain ⟨-, rfl⟩ := first_unique (a := c!" b") (b := c!" \n") he (by decide) hl
    decide
  · exact absurd (h c!" a" c!"X: 1" rfl (by decide) 'X' (by decide)) (by decide)

/-- C60, for values without line feeds: as long as the text of each variable mentioned in the request line and in the headers contains no
line feed, the request has exactly the written headers. Not covered (and false, see `c60_injection`): values that contain a line feed. -/
theorem c60_headers_partial (mp : List Part → Option (List UInt8)) (ctx : Context F) {m pre first rest : Str} {c : Char} {hs : List (Str × Str)}
    (hm : m = pre ++ (c :: first) ++ '\n' :: rest) (hpre : ∀ x ∈ pre, isWs x = true) (hc : isWs c = false) (hb : c ≠ '{') (hf : '\n' ∉ first)
    (hs' : HeaderTemplate rest hs) (ho : HolesOnLines m) (hv : ∀ name, Mentions first name → '\n' ∉ shown ctx name)
    (hh : ∀ p ∈ hs, ∀ name, Mentions p.2 name → '\n' ∉ shown ctx name) :
    (Request.ofStr mp (render ctx m)).1.headers = hs.map fun p => ⟨trim p.1, trim (render ctx p.2)⟩ := by
  refine (c60_exact_partial mp ctx hm hpre hc hb hf hs' ho hv).2 (valuesKept_of fun w hw => ?_)
  obtain ⟨p, hp, rfl⟩ := List.mem_map.1 hw
  exact render_no_lf ctx (template_lines hs' p hp) (hh p hp)

/-- C60 as stated is false: with `user` bound to a string containing a line feed, a template with one header gives a request with two. -/
theorem c60_injection (mp : List Part → Option (List UInt8)) :
    let m := c!"GET http://h/ HTTP/1.1\nX-User: {user}\n"
    let ctx : Context F := ⟨[(c!"user", .str c!"a\nX-Admin: yes")], [], []⟩
    HeaderTemplate c!"X-User: {user}\n" [(c!"X-User", c!" {user}")] ∧
      (Request.ofStr mp (render ctx m)).1.headers = [⟨c!"X-User", c!"a"⟩, ⟨c!"X-Admin", c!"yes"⟩] := by
  refine ⟨.field c!"X-User" c!" {user}" [] [] (by decide) (by decide) (by decide) (by decide) (.blankEnd _ (by simp) (by simp)), ?_⟩
  have : render (F := F) ⟨[(c!"user", .str c!"a\nX-Admin: yes")], [], []⟩ c!"GET http://h/ HTTP/1.1\nX-User: {user}\n" =
      c!"GET http://h/ HTTP/1.1\nX-User: a\nX-Admin: yes\n" := rfl
  rw [this]
  rfl

/-- A value can also end the headers: what follows in the template becomes the body (whose lines are joined, see C39). -/
theorem c60_cut (mp : List Part → Option (List UInt8)) :
    let m := c!"POST http://h/\nX: {user}\nKey: s\n\nb"
    let ctx : Context F := ⟨[(c!"user", .str c!"a\n\nc")], [], []⟩
    (Request.ofStr mp (render ctx m)).1.headers = [⟨c!"X", c!"a"⟩] ∧ (Request.ofStr mp (render ctx m)).1.body = c!"cKey: sb" := by
  intro m ctx
  have : render ctx m = c!"POST http://h/\nX: a\n\nc\nKey: s\n\nb" := rfl
  rw [this]
  exact ⟨rfl, rfl⟩

/-- A check for `HolesOnLines`. -/
def holesOk : Str → Bool
  | [] => true
  | c :: cs => (match matchAt (c :: cs) with
    | some (_, r) => !((c :: cs).take ((c :: cs).length - r.length)).contains '\n'
    | none => true) && holesOk cs

theorem holesOk_on_lines : ∀ m : Str, holesOk m = true → HolesOnLines m := by
  intro m h x hh name y e hi
  subst e
  induction x with
  | nil =>
    rw [List.nil_append] at h
    cases hc : hh ++ y with
    | nil => exact absurd (List.append_eq_nil_iff.1 hc).1 (hole_nonempty hi)
    | cons c cs =>
      rw [hc, holesOk, ← hc, matchAt_hole hi] at h
      simp at h
      exact h.1
  | cons c x ih =>
    rw [List.cons_append, List.cons_append, holesOk] at h
    exact ih (Bool.and_eq_true_iff.1 h).2

/-- The hypotheses of `c60_headers_partial` are met by a template with placeholders in the request line, in header values and in the body;
the value of `user` contains a colon and braces. -/
example (mp : List Part → Option (List UInt8)) :
    let ctx : Context F := ⟨[(c!"user", .str c!"a: {b}"), (c!"n", .int 7)], [], []⟩
    (Request.ofStr mp (render ctx c!"\n POST http://h/{n}\nX-User : {user}!\r\nY:{ z }\n\nb{n}")).1.headers =
      [⟨c!"X-User", c!"a: {b}!"⟩, ⟨c!"Y", c!"null"⟩] := by
  intro ctx
  have plain : ∀ name, '\n' ∉ shown ctx name := by
    intro name
    unfold shown
    simp only [ctx, amGet]
    split
    · rename_i v hv
      by_cases h1 : name = c!"user"
      · subst h1; cases hv; show '\n' ∉ c!"a: {b}"; decide
      · by_cases h2 : name = c!"n"
        · subst h2; cases hv; show '\n' ∉ c!"7"; decide
        · simp [Ne.symm h1, Ne.symm h2] at hv
    · decide
  refine (c60_headers_partial mp ctx (m := c!"\n POST http://h/{n}\nX-User : {user}!\r\nY:{ z }\n\nb{n}") (pre := c!"\n ") (c := 'P') (first := c!"OST http://h/{n}")
    (rest := c!"X-User : {user}!\r\nY:{ z }\n\nb{n}") (hs := [(c!"X-User ", c!" {user}!\r"), (c!"Y", c!"{ z }")]) rfl (by decide) (by decide) (by decide)
    (by decide) ?_ (holesOk_on_lines _ (by decide +kernel)) ?_ ?_).trans ?_
  · exact .field c!"X-User " c!" {user}!\r" _ _ (by decide) (by decide) (by decide) (by decide)
      (.field c!"Y" c!"{ z }" _ _ (by decide) (by decide) (by decide) (by decide) (.blank [] _ (by simp) (by simp)))
  · exact fun name _ => plain name
  · exact fun _ _ name _ => plain name
  · have e1 : render ctx c!" {user}!\r" = c!" a: {b}!\r" := rfl
    have e2 : render ctx c!"{ z }" = c!"null" := rfl
    simp only [List.map_cons, List.map_nil, e1, e2]
    rfl

end Am
