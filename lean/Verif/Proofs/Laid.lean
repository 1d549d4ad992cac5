import Verif.Spec.Laid
import Verif.Proofs.Message
/-! # The layout of messages: the same request (C117) -/
set_option linter.unusedSimpArgs false
namespace Am
open Spec

/-! ## Words, trimming, lines -/

theorem splitWs_gap {a g b : Str} (hg : ∀ c ∈ g, isWs c = true) (hne : g ≠ []) : splitWs (a ++ g ++ b) = splitWs a ++ splitWs b := by
  have key : ∀ (a acc : Str), splitWsAux acc (a ++ g ++ b) = splitWsAux acc a ++ splitWs b := by
    intro a
    induction a with
    | nil =>
      intro acc
      cases g with
      | nil => exact absurd rfl hne
      | cons c g =>
        have hc := hg c (List.mem_cons_self ..)
        have hr := splitWsAux_space g (fun c h => hg c (List.mem_cons_of_mem _ h)) b
        simp only [List.nil_append, List.cons_append, splitWsAux]
        rw [if_pos hc, hr]
        by_cases ha : acc.isEmpty = true
        · rw [if_pos ha, if_pos ha]; rfl
        · rw [if_neg ha, if_neg ha]; rfl
    | cons c a ih =>
      intro acc
      simp only [List.cons_append, splitWsAux]
      rw [ih, ih]
      by_cases hc : isWs c = true
      · rw [if_pos hc, if_pos hc]
        by_cases ha : acc.isEmpty = true
        · rw [if_pos ha, if_pos ha]
        · rw [if_neg ha, if_neg ha]; rfl
      · rw [if_neg hc, if_neg hc]
  exact key a []

theorem splitWs_end {a g : Str} (hg : ∀ c ∈ g, isWs c = true) : splitWs (a ++ g) = splitWs a := by
  by_cases hne : g = []
  · rw [hne, List.append_nil]
  · have := splitWs_gap (a := a) (b := []) hg hne
    rw [List.append_nil] at this
    rw [this]
    exact List.append_nil _

theorem splitWs_start {a g : Str} (hg : ∀ c ∈ g, isWs c = true) : splitWs (g ++ a) = splitWs a := splitWsAux_space g hg a

theorem splitWs_trimStart (s : Str) : splitWs (trimStart s) = splitWs s := by
  have h : s = s.takeWhile isWs ++ s.dropWhile isWs := (List.takeWhile_append_dropWhile ..).symm
  have hb : ∀ c ∈ s.takeWhile isWs, isWs c = true := tmpl_takeWhile_ws s
  calc splitWs (trimStart s) = splitWs (s.takeWhile isWs ++ s.dropWhile isWs) := (splitWs_start hb).symm
    _ = splitWs s := by rw [← h]
where
  tmpl_takeWhile_ws (s : Str) : ∀ c ∈ s.takeWhile isWs, isWs c = true := by
    intro c hc
    induction s with
    | nil => cases hc
    | cons x s ih =>
      rw [List.takeWhile_cons] at hc
      by_cases hx : isWs x = true
      · rw [if_pos hx] at hc
        rcases List.mem_cons.1 hc with rfl | hc
        · exact hx
        · exact ih hc
      · rw [if_neg hx] at hc; cases hc

theorem splitWs_trimEnd (s : Str) : splitWs (trimEnd s) = splitWs s := by
  obtain ⟨b, h1, h2, _⟩ := trimEnd_split s
  conv => rhs; rw [h1]
  exact (splitWs_end h2).symm

theorem splitWs_stripCr (s : Str) : splitWs (stripCr s) = splitWs s := by
  unfold stripCr
  by_cases h : s.getLast? = some '\r'
  · rw [if_pos h]
    obtain ⟨t, rfl⟩ : ∃ t, s = t ++ ['\r'] := ⟨s.dropLast, by
      obtain ⟨t, rfl⟩ := List.getLast?_eq_some_iff.1 h
      rw [List.dropLast_concat]⟩
    rw [List.dropLast_concat]
    exact (splitWs_end (by simp; decide)).symm
  · rw [if_neg h]

theorem splitWs_nil_iff {s : Str} : splitWs s = [] ↔ ∀ c ∈ s, isWs c = true := by
  constructor
  · intro h
    have := words_iff.2 h
    cases this with
    | none _ h => exact h
  · exact splitWs_blank

theorem trim_uncr (s : Str) : trim (stripCr s) = trim s := by
  unfold stripCr
  by_cases h : s.getLast? = some '\r'
  · rw [if_pos h]
    obtain ⟨t, rfl⟩ : ∃ t, s = t ++ ['\r'] := ⟨s.dropLast, by
      obtain ⟨t, rfl⟩ := List.getLast?_eq_some_iff.1 h
      rw [List.dropLast_concat]⟩
    rw [List.dropLast_concat]
    have := trim_pad (a := []) (b := ['\r']) (s := t) (by simp) (by simp; decide)
    exact this.symm
  · rw [if_neg h]

theorem trim_trimEnd (s : Str) : trim (trimEnd s) = trim s := by
  obtain ⟨b, h1, h2, _⟩ := trimEnd_split s
  have := trim_pad (a := []) (b := b) (s := trimEnd s) (by simp) h2
  rw [List.nil_append, ← h1] at this
  exact this.symm

theorem trimEnd_all {s : Str} (h : ∀ c ∈ s, isWs c = true) : trimEnd s = [] := by
  unfold trimEnd
  rw [dropWhile_all (by simpa using h)]
  rfl

theorem trimEnd_app {a s : Str} (h : ∃ c ∈ s, isWs c = false) : trimEnd (a ++ s) = a ++ trimEnd s := by
  obtain ⟨b, h1, h2, h3⟩ := trimEnd_split s
  have hne : trimEnd s ≠ [] := by
    intro he
    rw [he, List.nil_append] at h1
    obtain ⟨c, hc, hw⟩ := h
    rw [h1] at hc
    rw [h2 c hc] at hw
    cases hw
  unfold trimEnd
  conv => lhs; rw [h1]
  rw [List.reverse_append, List.reverse_append, List.append_assoc, dropWhile_pre (by simpa using h2)]
  have hl : (trimEnd s).reverse ≠ [] := by simpa using hne
  obtain ⟨x, t, hx⟩ := List.exists_cons_of_ne_nil hl
  have hxw : isWs x = false := by
    apply h3
    rw [← List.head?_reverse, hx]
    rfl
  have : ((trimEnd s).reverse ++ a.reverse).dropWhile isWs = (trimEnd s).reverse ++ a.reverse := by
    rw [hx, List.cons_append, List.dropWhile_cons, if_neg (by rw [hxw]; decide)]
  rw [this, List.reverse_append, List.reverse_reverse, List.reverse_reverse]
  rfl

theorem trimEnd_pad {s b : Str} (h : ∀ c ∈ b, isWs c = true) : trimEnd (s ++ b) = trimEnd s := by
  unfold trimEnd
  rw [List.reverse_append, dropWhile_pre (by simpa using h)]

theorem trimStart_app {s b : Str} (h : ∃ c ∈ s, isWs c = false) : trimStart (s ++ b) = trimStart s ++ b := by
  unfold trimStart
  induction s with
  | nil => obtain ⟨c, hc, _⟩ := h; cases hc
  | cons x s ih =>
    rw [List.cons_append, List.dropWhile_cons, List.dropWhile_cons]
    by_cases hx : isWs x = true
    · rw [if_pos hx, if_pos hx]
      apply ih
      obtain ⟨c, hc, hw⟩ := h
      rcases List.mem_cons.1 hc with rfl | hc
      · rw [hx] at hw; cases hw
      · exact ⟨c, hc, hw⟩
    · rw [if_neg hx, if_neg hx]; rfl

theorem trimStart_pad {b s : Str} (h : ∀ c ∈ b, isWs c = true) : trimStart (b ++ s) = trimStart s := dropWhile_pre h

theorem trimStart_solid {s : Str} (h : ∃ c ∈ s, isWs c = false) : ∃ c ∈ trimStart s, isWs c = false := by
  induction s with
  | nil => obtain ⟨c, hc, _⟩ := h; cases hc
  | cons x s ih =>
    unfold trimStart
    rw [List.dropWhile_cons]
    by_cases hx : isWs x = true
    · rw [if_pos hx]
      apply ih
      obtain ⟨c, hc, hw⟩ := h
      rcases List.mem_cons.1 hc with rfl | hc
      · rw [hx] at hw; cases hw
      · exact ⟨c, hc, hw⟩
    · rw [if_neg hx]
      exact ⟨x, List.mem_cons_self .., by simpa using hx⟩

theorem trimStart_mem {s : Str} {c : Char} (h : c ∈ trimStart s) : c ∈ s := (List.dropWhile_sublist _).mem h

theorem blank_or {s : Str} : (∀ c ∈ s, isWs c = true) ∨ ∃ c ∈ s, isWs c = false := by
  by_cases h : ∃ c ∈ s, isWs c = false
  · exact .inr h
  · refine .inl fun c hc => ?_
    cases hw : isWs c with
    | true => rfl
    | false => exact absurd ⟨c, hc, hw⟩ h

theorem solid_ne_nil {s : Str} (h : ∃ c ∈ trimEnd s, isWs c = false) : trimEnd s ≠ [] := by
  intro he; rw [he] at h; obtain ⟨c, hc, _⟩ := h; cases hc

theorem trimEnd_ne_nil {s : Str} (h : ∃ c ∈ s, isWs c = false) : trimEnd s ≠ [] := by
  intro he
  obtain ⟨b, h1, h2, _⟩ := trimEnd_split s
  rw [he, List.nil_append] at h1
  obtain ⟨c, hc, hw⟩ := h
  rw [h1] at hc
  rw [h2 c hc] at hw
  cases hw

theorem trimEnd_mem {s : Str} {c : Char} (h : c ∈ trimEnd s) : c ∈ s := by
  obtain ⟨b, h1, _⟩ := trimEnd_split s
  rw [h1]; exact List.mem_append_left _ h

theorem lines_more {l r : Str} (hl : '\n' ∉ l) (hr : ∃ c ∈ r, isWs c = false) : lines (trimEnd (l ++ '\n' :: r)) = stripCr l :: lines (trimEnd r) := by
  have : l ++ '\n' :: r = (l ++ ['\n']) ++ r := by simp
  rw [this, trimEnd_app hr, List.append_assoc]
  exact lines_cons hl _

theorem lines_done {l r : Str} (hr : ∀ c ∈ r, isWs c = true) : lines (trimEnd (l ++ '\n' :: r)) = lines (trimEnd l) := by
  rw [trimEnd_pad (by
    intro c hc
    rcases List.mem_cons.1 hc with rfl | hc
    · decide
    · exact hr c hc)]

theorem lines_single {l : Str} (hl : '\n' ∉ l) (h : ∃ c ∈ l, isWs c = false) : lines (trimEnd l) = [trimEnd l] :=
  lines_last (fun hm => hl (trimEnd_mem hm)) (trimEnd_ne_nil h)

theorem lines_blank {l : Str} (h : ∀ c ∈ l, isWs c = true) : lines (trimEnd l) = [] := by rw [trimEnd_all h]; rfl

/-! ## Filled pieces -/

variable {f : Str → Str}

theorem fill_append (a b : List Piece) : fillBy f (a ++ b) = fillBy f a ++ fillBy f b := by
  induction a with
  | nil => rfl
  | cons p a ih => cases p <;> simp [fillBy, ih]

theorem fill_space {g : List Piece} (h : Space g) : ∀ c ∈ fillBy f g, isWs c = true := by
  induction g with
  | nil => intro c hc; cases hc
  | cons p g ih =>
    obtain ⟨x, rfl, hx⟩ := h p (List.mem_cons_self ..)
    intro c hc
    simp only [fillBy] at hc
    rcases List.mem_cons.1 hc with rfl | hc
    · exact hx
    · exact ih (fun p hp => h p (List.mem_cons_of_mem _ hp)) c hc

theorem gap_space {g : List Piece} (h : Gap g) : Space g := fun p hp => let ⟨c, h1, h2, _⟩ := h p hp; ⟨c, h1, h2⟩

theorem fill_gap {g : List Piece} (h : Gap g) : ∀ c ∈ fillBy f g, isWs c = true := fill_space (gap_space h)

theorem fill_gap_lf {g : List Piece} (h : Gap g) : '\n' ∉ fillBy f g := by
  induction g with
  | nil => intro hc; cases hc
  | cons p g ih =>
    obtain ⟨x, rfl, hx, hn⟩ := h p (List.mem_cons_self ..)
    intro hc
    simp only [fillBy] at hc
    rcases List.mem_cons.1 hc with hc | hc
    · exact hn hc.symm
    · exact ih (fun p hp => h p (List.mem_cons_of_mem _ hp)) hc

theorem fill_mem {l : List Piece} {c : Char} (hc : c ∈ fillBy f l) : .lit c ∈ l ∨ ∃ n, .hole n ∈ l ∧ c ∈ f n := by
  induction l with
  | nil => cases hc
  | cons p l ih =>
    cases p with
    | lit x =>
      simp only [fillBy] at hc
      rcases List.mem_cons.1 hc with rfl | hc
      · exact .inl (List.mem_cons_self ..)
      · rcases ih hc with h | ⟨n, h1, h2⟩
        · exact .inl (List.mem_cons_of_mem _ h)
        · exact .inr ⟨n, List.mem_cons_of_mem _ h1, h2⟩
    | hole n =>
      simp only [fillBy] at hc
      rcases List.mem_append.1 hc with hc | hc
      · exact .inr ⟨n, List.mem_cons_self .., hc⟩
      · rcases ih hc with h | ⟨n, h1, h2⟩
        · exact .inl (List.mem_cons_of_mem _ h)
        · exact .inr ⟨n, List.mem_cons_of_mem _ h1, h2⟩

theorem mem_fill {l : List Piece} {c : Char} (hc : .lit c ∈ l) : c ∈ fillBy f l := by
  induction l with
  | nil => cases hc
  | cons p l ih =>
    rcases List.mem_cons.1 hc with rfl | hc
    · exact List.mem_cons_self ..
    · have := ih hc
      cases p with
      | lit x => exact List.mem_cons_of_mem _ this
      | hole n => exact List.mem_append_right _ this

/-- The placeholders are filled with texts that stay in their lines. -/
def Neat (f : Str → Str) (l : List Piece) : Prop := ∀ n, .hole n ∈ l → InLine (f n)

theorem Neat.left {a b : List Piece} (h : Neat f (a ++ b)) : Neat f a := fun n hn => h n (List.mem_append_left _ hn)
theorem Neat.right {a b : List Piece} (h : Neat f (a ++ b)) : Neat f b := fun n hn => h n (List.mem_append_right _ hn)
theorem Neat.tail {p : Piece} {a : List Piece} (h : Neat f (p :: a)) : Neat f a := fun n hn => h n (List.mem_cons_of_mem _ hn)

theorem fill_oneLine {l : List Piece} (h : Unbroken l) (hn : Neat f l) : '\n' ∉ fillBy f l := by
  intro hc
  rcases fill_mem hc with h1 | ⟨n, h1, h2⟩
  · exact h h1
  · exact (hn n h1).1 h2

theorem fill_noCr {l : List Piece} (h : .lit '\r' ∉ l) (hn : Neat f l) : '\r' ∉ fillBy f l := by
  intro hc
  rcases fill_mem hc with h1 | ⟨n, h1, h2⟩
  · exact h h1
  · exact (hn n h1).2 h2

theorem fill_solid {l : List Piece} (h : Solid l) : ∃ c ∈ fillBy f l, isWs c = false := let ⟨c, h1, h2⟩ := h; ⟨c, mem_fill h1, h2⟩

theorem stripCr_none {l : Str} (h : '\r' ∉ l) : stripCr l = l := stripCr_id fun hl => h (List.mem_of_getLast? hl)

/-! ## Bodies -/

theorem lineEnd_fill {e : List Piece} (h : LineEnd e) (l r : Str) (hl : '\n' ∉ l) (hc : '\r' ∉ l) :
    ((∀ c ∈ l ++ fillBy f e ++ r, isWs c = true) ↔ (∀ c ∈ l, isWs c = true) ∧ ∀ c ∈ r, isWs c = true) ∧
    ((∃ c ∈ r, isWs c = false) → lines (trimEnd (l ++ fillBy f e ++ r)) = l :: lines (trimEnd r)) ∧
    ((∀ c ∈ r, isWs c = true) → lines (trimEnd (l ++ fillBy f e ++ r)) = lines (trimEnd l)) := by
  have hw : ∀ c ∈ fillBy f e, isWs c = true := by
    rcases h with rfl | rfl <;> (simp only [fillBy]; decide)
  refine ⟨⟨fun h => ⟨fun c hc => h c (by simp [hc]), fun c hc => h c (by simp [hc])⟩, ?_⟩, ?_, ?_⟩
  · rintro ⟨h1, h2⟩ c hc
    rcases List.mem_append.1 hc with hc | hc
    · rcases List.mem_append.1 hc with hc | hc
      · exact h1 c hc
      · exact hw c hc
    · exact h2 c hc
  · intro hr
    rcases h with rfl | rfl
    · have := lines_more hl hr
      rw [stripCr_none hc] at this
      simpa [fillBy] using this
    · have := lines_more (l := l ++ ['\r']) (by simp [hl]) hr
      rw [stripCr_cr] at this
      simpa [fillBy] using this
  · intro hr
    rw [List.append_assoc, trimEnd_pad]
    intro c hc
    rcases List.mem_append.1 hc with hc | hc
    · exact hw c hc
    · exact hr c hc

theorem laidBody_lines {ps ps' : List Piece} (h : LaidBody ps ps') (hn : Neat f ps) :
    ((∀ c ∈ fillBy f ps, isWs c = true) ↔ ∀ c ∈ fillBy f ps', isWs c = true) ∧ lines (trimEnd (fillBy f ps)) = lines (trimEnd (fillBy f ps')) := by
  induction h with
  | last l _ => exact ⟨Iff.rfl, rfl⟩
  | line l e e' r r' h1 h2 h3 h4 _ ih =>
    obtain ⟨ih1, ih2⟩ := ih hn.right
    simp only [fill_append]
    have hl := fill_oneLine h1 hn.left.left
    have hc := fill_noCr h2 hn.left.left
    obtain ⟨a1, a2, a3⟩ := lineEnd_fill (f := f) h3 (fillBy f l) (fillBy f r) hl hc
    obtain ⟨b1, b2, b3⟩ := lineEnd_fill (f := f) h4 (fillBy f l) (fillBy f r') hl hc
    refine ⟨by rw [a1, b1, ih1], ?_⟩
    rcases blank_or (s := fillBy f r) with hb | hb
    · rw [a3 hb, b3 (ih1.1 hb)]
    · have hb' : ∃ c ∈ fillBy f r', isWs c = false := by
        rcases blank_or (s := fillBy f r') with hx | hx
        · obtain ⟨c, hc, hw⟩ := hb
          rw [ih1.2 hx c hc] at hw; cases hw
        · exact hx
      rw [a2 hb, b2 hb', ih2]

/-! ## Heads -/

/-- What a line says as a header: nothing at all, or whether it is one. -/
def lineSays (l : Str) : Bool × Option Header := ((trim l).isEmpty, headerOf l)

theorem headerLines_says {l l' : Str} {r r' : List Str} (h : lineSays l = lineSays l') (hb : (trim l).isEmpty = true → r = r')
    (hs : (trim l).isEmpty = false → headerLines r = headerLines r') : headerLines (l :: r) = headerLines (l' :: r') := by
  have h1 : (trim l).isEmpty = (trim l').isEmpty := congrArg Prod.fst h
  have h2 : headerOf l = headerOf l' := congrArg Prod.snd h
  simp only [headerLines]
  rw [← h1, ← h2]
  cases he : (trim l).isEmpty with
  | true => rw [if_pos rfl, if_pos rfl, hb he]
  | false =>
    rw [if_neg (by simp), if_neg (by simp), hs he]

theorem lineSays_trim {l l' : Str} (h : trim l = trim l') : lineSays l = lineSays l' := by
  unfold lineSays headerOf
  rw [h]

theorem laidLine_says {l l' : List Piece} (h : LaidLine l l') : trim (fillBy f l) = trim (fillBy f l') ∨
    (∃ c ∈ fillBy f l, isWs c = false) ∧ (∃ c ∈ fillBy f l', isWs c = false) ∧ ∃ n v m w, ':' ∉ n ∧ ':' ∉ m ∧ fillBy f l = n ++ ':' :: v ∧
      fillBy f l' = m ++ ':' :: w ∧ trim n = trim m ∧ trim v = trim w := by
  cases h with
  | same => exact .inl rfl
  | colon n g h g' h' v h1 h2 h3 h4 h5 h6 =>
    refine .inr ?_
    simp only [fill_append, fillBy]
    have hn : ':' ∉ fillBy f n := by
      intro hc
      rcases fill_mem hc with hc | ⟨x, hx, _⟩
      · obtain ⟨c, e, h, _⟩ := h1 _ hc
        cases e; exact h rfl
      · obtain ⟨c, e, _⟩ := h1 _ hx
        cases e
    have hg : ∀ {g}, Gap g → ':' ∉ fillBy f n ++ fillBy f g := by
      intro g hg hc
      rcases List.mem_append.1 hc with hc | hc
      · exact hn hc
      · exact absurd (fill_gap hg _ hc) (by decide)
    refine ⟨⟨':', by simp, by decide⟩, ⟨':', by simp, by decide⟩, fillBy f n ++ fillBy f g, fillBy f h ++ fillBy f v, fillBy f n ++ fillBy f g',
      fillBy f h' ++ fillBy f v, hg h2, hg h4, rfl, rfl, ?_, ?_⟩
    · have e : ∀ {g}, Gap g → trim (fillBy f n ++ fillBy f g) = trim (fillBy f n) := fun hg => by
        have := trim_pad (a := []) (s := fillBy f n) (by simp) (fill_gap (f := f) hg)
        simpa using this
      rw [e h2, e h4]
    · have e : ∀ {g}, Gap g → trim (fillBy f g ++ fillBy f v) = trim (fillBy f v) := fun hg => by
        have := trim_pad (b := []) (s := fillBy f v) (fill_gap (f := f) hg) (by simp)
        simpa using this
      rw [e h3, e h5]

theorem padded_says {a l b a' l' b' : Str} (ha : ∀ c ∈ a, isWs c = true) (hb : ∀ c ∈ b, isWs c = true) (ha' : ∀ c ∈ a', isWs c = true)
    (hb' : ∀ c ∈ b', isWs c = true) (h : trim l = trim l' ∨ (∃ c ∈ l, isWs c = false) ∧ (∃ c ∈ l', isWs c = false) ∧ ∃ n v m w, ':' ∉ n ∧ ':' ∉ m ∧
      l = n ++ ':' :: v ∧ l' = m ++ ':' :: w ∧ trim n = trim m ∧ trim v = trim w) : lineSays (a ++ l ++ b) = lineSays (a' ++ l' ++ b') := by
  rcases h with h | ⟨⟨c, hc, hw⟩, ⟨c', hc', hw'⟩, n, v, m, w, hn, hm, rfl, rfl, e1, e2⟩
  · exact lineSays_trim (by rw [trim_pad ha hb, trim_pad ha' hb', h])
  · unfold lineSays
    have f1 : ∀ {s : Str}, (∃ c ∈ s, isWs c = false) → (trim s).isEmpty = false := by
      rintro s ⟨c, hc, hw⟩
      cases h : (trim s).isEmpty with
      | false => rfl
      | true => rw [isEmpty_trim.1 h c hc] at hw; cases hw
    have f2 : ∀ {a n v b : Str}, (∀ c ∈ a, isWs c = true) → (∀ c ∈ b, isWs c = true) → ':' ∉ n → headerOf (a ++ (n ++ ':' :: v) ++ b) = some ⟨trim n, trim v⟩ := by
      intro a n v b ha hb hn
      have e : a ++ (n ++ ':' :: v) ++ b = (a ++ n) ++ ':' :: (v ++ b) := by simp
      rw [e, headerOf_field (by
        intro hc
        rcases List.mem_append.1 hc with hc | hc
        · exact not_mem_ws ha hc
        · exact hn hc)]
      have e1 := trim_pad (a := a) (b := []) (s := n) ha (by simp)
      have e2 := trim_pad (a := []) (b := b) (s := v) (by simp) hb
      simp only [List.append_nil, List.nil_append] at e1 e2
      rw [e1, e2]
    rw [f1 ⟨c, List.mem_append_left _ (List.mem_append_right _ hc), hw⟩, f1 ⟨c', List.mem_append_left _ (List.mem_append_right _ hc'), hw'⟩,
      f2 ha hb hn, f2 ha' hb' hm, e1, e2]

theorem headerLines_single (l : Str) : headerLines [l] = ((if (trim l).isEmpty then none else headerOf l).toList, []) := by
  simp only [headerLines]
  cases (trim l).isEmpty with
  | true => rfl
  | false =>
    rw [if_neg (by simp), if_neg (by simp)]
    cases headerOf l <;> rfl

theorem headerLines_one (l : Str) (hl : '\n' ∉ l) : headerLines (lines (trimEnd l)) = ((if (lineSays l).1 then none else (lineSays l).2).toList, []) := by
  rcases blank_or (s := l) with h | h
  · rw [lines_blank h]
    have : (lineSays l).1 = true := isEmpty_trim.2 h
    rw [this]
    rfl
  · rw [lines_single hl h, headerLines_single]
    have : lineSays (trimEnd l) = lineSays l := lineSays_trim (trim_trimEnd l)
    have h1 : (trim (trimEnd l)).isEmpty = (lineSays l).1 := congrArg Prod.fst this
    have h2 : headerOf (trimEnd l) = (lineSays l).2 := congrArg Prod.snd this
    rw [h1, h2]

/-- A line of the head, then the rest. -/
theorem headerLines_step {l l' r r' : Str} (hl : '\n' ∉ l) (hl' : '\n' ∉ l') (h : lineSays l = lineSays l')
    (hw : (∀ c ∈ r, isWs c = true) ↔ ∀ c ∈ r', isWs c = true)
    (hb : (lineSays l).1 = true → lines (trimEnd r) = lines (trimEnd r'))
    (hs : (lineSays l).1 = false → headerLines (lines (trimEnd r)) = headerLines (lines (trimEnd r'))) :
    headerLines (lines (trimEnd (l ++ '\n' :: r))) = headerLines (lines (trimEnd (l' ++ '\n' :: r'))) := by
  rcases blank_or (s := r) with hr | hr
  · rw [lines_done hr, lines_done (hw.1 hr), headerLines_one l hl, headerLines_one l' hl', h]
  · have hr' : ∃ c ∈ r', isWs c = false := by
      rcases blank_or (s := r') with hx | hx
      · obtain ⟨c, hc, he⟩ := hr
        rw [hw.2 hx c hc] at he; cases he
      · exact hx
    rw [lines_more hl hr, lines_more hl' hr']
    have e : ∀ x, lineSays (stripCr x) = lineSays x := fun x => lineSays_trim (trim_uncr x)
    have e1 : (trim (stripCr l)).isEmpty = (lineSays l).1 := congrArg Prod.fst (e l)
    refine headerLines_says (by rw [e, e, h]) (fun hx => hb (e1 ▸ hx)) (fun hx => hs (e1 ▸ hx))

theorem fill_line_lf {g l e : List Piece} (hg : Gap g) (he : Gap e) (hl : '\n' ∉ fillBy f l) : '\n' ∉ fillBy f g ++ fillBy f l ++ fillBy f e := by
  intro hc
  rcases List.mem_append.1 hc with hc | hc
  · rcases List.mem_append.1 hc with hc | hc
    · exact fill_gap_lf hg hc
    · exact hl hc
  · exact fill_gap_lf he hc

theorem laidLine_lf {l l' : List Piece} (h : LaidLine l l') (hn : Neat f l) : '\n' ∉ fillBy f l ∧ '\n' ∉ fillBy f l' := by
  cases h with
  | same _ h => exact ⟨fill_oneLine h hn, fill_oneLine h hn⟩
  | colon n g h g' h' v h1 h2 h3 h4 h5 h6 =>
    have a1 : '\n' ∉ fillBy f n := fill_oneLine (fun hc => by obtain ⟨c, e, _, h⟩ := h1 _ hc; cases e; exact h rfl) hn.left.left
    have a2 : '\n' ∉ fillBy f v := fill_oneLine h6 hn.right.tail.right
    have b : ∀ {g h}, Gap g → Gap h → '\n' ∉ fillBy f (n ++ g ++ .lit ':' :: (h ++ v)) := by
      intro g h hg hh hc
      simp only [fill_append, fillBy, List.mem_append, List.mem_cons] at hc
      rcases hc with (hc | hc) | hc | hc | hc
      · exact a1 hc
      · exact fill_gap_lf hg hc
      · cases hc
      · exact fill_gap_lf hh hc
      · exact a2 hc
    exact ⟨b h2 h3, b h4 h5⟩

theorem laidLine_solid {l l' : List Piece} (h : LaidLine l l') (hs : Solid l) : Solid l' := by
  cases h with
  | same => exact hs
  | colon => exact ⟨':', by simp, by decide⟩

theorem blank_append {a b : Str} : (∀ c ∈ a ++ b, isWs c = true) ↔ (∀ c ∈ a, isWs c = true) ∧ ∀ c ∈ b, isWs c = true := by
  constructor
  · exact fun h => ⟨fun c hc => h c (List.mem_append_left _ hc), fun c hc => h c (List.mem_append_right _ hc)⟩
  · rintro ⟨h1, h2⟩ c hc
    rcases List.mem_append.1 hc with hc | hc
    · exact h1 c hc
    · exact h2 c hc

theorem blank_lf {b : Str} : (∀ c ∈ '\n' :: b, isWs c = true) ↔ ∀ c ∈ b, isWs c = true := by
  constructor
  · exact fun h c hc => h c (List.mem_cons_of_mem _ hc)
  · intro h c hc
    rcases List.mem_cons.1 hc with rfl | hc
    · decide
    · exact h c hc

theorem lineSays_blank {l l' : Str} (h : lineSays l = lineSays l') : (∀ c ∈ l, isWs c = true) ↔ ∀ c ∈ l', isWs c = true := by
  have h1 : (trim l).isEmpty = (trim l').isEmpty := congrArg Prod.fst h
  rw [← isEmpty_trim, ← isEmpty_trim, h1]

theorem laidHead_lines {ps ps' : List Piece} (h : LaidHead ps ps') (hn : Neat f ps) :
    ((∀ c ∈ fillBy f ps, isWs c = true) ↔ ∀ c ∈ fillBy f ps', isWs c = true) ∧
      headerLines (lines (trimEnd (fillBy f ps))) = headerLines (lines (trimEnd (fillBy f ps'))) := by
  induction h with
  | last g l e g' l' e' h1 h2 h3 h4 h5 =>
    have hs := padded_says (fill_gap (f := f) h1) (fill_gap (f := f) h2) (fill_gap (f := f) h3) (fill_gap (f := f) h4) (laidLine_says (f := f) h5)
    obtain ⟨c1, c2⟩ := laidLine_lf h5 hn.left.right
    simp only [fill_append]
    refine ⟨lineSays_blank hs, ?_⟩
    rw [headerLines_one _ (fill_line_lf h1 h2 c1), headerLines_one _ (fill_line_lf h3 h4 c2), hs]
  | line g l e r g' l' e' r' h1 h2 h3 h4 h5 h6 _ ih =>
    obtain ⟨ih1, ih2⟩ := ih hn.right.tail
    have hs := padded_says (fill_gap (f := f) h1) (fill_gap (f := f) h2) (fill_gap (f := f) h3) (fill_gap (f := f) h4) (laidLine_says (f := f) h5)
    obtain ⟨c1, c2⟩ := laidLine_lf h5 hn.left.left.right
    simp only [fill_append, fillBy]
    refine ⟨by rw [blank_append, blank_append (b := '\n' :: fillBy f r'), blank_lf, blank_lf, lineSays_blank hs, ih1], ?_⟩
    refine headerLines_step (fill_line_lf h1 h2 c1) (fill_line_lf h3 h4 c2) hs ih1 (fun hb => ?_) (fun _ => ih2)
    obtain ⟨c, hc, hw⟩ := fill_solid (f := f) h6
    have := isEmpty_trim.1 hb c (by simp [hc])
    rw [this] at hw; cases hw
  | blank g r g' r' h1 h2 h3 =>
    obtain ⟨ih1, ih2⟩ := laidBody_lines h3 hn.right.tail
    have e : ∀ {g : List Piece}, Gap g → (lineSays (fillBy f g)).1 = true := fun hg => isEmpty_trim.2 (fill_gap hg)
    have hs : lineSays (fillBy f g) = lineSays (fillBy f g') := lineSays_trim (by rw [trim_empty.2 (fill_gap h1), trim_empty.2 (fill_gap h2)])
    simp only [fill_append, fillBy]
    refine ⟨by rw [blank_append, blank_append (b := '\n' :: fillBy f r'), blank_lf, blank_lf, lineSays_blank hs, ih1], ?_⟩
    exact headerLines_step (fill_gap_lf h1) (fill_gap_lf h2) hs ih1 (fun _ => ih2) (fun hb => by rw [e h1] at hb; cases hb)
  | either g l e r g' e' r' h1 h2 h3 h4 h5 _ h7 ih =>
    obtain ⟨ih1, ih2⟩ := ih hn.right.tail
    obtain ⟨_, ih3⟩ := laidBody_lines h7 hn.right.tail
    have hs := padded_says (l := fillBy f l) (l' := fillBy f l) (fill_gap (f := f) h1) (fill_gap (f := f) h2) (fill_gap (f := f) h3) (fill_gap (f := f) h4) (.inl rfl)
    have c1 := fill_oneLine h5 hn.left.left.right
    simp only [fill_append, fillBy]
    refine ⟨by rw [blank_append, blank_append (b := '\n' :: fillBy f r'), blank_lf, blank_lf, lineSays_blank hs, ih1], ?_⟩
    exact headerLines_step (fill_line_lf h1 h2 c1) (fill_line_lf h3 h4 c1) hs ih1 (fun _ => ih3) (fun _ => ih2)

/-! ## Whole messages -/

theorem laidWords_split {w w' : List Piece} (h : LaidWords w w') (hn : Neat f w) :
    splitWs (fillBy f w) = splitWs (fillBy f w') ∧ '\n' ∉ fillBy f w ∧ '\n' ∉ fillBy f w' := by
  induction h with
  | one w h => exact ⟨rfl, fill_oneLine h hn, fill_oneLine h hn⟩
  | cons w g r g' r' h1 h2 h3 h4 h5 _ ih =>
    obtain ⟨a, b, c⟩ := ih hn.right
    have ne : ∀ {g : List Piece}, Gap g → g ≠ [] → fillBy f g ≠ [] := by
      intro g hg hne
      cases g with
      | nil => exact absurd rfl hne
      | cons p g => obtain ⟨x, rfl, _⟩ := hg p (List.mem_cons_self ..); simp [fillBy]
    have hw := fill_oneLine h1 hn.left.left
    simp only [fill_append]
    refine ⟨by rw [splitWs_gap (fill_gap h2) (ne h2 h4), splitWs_gap (fill_gap h3) (ne h3 h5), a], ?_, ?_⟩
    · intro hc
      simp only [List.mem_append] at hc
      rcases hc with (hc | hc) | hc
      · exact hw hc
      · exact fill_gap_lf h2 hc
      · exact b hc
    · intro hc
      simp only [List.mem_append] at hc
      rcases hc with (hc | hc) | hc
      · exact hw hc
      · exact fill_gap_lf h3 hc
      · exact c hc

theorem ofStr_lines (mp : List Part → Option (List UInt8)) {m m' l l' : Str} {r r' : List Str} (h : lines (trim m) = l :: r) (h' : lines (trim m') = l' :: r')
    (hw : splitWs l = splitWs l') (hh : headerLines r = headerLines r') : Request.ofStr mp m = Request.ofStr mp m' := by
  unfold Request.ofStr
  rw [h, h']
  dsimp only
  rw [hw, hh]

/-- The first line of a message: it is the first line that is not blank. -/
theorem laid_first {b w e r : Str} (hb : ∀ c ∈ b, isWs c = true) (he : ∀ c ∈ e, isWs c = true) (hs : ∃ c ∈ w, isWs c = false) (hw : '\n' ∉ w) (hn : '\n' ∉ e) :
    ∃ l ls, lines (trim (b ++ w ++ e ++ '\n' :: r)) = l :: ls ∧ splitWs l = splitWs w ∧ headerLines ls = headerLines (lines (trimEnd r)) := by
  have e1 : trimStart (b ++ w ++ e ++ '\n' :: r) = (trimStart w ++ e) ++ '\n' :: r := by
    rw [show b ++ w ++ e ++ '\n' :: r = b ++ (w ++ (e ++ '\n' :: r)) by simp, trimStart_pad hb, trimStart_app hs]
    simp
  have hl : '\n' ∉ trimStart w ++ e := by
    intro hc
    rcases List.mem_append.1 hc with hc | hc
    · exact hw (trimStart_mem hc)
    · exact hn hc
  have hsw : splitWs (trimStart w ++ e) = splitWs w := by rw [splitWs_end he, splitWs_trimStart]
  unfold trim
  rw [e1]
  rcases blank_or (s := r) with hr | hr
  · rw [lines_done hr, lines_single hl (by
      obtain ⟨c, hc, hw⟩ := trimStart_solid hs
      exact ⟨c, List.mem_append_left _ hc, hw⟩)]
    exact ⟨_, _, rfl, by rw [splitWs_trimEnd, hsw], by rw [lines_blank hr]⟩
  · rw [lines_more hl hr]
    exact ⟨_, _, rfl, by rw [splitWs_stripCr, hsw], rfl⟩

theorem only_line {b w e : Str} (hb : ∀ c ∈ b, isWs c = true) (he : ∀ c ∈ e, isWs c = true) (hs : ∃ c ∈ w, isWs c = false) (hw : '\n' ∉ w) :
    ∃ l, lines (trim (b ++ w ++ e)) = [l] ∧ splitWs l = splitWs w := by
  have e1 : trim (b ++ w ++ e) = trimEnd (trimStart w) := trim_pad hb he
  rw [e1, lines_single (fun hc => hw (trimStart_mem hc)) (trimStart_solid hs)]
  exact ⟨_, rfl, by rw [splitWs_trimEnd, splitWs_trimStart]⟩

/-- Two messages that differ only in layout, filled with texts that stay in their lines, are the same request. -/
theorem laid_request (mp : List Part → Option (List UInt8)) {ps ps' : List Piece} (h : Laid ps ps') (hn : Neat f ps) :
    Request.ofStr mp (fillBy f ps) = Request.ofStr mp (fillBy f ps') := by
  induction h with
  | one b w e b' w' e' h1 h2 h3 h4 h5 =>
    obtain ⟨a1, a2, a3⟩ := laidWords_split h5 hn.left.right
    simp only [fill_append]
    rcases blank_or (s := fillBy f w) with hw | hw
    · have hw' : ∀ c ∈ fillBy f w', isWs c = true := splitWs_nil_iff.1 (a1 ▸ splitWs_nil_iff.2 hw)
      unfold Request.ofStr
      rw [trim_pad (fill_space h1) (fill_gap h2), trim_pad (fill_space h3) (fill_gap h4), trim_empty.2 hw, trim_empty.2 hw']
    · have hw' : ∃ c ∈ fillBy f w', isWs c = false := by
        rcases blank_or (s := fillBy f w') with hx | hx
        · have := splitWs_nil_iff.1 (a1.trans (splitWs_nil_iff.2 hx))
          obtain ⟨c, hc, he⟩ := hw
          rw [this c hc] at he; cases he
        · exact hx
      obtain ⟨l, x1, x2⟩ := only_line (fill_space (f := f) h1) (fill_gap (f := f) h2) hw a2
      obtain ⟨l', y1, y2⟩ := only_line (fill_space (f := f) h3) (fill_gap (f := f) h4) hw' a3
      exact ofStr_lines mp x1 y1 (by rw [x2, y2, a1]) rfl
  | more b w e r b' w' e' r' h1 h2 h3 h4 h5 h6 h7 =>
    obtain ⟨a1, a2, a3⟩ := laidWords_split h5 hn.left.left.right
    obtain ⟨_, i⟩ := laidHead_lines h7 hn.right.tail
    have hw := fill_solid (f := f) h6
    have hw' : ∃ c ∈ fillBy f w', isWs c = false := by
      rcases blank_or (s := fillBy f w') with hx | hx
      · have := splitWs_nil_iff.1 (a1.trans (splitWs_nil_iff.2 hx))
        obtain ⟨c, hc, he⟩ := hw
        rw [this c hc] at he; cases he
      · exact hx
    simp only [fill_append, fillBy]
    obtain ⟨l, ls, x1, x2, x3⟩ := laid_first (r := fillBy f r) (fill_space (f := f) h1) (fill_gap (f := f) h2) hw a2 (fill_gap_lf h2)
    obtain ⟨l', ls', y1, y2, y3⟩ := laid_first (r := fillBy f r') (fill_space (f := f) h3) (fill_gap (f := f) h4) hw' a3 (fill_gap_lf h4)
    exact ofStr_lines mp x1 y1 (by rw [x2, y2, a1]) (by rw [x3, y3, i])
  | either b w e r b' w' e' r' h1 h2 h3 h4 h5 h7 _ ih =>
    obtain ⟨a1, a2, a3⟩ := laidWords_split h5 hn.left.left.right
    obtain ⟨_, i⟩ := laidHead_lines h7 hn.right.tail
    have ih := ih hn.right.tail
    simp only [fill_append, fillBy]
    rcases blank_or (s := fillBy f w) with hw | hw
    · have hw' : ∀ c ∈ fillBy f w', isWs c = true := splitWs_nil_iff.1 (a1 ▸ splitWs_nil_iff.2 hw)
      have t : ∀ {b w e r : Str}, (∀ c ∈ b, isWs c = true) → (∀ c ∈ w, isWs c = true) → (∀ c ∈ e, isWs c = true) →
          Request.ofStr mp (b ++ w ++ e ++ '\n' :: r) = Request.ofStr mp r := by
        intro b w e r hb hw he
        unfold Request.ofStr
        have := trim_pad (a := b ++ w ++ e ++ ['\n']) (b := []) (s := r) (by
          intro c hc
          simp only [List.mem_append, List.mem_singleton] at hc
          rcases hc with ((hc | hc) | hc) | rfl
          · exact hb c hc
          · exact hw c hc
          · exact he c hc
          · decide) (by simp)
        rw [List.append_nil] at this
        rw [show b ++ w ++ e ++ '\n' :: r = b ++ w ++ e ++ ['\n'] ++ r by simp, this]
      rw [t (fill_space h1) hw (fill_gap h2), t (fill_space h3) hw' (fill_gap h4), ih]
    · have hw' : ∃ c ∈ fillBy f w', isWs c = false := by
        rcases blank_or (s := fillBy f w') with hx | hx
        · have := splitWs_nil_iff.1 (a1.trans (splitWs_nil_iff.2 hx))
          obtain ⟨c, hc, he⟩ := hw
          rw [this c hc] at he; cases he
        · exact hx
      obtain ⟨l, ls, x1, x2, x3⟩ := laid_first (r := fillBy f r) (fill_space (f := f) h1) (fill_gap (f := f) h2) hw a2 (fill_gap_lf h2)
      obtain ⟨l', ls', y1, y2, y3⟩ := laid_first (r := fillBy f r') (fill_space (f := f) h3) (fill_gap (f := f) h4) hw' a3 (fill_gap_lf h4)
      exact ofStr_lines mp x1 y1 (by rw [x2, y2, a1]) (by rw [x3, y3, i])

end Am
