import Verif.Spec.Url
import Verif.Proofs.Text
import Verif.Proofs.Decimal
/-! # C35, C36: URLs and keywords -/
set_option linter.unusedSimpArgs false
namespace Am
open Spec

/-! ## Cutting at `://` -/

theorem cutSep_colon (c : Char) (r : Str) : cutSep (c :: r) = if c = ':' ∧ r.take 2 = c!"//" then some ([], r.drop 2) else (cutSep r).map fun p => (c :: p.1, p.2) := by
  by_cases h : c = ':' ∧ r.take 2 = c!"//"
  · rw [if_pos h]
    obtain ⟨rfl, h2⟩ := h
    match r, h2 with
    | x :: y :: r, h2 =>
      simp only [List.take_succ_cons, List.take_zero, List.cons.injEq, and_true] at h2
      obtain ⟨rfl, rfl⟩ := h2
      rfl
  · rw [if_neg h]
    rw [cutSep]
    intro r' h1 h2
    subst h1 h2
    exact h ⟨rfl, rfl⟩

theorem cutSep_cons_of_ne {c : Char} (r : Str) (h : c ≠ ':') : cutSep (c :: r) = (cutSep r).map fun p => (c :: p.1, p.2) := by
  rw [cutSep_colon, if_neg (fun hc => h hc.1)]

theorem cutSep_some {s a b : Str} (h : cutSep s = some (a, b)) : s = a ++ c!"://" ++ b := by
  induction s generalizing a with
  | nil => simp [cutSep] at h
  | cons c s ih =>
    rw [cutSep_colon] at h
    split at h
    · rename_i hc
      obtain ⟨rfl, h2⟩ := hc
      simp only [Option.some.injEq, Prod.mk.injEq] at h
      obtain ⟨rfl, rfl⟩ := h
      have := List.take_append_drop 2 s
      rw [h2] at this
      rw [← this]
      simp
    · rw [Option.map_eq_some_iff] at h
      obtain ⟨⟨a', b'⟩, h1, h2⟩ := h
      simp only [Prod.mk.injEq] at h2
      obtain ⟨rfl, rfl⟩ := h2
      rw [ih h1]
      rfl

/-- Before the first `://` there is none. -/
theorem cutSep_first {s a b : Str} (h : cutSep s = some (a, b)) : cutSep a = none := by
  induction s generalizing a with
  | nil => simp [cutSep] at h
  | cons c s ih =>
    rw [cutSep_colon] at h
    split at h
    · simp only [Option.some.injEq, Prod.mk.injEq] at h
      obtain ⟨rfl, _⟩ := h
      rfl
    · rename_i hn
      rw [Option.map_eq_some_iff] at h
      obtain ⟨⟨a', b'⟩, h1, h2⟩ := h
      simp only [Prod.mk.injEq] at h2
      obtain ⟨rfl, rfl⟩ := h2
      have he := cutSep_some h1
      rw [cutSep_colon, if_neg, ih h1]
      · rfl
      · rintro ⟨rfl, h2⟩
        refine hn ⟨rfl, ?_⟩
        rw [he]
        match a', h2 with
        | x :: y :: r, h2 => simpa using h2

theorem cutSep_none {s : Str} : cutSep s = none ↔ ¬ HasSep s := by
  constructor
  · rintro h ⟨a, b, rfl⟩
    induction a with
    | nil => simp [cutSep] at h
    | cons c a ih =>
      rw [List.cons_append, List.cons_append, cutSep_colon] at h
      split at h
      · cases h
      · rw [Option.map_eq_none_iff] at h
        exact ih h
  · intro h
    cases hs : cutSep s with
    | none => rfl
    | some p => exact absurd ⟨p.1, p.2, cutSep_some (show cutSep s = some (p.1, p.2) from hs)⟩ h

theorem cutSep_app {a : Str} (ha : ':' ∉ a) (r : Str) : cutSep (a ++ r) = (cutSep r).map fun p => (a ++ p.1, p.2) := by
  induction a with
  | nil => rw [List.nil_append]; cases cutSep r <;> rfl
  | cons c a ih =>
    rw [List.cons_append, cutSep_cons_of_ne _ (by intro h; subst h; exact ha List.mem_cons_self), ih (fun h => ha (List.mem_cons_of_mem _ h))]
    cases cutSep r <;> rfl

theorem sepFirst_app {a : Str} (ha : ':' ∉ a) (r : Str) : sepFirst (a ++ r) = a ++ sepFirst r := by
  unfold sepFirst
  rw [cutSep_app ha]
  cases cutSep r <;> rfl

theorem sepFirst_no {s : Str} (h : ¬ HasSep s) : sepFirst s = s := by
  unfold sepFirst; rw [cutSep_none.2 h]

theorem sepFirst_noSep (s : Str) : ¬ HasSep (sepFirst s) := by
  unfold sepFirst
  cases h : cutSep s with
  | none => exact cutSep_none.1 h
  | some p => exact cutSep_none.1 (cutSep_first (show cutSep s = some (p.1, p.2) from h))

theorem cutSep_scheme (sc : Scheme) (r : Str) : cutSep (sc.text ++ c!"://" ++ r) = some (sc.text, r) := by
  cases sc <;> rfl

theorem scheme_ofStr_text (sc : Scheme) : Scheme.ofStr sc.text = sc := by cases sc <;> rfl

theorem digit_iff (c : Char) : isDigit c = true ↔ '0' ≤ c ∧ c ≤ '9' := by
  simp [isDigit]

theorem portText_facts {d : Nat} {pt : Str} {port : Nat} (h : PortText d pt port) :
    '/' ∉ pt ∧ (∀ r, (∀ c, r.head? = some c → c = '/') → sepFirst (pt ++ r) = pt ++ sepFirst r) := by
  cases h with
  | absent => exact ⟨by simp, fun r _ => rfl⟩
  | digits ds hne hd hp =>
    have hno : ∀ x : Char, ¬ ('0' ≤ x ∧ x ≤ '9') → x ∉ ds := fun x hx hm => hx (hd x hm)
    have hs : '/' ∉ ds := hno '/' (by decide)
    have hc : ':' ∉ ds := hno ':' (by decide)
    refine ⟨by simp [hs], fun r _ => ?_⟩
    have : cutSep (':' :: (ds ++ r)) = (cutSep (ds ++ r)).map fun p => (':' :: p.1, p.2) := by
      rw [cutSep_colon, if_neg]
      rintro ⟨_, h2⟩
      match ds, hne, hs with
      | x :: ds, _, hs =>
        simp only [List.cons_append, List.take_succ_cons, List.cons.injEq] at h2
        exact hs (by rw [h2.1]; exact List.mem_cons_self)
    unfold sepFirst
    rw [List.cons_append, this, cutSep_app hc]
    cases cutSep r <;> rfl

/-- The general fact: everything from the first `://` in the path on is dropped. -/
theorem url_parse_gen (sc : Scheme) (host pt path : Str) (port : Nat) (pathText : Str) (hh : PlainHost host) (hp : PortText (wellKnown sc) pt port)
    (hpath : PathText pathText path) :
    Url.ofStr (sc.text ++ c!"://" ++ host ++ pt ++ pathText) = ⟨sc, host, port, sepFirst path⟩ := by
  obtain ⟨h1, h2⟩ := hh
  obtain ⟨p1, p2⟩ := portText_facts hp
  have hassoc : sc.text ++ c!"://" ++ host ++ pt ++ pathText = sc.text ++ c!"://" ++ (host ++ (pt ++ pathText)) := by simp only [List.append_assoc]
  have hw : wellKnown sc = sc.port := by cases sc <;> rfl
  have hstr : sepFirst (host ++ (pt ++ pathText)) = host ++ pt ++ sepFirst pathText := by
    rw [sepFirst_app h2, p2 pathText (by cases hpath <;> simp), List.append_assoc]
  have hsf : sepFirst (sc.text ++ c!"://" ++ (host ++ (pt ++ pathText))) = sc.text := by unfold sepFirst; rw [cutSep_scheme]
  unfold Url.ofStr
  rw [hassoc, hsf, cutSep_scheme, scheme_ofStr_text]
  dsimp only
  rw [hstr]
  have hnb : ∀ c ∈ host ++ pt, (fun c => decide (c ≠ '/')) c = true := by
    intro c hc
    rcases List.mem_append.1 hc with hc | hc
    · exact decide_eq_true (fun he => h1 (he ▸ hc))
    · exact decide_eq_true (fun he => p1 (he ▸ hc))
  have hparts : (host ++ pt ++ sepFirst pathText).takeWhile (fun x => decide (x ≠ '/')) = host ++ pt ∧
      (if (host ++ pt ++ sepFirst pathText).contains '/' = true then (host ++ pt ++ sepFirst pathText).dropWhile (fun x => decide (x ≠ '/')) else c!"/") =
        sepFirst path := by
    cases hpath with
    | absent =>
      have : sepFirst ([] : Str) = [] := rfl
      rw [this, List.append_nil, takeWhile_all_pred hnb, if_neg (by
        simp only [List.contains_iff_mem, List.mem_append, not_or]
        exact ⟨h1, p1⟩)]
      exact ⟨rfl, rfl⟩
    | given p =>
      have hsl : sepFirst ('/' :: p) = '/' :: sepFirst p := sepFirst_app (a := c!"/") (by decide) p
      rw [hsl, takeWhile_app hnb (by simp), dropWhile_app hnb (by simp), if_pos (by simp)]
      exact ⟨rfl, rfl⟩
  rw [hparts.1, hparts.2]
  have hcol : ∀ c ∈ host, (fun c => decide (c ≠ ':')) c = true := by
    intro c hc
    exact decide_eq_true (fun he => h2 (he ▸ hc))
  cases hp with
  | absent =>
    rw [List.append_nil, if_neg (by simpa using h2), hw]
  | digits ds hne hd hp =>
    rw [if_pos (by simp), takeWhile_app hcol (by simp), dropWhile_app hcol (by simp), List.drop_one, List.tail_cons,
      parseUnsigned_digits 65535 hne (fun c hc => (digit_iff c).2 (hd c hc)), if_pos hp]
    rfl

/-- C35, the part that holds: `scheme://host[:port][path]` is parsed into its parts, the port defaulting to 80 or 443 and the path to `/`,
provided the path does not contain `://`. Missing (and false, `c35_false_path`): paths and queries containing `://`. -/
theorem c35_parse_partial (sc : Scheme) (host pt path : Str) (port : Nat) (pathText : Str) (hh : PlainHost host) (hp : PortText (wellKnown sc) pt port)
    (hpath : PathText pathText path) (hs : ¬ HasSep path) :
    Url.ofStr (sc.text ++ c!"://" ++ host ++ pt ++ pathText) = ⟨sc, host, port, path⟩ := by
  rw [url_parse_gen sc host pt path port pathText hh hp hpath, sepFirst_no hs]

/-- Concrete case: a port with a leading zero, a query, no path. -/
example : PlainHost c!"api.test" ∧ PortText (wellKnown .Https) c!":08443" 8443 ∧ PathText c!"/a?q=1:2//x" c!"/a?q=1:2//x" ∧ PathText [] c!"/" ∧
    ¬ HasSep c!"/a?q=1:2//x" :=
  ⟨by unfold PlainHost; decide, PortText.digits c!"08443" (by decide) (by decide) (by decide), .given _, .absent, cutSep_none.1 (by decide)⟩

/-- C35: what happens with the other paths: everything from the first `://` on is dropped from the request. -/
theorem c35_cut (sc : Scheme) (host pt a b : Str) (port : Nat) (hh : PlainHost host) (hp : PortText (wellKnown sc) pt port) (ha : ':' ∉ a) :
    Url.ofStr (sc.text ++ c!"://" ++ host ++ pt ++ ('/' :: a ++ c!"://" ++ b)) = ⟨sc, host, port, '/' :: a⟩ := by
  have := url_parse_gen sc host pt ('/' :: (a ++ (c!"://" ++ b))) port _ hh hp (.given _)
  have e : '/' :: a ++ c!"://" ++ b = '/' :: (a ++ (c!"://" ++ b)) := by simp
  rw [e, this]
  have : sepFirst ('/' :: (a ++ (c!"://" ++ b))) = '/' :: a := by
    rw [show '/' :: (a ++ (c!"://" ++ b)) = ('/' :: a) ++ (c!"://" ++ b) from rfl, sepFirst_app (by simp [ha])]
    have : sepFirst (c!"://" ++ b) = [] := rfl
    rw [this, List.append_nil]
  rw [this]

/-- C35 is false: a URL in a query is cut off. -/
theorem c35_false_path : ∃ sc host pathText path, PlainHost host ∧ PathText pathText path ∧
    Url.ofStr (sc.text ++ c!"://" ++ host ++ pathText) ≠ ⟨sc, host, wellKnown sc, path⟩ :=
  ⟨.Http, c!"a", c!"/go?to=http://b/", c!"/go?to=http://b/", ⟨by decide, by decide⟩, .given _, by decide⟩

/-- What every parsed URL looks like. -/
theorem url_shape (s : Str) : PlainHost (Url.ofStr s).host ∧ (∃ p, (Url.ofStr s).path = '/' :: p) ∧ ¬ HasSep (Url.ofStr s).path := by
  unfold Url.ofStr
  cases hc : cutSep s with
  | none =>
    have h0 : PlainHost c!"localhost" := by unfold PlainHost; decide
    exact ⟨h0, ⟨[], rfl⟩, cutSep_none.1 rfl⟩
  | some p =>
    dsimp only
    generalize hstr : sepFirst p.2 = str
    have hns : ¬ HasSep str := by rw [← hstr]; exact sepFirst_noSep _
    have htw : ∀ q : Char → Bool, ∀ l : Str, ∀ c ∈ l.takeWhile q, c ∈ l ∧ q c = true := by
      intro q l c hm
      exact ⟨List.takeWhile_subset _ hm, by
        have := List.all_takeWhile (l := l) (p := q)
        exact List.all_eq_true.1 this c hm⟩
    have hpath : (∃ p', (if str.contains '/' = true then str.dropWhile (fun x => decide (x ≠ '/')) else c!"/") = '/' :: p') ∧
        ¬ HasSep (if str.contains '/' = true then str.dropWhile (fun x => decide (x ≠ '/')) else c!"/") := by
      by_cases h : str.contains '/' = true
      · rw [if_pos h]
        obtain ⟨a, h1, h2, h3⟩ := dropWhile_split (fun x => decide (x ≠ '/')) str
        constructor
        · cases hd : str.dropWhile (fun x => decide (x ≠ '/')) with
          | nil =>
            rw [hd, List.append_nil] at h1
            rw [h1, List.contains_iff_mem] at h
            exact absurd (h2 _ h) (by simp)
          | cons x r =>
            have := h3 x (by rw [hd]; rfl)
            simp only [ne_eq, decide_not, Bool.not_eq_false', decide_eq_true_eq] at this
            exact ⟨r, by rw [this]⟩
        · rintro ⟨u, v, e⟩
          refine hns ⟨a ++ u, v, ?_⟩
          conv => lhs; rw [h1, e]
          simp
      · rw [if_neg h]
        exact ⟨⟨[], rfl⟩, cutSep_none.1 rfl⟩
    split
    · refine ⟨⟨?_, ?_⟩, hpath⟩
      · intro hm
        have := (htw _ _ _ (htw _ _ _ hm).1).2
        simp at this
      · intro hm
        have := (htw _ _ _ hm).2
        simp at this
    · rename_i hcol
      refine ⟨⟨?_, ?_⟩, hpath⟩
      · intro hm
        have := (htw _ _ _ hm).2
        simp at this
      · intro hm
        exact hcol (List.contains_iff_mem.2 hm)

/-- C35: displaying a parsed URL and parsing it again gives the same URL exactly when its port is the default one of its scheme (the port is
not displayed). So the claim holds for every text without a port. -/
theorem c35_display_partial (s : Str) : Url.ofStr (Url.ofStr s).text = Url.ofStr s ↔ (Url.ofStr s).port = wellKnown (Url.ofStr s).scheme := by
  obtain ⟨h1, ⟨p, h2⟩, h3⟩ := url_shape s
  generalize Url.ofStr s = u at *
  have := c35_parse_partial u.scheme u.host [] u.path (wellKnown u.scheme) u.path h1 .absent (by rw [h2]; exact .given _) h3
  rw [List.append_nil] at this
  have ht : u.text = u.scheme.text ++ c!"://" ++ u.host ++ u.path := rfl
  rw [ht, this]
  constructor
  · intro h
    exact (congrArg Url.port h).symm
  · intro h
    rw [← h]

/-- C35 is false: a displayed URL loses its port. -/
theorem c35_false_display : ∃ s, Url.ofStr (Url.ofStr s).text ≠ Url.ofStr s := ⟨c!"http://a:8080/", by decide⟩

/-- Concrete case for `c35_display_partial`: both sides hold. -/
example : (Url.ofStr c!"https://a:443/b?c").port = wellKnown (Url.ofStr c!"https://a:443/b?c").scheme := by decide

/-! ## Every text -/

theorem cutSep_min {s a b : Str} (h : cutSep s = some (a, b)) : ∀ a' b', s = a' ++ c!"://" ++ b' → a.length ≤ a'.length := by
  induction s generalizing a b with
  | nil => simp [cutSep] at h
  | cons c s ih =>
    intro a' b' he
    rw [cutSep_colon] at h
    split at h
    · simp only [Option.some.injEq, Prod.mk.injEq] at h
      rw [← h.1]
      exact Nat.zero_le _
    · rename_i hn
      rw [Option.map_eq_some_iff] at h
      obtain ⟨⟨x, y⟩, h1, h2⟩ := h
      simp only [Prod.mk.injEq] at h2
      rw [← h2.1]
      cases a' with
      | nil =>
        simp only [List.nil_append, List.cons_append, List.cons.injEq] at he
        exact absurd ⟨he.1, by rw [he.2]; rfl⟩ hn
      | cons d a' =>
        simp only [List.cons_append, List.cons.injEq] at he
        have := ih h1 a' b' he.2
        simp only [List.length_cons]
        omega

theorem cutSep_iff {s a b : Str} : cutSep s = some (a, b) ↔ FirstSep s a b := by
  constructor
  · intro h; exact ⟨cutSep_some h, cutSep_min h⟩
  · rintro ⟨h1, h2⟩
    cases hc : cutSep s with
    | none => exact absurd ⟨a, b, h1⟩ (cutSep_none.1 hc)
    | some p =>
      obtain ⟨a', b'⟩ := p
      have e := cutSep_some hc
      have l1 := h2 a' b' e
      have l2 := cutSep_min hc a b h1
      rw [e, List.append_assoc, List.append_assoc] at h1
      obtain ⟨h3, h4⟩ := List.append_inj h1 (by omega)
      simp only [List.cons_append, List.nil_append, List.cons.injEq, true_and] at h4
      rw [h3, h4]

theorem sepFirst_iff {s a : Str} : sepFirst s = a ↔ BeforeSep s a := by
  unfold sepFirst BeforeSep
  cases h : cutSep s with
  | none =>
    have hn := cutSep_none.1 h
    constructor
    · rintro rfl; exact Or.inl ⟨hn, rfl⟩
    · rintro (⟨_, e⟩ | ⟨b, hb⟩)
      · exact e.symm
      · rw [cutSep_iff.2 hb] at h; cases h
  | some p =>
    obtain ⟨x, y⟩ := p
    constructor
    · rintro rfl; exact Or.inr ⟨y, cutSep_iff.1 h⟩
    · rintro (⟨hn, _⟩ | ⟨b, hb⟩)
      · rw [cutSep_none.2 hn] at h; cases h
      · rw [cutSep_iff.2 hb] at h; cases h; rfl

theorem schemeRead_iff {s : Str} {sc : Scheme} : SchemeRead s sc ↔ Scheme.ofStr s = sc := by
  constructor
  · intro h
    cases h with
    | https => rfl
    | other hn => unfold Scheme.ofStr; rw [if_neg hn]; split <;> rfl
  · rintro rfl
    by_cases h : s = c!"https"
    · subst h; exact .https
    · have : Scheme.ofStr s = .Http := by unfold Scheme.ofStr; rw [if_neg h]; split <;> rfl
      rw [this]; exact .other h

theorem portNumber_iff {t : Str} {n : Nat} : PortNumber t n ↔ parseUnsigned 65535 t = some n := by
  have plus : ∀ ds : Str, ds ≠ [] → (∀ c ∈ ds, isDigit c = true) → parseUnsigned 65535 ('+' :: ds) = parseUnsigned 65535 ds := by
    intro ds hne hd
    have e : parseUnsigned 65535 ('+' :: ds) = if ds.isEmpty || !ds.all isDigit then none else if digitsVal ds ≤ 65535 then some (digitsVal ds) else none := rfl
    rw [e, parseUnsigned_digits _ hne hd, if_neg (by simp [hne, List.all_eq_true]; exact hd), digitsVal_eq]
  constructor
  · intro h
    cases h with
    | digits ds h1 h2 h3 => rw [parseUnsigned_digits _ h1 (fun c hc => (digit_iff c).2 (h2 c hc)), if_pos h3]
    | plus ds h1 h2 h3 =>
      have h2 := fun c hc => (digit_iff c).2 (h2 c hc)
      rw [plus _ h1 h2, parseUnsigned_digits _ h1 h2, if_pos h3]
  · intro h
    obtain ⟨ds, h1, h2, h3, rfl, h5⟩ := parseUnsigned_some h
    have h3 := fun c hc => (digit_iff c).1 (h3 c hc)
    rcases h1 with rfl | rfl
    · exact .digits _ h2 h3 h5
    · exact .plus _ h2 h3 h5

theorem wellKnown_port (sc : Scheme) : wellKnown sc = sc.port := by cases sc <;> rfl

theorem urlRead_sound {s : Str} {u : Url} (h : UrlRead s u) : Url.ofStr s = u := by
  cases h with
  | bare h1 h2 =>
    unfold Url.ofStr
    rw [cutSep_none.2 h1, sepFirst_no h1, schemeRead_iff.1 h2, wellKnown_port]
  | @parts a b host pt pathText path sc port h1 h2 h3 h4 h5 h6 h7 =>
    obtain ⟨g1, g2⟩ := h4
    unfold Url.ofStr
    have hc := cutSep_iff.2 h1
    have hf : sepFirst s = a := sepFirst_iff.2 (Or.inr ⟨b, h1⟩)
    rw [hf, hc, schemeRead_iff.1 h2]
    dsimp only
    rw [sepFirst_iff.2 h3]
    have hnb : ∀ c ∈ host ++ pt, (fun c => decide (c ≠ '/')) c = true := by
      intro c hc
      rcases List.mem_append.1 hc with hc | hc
      · exact decide_eq_true (fun he => g1 (he ▸ hc))
      · exact decide_eq_true (fun he => h5 (he ▸ hc))
    have hparts : (host ++ pt ++ pathText).takeWhile (fun x => decide (x ≠ '/')) = host ++ pt ∧
        (if (host ++ pt ++ pathText).contains '/' = true then (host ++ pt ++ pathText).dropWhile (fun x => decide (x ≠ '/')) else c!"/") = path := by
      cases h7 with
      | absent =>
        rw [List.append_nil, takeWhile_all_pred hnb, if_neg (by
          simp only [List.contains_iff_mem, List.mem_append, not_or]
          exact ⟨g1, h5⟩)]
        exact ⟨rfl, rfl⟩
      | given p =>
        rw [takeWhile_app hnb (by simp), dropWhile_app hnb (by simp), if_pos (by simp)]
        exact ⟨rfl, rfl⟩
    rw [hparts.1, hparts.2]
    have hcol : ∀ c ∈ host, (fun c => decide (c ≠ ':')) c = true := by
      intro c hc
      exact decide_eq_true (fun he => g2 (he ▸ hc))
    cases h6 with
    | absent => rw [List.append_nil, if_neg (by simpa using g2), wellKnown_port]
    | number hp =>
      rw [if_pos (by simp), takeWhile_app hcol (by simp), dropWhile_app hcol (by simp), List.drop_one, List.tail_cons, portNumber_iff.1 hp]
      rfl
    | @other t hp =>
      have : parseUnsigned 65535 t = none := by
        cases hx : parseUnsigned 65535 t with
        | none => rfl
        | some n => exact absurd (portNumber_iff.2 hx) (hp n)
      rw [if_pos (by simp), takeWhile_app hcol (by simp), dropWhile_app hcol (by simp), List.drop_one, List.tail_cons, this, wellKnown_port]
      rfl

theorem split_at (c : Char) (s : Str) : c ∉ s.takeWhile (fun x => decide (x ≠ c)) ∧
    (s.dropWhile (fun x => decide (x ≠ c)) = [] ∨ ∃ r, s.dropWhile (fun x => decide (x ≠ c)) = c :: r) := by
  induction s with
  | nil => exact ⟨by simp, Or.inl rfl⟩
  | cons x s ih =>
    by_cases h : x = c
    · subst h
      simp
    · rw [List.takeWhile_cons, if_pos (by simpa using h), List.dropWhile_cons, if_pos (by simpa using h)]
      refine ⟨?_, ih.2⟩
      rw [List.mem_cons, not_or]
      exact ⟨fun e => h e.symm, ih.1⟩

theorem urlRead_total (s : Str) : ∃ u, UrlRead s u := by
  cases hc : cutSep s with
  | none => exact ⟨_, .bare (cutSep_none.1 hc) (schemeRead_iff.2 rfl)⟩
  | some p =>
    obtain ⟨a, b⟩ := p
    obtain ⟨hn1, hr1⟩ := split_at '/' (sepFirst b)
    have e1 := List.takeWhile_append_dropWhile (p := fun x => decide (x ≠ '/')) (l := sepFirst b)
    generalize (sepFirst b).takeWhile (fun x => decide (x ≠ '/')) = authority at *
    generalize (sepFirst b).dropWhile (fun x => decide (x ≠ '/')) = pathText at *
    obtain ⟨hn2, hr2⟩ := split_at ':' authority
    have e2 := List.takeWhile_append_dropWhile (p := fun x => decide (x ≠ ':')) (l := authority)
    generalize authority.takeWhile (fun x => decide (x ≠ ':')) = host at *
    generalize authority.dropWhile (fun x => decide (x ≠ ':')) = pt at *
    subst e2
    have hpath : ∃ path, PathText pathText path := by
      rcases hr1 with rfl | ⟨r, rfl⟩
      · exact ⟨_, .absent⟩
      · exact ⟨_, .given _⟩
    have hport : ∃ port, PortRead (wellKnown (Scheme.ofStr a)) pt port := by
      rcases hr2 with rfl | ⟨r, rfl⟩
      · exact ⟨_, .absent⟩
      · by_cases hx : ∃ n, PortNumber r n
        · exact ⟨_, .number hx.choose_spec⟩
        · exact ⟨_, .other (fun n hn => hx ⟨n, hn⟩)⟩
    rw [List.mem_append, not_or] at hn1
    exact ⟨_, .parts (cutSep_iff.1 hc) (schemeRead_iff.2 rfl) (sepFirst_iff.1 e1.symm) ⟨hn1.1, hn2⟩ hn1.2 hport.choose_spec hpath.choose_spec⟩

/-- C35: what is read from any text, with or without the form of a URL: an unusable port stands for the default of the scheme, an
unknown scheme for `http`, and a text without `://` for the root of `localhost`. -/
theorem c35_read (s : Str) (u : Url) : Url.ofStr s = u ↔ UrlRead s u := by
  constructor
  · rintro rfl
    obtain ⟨u, h⟩ := urlRead_total s
    rw [urlRead_sound h]
    exact h
  · exact urlRead_sound

/-- Concrete case: a port that is too large. -/
example : UrlRead c!"https://a.b:70000/x" ⟨.Https, c!"a.b", 443, c!"/x"⟩ := (c35_read _ _).1 (by decide)
/-- Concrete case: a query right after the port makes the port unusable. -/
example : UrlRead c!"ftp://a.b:+81?x=/" ⟨.Http, c!"a.b", 80, c!"/"⟩ := (c35_read _ _).1 (by decide)

/-! ## C36 -/

/-- C36: every keyword is recovered from its text. -/
theorem c36_roundtrip : (∀ m : Method, Method.ofStr m.text = m) ∧ (∀ v : Version, Version.ofStr v.text = v) ∧ (∀ s : Scheme, Scheme.ofStr s.text = s) :=
  ⟨fun m => by cases m <;> rfl, fun v => by cases v <;> rfl, fun s => by cases s <;> rfl⟩

/-- C36: a text is recognised as a keyword only if it is that keyword, letter by letter; all other texts give the default. -/
theorem c36_exact (s : Str) :
    ((∃ m : Method, s = m.text ∧ Method.ofStr s = m) ∨ ((∀ m : Method, s ≠ m.text) ∧ Method.ofStr s = .Get)) ∧
    ((∃ v : Version, s = v.text ∧ Version.ofStr s = v) ∨ ((∀ v : Version, s ≠ v.text) ∧ Version.ofStr s = .Http11)) ∧
    ((∃ c : Scheme, s = c.text ∧ Scheme.ofStr s = c) ∨ ((∀ c : Scheme, s ≠ c.text) ∧ Scheme.ofStr s = .Http)) := by
  refine ⟨?_, ?_, ?_⟩
  · by_cases h : ∃ m : Method, s = m.text
    · obtain ⟨m, rfl⟩ := h
      exact Or.inl ⟨m, rfl, c36_roundtrip.1 m⟩
    · have hn : ∀ m : Method, s ≠ m.text := fun m hm => h ⟨m, hm⟩
      refine Or.inr ⟨hn, ?_⟩
      have e : Method.ofStr s = if s = Method.text .Get then .Get else if s = Method.text .Post then .Post else if s = Method.text .Put then .Put else if s = Method.text .Patch then .Patch else if s = Method.text .Delete then .Delete else if s = Method.text .Options then .Options else if s = Method.text .Head then .Head else if s = Method.text .Trace then .Trace else if s = Method.text .Connect then .Connect else .Get := rfl
      rw [e, if_neg (hn .Get), if_neg (hn .Post), if_neg (hn .Put), if_neg (hn .Patch), if_neg (hn .Delete), if_neg (hn .Options), if_neg (hn .Head), if_neg (hn .Trace), if_neg (hn .Connect)]
  · by_cases h : ∃ m : Version, s = m.text
    · obtain ⟨m, rfl⟩ := h
      exact Or.inl ⟨m, rfl, c36_roundtrip.2.1 m⟩
    · have hn : ∀ m : Version, s ≠ m.text := fun m hm => h ⟨m, hm⟩
      refine Or.inr ⟨hn, ?_⟩
      have e : Version.ofStr s = if s = Version.text .Http11 then .Http11 else if s = Version.text .Http09 then .Http09 else if s = Version.text .Http10 then .Http10 else if s = Version.text .Http20 then .Http20 else if s = Version.text .Http30 then .Http30 else .Http11 := rfl
      rw [e, if_neg (hn .Http11), if_neg (hn .Http09), if_neg (hn .Http10), if_neg (hn .Http20), if_neg (hn .Http30)]
  · by_cases h : ∃ m : Scheme, s = m.text
    · obtain ⟨m, rfl⟩ := h
      exact Or.inl ⟨m, rfl, c36_roundtrip.2.2 m⟩
    · have hn : ∀ m : Scheme, s ≠ m.text := fun m hm => h ⟨m, hm⟩
      refine Or.inr ⟨hn, ?_⟩
      have e : Scheme.ofStr s = if s = Scheme.text .Http then .Http else if s = Scheme.text .Https then .Https else .Http := rfl
      rw [e, if_neg (hn .Http), if_neg (hn .Https)]

end Am
