import Verif.Spec.MediaType
import Verif.Props.HeaderCase
import Verif.Props.Multipart
/-!
# Media types of request bodies: C115
-/
namespace Am
open Spec

/-- C115, as stated, for forms: a body with the media type of forms is sent as the standard encoding of its pairs. -/
def FormsRecognised : Prop :=
  ∀ (mp : List Part → Option (List UInt8)) (message t first v : Str) (rest ws left : List Str) (hs : List Header) (ps : List (Str × Str)),
    Trims message t → Lines t (first :: rest) → Words first ws → HeaderBlock rest hs left → Declares hs v → NamesMedia formType v →
    PairLines left ps → WritesForm ps (Request.ofStr mp message).2.bytes

/-- C115, as stated, for multipart bodies: a body with the media type of multipart forms is sent as its parts. -/
def MultipartsRecognised : Prop :=
  ∀ (mp : List Part → Option (List UInt8)) (message t first v : Str) (rest ws left : List Str) (hs : List Header) (ps : List Part) (bs : List UInt8),
    Trims message t → Lines t (first :: rest) → Words first ws → HeaderBlock rest hs left → Declares hs v → NamesMedia multipartType v →
    PartLines left ps → mp ps = some bs → (Request.ofStr mp message).2 = .multipart bs

/-! ## What a body is sent as, by the value of its content type -/

/-- Any other content type: the body lines are sent as they are, without their line ends. -/
theorem raw_body {mp : List Part → Option (List UInt8)} {message t first : Str} {rest ws left : List Str} {hs : List Header}
    (ht : Trims message t) (hl : Lines t (first :: rest)) (hw : Words first ws) (hb : HeaderBlock rest hs left)
    (hc : ∀ v, Declares hs v → ¬ isForm v) :
    (Request.ofStr mp message).2 = if (trim left.flatten).isEmpty then .empty else .byte (utf8 left.flatten) := by
  rw [ofStr_parts ht hl hw hb]
  have hct : contentType hs ≠ some c!"application/x-www-form-urlencoded" ∧ contentType hs ≠ some c!"multipart/form-data" :=
    ⟨fun he => hc _ (declares_iff.2 he) (Or.inl rfl), fun he => hc _ (declares_iff.2 he) (Or.inr rfl)⟩
  unfold bodyOf
  rw [if_neg hct.1, if_neg hct.2]

theorem declares_one {hs : List Header} {v w : Str} (h : Declares hs v) (h' : Declares hs w) : v = w := by
  rw [declares_iff] at h h'
  exact Option.some.inj (h.symm.trans h')

/-- A list of pairs that is not empty comes from a line with a colon. -/
theorem pairLines_colon {left : List Str} {ps : List (Str × Str)} (h : PairLines left ps) (hne : ps ≠ []) : ':' ∈ left.flatten := by
  induction h with
  | nil => exact absurd rfl hne
  | skip l r ps h1 _ ih =>
    rw [List.flatten_cons]
    exact List.mem_append_right _ (ih hne)
  | pair l n v r ps h1 _ _ _ =>
    obtain ⟨a, b, e, _⟩ := h1
    rw [List.flatten_cons, e]
    simp

theorem writesByte_colon {b : UInt8} {t : List UInt8} (h : WritesByte b t) : (58 : UInt8) ∉ t := by
  cases h with
  | kept b hk =>
    intro hm
    rw [List.mem_singleton] at hm
    subst hm
    exact absurd hk (by unfold KeptByte; decide +kernel)
  | space => decide
  | escaped b x y i j _ _ _ h1 h2 =>
    intro hm
    have m1 := List.mem_of_getElem? h1
    have m2 := List.mem_of_getElem? h2
    have no : (58 : UInt8) ∉ utf8 c!"0123456789ABCDEF" := by decide +kernel
    simp only [List.mem_cons, List.not_mem_nil, or_false] at hm
    rcases hm with h | h | h
    · exact absurd h (by decide)
    · rw [← h] at m1; exact no m1
    · rw [← h] at m2; exact no m2

theorem writesBytes_colon {bs t : List UInt8} (h : WritesBytes bs t) : (58 : UInt8) ∉ t := by
  induction h with
  | nil => simp
  | cons b bs t ts h1 _ ih =>
    rw [List.mem_append, not_or]
    exact ⟨writesByte_colon h1, ih⟩

/-- An encoded form has no colon. -/
theorem writesForm_colon {ps : List (Str × Str)} {bs : List UInt8} (h : WritesForm ps bs) : (58 : UInt8) ∉ bs := by
  induction h with
  | nil => simp
  | one n v tn tv h1 h2 =>
    have a := writesBytes_colon h1
    have b := writesBytes_colon h2
    simp [a, b]
  | cons n v ps tn tv ts _ h1 h2 _ ih =>
    have a := writesBytes_colon h1
    have b := writesBytes_colon h2
    simp [a, b, ih]

theorem utf8_colon {s : Str} (h : ':' ∈ s) : (58 : UInt8) ∈ utf8 s :=
  List.mem_flatMap.2 ⟨':', h, by decide⟩

theorem colon_not_blank {s : Str} (h : ':' ∈ s) : (trim s).isEmpty = false := by
  cases he : (trim s).isEmpty with
  | false => rfl
  | true =>
    have := trim_empty.1 (List.isEmpty_iff.1 he) ':' h
    exact absurd this (by decide)

/-- **C115**: a body with pairs is sent as the encoding of its pairs exactly if the value of the content type is, letter by letter,
`application/x-www-form-urlencoded`. -/
theorem c115_form_partial (mp : List Part → Option (List UInt8)) (message t first v : Str) (rest ws left : List Str) (hs : List Header) (ps : List (Str × Str))
    (ht : Trims message t) (hl : Lines t (first :: rest)) (hw : Words first ws) (hb : HeaderBlock rest hs left) (hv : Declares hs v)
    (hm : NamesMedia formType v) (hp : PairLines left ps) (hne : ps ≠ []) :
    WritesForm ps (Request.ofStr mp message).2.bytes ↔ v = formType := by
  constructor
  · intro hf
    refine Classical.byContradiction fun hn => ?_
    have hraw := raw_body (mp := mp) ht hl hw hb (fun w hw' hform => by
      have := declares_one hv hw'
      subst this
      rcases hform with h | h
      · exact hn h
      · subst h
        obtain ⟨t', gap, p, e, h1, h2, h3⟩ := hm
        have e1 := sameLetters_lower.1 h1
        rcases h3 with rfl | ⟨r, rfl⟩
        · rw [List.append_nil] at e
          have hh : lower c!"multipart/form-data" = lower t' ++ lower gap := by rw [e]; exact List.map_append
          rw [e1] at hh
          have : (lower c!"multipart/form-data").length = (lower formType ++ lower gap).length := by rw [hh]
          rw [List.length_append] at this
          have hl1 : (lower c!"multipart/form-data").length = 19 := by decide
          have hl2 : (lower formType).length = 33 := by decide
          omega
        · have hmem : ';' ∈ c!"multipart/form-data" := by rw [e]; simp
          exact absurd hmem (by decide))
    have hc := pairLines_colon hp hne
    rw [hraw, colon_not_blank hc] at hf
    exact writesForm_colon hf (utf8_colon hc)
  · rintro rfl
    exact (c40_exact mp message t first rest ws left hs ps ht hl hw hb hv hp _).1 rfl

/-- **C115**: with any other value that names the media type of forms, the lines are sent as they are, without their line ends. -/
theorem c115_sent_raw (mp : List Part → Option (List UInt8)) (message t first v : Str) (rest ws left : List Str) (hs : List Header)
    (ht : Trims message t) (hl : Lines t (first :: rest)) (hw : Words first ws) (hb : HeaderBlock rest hs left) (hv : Declares hs v)
    (h1 : v ≠ formType) (h2 : v ≠ multipartType) (hne : ':' ∈ left.flatten) :
    (Request.ofStr mp message).2 = .byte (utf8 left.flatten) := by
  rw [raw_body ht hl hw hb (fun w hw' hform => by
    have := declares_one hv hw'
    subst this
    exact hform.elim h1 h2), colon_not_blank hne]
  rfl

/-- **C115**: a body is sent as parts exactly if the value of the content type is, letter by letter, `multipart/form-data` (and the parts can be prepared). -/
theorem c115_multipart_partial (mp : List Part → Option (List UInt8)) (message t first v : Str) (rest ws left : List Str) (hs : List Header) (ps : List Part)
    (bs : List UInt8) (ht : Trims message t) (hl : Lines t (first :: rest)) (hw : Words first ws) (hb : HeaderBlock rest hs left) (hv : Declares hs v)
    (hp : PartLines left ps) (hmp : mp ps = some bs) : (Request.ofStr mp message).2 = .multipart bs ↔ v = multipartType := by
  constructor
  · intro h
    have hd := (c74_never mp message bs h).1
    rw [show (Request.ofStr mp message).1.headers = hs by rw [ofStr_parts ht hl hw hb]] at hd
    exact declares_one hv hd
  · rintro rfl
    exact (c74_parts_partial mp message t first rest ws left hs ps ht hl hw hb hv hp).2 bs hmp

/-! ## The claim is false in general -/

/-- The parts of a concrete message with a form body. -/
theorem form_message (ct : Str) (hct : splitOnce ':' (trim (c!"Content-Type: " ++ ct)) = some (c!"Content-Type", ' ' :: ct)) (htr : trim (' ' :: ct) = ct)
    (hne : (trim (c!"Content-Type: " ++ ct)).isEmpty = false) :
    HeaderBlock [c!"Content-Type: " ++ ct, [], c!"a: b"] [⟨c!"Content-Type", ct⟩] [c!"a: b"] := by
  have := headerLines_block [c!"Content-Type: " ++ ct, [], c!"a: b"]
  have e : headerLines [c!"Content-Type: " ++ ct, [], c!"a: b"] = ([⟨c!"Content-Type", ct⟩], [c!"a: b"]) := by
    rw [headerLines, if_neg (by rw [hne]; decide), headerLines, if_pos (by decide)]
    simp only [headerOf, hct, Option.map_some, htr]
    rw [show trim c!"Content-Type" = c!"Content-Type" by decide]
  rwa [e] at this

theorem names_charset : NamesMedia formType c!"application/x-www-form-urlencoded; charset=utf-8" :=
  ⟨formType, [], c!"; charset=utf-8", by decide, sameLetters_refl _, by simp, Or.inr ⟨c!" charset=utf-8", rfl⟩⟩

theorem names_capitals : NamesMedia multipartType c!"Multipart/Form-Data" :=
  ⟨c!"Multipart/Form-Data", [], [], by decide, sameLetters_lower.2 (by decide), by simp, Or.inl rfl⟩

/-- **C115** is false for forms: with `; charset=utf-8` the line `a: b` is sent as it is. -/
theorem c115_false : ¬FormsRecognised := by
  intro h
  have ht := trim_trims c!"POST http://h/\nContent-Type: application/x-www-form-urlencoded; charset=utf-8\n\na: b"
  rw [show trim c!"POST http://h/\nContent-Type: application/x-www-form-urlencoded; charset=utf-8\n\na: b" =
    c!"POST http://h/\nContent-Type: application/x-www-form-urlencoded; charset=utf-8\n\na: b" by decide] at ht
  have hl : Lines c!"POST http://h/\nContent-Type: application/x-www-form-urlencoded; charset=utf-8\n\na: b"
      (c!"POST http://h/" :: [c!"Content-Type: application/x-www-form-urlencoded; charset=utf-8", [], c!"a: b"]) := lines_iff.2 (by decide)
  have hb := form_message c!"application/x-www-form-urlencoded; charset=utf-8" (by decide) (by decide) (by decide)
  have hp : PairLines [c!"a: b"] [(c!"a", c!" b")] := c40_blank c!"a" c!"b" (by decide) (by unfold Tight; exact ⟨fun c h => by cases h; decide, fun c h => by cases h; decide⟩)
  have := h (fun _ => none) _ _ _ _ _ _ _ _ _ ht hl (words_iff.2 rfl) hb (.here _ _ (by decide)) names_charset hp
  have := (c115_form_partial (fun _ => none) _ _ _ _ _ _ _ _ _ ht hl (words_iff.2 rfl) hb (.here _ _ (by decide)) names_charset hp (by simp)).1 this
  exact absurd this (by decide)

/-- **C115** is false for multipart bodies: `Multipart/Form-Data` is not recognised. -/
theorem c115_false_multipart : ¬MultipartsRecognised := by
  intro h
  have ht := trim_trims c!"POST http://h/\nContent-Type: Multipart/Form-Data\n\na: b"
  rw [show trim c!"POST http://h/\nContent-Type: Multipart/Form-Data\n\na: b" = c!"POST http://h/\nContent-Type: Multipart/Form-Data\n\na: b" by decide] at ht
  have hl : Lines c!"POST http://h/\nContent-Type: Multipart/Form-Data\n\na: b"
      (c!"POST http://h/" :: [c!"Content-Type: Multipart/Form-Data", [], c!"a: b"]) := lines_iff.2 (by decide)
  have hb := form_message c!"Multipart/Form-Data" (by decide) (by decide) (by decide)
  obtain ⟨ps, hp⟩ := partLines_total [c!"a: b"]
  have := h (fun _ => some []) _ _ _ _ _ _ _ _ _ [] ht hl (words_iff.2 rfl) hb (.here _ _ (by decide)) names_capitals hp rfl
  have := (c115_multipart_partial (fun _ => some []) _ _ _ _ _ _ _ _ _ [] ht hl (words_iff.2 rfl) hb (.here _ _ (by decide)) hp rfl).1 this
  exact absurd this (by decide)

/-- Concrete case for `c115_form_partial`: blanks before the semicolon, capital letters. -/
example : NamesMedia formType c!"Application/x-WWW-form-urlencoded ;a=b" :=
  ⟨c!"Application/x-WWW-form-urlencoded", c!" ", c!";a=b", by decide, sameLetters_lower.2 (by decide), by decide, Or.inr ⟨_, rfl⟩⟩

/-- Concrete case: another media type that begins alike is not meant. -/
example : ¬NamesMedia multipartType c!"multipart/form-database" := by
  rintro ⟨t, gap, ps, e, h1, h2, h3⟩
  have hlen : t.length = 19 := by
    have := congrArg List.length (sameLetters_lower.1 h1)
    unfold lower at this
    rw [List.length_map, List.length_map] at this
    exact this
  have hd : c!"multipart/form-database".drop 19 = gap ++ ps := by rw [e, List.append_assoc, ← hlen, List.drop_left]
  have hd' : c!"multipart/form-database".drop 19 = c!"base" := by decide
  rw [hd'] at hd
  cases gap with
  | nil =>
    rcases h3 with rfl | ⟨r, rfl⟩
    · cases hd
    · cases hd
  | cons c g =>
    have hc := h2 c List.mem_cons_self
    have : c = 'b' := (List.cons.inj hd).1.symm
    subst this
    exact absurd hc (by decide)

end Am
