import Verif.Spec.Multipart
import Verif.Props.Requests
/-! # C74: multipart requests -/
set_option linter.unusedSimpArgs false
namespace Am
open Spec

theorem pairLines_field {n v : Str} {r : List Str} (hn : ':' ∉ n) :
    ∃ a b, pairLines ((n ++ ':' :: v) :: r) = (n ++ ':' :: v, (a, b)) :: pairLines r ∧ trim a = trim n ∧ trim b = trim v := by
  have h := headerOf_field (v := v) hn
  unfold headerOf at h
  rw [Option.map_eq_some_iff] at h
  obtain ⟨⟨a, b⟩, h1, h2⟩ := h
  simp only [Header.mk.injEq] at h2
  refine ⟨a, b, ?_, h2.1, h2.2⟩
  unfold pairLines
  rw [List.filterMap_cons, h1]
  rfl

theorem pairLines_skip {l : Str} {r : List Str} (hl : ':' ∉ l) : pairLines (l :: r) = pairLines r := by
  unfold pairLines
  rw [List.filterMap_cons, splitOnce_none.2 (fun h => hl (trim_mem h))]
  rfl

theorem partLines_unique {l : List Str} {ps : List Part} (h : PartLines l ps) : (pairLines l).map (fun p => partOf p.2) = ps := by
  induction h with
  | nil => rfl
  | skip l r ps hl _ ih => rw [pairLines_skip hl]; exact ih
  | text n v name value r ps hn ht hv hno _ ih =>
    obtain ⟨a, b, h1, h2, h3⟩ := pairLines_field (v := v) (r := r) hn
    rw [h1, List.map_cons, ih]
    congr 1
    unfold partOf
    dsimp only
    rw [h2, h3, trim_unique ht, trim_unique hv]
    split
    · exact absurd rfl (hno _)
    · rfl
  | file n v name path r ps hn ht hv _ ih =>
    obtain ⟨a, b, h1, h2, h3⟩ := pairLines_field (v := v) (r := r) hn
    rw [h1, List.map_cons, ih]
    congr 1
    unfold partOf
    dsimp only
    rw [h2, h3, trim_unique ht, trim_unique hv]
    rfl

theorem partLines_total (l : List Str) : ∃ ps, PartLines l ps := by
  induction l with
  | nil => exact ⟨[], .nil⟩
  | cons l r ih =>
    obtain ⟨ps, ih⟩ := ih
    by_cases hl : ':' ∈ l
    · obtain ⟨n, v, rfl, hn⟩ := mem_first hl
      by_cases hf : ∃ p, trim v = '@' :: p
      · obtain ⟨p, hp⟩ := hf
        exact ⟨_, .file n v _ p r ps hn (trim_trims n) (hp ▸ trim_trims v) ih⟩
      · exact ⟨_, .text n v _ _ r ps hn (trim_trims n) (trim_trims v) (fun p hp => hf ⟨p, hp⟩) ih⟩
    · exact ⟨ps, .skip l r ps hl ih⟩

/-- **C74**, partial: the parts handed over for encoding are those written in the body lines, in order; if encoding fails (a file cannot be opened) the request is
sent without a body. Missing: the boundary in the content type, see `c74_false`. -/
theorem c74_parts_partial (mp : List Part → Option (List UInt8)) (message t first : Str) (rest ws left : List Str) (hs : List Header) (ps : List Part)
    (ht : Trims message t) (hl : Lines t (first :: rest)) (hw : Words first ws) (hb : HeaderBlock rest hs left)
    (hc : Declares hs c!"multipart/form-data") (hp : PartLines left ps) :
    (mp ps = none → (Request.ofStr mp message).2.bytes = []) ∧ ∀ bs, mp ps = some bs → (Request.ofStr mp message).2 = .multipart bs := by
  rw [ofStr_parts ht hl hw hb, declares_iff.1 hc]
  unfold bodyOf
  rw [if_neg (by decide), if_pos rfl]
  dsimp only
  rw [partLines_unique hp]
  constructor
  · intro h; rw [h]; rfl
  · intro bs h; rw [h]

/-- **C74**: the body lines determine the parts. -/
theorem c74_total (left : List Str) : ∃ ps, PartLines left ps ∧ ∀ ps', PartLines left ps' → ps' = ps := by
  obtain ⟨ps, h⟩ := partLines_total left
  exact ⟨ps, h, fun ps' h' => (partLines_unique h').symm.trans (partLines_unique h)⟩

/-- C74, as stated: a multipart request tells the server which boundary separates its parts. -/
def BoundaryNamed : Prop :=
  ∀ (mp : List Part → Option (List UInt8)) (message : Str) (bs : List UInt8), (Request.ofStr mp message).2 = .multipart bs →
    ∃ v, Declares (Request.ofStr mp message).1.headers v ∧ NamesBoundary v

/-- **C74**: no multipart request ever does: the content type sent is exactly `multipart/form-data`. -/
theorem c74_never (mp : List Part → Option (List UInt8)) (message : Str) (bs : List UInt8) (h : (Request.ofStr mp message).2 = .multipart bs) :
    Declares (Request.ofStr mp message).1.headers c!"multipart/form-data" ∧
      ∀ v, Declares (Request.ofStr mp message).1.headers v → ¬NamesBoundary v := by
  have key : contentType (Request.ofStr mp message).1.headers = some c!"multipart/form-data" := by
    unfold Request.ofStr at h ⊢
    split at h
    · cases h
    · rename_i line rest he
      dsimp only at h ⊢
      unfold bodyOf at h
      split at h
      · cases h
      · split at h
        · rename_i h1 h2; exact h2
        · dsimp only at h
          split at h <;> cases h
  refine ⟨declares_iff.2 key, fun v hv hn => ?_⟩
  rw [declares_iff, key] at hv
  cases hv
  obtain ⟨a, b, e⟩ := hn
  have e4 : '=' ∈ c!"multipart/form-data" := by rw [e]; simp
  exact absurd e4 (by decide)

/-- **C74**, as stated, is false. -/
theorem c74_false : ¬BoundaryNamed := by
  intro h
  have e : (Request.ofStr (fun _ => some []) c!"POST http://h/\ncontent-type: multipart/form-data\n\na: b").2 = .multipart [] := by decide
  obtain ⟨v, h1, h2⟩ := h _ _ _ e
  exact (c74_never _ _ _ e).2 v h1 h2

/-- **C74**: if the message names a boundary itself, the body lines are sent as they are, without their line ends; they are not encoded as parts. -/
theorem c74_own_boundary (mp : List Part → Option (List UInt8)) (message t b v : Str) (bs : List Str) (hs : List Header) (ht : Trims message t)
    (hb : HasBody t hs b) (hbs : Lines b bs) (hv : Declares hs v) (hn : NamesBoundary v) : (Request.ofStr mp message).2.bytes = utf8 bs.flatten := by
  refine c39_lines mp message t b bs hs ht hb hbs ?_
  intro w hw hf
  rw [declares_iff] at hv hw
  rw [hv] at hw
  cases hw
  obtain ⟨x, y, e⟩ := hn
  have e4 : '=' ∈ v := by rw [e]; simp
  rcases hf with rfl | rfl <;> exact absurd e4 (by decide)

/-- Concrete case for `c74_parts_partial`: a text, a file and a line without colon. -/
example : PartLines [c!"a: b", c!"nothing", c!" photo : @é.png "] [.text c!"a" c!"b", .file c!"photo" c!"é.png"] := by
  obtain ⟨ps, h⟩ := partLines_total [c!"a: b", c!"nothing", c!" photo : @é.png "]
  have := partLines_unique h
  rw [show (pairLines [c!"a: b", c!"nothing", c!" photo : @é.png "]).map (fun p => partOf p.2) = [.text c!"a" c!"b", .file c!"photo" c!"é.png"] by
    decide +kernel] at this
  rw [this]; exact h

end Am
