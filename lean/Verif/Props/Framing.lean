import Verif.Spec.Framing
import Verif.Props.Requests
import Verif.Props.Responses
/-! # C61, C62: the ends of request and response bodies -/
set_option linter.unusedSimpArgs false
namespace Am
open Spec

/-- The headers of a request as a receiver sees them. -/
def Request.fields (r : Request) : List (Str × Str) := r.headers.map fun h => (h.name, h.value)

/-- The server's view of the request sent for a message. -/
theorem server_view (mp : List Part → Option (List UInt8)) (message : Str) :
    serverBody ((Request.ofStr mp message).1.wire (Request.ofStr mp message).2) =
      bodyBy (requestFraming (Request.ofStr mp message).1.fields) (Request.ofStr mp message).2.bytes := by
  unfold serverBody
  rw [c38_wire]
  rfl

/-! ## C61 -/

/-- C61, as stated: a server that finds the end of the body by the rules of HTTP/1.1 gets exactly the content, and nothing is left over. -/
def RequestsFramed : Prop :=
  ∀ (mp : List Part → Option (List UInt8)) (message : Str),
    serverBody ((Request.ofStr mp message).1.wire (Request.ofStr mp message).2) = some ((Request.ofStr mp message).2.bytes, [])

/-- C61: without transfer coding, the server gets the content exactly when the written headers declare its length: a Content-Length field with
the number of bytes, or no such field and no content. -/
theorem c61_exact (mp : List Part → Option (List UInt8)) (message : Str)
    (ht : fieldValues c!"transfer-encoding" (Request.ofStr mp message).1.fields = []) :
    serverBody ((Request.ofStr mp message).1.wire (Request.ofStr mp message).2) = some ((Request.ofStr mp message).2.bytes, []) ↔
      contentLength (fieldValues c!"content-length" (Request.ofStr mp message).1.fields) = .length (Request.ofStr mp message).2.bytes.length := by
  rw [server_view]
  have hf : requestFraming (Request.ofStr mp message).1.fields = contentLength (fieldValues c!"content-length" (Request.ofStr mp message).1.fields) := by
    unfold requestFraming
    rw [ht]
    rfl
  rw [hf]
  have hc : ∀ vs, (∃ n, contentLength vs = .length n) ∨ contentLength vs = .bad := by
    intro vs
    cases vs with
    | nil => exact Or.inl ⟨0, rfl⟩
    | cons v ws =>
      unfold contentLength
      dsimp only
      split
      · exact Or.inl ⟨_, rfl⟩
      · exact Or.inr rfl
  generalize (Request.ofStr mp message).2.bytes = bs
  rcases hc (fieldValues c!"content-length" (Request.ofStr mp message).1.fields) with ⟨n, h⟩ | h
  · rw [h]
    unfold bodyBy
    dsimp only
    constructor
    · intro he
      split at he
      · rename_i hle
        simp only [Option.some.injEq, Prod.mk.injEq] at he
        have := congrArg List.length he.1
        rw [List.length_take] at this
        have h2 := congrArg List.length he.2
        rw [List.length_drop] at h2
        simp at h2
        rw [show n = bs.length by omega]
      · cases he
    · intro he
      simp only [Framing.length.injEq] at he
      subst he
      simp
  · rw [h]
    constructor
    · intro he; cases he
    · intro he; cases he

/-- C61, partial: with one Content-Length field giving the number of bytes and no transfer coding the server gets the content. Missing: requests
whose template does not write that field; the program never adds it, see `c61_undeclared`. -/
theorem c61_partial (mp : List Part → Option (List UInt8)) (message v : Str)
    (ht : fieldValues c!"transfer-encoding" (Request.ofStr mp message).1.fields = [])
    (hl : fieldValues c!"content-length" (Request.ofStr mp message).1.fields = [v]) (hv : v ≠ [] ∧ ∀ c ∈ v, isDigit c = true)
    (hn : decimal v = (Request.ofStr mp message).2.bytes.length) :
    serverBody ((Request.ofStr mp message).1.wire (Request.ofStr mp message).2) = some ((Request.ofStr mp message).2.bytes, []) := by
  rw [c61_exact mp message ht, hl]
  unfold contentLength
  dsimp only
  rw [if_pos ⟨hv.1, hv.2, by simp⟩, hn]

/-- C61 fails for every message without these fields: the server sees an empty body, and takes the content for the start of the next request. -/
theorem c61_undeclared (mp : List Part → Option (List UInt8)) (message : Str)
    (ht : fieldValues c!"transfer-encoding" (Request.ofStr mp message).1.fields = [])
    (hl : fieldValues c!"content-length" (Request.ofStr mp message).1.fields = []) :
    serverBody ((Request.ofStr mp message).1.wire (Request.ofStr mp message).2) = some ([], (Request.ofStr mp message).2.bytes) := by
  rw [server_view]
  unfold requestFraming
  rw [ht, hl]
  simp [contentLength, bodyBy]

/-- C61 is false as stated. -/
theorem c61_false : ¬ RequestsFramed := by
  intro h
  have h1 := h (fun _ => none) c!"POST http://h/\n\nhello"
  have h2 := c61_undeclared (fun _ => none) c!"POST http://h/\n\nhello" (by decide +kernel) (by decide +kernel)
  rw [h1] at h2
  exact absurd (Prod.mk.inj (Option.some.inj h2)).1 (by decide +kernel)

/-- Concrete case for `c61_partial`. -/
example (mp : List Part → Option (List UInt8)) :
    serverBody ((Request.ofStr mp c!"POST http://h/\nContent-length: 5\n\nhello").1.wire (Request.ofStr mp c!"POST http://h/\nContent-length: 5\n\nhello").2) =
      some (utf8 c!"hello", []) := by
  refine c61_partial mp _ c!"5" ?_ ?_ ⟨by decide, by decide⟩ ?_ <;> rfl

/-- The length is counted in bytes, as it should be, and the lines of the body are joined (C39) before counting: here 4 bytes are sent. -/
example (mp : List Part → Option (List UInt8)) : (Request.ofStr mp c!"POST http://h/\n\né\nab").2.bytes.length = 4 := rfl

/-- C61: the fields on the wire are the written ones, so a Host field is there exactly when the template writes it. -/
theorem c61_host (mp : List Part → Option (List UInt8)) (message : Str) :
    ∃ method target version body, readWire ((Request.ofStr mp message).1.wire (Request.ofStr mp message).2) =
        some (method, target, version, (Request.ofStr mp message).1.fields, body) ∧
      (fieldValues c!"host" (Request.ofStr mp message).1.fields = [] ↔ ∀ h ∈ (Request.ofStr mp message).1.headers, h.name.map asciiLower ≠ c!"host") := by
  refine ⟨_, _, _, _, c38_wire mp message, ?_⟩
  unfold fieldValues Request.fields
  simp [List.filter_eq_nil_iff]

/-- A request without the Host field that HTTP/1.1 demands: what is sent for `GET http://h/`. -/
theorem c61_no_host (mp : List Part → Option (List UInt8)) :
    (Request.ofStr mp c!"GET http://h/").1.wire (Request.ofStr mp c!"GET http://h/").2 = utf8 c!"GET / HTTP/1.1\r\n\r\n" := rfl

/-! ## C62 -/

theorem byteLine_length : ∀ (bs l r : List UInt8), byteLine bs = some (l, r) → bs.length = l.length + r.length + 2 := by
  intro bs
  induction bs using byteLine.induct with
  | case1 r => intro l r' h; rw [byteLine] at h; cases h; simp
  | case2 b r hb ih =>
    intro l r' h
    rw [byteLine] at h
    · rw [Option.map_eq_some_iff] at h
      obtain ⟨⟨l1, r1⟩, h1, h2⟩ := h
      cases h2
      have := ih _ _ h1
      simp
      omega
    · exact hb
  | case3 => intro l r h; cases h

theorem trailers_length : ∀ (n : Nat) (bs r : List UInt8), trailers n bs = some r → r.length < bs.length := by
  intro n
  induction n with
  | zero => intro bs r h; cases h
  | succ n ih =>
    intro bs r h
    rw [trailers] at h
    split at h
    · cases h
    · rename_i r' hb
      cases h
      have := byteLine_length _ _ _ hb
      simp at this
      omega
    · rename_i l r' hne hb
      have := byteLine_length _ _ _ hb
      have := ih _ _ h
      omega

theorem dechunk_length : ∀ (k : Nat) (bs b r : List UInt8), dechunk k bs = some (b, r) → b.length + r.length < bs.length := by
  intro k
  induction k with
  | zero => intro bs b r h; cases h
  | succ k ih =>
    intro bs b r h
    rw [dechunk] at h
    split at h
    · cases h
    · rename_i l r1 hb
      have hl := byteLine_length _ _ _ hb
      split at h
      · cases h
      · rw [Option.map_eq_some_iff] at h
        obtain ⟨r2, h1, h2⟩ := h
        cases h2
        have := trailers_length _ _ _ h1
        simp
        omega
      · rename_i n hne hs
        split at h
        · rename_i hc
          rw [Option.map_eq_some_iff] at h
          obtain ⟨⟨b2, r2⟩, h1, h2⟩ := h
          cases h2
          have h3 := ih _ _ _ h1
          rw [List.length_drop] at h3
          simp only [List.length_append, List.length_take]
          have := congrArg List.length hc
          simp at this
          omega
        · cases h

/-- The headers of a response as name/value pairs. -/
def Response.fields (r : Response) : List (Str × Str) := r.headers.map fun h => (h.name, h.value)

/-- C62, as stated: the body of a response is the body of the message, found by the rules of HTTP/1.1 in the bytes received after the empty line. -/
def ResponseFramed : Prop :=
  ∀ (s line rest body : Str) (hs : List Header) (r : Response) (b left : List UInt8), FirstLine s line rest → HeaderText rest hs body →
    Response.read ⟨utf8 s, none⟩ = .ok r → bodyBy (responseFraming r.status r.fields) (utf8 body) = some (b, left) → utf8 r.body = b

/-- C62: whatever the headers say, the body given to the program is everything received after the empty line. -/
theorem c62_everything (s line rest body : Str) (hs : List Header) (r : Response) (hf : FirstLine s line rest) (hh : HeaderText rest hs body)
    (h : Response.read ⟨utf8 s, none⟩ = .ok r) : r.body = body ∧ r.headers = hs := by
  obtain ⟨r', h1, h2, h3, h4, h5⟩ := c41_parts s line rest body _ hs hf (words_iff.2 rfl) hh
  rw [h] at h1
  cases h1
  exact ⟨h5, h4⟩

/-- C62, exactly: the body is the message body if and only if the message is not chunked and nothing follows it on the connection. -/
theorem c62_exact (s line rest body : Str) (hs : List Header) (r : Response) (b left : List UInt8) (hf : FirstLine s line rest) (hh : HeaderText rest hs body)
    (h : Response.read ⟨utf8 s, none⟩ = .ok r) (hb : bodyBy (responseFraming r.status r.fields) (utf8 body) = some (b, left)) :
    utf8 r.body = b ↔ responseFraming r.status r.fields ≠ .chunked ∧ left = [] := by
  rw [(c62_everything s line rest body hs r hf hh h).1]
  generalize responseFraming r.status r.fields = f at hb
  cases f with
  | length n =>
    unfold bodyBy at hb
    dsimp only at hb
    split at hb
    · rename_i hle
      simp only [Option.some.injEq, Prod.mk.injEq] at hb
      obtain ⟨rfl, rfl⟩ := hb
      constructor
      · intro he
        refine ⟨by simp, ?_⟩
        have := congrArg List.length he
        rw [List.length_take] at this
        exact List.eq_nil_of_length_eq_zero (by rw [List.length_drop]; omega)
      · rintro ⟨-, he⟩
        have := List.take_append_drop n (utf8 body)
        rw [he, List.append_nil] at this
        exact this.symm
    · cases hb
  | chunked =>
    have := dechunk_length _ _ _ _ hb
    constructor
    · intro he
      rw [he] at this
      omega
    · rintro ⟨h, -⟩; exact absurd rfl h
  | close =>
    cases hb
    simp
  | bad => cases hb

/-- C62, partial: a body of declared length with nothing after it, or a body ended by the end of the connection, is delivered. Missing: chunked
bodies, which are delivered with their chunk sizes (`c62_exact`), and bytes after a body of declared length. -/
theorem c62_partial (s line rest body : Str) (hs : List Header) (r : Response) (b : List UInt8) (hf : FirstLine s line rest) (hh : HeaderText rest hs body)
    (h : Response.read ⟨utf8 s, none⟩ = .ok r) (hb : bodyBy (responseFraming r.status r.fields) (utf8 body) = some (b, []))
    (hc : responseFraming r.status r.fields ≠ .chunked) : utf8 r.body = b :=
  (c62_exact s line rest body hs r b [] hf hh h hb).2 ⟨hc, rfl⟩

/-- A chunked response. -/
def chunkedText : Str := c!"HTTP/1.1 200 OK\r\nTransfer-Encoding: gzip, Chunked\r\n\r\n4;x\r\nWiki\r\n5\r\npedia\r\n0\r\n\r\n"

theorem chunkedText_parts : FirstLine chunkedText c!"HTTP/1.1 200 OK\r" c!"Transfer-Encoding: gzip, Chunked\r\n\r\n4;x\r\nWiki\r\n5\r\npedia\r\n0\r\n\r\n" ∧
    HeaderText c!"Transfer-Encoding: gzip, Chunked\r\n\r\n4;x\r\nWiki\r\n5\r\npedia\r\n0\r\n\r\n" [⟨c!"Transfer-Encoding", c!"gzip, Chunked"⟩]
      c!"4;x\r\nWiki\r\n5\r\npedia\r\n0\r\n\r\n" := by
  refine ⟨.more c!"HTTP/1.1 200 OK\r" _ (by decide), ?_⟩
  refine .field _ c!"Transfer-Encoding" c!" gzip, Chunked\r" _ _ c!"\r\n4;x\r\nWiki\r\n5\r\npedia\r\n0\r\n\r\n" _ _ (.more c!"Transfer-Encoding: gzip, Chunked\r" _ (by decide)) (by decide)
    ?_ ?_ (.blank _ c!"\r" _ (.more c!"\r" _ (by decide)) (by decide))
  · have := trim_trims c!"Transfer-Encoding"
    rwa [show trim c!"Transfer-Encoding" = c!"Transfer-Encoding" by decide] at this
  · have := trim_trims c!" gzip, Chunked\r"
    rwa [show trim c!" gzip, Chunked\r" = c!"gzip, Chunked" by decide] at this

/-- C62 is false as stated: a chunked response is delivered with its chunk sizes. -/
theorem c62_false : ¬ ResponseFramed := by
  intro h
  obtain ⟨hf, hh⟩ := chunkedText_parts
  obtain ⟨r, h1, h2, h3, h4, h5⟩ := c41_parts _ _ _ _ _ _ hf (words_iff.2 (by decide : splitWs c!"HTTP/1.1 200 OK\r" = [c!"HTTP/1.1", c!"200", c!"OK"])) hh
  have hs : r.status = 200 := by
    rcases h3 with h | ⟨h, -⟩
    · have : Number16 (some c!"200") 200 := .digits c!"200" (by decide) (by decide) (by decide)
      generalize r.status = n at h
      generalize hw : ([c!"HTTP/1.1", c!"200", c!"OK"] : List Str)[1]? = w at h
      cases h with
      | digits ds _ _ _ => cases hw; decide
      | plus ds _ _ _ => cases hw
    · exact absurd (.digits c!"200" (by decide) (by decide) (by decide)) (h (decimal c!"200"))
  have hfr : responseFraming r.status r.fields = .chunked := by
    unfold Response.fields
    rw [hs, h4]
    decide +kernel
  have hb : bodyBy (responseFraming r.status r.fields) (utf8 c!"4;x\r\nWiki\r\n5\r\npedia\r\n0\r\n\r\n") = some (utf8 c!"Wikipedia", []) := by
    rw [hfr]
    decide +kernel
  have := (c62_exact _ _ _ _ _ r _ _ hf hh h1 hb).1 (h _ _ _ _ _ r _ _ hf hh h1 hb)
  exact this.1 hfr

/-- Concrete case for `c62_partial`: a body of declared length, and the framing of some other responses. -/
example : bodyBy (responseFraming 200 [(c!"Content-Length", c!"3")]) (utf8 c!"abc") = some (utf8 c!"abc", []) ∧
    responseFraming 200 [(c!"A", c!"3")] = .close ∧ responseFraming 204 [] = .length 0 ∧ responseFraming 200 [(c!"content-length", c!"3x")] = .bad := by
  decide +kernel

end Am
