import Verif.Props.Urls
import Verif.Proofs.Message
/-!
# Requests: C36 (sent method), C37, C38, C39, C40
-/
set_option linter.unusedSimpArgs false
namespace Am
open Spec

/-! ## The parts of a message -/

theorem cutSep_mem {s a b : Str} (h : cutSep s = some (a, b)) : (∀ c ∈ a, c ∈ s) ∧ (∀ c ∈ b, c ∈ s) := by
  induction s using cutSep.induct generalizing a b with
  | case1 r =>
    rw [cutSep] at h
    cases h
    exact ⟨by simp, fun c hc => by simp [hc]⟩
  | case2 x r hx ih =>
    rw [cutSep] at h
    · rw [Option.map_eq_some_iff] at h
      obtain ⟨⟨a', b'⟩, h1, h2⟩ := h
      cases h2
      obtain ⟨i1, i2⟩ := ih h1
      refine ⟨fun c hc => ?_, fun c hc => List.mem_cons_of_mem _ (i2 c hc)⟩
      rcases List.mem_cons.1 hc with rfl | hc
      · exact List.mem_cons_self
      · exact List.mem_cons_of_mem _ (i1 c hc)
    · exact hx
  | case3 => cases h

theorem sepFirst_mem {s : Str} {c : Char} (h : c ∈ sepFirst s) : c ∈ s := by
  unfold sepFirst at h
  split at h
  · rename_i a b hc
    exact (cutSep_mem hc).1 c h
  · exact h

/-- The path of a URL consists of characters of the URL, or is a slash. -/
theorem url_path_mem {s : Str} {c : Char} (h : c ∈ (Url.ofStr s).path) : c = '/' ∨ c ∈ s := by
  unfold Url.ofStr at h
  cases hc : cutSep s with
  | none => rw [hc] at h; exact Or.inl (by simpa using h)
  | some p =>
    obtain ⟨a, r⟩ := p
    rw [hc] at h
    have hp : c ∈ (if (sepFirst r).contains '/' then (sepFirst r).dropWhile (· ≠ '/') else c!"/") := by
      dsimp only at h
      by_cases hh : ((sepFirst r).takeWhile (· ≠ '/')).contains ':' = true
      · rw [if_pos hh] at h; exact h
      · rw [if_neg hh] at h; exact h
    split at hp
    · right
      exact (cutSep_mem hc).2 c (sepFirst_mem ((List.dropWhile_suffix _).subset hp))
    · left; simpa using hp

/-- The request of a message, from the parts of the message. -/
theorem ofStr_parts {mp : List Part → Option (List UInt8)} {message t first : Str} {rest ws left : List Str} {hs : List Header}
    (ht : Trims message t) (hl : Lines t (first :: rest)) (hw : Words first ws) (hb : HeaderBlock rest hs left) :
    Request.ofStr mp message =
      (⟨.ofOpt ws[0]?, .ofOpt ws[1]?, .ofOpt ws[2]?, hs, (bodyOf mp (contentType hs) left).1⟩, (bodyOf mp (contentType hs) left).2) := by
  unfold Request.ofStr
  rw [trim_unique ht, lines_iff.1 hl]
  dsimp only
  rw [words_iff.1 hw, headerBlock_unique hb]

theorem head_ws_of_blank {l : Str} (h : ∀ c ∈ l, isWs c = true) {c : Char} (hc : l.head? = some c) : isWs c = true :=
  h c (List.mem_of_head? hc)

/-- Every message that is not blank has these parts, and its first line has a word. -/
theorem message_parts {message : Str} (h : ∃ c ∈ message, isWs c = false) :
    ∃ t first rest w ws hs left, Trims message t ∧ Lines t (first :: rest) ∧ Words first (w :: ws) ∧ HeaderBlock rest hs left := by
  have hne : trim message ≠ [] := by
    intro he
    obtain ⟨c, hc, hw⟩ := h
    rw [trim_empty.1 he c hc] at hw
    cases hw
  obtain ⟨c, s, hs⟩ := List.exists_cons_of_ne_nil hne
  have hcw : isWs c = false := (tight_trim message).1 c (by rw [hs]; rfl)
  have hcn : c ≠ '\n' := by rintro rfl; exact absurd hcw (by decide)
  have hcr : c ≠ '\r' := by rintro rfl; exact absurd hcw (by decide)
  have hex : ∃ first rest, Lines (trim message) (first :: rest) ∧ c ∈ first := by
    rcases lines_split (trim message) with he | ⟨h1, h2⟩ | ⟨l, r, h1, h2⟩
    · exact absurd he hne
    · exact ⟨_, [], .last _ h1 h2, by rw [hs]; exact List.mem_cons_self⟩
    · refine ⟨stripCr l, lines r, lines_iff.2 (by rw [h2, lines_cons h1]), ?_⟩
      rw [hs] at h2
      cases l with
      | nil => cases h2; exact absurd rfl hcn
      | cons d l =>
        cases h2
        unfold stripCr
        split
        · rename_i hl
          cases l with
          | nil => exact absurd (Option.some.inj hl) hcr
          | cons e l => exact List.mem_cons_self
        · exact List.mem_cons_self
  obtain ⟨first, rest, hl, hm⟩ := hex
  have hw := words_iff.2 (rfl : splitWs first = splitWs first)
  cases hws : splitWs first with
  | nil =>
    rw [hws] at hw
    cases hw with
    | none _ hb => rw [hb c hm] at hcw; cases hcw
  | cons w ws =>
    rw [hws] at hw
    exact ⟨_, first, rest, w, ws, _, _, trim_trims message, hl, hw, headerLines_block rest⟩

/-- A message with all its parts. -/
abbrev exMessage : Str := c!"\n  POST http://h/p?q=1 HTTP/1.0\n  Host : h \nnonsense\nX-A: 1:2\n\nbody text\n"

/-- The parts of `exMessage`. -/
theorem exMessage_parts : Trims exMessage c!"POST http://h/p?q=1 HTTP/1.0\n  Host : h \nnonsense\nX-A: 1:2\n\nbody text" ∧
    Lines c!"POST http://h/p?q=1 HTTP/1.0\n  Host : h \nnonsense\nX-A: 1:2\n\nbody text"
      [c!"POST http://h/p?q=1 HTTP/1.0", c!"  Host : h ", c!"nonsense", c!"X-A: 1:2", [], c!"body text"] ∧
    Words c!"POST http://h/p?q=1 HTTP/1.0" [c!"POST", c!"http://h/p?q=1", c!"HTTP/1.0"] ∧
    HeaderBlock [c!"  Host : h ", c!"nonsense", c!"X-A: 1:2", [], c!"body text"] [⟨c!"Host", c!"h"⟩, ⟨c!"X-A", c!"1:2"⟩] [c!"body text"] := by
  refine ⟨?_, lines_iff.2 (by decide), words_iff.2 (by decide), ?_⟩
  · have := trim_trims exMessage
    rwa [show trim exMessage = c!"POST http://h/p?q=1 HTTP/1.0\n  Host : h \nnonsense\nX-A: 1:2\n\nbody text" by decide] at this
  · have := headerLines_block [c!"  Host : h ", c!"nonsense", c!"X-A: 1:2", [], c!"body text"]
    rwa [show headerLines [c!"  Host : h ", c!"nonsense", c!"X-A: 1:2", [], c!"body text"] =
      ([⟨c!"Host", c!"h"⟩, ⟨c!"X-A", c!"1:2"⟩], [c!"body text"]) by decide] at this

/-! ## C37 -/

/-- C37: the first line gives method, URL and version, the following lines up to the first blank line give the headers. The relation
`HeaderBlock` determines the headers (`c37_unique`) and every message that is not blank has such parts (`c37_total`). -/
theorem c37_parse (mp : List Part → Option (List UInt8)) (message t first : Str) (rest ws left : List Str) (hs : List Header)
    (ht : Trims message t) (hl : Lines t (first :: rest)) (hw : Words first ws) (hb : HeaderBlock rest hs left) :
    (∀ m : Method, ws[0]? = some m.text → (Request.ofStr mp message).1.method = m) ∧
    ((∀ m : Method, ws[0]? ≠ some m.text) → (Request.ofStr mp message).1.method = .Get) ∧
    (∀ u, ws[1]? = some u → (Request.ofStr mp message).1.url = Url.ofStr u) ∧
    (ws[1]? = none → (Request.ofStr mp message).1.url = ⟨.Http, c!"localhost", 80, c!"/"⟩) ∧
    (∀ v : Version, ws[2]? = some v.text → (Request.ofStr mp message).1.version = v) ∧
    ((∀ v : Version, ws[2]? ≠ some v.text) → (Request.ofStr mp message).1.version = .Http11) ∧
    (Request.ofStr mp message).1.headers = hs := by
  rw [ofStr_parts ht hl hw hb]
  refine ⟨?_, ?_, ?_, ?_, ?_, ?_, rfl⟩
  · intro m h
    rw [h]
    exact c36_roundtrip.1 m
  · intro h
    cases h0 : ws[0]? with
    | none => rfl
    | some w =>
      rcases (c36_exact w).1 with ⟨m, rfl, _⟩ | ⟨_, h⟩
      · exact absurd h0 (h m)
      · exact h
  · intro u h
    rw [h]
    rfl
  · intro h
    rw [h]
    rfl
  · intro m h
    rw [h]
    exact c36_roundtrip.2.1 m
  · intro h
    cases h0 : ws[2]? with
    | none => rfl
    | some w =>
      rcases (c36_exact w).2.1 with ⟨m, rfl, _⟩ | ⟨_, h⟩
      · exact absurd h0 (h m)
      · exact h

/-- C37: the header lines determine the headers and what follows them. -/
theorem c37_unique {rest left left' : List Str} {hs hs' : List Header} (h : HeaderBlock rest hs left) (h' : HeaderBlock rest hs' left') :
    hs = hs' ∧ left = left' := by
  have := (headerBlock_unique h).symm.trans (headerBlock_unique h')
  cases this
  exact ⟨rfl, rfl⟩

/-- C37: every message that is not blank has parts; a blank message is the request `GET http://localhost/` without headers. -/
theorem c37_total (message : Str) :
    (∃ t first rest w ws hs left, Trims message t ∧ Lines t (first :: rest) ∧ Words first (w :: ws) ∧ HeaderBlock rest hs left) ∨
    ((∀ c ∈ message, isWs c = true) ∧ ∀ mp, Request.ofStr mp message = (⟨.Get, ⟨.Http, c!"localhost", 80, c!"/"⟩, .Http11, [], []⟩, .empty)) := by
  by_cases h : ∃ c ∈ message, isWs c = false
  · exact Or.inl (message_parts h)
  · have hb : ∀ c ∈ message, isWs c = true := fun c hc => by
      cases hw : isWs c with
      | true => rfl
      | false => exact absurd ⟨c, hc, hw⟩ h
    refine Or.inr ⟨hb, fun mp => ?_⟩
    unfold Request.ofStr
    rw [trim_empty.2 hb]
    rfl

/-- Concrete case for `c37_parse`. -/
example (mp : List Part → Option (List UInt8)) : (Request.ofStr mp exMessage).1.headers = [⟨c!"Host", c!"h"⟩, ⟨c!"X-A", c!"1:2"⟩] ∧
    (Request.ofStr mp exMessage).1.method = .Post ∧ (Request.ofStr mp exMessage).1.version = .Http10 := by
  obtain ⟨h1, h2, h3, h4⟩ := exMessage_parts
  obtain ⟨a, b, c, d, e, f, g⟩ := c37_parse mp _ _ _ _ _ _ _ h1 h2 h3 h4
  exact ⟨g, a .Post rfl, e .Http10 rfl⟩

/-! ## C38 -/

/-- What every parsed request looks like. -/
theorem request_shape (mp : List Part → Option (List UInt8)) (message : Str) :
    (∀ c ∈ (Request.ofStr mp message).1.url.path, isWs c = false) ∧
    (∀ x ∈ (Request.ofStr mp message).1.headers, ':' ∉ x.name ∧ '\n' ∉ x.name ∧ '\n' ∉ x.value ∧ Tight x.name ∧ Tight x.value) := by
  rcases c37_total message with ⟨t, first, rest, w, ws, hs, left, h1, h2, h3, h4⟩ | ⟨_, h⟩
  · rw [ofStr_parts h1 h2 h3 h4]
    have hl : ∀ l ∈ rest, '\n' ∉ l := fun l hl => (lines_mem (s := t) (by rw [lines_iff.1 h2]; exact List.mem_cons_of_mem _ hl)).1
    refine ⟨?_, (headerBlock_shape h4 hl).1⟩
    dsimp only
    cases hu : (w :: ws)[1]? with
    | none => decide
    | some u =>
      intro c hc
      have hm : u ∈ splitWs first := by rw [words_iff.1 h3]; exact List.mem_of_getElem? hu
      rcases url_path_mem hc with rfl | hc
      · decide
      · exact (splitWs_word hm).2.1 c hc
  · rw [h mp]
    exact ⟨by decide, by simp⟩

/-- C38: reading back the bytes written for any message gives its method, path, version, headers and content. The reader accepts only lines
ended by carriage return and line feed, a request line of three parts separated by single blanks, and header lines with a colon. -/
theorem c38_wire (mp : List Part → Option (List UInt8)) (message : Str) :
    readWire ((Request.ofStr mp message).1.wire (Request.ofStr mp message).2) =
      some ((Request.ofStr mp message).1.method.text, (Request.ofStr mp message).1.url.path, (Request.ofStr mp message).1.version.text,
        (Request.ofStr mp message).1.headers.map (fun h => (h.name, h.value)), (Request.ofStr mp message).2.bytes) := by
  obtain ⟨h1, h2⟩ := request_shape mp message
  exact readWire_enc _ _ ⟨fun hm => absurd (h1 _ hm) (by decide), fun hm => absurd (h1 _ hm) (by decide)⟩ h2

/-- C38: no line feed in the path or in any header. -/
theorem c38_no_lf (mp : List Part → Option (List UInt8)) (message : Str) :
    '\n' ∉ (Request.ofStr mp message).1.url.path ∧ ∀ x ∈ (Request.ofStr mp message).1.headers, '\n' ∉ x.name ∧ '\n' ∉ x.value := by
  obtain ⟨h1, h2⟩ := request_shape mp message
  exact ⟨fun hm => absurd (h1 _ hm) (by decide), fun x hx => ⟨(h2 x hx).2.1, (h2 x hx).2.2.1⟩⟩

/-- A carriage return inside a template header, however, reaches the wire unchanged: receivers that end lines at a bare carriage return see
another header. -/
theorem c38_bare_cr (mp : List Part → Option (List UInt8)) :
    (Request.ofStr mp c!"GET http://h/\nA: b\rC: d").1.wire (Request.ofStr mp c!"GET http://h/\nA: b\rC: d").2 = utf8 c!"GET / HTTP/1.1\r\nA: b\rC: d\r\n\r\n" := by
  rfl

/-! ## C36 -/

/-- C36, as stated: the method on the wire is the first word of the message. -/
def SentMethod : Prop :=
  ∀ (mp : List Part → Option (List UInt8)) (message t first w : Str) (rest ws : List Str), Trims message t → Lines t (first :: rest) → Words first (w :: ws) →
    ∃ path version headers body, readWire ((Request.ofStr mp message).1.wire (Request.ofStr mp message).2) = some (w, path, version, headers, body)

/-- C36, partial: for the nine known methods, as written in upper case, the method on the wire is the first word. -/
theorem c36_sent_partial (mp : List Part → Option (List UInt8)) (message t first : Str) (rest ws : List Str) (m : Method)
    (ht : Trims message t) (hl : Lines t (first :: rest)) (hw : Words first (m.text :: ws)) :
    ∃ path version headers body, readWire ((Request.ofStr mp message).1.wire (Request.ofStr mp message).2) = some (m.text, path, version, headers, body) := by
  have hm := (c37_parse mp message t first rest _ _ _ ht hl hw (headerLines_block rest)).1 m rfl
  rw [c38_wire, hm]
  exact ⟨_, _, _, _, rfl⟩

/-- C36: any other first word is sent as `GET`. -/
theorem c36_sent_other (mp : List Part → Option (List UInt8)) (message t first w : Str) (rest ws : List Str)
    (ht : Trims message t) (hl : Lines t (first :: rest)) (hw : Words first (w :: ws)) (h : ∀ m : Method, w ≠ m.text) :
    ∃ path version headers body, readWire ((Request.ofStr mp message).1.wire (Request.ofStr mp message).2) = some (c!"GET", path, version, headers, body) := by
  have hm := (c37_parse mp message t first rest _ _ _ ht hl hw (headerLines_block rest)).2.1 (fun m he => h m (Option.some.inj he))
  rw [c38_wire, hm]
  exact ⟨_, _, _, _, rfl⟩

/-- Concrete case for `c36_sent_other`. -/
theorem purge_parts : Trims c!"PURGE http://h/" c!"PURGE http://h/" ∧ Lines c!"PURGE http://h/" [c!"PURGE http://h/"] ∧
    Words c!"PURGE http://h/" [c!"PURGE", c!"http://h/"] ∧ ∀ m : Method, c!"PURGE" ≠ m.text := by
  refine ⟨?_, lines_iff.2 (by decide), words_iff.2 (by decide), fun m => by cases m <;> decide⟩
  have := trim_trims c!"PURGE http://h/"
  rwa [show trim c!"PURGE http://h/" = c!"PURGE http://h/" by decide] at this

/-- C36 is false as stated: `PURGE http://h/` is sent as `GET`. -/
theorem c36_false : ¬ SentMethod := by
  intro h
  obtain ⟨h1, h2, h3, h4⟩ := purge_parts
  obtain ⟨p, v, hs, b, e⟩ := h (fun _ => none) _ _ _ _ _ _ h1 h2 h3
  obtain ⟨p', v', hs', b', e'⟩ := c36_sent_other (fun _ => none) _ _ _ _ _ _ h1 h2 h3 h4
  rw [e] at e'
  simp only [Option.some.injEq, Prod.mk.injEq] at e'
  exact absurd e'.1 (by decide)

/-! ## C39 -/

/-- `t` is a request message with body `b`: `b` is everything after the first blank line; `hs` are the headers. -/
def HasBody (t : Str) (hs : List Header) (b : Str) : Prop :=
  ∃ h first ls blank, t = h ++ b ∧ h.getLast? = some '\n' ∧ Lines h (first :: ls ++ [blank]) ∧ (∀ c ∈ blank, isWs c = true) ∧
    (∀ l ∈ ls, ∃ c ∈ l, isWs c = false) ∧ HeaderBlock ls hs []

theorem lines_append : ∀ {h b : Str} {ls bs : List Str}, Lines h ls → (∀ c, h.getLast? = some c → c = '\n') → Lines b bs → Lines (h ++ b) (ls ++ bs) := by
  intro h b ls bs hl
  induction hl with
  | nil => intro _ hb; exact hb
  | last l hn hne =>
    intro hlast hb
    cases hg : l.getLast? with
    | none => exact absurd (List.getLast?_eq_none_iff.1 hg) hne
    | some c => exact absurd (List.mem_of_getLast? hg) ((hlast c hg) ▸ hn)
  | lf l r ls h1 h2 _ ih =>
    intro hlast hb
    have := ih (by
      intro c hc
      refine hlast c ?_
      rw [List.getLast?_append, List.getLast?_cons, hc]
      rfl) hb
    have e : l ++ '\n' :: r ++ b = l ++ '\n' :: (r ++ b) := by simp
    rw [e]
    exact .lf l _ _ h1 h2 this
  | crlf l r ls h1 _ ih =>
    intro hlast hb
    have := ih (by
      intro c hc
      refine hlast c ?_
      rw [List.getLast?_append, hc]
      rfl) hb
    have e : l ++ c!"\r\n" ++ r ++ b = l ++ c!"\r\n" ++ (r ++ b) := by simp
    rw [e]
    exact .crlf l _ _ h1 this

theorem block_append {ls : List Str} {hs : List Header} {blank : Str} {bs : List Str} (h : HeaderBlock ls hs []) (hls : ∀ l ∈ ls, ∃ c ∈ l, isWs c = false)
    (hb : ∀ c ∈ blank, isWs c = true) : HeaderBlock (ls ++ blank :: bs) hs bs := by
  generalize hr : ([] : List Str) = r at h
  induction h with
  | ends => exact .blank _ _ hb
  | blank l r hw =>
    obtain ⟨c, hc, hc'⟩ := hls l List.mem_cons_self
    rw [hw c hc] at hc'
    cases hc'
  | skip l r hs left h1 h2 _ ih => exact .skip l _ _ _ h1 h2 (ih (fun l hl => hls l (List.mem_cons_of_mem _ hl)) hr)
  | field n v name value r hs left h1 h2 h3 _ ih => exact .field n v name value _ _ _ h1 h2 h3 (ih (fun l hl => hls l (List.mem_cons_of_mem _ hl)) hr)

/-- Content types whose bodies are re-encoded. -/
def isForm (v : Str) : Prop := v = c!"application/x-www-form-urlencoded" ∨ v = c!"multipart/form-data"

/-- C39, as stated. -/
def BodyAsWritten : Prop :=
  ∀ (mp : List Part → Option (List UInt8)) (message t b : Str) (hs : List Header), Trims message t → HasBody t hs b → (∀ v, Declares hs v → ¬ isForm v) →
    (Request.ofStr mp message).2.bytes = utf8 b

/-- C39: the bytes sent are those of the body lines, without their line ends. -/
theorem c39_lines (mp : List Part → Option (List UInt8)) (message t b : Str) (bs : List Str) (hs : List Header) (ht : Trims message t) (hb : HasBody t hs b)
    (hbs : Lines b bs) (hc : ∀ v, Declares hs v → ¬ isForm v) : (Request.ofStr mp message).2.bytes = utf8 bs.flatten := by
  obtain ⟨h, first, ls, blank, e, h1, h2, h3, h4, h5⟩ := hb
  subst e
  have hl := lines_append h2 (fun c hc => by rw [h1] at hc; exact (Option.some.inj hc).symm) hbs
  have hbk := block_append (bs := bs) h5 h4 h3
  have el : first :: ls ++ [blank] ++ bs = first :: (ls ++ blank :: bs) := by simp
  rw [el] at hl
  rw [ofStr_parts ht hl (words_iff.2 rfl) hbk]
  have hct : contentType hs ≠ some c!"application/x-www-form-urlencoded" ∧ contentType hs ≠ some c!"multipart/form-data" :=
    ⟨fun he => hc _ (declares_iff.2 he) (Or.inl rfl), fun he => hc _ (declares_iff.2 he) (Or.inr rfl)⟩
  unfold bodyOf
  rw [if_neg hct.1, if_neg hct.2]
  dsimp only
  by_cases hblank : (trim bs.flatten).isEmpty = true
  · rw [if_pos hblank]
    have hall := isEmpty_trim.1 hblank
    -- the message is trimmed, so a blank body is empty
    have hb0 : b = [] := by
      apply Classical.byContradiction
      intro hne
      obtain ⟨_, _, _, _, _, _, hlast⟩ := ht
      cases hg : b.getLast? with
      | none => exact hne (List.getLast?_eq_none_iff.1 hg)
      | some c =>
        have hcw : isWs c = false := hlast c (by rw [List.getLast?_append, hg]; rfl)
        have hcm : c ∈ bs.flatten := by
          have key : ∀ {b : Str} {bs : List Str}, Lines b bs → ∀ c ∈ b, isWs c = false → c ∈ bs.flatten := by
            intro b bs hl
            induction hl with
            | nil => intro c hc; cases hc
            | last l _ _ => intro c hc _; simpa using hc
            | lf l r ls _ _ _ ih =>
              intro c hc hw
              rw [List.flatten_cons, List.mem_append]
              rcases List.mem_append.1 hc with hc | hc
              · exact Or.inl hc
              · rcases List.mem_cons.1 hc with rfl | hc
                · exact absurd hw (by decide)
                · exact Or.inr (ih c hc hw)
            | crlf l r ls _ _ ih =>
              intro c hc hw
              rw [List.flatten_cons, List.mem_append]
              rcases List.mem_append.1 hc with hc | hc
              · rcases List.mem_append.1 hc with hc | hc
                · exact Or.inl hc
                · have hall : ∀ c ∈ c!"\r\n", isWs c = true := by decide
                  rw [hall c hc] at hw
                  cases hw
              · exact Or.inr (ih c hc hw)
          exact key hbs c (List.mem_of_getLast? hg) hcw
        rw [hall c hcm] at hcw
        cases hcw
    subst hb0
    rw [lines_iff] at hbs
    subst hbs
    rfl
  · rw [if_neg hblank]
    rfl

/-- C39, the exact condition: the body is sent as written exactly when it is one line. -/
theorem c39_exact (mp : List Part → Option (List UInt8)) (message t b : Str) (hs : List Header) (ht : Trims message t) (hb : HasBody t hs b)
    (hc : ∀ v, Declares hs v → ¬ isForm v) : (Request.ofStr mp message).2.bytes = utf8 b ↔ '\n' ∉ b := by
  have hl : Lines b (lines b) := lines_iff.2 rfl
  rw [c39_lines mp message t b _ hs ht hb hl hc]
  constructor
  · intro h hm
    rw [← utf8_inj h] at hm
    obtain ⟨l, h1, h2⟩ := List.mem_flatten.1 hm
    exact (lines_mem h1).1 h2
  · intro h
    congr 1
    cases b with
    | nil => rfl
    | cons c b => rw [lines_last h (by simp)]; simp

/-- C39, partial: a body of one line is sent as written. Missing: bodies of several lines, see `c39_false`. -/
theorem c39_partial (mp : List Part → Option (List UInt8)) (message t b : Str) (hs : List Header) (ht : Trims message t) (hb : HasBody t hs b)
    (hone : '\n' ∉ b) (hc : ∀ v, Declares hs v → ¬ isForm v) : (Request.ofStr mp message).2.bytes = utf8 b := by
  cases b with
  | nil => exact c39_lines mp message t [] [] hs ht hb .nil hc
  | cons c b =>
    rw [c39_lines mp message t (c :: b) [c :: b] hs ht hb (.last _ hone (by simp)) hc]
    simp

theorem exBody : HasBody c!"POST http://h/\nA: b\n\nx y" [⟨c!"A", c!"b"⟩] c!"x y" ∧ Trims c!"POST http://h/\nA: b\n\nx y " c!"POST http://h/\nA: b\n\nx y" ∧
    (∀ v, Declares [⟨c!"A", c!"b"⟩] v → ¬ isForm v) := by
  refine ⟨⟨c!"POST http://h/\nA: b\n\n", c!"POST http://h/", [c!"A: b"], [], rfl, rfl, lines_iff.2 (by decide), by simp, by decide, ?_⟩, ?_, ?_⟩
  · have := headerLines_block [c!"A: b"]
    rwa [show headerLines [c!"A: b"] = ([⟨c!"A", c!"b"⟩], []) by decide] at this
  · have := trim_trims c!"POST http://h/\nA: b\n\nx y "
    rwa [show trim c!"POST http://h/\nA: b\n\nx y " = c!"POST http://h/\nA: b\n\nx y" by decide] at this
  · intro v hv
    rw [declares_iff] at hv
    exact absurd hv (by simp [contentType, lower, lowerChar])

/-- Concrete case for `c39_partial`. -/
example (mp : List Part → Option (List UInt8)) : (Request.ofStr mp c!"POST http://h/\nA: b\n\nx y ").2.bytes = utf8 c!"x y" :=
  c39_partial mp _ _ _ _ exBody.2.1 exBody.1 (by decide) exBody.2.2

/-- C39 is false as stated: the line ends of a body are lost. -/
theorem c39_false : ¬ BodyAsWritten := by
  intro h
  have hb : HasBody c!"POST http://h/\n\na\nb" [] c!"a\nb" :=
    ⟨c!"POST http://h/\n\n", c!"POST http://h/", [], [], rfl, rfl, lines_iff.2 (by decide), by simp, by simp, .ends⟩
  have ht := trim_trims c!"POST http://h/\n\na\nb"
  rw [show trim c!"POST http://h/\n\na\nb" = c!"POST http://h/\n\na\nb" by decide] at ht
  have hc : ∀ v, Declares [] v → ¬ isForm v := fun v hv => by cases hv
  have h1 := h (fun _ => none) _ _ _ _ ht hb hc
  have h2 := c39_lines (fun _ => none) _ _ _ [c!"a", c!"b"] _ ht hb (lines_iff.2 (by decide)) hc
  rw [h1] at h2
  exact absurd (utf8_inj h2) (by decide)

/-! ## C40 -/

/-- C40: decoding a form body gives the pairs of the body lines, in order. -/
theorem c40_form (mp : List Part → Option (List UInt8)) (message t first : Str) (rest ws left : List Str) (hs : List Header) (ps : List (Str × Str))
    (ht : Trims message t) (hl : Lines t (first :: rest)) (hw : Words first ws) (hb : HeaderBlock rest hs left)
    (hc : Declares hs c!"application/x-www-form-urlencoded") (hp : PairLines left ps) :
    formDecode (Request.ofStr mp message).2.bytes = some ps := by
  rw [ofStr_parts ht hl hw hb, declares_iff.1 hc]
  unfold bodyOf
  rw [if_pos rfl]
  dsimp only [Content.bytes]
  rw [pairLines_unique hp, formDecode_enc]

/-- C40: the body lines determine the pairs, and every list of body lines has its pairs. -/
theorem c40_total (left : List Str) : ∃ ps, PairLines left ps ∧ ∀ ps', PairLines left ps' → ps' = ps :=
  ⟨_, pairLines_spec left, fun _ h => (pairLines_unique h).symm⟩

theorem writesByte_form (b : UInt8) : WritesByte b (utf8 (formByte b)) := by
  have key : ∀ n : Fin 256,
      if n.val = 32 then utf8 (formByte (UInt8.ofNat n.val)) = [43]
      else if UInt8.ofNat n.val ∈ utf8 c!"*-._0123456789ABCDEFGHIJKLMNOPQRSTUVWXYZabcdefghijklmnopqrstuvwxyz" then
        utf8 (formByte (UInt8.ofNat n.val)) = [UInt8.ofNat n.val]
      else ((utf8 c!"0123456789ABCDEF")[n.val / 16]?.bind fun h => (utf8 c!"0123456789ABCDEF")[n.val % 16]?.map fun l => [37, h, l]) =
        some (utf8 (formByte (UInt8.ofNat n.val))) := by decide +kernel
  have h := key ⟨b.toNat, b.toNat_lt⟩
  dsimp only at h
  rw [show UInt8.ofNat b.toNat = b from UInt8.ofNat_toNat] at h
  split at h
  · rename_i hb
    rw [h, show b = 32 from UInt8.toNat_inj.1 hb]
    exact .space
  · rename_i hb
    split at h
    · rename_i hk
      rw [h]
      exact .kept b hk
    · rename_i hk
      rw [Option.bind_eq_some_iff] at h
      obtain ⟨x, hx, h⟩ := h
      rw [Option.map_eq_some_iff] at h
      obtain ⟨y, hy, h⟩ := h
      rw [← h]
      exact .escaped b x y _ _ hk (fun e => hb (by rw [e]; rfl)) (by omega) hx hy

theorem writesBytes_form (bs : List UInt8) : WritesBytes bs (utf8 (bs.flatMap formByte)) := by
  rw [utf8_flatMap_form]
  induction bs with
  | nil => exact .nil
  | cons b bs ih => exact .cons b bs _ _ (writesByte_form b) ih

theorem writesForm_enc : ∀ ps : List (Str × Str), WritesForm ps (utf8 (formEncode ps))
  | [] => .nil
  | [(n, v)] => by
    have : utf8 (formEncode [(n, v)]) = utf8 (formText n) ++ 61 :: utf8 (formText v) := by
      simp [formEncode, joinStr, utf8_append]
      rfl
    rw [this]
    exact .one n v _ _ (writesBytes_form _) (writesBytes_form _)
  | (n, v) :: p :: ps => by
    have : utf8 (formEncode ((n, v) :: p :: ps)) = utf8 (formText n) ++ 61 :: utf8 (formText v) ++ 38 :: utf8 (formEncode (p :: ps)) := by
      have e : formEncode ((n, v) :: p :: ps) = formText n ++ (c!"=" ++ (formText v ++ (c!"&" ++ formEncode (p :: ps)))) := by simp [formEncode, joinStr]
      rw [e, utf8_append, utf8_append, utf8_append, utf8_append, List.append_assoc]
      rfl
    rw [this]
    exact .cons n v _ _ _ _ (by simp) (writesBytes_form _) (writesBytes_form _) (writesForm_enc (p :: ps))

theorem writesByte_unique {b : UInt8} {t t' : List UInt8} (h : WritesByte b t) (h' : WritesByte b t') : t = t' := by
  have n32 : ¬ KeptByte 32 := by unfold KeptByte; decide +kernel
  cases h with
  | kept _ hk =>
    cases h' with
    | kept _ _ => rfl
    | space => exact absurd hk n32
    | escaped _ h l x y hk' => exact absurd hk hk'
  | space =>
    cases h' with
    | kept _ hk => exact absurd hk n32
    | space => rfl
    | escaped _ h l x y hk' hb => exact absurd rfl hb
  | escaped _ h l x y hk hb he hx hy =>
    cases h' with
    | kept _ hk' => exact absurd hk' hk
    | space => exact absurd rfl hb
    | escaped _ h' l' x' y' hk' hb' he' hx' hy' =>
      have len : (utf8 c!"0123456789ABCDEF").length = 16 := by decide +kernel
      have h1 := (List.getElem?_eq_some_iff.1 hy).1
      have h2 := (List.getElem?_eq_some_iff.1 hy').1
      rw [len] at h1 h2
      have e1 : x = x' := by omega
      have e2 : y = y' := by omega
      subst e1 e2
      rw [hx] at hx'
      rw [hy] at hy'
      cases hx'
      cases hy'
      rfl

theorem writesBytes_unique {bs t t' : List UInt8} (h : WritesBytes bs t) (h' : WritesBytes bs t') : t = t' := by
  induction h generalizing t' with
  | nil => cases h'; rfl
  | cons b bs t ts hb _ ih =>
    cases h' with
    | cons _ _ u us hb' hs' => rw [writesByte_unique hb hb', ih hs']

/-- C40: the body sent is the standard encoding of the pairs (letters, digits and `*-._` as they are, a space as `+`, every other byte as `%XX`), and there
is only one such body. -/
theorem c40_exact (mp : List Part → Option (List UInt8)) (message t first : Str) (rest ws left : List Str) (hs : List Header) (ps : List (Str × Str))
    (ht : Trims message t) (hl : Lines t (first :: rest)) (hw : Words first ws) (hb : HeaderBlock rest hs left)
    (hc : Declares hs c!"application/x-www-form-urlencoded") (hp : PairLines left ps) (bs : List UInt8) :
    (Request.ofStr mp message).2.bytes = bs ↔ WritesForm ps bs := by
  have h : (Request.ofStr mp message).2.bytes = utf8 (formEncode ps) := by
    rw [ofStr_parts ht hl hw hb, declares_iff.1 hc]
    unfold bodyOf
    rw [if_pos rfl]
    dsimp only [Content.bytes]
    rw [pairLines_unique hp]
  rw [h]
  constructor
  · rintro rfl
    exact writesForm_enc ps
  · intro hf
    have unique : ∀ (ps : List (Str × Str)) (a b : List UInt8), WritesForm ps a → WritesForm ps b → a = b := by
      intro ps a b ha
      induction ha generalizing b with
      | nil => intro hb; cases hb; rfl
      | one n v tn tv h1 h2 =>
        intro hb
        cases hb with
        | one _ _ tn' tv' h1' h2' => rw [writesBytes_unique h1 h1', writesBytes_unique h2 h2']
        | cons _ _ _ tn' tv' ts' hne => exact absurd rfl hne
      | cons n v ps tn tv ts hne h1 h2 _ ih =>
        intro hb
        cases hb with
        | one => exact absurd rfl hne
        | cons _ _ _ tn' tv' ts' _ h1' h2' h3' => rw [writesBytes_unique h1 h1', writesBytes_unique h2 h2', ih _ h3']
    exact unique ps _ _ (writesForm_enc ps) hf

/-- Concrete case: `a b: é` is sent as `a+b=+%C3%A9`. -/
example : WritesForm [(c!"a b", c!" é")] (utf8 c!"a+b=+%C3%A9") := by
  have : utf8 c!"a+b=+%C3%A9" = utf8 (formEncode [(c!"a b", c!" é")]) := by decide +kernel
  rw [this]
  exact writesForm_enc _

/-- C40: every list of names and values can be sent, if the names have no colon, neither has line feeds, and the line is tight. -/
theorem c40_pairs (ps : List (Str × Str)) (h : ∀ p ∈ ps, ':' ∉ p.1 ∧ Tight (p.1 ++ ':' :: p.2)) : PairLines (ps.map fun p => p.1 ++ ':' :: p.2) ps := by
  induction ps with
  | nil => exact .nil
  | cons p ps ih =>
    obtain ⟨h1, h2⟩ := h p List.mem_cons_self
    exact .pair _ p.1 p.2 _ _ ⟨[], [], by simp, by simp, by simp, h2.1, h2.2⟩ h1 (ih fun q hq => h q (List.mem_cons_of_mem _ hq))

/-- Concrete case for `c40_form`: non-ASCII text, separators and blanks in values. -/
example (mp : List Part → Option (List UInt8)) :
    formDecode (Request.ofStr mp c!"POST http://h/\ncontent-TYPE: application/x-www-form-urlencoded\n\nä&b:x=1+2%\nnothing\n k :é:z\n").2.bytes =
      some [(c!"ä&b", c!"x=1+2%"), (c!"k ", c!"é:z")] := by
  have ht := trim_trims c!"POST http://h/\ncontent-TYPE: application/x-www-form-urlencoded\n\nä&b:x=1+2%\nnothing\n k :é:z\n"
  rw [show trim c!"POST http://h/\ncontent-TYPE: application/x-www-form-urlencoded\n\nä&b:x=1+2%\nnothing\n k :é:z\n" =
    c!"POST http://h/\ncontent-TYPE: application/x-www-form-urlencoded\n\nä&b:x=1+2%\nnothing\n k :é:z" by decide] at ht
  refine c40_form mp _ _ c!"POST http://h/" [c!"content-TYPE: application/x-www-form-urlencoded", [], c!"ä&b:x=1+2%", c!"nothing", c!" k :é:z"] _
    [c!"ä&b:x=1+2%", c!"nothing", c!" k :é:z"] [⟨c!"content-TYPE", c!"application/x-www-form-urlencoded"⟩] _ ht (lines_iff.2 (by decide)) (words_iff.2 rfl) ?_
    (declares_iff.2 (by decide)) ?_
  · have := headerLines_block [c!"content-TYPE: application/x-www-form-urlencoded", [], c!"ä&b:x=1+2%", c!"nothing", c!" k :é:z"]
    rwa [show headerLines [c!"content-TYPE: application/x-www-form-urlencoded", [], c!"ä&b:x=1+2%", c!"nothing", c!" k :é:z"] =
      ([⟨c!"content-TYPE", c!"application/x-www-form-urlencoded"⟩], [c!"ä&b:x=1+2%", c!"nothing", c!" k :é:z"]) by decide] at this
  · have := pairLines_spec [c!"ä&b:x=1+2%", c!"nothing", c!" k :é:z"]
    rwa [show (pairLines [c!"ä&b:x=1+2%", c!"nothing", c!" k :é:z"]).map (·.2) = [(c!"ä&b", c!"x=1+2%"), (c!"k ", c!"é:z")] by decide] at this

/-- The blank after the colon is part of the value: `name: value` is sent with the value ` value`, unlike headers and multipart bodies, where
names and values are trimmed. -/
theorem c40_blank (n v : Str) (hn : ':' ∉ n) (ht : Tight (n ++ ':' :: ' ' :: v)) : PairLines [n ++ ':' :: ' ' :: v] [(n, ' ' :: v)] :=
  .pair _ n _ _ _ ⟨[], [], by simp, by simp, by simp, ht.1, ht.2⟩ hn .nil

end Am
