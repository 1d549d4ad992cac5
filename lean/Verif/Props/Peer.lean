import Verif.Spec.Peer
import Verif.Props.Io
import Verif.Props.Urls
import Verif.Props.Requests
import Verif.Props.Injection
import Verif.Proofs.Lexer
set_option linter.unusedSimpArgs false
set_option linter.unusedSectionVars false
/-! # C99: a request goes to the host and port of its URL -/
namespace Am
open Am.Spec

variable {F : Type} [Rt F]

/-- C99: the address a request is sent to is the one its message names. -/
theorem c99_addressed (mp : List Part → Option (List UInt8)) (m : Str) (u : Url) : (Request.ofStr mp m).1.url = u ↔ Addressed m u := by
  have read : ∀ u, Addressed m u → (Request.ofStr mp m).1.url = u := by
    intro u h
    cases h with
    | blank hb =>
      rcases c37_total m with ⟨t, first, rest, w, ws, hs, left, h1, h2, h3, h4⟩ | ⟨_, h⟩
      · have e : trim m = [] := trim_empty.2 hb
        rw [trim_unique h1] at e
        subst e
        rw [lines_iff] at h2
        cases h2
      · rw [h]
    | bare t first w rest h1 h2 h3 => rw [ofStr_parts h1 h2 h3 (headerLines_block rest)]; rfl
    | named t first w word rest ws _ h1 h2 h3 h4 =>
      rw [ofStr_parts h1 h2 h3 (headerLines_block rest)]
      exact urlRead_sound h4
  have total : ∃ u, Addressed m u := by
    rcases c37_total m with ⟨t, first, rest, w, ws, hs, left, h1, h2, h3, h4⟩ | ⟨hb, _⟩
    · cases ws with
      | nil => exact ⟨_, .bare _ t first w rest h1 h2 h3⟩
      | cons word ws =>
        obtain ⟨u, hu⟩ := urlRead_total word
        exact ⟨u, .named _ t first w word rest ws u h1 h2 h3 hu⟩
    · exact ⟨_, .blank _ hb⟩
  constructor
  · intro h
    obtain ⟨v, hv⟩ := total
    rw [← h, read v hv]
    exact hv
  · exact read u

/-- C99: when `send` is connected, then to an address found for the host and the port that the message names, one that accepts connections; over TLS
the name of that host has been checked. When it is not connected, nothing has been sent. -/
theorem c99_peer (w : Wire) (mp : List Part → Option (List UInt8)) (m : Str) (u : Url) (s : Sent) (hu : Addressed m u) (h : w.send mp m = some s) :
    (∀ a, s.peer = some a → (∃ addrs, w.resolved u.host u.port = some addrs ∧ a ∈ addrs) ∧ w.up a = true ∧
      (u.scheme = .Https → w.nameOk u.host = true ∧ w.tlsOk u.host = true)) ∧
    (s.peer = none → s.bytes = [] ∧ NoConnection w u (match s.result with | .ok r => r.2.2.2 | _ => [])) := by
  rw [← c99_addressed mp] at hu
  unfold Wire.send at h
  cases hq : Request.ofStr mp m with
  | mk request content =>
    rw [hq] at h hu
    dsimp only at h hu
    subst hu
    cases hcn : w.connect request.url with
    | none => rw [hcn] at h; cases h
    | some r =>
      rw [hcn] at h
      cases r with
      | error e =>
        cases h
        exact ⟨fun a ha => (nomatch ha), fun _ => ⟨rfl, c69_cause w _ e hcn⟩⟩
      | ok a =>
        obtain ⟨⟨addrs, p1, p2, p3⟩, -, p4⟩ := c69_peer w request.url a hcn
        have hp : s.peer = some a := by
          dsimp only at h
          cases hw : request.writeTo content w.copy w.flushed w.cap ⟨w.writes, []⟩ with
          | mk e sink =>
            rw [hw] at h
            dsimp only at h
            cases htm : Time.connected w.clocks with
            | err e => rw [htm] at h; cases h; rfl
            | panic => rw [htm] at h; cases h; rfl
            | hang => rw [htm] at h; cases h; rfl
            | ok t0 =>
              rw [htm] at h
              dsimp only at h
              cases e with
              | some e => cases h; rfl
              | none =>
                dsimp only at h
                split at h <;> (cases h; rfl)
        refine ⟨fun b hb => ?_, fun hn => ?_⟩
        · rw [hp] at hb; cases hb
          exact ⟨⟨addrs, p1, p2⟩, p3, p4⟩
        · rw [hp] at hn; cases hn

/-- C99: how other hosts and ports are looked up makes no difference. -/
theorem c99_elsewhere (w w' : Wire) (mp : List Part → Option (List UInt8)) (m : Str) (u : Url) (hu : Addressed m u) (h : SameAt u.host u.port w w') :
    w.send mp m = w'.send mp m := by
  rw [← c99_addressed mp] at hu
  obtain ⟨h1, h2, h3, h4⟩ := h
  have hc : w.connect u = w'.connect u := by
    have ht : ∀ addrs, w.connectHappy addrs = w'.connectHappy addrs := by
      intro addrs
      rw [h4]; rfl
    have hk : w.connectTcp u.host u.port = w'.connectTcp u.host u.port := by
      have : w.timeoutOk = w'.timeoutOk := by rw [h4]
      unfold Wire.connectTcp
      rw [h3, this]
      cases w'.resolved u.host u.port with
      | none => rfl
      | some addrs => dsimp only; rw [ht]
    unfold Wire.connect
    rw [h1, h2, hk]
  unfold Wire.send
  cases hq : Request.ofStr mp m with
  | mk request content =>
    rw [hq] at hu
    dsimp only at hu ⊢
    subst hu
    rw [hc]
    have e1 : w.clocks = w'.clocks := by rw [h4]
    have e2 : w.copy = w'.copy := by rw [h4]
    have e3 : w.flushed = w'.flushed := by rw [h4]
    have e4 : w.cap = w'.cap := by rw [h4]
    have e5 : w.writes = w'.writes := by rw [h4]
    have e6 : w.reads = w'.reads := by rw [h4]
    have e7 : w.ending = w'.ending := by rw [h4]
    rw [e1, e2, e3, e4, e5, e6, e7]

/-- The first line of a message that begins with a fixed text without line feeds. -/
theorem first_line {a : Str} (ha : '\n' ∉ a) (hl : ∀ c, a.getLast? = some c → c ≠ '\r') (hne : a ≠ []) (r : Str) :
    ∃ l rest, lines (a ++ r) = (a ++ l) :: rest := by
  rcases lines_split r with rfl | ⟨h1, h2⟩ | ⟨l, r', h1, rfl⟩
  · exact ⟨[], [], by rw [List.append_nil]; exact lines_last ha hne⟩
  · exact ⟨r, [], lines_last (by simp [ha, h1]) (by simp [hne])⟩
  · rw [← List.append_assoc, lines_cons (by simp [ha, h1])]
    unfold stripCr
    split
    · rename_i hg
      cases l with
      | nil => rw [List.append_nil] at hg; exact absurd rfl (hl _ hg)
      | cons x l => exact ⟨(x :: l).dropLast, _, by rw [List.dropLast_append_of_ne_nil (by simp)]⟩
    · exact ⟨l, _, rfl⟩

/-- C99: when the template has its method and its address written out up to the slash after host and port, no value of a variable changes where the
request goes. -/
theorem c99_fixed (ctx : Context F) (m : Str) (sc : Scheme) (host : Str) (port : Nat) (h : FixedTarget m sc host port) :
    ∃ path, Addressed (render ctx m) ⟨sc, host, port, path⟩ := by
  obtain ⟨⟨pre, w, gap, pt, rest, rfl, h1, h2, h3, h4, h5, h6⟩, h7, h8⟩ := h
  have hpt : ∀ c ∈ pt, isWs c = false ∧ c ≠ '{' := by
    cases h6 with
    | absent => intro c hc; cases hc
    | digits ds hne hd hp =>
      intro c hc
      rcases List.mem_cons.1 hc with rfl | hc
      · decide
      · have := hd c hc
        constructor
        · exact isWs_of_digit c ((digit_iff c).2 this)
        · rintro rfl; exact absurd this (by decide)
  have hsc : ∀ c ∈ sc.text ++ c!"://", isWs c = false ∧ c ≠ '{' := by cases sc <;> decide
  have hurl : ∀ c ∈ sc.text ++ c!"://" ++ host ++ pt, isWs c = false ∧ c ≠ '{' := by
    intro c hc
    rcases List.mem_append.1 hc with hc | hc
    · rcases List.mem_append.1 hc with hc | hc
      · exact hsc c hc
      · exact h8 c hc
    · exact hpt c hc
  generalize hU : sc.text ++ c!"://" ++ host ++ pt = U at hurl
  have hA : '{' ∉ pre ++ w ++ gap ++ U ++ ['/'] := by
    have a1 : '{' ∉ pre := fun hm => absurd (h1 _ hm) (by decide)
    have a2 : '{' ∉ w := fun hm => (h3 _ hm).2 rfl
    have a3 : '{' ∉ gap := fun hm => absurd (h5 _ hm).1 (by decide)
    have a4 : '{' ∉ U := fun hm => (hurl _ hm).2 rfl
    simp [a1, a2, a3, a4]
  have hm : render ctx (pre ++ w ++ gap ++ U ++ '/' :: rest) = pre ++ ((w ++ gap ++ U ++ ['/']) ++ render ctx rest) := by
    have := render_plain ctx hA rest
    simp only [List.append_assoc, List.cons_append, List.nil_append] at this ⊢
    exact this
  rw [hm]
  generalize render ctx rest = r
  have hlf : '\n' ∉ w ++ gap ++ U ++ ['/'] := by
    have a2 : '\n' ∉ w := fun hm => absurd (h3 _ hm).1 (by decide)
    have a3 : '\n' ∉ gap := fun hm => (h5 _ hm).2 rfl
    have a4 : '\n' ∉ U := fun hm => absurd (hurl _ hm).1 (by decide)
    simp [a2, a3, a4]
  -- trimming only shortens the end
  have htrim : ∃ r', trim (pre ++ ((w ++ gap ++ U ++ ['/']) ++ r)) = (w ++ gap ++ U ++ ['/']) ++ r' := by
    obtain ⟨b, hb1, hb2, hb3⟩ := trimEnd_split r
    refine ⟨trimEnd r, trim_unique ⟨pre, b, ?_, h1, hb2, ?_, ?_⟩⟩
    · conv => lhs; rw [hb1]
      simp only [List.append_assoc]
    · intro c hc
      cases w with
      | nil => exact absurd rfl h2
      | cons x w => cases hc; exact (h3 _ List.mem_cons_self).1
    · intro c hc
      by_cases he : trimEnd r = []
      · rw [he] at hc; simp at hc; subst hc; decide
      · exact hb3 c (by rw [List.getLast?_append, List.getLast?_eq_some_getLast he] at hc; rw [List.getLast?_eq_some_getLast he]; exact hc)
  obtain ⟨r', hr'⟩ := htrim
  obtain ⟨l, ls, hl⟩ := first_line hlf (by simp) (by simp) r'
  have hwords : ∃ q ws, Words (w ++ gap ++ U ++ ['/'] ++ l) (w :: (U ++ '/' :: q) :: ws) := by
    refine ⟨l.takeWhile (fun c => !isWs c), splitWs (l.dropWhile fun c => !isWs c), ?_⟩
    have e : w ++ gap ++ U ++ ['/'] ++ l = [] ++ w ++ (gap ++ (U ++ '/' :: l.takeWhile (fun c => !isWs c)) ++ l.dropWhile (fun c => !isWs c)) := by
      simp
    rw [e]
    refine .cons _ _ _ _ (by simp) h2 (fun c hc => (h3 c hc).1) ?_ ?_
    · intro c hc
      cases gap with
      | nil => exact absurd rfl h4
      | cons x gap => cases hc; exact (h5 _ List.mem_cons_self).1
    · refine .cons _ _ _ _ (fun c hc => (h5 c hc).1) (by simp) ?_ ?_ (words_iff.2 rfl)
      · intro c hc
        rcases List.mem_append.1 hc with hc | hc
        · exact (hurl c hc).1
        · rcases List.mem_cons.1 hc with rfl | hc
          · decide
          · have := List.all_eq_true.1 (List.all_takeWhile (l := l) (p := fun c => !isWs c)) c hc
            simpa using this
      · intro c hc
        have := List.head?_dropWhile_not (fun c => !isWs c) l
        rw [hc] at this
        simpa using this
  obtain ⟨q, ws, hws⟩ := hwords
  refine ⟨sepFirst ('/' :: q), .named _ _ _ w _ ls ws _ (trim_trims _) (lines_iff.2 (by rw [hr', hl])) hws ?_⟩
  rw [← c35_read, ← hU]
  exact url_parse_gen sc host pt _ port _ h7 h6 (.given q)

/-! ## Examples -/

/-- A network that knows one host, on one port, besides the local machine. -/
def twoHosts : Wire :=
  { smallWire with
    resolved := fun host port =>
      if host = c!"api.test" ∧ port = 8080 then some [⟨true, 1⟩, ⟨false, 2⟩]
      else if host = c!"localhost" ∧ port = 80 then some [⟨false, 2⟩]
      else none }

/-- Concrete cases for C99: the addresses that three messages name. -/
example : Addressed c!"GET http://api.test:8080/a HTTP/1.1\nHost: evil.test" ⟨.Http, c!"api.test", 8080, c!"/a"⟩ ∧
    Addressed c!"  GET\n" ⟨.Http, c!"localhost", 80, c!"/"⟩ ∧ Addressed c!" \n" ⟨.Http, c!"localhost", 80, c!"/"⟩ :=
  ⟨(c99_addressed (fun _ => none) _ _).1 (by decide +kernel), (c99_addressed (fun _ => none) _ _).1 (by decide +kernel),
    (c99_addressed (fun _ => none) _ _).1 (by decide +kernel)⟩

/-- Concrete case for C99: the same message with other ports and hosts. -/
example : twoHosts.connect ⟨.Http, c!"api.test", 8080, c!"/a"⟩ = some (.ok ⟨false, 2⟩) ∧
    twoHosts.connect ⟨.Http, c!"api.test", 80, c!"/a"⟩ = some (.error .hostNotFound) ∧
    twoHosts.connect ⟨.Https, c!"localhost", 443, c!"/a"⟩ = some (.error .hostNotFound) := by
  refine ⟨?_, ?_, ?_⟩ <;>
    simp [twoHosts, smallWire, Wire.connect, Wire.connectTcp, Wire.connectHappy, Race.init, attemptOrder, rotate, Race.run, Race.step, Race.handle, raceError]

/-- Concrete case for C99: two networks that differ elsewhere only. -/
example : SameAt c!"api.test" 8080 twoHosts { twoHosts with resolved := fun host _ => if host = c!"api.test" then some [⟨true, 1⟩, ⟨false, 2⟩] else some [] } ∧
    ¬ SameAt c!"api.test" 80 twoHosts { twoHosts with resolved := fun host _ => if host = c!"api.test" then some [⟨true, 1⟩, ⟨false, 2⟩] else some [] } :=
  ⟨⟨rfl, rfl, by decide +kernel, rfl⟩, fun h => absurd h.found (by decide +kernel)⟩

/-- Concrete case for C99: a template with a placeholder in its path. -/
theorem fixed_example : FixedTarget c!"\n  POST https://api.test:8443/{a}/b HTTP/1.1\nHost: {h}" .Https c!"api.test" 8443 where
  shape := ⟨c!"\n  ", c!"POST", c!" ", c!":8443", c!"{a}/b HTTP/1.1\nHost: {h}", by decide, by decide, by decide, by decide, by decide, by decide,
    .digits c!"8443" (by decide) (by decide) (by decide)⟩
  plain := by unfold PlainHost; decide
  solid := by decide

/-- C99: the slash matters: a placeholder directly after the host can send the request to another host. -/
theorem c99_redirect :
    Addressed (render (⟨[(c!"page", .str c!".evil.test/")], [], []⟩ : Context F) c!"GET https://api.test{page}") ⟨.Https, c!"api.test.evil.test", 443, c!"/"⟩ := by
  have : render (⟨[(c!"page", .str c!".evil.test/")], [], []⟩ : Context F) c!"GET https://api.test{page}" = c!"GET https://api.test.evil.test/" := rfl
  rw [this]
  exact (c99_addressed (fun _ => none) _ _).1 (by decide +kernel)

end Am
