import Verif.Proofs.Incoming
/-!
# Responses and exchanges: C41, C42, C43, C45, C46
-/
set_option linter.unusedSimpArgs false
set_option linter.unusedSectionVars false
namespace Am
open Spec
variable {F : Type} [Rt F]

/-! ## C41 -/

/-- C41: the parts of every response text that arrives completely. -/
theorem c41_parts (s line rest body : Str) (ws : List Str) (hs : List Header) (hf : FirstLine s line rest) (hw : Words line ws) (hh : HeaderText rest hs body) :
    ∃ r, Response.read ⟨utf8 s, none⟩ = .ok r ∧ r.version = ws[0]?.getD [] ∧ StatusOf ws[1]? r.status ∧ r.headers = hs ∧ r.body = body :=
  ⟨_, responseRead_text hf hw hh, rfl, statusOf_iff.2 rfl, rfl, rfl⟩

/-- C41: the parts of a response text are determined by it and exist for every text. -/
theorem c41_total (s : Str) : ∃ line rest ws hs body, FirstLine s line rest ∧ Words line ws ∧ HeaderText rest hs body ∧
    ∀ line' rest' ws' hs' body', FirstLine s line' rest' → Words line' ws' → HeaderText rest' hs' body' →
      line' = line ∧ rest' = rest ∧ ws' = ws ∧ hs' = hs ∧ body' = body := by
  obtain ⟨line, rest, hf⟩ := first_total s
  obtain ⟨hs, body, hh⟩ := headerText_total rest.length rest (Nat.le_refl _)
  refine ⟨line, rest, _, hs, body, hf, words_iff.2 rfl, hh, ?_⟩
  intro line' rest' ws' hs' body' hf' hw' hh'
  obtain ⟨rfl, rfl⟩ := first_functional hf' hf
  have h1 := readHeaders_text hh _ (Nat.lt_succ_self _)
  rw [readHeaders_text hh' _ (Nat.lt_succ_self _)] at h1
  simp only [Res.ok.injEq, Prod.mk.injEq, Incoming.mk.injEq] at h1
  exact ⟨rfl, rfl, (words_iff.1 hw').symm, h1.1, utf8_inj h1.2.1⟩

/-- C41, for a response as a server writes it: status line, header lines, blank line, body, lines ended by carriage return and line feed. -/
theorem c41_wellformed (version code : Str) (reason : Str) (hs : List Header) (body : Str) (n : Nat)
    (hv : version ≠ [] ∧ ∀ c ∈ version, isWs c = false) (hc : (∀ c ∈ code, isWs c = false) ∧ Number16 (some code) n) (hr : '\n' ∉ reason)
    (hh : ∀ h ∈ hs, ':' ∉ h.name ∧ '\n' ∉ h.name ∧ '\n' ∉ h.value ∧ Tight h.name ∧ Tight h.value) :
    ∃ r, Response.read ⟨utf8 (version ++ ' ' :: (code ++ ' ' :: (reason ++ c!"\r\n")) ++ hs.flatMap (fun h => h.name ++ c!": " ++ h.value ++ c!"\r\n") ++ c!"\r\n" ++ body), none⟩ = .ok r ∧
      r.version = version ∧ r.status = n ∧ r.headers = hs ∧ r.body = body := by
  have hcn : code ≠ [] := by
    rintro rfl
    obtain ⟨_, h2⟩ := hc
    cases h2 with
    | digits _ h _ _ => exact h rfl
  have hws : ∀ {w : Str}, (∀ c ∈ w, isWs c = false) → '\n' ∉ w := fun h hm => absurd (h _ hm) (by decide)
  have hf : FirstLine (version ++ ' ' :: (code ++ ' ' :: (reason ++ c!"\r\n")) ++ hs.flatMap (fun h => h.name ++ c!": " ++ h.value ++ c!"\r\n") ++ c!"\r\n" ++ body)
      (version ++ ' ' :: (code ++ ' ' :: (reason ++ c!"\r"))) (hs.flatMap (fun h => h.name ++ c!": " ++ h.value ++ c!"\r\n") ++ c!"\r\n" ++ body) := by
    have := FirstLine.more (version ++ ' ' :: (code ++ ' ' :: (reason ++ c!"\r"))) (hs.flatMap (fun h => h.name ++ c!": " ++ h.value ++ c!"\r\n") ++ c!"\r\n" ++ body) (by
      simp only [List.mem_append, List.mem_cons, not_or]
      exact ⟨hws hv.2, by decide, hws hc.1, by decide, hr, by decide⟩)
    have e : version ++ ' ' :: (code ++ ' ' :: (reason ++ c!"\r\n")) ++ hs.flatMap (fun h => h.name ++ c!": " ++ h.value ++ c!"\r\n") ++ c!"\r\n" ++ body =
        version ++ ' ' :: (code ++ ' ' :: (reason ++ c!"\r")) ++ '\n' :: (hs.flatMap (fun h => h.name ++ c!": " ++ h.value ++ c!"\r\n") ++ c!"\r\n" ++ body) := by simp
    rw [e]
    exact this
  have hw : Words (version ++ ' ' :: (code ++ ' ' :: (reason ++ c!"\r"))) (version :: code :: splitWs (' ' :: (reason ++ c!"\r"))) := by
    have h3 := words_iff.2 (rfl : splitWs (' ' :: (reason ++ c!"\r")) = _)
    have h2 := Words.cons [' '] code (' ' :: (reason ++ c!"\r")) _ (by decide) hcn hc.1 (by intro c h; cases h; decide) h3
    exact Words.cons [] version _ _ (by simp) hv.1 hv.2 (by intro c h; cases h; decide) h2
  have ht : HeaderText (hs.flatMap (fun h => h.name ++ c!": " ++ h.value ++ c!"\r\n") ++ c!"\r\n" ++ body) hs body := by
    clear hf
    induction hs with
    | nil => exact .blank _ c!"\r" body (.more c!"\r" body (by decide)) (by decide)
    | cons h hs ih =>
      obtain ⟨a1, a2, a3, a4, a5⟩ := hh h List.mem_cons_self
      have e : (h :: hs).flatMap (fun h => h.name ++ c!": " ++ h.value ++ c!"\r\n") ++ c!"\r\n" ++ body =
          (h.name ++ ':' :: (' ' :: h.value ++ c!"\r")) ++ '\n' :: (hs.flatMap (fun h => h.name ++ c!": " ++ h.value ++ c!"\r\n") ++ c!"\r\n" ++ body) := by
        simp
      rw [e]
      refine .field _ h.name (' ' :: h.value ++ c!"\r") h.name h.value _ hs body (.more _ _ ?_) a1 ⟨[], [], by simp, by simp, by simp, a4.1, a4.2⟩
        ⟨c!" ", c!"\r", by simp, by decide, by decide, a5.1, a5.2⟩ (ih fun x hx => hh x (List.mem_cons_of_mem _ hx))
      simp only [List.mem_append, List.mem_cons, not_or]
      exact ⟨a2, by decide, ⟨by decide, a3⟩, by decide⟩
  obtain ⟨r, h1, h2, h3, h4, h5⟩ := c41_parts _ _ _ _ _ _ hf hw ht
  refine ⟨r, h1, h2, ?_, h4, h5⟩
  have := (statusOf_iff.1 (Or.inl hc.2 : StatusOf (some code) n)).symm.trans (statusOf_iff.1 h3)
  exact this.symm

/-- Concrete case for `c41_wellformed`. -/
example : ∃ r, Response.read ⟨utf8 c!"HTTP/1.1 404 Not Found\r\nA: 1\r\nA: b:c\r\n\r\né\r\n", none⟩ = .ok r ∧ r.version = c!"HTTP/1.1" ∧ r.status = 404 ∧
    r.headers = [⟨c!"A", c!"1"⟩, ⟨c!"A", c!"b:c"⟩] ∧ r.body = c!"é\r\n" :=
  c41_wellformed c!"HTTP/1.1" c!"404" c!"Not Found" [⟨c!"A", c!"1"⟩, ⟨c!"A", c!"b:c"⟩] c!"é\r\n" 404 ⟨by decide, by decide⟩
    ⟨by decide, .digits c!"404" (by decide) (by decide) (by decide)⟩ (by decide) (by
      intro h hm
      simp only [List.mem_cons, List.not_mem_nil, or_false] at hm
      rcases hm with rfl | rfl
      · exact ⟨by decide, by decide, by decide, ⟨fun c h => by cases h; decide, fun c h => by cases h; decide⟩, ⟨fun c h => by cases h; decide, fun c h => by cases h; decide⟩⟩
      · exact ⟨by decide, by decide, by decide, ⟨fun c h => by cases h; decide, fun c h => by cases h; decide⟩, ⟨fun c h => by cases h; decide, fun c h => by cases h; decide⟩⟩)

/-- C41: a response is produced exactly when the stream ends without an I/O error and all its bytes are valid UTF-8; in all other cases there is
an error. Reading never panics and never fails to end. -/
theorem c41_valid (r : Incoming) :
    ((∃ resp, Response.read r = .ok resp) ↔ (r.failure = none ∧ ∃ s, r.bytes = utf8 s)) ∧
    ((∃ resp, Response.read r = .ok resp) ∨ ∃ e, Response.read r = .err e) := by
  constructor
  · constructor
    · rintro ⟨resp, h⟩
      exact responseRead_ok h
    · rintro ⟨h1, s, h2⟩
      obtain ⟨line, rest, ws, hs, body, hf, hw, hh, _⟩ := c41_total s
      obtain ⟨bs, f⟩ := r
      cases h1
      cases h2
      exact ⟨_, responseRead_text hf hw hh⟩
  · cases h : Response.read r with
    | ok resp => exact Or.inl ⟨_, rfl⟩
    | err e => exact Or.inr ⟨_, rfl⟩
    | panic => exact absurd h (responseRead_not_panic r)
    | hang => exact absurd h (responseRead_not_hang r)

/-- Concrete case for `c41_valid`: a truncated stream and an invalid byte. -/
example : (∃ resp, Response.read ⟨utf8 c!"HTTP/1.1 20", none⟩ = .ok resp) ∧ ¬ ∃ s, [72, 255] = utf8 s := by
  refine ⟨(c41_valid _).1.2 ⟨rfl, _, rfl⟩, ?_⟩
  rintro ⟨s, hs⟩
  have h : fromUtf8 [72, 255] = some s := by rw [hs]; exact fromUtf8_utf8 s
  exact absurd h (by rw [show fromUtf8 [72, 255] = none by decide]; simp)

/-! ## C42 -/

/-- The reason phrase of a status line: what follows the blank after the status code, without the white space at its ends. -/
def ReasonOf (line phrase : Str) : Prop :=
  ∃ version code rest, line = version ++ ' ' :: (code ++ rest) ∧ version ≠ [] ∧ code ≠ [] ∧ (∀ c ∈ version, isWs c = false) ∧ (∀ c ∈ code, isWs c = false) ∧
    (∀ c, rest.head? = some c → isWs c = true) ∧ Trims rest phrase

/-- C42, as stated. -/
def ReasonPreserved : Prop :=
  ∀ (s line rest phrase : Str) (r : Response), FirstLine s line rest → ReasonOf line phrase → Response.read ⟨utf8 s, none⟩ = .ok r → r.reason = phrase

/-- C42: in general the reason is the first word of the phrase. -/
theorem c42_first_word (s line rest phrase : Str) (r : Response) (hf : FirstLine s line rest) (hp : ReasonOf line phrase)
    (h : Response.read ⟨utf8 s, none⟩ = .ok r) : ∃ ws, Words phrase ws ∧ r.reason = ws[0]?.getD [] := by
  obtain ⟨version, code, tail, rfl, hv, hc, hvw, hcw, hh, ht⟩ := hp
  obtain ⟨hs, body, hht⟩ := headerText_total rest.length rest (Nat.le_refl _)
  refine ⟨splitWs phrase, words_iff.2 rfl, ?_⟩
  have hwt : Words tail (splitWs phrase) := by
    obtain ⟨a, b, e, h1, h2, h3, h4⟩ := ht
    rw [e]
    refine words_pad ?_ h2
    have := words_iff.2 (rfl : splitWs phrase = _)
    rw [words_iff]
    unfold splitWs
    exact splitWsAux_space a h1 phrase
  have hw2 := Words.cons [' '] code tail _ (by decide) hc hcw hh hwt
  have hw := Words.cons [] version (' ' :: (code ++ tail)) _ (by simp) hv hvw (by intro c h; cases h; decide) hw2
  have hread := responseRead_text hf hw hht
  rw [h] at hread
  cases hread
  rfl

/-- C42, partial: a phrase of at most one word is preserved. Missing: phrases of several words, see `c42_false`. -/
theorem c42_partial (s line rest phrase : Str) (r : Response) (hf : FirstLine s line rest) (hp : ReasonOf line phrase)
    (h : Response.read ⟨utf8 s, none⟩ = .ok r) (hone : ∀ c ∈ phrase, isWs c = false) : r.reason = phrase := by
  obtain ⟨ws, hw, e⟩ := c42_first_word s line rest phrase r hf hp h
  rw [e]
  cases phrase with
  | nil =>
    have := words_iff.1 hw
    rw [← this]
    rfl
  | cons c p =>
    have := Words.cons [] (c :: p) [] [] (by simp) (by simp) hone (by intro c h; cases h) (.none [] (by simp))
    rw [List.nil_append, List.append_nil, words_iff] at this
    rw [words_iff, this] at hw
    rw [← hw]
    rfl

/-- C42, the exact condition: the phrase is preserved exactly when it contains no white space. -/
theorem c42_exact (s line rest phrase : Str) (r : Response) (hf : FirstLine s line rest) (hp : ReasonOf line phrase)
    (h : Response.read ⟨utf8 s, none⟩ = .ok r) : r.reason = phrase ↔ ∀ c ∈ phrase, isWs c = false := by
  refine ⟨fun e => ?_, c42_partial s line rest phrase r hf hp h⟩
  obtain ⟨ws, hw, e2⟩ := c42_first_word s line rest phrase r hf hp h
  rw [← e, e2]
  cases ws with
  | nil => intro c hc; cases hc
  | cons w ws =>
    have := words_iff.1 hw
    exact (splitWs_word (s := phrase) (by rw [this]; simp)).2.1

/-- Concrete case for `c42_partial`. -/
example : ReasonOf c!"HTTP/1.1 200 OK\r" c!"OK" :=
  ⟨c!"HTTP/1.1", c!"200", c!" OK\r", rfl, by decide, by decide, by decide, by decide, (fun c h => by cases h; decide),
    c!" ", c!"\r", rfl, by decide, by decide, (fun c h => by cases h; decide), (fun c h => by cases h; decide)⟩

/-- C42 is false as stated: the reason of `HTTP/1.1 404 Not Found` is `Not`. -/
theorem c42_false : ¬ ReasonPreserved := by
  intro h
  have hf : FirstLine c!"HTTP/1.1 404 Not Found\r\n\r\n" c!"HTTP/1.1 404 Not Found\r" c!"\r\n" := .more c!"HTTP/1.1 404 Not Found\r" c!"\r\n" (by decide)
  have hw : Words c!"HTTP/1.1 404 Not Found\r" [c!"HTTP/1.1", c!"404", c!"Not", c!"Found"] := words_iff.2 (by decide)
  have hh : HeaderText c!"\r\n" [] [] := .blank _ c!"\r" [] (.more c!"\r" [] (by decide)) (by decide)
  have := h _ _ _ c!"Not Found" _ hf ⟨c!"HTTP/1.1", c!"404", c!" Not Found\r", rfl, by decide, by decide, by decide, by decide, (fun c h => by cases h; decide),
    c!" ", c!"\r", rfl, by decide, by decide, (fun c h => by cases h; decide), (fun c h => by cases h; decide)⟩ (responseRead_text hf hw hh)
  exact absurd this (by decide)

/-! ## C43 -/

/-- C43: the map of header arrays. -/
theorem c43_headers (hs : List Header) (name : Str) :
    ((∀ h ∈ hs, h.name ≠ name) → amGet name (headerMap (F := F) hs) = none) ∧
    ((∃ h ∈ hs, h.name = name) → amGet name (headerMap (F := F) hs) = some (.arr ((valuesOf name hs).map .str))) := by
  constructor
  · intro h
    rw [(headerMap_values hs).2, if_pos (valuesOf_nil.2 h)]
  · rintro ⟨h, hm, he⟩
    rw [(headerMap_values hs).2, if_neg (fun hn => valuesOf_nil.1 hn h hm he)]

/-- Concrete case for `c43_headers`. -/
example : valuesOf c!"A" [⟨c!"A", c!"1"⟩, ⟨c!"a", c!"2"⟩, ⟨c!"A", c!"0"⟩] = [c!"1", c!"0"] := by decide

theorem baseMap_get (r : Response) : KeysNodup (r.baseMap (F := F)) ∧
    amGet c!"version" (r.baseMap (F := F)) = some (.str r.version) ∧ amGet c!"status" (r.baseMap (F := F)) = some (.int (Int64.ofNat r.status)) ∧
    amGet c!"reason" (r.baseMap (F := F)) = some (.str r.reason) ∧ amGet c!"headers" (r.baseMap (F := F)) = some (.map (headerMap r.headers)) ∧
    amGet c!"body" (r.baseMap (F := F)) = some (.str r.body) ∧ amGet c!"json" (r.baseMap (F := F)) = none ∧
    (∀ k v, amGet k (r.baseMap (F := F)) = some v → k ∈ [c!"version", c!"status", c!"reason", c!"headers", c!"body"]) := by
  unfold Response.baseMap
  refine ⟨amInsert_nodup (amInsert_nodup (amInsert_nodup (amInsert_nodup (amInsert_nodup (by simp [KeysNodup]))))), ?_, ?_, ?_, ?_, ?_, ?_, ?_⟩
  · simp [amGet_insert, amGet]
  · simp [amGet_insert, amGet]
  · simp [amGet_insert, amGet]
  · simp [amGet_insert, amGet]
  · simp [amGet_insert, amGet]
  · simp [amGet_insert, amGet]
  · intro k v h
    simp only [amGet_insert, amGet] at h
    simp only [List.mem_cons, List.not_mem_nil, or_false]
    by_cases h1 : c!"body" = k
    · simp [← h1]
    · by_cases h2 : c!"headers" = k
      · simp [← h2]
      · by_cases h3 : c!"reason" = k
        · simp [← h3]
        · by_cases h4 : c!"status" = k
          · simp [← h4]
          · by_cases h5 : c!"version" = k
            · simp [← h5]
            · rw [if_neg h1, if_neg h2, if_neg h3, if_neg h4, if_neg h5] at h
              cases h

/-- C43: the map of a response has the response's version, status, reason, headers and body, and, if anything, only `json` besides. -/
theorem c43_map (r : Response) (m : List (Str × Value F)) (h : r.toMap = .ok m) :
    amGet c!"version" m = some (.str r.version) ∧ amGet c!"status" m = some (.int (Int64.ofNat r.status)) ∧ amGet c!"reason" m = some (.str r.reason) ∧
    amGet c!"headers" m = some (.map (headerMap r.headers)) ∧ amGet c!"body" m = some (.str r.body) ∧
    (∀ k v, amGet k m = some v → k ∈ [c!"version", c!"status", c!"reason", c!"headers", c!"body", c!"json"]) := by
  obtain ⟨_, b1, b2, b3, b4, b5, _, b7⟩ := baseMap_get (F := F) r
  have base : ∀ k v, amGet k (r.baseMap (F := F)) = some v → k ∈ [c!"version", c!"status", c!"reason", c!"headers", c!"body", c!"json"] := by
    intro k v hk
    have := b7 k v hk
    simp only [List.mem_cons, List.not_mem_nil, or_false] at this ⊢
    rcases this with h | h | h | h | h <;> simp [h]
  unfold Response.toMap at h
  split at h
  · split at h
    · cases h
      refine ⟨?_, ?_, ?_, ?_, ?_, ?_⟩
      · rw [amGet_insert_ne _ _ (by decide)]; exact b1
      · rw [amGet_insert_ne _ _ (by decide)]; exact b2
      · rw [amGet_insert_ne _ _ (by decide)]; exact b3
      · rw [amGet_insert_ne _ _ (by decide)]; exact b4
      · rw [amGet_insert_ne _ _ (by decide)]; exact b5
      · intro k v hk
        by_cases hj : c!"json" = k
        · simp [← hj]
        · rw [amGet_insert_ne _ _ hj] at hk
          exact base k v hk
    · cases h; exact ⟨b1, b2, b3, b4, b5, base⟩
  · cases h; exact ⟨b1, b2, b3, b4, b5, base⟩
  · cases h
  · cases h

/-- C43: the status of a response fits the integer of the map. -/
theorem c43_status (s : Str) (r : Response) (h : Response.read ⟨utf8 s, none⟩ = .ok r) : (Int64.ofNat r.status).toInt = r.status := by
  obtain ⟨line, rest, ws, hs, body, hf, hw, hh, _⟩ := c41_total s
  obtain ⟨r', h1, _, h3, _⟩ := c41_parts _ _ _ _ _ _ hf hw hh
  rw [h] at h1
  cases h1
  have : r.status ≤ 65535 := by
    rcases h3 with h | ⟨_, h⟩
    · generalize ws[1]? = w at h
      generalize r.status = n at h
      cases h <;> assumption
    · omega
  rw [Int64.toInt_ofNat_of_lt (by omega)]

/-! ## C45 -/

/-- C45: the phases of a successful exchange add up, for every monotone clock. -/
theorem c45_sum (net : Net) (sent : List Str) (m : Str) (rq : Request) (rs : Response) (t : Time) (h : Monotone (clocksOf (net.exch sent m)))
    (he : send net sent m = .ok (rq, rs, t, [])) (ha : ∃ inc c, net.exch sent m = .answered inc c ∧ Response.read inc = .ok rs) :
    t.total = t.resolve + t.connect + t.write + t.delay + t.read ∧
    t.total = (clocksOf (net.exch sent m)).fin - (clocksOf (net.exch sent m)).start ∧
    t.resolve = (clocksOf (net.exch sent m)).res1 - (clocksOf (net.exch sent m)).res0 ∧
    t.delay = (clocksOf (net.exch sent m)).first - (clocksOf (net.exch sent m)).rd := by
  obtain ⟨inc, c, hx, hr⟩ := ha
  unfold send at he
  rw [hx] at h he ⊢
  simp only [exchange, clocksOf] at h he ⊢
  rw [connected_mono h, Res.ok_bind, hr] at he
  dsimp only at he
  rw [completed_mono h _ rfl rfl] at he
  cases he
  obtain ⟨a, b, c1, d, e, f, g⟩ := h
  dsimp only
  exact ⟨by omega, rfl, rfl, rfl⟩

/-- C45: sending never panics when the clock is monotone. -/
theorem c45_no_panic (net : Net) (sent : List Str) (m : Str) (h : Monotone (clocksOf (net.exch sent m))) : send net sent m ≠ .panic :=
  send_not_panic net sent m h

/-- Concrete clocks for `c45_sum`: resolve 2, connect 5, write 4, delay 3, read 6. -/
example : Monotone ⟨0, 10, 11, 13, 17, 20, 23, 29, 30, 0⟩ := by simp [Monotone]

/-! ## C46 -/

/-- I/O errors have a text. -/
def Speaks : Exchange → Prop
  | .refused (.readFailed io) _ => io ≠ []
  | .refused (.writeFailed io) _ => io ≠ []
  | .refused _ _ => True
  | .broken (.readFailed io) _ => io ≠ []
  | .broken (.writeFailed io) _ => io ≠ []
  | .broken _ _ => True
  | .answered inc _ => ∀ e, inc.failure = some e → e ≠ []

theorem readLine_err {r : Incoming} {e : Str} (h : readLine r = .err e) : e = utf8Error ∨ r.failure = some e := by
  unfold readLine at h
  split at h
  · dsimp only at h
    split at h
    · cases h
    · cases h; exact Or.inl rfl
  · split at h
    · rename_i hf; cases h; exact Or.inr hf
    · split at h
      · cases h
      · cases h; exact Or.inl rfl

theorem readHeaders_err : ∀ (n : Nat) {r : Incoming} {e : Str}, readHeaders n r = .err e → e = utf8Error ∨ r.failure = some e := by
  intro n
  induction n with
  | zero => intro r e h; cases h
  | succ n ih =>
    intro r e h
    rw [readHeaders] at h
    cases hl : readLine r with
    | err e' => rw [hl] at h; cases h; exact readLine_err hl
    | panic => rw [hl] at h; cases h
    | hang => rw [hl] at h; cases h
    | ok p =>
      obtain ⟨l, r1⟩ := p
      obtain ⟨_, f1⟩ := readLine_bytes hl
      rw [hl, Res.ok_bind] at h
      dsimp only at h
      split at h
      · cases h
      · cases hh : readHeaders n r1 with
        | err e' => rw [hh] at h; cases h; rw [← f1]; exact ih hh
        | panic => rw [hh] at h; cases h
        | hang => rw [hh] at h; cases h
        | ok q =>
          rw [hh, Res.ok_bind] at h
          split at h <;> cases h

theorem responseRead_err {r : Incoming} {e : Str} (h : Response.read r = .err e) : e = utf8Error ∨ r.failure = some e := by
  unfold Response.read at h
  cases hl : readLine r with
  | err e' => rw [hl] at h; cases h; exact readLine_err hl
  | panic => rw [hl] at h; cases h
  | hang => rw [hl] at h; cases h
  | ok p =>
    obtain ⟨l, r1⟩ := p
    obtain ⟨_, f1⟩ := readLine_bytes hl
    rw [hl, Res.ok_bind] at h
    dsimp only at h
    cases hh : readHeaders (r1.bytes.length + 1) r1 with
    | err e' => rw [hh] at h; cases h; rw [← f1]; exact readHeaders_err _ hh
    | panic => rw [hh] at h; cases h
    | hang => rw [hh] at h; cases h
    | ok q =>
      obtain ⟨hs, r2⟩ := q
      obtain ⟨_, _, f2⟩ := readHeaders_bytes _ hh
      rw [hh, Res.ok_bind] at h
      dsimp only at h
      unfold readRest at h
      rw [f2, f1] at h
      cases hf : r.failure with
      | some e' => rw [hf] at h; cases h; exact Or.inr rfl
      | none =>
        rw [hf] at h
        dsimp only at h
        cases hb : fromUtf8 r2.bytes with
        | none => rw [hb] at h; cases h; exact Or.inl rfl
        | some b => rw [hb] at h; cases h

/-- C46, what the error says when the answer cannot be read: the text of the I/O error, or that the answer is no UTF-8. -/
theorem c46_says {r : Incoming} {e : Str} (h : Response.read r = .err e) :
    r.failure = some e ∨ (e = c!"stream did not contain valid UTF-8" ∧ ∀ s, r.bytes ≠ utf8 s) ∨
      (e = c!"stream did not contain valid UTF-8" ∧ r.failure ≠ none) := by
  rcases responseRead_err h with he | he
  · by_cases hf : r.failure = none
    · refine Or.inr (Or.inl ⟨he, fun s hs => ?_⟩)
      obtain ⟨resp, hr⟩ := (c41_valid r).1.2 ⟨hf, s, hs⟩
      rw [hr] at h
      cases h
    · exact Or.inr (Or.inr ⟨he, hf⟩)
  · exact Or.inl he

/-- Concrete case for `c46_says`. -/
example : Response.read ⟨[72, 255, 10], none⟩ = .err c!"stream did not contain valid UTF-8" := by decide +kernel

/-- C46: sending always returns the parsed request; either the exchange succeeded, the response is the one read and the error text is empty,
or it failed, the response is the empty one and the error text is not empty. -/
theorem c46_reported (net : Net) (sent : List Str) (m : Str) (h : Monotone (clocksOf (net.exch sent m))) (hs : Speaks (net.exch sent m)) :
    ∃ rs t e, send net sent m = .ok ((Request.ofStr net.multipart m).1, rs, t, e) ∧
      ((∃ inc c, net.exch sent m = .answered inc c ∧ Response.read inc = .ok rs ∧ e = []) ∨
       ((∀ inc c, net.exch sent m = .answered inc c → ∃ e', Response.read inc = .err e') ∧ rs = ⟨[], 0, [], [], []⟩ ∧ e ≠ [])) := by
  unfold send
  cases hx : net.exch sent m with
  | refused e c =>
    rw [hx] at hs
    exact ⟨_, _, _, rfl, Or.inr ⟨(fun _ _ h => by cases h), rfl, by cases e <;> first | exact hs | decide⟩⟩
  | broken e c =>
    rw [hx] at hs h
    simp only [exchange, clocksOf] at h ⊢
    rw [connected_mono h]
    exact ⟨_, _, _, rfl, Or.inr ⟨(fun _ _ h => by cases h), rfl, by cases e <;> first | exact hs | decide⟩⟩
  | answered inc c =>
    rw [hx] at hs h
    simp only [exchange, clocksOf] at h ⊢
    rw [connected_mono h, Res.ok_bind]
    cases hr : Response.read inc with
    | ok rs =>
      dsimp only
      rw [completed_mono h _ rfl rfl]
      exact ⟨_, _, _, rfl, Or.inl ⟨_, _, rfl, hr, rfl⟩⟩
    | err e =>
      refine ⟨_, _, _, rfl, Or.inr ⟨?_, rfl, ?_⟩⟩
      · intro inc' c' h'
        cases h'
        exact ⟨e, hr⟩
      · rcases responseRead_err hr with rfl | hf
        · decide
        · exact hs e hf
    | panic => exact absurd hr (responseRead_not_panic _)
    | hang => exact absurd hr (responseRead_not_hang _)

/-- Concrete case for `c46_reported`: a refused connection. -/
example : Speaks (.refused .tcpConnectFailed ⟨0, 0, 0, 0, 0, 0, 0, 0, 0, 0⟩) ∧ Monotone ⟨0, 0, 0, 0, 0, 0, 0, 0, 0, 0⟩ := by
  simp [Speaks, Monotone]

end Am
