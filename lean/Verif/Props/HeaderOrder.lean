import Verif.Proofs.HeaderOrderEval
/-!
# The order of headers: C122
-/
set_option linter.unusedSimpArgs false
set_option linter.unusedSectionVars false
namespace Am
open Spec
variable {F : Type}

/-! ## Requests -/

/-- C122, requests: a message in which header lines with different names are exchanged becomes the same request with the same content, apart from the
order of these headers. -/
theorem c122_request (mp : List Part → Option (List UInt8)) (m m' t t' first : Str) (rest rest' : List Str) (ht : Trims m t)
    (hl : Lines t (first :: rest)) (ht' : Trims m' t') (hl' : Lines t' (first :: rest')) (h : MovedLines rest rest') :
    ∃ hs', Moved (Request.ofStr mp m).1.headers hs' ∧
      Request.ofStr mp m' = ({ (Request.ofStr mp m).1 with headers := hs' }, (Request.ofStr mp m).2) := by
  obtain ⟨h1, h2⟩ := headerLines_moved h
  rw [ofStr_parts (mp := mp) ht hl (words_iff.2 rfl) (headerLines_block rest), ofStr_parts (mp := mp) ht' hl' (words_iff.2 rfl) (headerLines_block rest'),
    contentType_moved h2, h1]
  exact ⟨_, h2, rfl⟩

/-- Concrete case for `c122_request`: the content type after another header; the body is a form all the same. -/
example :
    (Request.ofStr (fun _ => none) c!"POST http://h/\nAccept: x\nContent-Type: application/x-www-form-urlencoded\n\na:1 2").2 = .byte (utf8 c!"a=1+2") ∧
    (Request.ofStr (fun _ => none) c!"POST http://h/\nContent-Type: application/x-www-form-urlencoded\nAccept: x\n\na:1 2").2 = .byte (utf8 c!"a=1+2") ∧
    MovedLines [c!"Accept: x", c!"Content-Type: application/x-www-form-urlencoded", [], c!"a:1 2"]
      [c!"Content-Type: application/x-www-form-urlencoded", c!"Accept: x", [], c!"a:1 2"] := by
  refine ⟨by decide +kernel, by decide +kernel, .swap c!"Accept" c!" x" c!"Content-Type" c!" application/x-www-form-urlencoded" _ (by decide) (by decide) ?_⟩
  intro name name' h h' hs
  rw [← trim_unique h, ← trim_unique h'] at hs
  exact absurd (sameLetters_lower.1 hs) (by decide)

/-- C122, requests: the bytes sent have the same request line, the same header lines in another order and the same body. -/
theorem c122_wire (r : Request) (content : Content) (hs' : List Header) (h : Moved r.headers hs') :
    ∃ ls ls' : List Str, ls.Perm ls' ∧ r.wire content = utf8 (r.line ++ ls.flatten ++ c!"\r\n") ++ content.bytes ∧
      Request.wire { r with headers := hs' } content = utf8 (r.line ++ ls'.flatten ++ c!"\r\n") ++ content.bytes := by
  refine ⟨r.headers.map Header.line, hs'.map Header.line, (moved_perm h).map _, ?_, ?_⟩
  · rw [← List.flatMap_def]; rfl
  · rw [← List.flatMap_def]; rfl

/-! ## Responses -/

/-- C122, responses: a response in which header lines with different names are exchanged is read as the same response, apart from the order of the
headers; every header is found with the same values. -/
theorem c122_response [Rt F] (s s' line rest rest' : Str) (hf : FirstLine s line rest) (hf' : FirstLine s' line rest') (h : MovedText rest rest') :
    ∃ r hs', Response.read ⟨utf8 s, none⟩ = .ok r ∧ Moved r.headers hs' ∧ Response.read ⟨utf8 s', none⟩ = .ok { r with headers := hs' } ∧
      (∀ name, amGet name (headerMap (F := F) hs') = amGet name (headerMap r.headers)) ∧ (headerMap (F := F) hs').length = (headerMap (F := F) r.headers).length := by
  obtain ⟨hs, body, hb⟩ := headerText_total rest.length rest (Nat.le_refl _)
  obtain ⟨hs', h1, h2⟩ := headerText_moved h hb
  refine ⟨_, hs', responseRead_text hf (words_iff.2 rfl) hb, h2, responseRead_text hf' (words_iff.2 rfl) h1, fun name => ?_, length_unordered (headerMap_moved h2)⟩
  rw [(headerMap_values _).2, (headerMap_values _).2, valuesOf_moved h2]

/-- Concrete case for `c122_response`. -/
example : FirstLine c!"HTTP/1.1 200 OK\nA: 1\nB: 2\n\nbody" c!"HTTP/1.1 200 OK" c!"A: 1\nB: 2\n\nbody" ∧
    FirstLine c!"HTTP/1.1 200 OK\nB: 2\nA: 1\n\nbody" c!"HTTP/1.1 200 OK" c!"B: 2\nA: 1\n\nbody" ∧ MovedText c!"A: 1\nB: 2\n\nbody" c!"B: 2\nA: 1\n\nbody" := by
  refine ⟨.more c!"HTTP/1.1 200 OK" _ (by decide), .more c!"HTTP/1.1 200 OK" _ (by decide), .swap c!"A" c!" 1" c!"B" c!" 2" _ (by decide) (by decide) (by decide) ?_⟩
  intro name name' h h' hs
  rw [← trim_unique h, ← trim_unique h'] at hs
  exact absurd (sameLetters_lower.1 hs) (by decide)

/-! ## Runs -/

/-- What a send brings back, apart from the order of the headers of the response. -/
def MovedSend (p q : Request × Response × Time × Str) : Prop :=
  ∃ hs, Moved p.2.1.headers hs ∧ q = (p.1, { p.2.1 with headers := hs }, p.2.2)

theorem send_moved {net net' : Net} (h : MovedNet net net') (sent : List Str) (message : Str) :
    UnorderedRes MovedSend (send net sent message) (send net' sent message) := by
  unfold send
  rw [h.1]
  have hx := h.2 sent message
  generalize net.exch sent message = x at hx ⊢
  generalize net'.exch sent message = y at hx ⊢
  generalize (Request.ofStr net.multipart message).1 = req
  cases hx with
  | same => exact unorderedRes_same fun a _ => ⟨a.2.1.headers, .same _, rfl⟩
  | moved s s' line rest rest' c hf hf' ht =>
    obtain ⟨hs, body, hb⟩ := headerText_total rest.length rest (Nat.le_refl _)
    obtain ⟨hs', h1, h2⟩ := headerText_moved ht hb
    have e1 := responseRead_text hf (words_iff.2 rfl) hb
    have e2 := responseRead_text hf' (words_iff.2 rfl) h1
    unfold exchange
    dsimp only
    rw [e1, e2]
    cases Time.connected c with
    | ok t =>
      cases hc : t.completed c with
      | ok t2 =>
        simp only [Bind.bind, Res.bind, hc]
        exact .ok ⟨hs', h2, rfl⟩
      | err e => simp only [Bind.bind, Res.bind, hc]; exact .err e
      | panic => simp only [Bind.bind, Res.bind, hc]; exact .panic
      | hang => simp only [Bind.bind, Res.bind, hc]; exact .hang
    | err e => exact .err e
    | panic => exact .panic
    | hang => exact .hang

theorem baseMap_moved [Rt F] (r : Response) {hs : List Header} (h : Moved r.headers hs) :
    Unordered (.map (r.baseMap (F := F))) (.map (Response.baseMap { r with headers := hs })) :=
  insert_unordered (insert_unordered (insert_unordered (insert_unordered (insert_unordered (unordered_refl proper_empty) (.str _) _) (.int _) _) (.str _) _)
    (headerMap_moved h) _) (.str _) _

theorem movedRecords_snoc {l l' : List Record} (h : MovedRecords l l') {r r' : Record} (hr : MovedRecord r r') : MovedRecords (l ++ [r]) (l' ++ [r']) := by
  induction h with
  | nil => exact .cons hr .nil
  | cons h _ ih => exact .cons h ih

theorem movedRecords_same : ∀ l : List Record, MovedRecords l l
  | [] => .nil
  | r :: l => .cons (.mk r (.same _)) (movedRecords_same l)

section
variable {i : Rt F} {o : List (Str × Str) → List (Str × Str)} (hi : Visits i.order) (ho : Visits o)
include hi ho

theorem toMap_moved (r : Response) {hs : List Header} (hm : Moved r.headers hs) (h : ∀ x ∈ @shownBody F i r.body, OneWay x) :
    UnorderedRes (fun a b => Unordered (.map a) (.map b)) (@Response.toMap F i r) (@Response.toMap F (reordered i o) { r with headers := hs }) := by
  rw [toMap_order hi ho { r with headers := hs } h]
  unfold Response.toMap
  dsimp only
  have hb := @baseMap_moved F i r hs hm
  cases @parse F i r.body with
  | ok src =>
    dsimp only
    cases src.exprs with
    | nil => exact .ok hb
    | cons e l => exact .ok (insert_unordered hb (unordered_refl (literal_proper e)) _)
  | err e => exact .ok hb
  | panic => exact .panic
  | hang => exact .hang

theorem render_unordered {ctx ctx' : Context F} (hv : Unordered (.map ctx.inner) (.map ctx'.inner)) (message : Str)
    (h : ∀ x ∈ (findTemplates message).filterMap (fun m => ctx.get m.1), OneWay x) : @render F (reordered i o) ctx' message = @render F i ctx message := by
  unfold render
  congr 1
  refine List.map_congr_left fun m hm => ?_
  congr 1
  unfold varText
  have hx : ∀ v, ctx.get m.1 = some v → OneWay v := fun v hg => h v (List.mem_filterMap.2 ⟨m, List.mem_reverse.1 hm, hg⟩)
  unfold Context.get at hx ⊢
  rcases get_unordered hv m.1 with ⟨e1, e2⟩ | ⟨a, b, e1, e2, hab⟩
  · rw [e1, e2]; rfl
  · rw [e1, e2]
    have one := hx a e1
    rw [unordered_oneWay one hab]
    exact oneWay_display hi ho one

theorem request_unordered {net net' : Net} (hn : MovedNet net net') {call call' : Call F} {shows : Str → List (Value F) → St F → List (Value F)}
    (hc : ∀ n vs vs' s s', Unordered (.arr vs) (.arr vs') → UnorderedSt s s' → (∀ x ∈ shows n vs s, OneWay x) →
      UnorderedRun Unordered (call n vs s) (call' n vs' s')) (name message : Str) (asserts : List (Expr F)) (s s' : St F) (hs : UnorderedSt s s')
    (h : ∀ x ∈ @shownRequest F i net call shows message asserts s, OneWay x) :
    UnorderedRun Unordered (@callRequest F i net call name message asserts s) (@callRequest F (reordered i o) net' call' name message asserts s') := by
  unfold shownRequest at h
  have hx := List.forall_mem_append.1 h
  have hr := render_unordered hi ho hs.vars message hx.1
  have hx2 := hx.2
  have hsend := send_moved hn s.sent (@render F i s.ctx message)
  have hst : UnorderedSt { s with sent := s.sent ++ [@render F i s.ctx message] } { s' with sent := s'.sent ++ [@render F i s.ctx message] } :=
    ⟨hs.vars, hs.requests, hs.records, by change s'.sent ++ _ = s.sent ++ _; rw [hs.sent], hs.out⟩
  have body : ∀ rt n c (s : St F), @callRequest F rt n c name message asserts s =
      match send n s.sent (@render F rt s.ctx message) with
      | .ok p =>
        match @Response.toMap F rt p.2.1 with
        | .ok map =>
          M.bind (inLocal map (@evalAsserts F rt c asserts)) (fun q => M.bind (M.modify fun s => { s with ctx := s.ctx.push ⟨name, p.2.2.1, p.1, p.2.1, q.1, p.2.2.2⟩ })
            fun _ => M.pure (.map q.2)) { s with sent := s.sent ++ [@render F rt s.ctx message] }
        | .err e => (.err e, { s with sent := s.sent ++ [@render F rt s.ctx message] })
        | .panic => (.panic, { s with sent := s.sent ++ [@render F rt s.ctx message] })
        | .hang => (.hang, { s with sent := s.sent ++ [@render F rt s.ctx message] })
      | .err e => (.err e, { s with sent := s.sent ++ [@render F rt s.ctx message] })
      | .panic => (.panic, { s with sent := s.sent ++ [@render F rt s.ctx message] })
      | .hang => (.hang, { s with sent := s.sent ++ [@render F rt s.ctx message] }) := by
    intro rt n c s
    unfold callRequest
    simp only [Bind.bind, Pure.pure, M.bind, M.get, M.modify, M.lift]
    cases send n s.sent (@render F rt s.ctx message) with
    | ok p =>
      obtain ⟨request, response, time, error⟩ := p
      dsimp only
      cases @Response.toMap F rt response <;> rfl
    | _ => rfl
  rw [body, body, hr, hs.sent]
  rw [hs.sent] at hst
  cases hp : send net s.sent (@render F i s.ctx message) with
  | err e =>
    rw [hp] at hsend
    generalize send net' s.sent (@render F i s.ctx message) = q at hsend ⊢
    cases hsend
    exact ⟨.err e, hst⟩
  | panic =>
    rw [hp] at hsend
    generalize send net' s.sent (@render F i s.ctx message) = q at hsend ⊢
    cases hsend
    exact ⟨.panic, hst⟩
  | hang =>
    rw [hp] at hsend
    generalize send net' s.sent (@render F i s.ctx message) = q at hsend ⊢
    cases hsend
    exact ⟨.hang, hst⟩
  | ok p =>
    rw [hp] at hsend hx2
    generalize send net' s.sent (@render F i s.ctx message) = q at hsend ⊢
    obtain ⟨request, response, time, error⟩ := p
    have hy := List.forall_mem_append.1 hx2
    have hy2 := hy.2
    cases hsend with
    | ok hpq =>
      obtain ⟨hs', hmv, rfl⟩ := hpq
      dsimp only at hmv ⊢
      have hmap := toMap_moved hi ho response hmv hy.1
      cases hm : @Response.toMap F i response with
      | err e =>
        rw [hm] at hmap
        generalize @Response.toMap F (reordered i o) _ = q at hmap ⊢
        cases hmap
        exact ⟨.err e, hst⟩
      | panic =>
        rw [hm] at hmap
        generalize @Response.toMap F (reordered i o) _ = q at hmap ⊢
        cases hmap
        exact ⟨.panic, hst⟩
      | hang =>
        rw [hm] at hmap
        generalize @Response.toMap F (reordered i o) _ = q at hmap ⊢
        cases hmap
        exact ⟨.hang, hst⟩
      | ok map =>
        rw [hm] at hmap hy2
        generalize @Response.toMap F (reordered i o) _ = q at hmap ⊢
        cases hmap with
        | @ok _ map' hmm =>
          dsimp only at hy2 ⊢
          have local0 : UnorderedSt (⟨Context.ofMap map, s.sent ++ [@render F i s.ctx message], s.out⟩ : St F)
              ⟨Context.ofMap map', s.sent ++ [@render F i s.ctx message], s'.out⟩ := ⟨hmm, rfl, .nil, rfl, hs.out⟩
          have ha := evalAsserts_unordered hi ho hc asserts _ _ local0 hy2
          have hin : UnorderedRun (fun a b => a.1 = b.1 ∧ Unordered (.map a.2) (.map b.2))
              (inLocal map (@evalAsserts F i call asserts) { s with sent := s.sent ++ [@render F i s.ctx message] })
              (inLocal map' (@evalAsserts F (reordered i o) call' asserts) { s' with sent := s.sent ++ [@render F i s.ctx message] }) := by
            unfold inLocal
            dsimp only
            obtain ⟨a1, a2⟩ := ha
            cases hq : @evalAsserts F i call asserts ⟨Context.ofMap map, s.sent ++ [@render F i s.ctx message], s.out⟩ with
            | mk r t =>
              cases hq' : @evalAsserts F (reordered i o) call' asserts ⟨Context.ofMap map', s.sent ++ [@render F i s.ctx message], s'.out⟩ with
              | mk r' t' =>
                rw [hq, hq'] at a1 a2
                dsimp only at a1 a2 ⊢
                have back : UnorderedSt { t with ctx := s.ctx } { t' with ctx := s'.ctx } := ⟨hs.vars, hs.requests, hs.records, a2.sent, a2.out⟩
                cases a1 with
                | ok e => exact ⟨.ok ⟨e, a2.vars⟩, back⟩
                | err e => exact ⟨.err e, back⟩
                | panic => exact ⟨.panic, back⟩
                | hang => exact ⟨.hang, back⟩
          refine bind_unordered hin fun a a' t t' _ haa ht => ?_
          obtain ⟨e1, e2⟩ := haa
          refine ⟨.ok e2, ht.vars, ht.requests, ?_, ht.sent, ht.out⟩
          have e3 := movedRecords_snoc ht.records (.mk ⟨name, time, request, response, a.1, error⟩ hmv)
          rw [← e1]
          exact e3

theorem call_unordered {net net' : Net} (hn : MovedNet net net') : ∀ (n : Nat) (name : Str) (args args' : List (Value F)) (s s' : St F),
    Unordered (.arr args) (.arr args') → UnorderedSt s s' → (∀ x ∈ @shownCall F i net n name args s, OneWay x) →
    UnorderedRun Unordered (@callAt F i net n name args s) (@callAt F (reordered i o) net' n name args' s')
  | 0, name, args, args', s, s', ha, hs, h => by
    unfold callAt Context.request
    rw [hs.requests]
    cases amGet name s.ctx.requests with
    | some p => exact ⟨.hang, hs⟩
    | none => exact native_unordered hi ho name ha h hs
  | n + 1, name, args, args', s, s', ha, hs, h => by
    unfold callAt
    unfold shownCall at h
    have e : s'.ctx.request name = s.ctx.request name := by unfold Context.request; rw [hs.requests]
    rw [e]
    cases hr : s.ctx.request name with
    | some p =>
      obtain ⟨message, asserts⟩ := p
      rw [hr] at h
      exact request_unordered hi ho hn (call_unordered hn n) name message asserts s s' hs h
    | none =>
      rw [hr] at h
      exact native_unordered hi ho name ha h hs

end

/-- C122, partial: if the servers answer the same apart from the order of headers with different names, and no value that the run turns into text has a
map with two or more entries, then the run does the same: the same messages sent, the same text printed, the same result, error and variables up to the
order of entries in maps, and the same records apart from the order of the received headers. Both runs may have different iteration orders of hash
maps. Missing: runs that turn the map of headers itself into text, see `c122_false`. -/
theorem c122_block_partial (i : Rt F) (o : List (Str × Str) → List (Str × Str)) (hi : Visits i.order) (ho : Visits o) (net net' : Net) (hn : MovedNet net net')
    (es : List (Expr F)) (s s' : St F) (hs : UnorderedSt s s') (h : ∀ x ∈ @shownRun F i net es s, OneWay x) :
    UnorderedRun Unordered (@runBlock F i net es s) (@runBlock F (reordered i o) net' es s') :=
  evalBlock_unordered hi ho (call_unordered hi ho hn 1) es .null .null s s' hs .null h

/-- C122, partial: the same for `am eval` and for one line of a session; what is printed is the same. -/
theorem c122_text_partial (i : Rt F) (o : List (Str × Str) → List (Str × Str)) (hi : Visits i.order) (ho : Visits o) (net net' : Net) (hn : MovedNet net net')
    (text : Str) (s s' : St F) (hs : UnorderedSt s s') (h : ∀ x ∈ @shownText F i net text s, OneWay x) :
    UnorderedRun Eq (@evalText F i net text s) (@evalText F (reordered i o) net' text s') := by
  unfold shownText at h
  unfold evalText
  rw [reordered_parse i o]
  have say : ∀ {t t' : St F} (x : Str), UnorderedSt t t' → UnorderedRun Eq (sayLine x t) (sayLine x t') := fun {t t'} x ht =>
    ⟨.ok rfl, ht.vars, ht.requests, ht.records, ht.sent, by change t'.out ++ _ ++ _ = t.out ++ _ ++ _; rw [ht.out]⟩
  cases hp : @parse F i text with
  | ok src =>
    rw [hp] at h
    dsimp only at h ⊢
    have hx := List.forall_mem_append.1 h
    have ht : UnorderedSt { s with ctx := s.ctx.extend src.requests } { s' with ctx := s'.ctx.extend src.requests } :=
      ⟨hs.vars, by change amExtend s'.ctx.requests _ = amExtend s.ctx.requests _; rw [hs.requests], hs.records, hs.sent, hs.out⟩
    have hrun := c122_block_partial i o hi ho net net' hn src.exprs _ _ ht hx.1
    have hx2 := hx.2
    change UnorderedRun Eq
      (match @runBlock F i net src.exprs { s with ctx := s.ctx.extend src.requests } with
        | (.ok v, s) => sayLine (@Value.display F i v) s
        | (.err e, s) => sayLine e s
        | (.panic, s) => (.panic, s)
        | (.hang, s) => (.hang, s))
      (match @runBlock F (reordered i o) net' src.exprs { s' with ctx := s'.ctx.extend src.requests } with
        | (.ok v, s) => sayLine (@Value.display F (reordered i o) v) s
        | (.err e, s) => sayLine e s
        | (.panic, s) => (.panic, s)
        | (.hang, s) => (.hang, s))
    unfold after at hx2
    obtain ⟨r1, r2⟩ := hrun
    cases hq : @runBlock F i net src.exprs { s with ctx := s.ctx.extend src.requests } with
    | mk r t =>
      cases hq' : @runBlock F (reordered i o) net' src.exprs { s' with ctx := s'.ctx.extend src.requests } with
      | mk r' t' =>
        rw [hq, hq'] at r1 r2
        rw [hq] at hx2
        dsimp only at r1 r2 hx2 ⊢
        cases r1 with
        | @ok a b hab =>
          have one : OneWay a := hx2 a List.mem_cons_self
          dsimp only
          rw [unordered_oneWay one hab, oneWay_display hi ho one]
          exact say _ r2
        | err e => exact say e r2
        | panic => exact ⟨.panic, r2⟩
        | hang => exact ⟨.hang, r2⟩
  | err e => exact say e hs
  | panic => exact ⟨.panic, hs⟩
  | hang => exact ⟨.hang, hs⟩

/-- C122, partial: the same for a whole session. -/
theorem c122_session_partial (i : Rt F) (o : List (Str × Str) → List (Str × Str)) (hi : Visits i.order) (ho : Visits o) (net net' : Net) (hn : MovedNet net net') :
    ∀ (input : List Input) (s s' : St F), UnorderedSt s s' → (∀ x ∈ @shownSession F i net input s, OneWay x) →
      UnorderedRun Eq (@replLoop F i net input s) (@replLoop F (reordered i o) net' input s')
  | [], _, _, hs, _ => ⟨.hang, hs⟩
  | .bad :: rest, s, s', hs, h => c122_session_partial i o hi ho net net' hn rest s s' hs h
  | .line text :: rest, s, s', hs, h => by
    have ih := c122_session_partial i o hi ho net net' hn rest
    unfold shownSession at h
    unfold replLoop
    by_cases h1 : text = c!"exit"
    · rw [if_pos h1, if_pos h1]
      exact ⟨.ok rfl, hs⟩
    · rw [if_neg h1] at h ⊢
      rw [if_neg h1]
      by_cases h2 : (trim text).isEmpty = true
      · rw [if_pos h2] at h ⊢
        rw [if_pos h2]
        exact ih s s' hs h
      · rw [if_neg h2] at h ⊢
        rw [if_neg h2]
        have hx := List.forall_mem_append.1 h
        refine bind_unordered (c122_text_partial i o hi ho net net' hn text s s' hs hx.1) fun a a' t t' hm _ ht => ?_
        have hy := after_hold hx.2 hm
        exact ih t t' ht hy

/-- C122: records that differ in the order of received headers are reported with the same text and count alike. -/
theorem c122_report (r r' : Record) (h : MovedRecord r r') : r'.text = r.text ∧ r'.flag = r.flag ∧ r'.asserts = r.asserts ∧ r'.time = r.time := by
  cases h
  exact ⟨rfl, rfl, rfl, rfl⟩

theorem unorderedSt_new [Rt F] : UnorderedSt (⟨Context.new, [], []⟩ : St F) ⟨Context.new, [], []⟩ := ⟨unordered_refl proper_empty, rfl, .nil, rfl, rfl⟩

/-- The two answers of the examples. -/
theorem movedNet_example : MovedNet (replying c!"HTTP/1.1 200 OK\nA: 1\nB: 2\n\n") (replying c!"HTTP/1.1 200 OK\nB: 2\nA: 1\n\n") := by
  refine ⟨rfl, fun _ _ => .moved _ _ c!"HTTP/1.1 200 OK" c!"A: 1\nB: 2\n\n" c!"B: 2\nA: 1\n\n" _ (.more c!"HTTP/1.1 200 OK" _ (by decide))
    (.more c!"HTTP/1.1 200 OK" _ (by decide)) (.swap c!"A" c!" 1" c!"B" c!" 2" _ (by decide) (by decide) (by decide) ?_)⟩
  intro name name' h h' hs
  rw [← trim_unique h, ← trim_unique h'] at hs
  exact absurd (sameLetters_lower.1 hs) (by decide)

set_option maxRecDepth 20000 in
/-- Concrete case for `c122_text_partial`: a script that passes a received header on. Everything it turns into text is a string. -/
example :
    let script := c!"request a `GET http://a/`[headers[\"A\"] == [\"1\"]]\nrequest b `GET http://b/{t}`\nlet t = a().headers[\"B\"][0]; b(); length(\"x\")"
    MovedNet (replying c!"HTTP/1.1 200 OK\nA: 1\nB: 2\n\n") (replying c!"HTTP/1.1 200 OK\nB: 2\nA: 1\n\n") ∧
    messages (replying c!"HTTP/1.1 200 OK\nA: 1\nB: 2\n\n") script = [c!"GET http://a/", c!"GET http://b/2"] ∧
    messages (replying c!"HTTP/1.1 200 OK\nB: 2\nA: 1\n\n") script = [c!"GET http://a/", c!"GET http://b/2"] :=
  ⟨movedNet_example, by decide +kernel, by decide +kernel⟩

set_option maxRecDepth 20000 in
/-- The condition of `c122_text_partial` holds for a script that passes a received header on. -/
example : ∀ x ∈ @shownText F64 (rt64 ⟨true, fun c => [c], id⟩) (replying c!"HTTP/1.1 200 OK\nA: 1\nB: 2\n\n")
    c!"request a `GET http://a/`\nrequest b `GET http://b/{t}`\nlet t = a().headers[\"B\"][0]; b(); length(\"x\")" ⟨Context.new, [], []⟩, OneWay x := by
  have h : (@shownText F64 (rt64 ⟨true, fun c => [c], id⟩) (replying c!"HTTP/1.1 200 OK\nA: 1\nB: 2\n\n")
    c!"request a `GET http://a/`\nrequest b `GET http://b/{t}`\nlet t = a().headers[\"B\"][0]; b(); length(\"x\")" ⟨Context.new, [], []⟩).all isOneWay = true := by
    decide +kernel
  exact fun x hx => (isOneWay_iff x).1 (List.all_eq_true.1 h x hx)

set_option maxRecDepth 20000 in
/-- C122 is false when a script sends the map of received headers as text: the message then depends on the order of the headers. -/
theorem c122_false :
    MovedNet (replying c!"HTTP/1.1 200 OK\nA: 1\nB: 2\n\n") (replying c!"HTTP/1.1 200 OK\nB: 2\nA: 1\n\n") ∧
    messages (replying c!"HTTP/1.1 200 OK\nA: 1\nB: 2\n\n") c!"request a `GET http://a/`\nrequest b `GET http://b/{t}`\nlet t = a().headers; b()" =
      [c!"GET http://a/", c!"GET http://b/{\"A\": Array([String(\"1\")]), \"B\": Array([String(\"2\")])}"] ∧
    messages (replying c!"HTTP/1.1 200 OK\nB: 2\nA: 1\n\n") c!"request a `GET http://a/`\nrequest b `GET http://b/{t}`\nlet t = a().headers; b()" =
      [c!"GET http://a/", c!"GET http://b/{\"B\": Array([String(\"2\")]), \"A\": Array([String(\"1\")])}"] :=
  ⟨movedNet_example, by decide +kernel, by decide +kernel⟩

end Am
