import Verif.Spec.Journey
import Verif.Props.Io
import Verif.Props.Asserting
/-! # C83: from the script to the server and back -/
set_option linter.unusedSimpArgs false
set_option linter.unusedSectionVars false
namespace Am
open Spec

theorem joined_lines : ∀ (ls : List Str), (∀ l ∈ ls, '\n' ∉ l ∧ ∀ l', l ≠ l' ++ ['\r']) → (∀ l, ls.getLast? = some l → l ≠ []) → Lines (joined ls) ls
  | [], _, _ => .nil
  | [l], h, hl => .last l (h l (by simp)).1 (hl l rfl)
  | l :: m :: ls, h, hl => by
    have ih := joined_lines (m :: ls) (fun x hx => h x (List.mem_cons_of_mem _ hx)) (fun x hx => hl x (by rw [List.getLast?_cons_cons]; exact hx))
    exact .lf l _ _ (h l (by simp)).1 (h l (by simp)).2 ih

theorem joined_head (l : Str) (ls : List Str) (c : Char) (t : Str) (h : l = c :: t) : (joined (l :: ls)).head? = some c := by
  subst h
  cases ls <;> rfl

theorem joined_last : ∀ (ls : List Str) (l : Str), ls.getLast? = some l → l ≠ [] → (joined ls).getLast? = l.getLast?
  | [], _, h, _ => by cases h
  | [l], _, h, _ => by cases h; rfl
  | l :: m :: ls, x, h, hx => by
    rw [List.getLast?_cons_cons] at h
    have ih := joined_last (m :: ls) x h hx
    have hne : joined (m :: ls) ≠ [] := by
      intro he
      rw [he] at ih
      exact hx (List.getLast?_eq_none_iff.1 ih.symm)
    show (l ++ '\n' :: joined (m :: ls)).getLast? = _
    rw [List.getLast?_append, List.getLast?_cons]
    cases hg : (joined (m :: ls)).getLast? with
    | none => exact absurd (List.getLast?_eq_none_iff.1 hg) hne
    | some c => rw [hg] at ih; simpa using ih

theorem noWs_lf {s : Str} (h : ∀ c ∈ s, isWs c = false) : '\n' ∉ s := fun hm => absurd (h _ hm) (by decide)

theorem tight_cr {s : Str} (h : Tight s) : ∀ l', s ≠ l' ++ ['\r'] := by
  rintro l' rfl
  exact absurd (h.2 '\r' (by simp)) (by decide)

theorem portText_ws {d n : Nat} {t : Str} (h : PortText d t n) : ∀ c ∈ t, isWs c = false := by
  cases h with
  | absent => simp
  | digits ds _ hd _ =>
    intro c hc
    rcases List.mem_cons.1 hc with rfl | hc
    · decide
    · obtain ⟨h1, h2⟩ := hd c hc
      have e1 : ('0' : Char).toNat ≤ c.toNat := h1
      have e2 : c.toNat ≤ ('9' : Char).toNat := h2
      have e1 : 48 ≤ c.toNat := e1
      have e2 : c.toNat ≤ 57 := e2
      cases hw : isWs c with
      | false => rfl
      | true =>
        exfalso
        unfold isWs at hw
        simp only [Bool.or_eq_true, Bool.and_eq_true, decide_eq_true_eq, beq_iff_eq] at hw
        omega

theorem method_text (m : Method) : m.text ≠ [] ∧ (∀ c ∈ m.text, isWs c = false) := by cases m <;> decide
theorem version_text (v : Version) : v.text ≠ [] ∧ (∀ c ∈ v.text, isWs c = false) := by cases v <;> decide
theorem scheme_text (s : Scheme) : s.text ≠ [] ∧ (∀ c ∈ s.text, isWs c = false) := by cases s <;> decide

/-- The words of a request line. -/
theorem ask_words {a : Ask} (h : a.Plain) :
    Words a.line [a.method.text, a.scheme.text ++ c!"://" ++ a.host ++ a.portText ++ a.path, a.version.text] := by
  have hu : ∀ c ∈ a.scheme.text ++ c!"://" ++ a.host ++ a.portText ++ a.path, isWs c = false := by
    intro c hc
    simp only [List.mem_append] at hc
    rcases hc with (((hc | hc) | hc) | hc) | hc
    · exact (scheme_text _).2 c hc
    · revert c; decide
    · exact h.host.2 c hc
    · exact portText_ws h.port c hc
    · exact h.path.2.1 c hc
  have h0 : Words [] [] := .none [] (by simp)
  have h3 := Words.cons [' '] a.version.text [] [] (by decide) (version_text _).1 (version_text _).2 (by simp) h0
  have h2 := Words.cons [' '] (a.scheme.text ++ c!"://" ++ a.host ++ a.portText ++ a.path) _ _ (by decide) (by simp) hu
    (by intro c hc; simp at hc; subst hc; decide) h3
  have h1 := Words.cons [] _ _ _ (by simp) (method_text a.method).1 (method_text a.method).2 (by intro c hc; simp at hc; subst hc; decide) h2
  unfold Ask.line
  simpa using h1

theorem ask_line {a : Ask} (h : a.Plain) : '\n' ∉ a.line ∧ Tight a.line ∧ a.line ≠ [] := by
  have hp := noWs_lf (portText_ws h.port)
  obtain ⟨v1, v2⟩ := version_text a.version
  obtain ⟨m1, m2⟩ := method_text a.method
  refine ⟨?_, ⟨fun c hc => ?_, fun c hc => ?_⟩, ?_⟩
  · unfold Ask.line
    simp only [List.mem_append, List.mem_cons, not_or]
    exact ⟨noWs_lf m2, by decide, ⟨⟨⟨⟨noWs_lf (scheme_text _).2, by decide⟩, noWs_lf h.host.2⟩, hp⟩, noWs_lf h.path.2.1⟩, by decide, noWs_lf v2⟩
  · unfold Ask.line at hc
    cases hm : a.method.text with
    | nil => exact absurd hm m1
    | cons x t =>
      rw [hm] at hc
      simp at hc
      subst hc
      exact m2 x (by rw [hm]; simp)
  · unfold Ask.line at hc
    cases hl : a.version.text.getLast? with
    | none => exact absurd (List.getLast?_eq_none_iff.1 hl) v1
    | some x =>
      have : some x = some c := by
        rw [← hc, List.getLast?_append, List.getLast?_cons, List.getLast?_append, List.getLast?_cons, hl]
        simp
      cases this
      exact v2 c (List.mem_of_getLast? hl)
  · unfold Ask.line
    simp

/-- The lines of a request text. -/
def Spec.Ask.lines (a : Ask) : List Str := a.headers.map (fun h => h.name ++ c!": " ++ h.value) ++ if a.body = [] then [] else [[], a.body]

theorem headerText_line {h : Header} (hh : ':' ∉ h.name ∧ '\n' ∉ h.name ∧ '\n' ∉ h.value ∧ Tight h.name ∧ Tight h.value ∧ h.value ≠ []) :
    '\n' ∉ h.name ++ c!": " ++ h.value ∧ (∀ c, (h.name ++ c!": " ++ h.value).getLast? = some c → isWs c = false) ∧ h.name ++ c!": " ++ h.value ≠ [] := by
  obtain ⟨h1, h2, h3, h4, h5, h6⟩ := hh
  refine ⟨?_, fun c hc => ?_, by simp⟩
  · simp only [List.mem_append, not_or]
    exact ⟨⟨h2, by decide⟩, h3⟩
  · rw [List.getLast?_append] at hc
    cases hl : h.value.getLast? with
    | none => exact absurd (List.getLast?_eq_none_iff.1 hl) h6
    | some x => rw [hl] at hc; cases hc; exact h5.2 c hl

theorem ends_cr {l : Str} (h : ∀ c, l.getLast? = some c → isWs c = false) : ∀ l', l ≠ l' ++ ['\r'] := by
  rintro l' rfl
  exact absurd (h '\r' (by simp)) (by decide)

theorem ask_parts {a : Ask} (h : a.Plain) : Lines a.text (a.line :: a.lines) ∧ Tight a.text ∧
    HeaderBlock a.lines a.headers (if a.body = [] then [] else [a.body]) := by
  obtain ⟨l1, l2, l3⟩ := ask_line h
  have hall : ∀ l ∈ a.line :: a.lines, '\n' ∉ l ∧ ∀ c, l.getLast? = some c → isWs c = false := by
    intro l hl
    rcases List.mem_cons.1 hl with rfl | hl
    · exact ⟨l1, l2.2⟩
    · unfold Ask.lines at hl
      rcases List.mem_append.1 hl with hl | hl
      · obtain ⟨x, hx, rfl⟩ := List.mem_map.1 hl
        exact ⟨(headerText_line (h.headers x hx)).1, (headerText_line (h.headers x hx)).2.1⟩
      · split at hl
        · cases hl
        · rcases List.mem_cons.1 hl with rfl | hl
          · exact ⟨by simp, by simp⟩
          · rw [List.mem_singleton] at hl
            subst hl
            exact ⟨h.body.1, h.body.2.2⟩
  have hlast : ∀ l, (a.line :: a.lines).getLast? = some l → l ≠ [] := by
    intro l hl
    unfold Ask.lines at hl
    by_cases hb : a.body = []
    · rw [if_pos hb, List.append_nil] at hl
      have := List.mem_of_getLast? hl
      rcases List.mem_cons.1 this with rfl | hm
      · exact l3
      · obtain ⟨x, hx, rfl⟩ := List.mem_map.1 hm
        exact (headerText_line (h.headers x hx)).2.2
    · rw [if_neg hb, ← List.cons_append, List.getLast?_append] at hl
      cases hl
      exact hb
  refine ⟨joined_lines _ (fun l hl => ⟨(hall l hl).1, ends_cr (hall l hl).2⟩) hlast, ⟨fun c hc => ?_, fun c hc => ?_⟩, ?_⟩
  · cases hm : a.line with
    | nil => exact absurd hm l3
    | cons x t =>
      unfold Ask.text at hc
      rw [joined_head _ _ x t hm] at hc
      cases hc
      exact l2.1 c (by rw [hm]; rfl)
  · cases hl : (a.line :: a.lines).getLast? with
    | none => simp at hl
    | some l =>
      have := joined_last _ l hl (hlast l hl)
      have e : a.text = joined (a.line :: a.lines) := rfl
      rw [e, this] at hc
      exact (hall l (List.mem_of_getLast? hl)).2 c hc
  · unfold Ask.lines
    have hh := h.headers
    generalize a.headers = hs at hh
    induction hs with
    | nil =>
      by_cases hb : a.body = []
      · rw [if_pos hb, if_pos hb]; exact .ends
      · rw [if_neg hb, if_neg hb]; exact .blank [] _ (by simp)
    | cons x hs ih =>
      obtain ⟨x1, x2, x3, x4, x5, x6⟩ := hh x (by simp)
      have := HeaderBlock.field x.name (' ' :: x.value) x.name x.value _ _ _ x1 ⟨[], [], by simp, by simp, by simp, x4.1, x4.2⟩
        ⟨[' '], [], by simp, by decide, by simp, x5.1, x5.2⟩ (ih (fun y hy => hh y (List.mem_cons_of_mem _ hy)))
      simpa using this

theorem ask_request (mp : List Part → Option (List UInt8)) {a : Ask} (h : a.Plain) {m : Str} (ht : Trims m a.text) :
    (Request.ofStr mp m).1 = a.request ∧ (Request.ofStr mp m).2.bytes = utf8 a.body ∧ ∀ copy, CopyOf (Request.ofStr mp m).2 copy := by
  obtain ⟨p1, p2, p3⟩ := ask_parts h
  rw [ofStr_parts ht p1 (ask_words h) p3]
  obtain ⟨⟨q, hq⟩, hw, hsep⟩ := h.path
  have hu := c35_parse_partial a.scheme a.host a.portText a.path a.port a.path h.host.1 h.port (by rw [hq]; exact .given _) hsep
  have hct : contentType a.headers ≠ some c!"application/x-www-form-urlencoded" ∧ contentType a.headers ≠ some c!"multipart/form-data" :=
    ⟨fun he => (h.form _ (declares_iff.2 he)).1 rfl, fun he => (h.form _ (declares_iff.2 he)).2 rfl⟩
  unfold bodyOf
  rw [if_neg hct.1, if_neg hct.2]
  have hm : Method.ofStr a.method.text = a.method := c36_roundtrip.1 _
  have hv : Version.ofStr a.version.text = a.version := c36_roundtrip.2.1 _
  have e : (if a.body = [] then ([] : List Str) else [a.body]).flatten = a.body := by
    by_cases hb : a.body = []
    · rw [if_pos hb, hb]; rfl
    · rw [if_neg hb]; simp
  dsimp only
  rw [e]
  refine ⟨?_, ?_, ?_⟩
  · unfold Ask.request
    simp only [List.getElem?_cons_zero, List.getElem?_cons_succ, Method.ofOpt, Url.ofOpt, Version.ofOpt, hm, hv]
    rw [hu]
  · have hb : trim a.body = a.body := trim_unique ⟨[], [], by simp, by simp, by simp, h.body.2.1, h.body.2.2⟩
    rw [hb]
    cases hc : a.body with
    | nil => rfl
    | cons c t => rfl
  · intro copy
    split <;> exact trivial

theorem writeTo_plain (r : Request) {c : Content} (copy : Copy) (flushed : Bool) (cap : Nat) (k : Sink) (h : ∀ copy, CopyOf c copy) :
    r.writeTo c copy flushed cap k = r.writeTo c ⟨[c.bytes], none⟩ flushed cap k := by
  cases c with
  | empty => rfl
  | byte b => rfl
  | multipart b =>
    exfalso
    have := h ⟨[[0], b], none⟩
    have := congrArg List.length (this.2 rfl)
    simp at this

/-- C83, on the connection: the server gets the request as it was written, whatever the sizes of the pieces, and the program gets the response
as the server wrote it. -/
theorem c83_sent (w : Wire) (mp : List Part → Option (List UInt8)) (m : Str) (a : Ask) (serve : Server) (peer : Addr) (ha : a.Plain) (ht : Trims m a.text)
    (hs : (serve.answer a).Plain) (hw : Works w mp m a.request.url serve peer) :
    ∃ got rs t, w.send mp m = some ⟨.ok (a.request, rs, t, []), some peer, got⟩ ∧
      readWire got = some (a.method.text, a.path, a.version.text, a.fields, utf8 a.body) ∧
      rs.version = (serve.answer a).version ∧ rs.status = (serve.answer a).status ∧ rs.headers = (serve.answer a).headers ∧ rs.body = (serve.answer a).body := by
  obtain ⟨q1, q2, q3⟩ := ask_request mp ha ht
  have hread := c38_wire mp m
  rw [q1, q2] at hread
  have hgot : (a.request.writeTo (Request.ofStr mp m).2 w.copy w.flushed w.cap ⟨w.writes, []⟩).1 = none ∧
      (a.request.writeTo (Request.ofStr mp m).2 w.copy w.flushed w.cap ⟨w.writes, []⟩).2.got = a.request.wire (Request.ofStr mp m).2 := by
    rw [writeTo_plain _ _ _ _ _ q3, hw.flushes]
    have h1 := c68_succeeds a.request (Request.ofStr mp m).2 ⟨[(Request.ofStr mp m).2.bytes], none⟩ w.cap w.writes (q3 _) hw.takes rfl
    exact ⟨h1, by rw [c68_complete _ _ _ _ _ _ (q3 _) h1, requestBytes_wire]⟩
  have hmono := hw.clock
  have hans := hw.answers
  unfold Wire.send at hans ⊢
  cases hq : Request.ofStr mp m with
  | mk request content =>
    rw [hq] at hans q1 hread hgot
    dsimp only at hans q1 hread hgot ⊢
    subst q1
    rw [hw.connects] at hans ⊢
    dsimp only at hans ⊢
    rw [connected_mono hmono] at hans ⊢
    dsimp only at hans ⊢
    cases hwr : a.request.writeTo content w.copy w.flushed w.cap ⟨w.writes, []⟩ with
    | mk e sink =>
      rw [hwr] at hans hgot
      dsimp only at hans hgot ⊢
      obtain ⟨rfl, hg⟩ := hgot
      dsimp only at hans ⊢
      have hend : streamEnd (a.request.url.scheme == .Https) w.ending = none := by
        cases hse : streamEnd (a.request.url.scheme == .Https) w.ending with
        | none => rfl
        | some e => exact absurd ((streamEnd_iff _ _).1 ⟨e, hse⟩) hw.closes
      rw [hend] at hans ⊢
      cases hrc : Response.receive ⟨w.reads, none⟩ with
      | mk r first =>
        rw [hrc] at hans
        dsimp only at hans ⊢
        have hdel : Delivers w.reads (utf8 (serve.answer a).text) := by
          cases r <;> exact hans _ rfl _ _ _ _ _ (by dsimp only; rw [hg]; exact hread)
        have h67 := c67_whole w.reads _ none hdel hw.starts
        obtain ⟨rs, r1, r2, r3, r4, r5⟩ := c41_wellformed _ _ _ _ (serve.answer a).body _ hs.version hs.code hs.reason hs.headers
        rw [hrc] at h67
        have h67 : r = .ok rs := h67.trans r1
        subst h67
        dsimp only
        cases first with
        | true =>
          rw [if_pos rfl, completed_mono hmono _ rfl rfl]
          exact ⟨sink.got, rs, _, rfl, by rw [hg]; exact hread, r2, r3, r4, r5⟩
        | false =>
          rw [if_neg (by simp), completed_mono hmono _ rfl rfl]
          exact ⟨sink.got, rs, _, rfl, by rw [hg]; exact hread, r2, r3, r4, r5⟩

variable {F : Type} [Rt F]

theorem shows_map {a : Answer} {rs : Response} {map : List (Str × Value F)} (hm : rs.toMap = .ok map) (hn : rs.status ≤ 65535) (h1 : rs.version = a.version)
    (h2 : rs.status = a.status) (h3 : rs.headers = a.headers) (h4 : rs.body = a.body) : ShowsAnswer map a := by
  obtain ⟨m1, m2, -, m4, m5, -⟩ := c43_map rs map hm
  rw [h3] at m4
  refine ⟨by rw [m1, h1], ⟨_, m2, ?_⟩, ⟨_, m4, fun name hex => (c43_headers a.headers name).2 hex⟩, fun hm' hh name hne => ?_, by rw [m5, h4]⟩
  · rw [← h2]
    have : (rs.status : Int) < 2 ^ 63 := by omega
    rw [Int64.toInt_ofNat_of_lt (by omega)]
  · rw [m4] at hh
    cases hh
    exact (c43_headers a.headers name).1 hne

theorem number16_le {w : Option Str} {n : Nat} (h : Number16 w n) : n ≤ 65535 := by
  cases h <;> assumption

/-- C83, in the script: calling the request gives a map that shows the response of the server to the request as written, and adds one record with
both and with the outcomes of the asserts. The call does not return only when an assert panics. -/
theorem c83_call (net : Net) (w : Wire) (name template : Str) (asserts : List (Expr F)) (s : St F) (args : List (Value F)) (a : Ask) (serve : Server) (peer : Addr)
    (hr : s.ctx.request name = some (template, asserts)) (hl : letsList asserts = []) (ha : a.Plain) (ht : Trims (render s.ctx template) a.text)
    (hs : (serve.answer a).Plain) (hw : Works w net.multipart (render s.ctx template) a.request.url serve peer)
    (hx : w.exchange net.multipart (render s.ctx template) = some (net.exch s.sent (render s.ctx template)))
    (hp : (parse (serve.answer a).body : Res (Source F)) ≠ .hang) :
    ∃ rs t map, rs.toMap = .ok map ∧ ShowsAnswer map (serve.answer a) ∧
      ((∃ as final o, Asserted (callAt net 0) asserts ⟨Context.ofMap map, [], []⟩ as final ∧
        callAt net 1 name args s =
          (.ok (.map map), ⟨s.ctx.push ⟨name, t, a.request, rs, as, []⟩, s.sent ++ [render s.ctx template], s.out ++ o⟩)) ∨
       ((callAt net 1 name args s).1 = .panic ∧ ∃ m sent out, (evalAsserts (callAt net 0) asserts ⟨Context.ofMap m, sent, out⟩).1 = .panic)) := by
  obtain ⟨got, rs, t, h1, h2, r2, r3, r4, r5⟩ := c83_sent w net.multipart _ a serve peer ha ht hs hw
  obtain ⟨ex, e1, e2, e3⟩ := c69_refines w net.multipart _ _ h1
  rw [hx] at e1
  cases e1
  have hsend : send net s.sent (render s.ctx template) = .ok (a.request, rs, t, []) := e2.symm
  obtain ⟨map, hmap⟩ : ∃ map, rs.toMap (F := F) = .ok map := by
    unfold Response.toMap
    rw [r5]
    cases hq : (parse (serve.answer a).body : Res (Source F)) with
    | ok src => dsimp only; cases src.exprs <;> exact ⟨_, rfl⟩
    | err e => exact ⟨_, rfl⟩
    | panic => exact absurd hq (parse_not_panic _)
    | hang => exact absurd hq hp
  refine ⟨rs, t, map, hmap, shows_map hmap (by rw [r3]; exact number16_le hs.code.2) r2 r3 r4 r5, ?_⟩
  have hcall := callAt_some net args hr
  rcases callRequest_cases net 0 name template asserts s with ⟨rq, rs', t', e, map', as, ctx', o, g1, g2, g3, g4⟩ | ⟨o, g1, g2⟩ | ⟨o, g1, g2⟩
  · left
    rw [hsend] at g1
    cases g1
    rw [hmap] at g2
    cases g2
    obtain ⟨-, f2⟩ := c22_recorded_partial net name template asserts s args hr
    obtain ⟨rec, map2, final, k1, k2, k3, k4⟩ := f2 _ _ (hcall.trans g4)
    obtain ⟨_, _, _, _, map3, j1, j2, j3⟩ := c21_returns_response net name template asserts s args hr hl _ (congrArg Prod.fst (hcall.trans g4))
    rw [hsend] at j1
    cases j1
    rw [hmap] at j2
    cases j2
    have k1' : s.ctx.records ++ [⟨name, t, a.request, rs, as, []⟩] = s.ctx.records ++ [rec] := k1
    have := List.append_cancel_left k1'
    simp only [List.cons.injEq, and_true] at this
    subst this
    rw [hmap] at k2
    cases k2
    exact ⟨as, final, o, k3, by rw [hcall, g4, j3]⟩
  · exfalso
    rcases g2 with g2 | ⟨_, _, _, _, g2, g3⟩
    · rw [hsend] at g2; cases g2
    · rw [hsend] at g2
      cases g2
      rw [hmap] at g3
      cases g3
  · right
    refine ⟨by rw [hcall, g1], ?_⟩
    rcases g2 with g2 | ⟨_, _, _, _, g2, g3⟩ | g2
    · rw [hsend] at g2; cases g2
    · rw [hsend] at g2
      cases g2
      rw [hmap] at g3
      cases g3
    · exact g2

/-! ## A concrete journey -/

/-- `POST http://h/p HTTP/1.1`, one header, body `hello`. -/
def helloAsk : Ask := ⟨.Post, .Http, c!"h", [], 80, c!"/p", .Http11, [⟨c!"A", c!"b"⟩], c!"hello"⟩

/-- A server that answers with the target and the body it got. -/
def echo : Server := fun _ t _ _ b => ⟨c!"HTTP/1.1", c!"200", 200, c!"OK", [⟨c!"To", t⟩], (fromUtf8 b).getD []⟩

/-- A network that takes the request in pieces of 3, 1, and more bytes and delivers the answer in two pieces. -/
def helloWire : Wire where
  nameOk := fun _ => true
  tlsOk := fun _ => true
  resolved := fun _ _ => some [⟨false, 1⟩]
  up := fun _ => true
  race := []
  timeoutOk := true
  writes := [.accept 3, .interrupted, .accept 1]
  copy := ⟨[], none⟩
  flushed := true
  cap := 8
  reads := [.data 72 (utf8 c!"TTP/1.1 200 O"), .data 75 (utf8 c!"\r\nTo: /p\r\n\r\nhello")]
  ending := .eof
  clocks := ⟨0, 10, 11, 13, 17, 20, 23, 29, 30, 9⟩

theorem helloAsk_plain : helloAsk.Plain where
  host := by unfold PlainHost; decide
  port := .absent
  path := ⟨⟨c!"p", rfl⟩, by decide, cutSep_none.1 (by decide)⟩
  headers := by
    intro h hm
    rw [show helloAsk.headers = [⟨c!"A", c!"b"⟩] from rfl, List.mem_singleton] at hm
    subst hm
    exact ⟨by decide, by decide, by decide, ⟨fun c h => by cases h; decide, fun c h => by cases h; decide⟩, ⟨fun c h => by cases h; decide, fun c h => by cases h; decide⟩, by decide⟩
  body := ⟨by decide, ⟨fun c h => by cases h; decide, fun c h => by cases h; decide⟩⟩
  form := by
    intro v hv
    have := declares_iff.1 hv
    cases this

theorem helloText : helloAsk.text = c!"POST http://h/p HTTP/1.1\nA: b\n\nhello" := rfl

theorem helloAnswer : echo.answer helloAsk = ⟨c!"HTTP/1.1", c!"200", 200, c!"OK", [⟨c!"To", c!"/p"⟩], c!"hello"⟩ := by decide +kernel

theorem helloAnswer_plain : (echo.answer helloAsk).Plain := by
  rw [helloAnswer]
  refine ⟨⟨by decide, by decide⟩, ⟨by decide, .digits c!"200" (by decide) (by decide) (by decide)⟩, by decide, ?_⟩
  intro h hm
  rw [List.mem_singleton] at hm
  subst hm
  exact ⟨by decide, by decide, by decide, ⟨fun c h => by cases h; decide, fun c h => by cases h; decide⟩, ⟨fun c h => by cases h; decide, fun c h => by cases h; decide⟩⟩

theorem hello_works (mp : List Part → Option (List UInt8)) : Works helloWire mp helloAsk.text helloAsk.request.url echo ⟨false, 1⟩ where
  connects := rfl
  takes := by
    intro c hc
    simp [helloWire] at hc
    rcases hc with rfl | rfl | rfl
    · exact Or.inr ⟨2, rfl⟩
    · exact Or.inl rfl
    · exact Or.inr ⟨0, rfl⟩
  flushes := rfl
  answers := by
    intro sent hsend
    have hb : sent.bytes = utf8 c!"POST /p HTTP/1.1\r\nA: b\r\n\r\nhello" := by
      have hr : Request.ofStr mp helloAsk.text = (helloAsk.request, .byte (utf8 c!"hello")) := rfl
      have hw : helloAsk.request.writeTo (.byte (utf8 c!"hello")) helloWire.copy helloWire.flushed helloWire.cap ⟨helloWire.writes, []⟩ =
          (none, ⟨[], utf8 c!"POST /p HTTP/1.1\r\nA: b\r\n\r\nhello"⟩) := by decide +kernel
      have hg : Response.receive ⟨helloWire.reads, streamEnd false helloWire.ending⟩ = (.ok ⟨c!"HTTP/1.1", 200, c!"OK", [⟨c!"To", c!"/p"⟩], c!"hello"⟩, true) := by
        rw [receive_incoming]; decide +kernel
      unfold Wire.send at hsend
      rw [hr] at hsend
      dsimp only at hsend
      rw [hw, show helloWire.connect helloAsk.request.url = some (.ok ⟨false, 1⟩) from rfl, show (helloAsk.request.url.scheme == Scheme.Https) = false from rfl, hg] at hsend
      cases hsend
      rfl
    have hq' := c38_wire mp helloAsk.text
    rw [show (Request.ofStr mp helloAsk.text).1.wire (Request.ofStr mp helloAsk.text).2 = utf8 c!"POST /p HTTP/1.1\r\nA: b\r\n\r\nhello" from rfl] at hq'
    rw [hb, hq']
    intro meth t v hs b hq
    simp only [Option.some.injEq, Prod.mk.injEq] at hq
    obtain ⟨rfl, rfl, rfl, rfl, rfl⟩ := hq
    rw [delivers_iff, show Request.ofStr mp helloAsk.text = (helloAsk.request, .byte (utf8 c!"hello")) from rfl]
    decide +kernel
  starts := by intro t rest h; simp [helloWire] at h
  closes := by intro h; generalize hk : helloWire.ending = k at h; cases h <;> cases hk
  clock := by simp [Monotone, helloWire]

/-- The template of the concrete case. -/
def helloTemplate : Str := c!"POST http://h/p HTTP/1.1\nA: b\n\n{who}"

/-- Concrete case for C83: a template with a placeholder, and an assert. -/
theorem c83_hello (net : Net) (hx : helloWire.exchange net.multipart helloAsk.text = some (net.exch [] helloAsk.text)) :
    let s : St F := ⟨⟨[(c!"who", .str c!"hello")], [(c!"greet", (helloTemplate, [.binary ⟨.Eq, c!"=="⟩ (.ident c!"status") (.int 200)]))], []⟩, [], []⟩
    ∃ map s', callAt net 1 c!"greet" [] s = (.ok (.map map), s') ∧ amGet c!"status" map = some (.int 200) ∧ amGet c!"body" map = some (.str c!"hello") ∧
      s'.ctx.records.map (fun r => r.asserts) = [[⟨c!"status == 200", c!"200", c!"==", c!"200", true⟩]] := by
  intro s
  have hrd : render s.ctx helloTemplate = helloAsk.text := rfl
  have hp : (parse (echo.answer helloAsk).body : Res (Source F)) ≠ .hang := by
    rw [helloAnswer]
    intro h
    have : (parse c!"hello" : Res (Source F)) = .ok ⟨[.ident c!"hello"], [], []⟩ := rfl
    rw [this] at h
    cases h
  obtain ⟨rs, t, map, h1, h2, h3⟩ := c83_call net helloWire c!"greet" helloTemplate [.binary ⟨.Eq, c!"=="⟩ (.ident c!"status") (.int 200)] s [] helloAsk echo ⟨false, 1⟩
    rfl rfl helloAsk_plain (by rw [hrd]; exact ⟨[], [], by simp, by simp, by simp, (ask_parts helloAsk_plain).2.1.1, (ask_parts helloAsk_plain).2.1.2⟩)
    helloAnswer_plain (by rw [hrd]; exact hello_works _) (by rw [hrd]; exact hx) hp
  rw [helloAnswer] at h2
  have hstat : amGet c!"status" map = some (.int 200) := by
    obtain ⟨n, hn, hn'⟩ := h2.status
    rw [hn]
    congr 2
    exact Int64.toInt_inj.1 hn'
  have hget : ∀ (m : List (Str × Value F)) sent out, ∃ x, evalExpr (callAt net 0) (.ident c!"status") (⟨Context.ofMap m, sent, out⟩ : St F) = (x, ⟨Context.ofMap m, sent, out⟩) ∧
      (∀ v, amGet c!"status" m = some v → x = .ok v) ∧ ∃ v, operand x = some v := by
    intro m sent out
    cases hg : amGet c!"status" m with
    | none => exact ⟨.err (c!"ident:status not found"), by simp only [evalExpr, Context.get, Context.ofMap, hg]; rfl, by simp, _, rfl⟩
    | some v => exact ⟨.ok v, by simp only [evalExpr, Context.get, Context.ofMap, hg], fun _ h => by cases h; rfl, _, rfl⟩
  rcases h3 with ⟨as, final, o, ha, hc⟩ | ⟨-, m, sent, out, hpan⟩
  · refine ⟨map, _, hc, hstat, h2.body, ?_⟩
    obtain ⟨x, g1, g2, -⟩ := hget map [] []
    have hx' := g2 _ hstat
    subst hx'
    have has : as = [⟨c!"status == 200", c!"200", c!"==", c!"200", true⟩] := by
      match ha with
      | .cons e1 o1 e2 o2 cmp hk (.nil _) =>
        rw [g1] at e1
        cases e1
        cases o1
        cases e2
        cases o2
        obtain ⟨op, p1, p2⟩ := cmp
        cases p1
        have := p2
        simp [Value.eq] at this
        subst this
        rfl
      | .dropped _ _ _ _ hn _ => exact absurd (by simp [IsComparison]) hn
      | .skipped hn _ => exact absurd rfl (hn _ _ _)
    subst has
    rfl
  · exfalso
    obtain ⟨x, g1, -, v, g3⟩ := hget m sent out
    have : ((evalExpr (callAt net 0) (.ident c!"status")).orElse .null) (⟨Context.ofMap m, sent, out⟩ : St F) = (.ok v, ⟨Context.ofMap m, sent, out⟩) := by
      unfold M.orElse
      rw [g1]
      cases x <;> cases g3 <;> rfl
    simp only [evalAsserts] at hpan
    rw [M.bind_ok this] at hpan
    cases hpan

/-- There is a network as in the concrete case. -/
example : ∃ net : Net, helloWire.exchange net.multipart helloAsk.text = some (net.exch [] helloAsk.text) := by
  obtain ⟨got, rs, t, h, -⟩ := c83_sent helloWire (fun _ => none) helloAsk.text helloAsk echo ⟨false, 1⟩ helloAsk_plain
    ⟨[], [], by simp, by simp, by simp, (ask_parts helloAsk_plain).2.1.1, (ask_parts helloAsk_plain).2.1.2⟩ helloAnswer_plain (hello_works _)
  obtain ⟨ex, e, -⟩ := c69_refines _ _ _ _ h
  exact ⟨⟨fun _ _ => ex, fun _ => none⟩, e⟩

end Am
