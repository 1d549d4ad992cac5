import Verif.Props.JsonExact
import Verif.Props.Faults
import Verif.Props.Accepts
/-! # C44: which JSON documents are exposed as what they denote, whatever is in them -/
set_option linter.unusedSimpArgs false
set_option linter.unusedSectionVars false
namespace Am
open Spec
variable {F : Type} [Rt F]

/-! ## Nothing read contains a quote -/

/-- The expressions of an accepted text come from well-formed tokens. -/
theorem returned_formed (text : Str) (src : Source F) (h : parse text = .ok src) (e : Expr F) (he : Returned src e) : Formed e := by
  obtain ⟨items, hR, rfl, -⟩ := parse_items text src h
  rcases returned_item items _ e he with h | ⟨i, hi, he⟩
  · rcases h with h | ⟨p, hp, h⟩ | ⟨p, hp, h⟩
    · cases h
    · cases hp
    · cases hp
  · obtain ⟨a, ti, b, h1, h2, hb⟩ := readsSource_items hR i hi
    obtain ⟨te, h3, h4⟩ := item_reads h1 e he
    refine reads_formed h3 fun t ht => ?_
    have hti := h4 t ht
    rcases c04_tokens_ok text t (by rw [h2]; simp [hti]) with rfl | h
    · obtain ⟨x, y, hxy⟩ := List.append_of_mem hti
      obtain ⟨t', r', hs, _, hL⟩ := segment_endsEof text
      rw [hs] at h2
      have := hL (a ++ x) Token.eof (y ++ b) (by rw [h2, hxy]; simp) rfl
      simp at this
      exact absurd this.2 hb
    · exact h

mutual
/-- No text in the value contains a quote; names are not looked at. -/
def Unquoted : Value F → Prop
  | .str s => '"' ∉ s
  | .arr vs => UnquotedAll vs
  | .map ps => UnquotedPairs ps
  | _ => True
termination_by structural v => v
/-- All items. -/
def UnquotedAll : List (Value F) → Prop
  | [] => True
  | v :: vs => Unquoted v ∧ UnquotedAll vs
termination_by structural l => l
/-- All values. -/
def UnquotedPairs : List (Str × Value F) → Prop
  | [] => True
  | (_, v) :: ps => Unquoted v ∧ UnquotedPairs ps
termination_by structural l => l
end

theorem unquotedPairs_iff {ps : List (Str × Value F)} : UnquotedPairs ps ↔ ∀ p ∈ ps, Unquoted p.2 := by
  induction ps with
  | nil => exact ⟨fun _ p hp => (by cases hp), fun _ => trivial⟩
  | cons p ps ih =>
    obtain ⟨k, v⟩ := p
    simp only [UnquotedPairs, ih, List.forall_mem_cons]

mutual
theorem formed_unquoted : ∀ (e : Expr F), Formed e → Unquoted e.eval
  | .int _, _ => trivial
  | .float _, _ => trivial
  | .bool _, _ => trivial
  | .str _, h => h
  | .ident _, _ => trivial
  | .arr es, h => formedAll_unquoted es h
  | .map ps, h => formedPairs_unquoted ps [] trivial h
  | .index _ _, _ => trivial
  | .field _ _, _ => trivial
  | .letE _ _, _ => trivial
  | .unary _ _, _ => trivial
  | .binary _ _ _, _ => trivial
  | .paren _, _ => trivial
  | .ifE _ _ _, _ => trivial
  | .call _ _, _ => trivial
termination_by structural e => e
theorem formedAll_unquoted : ∀ (es : List (Expr F)), FormedAll es → UnquotedAll (Expr.evalItems es)
  | [], _ => trivial
  | e :: es, h => ⟨formed_unquoted e h.1, formedAll_unquoted es h.2⟩
termination_by structural es => es
theorem formedPairs_unquoted : ∀ (ps : List (Expr F × Expr F)) (acc : List (Str × Value F)), UnquotedPairs acc → FormedPairs ps →
    UnquotedPairs (Expr.evalPairs acc ps)
  | [], _, h, _ => h
  | (k, v) :: ps, acc, h, hp => by
    have hv := formed_unquoted v hp.2.1
    refine formedPairs_unquoted ps _ ?_ hp.2.2
    rw [unquotedPairs_iff] at h ⊢
    intro p hm
    rcases mem_amInsert hm with rfl | hm
    · exact hv
    · exact h p hm
termination_by structural ps => ps
end

theorem quote_denoted {s : List JChar} {x : Str} (h : JStrVal s x) (hm : .short '"' ∈ s) : '"' ∈ x := by
  induction h with
  | nil => cases hm
  | plain c l s _ ih =>
    rcases List.mem_cons.1 hm with h | h
    · cases h
    · exact List.mem_cons_of_mem _ (ih h)
  | short c l s _ ih =>
    rcases List.mem_cons.1 hm with h | h
    · injection h with h; subst h; exact List.mem_cons_self
    · exact List.mem_cons_of_mem _ (ih h)
  | unicode a b c d x l s _ _ ih =>
    rcases List.mem_cons.1 hm with h | h
    · cases h
    · exact List.mem_cons_of_mem _ (ih h)
  | pair a b c d a' b' c' d' x l s _ _ _ _ _ _ ih =>
    rcases List.mem_cons.1 hm with h | h
    · cases h
    · rcases List.mem_cons.1 h with h | h
      · cases h
      · exact List.mem_cons_of_mem _ (ih h)

theorem lastValue_of_mem {n : Str} {v : Value F} : ∀ {vs : List (Str × Value F)}, (vs.map Prod.fst).Nodup → (n, v) ∈ vs →
    lastValue n vs = some v := by
  intro vs
  induction vs with
  | nil => intro _ h; cases h
  | cons p vs ih =>
    intro hn hm
    obtain ⟨k, w⟩ := p
    simp only [List.map_cons, List.nodup_cons] at hn
    simp only [lastValue]
    rcases List.mem_cons.1 hm with h | h
    · injection h with h1 h2
      subst h1 h2
      cases hl : lastValue n vs with
      | some u => exact absurd (lastValue_mem hl) hn.1
      | none => simp
    · rw [ih hn.2 h]; rfl

mutual
/-- A document whose value has no quotes in its texts has no escaped quotes in its strings. -/
theorem denotes_unquoted {j : JsonDoc} {v : Value F} (h : Denotes j v) (hu : Unquoted v) (hd : DistinctJson j) (hn : NamesJson j) : NoQuoteJson j := by
  match h with
  | .null => trivial
  | .bool _ => trivial
  | .int _ _ _ _ _ => trivial
  | .float _ _ _ _ => trivial
  | .str s x hx => exact fun hm => hu (quote_denoted hx hm)
  | .arr js vs ha => exact denotesAll_unquoted ha hu hd hn
  | .obj ms vs m hm _ hl =>
    refine denotesMembers_unquoted hm (fun p hp => ?_) hd.2 hn
    obtain ⟨k, w⟩ := p
    have := lastValue_of_mem (hd.1 _ (members_names hm)) hp
    rw [← hl k] at this
    exact unquotedPairs_iff.1 hu (k, w) (amGet_mem this)
theorem denotesAll_unquoted {js : List JsonDoc} {vs : List (Value F)} (h : DenotesAll js vs) (hu : UnquotedAll vs) (hd : DistinctAll js)
    (hn : NamesAll js) : NoQuoteAll js := by
  match h with
  | .nil => trivial
  | .cons j js v vs h1 h2 => exact ⟨denotes_unquoted h1 hu.1 hd.1 hn.1, denotesAll_unquoted h2 hu.2 hd.2 hn.2⟩
theorem denotesMembers_unquoted {ms : List (List JChar × JsonDoc)} {vs : List (Str × Value F)} (h : DenotesMembers ms vs)
    (hu : ∀ p ∈ vs, Unquoted p.2) (hd : DistinctMembers ms) (hn : NamesMembers ms) : NoQuoteMembers ms := by
  match h with
  | .nil => trivial
  | .cons k j ms n v vs _ h2 h3 =>
    exact ⟨hn.1, denotes_unquoted h2 (hu _ List.mem_cons_self) hd.1 hn.2.1,
      denotesMembers_unquoted h3 (fun p hp => hu p (List.mem_cons_of_mem _ hp)) hd.2 hn.2.2⟩
end

/-! ## Documents that are not raw -/

/-- What the grammar writes is read as a whole before a token that continues nothing. -/
theorem writes_whole {e : Expr F} {ts u : List Token} {t : Token} (text : Str) (h : Writes e ts) (hs : segment text = ts ++ t :: u)
    (h1 : t.kind.precedence = 0) (h2 : t.kind ≠ .Semi) (h3 : t.kind ≠ .Else) : Whole 0 (segment text) e (t :: u) := by
  obtain ⟨c, N, hN⟩ := Complete.zero h (writes_complete h) Token.eof (fits_zero (r := u) h1 h2 h3)
  obtain ⟨a, r, hs', hE, _⟩ := segment_endsEof text
  have hp := hN (N + r.length + 1) (by omega)
  rw [← hs, hs', next_cons] at hp
  have := parseExpr_tells (F := F) (r.length + 1) (N + r.length + 1) (by omega) 0 ⟨a, r⟩ hE (by simp)
  rw [hp] at this
  rw [hs']
  exact this.2

/-- Reading an expression comes to a token that does not fit, or ends before a name. -/
def StuckAt (F : Type) [Rt F] (ts : List Token) : Prop :=
  (∃ (why : Fault F) (at' : List Token), Faulty 0 ts why at') ∨ ∃ (e : Expr F) (t : Token) (r : List Token), Whole 0 ts e (t :: r) ∧ t.kind = .Ident

/-- The tokens begin like a number, an array or an object. -/
def OpensDoc (ts : List Token) : Prop := ∃ t r, ts = t :: r ∧ t.kind ∈ [Kind.Integer, .Float, .Sub, .Ls, .Lb]

theorem OpensDoc.not {ts : List Token} (h : OpensDoc ts) {k : Kind} (hk : k ∉ [Kind.Integer, .Float, .Sub, .Ls, .Lb]) : NotNext k ts := by
  obtain ⟨t, r, rfl, ht⟩ := h
  exact ⟨t, r, rfl, fun he => hk (he ▸ ht)⟩

/-- The exponent as written. -/
def expText (n : JNum) : Str := match n.exp with | some (e, s, d) => e :: (s.toList ++ d) | none => []

/-- The tokens of a number: a sign, the digits, then the exponent. -/
theorem num_tokens {n : JNum} (hok : n.Ok) {rest : Str} (hr : EndsText rest) :
    ∃ t, segment (n.text ++ rest) = (if n.neg then [fixTok .Sub] else []) ++ t :: segment (expText n ++ rest) ∧
      ((n.frac = none ∧ t = ⟨.Integer, n.int⟩) ∨ ∃ f, n.frac = some f ∧ t = ⟨.Float, n.int ++ '.' :: f⟩) := by
  obtain ⟨neg, int, frac, exp⟩ := n
  obtain ⟨o1, o2, o3, o4⟩ := hok
  simp only at o1 o2 o3 o4
  have sign : ∀ x : Str, segment ((if neg then ['-'] else []) ++ x) = (if neg then [fixTok .Sub] else []) ++ segment x := by
    intro x
    cases neg with
    | false => rfl
    | true => exact seg_fixed .Sub x rfl (fun _ => rfl)
  have after : ∀ {k : Kind} {l : Str}, k = .Integer ∨ k = .Float → NoExt ⟨k, l⟩ (expText ⟨neg, int, frac, exp⟩ ++ rest) := by
    intro k l hk c r hc
    cases exp with
    | none =>
      obtain ⟨h1, h2⟩ := hr c r hc
      rcases hk with rfl | rfl <;> simp [extends', word_digit h1, h2]
    | some p =>
      obtain ⟨e, s, d⟩ := p
      obtain ⟨he, -, -⟩ := o4 e s d rfl
      simp only [expText, List.cons_append, List.cons.injEq] at hc
      obtain ⟨rfl, -⟩ := hc
      rcases hk with rfl | rfl <;> rcases he with rfl | rfl <;> rfl
  cases frac with
  | none =>
    refine ⟨⟨.Integer, int⟩, ?_, Or.inl ⟨rfl, rfl⟩⟩
    have e1 : JNum.text ⟨neg, int, none, exp⟩ ++ rest = (if neg then ['-'] else []) ++ (int ++ (expText ⟨neg, int, none, exp⟩ ++ rest)) := by
      cases exp <;> simp [JNum.text, expText]
    rw [e1, sign]
    exact congrArg _ (lex_spell ⟨.Integer, int⟩ _ o1 (after (Or.inl rfl)))
  | some f =>
    refine ⟨⟨.Float, int ++ '.' :: f⟩, ?_, Or.inr ⟨f, rfl, rfl⟩⟩
    have e1 : JNum.text ⟨neg, int, some f, exp⟩ ++ rest = (if neg then ['-'] else []) ++ ((int ++ '.' :: f) ++ (expText ⟨neg, int, some f, exp⟩ ++ rest)) := by
      cases exp <;> simp [JNum.text, expText]
    rw [e1, sign]
    refine congrArg _ (lex_spell ⟨.Float, int ++ '.' :: f⟩ _ ?_ (after (Or.inr rfl)))
    refine ⟨?_, ?_, by simp⟩
    · cases int with
      | nil => exact absurd rfl o1.1
      | cons c r => exact ⟨c, r ++ '.' :: f, rfl, o1.2 c (by simp)⟩
    · intro c hc
      simp only [List.mem_append, List.mem_cons] at hc
      rcases hc with hc | rfl | hc
      · exact Or.inl (o1.2 c hc)
      · exact Or.inr rfl
      · exact Or.inl ((o3 f rfl).2 c hc)

/-- The tokens of an exponent: a name, or a name, a sign and an integer. -/
theorem exp_tokens {e : Char} {s : Option Char} {d : Str} (he : e = 'e' ∨ e = 'E') (hs : ∀ x, s = some x → x = '+' ∨ x = '-') (hd : Digits d)
    {rest : Str} (hr : EndsText rest) :
    (s = none ∧ segment (e :: (s.toList ++ d) ++ rest) = ⟨.Ident, e :: d⟩ :: segment rest) ∨
    ∃ k, (k = .Add ∨ k = .Sub) ∧ s ≠ none ∧
      segment (e :: (s.toList ++ d) ++ rest) = ⟨.Ident, [e]⟩ :: fixTok k :: ⟨.Integer, d⟩ :: segment rest := by
  have start : isWordStart e = true := by rcases he with rfl | rfl <;> decide
  have digit : ∀ {c}, isDigit c = true → isWordChar c = true := fun h => by simp [isWordChar, h]
  cases s with
  | none =>
    refine Or.inl ⟨rfl, ?_⟩
    have hw : TokenOk ⟨.Ident, e :: d⟩ := by
      refine ⟨⟨e, d, rfl, start, fun c hc => digit (hd.2 c hc)⟩, fun hk => ?_⟩
      cases d with
      | nil => exact hd.1 rfl
      | cons c d =>
        have hc := hd.2 c (by simp)
        simp only [keywords, List.mem_cons, List.not_mem_nil, or_false] at hk
        rcases he with rfl | rfl <;> rcases hk with h | h | h | h | h | h | h <;> injection h with h1 h2 <;>
          first | (exact absurd h1 (by decide)) | (injection h2 with h3 _; subst h3; exact absurd hc (by decide))
    exact seg_ident hw (fun c r h => (hr c r h).1)
  | some x =>
    have hx := hs x rfl
    refine Or.inr ⟨if x = '+' then .Add else .Sub, by split <;> simp, by simp, ?_⟩
    have hw : TokenOk ⟨.Ident, [e]⟩ := by
      rcases he with rfl | rfl <;> exact ⟨⟨_, [], rfl, by decide, by simp⟩, by decide⟩
    have h1 : segment ([e] ++ (x :: d ++ rest)) = ⟨.Ident, [e]⟩ :: segment (x :: d ++ rest) := by
      refine seg_ident hw (fun c r h => ?_)
      simp only [List.cons_append, List.cons.injEq] at h
      obtain ⟨rfl, -⟩ := h
      rcases hx with rfl | rfl <;> decide
    have h2 : segment (d ++ rest) = ⟨.Integer, d⟩ :: segment rest :=
      lex_spell ⟨.Integer, d⟩ rest hd (fun c r h => by
        obtain ⟨a, b⟩ := hr c r h
        simp [extends', word_digit a, b])
    have h3 : segment (x :: d ++ rest) = fixTok (if x = '+' then .Add else .Sub) :: segment (d ++ rest) := by
      rcases hx with rfl | rfl
      · exact seg_fixed .Add (d ++ rest) rfl (fun _ => rfl)
      · exact seg_fixed .Sub (d ++ rest) rfl (fun _ => rfl)
    simp only [Option.toList, List.cons_append, List.nil_append] at h1 h3 ⊢
    rw [h1, h3, h2]

theorem no_int {d : Str} (hd : Digits d) (h : ¬ decimal d ≤ 9223372036854775807) (i : Int64) : ¬ IntText d i.toInt := by
  intro hi
  rw [← parseI64_iff, digits_cases hd.1 hd.2, if_neg h] at hi
  cases hi

theorem an_int {d : Str} (hd : Digits d) (h : decimal d ≤ 9223372036854775807) : IntText d (Int64.ofNat (decimal d)).toInt := by
  rw [← parseI64_iff, digits_cases hd.1 hd.2, if_pos h]

/-- A number that is not raw: either its digits do not fit, or it ends before its exponent. In the latter case it is what it denotes only if it
is a float of which the exponent does not change anything. -/
theorem num_stuck {n : JNum} (hok : n.Ok) (hp : ¬ RawNum F n) {rest : Str} (hr : EndsText rest) :
    OpensDoc (segment (n.text ++ rest)) ∧
    ((∃ (why : Fault F) (at' : List Token), Faulty 0 (segment (n.text ++ rest)) why at') ∨
      ∃ (e : Expr F) (t : Token) (r : List Token), Whole 0 (segment (n.text ++ rest)) e (t :: r) ∧ t.kind = .Ident ∧ t :: r = segment (expText n ++ rest) ∧
        n.exp ≠ none ∧ (Denotes (.num n) e.eval → n.neg = false ∧ ∃ f x, n.frac = some f ∧ e = .float x ∧ Rt.fparse (n.int ++ '.' :: f) = some x ∧
          Rt.fparse n.text = some x)) := by
  obtain ⟨t, ht, hk⟩ := num_tokens hok hr
  have opens : OpensDoc (segment (n.text ++ rest)) := by
    rw [ht]
    cases n.neg with
    | true => exact ⟨_, _, rfl, by decide⟩
    | false => rcases hk with ⟨-, rfl⟩ | ⟨f, -, rfl⟩ <;> exact ⟨_, _, rfl, by simp⟩
  refine ⟨opens, ?_⟩
  -- the digits fit or not
  have digits : ∀ p, (∃ why : Fault F, Faulty p (t :: segment (expText n ++ rest)) why (t :: segment (expText n ++ rest))) ∨
      ∃ e : Expr F, Primary p (t :: segment (expText n ++ rest)) e p (segment (expText n ++ rest)) ∧
        ((n.frac = none ∧ ∃ i, e = .int i) ∨ ∃ f x, n.frac = some f ∧ e = .float x ∧ Rt.fparse (n.int ++ '.' :: f) = some x) ∧
        (n.frac = none → decimal n.int ≤ 9223372036854775807) ∧ (∀ f, n.frac = some f → ∃ x : F, Rt.fparse (n.int ++ '.' :: f) = some x) := by
    intro p
    rcases hk with ⟨hf, rfl⟩ | ⟨f, hf, rfl⟩
    · by_cases hd : decimal n.int ≤ 9223372036854775807
      · exact Or.inr ⟨_, .int p _ _ _ rfl (an_int hok.1 hd), Or.inl ⟨hf, _, rfl⟩, fun _ => hd, (fun f h => by rw [hf] at h; cases h)⟩
      · exact Or.inl ⟨_, .integer p _ _ rfl (no_int hok.1 hd)⟩
    · cases hx : Rt.fparse (F := F) (n.int ++ '.' :: f) with
      | none => exact Or.inl ⟨_, .float p _ _ rfl hx⟩
      | some x =>
        refine Or.inr ⟨_, .float p _ x _ rfl hx, Or.inr ⟨f, x, hf, rfl, hx⟩, (fun h => by rw [hf] at h; cases h), fun g h => ?_⟩
        rw [hf] at h
        injection h with h
        subst h
        exact ⟨x, hx⟩
  -- what follows the digits
  have follow : (n.frac = none → decimal n.int ≤ 9223372036854775807) → (∀ f, n.frac = some f → ∃ x : F, Rt.fparse (n.int ++ '.' :: f) = some x) →
      n.exp ≠ none ∧ ∃ u r, segment (expText n ++ rest) = u :: r ∧ u.kind = .Ident := by
    intro h1 h2
    cases hx : n.exp with
    | none => exact absurd ⟨hx, h1, h2⟩ hp
    | some q =>
      obtain ⟨e, s, d⟩ := q
      obtain ⟨a, b, c⟩ := hok.2.2.2 e s d hx
      refine ⟨by simp, ?_⟩
      have hxt : expText n = e :: (s.toList ++ d) := by simp [expText, hx]
      rw [hxt]
      rcases exp_tokens a b c hr with ⟨-, h⟩ | ⟨k, -, -, h⟩
      · exact ⟨_, _, h, rfl⟩
      · exact ⟨_, _, h, rfl⟩
  have ends : ∀ {p : Nat} {u : Token} {r : List Token}, u.kind = .Ident → Ends p (u :: r) := by
    intro p u r h
    exact ⟨u, r, rfl, by rw [h]; exact Nat.zero_le _⟩
  rw [ht]
  cases hn : n.neg with
  | false =>
    rw [if_neg (by simp), List.nil_append]
    rcases digits 0 with ⟨why, h⟩ | ⟨e, h, hv, h1, h2⟩
    · exact Or.inl ⟨why, _, h⟩
    · obtain ⟨hx, u, r, hu, hi⟩ := follow h1 h2
      rw [hu] at h ⊢
      refine Or.inr ⟨e, u, r, .mk 0 0 e e _ _ _ h (.nil _ _ _) (ends hi), hi, rfl, hx, fun hd => ⟨rfl, ?_⟩⟩
      rcases hv with ⟨hf, i, rfl⟩ | ⟨f, x, hf, rfl, hv⟩
      · cases hd with | int _ _ _ h _ => exact absurd h hx
      · cases hd with
        | float _ _ _ h => exact ⟨f, x, hf, rfl, hv, h⟩
  | true =>
    rw [if_pos rfl]
    rcases digits 11 with ⟨why, h⟩ | ⟨e, h, hv, h1, h2⟩
    · exact Or.inl ⟨why, _, .inside _ _ _ _ _ _ (.unary 0 _ _ (Or.inr rfl)) h⟩
    · obtain ⟨hx, u, r, hu, hi⟩ := follow h1 h2
      rw [hu] at h ⊢
      refine Or.inr ⟨.unary (fixTok .Sub) e, u, r, .mk 0 0 _ _ _ _ _ (.unary 0 _ e _ _ (Or.inr rfl) (.mk 11 11 e e _ _ _ h (.nil _ _ _) (ends hi)))
        (.nil _ _ _) (ends hi), hi, rfl, hx, fun hd => by cases hd⟩

/-- Reading the items of an array comes to a token that does not fit. -/
def ItemsStuck (F : Type) [Rt F] (ts : List Token) : Prop :=
  (∃ (why : Fault F) (at' : List Token), FaultItems .Rs ts why at') ∨
    ∃ (us : List Token) (why : Fault F) (at' : List Token), InItems F .Rs ts us ∧ Faulty 0 us why at'

/-- Reading the members of an object comes to a token that does not fit. -/
def PairsStuck (F : Type) [Rt F] (ts : List Token) : Prop :=
  (∃ (why : Fault F) (at' : List Token), FaultPairs ts why at') ∨
    ∃ (us : List Token) (why : Fault F) (at' : List Token), InPairs F ts us ∧ Faulty 0 us why at'

theorem stuck_item {ts : List Token} (h : StuckAt F ts) (ho : OpensDoc ts) : ItemsStuck F ts := by
  rcases h with ⟨why, at', h⟩ | ⟨e, t, r, h, hk⟩
  · exact Or.inr ⟨ts, why, at', .here ts (ho.not (by decide)), h⟩
  · exact Or.inl ⟨_, _, .comma t e ts r h (by rw [hk]; decide) (by rw [hk]; decide)⟩

theorem stuck_value {k : Str} {ts : List Token} (h : StuckAt F ts) : PairsStuck F (⟨.String, k⟩ :: fixTok .Colon :: ts) := by
  have hkey : Whole (F := F) 0 (⟨.String, k⟩ :: fixTok .Colon :: ts) (.str k) (fixTok .Colon :: ts) :=
    .mk 0 0 _ _ _ _ _ (.str 0 ⟨.String, k⟩ _ rfl) (.nil _ _ _) ⟨_, _, rfl, by decide⟩
  rcases h with ⟨why, at', h⟩ | ⟨e, t, r, h, hk⟩
  · exact Or.inr ⟨ts, why, at', .value (fixTok .Colon) _ _ ts rfl hkey, h⟩
  · exact Or.inl ⟨_, _, .comma (fixTok .Colon) t _ e _ ts r rfl hkey h (by rw [hk]; decide) (by rw [hk]; decide)⟩

theorem closed_end {c : Char} (h : c = ']' ∨ c = '}' ∨ c = ',') (rest : Str) : EndsText (c :: rest) := by
  rintro d r ⟨⟩
  rcases h with rfl | rfl | rfl <;> decide

mutual
/-- A document without escaped quotes that is not raw is no expression, or one that ends before a name. -/
theorem json_stuck {j : JsonDoc} {s : Str} (h : JsonText j s) (hq : NoQuoteJson j) (hp : ¬ RawJson F j) (rest : Str) (hr : EndsText rest) :
    StuckAt F (segment (s ++ rest)) ∧ OpensDoc (segment (s ++ rest)) ∧
      ((∀ n, j ≠ .num n) → ∃ (why : Fault F) (at' : List Token), Faulty 0 (segment (s ++ rest)) why at') := by
  match h with
  | .null => exact absurd trivial hp
  | .bool b => exact absurd trivial hp
  | .num n hok =>
    obtain ⟨h1, h2⟩ := num_stuck hok hp hr
    refine ⟨?_, h1, fun h => absurd rfl (h n)⟩
    rcases h2 with h2 | ⟨e, t, r, h2, h3, -⟩
    · exact Or.inl h2
    · exact Or.inr ⟨e, t, r, h2, h3⟩
  | .str s hok => exact absurd hq hp
  | .noItems w hw => exact absurd trivial hp
  | .arr j js s hi =>
    have ih := jsonItems_stuck hi hq hp (']' :: rest) (closed_end (Or.inl rfl) rest)
    have hs : segment (['['] ++ s ++ [']'] ++ rest) = fixTok .Ls :: segment (s ++ ']' :: rest) := by
      simp only [List.append_assoc]
      rw [seg_fixed .Ls _ rfl (fun _ => rfl)]
      rfl
    rw [hs]
    have hf : ∃ (why : Fault F) (at' : List Token), Faulty 0 (fixTok .Ls :: segment (s ++ ']' :: rest)) why at' := by
      rcases ih with ⟨why, at', h⟩ | ⟨us, why, at', h, h'⟩
      · exact ⟨why, at', .arr 0 _ _ _ _ rfl h⟩
      · exact ⟨why, at', .inside _ _ _ _ _ _ (.arr 0 _ _ us rfl h) h'⟩
    exact ⟨Or.inl hf, ⟨_, _, rfl, by decide⟩, fun _ => hf⟩
  | .noMembers w hw => exact absurd trivial hp
  | .obj m ms s hm =>
    have ih := jsonMembers_stuck hm hq hp ('}' :: rest) (closed_end (Or.inr (Or.inl rfl)) rest)
    have hs : segment (['{'] ++ s ++ ['}'] ++ rest) = fixTok .Lb :: segment (s ++ '}' :: rest) := by
      simp only [List.append_assoc]
      rw [seg_fixed .Lb _ rfl (fun _ => rfl)]
      rfl
    rw [hs]
    have hf : ∃ (why : Fault F) (at' : List Token), Faulty 0 (fixTok .Lb :: segment (s ++ '}' :: rest)) why at' := by
      rcases ih with ⟨why, at', h⟩ | ⟨us, why, at', h, h'⟩
      · exact ⟨why, at', .map 0 _ _ _ _ rfl h⟩
      · exact ⟨why, at', .inside _ _ _ _ _ _ (.map 0 _ _ us rfl h) h'⟩
    exact ⟨Or.inl hf, ⟨_, _, rfl, by decide⟩, fun _ => hf⟩
theorem jsonItems_stuck {js : List JsonDoc} {s : Str} (h : JsonItems js s) (hq : NoQuoteAll js) (hp : ¬ RawAll F js) (rest : Str) (hr : EndsText rest) :
    ItemsStuck F (segment (s ++ rest)) := by
  match h with
  | .last j w s w' hw hw' hj =>
    obtain ⟨h1, h2, -⟩ := json_stuck hj hq.1 (fun h => hp ⟨h, trivial⟩) (w' ++ rest) (closed_jws hw' hr)
    simp only [List.append_assoc]
    rw [seg_jws hw]
    exact stuck_item h1 h2
  | .cons j js w s w' r hw hw' hj hrs =>
    have e1 : segment (w ++ s ++ w' ++ [','] ++ r ++ rest) = segment (s ++ (w' ++ ',' :: (r ++ rest))) := by
      simp only [List.append_assoc]
      rw [seg_jws hw]
      rfl
    have hc : EndsText (w' ++ ',' :: (r ++ rest)) := closed_jws hw' (closed_end (Or.inr (Or.inr rfl)) _)
    rw [e1]
    have first := json_stuck hj hq.1
    have second := jsonItems_stuck hrs hq.2
    by_cases hraw : RawJson F j
    · obtain ⟨e, ts, g1, g2, -⟩ := json_raw hj hraw
      have hseg : segment (s ++ (w' ++ ',' :: (r ++ rest))) = ts ++ fixTok .Comma :: segment (r ++ rest) := by
        rw [g2 _ hc, seg_jws hw']
        exact congrArg _ (seg_fixed .Comma (r ++ rest) rfl (fun _ => rfl))
      have hwh := writes_whole _ g1 hseg rfl (by decide) (by decide)
      rcases second (fun h => hp ⟨hraw, h⟩) rest hr with ⟨why, at', h⟩ | ⟨us, why, at', h, h'⟩
      · exact Or.inl ⟨why, at', .next (fixTok .Comma) e _ _ _ _ rfl hwh h⟩
      · exact Or.inr ⟨us, why, at', .next (fixTok .Comma) e _ _ _ rfl hwh h, h'⟩
    · obtain ⟨h1, h2, -⟩ := first hraw _ hc
      exact stuck_item h1 h2
theorem jsonMembers_stuck {ms : List (List JChar × JsonDoc)} {s : Str} (h : JsonMembers ms s) (hq : NoQuoteMembers ms) (hp : ¬ RawMembers F ms)
    (rest : Str) (hr : EndsText rest) : PairsStuck F (segment (s ++ rest)) := by
  match h with
  | .last k j w w1 w2 s w3 hw hw1 hw2 hw3 hk hj =>
    obtain ⟨h1, -, -⟩ := json_stuck hj hq.2.1 (fun h => hp ⟨hq.1, h, trivial⟩) (w3 ++ rest) (closed_jws hw3 hr)
    simp only [List.append_assoc]
    rw [seg_jws hw, seg_raw hq.1 hk, seg_jws hw1, seg_fixed .Colon _ rfl (fun _ => rfl), seg_jws hw2]
    exact stuck_value h1
  | .cons k j ms w w1 w2 s w3 r hw hw1 hw2 hw3 hk hj hrs =>
    have hc : EndsText (w3 ++ ',' :: (r ++ rest)) := closed_jws hw3 (closed_end (Or.inr (Or.inr rfl)) _)
    have e1 : segment (w ++ jstrText k ++ w1 ++ [':'] ++ w2 ++ s ++ w3 ++ [','] ++ r ++ rest) =
        ⟨.String, rawText k⟩ :: fixTok .Colon :: segment (s ++ (w3 ++ ',' :: (r ++ rest))) := by
      simp only [List.append_assoc]
      rw [seg_jws hw, seg_raw hq.1 hk, seg_jws hw1, seg_fixed .Colon _ rfl (fun _ => rfl), seg_jws hw2]
      rfl
    rw [e1]
    have first := json_stuck hj hq.2.1
    have second := jsonMembers_stuck hrs hq.2.2
    by_cases hraw : RawJson F j
    · obtain ⟨e, ts, g1, g2, -⟩ := json_raw hj hraw
      have hseg : segment (s ++ (w3 ++ ',' :: (r ++ rest))) = ts ++ fixTok .Comma :: segment (r ++ rest) := by
        rw [g2 _ hc, seg_jws hw3]
        exact congrArg _ (seg_fixed .Comma (r ++ rest) rfl (fun _ => rfl))
      have hwh := writes_whole _ g1 hseg rfl (by decide) (by decide)
      have hkey : Whole (F := F) 0 (⟨.String, rawText k⟩ :: fixTok .Colon :: segment (s ++ (w3 ++ ',' :: (r ++ rest)))) (.str (rawText k))
          (fixTok .Colon :: segment (s ++ (w3 ++ ',' :: (r ++ rest)))) :=
        .mk 0 0 _ _ _ _ _ (.str 0 ⟨.String, rawText k⟩ _ rfl) (.nil _ _ _) ⟨_, _, rfl, by decide⟩
      rcases second (fun h => hp ⟨hq.1, hraw, h⟩) rest hr with ⟨why, at', h⟩ | ⟨us, why, at', h, h'⟩
      · exact Or.inl ⟨why, at', .next (fixTok .Colon) (fixTok .Comma) _ e _ _ _ _ _ rfl rfl hkey hwh h⟩
      · exact Or.inr ⟨us, why, at', .next (fixTok .Colon) (fixTok .Comma) _ e _ _ _ _ rfl rfl hkey hwh h, h'⟩
    · exact stuck_value (first hraw _ hc).1
end

/-! ## The whole body -/

theorem base_json (r : Response) : amGet c!"json" (r.baseMap (F := F)) = none := by
  simp [Response.baseMap, amGet_insert, amGet]

/-- If `json` is there, the body is a program, and `json` is its first expression. -/
theorem json_first {r : Response} {m : List (Str × Value F)} {v : Value F} (h : r.toMap (F := F) = .ok m) (hv : amGet c!"json" m = some v) :
    ∃ src e es, parse (F := F) r.body = .ok src ∧ src.exprs = e :: es ∧ v = e.eval := by
  unfold Response.toMap at h
  cases hp : parse (F := F) r.body with
  | ok src =>
    rw [hp] at h
    dsimp only at h
    cases he : src.exprs with
    | nil => rw [he] at h; injection h with h; rw [← h, base_json] at hv; cases hv
    | cons e es =>
      rw [he] at h
      injection h with h
      rw [← h, amGet_insert_self] at hv
      injection hv with hv
      exact ⟨src, e, es, rfl, he, hv.symm⟩
  | err msg => rw [hp] at h; injection h with h; rw [← h, base_json] at hv; cases hv
  | panic => rw [hp] at h; cases h
  | hang => rw [hp] at h; cases h

theorem addItem_keeps (is : List (Item F)) : ∀ src : Source F, ∃ es, (is.foldl addItem src).exprs = src.exprs ++ es := by
  induction is with
  | nil => intro src; exact ⟨[], by simp⟩
  | cons i is ih =>
    intro src
    obtain ⟨es, h⟩ := ih (addItem src i)
    cases i with
    | expr e => exact ⟨e :: es, by rw [List.foldl_cons, h]; simp [addItem]⟩
    | request n m as => exact ⟨es, by rw [List.foldl_cons, h]; rfl⟩
    | test n b => exact ⟨es, by rw [List.foldl_cons, h]; rfl⟩

/-- C44, exactly, for every JSON document with distinct names in its objects and no escaped quote in a name, in any layout: `json` is the value the
document denotes if and only if the document has no escapes, negative numbers and exponents and its numbers are representable, or is a single
float whose exponent changes nothing. -/
theorem c44_all_partial (r : Response) (j : JsonDoc) (h : JsonBody j r.body) (hn : NamesJson j) (hd : DistinctJson j) :
    (∃ m v, r.toMap (F := F) = .ok m ∧ amGet c!"json" m = some v ∧ Denotes j v) ↔ PlainJson F j ∨ ∃ n, j = .num n ∧ IdleExponent F n := by
  constructor
  · rintro ⟨m, v, hm, hv, hden⟩
    obtain ⟨src, e, es, hp, he, rfl⟩ := json_first hm hv
    have hq := denotes_unquoted hden (formed_unquoted e (returned_formed _ src hp e (Or.inl (by rw [he]; simp)))) hd hn
    by_cases hraw : RawJson F j
    · obtain ⟨m', v', h1, h2, h3⟩ := c44_exact_partial r j h hraw hd
      rw [hm] at h1
      injection h1 with h1
      subst h1
      rw [hv] at h2
      injection h2 with h2
      subst h2
      exact Or.inl (h3.1 hden)
    · right
      obtain ⟨w, s, w', hw, hw', hj, hb⟩ := h
      have hend : EndsText w' := by simpa using closed_jws hw' (rest := []) (by rintro c r ⟨⟩)
      have hs : segment r.body = segment (s ++ w') := by rw [hb, List.append_assoc, seg_jws hw]
      obtain ⟨-, ho, hf⟩ := json_stuck hj hq hraw w' hend
      have fails : ∀ {why : Fault F} {at' : List Token}, Wrong (segment r.body) why at' → False := by
        intro why at' h
        cases at' with
        | nil =>
          obtain ⟨N, hN⟩ := wrong_fails h ⟨[], [], []⟩ Token.eof
          obtain ⟨f, ⟨t, r', h1, _⟩, _⟩ := hN N N (Nat.le_refl _) (Nat.le_refl _)
          cases h1
        | cons t r' =>
          rw [(c84_message (F := F) r.body _).2 ⟨why, t, r', h, rfl⟩] at hp
          cases hp
      have wrong : ∀ {why : Fault F} {at' : List Token}, Faulty 0 (segment (s ++ w')) why at' → False := by
        intro why at' h
        refine fails (why := why) (at' := at') ?_
        rw [hs]
        exact .expr _ _ _ (ho.not (by decide)) (ho.not (by decide)) (ho.not (by decide)) h
      by_cases hnum : ∃ n, j = .num n
      · obtain ⟨n, rfl⟩ := hnum
        cases hj with
        | num _ hok =>
          refine ⟨n, rfl, ?_⟩
          obtain ⟨-, hst⟩ := num_stuck hok hraw hend
          rcases hst with ⟨why, at', h⟩ | ⟨e', t, u, hwh, hk, hexp, hx, hval⟩
          · exact (wrong h).elim
          · obtain ⟨is, hprog, hsrc⟩ := (c79_accepts r.body src).1 hp
            rw [hs] at hprog
            have heq : e = e' := by
              obtain ⟨t0, r0, h0, hk0⟩ := ho
              rw [h0] at hprog hwh
              cases hprog with
              | nil _ hk' => rw [hk'] at hk0; exact absurd hk0 (by decide)
              | cons i is' _ us hi hrest =>
                cases hi with
                | expr e1 _ _ hw1 =>
                  obtain ⟨rfl, -⟩ := whole_unique hw1 hwh
                  obtain ⟨es', hes⟩ := addItem_keeps is' (addItem ⟨[], [], []⟩ (.expr e1))
                  rw [hsrc, List.foldl_cons, hes] at he
                  simp [addItem] at he
                  exact he.1.symm
                | request q _ _ _ hq' => rw [hq'] at hk0; exact absurd hk0 (by decide)
                | asserts q _ _ _ _ _ _ _ hq' => rw [hq'] at hk0; exact absurd hk0 (by decide)
                | test q _ _ _ _ _ _ hq' => rw [hq'] at hk0; exact absurd hk0 (by decide)
            subst heq
            obtain ⟨hneg, f, x, hfr, rfl, hx1, hx2⟩ := hval hden
            cases hexpo : n.exp with
            | none => exact absurd hexpo hx
            | some p =>
              obtain ⟨ec, sg, d⟩ := p
              refine ⟨hneg, f, ec, sg, d, hfr, hexpo, ?_, x, hx1, hx2⟩
              by_cases hdec : decimal d ≤ 9223372036854775807
              · exact Or.inr hdec
              · obtain ⟨a, b, c⟩ := hok.2.2.2 ec sg d hexpo
                have hxt : expText n = ec :: (sg.toList ++ d) := by simp [expText, hexpo]
                rw [hxt] at hexp
                rcases exp_tokens a b c hend with ⟨h1, -⟩ | ⟨k, hk', -, h1⟩
                · exact Or.inl h1
                · exfalso
                  rw [h1] at hexp
                  refine fails (why := .integer) (at' := ⟨.Integer, d⟩ :: segment w') ?_
                  rw [hs]
                  refine .next (.expr (.float x)) _ (t :: u) _ _ (.expr _ _ _ hwh) ?_
                  rw [hexp]
                  have hlev : 0 < tableLevel (fixTok k).kind := by rcases hk' with rfl | rfl <;> decide
                  refine .expr _ _ _ ⟨_, _, rfl, by simp⟩ ⟨_, _, rfl, by simp⟩ ⟨_, _, rfl, by simp⟩ ?_
                  exact .inside 0 _ _ _ _ _ (.right 0 0 (fixTok k) (.ident [ec]) (.ident [ec]) _ _ _ (.ident 0 ⟨.Ident, [ec]⟩ _ rfl) (.nil _ _ _) hlev)
                    (.integer _ _ _ rfl (no_int c hdec))
      · obtain ⟨why, at', h⟩ := hf fun n h => hnum ⟨n, h⟩
        exact (wrong h).elim
  · rintro (hp | ⟨n, rfl, hneg, f, ec, sg, d, hfr, hexpo, hdec, x, hx1, hx2⟩)
    · exact c44_json_partial r j h hp
    · obtain ⟨w, s, w', hw, hw', hj, hb⟩ := h
      have hend : EndsText w' := by simpa using closed_jws hw' (rest := []) (by rintro c r ⟨⟩)
      cases hj with
      | num _ hok =>
        have hs : segment r.body = segment (n.text ++ w') := by rw [hb, List.append_assoc, seg_jws hw]
        have hw0 : segment w' = [Token.eof] := by rw [← List.append_nil w', seg_jws hw', segment_nil]
        obtain ⟨t, ht, hk⟩ := num_tokens hok hend
        rw [hneg, if_neg (by simp), List.nil_append] at ht
        obtain ⟨a, b, c⟩ := hok.2.2.2 ec sg d hexpo
        have hxt : expText n = ec :: (sg.toList ++ d) := by simp [expText, hexpo]
        have tail : ∃ (u : Token) (l : List Token) (e2 : Expr F), segment (expText n ++ w') = u :: l ∧ u.kind = .Ident ∧
            Whole 0 (u :: l) e2 [Token.eof] := by
          rw [hxt]
          rcases exp_tokens a b c hend with ⟨-, h1⟩ | ⟨k, hk', hsg, h1⟩
          · refine ⟨_, _, .ident (ec :: d), h1, rfl, ?_⟩
            rw [hw0]
            exact .mk 0 0 _ _ _ _ _ (.ident 0 ⟨.Ident, ec :: d⟩ _ rfl) (.nil _ _ _) ⟨_, _, rfl, by decide⟩
          · refine ⟨_, _, .binary (fixTok k) (.ident [ec]) (.int (Int64.ofNat (decimal d))), h1, rfl, ?_⟩
            rw [hw0]
            have hd' : decimal d ≤ 9223372036854775807 := hdec.resolve_left hsg
            have hlev : 0 < tableLevel (fixTok k).kind := by rcases hk' with rfl | rfl <;> decide
            exact .mk 0 0 _ _ _ _ _ (.ident 0 ⟨.Ident, [ec]⟩ _ rfl)
              (.binary 0 (fixTok k) _ _ _ _ _ _ hlev (.mk _ (tableLevel (fixTok k).kind) _ _ _ _ _ (.int _ ⟨.Integer, d⟩ _ _ rfl (an_int c hd')) (.nil _ _ _)
                ⟨_, _, rfl, Nat.zero_le _⟩) (.nil _ _ _)) ⟨_, _, rfl, by decide⟩
        obtain ⟨u, l, e2, hu, hku, hw2⟩ := tail
        rcases hk with ⟨hf, -⟩ | ⟨f', hf, rfl⟩
        · rw [hfr] at hf; cases hf
        · rw [hfr] at hf
          injection hf with hf
          subst hf
          have hprog : Program (segment r.body) [.expr (.float x), .expr e2] := by
            rw [hs, ht, hu]
            refine .cons _ _ _ (u :: l) (.expr _ _ _ (.mk 0 0 _ _ _ _ _ (.float 0 ⟨.Float, n.int ++ '.' :: f⟩ x _ rfl hx1) (.nil _ _ _)
              ⟨_, _, rfl, by rw [hku]; exact Nat.zero_le _⟩)) ?_
            have : dropSemi (u :: l) = u :: l := by simp [dropSemi, hku]
            rw [this]
            exact .cons _ _ _ [Token.eof] (.expr _ _ _ hw2) (.nil _ rfl)
          have hp := (c79_accepts r.body _).2 ⟨_, hprog, rfl⟩
          refine ⟨amInsert c!"json" (.float x) r.baseMap, .float x, ?_, amGet_insert_self _ _ _, .float _ _ (by rw [hexpo]; simp) hx2⟩
          unfold Response.toMap
          rw [hp]
          rfl

/-- Concrete case for `c44_all_partial`: the body `{"a":[1e5,"\""]}`, with an exponent and an escaped quote in a value, is not exposed as what it
denotes. -/
example : JsonBody (.obj [([.plain 'a'], .arr [.num ⟨false, c!"1", none, some ('e', none, c!"5")⟩, .str [.short '"']])]) c!"{\"a\":[1e5,\"\\\"\"]}" ∧
    ¬ ∃ m v, (withBody c!"{\"a\":[1e5,\"\\\"\"]}").toMap (F := F) = .ok m ∧ amGet c!"json" m = some v ∧
      Denotes (.obj [([.plain 'a'], .arr [.num ⟨false, c!"1", none, some ('e', none, c!"5")⟩, .str [.short '"']])]) v := by
  have body : JsonBody (.obj [([.plain 'a'], .arr [.num ⟨false, c!"1", none, some ('e', none, c!"5")⟩, .str [.short '"']])]) c!"{\"a\":[1e5,\"\\\"\"]}" := by
    refine ⟨[], _, [], by simp [JWs], by simp [JWs], .obj _ _ _ (.last _ _ [] [] [] c!"[1e5,\"\\\"\"]" [] (by simp [JWs]) (by simp [JWs]) (by simp [JWs])
      (by simp [JWs]) (by simp [JChar.Ok]) (.arr _ _ c!"1e5,\"\\\"\"" (.cons _ _ [] c!"1e5" [] c!"\"\\\"\"" (by simp [JWs]) (by simp [JWs])
      (.num ⟨false, c!"1", none, some ('e', none, c!"5")⟩ ?_) (.last _ [] c!"\"\\\"\"" [] (by simp [JWs]) (by simp [JWs]) (.str [.short '"'] (by simp [JChar.Ok])))))), rfl⟩
    refine ⟨⟨by simp, by simp [isDigit]⟩, Or.inr (by decide), by simp, ?_⟩
    rintro e s d ⟨⟩
    exact ⟨Or.inl rfl, by simp, by simp, by simp [isDigit]⟩
  refine ⟨body, fun h => ?_⟩
  rw [c44_all_partial (withBody _) _ body ⟨by simp [NoQuoteStr], ⟨trivial, trivial, trivial⟩, trivial⟩ ⟨fun ns h => ?_, ⟨trivial, trivial, trivial⟩, trivial⟩] at h
  · rcases h with h | ⟨n, h, _⟩
    · cases h.2.1.1.2.1
    · cases h
  · cases h with
    | cons _ _ _ n ns _ h => cases h; simp

end Am
