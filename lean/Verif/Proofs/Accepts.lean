import Verif.Spec.Faults
import Verif.Proofs.ParserComplete
/-!
# The parser follows the accepted language: from results to derivations

Whenever the parser returns a value there is a derivation of it (`Whole`, `Program`), and whenever it runs out of fuel although
there was fuel for every token, there is a derivation of `Loops`. Whenever it returns an error there is a derivation of `Wrong`.
-/
set_option linter.unusedSimpArgs false
set_option linter.unusedSectionVars false
namespace Am
open Spec
variable {F : Type} [Rt F]

/-- A value satisfies `Q`, running out of fuel means `H`, an error satisfies `E`, and there is no panic. -/
def Res.Sat {α : Type} (Q : α → Prop) (H : Prop) (E : Str → Prop) : Res α → Prop
  | .ok a => Q a
  | .hang => H
  | .err m => E m
  | .panic => False

theorem Res.Sat.bind {α β : Type} {P : α → Prop} {H : Prop} {E : Str → Prop} {Q : β → Prop} {G : Prop} {D : Str → Prop} {x : Res α}
    {f : α → Res β} (h : Res.Sat P H E x) (hH : H → G) (hE : ∀ m, E m → D m) (hf : ∀ a, x = .ok a → P a → Res.Sat Q G D (f a)) :
    Res.Sat Q G D (x >>= f) := by
  cases x with
  | ok a => exact hf a rfl h
  | err m => exact hE m h
  | panic => exact h
  | hang => exact hH h

theorem Res.Sat.mono {α : Type} {P Q : α → Prop} {H G : Prop} {E D : Str → Prop} {x : Res α} (h : Res.Sat P H E x)
    (hPQ : ∀ a, P a → Q a) (hH : H → G) (hE : ∀ m, E m → D m) : Res.Sat Q G D x := by
  cases x with
  | ok a => exact hPQ a h
  | err m => exact hE m h
  | panic => exact h
  | hang => exact hH h

/-- The message says what `W` says about a token. -/
def Blames (W : Fault F → List Token → Prop) (m : Str) : Prop := ∃ why t r, W why (t :: r) ∧ m = why.text t

theorem Blames.mono {W V : Fault F → List Token → Prop} (h : ∀ why ts, W why ts → V why ts) (m : Str) (hm : Blames W m) : Blames V m := by
  obtain ⟨why, t, r, h1, h2⟩ := hm
  exact ⟨why, t, r, h _ _ h1, h2⟩

variable (F) in
/-- The message says that a token of kind `k` was expected. -/
def Unexpected (ts : List Token) (k : Kind) (m : Str) : Prop := ∃ t r, ts = t :: r ∧ t.kind ≠ k ∧ m = (Fault.expects k : Fault F).text t

/-- Reading a list comes to a token that does not fit. -/
def ItemsBad (k : Kind) (ts : List Token) (why : Fault F) (at' : List Token) : Prop :=
  FaultItems k ts why at' ∨ ∃ us, InItems F k ts us ∧ Faulty 0 us why at'

/-- Reading pairs comes to a token that does not fit. -/
def PairsBad (ts : List Token) (why : Fault F) (at' : List Token) : Prop :=
  FaultPairs ts why at' ∨ ∃ us, InPairs F ts us ∧ Faulty 0 us why at'

/-- Reading statements comes to a token that does not fit. -/
def StmtsBad (ts : List Token) (why : Fault F) (at' : List Token) : Prop := ∃ us, InStmts F ts us ∧ Faulty 0 us why at'

/-- Reading a block comes to a token that does not fit. -/
def BlockBad (ts : List Token) (why : Fault F) (at' : List Token) : Prop :=
  (why = .expects .Lb ∧ at' = ts ∧ ∃ t r, ts = t :: r ∧ t.kind ≠ .Lb) ∨ ∃ b us, b.kind = .Lb ∧ ts = b :: us ∧ StmtsBad us why at'

theorem items_close {k : Kind} {ts rest : List Token} {es : List (Expr F)} (h : Items k ts es rest) : ∃ c r, rest = c :: r ∧ c.kind = k := by
  match h with
  | .nil _ c r hc => exact ⟨c, r, rfl, hc⟩
  | .last _ c e _ r hc _ => exact ⟨c, r, rfl, hc⟩
  | .cons _ c e es _ us _ _ _ hi => exact items_close hi

theorem pairs_close {ts rest : List Token} {ps : List (Expr F × Expr F)} (h : Pairs ts ps rest) : ∃ c r, rest = c :: r ∧ c.kind = .Rb := by
  match h with
  | .nil c r hc => exact ⟨c, r, rfl, hc⟩
  | .last m c k v _ us r _ hc _ _ => exact ⟨c, r, rfl, hc⟩
  | .cons m c k v ps _ us vs _ _ _ _ _ hp => exact pairs_close hp

theorem stmts_close {ts rest : List Token} {es : List (Expr F)} (h : Stmts ts es rest) : ∃ c r, rest = c :: r ∧ c.kind = .Rb := by
  match h with
  | .nil c r hc => exact ⟨c, r, rfl, hc⟩
  | .cons e es _ us _ _ hs => exact stmts_close hs

theorem kind_words (k : Kind) : k.name = kindWord k := by cases k <;> rfl

/-- At least the end marker is ahead, and at most `L` tokens. -/
def Live (L : Nat) (s : PS) : Prop := EndsEof s.rest ∧ s.rest.length ≤ L

theorem Live.pos {s : PS} {L : Nat} (h : Live L s) : 0 < L := by
  have := live_pos h.1
  have := h.2
  omega

theorem Live.weaken {L K : Nat} {s : PS} (h : Live L s) (hk : L ≤ K) : Live K s := ⟨h.1, Nat.le_trans h.2 hk⟩

theorem level_precedence (k : Kind) : k.precedence = level k := by cases k <;> rfl

theorem notNext_of {k : Kind} {s : PS} (hE : EndsEof s.rest) (h : ¬ s.peekIs k = true) : NotNext k s.rest := by
  obtain ⟨c, l⟩ := s
  obtain ⟨t, r, hr⟩ := endsEof_cases hE
  dsimp only at hr; subst hr
  rw [peekIs_cons] at h
  exact ⟨t, r, rfl, by simpa using h⟩

variable (F) in
theorem expect_sat {L : Nat} {s : PS} {k : Kind} {H : Prop} (hk : k ≠ .Eof) (h : Live (L + 1) s) :
    Res.Sat (fun s' => Live L s' ∧ s'.cur.kind = k ∧ s.rest = s'.cur :: s'.rest) H (Unexpected F s.rest k) (s.expect k) := by
  cases he : s.expect k with
  | ok s' =>
    obtain ⟨hr, hc, hE⟩ := expect_live hk h.1 he
    refine ⟨⟨hE, ?_⟩, hc, hr⟩
    have := h.2; rw [hr] at this; simp at this; omega
  | err m =>
    obtain ⟨t, r, hr⟩ := endsEof_cases h.1
    simp only [PS.expect, PS.peek, hr, List.head?_cons] at he
    split at he
    · cases he
    · rename_i hne
      injection he with he
      exact ⟨t, r, hr, hne, by rw [← he, kind_words, kind_words]; rfl⟩
  | panic =>
    simp only [PS.expect] at he
    split at he
    · split at he <;> cases he
    · cases he
  | hang =>
    simp only [PS.expect] at he
    split at he
    · split at he <;> cases he
    · cases he

/-- The recursive call tells the truth on states with fewer than `L` tokens ahead. -/
def Tells (L : Nat) (pe : PE F) : Prop :=
  ∀ prec s, EndsEof (s.cur :: s.rest) → s.rest.length < L →
    Res.Sat (fun a => Live s.rest.length a.2 ∧ Whole prec (s.cur :: s.rest) a.1 a.2.rest) (Loops F prec (s.cur :: s.rest))
      (Blames (Faulty (F := F) prec (s.cur :: s.rest))) (pe prec s)

theorem tells_next {L : Nat} {pe : PE F} (hp : Tells (L + 1) pe) (prec : Nat) {K : Nat} {s : PS} (h : Live (K + 1) s) (hK : K ≤ L) :
    Res.Sat (fun a => Live K a.2 ∧ Whole prec s.rest a.1 a.2.rest) (Loops F prec s.rest)
      (Blames (Faulty (F := F) prec s.rest)) (pe prec s.next) := by
  obtain ⟨hE, hl⟩ := h
  obtain ⟨t, r, hr⟩ := endsEof_cases hE
  rw [next_of hr]
  rw [hr] at hE hl ⊢
  simp at hl
  refine (hp prec ⟨t, r⟩ hE (by dsimp only; omega)).mono ?_ id fun _ => id
  intro a ⟨h1, h2⟩
  exact ⟨h1.weaken (by dsimp only; omega), h2⟩

theorem skipSemi_live {L : Nat} {s : PS} (h : Live L s) : Live L (skipSemi s) ∧ (skipSemi s).rest = dropSemi s.rest := by
  unfold skipSemi
  by_cases hp : s.peekIs .Semi = true
  · rw [if_pos hp]
    obtain ⟨t, r, h1, h2⟩ := peekIs_true hp
    obtain ⟨hE, hl⟩ := h
    rw [next_of h1]
    rw [h1] at hE hl ⊢
    refine ⟨⟨endsEof_tail hE (by rw [h2]; decide), ?_⟩, by simp [dropSemi, h2]⟩
    simp at hl
    dsimp only
    omega
  · rw [if_neg hp]
    refine ⟨h, ?_⟩
    obtain ⟨t, r, h1, h2⟩ := notNext_of h.1 hp
    rw [h1]
    simp [dropSemi, h2]

theorem parseListLoop_tells {L : Nat} {pe : PE F} (hp : Tells (L + 1) pe) (endK : Kind) (n : Nat) :
    ∀ (K : Nat) (s : PS), Live K s → K ≤ n → K ≤ L + 1 →
      Res.Sat (fun a => Live K a.2 ∧ Items endK s.rest a.1 a.2.rest) (∃ us, InItems F endK s.rest us ∧ Loops F 0 us)
        (Blames (ItemsBad (F := F) endK s.rest)) (parseListLoop pe endK n s) := by
  induction n with
  | zero => intro K s h hn; have := h.pos; omega
  | succ n ih =>
    intro K s h hn hL
    obtain ⟨K, rfl⟩ : ∃ K', K = K' + 1 := ⟨K - 1, by have := h.pos; omega⟩
    simp only [parseListLoop]
    by_cases hend : s.peekIs endK = true
    · rw [if_pos hend]
      obtain ⟨t, r, h1, h2⟩ := peekIs_true hend
      refine ⟨h, ?_⟩
      dsimp only
      rw [h1]
      exact .nil _ _ _ h2
    · rw [if_neg hend]
      have hnn := notNext_of h.1 hend
      refine (tells_next hp 0 h (by omega)).bind (fun hl => ⟨_, .here _ hnn, hl⟩)
        (Blames.mono fun why ts hf => Or.inr ⟨_, .here _ hnn, hf⟩) ?_
      rintro ⟨e, s1⟩ _ ⟨h1, hw⟩
      dsimp only at hw ⊢
      by_cases hend1 : s1.peekIs endK = true
      · rw [if_pos hend1, Res.pure_eq, Res.ok_bind]
        obtain ⟨n, rfl⟩ : ∃ m, n = m + 1 := ⟨n - 1, by have := h1.pos; omega⟩
        simp only [parseListLoop, if_pos hend1, Res.pure_eq, Res.ok_bind]
        obtain ⟨t, r, h2, h3⟩ := peekIs_true hend1
        refine ⟨h1.weaken (by omega), ?_⟩
        rw [h2] at hw
        dsimp only
        rw [h2]
        exact .last _ _ _ _ _ h3 hw
      · rw [if_neg hend1]
        obtain ⟨K, rfl⟩ : ∃ K', K = K' + 1 := ⟨K - 1, by have := h1.pos; omega⟩
        refine (expect_sat F (H := False) (by decide) h1).bind False.elim ?_ ?_
        · rintro m ⟨t, r, hr, hne, hm⟩
          obtain ⟨t', r', h2, h3⟩ := notNext_of h1.1 hend1
          dsimp only at hr h2
          rw [hr] at hw h2
          cases h2
          exact ⟨_, _, _, Or.inl (.comma _ _ _ _ hw h3 hne), hm⟩
        rintro s2 _ ⟨h2, hc, hr⟩
        rw [hr] at hw
        refine (ih K s2 h2 (by omega) (by omega)).bind (fun ⟨us, hi, hl⟩ => ⟨us, .next _ _ _ _ _ hc hw hi, hl⟩)
          (Blames.mono fun why ts hf => hf.elim (fun hf => Or.inl (.next _ _ _ _ _ _ hc hw hf))
            fun ⟨us, hi, hf⟩ => Or.inr ⟨us, .next _ _ _ _ _ hc hw hi, hf⟩) ?_
        rintro ⟨es, s3⟩ _ ⟨h3, hi⟩
        exact ⟨Live.weaken h3 (by omega), .cons _ _ _ _ _ _ _ hc hw hi⟩

theorem parseList_tells {L : Nat} {pe : PE F} (hp : Tells (L + 1) pe) {endK : Kind} (hk : endK ≠ .Eof) {n K : Nat} {s : PS}
    (h : Live K s) (hn : K ≤ n) (hL : K ≤ L + 1) :
    Res.Sat (fun a => Live K a.2 ∧ ∃ c, c.kind = endK ∧ Items endK s.rest a.1 (c :: a.2.rest))
      (∃ us, InItems F endK s.rest us ∧ Loops F 0 us) (Blames (ItemsBad (F := F) endK s.rest)) (parseList pe n endK s) := by
  simp only [parseList]
  refine (parseListLoop_tells hp endK n K s h hn hL).bind id (fun _ => id) ?_
  rintro ⟨es, s1⟩ _ ⟨h1, hi⟩
  obtain ⟨K, rfl⟩ : ∃ K', K = K' + 1 := ⟨K - 1, by have := h1.pos; omega⟩
  refine (expect_sat F (H := False) hk h1).bind False.elim ?_ ?_
  · rintro m ⟨t, r, hr, hne, _⟩
    obtain ⟨c, r', h2, h3⟩ := items_close hi
    dsimp only at hr h2
    rw [hr] at h2
    cases h2
    exact (hne h3).elim
  rintro s2 _ ⟨h2, hc, hr⟩
  dsimp only at hi hr
  rw [hr] at hi
  exact ⟨h2.weaken (by omega), _, hc, hi⟩

theorem parsePairsLoop_tells {L : Nat} {pe : PE F} (hp : Tells (L + 1) pe) (n : Nat) :
    ∀ (K : Nat) (s : PS), Live K s → K ≤ n → K ≤ L + 1 →
      Res.Sat (fun a => Live K a.2 ∧ Pairs s.rest a.1 a.2.rest) (∃ us, InPairs F s.rest us ∧ Loops F 0 us)
        (Blames (PairsBad (F := F) s.rest)) (parsePairsLoop pe n s) := by
  induction n with
  | zero => intro K s h hn; have := h.pos; omega
  | succ n ih =>
    intro K s h hn hL
    obtain ⟨K, rfl⟩ : ∃ K', K = K' + 1 := ⟨K - 1, by have := h.pos; omega⟩
    simp only [parsePairsLoop]
    by_cases hend : s.peekIs .Rb = true
    · rw [if_pos hend]
      obtain ⟨t, r, h1, h2⟩ := peekIs_true hend
      refine ⟨h, ?_⟩
      dsimp only
      rw [h1]
      exact .nil _ _ h2
    · rw [if_neg hend]
      have hnn := notNext_of h.1 hend
      refine (tells_next hp 0 h (by omega)).bind (fun hl => ⟨_, .key _ hnn, hl⟩)
        (Blames.mono fun why ts hf => Or.inr ⟨_, .key _ hnn, hf⟩) ?_
      rintro ⟨k, s1⟩ _ ⟨h1, hwk⟩
      obtain ⟨K, rfl⟩ : ∃ K', K = K' + 1 := ⟨K - 1, by have := h1.pos; omega⟩
      refine (expect_sat F (H := False) (by decide) h1).bind False.elim ?_ ?_
      · rintro m ⟨t, r, hr, hne, hm⟩
        dsimp only at hwk hr
        rw [hr] at hwk
        exact ⟨_, _, _, Or.inl (.colon _ _ _ _ hwk hne), hm⟩
      rintro s2 _ ⟨h2, hm, hr2⟩
      dsimp only at hwk hr2
      rw [hr2] at hwk
      obtain ⟨K, rfl⟩ : ∃ K', K = K' + 1 := ⟨K - 1, by have := h2.pos; omega⟩
      refine (tells_next hp 0 h2 (by omega)).bind (fun hl => ⟨_, .value _ _ _ _ hm hwk, hl⟩)
        (Blames.mono fun why ts hf => Or.inr ⟨_, .value _ _ _ _ hm hwk, hf⟩) ?_
      rintro ⟨v, s3⟩ _ ⟨h3, hwv⟩
      dsimp only at hwv ⊢
      by_cases hend1 : s3.peekIs .Rb = true
      · rw [if_pos hend1, Res.pure_eq, Res.ok_bind]
        obtain ⟨n, rfl⟩ : ∃ m, n = m + 1 := ⟨n - 1, by have := h3.pos; omega⟩
        simp only [parsePairsLoop, if_pos hend1, Res.pure_eq, Res.ok_bind]
        obtain ⟨t, r, h4, h5⟩ := peekIs_true hend1
        refine ⟨h3.weaken (by omega), ?_⟩
        rw [h4] at hwv
        dsimp only
        rw [h4]
        exact .last _ _ _ _ _ _ _ hm h5 hwk hwv
      · rw [if_neg hend1]
        obtain ⟨K, rfl⟩ : ∃ K', K = K' + 1 := ⟨K - 1, by have := h3.pos; omega⟩
        refine (expect_sat F (H := False) (by decide) h3).bind False.elim ?_ ?_
        · rintro msg ⟨t, r, hr, hne, hmsg⟩
          obtain ⟨t', r', h4, h5⟩ := notNext_of h3.1 hend1
          dsimp only at hr h4
          rw [hr] at hwv h4
          cases h4
          exact ⟨_, _, _, Or.inl (.comma _ _ _ _ _ _ _ hm hwk hwv h5 hne), hmsg⟩
        rintro s4 _ ⟨h4, hc, hr4⟩
        rw [hr4] at hwv
        refine (ih K s4 h4 (by omega) (by omega)).bind (fun ⟨us, hi, hl⟩ => ⟨us, .next _ _ _ _ _ _ _ _ hm hc hwk hwv hi, hl⟩)
          (Blames.mono fun why ts hf => hf.elim (fun hf => Or.inl (.next _ _ _ _ _ _ _ _ _ hm hc hwk hwv hf))
            fun ⟨us, hi, hf⟩ => Or.inr ⟨us, .next _ _ _ _ _ _ _ _ hm hc hwk hwv hi, hf⟩) ?_
        rintro ⟨es, s5⟩ _ ⟨h5, hi⟩
        exact ⟨Live.weaken h5 (by omega), .cons _ _ _ _ _ _ _ _ _ hm hc hwk hwv hi⟩

theorem parseBlockLoop_tells {L : Nat} {pe : PE F} (hp : Tells (L + 1) pe) (n : Nat) :
    ∀ (K : Nat) (s : PS), Live K s → K ≤ n → K ≤ L + 1 →
      Res.Sat (fun a => Live K a.2 ∧ Stmts s.rest a.1 a.2.rest) (∃ us, InStmts F s.rest us ∧ Loops F 0 us)
        (Blames (StmtsBad (F := F) s.rest)) (parseBlockLoop pe n s) := by
  induction n with
  | zero => intro K s h hn; have := h.pos; omega
  | succ n ih =>
    intro K s h hn hL
    obtain ⟨K, rfl⟩ : ∃ K', K = K' + 1 := ⟨K - 1, by have := h.pos; omega⟩
    simp only [parseBlockLoop]
    by_cases hend : s.peekIs .Rb = true
    · rw [if_pos hend]
      obtain ⟨t, r, h1, h2⟩ := peekIs_true hend
      refine ⟨h, ?_⟩
      dsimp only
      rw [h1]
      exact .nil _ _ h2
    · rw [if_neg hend]
      have hnn := notNext_of h.1 hend
      refine (tells_next hp 0 h (by omega)).bind (fun hl => ⟨_, .here _ hnn, hl⟩)
        (Blames.mono fun why ts hf => ⟨_, .here _ hnn, hf⟩) ?_
      rintro ⟨k, s1⟩ _ ⟨h1, hw⟩
      obtain ⟨h2, hr⟩ := skipSemi_live h1
      have := ih K _ h2 (by omega) (by omega)
      rw [hr] at this
      refine this.bind (fun ⟨us, hi, hl⟩ => ⟨us, .next _ _ _ _ hw hi, hl⟩)
        (Blames.mono fun why ts ⟨us, hi, hf⟩ => ⟨us, .next _ _ _ _ hw hi, hf⟩) ?_
      rintro ⟨es, s2⟩ _ ⟨h3, hi⟩
      exact ⟨Live.weaken h3 (by omega), .cons _ _ _ _ _ hw hi⟩

theorem parseBlock_tells {L : Nat} {pe : PE F} (hp : Tells (L + 1) pe) {n K : Nat} {s : PS} (h : Live K s) (hn : K ≤ n)
    (hL : K ≤ L + 1) :
    Res.Sat (fun a => Live K a.2 ∧ ∃ b us d, b.kind = .Lb ∧ d.kind = .Rb ∧ s.rest = b :: us ∧ Stmts us a.1 (d :: a.2.rest))
      (∃ b us vs, b.kind = .Lb ∧ s.rest = b :: us ∧ InStmts F us vs ∧ Loops F 0 vs) (Blames (BlockBad (F := F) s.rest))
      (parseBlock pe n s) := by
  simp only [parseBlock]
  obtain ⟨K, rfl⟩ : ∃ K', K = K' + 1 := ⟨K - 1, by have := h.pos; omega⟩
  refine (expect_sat F (H := False) (by decide) h).bind False.elim
    (fun m ⟨t, r, hr, hne, hm⟩ => ⟨_, t, r, Or.inl ⟨rfl, hr.symm, t, r, hr, hne⟩, hm⟩) ?_
  rintro s1 _ ⟨h1, hb, hr1⟩
  refine (parseBlockLoop_tells hp n K s1 h1 (by omega) (by omega)).bind (fun ⟨us, hi, hl⟩ => ⟨_, _, us, hb, hr1, hi, hl⟩)
    (Blames.mono fun why ts hf => Or.inr ⟨_, _, hb, hr1, hf⟩) ?_
  rintro ⟨es, s2⟩ _ ⟨h2, hs⟩
  obtain ⟨K, rfl⟩ : ∃ K', K = K' + 1 := ⟨K - 1, by have := h2.pos; omega⟩
  refine (expect_sat F (H := False) (by decide) h2).bind False.elim ?_ ?_
  · rintro m ⟨t, r, hr, hne, _⟩
    obtain ⟨c, r', h3, h4⟩ := stmts_close hs
    dsimp only at hr h3
    rw [hr] at h3
    cases h3
    exact (hne h4).elim
  rintro s3 _ ⟨h3, hd, hr3⟩
  dsimp only at hs hr3
  rw [hr3] at hs
  exact ⟨h3.weaken (by omega), _, _, _, hb, hd, hr1, hs⟩

/-- What `parse_unary_expr` passes on as level is the level of a unary operator. -/
theorem unary_level {t : Token} (h : t.kind = .Not ∨ t.kind = .Sub) :
    (if t.kind = .Sub then t.precedence + 2 else t.precedence) = 11 := by
  rcases h with h | h <;> simp [h, Token.precedence, Kind.precedence]

theorem parseUnary_tells {L : Nat} {pe : PE F} (hp : Tells (L + 1) pe) {K p : Nat} {s : PS} (h : Live K s) (hK : K ≤ L + 1)
    (hk : s.cur.kind = .Not ∨ s.cur.kind = .Sub) :
    Res.Sat (fun a => Live K a.2 ∧ Primary p (s.cur :: s.rest) a.1 p a.2.rest) (Loops F p (s.cur :: s.rest))
      (Blames (Faulty (F := F) p (s.cur :: s.rest))) (parseUnary pe s) := by
  simp only [parseUnary]
  rw [unary_level hk]
  obtain ⟨K, rfl⟩ : ∃ K', K = K' + 1 := ⟨K - 1, by have := h.pos; omega⟩
  refine (tells_next hp _ h (by omega)).bind (fun hl => .inside _ _ _ _ (.unary _ _ _ hk) hl)
    (Blames.mono fun why ts hf => .inside _ _ _ _ _ _ (.unary _ _ _ hk) hf) ?_
  rintro ⟨e, s1⟩ _ ⟨h1, h2⟩
  exact ⟨Live.weaken h1 (by omega), .unary _ _ _ _ _ hk h2⟩

theorem parseBool_iff {s : Str} {b : Bool} (h : parseBool s = some b) : s = boolStr b := by
  unfold parseBool at h
  split at h
  · rename_i he; cases h; exact he
  · split at h
    · rename_i he; cases h; exact he
    · cases h

theorem parsePrefix_tells {L : Nat} {pe : PE F} (hp : Tells (L + 1) pe) {n prec : Nat} {s : PS} (hE : EndsEof (s.cur :: s.rest))
    (hn : s.rest.length ≤ n) (hL : s.rest.length ≤ L + 1) :
    Res.Sat (fun a => Live s.rest.length a.2.2 ∧ Primary prec (s.cur :: s.rest) a.1 a.2.1 a.2.2.rest)
      (Loops F prec (s.cur :: s.rest)) (Blames (Faulty (F := F) prec (s.cur :: s.rest))) (parsePrefix pe n prec s) := by
  have live : ∀ {k : Kind}, s.cur.kind = k → k ≠ .Eof → Live s.rest.length s :=
    fun h1 h2 => ⟨endsEof_tail hE (by rw [h1]; exact h2), Nat.le_refl _⟩
  simp only [parsePrefix]
  split
  case h_1 hk => exact ⟨live hk (by decide), .ident _ _ _ hk⟩
  case h_2 hk =>
    simp only [parseInteger]
    split
    · rename_i hi
      exact ⟨live hk (by decide), .int _ _ _ _ hk (parseI64_iff.1 hi)⟩
    · rename_i hi
      exact ⟨.integer, _, _, .integer _ _ _ hk (fun i h => by rw [parseI64_iff.2 h] at hi; cases hi), rfl⟩
  case h_3 hk =>
    simp only [parseFloat]
    split
    · rename_i hi
      exact ⟨live hk (by decide), .float _ _ _ _ hk hi⟩
    · rename_i hi
      exact ⟨.float, _, _, .float _ _ _ hk hi, rfl⟩
  case h_4 hk =>
    simp only [parseBoolean]
    split
    · rename_i hi
      exact ⟨live hk (by decide), .bool _ _ _ _ (Or.inl hk) (parseBool_iff hi)⟩
    · rename_i hi
      exact ⟨.boolean, _, _, .boolean _ _ _ (Or.inl hk) (fun b h => by rw [h] at hi; cases b <;> cases hi), rfl⟩
  case h_5 hk =>
    simp only [parseBoolean]
    split
    · rename_i hi
      exact ⟨live hk (by decide), .bool _ _ _ _ (Or.inr hk) (parseBool_iff hi)⟩
    · rename_i hi
      exact ⟨.boolean, _, _, .boolean _ _ _ (Or.inr hk) (fun b h => by rw [h] at hi; cases b <;> cases hi), rfl⟩
  case h_6 hk => exact ⟨live hk (by decide), .str _ _ _ hk⟩
  case h_7 hk =>
    have hg := live hk (by decide)
    revert hg hL hn
    generalize s.rest.length = K
    intro hL hn hg
    refine Res.Sat.bind (P := fun a => Live K a.2 ∧ Primary prec (s.cur :: s.rest) a.1 255 a.2.rest)
      (H := Loops F prec (s.cur :: s.rest)) (E := Blames (Faulty (F := F) prec (s.cur :: s.rest))) ?_ id (fun _ => id) ?_
    · simp only [parseLet]
      obtain ⟨K, rfl⟩ : ∃ K', K = K' + 1 := ⟨K - 1, by have := hg.pos; omega⟩
      refine (expect_sat F (H := False) (by decide) hg).bind False.elim
        (fun m ⟨t, r, hr, hne, hm⟩ => ⟨.expects .Ident, t, r, by rw [hr]; exact .letName _ _ _ _ hk hne, hm⟩) ?_
      rintro s1 _ ⟨h1, hn1, hr1⟩
      obtain ⟨K, rfl⟩ : ∃ K', K = K' + 1 := ⟨K - 1, by have := h1.pos; omega⟩
      refine (expect_sat F (H := False) (by decide) h1).bind False.elim
        (fun m ⟨t, r, hr, hne, hm⟩ => ⟨.expects .Assign, t, r, by rw [hr1, hr]; exact .letAssign _ _ _ _ _ hk hn1 hne, hm⟩) ?_
      rintro s2 _ ⟨h2, ha2, hr2⟩
      obtain ⟨K, rfl⟩ : ∃ K', K = K' + 1 := ⟨K - 1, by have := h2.pos; omega⟩
      rw [hr1, hr2]
      refine (tells_next hp _ h2 (by omega)).bind (fun hl => .inside _ _ _ _ (.letE _ _ _ _ _ hk hn1 ha2) hl)
        (Blames.mono fun why ts hf => .inside _ _ _ _ _ _ (.letE _ _ _ _ _ hk hn1 ha2) hf) ?_
      rintro ⟨e, s3⟩ _ ⟨h3, hw⟩
      obtain ⟨h4, hr4⟩ := skipSemi_live h3
      refine ⟨h4.weaken (by omega), ?_⟩
      dsimp only at hr4 ⊢
      rw [hr4]
      exact .letE _ _ _ _ _ _ _ hk hn1 ha2 hw
    · rintro ⟨e, s1⟩ _ h1
      exact h1
  case h_8 hk =>
    refine (parseUnary_tells hp (live hk (by decide)) hL (Or.inl hk)).bind id (fun _ => id) ?_
    rintro ⟨e, s1⟩ _ h1
    exact h1
  case h_9 hk =>
    refine (parseUnary_tells hp (live hk (by decide)) hL (Or.inr hk)).bind id (fun _ => id) ?_
    rintro ⟨e, s1⟩ _ h1
    exact h1
  case h_10 hk =>
    have hg := live hk (by decide)
    revert hg hL hn
    generalize s.rest.length = K
    intro hL hn hg
    refine Res.Sat.bind (P := fun a => Live K a.2 ∧ Primary prec (s.cur :: s.rest) a.1 prec a.2.rest)
      (H := Loops F prec (s.cur :: s.rest)) (E := Blames (Faulty (F := F) prec (s.cur :: s.rest))) ?_ id (fun _ => id) ?_
    · simp only [parseParen]
      obtain ⟨K, rfl⟩ : ∃ K', K = K' + 1 := ⟨K - 1, by have := hg.pos; omega⟩
      refine (tells_next hp _ hg (by omega)).bind (fun hl => .inside _ _ _ _ (.paren _ _ _ hk) hl)
        (Blames.mono fun why ts hf => .inside _ _ _ _ _ _ (.paren _ _ _ hk) hf) ?_
      rintro ⟨e, s3⟩ _ ⟨h3, hw⟩
      obtain ⟨K, rfl⟩ : ∃ K', K = K' + 1 := ⟨K - 1, by have := h3.pos; omega⟩
      refine (expect_sat F (H := False) (by decide) h3).bind False.elim ?_ ?_
      · rintro m ⟨t, r, hr, hne, hm⟩
        dsimp only at hw hr
        rw [hr] at hw
        exact ⟨_, _, _, .paren _ _ _ _ _ _ hk hw hne, hm⟩
      rintro s2 _ ⟨h2, hc, hr⟩
      dsimp only at hw hr
      rw [hr] at hw
      exact ⟨h2.weaken (by omega), .paren _ _ _ _ _ _ hk hc hw⟩
    · rintro ⟨e, s1⟩ _ h1
      exact h1
  case h_11 hk =>
    have hg := live hk (by decide)
    revert hg hL hn
    generalize s.rest.length = K
    intro hL hn hg
    refine Res.Sat.bind (P := fun a => Live K a.2 ∧ Primary prec (s.cur :: s.rest) a.1 prec a.2.rest)
      (H := Loops F prec (s.cur :: s.rest)) (E := Blames (Faulty (F := F) prec (s.cur :: s.rest))) ?_ id (fun _ => id) ?_
    · simp only [parseIf]
      obtain ⟨K, rfl⟩ : ∃ K', K = K' + 1 := ⟨K - 1, by have := hg.pos; omega⟩
      refine (expect_sat F (H := False) (by decide) hg).bind False.elim
        (fun m ⟨t, r, hr, hne, hm⟩ => ⟨.expects .Lp, t, r, by rw [hr]; exact .ifOpen _ _ _ _ hk hne, hm⟩) ?_
      rintro s1 _ ⟨h1, hl1, hr1⟩
      obtain ⟨K, rfl⟩ : ∃ K', K = K' + 1 := ⟨K - 1, by have := h1.pos; omega⟩
      rw [hr1]
      refine (tells_next hp _ h1 (by omega)).bind (fun hl => .inside _ _ _ _ (.cond _ _ _ _ hk hl1) hl)
        (Blames.mono fun why ts hf => .inside _ _ _ _ _ _ (.cond _ _ _ _ hk hl1) hf) ?_
      rintro ⟨c, s2⟩ _ ⟨h2, hw⟩
      obtain ⟨K, rfl⟩ : ∃ K', K = K' + 1 := ⟨K - 1, by have := h2.pos; omega⟩
      refine (expect_sat F (H := False) (by decide) h2).bind False.elim ?_ ?_
      · rintro m ⟨t, r, hr, hne, hm⟩
        dsimp only at hw hr
        rw [hr] at hw
        exact ⟨_, _, _, .ifClose _ _ _ _ _ _ _ hk hl1 hw hne, hm⟩
      rintro s3 _ ⟨h3, hc3, hr3⟩
      dsimp only at hw hr3
      rw [hr3] at hw
      refine (parseBlock_tells hp h3 (by omega) (by omega)).bind ?_ ?_ ?_
      · rintro ⟨b, us, vs, hb, hr, hi, hl⟩
        rw [hr] at hw
        exact .inside _ _ _ _ (.thenE _ _ _ _ _ _ _ _ _ hk hl1 hc3 hb hw hi) hl
      · refine Blames.mono fun why ts hf => ?_
        rcases hf with ⟨rfl, rfl, t, r, hr, hne⟩ | ⟨b, us, hb, hr, vs, hi, hf⟩
        · rw [hr] at hw ⊢
          exact .thenOpen _ _ _ _ _ _ _ _ hk hl1 hc3 hw hne
        · rw [hr] at hw
          exact .inside _ _ _ _ _ _ (.thenE _ _ _ _ _ _ _ _ _ hk hl1 hc3 hb hw hi) hf
      rintro ⟨t, s4⟩ _ ⟨h4, b, us, d, hb, hd, hr, hst⟩
      rw [hr] at hw
      dsimp only at hst ⊢
      by_cases hel : s4.peekIs .Else = true
      · rw [if_pos hel]
        obtain ⟨el, rl, hr5, hc5⟩ := peekIs_true hel
        rw [next_of hr5]
        rw [hr5] at hst
        have h5 : Live K ⟨el, rl⟩ := by
          obtain ⟨hE4, hl4⟩ := h4
          dsimp only at hE4 hl4
          rw [hr5] at hE4 hl4
          exact ⟨endsEof_tail hE4 (by rw [hc5]; decide), by simp at hl4; dsimp only; omega⟩
        refine (parseBlock_tells hp h5 (by omega) (by omega)).bind ?_ ?_ ?_
        · rintro ⟨b', us', vs, hb', hr', hi, hl⟩
          dsimp only at hr'
          rw [hr'] at hst
          exact .inside _ _ _ _ (.elseE _ _ _ _ _ _ _ _ _ _ _ _ _ _ hk hl1 hc3 hb hd hc5 hb' hw hst hi) hl
        · refine Blames.mono fun why ts hf => ?_
          rcases hf with ⟨rfl, rfl, t, r, hr', hne⟩ | ⟨b', us', hb', hr', vs, hi, hf⟩
          · dsimp only at hr' ⊢
            rw [hr'] at hst ⊢
            exact .elseOpen _ _ _ _ _ _ _ _ _ _ _ _ _ hk hl1 hc3 hb hd hc5 hw hst hne
          · dsimp only at hr'
            rw [hr'] at hst
            exact .inside _ _ _ _ _ _ (.elseE _ _ _ _ _ _ _ _ _ _ _ _ _ _ hk hl1 hc3 hb hd hc5 hb' hw hst hi) hf
        rintro ⟨e, s6⟩ _ ⟨h6, b', us', d', hb', hd', hr', hst'⟩
        dsimp only at hr' hst'
        rw [hr'] at hst
        exact ⟨Live.weaken h6 (by omega), .ifElse _ _ _ _ _ _ _ _ _ _ _ _ _ _ _ _ hk hl1 hc3 hb hd hc5 hb' hd' hw hst hst'⟩
      · rw [if_neg hel]
        have hnn := notNext_of h4.1 hel
        exact ⟨Live.weaken h4 (by omega), .ifThen _ _ _ _ _ _ _ _ _ _ _ hk hl1 hc3 hb hd hw hst hnn⟩
    · rintro ⟨e, s1⟩ _ h1
      exact h1
  case h_12 hk =>
    refine Res.Sat.bind (P := fun a => Live s.rest.length a.2 ∧ Primary prec (s.cur :: s.rest) a.1 prec a.2.rest)
      (H := Loops F prec (s.cur :: s.rest)) (E := Blames (Faulty (F := F) prec (s.cur :: s.rest))) ?_ id (fun _ => id) ?_
    · simp only [parseArray]
      refine (parseList_tells hp (by decide) (live hk (by decide)) hn hL).bind
        (fun ⟨us, hi, hl⟩ => .inside _ _ _ _ (.arr _ _ _ _ hk hi) hl)
        (Blames.mono fun why ts hf => hf.elim (fun hf => .arr _ _ _ _ _ hk hf) fun ⟨us, hi, hf⟩ => .inside _ _ _ _ _ _ (.arr _ _ _ _ hk hi) hf) ?_
      rintro ⟨e, s1⟩ _ ⟨h1, c, hc, hi⟩
      exact ⟨h1, .arr _ _ _ _ _ _ hk hc hi⟩
    · rintro ⟨e, s1⟩ _ h1
      exact h1
  case h_13 hk =>
    have hg := live hk (by decide)
    revert hg hL hn
    generalize s.rest.length = K
    intro hL hn hg
    refine Res.Sat.bind (P := fun a => Live K a.2 ∧ Primary prec (s.cur :: s.rest) a.1 prec a.2.rest)
      (H := Loops F prec (s.cur :: s.rest)) (E := Blames (Faulty (F := F) prec (s.cur :: s.rest))) ?_ id (fun _ => id) ?_
    · simp only [parseMap]
      refine (parsePairsLoop_tells hp n K s hg (by omega) (by omega)).bind
        (fun ⟨us, hi, hl⟩ => .inside _ _ _ _ (.map _ _ _ _ hk hi) hl)
        (Blames.mono fun why ts hf => hf.elim (fun hf => .map _ _ _ _ _ hk hf) fun ⟨us, hi, hf⟩ => .inside _ _ _ _ _ _ (.map _ _ _ _ hk hi) hf) ?_
      rintro ⟨ps, s1⟩ _ ⟨h1, hps⟩
      obtain ⟨K, rfl⟩ : ∃ K', K = K' + 1 := ⟨K - 1, by have := h1.pos; omega⟩
      refine (expect_sat F (H := False) (by decide) h1).bind False.elim ?_ ?_
      · rintro m ⟨t, r, hr, hne, _⟩
        obtain ⟨c, r', h3, h4⟩ := pairs_close hps
        dsimp only at hr h3
        rw [hr] at h3
        cases h3
        exact (hne h4).elim
      rintro s2 _ ⟨h2, hc, hr⟩
      dsimp only at hps hr
      rw [hr] at hps
      exact ⟨h2.weaken (by omega), .map _ _ _ _ _ _ hk hc hps⟩
    · rintro ⟨e, s1⟩ _ h1
      exact h1
  case h_14 h1 h2 h3 h4 h5 h6 h7 h8 h9 h10 h11 h12 h13 =>
    refine ⟨.operand, _, _, .operand _ _ _ ?_, rfl⟩
    simp only [Begins, List.mem_cons, List.not_mem_nil, or_false, not_or]
    exact ⟨h1, h2, h3, h4, h5, h6, h7, h8, h9, h10, h11, h12, h13⟩

/-- The continuation of an expression never ends. -/
def Continues (q : Nat) (left : Expr F) (ts : List Token) : Prop :=
  ∃ e b vs, Extends q left ts e (b :: vs) ∧
    ((q < 11 ∧ b.kind = .Not) ∨ (q < tableLevel b.kind ∧ Loops F (tableLevel b.kind) vs) ∨
     (q < 12 ∧ b.kind = .Lp ∧ ∃ ws, InItems F .Rp vs ws ∧ Loops F 0 ws) ∨ (q < 13 ∧ b.kind = .Ls ∧ Loops F 0 vs))

theorem continues_loops {p q : Nat} {left : Expr F} {ts us : List Token} (ho : Primary p ts left q us) (h : Continues q left us) :
    Loops F p ts := by
  obtain ⟨e, b, vs, hx, h⟩ := h
  rcases h with ⟨h1, h2⟩ | ⟨h1, h2⟩ | ⟨h1, h2, ws, h3, h4⟩ | ⟨h1, h2, h3⟩
  · exact .stuck _ _ _ _ _ _ _ _ ho hx h1 h2
  · exact .inside _ _ _ _ (.right _ _ _ _ _ _ _ _ ho hx h1) h2
  · exact .inside _ _ _ _ (.arg _ _ _ _ _ _ _ _ _ ho hx h1 h2 h3) h4
  · exact .inside _ _ _ _ (.index _ _ _ _ _ _ _ _ ho hx h1 h2) h3

/-- The continuation of an expression comes to a token that does not fit. -/
def ContinuesBad (q : Nat) (left : Expr F) (ts : List Token) (why : Fault F) (at' : List Token) : Prop :=
  ∃ e b vs, Extends q left ts e (b :: vs) ∧
    ((q < tableLevel b.kind ∧ Faulty (tableLevel b.kind) vs why at') ∨
     (q < 12 ∧ b.kind = .Lp ∧ ItemsBad .Rp vs why at') ∨
     (q < 12 ∧ b.kind = .Lp ∧ ∃ (es : List (Expr F)) (c : Token) (r : List Token), Items .Rp vs es (c :: r) ∧ (∀ f, e ≠ .ident f) ∧ why = .callee e ∧ at' = c :: r) ∨
     (q < 13 ∧ b.kind = .Ls ∧ Faulty 0 vs why at') ∨
     (q < 13 ∧ b.kind = .Ls ∧ ∃ (i : Expr F) (c : Token) (r : List Token), Whole 0 vs i (c :: r) ∧ c.kind ≠ .Rs ∧ why = .expects .Rs ∧ at' = c :: r) ∨
     (q < 13 ∧ b.kind = .Dot ∧ ∃ n r, vs = n :: r ∧ n.kind ≠ .Ident ∧ why = .expects .Ident ∧ at' = vs))

theorem continues_faulty {p q : Nat} {left : Expr F} {ts us at' : List Token} {why : Fault F} (ho : Primary p ts left q us)
    (h : ContinuesBad q left us why at') : Faulty p ts why at' := by
  obtain ⟨e, b, vs, hx, h⟩ := h
  rcases h with ⟨h1, h2⟩ | ⟨h1, h2, h3 | ⟨ws, h3, h4⟩⟩ | ⟨h1, h2, es, c, r, h3, h4, rfl, rfl⟩ | ⟨h1, h2, h3⟩ |
    ⟨h1, h2, i, c, r, h3, h4, rfl, rfl⟩ | ⟨h1, h2, n, r, rfl, h3, rfl, rfl⟩
  · exact .inside _ _ _ _ _ _ (.right _ _ _ _ _ _ _ _ ho hx h1) h2
  · exact .arg _ _ _ _ _ _ _ _ _ _ ho hx h1 h2 h3
  · exact .inside _ _ _ _ _ _ (.arg _ _ _ _ _ _ _ _ _ ho hx h1 h2 h3) h4
  · exact .callee _ _ _ _ _ _ _ _ _ _ _ ho hx h1 h2 h3 h4
  · exact .inside _ _ _ _ _ _ (.index _ _ _ _ _ _ _ _ ho hx h1 h2) h3
  · exact .index _ _ _ _ _ _ _ _ _ _ _ ho hx h1 h2 h3 h4
  · exact .field _ _ _ _ _ _ _ _ _ ho hx h1 h2 h3

theorem parseLoop_tells {L : Nat} {pe : PE F} (hp : Tells (L + 1) pe) (q : Nat) (n : Nat) :
    ∀ (K : Nat) (left : Expr F) (s : PS), Live K s → K ≤ n → K ≤ L + 1 →
      Res.Sat (fun a => Live K a.2 ∧ Extends q left s.rest a.1 a.2.rest ∧ Ends q a.2.rest) (Continues q left s.rest)
        (Blames (ContinuesBad q left s.rest)) (parseLoop pe q n left s) := by
  induction n with
  | zero => intro K left s h hn; have := h.pos; omega
  | succ n ih =>
    intro K left s h hn hL
    obtain ⟨K, rfl⟩ : ∃ K', K = K' + 1 := ⟨K - 1, by have := h.pos; omega⟩
    have hg := h
    obtain ⟨hE, hl⟩ := h
    obtain ⟨c, l⟩ := s
    obtain ⟨t, r, hl'⟩ := endsEof_cases hE
    dsimp only at hl'
    subst hl'
    by_cases hcond : (!(PS.mk c (t :: r)).peekIs .Semi && decide (q < (PS.mk c (t :: r)).peekPrec)) = true
    · have hc : t.kind ≠ .Semi ∧ q < t.kind.precedence := by
        rw [peekIs_cons] at hcond
        have h1 : (PS.mk c (t :: r)).peekPrec = t.kind.precedence := rfl
        simp [h1] at hcond
        exact hcond
      have hEr : t.kind ≠ .Eof := by intro h1; rw [h1] at hc; simp [Kind.precedence] at hc
      have hg1 : Live K ⟨t, r⟩ := ⟨endsEof_tail hE hEr, by simp at hl; dsimp only; omega⟩
      simp only [parseLoop, if_pos hcond, PS.peek, List.head?_cons, next_cons]
      by_cases hb : t.kind.isBinary = true
      · rw [if_pos hb]
        obtain ⟨htl, _⟩ := tableLevel_binary hb
        rw [htl] at hc
        obtain ⟨K, rfl⟩ : ∃ K', K = K' + 1 := ⟨K - 1, by have := hg1.pos; omega⟩
        refine Res.Sat.bind (P := fun a => Live K a.2 ∧ ∃ rt, a.1 = .binary t left rt ∧ Whole (tableLevel t.kind) r rt a.2.rest)
          (H := Loops F (tableLevel t.kind) r) (E := Blames (Faulty (F := F) (tableLevel t.kind) r)) ?_ ?_
          (Blames.mono fun why ts hf => ⟨_, _, _, .nil _ _ _, Or.inl ⟨hc.2, hf⟩⟩) ?_
        · simp only [parseBinary, Token.precedence, htl]
          refine (tells_next hp _ hg1 (by omega)).bind id (fun _ => id) ?_
          rintro ⟨e, s1⟩ _ ⟨h1, h2⟩
          exact ⟨h1, e, rfl, h2⟩
        · intro hl
          exact ⟨_, _, _, .nil _ _ _, Or.inr (Or.inl ⟨hc.2, hl⟩)⟩
        · rintro ⟨e, s1⟩ _ ⟨h1, rt, he, hw⟩
          dsimp only at he hw
          subst he
          refine (ih K _ s1 h1 (by omega) (by omega)).mono ?_ ?_ ?_
          · intro a ⟨h2, h3, h4⟩
            exact ⟨h2.weaken (by omega), .binary _ _ _ _ _ _ _ _ hc.2 hw h3, h4⟩
          · rintro ⟨e, b, vs, hx, h5⟩
            exact ⟨e, b, vs, .binary _ _ _ _ _ _ _ _ hc.2 hw hx, h5⟩
          · exact Blames.mono fun why ts ⟨e, b, vs, hx, h5⟩ => ⟨e, b, vs, .binary _ _ _ _ _ _ _ _ hc.2 hw hx, h5⟩
      · rw [if_neg hb]
        by_cases hpp : t.kind = .Lp
        · rw [if_pos hpp]
          have hc12 : q < 12 := by have := hc.2; rw [hpp] at this; exact this
          refine Res.Sat.bind (P := fun a => Live K a.2 ∧ ∃ f es c, left = .ident f ∧ c.kind = .Rp ∧ a.1 = .call f es ∧
            Items .Rp r es (c :: a.2.rest)) (H := ∃ us, InItems F .Rp r us ∧ Loops F 0 us)
            (E := Blames (ContinuesBad q left (t :: r))) ?_ ?_ (fun _ => id) ?_
          · simp only [parseCall]
            refine (parseList_tells hp (by decide) hg1 (by omega) (by omega)).bind id
              (Blames.mono fun why ts hf => ⟨_, _, _, .nil _ _ _, Or.inr (Or.inl ⟨hc12, hpp, hf⟩)⟩) ?_
            rintro ⟨es, s1⟩ _ ⟨h1, c, hc', hi⟩
            dsimp only
            split
            · exact ⟨h1, _, _, _, rfl, hc', rfl, hi⟩
            · rename_i hne
              exact ⟨.callee left, c, s1.rest, ⟨_, _, _, .nil _ _ _, Or.inr (Or.inr (Or.inl ⟨hc12, hpp, es, c, _, hi, hne, rfl, rfl⟩))⟩, rfl⟩
          · rintro ⟨us, hi, hl⟩
            exact ⟨_, _, _, .nil _ _ _, Or.inr (Or.inr (Or.inl ⟨hc12, hpp, us, hi, hl⟩))⟩
          · rintro ⟨e, s1⟩ _ ⟨h1, f, es, c, hf, hc', he, hi⟩
            dsimp only at he hi
            subst he; subst hf
            refine (ih K _ s1 h1 (by omega) (by omega)).mono ?_ ?_ ?_
            · intro a ⟨h2, h3, h4⟩
              exact ⟨h2.weaken (by omega), .call _ _ _ _ _ _ _ _ _ hc12 hpp hc' hi h3, h4⟩
            · rintro ⟨e, b, vs, hx, h5⟩
              exact ⟨e, b, vs, .call _ _ _ _ _ _ _ _ _ hc12 hpp hc' hi hx, h5⟩
            · exact Blames.mono fun why ts ⟨e, b, vs, hx, h5⟩ => ⟨e, b, vs, .call _ _ _ _ _ _ _ _ _ hc12 hpp hc' hi hx, h5⟩
        · rw [if_neg hpp]
          by_cases hq : t.kind = .Ls
          · rw [if_pos hq]
            have hc13 : q < 13 := by have := hc.2; rw [hq] at this; exact this
            obtain ⟨K, rfl⟩ : ∃ K', K = K' + 1 := ⟨K - 1, by have := hg1.pos; omega⟩
            refine Res.Sat.bind (P := fun a => Live K a.2 ∧ ∃ i c, c.kind = .Rs ∧ a.1 = .index left i ∧
              Whole 0 r i (c :: a.2.rest)) (H := Loops F 0 r) (E := Blames (ContinuesBad q left (t :: r))) ?_ ?_ (fun _ => id) ?_
            · simp only [parseIndex]
              refine (tells_next hp _ hg1 (by omega)).bind id
                (Blames.mono fun why ts hf => ⟨_, _, _, .nil _ _ _, Or.inr (Or.inr (Or.inr (Or.inl ⟨hc13, hq, hf⟩)))⟩) ?_
              rintro ⟨i, s1⟩ _ ⟨h1, hw⟩
              obtain ⟨K, rfl⟩ : ∃ K', K = K' + 1 := ⟨K - 1, by have := h1.pos; omega⟩
              refine (expect_sat F (H := False) (by decide) h1).bind False.elim ?_ ?_
              · rintro m ⟨t', r', hr, hne, hm⟩
                dsimp only at hw hr
                rw [hr] at hw
                exact ⟨_, _, _, ⟨_, _, _, .nil _ _ _, Or.inr (Or.inr (Or.inr (Or.inr (Or.inl ⟨hc13, hq, i, _, _, hw, hne, rfl, rfl⟩))))⟩, hm⟩
              rintro s2 _ ⟨h3, h4, hr⟩
              dsimp only at hw hr
              rw [hr] at hw
              exact ⟨h3.weaken (by omega), _, _, h4, rfl, hw⟩
            · intro hl
              exact ⟨_, _, _, .nil _ _ _, Or.inr (Or.inr (Or.inr ⟨hc13, hq, hl⟩))⟩
            · rintro ⟨e, s1⟩ _ ⟨h1, i, c, hc', he, hw⟩
              dsimp only at he hw
              subst he
              refine (ih K _ s1 h1 (by omega) (by omega)).mono ?_ ?_ ?_
              · intro a ⟨h2, h3, h4⟩
                exact ⟨h2.weaken (by omega), .index _ _ _ _ _ _ _ _ _ hc13 hq hc' hw h3, h4⟩
              · rintro ⟨e, b, vs, hx, h5⟩
                exact ⟨e, b, vs, .index _ _ _ _ _ _ _ _ _ hc13 hq hc' hw hx, h5⟩
              · exact Blames.mono fun why ts ⟨e, b, vs, hx, h5⟩ => ⟨e, b, vs, .index _ _ _ _ _ _ _ _ _ hc13 hq hc' hw hx, h5⟩
          · rw [if_neg hq]
            by_cases hd : t.kind = .Dot
            · rw [if_pos hd]
              have hc13 : q < 13 := by have := hc.2; rw [hd] at this; exact this
              obtain ⟨K, rfl⟩ : ∃ K', K = K' + 1 := ⟨K - 1, by have := hg1.pos; omega⟩
              refine Res.Sat.bind (P := fun a => Live K a.2 ∧ ∃ nm, nm.kind = .Ident ∧ a.1 = .field left nm.literal ∧
                r = nm :: a.2.rest) (H := False) (E := Blames (ContinuesBad q left (t :: r))) ?_ False.elim (fun _ => id) ?_
              · simp only [parseField]
                refine (expect_sat F (H := False) (by decide) hg1).bind False.elim
                  (fun m ⟨t', r', hr, hne, hm⟩ => ⟨.expects .Ident, t', r',
                    ⟨_, _, _, .nil _ _ _, Or.inr (Or.inr (Or.inr (Or.inr (Or.inr ⟨hc13, hd, t', r', hr, hne, rfl, hr.symm⟩))))⟩, hm⟩) ?_
                rintro s2 _ ⟨h3, h4, hr⟩
                exact ⟨h3, _, h4, rfl, hr⟩
              · rintro ⟨e, s1⟩ _ ⟨h1, nm, hnm, he, hr⟩
                dsimp only at he hr
                subst he
                rw [hr]
                refine (ih K _ s1 h1 (by omega) (by omega)).mono ?_ ?_ ?_
                · intro a ⟨h2, h3, h4⟩
                  exact ⟨h2.weaken (by omega), .field _ _ _ _ _ _ _ hc13 hd hnm h3, h4⟩
                · rintro ⟨e, b, vs, hx, h5⟩
                  exact ⟨e, b, vs, .field _ _ _ _ _ _ _ hc13 hd hnm hx, h5⟩
                · exact Blames.mono fun why ts ⟨e, b, vs, hx, h5⟩ => ⟨e, b, vs, .field _ _ _ _ _ _ _ hc13 hd hnm hx, h5⟩
            · have hnot := unhandled_is_not (by omega) (by simpa using hb) hpp hq hd
              rw [if_neg hd]
              rw [parseLoop_stuck n hc.1 hc.2 (by simpa using hb) hpp hq hd]
              exact ⟨_, _, _, .nil _ _ _, Or.inl ⟨by have := hc.2; rw [hnot] at this; exact this, hnot⟩⟩
    · simp only [parseLoop, if_neg hcond]
      refine ⟨hg, .nil _ _ _, t, r, rfl, ?_⟩
      rw [peekIs_cons, show (PS.mk c (t :: r)).peekPrec = level t.kind from level_precedence t.kind] at hcond
      by_cases hs : t.kind = .Semi
      · rw [hs]; exact Nat.zero_le _
      · simpa [hs] using hcond

theorem parseExpr_tells (L : Nat) : ∀ n, L ≤ n → Tells (F := F) L (parseExpr n) := by
  induction L with
  | zero => intro n _ prec s _ h; omega
  | succ L ih =>
    intro n hn prec s hE hlen
    cases n with
    | zero => omega
    | succ n =>
      by_cases hk : s.cur.kind = .Eof
      · simp only [parseExpr, parsePrefix, hk]
        exact ⟨.operand, _, _, .operand _ _ _ (by rw [hk]; simp [Begins]), rfl⟩
      · have hlive := endsEof_tail hE hk
        obtain ⟨L, rfl⟩ : ∃ L', L = L' + 1 := ⟨L - 1, by have := live_pos hlive; omega⟩
        have hH := ih n (by omega)
        simp only [parseExpr]
        refine (parsePrefix_tells hH hE (by omega) (by omega)).bind id (fun _ => id) ?_
        rintro ⟨left, p, s1⟩ _ ⟨hg, ho⟩
        dsimp only at hg ho ⊢
        refine (parseLoop_tells hH p n s.rest.length left s1 hg (by omega) (by omega)).mono ?_ (continues_loops ho)
          (Blames.mono fun why ts hf => continues_faulty ho hf)
        intro a ⟨h1, h2, h3⟩
        exact ⟨h1, .mk _ _ _ _ _ _ _ ho h2 h3⟩

theorem parseItem_tells {n : Nat} {src : Source F} {s : PS} (hE : EndsEof (s.cur :: s.rest))
    (hk : s.cur.kind ≠ .Eof) (hn : s.rest.length < n) :
    Res.Sat (fun a => Live s.rest.length a.2 ∧ ∃ i, a.1 = addItem src i ∧ OneItem (s.cur :: s.rest) i a.2.rest)
      (Endless F (s.cur :: s.rest)) (Blames (Wrong (F := F) (s.cur :: s.rest))) (parseItem n src s) := by
  have hH : Tells (F := F) (s.rest.length + 1) (parseExpr n) := parseExpr_tells _ n hn
  have hg : Live s.rest.length s := ⟨endsEof_tail hE hk, Nat.le_refl _⟩
  simp only [parseItem]
  split
  · rename_i hkr
    revert hg hn hH
    generalize s.rest.length = K
    intro hn hH hg
    refine Res.Sat.bind (P := fun a => Live K a.2 ∧ OneItem (s.cur :: s.rest) (.request a.1.1 a.1.2.1 a.1.2.2) a.2.rest)
      (H := Endless F (s.cur :: s.rest)) (E := Blames (Wrong (F := F) (s.cur :: s.rest))) ?_ id (fun _ => id) ?_
    · simp only [parseRequest]
      obtain ⟨K, rfl⟩ : ∃ K', K = K' + 1 := ⟨K - 1, by have := hg.pos; omega⟩
      refine (expect_sat F (H := False) (by decide) hg).bind False.elim
        (fun m ⟨t, r, hr, hne, hm⟩ => ⟨.expects .Ident, t, r, by rw [hr]; exact .requestName _ _ _ hkr hne, hm⟩) ?_
      rintro s1 _ ⟨h1, hn1, hr1⟩
      obtain ⟨K, rfl⟩ : ∃ K', K = K' + 1 := ⟨K - 1, by have := h1.pos; omega⟩
      refine (expect_sat F (H := False) (by decide) h1).bind False.elim
        (fun m ⟨t, r, hr, hne, hm⟩ => ⟨.expects .Template, t, r, by rw [hr1, hr]; exact .requestText _ _ _ _ hkr hn1 hne, hm⟩) ?_
      rintro s2 _ ⟨h2, hm2, hr2⟩
      rw [hr1, hr2]
      by_cases hel : s2.peekIs .Ls = true
      · rw [if_pos hel]
        obtain ⟨el, rl, hr5, hc5⟩ := peekIs_true hel
        rw [next_of hr5, hr5]
        have h5 : Live K ⟨el, rl⟩ := by
          obtain ⟨hE4, hl4⟩ := h2
          rw [hr5] at hE4 hl4
          exact ⟨endsEof_tail hE4 (by rw [hc5]; decide), by simp at hl4; dsimp only; omega⟩
        refine (parseList_tells hH (by decide) h5 (by omega) (by omega)).bind
          (fun ⟨us, hi, hl⟩ => .asserts _ _ _ _ _ _ hkr hn1 hm2 hc5 hi hl)
          (Blames.mono fun why ts hf => hf.elim (fun hf => .asserts _ _ _ _ _ _ _ hkr hn1 hm2 hc5 hf)
            fun ⟨us, hi, hf⟩ => .inAsserts _ _ _ _ _ _ _ _ hkr hn1 hm2 hc5 hi hf) ?_
        rintro ⟨e, s6⟩ _ ⟨h6, c, hc, hi⟩
        exact ⟨Live.weaken h6 (by omega), .asserts _ _ _ _ _ _ _ _ hkr hn1 hm2 hc5 hc hi⟩
      · rw [if_neg hel]
        exact ⟨Live.weaken h2 (by omega), .request _ _ _ _ hkr hn1 hm2 (notNext_of h2.1 hel)⟩
    · rintro ⟨e, s1⟩ _ ⟨h1, h2⟩
      exact ⟨h1, _, rfl, h2⟩
  · rename_i hkt
    revert hg hn hH
    generalize s.rest.length = K
    intro hn hH hg
    refine Res.Sat.bind (P := fun a => Live K a.2 ∧ OneItem (s.cur :: s.rest) (.test a.1.1 a.1.2) a.2.rest)
      (H := Endless F (s.cur :: s.rest)) (E := Blames (Wrong (F := F) (s.cur :: s.rest))) ?_ id (fun _ => id) ?_
    · simp only [parseTest]
      obtain ⟨K, rfl⟩ : ∃ K', K = K' + 1 := ⟨K - 1, by have := hg.pos; omega⟩
      refine (expect_sat F (H := False) (by decide) hg).bind False.elim
        (fun m ⟨t, r, hr, hne, hm⟩ => ⟨.expects .Ident, t, r, by rw [hr]; exact .testName _ _ _ hkt hne, hm⟩) ?_
      rintro s1 _ ⟨h1, hn1, hr1⟩
      rw [hr1]
      refine (parseBlock_tells hH h1 (by omega) (by omega)).bind ?_ ?_ ?_
      · rintro ⟨b, us, vs, hb, hr, hi, hl⟩
        rw [hr]
        exact .test _ _ _ _ _ hkt hn1 hb hi hl
      · refine Blames.mono fun why ts hf => ?_
        rcases hf with ⟨rfl, rfl, t, r, hr, hne⟩ | ⟨b, us, hb, hr, vs, hi, hf⟩
        · rw [hr]
          exact .testOpen _ _ _ _ hkt hn1 hne
        · rw [hr]
          exact .inTest _ _ _ _ _ _ _ hkt hn1 hb hi hf
      rintro ⟨e, s6⟩ _ ⟨h6, b, us, d, hb, hd, hr, hst⟩
      rw [hr]
      exact ⟨Live.weaken h6 (by omega), .test _ _ _ _ _ _ _ hkt hn1 hb hd hst⟩
    · rintro ⟨e, s1⟩ _ ⟨h1, h2⟩
      exact ⟨h1, _, rfl, h2⟩
  · rename_i hr ht
    refine (hH 0 s hE (by omega)).bind (fun hl => .expr _ hl)
      (Blames.mono fun why ts hf => .expr _ _ _ ⟨_, _, rfl, hr⟩ ⟨_, _, rfl, ht⟩ ⟨_, _, rfl, hk⟩ hf) ?_
    rintro ⟨e, s1⟩ _ ⟨h1, h2⟩
    exact ⟨h1, .expr e, rfl, .expr _ _ _ h2⟩

theorem parseTop_tells {n : Nat} (k : Nat) : ∀ (src : Source F) (s : PS), EndsEof (s.cur :: s.rest) → EofLast (s.cur :: s.rest) →
    s.rest.length < n → s.rest.length < k →
    Res.Sat (fun src' => ∃ items, Program (s.cur :: s.rest) items ∧ src' = items.foldl addItem src) (Endless F (s.cur :: s.rest))
      (Blames (Wrong (F := F) (s.cur :: s.rest))) (parseTop n k src s) := by
  induction k with
  | zero => intro src s _ _ _ h; omega
  | succ k ih =>
    intro src s hE hL hn hk
    simp only [parseTop]
    by_cases hne : s.cur.kind = .Eof
    · rw [if_pos hne]
      have hnil := hL [] s.cur s.rest rfl hne
      refine ⟨[], ?_, rfl⟩
      rw [hnil]
      exact .nil _ hne
    · rw [if_neg hne]
      have hsnd := parseItem_tells (src := src) hE hne hn
      cases hpi : parseItem n src s with
      | err m => rw [hpi] at hsnd; exact hsnd
      | panic => rw [hpi] at hsnd; exact hsnd
      | hang => rw [hpi] at hsnd; exact hsnd
      | ok a =>
        obtain ⟨src1, s1⟩ := a
        obtain ⟨item, more, hr, hE1, _, _⟩ := parseItem_sound hE hne hpi
        rw [hpi] at hsnd
        obtain ⟨h1, i, hsrc, hi⟩ := hsnd
        obtain ⟨h2, hds⟩ := skipSemi_live h1
        obtain ⟨sm, hr2, _, _⟩ := skipSemi_spec s1 h1.1
        dsimp only at h2 hds hsrc hi
        obtain ⟨hE3, hl3, he3⟩ := next_len h2.1
        have hL3 : EofLast ((skipSemi s1).next.cur :: (skipSemi s1).next.rest) := by
          have hall : s.cur :: s.rest = ((s.cur :: more) ++ sm) ++ ((skipSemi s1).next.cur :: (skipSemi s1).next.rest) := by
            rw [← he3, List.append_assoc, ← hr2]; simp [hr]
          rw [hall] at hL
          exact eofLast_suffix hL
        have := h2.2
        rw [Res.ok_bind]
        refine (ih src1 _ hE3 hL3 (by omega) (by omega)).mono ?_ ?_ ?_
        · rintro src' ⟨items, hp, hf⟩
          rw [← he3, hds] at hp
          exact ⟨i :: items, .cons _ _ _ _ hi hp, by rw [hf, hsrc]; rfl⟩
        · intro hend
          rw [← he3, hds] at hend
          exact .next _ _ _ hi hend
        · refine Blames.mono fun why ts hf => ?_
          rw [← he3, hds] at hf
          exact .next _ _ _ _ _ hi hf

end Am
