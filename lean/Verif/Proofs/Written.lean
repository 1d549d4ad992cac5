import Verif.Spec.Written
import Verif.Spec.Semantics
import Verif.Proofs.Decimal
import Verif.Proofs.Message
import Verif.Proofs.Maps
/-! # Written values -/
set_option linter.unusedSimpArgs false
set_option linter.unusedSectionVars false
namespace Am
open Spec
variable {F : Type} [Rt F]

/-! ## Numbers -/

theorem natStrAux_head : ∀ (f n : Nat), n < f → (natStrAux f n).head? = some '0' → n = 0 := by
  intro f
  induction f with
  | zero => intro n h; omega
  | succ f ih =>
    intro n h hh
    rw [natStrAux] at hh
    split at hh
    · rename_i hn
      simp only [List.head?_cons, Option.some.injEq] at hh
      have := (digitChar_digit hn).2
      rw [hh] at this
      have e : '0'.toNat = 48 := rfl
      omega
    · rename_i hn
      have hne := (natStrAux_spec f (n / 10) (by omega)).1
      rw [List.head?_append, List.head?_eq_some_head hne, Option.some_or, ← List.head?_eq_some_head hne] at hh
      have := ih (n / 10) (by omega) hh
      omega

theorem natStr_head {n : Nat} (h : (natStr n).head? = some '0') : n = 0 := natStrAux_head _ n (Nat.lt_succ_self n) h

theorem intStr_decimal (i : Int) : Decimal (intStr i) i := by
  unfold intStr
  split
  · have := Decimal.neg (natStr i.natAbs) (natStr_ne_nil _) (natStr_digits _) (fun h => by have := natStr_head h; omega)
    rw [decimal_natStr] at this
    have e : -(i.natAbs : Int) = i := by omega
    rwa [e] at this
  · have := Decimal.nonneg (natStr i.natAbs) (natStr_ne_nil _) (natStr_digits _) (fun h => by rw [natStr_head h]; rfl)
    rw [decimal_natStr] at this
    have e : (i.natAbs : Int) = i := by omega
    rwa [e] at this

theorem decimal_unique {t : Str} {i j : Int} (h : Decimal t i) (g : Decimal t j) : i = j := by
  cases h with
  | nonneg _ h1 h2 h3 =>
    cases g with
    | nonneg => rfl
    | neg ds => exact absurd (h2 '-' List.mem_cons_self) (by decide)
  | neg ds =>
    cases g with
    | nonneg _ h1 h2 h3 => exact absurd (h2 '-' List.mem_cons_self) (by decide)
    | neg => rfl

theorem decimal_chars {t : Str} {i : Int} (h : Decimal t i) : ∀ c ∈ t, isDigit c = true ∨ c = '-' := by
  cases h with
  | nonneg _ h1 h2 h3 => exact fun c hc => Or.inl (h2 c hc)
  | neg ds h1 h2 =>
    intro c hc
    rcases List.mem_cons.1 hc with e | e
    · exact Or.inr e
    · exact Or.inl (h2 c e)

theorem decimal_ne_nil {t : Str} {i : Int} (h : Decimal t i) : t ≠ [] := by
  cases h with
  | nonneg _ h1 h2 h3 => exact h1
  | neg ds h1 h2 => exact fun h => by cases h

theorem hexLow_text : ∀ {n : Nat}, n < 128 → HexText (hexLow n) n := by
  unfold HexText
  decide

theorem hex_no_brace {h : Str} {n : Nat} (hh : HexText h n) : '}' ∉ h := fun hm => absurd (hh.2.1 _ hm) (by decide)

/-! ## Characters and texts -/

theorem escapeChar_escaped (hp : PrintsFair F) (c : Char) : Escaped c (escapeChar (F := F) c) := by
  unfold escapeChar
  by_cases h1 : c = '"'
  · rw [if_pos h1, h1]; exact .quote
  rw [if_neg h1]
  by_cases h2 : c = '\\'
  · rw [if_pos h2, h2]; exact .backslash
  rw [if_neg h2]
  by_cases h3 : c = '\n'
  · rw [if_pos h3, h3]; exact .feed
  rw [if_neg h3]
  by_cases h4 : c = '\r'
  · rw [if_pos h4, h4]; exact .back
  rw [if_neg h4]
  by_cases h5 : c = '\t'
  · rw [if_pos h5, h5]; exact .tab
  rw [if_neg h5]
  by_cases h6 : c = '\x00'
  · rw [if_pos h6, h6]; exact .zero
  rw [if_neg h6]
  by_cases h7 : (decide (c.toNat < 32) || decide (c.toNat = 127)) = true
  · rw [if_pos h7]
    rw [Bool.or_eq_true, decide_eq_true_eq, decide_eq_true_eq] at h7
    exact .control c _ h7 (by simp [h3, h4, h5, h6]) (hexLow_text (by omega))
  rw [if_neg h7]
  rw [Bool.or_eq_true, decide_eq_true_eq, decide_eq_true_eq] at h7
  by_cases h8 : c.toNat < 127
  · rw [if_pos h8]; exact .plain c (by omega) h8 h1 h2
  rw [if_neg h8]
  rcases hp.escape c (by omega) with e | ⟨h, hh, e⟩
  · rw [e]; exact .other c (by omega)
  · rw [e]; exact .code c h (by omega) hh

theorem flatMap_escaped (hp : PrintsFair F) : ∀ s : Str, EscapedText s (s.flatMap (escapeChar (F := F)))
  | [] => .nil
  | c :: s => .cons (escapeChar_escaped hp c) (flatMap_escaped hp s)

theorem debugStr_quoted (hp : PrintsFair F) (s : Str) : Quoted s (debugStr F s) := .mk (flatMap_escaped hp s)

/-- The three ways to write a character: itself, a letter after a backslash, its code. -/
theorem escaped_form {c : Char} {t : Str} (h : Escaped c t) :
    (t = [c] ∧ c ≠ '"' ∧ c ≠ '\\') ∨
    (∃ e, t = ['\\', e] ∧ (e, c) ∈ [('"', '"'), ('\\', '\\'), ('n', '\n'), ('r', '\r'), ('t', '\t'), ('0', '\x00')]) ∨
    (∃ h, t = '\\' :: 'u' :: '{' :: (h ++ ['}']) ∧ HexText h c.toNat) := by
  cases h with
  | plain _ _ _ h3 h4 => exact Or.inl ⟨rfl, h3, h4⟩
  | other _ h1 => exact Or.inl ⟨rfl, fun e => by subst e; exact absurd h1 (by decide), fun e => by subst e; exact absurd h1 (by decide)⟩
  | control _ h _ _ hh => exact Or.inr (Or.inr ⟨h, rfl, hh⟩)
  | code _ h _ hh => exact Or.inr (Or.inr ⟨h, rfl, hh⟩)
  | quote => exact Or.inr (Or.inl ⟨_, rfl, by decide⟩)
  | backslash => exact Or.inr (Or.inl ⟨_, rfl, by decide⟩)
  | feed => exact Or.inr (Or.inl ⟨_, rfl, by decide⟩)
  | back => exact Or.inr (Or.inl ⟨_, rfl, by decide⟩)
  | tab => exact Or.inr (Or.inl ⟨_, rfl, by decide⟩)
  | zero => exact Or.inr (Or.inl ⟨_, rfl, by decide⟩)

theorem escape_table {e c d : Char} (hc : (e, c) ∈ [('"', '"'), ('\\', '\\'), ('n', '\n'), ('r', '\r'), ('t', '\t'), ('0', '\x00')])
    (hd : (e, d) ∈ [('"', '"'), ('\\', '\\'), ('n', '\n'), ('r', '\r'), ('t', '\t'), ('0', '\x00')]) : c = d := by
  simp only [List.mem_cons, Prod.mk.injEq, List.not_mem_nil, or_false] at hc hd
  rcases hc with ⟨rfl, rfl⟩ | ⟨rfl, rfl⟩ | ⟨rfl, rfl⟩ | ⟨rfl, rfl⟩ | ⟨rfl, rfl⟩ | ⟨rfl, rfl⟩ <;>
    rcases hd with ⟨h, rfl⟩ | ⟨h, rfl⟩ | ⟨h, rfl⟩ | ⟨h, rfl⟩ | ⟨h, rfl⟩ | ⟨h, rfl⟩ <;> first | rfl | exact absurd h (by decide)

theorem escape_not_u {c : Char} (hc : ('u', c) ∈ [('"', '"'), ('\\', '\\'), ('n', '\n'), ('r', '\r'), ('t', '\t'), ('0', '\x00')]) : False := by
  simp only [List.mem_cons, Prod.mk.injEq, List.not_mem_nil, or_false] at hc
  rcases hc with ⟨h, _⟩ | ⟨h, _⟩ | ⟨h, _⟩ | ⟨h, _⟩ | ⟨h, _⟩ | ⟨h, _⟩ <;> exact absurd h (by decide)

/-- A written character can be told from what follows. -/
theorem escaped_prefix {c d : Char} {t u r r' : Str} (hc : Escaped c t) (hd : Escaped d u) (h : t ++ r = u ++ r') : c = d ∧ r = r' := by
  rcases escaped_form hc with ⟨rfl, h1, h2⟩ | ⟨e, rfl, he⟩ | ⟨x, rfl, hx⟩ <;> rcases escaped_form hd with ⟨rfl, g1, g2⟩ | ⟨e', rfl, he'⟩ | ⟨y, rfl, hy⟩ <;>
    simp only [List.cons_append, List.nil_append, List.cons.injEq, List.append_assoc] at h
  · exact h
  · exact absurd h.1 h2
  · exact absurd h.1 h2
  · exact absurd h.1.symm g2
  · obtain ⟨_, rfl, hr⟩ := h
    exact ⟨escape_table he he', hr⟩
  · obtain ⟨_, rfl, _⟩ := h
    exact (escape_not_u he).elim
  · exact absurd h.1.symm g2
  · obtain ⟨_, rfl, _⟩ := h
    exact (escape_not_u he').elim
  · obtain ⟨rfl, hr⟩ := first_unique h.2.2.2 (hex_no_brace hx) (hex_no_brace hy)
    exact ⟨Char.toNat_inj.1 (hx.2.2.2.symm.trans hy.2.2.2), hr⟩

theorem escaped_not_quote {c : Char} {t r r' : Str} (hc : Escaped c t) (h : t ++ r = '"' :: r') : False := by
  rcases escaped_form hc with ⟨rfl, h1, h2⟩ | ⟨e, rfl, he⟩ | ⟨x, rfl, hx⟩ <;>
    simp only [List.cons_append, List.nil_append, List.cons.injEq, List.append_assoc] at h
  · exact h1 h.1
  · exact absurd h.1 (by decide)
  · exact absurd h.1 (by decide)

theorem escapedText_prefix {s t : Str} (hs : EscapedText s t) : ∀ {s' t' r r' : Str}, EscapedText s' t' → t ++ '"' :: r = t' ++ '"' :: r' → s = s' ∧ r = r' := by
  induction hs with
  | nil =>
    intro s' t' r r' hs' h
    cases hs' with
    | nil => simpa using h
    | cons hc _ =>
      rw [List.append_assoc] at h
      exact (escaped_not_quote hc h.symm).elim
  | cons hc _ ih =>
    intro s' t' r r' hs' h
    cases hs' with
    | nil =>
      rw [List.append_assoc] at h
      exact (escaped_not_quote hc h).elim
    | cons hd hs'' =>
      rw [List.append_assoc, List.append_assoc] at h
      obtain ⟨rfl, h⟩ := escaped_prefix hc hd h
      obtain ⟨rfl, h⟩ := ih hs'' h
      exact ⟨rfl, h⟩

theorem quoted_prefix {s s' t t' r r' : Str} (hs : Quoted s t) (hs' : Quoted s' t') (h : t ++ r = t' ++ r') : s = s' ∧ r = r' := by
  cases hs with
  | mk hs =>
    cases hs' with
    | mk hs' =>
      simp only [List.cons_append, List.nil_append, List.cons.injEq, List.append_assoc, true_and] at h
      exact escapedText_prefix hs hs' h

/-! ## Values -/

mutual
/-- Values written alike. -/
inductive Twin : Value F → Value F → Prop
  | null : Twin .null .null
  | int (i : Int64) : Twin (.int i) (.int i)
  | float (f g : F) : Rt.fdebug f = Rt.fdebug g → Twin (.float f) (.float g)
  | bool (b : Bool) : Twin (.bool b) (.bool b)
  | str (s : Str) : Twin (.str s) (.str s)
  | arr (l r : List (Value F)) : TwinItems l r → Twin (.arr l) (.arr r)
  | map (l r l' r' : List (Str × Value F)) : l'.Perm l → r'.Perm r → TwinPairs l' r' → Twin (.map l) (.map r)
/-- Item by item. -/
inductive TwinItems : List (Value F) → List (Value F) → Prop
  | nil : TwinItems [] []
  | cons (a b : Value F) (l r : List (Value F)) : Twin a b → TwinItems l r → TwinItems (a :: l) (b :: r)
/-- Entry by entry. -/
inductive TwinPairs : List (Str × Value F) → List (Str × Value F) → Prop
  | nil : TwinPairs [] []
  | cons (k : Str) (a b : Value F) (l r : List (Str × Value F)) : Twin a b → TwinPairs l r → TwinPairs ((k, a) :: l) ((k, b) :: r)
end

theorem written_head {v : Value F} {t : Str} (h : Written v t) : ∃ c r, t = c :: r ∧ c ∈ c!"NIFBSAM" := by
  cases h <;> exact ⟨_, _, rfl, by decide⟩

theorem quoted_head {s t : Str} (h : Quoted s t) : ∃ r, t = '"' :: r := by
  cases h; exact ⟨_, rfl⟩

theorem floats_closed (hf : FloatsShown F) (f : F) : ')' ∉ Rt.fdebug f := fun h => absurd (hf.chars f ')' (Or.inr h)) (by decide)

theorem decimal_closed {t : Str} {i : Int} (h : Decimal t i) : ')' ∉ t := by
  intro hm
  rcases decimal_chars h _ hm with e | e
  · exact absurd e (by decide)
  · exact absurd e (by decide)

mutual
/-- A written value can be read back, and told from what follows. -/
theorem written_prefix (hf : FloatsShown F) : ∀ {v w : Value F} {t u r r' : Str}, Written v t → Written w u → t ++ r = u ++ r' → Twin v w ∧ r = r'
  | v, w, t, u, r, r', h, g, e => by
    match h with
    | .null =>
      cases g <;> simp at e
      exact ⟨.null, e⟩
    | .int i x hx =>
      cases g <;> simp at e
      rename_i y hy
      obtain ⟨rfl, e'⟩ := first_unique e (decimal_closed hx) (decimal_closed hy)
      exact ⟨Int64.toInt_inj.1 (decimal_unique hx hy) ▸ .int _, e'⟩
    | .float f =>
      cases g <;> simp at e
      obtain ⟨e1, e⟩ := first_unique e (floats_closed hf _) (floats_closed hf _)
      exact ⟨.float _ _ e1, e⟩
    | .yes =>
      cases g <;> simp at e
      exact ⟨.bool _, e⟩
    | .no =>
      cases g <;> simp at e
      exact ⟨.bool _, e⟩
    | .str s x hx =>
      cases g <;> simp at e
      rename_i y hy
      obtain ⟨rfl, e⟩ := quoted_prefix hx hy e
      simp at e
      exact ⟨.str _, e⟩
    | .arr vs x hx =>
      cases g <;> simp at e
      rename_i y hy
      obtain ⟨ha, e⟩ := items_prefix hf hx hy e
      simp at e
      exact ⟨.arr _ _ ha, e⟩
    | .map ps qs x hp hx =>
      cases g <;> simp at e
      rename_i ps' qs' y hp' hy
      obtain ⟨ha, e⟩ := pairs_prefix hf hx hy e
      simp at e
      exact ⟨.map _ _ _ _ hp hp' ha, e⟩
theorem items_prefix (hf : FloatsShown F) : ∀ {vs ws : List (Value F)} {t u r r' : Str}, WrittenItems vs t → WrittenItems ws u →
    t ++ ']' :: r = u ++ ']' :: r' → TwinItems vs ws ∧ r = r'
  | vs, ws, t, u, r, r', h, g, e => by
    match h with
    | .nil =>
      cases g with
      | nil => simp at e; exact ⟨.nil, e⟩
      | one w _ hw =>
        obtain ⟨c, x, rfl, hc⟩ := written_head hw
        simp at e; rw [← e.1] at hc; exact absurd hc (by decide)
      | cons w _ _ _ _ hw =>
        obtain ⟨c, x, rfl, hc⟩ := written_head hw
        simp at e; rw [← e.1] at hc; exact absurd hc (by decide)
    | .one v t hv =>
      cases g with
      | nil =>
        obtain ⟨c, x, rfl, hc⟩ := written_head hv
        simp at e; rw [e.1] at hc; exact absurd hc (by decide)
      | one w _ hw =>
        obtain ⟨ha, e⟩ := written_prefix hf hv hw e
        simp at e; exact ⟨.cons _ _ _ _ ha .nil, e⟩
      | cons w _ _ _ _ hw =>
        rw [List.append_assoc, List.append_assoc] at e
        obtain ⟨ha, e⟩ := written_prefix hf hv hw e
        simp at e
    | .cons v v' vs t u' hv hvs =>
      cases g with
      | nil =>
        obtain ⟨c, x, rfl, hc⟩ := written_head hv
        simp at e; rw [e.1] at hc; exact absurd hc (by decide)
      | one w _ hw =>
        rw [List.append_assoc, List.append_assoc] at e
        obtain ⟨ha, e⟩ := written_prefix hf hv hw e
        simp at e
      | cons w _ _ _ _ hw hws =>
        rw [List.append_assoc, List.append_assoc, List.append_assoc, List.append_assoc] at e
        obtain ⟨ha, e⟩ := written_prefix hf hv hw e
        simp only [List.cons_append, List.nil_append, List.cons.injEq, true_and] at e
        obtain ⟨hl, e⟩ := items_prefix hf hvs hws e
        exact ⟨.cons _ _ _ _ ha hl, e⟩
theorem pairs_prefix (hf : FloatsShown F) : ∀ {vs ws : List (Str × Value F)} {t u r r' : Str}, WrittenPairs vs t → WrittenPairs ws u →
    t ++ '}' :: r = u ++ '}' :: r' → TwinPairs vs ws ∧ r = r'
  | vs, ws, t, u, r, r', h, g, e => by
    match h with
    | .nil =>
      cases g with
      | nil => simp at e; exact ⟨.nil, e⟩
      | one _ w _ _ hk hw =>
        obtain ⟨x, rfl⟩ := quoted_head hk
        simp at e
      | cons _ w _ _ _ _ _ hk hw =>
        obtain ⟨x, rfl⟩ := quoted_head hk
        simp at e
    | .one k v q t hk hv =>
      cases g with
      | nil =>
        obtain ⟨x, rfl⟩ := quoted_head hk
        simp at e
      | one _ w _ _ hk' hw =>
        simp only [List.append_assoc] at e
        obtain ⟨rfl, e⟩ := quoted_prefix hk hk' e
        simp only [List.cons_append, List.nil_append, List.cons.injEq, true_and] at e
        obtain ⟨ha, e⟩ := written_prefix hf hv hw e
        simp at e; exact ⟨.cons _ _ _ _ _ ha .nil, e⟩
      | cons _ w _ _ _ _ _ hk' hw =>
        simp only [List.append_assoc] at e
        obtain ⟨rfl, e⟩ := quoted_prefix hk hk' e
        simp only [List.cons_append, List.nil_append, List.cons.injEq, true_and] at e
        obtain ⟨ha, e⟩ := written_prefix hf hv hw e
        simp at e
    | .cons k v p ps q t u' hk hv hvs =>
      cases g with
      | nil =>
        obtain ⟨x, rfl⟩ := quoted_head hk
        simp at e
      | one _ w _ _ hk' hw =>
        simp only [List.append_assoc] at e
        obtain ⟨rfl, e⟩ := quoted_prefix hk hk' e
        simp only [List.cons_append, List.nil_append, List.cons.injEq, true_and] at e
        obtain ⟨ha, e⟩ := written_prefix hf hv hw e
        simp at e
      | cons _ w _ _ _ _ _ hk' hw hws =>
        simp only [List.append_assoc] at e
        obtain ⟨rfl, e⟩ := quoted_prefix hk hk' e
        simp only [List.cons_append, List.nil_append, List.cons.injEq, true_and] at e
        obtain ⟨ha, e⟩ := written_prefix hf hv hw e
        simp only [List.cons_append, List.nil_append, List.cons.injEq, true_and] at e
        obtain ⟨hl, e⟩ := pairs_prefix hf hvs hws e
        exact ⟨.cons _ _ _ _ _ ha hl, e⟩
end

/-! ## The model writes values so -/

theorem perm_of_map {α β : Type} {f : α → β} : ∀ {l' m : List β}, l'.Perm m → ∀ l : List α, m = l.map f → ∃ l'' : List α, l''.Perm l ∧ l' = l''.map f := by
  intro l' m h
  induction h with
  | nil => intro l e; exact ⟨l, .refl _, e⟩
  | cons x _ ih =>
    intro l e
    cases l with
    | nil => cases e
    | cons a l =>
      rw [List.map_cons, List.cons.injEq] at e
      obtain ⟨l'', h1, h2⟩ := ih l e.2
      exact ⟨a :: l'', h1.cons a, by rw [List.map_cons, ← h2, e.1]⟩
  | swap x y _ =>
    intro l e
    cases l with
    | nil => cases e
    | cons a l =>
      cases l with
      | nil => cases e
      | cons b l =>
        simp only [List.map_cons, List.cons.injEq] at e
        obtain ⟨rfl, rfl, rfl⟩ := e
        exact ⟨b :: a :: l, .swap a b l, rfl⟩
  | trans _ _ ih1 ih2 =>
    intro l e
    obtain ⟨l2, h1, h2⟩ := ih2 l e
    obtain ⟨l3, h3, h4⟩ := ih1 l2 h2
    exact ⟨l3, h3.trans h1, h4⟩

theorem debugPairs_map : ∀ l : List (Str × Value F), Value.debugPairs l = l.map fun p => (debugStr F p.1, p.2.debug)
  | [] => rfl
  | (k, v) :: l => by rw [Value.debugPairs, debugPairs_map l]; rfl

theorem join_pairs (hp : PrintsFair F) : ∀ l : List (Str × Value F), (∀ p ∈ l, Written p.2 p.2.debug) →
    WrittenPairs l (joinStr c!", " ((l.map fun p => (debugStr F p.1, p.2.debug)).map fun p => p.1 ++ c!": " ++ p.2))
  | [], _ => .nil
  | [(k, v)], h => .one k v _ _ (debugStr_quoted hp k) (h _ List.mem_cons_self)
  | (k, v) :: p :: l, h => by
    have := WrittenPairs.cons k v p l _ _ _ (debugStr_quoted hp k) (h _ List.mem_cons_self) (join_pairs hp (p :: l) fun q hq => h q (List.mem_cons_of_mem _ hq))
    simpa only [List.map_cons, joinStr] using this

theorem order_pairs (hp : PrintsFair F) (l : List (Str × Value F)) (h : ∀ p ∈ l, Written p.2 p.2.debug) :
    ∃ qs, qs.Perm l ∧ WrittenPairs qs (joinStr c!", " ((Rt.order F (Value.debugPairs l)).map fun p => p.1 ++ c!": " ++ p.2)) := by
  obtain ⟨qs, h1, h2⟩ := perm_of_map (hp.order (Value.debugPairs l)) l (debugPairs_map l)
  refine ⟨qs, h1, ?_⟩
  rw [h2]
  exact join_pairs hp qs fun p hm => h p (h1.mem_iff.1 hm)

mutual
theorem debug_written (hp : PrintsFair F) : ∀ v : Value F, Written v v.debug
  | .null => .null
  | .int i => .int i _ (intStr_decimal _)
  | .float f => .float f
  | .bool true => .yes
  | .bool false => .no
  | .str s => .str s _ (debugStr_quoted hp s)
  | .arr l => .arr l _ (debugList_written hp l)
  | .map l => by
    have := debugPairs_written hp l
    obtain ⟨qs, h1, h2⟩ := order_pairs hp l this
    exact .map l qs _ h1 h2
theorem debugList_written (hp : PrintsFair F) : ∀ l : List (Value F), WrittenItems l (joinStr c!", " (Value.debugList l))
  | [] => .nil
  | [v] => .one v _ (debug_written hp v)
  | v :: w :: l => .cons v w l _ _ (debug_written hp v) (debugList_written hp (w :: l))
theorem debugPairs_written (hp : PrintsFair F) : ∀ l : List (Str × Value F), ∀ p ∈ l, Written p.2 p.2.debug
  | [], _, h => nomatch h
  | (k, v) :: l, p, h => by
    have h1 := debug_written hp v
    have h2 := debugPairs_written hp l
    rcases List.mem_cons.1 h with rfl | h
    · exact h1
    · exact h2 p h
end

theorem display_shown (hp : PrintsFair F) (v : Value F) : Shown v v.display := by
  cases v with
  | null => exact .null
  | int i => exact .int i _ (intStr_decimal _)
  | float f => exact .float f
  | bool b => cases b <;> first | exact .yes | exact .no
  | str s => exact .str s
  | arr l => exact .arr l _ (debugList_written hp l)
  | map l =>
    obtain ⟨qs, h1, h2⟩ := order_pairs hp l (debugPairs_written hp l)
    exact .map l qs _ h1 h2

/-! ## Values written alike are equal -/

theorem alikeItems_get {l r : List (Value F)} (h : TwinItems l r) : l.length = r.length := by
  induction l generalizing r with
  | nil => match h with | .nil => rfl
  | cons a l ih => match h with | .cons _ _ _ _ _ h => rw [List.length_cons, List.length_cons, ih h]

theorem alikePairs_keys {l r : List (Str × Value F)} (h : TwinPairs l r) : l.map Prod.fst = r.map Prod.fst := by
  induction l generalizing r with
  | nil => match h with | .nil => rfl
  | cons a l ih => match h with | .cons _ _ _ _ _ _ h => rw [List.map_cons, List.map_cons, ih h]

theorem same_self_item {l : List (Value F)} (h : Same (.arr l) (.arr l)) : ∀ v ∈ l, Same v v := by
  intro v hv
  obtain ⟨i, hi⟩ := List.mem_iff_getElem?.1 hv
  match h with
  | .arr _ h => exact h i v v hi hi

theorem same_self_pair {l : List (Str × Value F)} (hn : KeysNodup l) (h : Same (.map l) (.map l)) : ∀ p ∈ l, Same p.2 p.2 := by
  intro p hp
  have := amGet_of_mem (k := p.1) (v := p.2) hn hp
  match h with
  | .map _ h => exact h p.1 _ _ this this

mutual
theorem alike_same (hf : FloatsShown F) : ∀ {a b : Value F}, Twin a b → Proper a → Proper b → Same a a → Same a b
  | a, b, h, ha, hb, hs => by
    match h with
    | .null => exact .null
    | .int i => exact .int i
    | .float f g e =>
      match hs with
      | .float hs => exact .float (hf.debug f g e hs)
    | .bool b => exact .bool b
    | .str s => exact .str s
    | .arr l r h =>
      match ha, hb with
      | .arr ha, .arr hb =>
        exact .arr (alikeItems_get h) (alikeItems_same hf h ha hb (same_self_item hs))
    | .map l r l' r' h1 h2 h =>
      match ha, hb with
      | .map ha1 ha2, .map hb1 hb2 =>
        have hn : KeysNodup l := ha1
        have hn2 : KeysNodup r := hb1
        have hl' : (l'.map Prod.fst).Nodup := (h1.map Prod.fst).nodup_iff.2 ha1
        have key := alikePairs_same hf h (fun k v hm => ha2 k v (h1.mem_iff.1 hm)) (fun k v hm => hb2 k v (h2.mem_iff.1 hm))
          (fun p hp => same_self_pair hn hs p (h1.mem_iff.1 hp)) hl'
        have hk : ∀ k, k ∈ l.map Prod.fst ↔ k ∈ r.map Prod.fst := by
          intro k
          rw [← (h1.map Prod.fst).mem_iff, ← (h2.map Prod.fst).mem_iff, alikePairs_keys h]
        refine .map (fun k => ?_) (fun k a b g1 g2 => ?_)
        · have hl := @amGet_none _ k l
          have hr := @amGet_none _ k r
          have := hk k
          cases e1 : amGet k l <;> cases e2 : amGet k r <;> simp only [e1, e2] at hl hr <;> first
            | rfl
            | (exfalso; simp only [reduceCtorEq, false_iff, true_iff, Classical.not_not] at hl hr; rw [this] at hl; exact hr hl)
            | (exfalso; simp only [reduceCtorEq, false_iff, true_iff, Classical.not_not] at hl hr; rw [this] at hl; exact hl hr)
        · exact key k a b (h1.mem_iff.2 (amGet_mem g1)) (h2.mem_iff.2 (amGet_mem g2))
theorem alikeItems_same (hf : FloatsShown F) : ∀ {l r : List (Value F)}, TwinItems l r → (∀ v ∈ l, Proper v) → (∀ v ∈ r, Proper v) →
    (∀ v ∈ l, Same v v) → ∀ (i : Nat) a b, l[i]? = some a → r[i]? = some b → Same a b
  | l, r, h, ha, hb, hs, i, a, b, g1, g2 => by
    match h with
    | .nil => cases g1
    | .cons a' b' l r h1 h2 =>
      have ih1 := alike_same hf h1 (ha _ List.mem_cons_self) (hb _ List.mem_cons_self) (hs _ List.mem_cons_self)
      cases i with
      | zero =>
        simp only [List.getElem?_cons_zero, Option.some.injEq] at g1 g2
        subst g1; subst g2; exact ih1
      | succ i =>
        exact alikeItems_same hf h2 (fun v hv => ha v (List.mem_cons_of_mem _ hv)) (fun v hv => hb v (List.mem_cons_of_mem _ hv))
          (fun v hv => hs v (List.mem_cons_of_mem _ hv)) i a b g1 g2
theorem alikePairs_same (hf : FloatsShown F) : ∀ {l r : List (Str × Value F)}, TwinPairs l r → (∀ k v, (k, v) ∈ l → Proper v) →
    (∀ k v, (k, v) ∈ r → Proper v) → (∀ p ∈ l, Same p.2 p.2) → (l.map Prod.fst).Nodup → ∀ k a b, (k, a) ∈ l → (k, b) ∈ r → Same a b
  | l, r, h, ha, hb, hs, hn, k, a, b, g1, g2 => by
    match h with
    | .nil => cases g1
    | .cons k' a' b' l r h1 h2 =>
      have ih1 := alike_same hf h1 (ha _ _ List.mem_cons_self) (hb _ _ List.mem_cons_self) (hs _ List.mem_cons_self)
      have hk := alikePairs_keys h2
      rw [List.map_cons, List.nodup_cons] at hn
      rcases List.mem_cons.1 g1 with e1 | g1'
      · rcases List.mem_cons.1 g2 with e2 | g2'
        · cases e1; cases e2; exact ih1
        · cases e1
          rw [hk] at hn
          exact absurd (List.mem_map_of_mem (f := Prod.fst) g2') hn.1
      · rcases List.mem_cons.1 g2 with e2 | g2'
        · cases e2
          exact absurd (List.mem_map_of_mem (f := Prod.fst) g1') hn.1
        · exact alikePairs_same hf h2 (fun k v hv => ha k v (List.mem_cons_of_mem _ hv)) (fun k v hv => hb k v (List.mem_cons_of_mem _ hv))
            (fun v hv => hs v (List.mem_cons_of_mem _ hv)) hn.2 k a b g1' g2'
end

end Am
