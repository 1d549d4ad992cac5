import Verif.Spec.Report
import Verif.Proofs.Decimal
import Verif.Props.Statistics
import Verif.Props.Asserting
/-! # C78: printed times and statistics say exactly what was measured -/
set_option linter.unusedSimpArgs false
set_option linter.unusedSectionVars false
namespace Am
open Spec
variable {F : Type} [Rt F]

theorem numeral_natStr (n : Nat) : Numeral (natStr n) n := ⟨natStr_ne_nil n, natStr_digits n, decimal_natStr n⟩

theorem fracStr_spec : ∀ (w frac : Nat), frac < 10 ^ w → 0 < frac →
    fracStr w frac ≠ [] ∧ (∀ c ∈ fracStr w frac, isDigit c = true) ∧ (fracStr w frac).length ≤ w ∧
      decimal (fracStr w frac) * 10 ^ (w - (fracStr w frac).length) = frac := by
  intro w
  induction w with
  | zero => intro frac h h0; simp at h; omega
  | succ w ih =>
    intro frac h h0
    rw [fracStr, if_neg (by omega)]
    have hd : frac / 10 ^ w < 10 := by
      rw [Nat.div_lt_iff_lt_mul (Nat.pow_pos (by decide))]
      rw [Nat.pow_succ] at h; omega
    obtain ⟨h1, h2⟩ := digitChar_digit hd
    have hm : frac % 10 ^ w < 10 ^ w := Nat.mod_lt _ (Nat.pow_pos (by decide))
    have hdm : 10 ^ w * (frac / 10 ^ w) + frac % 10 ^ w = frac := Nat.div_add_mod _ _
    by_cases hz : frac % 10 ^ w = 0
    · have hn : fracStr w (frac % 10 ^ w) = [] := by cases w <;> simp [fracStr, hz]
      rw [hn]
      refine ⟨by simp, by simpa using h1, by simp, ?_⟩
      simp only [decimal, h2, List.length_nil, List.length_cons, Nat.pow_zero, Nat.mul_one, Nat.add_zero, Nat.zero_add, Nat.add_sub_cancel]
      rw [hz, Nat.mul_comm] at hdm
      have : 48 + frac / 10 ^ w - 48 = frac / 10 ^ w := Nat.add_sub_cancel_left ..
      rw [this]; omega
    · obtain ⟨g1, g2, g3, g4⟩ := ih (frac % 10 ^ w) hm (by omega)
      refine ⟨by simp, ?_, by simpa using g3, ?_⟩
      · intro c hc
        rcases List.mem_cons.1 hc with rfl | hc
        · exact h1
        · exact g2 c hc
      · simp only [decimal, h2, List.length_cons, Nat.add_sub_add_right]
        have : 48 + frac / 10 ^ w - 48 = frac / 10 ^ w := Nat.add_sub_cancel_left ..
        rw [this, Nat.add_mul, g4, Nat.mul_assoc, ← Nat.pow_add]
        have : (fracStr w (frac % 10 ^ w)).length + (w - (fracStr w (frac % 10 ^ w)).length) = w := by omega
        rw [this, Nat.mul_comm]
        exact hdm

theorem durFmt (n e : Nat) (u : Str) (hu : TimeUnit u e) :
    DurationText (natStr (n / 10 ^ e) ++ (if n % 10 ^ e = 0 then [] else '.' :: fracStr e (n % 10 ^ e)) ++ u) n := by
  have hdm : n / 10 ^ e * 10 ^ e + n % 10 ^ e = n := by rw [Nat.mul_comm]; exact Nat.div_add_mod _ _
  by_cases hz : n % 10 ^ e = 0
  · rw [if_pos hz, List.append_nil]
    have := DurationText.whole (numeral_natStr (n / 10 ^ e)) hu
    rw [hz, Nat.add_zero] at hdm
    rw [hdm] at this
    exact this
  · rw [if_neg hz]
    obtain ⟨h1, h2, h3, h4⟩ := fracStr_spec e (n % 10 ^ e) (Nat.mod_lt _ (Nat.pow_pos (by decide))) (by omega)
    have := DurationText.point (numeral_natStr (n / 10 ^ e)) ⟨h1, h2, rfl⟩ hu h3
    rw [h4, hdm] at this
    simpa using this

/-- C78: a printed time denotes exactly the number of nanoseconds measured. -/
theorem c78_duration (n : Nat) : DurationText (durText n) n := by
  unfold durText
  dsimp only
  split
  · exact durFmt n 9 _ .s
  · split
    · exact durFmt n 6 _ .ms
    · split
      · exact durFmt n 3 _ .us
      · have := durFmt n 0 _ .ns
        simpa [Nat.mod_one] using this

/-- C78: the time is printed in the largest unit that is not larger than the time: the number before the unit has the whole units. -/
theorem c78_duration_unit (n : Nat) : ∃ u e rest, TimeUnit u e ∧ durText n = natStr (n / 10 ^ e) ++ rest ++ u ∧ (∀ c ∈ rest, c = '.' ∨ isDigit c = true) ∧
    (e = 0 ∨ 10 ^ e ≤ n) ∧ ∀ u' e', TimeUnit u' e' → 10 ^ e' ≤ n → e' ≤ e := by
  have hf : ∀ w frac, frac < 10 ^ w → ∀ c ∈ (if frac = 0 then [] else '.' :: fracStr w frac), c = '.' ∨ isDigit c = true := by
    intro w frac hl c hc
    by_cases h0 : frac = 0
    · rw [if_pos h0] at hc; cases hc
    · rw [if_neg h0] at hc
      rcases List.mem_cons.1 hc with rfl | hc
      · exact .inl rfl
      · exact .inr ((fracStr_spec w frac hl (by omega)).2.1 c hc)
  unfold durText
  dsimp only
  by_cases h1 : 1000000000 ≤ n
  · rw [if_pos h1]
    refine ⟨_, 9, _, .s, rfl, hf 9 _ (Nat.mod_lt _ (by decide)), .inr h1, ?_⟩
    intro u' e' hu _; cases hu <;> decide
  rw [if_neg h1]
  by_cases h2 : 1000000 ≤ n
  · rw [if_pos h2]
    refine ⟨_, 6, _, .ms, rfl, hf 6 _ (Nat.mod_lt _ (by decide)), .inr h2, ?_⟩
    intro u' e' hu hle; cases hu <;> first | decide | exact absurd hle h1
  rw [if_neg h2]
  by_cases h3 : 1000 ≤ n
  · rw [if_pos h3]
    refine ⟨_, 3, _, .us, rfl, hf 3 _ (Nat.mod_lt _ (by decide)), .inr h3, ?_⟩
    intro u' e' hu hle; cases hu <;> first | decide | exact absurd hle h1 | exact absurd hle h2
  rw [if_neg h3]
  refine ⟨_, 0, [], .ns, by simp, nofun, .inl rfl, ?_⟩
  intro u' e' hu hle; cases hu <;> first | decide | exact absurd hle h1 | exact absurd hle h2 | exact absurd hle h3

theorem unit_head {u : Str} {e : Nat} (h : TimeUnit u e) : ∃ c r, u = c :: r ∧ isDigit c = false ∧ c ≠ '.' := by
  cases h <;> exact ⟨_, _, rfl, by decide, by decide⟩

theorem unit_unique {u : Str} {e e' : Nat} (h : TimeUnit u e) (h' : TimeUnit u e') : e = e' := by
  cases h <;> cases h' <;> rfl

theorem digits_split {a b : Str} {c d : Char} {x y : Str} (ha : ∀ c ∈ a, isDigit c = true) (hb : ∀ c ∈ b, isDigit c = true) (hc : isDigit c = false)
    (hd : isDigit d = false) (h : a ++ c :: x = b ++ d :: y) : a = b ∧ c = d ∧ x = y := by
  induction a generalizing b with
  | nil =>
    cases b with
    | nil => simp at h; exact ⟨rfl, h⟩
    | cons e b => simp at h; rw [h.1] at hc; rw [hb e List.mem_cons_self] at hc; cases hc
  | cons e a ih =>
    cases b with
    | nil => simp at h; rw [← h.1, ha e List.mem_cons_self] at hd; cases hd
    | cons f b =>
      simp at h
      obtain ⟨rfl, h⟩ := h
      obtain ⟨h1, h2⟩ := ih (fun c hc => ha c (List.mem_cons_of_mem _ hc)) (fun c hc => hb c (List.mem_cons_of_mem _ hc)) h
      exact ⟨congrArg _ h1, h2⟩

/-- C78: a text denotes at most one time, so different times are printed differently. -/
theorem c78_duration_unique {t : Str} {n m : Nat} (h : DurationText t n) (h' : DurationText t m) : n = m := by
  generalize ht : t = t' at h'
  cases h with
  | @whole ds u n e hn hu =>
    obtain ⟨c, r, rfl, hc, hp⟩ := unit_head hu
    cases h' with
    | @whole ds' u' n' e' hn' hu' =>
      obtain ⟨c', r', rfl, hc', hp'⟩ := unit_head hu'
      obtain ⟨rfl, rfl, rfl⟩ := digits_split hn.2.1 hn'.2.1 hc hc' ht
      rw [unit_unique hu hu', ← hn.2.2, ← hn'.2.2]
    | @point ds' fs u' n' m' e' hn' hf hu' hl =>
      obtain ⟨_, h, _⟩ := digits_split hn.2.1 hn'.2.1 hc (by decide) ht
      exact absurd h hp
  | @point ds fs u n m e hn hf hu hl =>
    obtain ⟨c, r, rfl, hc, hp⟩ := unit_head hu
    cases h' with
    | @whole ds' u' n' e' hn' hu' =>
      obtain ⟨c', r', rfl, hc', hp'⟩ := unit_head hu'
      obtain ⟨_, h, _⟩ := digits_split hn.2.1 hn'.2.1 (by decide) hc' ht
      exact absurd h.symm hp'
    | @point ds' fs' u' n' m' e' hn' hf' hu' hl' =>
      obtain ⟨c', r', rfl, hc', hp'⟩ := unit_head hu'
      obtain ⟨rfl, _, ht⟩ := digits_split hn.2.1 hn'.2.1 (by decide) (by decide) ht
      obtain ⟨rfl, rfl, rfl⟩ := digits_split hf.2.1 hf'.2.1 hc hc' ht
      rw [unit_unique hu hu', ← hn.2.2, ← hn'.2.2, ← hf.2.2, ← hf'.2.2]

/-- C78: two times printed the same are the same. -/
theorem c78_duration_inj {n m : Nat} (h : durText n = durText m) : n = m := c78_duration_unique (h ▸ c78_duration n) (c78_duration m)

/-- Concrete cases. -/
example : durText 1500000000 = c!"1.5s" ∧ durText 2000001 = c!"2.000001ms" ∧ durText 120 = c!"120ns" ∧ durText 3040 = c!"3.04µs" := by decide +kernel
example : DurationText c!"1.5s" 1500000000 := .point (ds := c!"1") (fs := c!"5") ⟨by decide, by decide, rfl⟩ ⟨by decide, by decide, rfl⟩ .s (by decide)

/-- C78: the report of a record ends with its name and a text that denotes its total time. -/
theorem c78_report (r : Record) : ∃ before t, r.text = before ++ c!"  " ++ r.name ++ c!" (" ++ t ++ c!")" ∧ DurationText t r.time.total :=
  ⟨_, _, by rw [Record.text], c78_duration _⟩

/-! ## Statistics -/

theorem statLine_text {name : Str} {ts : List Nat} {s : Stat} (h : IsStat ts s) : StatLine name ts (name ++ c!" " ++ s.text) := by
  refine ⟨s, _, _, _, _, _, h, numeral_natStr _, numeral_natStr _, numeral_natStr _, numeral_natStr _, numeral_natStr _, ?_⟩
  unfold Stat.text
  simp only [List.append_assoc, List.cons_append, List.nil_append]

theorem amGet_mem_nodup {V : Type} {m : List (Str × V)} (hk : KeysNodup m) {k : Str} {v : V} (h : (k, v) ∈ m) : amGet k m = some v := by
  induction m with
  | nil => cases h
  | cons p m ih =>
    obtain ⟨j, w⟩ := p
    unfold KeysNodup at hk
    simp only [List.map_cons, List.nodup_cons] at hk
    rcases List.mem_cons.1 h with h | h
    · cases h; simp [amGet]
    · have : j ≠ k := by
        intro hj; subst hj
        exact hk.1 (List.mem_map.2 ⟨_, h, rfl⟩)
      simp [amGet, this, ih hk.2 h]

/-- C78: the statistics shown after any timings have one line for each name with a timing, in some order, and each line shows in decimal how many timings the
name has, their sum, their mean rounded down, the largest and the smallest one. -/
theorem c78_stats (ho : ∀ l : List (Str × Str), (Rt.order F l).Perm l) (l : List (Str × Nat)) :
    ∃ lines : List (Str × Str), Stats.text F (addAll l []) = lines.flatMap (fun p => p.2 ++ c!"\n") ∧ (lines.map Prod.fst).Nodup ∧
      (∀ name, name ∈ lines.map Prod.fst ↔ timesOf name l ≠ []) ∧ ∀ p ∈ lines, StatLine p.1 (timesOf p.1 l) p.2 := by
  obtain ⟨hk, hg⟩ := c34_exact l
  refine ⟨(Rt.order F ((addAll l []).map fun p => (p.1, p.2.text))).map (fun p => (p.1, p.1 ++ c!" " ++ p.2)), ?_, ?_, ?_, ?_⟩
  · unfold Stats.text
    rw [List.flatMap_map]
  · have hp := ((ho ((addAll l []).map fun p => (p.1, p.2.text))).map Prod.fst)
    rw [List.map_map]
    refine hp.symm.nodup ?_
    rw [List.map_map]
    exact hk
  · intro name
    have hp := ((ho ((addAll l []).map fun p => (p.1, p.2.text))).map Prod.fst)
    rw [List.map_map]
    have h1 : name ∈ (Rt.order F ((addAll l []).map fun p => (p.1, p.2.text))).map Prod.fst ↔ name ∈ (addAll l []).map Prod.fst := by
      rw [hp.mem_iff, List.map_map]; rfl
    refine Iff.trans h1 ⟨fun h he => ?_, fun h => ?_⟩
    · obtain ⟨⟨k, v⟩, hm, rfl⟩ := List.mem_map.1 h
      have := (hg k).1 he
      rw [amGet_mem_nodup hk hm] at this
      cases this
    · obtain ⟨s, h1, _⟩ := (hg name).2 h
      exact List.mem_map.2 ⟨_, amGet_mem h1, rfl⟩
  · intro p hp
    obtain ⟨q, hq, rfl⟩ := List.mem_map.1 hp
    obtain ⟨⟨k, s⟩, hm, rfl⟩ := List.mem_map.1 ((ho _).mem_iff.1 hq)
    dsimp only
    have hs := amGet_mem_nodup hk hm
    have hne : timesOf k l ≠ [] := by
      intro he
      rw [(hg k).1 he] at hs
      cases hs
    obtain ⟨s', h1, h2⟩ := (hg k).2 hne
    rw [hs] at h1
    cases h1
    exact statLine_text h2

/-- Concrete case: the line of `ping` after timings of 3 and 4 ms. -/
example : StatLine c!"ping" [3, 4] c!"ping count=2  sum=7  avg=3  max=4  min=3" :=
  ⟨⟨2, 7, 3, 4, 3⟩, c!"2", c!"7", c!"3", c!"4", c!"3", ⟨rfl, rfl, ⟨by simp, by simp⟩, ⟨by simp, by simp⟩, by decide, by decide⟩,
    ⟨by decide, by decide, rfl⟩, ⟨by decide, by decide, rfl⟩, ⟨by decide, by decide, rfl⟩, ⟨by decide, by decide, rfl⟩, ⟨by decide, by decide, rfl⟩, rfl⟩

end Am
