import Verif.Props.Injection
/-! # C60: line feeds in the request line -/
set_option linter.unusedSimpArgs false
set_option linter.unusedSectionVars false
namespace Am
open Spec
variable {F : Type} [Rt F]

/-- Every text adds some headers and either has a blank line or not. -/
theorem added_total : ∀ (n : Nat) (t : Str), t.length ≤ n → ∃ xs b, Added t xs b := by
  have colon : ∀ l : Str, ':' ∈ l → ∃ n v, l = n ++ ':' :: v ∧ ':' ∉ n := fun l h => by
    obtain ⟨n, v, e, hn⟩ := mem_first h
    exact ⟨n, v, e, hn⟩
  have ws : ∀ l : Str, (∀ c ∈ l, isWs c = true) ∨ ∃ c ∈ l, isWs c = false := fun l => by
    by_cases h : ∀ c ∈ l, isWs c = true
    · exact .inl h
    · right
      simp only [Classical.not_forall] at h
      obtain ⟨c, hc, hw⟩ := h
      exact ⟨c, hc, by simpa using hw⟩
  have last : ∀ l : Str, '\n' ∉ l → ∃ xs b, Added l xs b := fun l hl => by
    rcases ws l with h | h
    · exact ⟨_, _, .blankEnd l h hl⟩
    · by_cases hc : ':' ∈ l
      · obtain ⟨n, v, rfl, hn⟩ := colon l hc
        exact ⟨_, _, .fieldEnd n v (fun hm => hl (by simp [hm])) hn (fun hm => hl (by simp [hm]))⟩
      · exact ⟨_, _, .skipEnd l h hl hc⟩
  intro n
  induction n with
  | zero =>
    intro t ht
    exact last t (by rw [List.eq_nil_of_length_eq_zero (Nat.le_zero.1 ht)]; simp)
  | succ n ih =>
    intro t ht
    by_cases hm : '\n' ∈ t
    · obtain ⟨l, r, rfl, hl⟩ := mem_first hm
      rcases ws l with h | h
      · exact ⟨_, _, .blank l r h hl⟩
      · obtain ⟨xs, b, hx⟩ := ih r (by simp at ht; omega)
        by_cases hc : ':' ∈ l
        · obtain ⟨n, v, rfl, hn⟩ := colon l hc
          exact ⟨_, _, .field n v r xs b (fun hm => hl (by simp [hm])) hn (fun hm => hl (by simp [hm])) hx⟩
        · exact ⟨_, _, .skip l r xs b h hl hc hx⟩
    · exact last t hm

theorem added_headers {t : Str} {xs : List (Str × Str)} {b : Bool} (h : Added t xs b) (r : Str) :
    textHeaders (t ++ '\n' :: r) = (xs.map fun p => ⟨trim p.1, trim p.2⟩) ++ if b then [] else textHeaders r := by
  induction h with
  | blankEnd l hw hl => rw [headers_cons hl, if_pos (by rw [trim_empty.2 hw]; rfl)]; rfl
  | blank l r' hw hl => rw [List.append_assoc, List.cons_append, headers_cons hl, if_pos (by rw [trim_empty.2 hw]; rfl)]; rfl
  | skipEnd l hne hl hc =>
    obtain ⟨c, h1, h2⟩ := hne
    rw [headers_cons hl, headerOf_none hc, trim_isEmpty_false h1 h2]
    rfl
  | skip l r' xs b hne hl hc _ ih =>
    obtain ⟨c, h1, h2⟩ := hne
    rw [List.append_assoc, List.cons_append, headers_cons hl, headerOf_none hc, trim_isEmpty_false h1 h2, ← ih]
    rfl
  | fieldEnd n v hn hc hv =>
    rw [List.append_assoc, List.cons_append, headers_cut hn hc hv]
    rfl
  | field n v r' xs b hn hc hv _ ih =>
    rw [List.append_assoc, List.append_assoc, List.cons_append, List.cons_append, headers_cut hn hc hv, ih]
    rfl

/-- C60, request lines that contain a line feed after substitution: let the values in the headers stay inside them, and let `t` be the text of
the request line after its first line feed. The request has the headers `t` adds and then, unless `t` has a blank line, the written ones. -/
theorem c60_line (mp : List Part → Option (List UInt8)) (ctx : Context F) {m pre first rest f t : Str} {c : Char} {hs xs : List (Str × Str)} {b : Bool}
    (hm : m = pre ++ (c :: first) ++ '\n' :: rest) (hpre : ∀ x ∈ pre, isWs x = true) (hc : isWs c = false) (hb : c ≠ '{') (hf : '\n' ∉ first)
    (hs' : HeaderTemplate rest hs) (ho : HolesOnLines m) (hv : ValuesKept (hs.map fun p => render ctx p.2))
    (ht : render ctx first = f ++ '\n' :: t) (hft : '\n' ∉ f) (ha : Added t xs b) :
    (Request.ofStr mp (render ctx m)).1.headers =
      (xs.map fun p => ⟨trim p.1, trim p.2⟩) ++ if b then [] else hs.map fun p => ⟨trim p.1, trim (render ctx p.2)⟩ := by
  have hcn : c ≠ '\n' := by rintro rfl; exact absurd hc (by decide)
  have e1 : m = (pre ++ [c]) ++ (first ++ '\n' :: rest) := by rw [hm]; simp
  have e2 : m = (pre ++ c :: first ++ ['\n']) ++ rest := by rw [hm]; simp
  have hr : render ctx m = pre ++ ((c :: f) ++ '\n' :: (t ++ '\n' :: render ctx rest)) := by
    have h2 : HolesOnLines (first ++ '\n' :: rest) := holesOnLines_right (a := pre ++ [c]) (by rw [← e1]; exact ho)
    rw [e1, render_plain ctx (by simp [not_brace_of_ws hpre, Ne.symm hb]), render_line ctx hf h2, ht]
    simp
  have htrim : ∀ s : Str, Request.ofStr mp (pre ++ s) = Request.ofStr mp s := by
    intro s
    have := trim_pad (s := s) (b := []) hpre (by simp)
    rw [List.append_nil] at this
    unfold Request.ofStr
    rw [this]
  rw [hr, htrim, ofStr_headers mp (f := c :: f) (by simp [hft, Ne.symm hcn]) rfl hc, added_headers ha,
    (template_headers ctx hs' (by rw [e2] at ho; exact holesOnLines_right ho)).2 hv]
  rfl

/-- C60, exactly when the written headers arrive although the request line contains a line feed: the text after it has neither a header nor a
blank line, or it has a blank line and repeats exactly the written headers before it. -/
theorem c60_line_exact (mp : List Part → Option (List UInt8)) (ctx : Context F) {m pre first rest f t : Str} {c : Char} {hs : List (Str × Str)}
    (hm : m = pre ++ (c :: first) ++ '\n' :: rest) (hpre : ∀ x ∈ pre, isWs x = true) (hc : isWs c = false) (hb : c ≠ '{') (hf : '\n' ∉ first)
    (hs' : HeaderTemplate rest hs) (ho : HolesOnLines m) (hv : ValuesKept (hs.map fun p => render ctx p.2))
    (ht : render ctx first = f ++ '\n' :: t) (hft : '\n' ∉ f) :
    (Request.ofStr mp (render ctx m)).1.headers = (hs.map fun p => ⟨trim p.1, trim (render ctx p.2)⟩) ↔
      Added t [] false ∨ ∃ xs, Added t xs true ∧ (xs.map fun p => (trim p.1, trim p.2)) = hs.map fun p => (trim p.1, trim (render ctx p.2)) := by
  have pairs : ∀ xs : List (Str × Str), ((xs.map fun p => (⟨trim p.1, trim p.2⟩ : Header)) = hs.map fun p => ⟨trim p.1, trim (render ctx p.2)⟩) ↔
      (xs.map fun p => (trim p.1, trim p.2)) = hs.map fun p => (trim p.1, trim (render ctx p.2)) := by
    generalize hs = ys
    intro xs
    induction xs generalizing ys with
    | nil => cases ys <;> simp
    | cons x xs ih => cases ys <;> simp [ih]
  constructor
  · intro h
    obtain ⟨xs, b, ha⟩ := added_total _ t (Nat.le_refl _)
    rw [c60_line mp ctx hm hpre hc hb hf hs' ho hv ht hft ha] at h
    cases b with
    | true => exact .inr ⟨xs, ha, (pairs xs).1 (by simpa using h)⟩
    | false =>
      left
      simp at h
      subst h
      exact ha
  · rintro (ha | ⟨xs, ha, h⟩)
    · rw [c60_line mp ctx hm hpre hc hb hf hs' ho hv ht hft ha]; rfl
    · rw [c60_line mp ctx hm hpre hc hb hf hs' ho hv ht hft ha, (pairs xs).2 h]; simp

/-- A path with a line feed adds a header before the written one: all hypotheses of `c60_line` are met. -/
example (mp : List Part → Option (List UInt8)) :
    let ctx : Context F := ⟨[(c!"id", .str c!"7\nX-Admin: yes")], [], []⟩
    (Request.ofStr mp (render ctx c!"GET http://h/{id}\nHost: h\n")).1.headers = [⟨c!"X-Admin", c!"yes"⟩, ⟨c!"Host", c!"h"⟩] := by
  intro ctx
  refine (c60_line mp ctx (m := c!"GET http://h/{id}\nHost: h\n") (pre := []) (c := 'G') (first := c!"ET http://h/{id}") (rest := c!"Host: h\n")
    (f := c!"ET http://h/7") (t := c!"X-Admin: yes") (hs := [(c!"Host", c!" h")]) (xs := [(c!"X-Admin", c!" yes")]) (b := false) rfl (by simp) (by decide) (by decide)
    (by decide) ?_ (holesOk_on_lines _ (by decide +kernel)) ?_ rfl (by decide) ?_).trans ?_
  · exact .field c!"Host" c!" h" [] [] (by decide) (by decide) (by decide) (by decide) (.blankEnd _ (by simp) (by simp))
  · exact valuesKept_of (by simp only [List.map_cons, List.map_nil, List.mem_singleton]; rintro w rfl; show '\n' ∉ c!" h"; decide)
  · exact .fieldEnd c!"X-Admin" c!" yes" (by decide) (by decide) (by decide)
  · rfl

/-- The condition of `c60_line_exact` can hold either way. -/
example : Added c!"HTTP/1.1" [] false ∧ Added c!"Host: h\n" [(c!"Host", c!" h")] true ∧ Added c!"X: 1\n HTTP/1.1" [(c!"X", c!" 1")] false :=
  ⟨.skipEnd _ ⟨'H', by decide, by decide⟩ (by decide) (by decide),
   .field c!"Host" c!" h" [] [] true (by decide) (by decide) (by decide) (.blankEnd _ (by simp) (by simp)),
   .field c!"X" c!" 1" c!" HTTP/1.1" [] false (by decide) (by decide) (by decide) (.skipEnd _ ⟨'H', by decide, by decide⟩ (by decide) (by decide))⟩

end Am
