import Verif.Proofs.Operators
/-! # Every value the evaluator makes has distinct keys in its maps -/
set_option linter.unusedSimpArgs false
set_option linter.unusedSectionVars false
namespace Am
open Spec
variable {F : Type} [Rt F]

theorem proper_keys {m : List (Str × Value F)} (h : Proper (.map m)) : KeysNodup m := by cases h; assumption
theorem proper_entry {m : List (Str × Value F)} (h : Proper (.map m)) {k : Str} {v : Value F} (hm : (k, v) ∈ m) : Proper v := by
  cases h with
  | map _ h => exact h k v hm

theorem proper_get {m : List (Str × Value F)} (h : Proper (.map m)) {k : Str} {v : Value F} (hg : amGet k m = some v) : Proper v :=
  proper_entry h (amGet_mem hg)

theorem proper_empty : Proper (.map [] : Value F) := .map List.nodup_nil (fun k v h => absurd h List.not_mem_nil)

theorem proper_insert {m : List (Str × Value F)} (h : Proper (.map m)) {k : Str} {v : Value F} (hv : Proper v) :
    Proper (.map (amInsert k v m)) := by
  have hn : KeysNodup (amInsert k v m) := amInsert_nodup (proper_keys h)
  refine .map hn (fun k' v' hm => ?_)
  have hg := amGet_of_mem hn hm
  by_cases hk : k = k'
  · subst hk
    rw [amGet_insert_self] at hg
    cases hg
    exact hv
  · rw [amGet_insert_ne v m hk] at hg
    exact proper_get h hg

theorem proper_extend (l : List (Str × Value F)) : ∀ (m : List (Str × Value F)), Proper (.map m) → (∀ p ∈ l, Proper p.2) →
    Proper (.map (amExtend m l)) := by
  induction l with
  | nil => intro m h _; exact h
  | cons p l ih =>
    intro m h hl
    exact ih _ (proper_insert h (hl p (List.mem_cons_self ..))) (fun q hq => hl q (List.mem_cons_of_mem _ hq))

mutual
theorem literal_proper : ∀ (e : Expr F), Proper e.eval
  | .int _ => .int _
  | .float _ => .float _
  | .bool _ => .bool _
  | .str _ => .str _
  | .arr items => .arr (literals_proper items)
  | .map pairs => literalPairs_proper pairs [] proper_empty
  | .index _ _ | .field _ _ | .ident _ | .letE _ _ | .unary _ _ | .binary _ _ _ | .paren _ | .ifE _ _ _ | .call _ _ => .null
termination_by structural e => e
theorem literals_proper : ∀ (l : List (Expr F)), ∀ v ∈ Expr.evalItems l, Proper v
  | [], v, h => absurd h List.not_mem_nil
  | e :: l, v, h => by
    rcases List.mem_cons.1 h with h | h
    · exact h ▸ literal_proper e
    · exact literals_proper l v h
termination_by structural l => l
theorem literalPairs_proper : ∀ (l : List (Expr F × Expr F)) (acc : List (Str × Value F)), Proper (.map acc) → Proper (.map (Expr.evalPairs acc l))
  | [], _, h => h
  | (k, v) :: l, acc, h => literalPairs_proper l _ (proper_insert h (literal_proper v))
termination_by structural l => l
end

theorem addHeader_proper (m : List (Str × Value F)) (h : Header) (hm : Proper (.map m)) : Proper (.map (addHeader m h)) := by
  unfold addHeader
  split
  · rename_i vs hg
    have := proper_get hm hg
    refine proper_insert hm (.arr (fun v hv => ?_))
    rcases List.mem_append.1 hv with hv | hv
    · cases this with
      | arr h => exact h v hv
    · rw [List.mem_singleton.1 hv]; exact .str _
  · exact proper_insert hm (.arr (fun v hv => by rw [List.mem_singleton.1 hv]; exact .str _))

theorem headerMap_proper (hs : List Header) : Proper (.map (headerMap hs) : Value F) := by
  have : ∀ (l : List Header) (m : List (Str × Value F)), Proper (.map m) → Proper (.map (l.foldl addHeader m)) := by
    intro l
    induction l with
    | nil => intro m h; exact h
    | cons x l ih => intro m h; exact ih _ (addHeader_proper m x h)
  exact this hs [] proper_empty

theorem baseMap_proper (r : Response) : Proper (.map r.baseMap : Value F) :=
  proper_insert (proper_insert (proper_insert (proper_insert (proper_insert proper_empty (.str _)) (.int _)) (.str _)) (headerMap_proper _)) (.str _)

theorem toMap_proper {r : Response} {m : List (Str × Value F)} (h : r.toMap = .ok m) : Proper (.map m) := by
  unfold Response.toMap at h
  split at h
  · split at h
    · cases h; exact proper_insert (baseMap_proper r) (literal_proper _)
    · cases h; exact baseMap_proper r
  · cases h; exact baseMap_proper r
  · cases h
  · cases h

theorem operates_proper {k : Kind} {a b v : Value F} (h : Operates k a b (.ok v)) : Proper v := by
  have arith : ∀ {c : Bool} {x : Int}, Arith c x (.ok v) → Proper v := by
    intro c x h
    rcases h with ⟨_, c, e, _⟩ | ⟨_, _, e⟩ | ⟨_, _, c, e, _⟩ <;> cases e <;> exact .int _
  cases h with
  | compares => exact .bool _
  | computes hs h =>
    unfold Computes at h
    dsimp only at h
    split at h
    · cases k <;> first | (cases hs; done) | skip
      · exact arith h
      · exact arith h
      · exact arith h
      · rcases h with ⟨_, e⟩ | ⟨_, q, r, e, _⟩ <;> cases e <;> exact .int _
      · rcases h with ⟨_, e⟩ | ⟨_, q, r, e, _⟩ <;> cases e <;> exact .int _
      · obtain ⟨c, e, _⟩ := h; cases e; exact .int _
      · obtain ⟨c, e, _⟩ := h; cases e; exact .int _
      · obtain ⟨c, e, _⟩ := h; cases e; exact .int _
      · rcases h with ⟨_, _, e⟩ | ⟨_, _, _, _, _, _, e, _⟩ <;> cases e <;> exact .int _
      · rcases h with ⟨_, _, e⟩ | ⟨_, _, _, _, _, _, e, _⟩ <;> cases e <;> exact .int _
    · split at h <;> cases h <;> exact .float _
    · split at h <;> cases h <;> exact .float _
    · split at h <;> cases h <;> exact .float _
    · rcases h with ⟨_, e⟩ | ⟨_, e⟩ <;> cases e <;> exact .str _
    · cases h

theorem negates_proper {t : Token} {a v : Value F} (h : Negates t a (.ok v)) : Proper v := by
  cases h with
  | notInt => exact .int _
  | notFalse => exact .bool _
  | notTrue => exact .bool _
  | minusInt _ h => rcases h with ⟨_, c, e, _⟩ | ⟨_, _, e⟩ | ⟨_, _, c, e, _⟩ <;> cases e <;> exact .int _
  | minusFloat => exact .float _

theorem indexes_proper {a b v : Value F} (ha : Proper a) (h : Indexes a b (.ok v)) : Proper v := by
  cases h with
  | item h =>
    cases ha with
    | arr ha => exact ha v (List.mem_of_getElem? h)
  | beyond => exact .null
  | entry h => exact proper_get ha h
  | absent => exact .null

theorem fields_proper {a v : Value F} {n : Str} (ha : Proper a) (h : Fields a n (.ok v)) : Proper v := by
  cases h with
  | entry h => exact proper_get ha h
  | absent => exact .null

theorem builtin_proper {name : Str} {args : List (Value F)} {v : Value F} {t : Str} (ha : ∀ a ∈ args, Proper a)
    (h : Builtin name args (.ok v) t) : Proper v := by
  cases h with
  | format => exact .str _
  | print => exact .null
  | println => exact .null
  | length => exact .int _
  | @append items args =>
    refine .arr (fun w hw => ?_)
    rcases List.mem_append.1 hw with hw | hw
    · have := ha _ (List.mem_cons_self ..)
      cases this with
      | arr h => exact h w hw
    · exact ha w (List.mem_cons_of_mem _ hw)

theorem keyed_proper : ∀ {vs : List (Value F)}, (∀ v ∈ vs, Proper v) → ∀ p ∈ keyed vs, Proper p.2
  | [], _, p, hp => absurd hp List.not_mem_nil
  | [_], _, p, hp => absurd hp List.not_mem_nil
  | k :: v :: l, h, p, hp => by
    rcases List.mem_cons.1 hp with e | e
    · rw [e]; exact h v (by simp)
    · exact keyed_proper (fun w hw => h w (by simp [hw])) p e

end Am
