import Verif.Props.BayesJoint

/-!
# The comparisons of the Bayesian network experiment (C59)
-/

set_option linter.unusedSectionVars false

namespace Verif.Bayes

/-! ### Specification -/

/-- The contract of `VariableElimination.query`: a factor over the variables `S`, each once and with its number of values. -/
structure FactorOver (cfg : Config) (S : Finset Str) (f : Factor) : Prop where
  nodup : (f.vars.map Prod.fst).Nodup
  names : (f.vars.map Prod.fst).toFinset = S
  cards : ∀ p ∈ f.vars, p.2 = cardOf cfg p.1
  loc : ∀ a b : Str → ℕ, (∀ v ∈ S, a v = b v) → f.value a = f.value b

/-- What `v[0]: int(v[2])` needs: names are one character and indices are one digit. -/
def ShortNames (cfg : Config) : Prop := ∀ v ∈ netVars cfg, v.length = 1 ∧ cardOf cfg v ≤ 10

/-- The marginal of a factor. -/
def marginalOf (cfg : Config) (S : Finset Str) (f : Factor) (v : Str) (j : ℕ) : ℚ := ∑ a ∈ assigns (domOf cfg) S with a v = j, f.value a

/-! ### Comparing dictionaries -/

theorem compareMaps_iff {K : Type} [DecidableEq K] (a b : Dict K ℚ) :
    (compareMaps a b = .ok () ↔ ∀ k, a.get? k = b.get? k) ∧ (compareMaps a b = .ok () ∨ compareMaps a b = .error .assertion) := by
  unfold compareMaps
  by_cases h1 : a.keys.toFinset = b.keys.toFinset
  · rw [if_neg (not_not.2 h1)]
    by_cases h2 : (a.keys.all fun k => decide (a.get? k = b.get? k)) = true
    · rw [if_pos h2]
      refine ⟨⟨fun _ k => ?_, fun _ => rfl⟩, Or.inl rfl⟩
      simp only [List.all_eq_true, decide_eq_true_eq] at h2
      by_cases hk : k ∈ a.keys
      · exact h2 k hk
      · have hk' : k ∉ b.keys := by rwa [← List.mem_toFinset, ← h1, List.mem_toFinset]
        rw [(a.get?_eq_none k).2 hk, (b.get?_eq_none k).2 hk']
    · rw [if_neg h2]
      refine ⟨⟨fun h => by simp at h, fun h => absurd ?_ h2⟩, Or.inr rfl⟩
      simp only [List.all_eq_true, decide_eq_true_eq]
      exact fun k _ => h k
  · rw [if_pos h1]
    refine ⟨⟨fun h => by simp at h, fun h => absurd ?_ h1⟩, Or.inr rfl⟩
    ext k
    simp only [List.mem_toFinset, Dict.mem_keys, h]

theorem forM_ok_iff {A : Type} (f : A → Py Unit) : ∀ l : List A, l.forM f = .ok () ↔ ∀ x ∈ l, f x = .ok ()
  | [] => by simp [pure, Except.pure]
  | x :: t => by
    show (f x >>= fun _ => t.forM f) = .ok () ↔ _
    cases h : f x with
    | error e => simp [bind, Except.bind, h]
    | ok u =>
      have ih := forM_ok_iff f t
      simp only [bind, Except.bind, List.mem_cons, forall_eq_or_imp, h]
      exact ⟨fun hh => ⟨trivial, ih.1 hh⟩, fun hh => ih.2 hh.2⟩

theorem forM_error {A : Type} (f : A → Py Unit) {er : Err} : ∀ l : List A, l.forM f = .error er → ∃ x ∈ l, f x = .error er
  | [], h => by simp [pure, Except.pure] at h
  | x :: t, h => by
    replace h : (f x >>= fun _ => t.forM f) = .error er := h
    cases hx : f x with
    | error e =>
      rw [hx] at h
      simp only [bind, Except.bind, Except.error.injEq] at h
      exact ⟨x, by simp, by rw [hx, h]⟩
    | ok u =>
      rw [hx] at h
      obtain ⟨y, hy, e⟩ := forM_error f t h
      exact ⟨y, by simp [hy], e⟩

/-- The comparison at one key. -/
def compareAt (a b : Dict Str (Dict Str ℚ)) (k : Str) : Py Unit := match a.get? k, b.get? k with
  | some x, some y => compareMaps x y
  | _, _ => .error .keyError

theorem compareMargins_iff (a b : Dict Str (Dict Str ℚ)) :
    (compareMargins a b = .ok () ↔ (∀ k, k ∈ a.keys ↔ k ∈ b.keys) ∧ ∀ k x y, a.get? k = some x → b.get? k = some y → ∀ q, x.get? q = y.get? q) ∧
    (compareMargins a b = .ok () ∨ compareMargins a b = .error .assertion) := by
  have hun : compareMargins a b = if a.keys.toFinset ≠ b.keys.toFinset then .error .assertion else a.keys.forM (compareAt a b) := rfl
  rw [hun]
  by_cases h1 : a.keys.toFinset = b.keys.toFinset
  · rw [if_neg (not_not.2 h1)]
    have hk : ∀ k, k ∈ a.keys ↔ k ∈ b.keys := fun k => by rw [← List.mem_toFinset, h1, List.mem_toFinset]
    have hat : ∀ k ∈ a.keys, ∃ x y, a.get? k = some x ∧ b.get? k = some y ∧ compareAt a b k = compareMaps x y := by
      intro k hka
      obtain ⟨x, hx⟩ := (a.mem_keys k).1 hka
      obtain ⟨y, hy⟩ := (b.mem_keys k).1 ((hk k).1 hka)
      refine ⟨x, y, hx, hy, ?_⟩
      unfold compareAt
      rw [hx, hy]
    refine ⟨?_, ?_⟩
    · rw [forM_ok_iff]
      constructor
      · intro h
        refine ⟨hk, fun k x y hx hy => ?_⟩
        obtain ⟨x', y', hx', hy', e⟩ := hat k ((a.mem_keys k).2 ⟨x, hx⟩)
        rw [hx] at hx'; rw [hy] at hy'
        cases hx'; cases hy'
        have := h k ((a.mem_keys k).2 ⟨x, hx⟩)
        rw [e] at this
        exact (compareMaps_iff x y).1.1 this
      · rintro ⟨-, h⟩ k hka
        obtain ⟨x, y, hx, hy, e⟩ := hat k hka
        rw [e]
        exact (compareMaps_iff x y).1.2 (h k x y hx hy)
    · cases hf : a.keys.forM (compareAt a b) with
      | ok u => left; rfl
      | error er =>
        right
        obtain ⟨k, hka, e⟩ := forM_error _ _ hf
        obtain ⟨x, y, hx, hy, e'⟩ := hat k hka
        rw [e'] at e
        rcases (compareMaps_iff x y).2 with h | h
        · rw [h] at e; cases e
        · rw [h] at e; cases e; rfl
  · rw [if_pos h1]
    refine ⟨⟨fun h => by simp at h, fun h => absurd ?_ h1⟩, Or.inr rfl⟩
    ext k
    simp only [List.mem_toFinset, h.1 k]

/-! ### Factors -/

theorem parseName_valName {v : Str} {j : ℕ} (hv : v.length = 1) (hj : j < 10) : parseName (valName v j) = .ok (v, j) := by
  obtain ⟨c, rfl⟩ := List.length_eq_one_iff.1 hv
  have : ∀ j < 10, Nat.toDigits 10 j = [Nat.digitChar j] := by decide
  rw [valName, this j hj]
  have h2 : ∀ j < 10, (Nat.digitChar j).isDigit = true ∧ (Nat.digitChar j).toNat - '0'.toNat = j := by decide
  obtain ⟨h3, h4⟩ := h2 j hj
  have h5 : (Nat.digitChar j).toNat - 48 = j := h4
  simp [parseName, h3, h5]

theorem mapM_parse (a : Str → ℕ) : ∀ l : List (Str × ℕ), (∀ p ∈ l, p.1.length = 1 ∧ a p.1 < 10) →
    (asgNames a l).mapM parseName = .ok (l.map fun p => (p.1, a p.1))
  | [], _ => rfl
  | p :: t, h => by
    rw [asgNames, List.map_cons, List.mapM_cons, parseName_valName (h p (by simp)).1 (h p (by simp)).2]
    have := mapM_parse a t fun q hq => h q (by simp [hq])
    unfold asgNames at this
    simp only [bind, Except.bind, this, List.map_cons]
    rfl

theorem get?_asg (a : Str → ℕ) (l : List (Str × ℕ)) (hl : (l.map Prod.fst).Nodup) (v : Str) (j : ℕ) :
    (Dict.ofList (l.map fun p => (p.1, a p.1))).get? v = some j ↔ v ∈ l.map Prod.fst ∧ j = a v := by
  rw [Dict.get?_ofList]
  · simp only [List.mem_map, Prod.mk.injEq]
    constructor
    · rintro ⟨p, hp, rfl, rfl⟩; exact ⟨⟨p, hp, rfl⟩, rfl⟩
    · rintro ⟨⟨p, hp, rfl⟩, rfl⟩; exact ⟨p, hp, rfl, rfl⟩
  · rw [List.map_map]; exact hl

section
variable {cfg : Config} {S : Finset Str} {f : Factor} (hf : FactorOver cfg S f)
include hf

theorem inDom_vars {a : Str → ℕ} : (∀ p ∈ f.vars, a p.1 < p.2) ↔ InDom (domOf cfg) S a := by
  unfold InDom
  rw [← hf.names]
  simp only [List.mem_toFinset, List.mem_map, forall_exists_index, and_imp, forall_apply_eq_imp_iff₂, domOf, Finset.mem_range]
  exact forall₂_congr fun p hp => by rw [hf.cards p hp]

theorem getValue_asg {a : Str → ℕ} (ha : InDom (domOf cfg) S a) :
    f.getValue (Dict.ofList (f.vars.map fun p => (p.1, a p.1))) = .ok (f.value a) := by
  have hg : ∀ v ∈ f.vars.map Prod.fst, (Dict.ofList (f.vars.map fun p => (p.1, a p.1))).get? v = some (a v) :=
    fun v hv => (get?_asg a f.vars hf.nodup v (a v)).2 ⟨hv, rfl⟩
  unfold Factor.getValue
  rw [if_pos]
  · congr 1
    refine hf.loc _ _ fun v hv => ?_
    rw [← hf.names, List.mem_toFinset] at hv
    rw [hg v hv]; rfl
  · refine ⟨?_, fun p hp => ?_⟩
    · ext v
      rw [List.mem_toFinset, List.mem_toFinset, Dict.mem_keys]
      constructor
      · rintro ⟨j, hj⟩; exact ((get?_asg a f.vars hf.nodup v j).1 hj).1
      · intro hv; exact ⟨_, hg v hv⟩
    · rw [hg p.1 (List.mem_map_of_mem hp)]
      exact (inDom_vars hf).2 ha p hp

theorem asgNames_set (a : Str → ℕ) : (asgNames a f.vars).toFinset = nameSet S a := by
  ext x
  rw [asgNames, List.mem_toFinset, nameSet, Finset.mem_image, ← hf.names]
  simp only [List.mem_map, List.mem_toFinset]
  constructor
  · rintro ⟨p, hp, rfl⟩; exact ⟨p.1, ⟨p, hp, rfl⟩, rfl⟩
  · rintro ⟨_, ⟨p, hp, rfl⟩, rfl⟩; exact ⟨p, hp, rfl⟩

/-- `_value_map_from_factor`. -/
theorem valueMapFromFactor_spec (hne : S.Nonempty) (hs : ∀ v ∈ S, v.length = 1 ∧ cardOf cfg v ≤ 10) :
    ∃ d, valueMapFromFactor f = .ok d ∧ ∀ key q, d.get? key = some q ↔ ∃ a, InDom (domOf cfg) S a ∧ key = nameSet S a ∧ q = f.value a := by
  have hv : f.vars ≠ [] := by
    intro h
    obtain ⟨v, hv⟩ := hne
    rw [← hf.names, h] at hv
    simp at hv
  have hitem : ∀ a, InDom (domOf cfg) S a → factorItem f (asgNames a f.vars) = .ok (nameSet S a, f.value a) := by
    intro a ha
    unfold factorItem
    rw [mapM_parse a f.vars]
    · simp only
      rw [getValue_asg hf ha, asgNames_set hf]
    · intro p hp
      have hpS : p.1 ∈ S := by rw [← hf.names]; exact List.mem_toFinset.2 (List.mem_map_of_mem hp)
      have h1 := (inDom_vars hf).2 ha p hp
      have h2 := hf.cards p hp
      have h3 := hs p.1 hpS
      exact ⟨h3.1, by omega⟩
  obtain ⟨-, h2⟩ := C59_value_combination f.vars
  obtain ⟨cs, e1, -, e3, e4⟩ := h2 hv
  have hcs : ∀ x, x ∈ cs ↔ ∃ a, InDom (domOf cfg) S a ∧ x = asgNames a f.vars := by
    intro x
    constructor
    · intro hx
      obtain ⟨k, hk⟩ := List.mem_iff_getElem?.1 hx
      have hlt : k < cs.length := by
        by_contra hge
        rw [List.getElem?_eq_none (by omega)] at hk
        cases hk
      obtain ⟨a, ha, rfl⟩ := e4 hf.nodup k hlt
      rw [e3 a ha] at hk
      exact ⟨a, (inDom_vars hf).1 ha, (Option.some_inj.1 hk).symm⟩
    · rintro ⟨a, ha, rfl⟩
      exact List.mem_iff_getElem?.2 ⟨_, e3 a ((inDom_vars hf).2 ha)⟩
  have hok : ∀ x, x ∈ cs → ∃ y, factorItem f x = .ok y := by
    intro x hx
    obtain ⟨a, ha, rfl⟩ := (hcs x).1 hx
    exact ⟨_, hitem a ha⟩
  choose! g hg using hok
  refine ⟨Dict.ofList (cs.map g), ?_, ?_⟩
  · unfold valueMapFromFactor
    rw [e1]
    simp only
    rw [mapM_ok _ g cs hg]
  · have hm : ∀ key q, (key, q) ∈ cs.map g ↔ ∃ a, InDom (domOf cfg) S a ∧ key = nameSet S a ∧ q = f.value a := by
      intro key q
      rw [List.mem_map]
      constructor
      · rintro ⟨x, hx, e⟩
        obtain ⟨a, ha, rfl⟩ := (hcs x).1 hx
        have := hg _ hx
        rw [hitem a ha, e] at this
        cases this
        exact ⟨a, ha, rfl, rfl⟩
      · rintro ⟨a, ha, rfl, rfl⟩
        have hx := (hcs _).2 ⟨a, ha, rfl⟩
        refine ⟨_, hx, ?_⟩
        have := hg _ hx
        rw [hitem a ha] at this
        exact (Except.ok.inj this).symm
    intro key q
    unfold Dict.ofList
    rw [get?_foldl_set, hm]
    · simp
    · rintro ⟨k1, q1⟩ h1 ⟨k2, q2⟩ h2 e
      obtain ⟨a, -, rfl, rfl⟩ := (hm _ _).1 h1
      obtain ⟨b, -, rfl, rfl⟩ := (hm _ _).1 h2
      exact hf.loc _ _ (nameSet_inj e)

omit hf in
theorem sumOut_eq (dom : Str → Finset ℕ) (g : (Str → ℕ) → ℚ) : ∀ (l : List (Str × ℕ)), (l.map Prod.fst).Nodup → (∀ p ∈ l, dom p.1 = Finset.range p.2) →
    ∀ a, sumOut g l a = ∑ b ∈ assigns dom (l.map Prod.fst).toFinset, g fun w => if w ∈ l.map Prod.fst then b w else a w
  | [], _, _, a => by
    have h0 : assigns dom (([] : List (Str × ℕ)).map Prod.fst).toFinset = {fun _ => 0} := by
      ext b
      rw [mem_assigns, Finset.mem_singleton]
      simp only [InDom, List.map_nil, List.toFinset_nil, Finset.notMem_empty, false_imp_iff, implies_true, true_and, not_false_eq_true, true_imp_iff]
      exact ⟨fun h => funext h, fun h v => by rw [h]⟩
    rw [h0, Finset.sum_singleton]
    simp [sumOut]
  | (v, c) :: t, hnd, hd, a => by
    rw [List.map_cons, List.nodup_cons] at hnd
    have hv : v ∉ (t.map Prod.fst).toFinset := by rw [List.mem_toFinset]; exact hnd.1
    rw [List.map_cons, List.toFinset_cons, sum_assigns_insert hv, Finset.sum_comm]
    have hdv : dom v = Finset.range c := hd (v, c) (by simp)
    simp only [sumOut]
    rw [hdv]
    refine Finset.sum_congr rfl fun j _ => ?_
    rw [sumOut_eq dom g t hnd.2 (fun p hp => hd p (by simp [hp]))]
    refine Finset.sum_congr rfl fun b _ => ?_
    congr 1
    funext w
    by_cases e : w = v
    · subst e
      have h3 : w ∉ t.map Prod.fst := hnd.1
      simp [h3]
    · simp only [Function.update_of_ne e, List.mem_cons, e, false_or]

/-- `_marginals_from_factor`. -/
theorem marginalsFromFactor_spec : (∀ v, v ∈ (marginalsFromFactor f).keys ↔ v ∈ S) ∧
    ∀ v m, (marginalsFromFactor f).get? v = some m → ∀ x q, m.get? x = some q ↔ ∃ j ∈ domOf cfg v, x = valName v j ∧ q = marginalOf cfg S f v j := by
  have hmarg : ∀ (i : ℕ) (v : Str) (c : ℕ), f.vars[i]? = some (v, c) → ∀ j ∈ domOf cfg v,
      sumOut f.value (f.vars.eraseIdx i) (Function.update (fun _ => 0) v j) = marginalOf cfg S f v j := by
    intro i v c hi j hj
    obtain ⟨hlt, hget⟩ := List.getElem?_eq_some_iff.1 hi
    have hperm : f.vars.Perm ((v, c) :: f.vars.eraseIdx i) := by
      rw [← hget]; exact (List.getElem_cons_eraseIdx_perm hlt).symm
    have hnd := ((hperm.map Prod.fst).nodup_iff).1 hf.nodup
    rw [List.map_cons, List.nodup_cons] at hnd
    have hsub : ∀ p ∈ f.vars.eraseIdx i, p ∈ f.vars := fun p hp => hperm.mem_iff.2 (by simp [hp])
    have hset : S = insert v ((f.vars.eraseIdx i).map Prod.fst).toFinset := by
      rw [← hf.names, ← List.toFinset_cons, ← List.map_cons (f := Prod.fst) (a := (v, c))]
      exact List.toFinset_eq_of_perm _ _ (hperm.map _)
    rw [sumOut_eq (domOf cfg) f.value _ hnd.2 (fun p hp => by rw [domOf, hf.cards p (hsub p hp)])]
    unfold marginalOf
    have hv : v ∉ ((f.vars.eraseIdx i).map Prod.fst).toFinset := by rw [List.mem_toFinset]; exact hnd.1
    rw [Finset.sum_filter]
    conv_rhs => rw [hset]
    rw [sum_assigns_insert hv]
    refine Finset.sum_congr rfl fun b hb => ?_
    simp only [Function.update_self, Finset.sum_ite_eq', hj, if_true]
    refine hf.loc _ _ fun w hw => ?_
    rw [hset] at hw
    by_cases e : w = v
    · subst e
      have h3 : w ∉ (f.vars.eraseIdx i).map Prod.fst := hnd.1
      simp only [h3, if_false, Function.update_self]
    · have h3 : w ∈ (f.vars.eraseIdx i).map Prod.fst := by
        rcases Finset.mem_insert.1 hw with h | h
        · exact absurd h e
        · exact List.mem_toFinset.1 h
      rw [Function.update_of_ne e, Function.update_of_ne e]
      exact if_pos h3
  let inner : ℕ → Str → ℕ → Dict Str ℚ := fun i v c => Dict.ofList ((List.range c).map fun j =>
    (valName v j, sumOut f.value (f.vars.eraseIdx i) (Function.update (fun _ => 0) v j)))
  have hin : ∀ (i : ℕ) (v : Str) (c : ℕ), f.vars[i]? = some (v, c) → ∀ x q, (inner i v c).get? x = some q ↔
      ∃ j ∈ domOf cfg v, x = valName v j ∧ q = marginalOf cfg S f v j := by
    intro i v c hi x q
    have hc : c = cardOf cfg v := hf.cards (v, c) (List.mem_of_getElem? hi)
    simp only [inner]
    rw [Dict.get?_ofList]
    · simp only [List.mem_map, List.mem_range, Prod.mk.injEq]
      constructor
      · rintro ⟨j, hj, rfl, rfl⟩
        have hj' : j ∈ domOf cfg v := by rw [domOf, Finset.mem_range, ← hc]; exact hj
        exact ⟨j, hj', rfl, hmarg i v c hi j hj'⟩
      · rintro ⟨j, hj, rfl, rfl⟩
        refine ⟨j, by rw [hc]; exact Finset.mem_range.1 hj, rfl, hmarg i v c hi j hj⟩
    · rw [List.map_map]
      exact List.nodup_range.map fun j j' e => (valName_inj e).2
  have hd : marginalsFromFactor f = Dict.ofList ((List.range f.vars.length).filterMap fun i => match f.vars[i]? with
    | none => none
    | some (v, c) => some (v, inner i v c)) := rfl
  have hmem : ∀ v m, (v, m) ∈ ((List.range f.vars.length).filterMap fun i => match f.vars[i]? with
      | none => none
      | some (v, c) => some (v, inner i v c)) ↔ ∃ (i : ℕ) (c : ℕ), f.vars[i]? = some (v, c) ∧ m = inner i v c := by
    intro v m
    rw [List.mem_filterMap]
    constructor
    · rintro ⟨i, -, h⟩
      cases hi : f.vars[i]? with
      | none => rw [hi] at h; cases h
      | some p =>
        obtain ⟨w, c⟩ := p
        rw [hi] at h
        simp only [Option.some.injEq, Prod.mk.injEq] at h
        obtain ⟨rfl, rfl⟩ := h
        exact ⟨i, c, hi, rfl⟩
    · rintro ⟨i, c, hi, rfl⟩
      refine ⟨i, List.mem_range.2 (List.getElem?_eq_some_iff.1 hi).1, ?_⟩
      rw [hi]
  have hidx : ∀ (i i' : ℕ) (v : Str) (c c' : ℕ), f.vars[i]? = some (v, c) → f.vars[i']? = some (v, c') → i = i' ∧ c = c' := by
    intro i i' v c c' h1 h2
    have e1 : (f.vars.map Prod.fst)[i]? = some v := by rw [List.getElem?_map, h1]; rfl
    have e2 : (f.vars.map Prod.fst)[i']? = some v := by rw [List.getElem?_map, h2]; rfl
    have hi : i = i' := by
      have hlt := (List.getElem?_eq_some_iff.1 e1).1
      exact (List.getElem?_inj hlt hf.nodup).1 (e1.trans e2.symm)
    subst hi
    rw [h1] at h2
    cases h2
    exact ⟨rfl, rfl⟩
  have hgd : ∀ v m, (marginalsFromFactor f).get? v = some m ↔ ∃ (i : ℕ) (c : ℕ), f.vars[i]? = some (v, c) ∧ m = inner i v c := by
    intro v m
    rw [hd]
    unfold Dict.ofList
    rw [get?_foldl_set, hmem]
    · simp
    · rintro ⟨v1, m1⟩ h1 ⟨v2, m2⟩ h2 e
      obtain ⟨i, c, hi, rfl⟩ := (hmem _ _).1 h1
      obtain ⟨i', c', hi', rfl⟩ := (hmem _ _).1 h2
      simp only at e
      subst e
      obtain ⟨rfl, rfl⟩ := hidx i i' v1 c c' hi hi'
      rfl
  constructor
  · intro v
    rw [Dict.mem_keys, ← hf.names, List.mem_toFinset, List.mem_map]
    constructor
    · rintro ⟨m, hm⟩
      obtain ⟨i, c, hi, -⟩ := (hgd v m).1 hm
      exact ⟨(v, c), List.mem_of_getElem? hi, rfl⟩
    · rintro ⟨⟨w, c⟩, hp, rfl⟩
      obtain ⟨i, hi⟩ := List.mem_iff_getElem?.1 hp
      exact ⟨_, (hgd _ _).2 ⟨i, c, hi, rfl⟩⟩
  · intro v m hm
    obtain ⟨i, c, hi, rfl⟩ := (hgd v m).1 hm
    exact hin i v c hi

end

end Verif.Bayes
