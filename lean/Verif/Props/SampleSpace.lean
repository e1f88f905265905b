import Verif.Lemmas.SampleSpace
import Verif.Props.SampleSet
import Verif.Spec.Counts
import Mathlib.Tactic.FieldSimp
import Mathlib.Tactic.Linarith

/-!
# Properties of `relnet/sample_space.py`: marginals (C28, C29)
-/

set_option linter.unusedSectionVars false

namespace Verif

section
variable {V X R : Type} [DecidableEq V] [DecidableEq X] [DecidableEq R]

theorem mass_eq_list (oI : Order (SampleGraph V X R × ℤ)) (a : Samples V X R) (P : SampleGraph V X R → Prop) [DecidablePred P] :
    ((oI.run a.items).map fun p => if P p.1 then p.2 else 0).sum = mass a P := by
  rw [oI.sum_map, mass, Finset.sum_filter]

theorem exists_run (oI : Order (SampleGraph V X R × ℤ)) (a : Samples V X R) (P : SampleGraph V X R → Prop) :
    (∃ p ∈ oI.run a.items, P p.1) ↔ ∃ g, a.Occurs g ∧ P g := by
  constructor
  · rintro ⟨p, hp, h⟩
    rw [oI.mem, Samples.mem_items] at hp
    exact ⟨p.1, ⟨_, hp⟩, h⟩
  · rintro ⟨g, ⟨c, hg⟩, h⟩
    exact ⟨(g, c), by rw [oI.mem, Samples.mem_items]; exact hg, h⟩

theorem mass_congr (a : Samples V X R) (P Q : SampleGraph V X R → Prop) [DecidablePred P] [DecidablePred Q]
    (h : ∀ g, a.Occurs g → (P g ↔ Q g)) : mass a P = mass a Q := by
  unfold mass
  congr 1
  apply Finset.filter_congr
  intro p hp
  rw [Samples.mem_items] at hp
  exact h p.1 ⟨_, hp⟩

theorem mass_pos (a : Samples V X R) (h : Positive a) (P : SampleGraph V X R → Prop) [DecidablePred P] (g : SampleGraph V X R)
    (hg : a.Occurs g) (hP : P g) : 0 < mass a P := by
  obtain ⟨c, hc⟩ := hg
  unfold mass
  apply Finset.sum_pos
  · intro p hp
    rw [Finset.mem_filter, Samples.mem_items] at hp
    exact h _ _ hp.1
  · exact ⟨(g, c), by rw [Finset.mem_filter, Samples.mem_items]; exact ⟨hc, hP⟩⟩

theorem mass_le_length (a : Samples V X R) (h : Positive a) (P : SampleGraph V X R → Prop) [DecidablePred P] :
    mass a P ≤ a.length := by
  rw [length_eq_sum]
  apply Finset.sum_le_sum_of_subset_of_nonneg (Finset.filter_subset _ _)
  intro p hp _
  rw [Samples.mem_items] at hp
  exact (h _ _ hp).le

theorem mass_nonneg (a : Samples V X R) (h : Positive a) (P : SampleGraph V X R → Prop) [DecidablePred P] :
    0 ≤ mass a P := by
  apply Finset.sum_nonneg
  intro p hp
  rw [Finset.mem_filter, Samples.mem_items] at hp
  exact (h _ _ hp.1).le

theorem sum_filter_key {K A : Type} [DecidableEq K] [DecidableEq A] (L : List ((K × A) × ℤ)) (k : K) :
    ((L.filter fun t => t.1.1 = k).map Prod.snd).sum = (totalOf (L.map fun t => (t.1.1, t.2)) k).getD 0 := by
  unfold totalOf
  have : ((L.map fun t => (t.1.1, t.2)).filter fun p => p.1 = k).map Prod.snd = (L.filter fun t => t.1.1 = k).map Prod.snd := by
    induction L with
    | nil => rfl
    | cons t L ih =>
      simp only [List.map_cons, List.filter_cons]
      by_cases h : t.1.1 = k
      · simp [h, ih]
      · simp [h, ih]
  simp only
  rw [this]
  split
  · rename_i h; rw [h]; rfl
  · rfl

theorem sum_map_div (l : List ℤ) (n : ℤ) : (l.map fun c : ℤ => (c : ℚ) / (n : ℚ)).sum = (l.sum : ℚ) / (n : ℚ) := by
  induction l with
  | nil => simp
  | cons a t ih => simp only [List.map_cons, List.sum_cons, ih]; push_cast; ring

/-- What one outcome contributes to `group_acc`. -/
def contrib (oV : Order V) (oN : Order (Node V X)) (vs : Finset V) (p : SampleGraph V X R × ℤ) : List ((V × X) × ℤ) :=
  (oV.run p.1.includedVariables).filterMap fun v =>
    if v ∈ vs then (p.1.valueForVariable oN v).map fun x => ((v, x), p.2) else none

theorem mem_includedVariables (g : SampleGraph V X R) (v : V) : v ∈ g.includedVariables ↔ HasVar v g := by
  simp [SampleGraph.includedVariables, HasVar]

theorem mem_contrib (oV : Order V) (oN : Order (Node V X)) (vs : Finset V) (p : SampleGraph V X R × ℤ)
    (hs : SingleValued p.1.nodes) (v : V) (x : X) (c : ℤ) :
    ((v, x), c) ∈ contrib oV oN vs p ↔ v ∈ vs ∧ HasValue v x p.1 ∧ c = p.2 := by
  unfold contrib
  rw [List.mem_filterMap]
  constructor
  · rintro ⟨w, hw, h⟩
    split at h
    · rename_i hv
      rw [Option.map_eq_some_iff] at h
      obtain ⟨y, hy, h⟩ := h
      cases h
      exact ⟨hv, (valueForVariable_eq oN p.1 hs _ _).1 hy, rfl⟩
    · exact absurd h (by simp)
  · rintro ⟨hv, hx, rfl⟩
    refine ⟨v, ?_, ?_⟩
    · rw [oV.mem, mem_includedVariables]
      exact ⟨_, hx, rfl⟩
    · rw [if_pos hv, (valueForVariable_eq oN p.1 hs _ _).2 hx]
      rfl

theorem nodup_contrib (oV : Order V) (oN : Order (Node V X)) (vs : Finset V) (p : SampleGraph V X R × ℤ)
    (hs : SingleValued p.1.nodes) : ((contrib oV oN vs p).map fun t => t.1.1).Nodup := by
  apply List.Nodup.map_on
  · rintro ⟨⟨v, x⟩, c⟩ h1 ⟨⟨w, y⟩, d⟩ h2 (h : v = w)
    subst h
    rw [mem_contrib oV oN vs p hs] at h1 h2
    have := hs _ h1.2.1 _ h2.2.1 rfl
    cases this
    rw [h1.2.2, h2.2.2]
  · unfold contrib
    apply List.Nodup.filterMap
    · intro a a' b hb hb'
      split at hb
      · split at hb'
        · rw [Option.mem_def, Option.map_eq_some_iff] at hb hb'
          obtain ⟨_, _, rfl⟩ := hb
          obtain ⟨_, _, h⟩ := hb'
          cases h
          rfl
        · exact absurd hb' (by simp)
      · exact absurd hb (by simp)
    · exact oV.nodup _

theorem groupAcc_eq_tally (sp : Space V X R) (oI : Order (SampleGraph V X R × ℤ)) (oV : Order V) (oN : Order (Node V X))
    (vs : Finset V) : sp.groupAcc oI oV oN vs = tally ((oI.run sp.outcomes.items).flatMap (contrib oV oN vs)) := by
  unfold Space.groupAcc
  apply foldl_flatMap_bump
  intro acc p _
  unfold contrib
  generalize oV.run p.1.includedVariables = l
  induction l generalizing acc with
  | nil => rfl
  | cons v t ih =>
    rw [List.foldl_cons, ih, List.filterMap_cons]
    unfold Space.groupVars
    by_cases hv : v ∈ vs
    · simp only [if_pos hv]
      cases p.1.valueForVariable oN v with
      | none => rfl
      | some x => rfl
    · simp only [if_neg hv]

/-- Contents of `group_acc`: for every requested occurring variable the number of outcomes with each value. -/
theorem groupAcc_spec (sp : Space V X R) (oI : Order (SampleGraph V X R × ℤ)) (oV : Order V) (oN : Order (Node V X))
    (vs : Finset V) (hsv : ∀ g, sp.outcomes.Occurs g → SingleValued g.nodes) :
    (∀ v, v ∈ (sp.groupAcc oI oV oN vs).keys ↔ v ∈ vs ∧ ∃ g, sp.outcomes.Occurs g ∧ HasVar v g) ∧
    ∀ v m, (sp.groupAcc oI oV oN vs).get? v = some m →
      (∀ x c, m.get? x = some c ↔ (∃ g, sp.outcomes.Occurs g ∧ HasValue v x g) ∧ c = mass sp.outcomes (HasValue v x)) ∧
      m.vals.sum = mass sp.outcomes (HasVar v) := by
  have hinv := tally_inv ((oI.run sp.outcomes.items).flatMap (contrib oV oN vs))
  rw [groupAcc_eq_tally]
  have hs' : ∀ p ∈ oI.run sp.outcomes.items, SingleValued p.1.nodes := by
    intro p hp
    rw [oI.mem, Samples.mem_items] at hp
    exact hsv _ ⟨_, hp⟩
  have hkeys : ∀ v, v ∈ (tally ((oI.run sp.outcomes.items).flatMap (contrib oV oN vs))).keys ↔
      v ∈ vs ∧ ∃ g, sp.outcomes.Occurs g ∧ HasVar v g := by
    intro v
    rw [hinv.keys]
    constructor
    · rintro ⟨⟨⟨w, x⟩, c⟩, ht, rfl⟩
      rw [List.mem_flatMap] at ht
      obtain ⟨p, hp, ht⟩ := ht
      rw [mem_contrib oV oN vs p (hs' p hp)] at ht
      rw [oI.mem, Samples.mem_items] at hp
      exact ⟨ht.1, p.1, ⟨_, hp⟩, _, ht.2.1, rfl⟩
    · rintro ⟨hv, g, ⟨c, hg⟩, n, hn, rfl⟩
      have hp : (g, c) ∈ oI.run sp.outcomes.items := by rw [oI.mem, Samples.mem_items]; exact hg
      refine ⟨((n.var, n.val), c), ?_, rfl⟩
      rw [List.mem_flatMap]
      exact ⟨(g, c), hp, (mem_contrib oV oN vs (g, c) (hs' _ hp) _ _ _).2 ⟨hv, hn, rfl⟩⟩
  refine ⟨hkeys, ?_⟩
  intro v m hm
  have hv : v ∈ vs := ((hkeys v).1 ((Dict.mem_keys _ _).2 ⟨m, hm⟩)).1
  have hcnt : ∀ p ∈ oI.run sp.outcomes.items, ∀ t ∈ contrib oV oN vs p, t.2 = p.2 := by
    rintro p hp ⟨⟨w, x⟩, c⟩ ht
    exact ((mem_contrib oV oN vs p (hs' p hp) _ _ _).1 ht).2.2
  have hnd := fun p hp => nodup_contrib oV oN vs p (hs' p hp)
  constructor
  · intro x c
    rw [hinv.get v m hm x, totalOf_flatMap (fun p => p.2) _ (fun p => HasValue v x p.1) _ ?_ hcnt, mass_eq_list, exists_run]
    · intro p hp
      rw [List.mem_map]
      constructor
      · rintro ⟨⟨⟨w, y⟩, c⟩, ht, h⟩
        cases h
        exact ((mem_contrib oV oN vs p (hs' p hp) _ _ _).1 ht).2.1
      · intro h
        exact ⟨((v, x), p.2), (mem_contrib oV oN vs p (hs' p hp) _ _ _).2 ⟨hv, h, rfl⟩, rfl⟩
    · intro p hp
      have := hnd p hp
      rw [show ((contrib oV oN vs p).map fun t => t.1.1) = ((contrib oV oN vs p).map Prod.fst).map Prod.fst by
        rw [List.map_map]; rfl] at this
      exact this.of_map
  · have := (totalOf_flatMap (fun p => p.2) (fun p => (contrib oV oN vs p).map fun t => (t.1.1, t.2))
      (fun p => HasVar v p.1) (oI.run sp.outcomes.items) ?_ ?_ v ?_ (mass sp.outcomes (HasVar v))).2 ?_
    · rw [hinv.sum v m hm, sum_filter_key, List.map_flatMap, this]
      rfl
    · intro p hp
      rw [List.map_map]
      exact hnd p hp
    · intro p hp t ht
      rw [List.mem_map] at ht
      obtain ⟨s, hs, rfl⟩ := ht
      exact hcnt p hp s hs
    · intro p hp
      rw [List.map_map, List.mem_map]
      constructor
      · rintro ⟨⟨⟨w, y⟩, c⟩, ht, h⟩
        cases h
        exact ⟨_, ((mem_contrib oV oN vs p (hs' p hp) _ _ _).1 ht).2.1, rfl⟩
      · rintro ⟨n, hn, rfl⟩
        exact ⟨((n.var, n.val), p.2), (mem_contrib oV oN vs p (hs' p hp) _ _ _).2 ⟨hv, hn, rfl⟩, rfl⟩
    · rw [mass_eq_list, exists_run]
      exact ⟨((hkeys v).1 ((Dict.mem_keys _ _).2 ⟨m, hm⟩)).2, rfl⟩

/-- The variables asked for: given ones, or all declared ones if nothing or the empty set is given. -/
def Requested (sp : Space V X R) (req : Option (Finset V)) (v : V) : Prop :=
  (∃ s, req = some s ∧ v ∈ s) ∨ ((req = none ∨ req = some ∅) ∧ ∃ xs, sp.schema.vars.get? v = some xs)

theorem mem_toCheck (sp : Space V X R) (req : Option (Finset V)) (v : V) : v ∈ sp.toCheck req ↔ Requested sp req v := by
  unfold Space.toCheck Requested
  cases req with
  | none => simp [Dict.mem_keys]
  | some s =>
    by_cases hs : s = ∅
    · subst hs; simp [Dict.mem_keys]
    · simp [hs]

/-- All normalised tables sum to one, so `marginals` returns them. -/
theorem marginals_ok (sp : Space V X R) (u : X) (oI : Order (SampleGraph V X R × ℤ)) (oV : Order V) (oN : Order (Node V X))
    (req : Option (Finset V)) (unobserved : Bool) (g : Dict X ℤ → Dict X ℚ)
    (h : ∀ v m, (sp.groupAcc oI oV oN (sp.toCheck req)).get? v = some m →
      Space.normValues u unobserved sp.outcomes.length m = .ok (g m) ∧ (g m).vals.sum = 1) :
    sp.marginals u oI oV oN req unobserved = .ok ((sp.groupAcc oI oV oN (sp.toCheck req)).mapVals g) := by
  unfold Space.marginals
  rw [mapM_ok _ (fun p => (p.1, g p.2))]
  · simp only
    have hnd : (((sp.groupAcc oI oV oN (sp.toCheck req)).entries.map fun p => (p.1, g p.2)).map Prod.fst).Nodup :=
      ((sp.groupAcc oI oV oN (sp.toCheck req)).mapVals g).nodup
    have : Dict.ofList ((sp.groupAcc oI oV oN (sp.toCheck req)).entries.map fun p => (p.1, g p.2)) =
        (sp.groupAcc oI oV oN (sp.toCheck req)).mapVals g := by
      apply Dict.ext
      rw [Dict.entries_ofList _ hnd]; rfl
    rw [this, if_pos]
    rw [List.all_eq_true]
    rintro ⟨v, m⟩ hm
    have hm' : (v, m) ∈ ((sp.groupAcc oI oV oN (sp.toCheck req)).entries.map fun p => (p.1, g p.2)) := hm
    rw [List.mem_map] at hm'
    obtain ⟨⟨w, m'⟩, hw, he⟩ := hm'
    cases he
    rw [decide_eq_true_eq]
    exact (h w m' ((Dict.mem_entries _ _ _).1 hw)).2
  · rintro ⟨v, m⟩ hm
    simp only [(h v m ((Dict.mem_entries _ _ _).1 hm)).1]
    rfl

/-- **C28.** Without `unobserved`: the exact relative frequencies among the outcomes having the variable. -/
theorem C28_marginals (sp : Space V X R) (u : X) (oI : Order (SampleGraph V X R × ℤ)) (oV : Order V) (oN : Order (Node V X))
    (req : Option (Finset V)) (hpos : Positive sp.outcomes) (hsv : ∀ g, sp.outcomes.Occurs g → SingleValued g.nodes) :
    ∃ d, sp.marginals u oI oV oN req false = .ok d ∧
      (∀ v, v ∈ d.keys ↔ Requested sp req v ∧ ∃ g, sp.outcomes.Occurs g ∧ HasVar v g) ∧
      ∀ v m, d.get? v = some m → m.vals.sum = 1 ∧
        ∀ x q, m.get? x = some q ↔ (∃ g, sp.outcomes.Occurs g ∧ HasValue v x g) ∧
          q = (mass sp.outcomes (HasValue v x) : ℚ) / (mass sp.outcomes (HasVar v) : ℚ) := by
  obtain ⟨hk, hm⟩ := groupAcc_spec sp oI oV oN (sp.toCheck req) hsv
  have hNpos : ∀ v m, (sp.groupAcc oI oV oN (sp.toCheck req)).get? v = some m → 0 < mass sp.outcomes (HasVar v) := by
    intro v m hv
    obtain ⟨_, g, hg, hgv⟩ := (hk v).1 ((Dict.mem_keys _ _).2 ⟨m, hv⟩)
    exact mass_pos _ hpos _ g hg hgv
  refine ⟨_, marginals_ok sp u oI oV oN req false (fun m => m.mapVals fun c => (c : ℚ) / (m.vals.sum : ℚ)) ?_, ?_, ?_⟩
  · intro v m hv
    have hp := hNpos v m hv
    have hle := mass_le_length sp.outcomes hpos (HasVar v)
    obtain ⟨_, hs⟩ := hm v m hv
    constructor
    · unfold Space.normValues Space.divide
      rw [if_neg (by rw [hs]; exact not_not.2 ⟨hp.le, hle⟩)]
      rw [if_neg (by simp), if_neg (by rw [hs]; omega)]
    · rw [Dict.vals_mapVals, sum_map_div, div_self]
      rw [hs]; exact_mod_cast hp.ne'
  · intro v
    rw [Dict.keys_mapVals, hk, mem_toCheck]
  · intro v m hv
    rw [Dict.get?_mapVals, Option.map_eq_some_iff] at hv
    obtain ⟨m0, hv, rfl⟩ := hv
    have hp := hNpos v m0 hv
    obtain ⟨hg, hs⟩ := hm v m0 hv
    constructor
    · rw [Dict.vals_mapVals, sum_map_div, div_self]
      rw [hs]; exact_mod_cast hp.ne'
    · intro x q
      rw [Dict.get?_mapVals, Option.map_eq_some_iff, hs]
      constructor
      · rintro ⟨c, hc, rfl⟩
        obtain ⟨h1, rfl⟩ := (hg x c).1 hc
        exact ⟨h1, rfl⟩
      · rintro ⟨h1, rfl⟩
        exact ⟨_, (hg x _).2 ⟨h1, rfl⟩, rfl⟩

/-- **C28.** With `unobserved`: frequencies among all outcomes, the rest under `'u'` (when `'u'` is not a value). -/
theorem C28_unobserved (sp : Space V X R) (u : X) (oI : Order (SampleGraph V X R × ℤ)) (oV : Order V) (oN : Order (Node V X))
    (req : Option (Finset V)) (hpos : Positive sp.outcomes) (hsv : ∀ g, sp.outcomes.Occurs g → SingleValued g.nodes)
    (hu : ∀ g v, sp.outcomes.Occurs g → Requested sp req v → ¬ HasValue v u g) :
    ∃ d, sp.marginals u oI oV oN req true = .ok d ∧
      (∀ v, v ∈ d.keys ↔ Requested sp req v ∧ ∃ g, sp.outcomes.Occurs g ∧ HasVar v g) ∧
      ∀ v m, d.get? v = some m → m.vals.sum = 1 ∧
        m.get? u = some (1 - (mass sp.outcomes (HasVar v) : ℚ) / (sp.outcomes.length : ℚ)) ∧
        ∀ x q, x ≠ u → (m.get? x = some q ↔ (∃ g, sp.outcomes.Occurs g ∧ HasValue v x g) ∧
          q = (mass sp.outcomes (HasValue v x) : ℚ) / (sp.outcomes.length : ℚ)) := by
  obtain ⟨hk, hm⟩ := groupAcc_spec sp oI oV oN (sp.toCheck req) hsv
  have hNpos : ∀ v m, (sp.groupAcc oI oV oN (sp.toCheck req)).get? v = some m →
      0 < mass sp.outcomes (HasVar v) ∧ m.get? u = none := by
    intro v m hv
    obtain ⟨hr, g, hg, hgv⟩ := (hk v).1 ((Dict.mem_keys _ _).2 ⟨m, hv⟩)
    refine ⟨mass_pos _ hpos _ g hg hgv, ?_⟩
    cases hx : m.get? u with
    | none => rfl
    | some c =>
      obtain ⟨⟨g', hg', h⟩, _⟩ := ((hm v m hv).1 u c).1 hx
      exact absurd h (hu g' v hg' ((mem_toCheck sp req v).1 hr))
  have hsum : ∀ v m, (sp.groupAcc oI oV oN (sp.toCheck req)).get? v = some m →
      ((m.set u (sp.outcomes.length - m.vals.sum)).mapVals fun c => (c : ℚ) / (sp.outcomes.length : ℚ)).vals.sum = 1 := by
    intro v m hv
    have hp := hNpos v m hv
    have hle := mass_le_length sp.outcomes hpos (HasVar v)
    rw [Dict.vals_mapVals, sum_map_div, Dict.sum_vals_set, hp.2]
    have : (sp.outcomes.length : ℚ) ≠ 0 := by exact_mod_cast (by omega : sp.outcomes.length ≠ 0)
    simp [this]
  refine ⟨_, marginals_ok sp u oI oV oN req true
    (fun m => (m.set u (sp.outcomes.length - m.vals.sum)).mapVals fun c => (c : ℚ) / (sp.outcomes.length : ℚ)) ?_, ?_, ?_⟩
  · intro v m hv
    have hp := hNpos v m hv
    have hle := mass_le_length sp.outcomes hpos (HasVar v)
    obtain ⟨_, hs⟩ := hm v m hv
    refine ⟨?_, hsum v m hv⟩
    unfold Space.normValues Space.divide
    rw [if_neg (by rw [hs]; exact not_not.2 ⟨hp.1.le, hle⟩)]
    rw [if_pos rfl, if_neg (by omega)]
  · intro v
    rw [Dict.keys_mapVals, hk, mem_toCheck]
  · intro v m hv
    rw [Dict.get?_mapVals, Option.map_eq_some_iff] at hv
    obtain ⟨m0, hv, rfl⟩ := hv
    have hp := hNpos v m0 hv
    have hle := mass_le_length sp.outcomes hpos (HasVar v)
    obtain ⟨hg, hs⟩ := hm v m0 hv
    refine ⟨hsum v m0 hv, ?_, ?_⟩
    · rw [Dict.get?_mapVals, Dict.get?_set_self, hs]
      have : (sp.outcomes.length : ℚ) ≠ 0 := by exact_mod_cast (by omega : sp.outcomes.length ≠ 0)
      simp only [Option.map_some, Option.some.injEq]
      push_cast
      field_simp
    · intro x q hx
      rw [Dict.get?_mapVals, Dict.get?_set_ne _ _ (Ne.symm hx), Option.map_eq_some_iff]
      constructor
      · rintro ⟨c, hc, rfl⟩
        obtain ⟨h1, rfl⟩ := (hg x c).1 hc
        exact ⟨h1, rfl⟩
      · rintro ⟨h1, rfl⟩
        exact ⟨_, (hg x _).2 ⟨h1, rfl⟩, rfl⟩

/-- **C28.** The marginals do not depend on the iteration orders. -/
theorem C28_order (sp : Space V X R) (u : X) (oI oI' : Order (SampleGraph V X R × ℤ)) (oV oV' : Order V)
    (oN oN' : Order (Node V X)) (req : Option (Finset V)) (hpos : Positive sp.outcomes)
    (hsv : ∀ g, sp.outcomes.Occurs g → SingleValued g.nodes) :
    ∃ d d', sp.marginals u oI oV oN req false = .ok d ∧ sp.marginals u oI' oV' oN' req false = .ok d' ∧
      (∀ v, v ∈ d.keys ↔ v ∈ d'.keys) ∧ ∀ v m m', d.get? v = some m → d'.get? v = some m' → m.Equiv m' := by
  obtain ⟨d, h, hk, hm⟩ := C28_marginals sp u oI oV oN req hpos hsv
  obtain ⟨d', h', hk', hm'⟩ := C28_marginals sp u oI' oV' oN' req hpos hsv
  refine ⟨d, d', h, h', fun v => by rw [hk, hk'], fun v m m' hv hv' x => ?_⟩
  ext q
  rw [(hm v m hv).2, (hm' v m' hv').2]

/-- **C29.** If `'u'` is a value of a requested variable that occurs, the unobserved marginal always fails its assertion. -/
theorem C29_collision (sp : Space V X R) (u : X) (oI : Order (SampleGraph V X R × ℤ)) (oV : Order V) (oN : Order (Node V X))
    (req : Option (Finset V)) (hpos : Positive sp.outcomes) (hsv : ∀ g, sp.outcomes.Occurs g → SingleValued g.nodes)
    (v : V) (hv : Requested sp req v) (g : SampleGraph V X R) (hg : sp.outcomes.Occurs g) (hu : HasValue v u g) :
    sp.marginals u oI oV oN req true = .error .assertion := by
  obtain ⟨hk, hm⟩ := groupAcc_spec sp oI oV oN (sp.toCheck req) hsv
  have hlen : 0 < sp.outcomes.length :=
    lt_of_lt_of_le (mass_pos _ hpos (HasValue v u) g hg hu) (mass_le_length _ hpos _)
  have hok : ∀ w m, (sp.groupAcc oI oV oN (sp.toCheck req)).get? w = some m →
      Space.normValues u true sp.outcomes.length m =
        .ok ((m.set u (sp.outcomes.length - m.vals.sum)).mapVals fun c => (c : ℚ) / (sp.outcomes.length : ℚ)) := by
    intro w m hw
    have hs := (hm w m hw).2
    have hle := mass_le_length sp.outcomes hpos (HasVar w)
    have h0 := mass_nonneg sp.outcomes hpos (HasVar w)
    unfold Space.normValues Space.divide
    rw [if_neg (by rw [hs]; exact not_not.2 ⟨h0, hle⟩)]
    rw [if_pos rfl, if_neg (by omega)]
  unfold Space.marginals
  rw [mapM_ok _ (fun p => (p.1, (p.2.set u (sp.outcomes.length - p.2.vals.sum)).mapVals fun c => (c : ℚ) / (sp.outcomes.length : ℚ)))]
  · simp only
    rw [if_neg]
    rw [List.all_eq_true]
    intro hall
    have hnd : (((sp.groupAcc oI oV oN (sp.toCheck req)).entries.map fun p => (p.1,
      (p.2.set u (sp.outcomes.length - p.2.vals.sum)).mapVals fun c => (c : ℚ) / (sp.outcomes.length : ℚ))).map Prod.fst).Nodup :=
      ((sp.groupAcc oI oV oN (sp.toCheck req)).mapVals fun m =>
        (m.set u (sp.outcomes.length - m.vals.sum)).mapVals fun c => (c : ℚ) / (sp.outcomes.length : ℚ)).nodup
    rw [Dict.entries_ofList _ hnd] at hall
    obtain ⟨m, hmv⟩ := (Dict.mem_keys _ _).1 ((hk v).2 ⟨(mem_toCheck sp req v).2 hv, g, hg, _, hu, rfl⟩)
    have := hall _ (List.mem_map_of_mem ((Dict.mem_entries _ _ _).2 hmv))
    rw [decide_eq_true_eq] at this
    simp only at this
    rw [Dict.vals_mapVals, sum_map_div, Dict.sum_vals_set, ((hm v m hmv).1 u _).2 ⟨⟨g, hg, hu⟩, rfl⟩] at this
    · have hne : (sp.outcomes.length : ℚ) ≠ 0 := by exact_mod_cast hlen.ne'
      rw [div_eq_one_iff_eq hne] at this
      have h1 := mass_pos _ hpos (HasValue v u) g hg hu
      have h2 : m.vals.sum - (some (mass sp.outcomes (HasValue v u))).getD 0 + (sp.outcomes.length - m.vals.sum) =
        sp.outcomes.length := by exact_mod_cast this
      simp only [Option.getD_some] at h2
      omega
  · rintro ⟨w, m⟩ hw
    simp only [hok w m ((Dict.mem_entries _ _ _).1 hw)]
    rfl

end
end Verif

namespace Verif

/-- Two outcomes over three variables: `0=0 - 1=0` twice and `0=1 - 2=0` three times. -/
def demoSpace : Space ℕ ℕ ℕ :=
  ⟨⟨⟨[(0, {0, 1}), (1, {0}), (2, {0, 1})], by decide⟩, {0}⟩,
   ⟨0, ⟨[(oneEdge ⟨0, 0⟩ ⟨1, 0⟩, 2), (oneEdge ⟨0, 1⟩ ⟨2, 0⟩, 3)], by decide⟩⟩, none⟩

theorem demoSpace_occurs (g : SampleGraph ℕ ℕ ℕ) :
    demoSpace.outcomes.Occurs g ↔ g = oneEdge ⟨0, 0⟩ ⟨1, 0⟩ ∨ g = oneEdge ⟨0, 1⟩ ⟨2, 0⟩ := by
  unfold Samples.Occurs
  simp only [← Dict.mem_entries]
  simp only [demoSpace, List.mem_cons, Prod.mk.injEq, List.not_mem_nil, or_false]
  constructor
  · rintro ⟨c, ⟨h, -⟩ | ⟨h, -⟩⟩ <;> simp [h]
  · rintro (h | h)
    · exact ⟨2, Or.inl ⟨h, rfl⟩⟩
    · exact ⟨3, Or.inr ⟨h, rfl⟩⟩

theorem demoSpace_positive : Positive demoSpace.outcomes := by
  intro g c h
  rw [← Dict.mem_entries] at h
  simp only [demoSpace, List.mem_cons, Prod.mk.injEq, List.not_mem_nil, or_false] at h
  rcases h with ⟨-, rfl⟩ | ⟨-, rfl⟩ <;> norm_num

theorem demoSpace_single (g : SampleGraph ℕ ℕ ℕ) (h : demoSpace.outcomes.Occurs g) : SingleValued g.nodes := by
  rw [demoSpace_occurs] at h
  rcases h with rfl | rfl
  · show ∀ a ∈ (oneEdge ⟨0, 0⟩ ⟨1, 0⟩).nodes, ∀ b ∈ (oneEdge ⟨0, 0⟩ ⟨1, 0⟩).nodes, a.var = b.var → a = b
    decide
  · show ∀ a ∈ (oneEdge ⟨0, 1⟩ ⟨2, 0⟩).nodes, ∀ b ∈ (oneEdge ⟨0, 1⟩ ⟨2, 0⟩).nodes, a.var = b.var → a = b
    decide

theorem demoSpace_wf (g : SampleGraph ℕ ℕ ℕ) (h : demoSpace.outcomes.Occurs g) : WellFormed g := by
  rw [demoSpace_occurs] at h
  rcases h with rfl | rfl
  · exact oneEdge_wf _ _ (by decide)
  · exact oneEdge_wf _ _ (by decide)

/-- Non-vacuity of C28: the demo space satisfies the hypotheses, also those about `'u'` (here the value 7), and has
masses 2 and 5 for the value 0 and for the variable 0. -/
example : Positive demoSpace.outcomes ∧ (∀ g, demoSpace.outcomes.Occurs g → SingleValued g.nodes) ∧
    (∀ g v, demoSpace.outcomes.Occurs g → Requested demoSpace none v → ¬ HasValue v 7 g) ∧
    mass demoSpace.outcomes (HasValue 0 0) = 2 ∧ mass demoSpace.outcomes (HasVar 0) = 5 := by
  refine ⟨demoSpace_positive, demoSpace_single, ?_, by decide +kernel, by decide +kernel⟩
  intro g v h _
  rw [demoSpace_occurs] at h
  rcases h with rfl | rfl <;> simp [HasValue, oneEdge]

/-- Non-vacuity of C29: with `'u'` being the value 0 the hypotheses hold. -/
example : Requested demoSpace none 1 ∧ demoSpace.outcomes.Occurs (oneEdge ⟨0, 0⟩ ⟨1, 0⟩) ∧
    HasValue 1 0 (oneEdge ⟨0, 0⟩ ⟨1, 0⟩) := by
  refine ⟨Or.inr ⟨Or.inl rfl, {0}, rfl⟩, (demoSpace_occurs _).2 (Or.inl rfl), by simp [HasValue, oneEdge]⟩

end Verif
