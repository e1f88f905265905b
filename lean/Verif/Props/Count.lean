import Verif.Lemmas.Counting
import Verif.Props.Generate
import Verif.Props.Folded
import Mathlib.Algebra.BigOperators.Ring.Finset
import Mathlib.Algebra.BigOperators.Field
import Mathlib.Data.Finset.Pi
import Mathlib.Data.Nat.Choose.Sum
import Mathlib.Logic.Equiv.Basic
import Mathlib.Tactic.FieldSimp

/-!
# C39, C40 – the size and the symmetry of the space of all outcomes
-/

set_option linter.unusedSectionVars false

namespace Verif
open Relation

section
variable {V X R : Type} [DecidableEq V] [DecidableEq X] [DecidableEq R]

/-- `RelationGraphBuilder(variables, relation_types).generate_all_possible_outcomes().build()`, as in `make_relation_graph`
(experiments/outcomes_space_power.py 34-46, experiments/random_variables_distribution_for_all_outcomes.py 33-43). -/
def allOutcomesGraph (o : GenOrders V X R) (prov : Nat) (vars : Dict V (Finset X)) (rels : Finset R) :
    Py (Space V X R) := do
  let b ← RGBuilder.init prov vars rels none
  let b ← b.generate o
  b.build

/-- What `allOutcomesGraph` returns. -/
theorem allOutcomesGraph_spec (o : GenOrders V X R) (prov : Nat) (vars : Dict V (Finset X)) (rels : Finset R)
    (sp : Space V X R) (h : allOutcomesGraph o prov vars rels = .ok sp) :
    sp.schema = ⟨vars, rels⟩ ∧ (∀ v xs, vars.get? v = some xs → xs.Nonempty) ∧ rels.Nonempty ∧
      ∀ g c, sp.outcomes.samples.get? g = some c ↔ c = 1 ∧ IsOutcome ⟨vars, rels⟩ g := by
  unfold allOutcomesGraph RGBuilder.init at h
  by_cases h0 : vars.entries = [] ∨ rels = ∅
  · rw [if_pos h0] at h; cases h
  rw [if_neg h0] at h
  unfold Schema.check at h
  push Not at h0
  rw [if_neg h0.1] at h
  by_cases h1 : (vars.entries.any fun p => decide (p.2 = ∅)) = true
  · rw [if_pos h1] at h; cases h
  rw [if_neg h1, if_neg h0.2.ne_empty] at h
  have hv : ∀ v xs, vars.get? v = some xs → xs.Nonempty := by
    intro v xs hg
    by_contra hne
    rw [Finset.not_nonempty_iff_eq_empty] at hne
    apply h1
    rw [List.any_eq_true]
    exact ⟨(v, xs), (Dict.mem_entries _ _ _).2 hg, by simp [hne]⟩
  obtain ⟨b, hb, hs, -, -, hget⟩ := C38_generate o ⟨vars, rels⟩ prov hv
  simp only [bind, Except.bind] at h
  unfold RGBuilder.fresh at hb
  rw [hb] at h
  simp only at h
  unfold RGBuilder.build at h
  split at h
  · cases h
    exact ⟨hs, hv, h0.2, hget⟩
  · cases h

/-- `allOutcomesGraph` returns for all non-empty variables, values and relation types. -/
theorem allOutcomesGraph_ok (o : GenOrders V X R) (prov : Nat) (vars : Dict V (Finset X)) (rels : Finset R)
    (h0 : vars.entries ≠ []) (hr : rels.Nonempty) (hv : ∀ v xs, vars.get? v = some xs → xs.Nonempty) :
    Returns (allOutcomesGraph o prov vars rels) := by
  obtain ⟨b, hb, hs, -, -, hget⟩ := C38_generate o ⟨vars, rels⟩ prov hv
  have h1 : ¬ (vars.entries.any fun p => decide (p.2 = ∅)) = true := by
    rw [List.any_eq_true]
    rintro ⟨⟨v, xs⟩, hm, he⟩
    exact (hv v xs ((Dict.mem_entries _ _ _).1 hm)).ne_empty (by simpa using he)
  refine ⟨⟨b.schema, b.outcomes, none⟩, ?_⟩
  unfold allOutcomesGraph RGBuilder.init Schema.check
  rw [if_neg (by push Not; exact ⟨h0, hr⟩), if_neg h0, if_neg h1, if_neg hr.ne_empty]
  simp only [bind, Except.bind]
  unfold RGBuilder.fresh at hb
  rw [hb]
  simp only
  unfold RGBuilder.build
  rw [if_pos]
  unfold Samples.bool
  rw [decide_eq_true_eq]
  obtain ⟨⟨v, xs⟩, hm⟩ := List.exists_mem_of_ne_nil _ h0
  have hm' := (Dict.mem_entries _ _ _).1 hm
  obtain ⟨x, hx⟩ := hv v xs hm'
  have hout := isOutcome_single (⟨vars, rels⟩ : Schema V X R) ⟨v, x⟩ ⟨xs, hm', hx⟩
  intro hnil
  have := (Dict.mem_entries b.outcomes.samples _ 1).2 ((hget _ 1).2 ⟨rfl, hout⟩)
  rw [hnil] at this; simp at this

/-- The declared values of a variable. -/
def Schema.valuesOf (s : Schema V X R) (v : V) : Finset X := (s.vars.get? v).getD ∅

theorem Schema.mem_valuesOf (s : Schema V X R) (v : V) (x : X) :
    x ∈ s.valuesOf v ↔ ∃ xs, s.vars.get? v = some xs ∧ x ∈ xs := by
  unfold Schema.valuesOf
  cases s.vars.get? v <;> simp

/-- Graphs with given nodes correspond to connected coloured graphs on these. -/
theorem card_with_nodes (s : Schema V X R) (outs : Finset (SampleGraph V X R)) (hout : ∀ g, g ∈ outs ↔ IsOutcome s g)
    (M : Finset (Node V X)) (hne : M.Nonempty) (hsv : SingleValued M)
    (hM : ∀ n ∈ M, ∃ xs, s.vars.get? n.var = some xs ∧ n.val ∈ xs) :
    (outs.filter fun g => g.nodes = M).card = (conns s.rels M).card := by
  refine Finset.card_nbij' (fun g => g.edges.image fun e => (e.endpoints, e.relation.label))
    (fun E => ⟨M, E.image fun e => ⟨e.1, .plain e.2⟩⟩) ?_ ?_ ?_ ?_
  · intro g hg
    obtain ⟨hg, hn⟩ := Finset.mem_filter.1 hg
    have hg := (hout g).1 hg
    refine (mem_conns _ _ _).2 ⟨(mem_cfgs _ _ _).2 ⟨?_, ?_⟩, ?_⟩
    · intro p hp
      obtain ⟨e, he, rfl⟩ := Finset.mem_image.1 hp
      refine ⟨⟨hn ▸ hg.wf.closed e he, ?_⟩, ?_⟩
      · obtain ⟨a, b, hab, heq⟩ := hg.wf.good e he
        simp only
        rw [heq]
        exact Finset.card_pair fun h => hab (h ▸ rfl)
      · obtain ⟨r, hr, heq⟩ := hg.relations e he
        simp only [heq]; exact hr
    · intro p hp q hq hpq
      obtain ⟨e, he, rfl⟩ := Finset.mem_image.1 hp
      obtain ⟨e', he', rfl⟩ := Finset.mem_image.1 hq
      rw [hg.wf.onePer e he e' he' hpq]
    · intro a ha b hb
      refine ReflTransGen.lift id ?_ _ _ (hg.wf.conn a (hn ▸ ha) b (hn ▸ hb))
      rintro x y ⟨e, he, hx, hy⟩
      exact ⟨_, Finset.mem_image_of_mem _ he, hx, hy⟩
  · intro E hE
    obtain ⟨hE, hcon⟩ := (mem_conns _ _ _).1 hE
    obtain ⟨h1, h2⟩ := (mem_cfgs _ _ _).1 hE
    refine Finset.mem_filter.2 ⟨(hout _).2 ⟨hne, ⟨?_, ?_, ?_, ?_⟩, hsv, hM, ?_⟩, rfl⟩
    · intro e he
      obtain ⟨p, hp, rfl⟩ := Finset.mem_image.1 he
      exact (h1 p hp).1.1
    · intro e he
      obtain ⟨p, hp, rfl⟩ := Finset.mem_image.1 he
      obtain ⟨a, b, hab, heq⟩ := Finset.card_eq_two.1 (h1 p hp).1.2
      refine ⟨a, b, fun hv => hab ?_, heq⟩
      exact hsv a ((h1 p hp).1.1 (by rw [heq]; simp)) b ((h1 p hp).1.1 (by rw [heq]; simp)) hv
    · intro e he e' he' hee
      obtain ⟨p, hp, rfl⟩ := Finset.mem_image.1 he
      obtain ⟨q, hq, rfl⟩ := Finset.mem_image.1 he'
      rw [h2 p hp q hq hee]
    · intro a ha b hb
      refine ReflTransGen.lift id ?_ _ _ (hcon a ha b hb)
      rintro x y ⟨e, he, hx, hy⟩
      exact ⟨_, Finset.mem_image_of_mem _ he, hx, hy⟩
    · intro e he
      obtain ⟨p, hp, rfl⟩ := Finset.mem_image.1 he
      exact ⟨p.2, (h1 p hp).2, rfl⟩
  · intro g hg
    obtain ⟨hg, hn⟩ := Finset.mem_filter.1 hg
    have hg := (hout g).1 hg
    refine SampleGraph.ext hn.symm ?_
    simp only
    rw [Finset.image_image]
    conv_rhs => rw [← Finset.image_id (s := g.edges)]
    apply Finset.image_congr
    intro e he
    obtain ⟨r, hr, heq⟩ := hg.relations e he
    exact Edge.ext rfl (by simp only [Function.comp, id, heq, Rel.label])
  · intro E hE
    simp only
    rw [Finset.image_image]
    conv_rhs => rw [← Finset.image_id (s := E)]
    apply Finset.image_congr
    intro e he
    rfl

/-- The nodes chosen by a choice of values. -/
def chosen (S : Finset V) (p : (v : V) → v ∈ S → X) : Finset (Node V X) := S.attach.image fun v => ⟨v.1, p v.1 v.2⟩

theorem mem_chosen (S : Finset V) (p : (v : V) → v ∈ S → X) (n : Node V X) :
    n ∈ chosen S p ↔ ∃ h : n.var ∈ S, n.val = p n.var h := by
  unfold chosen
  rw [Finset.mem_image]
  constructor
  · rintro ⟨⟨v, hv⟩, -, rfl⟩; exact ⟨hv, rfl⟩
  · rintro ⟨h, he⟩
    refine ⟨⟨n.var, h⟩, Finset.mem_attach _ _, ?_⟩
    cases n; simp_all

theorem card_chosen (S : Finset V) (p : (v : V) → v ∈ S → X) : (chosen S p).card = S.card := by
  unfold chosen
  rw [Finset.card_image_of_injective, Finset.card_attach]
  rintro ⟨v, hv⟩ ⟨w, hw⟩ h
  simp only [Node.mk.injEq] at h
  exact Subtype.ext h.1

theorem chosen_inj (S : Finset V) (p q : (v : V) → v ∈ S → X) (h : chosen S p = chosen S q) : p = q := by
  funext v hv
  have : (⟨v, p v hv⟩ : Node V X) ∈ chosen S q := by rw [← h]; exact (mem_chosen _ _ _).2 ⟨hv, rfl⟩
  obtain ⟨_, h'⟩ := (mem_chosen _ _ _).1 this
  exact h'

/-- Graphs over a given set of variables. -/
theorem card_with_vars (s : Schema V X R) (outs : Finset (SampleGraph V X R)) (hout : ∀ g, g ∈ outs ↔ IsOutcome s g)
    (S : Finset V) (hne : S.Nonempty) :
    ((outs.filter fun g => g.nodes.image Node.var = S).card : ℚ) =
      cK s.rels.card S.card * ∏ v ∈ S, ((s.valuesOf v).card : ℚ) := by
  have hmaps : Set.MapsTo SampleGraph.nodes ((outs.filter fun g => g.nodes.image Node.var = S) : Set (SampleGraph V X R))
      (((S.pi fun v => s.valuesOf v).image (chosen S)) : Set (Finset (Node V X))) := by
    intro g hg
    obtain ⟨hg, hS⟩ := Finset.mem_filter.1 hg
    have hg := (hout g).1 hg
    have hex : ∀ v ∈ S, ∃ x, (⟨v, x⟩ : Node V X) ∈ g.nodes := by
      intro v hv
      rw [← hS] at hv
      obtain ⟨n, hn, rfl⟩ := Finset.mem_image.1 hv
      exact ⟨n.val, hn⟩
    choose p hp using hex
    refine Finset.mem_coe.2 (Finset.mem_image.2 ⟨p, Finset.mem_pi.2 ?_, ?_⟩)
    · intro v hv
      exact (s.mem_valuesOf _ _).2 (hg.values _ (hp v hv))
    · ext n
      rw [mem_chosen]
      constructor
      · rintro ⟨h, he⟩
        have := hp n.var h
        rw [← he] at this
        exact this
      · intro hn
        have hv : n.var ∈ S := by rw [← hS]; exact Finset.mem_image_of_mem _ hn
        refine ⟨hv, ?_⟩
        have := hg.single n hn _ (hp n.var hv) rfl
        exact congrArg Node.val this
  rw [Finset.card_eq_sum_card_fiberwise hmaps, Finset.sum_image fun p _ q _ h => chosen_inj S p q h]
  have hfib : ∀ p ∈ S.pi fun v => s.valuesOf v,
      (((outs.filter fun g => g.nodes.image Node.var = S).filter fun g => g.nodes = chosen S p).card : ℚ) =
        cK s.rels.card S.card := by
    intro p hp
    have himg : (chosen S p).image Node.var = S := by
      ext v
      rw [Finset.mem_image]
      constructor
      · rintro ⟨n, hn, rfl⟩; exact ((mem_chosen _ _ _).1 hn).1
      · intro hv; exact ⟨⟨v, p v hv⟩, (mem_chosen _ _ _).2 ⟨hv, rfl⟩, rfl⟩
    have heq : ((outs.filter fun g => g.nodes.image Node.var = S).filter fun g => g.nodes = chosen S p) =
        outs.filter fun g => g.nodes = chosen S p := by
      ext g
      simp only [Finset.mem_filter]
      constructor
      · rintro ⟨⟨h1, -⟩, h2⟩; exact ⟨h1, h2⟩
      · rintro ⟨h1, h2⟩; exact ⟨⟨h1, by rw [h2, himg]⟩, h2⟩
    rw [heq, card_with_nodes s outs hout (chosen S p), card_conns, card_chosen]
    · obtain ⟨v, hv⟩ := hne
      exact ⟨⟨v, p v hv⟩, (mem_chosen _ _ _).2 ⟨hv, rfl⟩⟩
    · intro a ha b hb hab
      obtain ⟨h1, h2⟩ := (mem_chosen _ _ _).1 ha
      obtain ⟨h3, h4⟩ := (mem_chosen _ _ _).1 hb
      cases a; cases b
      simp only at hab h2 h4
      subst hab
      rw [h2, h4]
    · intro n hn
      obtain ⟨h1, h2⟩ := (mem_chosen _ _ _).1 hn
      rw [h2]
      exact (s.mem_valuesOf _ _).1 (Finset.mem_pi.1 hp n.var h1)
  push_cast
  rw [Finset.sum_congr rfl hfib, Finset.sum_const, Finset.card_pi, nsmul_eq_mul]
  push_cast
  ring

/-- The number of outcomes when all counts are 1. -/
theorem mass_ones (a : Samples V X R) (h : ∀ g c, a.samples.get? g = some c → c = 1) (P : SampleGraph V X R → Prop)
    [DecidablePred P] : mass a P = ((a.graphs.filter P).card : ℤ) := by
  unfold mass
  have : ∀ p ∈ a.items.filter fun p => P p.1, p.2 = 1 := by
    intro p hp
    exact h p.1 p.2 ((a.mem_items p).1 (Finset.mem_filter.1 hp).1)
  rw [Finset.sum_congr rfl this, Finset.sum_const, nsmul_eq_mul, mul_one]
  congr 1
  refine Finset.card_nbij Prod.fst ?_ ?_ ?_
  · intro p hp
    obtain ⟨h1, h2⟩ := Finset.mem_filter.1 hp
    exact Finset.mem_filter.2 ⟨(a.mem_graphs _).2 ⟨p.2, (a.mem_items p).1 h1⟩, h2⟩
  · intro p hp q hq hpq
    have h1 := this p hp
    have h2 := this q hq
    exact Prod.ext hpq (h1.trans h2.symm)
  · intro g hg
    obtain ⟨h1, h2⟩ := Finset.mem_filter.1 hg
    obtain ⟨c, hc⟩ := (a.mem_graphs g).1 h1
    exact ⟨(g, c), Finset.mem_coe.2 (Finset.mem_filter.2 ⟨(a.mem_items (g, c)).2 hc, h2⟩), rfl⟩

/-- **C39.** The number of all outcomes over arbitrary declared variables: over every non-empty set of variables, the number
of choices of values times the number `c_k` of connected graphs given by the recurrence. -/
theorem C39_number_of_outcomes (o : GenOrders V X R) (prov : Nat) (vars : Dict V (Finset X)) (rels : Finset R)
    (sp : Space V X R) (h : allOutcomesGraph o prov vars rels = .ok sp) :
    (sp.outcomes.length : ℚ) = ∑ S ∈ vars.keys.toFinset.powerset with S.Nonempty,
      cK rels.card S.card * ∏ v ∈ S, (((vars.get? v).getD ∅).card : ℚ) := by
  obtain ⟨hs, hv, hr, hget⟩ := allOutcomesGraph_spec o prov vars rels sp h
  have hout : ∀ g, g ∈ sp.outcomes.graphs ↔ IsOutcome ⟨vars, rels⟩ g := by
    intro g
    rw [Samples.mem_graphs]
    constructor
    · rintro ⟨c, hc⟩; exact ((hget g c).1 hc).2
    · intro hg; exact ⟨1, (hget g 1).2 ⟨rfl, hg⟩⟩
  have hlen : sp.outcomes.length = (sp.outcomes.graphs.card : ℤ) := by
    have := mass_ones sp.outcomes (fun g c hc => ((hget g c).1 hc).1) (fun _ => True)
    rw [Finset.filter_true_of_mem (fun _ _ => trivial)] at this
    rw [← this, length_eq_sum]
    unfold mass
    rw [Finset.filter_true_of_mem (fun _ _ => trivial)]
  rw [hlen, Finset.card_eq_sum_card_fiberwise (f := fun g => g.nodes.image Node.var)
    (t := vars.keys.toFinset.powerset.filter Finset.Nonempty)]
  · push_cast
    apply Finset.sum_congr rfl
    intro S hS
    exact card_with_vars ⟨vars, rels⟩ _ hout S (Finset.mem_filter.1 hS).2
  · intro g hg
    have hg := (hout g).1 hg
    refine Finset.mem_coe.2 (Finset.mem_filter.2 ⟨Finset.mem_powerset.2 ?_, hg.nonempty.image _⟩)
    intro v hv
    obtain ⟨n, hn, rfl⟩ := Finset.mem_image.1 hv
    obtain ⟨xs, h1, -⟩ := hg.values n hn
    exact List.mem_toFinset.2 ((Dict.mem_keys _ _).2 ⟨xs, h1⟩)

/-- **C39.** The assertion of the experiment: with `n` variables of `m` values each and `r` relation types the number of
generated outcomes is what `calc_number_of_outcomes` computes (`n_values = m + 1` as "unobserved" is counted). -/
theorem C39_recurrence (o : GenOrders V X R) (prov : Nat) (vars : Dict V (Finset X)) (rels : Finset R)
    (sp : Space V X R) (h : allOutcomesGraph o prov vars rels = .ok sp) (m : ℕ)
    (hm : ∀ v xs, vars.get? v = some xs → xs.card = m) :
    (sp.outcomes.length : ℚ) = calcNumberOfOutcomes vars.keys.length (m + 1) rels.card := by
  rw [C39_number_of_outcomes o prov vars rels sp h]
  have hterm : ∀ S ∈ vars.keys.toFinset.powerset, (if S.Nonempty then
      cK rels.card S.card * ∏ v ∈ S, (((vars.get? v).getD ∅).card : ℚ) else 0) =
      (fun k => if k = 0 then 0 else cK rels.card k * (m : ℚ) ^ k) S.card := by
    intro S hS
    by_cases hne : S.Nonempty
    · simp only
      rw [if_pos hne, if_neg (Finset.card_ne_zero.2 hne)]
      congr 1
      rw [Finset.prod_congr rfl (g := fun _ => (m : ℚ)), Finset.prod_const]
      intro v hv
      obtain ⟨xs, hx⟩ := (Dict.mem_keys _ _).1 (List.mem_toFinset.1 (Finset.mem_powerset.1 hS hv))
      rw [hx, Option.getD_some, hm v xs hx]
    · simp only
      rw [if_neg hne, if_pos]
      rw [Finset.not_nonempty_iff_eq_empty] at hne
      rw [hne]; rfl
  rw [Finset.sum_filter, Finset.sum_congr rfl hterm, Finset.sum_powerset_apply_card (fun k => if k = 0 then (0 : ℚ) else cK rels.card k * (m : ℚ) ^ k), List.toFinset_card_of_nodup vars.nodup_keys]
  unfold calcNumberOfOutcomes
  rw [Finset.range_eq_Ico, ← Finset.sum_Ioo_add_eq_sum_Ico (Nat.succ_pos _)]
  have hI : Finset.Ioo 0 (vars.keys.length + 1) = Finset.Ico 1 (vars.keys.length + 1) := by ext i; simp [Nat.succ_le_iff]
  rw [hI, if_pos rfl, nsmul_zero, add_zero]
  apply Finset.sum_congr rfl
  intro k hk
  have : k ≠ 0 := by have := (Finset.mem_Ico.1 hk).1; omega
  rw [if_neg this, nsmul_eq_mul]
  push_cast
  ring

/-- Renaming the nodes of a graph. -/
def renameGraph (σ : Node V X → Node V X) (g : SampleGraph V X R) : SampleGraph V X R :=
  ⟨g.nodes.image σ, g.edges.image fun e => ⟨e.endpoints.image σ, e.relation⟩⟩

theorem rename_isOutcome (s : Schema V X R) (σ : Node V X → Node V X) (hinj : Function.Injective σ)
    (hvar : ∀ n, (σ n).var = n.var)
    (hval : ∀ n xs, s.vars.get? n.var = some xs → n.val ∈ xs → (σ n).val ∈ xs) (g : SampleGraph V X R)
    (hg : IsOutcome s g) : IsOutcome s (renameGraph σ g) := by
  refine ⟨hg.nonempty.image _, ⟨?_, ?_, ?_, ?_⟩, ?_, ?_, ?_⟩
  · intro e he
    obtain ⟨f, hf, rfl⟩ := Finset.mem_image.1 he
    exact Finset.image_subset_image (hg.wf.closed f hf)
  · intro e he
    obtain ⟨f, hf, rfl⟩ := Finset.mem_image.1 he
    obtain ⟨a, b, hab, heq⟩ := hg.wf.good f hf
    exact ⟨σ a, σ b, by rwa [hvar, hvar], by simp only [heq, Finset.image_insert, Finset.image_singleton]⟩
  · intro e he e' he' hee
    obtain ⟨f, hf, rfl⟩ := Finset.mem_image.1 he
    obtain ⟨f', hf', rfl⟩ := Finset.mem_image.1 he'
    rw [hg.wf.onePer f hf f' hf' (Finset.image_injective hinj hee)]
  · intro a ha b hb
    obtain ⟨a', ha', rfl⟩ := Finset.mem_image.1 (Finset.mem_coe.1 ha)
    obtain ⟨b', hb', rfl⟩ := Finset.mem_image.1 (Finset.mem_coe.1 hb)
    refine ReflTransGen.lift σ ?_ _ _ (hg.wf.conn a' ha' b' hb')
    rintro x y ⟨e, he, hx, hy⟩
    exact ⟨_, Finset.mem_image_of_mem _ he, Finset.mem_image_of_mem _ hx, Finset.mem_image_of_mem _ hy⟩
  · intro a ha b hb hab
    obtain ⟨a', ha', rfl⟩ := Finset.mem_image.1 ha
    obtain ⟨b', hb', rfl⟩ := Finset.mem_image.1 hb
    rw [hvar, hvar] at hab
    rw [hg.single a' ha' b' hb' hab]
  · intro n hn
    obtain ⟨n', hn', rfl⟩ := Finset.mem_image.1 hn
    obtain ⟨xs, h1, h2⟩ := hg.values n' hn'
    exact ⟨xs, by rw [hvar]; exact h1, hval n' xs h1 h2⟩
  · intro e he
    obtain ⟨f, hf, rfl⟩ := Finset.mem_image.1 he
    exact hg.relations f hf

theorem rename_rename (σ : Node V X → Node V X) (h : ∀ n, σ (σ n) = n) (g : SampleGraph V X R) :
    renameGraph σ (renameGraph σ g) = g := by
  have hc : σ ∘ σ = id := funext h
  refine SampleGraph.ext ?_ ?_
  · simp only [renameGraph]
    rw [Finset.image_image, hc, Finset.image_id]
  · simp only [renameGraph]
    rw [Finset.image_image]
    conv_rhs => rw [← Finset.image_id (s := g.edges)]
    apply Finset.image_congr
    intro e _
    refine Edge.ext ?_ rfl
    simp only [Function.comp, id]
    rw [Finset.image_image, hc, Finset.image_id]

/-- **C40.** In the graph of all outcomes every two values of a variable occur in the same number of outcomes. -/
theorem C40_symmetric (o : GenOrders V X R) (prov : Nat) (vars : Dict V (Finset X)) (rels : Finset R)
    (sp : Space V X R) (h : allOutcomesGraph o prov vars rels = .ok sp) (v : V) (xs : Finset X)
    (hv : vars.get? v = some xs) (x y : X) (hx : x ∈ xs) (hy : y ∈ xs) :
    mass sp.outcomes (HasValue v x) = mass sp.outcomes (HasValue v y) := by
  obtain ⟨hs, -, -, hget⟩ := allOutcomesGraph_spec o prov vars rels sp h
  have hone := fun g c hc => ((hget g c).1 hc).1
  rw [mass_ones _ hone, mass_ones _ hone]
  congr 1
  have hout : ∀ g, g ∈ sp.outcomes.graphs ↔ IsOutcome ⟨vars, rels⟩ g := by
    intro g
    rw [Samples.mem_graphs]
    constructor
    · rintro ⟨c, hc⟩; exact ((hget g c).1 hc).2
    · intro hg; exact ⟨1, (hget g 1).2 ⟨rfl, hg⟩⟩
  have hvar : ∀ n : Node V X, (Equiv.swap (⟨v, x⟩ : Node V X) ⟨v, y⟩ n).var = n.var := by
    intro n
    rw [Equiv.swap_apply_def]
    split
    · rename_i h; rw [h]
    · split
      · rename_i h; rw [h]
      · rfl
  have hval : ∀ (n : Node V X) ys, vars.get? n.var = some ys → n.val ∈ ys →
      (Equiv.swap (⟨v, x⟩ : Node V X) ⟨v, y⟩ n).val ∈ ys := by
    intro n ys hys hn
    rw [Equiv.swap_apply_def]
    split
    · rename_i h; rw [h] at hys; simp only at hys; rw [hv] at hys; cases hys; exact hy
    · split
      · rename_i h; rw [h] at hys; simp only at hys; rw [hv] at hys; cases hys; exact hx
      · exact hn
  have hren : ∀ g, IsOutcome ⟨vars, rels⟩ g → IsOutcome ⟨vars, rels⟩ (renameGraph (Equiv.swap (⟨v, x⟩ : Node V X) ⟨v, y⟩) g) :=
    fun g hg => rename_isOutcome ⟨vars, rels⟩ _ (Equiv.injective _) hvar hval g hg
  refine Finset.card_nbij' (renameGraph (Equiv.swap (⟨v, x⟩ : Node V X) ⟨v, y⟩))
    (renameGraph (Equiv.swap (⟨v, x⟩ : Node V X) ⟨v, y⟩)) ?_ ?_ ?_ ?_
  · intro g hg
    obtain ⟨h1, h2⟩ := Finset.mem_filter.1 hg
    refine Finset.mem_filter.2 ⟨(hout _).2 (hren g ((hout g).1 h1)), ?_⟩
    exact Finset.mem_image.2 ⟨_, h2, Equiv.swap_apply_left _ _⟩
  · intro g hg
    obtain ⟨h1, h2⟩ := Finset.mem_filter.1 hg
    refine Finset.mem_filter.2 ⟨(hout _).2 (hren g ((hout g).1 h1)), ?_⟩
    exact Finset.mem_image.2 ⟨_, h2, Equiv.swap_apply_right _ _⟩
  · intro g _; exact rename_rename _ (Equiv.swap_apply_self _ _) g
  · intro g _; exact rename_rename _ (Equiv.swap_apply_self _ _) g

/-- Joining a new node to all nodes of the graph. -/
def starJoin (n : Node V X) (r : R) (g : SampleGraph V X R) : SampleGraph V X R :=
  ⟨insert n g.nodes, g.edges ∪ g.nodes.image fun a => ⟨{n, a}, .plain r⟩⟩

theorem starJoin_isOutcome (s : Schema V X R) (n : Node V X) (r : R) (hr : r ∈ s.rels)
    (hn : ∃ xs, s.vars.get? n.var = some xs ∧ n.val ∈ xs) (g : SampleGraph V X R) (hg : IsOutcome s g)
    (hnot : ¬ HasVar n.var g) : IsOutcome s (starJoin n r g) := by
  have hne : ∀ a ∈ g.nodes, n.var ≠ a.var := fun a ha he => hnot ⟨a, ha, he.symm⟩
  have hnn : n ∉ g.nodes := fun h => hnot ⟨n, h, rfl⟩
  have hstar : ∀ a ∈ insert n g.nodes, ReflTransGen (Linked Edge.endpoints (starJoin n r g).edges) n a := by
    intro a ha
    rcases Finset.mem_insert.1 ha with rfl | ha
    · exact .refl
    · exact .single ⟨_, Finset.mem_union_right _ (Finset.mem_image_of_mem _ ha), by simp, by simp⟩
  refine ⟨⟨n, Finset.mem_insert_self _ _⟩, ⟨?_, ?_, ?_, ?_⟩, ?_, ?_, ?_⟩
  · intro e he
    rcases Finset.mem_union.1 he with he | he
    · exact (hg.wf.closed e he).trans (Finset.subset_insert _ _)
    · obtain ⟨a, ha, rfl⟩ := Finset.mem_image.1 he
      intro b hb
      rcases Finset.mem_insert.1 hb with rfl | hb
      · exact Finset.mem_insert_self _ _
      · rw [Finset.mem_singleton.1 hb]; exact Finset.mem_insert_of_mem ha
  · intro e he
    rcases Finset.mem_union.1 he with he | he
    · exact hg.wf.good e he
    · obtain ⟨a, ha, rfl⟩ := Finset.mem_image.1 he
      exact ⟨n, a, hne a ha, rfl⟩
  · intro e he e' he' hee
    rcases Finset.mem_union.1 he with he | he <;> rcases Finset.mem_union.1 he' with he' | he'
    · exact hg.wf.onePer e he e' he' hee
    · obtain ⟨a, ha, rfl⟩ := Finset.mem_image.1 he'
      exact absurd (hg.wf.closed e he (by rw [hee]; simp)) hnn
    · obtain ⟨a, ha, rfl⟩ := Finset.mem_image.1 he
      exact absurd (hg.wf.closed e' he' (by rw [← hee]; simp)) hnn
    · obtain ⟨a, ha, rfl⟩ := Finset.mem_image.1 he
      obtain ⟨b, hb, rfl⟩ := Finset.mem_image.1 he'
      simp only at hee
      exact Edge.ext hee rfl
  · intro a ha b hb
    exact (reach_symm (hstar a ha)).trans (hstar b hb)
  · intro a ha b hb hab
    rcases Finset.mem_insert.1 ha with ha' | ha' <;> rcases Finset.mem_insert.1 hb with hb' | hb'
    · rw [ha', hb']
    · rw [ha'] at hab; exact absurd hab (hne b hb')
    · rw [hb'] at hab; exact absurd hab.symm (hne a ha')
    · exact hg.single a ha' b hb' hab
  · intro a ha
    rcases Finset.mem_insert.1 ha with rfl | ha
    · exact hn
    · exact hg.values a ha
  · intro e he
    rcases Finset.mem_union.1 he with he | he
    · exact hg.relations e he
    · obtain ⟨a, ha, rfl⟩ := Finset.mem_image.1 he
      exact ⟨r, hr, rfl⟩

theorem starJoin_inj (s : Schema V X R) (n : Node V X) (r : R) (g g' : SampleGraph V X R) (hg : IsOutcome s g)
    (hg' : IsOutcome s g') (hn : ¬ HasVar n.var g) (hn' : ¬ HasVar n.var g') (h : starJoin n r g = starJoin n r g') : g = g' := by
  have key : ∀ g g' : SampleGraph V X R, IsOutcome s g → ¬ HasVar n.var g → starJoin n r g = starJoin n r g' →
      g.nodes ⊆ g'.nodes ∧ g.edges ⊆ g'.edges := by
    intro g g' hg hn h
    have hnn : n ∉ g.nodes := fun h => hn ⟨n, h, rfl⟩
    constructor
    · intro a ha
      have : a ∈ (starJoin n r g').nodes := by rw [← h]; exact Finset.mem_insert_of_mem ha
      rcases Finset.mem_insert.1 this with rfl | h
      · exact absurd ha hnn
      · exact h
    · intro e he
      have : e ∈ (starJoin n r g').edges := by rw [← h]; exact Finset.mem_union_left _ he
      rcases Finset.mem_union.1 this with h | h
      · exact h
      · obtain ⟨a, ha, rfl⟩ := Finset.mem_image.1 h
        exact absurd (hg.wf.closed _ he (by simp)) hnn
  obtain ⟨a1, a2⟩ := key g g' hg hn h
  obtain ⟨b1, b2⟩ := key g' g hg' hn' h.symm
  exact SampleGraph.ext (a1.antisymm b1) (a2.antisymm b2)

/-- **C40.** Every value of a variable occurs in more outcomes than the variable is unobserved in. -/
theorem C40_more_than_unobserved (o : GenOrders V X R) (prov : Nat) (vars : Dict V (Finset X)) (rels : Finset R)
    (sp : Space V X R) (h : allOutcomesGraph o prov vars rels = .ok sp) (v : V) (xs : Finset X)
    (hv : vars.get? v = some xs) (x : X) (hx : x ∈ xs) :
    mass sp.outcomes (fun g => ¬ HasVar v g) < mass sp.outcomes (HasValue v x) := by
  obtain ⟨hs, -, ⟨r, hr⟩, hget⟩ := allOutcomesGraph_spec o prov vars rels sp h
  have hone := fun g c hc => ((hget g c).1 hc).1
  rw [mass_ones _ hone, mass_ones _ hone]
  have hout : ∀ g, g ∈ sp.outcomes.graphs ↔ IsOutcome ⟨vars, rels⟩ g := by
    intro g
    rw [Samples.mem_graphs]
    constructor
    · rintro ⟨c, hc⟩; exact ((hget g c).1 hc).2
    · intro hg; exact ⟨1, (hget g 1).2 ⟨rfl, hg⟩⟩
  have himg : ((sp.outcomes.graphs.filter fun g => ¬ HasVar v g).image (starJoin ⟨v, x⟩ r)).card =
      (sp.outcomes.graphs.filter fun g => ¬ HasVar v g).card := by
    apply Finset.card_image_of_injOn
    intro g hg g' hg' heq
    obtain ⟨h1, h2⟩ := Finset.mem_filter.1 hg
    obtain ⟨h1', h2'⟩ := Finset.mem_filter.1 hg'
    exact starJoin_inj ⟨vars, rels⟩ ⟨v, x⟩ r g g' ((hout g).1 h1) ((hout g').1 h1') h2 h2' heq
  rw [← himg]
  have hlt : ((sp.outcomes.graphs.filter fun g => ¬ HasVar v g).image (starJoin ⟨v, x⟩ r)).card <
      (sp.outcomes.graphs.filter (HasValue v x)).card := by
    apply Finset.card_lt_card
    rw [Finset.ssubset_iff_of_subset]
    · refine ⟨⟨{⟨v, x⟩}, ∅⟩, Finset.mem_filter.2 ⟨(hout _).2 (isOutcome_single _ _ ⟨xs, hv, hx⟩), by simp [HasValue]⟩, ?_⟩
      intro hmem
      obtain ⟨g, hg, heq⟩ := Finset.mem_image.1 hmem
      obtain ⟨h1, h2⟩ := Finset.mem_filter.1 hg
      obtain ⟨a, ha⟩ := ((hout g).1 h1).nonempty
      have : (⟨{⟨v, x⟩, a}, .plain r⟩ : Edge V X R) ∈ (starJoin ⟨v, x⟩ r g).edges :=
        Finset.mem_union_right _ (Finset.mem_image_of_mem _ ha)
      rw [heq] at this
      simp at this
    · intro g' hg'
      obtain ⟨g, hg, rfl⟩ := Finset.mem_image.1 hg'
      obtain ⟨h1, h2⟩ := Finset.mem_filter.1 hg
      exact Finset.mem_filter.2 ⟨(hout _).2 (starJoin_isOutcome _ ⟨v, x⟩ r hr ⟨xs, hv, hx⟩ g ((hout g).1 h1) h2),
        Finset.mem_insert_self _ _⟩
  exact_mod_cast hlt

/-- Facts used by the marginals of the graph of all outcomes. -/
theorem allOutcomes_facts (o : GenOrders V X R) (prov : Nat) (vars : Dict V (Finset X)) (rels : Finset R)
    (sp : Space V X R) (h : allOutcomesGraph o prov vars rels = .ok sp) :
    Positive sp.outcomes ∧ (∀ g, sp.outcomes.Occurs g → SingleValued g.nodes) ∧ Sound sp ∧
      ∀ v xs x, vars.get? v = some xs → x ∈ xs → ∃ g, sp.outcomes.Occurs g ∧ HasValue v x g := by
  obtain ⟨hs, -, -, hget⟩ := allOutcomesGraph_spec o prov vars rels sp h
  refine ⟨?_, ?_, ?_, ?_⟩
  · intro g c hc; rw [((hget g c).1 hc).1]; norm_num
  · rintro g ⟨c, hc⟩; exact ((hget g c).1 hc).2.single
  · rintro g ⟨c, hc⟩
    have := ((hget g c).1 hc).2
    rw [hs]
    exact ⟨this.values, this.wf.good⟩
  · intro v xs x hv hx
    exact ⟨⟨{⟨v, x⟩}, ∅⟩, ⟨1, (hget _ 1).2 ⟨rfl, isOutcome_single _ _ ⟨xs, hv, hx⟩⟩⟩, by simp [HasValue]⟩

/-- **C40.** The marginal of every variable is uniform in the graph of all outcomes. -/
theorem C40_uniform (o : GenOrders V X R) (prov : Nat) (vars : Dict V (Finset X)) (rels : Finset R)
    (sp : Space V X R) (h : allOutcomesGraph o prov vars rels = .ok sp) (u : X) (oI : Order (SampleGraph V X R × ℤ))
    (oV : Order V) (oN : Order (Node V X)) :
    ∃ d, sp.marginals u oI oV oN none false = .ok d ∧ (∀ v, v ∈ d.keys ↔ v ∈ vars.keys) ∧
      ∀ v m xs, d.get? v = some m → vars.get? v = some xs →
        ∀ x q, m.get? x = some q ↔ x ∈ xs ∧ q = 1 / (xs.card : ℚ) := by
  obtain ⟨hs, hne, -, hget⟩ := allOutcomesGraph_spec o prov vars rels sp h
  obtain ⟨hpos, hsv, hsound, hocc⟩ := allOutcomes_facts o prov vars rels sp h
  obtain ⟨d, hd, hk, hm⟩ := C28_marginals sp u oI oV oN none hpos hsv
  have hval : ∀ v xs x, vars.get? v = some xs → ((∃ g, sp.outcomes.Occurs g ∧ HasValue v x g) ↔ x ∈ xs) := by
    intro v xs x hv
    constructor
    · rintro ⟨g, ⟨c, hc⟩, hg⟩
      obtain ⟨ys, h1, h2⟩ := ((hget g c).1 hc).2.values _ hg
      simp only at h1 h2
      rw [hv] at h1; cases h1; exact h2
    · intro hx; exact hocc v xs x hv hx
  refine ⟨d, hd, ?_, ?_⟩
  · intro v
    rw [hk, Dict.mem_keys]
    constructor
    · rintro ⟨h1, -⟩
      rcases h1 with ⟨_, h1, -⟩ | ⟨-, h1⟩
      · cases h1
      · rw [hs] at h1; exact h1
    · rintro ⟨xs, hv⟩
      obtain ⟨x, hx⟩ := hne v xs hv
      obtain ⟨g, h1, h2⟩ := hocc v xs x hv hx
      exact ⟨Or.inr ⟨Or.inl rfl, xs, by rw [hs]; exact hv⟩, g, h1, _, h2, rfl⟩
  · intro v m xs hdv hv x q
    obtain ⟨hsum, hmv⟩ := hm v m hdv
    rw [hmv, hval v xs x hv]
    refine and_congr_right fun hx => ?_
    have hxpos : 0 < mass sp.outcomes (HasValue v x) := by
      obtain ⟨g, h1, h2⟩ := hocc v xs x hv hx
      exact mass_pos _ hpos _ g h1 h2
    have hvar : mass sp.outcomes (HasVar v) = (xs.card : ℤ) * mass sp.outcomes (HasValue v x) := by
      have : mass sp.outcomes (HasVar v) = ∑ y ∈ xs, mass sp.outcomes (HasValue v y) := by
        unfold mass
        rw [← Finset.sum_biUnion]
        · apply Finset.sum_congr _ fun _ _ => rfl
          ext p
          simp only [Finset.mem_filter, Finset.mem_biUnion]
          constructor
          · rintro ⟨h1, n, hn, rfl⟩
            have h1' := (sp.outcomes.mem_items p).1 h1
            obtain ⟨ys, h3, h4⟩ := ((hget _ _).1 h1').2.values n hn
            simp only at h3
            rw [hv] at h3; cases h3
            exact ⟨n.val, h4, h1, hn⟩
          · rintro ⟨y, hy, h1, h2⟩; exact ⟨h1, _, h2, rfl⟩
        · intro y _ z _ hyz
          rw [Function.onFun, Finset.disjoint_left]
          intro p hp hp'
          obtain ⟨h1, h2⟩ := Finset.mem_filter.1 hp
          obtain ⟨-, h3⟩ := Finset.mem_filter.1 hp'
          have := hsv p.1 ⟨p.2, (sp.outcomes.mem_items p).1 h1⟩ _ h2 _ h3 rfl
          simp only [Node.mk.injEq, true_and] at this
          exact hyz this
      rw [this, Finset.sum_congr rfl fun y hy => C40_symmetric o prov vars rels sp h v xs hv y x hy hx, Finset.sum_const,
        nsmul_eq_mul]
    rw [hvar]
    have hq : (mass sp.outcomes (HasValue v x) : ℚ) ≠ 0 := by exact_mod_cast hxpos.ne'
    have hc : (xs.card : ℚ) ≠ 0 := by exact_mod_cast (Finset.card_pos.2 ⟨x, hx⟩).ne'
    have : (mass sp.outcomes (HasValue v x) : ℚ) / (((xs.card : ℤ) * mass sp.outcomes (HasValue v x) : ℤ) : ℚ) =
        1 / (xs.card : ℚ) := by
      push_cast
      field_simp
    rw [this]

/-- **C40.** The two assertions of the experiment: in the distribution of every folded node of the graph of all outcomes all
values have the same probability, and it differs from that of `'unobserved'`. -/
theorem C40_experiment (o : GenOrders V X R) (prov : Nat) (vars : Dict V (Finset X)) (rels : Finset R)
    (sp : Space V X R) (h : allOutcomesGraph o prov vars rels = .ok sp) (unobs : X) (oI : Order (SampleGraph V X R × ℤ))
    (oN : Order (Node V X)) (oE : Order (Edge V X R)) (oX : Order X) (oC : Order (Node V X × ℤ)) (v : V) (xs : Finset X)
    (hv : vars.get? v = some xs) (hu : unobs ∉ xs) :
    ∃ f N d qu q, sp.foldedGraph oI oN oE = .ok f ∧ f.foldedNode v = some N ∧ N.marginalDistribution unobs oX oC = .ok d ∧
      d.get? unobs = some qu ∧ qu < q ∧ ∀ x, x ≠ unobs → ∀ p, d.get? x = some p ↔ x ∈ xs ∧ p = q := by
  obtain ⟨hs, hne, -, hget⟩ := allOutcomesGraph_spec o prov vars rels sp h
  obtain ⟨hpos, hsv, hsound, hocc⟩ := allOutcomes_facts o prov vars rels sp h
  obtain ⟨x, hx⟩ := hne v xs hv
  obtain ⟨g, hg, hgx⟩ := hocc v xs x hv hx
  obtain ⟨f, hf, -, -, -, hfv, -, hexact, -, hfind⟩ := C31_folded_graph sp oI oN oE hsound
  obtain ⟨N, hN, hNv⟩ := (hfv v).2 ⟨g, hg, _, hgx, rfl⟩
  have hE := hexact N hN
  have hNx : N.values = xs := by
    have := hE.2.1
    rw [hNv, hs] at this
    simp only at this
    rw [hv] at this
    exact (Option.some.inj this).symm
  obtain ⟨d, hd, -, hd1, hd2⟩ := C31_marginal_distribution sp unobs oX oC N hE hsound hpos hsv ⟨g, hg⟩ (by rw [hNx]; exact hu)
  rw [hNv] at hd1 hd2
  rw [hNx] at hd2
  refine ⟨f, N, d, _, (mass sp.outcomes (HasValue v x) : ℚ) / (sp.outcomes.length : ℚ), hf, (hfind v N).2 ⟨hN, hNv⟩, hd, hd1,
    ?_, ?_⟩
  · have hlen : (0 : ℚ) < (sp.outcomes.length : ℚ) := by
      exact_mod_cast lt_of_lt_of_le (mass_pos _ hpos (HasValue v x) g hg hgx) (mass_le_length _ hpos _)
    rw [div_lt_div_iff_of_pos_right hlen]
    exact_mod_cast C40_more_than_unobserved o prov vars rels sp h v xs hv x hx
  · intro y hy p
    rw [hd2 y p hy]
    refine and_congr_right fun hyx => ?_
    rw [C40_symmetric o prov vars rels sp h v xs hv y x hyx hx]

/-- Non-vacuity of C39 and C40: the graph of all outcomes over two variables with two values each is built. -/
example (o : GenOrders ℕ ℕ ℕ) : let vars : Dict ℕ (Finset ℕ) := ⟨[(0, {0, 1}), (1, {0, 1})], by decide⟩
    Returns (allOutcomesGraph o 0 vars {0}) ∧ (∀ v xs, vars.get? v = some xs → xs.card = 2) := by
  intro vars
  have h : ∀ v xs, vars.get? v = some xs → xs = {0, 1} := by
    intro v xs h
    have := List.mem_map_of_mem (f := Prod.snd) ((Dict.mem_entries _ _ _).2 h)
    simp only [vars, List.map_cons, List.map_nil, List.mem_cons, List.not_mem_nil, or_false, or_self] at this
    exact this
  refine ⟨allOutcomesGraph_ok o 0 vars {0} (by simp [vars]) (by simp) ?_, ?_⟩
  · intro v xs hv; rw [h v xs hv]; simp
  · intro v xs hv; rw [h v xs hv]; rfl

end
end Verif
