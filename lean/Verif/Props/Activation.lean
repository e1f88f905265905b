import Verif.Lemmas.Activation
import Verif.Props.Conditional
import Verif.Props.Folded
import Verif.Props.Belt
import Mathlib.Algebra.BigOperators.Ring.Finset

/-!
# `activation_graph` (conditional_graph.py 59-113): C35, C36
-/

set_option linter.unusedSectionVars false

open Relation

namespace Verif

section
variable {V X R : Type} [DecidableEq V] [DecidableEq X] [DecidableEq R]

/-- Number of components of a sample. -/
def graphSize (g : SampleGraph V X R) : ℕ := g.nodes.card + g.edges.card

/-- The node is outside the evidence and reached from it by allowed edges of the sample. -/
def ReachedFrom (f : Option (Finset (Rel V R))) (ev g : SampleGraph V X R) (n : Node V X) : Prop :=
  n ∉ ev.nodes ∧ ∃ c ∈ ev.nodes, ReflTransGen (Adj g.edges f) c n

/-- An allowed edge of the sample joining nodes at different distances from the evidence. -/
def Crossing (f : Option (Finset (Rel V R))) (ev g : SampleGraph V X R) (e : Edge V X R) : Prop :=
  e ∈ g.edges ∧ Allowed f e.relation ∧ ∃ n ∈ e.endpoints, ∃ m ∈ e.endpoints, ∃ k,
    DistIs g.edges f ev.nodes n (k + 1) ∧ DistIs g.edges f ev.nodes m k

/-- The variables and the relation label of an edge. -/
def EdgeOn (P : Finset V) (r : Rel V R) (e : Edge V X R) : Prop := e.endpoints.image Node.var = P ∧ e.relation = r

/-- The number of outcomes with a property that need not be decidable by a program. -/
noncomputable def massOf (a : Samples V X R) (P : SampleGraph V X R → Prop) : ℤ :=
  @mass V X R _ _ _ a P (Classical.decPred P)

/-- The weight of a value in the activation graph: for a value of the evidence the share of outcomes containing the evidence, for
other values the outcomes in which it is reached from the evidence, each weighted with the share of the evidence in it. -/
noncomputable def activationWeight (a : Samples V X R) (f : Option (Finset (Rel V R))) (ev : SampleGraph V X R) (n : Node V X) :
    ℚ :=
  open Classical in
  if n ∈ ev.nodes then (massOf a (ContainsGraph ev) : ℚ) / (a.length : ℚ)
  else (∑ p ∈ a.items with ReachedFrom f ev p.1 n, (graphSize ev : ℚ) / (graphSize p.1 : ℚ) * (p.2 : ℚ)) / (a.length : ℚ)

/-- A graph conditioned on a non-empty evidence: sound single valued outcomes all of which are consistent with it. -/
structure ConditionedOn (cs : Space V X R) (ev : SampleGraph V X R) : Prop where
  sound : Sound cs
  single : ∀ g, cs.outcomes.Occurs g → SingleValued g.nodes
  closed : ∀ g, cs.outcomes.Occurs g → ∀ e ∈ g.edges, e.endpoints ⊆ g.nodes
  kept : ∀ g, cs.outcomes.Occurs g → KeptBy ev g
  evNonempty : ev.nodes ≠ ∅
  evSingle : SingleValued ev.nodes
  evClosed : ∀ e ∈ ev.edges, e.endpoints ⊆ ev.nodes
  evGood : ∀ e ∈ ev.edges, GoodEdge e

theorem walk_reach {E : Finset (Edge V X R)} {f : Option (Finset (Rel V R))} : ∀ (k : ℕ) (a b : Node V X), Walk E f k a b →
    ReflTransGen (Adj E f) a b := by
  intro k
  induction k with
  | zero => intro a b h; cases h; exact .refl
  | succ k ih => rintro a b ⟨c, hw, ha⟩; exact (ih a c hw).tail ha

theorem external_spec (oN : Order (Node V X)) (oE : Order (Edge V X R)) (f : Option (Finset (Rel V R)))
    (ev g : SampleGraph V X R) (hg : ∀ e ∈ g.edges, GoodEdge e) (hne : ev.nodes ≠ ∅) :
    ∃ ext, g.externalNodes oN oE ev.nodes f = .ok ext ∧ (∀ n, n ∈ ext.keys ↔ ReachedFrom f ev g n) ∧
      ∀ e, e ∈ ext.vals.toFinset.biUnion id ↔ Crossing f ev g e := by
  obtain ⟨ext, h1, h2, h3, h4⟩ := (C18_external_nodes oN oE g hg ev.nodes f).1 hne
  refine ⟨ext, h1, h2, ?_⟩
  intro e
  simp only [Finset.mem_biUnion, List.mem_toFinset, id]
  constructor
  · rintro ⟨es, hes, he⟩
    rw [Dict.vals, List.mem_map] at hes
    obtain ⟨⟨n, es'⟩, hp, rfl⟩ := hes
    have hn := (Dict.mem_entries _ _ _).1 hp
    obtain ⟨k, hk⟩ := h4 n es' hn
    obtain ⟨a1, a2, a3, m, hm, hd⟩ := (h3 n es' k hn hk e).1 he
    exact ⟨a1, a2, n, a3, m, hm, k, hk, hd⟩
  · rintro ⟨a1, a2, n, a3, m, hm, k, hk, hd⟩
    have hr : n ∈ ext.keys := by
      rw [h2]
      refine ⟨?_, ?_⟩
      · intro hn
        exact absurd ⟨n, hn, rfl⟩ (hk.2 0 (by omega))
      · obtain ⟨c, hc, hw⟩ := hk.1
        exact ⟨c, hc, walk_reach _ _ _ hw⟩
    obtain ⟨es, hes⟩ := (Dict.mem_keys _ _).1 hr
    exact ⟨es, List.mem_map.2 ⟨(n, es), (Dict.mem_entries _ _ _).2 hes, rfl⟩, (h3 n es k hes hk e).2 ⟨a1, a2, a3, m, hm, hd⟩⟩

section outcome
variable {cs : Space V X R} {ev : SampleGraph V X R} (h : ConditionedOn cs ev) (f : Option (Finset (Rel V R)))
  (g : SampleGraph V X R) (hg : cs.outcomes.Occurs g)
include h hg

theorem reach_contains (n : Node V X) (hn : n ∈ ev.nodes) (hm : n ∈ g.nodes) : ContainsGraph ev g := by
  rcases h.kept g hg with hc | hd
  · exact hc
  · exact absurd rfl (hd n hn n hm)

theorem reached_facts (n : Node V X) (hr : ReachedFrom f ev g n) :
    ContainsGraph ev g ∧ n ∈ g.nodes ∧ ∀ m ∈ ev.nodes, m.var ≠ n.var := by
  obtain ⟨hn, c, hc, hw⟩ := hr
  have hcn : c ≠ n := fun he => hn (he ▸ hc)
  have h1 : c ∈ g.nodes := by
    rcases ReflTransGen.cases_head hw with he | ⟨d, ⟨e, he, _, hce, _⟩, _⟩
    · exact absurd he hcn
    · exact h.closed g hg e he hce
  have h2 : n ∈ g.nodes := by
    rcases ReflTransGen.cases_tail hw with he | ⟨d, _, ⟨e, he, _, _, hne⟩⟩
    · exact absurd he.symm hcn
    · exact h.closed g hg e he hne
  have h3 := reach_contains h g hg c hc h1
  refine ⟨h3, h2, ?_⟩
  intro m hm he
  exact hn (h.single g hg m (h3.1 hm) n h2 he ▸ hm)

theorem crossing_facts (e : Edge V X R) (hc : Crossing f ev g e) :
    e ∈ g.edges ∧ ∃ n ∈ e.endpoints, ReachedFrom f ev g n := by
  obtain ⟨he, _, n, hn, _, _, k, hk, _⟩ := hc
  refine ⟨he, n, hn, ?_, ?_⟩
  · intro hne
    exact absurd ⟨n, hne, rfl⟩ (hk.2 0 (by omega))
  · obtain ⟨c, hc, hw⟩ := hk.1
    exact ⟨c, hc, walk_reach _ _ _ hw⟩

theorem crossing_not_query (e e' : Edge V X R) (hc : Crossing f ev g e) (he' : e' ∈ ev.edges) : e.vars ≠ e'.vars := by
  obtain ⟨_, n, hn, hr⟩ := crossing_facts h f g hg e hc
  obtain ⟨_, _, h3⟩ := reached_facts h f g hg n hr
  intro heq
  have : n.var ∈ e'.vars := heq ▸ Finset.mem_image_of_mem _ hn
  obtain ⟨m, hm, hv⟩ := Finset.mem_image.1 this
  exact h3 m (h.evClosed e' he' hm) hv

theorem similarity_selected : ∃ q, g.similarity ev = .ok q ∧
    (ContainsGraph ev g → q = (graphSize ev : ℚ) / (graphSize g : ℚ)) := by
  have hv := C14_value g ev
  have hne : ¬ (g = ⟨∅, ∅⟩ ∧ ev = ⟨∅, ∅⟩) := by
    rintro ⟨_, he⟩
    exact h.evNonempty (by rw [he])
  refine ⟨_, (hv.1 _).2 ⟨hne, rfl⟩, ?_⟩
  rintro ⟨h1, h2⟩
  rw [Finset.inter_eq_right.2 h1, Finset.inter_eq_right.2 h2, Finset.union_eq_left.2 h1, Finset.union_eq_left.2 h2]
  rfl

end outcome

/-- What one outcome contributes to the nodes. -/
def nodeContrib (oN : Order (Node V X)) (oE : Order (Edge V X R)) (f : Option (Finset (Rel V R))) (ev : SampleGraph V X R)
    (p : SampleGraph V X R × ℤ) : List (Node V X × ℚ × Bool) :=
  match p.1.similarity ev, p.1.externalNodes oN oE ev.nodes f with
  | .ok sim, .ok ext => (ext.keys.map fun n => (n, sim * (p.2 : ℚ), false)) ++
      (oN.run (ev.nodes ∩ p.1.nodes)).map fun n => (n, 1 * (p.2 : ℚ), true)
  | _, _ => []

/-- What one outcome contributes to the edges. -/
def edgeContrib (oN : Order (Node V X)) (oE : Order (Edge V X R)) (oQ : Order (Edge V X R × Bool))
    (f : Option (Finset (Rel V R))) (ev : SampleGraph V X R) (p : SampleGraph V X R × ℤ) : List ((Edge V X R × Bool) × ℤ) :=
  match p.1.externalNodes oN oE ev.nodes f with
  | .ok ext => (oQ.run (((ext.vals.toFinset.biUnion id).image fun e => (e, false)) ∪ ev.edges.image fun e => (e, true))).map
      fun q => (q, p.2)
  | _ => []

section contrib
variable {cs : Space V X R} {ev : SampleGraph V X R} (h : ConditionedOn cs ev) (oN : Order (Node V X)) (oE : Order (Edge V X R))
  (oQ : Order (Edge V X R × Bool)) (f : Option (Finset (Rel V R))) (p : SampleGraph V X R × ℤ) (hp : cs.outcomes.Occurs p.1)
include h hp

theorem activationStep_ok (s s' : Dict V (Dict X ℚ × Bool)) (t t' : Dict (Finset V) (Dict (Rel V R) ℤ × Bool))
    (h1 : (nodeContrib oN oE f ev p).foldlM Space.activationNode s = .ok s')
    (h2 : (edgeContrib oN oE oQ f ev p).foldlM Space.activationEdge t = .ok t') :
    Space.activationStep oN oE oQ f ev (s, t) p = .ok (s', t') := by
  obtain ⟨sim, hsim, -⟩ := similarity_selected h p.1 hp
  obtain ⟨ext, hext, hk, -⟩ := external_spec oN oE f ev p.1 (h.sound p.1 hp).2 h.evNonempty
  unfold nodeContrib at h1
  unfold edgeContrib at h2
  unfold Space.activationStep
  rw [hsim, hext] at h1
  rw [hext] at h2
  simp only at h1 h2
  rw [hsim, hext]
  simp only
  rw [if_neg, if_neg, h1]
  · simp only; rw [h2]
  · rw [not_not, Finset.disjoint_left]
    intro q hq hq'
    rw [Finset.mem_image] at hq hq'
    obtain ⟨_, _, rfl⟩ := hq
    obtain ⟨_, _, h'⟩ := hq'
    cases h'
  · rw [not_not, Finset.disjoint_left]
    intro n hn hn'
    rw [List.mem_toFinset, hk] at hn
    exact hn.1 (Finset.mem_inter.1 hn').1

theorem mem_nodeContrib (t : Node V X × ℚ × Bool) (ht : t ∈ nodeContrib oN oE f ev p) :
    t.1 ∈ p.1.nodes ∧ t.2.2 = decide (t.1.var ∈ ev.includedVariables) := by
  obtain ⟨sim, hsim, -⟩ := similarity_selected h p.1 hp
  obtain ⟨ext, hext, hk, -⟩ := external_spec oN oE f ev p.1 (h.sound p.1 hp).2 h.evNonempty
  unfold nodeContrib at ht
  rw [hsim, hext] at ht
  simp only [List.mem_append, List.mem_map] at ht
  rcases ht with ⟨n, hn, rfl⟩ | ⟨n, hn, rfl⟩
  · obtain ⟨_, h2, h3⟩ := reached_facts h f p.1 hp n ((hk n).1 hn)
    refine ⟨h2, ?_⟩
    simp only
    rw [eq_comm, decide_eq_false_iff_not]
    intro hv
    obtain ⟨m, hm, hv⟩ := Finset.mem_image.1 hv
    exact h3 m hm hv
  · rw [oN.mem, Finset.mem_inter] at hn
    refine ⟨hn.2, ?_⟩
    simp only
    rw [eq_comm, decide_eq_true_eq]
    exact Finset.mem_image_of_mem _ hn.1

open Classical in
theorem weight_nodeContrib (n : Node V X) : weightOf (nodeContrib oN oE f ev p) n =
    if n ∈ ev.nodes then (if ContainsGraph ev p.1 then (p.2 : ℚ) else 0)
    else if ReachedFrom f ev p.1 n then (graphSize ev : ℚ) / (graphSize p.1 : ℚ) * (p.2 : ℚ) else 0 := by
  obtain ⟨sim, hsim, hs⟩ := similarity_selected h p.1 hp
  obtain ⟨ext, hext, hk, -⟩ := external_spec oN oE f ev p.1 (h.sound p.1 hp).2 h.evNonempty
  unfold nodeContrib
  rw [hsim, hext]
  simp only
  rw [weightOf_append, weightOf_const _ ext.nodup_keys, weightOf_const _ (oN.nodup _)]
  simp only [hk, oN.mem, Finset.mem_inter]
  by_cases hn : n ∈ ev.nodes
  · have h1 : ¬ ReachedFrom f ev p.1 n := fun hr => hr.1 hn
    have h2 : n ∈ p.1.nodes ↔ ContainsGraph ev p.1 :=
      ⟨fun hm => reach_contains h p.1 hp n hn hm, fun hc => hc.1 hn⟩
    simp only [hn, h1, h2, if_true, if_false, true_and, zero_add, one_mul]
  · simp only [hn, if_false, false_and, add_zero]
    by_cases hr : ReachedFrom f ev p.1 n
    · rw [if_pos hr, if_pos hr, hs (reached_facts h f p.1 hp n hr).1]
    · rw [if_neg hr, if_neg hr]

theorem mem_edgeContrib (e : Edge V X R) (b : Bool) (c : ℤ) : ((e, b), c) ∈ edgeContrib oN oE oQ f ev p ↔
    c = p.2 ∧ ((b = false ∧ Crossing f ev p.1 e) ∨ (b = true ∧ e ∈ ev.edges)) := by
  obtain ⟨ext, hext, -, hk⟩ := external_spec oN oE f ev p.1 (h.sound p.1 hp).2 h.evNonempty
  unfold edgeContrib
  rw [hext]
  simp only [List.mem_map, oQ.mem, Finset.mem_union, Finset.mem_image, hk]
  constructor
  · rintro ⟨q, hq, heq⟩
    cases heq
    refine ⟨rfl, ?_⟩
    rcases hq with ⟨e', he', heq⟩ | ⟨e', he', heq⟩
    · cases heq; exact Or.inl ⟨rfl, he'⟩
    · cases heq; exact Or.inr ⟨rfl, he'⟩
  · rintro ⟨rfl, ⟨rfl, hc⟩ | ⟨rfl, hc⟩⟩
    · exact ⟨(e, false), Or.inl ⟨e, hc, rfl⟩, rfl⟩
    · exact ⟨(e, true), Or.inr ⟨e, hc, rfl⟩, rfl⟩

end contrib

theorem endpoints_of_vars {ns : Finset (Node V X)} (hs : SingleValued ns) (e e' : Edge V X R) (he : e.endpoints ⊆ ns)
    (he' : e'.endpoints ⊆ ns) (hv : e.vars = e'.vars) : e.endpoints = e'.endpoints := by
  have key : ∀ a b : Edge V X R, a.endpoints ⊆ ns → b.endpoints ⊆ ns → a.vars = b.vars → a.endpoints ⊆ b.endpoints := by
    intro a b ha hb hab n hn
    have : n.var ∈ b.vars := hab ▸ Finset.mem_image_of_mem _ hn
    obtain ⟨m, hm, hv⟩ := Finset.mem_image.1 this
    rwa [← hs m (hb hm) n (ha hn) hv]
  exact Finset.Subset.antisymm (key e e' he he' hv) (key e' e he' he hv.symm)

theorem nodup_edgeContrib {cs : Space V X R} {ev : SampleGraph V X R} (h : ConditionedOn cs ev) (oN : Order (Node V X))
    (oE : Order (Edge V X R)) (oQ : Order (Edge V X R × Bool)) (f : Option (Finset (Rel V R))) (p : SampleGraph V X R × ℤ)
    (hp : cs.outcomes.Occurs p.1) : (((edgeContrib oN oE oQ f ev p).map edgeTally).map Prod.fst).Nodup := by
  rw [List.map_map]
  apply List.Nodup.map_on
  · rintro ⟨⟨e, b⟩, c⟩ h1 ⟨⟨e', b'⟩, c'⟩ h2 heq
    simp only [Function.comp_apply, edgeTally, Prod.mk.injEq] at heq
    obtain ⟨hv, hr⟩ := heq
    rw [mem_edgeContrib h oN oE oQ f p hp] at h1 h2
    obtain ⟨rfl, h1⟩ := h1
    obtain ⟨rfl, h2⟩ := h2
    rcases h1 with ⟨rfl, h1⟩ | ⟨rfl, h1⟩ <;> rcases h2 with ⟨rfl, h2⟩ | ⟨rfl, h2⟩
    · have := endpoints_of_vars (h.single p.1 hp) e e' (h.closed p.1 hp e h1.1) (h.closed p.1 hp e' h2.1) hv
      rw [Edge.ext this hr]
    · exact absurd hv (crossing_not_query h f p.1 hp e e' h1 h2)
    · exact absurd hv.symm (crossing_not_query h f p.1 hp e' e h2 h1)
    · have := endpoints_of_vars h.evSingle e e' (h.evClosed e h1) (h.evClosed e' h2) hv
      rw [Edge.ext this hr]
  · unfold edgeContrib
    cases p.1.externalNodes oN oE ev.nodes f with
    | error e => simp
    | ok ext =>
      simp only
      apply List.Nodup.map_on
      · intro a _ b _ hab; exact (Prod.mk.inj hab).1
      · exact oQ.nodup _

theorem run_occurs (oI : Order (SampleGraph V X R × ℤ)) (a : Samples V X R) (p : SampleGraph V X R × ℤ) (hp : p ∈ oI.run a.items) :
    a.Occurs p.1 := by
  rw [oI.mem, Samples.mem_items] at hp
  exact ⟨_, hp⟩

/-- The nodes of an activation graph are exact: one per declared variable, marked if the variable is in the evidence, with the
weight of every declared value. -/
def ExactActiveNodes (cs : Space V X R) (f : Option (Finset (Rel V R))) (ev : SampleGraph V X R) (ag : ActivationGraph V X R) :
    Prop :=
  (ag.nodes.map ActiveNode.var).Nodup ∧
  (∀ v, (∃ N ∈ ag.nodes, N.var = v) ↔ ∃ xs, cs.schema.vars.get? v = some xs) ∧
  ∀ N ∈ ag.nodes, (N.inQuery = true ↔ HasVar N.var ev) ∧
    ∀ x w, N.values.get? x = some w ↔
      (∃ xs, cs.schema.vars.get? N.var = some xs ∧ x ∈ xs) ∧ w = activationWeight cs.outcomes f ev ⟨N.var, x⟩

/-- The edges of an activation graph are exact: pairs linked in the evidence are marked and each of its relations is counted
for every outcome, for the other pairs the outcomes are counted in which the edge joins nodes at different
distances from the evidence. -/
def ExactActiveEdges (cs : Space V X R) (f : Option (Finset (Rel V R))) (ev : SampleGraph V X R) (ag : ActivationGraph V X R) :
    Prop :=
  (ag.edges.map ActiveEdge.endpoints).Nodup ∧
  (∀ P, (∃ A ∈ ag.edges, A.endpoints = P) ↔
    (∃ r, ∃ e ∈ ev.edges, EdgeOn P r e) ∨ ∃ g, cs.outcomes.Occurs g ∧ ∃ r e, Crossing f ev g e ∧ EdgeOn P r e) ∧
  ∀ A ∈ ag.edges,
    (A.inQuery = true ↔ ∃ r, ∃ e ∈ ev.edges, EdgeOn A.endpoints r e) ∧
    (A.inQuery = true → ∀ r c, A.relations.get? r = some c ↔
      (∃ e ∈ ev.edges, EdgeOn A.endpoints r e) ∧ c = cs.outcomes.length) ∧
    (A.inQuery = false → ∀ r c, A.relations.get? r = some c ↔
      (∃ g, cs.outcomes.Occurs g ∧ ∃ e, Crossing f ev g e ∧ EdgeOn A.endpoints r e) ∧
      c = massOf cs.outcomes (fun g => ∃ e, Crossing f ev g e ∧ EdgeOn A.endpoints r e))

theorem sum_weights (oI : Order (SampleGraph V X R × ℤ)) (oN : Order (Node V X)) (oE : Order (Edge V X R))
    (f : Option (Finset (Rel V R))) (cs : Space V X R) (ev : SampleGraph V X R) (h : ConditionedOn cs ev) (n : Node V X) :
    weightOf ((oI.run cs.outcomes.items).flatMap (nodeContrib oN oE f ev)) n / (cs.outcomes.length : ℚ) =
      activationWeight cs.outcomes f ev n := by
  classical
  have h1 : weightOf ((oI.run cs.outcomes.items).flatMap (nodeContrib oN oE f ev)) n =
      ∑ p ∈ cs.outcomes.items, if n ∈ ev.nodes then (if ContainsGraph ev p.1 then (p.2 : ℚ) else 0)
        else if ReachedFrom f ev p.1 n then (graphSize ev : ℚ) / (graphSize p.1 : ℚ) * (p.2 : ℚ) else 0 := by
    rw [weightOf_flatMap, oI.sum_map]
    apply Finset.sum_congr rfl
    intro p hp
    rw [Samples.mem_items] at hp
    rw [weight_nodeContrib h oN oE f p ⟨_, hp⟩ n]
  rw [h1]
  unfold activationWeight massOf mass
  by_cases hn : n ∈ ev.nodes
  · simp only [if_pos hn]
    congr 1
    rw [Finset.sum_filter, Int.cast_sum]
    apply Finset.sum_congr rfl
    intro p _
    by_cases hc : ContainsGraph ev p.1 <;> simp [hc]
  · simp only [if_neg hn]
    congr 1
    rw [Finset.sum_filter]

/-- **C35, C36.** For a conditioned graph with some outcomes of positive counts, `activation_graph` returns, and nodes and
edges are exact. -/
theorem C35_C36_activation_graph (cs : Space V X R) (ev : SampleGraph V X R) (h : ConditionedOn cs ev) (hpos : Positive cs.outcomes)
    (hne : ∃ g, cs.outcomes.Occurs g) (oI : Order (SampleGraph V X R × ℤ)) (oN : Order (Node V X)) (oE : Order (Edge V X R))
    (oQ : Order (Edge V X R × Bool)) (oX : Order X) (f : Option (Finset (Rel V R))) :
    ∃ ag, cs.activationGraph oI oN oE oQ oX f ev = .ok ag ∧ ag.n = cs.outcomes.length ∧
      ExactActiveNodes cs f ev ag ∧ ExactActiveEdges cs f ev ag := by
  classical
  have hocc := run_occurs oI cs.outcomes
  obtain ⟨gv, hgv, ninv⟩ := activationNode_loop cs.schema.vars _ _ (activationInit_inv cs oX ev)
    ((oI.run cs.outcomes.items).flatMap (nodeContrib oN oE f ev)) (by
      intro t ht
      obtain ⟨p, hp, ht⟩ := List.mem_flatMap.1 ht
      obtain ⟨h1, h2⟩ := mem_nodeContrib h oN oE f p (hocc p hp) t ht
      exact ⟨(h.sound p.1 (hocc p hp)).1 t.1 h1, h2⟩)
  have hmemE : ∀ e b c, ((e, b), c) ∈ (oI.run cs.outcomes.items).flatMap (edgeContrib oN oE oQ f ev) ↔
      ∃ p ∈ oI.run cs.outcomes.items, c = p.2 ∧ ((b = false ∧ Crossing f ev p.1 e) ∨ (b = true ∧ e ∈ ev.edges)) := by
    intro e b c
    rw [List.mem_flatMap]
    constructor
    · rintro ⟨p, hp, ht⟩
      exact ⟨p, hp, (mem_edgeContrib h oN oE oQ f p (hocc p hp) e b c).1 ht⟩
    · rintro ⟨p, hp, ht⟩
      exact ⟨p, hp, (mem_edgeContrib h oN oE oQ f p (hocc p hp) e b c).2 ht⟩
  obtain ⟨gr, hgr, einv⟩ := activationEdge_loop ((oI.run cs.outcomes.items).flatMap (edgeContrib oN oE oQ f ev)) (by
    rintro ⟨⟨e, b⟩, c⟩ ht ⟨⟨e', b'⟩, c'⟩ hs hv
    obtain ⟨p, hp, _, h1⟩ := (hmemE e b c).1 ht
    obtain ⟨q, hq, _, h2⟩ := (hmemE e' b' c').1 hs
    simp only at hv ⊢
    rcases h1 with ⟨rfl, h1⟩ | ⟨rfl, h1⟩ <;> rcases h2 with ⟨rfl, h2⟩ | ⟨rfl, h2⟩
    · rfl
    · exact absurd hv (crossing_not_query h f p.1 (hocc p hp) e e' h1 h2)
    · exact absurd hv.symm (crossing_not_query h f q.1 (hocc q hq) e' e h2 h1)
    · rfl)
  have hloop : (oI.run cs.outcomes.items).foldlM (Space.activationStep oN oE oQ f ev) (cs.activationInit oX ev, Dict.empty) =
      .ok (gv, gr) :=
    foldlM_pair _ Space.activationNode Space.activationEdge (nodeContrib oN oE f ev) (edgeContrib oN oE oQ f ev) _
      (fun p hp s t s' t' h1 h2 => activationStep_ok h oN oE oQ f p (hocc p hp) s s' t t' h1 h2) _ _ _ _ hgv hgr
  have tinv := tally_inv (((oI.run cs.outcomes.items).flatMap (edgeContrib oN oE oQ f ev)).map edgeTally)
  rw [← einv.tally] at tinv
  obtain ⟨g0, hg0⟩ := hne
  have hlen : cs.outcomes.length ≠ 0 := by
    have h1 := mass_pos cs.outcomes hpos (fun _ => True) g0 hg0 trivial
    have h2 := mass_le_length cs.outcomes hpos (fun _ => True)
    omega
  -- the keys of the relations
  have hkeys : ∀ P, P ∈ gr.keys ↔ (∃ r, ∃ e ∈ ev.edges, EdgeOn P r e) ∨
      ∃ g, cs.outcomes.Occurs g ∧ ∃ r e, Crossing f ev g e ∧ EdgeOn P r e := by
    intro P
    rw [← Dict.keys_mapVals gr Prod.fst, tinv.keys]
    constructor
    · rintro ⟨t, ht, rfl⟩
      obtain ⟨⟨⟨e, b⟩, c⟩, ht', rfl⟩ := List.mem_map.1 ht
      obtain ⟨p, hp, _, ⟨_, hc⟩ | ⟨_, hc⟩⟩ := (hmemE e b c).1 ht'
      · exact Or.inr ⟨p.1, hocc p hp, e.relation, e, hc, rfl, rfl⟩
      · exact Or.inl ⟨e.relation, e, hc, rfl, rfl⟩
    · rintro (⟨r, e, he, hv, _⟩ | ⟨g, hg, r, e, hc, hv, _⟩)
      · obtain ⟨c, hc⟩ := hg0
        have hp : (g0, c) ∈ oI.run cs.outcomes.items := by rw [oI.mem, Samples.mem_items]; exact hc
        exact ⟨_, List.mem_map.2 ⟨((e, true), c), (hmemE _ _ _).2 ⟨_, hp, rfl, Or.inr ⟨rfl, he⟩⟩, rfl⟩, hv⟩
      · obtain ⟨c, hcc⟩ := hg
        have hp : (g, c) ∈ oI.run cs.outcomes.items := by rw [oI.mem, Samples.mem_items]; exact hcc
        exact ⟨_, List.mem_map.2 ⟨((e, false), c), (hmemE _ _ _).2 ⟨_, hp, rfl, Or.inl ⟨rfl, hc⟩⟩, rfl⟩, hv⟩
  have hcard : ∀ P ∈ gr.keys, P.card = 2 := by
    intro P hP
    have : ∃ e : Edge V X R, GoodEdge e ∧ e.vars = P := by
      rcases (hkeys P).1 hP with ⟨r, e, he, hv, _⟩ | ⟨g, hg, r, e, hc, hv, _⟩
      · exact ⟨e, h.evGood e he, hv⟩
      · exact ⟨e, (h.sound g hg).2 e hc.1, hv⟩
    obtain ⟨e, ⟨a, b, hab, he⟩, rfl⟩ := this
    rw [Edge.vars, he, Finset.image_insert, Finset.image_singleton, Finset.card_pair hab]
  have hok : cs.activationGraph oI oN oE oQ oX f ev = .ok ⟨cs.outcomes.length,
      gv.entries.map fun p => ⟨p.1, p.2.1.mapVals fun w => w / (cs.outcomes.length : ℚ), p.2.2⟩,
      gr.entries.map fun p => ⟨p.1, p.2.1, p.2.2⟩⟩ := by
    unfold Space.activationGraph
    rw [hloop]
    simp only
    unfold Space.activationResult
    simp only
    rw [if_neg (fun hx => hlen hx.1), if_neg]
    rintro ⟨p, hp, hc⟩
    exact hc (hcard p.1 (List.mem_map_of_mem hp))
  refine ⟨_, hok, rfl, ⟨?_, ?_, ?_⟩, ?_, ?_, ?_⟩
  · rw [List.map_map]; exact gv.nodup
  · intro v
    rw [← Dict.mem_keys, ← ninv.keys]
    simp only [List.mem_map, Dict.keys]
    constructor
    · rintro ⟨_, ⟨p, hp, rfl⟩, rfl⟩; exact ⟨p, hp, rfl⟩
    · rintro ⟨p, hp, rfl⟩; exact ⟨_, ⟨p, hp, rfl⟩, rfl⟩
  · intro N hN
    obtain ⟨⟨v, m, b⟩, hp, rfl⟩ := List.mem_map.1 hN
    have hvk : v ∈ cs.schema.vars.keys := by rw [← ninv.keys]; exact List.mem_map_of_mem (f := Prod.fst) hp
    obtain ⟨xs, hxs⟩ := (Dict.mem_keys _ _).1 hvk
    obtain ⟨m', hm', hmx⟩ := ninv.get v xs hxs
    rw [(Dict.mem_entries _ _ _).1 hp] at hm'
    cases hm'
    refine ⟨?_, ?_⟩
    · simp only
      rw [decide_eq_true_eq, mem_includedVariables]
    · intro x w
      simp only
      rw [Dict.get?_mapVals, Option.map_eq_some_iff]
      constructor
      · rintro ⟨q, hq, rfl⟩
        obtain ⟨hx, rfl⟩ := (hmx x q).1 hq
        exact ⟨⟨xs, hxs, hx⟩, sum_weights oI oN oE f cs ev h ⟨v, x⟩⟩
      · rintro ⟨⟨xs', hxs', hx⟩, rfl⟩
        rw [hxs] at hxs'
        cases hxs'
        exact ⟨_, (hmx x _).2 ⟨hx, rfl⟩, sum_weights oI oN oE f cs ev h ⟨v, x⟩⟩
  · rw [List.map_map]; exact gr.nodup
  · intro P
    rw [← hkeys P]
    simp only [List.mem_map, Dict.keys]
    constructor
    · rintro ⟨_, ⟨p, hp, rfl⟩, rfl⟩; exact ⟨p, hp, rfl⟩
    · rintro ⟨p, hp, rfl⟩; exact ⟨_, ⟨p, hp, rfl⟩, rfl⟩
  · intro A hA
    obtain ⟨⟨P, m, b⟩, hp, rfl⟩ := List.mem_map.1 hA
    have hget := (Dict.mem_entries _ _ _).1 hp
    simp only at hget ⊢
    have hflag : b = true ↔ ∃ r, ∃ e ∈ ev.edges, EdgeOn P r e := by
      obtain ⟨⟨⟨e, b'⟩, c⟩, ht, hv, hb⟩ := einv.flag P m b hget
      simp only at hv hb
      subst hb
      obtain ⟨p, hp', _, ⟨rfl, hc⟩ | ⟨rfl, hc⟩⟩ := (hmemE e b' c).1 ht
      · constructor
        · intro hx; cases hx
        · rintro ⟨r, e', he', hv', _⟩
          exact absurd (hv.trans hv'.symm) (crossing_not_query h f p.1 (hocc p hp') e e' hc he')
      · exact ⟨fun _ => ⟨e.relation, e, hc, hv, rfl⟩, fun _ => rfl⟩
    have hm : (gr.mapVals Prod.fst).get? P = some m := by rw [Dict.get?_mapVals, hget]; rfl
    have hcount : ∀ r c, m.get? r = some c ↔
        (∃ g, cs.outcomes.Occurs g ∧ ((∃ e ∈ ev.edges, EdgeOn P r e) ∨ ∃ e, Crossing f ev g e ∧ EdgeOn P r e)) ∧
        c = mass cs.outcomes (fun g => (∃ e ∈ ev.edges, EdgeOn P r e) ∨ ∃ e, Crossing f ev g e ∧ EdgeOn P r e) := by
      intro r c
      rw [tinv.get P m hm r, List.map_flatMap]
      rw [totalOf_flatMap (fun p : SampleGraph V X R × ℤ => p.2) _
        (fun p => (∃ e ∈ ev.edges, EdgeOn P r e) ∨ ∃ e, Crossing f ev p.1 e ∧ EdgeOn P r e)]
      · rw [mass_eq_list oI cs.outcomes (fun g => (∃ e ∈ ev.edges, EdgeOn P r e) ∨ ∃ e, Crossing f ev g e ∧ EdgeOn P r e),
          exists_run oI cs.outcomes (fun g => (∃ e ∈ ev.edges, EdgeOn P r e) ∨ ∃ e, Crossing f ev g e ∧ EdgeOn P r e)]
      · intro p hp; exact nodup_edgeContrib h oN oE oQ f p (hocc p hp)
      · intro p hp t ht
        obtain ⟨⟨⟨e, b⟩, c⟩, ht', rfl⟩ := List.mem_map.1 ht
        exact ((mem_edgeContrib h oN oE oQ f p (hocc p hp) e b c).1 ht').1
      · intro p hp
        rw [List.map_map, List.mem_map]
        constructor
        · rintro ⟨⟨⟨e, b⟩, c⟩, ht, heq⟩
          simp only [Function.comp_apply, edgeTally, Prod.mk.injEq] at heq
          rcases ((mem_edgeContrib h oN oE oQ f p (hocc p hp) e b c).1 ht).2 with ⟨_, hc⟩ | ⟨_, hc⟩
          · exact Or.inr ⟨e, hc, heq⟩
          · exact Or.inl ⟨e, hc, heq⟩
        · rintro (⟨e, he, hon⟩ | ⟨e, he, hon⟩)
          · refine ⟨((e, true), p.2), (mem_edgeContrib h oN oE oQ f p (hocc p hp) e true _).2 ⟨rfl, Or.inr ⟨rfl, he⟩⟩, ?_⟩
            exact Prod.ext hon.1 hon.2
          · refine ⟨((e, false), p.2), (mem_edgeContrib h oN oE oQ f p (hocc p hp) e false _).2 ⟨rfl, Or.inl ⟨rfl, he⟩⟩, ?_⟩
            exact Prod.ext hon.1 hon.2
    refine ⟨hflag, ?_, ?_⟩
    · intro hb r c
      rw [hcount]
      have hno : ∀ g, cs.outcomes.Occurs g → ¬ ∃ e, Crossing f ev g e ∧ EdgeOn P r e := by
        rintro g hg ⟨e, hc, hon⟩
        obtain ⟨r', e', he', hon'⟩ := hflag.1 hb
        exact crossing_not_query h f g hg e e' hc he' (hon.1.trans hon'.1.symm)
      constructor
      · rintro ⟨⟨g, hg, hx⟩, rfl⟩
        have hex := hx.resolve_right (hno g hg)
        refine ⟨hex, ?_⟩
        rw [mass_congr cs.outcomes _ (fun _ => True) (fun g _ => ⟨fun _ => trivial, fun _ => Or.inl hex⟩), length_eq_sum, mass]
        simp
      · rintro ⟨hex, rfl⟩
        refine ⟨⟨g0, hg0, Or.inl hex⟩, ?_⟩
        rw [mass_congr cs.outcomes _ (fun _ => True) (fun g _ => ⟨fun _ => trivial, fun _ => Or.inl hex⟩), length_eq_sum, mass]
        simp
    · intro hb r c
      rw [hcount]
      have hno : ¬ ∃ e ∈ ev.edges, EdgeOn P r e := by
        rintro ⟨e, he, hon⟩
        rw [hflag.2 ⟨r, e, he, hon⟩] at hb
        cases hb
      simp only [hno, false_or]
      unfold massOf
      rw [mass_congr cs.outcomes _ _ (fun g _ => Iff.rfl)]

/-- The evidence of the documentation: a non-empty, single valued sample whose edges join its nodes. -/
structure GoodEvidence (ev : SampleGraph V X R) : Prop where
  nonempty : ev.nodes ≠ ∅
  single : SingleValued ev.nodes
  closed : ∀ e ∈ ev.edges, e.endpoints ⊆ ev.nodes
  good : ∀ e ∈ ev.edges, GoodEdge e

/-- A relation graph as its builder makes it: declared, connected, single valued outcomes with positive counts. -/
structure GoodSpace (sp : Space V X R) : Prop where
  sound : Sound sp
  wf : ∀ g, sp.outcomes.Occurs g → WellFormed g
  single : ∀ g, sp.outcomes.Occurs g → SingleValued g.nodes
  positive : Positive sp.outcomes

theorem conditionedOn_of_conditional (sp : Space V X R) (hsp : GoodSpace sp) (ev : Sample V X R) (hev : GoodEvidence ev.graph)
    (oC : Order (SampleGraph V X R × ℤ)) (cs : Space V X R) (hc : sp.conditionalGraph oC ev = .ok cs) :
    ConditionedOn cs ev.graph ∧ Positive cs.outcomes ∧ cs.schema = sp.schema := by
  obtain ⟨h1, h2⟩ := C34_conditional_graph sp oC ev
  by_cases hp : ev.prov = sp.outcomes.prov
  · obtain ⟨cs', hc', hs, -, -, hg⟩ := h1 hp
    rw [hc] at hc'
    cases hc'
    have hocc : ∀ g, cs.outcomes.Occurs g → sp.outcomes.Occurs g ∧ KeptBy ev.graph g := by
      rintro g ⟨c, hgc⟩
      obtain ⟨h3, h4⟩ := (hg g c).1 hgc
      exact ⟨⟨c, h3⟩, h4⟩
    refine ⟨⟨?_, ?_, ?_, ?_, hev.nonempty, hev.single, hev.closed, hev.good⟩, ?_, hs⟩
    · intro g hgo
      rw [hs]
      exact hsp.sound g (hocc g hgo).1
    · intro g hgo; exact hsp.single g (hocc g hgo).1
    · intro g hgo; exact (hsp.wf g (hocc g hgo).1).closed
    · intro g hgo; exact (hocc g hgo).2
    · intro g c hgc
      exact hsp.positive g c ((hg g c).1 hgc).1
  · rw [h2 hp] at hc; cases hc

theorem massOf_le (a : Samples V X R) (h : Positive a) (P : SampleGraph V X R → Prop) : massOf a P ≤ a.length :=
  @mass_le_length V X R _ _ _ a h P (Classical.decPred P)

theorem massOf_nonneg (a : Samples V X R) (h : Positive a) (P : SampleGraph V X R → Prop) : 0 ≤ massOf a P :=
  @mass_nonneg V X R _ _ _ a h P (Classical.decPred P)

theorem activationWeight_bounds (cs : Space V X R) (ev : SampleGraph V X R) (h : ConditionedOn cs ev) (hpos : Positive cs.outcomes)
    (hne : ∃ g, cs.outcomes.Occurs g) (f : Option (Finset (Rel V R))) (n : Node V X) :
    0 ≤ activationWeight cs.outcomes f ev n ∧ activationWeight cs.outcomes f ev n ≤ 1 := by
  classical
  obtain ⟨g0, hg0⟩ := hne
  have hlen : 0 < cs.outcomes.length := by
    have h1 := mass_pos cs.outcomes hpos (fun _ => True) g0 hg0 trivial
    have h2 := mass_le_length cs.outcomes hpos (fun _ => True)
    omega
  have hlenq : (0 : ℚ) < (cs.outcomes.length : ℚ) := by exact_mod_cast hlen
  unfold activationWeight
  split
  · constructor
    · apply div_nonneg _ hlenq.le
      exact_mod_cast massOf_nonneg _ hpos _
    · rw [div_le_one hlenq]
      exact_mod_cast massOf_le _ hpos _
  · have hterm : ∀ p ∈ cs.outcomes.items.filter (fun p => ReachedFrom f ev p.1 n),
        0 ≤ (graphSize ev : ℚ) / (graphSize p.1 : ℚ) * (p.2 : ℚ) ∧
        (graphSize ev : ℚ) / (graphSize p.1 : ℚ) * (p.2 : ℚ) ≤ (p.2 : ℚ) := by
      intro p hp
      rw [Finset.mem_filter, Samples.mem_items] at hp
      have hp2 : (0 : ℚ) < (p.2 : ℚ) := by exact_mod_cast hpos _ _ hp.1
      have hcon := (reached_facts h f p.1 ⟨_, hp.1⟩ n hp.2).1
      have hle : graphSize ev ≤ graphSize p.1 := Nat.add_le_add (Finset.card_le_card hcon.1) (Finset.card_le_card hcon.2)
      have hq : (graphSize ev : ℚ) / (graphSize p.1 : ℚ) ≤ 1 := div_le_one_of_le₀ (by exact_mod_cast hle) (by positivity)
      exact ⟨by positivity, by nlinarith⟩
    constructor
    · exact div_nonneg (Finset.sum_nonneg fun p hp => (hterm p hp).1) hlenq.le
    · rw [div_le_one hlenq]
      calc _ ≤ ∑ p ∈ cs.outcomes.items.filter (fun p => ReachedFrom f ev p.1 n), (p.2 : ℚ) :=
            Finset.sum_le_sum fun p hp => (hterm p hp).2
        _ = ((mass cs.outcomes (fun g => ReachedFrom f ev g n) : ℤ) : ℚ) := by
            unfold mass; rw [Int.cast_sum]
        _ ≤ _ := by exact_mod_cast mass_le_length _ hpos _

/-- **C35.** Conditioning a relation graph on a non-empty evidence and taking the activation graph of at least one selected
outcome: no exception, one node per declared variable carrying exactly the declared values, all weights within [0, 1], values
of the evidence have as weight the share of the selected outcomes that contain the evidence, other values of its
variables weight 0. -/
theorem C35_activation_graph (sp : Space V X R) (hsp : GoodSpace sp) (ev : Sample V X R) (hev : GoodEvidence ev.graph)
    (oC : Order (SampleGraph V X R × ℤ)) (cs : Space V X R) (hc : sp.conditionalGraph oC ev = .ok cs)
    (hne : ∃ g, cs.outcomes.Occurs g) (oI : Order (SampleGraph V X R × ℤ)) (oN : Order (Node V X)) (oE : Order (Edge V X R))
    (oQ : Order (Edge V X R × Bool)) (oX : Order X) (f : Option (Finset (Rel V R))) :
    ∃ ag, cs.activationGraph oI oN oE oQ oX f ev.graph = .ok ag ∧ ag.n = cs.outcomes.length ∧
      ExactActiveNodes cs f ev.graph ag ∧
      (∀ N ∈ ag.nodes, ∀ x w, N.values.get? x = some w → 0 ≤ w ∧ w ≤ 1 ∧
        ((⟨N.var, x⟩ : Node V X) ∈ ev.graph.nodes →
          w = (massOf cs.outcomes (ContainsGraph ev.graph) : ℚ) / (cs.outcomes.length : ℚ)) ∧
        (HasVar N.var ev.graph → (⟨N.var, x⟩ : Node V X) ∉ ev.graph.nodes → w = 0)) := by
  classical
  obtain ⟨h1, h2, h3⟩ := conditionedOn_of_conditional sp hsp ev hev oC cs hc
  obtain ⟨ag, ha, hn, hnodes, -⟩ := C35_C36_activation_graph cs ev.graph h1 h2 hne oI oN oE oQ oX f
  refine ⟨ag, ha, hn, hnodes, ?_⟩
  intro N hN x w hw
  obtain ⟨-, rfl⟩ := ((hnodes.2.2 N hN).2 x w).1 hw
  obtain ⟨b1, b2⟩ := activationWeight_bounds cs ev.graph h1 h2 hne f ⟨N.var, x⟩
  refine ⟨b1, b2, ?_, ?_⟩
  · intro hm
    unfold activationWeight
    rw [if_pos hm]
  · rintro ⟨m, hm, hmv⟩ hnm
    unfold activationWeight
    rw [if_neg hnm, Finset.filter_false_of_mem, Finset.sum_empty, zero_div]
    intro p hp hr
    rw [Samples.mem_items] at hp
    exact (reached_facts h1 f p.1 ⟨_, hp⟩ _ hr).2.2 m hm hmv

/-- **C35.** Empty evidence: as soon as there is a (non-empty) outcome the call raises `AssertionError`. -/
theorem C35_empty_evidence (cs : Space V X R) (hne : ∃ g, cs.outcomes.Occurs g)
    (hk : ∀ g, cs.outcomes.Occurs g → g.nodes ≠ ∅) (oI : Order (SampleGraph V X R × ℤ)) (oN : Order (Node V X))
    (oE : Order (Edge V X R)) (oQ : Order (Edge V X R × Bool)) (oX : Order X) (f : Option (Finset (Rel V R))) :
    cs.activationGraph oI oN oE oQ oX f ⟨∅, ∅⟩ = .error .assertion := by
  obtain ⟨g0, c0, hg0⟩ := hne
  have hmem : (g0, c0) ∈ oI.run cs.outcomes.items := by rw [oI.mem, Samples.mem_items]; exact hg0
  unfold Space.activationGraph
  cases hr : oI.run cs.outcomes.items with
  | nil => rw [hr] at hmem; simp at hmem
  | cons p t =>
    have hp : cs.outcomes.Occurs p.1 := run_occurs oI cs.outcomes p (by rw [hr]; simp)
    rw [List.foldlM_cons]
    have : Space.activationStep oN oE oQ f (⟨∅, ∅⟩ : SampleGraph V X R) (cs.activationInit oX ⟨∅, ∅⟩, Dict.empty) p =
        .error .assertion := by
      unfold Space.activationStep
      have hv := (C14_value p.1 (⟨∅, ∅⟩ : SampleGraph V X R)).1
      rw [(hv _).2 ⟨fun hx => hk p.1 hp (by rw [hx.1]), rfl⟩]
      simp only
      have hx : p.1.externalNodes oN oE (∅ : Finset (Node V X)) f = .error .assertion := by
        unfold SampleGraph.externalNodes SampleGraph.externalNodesFuel SampleGraph.beltNodes
        rw [if_pos rfl]
      rw [hx]
    rw [this]
    rfl

/-- **C35.** No selected outcome: `ZeroDivisionError` (the provider has at least one variable with a value). -/
theorem C35_empty_selection (cs : Space V X R) (ev : SampleGraph V X R) (he : ∀ g, ¬ cs.outcomes.Occurs g)
    (hv : ∃ v xs, cs.schema.vars.get? v = some xs ∧ xs ≠ ∅) (oI : Order (SampleGraph V X R × ℤ)) (oN : Order (Node V X))
    (oE : Order (Edge V X R)) (oQ : Order (Edge V X R × Bool)) (oX : Order X) (f : Option (Finset (Rel V R))) :
    cs.activationGraph oI oN oE oQ oX f ev = .error .zeroDiv := by
  have hi : cs.outcomes.items = ∅ := by
    rw [Finset.eq_empty_iff_forall_notMem]
    intro p hp
    rw [Samples.mem_items] at hp
    exact he p.1 ⟨_, hp⟩
  have hlen : cs.outcomes.length = 0 := by rw [length_eq_sum, hi, Finset.sum_empty]
  obtain ⟨v, xs, hxs, hx⟩ := hv
  obtain ⟨x, hx⟩ := Finset.nonempty_iff_ne_empty.2 hx
  obtain ⟨m, hm, hmx⟩ := (activationInit_inv cs oX ev).get v xs hxs
  have hne : m.entries ≠ [] := by
    intro h0
    have := (Dict.mem_entries _ _ _).2 ((hmx x _).2 ⟨hx, rfl⟩)
    rw [h0] at this
    simp at this
  unfold Space.activationGraph
  rw [hi, oI.run_empty]
  show cs.activationResult (cs.activationInit oX ev, Dict.empty) = _
  unfold Space.activationResult
  simp only
  rw [if_pos ⟨hlen, _, (Dict.mem_entries _ _ _).2 hm, hne⟩]

/-- **C36.** The relations of the activation graph of a conditioned graph are exact: see `ExactActiveEdges`. -/
theorem C36_activation_edges (sp : Space V X R) (hsp : GoodSpace sp) (ev : Sample V X R) (hev : GoodEvidence ev.graph)
    (oC : Order (SampleGraph V X R × ℤ)) (cs : Space V X R) (hc : sp.conditionalGraph oC ev = .ok cs)
    (hne : ∃ g, cs.outcomes.Occurs g) (oI : Order (SampleGraph V X R × ℤ)) (oN : Order (Node V X)) (oE : Order (Edge V X R))
    (oQ : Order (Edge V X R × Bool)) (oX : Order X) (f : Option (Finset (Rel V R))) :
    ∃ ag, cs.activationGraph oI oN oE oQ oX f ev.graph = .ok ag ∧ ExactActiveEdges cs f ev.graph ag := by
  obtain ⟨h1, h2, h3⟩ := conditionedOn_of_conditional sp hsp ev hev oC cs hc
  obtain ⟨ag, ha, -, -, hedges⟩ := C35_C36_activation_graph cs ev.graph h1 h2 hne oI oN oE oQ oX f
  exact ⟨ag, ha, hedges⟩

/-- **C36.** An edge whose endpoints are all equally distant from the evidence is not counted. -/
theorem C36_same_distance (f : Option (Finset (Rel V R))) (ev g : SampleGraph V X R) (e : Edge V X R) (k : ℕ)
    (h : ∀ m ∈ e.endpoints, DistIs g.edges f ev.nodes m k) : ¬ Crossing f ev g e := by
  rintro ⟨-, -, n, hn, m, hm, j, h1, h2⟩
  have e1 := (h n hn).unique h1
  have e2 := (h m hm).unique h2
  omega

/-- Non-vacuity of C35 and C36: the demo space conditioned on "variable 1 has value 0" keeps both outcomes; only the first one
contains the evidence, its edge is counted. -/
example : GoodSpace demoSpace ∧ GoodEvidence (⟨{⟨1, 0⟩}, ∅⟩ : SampleGraph ℕ ℕ ℕ) ∧
    (∃ cs, demoSpace.conditionalGraph default ⟨demoSpace.outcomes.prov, ⟨{⟨1, 0⟩}, ∅⟩⟩ = .ok cs ∧
      cs.outcomes.Occurs (oneEdge ⟨0, 0⟩ ⟨1, 0⟩) ∧ cs.outcomes.Occurs (oneEdge ⟨0, 1⟩ ⟨2, 0⟩)) ∧
    (∃ e, Crossing none (⟨{⟨1, 0⟩}, ∅⟩ : SampleGraph ℕ ℕ ℕ) (oneEdge ⟨0, 0⟩ ⟨1, 0⟩) e) ∧
    ReachedFrom none (⟨{⟨1, 0⟩}, ∅⟩ : SampleGraph ℕ ℕ ℕ) (oneEdge ⟨0, 0⟩ ⟨1, 0⟩) ⟨0, 0⟩ := by
  have hadj : Adj (oneEdge ⟨0, 0⟩ ⟨1, 0⟩).edges none (⟨1, 0⟩ : Node ℕ ℕ) ⟨0, 0⟩ :=
    ⟨⟨{⟨0, 0⟩, ⟨1, 0⟩}, .plain 0⟩, by simp [oneEdge], trivial, by simp, by simp⟩
  refine ⟨⟨?_, demoSpace_wf, demoSpace_single, demoSpace_positive⟩, ?_, ?_, ?_, ?_⟩
  · intro g hg
    refine ⟨?_, (demoSpace_wf g hg).good⟩
    rw [demoSpace_occurs] at hg
    intro n hn
    rcases hg with rfl | rfl
    · simp only [oneEdge, Finset.mem_insert, Finset.mem_singleton] at hn
      rcases hn with rfl | rfl
      · exact ⟨_, rfl, by decide⟩
      · exact ⟨_, rfl, by decide⟩
    · simp only [oneEdge, Finset.mem_insert, Finset.mem_singleton] at hn
      rcases hn with rfl | rfl
      · exact ⟨_, rfl, by decide⟩
      · exact ⟨_, rfl, by decide⟩
  · refine ⟨by simp, ?_, by simp, by simp⟩
    intro a ha b hb _
    simp only [Finset.mem_singleton] at ha hb
    rw [ha, hb]
  · obtain ⟨cs, hc, -, -, -, hg⟩ := (C34_conditional_graph demoSpace default ⟨demoSpace.outcomes.prov, ⟨{⟨1, 0⟩}, ∅⟩⟩).1 rfl
    refine ⟨cs, hc, ?_, ?_⟩
    · obtain ⟨c, h⟩ := (demoSpace_occurs _).2 (Or.inl rfl)
      exact ⟨c, (hg _ _).2 ⟨h, Or.inl (by simp [ContainsGraph, oneEdge])⟩⟩
    · obtain ⟨c, h⟩ := (demoSpace_occurs _).2 (Or.inr rfl)
      exact ⟨c, (hg _ _).2 ⟨h, Or.inr (by simp [NoCommonVariable, oneEdge])⟩⟩
  · refine ⟨⟨{⟨0, 0⟩, ⟨1, 0⟩}, .plain 0⟩, by simp [oneEdge], trivial, ⟨0, 0⟩, by simp, ⟨1, 0⟩, by simp, 0, ?_, ?_⟩
    · rw [DistIs.one_iff]
      exact ⟨by simp, ⟨1, 0⟩, by simp, hadj⟩
    · rw [DistIs.zero_iff]; simp
  · exact ⟨by simp, ⟨1, 0⟩, by simp, .single hadj⟩

end
end Verif
