import Verif.Props.Inference
import Verif.Props.Activation
import Mathlib.Algebra.BigOperators.Field

/-!
# C69 – conditioning, uniting and scaling obey the laws of probability

The numbers are those returned by `marginal_variables_probability` (sample_space.py 102-141) for relation graphs, for their
conditional graphs (relation_graph.py 219-239) and for unions of sample sets (sample_set.py 111-120).
-/

set_option linter.unusedSectionVars false

namespace Verif

variable {V X R : Type} [DecidableEq V] [DecidableEq X] [DecidableEq R]

/-! ### Specification -/

/-- The iteration orders of a call of `marginal_variables_probability`, and what stands for `'u'`. -/
structure MargOrders (V X R : Type) [DecidableEq V] [DecidableEq X] [DecidableEq R] where
  u : X
  oI : Order (SampleGraph V X R × ℤ)
  oV : Order V
  oN : Order (Node V X)

/-- Reading a result: values that are not listed have probability zero. -/
def readProb (r : Py (Dict V (Dict X ℚ))) (v : V) (x : X) : ℚ :=
  match r with
  | .ok d => ((d.get? v).bind fun m => m.get? x).getD 0
  | .error _ => 0

/-- The probability the program states for the value `x` of `v`. -/
def Space.chance (M : MargOrders V X R) (sp : Space V X R) (v : V) (x : X) : ℚ :=
  readProb (sp.marginals M.u M.oI M.oV M.oN none false) v x

/-- Positive counts and one value per variable. -/
structure Plain (sp : Space V X R) : Prop where
  pos : Positive sp.outcomes
  single : ∀ g, sp.outcomes.Occurs g → SingleValued g.nodes

/-- The variable is declared. -/
def Space.Has (sp : Space V X R) (v : V) : Prop := ∃ xs, sp.schema.vars.get? v = some xs

/-- The sample consisting of one value. -/
def oneValue (prov : ℕ) (v : V) (x : X) : Sample V X R := ⟨prov, ⟨{⟨v, x⟩}, ∅⟩⟩

/-! ### Masses -/

theorem massOf_eq (a : Samples V X R) (P : SampleGraph V X R → Prop) [DecidablePred P] : massOf a P = mass a P := by
  unfold massOf mass
  congr

theorem massOf_congr {a : Samples V X R} {P Q : SampleGraph V X R → Prop} (h : ∀ g, a.Occurs g → (P g ↔ Q g)) :
    massOf a P = massOf a Q :=
  @mass_congr V X R _ _ _ a P Q (Classical.decPred P) (Classical.decPred Q) h

/-- The count of a sample, zero if absent. -/
def countIn (a : Samples V X R) (g : SampleGraph V X R) : ℤ := (a.samples.get? g).getD 0

theorem massOf_eq_sum (a : Samples V X R) (P : SampleGraph V X R → Prop) (S : Finset (SampleGraph V X R)) (hS : a.graphs ⊆ S) :
    massOf a P = open Classical in ∑ g ∈ S with P g, countIn a g := by
  classical
  rw [massOf_eq]
  unfold mass
  have h1 : ∑ g ∈ S with P g, countIn a g = ∑ g ∈ a.graphs with P g, countIn a g := by
    symm
    apply Finset.sum_subset
    · intro g hg
      rw [Finset.mem_filter] at hg ⊢
      exact ⟨hS hg.1, hg.2⟩
    · intro g hg hng
      rw [Finset.mem_filter] at hg
      have : g ∉ a.graphs := fun h => hng (Finset.mem_filter.2 ⟨h, hg.2⟩)
      rw [Samples.mem_graphs] at this
      unfold countIn
      cases hc : a.samples.get? g with
      | none => rfl
      | some c => exact absurd ⟨c, hc⟩ this
  rw [h1]
  apply Finset.sum_nbij' (fun p => p.1) (fun g => (g, countIn a g))
  · intro p hp
    rw [Finset.mem_filter, Samples.mem_items] at hp
    rw [Finset.mem_filter, Samples.mem_graphs]
    exact ⟨⟨_, hp.1⟩, hp.2⟩
  · intro g hg
    rw [Finset.mem_filter, Samples.mem_graphs] at hg
    obtain ⟨⟨c, hc⟩, hP⟩ := hg
    rw [Finset.mem_filter, Samples.mem_items]
    exact ⟨by simp [countIn, hc], hP⟩
  · intro p hp
    rw [Finset.mem_filter, Samples.mem_items] at hp
    simp [countIn, hp.1]
  · intro g hg; rfl
  · intro p hp
    rw [Finset.mem_filter, Samples.mem_items] at hp
    simp [countIn, hp.1]

/-- Masses in a part of the outcomes. -/
theorem massOf_part (a b : Samples V X R) (K P : SampleGraph V X R → Prop)
    (h : ∀ g c, b.samples.get? g = some c ↔ a.samples.get? g = some c ∧ K g) :
    massOf b P = massOf a fun g => P g ∧ K g := by
  classical
  have hi : ∀ p, p ∈ b.items ↔ p ∈ a.items ∧ K p.1 := by
    intro p; rw [Samples.mem_items, Samples.mem_items, h]
  rw [massOf_eq, massOf_eq]
  unfold mass
  congr 1
  ext p
  rw [Finset.mem_filter, Finset.mem_filter, hi]
  tauto

theorem massOf_length (a : Samples V X R) (P : SampleGraph V X R → Prop) (h : ∀ g, a.Occurs g → P g) : massOf a P = a.length := by
  classical
  rw [massOf_eq, length_eq_sum]
  unfold mass
  congr 1
  ext p
  rw [Finset.mem_filter, Samples.mem_items]
  exact ⟨fun h' => h'.1, fun h' => ⟨h', h _ ⟨_, h'⟩⟩⟩

theorem massOf_zero (a : Samples V X R) (P : SampleGraph V X R → Prop) (h : ∀ g, a.Occurs g → ¬ P g) : massOf a P = 0 := by
  classical
  rw [massOf_eq]
  unfold mass
  rw [Finset.filter_eq_empty_iff.2, Finset.sum_empty]
  intro p hp
  exact h _ ⟨_, (Samples.mem_items _ _).1 hp⟩

theorem massOf_mono (a : Samples V X R) (h : Positive a) {P Q : SampleGraph V X R → Prop} (hPQ : ∀ g, P g → Q g) :
    massOf a P ≤ massOf a Q := by
  classical
  rw [massOf_eq, massOf_eq]
  unfold mass
  apply Finset.sum_le_sum_of_subset_of_nonneg
  · intro p hp
    rw [Finset.mem_filter] at hp ⊢
    exact ⟨hp.1, hPQ _ hp.2⟩
  · intro p hp _
    rw [Finset.mem_filter, Samples.mem_items] at hp
    exact (h _ _ hp.1).le

theorem massOf_union (o : Order (SampleGraph V X R × ℤ)) (a b r : Samples V X R) (h : a.union o b = .ok r)
    (P : SampleGraph V X R → Prop) : massOf r P = massOf a P + massOf b P := by
  classical
  have hr := ((C21_union o a b).2.2 r h).1
  have hc : ∀ g, countIn r g = countIn a g + countIn b g := by
    intro g
    unfold countIn
    rw [hr]
    cases a.samples.get? g <;> cases b.samples.get? g <;> simp [addCounts]
  have hsub : ∀ s : Samples V X R, s = a ∨ s = b ∨ s = r → s.graphs ⊆ a.graphs ∪ b.graphs := by
    rintro s (rfl | rfl | rfl)
    · exact Finset.subset_union_left
    · exact Finset.subset_union_right
    · intro g hg
      rw [Samples.mem_graphs] at hg
      obtain ⟨c, hc⟩ := hg
      rw [hr] at hc
      rw [Finset.mem_union, Samples.mem_graphs, Samples.mem_graphs]
      cases ha : a.samples.get? g with
      | some d => exact Or.inl ⟨d, rfl⟩
      | none =>
        cases hb : b.samples.get? g with
        | some d => exact Or.inr ⟨d, rfl⟩
        | none => rw [ha, hb] at hc; cases hc
  rw [massOf_eq_sum r P _ (hsub r (by simp)), massOf_eq_sum a P _ (hsub a (by simp)), massOf_eq_sum b P _ (hsub b (by simp)),
    ← Finset.sum_add_distrib]
  exact Finset.sum_congr rfl fun g _ => hc g

theorem massOf_scale (a b : Samples V X R) (k : ℤ) (h : ∀ g, b.samples.get? g = (a.samples.get? g).map (k * ·))
    (P : SampleGraph V X R → Prop) : massOf b P = k * massOf a P := by
  classical
  have hg : b.graphs = a.graphs := by
    ext g
    rw [Samples.mem_graphs, Samples.mem_graphs, h]
    cases a.samples.get? g <;> simp
  rw [massOf_eq_sum b P _ subset_rfl, massOf_eq_sum a P b.graphs (by rw [hg]), Finset.mul_sum]
  apply Finset.sum_congr rfl
  intro g _
  unfold countIn
  rw [h]
  cases a.samples.get? g <;> simp

/-! ### Reading probabilities -/

/-- The stated probability is the share of the value among the outcomes having the variable. -/
theorem chance_eq (M : MargOrders V X R) (sp : Space V X R) (hp : Plain sp) (v : V) (hv : sp.Has v) (x : X) :
    sp.chance M v x = (massOf sp.outcomes (HasValue v x) : ℚ) / (massOf sp.outcomes (HasVar v) : ℚ) := by
  obtain ⟨d, hd, hk, hm⟩ := C28_marginals sp M.u M.oI M.oV M.oN none hp.pos hp.single
  unfold Space.chance readProb
  rw [hd]
  simp only
  rw [massOf_eq, massOf_eq]
  cases hdv : d.get? v with
  | none =>
    have : ¬ ∃ g, sp.outcomes.Occurs g ∧ HasVar v g := by
      intro h
      obtain ⟨m, hm'⟩ := (Dict.mem_keys _ _).1 ((hk v).2 ⟨Or.inr ⟨Or.inl rfl, hv⟩, h⟩)
      rw [hm'] at hdv; cases hdv
    have h0 : mass sp.outcomes (HasVar v) = 0 := by
      rw [← massOf_eq]
      exact massOf_zero _ _ fun g hg hh => this ⟨g, hg, hh⟩
    rw [h0]; simp
  | some m =>
    simp only [Option.bind_some]
    cases hmx : m.get? x with
    | some q =>
      rw [((hm v m hdv).2 x q).1 hmx |>.2]; rfl
    | none =>
      have : ¬ ∃ g, sp.outcomes.Occurs g ∧ HasValue v x g := by
        intro h
        have := ((hm v m hdv).2 x _).2 ⟨h, rfl⟩
        rw [hmx] at this; cases this
      have h0 : mass sp.outcomes (HasValue v x) = 0 := by
        rw [← massOf_eq]
        exact massOf_zero _ _ fun g hg hh => this ⟨g, hg, hh⟩
      rw [h0]; simp

theorem plain_conditional (sp cs : Space V X R) (hp : Plain sp) (oC : Order (SampleGraph V X R × ℤ)) (ev : Sample V X R)
    (hc : sp.conditionalGraph oC ev = .ok cs) : Plain cs ∧ cs.schema = sp.schema ∧
      ∀ g c, cs.outcomes.samples.get? g = some c ↔ sp.outcomes.samples.get? g = some c ∧ KeptBy ev.graph g := by
  by_cases hpr : ev.prov = sp.outcomes.prov
  · obtain ⟨cs', h1, h2, -, -, h3⟩ := (C34_conditional_graph sp oC ev).1 hpr
    rw [hc] at h1
    cases h1
    refine ⟨⟨fun g c h => hp.pos g c ((h3 g c).1 h).1, fun g ⟨c, h⟩ => hp.single g ⟨c, ((h3 g c).1 h).1⟩⟩, h2, h3⟩
  · rw [(C34_conditional_graph sp oC ev).2 hpr] at hc; cases hc

/-- **C69.** The probability stated by any conditional graph: the share of the value among the outcomes that have the variable and
either contain the evidence or have no variable of it. -/
theorem C69_conditional (M : MargOrders V X R) (sp cs : Space V X R) (hp : Plain sp) (oC : Order (SampleGraph V X R × ℤ))
    (ev : Sample V X R) (hc : sp.conditionalGraph oC ev = .ok cs) (v : V) (hv : sp.Has v) (x : X) :
    cs.chance M v x =
      (massOf sp.outcomes (fun g => HasValue v x g ∧ KeptBy ev.graph g) : ℚ) /
        (massOf sp.outcomes (fun g => HasVar v g ∧ KeptBy ev.graph g) : ℚ) := by
  obtain ⟨h1, h2, h3⟩ := plain_conditional sp cs hp oC ev hc
  rw [chance_eq M cs h1 v (by unfold Space.Has; rw [h2]; exact hv), massOf_part _ _ _ _ h3, massOf_part _ _ _ _ h3]

theorem keptBy_joined {ev g : SampleGraph V X R} (h : ∃ n ∈ ev.nodes, HasVar n.var g) : KeptBy ev g ↔ ContainsGraph ev g := by
  constructor
  · rintro (h' | h')
    · exact h'
    · obtain ⟨n, hn, m, hm, he⟩ := h
      exact absurd he.symm (h' n hn m hm)
  · exact Or.inl

/-- **C69.** If every outcome has a variable of the evidence (for instance in a joined graph), this is the conditional probability:
the share of the value among the outcomes containing the evidence. -/
theorem C69_joined (M : MargOrders V X R) (sp cs : Space V X R) (hp : Plain sp) (oC : Order (SampleGraph V X R × ℤ))
    (ev : Sample V X R) (hj : ∀ g, sp.outcomes.Occurs g → ∃ n ∈ ev.graph.nodes, HasVar n.var g)
    (hc : sp.conditionalGraph oC ev = .ok cs) (v : V) (hv : sp.Has v) (x : X) :
    cs.chance M v x =
      (massOf sp.outcomes (fun g => HasValue v x g ∧ ContainsGraph ev.graph g) : ℚ) /
        (massOf sp.outcomes (fun g => HasVar v g ∧ ContainsGraph ev.graph g) : ℚ) := by
  rw [C69_conditional M sp cs hp oC ev hc v hv x]
  rw [massOf_congr (fun g hg => and_congr_right fun _ => keptBy_joined (hj g hg)),
    massOf_congr (P := fun g => HasVar v g ∧ KeptBy ev.graph g) (fun g hg => and_congr_right fun _ => keptBy_joined (hj g hg))]

theorem containsGraph_oneValue (prov : ℕ) (v : V) (x : X) (g : SampleGraph V X R) :
    ContainsGraph (oneValue prov v x : Sample V X R).graph g ↔ HasValue v x g := by
  unfold ContainsGraph oneValue HasValue
  simp

/-- The product rule with masses: in a graph all of whose outcomes have both variables. -/
theorem product_rule (M : MargOrders V X R) (sp cs : Space V X R) (hp : Plain sp) (oC : Order (SampleGraph V X R × ℤ)) (u v : V)
    (hu : sp.Has u) (hv : sp.Has v) (hj : ∀ g, sp.outcomes.Occurs g → HasVar u g ∧ HasVar v g) (y x : X)
    (hc : sp.conditionalGraph oC (oneValue sp.outcomes.prov u y) = .ok cs) :
    cs.chance M v x * sp.chance M u y =
      (massOf sp.outcomes (fun g => HasValue v x g ∧ HasValue u y g) : ℚ) / (sp.outcomes.length : ℚ) := by
  rw [C69_joined M sp cs hp oC _ (fun g hg => ⟨⟨u, y⟩, by simp [oneValue], (hj g hg).1⟩) hc v hv x, chance_eq M sp hp u hu y]
  rw [massOf_congr (Q := fun g => HasValue v x g ∧ HasValue u y g)
      (fun g _ => and_congr_right fun _ => containsGraph_oneValue _ _ _ _),
    massOf_congr (P := fun g => HasVar v g ∧ ContainsGraph _ g) (Q := HasValue u y)
      (fun g hg => by rw [containsGraph_oneValue]; exact ⟨fun h => h.2, fun h => ⟨(hj g hg).2, h⟩⟩),
    massOf_length sp.outcomes (HasVar u) (fun g hg => (hj g hg).1)]
  by_cases h0 : massOf sp.outcomes (HasValue u y) = 0
  · have : massOf sp.outcomes (fun g => HasValue v x g ∧ HasValue u y g) = 0 := by
      refine le_antisymm ?_ (massOf_nonneg _ hp.pos _)
      rw [← h0]
      exact massOf_mono _ hp.pos fun g h => h.2
    rw [h0, this]; simp
  · have h0' : (massOf sp.outcomes (HasValue u y) : ℚ) ≠ 0 := by exact_mod_cast h0
    rw [div_mul_div_comm, mul_comm (massOf sp.outcomes (HasValue u y) : ℚ), mul_div_mul_right _ _ h0']

/-- **C69.** Bayes' theorem for a graph all of whose outcomes have both variables. -/
theorem C69_bayes (M : MargOrders V X R) (sp cu cv : Space V X R) (hp : Plain sp) (o o' : Order (SampleGraph V X R × ℤ)) (u v : V)
    (hu : sp.Has u) (hv : sp.Has v) (hj : ∀ g, sp.outcomes.Occurs g → HasVar u g ∧ HasVar v g) (y x : X)
    (hcu : sp.conditionalGraph o (oneValue sp.outcomes.prov u y) = .ok cu)
    (hcv : sp.conditionalGraph o' (oneValue sp.outcomes.prov v x) = .ok cv) :
    cu.chance M v x * sp.chance M u y = cv.chance M u y * sp.chance M v x := by
  rw [product_rule M sp cu hp o u v hu hv hj y x hcu,
    product_rule M sp cv hp o' v u hv hu (fun g hg => (hj g hg).symm) x y hcv]
  rw [massOf_congr fun g _ => and_comm]

/-- **C69.** The law of total probability for a graph all of whose outcomes have both variables: the probability of a value is
the sum over the values of another variable. -/
theorem C69_total (M : MargOrders V X R) (sp : Space V X R) (hp : Plain sp) (o : Order (SampleGraph V X R × ℤ)) (u v : V)
    (hu : sp.Has u) (hv : sp.Has v) (hj : ∀ g, sp.outcomes.Occurs g → HasVar u g ∧ HasVar v g) (x : X) (ys : Finset X)
    (hys : ∀ g y, sp.outcomes.Occurs g → HasValue u y g → y ∈ ys) (cs : X → Space V X R)
    (hc : ∀ y ∈ ys, sp.conditionalGraph o (oneValue sp.outcomes.prov u y) = .ok (cs y)) :
    sp.chance M v x = ∑ y ∈ ys, (cs y).chance M v x * sp.chance M u y := by
  classical
  rw [Finset.sum_congr rfl fun y hy => product_rule M sp (cs y) hp o u v hu hv hj y x (hc y hy), ← Finset.sum_div,
    chance_eq M sp hp v hv x, massOf_length sp.outcomes (HasVar v) (fun g hg => (hj g hg).2)]
  congr 1
  rw [← Int.cast_sum]
  congr 1
  simp only [massOf_eq]
  unfold mass
  rw [← Finset.sum_biUnion]
  · apply Finset.sum_congr _ fun _ _ => rfl
    ext p
    simp only [Finset.mem_filter, Finset.mem_biUnion]
    constructor
    · rintro ⟨hp', hx⟩
      have hocc : sp.outcomes.Occurs p.1 := ⟨_, (Samples.mem_items _ _).1 hp'⟩
      obtain ⟨n, hn, hnu⟩ := (hj _ hocc).1
      have hn' : HasValue u n.val p.1 := by subst hnu; exact hn
      exact ⟨n.val, hys _ _ hocc hn', hp', hx, hn'⟩
    · rintro ⟨y, _, hp', hx, _⟩; exact ⟨hp', hx⟩
  · intro y _ z _ hyz
    rw [Function.onFun, Finset.disjoint_left]
    intro p h1 h2
    rw [Finset.mem_filter] at h1 h2
    have hocc : sp.outcomes.Occurs p.1 := ⟨_, (Samples.mem_items _ _).1 h1.1⟩
    have := hp.single _ hocc _ h1.2.2 _ h2.2.2 rfl
    simp only [Node.mk.injEq, true_and] at this
    exact hyz this

/-- **C69.** Evidence piece by piece: if every outcome has a variable of each piece, conditioning on one and then on the other
selects the same outcomes as conditioning on their union. -/
theorem C69_pieces (sp a ab c : Space V X R) (o o' o'' : Order (SampleGraph V X R × ℤ)) (e e' : Sample V X R)
    (hj : ∀ g, sp.outcomes.Occurs g → (∃ n ∈ e.graph.nodes, HasVar n.var g) ∧ ∃ n ∈ e'.graph.nodes, HasVar n.var g)
    (ha : sp.conditionalGraph o e = .ok a) (hab : a.relationGraph.conditionalGraph o' e' = .ok ab)
    (hc : sp.conditionalGraph o'' ⟨e.prov, ⟨e.graph.nodes ∪ e'.graph.nodes, e.graph.edges ∪ e'.graph.edges⟩⟩ = .ok c) :
    ab.outcomes.pyEq c.outcomes = true := by
  have key : ∀ (s t : Space V X R) (o : Order (SampleGraph V X R × ℤ)) (ev : Sample V X R), s.conditionalGraph o ev = .ok t →
      ∀ g c, t.outcomes.samples.get? g = some c ↔ s.outcomes.samples.get? g = some c ∧ KeptBy ev.graph g := by
    intro s t o ev h
    by_cases hpr : ev.prov = s.outcomes.prov
    · obtain ⟨t', h1, -, -, -, h3⟩ := (C34_conditional_graph s o ev).1 hpr
      rw [h] at h1; cases h1; exact h3
    · rw [(C34_conditional_graph s o ev).2 hpr] at h; cases h
  rw [Samples.pyEq_iff]
  intro g
  ext n
  rw [key _ _ _ _ hab, key _ _ _ _ hc]
  show a.outcomes.samples.get? g = some n ∧ _ ↔ _
  rw [key _ _ _ _ ha, and_assoc]
  refine and_congr_right fun hg => ?_
  obtain ⟨h1, h2⟩ := hj g ⟨n, hg⟩
  rw [keptBy_joined h1, keptBy_joined h2, keptBy_joined]
  · unfold ContainsGraph
    simp only [Finset.union_subset_iff]
    tauto
  · obtain ⟨m, hm, hv⟩ := h1
    exact ⟨m, Finset.mem_union_left _ hm, hv⟩

/-- **C69.** Uniting sample sets mixes the probabilities: each is weighted with the number of outcomes having the variable. -/
theorem C69_mixture (M : MargOrders V X R) (o : Order (SampleGraph V X R × ℤ)) (s : Schema V X R) (a b r : Samples V X R)
    (e e' e'' : Option (Sample V X R)) (ha : Plain ⟨s, a, e⟩) (hb : Plain ⟨s, b, e'⟩) (hr : a.union o b = .ok r) (v : V)
    (hv : ∃ xs, s.vars.get? v = some xs) (x : X) :
    Plain ⟨s, r, e''⟩ ∧
    (massOf r (HasVar v) : ℚ) * Space.chance M ⟨s, r, e''⟩ v x =
      (massOf a (HasVar v) : ℚ) * Space.chance M ⟨s, a, e⟩ v x + (massOf b (HasVar v) : ℚ) * Space.chance M ⟨s, b, e'⟩ v x ∧
    massOf r (HasVar v) = massOf a (HasVar v) + massOf b (HasVar v) := by
  have hg := ((C21_union o a b).2.2 r hr).1
  have hplain : Plain (⟨s, r, e''⟩ : Space V X R) := by
    constructor
    · intro g c hc
      have hc : r.samples.get? g = some c := hc
      rw [hg] at hc
      cases h1 : a.samples.get? g with
      | none =>
        rw [h1] at hc
        exact hb.pos g c (by cases h2 : b.samples.get? g <;> simp_all [addCounts])
      | some n =>
        have hn := ha.pos g n h1
        cases h2 : b.samples.get? g with
        | none => rw [h1, h2] at hc; simp [addCounts] at hc; omega
        | some m =>
          have hm := hb.pos g m h2
          rw [h1, h2] at hc; simp [addCounts] at hc; omega
    · rintro g ⟨c, hc⟩
      have hc : r.samples.get? g = some c := hc
      rw [hg] at hc
      cases h1 : a.samples.get? g with
      | some n => exact ha.single g ⟨n, h1⟩
      | none =>
        rw [h1] at hc
        cases h2 : b.samples.get? g with
        | some n => exact hb.single g ⟨n, h2⟩
        | none => rw [h2] at hc; cases hc
  refine ⟨hplain, ?_, massOf_union o a b r hr _⟩
  have cancel : ∀ (c : Samples V X R) (e : Option (Sample V X R)) (hc : Plain ⟨s, c, e⟩),
      (massOf c (HasVar v) : ℚ) * Space.chance M ⟨s, c, e⟩ v x = (massOf c (HasValue v x) : ℚ) := by
    intro c e hc
    rw [chance_eq M _ hc v hv x]
    show (massOf c (HasVar v) : ℚ) * (massOf c (HasValue v x) / massOf c (HasVar v)) = _
    by_cases h0 : massOf c (HasVar v) = 0
    · have : massOf c (HasValue v x) = 0 := by
        refine le_antisymm ?_ (massOf_nonneg _ hc.pos _)
        rw [← h0]
        exact massOf_mono _ hc.pos fun g h => ⟨_, h, rfl⟩
      rw [h0, this]; simp
    · rw [mul_div_cancel₀]
      exact_mod_cast h0
  rw [cancel r e'' hplain, cancel a e ha, cancel b e' hb, massOf_union o a b r hr]
  push_cast; ring

/-- The counts of `b` are those of `a` times `k`. -/
def ScaledBy (k : ℤ) (a b : Samples V X R) : Prop := ∀ g, b.samples.get? g = (a.samples.get? g).map (k * ·)

/-- **C69.** Repeating every outcome the same number of times changes no probability: those of the outcomes, the marginal ones and
the conditional ones. -/
theorem C69_scale (M : MargOrders V X R) (k : ℤ) (hk : 0 < k) (a b : Space V X R) (ha : Plain a) (hs : b.schema = a.schema)
    (hpr : b.outcomes.prov = a.outcomes.prov) (h : ScaledBy k a.outcomes b.outcomes) :
    Plain b ∧ (∀ g, b.outcomes.probabilityOf g = a.outcomes.probabilityOf g) ∧
    (∀ v, a.Has v → ∀ x, b.chance M v x = a.chance M v x) ∧
    ∀ o o' ev ca cb, a.conditionalGraph o ev = .ok ca → b.conditionalGraph o' ev = .ok cb →
      ScaledBy k ca.outcomes cb.outcomes ∧ ∀ v, a.Has v → ∀ x, cb.chance M v x = ca.chance M v x := by
  have hkq : (k : ℚ) ≠ 0 := by exact_mod_cast hk.ne'
  have plain : ∀ a b : Space V X R, Plain a → ScaledBy k a.outcomes b.outcomes → Plain b := by
    intro a b ha h
    constructor
    · intro g c hc
      rw [h] at hc
      cases h1 : a.outcomes.samples.get? g with
      | none => rw [h1] at hc; cases hc
      | some n =>
        rw [h1] at hc
        simp only [Option.map_some, Option.some.injEq] at hc
        rw [← hc]
        exact mul_pos hk (ha.pos g n h1)
    · rintro g ⟨c, hc⟩
      rw [h] at hc
      cases h1 : a.outcomes.samples.get? g with
      | none => rw [h1] at hc; cases hc
      | some n => exact ha.single g ⟨n, h1⟩
  have chance : ∀ a b : Space V X R, Plain a → ScaledBy k a.outcomes b.outcomes → b.schema = a.schema → ∀ v, a.Has v → ∀ x,
      b.chance M v x = a.chance M v x := by
    intro a b ha h hs v hv x
    rw [chance_eq M b (plain a b ha h) v (by unfold Space.Has; rw [hs]; exact hv), chance_eq M a ha v hv,
      massOf_scale _ _ k h, massOf_scale _ _ k h]
    push_cast
    rw [mul_div_mul_left _ _ hkq]
  refine ⟨plain a b ha h, ?_, chance a b ha h hs, ?_⟩
  · intro g
    have hl : b.outcomes.length = k * a.outcomes.length := by
      rw [← massOf_length b.outcomes (fun _ => True) (fun _ _ => trivial), massOf_scale _ _ k h, massOf_length _ _ fun _ _ => trivial]
    unfold Samples.probabilityOf
    rw [h, hl]
    cases a.outcomes.samples.get? g with
    | none => rfl
    | some n =>
      simp only [Option.map_some, mul_eq_zero, hk.ne', false_or]
      split
      · rfl
      · push_cast
        rw [mul_div_mul_left _ _ hkq]
  · intro o o' ev ca cb hca hcb
    obtain ⟨h1, h2, h3⟩ := plain_conditional a ca ha o ev hca
    obtain ⟨i1, i2, i3⟩ := plain_conditional b cb (plain a b ha h) o' ev hcb
    have hsc : ScaledBy k ca.outcomes cb.outcomes := by
      intro g
      ext c
      rw [i3, h]
      constructor
      · rintro ⟨hc, hkept⟩
        cases h0 : a.outcomes.samples.get? g with
        | none => rw [h0] at hc; cases hc
        | some n =>
          rw [h0] at hc
          rw [(h3 g n).2 ⟨h0, hkept⟩]
          exact hc
      · intro hc
        cases h0 : ca.outcomes.samples.get? g with
        | none => rw [h0] at hc; cases hc
        | some n =>
          rw [h0] at hc
          obtain ⟨j1, j2⟩ := (h3 g n).1 h0
          rw [j1]
          exact ⟨hc, j2⟩
    refine ⟨hsc, fun v hv x => chance ca cb h1 hsc (by rw [i2, h2, hs]) v ?_ x⟩
    unfold Space.Has; rw [h2]; exact hv

/-- **C69.** Nor any weight of the activation graphs. -/
theorem C69_scale_activation (k : ℤ) (hk : 0 < k) (a b : Space V X R) (ev : SampleGraph V X R) (ha : ConditionedOn a ev)
    (hpos : Positive a.outcomes) (hne : ∃ g, a.outcomes.Occurs g) (hs : b.schema = a.schema) (h : ScaledBy k a.outcomes b.outcomes)
    (oI oI' : Order (SampleGraph V X R × ℤ)) (oN oN' : Order (Node V X)) (oE oE' : Order (Edge V X R))
    (oQ oQ' : Order (Edge V X R × Bool)) (oX oX' : Order X) (f : Option (Finset (Rel V R))) :
    ∃ ga gb, a.activationGraph oI oN oE oQ oX f ev = .ok ga ∧ b.activationGraph oI' oN' oE' oQ' oX' f ev = .ok gb ∧
      ∀ N ∈ ga.nodes, ∃ N' ∈ gb.nodes, N'.var = N.var ∧ (N'.inQuery = true ↔ N.inQuery = true) ∧ N'.values.Equiv N.values := by
  classical
  have hkq : (k : ℚ) ≠ 0 := by exact_mod_cast hk.ne'
  have hocc : ∀ g, b.outcomes.Occurs g ↔ a.outcomes.Occurs g := by
    intro g
    unfold Samples.Occurs
    rw [h]
    cases a.outcomes.samples.get? g <;> simp
  have hb : ConditionedOn b ev :=
    { sound := by
        intro g hg
        rw [hs]
        exact ha.sound g ((hocc g).1 hg)
      single := fun g hg => ha.single g ((hocc g).1 hg)
      closed := fun g hg => ha.closed g ((hocc g).1 hg)
      kept := fun g hg => ha.kept g ((hocc g).1 hg)
      evNonempty := ha.evNonempty
      evGood := ha.evGood
      evSingle := ha.evSingle
      evClosed := ha.evClosed }
  have hposb : Positive b.outcomes := by
    intro g c hc
    rw [h] at hc
    cases h1 : a.outcomes.samples.get? g with
    | none => rw [h1] at hc; cases hc
    | some n =>
      rw [h1] at hc
      simp only [Option.map_some, Option.some.injEq] at hc
      rw [← hc]
      exact mul_pos hk (hpos g n h1)
  have hl : b.outcomes.length = k * a.outcomes.length := by
    rw [← massOf_length b.outcomes (fun _ => True) (fun _ _ => trivial), massOf_scale _ _ k h, massOf_length _ _ fun _ _ => trivial]
  have hw : ∀ n, activationWeight b.outcomes f ev n = activationWeight a.outcomes f ev n := by
    intro n
    unfold activationWeight
    rw [hl, massOf_scale _ _ k h]
    push_cast
    split
    · rw [mul_div_mul_left _ _ hkq]
    · have : ∑ p ∈ b.outcomes.items with ReachedFrom f ev p.1 n, (graphSize ev : ℚ) / (graphSize p.1 : ℚ) * (p.2 : ℚ) =
          (k : ℚ) * ∑ p ∈ a.outcomes.items with ReachedFrom f ev p.1 n, (graphSize ev : ℚ) / (graphSize p.1 : ℚ) * (p.2 : ℚ) := by
        rw [Finset.mul_sum]
        symm
        apply Finset.sum_nbij (fun p => (p.1, k * p.2))
        · intro p hp
          rw [Finset.mem_filter, Samples.mem_items] at hp ⊢
          refine ⟨?_, hp.2⟩
          rw [h, hp.1]
          rfl
        · rintro ⟨p, c⟩ _ ⟨q, d⟩ _ hpq
          simp only [Prod.mk.injEq] at hpq
          obtain ⟨rfl, hpq⟩ := hpq
          rw [mul_left_cancel₀ hk.ne' hpq]
        · rintro ⟨q, d⟩ hq
          rw [Finset.mem_coe, Finset.mem_filter, Samples.mem_items] at hq
          obtain ⟨hq, hr⟩ := hq
          simp only at hq hr
          rw [h] at hq
          cases h1 : a.outcomes.samples.get? q with
          | none => rw [h1] at hq; cases hq
          | some c =>
            rw [h1] at hq
            simp only [Option.map_some, Option.some.injEq] at hq
            exact ⟨(q, c), by rw [Finset.mem_coe, Finset.mem_filter, Samples.mem_items]; exact ⟨h1, hr⟩, by simp [hq]⟩
        · intro p _
          push_cast
          ring
      rw [this, mul_div_mul_left _ _ hkq]
  obtain ⟨ga, h1, -, h2, -⟩ := C35_C36_activation_graph a ev ha hpos hne oI oN oE oQ oX f
  obtain ⟨gb, i1, -, i2, -⟩ := C35_C36_activation_graph b ev hb hposb
    (by obtain ⟨g, hg⟩ := hne; exact ⟨g, (hocc g).2 hg⟩) oI' oN' oE' oQ' oX' f
  refine ⟨ga, gb, h1, i1, fun N hN => ?_⟩
  obtain ⟨N', hN', hv⟩ := (i2.2.1 N.var).2 (by rw [hs]; exact (h2.2.1 N.var).1 ⟨N, hN, rfl⟩)
  refine ⟨N', hN', hv, ?_, ?_⟩
  · rw [(i2.2.2 N' hN').1, (h2.2.2 N hN).1, hv]
  · intro x
    ext w
    rw [(i2.2.2 N' hN').2, (h2.2.2 N hN).2, hv, hw, hs]

/-- **C69.** Where the hypothesis of Bayes' theorem comes from: in a graph that `is_joined`, a variable of one outcome is a variable of
all of them. -/
theorem C69_is_joined (sp : Space V X R) (oG : Order (SampleGraph V X R)) (h : sp.isJoined oG = true) (g : SampleGraph V X R)
    (hg : sp.outcomes.Occurs g) (u v : V) (hu : HasVar u g) (hv : HasVar v g) :
    ∀ g', sp.outcomes.Occurs g' → HasVar u g' ∧ HasVar v g' := fun g' hg' =>
  ⟨((C44_is_joined sp oG).1 h g g' hg hg' u).1 hu, ((C44_is_joined sp oG).1 h g g' hg hg' v).1 hv⟩

/-! ### Witnesses -/

/-- Two variables; one outcome has only the second. -/
def looseSpace : Space ℕ ℕ ℕ :=
  ⟨⟨⟨[(0, {0, 1}), (1, {0, 1})], by decide⟩, {0}⟩,
   ⟨0, ⟨[(oneEdge ⟨0, 0⟩ ⟨1, 0⟩, 1), (oneEdge ⟨0, 1⟩ ⟨1, 1⟩, 1), (⟨{⟨1, 0⟩}, ∅⟩, 2)], by decide⟩⟩, none⟩

/-- Two variables in all outcomes. -/
def joinedSpace : Space ℕ ℕ ℕ :=
  ⟨⟨⟨[(0, {0, 1}), (1, {0, 1})], by decide⟩, {0}⟩,
   ⟨0, ⟨[(oneEdge ⟨0, 0⟩ ⟨1, 0⟩, 1), (oneEdge ⟨0, 1⟩ ⟨1, 1⟩, 2), (oneEdge ⟨0, 1⟩ ⟨1, 0⟩, 3)], by decide⟩⟩, none⟩

instance (v x : ℕ) : DecidablePred (HasValue (V := ℕ) (X := ℕ) (R := ℕ) v x) := fun g => inferInstanceAs (Decidable (_ ∈ g.nodes))

instance (ev g : SampleGraph ℕ ℕ ℕ) : Decidable (KeptBy ev g) := by
  unfold KeptBy ContainsGraph NoCommonVariable
  infer_instance

theorem looseSpace_occurs (g : SampleGraph ℕ ℕ ℕ) (h : looseSpace.outcomes.Occurs g) :
    g = oneEdge ⟨0, 0⟩ ⟨1, 0⟩ ∨ g = oneEdge ⟨0, 1⟩ ⟨1, 1⟩ ∨ g = ⟨{⟨1, 0⟩}, ∅⟩ := by
  obtain ⟨c, hc⟩ := h
  rw [← Dict.mem_entries] at hc
  simp only [looseSpace, List.mem_cons, Prod.mk.injEq, List.not_mem_nil, or_false] at hc
  rcases hc with ⟨rfl, -⟩ | ⟨rfl, -⟩ | ⟨rfl, -⟩ <;> simp

theorem looseSpace_plain : Plain looseSpace := by
  constructor
  · intro g c hc
    rw [← Dict.mem_entries] at hc
    simp only [looseSpace, List.mem_cons, Prod.mk.injEq, List.not_mem_nil, or_false] at hc
    rcases hc with ⟨-, rfl⟩ | ⟨-, rfl⟩ | ⟨-, rfl⟩ <;> decide
  · intro g hg
    unfold SingleValued
    rcases looseSpace_occurs g hg with rfl | rfl | rfl <;> decide

/-- **C69.** Without the hypothesis the laws fail: outcomes without the variable observed stay in the conditional graph, so both Bayes'
theorem and the law of total probability can be wrong. -/
theorem C69_loose (M : MargOrders ℕ ℕ ℕ) (o : Order (SampleGraph ℕ ℕ ℕ × ℤ)) : ∃ c₀ c₁ d₀,
    looseSpace.conditionalGraph o (oneValue 0 0 0) = .ok c₀ ∧ looseSpace.conditionalGraph o (oneValue 0 0 1) = .ok c₁ ∧
    looseSpace.conditionalGraph o (oneValue 0 1 0) = .ok d₀ ∧ looseSpace.chance M 1 0 = 3/4 ∧
    c₀.chance M 1 0 * looseSpace.chance M 0 0 + c₁.chance M 1 0 * looseSpace.chance M 0 1 = 5/6 ∧
    c₀.chance M 1 0 * looseSpace.chance M 0 0 ≠ d₀.chance M 0 0 * looseSpace.chance M 1 0 := by
  have h0 : looseSpace.Has 0 := ⟨{0, 1}, by decide⟩
  have h1 : looseSpace.Has 1 := ⟨{0, 1}, by decide⟩
  obtain ⟨c₀, hc₀, -⟩ := (C34_conditional_graph looseSpace o (oneValue 0 0 0)).1 rfl
  obtain ⟨c₁, hc₁, -⟩ := (C34_conditional_graph looseSpace o (oneValue 0 0 1)).1 rfl
  obtain ⟨d₀, hd₀, -⟩ := (C34_conditional_graph looseSpace o (oneValue 0 1 0)).1 rfl
  refine ⟨c₀, c₁, d₀, hc₀, hc₁, hd₀, ?_⟩
  rw [C69_conditional M _ _ looseSpace_plain o _ hc₀ 1 h1, C69_conditional M _ _ looseSpace_plain o _ hc₁ 1 h1,
    C69_conditional M _ _ looseSpace_plain o _ hd₀ 0 h0, chance_eq M _ looseSpace_plain 1 h1, chance_eq M _ looseSpace_plain 0 h0,
    chance_eq M _ looseSpace_plain 0 h0]
  simp only [massOf_eq]
  decide +kernel

theorem joinedSpace_occurs (g : SampleGraph ℕ ℕ ℕ) (h : joinedSpace.outcomes.Occurs g) :
    g = oneEdge ⟨0, 0⟩ ⟨1, 0⟩ ∨ g = oneEdge ⟨0, 1⟩ ⟨1, 1⟩ ∨ g = oneEdge ⟨0, 1⟩ ⟨1, 0⟩ := by
  obtain ⟨c, hc⟩ := h
  rw [← Dict.mem_entries] at hc
  simp only [joinedSpace, List.mem_cons, Prod.mk.injEq, List.not_mem_nil, or_false] at hc
  rcases hc with ⟨rfl, -⟩ | ⟨rfl, -⟩ | ⟨rfl, -⟩ <;> simp

/-- Non-vacuity of the theorems on joined graphs: their hypotheses hold for `joinedSpace`. -/
theorem joinedSpace_plain : Plain joinedSpace := by
  constructor
  · intro g c hc
    rw [← Dict.mem_entries] at hc
    simp only [joinedSpace, List.mem_cons, Prod.mk.injEq, List.not_mem_nil, or_false] at hc
    rcases hc with ⟨-, rfl⟩ | ⟨-, rfl⟩ | ⟨-, rfl⟩ <;> decide
  · intro g hg
    unfold SingleValued
    rcases joinedSpace_occurs g hg with rfl | rfl | rfl <;> decide

theorem joinedSpace_both (g : SampleGraph ℕ ℕ ℕ) (hg : joinedSpace.outcomes.Occurs g) : HasVar 0 g ∧ HasVar 1 g := by
  rcases joinedSpace_occurs g hg with rfl | rfl | rfl <;> decide

/-- The numbers of Bayes' theorem there: 3/5 · 5/6 = 3/4 · 2/3. -/
example (M : MargOrders ℕ ℕ ℕ) (o : Order (SampleGraph ℕ ℕ ℕ × ℤ)) : ∃ c d, joinedSpace.conditionalGraph o (oneValue 0 0 1) = .ok c ∧
    joinedSpace.conditionalGraph o (oneValue 0 1 0) = .ok d ∧ c.chance M 1 0 = 3/5 ∧ joinedSpace.chance M 0 1 = 5/6 ∧
    d.chance M 0 1 = 3/4 ∧ joinedSpace.chance M 1 0 = 2/3 := by
  have h0 : joinedSpace.Has 0 := ⟨{0, 1}, by decide⟩
  have h1 : joinedSpace.Has 1 := ⟨{0, 1}, by decide⟩
  obtain ⟨c, hc, -⟩ := (C34_conditional_graph joinedSpace o (oneValue 0 0 1)).1 rfl
  obtain ⟨d, hd, -⟩ := (C34_conditional_graph joinedSpace o (oneValue 0 1 0)).1 rfl
  refine ⟨c, d, hc, hd, ?_⟩
  rw [C69_conditional M _ _ joinedSpace_plain o _ hc 1 h1, C69_conditional M _ _ joinedSpace_plain o _ hd 0 h0,
    chance_eq M _ joinedSpace_plain 1 h1, chance_eq M _ joinedSpace_plain 0 h0]
  simp only [massOf_eq]
  decide +kernel

/-- The hypothesis of C69_pieces holds there for evidence on either variable. -/
example (g : SampleGraph ℕ ℕ ℕ) (hg : joinedSpace.outcomes.Occurs g) :
    (∃ n ∈ (oneValue 0 0 1 : Sample ℕ ℕ ℕ).graph.nodes, HasVar n.var g) ∧
      ∃ n ∈ (oneValue 0 1 0 : Sample ℕ ℕ ℕ).graph.nodes, HasVar n.var g :=
  ⟨⟨⟨0, 1⟩, by decide, (joinedSpace_both g hg).1⟩, ⟨⟨1, 0⟩, by decide, (joinedSpace_both g hg).2⟩⟩

/-- Non-vacuity of C69_mixture: both sets are of the same provider, so the union exists. -/
example (o : Order (SampleGraph ℕ ℕ ℕ × ℤ)) : ∃ r, joinedSpace.outcomes.union o looseSpace.outcomes = .ok r :=
  (C21_union o _ _).1.2 rfl

/-- Non-vacuity of C69_scale. -/
example : ScaledBy 3 joinedSpace.outcomes
    ⟨0, ⟨[(oneEdge ⟨0, 0⟩ ⟨1, 0⟩, 3), (oneEdge ⟨0, 1⟩ ⟨1, 1⟩, 6), (oneEdge ⟨0, 1⟩ ⟨1, 0⟩, 9)], by decide⟩⟩ := by
  intro g
  simp only [Dict.get?, joinedSpace, assoc?]
  split
  · simp
  · split
    · simp
    · split <;> simp

end Verif
