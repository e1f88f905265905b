import Verif.Lemmas.Odometer
import Verif.Props.RelationGraphBuilder
import Verif.Props.RoundTrip
import Verif.Props.SampleGraph

/-!
# The phases of `generate_all_possible_outcomes`
-/

set_option linter.unusedSectionVars false

namespace Verif
open Relation

/-- A comprehension whose element computations all return. -/
theorem mapM_returns {α β : Type} (f : α → Py β) (l : List α) (h : ∀ x ∈ l, ∃ y, f x = .ok y) :
    ∃ L, l.mapM f = .ok L ∧ ∀ y, y ∈ L ↔ ∃ x ∈ l, f x = .ok y := by
  induction l with
  | nil => exact ⟨[], rfl, by simp⟩
  | cons x t ih =>
    obtain ⟨y, hy⟩ := h x (by simp)
    obtain ⟨L, hL, hm⟩ := ih (fun z hz => h z (by simp [hz]))
    refine ⟨y :: L, ?_, ?_⟩
    · rw [List.mapM_cons, hy, hL]; rfl
    · intro z
      rw [List.mem_cons, hm]
      constructor
      · rintro (rfl | ⟨w, hw, hz⟩)
        · exact ⟨x, by simp, hy⟩
        · exact ⟨w, by simp [hw], hz⟩
      · rintro ⟨w, hw, hz⟩
        rcases List.mem_cons.1 hw with rfl | hw
        · left; rw [hy] at hz; simpa using hz.symm
        · right; exact ⟨w, hw, hz⟩

theorem takeWhile_all {α : Type} (p : α → Bool) (l : List α) (h : ∀ x ∈ l, p x = true) : l.takeWhile p = l := by
  induction l with
  | nil => rfl
  | cons x t ih => rw [List.takeWhile_cons_of_pos (h x (by simp)), ih (fun y hy => h y (by simp [hy]))]

theorem totalOf_ones {K : Type} [DecidableEq K] (l : List K) (h : l.Nodup) (k : K) :
    (k ∈ l → totalOf (l.map fun x => (x, (1 : ℤ))) k = some 1) ∧ (k ∉ l → totalOf (l.map fun x => (x, (1 : ℤ))) k = none) := by
  induction l with
  | nil => simp [totalOf_nil]
  | cons x t ih =>
    obtain ⟨hx, ht⟩ := List.nodup_cons.1 h
    rw [List.map_cons, totalOf_cons]
    by_cases hxk : x = k
    · subst hxk
      refine ⟨fun _ => ?_, fun hn => absurd (by simp) hn⟩
      rw [if_pos rfl, (ih ht).2 hx]; rfl
    · simp only [if_neg hxk]
      refine ⟨fun hk => (ih ht).1 ?_, fun hk => (ih ht).2 (fun h' => hk (by simp [h']))⟩
      rcases List.mem_cons.1 hk with rfl | hk
      · exact absurd rfl hxk
      · exact hk

section
variable {V X R : Type} [DecidableEq V] [DecidableEq X] [DecidableEq R]

/-- What `generate_all_possible_outcomes` should produce: the non-empty connected single-valued graphs over what was
declared, with undirected relations and at most one relation per pair. -/
structure IsOutcome (s : Schema V X R) (g : SampleGraph V X R) : Prop where
  nonempty : g.nodes.Nonempty
  wf : WellFormed g
  single : SingleValued g.nodes
  values : ∀ n ∈ g.nodes, ∃ xs, s.vars.get? n.var = some xs ∧ n.val ∈ xs
  relations : ∀ e ∈ g.edges, ∃ r ∈ s.rels, e.relation = .plain r

theorem IsOutcome.declared {s : Schema V X R} {g : SampleGraph V X R} (h : IsOutcome s g) : DeclaredIn s g := by
  constructor
  · intro n hn
    obtain ⟨xs, h1, h2⟩ := h.values n hn
    simp [Schema.declared, h1, h2]
  · intro e he
    obtain ⟨r, hr, heq⟩ := h.relations e he
    simp [Schema.relOk, heq, Rel.label, hr, Schema.dirOk]

/-- The outcomes of the builder are exactly the graphs `P`, each with count 1. -/
def Counted (b : RGBuilder V X R) (P : SampleGraph V X R → Prop) : Prop :=
  ∀ g, (P g → b.outcomes.samples.get? g = some 1) ∧ (¬ P g → b.outcomes.samples.get? g = none)

theorem Counted.add {b b' : RGBuilder V X R} {P : SampleGraph V X R → Prop} (h : Counted b P)
    (l : List (SampleGraph V X R)) (hl : l.Nodup) (hnew : ∀ g ∈ l, ¬ P g)
    (hget : ∀ g, b'.outcomes.samples.get? g =
      addCounts (b.outcomes.samples.get? g) (totalOf (l.map fun x => (x, (1 : ℤ))) g)) :
    Counted b' (fun g => P g ∨ g ∈ l) := by
  intro g
  rw [hget]
  constructor
  · rintro (hp | hm)
    · rw [(h g).1 hp, (totalOf_ones l hl g).2 (fun hm => hnew g hm hp)]; rfl
    · rw [(h g).2 (hnew g hm), (totalOf_ones l hl g).1 hm]; rfl
  · intro hn
    push Not at hn
    rw [(h g).2 hn.1, (totalOf_ones l hl g).2 hn.2]; rfl

theorem Counted.congr {b : RGBuilder V X R} {P Q : SampleGraph V X R → Prop} (h : Counted b P) (hpq : ∀ g, P g ↔ Q g) :
    Counted b Q := fun g => ⟨fun hq => (h g).1 ((hpq g).2 hq), fun hq => (h g).2 (fun hp => hq ((hpq g).1 hp))⟩

theorem Counted.mem_graphs {b : RGBuilder V X R} {P : SampleGraph V X R → Prop} (h : Counted b P) (g : SampleGraph V X R) :
    g ∈ b.outcomes.graphs ↔ P g := by
  rw [Samples.mem_graphs]
  constructor
  · rintro ⟨c, hc⟩
    by_contra hp
    rw [(h g).2 hp] at hc; simp at hc
  · intro hp; exact ⟨1, (h g).1 hp⟩

/-! ### Single node outcomes -/

theorem genSingles_ok (s : Schema V X R) (l : List (V × X)) : ∀ (b : RGBuilder V X R), b.Coherent → b.schema = s →
    (∀ p ∈ l, s.declared p.1 p.2 = true) →
    ∃ b', RGBuilder.genSingles l b = .ok b' ∧ b'.Coherent ∧ b'.schema = s ∧ b'.prov = b.prov ∧
      ∀ g, b'.outcomes.samples.get? g = addCounts (b.outcomes.samples.get? g)
        (totalOf ((l.map fun p => (⟨{⟨p.1, p.2⟩}, ∅⟩ : SampleGraph V X R)).map fun x => (x, (1 : ℤ))) g) := by
  induction l with
  | nil => intro b hb hs _; exact ⟨b, rfl, hb, hs, rfl, fun g => by simp [totalOf_nil]⟩
  | cons p t ih =>
    intro b hb hs hd
    have h1 : b.nextId.2.buildSample (fun sb => sb.buildSingleNode b.schema p.1 p.2) =
        b.nextId.2.addOutcome ⟨b.prov, ⟨{⟨p.1, p.2⟩}, ∅⟩⟩ 1 := by
      unfold RGBuilder.buildSample Builder.buildSingleNode Schema.getNode
      rw [hs, if_pos (hd p (by simp))]
      rfl
    obtain ⟨a1, a2, a3, a4, -, a6⟩ := addOutcome_ok b.nextId.2 hb ⟨b.prov, ⟨{⟨p.1, p.2⟩}, ∅⟩⟩ 1 rfl (by norm_num)
    obtain ⟨b', i1, i2, i3, i4, i5⟩ := ih (b.nextId.2.addOutcome ⟨b.prov, ⟨{⟨p.1, p.2⟩}, ∅⟩⟩ 1).1 a2 (a4.trans hs)
      (fun q hq => hd q (by simp [hq]))
    refine ⟨b', ?_, i2, i3, i4.trans a3, ?_⟩
    · unfold RGBuilder.genSingles
      rw [h1]
      unfold toPy
      rw [a1]
      exact i1
    · intro g
      rw [i5, a6, addCounts_assoc, ← totalOf_append]
      rfl

/-! ### Outcomes with edges -/

theorem activeEdges_ok (eps : List (Finset (V × X))) (rels : List R) (idx : List ℤ)
    (hidx : ∀ a ∈ idx, a < rels.length) :
    ∃ E, activeEdges eps rels idx = .ok E ∧ ∀ e, e ∈ E ↔ ∃ (j : ℕ) (p : Finset (V × X)) (i : ℤ) (r : R), eps[j]? = some p ∧ idx[j]? = some i ∧ 0 ≤ i ∧
      rels[i.toNat]? = some r ∧ e = (p, Rel.plain r) := by
  have hmem : ∀ q, q ∈ ((eps.zip idx).filter fun p => decide (p.2 ≥ 0)) ↔
      ∃ j : Nat, eps[j]? = some q.1 ∧ idx[j]? = some q.2 ∧ 0 ≤ q.2 := by
    intro q
    rw [List.mem_filter, List.mem_iff_getElem?]
    constructor
    · rintro ⟨⟨j, hj⟩, h0⟩
      rw [List.getElem?_zip_eq_some] at hj
      exact ⟨j, hj.1, hj.2, by simpa using h0⟩
    · rintro ⟨j, h1, h2, h3⟩
      exact ⟨⟨j, List.getElem?_zip_eq_some.2 ⟨h1, h2⟩⟩, by simpa using h3⟩
  obtain ⟨L, hL, hm⟩ := mapM_returns (activeEdge rels)
    ((eps.zip idx).filter fun p => decide (p.2 ≥ 0)) (by
      intro q hq
      obtain ⟨j, h1, h2, h3⟩ := (hmem q).1 hq
      have := hidx q.2 (List.mem_of_getElem? h2)
      have hlt : q.2.toNat < rels.length := by omega
      unfold activeEdge
      rw [List.getElem?_eq_getElem hlt]
      exact ⟨_, rfl⟩)
  refine ⟨L.toFinset, ?_, ?_⟩
  · unfold activeEdges; rw [hL]
  · intro e
    rw [List.mem_toFinset, hm]
    constructor
    · rintro ⟨q, hq, he⟩
      obtain ⟨j, h1, h2, h3⟩ := (hmem q).1 hq
      unfold activeEdge at he
      split at he
      · simp at he
      · rename_i r hr
        simp only [Except.ok.injEq] at he
        exact ⟨j, q.1, q.2, r, h1, h2, h3, hr, he.symm⟩
    · rintro ⟨j, p, i, r, h1, h2, h3, h4, rfl⟩
      refine ⟨(p, i), (hmem _).2 ⟨j, h1, h2, h3⟩, ?_⟩
      simp [activeEdge, h4]

/-- Raw edges between the listed nodes with declared relations, at most one per pair. -/
structure RawOk (s : Schema V X R) (nodes : List (V × X)) (E : Finset (RawEdge V X R)) : Prop where
  ends : ∀ e ∈ E, ∃ a ∈ nodes, ∃ b ∈ nodes, a ≠ b ∧ e.1 = {a, b}
  rels : ∀ e ∈ E, ∃ r ∈ s.rels, e.2 = .plain r
  one : ∀ e ∈ E, ∀ e' ∈ E, e.1 = e'.1 → e = e'

theorem mem_endpointPairs (nodes : List (V × X)) (p : Finset (V × X)) :
    p ∈ RGBuilder.endpointPairs nodes ↔ ∃ a ∈ nodes, ∃ b ∈ nodes, a ≠ b ∧ p = {a, b} := by
  unfold RGBuilder.endpointPairs
  simp only [List.mem_toFinset, List.mem_map, List.mem_filter, decide_eq_true_eq]
  constructor
  · rintro ⟨⟨b, a⟩, ⟨hm, hne⟩, rfl⟩
    obtain ⟨h1, h2⟩ := List.pair_mem_product.1 hm
    exact ⟨a, h2, b, h1, hne, rfl⟩
  · rintro ⟨a, ha, b, hb, hne, rfl⟩
    exact ⟨(b, a), ⟨List.pair_mem_product.2 ⟨hb, ha⟩, hne⟩, rfl⟩

/-- The active edges of an index vector are admissible, not empty if some entry is not -1. -/
theorem active_rawOk (s : Schema V X R) (nodes : List (V × X)) (oP : Order (Finset (V × X))) (oR : Order R)
    (idx : List ℤ) (E : Finset (RawEdge V X R))
    (hE : ∀ e, e ∈ E ↔ ∃ (j : ℕ) (p : Finset (V × X)) (i : ℤ) (r : R), (oP.run (RGBuilder.endpointPairs nodes))[j]? = some p ∧ idx[j]? = some i ∧ 0 ≤ i ∧
      (oR.run s.rels)[i.toNat]? = some r ∧ e = (p, Rel.plain r)) : RawOk s nodes E := by
  refine ⟨?_, ?_, ?_⟩
  · intro e he
    obtain ⟨j, p, i, r, h1, -, -, -, rfl⟩ := (hE e).1 he
    have := List.mem_of_getElem? h1
    rw [oP.mem] at this
    exact (mem_endpointPairs nodes p).1 this
  · intro e he
    obtain ⟨j, p, i, r, -, -, -, h4, rfl⟩ := (hE e).1 he
    have := List.mem_of_getElem? h4
    rw [oR.mem] at this
    exact ⟨r, this, rfl⟩
  · intro e he e' he' heq
    obtain ⟨j, p, i, r, h1, h2, h3, h4, rfl⟩ := (hE e).1 he
    obtain ⟨j', p', i', r', h1', h2', h3', h4', rfl⟩ := (hE e').1 he'
    simp only at heq
    subst heq
    have hlt : j < (oP.run (RGBuilder.endpointPairs nodes)).length := (List.getElem?_eq_some_iff.1 h1).1
    have hj : j = j' := (List.getElem?_inj hlt (oP.nodup _)).1 (h1.trans h1'.symm)
    subst hj
    rw [h2] at h2'
    simp only [Option.some.injEq] at h2'
    subst h2'
    rw [h4] at h4'
    simp only [Option.some.injEq] at h4'
    rw [h4']

theorem graphOf_inj {E E' : Finset (RawEdge V X R)} (h : graphOf E = graphOf E') : E = E' := by
  have he : (graphOf E).edges = (graphOf E').edges := by rw [h]
  have hinj : Function.Injective fun e : RawEdge V X R => (⟨toNodes e.1, e.2⟩ : Edge V X R) := by
    rintro ⟨a, r⟩ ⟨b, r'⟩ hab
    simp only [Edge.mk.injEq] at hab
    rw [toNodes_inj hab.1, hab.2]
  exact Finset.image_injective hinj he

theorem genEdges_ok (o : GenOrders V X R) (s : Schema V X R) (nodes : List (V × X))
    (hnodes : ∀ p ∈ nodes, s.declared p.1 p.2 = true) (hinj : ∀ p ∈ nodes, ∀ q ∈ nodes, p.1 = q.1 → p = q)
    (eps : List (Finset (V × X))) (rels : List R) (Ef : List ℤ → Finset (RawEdge V X R)) (L : List (List ℤ)) :
    ∀ (b : RGBuilder V X R), b.Coherent → b.schema = s →
    (∀ idx ∈ L, activeEdges eps rels idx = .ok (Ef idx) ∧ (Ef idx).Nonempty ∧ RawOk s nodes (Ef idx)) →
    ∃ (b' : RGBuilder V X R) (G : List (SampleGraph V X R)), RGBuilder.genEdges o eps rels L b = .ok b' ∧ b'.Coherent ∧ b'.schema = s ∧ b'.prov = b.prov ∧
      (∀ g, b'.outcomes.samples.get? g = addCounts (b.outcomes.samples.get? g)
        (totalOf (G.map fun x => (x, (1 : ℤ))) g)) ∧
      (∀ g, g ∈ G ↔ ∃ idx ∈ L, RawConnected (Ef idx) ∧ g = graphOf (Ef idx)) ∧
      ((∀ i ∈ L, ∀ j ∈ L, Ef i = Ef j → i = j) → L.Nodup → G.Nodup) := by
  induction L with
  | nil => intro b hb hs _; exact ⟨b, [], rfl, hb, hs, rfl, fun g => by simp [totalOf_nil], by simp, by simp⟩
  | cons idx t ih =>
    intro b hb hs hL
    obtain ⟨hact, hne, hok⟩ := hL idx (by simp)
    have htwo : ∀ e ∈ Ef idx, TwoVars e.1 ∧ RawDeclared s e.1 e.2 := by
      intro e he
      obtain ⟨p, hp, q, hq, hpq, heq⟩ := hok.ends e he
      obtain ⟨r, hr, hre⟩ := hok.rels e he
      refine ⟨⟨p, q, fun h => hpq (hinj p hp q hq h), heq⟩, ?_⟩
      rw [rawDeclared_iff]
      refine ⟨?_, ?_⟩
      · intro z hz
        rw [heq] at hz
        simp only [Finset.mem_insert, Finset.mem_singleton] at hz
        rcases hz with rfl | rfl
        · exact hnodes _ hp
        · exact hnodes _ hq
      · simp [Schema.relOk, hre, Rel.label, hr, Schema.dirOk]
    obtain ⟨c, hc, hcon⟩ := C04_is_edges_connected o.oE o.oN (Ef idx) hne (by
      intro e he
      obtain ⟨p, q, hpq, heq⟩ := (htwo e he).1
      rw [heq, Finset.card_pair]
      rintro rfl; exact hpq rfl)
    change c = true ↔ RawConnected (Ef idx) at hcon
    unfold RGBuilder.genEdges
    simp only [hact, hc]
    cases c with
    | false =>
      obtain ⟨b', G, i1, i2, i3, i4, i5, i6, i7⟩ := ih b hb hs (fun i hi => hL i (by simp [hi]))
      refine ⟨b', G, i1, i2, i3, i4, i5, ?_, ?_⟩
      · intro g
        rw [i6]
        constructor
        · rintro ⟨i, hi, h⟩; exact ⟨i, by simp [hi], h⟩
        · rintro ⟨i, hi, h1, h2⟩
          rcases List.mem_cons.1 hi with rfl | hi
          · exact absurd (hcon.2 h1) (by simp)
          · exact ⟨i, hi, h1, h2⟩
      · intro h1 h2
        exact i7 (fun i hi j hj => h1 i (by simp [hi]) j (by simp [hj])) (List.nodup_cons.1 h2).2
    | true =>
      have hbuild : ((Builder.new b.prov).buildFromEdges b.schema o.oE o.oN (Ef idx) false).2 =
          .ok ⟨b.prov, graphOf (Ef idx)⟩ := by
        rw [hs]
        exact ((C10_build_from_edges s o.oE o.oN b.prov (Ef idx) false).1 _).2
          ⟨hne, htwo, by simp, rfl⟩
      simp only [hbuild]
      obtain ⟨a1, a2, a3, a4, -, a6⟩ := addOutcome_ok b.nextId.2 hb ⟨b.prov, graphOf (Ef idx)⟩ 1 rfl (by norm_num)
      obtain ⟨b', G, i1, i2, i3, i4, i5, i6, i7⟩ := ih (b.nextId.2.addOutcome ⟨b.prov, graphOf (Ef idx)⟩ 1).1 a2
        (a4.trans hs) (fun i hi => hL i (by simp [hi]))
      refine ⟨b', graphOf (Ef idx) :: G, ?_, i2, i3, i4.trans a3, ?_, ?_, ?_⟩
      · unfold toPy; rw [a1]; exact i1
      · intro g
        rw [i5, a6, addCounts_assoc, ← totalOf_append]
        rfl
      · intro g
        rw [List.mem_cons, i6]
        constructor
        · rintro (rfl | ⟨i, hi, h⟩)
          · exact ⟨idx, by simp, hcon.1 rfl, rfl⟩
          · exact ⟨i, by simp [hi], h⟩
        · rintro ⟨i, hi, h1, h2⟩
          rcases List.mem_cons.1 hi with rfl | hi
          · exact Or.inl h2
          · exact Or.inr ⟨i, hi, h1, h2⟩
      · intro h1 h2
        refine List.nodup_cons.2 ⟨?_, i7 (fun i hi j hj => h1 i (by simp [hi]) j (by simp [hj])) (List.nodup_cons.1 h2).2⟩
        intro hmem
        obtain ⟨i, hi, -, heq⟩ := (i6 _).1 hmem
        have := h1 idx (by simp) i (by simp [hi]) (graphOf_inj heq)
        rw [← this] at hi
        exact (List.nodup_cons.1 h2).1 hi

/-! ### Substitution of values -/

theorem replace_isOutcome (s : Schema V X R) (g : SampleGraph V X R) (hg : IsOutcome s g) (v : V) (x : X)
    (hx : ∃ xs, s.vars.get? v = some xs ∧ x ∈ xs) : IsOutcome s (replaceGraph (Dict.empty.set v x) g) := by
  obtain ⟨-, -, h3⟩ := C16_preserves (Dict.empty.set v x) g hg.wf
  obtain ⟨h4, h5⟩ := h3 hg.single
  refine ⟨hg.nonempty.image _, h5, h4, ?_, ?_⟩
  · intro n hn
    obtain ⟨m, hm, rfl⟩ := Finset.mem_image.1 hn
    unfold replaceNode
    split
    · rename_i y hy
      rw [Dict.get?_set] at hy
      split at hy
      · rename_i hv; simp only [Option.some.injEq] at hy; subst hy; simp only; rw [← hv]; exact hx
      · simp at hy
    · exact hg.values m hm
  · intro e he
    obtain ⟨e', he', rfl⟩ := Finset.mem_image.1 he
    exact hg.relations e' he'


theorem replaceNode_one (v : V) (x : X) (n : Node V X) :
    replaceNode (Dict.empty.set v x) n = if n.var = v then ⟨v, x⟩ else n := by
  unfold replaceNode
  rw [Dict.get?_set]
  by_cases h : v = n.var
  · rw [if_pos h, if_pos h.symm]; simp [h]
  · rw [if_neg h, if_neg (fun h' => h h'.symm)]; simp

theorem mem_replaceGraph (v : V) (x : X) (g : SampleGraph V X R) (m : Node V X) :
    m ∈ (replaceGraph (Dict.empty.set v x) g).nodes ↔
      (m = ⟨v, x⟩ ∧ v ∈ g.includedVariables) ∨ (m ∈ g.nodes ∧ m.var ≠ v) := by
  simp only [replaceGraph, Finset.mem_image, replaceNode_one, SampleGraph.includedVariables]
  constructor
  · rintro ⟨n, hn, rfl⟩
    by_cases h : n.var = v
    · left; rw [if_pos h]; exact ⟨rfl, n, hn, h⟩
    · right; rw [if_neg h]; exact ⟨hn, h⟩
  · rintro (⟨rfl, n, hn, hv⟩ | ⟨hm, hv⟩)
    · exact ⟨n, hn, by rw [if_pos hv]⟩
    · exact ⟨m, hm, by rw [if_neg hv]⟩

/-- The outcomes in which the variables still to be processed have their first value. -/
def Stage (s : Schema V X R) (rem : List (V × List X)) (g : SampleGraph V X R) : Prop :=
  IsOutcome s g ∧ ∀ p ∈ rem, ∀ n ∈ g.nodes, n.var = p.1 → p.2.head? = some n.val

/-- The listing of variables and values agrees with the declaration. -/
structure Listing (s : Schema V X R) (rem : List (V × List X)) : Prop where
  keys : (rem.map Prod.fst).Nodup
  vals : ∀ p ∈ rem, p.2.Nodup ∧ p.2 ≠ [] ∧ ∃ xs, s.vars.get? p.1 = some xs ∧ ∀ x, x ∈ xs ↔ x ∈ p.2

theorem mem_substPairs (gs : List (SampleGraph V X R)) (v : V) (rest : List X) (p : SampleGraph V X R × X) :
    p ∈ RGBuilder.substPairs gs v rest ↔ p.1 ∈ gs ∧ p.2 ∈ rest ∧ v ∈ p.1.includedVariables := by
  unfold RGBuilder.substPairs
  simp only [List.mem_flatMap, List.mem_map, List.mem_filter, decide_eq_true_eq]
  constructor
  · rintro ⟨g, hg, x, ⟨hx, hv⟩, rfl⟩; exact ⟨hg, hx, hv⟩
  · rintro ⟨h1, h2, h3⟩; exact ⟨p.1, h1, p.2, ⟨h2, h3⟩, rfl⟩

theorem nodup_substPairs (gs : List (SampleGraph V X R)) (hgs : gs.Nodup) (v : V) (rest : List X) (hr : rest.Nodup) :
    (RGBuilder.substPairs gs v rest).Nodup := by
  unfold RGBuilder.substPairs
  rw [List.nodup_flatMap]
  refine ⟨?_, ?_⟩
  · intro g _
    exact (hr.filter _).map (fun a b h => by simpa using h)
  · refine hgs.imp ?_
    intro g g' hne
    rw [Function.onFun, List.disjoint_left]
    intro p hp hp'
    obtain ⟨x, -, rfl⟩ := List.mem_map.1 hp
    obtain ⟨x', -, heq⟩ := List.mem_map.1 hp'
    simp only [Prod.mk.injEq] at heq
    exact hne heq.1.symm

theorem stage_step (s : Schema V X R) (v : V) (x0 : X) (tl : List X) (t : List (V × List X))
    (hl : Listing s ((v, x0 :: tl) :: t)) (g : SampleGraph V X R) :
    Stage s t g ↔ Stage s ((v, x0 :: tl) :: t) g ∨
      ∃ g0 x, Stage s ((v, x0 :: tl) :: t) g0 ∧ x ∈ tl ∧ v ∈ g0.includedVariables ∧
        g = replaceGraph (Dict.empty.set v x) g0 := by
  obtain ⟨hnd, -, xs, hxs, hmem⟩ := hl.vals (v, x0 :: tl) (by simp)
  simp only at hnd hxs hmem
  have hvt : ∀ p ∈ t, p.1 ≠ v := by
    intro p hp hpv
    have := hl.keys
    rw [List.map_cons, List.nodup_cons] at this
    exact this.1 (List.mem_map.2 ⟨p, hp, hpv⟩)
  have stage_replace : ∀ g', IsOutcome s g' → (∀ p ∈ t, ∀ n ∈ g'.nodes, n.var = p.1 → p.2.head? = some n.val) →
      ∀ x, x ∈ x0 :: tl → Stage s t (replaceGraph (Dict.empty.set v x) g') := by
    intro g' ho hs x hx
    refine ⟨replace_isOutcome s g' ho v x ⟨xs, hxs, (hmem x).2 hx⟩, ?_⟩
    intro p hp n hn hnv
    rcases (mem_replaceGraph v x g' n).1 hn with ⟨rfl, -⟩ | ⟨hn', -⟩
    · exact absurd hnv.symm (hvt p hp)
    · exact hs p hp n hn' hnv
  constructor
  · rintro ⟨ho, hs⟩
    by_cases hfirst : ∀ n ∈ g.nodes, n.var = v → n.val = x0
    · left
      refine ⟨ho, ?_⟩
      intro p hp n hn hnv
      rcases List.mem_cons.1 hp with rfl | hp
      · simp only [List.head?_cons]; rw [hfirst n hn hnv]
      · exact hs p hp n hn hnv
    · push Not at hfirst
      obtain ⟨n, hn, hnv, hne⟩ := hfirst
      right
      have hntl : n.val ∈ tl := by
        obtain ⟨xs', h1, h2⟩ := ho.values n hn
        rw [hnv, hxs] at h1
        simp only [Option.some.injEq] at h1
        subst h1
        rcases List.mem_cons.1 ((hmem _).1 h2) with h | h
        · exact absurd h hne
        · exact h
      have hvin : v ∈ g.includedVariables := Finset.mem_image.2 ⟨n, hn, hnv⟩
      have hst := stage_replace g ho hs x0 (by simp)
      refine ⟨replaceGraph (Dict.empty.set v x0) g, n.val, ⟨hst.1, ?_⟩, hntl, ?_, ?_⟩
      · intro p hp m hm hmv
        rcases List.mem_cons.1 hp with rfl | hp
        · rcases (mem_replaceGraph v x0 g m).1 hm with ⟨rfl, -⟩ | ⟨-, h⟩
          · simp
          · exact absurd hmv h
        · exact hst.2 p hp m hm hmv
      · rw [(C16_preserves _ g ho.wf).1]; exact hvin
      · rw [(C16_algebra (Dict.empty.set v x0) (Dict.empty.set v n.val) g).2, eq_comm]
        · refine (C16_algebra (Dict.empty.set v n.val) Dict.empty g).1 ho.wf.closed ?_
          intro m hm x hx
          rw [Dict.get?_set] at hx
          split at hx
          · rename_i hmv
            simp only [Option.some.injEq] at hx
            rw [← hx, ho.single n hn m hm (hnv.trans hmv)]
          · simp at hx
        · intro w hw
          rw [Dict.has_iff, Dict.mem_keys] at hw ⊢
          obtain ⟨y, hy⟩ := hw
          rw [Dict.get?_set] at hy ⊢
          split at hy
          · rename_i h; rw [if_pos h]; exact ⟨_, rfl⟩
          · simp at hy
  · rintro (h | ⟨g0, x, h, hx, -, rfl⟩)
    · exact ⟨h.1, fun p hp => h.2 p (by simp [hp])⟩
    · exact stage_replace g0 h.1 (fun p hp => h.2 p (by simp [hp])) x (by simp [hx])

theorem genSubst_ok (o : GenOrders V X R) (s : Schema V X R) (rem : List (V × List X)) : ∀ (b : RGBuilder V X R),
    Listing s rem → b.Coherent → b.schema = s → Counted b (Stage s rem) →
    ∃ b', RGBuilder.genSubst o rem b = .ok b' ∧ b'.Coherent ∧ b'.schema = s ∧ b'.prov = b.prov ∧
      Counted b' (IsOutcome s) := by
  induction rem with
  | nil =>
    intro b _ hb hs hc
    exact ⟨b, rfl, hb, hs, rfl, hc.congr fun g => ⟨fun h => h.1, fun h => ⟨h, by simp⟩⟩⟩
  | cons p t ih =>
    intro b hl hb hs hc
    obtain ⟨v, xs⟩ := p
    obtain ⟨hnd, hne, ys, hys, hmem⟩ := hl.vals (v, xs) (by simp)
    simp only at hnd hne hys hmem
    obtain ⟨x0, tl, rfl⟩ := List.exists_cons_of_ne_nil hne
    have hlt : Listing s t := by
      refine ⟨?_, fun p hp => hl.vals p (by simp [hp])⟩
      have := hl.keys
      rw [List.map_cons] at this
      exact (List.nodup_cons.1 this).2
    set P := RGBuilder.substPairs (o.oG.run b.outcomes.graphs) v tl with hP
    have hPm : ∀ q, q ∈ P ↔ Stage s ((v, x0 :: tl) :: t) q.1 ∧ q.2 ∈ tl ∧ v ∈ q.1.includedVariables := by
      intro q; rw [hP, mem_substPairs, o.oG.mem, hc.mem_graphs]
    have hmap : P.mapM (fun p => p.1.transform b.schema o.oNode o.oEdge (Dict.empty.set v p.2)) =
        .ok (P.map fun p => replaceGraph (Dict.empty.set v p.2) p.1) := by
      apply mapM_ok
      intro q hq
      obtain ⟨h1, h2, h3⟩ := (hPm q).1 hq
      rw [hs]
      apply (C16_transform s o.oNode o.oEdge _ q.1 h1.1.wf h1.1.declared).1
      intro n hn x hx
      rw [Dict.get?_set] at hx
      split at hx
      · rename_i hv
        simp only [Option.some.injEq] at hx
        subst hx
        unfold Schema.declared
        rw [← hv, hys]
        simp [hmem, h2]
      · simp at hx
    have hx0 : x0 ∉ tl := (List.nodup_cons.1 hnd).1
    have hinj : ∀ q ∈ P, ∀ q' ∈ P, replaceGraph (Dict.empty.set v q.2) q.1 = replaceGraph (Dict.empty.set v q'.2) q'.1 →
        q = q' := by
      intro q hq q' hq' heq
      obtain ⟨h1, h2, h3⟩ := (hPm q).1 hq
      obtain ⟨h1', h2', h3'⟩ := (hPm q').1 hq'
      have back : ∀ (r : SampleGraph V X R × X), Stage s ((v, x0 :: tl) :: t) r.1 →
          replaceGraph (Dict.empty.set v x0) (replaceGraph (Dict.empty.set v r.2) r.1) = r.1 := by
        intro r hr
        rw [(C16_algebra (Dict.empty.set v r.2) (Dict.empty.set v x0) r.1).2]
        · refine (C16_algebra (Dict.empty.set v x0) Dict.empty r.1).1 hr.1.wf.closed ?_
          intro m hm x hx
          rw [Dict.get?_set] at hx
          split at hx
          · rename_i hmv
            simp only [Option.some.injEq] at hx
            have := hr.2 (v, x0 :: tl) (by simp) m hm hmv.symm
            simp only [List.head?_cons, Option.some.injEq] at this
            rw [← hx, this]
          · simp at hx
        · intro w hw
          rw [Dict.has_iff, Dict.mem_keys] at hw ⊢
          obtain ⟨y, hy⟩ := hw
          rw [Dict.get?_set] at hy ⊢
          split at hy
          · rename_i h; rw [if_pos h]; exact ⟨_, rfl⟩
          · simp at hy
      have hfst : q.1 = q'.1 := by rw [← back q h1, ← back q' h1', heq]
      have hsnd : q.2 = q'.2 := by
        have : (⟨v, q.2⟩ : Node V X) ∈ (replaceGraph (Dict.empty.set v q'.2) q'.1).nodes := by
          rw [← heq]; exact (mem_replaceGraph _ _ _ _).2 (Or.inl ⟨rfl, h3⟩)
        rcases (mem_replaceGraph _ _ _ _).1 this with ⟨h, -⟩ | ⟨-, h⟩
        · simpa using h
        · exact absurd rfl h
      exact Prod.ext hfst hsnd
    have hndP : P.Nodup := nodup_substPairs _ (o.oG.nodup _) v tl (List.nodup_cons.1 hnd).2
    set N := P.map fun p => replaceGraph (Dict.empty.set v p.2) p.1 with hN
    have hndN : N.Nodup := List.Nodup.map_on (fun q hq q' hq' h => hinj q hq q' hq' h) hndP
    have hNm : ∀ g, g ∈ N ↔ ∃ g0 x, Stage s ((v, x0 :: tl) :: t) g0 ∧ x ∈ tl ∧ v ∈ g0.includedVariables ∧
        g = replaceGraph (Dict.empty.set v x) g0 := by
      intro g
      rw [hN, List.mem_map]
      constructor
      · rintro ⟨q, hq, rfl⟩
        obtain ⟨h1, h2, h3⟩ := (hPm q).1 hq
        exact ⟨q.1, q.2, h1, h2, h3, rfl⟩
      · rintro ⟨g0, x, h1, h2, h3, rfl⟩
        exact ⟨(g0, x), (hPm _).2 ⟨h1, h2, h3⟩, rfl⟩
    have hnew : ∀ g ∈ N, ¬ Stage s ((v, x0 :: tl) :: t) g := by
      intro g hg hst
      obtain ⟨g0, x, h1, h2, h3, rfl⟩ := (hNm g).1 hg
      have := hst.2 (v, x0 :: tl) (by simp) ⟨v, x⟩ ((mem_replaceGraph _ _ _ _).2 (Or.inl ⟨rfl, h3⟩)) rfl
      simp only [List.head?_cons, Option.some.injEq] at this
      rw [← this] at h2
      exact hx0 h2
    set b1 : RGBuilder V X R := { b with idCounter := b.idCounter + N.length } with hb1
    obtain ⟨a1, a2, a3, -, a5, a6⟩ := addOutcomes_spec 1 (by norm_num) (N.map fun g => (⟨b.prov, g⟩ : Sample V X R)) b1 hb
    have hall : ∀ smp ∈ N.map fun g => (⟨b.prov, g⟩ : Sample V X R), smp.prov = b1.prov := by
      intro smp hsmp
      obtain ⟨g, -, rfl⟩ := List.mem_map.1 hsmp
      rfl
    have hnone : (RGBuilder.addOutcomes 1 (N.map fun g => (⟨b.prov, g⟩ : Sample V X R)) b1).2 = none := by
      rcases a6 with ⟨-, h⟩ | ⟨⟨smp, hsmp, hbad⟩, -⟩
      · exact h
      · exact absurd (hall smp hsmp) hbad
    have htake : ((N.map fun g => (⟨b.prov, g⟩ : Sample V X R)).takeWhile fun s => decide (s.prov = b1.prov)).map
        (fun s => (s.graph, (1 : ℤ))) = N.map fun g => (g, (1 : ℤ)) := by
      rw [takeWhile_all _ _ (fun smp hsmp => by simpa using hall smp hsmp), List.map_map]
      rfl
    rw [htake] at a5
    have hcount := hc.add N hndN hnew a5
    obtain ⟨b', i1, i2, i3, i4, i5⟩ := ih _ hlt a1 (a3.trans hs) (hcount.congr fun g => by
      rw [hNm]; exact (stage_step s v x0 tl t hl g).symm)
    refine ⟨b', ?_, i2, i3, i4.trans a2, i5⟩
    unfold RGBuilder.genSubst
    simp only [List.tail_cons]
    rw [← hP, hmap]
    simp only
    unfold toPy
    rw [hnone]
    exact i1

end
end Verif
