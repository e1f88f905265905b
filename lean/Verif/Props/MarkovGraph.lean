import Verif.Model.Markov
import Verif.Lemmas.TwoFactors
import Verif.Props.BayesExperiment
import Mathlib.Tactic.IntervalCases

/-!
# The relation graph of a pairwise Markov network (C60)
-/

set_option linter.unusedSectionVars false

namespace Verif.Markov

open Verif.Bayes

/-! ### Specification -/

/-- The values of all variables. -/
def two : Str → Finset ℕ := fun _ => {0, 1}

/-- The two variables of an edge. -/
def ends (e : MEdge) : Finset Str := {e.1.2, e.1.1}

/-- A network: edges between different declared variables, at most one for each pair, with four values or more. -/
structure MNet (nodes : List Str) (edges : List MEdge) : Prop where
  ne : edges ≠ []
  nodup : edges.Nodup
  decl : ∀ e ∈ edges, e.1.1 ∈ nodes ∧ e.1.2 ∈ nodes
  loop : ∀ e ∈ edges, e.1.1 ≠ e.1.2
  simple : ∀ e ∈ edges, ∀ f ∈ edges, ends e = ends f → e = f
  four : ∀ e ∈ edges, 4 ≤ e.2.length

/-- The value of the factor of an edge. -/
def factorAt (e : MEdge) (a : Str → ℕ) : ℤ := (e.2[2 * a e.1.1 + a e.1.2]?).getD 0

/-- The four values in use are positive. -/
def PositiveNet (edges : List MEdge) : Prop := ∀ e ∈ edges, ∀ i < 4, 0 < (e.2[i]?).getD 0

/-- The outcome of an edge. -/
def edgeGraph (e : MEdge) (a : Str → ℕ) : SampleGraph Str Str Str := starOf valName (fun _ => .plain ['r']) e.1.2 {e.1.1} a

/-- The variables on edges. -/
def mVars (edges : List MEdge) : Finset Str := edges.toFinset.biUnion ends

/-- The product of the factors. -/
def weight (edges : List MEdge) (a : Str → ℕ) : ℤ := ∏ e ∈ edges.toFinset, factorAt e a

/-- The graph with all variables and all edges. -/
def mGraph (edges : List MEdge) (a : Str → ℕ) : SampleGraph Str Str Str :=
  ⟨(mVars edges).image fun v => ⟨v, valName v (a v)⟩, edges.toFinset.image fun e =>
    ⟨{⟨e.1.1, valName e.1.1 (a e.1.1)⟩, ⟨e.1.2, valName e.1.2 (a e.1.2)⟩}, .plain ['r']⟩⟩

/-! ### One outcome -/

def mSchema (nodes : List Str) : Schema Str Str Str := ⟨nodeValues nodes, {['r']}⟩

theorem nodeValues_get (nodes : List Str) (v : Str) (xs : Finset Str) :
    (nodeValues nodes).get? v = some xs ↔ v ∈ nodes ∧ xs = {valName v 0, valName v 1} := by
  unfold nodeValues Dict.ofList
  rw [get?_foldl_set]
  · simp only [List.mem_map, Prod.mk.injEq]
    constructor
    · rintro (⟨w, hw, rfl, rfl⟩ | ⟨-, h⟩)
      · exact ⟨hw, rfl⟩
      · simp at h
    · rintro ⟨hv, rfl⟩; exact Or.inl ⟨v, hv, rfl, rfl⟩
  · intro p hp q hq h
    obtain ⟨v, -, rfl⟩ := List.mem_map.1 hp
    obtain ⟨w, -, rfl⟩ := List.mem_map.1 hq
    have h : v = w := h
    rw [h]

theorem declared_node {nodes : List Str} {v : Str} (hv : v ∈ nodes) {j : ℕ} (hj : j < 2) :
    ∃ xs, (mSchema nodes).vars.get? v = some xs ∧ valName v j ∈ xs :=
  ⟨_, (nodeValues_get nodes v _).2 ⟨hv, rfl⟩, by interval_cases j <;> simp⟩

theorem outcome_ok {nodes : List Str} {edges : List MEdge} (hN : MNet nodes edges) {e : MEdge} (he : e ∈ edges) {a : Str → ℕ}
    (h1 : a e.1.1 < 2) (h2 : a e.1.2 < 2) (prov : ℕ) :
    ∃ sb, toPy ((Builder.new prov).addRelation (mSchema nodes) {(e.1.1, valName e.1.1 (a e.1.1)), (e.1.2, valName e.1.2 (a e.1.2))} (.plain ['r'])) = .ok sb ∧
      sb.build = .ok ⟨prov, edgeGraph e a⟩ := by
  have hd : RawDeclared (mSchema nodes) {(e.1.1, valName e.1.1 (a e.1.1)), (e.1.2, valName e.1.2 (a e.1.2))} (.plain ['r']) := by
    refine ⟨?_, ?_⟩
    · intro p hp
      simp only [Finset.mem_insert, Finset.mem_singleton] at hp
      rcases hp with rfl | rfl
      · exact declared_node (hN.decl e he).1 h1
      · exact declared_node (hN.decl e he).2 h2
    · simp [mSchema]
  obtain ⟨b', k1, -, k3, k4, k5⟩ := star_step (val := valName) (rel := fun _ => .plain ['r']) (v := e.1.2) (a := a) (dn := ∅) (p := e.1.1)
    (Builder.inv_new prov) (by simp [Builder.new]) (by simp [Builder.new]) (by simp) (by simp) (hN.loop e he) hd
  refine ⟨b', by unfold toPy; rw [k1], ?_⟩
  unfold Builder.build
  rw [if_neg]
  · rw [k3, k4, k5]; rfl
  · rw [k5]
    exact Finset.nonempty_iff_ne_empty.1 ⟨⟨e.1.2, valName e.1.2 (a e.1.2)⟩, mem_asgNodes.2 ⟨Finset.mem_insert_self _ _, rfl⟩⟩

/-- The assignment of one round. -/
def roundAsg (t : MEdge × ℕ × ℕ × ℕ) : Str → ℕ := fun v => if v = t.1.1.1 then t.2.1 else t.2.2.1

theorem mem_rounds {edges : List MEdge} {t : MEdge × ℕ × ℕ × ℕ} :
    t ∈ rounds edges ↔ t.1 ∈ edges ∧ t.2.1 < 2 ∧ t.2.2.1 < 2 ∧ t.2.2.2 = 2 * t.2.1 + t.2.2.1 := by
  obtain ⟨e, i, j, k⟩ := t
  unfold rounds quad
  simp only [List.mem_flatMap, List.mem_map, Prod.mk.injEq, List.mem_cons, List.not_mem_nil, or_false]
  constructor
  · rintro ⟨f, hf, ⟨x, y, z⟩, h, rfl, rfl, rfl, rfl⟩
    simp only [Prod.mk.injEq] at h
    refine ⟨hf, ?_⟩
    rcases h with ⟨rfl, rfl, rfl⟩ | ⟨rfl, rfl, rfl⟩ | ⟨rfl, rfl, rfl⟩ | ⟨rfl, rfl, rfl⟩ <;> decide
  · rintro ⟨he, hi, hj, rfl⟩
    refine ⟨e, he, (i, j, 2 * i + j), ?_, rfl, rfl⟩
    interval_cases i <;> interval_cases j <;> simp

section
variable {nodes : List Str} {edges : List MEdge} (hN : MNet nodes edges)
include hN

theorem roundAsg_ends {t : MEdge × ℕ × ℕ × ℕ} (ht : t ∈ rounds edges) : roundAsg t t.1.1.1 = t.2.1 ∧ roundAsg t t.1.1.2 = t.2.2.1 := by
  have := hN.loop t.1 (mem_rounds.1 ht).1
  unfold roundAsg
  exact ⟨if_pos rfl, if_neg fun h => this h.symm⟩

theorem factorAt_round {t : MEdge × ℕ × ℕ × ℕ} (ht : t ∈ rounds edges) : t.1.2[t.2.2.2]? = some (factorAt t.1 (roundAsg t)) := by
  obtain ⟨h1, h2, h3, h4⟩ := mem_rounds.1 ht
  obtain ⟨r1, r2⟩ := roundAsg_ends hN ht
  have := hN.four t.1 h1
  unfold factorAt
  rw [r1, r2, ← h4, List.getElem?_eq_getElem (by omega)]
  rfl

theorem addPair_eq {t : MEdge × ℕ × ℕ × ℕ} (ht : t ∈ rounds edges) (b : RGBuilder Str Str Str) (hb : b.schema = mSchema nodes) :
    addPair b t = toPy (b.addOutcome ⟨b.prov, edgeGraph t.1 (roundAsg t)⟩ (factorAt t.1 (roundAsg t))) := by
  obtain ⟨h1, h2, h3, h4⟩ := mem_rounds.1 ht
  obtain ⟨r1, r2⟩ := roundAsg_ends hN ht
  obtain ⟨sb, e1, e2⟩ := outcome_ok hN h1 (a := roundAsg t) (by rw [r1]; exact h2) (by rw [r2]; exact h3) b.prov
  rw [r1, r2] at e1
  unfold addPair
  rw [hb, e1]
  simp only
  rw [e2]
  simp only
  rw [factorAt_round hN ht]

theorem edgeGraph_inj {e f : MEdge} (he : e ∈ edges) (hf : f ∈ edges) {a b : Str → ℕ} (h : edgeGraph e a = edgeGraph f b) :
    e = f ∧ a e.1.1 = b e.1.1 ∧ a e.1.2 = b e.1.2 := by
  have hn : asgNodes valName (ends e) a = asgNodes valName (ends f) b := congrArg SampleGraph.nodes h
  have hmem : ∀ v, v ∈ ends e → v ∈ ends f ∧ a v = b v := by
    intro v hv
    have : (⟨v, valName v (a v)⟩ : Node Str Str) ∈ asgNodes valName (ends f) b := by rw [← hn]; exact mem_asgNodes.2 ⟨hv, rfl⟩
    exact ⟨(mem_asgNodes.1 this).1, (valName_inj (mem_asgNodes.1 this).2).2⟩
  have hmem' : ∀ v, v ∈ ends f → v ∈ ends e := by
    intro v hv
    have : (⟨v, valName v (b v)⟩ : Node Str Str) ∈ asgNodes valName (ends e) a := by rw [hn]; exact mem_asgNodes.2 ⟨hv, rfl⟩
    exact (mem_asgNodes.1 this).1
  have hE : ends e = ends f := Finset.ext fun v => ⟨fun h => (hmem v h).1, hmem' v⟩
  exact ⟨hN.simple e he f hf hE, (hmem _ (by simp [ends])).2, (hmem _ (by simp [ends])).2⟩

theorem rounds_inj {t u : MEdge × ℕ × ℕ × ℕ} (ht : t ∈ rounds edges) (hu : u ∈ rounds edges)
    (h : edgeGraph t.1 (roundAsg t) = edgeGraph u.1 (roundAsg u)) : t = u := by
  obtain ⟨h1, h2, h3⟩ := edgeGraph_inj hN (mem_rounds.1 ht).1 (mem_rounds.1 hu).1 h
  obtain ⟨r1, r2⟩ := roundAsg_ends hN ht
  obtain ⟨s1, s2⟩ := roundAsg_ends hN hu
  have k1 := (mem_rounds.1 ht).2.2.2
  have k2 := (mem_rounds.1 hu).2.2.2
  rw [r1] at h2
  rw [r2] at h3
  rw [h1, s1] at h2
  rw [h1, s2] at h3
  refine Prod.ext h1 (Prod.ext h2 (Prod.ext h3 ?_))
  rw [k1, k2, h2, h3]

theorem rounds_nodup : (rounds edges).Nodup := by
  unfold rounds
  rw [List.nodup_flatMap]
  refine ⟨fun e _ => (List.Nodup.map (fun x y h => (Prod.ext_iff.1 h).2) (by decide)), ?_⟩
  refine hN.nodup.imp fun {e f} hne => ?_
  intro t h1 h2
  obtain ⟨_, -, rfl⟩ := List.mem_map.1 h1
  obtain ⟨_, -, h⟩ := List.mem_map.1 h2
  exact hne (Prod.ext_iff.1 h).1.symm

theorem nodes_ne : nodes ≠ [] := by
  obtain ⟨e, he⟩ := List.exists_mem_of_ne_nil _ hN.ne
  rintro rfl
  simpa using (hN.decl e he).1

theorem mInit (prov : ℕ) : RGBuilder.init prov (nodeValues nodes) {['r']} none = .ok ⟨mSchema nodes, prov, Samples.empty prov, 0⟩ := by
  have h1 : (nodeValues nodes).entries ≠ [] := by
    obtain ⟨v, hv⟩ := List.exists_mem_of_ne_nil _ (nodes_ne hN)
    intro h0
    have := (Dict.mem_entries _ _ _).2 ((nodeValues_get nodes v _).2 ⟨hv, rfl⟩)
    rw [h0] at this
    simp at this
  unfold RGBuilder.init Schema.check
  rw [if_neg (by simp [h1]), if_neg h1, if_neg, if_neg (by simp)]
  · rfl
  · simp only [List.any_eq_true, decide_eq_true_eq, Prod.exists, not_exists, not_and]
    intro v xs hm h0
    rw [Dict.mem_entries, nodeValues_get] at hm
    obtain ⟨-, rfl⟩ := hm
    simp at h0

theorem positive_iff : PositiveNet edges ↔ ∀ t ∈ rounds edges, 0 < factorAt t.1 (roundAsg t) := by
  constructor
  · intro h t ht
    have := factorAt_round hN ht
    obtain ⟨h1, h2, h3, h4⟩ := mem_rounds.1 ht
    have h5 := h t.1 h1 t.2.2.2 (by omega)
    rwa [this] at h5
  · intro h e he i hi
    have ht : (e, i / 2, i % 2, i) ∈ rounds edges := mem_rounds.2 ⟨he, by show i / 2 < 2; omega, by show i % 2 < 2; omega, by show i = 2 * (i / 2) + i % 2; omega⟩
    have := factorAt_round hN ht
    have h5 := h _ ht
    simp only at this
    rw [this]
    exact h5

theorem factorAt_pos (hp : PositiveNet edges) {e : MEdge} (he : e ∈ edges) {a : Str → ℕ} (ha : InDom two (ends e) a) : 0 < factorAt e a := by
  have h1 := ha e.1.1 (by simp [ends])
  have h2 := ha e.1.2 (by simp [ends])
  simp only [two, Finset.mem_insert, Finset.mem_singleton] at h1 h2
  exact hp e he _ (by omega)

end

theorem factorAt_local {e : MEdge} {a b : Str → ℕ} (h : ∀ v ∈ ends e, a v = b v) : factorAt e a = factorAt e b := by
  unfold factorAt
  rw [h e.1.1 (by simp [ends]), h e.1.2 (by simp [ends])]

/-- **C60.** `make_relation_graph` on a network returns exactly if all values are positive (otherwise it raises `AssertionError`); its outcomes are, for
each edge and each pair of values, the two variables joined by the relation, counted with the value of the factor. -/
theorem C60_make_relation_graph {nodes : List Str} {edges : List MEdge} (hN : MNet nodes edges) (prov : ℕ) :
    (¬ PositiveNet edges → makeRelationGraph prov nodes edges = .error .assertion) ∧
    (PositiveNet edges → ∃ sp, makeRelationGraph prov nodes edges = .ok sp ∧ sp.schema = mSchema nodes ∧ sp.outcomes.prov = prov ∧ sp.evidence = none ∧
      ∀ g n, sp.outcomes.samples.get? g = some n ↔ ∃ e ∈ edges, ∃ a, InDom two (ends e) a ∧ g = edgeGraph e a ∧ n = factorAt e a) := by
  let K : RGBuilder Str Str Str → Prop := fun b => b.prov = prov ∧ b.schema = mSchema nodes ∧ b.Coherent
  have hK : K ⟨mSchema nodes, prov, Samples.empty prov, 0⟩ := ⟨rfl, rfl, rfl⟩
  unfold makeRelationGraph
  rw [mInit hN]
  simp only
  constructor
  · intro hp
    have hkeep : ∀ b, ∀ t ∈ rounds edges, ∀ b', K b → addPair b t = .ok b' → K b' := by
      intro b t ht b' hb h
      rw [addPair_eq hN ht b hb.2.1] at h
      rcases addOutcome_cases b hb.2.2 (edgeGraph t.1 (roundAsg t)) (factorAt t.1 (roundAsg t)) with ⟨-, h3⟩ | ⟨-, b'', h3, h4, h5, h6⟩
      · rw [h3] at h; cases h
      · rw [h3] at h; cases h; exact ⟨h4.trans hb.1, h5.trans hb.2.1, h6⟩
    cases hf : (rounds edges).foldlM addPair ⟨mSchema nodes, prov, Samples.empty prov, 0⟩ with
    | ok b' =>
      exfalso
      apply hp
      rw [positive_iff hN]
      intro t ht
      obtain ⟨x, y, hx, hy⟩ := (foldlM_inv K _ _ b' hkeep hK hf).2 t ht
      rw [addPair_eq hN ht x hx.2.1] at hy
      rcases addOutcome_cases x hx.2.2 (edgeGraph t.1 (roundAsg t)) (factorAt t.1 (roundAsg t)) with ⟨-, h3⟩ | ⟨h, -⟩
      · rw [h3] at hy; cases hy
      · exact h
    | error er =>
      obtain ⟨x, hx, t, ht, h1⟩ := foldlM_error K _ _ hkeep hK hf
      rw [addPair_eq hN ht x hx.2.1] at h1
      rcases addOutcome_cases x hx.2.2 (edgeGraph t.1 (roundAsg t)) (factorAt t.1 (roundAsg t)) with ⟨-, h3⟩ | ⟨-, b', h3, -⟩
      · rw [h3] at h1; cases h1; rfl
      · rw [h3] at h1; cases h1
  · intro hp
    obtain ⟨b', r1, r2, r3, r4, r5⟩ := fold_outcomes (mSchema nodes) prov addPair (fun t => edgeGraph t.1 (roundAsg t)) (fun t => factorAt t.1 (roundAsg t))
      (rounds edges) ⟨mSchema nodes, prov, Samples.empty prov, 0⟩ hK.2.2 rfl rfl
      (fun b h1 h2 t ht => by rw [addPair_eq hN ht b h2, h1]) ((positive_iff hN).1 hp)
      (List.Nodup.map_on (fun t ht u hu h => rounds_inj hN ht hu h) (rounds_nodup hN)) (fun _ _ => rfl)
    rw [r1]
    simp only
    have hget : ∀ g n, b'.outcomes.samples.get? g = some n ↔ ∃ e ∈ edges, ∃ a, InDom two (ends e) a ∧ g = edgeGraph e a ∧ n = factorAt e a := by
      intro g n
      rw [r5]
      simp only [show ∀ g n, (Samples.empty prov : Samples Str Str Str).samples.get? g = some n ↔ False from fun g n => by simp [Samples.empty], or_false]
      constructor
      · rintro ⟨t, ht, h1, h2⟩
        obtain ⟨k1, k2, k3, k4⟩ := mem_rounds.1 ht
        obtain ⟨q1, q2⟩ := roundAsg_ends hN ht
        refine ⟨t.1, k1, roundAsg t, ?_, h1, h2⟩
        intro v hv
        simp only [ends, Finset.mem_insert, Finset.mem_singleton] at hv
        simp only [two, Finset.mem_insert, Finset.mem_singleton]
        rcases hv with rfl | rfl
        · rw [q2]; omega
        · rw [q1]; omega
      · rintro ⟨e, he, a, ha, rfl, rfl⟩
        have h1 := ha e.1.1 (by simp [ends])
        have h2 := ha e.1.2 (by simp [ends])
        simp only [two, Finset.mem_insert, Finset.mem_singleton] at h1 h2
        have ht : (e, a e.1.1, a e.1.2, 2 * a e.1.1 + a e.1.2) ∈ rounds edges :=
          mem_rounds.2 ⟨he, by show a e.1.1 < 2; omega, by show a e.1.2 < 2; omega, rfl⟩
        obtain ⟨q1, q2⟩ := roundAsg_ends hN ht
        have hag : ∀ v ∈ ends e, a v = roundAsg (e, a e.1.1, a e.1.2, 2 * a e.1.1 + a e.1.2) v := by
          intro v hv
          simp only [ends, Finset.mem_insert, Finset.mem_singleton] at hv
          rcases hv with rfl | rfl
          · exact q2.symm
          · exact q1.symm
        exact ⟨_, ht, star_local hag, factorAt_local hag⟩
    refine ⟨⟨b'.schema, b'.outcomes, none⟩, ?_, r4, ?_, rfl, hget⟩
    · unfold RGBuilder.build
      rw [if_pos]
      obtain ⟨e, he⟩ := List.exists_mem_of_ne_nil _ hN.ne
      have := (hget (edgeGraph e fun _ => 0) _).2 ⟨e, he, fun _ => 0, fun v _ => by simp [two], rfl, rfl⟩
      rw [← Dict.mem_entries] at this
      unfold Samples.bool
      cases he : b'.outcomes.samples.entries with
      | nil => rw [he] at this; simp at this
      | cons => simp [he]
    · exact r2.trans r3

end Verif.Markov
