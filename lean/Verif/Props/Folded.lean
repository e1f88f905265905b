import Verif.Props.SampleSpace

/-!
# Properties of `relnet/sample_space.py` and `relnet/folded_graph.py`: C30, C31, C32
-/

set_option linter.unusedSectionVars false

namespace Verif

section
variable {V X R : Type} [DecidableEq V] [DecidableEq X] [DecidableEq R]

/-! ### C30 -/

theorem included_loop (l : List (Node V X)) (v : V) :
    let d := l.foldl (fun (acc : Dict V (Finset X)) n => acc.set n.var (((acc.get? n.var).getD ∅) ∪ {n.val})) Dict.empty
    (v ∈ d.keys ↔ ∃ n ∈ l, n.var = v) ∧ ∀ x, x ∈ (d.get? v).getD ∅ ↔ ⟨v, x⟩ ∈ l := by
  induction l using List.reverseRecOn with
  | nil => simp
  | append_singleton l m ih =>
    simp only [List.foldl_append, List.foldl_cons, List.foldl_nil] at ih ⊢
    generalize l.foldl (fun (acc : Dict V (Finset X)) n => acc.set n.var (((acc.get? n.var).getD ∅) ∪ {n.val})) Dict.empty = d at *
    constructor
    · rw [Dict.mem_keys_set, ih.1]
      simp only [List.mem_append, List.mem_singleton]
      constructor
      · rintro (rfl | ⟨n, hn, rfl⟩)
        · exact ⟨m, by simp, rfl⟩
        · exact ⟨n, by simp [hn], rfl⟩
      · rintro ⟨n, hn | rfl, rfl⟩
        · exact Or.inr ⟨n, hn, rfl⟩
        · exact Or.inl rfl
    · intro x
      rw [Dict.get?_set]
      split
      · rename_i h
        subst h
        simp only [Option.getD_some, Finset.mem_union, Finset.mem_singleton, ih.2, List.mem_append, List.mem_singleton]
        constructor
        · rintro (h | rfl)
          · exact Or.inl h
          · exact Or.inr rfl
        · rintro (h | h)
          · exact Or.inl h
          · exact Or.inr (by rw [← h])
      · rename_i h
        rw [ih.2, List.mem_append, List.mem_singleton]
        constructor
        · exact Or.inl
        · rintro (h' | rfl)
          · exact h'
          · exact absurd rfl h

/-- **C30.** `included_variables`: one entry per occurring variable, with exactly its occurring values. -/
theorem C30_included_variables (sp : Space V X R) (oG : Order (SampleGraph V X R)) (oN : Order (Node V X)) (v : V)
    (xs : Finset X) : (v, xs) ∈ sp.includedVariables oG oN ↔
      (∃ g, sp.outcomes.Occurs g ∧ HasVar v g) ∧ ∀ x, x ∈ xs ↔ ∃ g, sp.outcomes.Occurs g ∧ HasValue v x g := by
  unfold Space.includedVariables
  simp only [List.mem_toFinset]
  have hl := included_loop ((oG.run sp.outcomes.graphs).flatMap fun g => oN.run g.nodes) v
  simp only at hl
  rw [List.foldl_flatMap] at hl
  rw [Dict.mem_entries]
  generalize (oG.run sp.outcomes.graphs).foldl (fun acc g => (oN.run g.nodes).foldl (fun (acc : Dict V (Finset X)) n =>
    acc.set n.var (((acc.get? n.var).getD ∅) ∪ {n.val})) acc) Dict.empty = d at *
  have hmem : ∀ n, n ∈ ((oG.run sp.outcomes.graphs).flatMap fun g => oN.run g.nodes) ↔
      ∃ g, sp.outcomes.Occurs g ∧ n ∈ g.nodes := by
    intro n
    simp only [List.mem_flatMap, oG.mem, oN.mem, Samples.mem_graphs, Samples.Occurs]
  have hocc : v ∈ d.keys ↔ ∃ g, sp.outcomes.Occurs g ∧ HasVar v g := by
    rw [hl.1]
    constructor
    · rintro ⟨n, hn, rfl⟩
      obtain ⟨g, hg, h⟩ := (hmem n).1 hn
      exact ⟨g, hg, n, h, rfl⟩
    · rintro ⟨g, hg, n, h, rfl⟩
      exact ⟨n, (hmem n).2 ⟨g, hg, h⟩, rfl⟩
  have hval : ∀ x, x ∈ (d.get? v).getD ∅ ↔ ∃ g, sp.outcomes.Occurs g ∧ HasValue v x g := by
    intro x; rw [hl.2, hmem]
  rw [← hocc]
  constructor
  · intro h
    refine ⟨(Dict.mem_keys _ _).2 ⟨_, h⟩, fun x => ?_⟩
    rw [← hval, h]; rfl
  · rintro ⟨hk, hx⟩
    obtain ⟨ys, hy⟩ := (Dict.mem_keys _ _).1 hk
    rw [hy]
    congr 1
    ext x
    rw [hx, ← hval, hy]; rfl

/-- **C30.** The result of `included_variables` does not depend on iteration orders. -/
theorem C30_order (sp : Space V X R) (oG oG' : Order (SampleGraph V X R)) (oN oN' : Order (Node V X)) :
    sp.includedVariables oG oN = sp.includedVariables oG' oN' := by
  ext ⟨v, xs⟩
  rw [C30_included_variables, C30_included_variables]

/-- **C30.** `included_relations`: exactly the occurring relations. -/
theorem C30_included_relations (sp : Space V X R) (r : Rel V R) :
    r ∈ sp.includedRelations ↔ ∃ g, sp.outcomes.Occurs g ∧ ∃ e ∈ g.edges, e.relation = r := by
  simp [Space.includedRelations, Samples.mem_graphs, Samples.Occurs]

/-- Non-vacuity of C30. -/
example : (∃ g, demoSpace.outcomes.Occurs g ∧ HasVar 0 g) ∧
    ∀ x, x ∈ ({0, 1} : Finset ℕ) ↔ ∃ g, demoSpace.outcomes.Occurs g ∧ HasValue 0 x g := by
  refine ⟨⟨_, (demoSpace_occurs _).2 (Or.inl rfl), ⟨0, 0⟩, by simp [oneEdge], rfl⟩, fun x => ?_⟩
  simp only [demoSpace_occurs]
  constructor
  · intro h
    simp only [Finset.mem_insert, Finset.mem_singleton] at h
    rcases h with rfl | rfl
    · exact ⟨_, Or.inl rfl, by simp [HasValue, oneEdge]⟩
    · exact ⟨_, Or.inr rfl, by simp [HasValue, oneEdge]⟩
  · rintro ⟨g, rfl | rfl, h⟩ <;> simp [HasValue, oneEdge] at h <;> simp [h]

/-! ### C31 -/

/-- Counting components of the outcomes under a key: every component gets the number of outcomes containing it. -/
theorem acc_spec {C K : Type} [DecidableEq C] [DecidableEq K] (a : Samples V X R) (oI : Order (SampleGraph V X R × ℤ))
    (oC : Order C) (comps : SampleGraph V X R → Finset C) (key : C → K) :
    let d := (oI.run a.items).foldl (fun acc p => (oC.run (comps p.1)).foldl (fun acc n => bump acc (key n) n p.2) acc)
      Dict.empty
    (∀ k, k ∈ d.keys ↔ ∃ g, a.Occurs g ∧ ∃ n ∈ comps g, key n = k) ∧
    ∀ k m, d.get? k = some m → ∀ n c, m.get? n = some c ↔
      key n = k ∧ (∃ g, a.Occurs g ∧ n ∈ comps g) ∧ c = mass a (fun g => n ∈ comps g) := by
  intro d
  let f : SampleGraph V X R × ℤ → List ((K × C) × ℤ) := fun p => (oC.run (comps p.1)).map fun n => ((key n, n), p.2)
  have hd : d = tally ((oI.run a.items).flatMap f) := by
    apply foldl_flatMap_bump
    intro acc p _
    simp only [f, List.foldl_map]
  have hinv := tally_inv ((oI.run a.items).flatMap f)
  rw [← hd] at hinv
  have hmem : ∀ t, t ∈ (oI.run a.items).flatMap f ↔ ∃ p ∈ oI.run a.items, ∃ n ∈ comps p.1, ((key n, n), p.2) = t := by
    intro t
    simp only [f, List.mem_flatMap, List.mem_map, oC.mem]
  constructor
  · intro k
    rw [hinv.keys, ← exists_run oI a (fun g => ∃ n ∈ comps g, key n = k)]
    constructor
    · rintro ⟨t, ht, rfl⟩
      obtain ⟨p, hp, n, hn, rfl⟩ := (hmem t).1 ht
      exact ⟨p, hp, n, hn, rfl⟩
    · rintro ⟨p, hp, n, hn, rfl⟩
      exact ⟨_, (hmem _).2 ⟨p, hp, n, hn, rfl⟩, rfl⟩
  · intro k m hm n c
    rw [hinv.get k m hm n]
    by_cases hk : key n = k
    · subst hk
      rw [totalOf_flatMap (fun p => p.2) f (fun p => n ∈ comps p.1), mass_eq_list oI a (fun g => n ∈ comps g),
        exists_run oI a (fun g => n ∈ comps g)]
      · simp
      · intro p _
        simp only [f, List.map_map]
        apply List.Nodup.map_on
        · intro x _ y _ h
          simp only [Function.comp_apply, Prod.mk.injEq] at h
          exact h.2
        · exact oC.nodup _
      · intro p _ t ht
        simp only [f, List.mem_map] at ht
        obtain ⟨_, _, rfl⟩ := ht
        rfl
      · intro p _
        simp only [f, List.map_map, List.mem_map, oC.mem, Function.comp_apply, Prod.mk.injEq]
        constructor
        · rintro ⟨x, hx, _, rfl⟩; exact hx
        · intro h; exact ⟨n, h, rfl, rfl⟩
    · constructor
      · intro h
        exfalso
        unfold totalOf at h
        simp only at h
        split at h
        · simp at h
        · rename_i hne
          apply hne
          rw [List.map_eq_nil_iff, List.filter_eq_nil_iff]
          intro t ht h'
          obtain ⟨p, _, x, _, rfl⟩ := (hmem t).1 ht
          simp only [decide_eq_true_eq, Prod.mk.injEq] at h'
          obtain ⟨h1, rfl⟩ := h'
          exact hk h1
      · rintro ⟨h, _⟩; exact absurd h hk

/-- The variables of the outcomes are declared and the edges join nodes of two variables, as for all outcomes made by a
builder of the same provider (C02, C05). -/
def Sound (sp : Space V X R) : Prop :=
  ∀ g, sp.outcomes.Occurs g → (∀ n ∈ g.nodes, ∃ xs, sp.schema.vars.get? n.var = some xs ∧ n.val ∈ xs) ∧
    ∀ e ∈ g.edges, GoodEdge e

/-- The folded node of `v` is exact: declared values, number of outcomes and the number of outcomes with each value. -/
def ExactNode (sp : Space V X R) (N : FoldedNode V X) : Prop :=
  N.n = sp.outcomes.length ∧ sp.schema.vars.get? N.var = some N.values ∧
  ∀ n c, N.nodes.get? n = some c ↔
    n.var = N.var ∧ (∃ g, sp.outcomes.Occurs g ∧ n ∈ g.nodes) ∧ c = mass sp.outcomes (fun g => n ∈ g.nodes)

/-- The folded edge is exact: the number of outcomes with each of the relation edges between its two variables. -/
def ExactEdge (sp : Space V X R) (E : FoldedEdge V X R) : Prop :=
  E.endpoints.card = 2 ∧
  ∀ e c, E.edges.get? e = some c ↔
    e.endpoints.image Node.var = E.endpoints ∧ (∃ g, sp.outcomes.Occurs g ∧ e ∈ g.edges) ∧
      c = mass sp.outcomes (fun g => e ∈ g.edges)

/-- **C31.** The folded graph: one exact node per occurring variable, one exact edge per linked pair of variables. -/
theorem C31_folded_graph (sp : Space V X R) (oI : Order (SampleGraph V X R × ℤ)) (oN : Order (Node V X))
    (oE : Order (Edge V X R)) (hs : Sound sp) : ∃ f, sp.foldedGraph oI oN oE = .ok f ∧ f.n = sp.outcomes.length ∧
      (f.nodes.map FoldedNode.var).Nodup ∧ (f.edges.map FoldedEdge.endpoints).Nodup ∧
      (∀ v, (∃ N ∈ f.nodes, N.var = v) ↔ ∃ g, sp.outcomes.Occurs g ∧ HasVar v g) ∧
      (∀ P, (∃ E ∈ f.edges, E.endpoints = P) ↔
        ∃ g, sp.outcomes.Occurs g ∧ ∃ e ∈ g.edges, e.endpoints.image Node.var = P) ∧
      (∀ N ∈ f.nodes, ExactNode sp N) ∧ (∀ E ∈ f.edges, ExactEdge sp E) ∧
      ∀ v N, f.foldedNode v = some N ↔ N ∈ f.nodes ∧ N.var = v := by
  obtain ⟨hnk, hnv⟩ := acc_spec sp.outcomes oI oN SampleGraph.nodes Node.var
  obtain ⟨hek, hev⟩ := acc_spec sp.outcomes oI oE SampleGraph.edges Edge.vars
  change (∀ k, k ∈ (sp.nodeAcc oI oN).keys ↔ _) at hnk
  change (∀ k m, (sp.nodeAcc oI oN).get? k = some m → _) at hnv
  change (∀ k, k ∈ (sp.edgeAcc oI oE).keys ↔ _) at hek
  change (∀ k m, (sp.edgeAcc oI oE).get? k = some m → _) at hev
  have hdecl : ∀ p ∈ (sp.nodeAcc oI oN).entries, ∃ xs, sp.schema.vars.get? p.1 = some xs := by
    intro p hp
    obtain ⟨g, hg, n, hn, he⟩ := (hnk p.1).1 (List.mem_map_of_mem hp)
    obtain ⟨xs, h, _⟩ := (hs g hg).1 n hn
    exact ⟨xs, he ▸ h⟩
  have hcard : ∀ p ∈ (sp.edgeAcc oI oE).entries, p.1.card = 2 := by
    intro p hp
    obtain ⟨g, hg, e, he, hv⟩ := (hek p.1).1 (List.mem_map_of_mem hp)
    obtain ⟨a, b, hab, hee⟩ := (hs g hg).2 e he
    rw [← hv, Edge.vars, hee, Finset.image_insert, Finset.image_singleton, Finset.card_pair hab]
  let mkN : V × Dict (Node V X) ℤ → FoldedNode V X := fun p => ⟨p.1, (sp.schema.vars.get? p.1).getD ∅, p.2, sp.outcomes.length⟩
  let mkE : Finset V × Dict (Edge V X R) ℤ → FoldedEdge V X R := fun p => ⟨p.1, p.2⟩
  have hok : sp.foldedGraph oI oN oE = .ok ⟨sp.outcomes.length, (sp.nodeAcc oI oN).entries.map mkN,
      (sp.edgeAcc oI oE).entries.map mkE⟩ := by
    unfold Space.foldedGraph
    simp only
    rw [mapM_ok _ mkN, mapM_ok _ mkE]
    · intro p hp
      rw [if_pos (hcard p hp)]
    · intro p hp
      obtain ⟨xs, h⟩ := hdecl p hp
      simp only [mkN, h, Option.getD_some]
  have hndN : (((sp.nodeAcc oI oN).entries.map mkN).map FoldedNode.var).Nodup := by
    rw [List.map_map]; exact (sp.nodeAcc oI oN).nodup
  refine ⟨_, hok, rfl, hndN, ?_, ?_, ?_, ?_, ?_, ?_⟩
  · rw [List.map_map]; exact (sp.edgeAcc oI oE).nodup
  · intro v
    rw [show (∃ g, sp.outcomes.Occurs g ∧ HasVar v g) ↔ v ∈ (sp.nodeAcc oI oN).keys from (hnk v).symm]
    simp only [List.mem_map, Dict.keys, mkN]
    constructor
    · rintro ⟨_, ⟨p, hp, rfl⟩, rfl⟩; exact ⟨p, hp, rfl⟩
    · rintro ⟨p, hp, rfl⟩; exact ⟨_, ⟨p, hp, rfl⟩, rfl⟩
  · intro P
    rw [show (∃ g, sp.outcomes.Occurs g ∧ ∃ e ∈ g.edges, e.endpoints.image Node.var = P) ↔ P ∈ (sp.edgeAcc oI oE).keys
      from (hek P).symm]
    simp only [List.mem_map, Dict.keys, mkE]
    constructor
    · rintro ⟨_, ⟨p, hp, rfl⟩, rfl⟩; exact ⟨p, hp, rfl⟩
    · rintro ⟨p, hp, rfl⟩; exact ⟨_, ⟨p, hp, rfl⟩, rfl⟩
  · intro N hN
    simp only [List.mem_map] at hN
    obtain ⟨p, hp, rfl⟩ := hN
    obtain ⟨xs, h⟩ := hdecl p hp
    refine ⟨rfl, by simp [mkN, h], ?_⟩
    exact hnv p.1 p.2 ((Dict.mem_entries' _ _).1 hp)
  · intro E hE
    simp only [List.mem_map] at hE
    obtain ⟨p, hp, rfl⟩ := hE
    exact ⟨hcard p hp, hev p.1 p.2 ((Dict.mem_entries' _ _).1 hp)⟩
  · intro v N
    unfold FoldedGraph.foldedNode
    simp only
    generalize (sp.nodeAcc oI oN).entries.map mkN = L at hndN
    constructor
    · intro h
      exact ⟨List.mem_of_find?_eq_some h, by simpa using List.find?_some h⟩
    · rintro ⟨hN, rfl⟩
      cases hf : L.find? (fun n => n.var = N.var) with
      | none => exact absurd (by simp) ((List.find?_eq_none.1 hf) N hN)
      | some M =>
        have h1 := List.mem_of_find?_eq_some hf
        have h2 : M.var = N.var := by simpa using List.find?_some hf
        rw [List.inj_on_of_nodup_map hndN h1 hN h2]

/-- Counts of the nodes of one folded node add up to the number of outcomes with the variable. -/
theorem foldedNode_sum (sp : Space V X R) (N : FoldedNode V X) (h : ExactNode sp N)
    (hsv : ∀ g, sp.outcomes.Occurs g → SingleValued g.nodes) : N.nodes.vals.sum = mass sp.outcomes (HasVar N.var) := by
  have h1 : N.nodes.vals.sum = ∑ p ∈ N.valueNodes, p.2 := by
    rw [FoldedNode.valueNodes, List.sum_toFinset _ N.nodes.nodup_entries]; rfl
  have h2 : N.valueNodes = (N.nodes.keys.toFinset).image (fun n => (n, mass sp.outcomes (fun g => n ∈ g.nodes))) := by
    ext ⟨n, c⟩
    simp only [FoldedNode.valueNodes, List.mem_toFinset, Dict.mem_entries, Finset.mem_image, Dict.mem_keys, Prod.mk.injEq]
    constructor
    · intro hc
      exact ⟨n, ⟨c, hc⟩, rfl, ((h.2.2 n c).1 hc).2.2.symm⟩
    · rintro ⟨m, ⟨d, hd⟩, rfl, rfl⟩
      exact (h.2.2 m _).2 ⟨((h.2.2 m d).1 hd).1, ((h.2.2 m d).1 hd).2.1, rfl⟩
  rw [h1, h2, Finset.sum_image (by intro a _ b _ hab; exact (Prod.mk.inj hab).1)]
  unfold mass
  simp only [Finset.sum_filter]
  rw [Finset.sum_comm]
  apply Finset.sum_congr rfl
  rintro ⟨g, c⟩ hp
  rw [Samples.mem_items] at hp
  simp only at hp ⊢
  by_cases hv : HasVar N.var g
  · rw [if_pos hv]
    obtain ⟨n, hn, hnv⟩ := hv
    rw [Finset.sum_eq_single n]
    · rw [if_pos hn]
    · intro m hm hmn
      rw [if_neg]
      intro hmg
      apply hmn
      rw [List.mem_toFinset, Dict.mem_keys] at hm
      obtain ⟨d, hd⟩ := hm
      exact hsv g ⟨c, hp⟩ m hmg n hn (((h.2.2 m d).1 hd).1.trans hnv.symm)
    · intro hm
      exfalso
      apply hm
      rw [List.mem_toFinset, Dict.mem_keys]
      exact ⟨_, (h.2.2 n _).2 ⟨hnv, ⟨g, ⟨c, hp⟩, hn⟩, rfl⟩⟩
  · rw [if_neg hv]
    apply Finset.sum_eq_zero
    intro m hm
    rw [if_neg]
    intro hmg
    rw [List.mem_toFinset, Dict.mem_keys] at hm
    obtain ⟨d, hd⟩ := hm
    exact hv ⟨m, hmg, ((h.2.2 m d).1 hd).1⟩

theorem mass_compl (a : Samples V X R) (P : SampleGraph V X R → Prop) [DecidablePred P] :
    mass a P + mass a (fun g => ¬ P g) = a.length := by
  rw [length_eq_sum]
  exact Finset.sum_filter_add_sum_filter_not _ _ _

/-- **C31.** `unobserved_count` is the number of outcomes without the variable, hence not negative. -/
theorem C31_unobserved (sp : Space V X R) (N : FoldedNode V X) (h : ExactNode sp N) (hpos : Positive sp.outcomes)
    (hsv : ∀ g, sp.outcomes.Occurs g → SingleValued g.nodes) :
    N.unobservedCount = mass sp.outcomes (fun g => ¬ HasVar N.var g) ∧ 0 ≤ N.unobservedCount := by
  have h1 : N.unobservedCount = mass sp.outcomes (fun g => ¬ HasVar N.var g) := by
    unfold FoldedNode.unobservedCount
    rw [foldedNode_sum sp N h hsv, h.1, ← mass_compl sp.outcomes (HasVar N.var)]
    ring
  exact ⟨h1, h1 ▸ mass_nonneg _ hpos _⟩

theorem sum_assocSet_rat {K : Type} [DecidableEq K] (l : List (K × ℚ)) (k : K) (a : ℚ) :
    ((assocSet l k a).map Prod.snd).sum = (l.map Prod.snd).sum - (assoc? l k).getD 0 + a := by
  induction l with
  | nil => simp [assocSet, assoc?]
  | cons p t ih =>
    obtain ⟨p1, p2⟩ := p
    simp only [assocSet, assoc?]
    split
    · simp [add_comm]
    · simp only [List.map_cons, List.sum_cons, ih]; ring

theorem Dict.sum_vals_set_rat {K : Type} [DecidableEq K] (d : Dict K ℚ) (k : K) (a : ℚ) :
    (d.set k a).vals.sum = d.vals.sum - (d.get? k).getD 0 + a := sum_assocSet_rat d.entries k a

theorem distLoop_ok : ∀ (l : List (Node V X × ℤ)) (acc : Dict X ℚ) (total : ℤ), (∀ p ∈ l, p.1.val ∈ acc.keys) →
    ∃ acc', FoldedNode.distLoop l (acc, total) = .ok (acc', total + (l.map Prod.snd).sum) ∧
      (∀ x, acc'.get? x = (acc.get? x).map fun q => q + ((((l.filter fun p => p.1.val = x).map Prod.snd).sum : ℤ) : ℚ)) ∧
      acc'.vals.sum = acc.vals.sum + (((l.map Prod.snd).sum : ℤ) : ℚ) := by
  intro l
  induction l with
  | nil => intro acc total _; exact ⟨acc, by simp [FoldedNode.distLoop], by simp, by simp⟩
  | cons p t ih =>
    intro acc total h
    obtain ⟨n, c⟩ := p
    obtain ⟨a, ha⟩ := (Dict.mem_keys _ _).1 (h (n, c) (by simp))
    simp only at ha
    unfold FoldedNode.distLoop
    rw [ha]
    simp only
    obtain ⟨acc', h1, h2, h3⟩ := ih (acc.set n.val (a + c)) (total + c) (by
      intro p hp
      rw [Dict.mem_keys_set]
      exact Or.inr (h p (by simp [hp])))
    refine ⟨acc', ?_, ?_, ?_⟩
    · rw [h1]; simp only [List.map_cons, List.sum_cons]; rw [add_assoc]
    · intro x
      rw [h2, Dict.get?_set]
      by_cases hx : n.val = x
      · subst hx
        rw [if_pos rfl, ha]
        simp only [Option.map_some, Option.some.injEq, List.filter_cons, decide_true, if_true, List.map_cons, List.sum_cons]
        push_cast; ring
      · rw [if_neg hx]
        simp [hx]
    · rw [h3, Dict.sum_vals_set_rat, ha]
      simp only [List.map_cons, List.sum_cons, Option.getD_some]
      push_cast; ring

/-- The table computed before the unobserved entry is set. -/
theorem marginalDistribution_ok (sp : Space V X R) (unobs : X) (oX : Order X) (oN : Order (Node V X × ℤ)) (N : FoldedNode V X)
    (h : ExactNode sp N) (hs : Sound sp) (hpos : Positive sp.outcomes)
    (hsv : ∀ g, sp.outcomes.Occurs g → SingleValued g.nodes) (hne : ∃ g, sp.outcomes.Occurs g) :
    ∃ acc : Dict X ℚ, N.marginalDistribution unobs oX oN =
        .ok ((acc.set unobs ((mass sp.outcomes (fun g => ¬ HasVar N.var g) : ℤ) : ℚ)).mapVals
          fun c => c / (sp.outcomes.length : ℚ)) ∧
      (∀ x q, acc.get? x = some q ↔ x ∈ N.values ∧ q = ((mass sp.outcomes (HasValue N.var x) : ℤ) : ℚ)) ∧
      acc.vals.sum = ((mass sp.outcomes (HasVar N.var) : ℤ) : ℚ) := by
  have hnd : ((((oX.run N.values).map fun x => (x, (0 : ℚ)))).map Prod.fst).Nodup := by
    rw [List.map_map]
    show ((oX.run N.values).map id).Nodup
    rw [List.map_id]
    exact oX.nodup _
  have hget : ∀ x q, (Dict.ofList ((oX.run N.values).map fun x => (x, (0 : ℚ)))).get? x = some q ↔ x ∈ N.values ∧ q = 0 := by
    intro x q
    rw [Dict.get?_ofList _ hnd]
    simp only [List.mem_map, oX.mem, Prod.mk.injEq]
    constructor
    · rintro ⟨y, hy, rfl, rfl⟩; exact ⟨hy, rfl⟩
    · rintro ⟨hx, rfl⟩; exact ⟨x, hx, rfl, rfl⟩
  have hinv : ∀ n c, N.nodes.get? n = some c → n.val ∈ N.values := by
    intro n c hc
    obtain ⟨hv, ⟨g, hg, hn⟩, _⟩ := (h.2.2 n c).1 hc
    obtain ⟨xs, hxs, hx⟩ := (hs g hg).1 n hn
    rw [hv, h.2.1] at hxs
    cases hxs
    exact hx
  have hperm : (oN.run N.valueNodes).Perm N.nodes.entries := by
    rw [List.perm_ext_iff_of_nodup (oN.nodup _) N.nodes.nodup_entries]
    intro p; simp [oN.mem, FoldedNode.valueNodes]
  obtain ⟨acc, h1, h2, h3⟩ := distLoop_ok (oN.run N.valueNodes) (Dict.ofList ((oX.run N.values).map fun x => (x, (0 : ℚ)))) 0 (by
    rintro ⟨n, c⟩ hp
    rw [oN.mem, FoldedNode.valueNodes, List.mem_toFinset, Dict.mem_entries] at hp
    rw [Dict.mem_keys]
    exact ⟨0, (hget _ _).2 ⟨hinv n c hp, rfl⟩⟩)
  have htot : ((oN.run N.valueNodes).map Prod.snd).sum = mass sp.outcomes (HasVar N.var) := by
    rw [(hperm.map Prod.snd).sum_eq]
    exact foldedNode_sum sp N h hsv
  have hlen : 0 < sp.outcomes.length := by
    obtain ⟨g, c, hg⟩ := hne
    exact lt_of_lt_of_le (hpos g c hg) (count_le_length _ hpos g c hg)
  have hcompl : sp.outcomes.length - mass sp.outcomes (HasVar N.var) = mass sp.outcomes (fun g => ¬ HasVar N.var g) := by
    rw [← mass_compl sp.outcomes (HasVar N.var)]; ring
  refine ⟨acc, ?_, ?_, ?_⟩
  · unfold FoldedNode.marginalDistribution
    rw [h1]
    simp only [htot, h.1, zero_add]
    have := mass_le_length sp.outcomes hpos (HasVar N.var)
    rw [if_neg (by omega), if_neg (by omega), hcompl]
  · intro x q
    have hfil : ((oN.run N.valueNodes).filter fun p => p.1.val = x).map Prod.snd =
        match N.nodes.get? ⟨N.var, x⟩ with | some c => [c] | none => [] := by
      have h5 : ∀ p ∈ oN.run N.valueNodes, (p.1.val = x ↔ p.1 = ⟨N.var, x⟩) := by
        rintro ⟨n, c⟩ hp
        rw [oN.mem, FoldedNode.valueNodes, List.mem_toFinset, Dict.mem_entries] at hp
        have := ((h.2.2 n c).1 hp).1
        constructor
        · intro hx; cases n; simp_all
        · intro hx; rw [hx]
      have h6 : (oN.run N.valueNodes).filter (fun p => p.1.val = x) = (oN.run N.valueNodes).filter (fun p => p.1 = ⟨N.var, x⟩) := by
        apply List.filter_congr
        intro p hp
        simp only [h5 p hp]
      rw [h6]
      have h7 : (((oN.run N.valueNodes).filter (fun p => p.1 = ⟨N.var, x⟩)).map Prod.snd).Perm
          ((N.nodes.entries.filter (fun p => p.1 = ⟨N.var, x⟩)).map Prod.snd) := (hperm.filter _).map _
      have h8 : ∀ l : List (Node V X × ℤ), (l.map Prod.fst).Nodup → (l.filter (fun p => p.1 = ⟨N.var, x⟩)).map Prod.snd =
          match assoc? l ⟨N.var, x⟩ with | some c => [c] | none => [] := by
        intro l hl
        induction l with
        | nil => rfl
        | cons p t ih =>
          rw [List.map_cons, List.nodup_cons] at hl
          by_cases hp : p.1 = ⟨N.var, x⟩
          · have : t.filter (fun p => p.1 = ⟨N.var, x⟩) = [] := by
              rw [List.filter_eq_nil_iff]
              intro r hr hr'
              apply hl.1
              rw [hp, ← (by simpa using hr' : r.1 = ⟨N.var, x⟩)]
              exact List.mem_map_of_mem hr
            simp [hp, this, assoc?]
          · simp [hp, assoc?, ih hl.2]
      rw [h8 _ N.nodes.nodup] at h7
      unfold Dict.get?
      split
      · rename_i c hc
        rw [hc] at h7
        exact List.perm_singleton.1 h7
      · rename_i hc
        rw [hc] at h7
        exact List.perm_nil.1 h7
    have hsumx : (((oN.run N.valueNodes).filter fun p => p.1.val = x).map Prod.snd).sum = mass sp.outcomes (HasValue N.var x) := by
      rw [hfil]
      cases hc : N.nodes.get? ⟨N.var, x⟩ with
      | some c =>
        simp only [List.sum_cons, List.sum_nil, add_zero]
        exact ((h.2.2 _ _).1 hc).2.2
      | none =>
        simp only [List.sum_nil]
        unfold mass
        symm
        apply Finset.sum_eq_zero
        rintro ⟨g, c⟩ hp
        rw [Finset.mem_filter, Samples.mem_items] at hp
        have := (h.2.2 ⟨N.var, x⟩ _).2 ⟨rfl, ⟨g, ⟨c, hp.1⟩, hp.2⟩, rfl⟩
        rw [hc] at this
        cases this
    rw [h2, Option.map_eq_some_iff, hsumx]
    constructor
    · rintro ⟨q', hq', rfl⟩
      obtain ⟨hx, rfl⟩ := (hget x q').1 hq'
      exact ⟨hx, by simp⟩
    · rintro ⟨hx, rfl⟩
      exact ⟨0, (hget x 0).2 ⟨hx, rfl⟩, by simp⟩
  · rw [h3, htot]
    have : (Dict.ofList ((oX.run N.values).map fun x => (x, (0 : ℚ)))).vals.sum = 0 := by
      rw [Dict.vals, Dict.entries_ofList _ hnd]
      apply List.sum_eq_zero
      intro q hq
      simp only [List.map_map, List.mem_map] at hq
      obtain ⟨_, _, rfl⟩ := hq
      rfl
    rw [this, zero_add]

theorem sum_map_div_rat (l : List ℚ) (n : ℚ) : (l.map fun c => c / n).sum = l.sum / n := by
  induction l with
  | nil => simp
  | cons a t ih => simp only [List.map_cons, List.sum_cons, ih]; ring

/-- **C31.** `marginal_distribution`: the frequency of each declared value, of absence, and total 1, when `'unobserved'` is
not a declared value. -/
theorem C31_marginal_distribution (sp : Space V X R) (unobs : X) (oX : Order X) (oN : Order (Node V X × ℤ))
    (N : FoldedNode V X) (h : ExactNode sp N) (hs : Sound sp) (hpos : Positive sp.outcomes)
    (hsv : ∀ g, sp.outcomes.Occurs g → SingleValued g.nodes) (hne : ∃ g, sp.outcomes.Occurs g) (hu : unobs ∉ N.values) :
    ∃ d, N.marginalDistribution unobs oX oN = .ok d ∧ d.vals.sum = 1 ∧
      d.get? unobs = some ((mass sp.outcomes (fun g => ¬ HasVar N.var g) : ℚ) / (sp.outcomes.length : ℚ)) ∧
      ∀ x q, x ≠ unobs → (d.get? x = some q ↔
        x ∈ N.values ∧ q = (mass sp.outcomes (HasValue N.var x) : ℚ) / (sp.outcomes.length : ℚ)) := by
  obtain ⟨acc, h1, h2, h3⟩ := marginalDistribution_ok sp unobs oX oN N h hs hpos hsv hne
  refine ⟨_, h1, ?_, ?_, ?_⟩
  · have hnone : acc.get? unobs = none := by
      cases hx : acc.get? unobs with
      | none => rfl
      | some q => exact absurd ((h2 _ _).1 hx).1 hu
    obtain ⟨g, c, hg⟩ := hne
    have hlen : (sp.outcomes.length : ℚ) ≠ 0 := by
      exact_mod_cast (lt_of_lt_of_le (hpos g c hg) (count_le_length _ hpos g c hg)).ne'
    rw [Dict.vals_mapVals, sum_map_div_rat, Dict.sum_vals_set_rat, hnone, h3]
    simp only [Option.getD_none, sub_zero]
    rw [div_eq_one_iff_eq hlen]
    exact_mod_cast mass_compl sp.outcomes (HasVar N.var)
  · simp
  · intro x q hx
    rw [Dict.get?_mapVals, Dict.get?_set_ne _ _ (Ne.symm hx), Option.map_eq_some_iff]
    constructor
    · rintro ⟨c, hc, rfl⟩
      obtain ⟨hxv, rfl⟩ := (h2 _ _).1 hc
      exact ⟨hxv, rfl⟩
    · rintro ⟨hxv, rfl⟩
      exact ⟨_, (h2 _ _).2 ⟨hxv, rfl⟩, rfl⟩

/-- **C31.** With a declared value `'unobserved'` the function returns without complaint, but the frequency of that value is
replaced, and the result sums to 1 exactly if the value does not occur. -/
theorem C31_unobserved_collision (sp : Space V X R) (unobs : X) (oX : Order X) (oN : Order (Node V X × ℤ))
    (N : FoldedNode V X) (h : ExactNode sp N) (hs : Sound sp) (hpos : Positive sp.outcomes)
    (hsv : ∀ g, sp.outcomes.Occurs g → SingleValued g.nodes) (hne : ∃ g, sp.outcomes.Occurs g) (hu : unobs ∈ N.values) :
    ∃ d, N.marginalDistribution unobs oX oN = .ok d ∧
      d.get? unobs = some ((mass sp.outcomes (fun g => ¬ HasVar N.var g) : ℚ) / (sp.outcomes.length : ℚ)) ∧
      d.vals.sum = 1 - (mass sp.outcomes (HasValue N.var unobs) : ℚ) / (sp.outcomes.length : ℚ) ∧
      (d.vals.sum = 1 ↔ ¬ ∃ g, sp.outcomes.Occurs g ∧ HasValue N.var unobs g) := by
  obtain ⟨acc, h1, h2, h3⟩ := marginalDistribution_ok sp unobs oX oN N h hs hpos hsv hne
  obtain ⟨g, c, hg⟩ := hne
  have hlen : (sp.outcomes.length : ℚ) ≠ 0 := by
    exact_mod_cast (lt_of_lt_of_le (hpos g c hg) (count_le_length _ hpos g c hg)).ne'
  have hsum : ((acc.set unobs ((mass sp.outcomes (fun g => ¬ HasVar N.var g) : ℤ) : ℚ)).mapVals
      fun c => c / (sp.outcomes.length : ℚ)).vals.sum =
      1 - (mass sp.outcomes (HasValue N.var unobs) : ℚ) / (sp.outcomes.length : ℚ) := by
    rw [Dict.vals_mapVals, sum_map_div_rat, Dict.sum_vals_set_rat, (h2 unobs _).2 ⟨hu, rfl⟩, h3]
    simp only [Option.getD_some]
    have hc : ((mass sp.outcomes (HasVar N.var) : ℤ) : ℚ) + ((mass sp.outcomes (fun g => ¬ HasVar N.var g) : ℤ) : ℚ) =
      (sp.outcomes.length : ℚ) := by exact_mod_cast mass_compl sp.outcomes (HasVar N.var)
    rw [← hc] at hlen ⊢
    field_simp
    ring
  refine ⟨_, h1, by simp, hsum, ?_⟩
  rw [hsum, sub_eq_self, div_eq_zero_iff]
  simp only [hlen, or_false, Int.cast_eq_zero]
  constructor
  · rintro h0 ⟨g', hg', hv⟩
    exact (mass_pos _ hpos _ g' hg' hv).ne' h0
  · intro hno
    unfold mass
    apply Finset.sum_eq_zero
    rintro ⟨g', c'⟩ hp
    rw [Finset.mem_filter, Samples.mem_items] at hp
    exact absurd ⟨g', ⟨c', hp.1⟩, hp.2⟩ hno

/-- Non-vacuity of C31: the demo space is sound and has outcomes. -/
example : Sound demoSpace ∧ Positive demoSpace.outcomes ∧ (∀ g, demoSpace.outcomes.Occurs g → SingleValued g.nodes) ∧
    ∃ g, demoSpace.outcomes.Occurs g := by
  refine ⟨fun g hg => ⟨?_, (demoSpace_wf g hg).good⟩, demoSpace_positive, demoSpace_single, _, (demoSpace_occurs _).2 (Or.inl rfl)⟩
  rw [demoSpace_occurs] at hg
  rcases hg with rfl | rfl
  · intro n hn
    simp only [oneEdge, Finset.mem_insert, Finset.mem_singleton] at hn
    rcases hn with rfl | rfl
    · exact ⟨{0, 1}, rfl, by decide⟩
    · exact ⟨{0}, rfl, by decide⟩
  · intro n hn
    simp only [oneEdge, Finset.mem_insert, Finset.mem_singleton] at hn
    rcases hn with rfl | rfl
    · exact ⟨{0, 1}, rfl, by decide⟩
    · exact ⟨{0, 1}, rfl, by decide⟩

/-! ### C32 -/

theorem findLoop_eq (values : Finset (V × X)) (prov : ℕ) (l : List (SampleGraph V X R × ℤ)) (b : Samples V X R) :
    Space.findLoop values prov l b = Samples.addList prov (l.filter fun p => values ⊆ p.1.values) b := by
  induction l generalizing b with
  | nil => rfl
  | cons p t ih =>
    obtain ⟨g, c⟩ := p
    unfold Space.findLoop
    by_cases h : values ⊆ g.values
    · simp only [List.filter_cons, decide_true, if_true, h]
      unfold Samples.addList
      rcases b.add ⟨prov, g⟩ c with ⟨b', _ | e⟩
      · simp only [ih]
      · rfl
    · simp only [List.filter_cons, h, decide_false]
      rw [ih]
      rfl

/-- **C32.** `find_for_values` returns, with unchanged counts, exactly the outcomes containing all the given values. -/
theorem C32_find_for_values (sp : Space V X R) (oI : Order (SampleGraph V X R × ℤ)) (values : Finset (V × X)) :
    ∃ s, sp.findForValues oI values = .ok s ∧ s.prov = sp.outcomes.prov ∧
      ∀ g c, s.samples.get? g = some c ↔
        sp.outcomes.samples.get? g = some c ∧ ∀ p ∈ values, HasValue p.1 p.2 g := by
  unfold Space.findForValues
  rw [findLoop_eq]
  obtain ⟨h1, h2, h3, -⟩ := Samples.addList_ok sp.outcomes.prov
    ((oI.run sp.outcomes.items).filter fun p => values ⊆ p.1.values) (Samples.empty sp.outcomes.prov) rfl
  refine ⟨_, by unfold toPy; rw [h1], h2, fun g c => ?_⟩
  have hsub : ∀ g : SampleGraph V X R, values ⊆ g.values ↔ ∀ p ∈ values, HasValue p.1 p.2 g := by
    intro g
    constructor
    · intro h p hp
      have := h hp
      simp only [SampleGraph.values, Finset.mem_image] at this
      obtain ⟨n, hn, rfl⟩ := this
      exact hn
    · intro h p hp
      simp only [SampleGraph.values, Finset.mem_image]
      exact ⟨_, h p hp, rfl⟩
  rw [h3, ← hsub]
  have : (Samples.empty sp.outcomes.prov : Samples V X R).samples.get? g = none := rfl
  rw [this, addCounts_none_left]
  have hp := ((sp.outcomes.run_items_perm oI).filter fun p => decide (values ⊆ p.1.values))
  rw [totalOf_perm hp]
  have := totalOf_entries (sp.outcomes.samples.filterKeys fun g => decide (values ⊆ g.values)) g
  change totalOf (sp.outcomes.samples.entries.filter fun p => decide (values ⊆ p.1.values)) g = _ at this
  rw [this, Dict.get?_filterKeys]
  by_cases h : values ⊆ g.values
  · simp [h]
  · simp [h]

/-- **C32.** More values, fewer outcomes; no values, all outcomes. -/
theorem C32_monotone (sp : Space V X R) (oI oI' : Order (SampleGraph V X R × ℤ)) (values values' : Finset (V × X))
    (hsub : values ⊆ values') (s s' : Samples V X R) (hs : sp.findForValues oI values = .ok s)
    (hs' : sp.findForValues oI' values' = .ok s') :
    (∀ g c, s'.samples.get? g = some c → s.samples.get? g = some c) ∧ (values = ∅ → s.pyEq sp.outcomes = true) := by
  obtain ⟨t, ht, -, h⟩ := C32_find_for_values sp oI values
  obtain ⟨t', ht', -, h'⟩ := C32_find_for_values sp oI' values'
  rw [hs] at ht; cases ht
  rw [hs'] at ht'; cases ht'
  constructor
  · intro g c hg
    obtain ⟨h1, h2⟩ := (h' g c).1 hg
    exact (h g c).2 ⟨h1, fun p hp => h2 p (hsub hp)⟩
  · rintro rfl
    apply Samples.equiv_of_get
    intro g
    ext c
    rw [h]
    simp

/-- Non-vacuity of C32: looking for `0 = 1` in the demo space selects one of the two outcomes. -/
example : (∃ c, demoSpace.outcomes.samples.get? (oneEdge ⟨0, 1⟩ ⟨2, 0⟩) = some c) ∧
    (∀ p ∈ ({(0, 1)} : Finset (ℕ × ℕ)), HasValue p.1 p.2 (oneEdge ⟨0, 1⟩ ⟨2, 0⟩)) ∧
    ¬ ∀ p ∈ ({(0, 1)} : Finset (ℕ × ℕ)), HasValue p.1 p.2 (oneEdge ⟨0, 0⟩ ⟨1, 0⟩) := by
  refine ⟨(demoSpace_occurs _).2 (Or.inr rfl), by simp [HasValue, oneEdge], by simp [HasValue, oneEdge]⟩

end
end Verif
