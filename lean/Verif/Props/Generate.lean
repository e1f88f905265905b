import Verif.Lemmas.Generate

/-!
# C38 – `generate_all_possible_outcomes` enumerates exactly the connected graphs
-/

set_option linter.unusedSectionVars false

namespace Verif
open Relation

section
variable {V X R : Type} [DecidableEq V] [DecidableEq X] [DecidableEq R]

/-- `e` is an active edge of the index vector. -/
def ActiveIn (eps : List (Finset (V × X))) (rels : List R) (idx : List ℤ) (e : RawEdge V X R) : Prop :=
  ∃ (j : ℕ) (p : Finset (V × X)) (i : ℤ) (r : R), eps[j]? = some p ∧ idx[j]? = some i ∧ 0 ≤ i ∧
    rels[i.toNat]? = some r ∧ e = (p, Rel.plain r)

theorem active_unique (eps : List (Finset (V × X))) (rels : List R) (hep : eps.Nodup) (hrel : rels.Nodup)
    (idx idx' : List ℤ) (h : IsIndex rels.length eps.length idx) (h' : IsIndex rels.length eps.length idx')
    (heq : ∀ e, ActiveIn eps rels idx e ↔ ActiveIn eps rels idx' e) : idx = idx' := by
  have key : ∀ idx idx' : List ℤ, IsIndex rels.length eps.length idx → IsIndex rels.length eps.length idx' →
      (∀ e, ActiveIn eps rels idx e → ActiveIn eps rels idx' e) → ∀ (j : ℕ) (i i' : ℤ), idx[j]? = some i → idx'[j]? = some i' →
      0 ≤ i → i' = i := by
    intro idx idx' h h' hsub j i i' hi hi' h0
    have hj : j < eps.length := by rw [← h.1]; exact (List.getElem?_eq_some_iff.1 hi).1
    have hb := (h.2 i (List.mem_of_getElem? hi)).2
    have hlt : i.toNat < rels.length := by omega
    obtain ⟨j', p', k, r', e1, e2, e3, e4, e5⟩ := hsub (eps[j], Rel.plain rels[i.toNat])
      ⟨j, eps[j], i, rels[i.toNat], List.getElem?_eq_getElem hj, hi, h0, List.getElem?_eq_getElem hlt, rfl⟩
    simp only [Prod.mk.injEq, Rel.plain.injEq] at e5
    have hjj : j = j' := (List.getElem?_inj hj hep).1 ((List.getElem?_eq_getElem hj).trans (by rw [e5.1, e1]))
    subst hjj
    rw [hi'] at e2
    simp only [Option.some.injEq] at e2
    subst e2
    have : i.toNat = i'.toNat := (List.getElem?_inj hlt hrel).1 ((List.getElem?_eq_getElem hlt).trans (by rw [e5.2, e4]))
    omega
  apply List.ext_getElem? 
  intro j
  by_cases hj : j < eps.length
  · have hj1 : j < idx.length := by rw [h.1]; exact hj
    have hj2 : j < idx'.length := by rw [h'.1]; exact hj
    have g1 := List.getElem?_eq_getElem hj1
    have g2 := List.getElem?_eq_getElem hj2
    rw [g1, g2]
    congr 1
    by_cases h0 : 0 ≤ idx[j]
    · exact (key idx idx' h h' (fun e => (heq e).1) j _ _ g1 g2 h0).symm
    · by_cases h0' : 0 ≤ idx'[j]
      · exact key idx' idx h' h (fun e => (heq e).2) j _ _ g2 g1 h0'
      · have := (h.2 idx[j] (List.getElem_mem _)).1
        have := (h'.2 idx'[j] (List.getElem_mem _)).1
        omega
  · rw [List.getElem?_eq_none (by rw [h.1]; omega), List.getElem?_eq_none (by rw [h'.1]; omega)]

theorem active_exists (eps : List (Finset (V × X))) (rels : List R)
    (E : Finset (RawEdge V X R)) (hE : ∀ e ∈ E, e.1 ∈ eps ∧ ∃ r ∈ rels, e.2 = .plain r)
    (hone : ∀ e ∈ E, ∀ e' ∈ E, e.1 = e'.1 → e = e') :
    ∃ idx, IsIndex rels.length eps.length idx ∧ (∀ e, e ∈ E ↔ ActiveIn eps rels idx e) := by
  classical
  let f : Finset (V × X) → ℤ := fun p =>
    if h : ∃ r, (p, Rel.plain r) ∈ E then (rels.idxOf h.choose : ℤ) else -1
  have hmemrel : ∀ p r, (p, Rel.plain r) ∈ E → r ∈ rels := by
    intro p r h
    obtain ⟨-, r', hr', heq⟩ := hE _ h
    simp only [Rel.plain.injEq] at heq
    rw [heq]; exact hr'
  have hf : ∀ p r, (p, Rel.plain r) ∈ E → 0 ≤ f p ∧ rels[(f p).toNat]? = some r := by
    intro p r h
    have hex : ∃ r, (p, Rel.plain r) ∈ E := ⟨r, h⟩
    have hch := hex.choose_spec
    have : hex.choose = r := by
      have := hone _ hch _ h rfl
      simpa using this
    simp only [f, dif_pos hex]
    refine ⟨by omega, ?_⟩
    rw [Int.toNat_natCast, this]
    exact List.getElem?_idxOf (hmemrel p r h)
  have hf' : ∀ p, 0 ≤ f p → ∃ r, (p, Rel.plain r) ∈ E := by
    intro p h
    by_contra hn
    simp only [f, dif_neg hn] at h
    omega
  refine ⟨eps.map f, ⟨by simp, ?_⟩, ?_⟩
  · intro a ha
    obtain ⟨p, -, rfl⟩ := List.mem_map.1 ha
    by_cases hex : ∃ r, (p, Rel.plain r) ∈ E
    · have hch := hmemrel p _ hex.choose_spec
      simp only [f, dif_pos hex]
      have := List.idxOf_lt_length_iff.2 hch
      omega
    · simp only [f, dif_neg hex]; omega
  · intro e
    constructor
    · intro he
      obtain ⟨h1, r, hr, heq⟩ := hE e he
      obtain ⟨p, q⟩ := e
      simp only at heq h1
      subst heq
      obtain ⟨j, hj⟩ := List.mem_iff_getElem?.1 h1
      obtain ⟨h2, h3⟩ := hf p r he
      exact ⟨j, p, f p, r, hj, by rw [List.getElem?_map, hj]; rfl, h2, h3, rfl⟩
    · rintro ⟨j, p, i, r, h1, h2, h3, h4, rfl⟩
      rw [List.getElem?_map, h1] at h2
      simp only [Option.map_some, Option.some.injEq] at h2
      subst h2
      obtain ⟨r', hr'⟩ := hf' p h3
      obtain ⟨-, h5⟩ := hf p r' hr'
      rw [h4] at h5
      simp only [Option.some.injEq] at h5
      rw [h5]; exact hr'

theorem firstNodes_ok (I : List (V × List X)) (h : ∀ p ∈ I, p.2 ≠ []) :
    ∃ N, I.mapM firstNode = .ok N ∧ N.map Prod.fst = I.map Prod.fst ∧
      ∀ v x, (v, x) ∈ N ↔ ∃ p ∈ I, p.1 = v ∧ p.2.head? = some x := by
  induction I with
  | nil => exact ⟨[], rfl, rfl, by simp⟩
  | cons p t ih =>
    obtain ⟨v, xs⟩ := p
    obtain ⟨x, tl, rfl⟩ := List.exists_cons_of_ne_nil (h (v, xs) (by simp))
    obtain ⟨N, h1, h2, h3⟩ := ih (fun q hq => h q (by simp [hq]))
    refine ⟨(v, x) :: N, ?_, by simp [h2], ?_⟩
    · rw [List.mapM_cons, h1]; rfl
    · intro w y
      rw [List.mem_cons, h3]
      constructor
      · rintro (heq | ⟨q, hq, h⟩)
        · simp only [Prod.mk.injEq] at heq
          exact ⟨(v, x :: tl), by simp, heq.1.symm, by simp [heq.2]⟩
        · exact ⟨q, by simp [hq], h⟩
      · rintro ⟨q, hq, hw, hy⟩
        rcases List.mem_cons.1 hq with rfl | hq
        · left; simp at hw hy; rw [hw, hy]
        · right; exact ⟨q, hq, hw, hy⟩

theorem listing_of_schema (o : GenOrders V X R) (s : Schema V X R)
    (hv : ∀ v xs, s.vars.get? v = some xs → xs.Nonempty) :
    Listing s ((o.oV.run s.vars.entries.toFinset).map fun p => (p.1, o.oX.run p.2)) ∧
    ∀ v xs, s.vars.get? v = some xs →
      (v, o.oX.run xs) ∈ (o.oV.run s.vars.entries.toFinset).map fun p => (p.1, o.oX.run p.2) := by
  have hm : ∀ p, p ∈ o.oV.run s.vars.entries.toFinset ↔ s.vars.get? p.1 = some p.2 := by
    intro p; rw [o.oV.mem, List.mem_toFinset]; exact Dict.mem_entries' _ _
  refine ⟨⟨?_, ?_⟩, ?_⟩
  · rw [List.map_map]
    apply List.Nodup.map_on _ (o.oV.nodup _)
    intro p hp q hq heq
    simp only [Function.comp_apply] at heq
    have h1 := (hm p).1 hp
    have h2 := (hm q).1 hq
    rw [heq, h2] at h1
    simp only [Option.some.injEq] at h1
    exact Prod.ext heq h1.symm
  · intro p hp
    obtain ⟨q, hq, rfl⟩ := List.mem_map.1 hp
    have h1 := (hm q).1 hq
    refine ⟨o.oX.nodup _, ?_, q.2, h1, fun x => (o.oX.mem _ _).symm⟩
    intro h0
    rw [o.oX.run_eq_nil] at h0
    exact Finset.nonempty_iff_ne_empty.1 (hv _ _ h1) h0
  · intro v xs h
    exact List.mem_map.2 ⟨(v, xs), (hm (v, xs)).2 h, rfl⟩

theorem isOutcome_single (s : Schema V X R) (n : Node V X) (h : ∃ xs, s.vars.get? n.var = some xs ∧ n.val ∈ xs) :
    IsOutcome s (⟨{n}, ∅⟩ : SampleGraph V X R) := by
  refine ⟨by simp, ⟨by simp, by simp, by simp [OnePerPair], ?_⟩, ?_, ?_, by simp⟩
  · intro a ha b hb
    simp only [Finset.coe_singleton, Set.mem_singleton_iff] at ha hb
    rw [ha, hb]
  · intro a ha b hb _
    simp only [Finset.mem_singleton] at ha hb
    rw [ha, hb]
  · intro m hm
    simp only [Finset.mem_singleton] at hm
    rw [hm]; exact h

theorem isOutcome_graphOf (s : Schema V X R) (N : List (V × X)) (E : Finset (RawEdge V X R)) (hok : RawOk s N E)
    (hne : E.Nonempty) (hconn : RawConnected E) (hN : ∀ v x, (v, x) ∈ N → ∃ xs, s.vars.get? v = some xs ∧ x ∈ xs)
    (hinj : ∀ p ∈ N, ∀ q ∈ N, p.1 = q.1 → p = q) :
    IsOutcome s (graphOf E) ∧ ∀ n ∈ (graphOf E).nodes, (n.var, n.val) ∈ N := by
  have hnode : ∀ n ∈ (graphOf E).nodes, (n.var, n.val) ∈ N := by
    intro n hn
    simp only [graphOf, Finset.mem_biUnion, mem_toNodes] at hn
    obtain ⟨e, he, hn⟩ := hn
    obtain ⟨a, ha, b, hb, -, heq⟩ := hok.ends e he
    rw [heq] at hn
    simp only [Finset.mem_insert, Finset.mem_singleton] at hn
    rcases hn with h | h <;> rw [h] <;> assumption
  refine ⟨⟨?_, ⟨?_, ?_, ?_, (rawConnected_iff E).1 hconn⟩, ?_, ?_, ?_⟩, hnode⟩
  · obtain ⟨e, he⟩ := hne
    obtain ⟨a, ha, b, hb, -, heq⟩ := hok.ends e he
    refine ⟨⟨a.1, a.2⟩, ?_⟩
    simp only [graphOf, Finset.mem_biUnion, mem_toNodes]
    exact ⟨e, he, by rw [heq]; simp⟩
  · intro e he
    obtain ⟨e', he', rfl⟩ := Finset.mem_image.1 he
    intro n hn
    exact Finset.mem_biUnion.2 ⟨e', he', hn⟩
  · intro e he
    obtain ⟨e', he', rfl⟩ := Finset.mem_image.1 he
    obtain ⟨a, ha, b, hb, hab, heq⟩ := hok.ends e' he'
    refine ⟨⟨a.1, a.2⟩, ⟨b.1, b.2⟩, fun h => hab (hinj a ha b hb h), ?_⟩
    simp only
    rw [heq]
    simp [toNodes]
  · intro e he e2 he2 heq
    obtain ⟨f, hf, rfl⟩ := Finset.mem_image.1 he
    obtain ⟨f2, hf2, rfl⟩ := Finset.mem_image.1 he2
    rw [hok.one f hf f2 hf2 (toNodes_inj heq)]
  · intro a ha b hb hab
    have := hinj _ (hnode a ha) _ (hnode b hb) hab
    cases a; cases b; simp_all
  · intro n hn; exact hN _ _ (hnode n hn)
  · intro e he
    obtain ⟨e', he', rfl⟩ := Finset.mem_image.1 he
    exact hok.rels e' he'

/-- C38: on a builder without outcomes `generate_all_possible_outcomes` returns, for every iteration order, and leaves
exactly the non-empty connected single-valued graphs over what was declared, each with count 1. Provider and schema are
kept. -/
theorem C38_generate (o : GenOrders V X R) (s : Schema V X R) (prov : Nat)
    (hv : ∀ v xs, s.vars.get? v = some xs → xs.Nonempty) :
    ∃ b, (RGBuilder.fresh s prov).generate o = .ok b ∧ b.schema = s ∧ b.prov = prov ∧ b.Coherent ∧
      ∀ g c, b.outcomes.samples.get? g = some c ↔ c = 1 ∧ IsOutcome s g := by
  set I := (o.oV.run s.vars.entries.toFinset).map fun p => (p.1, o.oX.run p.2) with hI
  obtain ⟨hlist, hall⟩ := listing_of_schema o s hv
  rw [← hI] at hlist hall
  obtain ⟨N, hN1, hN2, hN3⟩ := firstNodes_ok I (fun p hp => (hlist.vals p hp).2.1)
  have hNdecl : ∀ v x, (v, x) ∈ N → ∃ xs, s.vars.get? v = some xs ∧ x ∈ xs := by
    intro v x h
    obtain ⟨p, hp, rfl, hx⟩ := (hN3 v x).1 h
    obtain ⟨-, -, xs, h1, h2⟩ := hlist.vals p hp
    exact ⟨xs, h1, (h2 x).2 (List.mem_of_head? hx)⟩
  have hNdecl' : ∀ p ∈ N, s.declared p.1 p.2 = true := by
    intro p hp
    obtain ⟨xs, h1, h2⟩ := hNdecl p.1 p.2 hp
    simp [Schema.declared, h1, h2]
  have hNkeys : (N.map Prod.fst).Nodup := by rw [hN2]; exact hlist.keys
  have hNnd : N.Nodup := List.Nodup.of_map _ hNkeys
  have hNinj : ∀ p ∈ N, ∀ q ∈ N, p.1 = q.1 → p = q := fun p hp q hq h => List.inj_on_of_nodup_map hNkeys hp hq h
  -- a node has its first value exactly if it is listed
  have hstageN : ∀ g, IsOutcome s g → ((∀ n ∈ g.nodes, (n.var, n.val) ∈ N) ↔
      ∀ p ∈ I, ∀ n ∈ g.nodes, n.var = p.1 → p.2.head? = some n.val) := by
    intro g ho
    constructor
    · intro h p hp n hn hnp
      obtain ⟨q, hq, hqv, hqx⟩ := (hN3 _ _).1 (h n hn)
      have : q = p := List.inj_on_of_nodup_map hlist.keys hq hp (hqv.trans hnp)
      rw [← this]; exact hqx
    · intro h n hn
      obtain ⟨xs, h1, h2⟩ := ho.values n hn
      exact (hN3 _ _).2 ⟨_, hall _ _ h1, rfl, h _ (hall _ _ h1) n hn rfl⟩
  set eps := o.oP.run (RGBuilder.endpointPairs N) with heps
  set rels := o.oR.run s.rels with hrels
  have hepnd : eps.Nodup := o.oP.nodup _
  have hrelnd : rels.Nodup := o.oR.nodup _
  obtain ⟨L, hL1, hL2, hL3⟩ := odometer rels.length eps.length
  have hex : ∀ idx, ∃ E, idx ∈ L → activeEdges eps rels idx = .ok E ∧ ∀ e, e ∈ E ↔ ActiveIn eps rels idx e := by
    intro idx
    by_cases h : idx ∈ L
    · obtain ⟨E, h1, h2⟩ := activeEdges_ok eps rels idx (fun a ha => (((hL3 idx).1 h).1.2 a ha).2)
      exact ⟨E, fun _ => ⟨h1, h2⟩⟩
    · exact ⟨∅, fun h' => absurd h' h⟩
  choose Ef hEf using hex
  have hEok : ∀ idx ∈ L, RawOk s N (Ef idx) := fun idx h => active_rawOk s N o.oP o.oR idx _ (hEf idx h).2
  have hEne : ∀ idx ∈ L, (Ef idx).Nonempty := by
    intro idx h
    obtain ⟨hidx, a, ha, h0⟩ := (hL3 idx).1 h
    obtain ⟨j, hj⟩ := List.mem_iff_getElem?.1 ha
    have hjl : j < eps.length := by rw [← hidx.1]; exact (List.getElem?_eq_some_iff.1 hj).1
    have hb := (hidx.2 a ha).2
    have hlt : a.toNat < rels.length := by omega
    exact ⟨(eps[j], .plain rels[a.toNat]), ((hEf idx h).2 _).2 ⟨j, _, a, _, List.getElem?_eq_getElem hjl, hj, h0,
      List.getElem?_eq_getElem hlt, rfl⟩⟩
  -- first loop
  obtain ⟨b1, s1, s2, s3, s4, s5⟩ := genSingles_ok s N (RGBuilder.fresh s prov) (coherent_fresh s prov) rfl hNdecl'
  have hc0 : Counted (RGBuilder.fresh s prov) fun _ => False := by
    intro g; simp [RGBuilder.fresh, Samples.empty]
  have hc1 := hc0.add (b' := b1) (N.map fun p => (⟨{⟨p.1, p.2⟩}, ∅⟩ : SampleGraph V X R))
    (hNnd.map (fun p q h => by
      simp only [SampleGraph.mk.injEq, Finset.singleton_inj, Node.mk.injEq, and_true] at h
      exact Prod.ext h.1 h.2)) (fun _ _ h => h) s5
  -- second loop
  obtain ⟨b2, G, e1, e2, e3, e4, e5, e6, e7⟩ := genEdges_ok o s N hNdecl' hNinj eps rels Ef L b1 s2 s3
    (fun idx h => ⟨(hEf idx h).1, hEne idx h, hEok idx h⟩)
  have hGnd : G.Nodup := e7 (fun i hi j hj hij => active_unique eps rels hepnd hrelnd i j ((hL3 i).1 hi).1 ((hL3 j).1 hj).1
    (fun e => by rw [← (hEf i hi).2, ← (hEf j hj).2, hij])) hL2
  have hc2 := hc1.add (b' := b2) G hGnd (by
    intro g hg
    simp only [false_or]
    intro hs
    obtain ⟨idx, hidx, -, rfl⟩ := (e6 g).1 hg
    obtain ⟨p, -, heq⟩ := List.mem_map.1 hs
    obtain ⟨e, he⟩ := hEne idx hidx
    have : (graphOf (Ef idx)).edges = ∅ := by rw [← heq]
    have hmem : (⟨toNodes e.1, e.2⟩ : Edge V X R) ∈ (graphOf (Ef idx)).edges := Finset.mem_image.2 ⟨e, he, rfl⟩
    rw [this] at hmem; simp at hmem) e5
  have hstage : Counted b2 (Stage s I) := hc2.congr fun g => by
    simp only [false_or]
    constructor
    · rintro (h | h)
      · obtain ⟨p, hp, rfl⟩ := List.mem_map.1 h
        have ho := isOutcome_single (R := R) s ⟨p.1, p.2⟩ (hNdecl _ _ hp)
        exact ⟨ho, (hstageN _ ho).1 (by simp [hp])⟩
      · obtain ⟨idx, hidx, hcon, rfl⟩ := (e6 g).1 h
        obtain ⟨ho, hn⟩ := isOutcome_graphOf s N _ (hEok idx hidx) (hEne idx hidx) hcon hNdecl hNinj
        exact ⟨ho, (hstageN _ ho).1 hn⟩
    · rintro ⟨ho, hst⟩
      have hnodes := (hstageN g ho).2 hst
      by_cases hge : g.edges = ∅
      · left
        obtain ⟨n, hn⟩ := ho.nonempty
        have hone := Finset.card_le_one.1 (ho.wf.card_le_one hge)
        refine List.mem_map.2 ⟨(n.var, n.val), hnodes n hn, ?_⟩
        apply SampleGraph.ext
        · ext m
          simp only [Finset.mem_singleton]
          exact ⟨fun h => h ▸ hn, fun h => hone m h n hn⟩
        · exact hge.symm
      · right
        obtain ⟨E, -, hbuild⟩ := C10_view_then_build s o.oE o.oN o.oNode prov g ho.wf ho.declared hge true
        obtain ⟨hEnon, hEall, hEcon, hEg⟩ := ((C10_build_from_edges s o.oE o.oN prov E true).1 _).1 hbuild
        have hg : g = graphOf E := by simpa using hEg
        have hedge : ∀ e ∈ E, (⟨toNodes e.1, e.2⟩ : Edge V X R) ∈ g.edges := by
          intro e he; rw [hg]; exact Finset.mem_image.2 ⟨e, he, rfl⟩
        have hend : ∀ e ∈ E, ∀ p ∈ e.1, p ∈ N := by
          intro e he p hp
          have := hnodes ⟨p.1, p.2⟩ (ho.wf.closed _ (hedge e he) ((mem_toNodes _ _).2 hp))
          exact this
        have hEok' : RawOk s N E := by
          refine ⟨?_, ?_, ?_⟩
          · intro e he
            obtain ⟨a, b, hab, heq⟩ := (hEall e he).1
            exact ⟨a, hend e he a (by rw [heq]; simp), b, hend e he b (by rw [heq]; simp), fun h => hab (by rw [h]), heq⟩
          · intro e he; exact ho.relations _ (hedge e he)
          · intro e he e' he' heq
            have := ho.wf.onePer _ (hedge e he) _ (hedge e' he') (by simp only; rw [heq])
            simp only [Edge.mk.injEq] at this
            exact Prod.ext heq this.2
        obtain ⟨idx, hidx, hact⟩ := active_exists eps rels E (by
          intro e he
          obtain ⟨r, hr, heq⟩ := hEok'.rels e he
          exact ⟨(o.oP.mem _ _).2 ((mem_endpointPairs N e.1).2 (hEok'.ends e he)), r, (o.oR.mem _ _).2 hr, heq⟩) hEok'.one
        have hidxL : idx ∈ L := by
          refine (hL3 idx).2 ⟨hidx, ?_⟩
          obtain ⟨e, he⟩ := hEnon
          obtain ⟨j, p, i, r, -, h2, h3, -, -⟩ := (hact e).1 he
          exact ⟨i, List.mem_of_getElem? h2, h3⟩
        have hEeq : Ef idx = E := by
          ext e; rw [(hEf idx hidxL).2, hact]
        refine (e6 g).2 ⟨idx, hidxL, ?_, ?_⟩
        · rw [hEeq]; exact hEcon rfl
        · rw [hEeq]; exact hg
  -- third loop
  obtain ⟨b3, t1, t2, t3, t4, t5⟩ := genSubst_ok o s I b2 hlist e2 e3 hstage
  have hfinal : ∀ g c, b3.outcomes.samples.get? g = some c ↔ c = 1 ∧ IsOutcome s g := by
    intro g c
    by_cases ho : IsOutcome s g
    · rw [(t5 g).1 ho]
      simp [ho, eq_comm]
    · rw [(t5 g).2 ho]
      simp [ho]
  refine ⟨b3, ?_, t3, t4.trans (e4.trans s4), t2, hfinal⟩
  unfold RGBuilder.generate
  rw [if_neg (by simp [RGBuilder.fresh, Samples.bool, Samples.empty, Dict.empty])]
  simp only [show (RGBuilder.fresh s prov).schema = s from rfl]
  rw [← hI, hN1]
  simp only
  rw [← heps, ← hrels, hL1]
  simp only
  rw [s1]
  simp only
  rw [e1]
  simp only
  rw [t1]
  simp only
  rw [if_pos]
  rintro ⟨g, c⟩ hp
  rw [Samples.mem_items] at hp
  exact ((hfinal g c).1 hp).1

/-- C38, guard: on a builder that has outcomes `generate_all_possible_outcomes` raises `AssertionError`. -/
theorem C38_generate_guard (o : GenOrders V X R) (b : RGBuilder V X R) (g : SampleGraph V X R) (c : ℤ)
    (h : b.outcomes.samples.get? g = some c) : b.generate o = .error .assertion := by
  unfold RGBuilder.generate
  rw [if_pos]
  unfold Samples.bool
  rw [decide_eq_true_eq]
  intro hnil
  have := (Dict.mem_entries b.outcomes.samples g c).2 h
  rw [hnil] at this; simp at this

/-- C38, order independence: the outcomes do not depend on the iteration orders. -/
theorem C38_generate_deterministic (o o' : GenOrders V X R) (s : Schema V X R) (prov : Nat)
    (hv : ∀ v xs, s.vars.get? v = some xs → xs.Nonempty) (b b' : RGBuilder V X R)
    (h : (RGBuilder.fresh s prov).generate o = .ok b) (h' : (RGBuilder.fresh s prov).generate o' = .ok b') :
    b.outcomes.pyEq b'.outcomes = true := by
  obtain ⟨c, hc, -, -, -, h1⟩ := C38_generate o s prov hv
  obtain ⟨c', hc', -, -, -, h1'⟩ := C38_generate o' s prov hv
  rw [h] at hc
  rw [h'] at hc'
  simp only [Except.ok.injEq] at hc hc'
  subst hc hc'
  apply Samples.equiv_of_get
  intro g
  cases hg : b.outcomes.samples.get? g with
  | none =>
    cases hg' : b'.outcomes.samples.get? g with
    | none => rfl
    | some x => rw [(h1 g x).2 ((h1' g x).1 hg')] at hg; simp at hg
  | some x => rw [(h1' g x).2 ((h1 g x).1 hg)]

/-- Non-vacuity of C38: a schema with two variables; single nodes and an edge are among the outcomes, a graph with two
values of one variable or two separate nodes is not. -/
example : let s : Schema ℕ ℕ ℕ := ⟨⟨[(0, {0, 1}), (1, {0})], by decide⟩, {0}⟩
    (∀ v xs, s.vars.get? v = some xs → xs.Nonempty) ∧ IsOutcome s ⟨{⟨0, 1⟩}, ∅⟩ ∧ IsOutcome s (oneEdge ⟨0, 1⟩ ⟨1, 0⟩) ∧
    ¬ IsOutcome s ⟨{⟨0, 0⟩, ⟨1, 0⟩}, ∅⟩ := by
  refine ⟨?_, ?_, ?_, ?_⟩
  · intro v xs h
    have := List.mem_map_of_mem (f := Prod.snd) ((Dict.mem_entries _ _ _).2 h)
    simp only [List.map_cons, List.map_nil, List.mem_cons, List.not_mem_nil, or_false] at this
    rcases this with rfl | rfl <;> simp
  · exact isOutcome_single _ _ ⟨{0, 1}, by decide, by decide⟩
  · have hw := oneEdge_wf ⟨0, 1⟩ ⟨1, 0⟩ (by simp)
    refine ⟨by simp [oneEdge], hw, ?_, ?_, ?_⟩
    · intro a ha b hb h
      simp only [oneEdge, Finset.mem_insert, Finset.mem_singleton] at ha hb
      rcases ha with rfl | rfl <;> rcases hb with rfl | rfl <;> simp_all
    · intro n hn
      simp only [oneEdge, Finset.mem_insert, Finset.mem_singleton] at hn
      rcases hn with rfl | rfl
      · exact ⟨{0, 1}, by decide, by decide⟩
      · exact ⟨{0}, by decide, by decide⟩
    · simp [oneEdge]
  · intro h
    have := h.wf.card_le_one rfl
    simp at this

end
end Verif
