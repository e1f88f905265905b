import Verif.Props.MarkovGraph

/-!
# Joint distribution, inference and separation for Markov networks (C60)
-/

set_option linter.unusedSectionVars false

namespace Verif.Markov

open Verif.Bayes

/-! ### Specification -/

/-- `P(v = j | u = 0 for u in vs)` for the distribution proportional to the product of the factors. -/
def posteriorM (edges : List MEdge) (vs : List Str) (v : Str) (j : ℕ) : ℚ :=
  (∑ a ∈ assigns two (mVars edges) with (∀ u ∈ vs, a u = 0) ∧ a v = j, (weight edges a : ℚ)) /
    ∑ a ∈ assigns two (mVars edges) with ∀ u ∈ vs, a u = 0, (weight edges a : ℚ)

/-- The variables `vs` separate `P` from `Q`: together they are all variables, and no edge joins `P` and `Q`. -/
def Separates (edges : List MEdge) (vs : List Str) (P Q : Finset Str) : Prop :=
  mVars edges = P ∪ (Q ∪ vs.toFinset) ∧ Disjoint P (Q ∪ vs.toFinset) ∧ Disjoint Q vs.toFinset ∧
    ∀ e ∈ edges, ends e ⊆ P ∪ vs.toFinset ∨ ends e ⊆ Q ∪ vs.toFinset

/-- The factors as sets of variables: connected, and no variable on more than two edges. -/
def ChainOrCycle (edges : List MEdge) : Prop := (∀ w, (edges.map ends).countP (w ∈ ·) ≤ 2) ∧ ConnectedL (edges.map ends)

/-! ### The tables -/

def mPairs (e : MEdge) : Finset (Finset Str) := ({e.1.1} : Finset Str).image fun p => {p, e.1.2}

/-- A graph of the experiment before joining. -/
def Tabs (nodes : List Str) (edges : List MEdge) (prov : ℕ) (dom : Str → Finset ℕ) (sp : Space Str Str Str) : Prop :=
  sp.schema = mSchema nodes ∧ sp.outcomes.prov = prov ∧
    Tables sp.outcomes dom valName edges.toFinset ends mPairs edgeGraph factorAt

/-- A graph of the experiment after joining. -/
def MWhole (nodes : List Str) (edges : List MEdge) (prov : ℕ) (dom : Str → Finset ℕ) (sp : Space Str Str Str) : Prop :=
  sp.schema = mSchema nodes ∧ sp.outcomes.prov = prov ∧
    Tables sp.outcomes dom valName ({()} : Finset Unit) (fun _ => mVars edges) (fun _ => edges.toFinset.biUnion mPairs)
      (fun _ => mGraph edges) (fun _ => weight edges)

section
variable {nodes : List Str} {edges : List MEdge} (hN : MNet nodes edges)
include hN

theorem tabs_of_make {prov : ℕ} {sp : Space Str Str Str} (hsp : makeRelationGraph prov nodes edges = .ok sp) :
    PositiveNet edges ∧ Tabs nodes edges prov two sp := by
  obtain ⟨h1, h2⟩ := C60_make_relation_graph hN prov
  by_cases hp : PositiveNet edges
  · obtain ⟨sp', e1, e2, e3, -, e5⟩ := h2 hp
    rw [hsp] at e1
    cases e1
    refine ⟨hp, e2, e3, ?_⟩
    refine star_tables (fun e : MEdge => e.1.2) (fun e => {e.1.1}) (fun _ _ => .plain ['r']) ?_ (fun v j k h => (valName_inj h).2) ?_ ?_ ?_ ?_ ?_
    · intro g c
      rw [e5]
      simp only [List.mem_toFinset]
      rfl
    · intro e he h
      exact hN.loop e (List.mem_toFinset.1 he) (Finset.mem_singleton.1 h).symm
    · intro e _ v _; exact ⟨0, by simp [two]⟩
    · intro e _ a b h; exact factorAt_local h
    · intro e he f hf hne p hp q hq h
      rw [Finset.mem_singleton] at hp hq
      subst hp hq
      refine hne (hN.simple e (List.mem_toFinset.1 he) f (List.mem_toFinset.1 hf) ?_)
      unfold ends
      rw [Finset.pair_comm, h, Finset.pair_comm]
    · intro e _ f _ h; simp at h
  · rw [h1 hp] at hsp; cases hsp

theorem ends_sub {e : MEdge} (he : e ∈ edges) : ends e ⊆ mVars edges := Finset.subset_biUnion_of_mem ends (List.mem_toFinset.2 he)

theorem mVars_nodes {v : Str} (hv : v ∈ mVars edges) : v ∈ nodes := by
  obtain ⟨e, he, hv⟩ := Finset.mem_biUnion.1 hv
  have := hN.decl e (List.mem_toFinset.1 he)
  simp only [ends, Finset.mem_insert, Finset.mem_singleton] at hv
  rcases hv with rfl | rfl
  · exact this.2
  · exact this.1

theorem edges_nonempty : edges.toFinset.Nonempty := by
  obtain ⟨e, he⟩ := List.exists_mem_of_ne_nil _ hN.ne
  exact ⟨e, List.mem_toFinset.2 he⟩

theorem allVars_m : allVars edges.toFinset ends = mVars edges := by
  ext v
  rw [mem_allVars]
  simp [mVars]

theorem joinedGraph_m : joinedGraph valName edges.toFinset ends edgeGraph = mGraph edges := by
  funext a
  unfold joinedGraph mGraph
  rw [allVars_m hN]
  refine SampleGraph.ext rfl ?_
  ext x
  simp only [Finset.mem_biUnion, Finset.mem_image, edgeGraph, starOf, starEdge, Finset.image_singleton, Finset.mem_singleton]
  constructor
  · rintro ⟨e, he, rfl⟩; exact ⟨e, he, rfl⟩
  · rintro ⟨e, he, rfl⟩; exact ⟨e, he, rfl⟩

/-- Joining. -/
theorem tabs_join {prov : ℕ} {dom : Str → Finset ℕ} {sp : Space Str Str Str} (hT : Tabs nodes edges prov dom sp) (o : Orders Str Str Str) :
    (∀ er, sp.makeJoined o = .error er → er = .assertion) ∧ (∀ sp', sp.makeJoined o = .ok sp' → MWhole nodes edges prov dom sp') ∧
    (ChainOrCycle edges → ∃ sp', sp.makeJoined o = .ok sp') ∧ (TreeShape (edges.map ends) → ∃ sp', sp.makeJoined o = .ok sp') := by
  obtain ⟨t1, t2, t3⟩ := hT
  have hk := C42_make_joined o sp t3.good t3.complete
  have hL : ((edges.map ends : List (Finset Str)) : Multiset (Finset Str)) = edges.toFinset.val.map ends := by
    rw [List.toFinset_val, hN.nodup.dedup, Multiset.map_coe]
  refine ⟨hk.1, fun sp' hj => ?_, fun hC => t3.joins_two o _ hL hC.1 hC.2, fun hC => t3.joins o _ hL hC⟩
  have := t3.joined (edges_nonempty hN) o hj
  rw [allVars_m hN, joinedGraph_m hN] at this
  exact ⟨(hk.2 sp' hj).1.trans t1, (hk.2 sp' hj).2.1.trans t2, this⟩

/-- Observing. -/
theorem condition_ok {prov : ℕ} {dom : Str → Finset ℕ} {sp0 sp : Space Str Str Str} (h0 : sp0.schema = mSchema nodes) (hp0 : sp0.outcomes.prov = prov)
    (hT : Tabs nodes edges prov dom sp) {v : Str} (hv : v ∈ nodes) (hd : 0 ∈ dom v) (e : Env) :
    ∃ sp', condition e sp0 sp v = .ok sp' ∧ Tabs nodes edges prov (Function.update dom v {0}) sp' := by
  obtain ⟨t1, t2, t3⟩ := hT
  have hdecl : (mSchema nodes).declared v (valName v 0) = true := (declared_iff _ _ _).2 (declared_node hv (by omega))
  have hev : (Builder.new sp0.outcomes.prov).buildSingleNode sp0.schema v (valName v 0) = .ok ⟨sp0.outcomes.prov, valueEvidence v (valName v 0)⟩ := by
    rw [h0]
    unfold Builder.buildSingleNode Schema.getNode
    simp [hdecl, Builder.new, valueEvidence]
  obtain ⟨cs, h1, h2, -, h4, -⟩ := (C34_conditional_graph sp e.o.items ⟨sp0.outcomes.prov, valueEvidence v (valName v 0)⟩).1 (hp0.trans t2.symm)
  have hC := t3.conditioned e.o.items hd (ev := ⟨sp0.outcomes.prov, valueEvidence v (valName v 0)⟩) rfl h1
  refine ⟨cs.relationGraph, ?_, h2.trans t1, h4.trans t2, hC⟩
  unfold condition
  rw [hev]
  simp only [bind, Except.bind, h1]
  rfl

theorem conditions_ok {prov : ℕ} {sp0 : Space Str Str Str} (h0 : sp0.schema = mSchema nodes) (hp0 : sp0.outcomes.prov = prov) (e : Env) :
    ∀ (vs ws : List Str) (sp : Space Str Str Str), (∀ v ∈ vs, v ∈ nodes) → Tabs nodes edges prov (obsDom two ws) sp →
      ∃ sp', vs.foldlM (condition e sp0) sp = .ok sp' ∧ Tabs nodes edges prov (obsDom two (ws ++ vs)) sp'
  | [], ws, sp, _, hT => ⟨sp, rfl, by rwa [List.append_nil]⟩
  | v :: t, ws, sp, hvs, hT => by
    have hd : 0 ∈ obsDom two ws v := by
      unfold obsDom two
      split <;> simp
    obtain ⟨sp1, e1, e2⟩ := condition_ok hN h0 hp0 hT (hvs v (by simp)) hd e
    rw [obsDom_snoc] at e2
    obtain ⟨sp', r1, r2⟩ := conditions_ok h0 hp0 e t (ws ++ [v]) sp1 (fun w hw => hvs w (by simp [hw])) e2
    refine ⟨sp', by rw [List.foldlM_cons, e1]; exact r1, ?_⟩
    rwa [List.append_assoc, List.singleton_append] at r2

theorem weight_pos (hp : PositiveNet edges) {a : Str → ℕ} (ha : InDom two (mVars edges) a) : 0 < weight edges a :=
  Finset.prod_pos fun e he => factorAt_pos hN hp (List.mem_toFinset.1 he) fun v hv => ha v (ends_sub hN (List.mem_toFinset.1 he) hv)

theorem weight_local {a b : Str → ℕ} (h : ∀ v ∈ mVars edges, a v = b v) : weight edges a = weight edges b :=
  Finset.prod_congr rfl fun e he => factorAt_local fun v hv => h v (ends_sub hN (List.mem_toFinset.1 he) hv)

end

theorem inDom_obsTwo {vs : List Str} {S : Finset Str} {a : Str → ℕ} (ha : InDom (obsDom two vs) S a) : InDom two S a := by
  intro v hv
  have := ha v hv
  unfold obsDom at this
  split at this
  · rw [Finset.mem_singleton.1 this]; simp [two]
  · exact this

/-- **C60.** Whenever `make_joined` returns, the outcomes are the assignments of all variables on edges, with all edges, counted with the product of the
factors; it can only raise `AssertionError`, and returns, whatever the iteration orders, for trees and if no variable is on more than two edges. -/
theorem C60_joint {nodes : List Str} {edges : List MEdge} (hN : MNet nodes edges) {prov : ℕ} {sp : Space Str Str Str}
    (hsp : makeRelationGraph prov nodes edges = .ok sp) (o : Orders Str Str Str) :
    (∀ er, sp.makeJoined o = .error er → er = .assertion) ∧
    (∀ sp', sp.makeJoined o = .ok sp' → ∀ g n, sp'.outcomes.samples.get? g = some n ↔
      ∃ a, InDom two (mVars edges) a ∧ g = mGraph edges a ∧ n = weight edges a) ∧
    (ChainOrCycle edges → ∃ sp', sp.makeJoined o = .ok sp') ∧ (TreeShape (edges.map ends) → ∃ sp', sp.makeJoined o = .ok sp') := by
  obtain ⟨h1, h2, h3, h4⟩ := tabs_join hN (tabs_of_make hN hsp).2 o
  refine ⟨h1, fun sp' hj g n => ?_, h3, h4⟩
  rw [(h2 sp' hj).2.2.get]
  simp

/-- **C60.** A network that falls into parts is never joined. -/
theorem C60_disconnected {nodes : List Str} {edges : List MEdge} (hN : MNet nodes edges) {prov : ℕ} {sp : Space Str Str Str}
    (hsp : makeRelationGraph prov nodes edges = .ok sp) (o : Orders Str Str Str) (P : Finset Str) (hP : ∀ e ∈ edges, e.1.1 ∈ P ↔ e.1.2 ∈ P)
    (h1 : ∃ e ∈ edges, e.1.1 ∈ P) (h2 : ∃ e ∈ edges, e.1.1 ∉ P) : sp.makeJoined o = .error .assertion := by
  have hT := (tabs_of_make hN hsp).2.2.2
  have hvar : ∀ (e : MEdge) (a : Str → ℕ) (v : Str), HasVar v (edgeGraph e a) ↔ v = e.1.2 ∨ v = e.1.1 := by
    intro e a v
    unfold HasVar
    constructor
    · rintro ⟨n, hn, rfl⟩
      have := (mem_asgNodes.1 hn).1
      simpa using this
    · intro h
      exact ⟨⟨v, valName v (a v)⟩, mem_asgNodes.2 ⟨by simpa using h, rfl⟩, rfl⟩
  have hocc : ∀ e ∈ edges, sp.outcomes.Occurs (edgeGraph e fun _ => 0) := fun e he =>
    ⟨_, (hT.get _ _).2 ⟨e, List.mem_toFinset.2 he, fun _ => 0, fun v _ => by simp [two], rfl, rfl⟩⟩
  refine C43_disconnected o sp hT.good hT.complete P ?_ ?_ ?_
  · rintro g ⟨c, hc⟩
    obtain ⟨e, he, a, -, rfl, -⟩ := (hT.get _ _).1 hc
    have := hP e (List.mem_toFinset.1 he)
    simp only [hvar]
    by_cases h : e.1.1 ∈ P
    · left; rintro v (rfl | rfl)
      · exact this.1 h
      · exact h
    · right; rintro v (rfl | rfl)
      · exact fun h' => h (this.2 h')
      · exact h
  · obtain ⟨e, he, h⟩ := h1
    exact ⟨_, e.1.1, hocc e he, (hvar _ _ _).2 (Or.inr rfl), h⟩
  · obtain ⟨e, he, h⟩ := h2
    exact ⟨_, e.1.1, hocc e he, (hvar _ _ _).2 (Or.inr rfl), h⟩

/-! ### Tuples and assignments -/

theorem sum_joined {M : Type} [AddCommMonoid M] (f : (Str → ℕ) → M) : ∀ vars : List Str, vars.Nodup →
    ((joinedValues vars.length).map fun js => f (kw vars js)).sum = ∑ a ∈ assigns two vars.toFinset, f a
  | [], _ => by
    have hc : assigns two (∅ : Finset Str) = {fun _ => 0} := by
      ext a
      rw [mem_assigns, Finset.mem_singleton]
      constructor
      · rintro ⟨-, h⟩; funext v; exact h v (by simp)
      · rintro rfl; exact ⟨by simp [InDom], fun _ _ => rfl⟩
    simp [joinedValues, hc, kw]
  | v :: t, hnd => by
    rw [List.nodup_cons] at hnd
    rw [List.toFinset_cons, sum_assigns_insert (by simpa using hnd.1)]
    simp only [joinedValues, List.length_cons, List.flatMap_cons, List.flatMap_nil, List.append_nil, List.map_append, List.map_map, List.sum_append,
      Function.comp_def, kw]
    rw [sum_joined (fun a => f (Function.update a v 0)) t hnd.2, sum_joined (fun a => f (Function.update a v 1)) t hnd.2, ← Finset.sum_add_distrib]
    refine Finset.sum_congr rfl fun a _ => ?_
    simp [two]

theorem joined_length : ∀ (n : ℕ), ∀ js ∈ joinedValues n, js.length = n
  | 0, js, h => by simp [joinedValues] at h; simp [h]
  | n + 1, js, h => by
    simp only [joinedValues, List.mem_flatMap, List.mem_map] at h
    obtain ⟨j, -, t, ht, rfl⟩ := h
    simp [joined_length n t ht]

theorem joined_nodup : ∀ n, (joinedValues n).Nodup
  | 0 => by simp [joinedValues]
  | n + 1 => by
    simp only [joinedValues]
    rw [List.nodup_flatMap]
    refine ⟨fun j _ => (joined_nodup n).map fun x y h => (List.cons.inj h).2, ?_⟩
    have : ([0, 1] : List ℕ).Pairwise (· ≠ ·) := by decide
    refine this.imp fun {i j} hij => ?_
    intro t h1 h2
    obtain ⟨x, -, rfl⟩ := List.mem_map.1 h1
    obtain ⟨y, -, h⟩ := List.mem_map.1 h2
    exact hij (List.cons.inj h).1.symm

theorem joined_two : ∀ (vars : List Str), ∀ js ∈ joinedValues vars.length, InDom two vars.toFinset (kw vars js)
  | [], js, _ => by simp [InDom]
  | v :: t, js, h => by
    simp only [joinedValues, List.length_cons, List.mem_flatMap, List.mem_map] at h
    obtain ⟨j, hj, js, hjs, rfl⟩ := h
    intro w hw
    simp only [kw]
    by_cases e : w = v
    · subst e; simpa [two] using hj
    · rw [Function.update_of_ne e]
      refine joined_two t js hjs w ?_
      simpa [e] using hw

/-- The values asked for are those of the assignment. -/
theorem mem_queryValues : ∀ (vars : List Str) (js : List ℕ), vars.Nodup → js.length = vars.length → ∀ p, p ∈ queryValues vars js ↔
    p.1 ∈ vars ∧ p.2 = valName p.1 (kw vars js p.1)
  | [], js, _, _, p => by simp [queryValues]
  | v :: t, [], _, h, p => by simp at h
  | v :: t, j :: js, hnd, h, p => by
    rw [List.nodup_cons] at hnd
    have ih := mem_queryValues t js hnd.2 (by simpa using h) p
    unfold queryValues at ih ⊢
    simp only [List.zip_cons_cons, List.map_cons, List.toFinset_cons, Finset.mem_insert, ih, List.mem_cons, kw]
    obtain ⟨w, x⟩ := p
    simp only [Prod.mk.injEq]
    constructor
    · rintro (⟨rfl, rfl⟩ | ⟨h1, h2⟩)
      · simp
      · have : w ≠ v := by rintro rfl; exact hnd.1 h1
        exact ⟨Or.inr h1, by rw [Function.update_of_ne this]; exact h2⟩
    · rintro ⟨h1, h2⟩
      by_cases e : w = v
      · subst e; left; simpa using h2
      · rw [Function.update_of_ne e] at h2
        exact Or.inr ⟨h1.resolve_left e, h2⟩

/-! ### `_get_relation_graph_prop` -/

section
variable {nodes : List Str} {edges : List MEdge} (hN : MNet nodes edges)
include hN

open Classical in
theorem graphItem_eq {prov : ℕ} {dom : Str → Finset ℕ} {sp : Space Str Str Str} (hW : MWhole nodes edges prov dom sp) {vars : List Str} (hnd : vars.Nodup)
    (hvars : vars.toFinset = mVars edges) (e : Env) {js : List ℕ} (hjs : js ∈ joinedValues vars.length) :
    graphItem e vars sp js = .ok (if InDom dom (mVars edges) (kw vars js) then some (js, (weight edges (kw vars js) : ℚ)) else none) := by
  obtain ⟨-, -, hT⟩ := hW
  obtain ⟨c, h1, -, h3⟩ := C32_find_for_values sp e.o.items (queryValues vars js)
  have hc : ∀ g n, c.samples.get? g = some n ↔ InDom dom (mVars edges) (kw vars js) ∧ g = mGraph edges (kw vars js) ∧ n = weight edges (kw vars js) := by
    intro g n
    rw [h3, hT.get]
    constructor
    · rintro ⟨⟨-, -, a, ha, rfl, rfl⟩, hq⟩
      have hag : ∀ v ∈ mVars edges, a v = kw vars js v := by
        intro v hv
        have hv' : v ∈ vars := by rw [← hvars] at hv; exact List.mem_toFinset.1 hv
        have := hq (v, valName v (kw vars js v)) ((mem_queryValues vars js hnd (joined_length _ _ hjs) _).2 ⟨hv', rfl⟩)
        exact ((hT.hasValue (i := ()) (by simp)).1 this).2
      refine ⟨fun v hv => by rw [← hag v hv]; exact ha v hv, hT.locG () (by simp) _ _ hag, hT.locφ () (by simp) _ _ hag⟩
    · rintro ⟨ha, rfl, rfl⟩
      refine ⟨⟨(), by simp, _, ha, rfl, rfl⟩, fun p hp => ?_⟩
      obtain ⟨q1, q2⟩ := (mem_queryValues vars js hnd (joined_length _ _ hjs) p).1 hp
      rw [q2]
      refine (hT.hasValue (i := ()) (by simp)).2 ⟨?_, rfl⟩
      rw [← hvars]; exact List.mem_toFinset.2 q1
  unfold graphItem
  rw [h1]
  simp only [bind, Except.bind]
  by_cases hd : InDom dom (mVars edges) (kw vars js)
  · have hmem := (Samples.mem_items c (mGraph edges (kw vars js), weight edges (kw vars js))).2 ((hc _ _).2 ⟨hd, rfl, rfl⟩)
    have hb : c.bool = true := by
      have := (Dict.mem_entries _ _ _).2 ((hc _ _).2 ⟨hd, rfl, rfl⟩)
      unfold Samples.bool
      cases he : c.samples.entries with
      | nil => rw [he] at this; simp at this
      | cons => simp [he]
    have hp : popCount e.o.items c = .ok (weight edges (kw vars js) : ℚ) := by
      unfold popCount
      cases hr : e.o.items.run c.items with
      | nil =>
        have := (e.o.items.mem c.items _).2 hmem
        rw [hr] at this; simp at this
      | cons p t =>
        have : p ∈ c.items := (e.o.items.mem c.items p).1 (by rw [hr]; simp)
        obtain ⟨-, -, h4⟩ := (hc p.1 p.2).1 ((Samples.mem_items c p).1 this)
        simp only [h4]
    rw [hb, if_pos rfl, hp, if_pos hd]
    rfl
  · have hb : c.bool = false := by
      unfold Samples.bool
      cases he : c.samples.entries with
      | nil => simp [he]
      | cons p t =>
        have := (Dict.mem_entries' c.samples p).1 (by rw [he]; simp)
        exact absurd ((hc _ _).1 this).1 hd
    rw [hb, if_neg (by simp), if_neg hd]
    rfl

theorem assigns_filter {dom : Str → Finset ℕ} {S : Finset Str} (hd : ∀ v ∈ S, dom v ⊆ two v) [DecidablePred (InDom dom S)] :
    assigns dom S = (assigns two S).filter (InDom dom S) := by
  ext a
  rw [Finset.mem_filter, mem_assigns, mem_assigns]
  constructor
  · rintro ⟨h1, h2⟩; exact ⟨⟨fun v hv => hd v hv (h1 v hv), h2⟩, h1⟩
  · rintro ⟨⟨-, h2⟩, h1⟩; exact ⟨h1, h2⟩

/-- The counts of the joined graph. -/
theorem graphCounts_spec {prov : ℕ} {dom : Str → Finset ℕ} (hd : ∀ v ∈ mVars edges, dom v ⊆ two v) {sp : Space Str Str Str}
    (hW : MWhole nodes edges prov dom sp) {vars : List Str} (hnd : vars.Nodup) (hvars : vars.toFinset = mVars edges) (e : Env) :
    ∃ m, (joinedValues vars.length).mapM (graphItem e vars sp) = .ok m ∧
      (∀ js q, (Dict.ofList (m.filterMap id)).get? js = some q ↔ js ∈ joinedValues vars.length ∧ InDom dom (mVars edges) (kw vars js) ∧
        q = weight edges (kw vars js)) ∧
      (Dict.ofList (m.filterMap id)).vals.sum = ∑ a ∈ assigns dom (mVars edges), (weight edges a : ℚ) := by
  classical
  let w : List ℕ → ℚ := fun js => (weight edges (kw vars js) : ℚ)
  let l := (joinedValues vars.length).filter fun js => decide (InDom dom (mVars edges) (kw vars js))
  have hm : (joinedValues vars.length).mapM (graphItem e vars sp) = .ok ((joinedValues vars.length).map fun js =>
      if InDom dom (mVars edges) (kw vars js) then some (js, w js) else none) :=
    mapM_ok _ _ _ fun js hjs => graphItem_eq hN hW hnd hvars e hjs
  have hfm : (((joinedValues vars.length).map fun js => if InDom dom (mVars edges) (kw vars js) then some (js, w js) else none).filterMap id) =
      l.map fun js => (js, w js) := by
    simp only [l]
    induction joinedValues vars.length with
    | nil => rfl
    | cons x t ih =>
      by_cases h : InDom dom (mVars edges) (kw vars x)
      · simp only [List.map_cons, h, if_true, List.filterMap_cons_some (f := id) rfl, List.filter_cons, decide_true, ih]
      · simp only [List.map_cons, h, if_false, List.filterMap_cons_none (f := id) rfl, List.filter_cons, decide_false, ih]
        rfl
  have hln : l.Nodup := (joined_nodup _).filter _
  have hk : ((l.map fun js => (js, w js)).map Prod.fst).Nodup := by
    rw [List.map_map]
    simpa [Function.comp_def] using hln
  have hget : ∀ js q, (Dict.ofList (l.map fun js => (js, w js))).get? js = some q ↔ js ∈ l ∧ q = w js := by
    intro js q
    rw [Dict.get?_ofList _ hk]
    simp only [List.mem_map, Prod.mk.injEq]
    constructor
    · rintro ⟨x, hx, rfl, rfl⟩; exact ⟨hx, rfl⟩
    · rintro ⟨h, rfl⟩; exact ⟨js, h, rfl, rfl⟩
  refine ⟨_, hm, fun js q => ?_, ?_⟩
  · rw [hfm, hget]
    simp only [l, List.mem_filter, decide_eq_true_eq, and_assoc, w]
  · rw [hfm]
    have h1 : (Dict.ofList (l.map fun js => (js, w js))).vals.sum = ∑ js ∈ l.toFinset, w js := by
      have : (Dict.ofList (l.map fun js => (js, w js))).vals.sum = ∑ e ∈ (Dict.ofList (l.map fun js => (js, w js))).entries.toFinset, e.2 := by
        rw [← Dict.sum_entries_eq]; rfl
      rw [this]
      symm
      refine Finset.sum_bij (fun js _ => (js, w js)) ?_ (fun a _ b _ h => (Prod.ext_iff.1 h).1) ?_ (fun _ _ => rfl)
      · intro js hjs
        rw [List.mem_toFinset, Dict.mem_entries, hget]
        exact ⟨List.mem_toFinset.1 hjs, rfl⟩
      · rintro ⟨js, q⟩ he
        rw [List.mem_toFinset, Dict.mem_entries, hget] at he
        exact ⟨js, List.mem_toFinset.2 he.1, by rw [he.2]⟩
    rw [h1, List.sum_toFinset _ hln]
    have h2 : (l.map w).sum = ((joinedValues vars.length).map fun js => if InDom dom (mVars edges) (kw vars js) then w js else 0).sum := by
      simp only [l]
      induction joinedValues vars.length with
      | nil => rfl
      | cons x t ih => by_cases h : InDom dom (mVars edges) (kw vars x) <;> simp [h, ih]
    rw [h2, sum_joined (fun a => if InDom dom (mVars edges) a then (weight edges a : ℚ) else 0) vars hnd, hvars, assigns_filter hN hd, Finset.sum_filter]

/-- The sum of the counts is not zero if there is an outcome. -/
theorem weights_ne_zero {dom : Str → Finset ℕ} (hd : ∀ v ∈ mVars edges, dom v ⊆ two v) (hp : PositiveNet edges) {a : Str → ℕ}
    (ha : InDom dom (mVars edges) a) : 0 < ∑ a ∈ assigns dom (mVars edges), (weight edges a : ℚ) := by
  refine Finset.sum_pos (fun a ha => ?_) ⟨_, cut_mem ha⟩
  have := weight_pos hN hp (a := a) fun v hv => hd v hv ((mem_assigns.1 ha).1 v hv)
  exact_mod_cast this

/-- The relative counts of the joined graph. -/
theorem graphProp_spec {prov : ℕ} {dom : Str → Finset ℕ} (hd : ∀ v ∈ mVars edges, dom v ⊆ two v) (hp : PositiveNet edges) {sp : Space Str Str Str}
    (hW : MWhole nodes edges prov dom sp) {vars : List Str} (hnd : vars.Nodup) (hvars : vars.toFinset = mVars edges) (e : Env) :
    ∃ d, graphProp e vars sp = .ok d ∧ ∀ js q, d.get? js = some q ↔ js ∈ joinedValues vars.length ∧ InDom dom (mVars edges) (kw vars js) ∧
      q = weight edges (kw vars js) / ∑ a ∈ assigns dom (mVars edges), (weight edges a : ℚ) := by
  obtain ⟨m, hm, hget, hsum⟩ := graphCounts_spec hN hd hW hnd hvars e
  refine ⟨(Dict.ofList (m.filterMap id)).mapVals fun v => v / (Dict.ofList (m.filterMap id)).vals.sum, ?_, fun js q => ?_⟩
  · unfold graphProp
    rw [hm]
    simp only [bind, Except.bind]
    unfold normalize
    rw [if_neg]
    rw [hsum]
    rintro ⟨hne, h0⟩
    obtain ⟨⟨js, q⟩, he⟩ := List.exists_mem_of_ne_nil _ hne
    obtain ⟨-, h2, -⟩ := (hget js q).1 ((Dict.mem_entries _ _ _).1 he)
    exact (weights_ne_zero hN hd hp h2).ne' h0
  · rw [Dict.get?_mapVals, Option.map_eq_some_iff, hsum]
    simp only [hget]
    constructor
    · rintro ⟨r, ⟨h1, h2, rfl⟩, rfl⟩; exact ⟨h1, h2, rfl⟩
    · rintro ⟨h1, h2, rfl⟩; exact ⟨_, ⟨h1, h2, rfl⟩, rfl⟩

/-! ### The factors -/

open Classical in
theorem product_setZero (vs : List Str) (hvs : ∀ v ∈ vs, v ∈ mVars edges) {a : Str → ℕ} (ha : InDom two (mVars edges) a) :
    productFactor (edges.map (setZero vs)) a = if ∀ v ∈ vs, a v = 0 then (weight edges a : ℚ) else 0 := by
  have h1 : productFactor (edges.map (setZero vs)) a = ∏ e ∈ edges.toFinset, setZero vs e a := by
    unfold productFactor
    rw [List.map_map, List.prod_toFinset _ hN.nodup]
    rfl
  rw [h1]
  split
  · rename_i h
    unfold weight
    rw [Int.cast_prod]
    refine Finset.prod_congr rfl fun e _ => ?_
    unfold setZero
    rw [if_neg]
    · rfl
    · rintro ⟨v, hv, -, h'⟩
      rw [h v hv] at h'
      omega
  · rename_i h
    push Not at h
    obtain ⟨v, hv, h0⟩ := h
    have hv' := hvs v hv
    have ha' := ha v hv'
    simp only [two, Finset.mem_insert, Finset.mem_singleton] at ha'
    obtain ⟨e, he, hve⟩ := Finset.mem_biUnion.1 hv'
    refine Finset.prod_eq_zero he ?_
    unfold setZero
    rw [if_pos]
    refine ⟨v, hv, ?_, by omega⟩
    simp only [ends, Finset.mem_insert, Finset.mem_singleton] at hve
    tauto

theorem obs_sum (vs : List Str) (hvs : ∀ v ∈ vs, v ∈ mVars edges) {vars : List Str} (hnd : vars.Nodup) (hvars : vars.toFinset = mVars edges) :
    ((joinedValues vars.length).map fun js => productFactor (edges.map (setZero vs)) (kw vars js)).sum =
      ∑ a ∈ assigns (obsDom two vs) (mVars edges), (weight edges a : ℚ) := by
  classical
  rw [sum_joined (fun a => productFactor (edges.map (setZero vs)) a) vars hnd, hvars,
    assigns_obsDom fun v hv => ⟨hvs v hv, by simp [two]⟩, Finset.sum_filter]
  exact Finset.sum_congr rfl fun a ha => product_setZero hN vs hvs (mem_assigns.1 ha).1

theorem inDom_obsDom {vs : List Str} (hvs : ∀ v ∈ vs, v ∈ mVars edges) {a : Str → ℕ} (ha : InDom two (mVars edges) a) :
    InDom (obsDom two vs) (mVars edges) a ↔ ∀ v ∈ vs, a v = 0 := by
  constructor
  · intro h v hv
    have := h v (hvs v hv)
    rw [obsDom, if_pos hv, Finset.mem_singleton] at this
    exact this
  · intro h v hv
    unfold obsDom
    split
    · rename_i h'; rw [h v h']; simp
    · exact ha v hv

theorem markovProp_spec (hp : PositiveNet edges) (vs : List Str) (hvs : ∀ v ∈ vs, v ∈ mVars edges) {vars : List Str} (hnd : vars.Nodup)
    (hvars : vars.toFinset = mVars edges) (js : List ℕ) (q : ℚ) :
    (markovProp vars (productFactor (edges.map (setZero vs)))).get? js = some q ↔
      js ∈ joinedValues vars.length ∧ InDom (obsDom two vs) (mVars edges) (kw vars js) ∧
        q = weight edges (kw vars js) / ∑ a ∈ assigns (obsDom two vs) (mVars edges), (weight edges a : ℚ) := by
  unfold markovProp
  rw [Dict.get?_ofList]
  · simp only [List.mem_map, List.mem_filter, decide_eq_true_eq, Prod.mk.injEq, obs_sum hN vs hvs hnd hvars]
    have key : ∀ js ∈ joinedValues vars.length, InDom two (mVars edges) (kw vars js) := by
      intro js h; rw [← hvars]; exact joined_two vars js h
    constructor
    · rintro ⟨x, ⟨hx, h0⟩, rfl, rfl⟩
      have hk := key x hx
      rw [product_setZero hN vs hvs hk] at h0 ⊢
      rw [inDom_obsDom hN hvs hk]
      by_cases h : ∀ v ∈ vs, kw vars x v = 0
      · rw [if_pos h]; exact ⟨hx, h, rfl⟩
      · rw [if_neg h] at h0; exact absurd h0 (lt_irrefl _)
    · rintro ⟨hx, h, rfl⟩
      have hk := key js hx
      rw [inDom_obsDom hN hvs hk] at h
      refine ⟨js, ⟨hx, ?_⟩, rfl, ?_⟩
      · rw [product_setZero hN vs hvs hk, if_pos h]
        exact_mod_cast weight_pos hN hp hk
      · rw [product_setZero hN vs hvs hk, if_pos h]
  · rw [List.map_map]
    simpa [Function.comp_def] using (joined_nodup _).filter _

end

theorem sameDict_iff {K : Type} [DecidableEq K] (a b : Dict K ℚ) : sameDict a b = true ↔ ∀ k, a.get? k = b.get? k := by
  unfold sameDict
  simp only [Bool.and_eq_true, decide_eq_true_eq, List.all_eq_true]
  constructor
  · rintro ⟨h1, h2⟩ k
    by_cases hk : k ∈ a.keys
    · exact h2 k hk
    · have hk' : k ∉ b.keys := fun h => hk (List.mem_toFinset.1 (h1 ▸ List.mem_toFinset.2 h))
      rw [(a.get?_eq_none k).2 hk, (b.get?_eq_none k).2 hk']
  · intro h
    refine ⟨?_, fun k _ => h k⟩
    ext k
    simp only [List.mem_toFinset, Dict.mem_keys, h]

theorem setZero_nil : setZero [] = edgeFactor := by
  funext e a
  simp [setZero]

/-- **C60.** `comparing_variable_joint_probability`: if the graph can be joined, the comparison with the product of the factors succeeds; otherwise the
`AssertionError` of `make_joined` is raised. -/
theorem C60_comparing_joint {nodes : List Str} {edges : List MEdge} (hN : MNet nodes edges) {prov : ℕ} {sp : Space Str Str Str}
    (hsp : makeRelationGraph prov nodes edges = .ok sp) {vars : List Str} (hnd : vars.Nodup) (hvars : vars.toFinset = mVars edges) (e : Env) :
    (∀ er, sp.makeJoined e.o = .error er → comparingJoint e vars edges sp = .error er) ∧
    (∀ sp', sp.makeJoined e.o = .ok sp' → comparingJoint e vars edges sp = .ok ()) := by
  constructor
  · intro er h
    unfold comparingJoint
    rw [h]
    rfl
  · intro sp' hj
    obtain ⟨hp, hT⟩ := tabs_of_make hN hsp
    have hW := (tabs_join hN hT e.o).2.1 sp' hj
    rw [← obsDom_nil two] at hW
    obtain ⟨d, d1, d2⟩ := graphProp_spec hN (fun v _ => by rw [obsDom_nil]) hp hW hnd hvars e
    have hs : sameDict (markovProp vars (productFactor (edges.map edgeFactor))) d = true := by
      rw [sameDict_iff]
      intro js
      refine Option.ext fun q => ?_
      rw [d2, ← setZero_nil, markovProp_spec hN hp [] (by simp) hnd hvars]
    unfold comparingJoint
    simp only [hj, d1, hs, bind, Except.bind, pyAssert, if_true]

/-- **C60.** `comparing_inference`: the same for the graph in which one variable is observed. -/
theorem C60_comparing_inference {nodes : List Str} {edges : List MEdge} (hN : MNet nodes edges) {prov : ℕ} {sp : Space Str Str Str}
    (hsp : makeRelationGraph prov nodes edges = .ok sp) {vars : List Str} (hnd : vars.Nodup) (hvars : vars.toFinset = mVars edges) {v : Str}
    (hv : v ∈ mVars edges) (e : Env) :
    ∃ cs, condition e sp sp v = .ok cs ∧
    (∀ er, cs.makeJoined e.o = .error er → er = .assertion ∧ comparingInference e vars edges v sp = .error .assertion) ∧
    (∀ sp', cs.makeJoined e.o = .ok sp' → comparingInference e vars edges v sp = .ok ()) ∧
    (ChainOrCycle edges → comparingInference e vars edges v sp = .ok ()) := by
  obtain ⟨hp, hT⟩ := tabs_of_make hN hsp
  obtain ⟨cs, c1, c2⟩ := condition_ok hN hT.1 hT.2.1 hT (mVars_nodes hN hv) (by simp [two]) e
  have hd : Function.update two v {0} = obsDom two [v] := by
    rw [← obsDom_nil two, obsDom_snoc, obsDom_nil]; rfl
  rw [hd] at c2
  obtain ⟨j1, j2, j3, -⟩ := tabs_join hN c2 e.o
  have hok : ∀ sp', cs.makeJoined e.o = .ok sp' → comparingInference e vars edges v sp = .ok () := by
    intro sp' hj
    have hW : MWhole nodes edges prov (obsDom two [v]) sp'.relationGraph := j2 sp' hj
    obtain ⟨d, d1, d2⟩ := graphProp_spec hN (fun w _ => by unfold obsDom; split <;> simp [two]) hp hW hnd hvars e
    have hs : sameDict (markovProp vars (productFactor (edges.map (setZero [v])))) d = true := by
      rw [sameDict_iff]
      intro js
      refine Option.ext fun q => ?_
      rw [d2, markovProp_spec hN hp [v] (by simpa using hv) hnd hvars]
    unfold comparingInference
    simp only [c1, hj, d1, hs, bind, Except.bind, pyAssert, if_true]
  refine ⟨cs, c1, fun er h => ?_, hok, fun hC => ?_⟩
  · have he := j1 er h
    refine ⟨he, ?_⟩
    subst he
    unfold comparingInference
    simp only [c1, h, bind, Except.bind]
  · obtain ⟨sp', h⟩ := j3 hC
    exact hok sp' h

/-! ### Separation -/

theorem mem_assigns_zero {dom : Str → Finset ℕ} {S : Finset Str} {a : Str → ℕ} (ha : a ∈ assigns dom S) {v : Str} (hv : v ∉ S) : a v = 0 :=
  (mem_assigns.1 ha).2 v hv

/-- **C60.** Separation in Markov networks: if the observed variables separate `P` from `Q`, observing more variables of `Q` does not change the
distribution of the variables of `P`. -/
theorem C60_separation {nodes : List Str} {edges : List MEdge} (hN : MNet nodes edges) (hp : PositiveNet edges) {vs : List Str} {P Q : Finset Str}
    (hs : Separates edges vs P Q) {t : Str} (ht : t ∈ P) {ds : List Str} (hds : ∀ d ∈ ds, d ∈ Q) (j : ℕ) :
    posteriorM edges (vs ++ ds) t j = posteriorM edges vs t j := by
  classical
  obtain ⟨hS, hdis, hdis2, hedge⟩ := hs
  have hvs : ∀ v ∈ vs, v ∈ mVars edges := fun v hv => by rw [hS]; simp [hv]
  have hPv : ∀ v ∈ P, v ∉ vs := fun v hv h => Finset.disjoint_left.1 hdis hv (by simp [h])
  have hPQ : ∀ v ∈ P, v ∉ Q := fun v hv h => Finset.disjoint_left.1 hdis hv (by simp [h])
  let F : (Str → ℕ) → ℚ := fun a => ∏ e ∈ edges.toFinset with ends e ⊆ P ∪ vs.toFinset, (factorAt e a : ℚ)
  let H : (Str → ℕ) → ℚ := fun a => ∏ e ∈ edges.toFinset with ¬ ends e ⊆ P ∪ vs.toFinset, (factorAt e a : ℚ)
  have hw : ∀ a, (weight edges a : ℚ) = F a * H a := by
    intro a
    unfold weight
    rw [Int.cast_prod, ← Finset.prod_filter_mul_prod_filter_not _ (fun e => ends e ⊆ P ∪ vs.toFinset)]
  have hF : ∀ a b : Str → ℕ, (∀ v ∈ P ∪ vs.toFinset, a v = b v) → F a = F b := fun a b h =>
    Finset.prod_congr rfl fun e he => by rw [factorAt_local fun v hv => h v ((Finset.mem_filter.1 he).2 hv)]
  have hH : ∀ a b : Str → ℕ, (∀ v ∈ Q ∪ vs.toFinset, a v = b v) → H a = H b := fun a b h =>
    Finset.prod_congr rfl fun e he => by
      obtain ⟨h1, h2⟩ := Finset.mem_filter.1 he
      rw [factorAt_local fun v hv => h v ((hedge e (List.mem_toFinset.1 h1)).resolve_left h2 hv)]
  have key : ∀ f g : (Str → ℕ) → ℚ, (∀ a b, (∀ v ∈ P, a v = b v) → f a = f b) → (∀ a b, (∀ v ∈ Q, a v = b v) → g a = g b) →
      ∑ a ∈ (assigns two (mVars edges)).filter (fun a => ∀ u ∈ vs, a u = 0), f a * g a * (weight edges a : ℚ) =
      (∑ a ∈ assigns (obsDom two vs) P, f a * F a) * ∑ b ∈ assigns (obsDom two vs) (Q ∪ vs.toFinset), g b * H b := by
    intro f g hf hg
    rw [← assigns_obsDom fun v hv => ⟨hvs v hv, by simp [two]⟩, hS, sum_assigns_union hdis, Finset.sum_mul_sum]
    refine Finset.sum_congr rfl fun a ha => Finset.sum_congr rfl fun b hb => ?_
    have eP : ∀ v ∈ P, (if v ∈ Q ∪ vs.toFinset then b v else a v) = a v := fun v hv => if_neg (Finset.disjoint_left.1 hdis hv)
    have eQ : ∀ v ∈ Q ∪ vs.toFinset, (if v ∈ Q ∪ vs.toFinset then b v else a v) = b v := fun v hv => if_pos hv
    have e0 : ∀ v ∈ vs.toFinset, (if v ∈ Q ∪ vs.toFinset then b v else a v) = a v := by
      intro v hv
      rw [if_pos (Finset.mem_union_right _ hv), mem_assigns_zero ha fun h => hPv v h (List.mem_toFinset.1 hv)]
      have := (mem_assigns.1 hb).1 v (Finset.mem_union_right _ hv)
      rw [obsDom, if_pos (List.mem_toFinset.1 hv), Finset.mem_singleton] at this
      exact this
    rw [hw, hf _ a eP, hg _ b fun v hv => eQ v (Finset.mem_union_left _ hv), hF _ a fun v hv => (Finset.mem_union.1 hv).elim (eP v) (e0 v), hH _ b eQ]
    ring
  let f : (Str → ℕ) → ℚ := fun a => if a t = j then 1 else 0
  let g : (Str → ℕ) → ℚ := fun a => if ∀ d ∈ ds, a d = 0 then 1 else 0
  have hf : ∀ a b : Str → ℕ, (∀ v ∈ P, a v = b v) → f a = f b := fun a b h => by simp only [f, h t ht]
  have hg : ∀ a b : Str → ℕ, (∀ v ∈ Q, a v = b v) → g a = g b := fun a b h => by
    have : (∀ d ∈ ds, a d = 0) ↔ ∀ d ∈ ds, b d = 0 := forall₂_congr fun d hd => by rw [h d (hds d hd)]
    simp only [g, this]
  have s1 : ∑ a ∈ assigns two (mVars edges) with (∀ u ∈ vs ++ ds, a u = 0) ∧ a t = j, (weight edges a : ℚ) =
      ∑ a ∈ (assigns two (mVars edges)).filter (fun a => ∀ u ∈ vs, a u = 0), f a * g a * (weight edges a : ℚ) := by
    rw [Finset.sum_filter, Finset.sum_filter]
    refine Finset.sum_congr rfl fun a _ => ?_
    have hiff : (∀ u ∈ vs ++ ds, a u = 0) ↔ (∀ u ∈ vs, a u = 0) ∧ ∀ u ∈ ds, a u = 0 := List.forall_mem_append
    simp only [f, g]
    by_cases x : ∀ u ∈ vs, a u = 0
    · by_cases y : ∀ d ∈ ds, a d = 0
      · rw [if_pos x, if_pos y]
        by_cases z : a t = j
        · rw [if_pos ⟨hiff.2 ⟨x, y⟩, z⟩, if_pos z]; ring
        · rw [if_neg fun h => z h.2, if_neg z]; ring
      · rw [if_pos x, if_neg y, if_neg fun h => y (hiff.1 h.1).2]; ring
    · rw [if_neg x, if_neg fun h => x (hiff.1 h.1).1]
  have s2 : ∑ a ∈ assigns two (mVars edges) with ∀ u ∈ vs ++ ds, a u = 0, (weight edges a : ℚ) =
      ∑ a ∈ (assigns two (mVars edges)).filter (fun a => ∀ u ∈ vs, a u = 0), 1 * g a * (weight edges a : ℚ) := by
    rw [Finset.sum_filter, Finset.sum_filter]
    refine Finset.sum_congr rfl fun a _ => ?_
    have hiff : (∀ u ∈ vs ++ ds, a u = 0) ↔ (∀ u ∈ vs, a u = 0) ∧ ∀ u ∈ ds, a u = 0 := List.forall_mem_append
    simp only [g]
    by_cases x : ∀ u ∈ vs, a u = 0
    · by_cases y : ∀ d ∈ ds, a d = 0
      · rw [if_pos x, if_pos y, if_pos (hiff.2 ⟨x, y⟩)]; ring
      · rw [if_pos x, if_neg y, if_neg fun h => y (hiff.1 h).2]; ring
    · rw [if_neg x, if_neg fun h => x (hiff.1 h).1]
  have s3 : ∑ a ∈ assigns two (mVars edges) with (∀ u ∈ vs, a u = 0) ∧ a t = j, (weight edges a : ℚ) =
      ∑ a ∈ (assigns two (mVars edges)).filter (fun a => ∀ u ∈ vs, a u = 0), f a * 1 * (weight edges a : ℚ) := by
    rw [Finset.sum_filter, Finset.sum_filter]
    refine Finset.sum_congr rfl fun a _ => ?_
    simp only [f]
    by_cases x : ∀ u ∈ vs, a u = 0 <;> by_cases z : a t = j <;> simp [x, z]
  have s4 : ∑ a ∈ assigns two (mVars edges) with ∀ u ∈ vs, a u = 0, (weight edges a : ℚ) =
      ∑ a ∈ (assigns two (mVars edges)).filter (fun a => ∀ u ∈ vs, a u = 0), 1 * 1 * (weight edges a : ℚ) := by
    simp
  have hpos : ∀ a, a ∈ assigns (obsDom two vs) (Q ∪ vs.toFinset) → 0 < H a := by
    intro a ha
    refine Finset.prod_pos fun e he => ?_
    obtain ⟨h1, h2⟩ := Finset.mem_filter.1 he
    have hsub := (hedge e (List.mem_toFinset.1 h1)).resolve_left h2
    have := factorAt_pos hN hp (List.mem_toFinset.1 h1) (a := a) fun v hv => inDom_obsTwo (mem_assigns.1 ha).1 v (hsub hv)
    exact_mod_cast this
  have hz : (fun _ => 0) ∈ assigns (obsDom two vs) (Q ∪ vs.toFinset) :=
    mem_assigns.2 ⟨fun v _ => by unfold obsDom; split <;> simp [two], fun _ _ => rfl⟩
  have n1 : (∑ b ∈ assigns (obsDom two vs) (Q ∪ vs.toFinset), g b * H b) ≠ 0 := by
    refine (Finset.sum_pos' (fun b hb => ?_) ⟨_, hz, ?_⟩).ne'
    · simp only [g]; split
      · rw [one_mul]; exact (hpos b hb).le
      · simp
    · simp only [g]; rw [if_pos (by simp), one_mul]; exact hpos _ hz
  have n2 : (∑ b ∈ assigns (obsDom two vs) (Q ∪ vs.toFinset), 1 * H b) ≠ 0 := by
    refine (Finset.sum_pos (fun b hb => ?_) ⟨_, hz⟩).ne'
    rw [one_mul]; exact hpos b hb
  unfold posteriorM
  rw [s1, s2, s3, s4, key f g hf hg, key (fun _ => 1) g (fun _ _ _ => rfl) hg, key f (fun _ => 1) hf (fun _ _ _ => rfl),
    key (fun _ => 1) (fun _ => 1) (fun _ _ _ => rfl) (fun _ _ _ => rfl), mul_div_mul_right _ _ n1, mul_div_mul_right _ _ n2]

/-- Marginals of a joined graph. -/
theorem whole_marginals {nodes : List Str} {edges : List MEdge} (hN : MNet nodes edges) (hp : PositiveNet edges) {prov : ℕ} {vs : List Str}
    (hvs : ∀ v ∈ vs, v ∈ mVars edges) {sp : Space Str Str Str} (hW : MWhole nodes edges prov (obsDom two vs) sp) (e : Env) :
    ∃ m, e.marginals sp = .ok m ∧ (∀ v, v ∈ m.keys ↔ v ∈ mVars edges) ∧
      ∀ v d, m.get? v = some d → ∀ x q, d.get? x = some q ↔ ∃ j ∈ obsDom two vs v, x = valName v j ∧ q = posteriorM edges vs v j := by
  obtain ⟨h1, -, hT⟩ := hW
  obtain ⟨m, e1, e2, e3⟩ := hT.marginals (fun a ha => weight_pos hN hp (inDom_obsTwo ha)) e.u e.o.items e.o.vars e.o.nodes
    (fun v hv => by
      rw [h1]
      exact (Dict.mem_keys _ _).2 ⟨_, (nodeValues_get nodes v _).2 ⟨mVars_nodes hN hv, rfl⟩⟩)
  refine ⟨m, e1, e2, fun v d hd x q => ?_⟩
  rw [e3 v d hd]
  refine exists_congr fun j => and_congr_right fun _ => and_congr_right fun _ => ?_
  rw [assigns_obsDom fun v hv => ⟨hvs v hv, by simp [two]⟩, Finset.filter_filter]
  rfl

/-- **C60.** `relation_graph_separation` succeeds on every network in which the observed variables separate, if the graphs can be joined. -/
theorem C60_graph_separation {nodes : List Str} {edges : List MEdge} (hN : MNet nodes edges) {prov : ℕ} {sp : Space Str Str Str}
    (hsp : makeRelationGraph prov nodes edges = .ok sp) {vs : List Str} {P Q : Finset Str} (hs : Separates edges vs P Q) {t d : Str} (ht : t ∈ P)
    (hd : d ∈ Q) (e : Env) :
    (∀ er, separation e vs d t sp = .error er → er = .assertion) ∧ (ChainOrCycle edges → separation e vs d t sp = .ok ()) := by
  obtain ⟨hp, hT⟩ := tabs_of_make hN hsp
  have hvs : ∀ v ∈ vs, v ∈ mVars edges := fun v hv => by rw [hs.1]; simp [hv]
  have hdv : d ∈ mVars edges := by rw [hs.1]; simp [hd]
  have htv : t ∈ mVars edges := by rw [hs.1]; simp [ht]
  have hT' : Tabs nodes edges prov (obsDom two []) sp := by rw [obsDom_nil]; exact hT
  obtain ⟨cs, c1, c2⟩ := conditions_ok hN hT.1 hT.2.1 e vs [] sp (fun v hv => mVars_nodes hN (hvs v hv)) hT'
  rw [List.nil_append] at c2
  obtain ⟨cs', k1, k2⟩ := condition_ok hN hT.1 hT.2.1 c2 (mVars_nodes hN hdv) (by unfold obsDom two; split <;> simp) e
  rw [obsDom_snoc] at k2
  obtain ⟨j1, j2, j3, -⟩ := tabs_join hN c2 e.o
  obtain ⟨l1, l2, l3, -⟩ := tabs_join hN k2 e.o
  have hvs' : ∀ v ∈ vs ++ [d], v ∈ mVars edges := by
    intro v hv
    rcases List.mem_append.1 hv with h | h
    · exact hvs v h
    · rw [List.mem_singleton.1 h]; exact hdv
  have ht1 : t ∉ vs := fun h => Finset.disjoint_left.1 hs.2.1 ht (by simp [h])
  have ht2 : t ∉ vs ++ [d] := by
    intro h
    rcases List.mem_append.1 h with h | h
    · exact ht1 h
    · rw [List.mem_singleton.1 h] at ht
      exact Finset.disjoint_left.1 hs.2.1 ht (by simp [hd])
  have hboth : ∀ s s', cs.makeJoined e.o = .ok s → cs'.makeJoined e.o = .ok s' → separation e vs d t sp = .ok () := by
    intro s s' h h'
    obtain ⟨m, m1, m2, m3⟩ := whole_marginals hN hp hvs (j2 s h) e
    obtain ⟨m', n1, n2, n3⟩ := whole_marginals hN hp hvs' (l2 s' h') e
    obtain ⟨x, hx⟩ := (Dict.mem_keys _ _).1 ((m2 t).2 htv)
    obtain ⟨y, hy⟩ := (Dict.mem_keys _ _).1 ((n2 t).2 htv)
    have hxy : ∀ k, x.get? k = y.get? k := by
      intro k
      refine Option.ext fun q => ?_
      rw [m3 t x hx, n3 t y hy, obsDom, obsDom, if_neg ht1, if_neg ht2]
      exact exists_congr fun j => and_congr_right fun _ => and_congr_right fun _ => by
        rw [C60_separation hN hp hs ht (ds := [d]) (by simpa using hd)]
    have hsame : sameAt m m' t = .ok true := by
      unfold sameAt
      rw [hx, hy]
      simp only
      congr 1
      rw [Bool.and_eq_true, decide_eq_true_eq, List.all_eq_true]
      refine ⟨?_, fun k _ => decide_eq_true (hxy k)⟩
      ext k
      simp only [List.mem_toFinset, Dict.mem_keys, hxy]
    unfold separation
    simp only [c1, h, k1, h', m1, n1, hsame, bind, Except.bind, pyAssert, if_true]
  constructor
  · intro er her
    unfold separation at her
    simp only [c1, bind, Except.bind] at her
    cases hj : cs.makeJoined e.o with
    | error x =>
      rw [hj] at her
      have : x = er := by cases her; rfl
      rw [← this]; exact j1 x hj
    | ok s =>
      cases hj' : cs'.makeJoined e.o with
      | error x =>
        rw [hj] at her
        simp only [k1, hj'] at her
        have : x = er := by cases her; rfl
        rw [← this]; exact l1 x hj'
      | ok s' =>
        have h := hboth s s' hj hj'
        unfold separation at h
        simp only [c1, bind, Except.bind] at h
        rw [her] at h
        cases h
  · intro hC
    obtain ⟨s, h⟩ := j3 hC
    obtain ⟨s', h'⟩ := l3 hC
    exact hboth s s' h h'

theorem factorMarginal_eq {nodes : List Str} {edges : List MEdge} (hN : MNet nodes edges) {vs : List Str} (hvs : ∀ v ∈ vs, v ∈ mVars edges)
    {vars : List Str} (hnd : vars.Nodup) (hvars : vars.toFinset = mVars edges) (t : Str) (j : ℕ) :
    factorMarginal vars (productFactor (edges.map (setZero vs))) t j = posteriorM edges vs t j := by
  classical
  have h1 := obs_sum hN vs hvs hnd hvars
  rw [assigns_obsDom fun v hv => ⟨hvs v hv, by simp [two]⟩] at h1
  unfold factorMarginal posteriorM
  rw [h1]
  congr 1
  have h2 : (((joinedValues vars.length).filter fun js => decide (kw vars js t = j)).map fun js => productFactor (edges.map (setZero vs)) (kw vars js)).sum =
      ((joinedValues vars.length).map fun js => if kw vars js t = j then productFactor (edges.map (setZero vs)) (kw vars js) else 0).sum := by
    induction joinedValues vars.length with
    | nil => rfl
    | cons x l ih => by_cases h : kw vars x t = j <;> simp [h, ih]
  rw [h2, sum_joined (fun a => if a t = j then productFactor (edges.map (setZero vs)) a else 0) vars hnd, hvars, Finset.sum_filter]
  refine Finset.sum_congr rfl fun a ha => ?_
  rw [product_setZero hN vs hvs (mem_assigns.1 ha).1]
  by_cases x : ∀ u ∈ vs, a u = 0 <;> by_cases y : a t = j <;> simp [x, y]

/-- **C60.** `markov_separation` succeeds on every network in which the observed variables separate. -/
theorem C60_markov_separation {nodes : List Str} {edges : List MEdge} (hN : MNet nodes edges) (hp : PositiveNet edges) {vars : List Str}
    (hnd : vars.Nodup) (hvars : vars.toFinset = mVars edges) {vs : List Str} {P Q : Finset Str} (hs : Separates edges vs P Q) {t d : Str} (ht : t ∈ P)
    (hd : d ∈ Q) : markovSeparation vars edges vs d t = .ok () := by
  have hvs : ∀ v ∈ vs, v ∈ mVars edges := fun v hv => by rw [hs.1]; simp [hv]
  have hvs' : ∀ v ∈ vs ++ [d], v ∈ mVars edges := by
    intro v hv
    rcases List.mem_append.1 hv with h | h
    · exact hvs v h
    · rw [List.mem_singleton.1 h, hs.1]; simp [hd]
  unfold markovSeparation pyAssert
  rw [if_pos]
  rw [List.all_eq_true]
  intro j _
  rw [decide_eq_true_eq, factorMarginal_eq hN hvs hnd hvars, factorMarginal_eq hN hvs' hnd hvars,
    C60_separation hN hp hs ht (ds := [d]) (by simpa using hd)]

/-! ### The network of the experiment -/

theorem example_net : MNet exampleNodes exampleEdges :=
  ⟨by decide, by decide, by decide, by decide, by decide, by decide⟩

theorem example_positive : PositiveNet exampleEdges := by unfold PositiveNet; decide

theorem example_cycle : ChainOrCycle exampleEdges := by
  refine ⟨fun w => ?_, ?_⟩
  · by_cases hw : w ∈ exampleNodes
    · revert w; decide
    · simp only [exampleNodes, List.mem_cons, List.not_mem_nil, or_false, not_or] at hw
      simp [exampleEdges, ends, hw, List.countP_cons]
  · intro P hP ⟨s, hs, hsP⟩
    have h1 := hP {['B'], ['A']} (by decide)
    have h2 := hP {['C'], ['B']} (by decide)
    have h3 := hP {['D'], ['C']} (by decide)
    have h4 := hP {['A'], ['D']} (by decide)
    simp only [Finset.insert_subset_iff, Finset.singleton_subset_iff, Finset.disjoint_insert_left, Finset.disjoint_singleton_left] at h1 h2 h3 h4
    have hall : ['A'] ∈ P ∧ ['B'] ∈ P ∧ ['C'] ∈ P ∧ ['D'] ∈ P := by
      simp only [exampleEdges, List.map_cons, List.map_nil, ends, List.mem_cons, List.not_mem_nil, or_false] at hs
      rcases hs with rfl | rfl | rfl | rfl <;> simp only [Finset.insert_subset_iff, Finset.singleton_subset_iff] at hsP <;> tauto
    intro s hs
    simp only [exampleEdges, List.map_cons, List.map_nil, ends, List.mem_cons, List.not_mem_nil, or_false] at hs
    rcases hs with rfl | rfl | rfl | rfl <;> simp only [Finset.insert_subset_iff, Finset.singleton_subset_iff] <;> tauto

/-- The joint distribution of the network of the experiment, computed by hand. -/
def exampleJoint : List (String × String × String × String × ℤ) := [
  ("A(0)", "B(0)", "C(0)", "D(0)", 300000), ("A(0)", "B(0)", "C(0)", "D(1)", 300000), ("A(0)", "B(0)", "C(1)", "D(0)", 300000), ("A(0)", "B(0)", "C(1)", "D(1)", 30),
  ("A(0)", "B(1)", "C(0)", "D(0)", 500), ("A(0)", "B(1)", "C(0)", "D(1)", 500), ("A(0)", "B(1)", "C(1)", "D(0)", 5000000), ("A(0)", "B(1)", "C(1)", "D(1)", 500),
  ("A(1)", "B(0)", "C(0)", "D(0)", 100), ("A(1)", "B(0)", "C(0)", "D(1)", 1000000), ("A(1)", "B(0)", "C(1)", "D(0)", 100), ("A(1)", "B(0)", "C(1)", "D(1)", 100),
  ("A(1)", "B(1)", "C(0)", "D(0)", 10), ("A(1)", "B(1)", "C(0)", "D(1)", 100000), ("A(1)", "B(1)", "C(1)", "D(0)", 100000), ("A(1)", "B(1)", "C(1)", "D(1)", 100000)]

/-- Four values in a cycle. -/
def fourCycle (a b c d : String) : SampleGraph Str Str Str :=
  let A : Node Str Str := ⟨['A'], a.toList⟩
  let B : Node Str Str := ⟨['B'], b.toList⟩
  let C : Node Str Str := ⟨['C'], c.toList⟩
  let D : Node Str Str := ⟨['D'], d.toList⟩
  ⟨{A, B, C, D}, {⟨{A, B}, .plain ['r']⟩, ⟨{B, C}, .plain ['r']⟩, ⟨{C, D}, .plain ['r']⟩, ⟨{D, A}, .plain ['r']⟩}⟩

/-- **C60.** The joined graph of the experiment has these sixteen outcomes, whatever the iteration orders. -/
theorem C60_experiment_joint (prov : ℕ) (o : Orders Str Str Str) : ∃ sp sp', makeRelationGraph prov exampleNodes exampleEdges = .ok sp ∧ sp.makeJoined o = .ok sp' ∧
    ∀ r ∈ exampleJoint, sp'.outcomes.samples.get? (fourCycle r.1 r.2.1 r.2.2.1 r.2.2.2.1) = some r.2.2.2.2 := by
  obtain ⟨sp, hsp, -⟩ := (C60_make_relation_graph example_net prov).2 example_positive
  obtain ⟨-, h1, h2, -⟩ := C60_joint example_net hsp o
  obtain ⟨sp', hj⟩ := h2 example_cycle
  refine ⟨sp, sp', hsp, hj, fun r hr => (h1 sp' hj _ _).2 ?_⟩
  have h3 : ∃ a ∈ assigns two (mVars exampleEdges), fourCycle r.1 r.2.1 r.2.2.1 r.2.2.2.1 = mGraph exampleEdges a ∧ r.2.2.2.2 = weight exampleEdges a := by
    clear h1 h2 hj
    revert r
    decide +kernel
  obtain ⟨a, ha, e1, e2⟩ := h3
  exact ⟨a, (mem_assigns.1 ha).1, e1, e2⟩

/-- **C60.** All four comparisons of the experiment succeed on its network, whatever the iteration orders. -/
theorem C60_experiment (prov : ℕ) (e : Env) : ∃ sp, makeRelationGraph prov exampleNodes exampleEdges = .ok sp ∧
    comparingJoint e exampleNodes exampleEdges sp = .ok () ∧ comparingInference e exampleNodes exampleEdges ['A'] sp = .ok () ∧
    markovSeparation exampleNodes exampleEdges [['A'], ['C']] ['D'] ['B'] = .ok () ∧ separation e [['A'], ['C']] ['D'] ['B'] sp = .ok () := by
  obtain ⟨sp, hsp, -⟩ := (C60_make_relation_graph example_net prov).2 example_positive
  have hnd : exampleNodes.Nodup := by decide
  have hvars : exampleNodes.toFinset = mVars exampleEdges := by decide
  have hsep : Separates exampleEdges [['A'], ['C']] {['B']} {['D']} := by unfold Separates; decide
  obtain ⟨sp', hj⟩ := (C60_joint example_net hsp e.o).2.2.1 example_cycle
  refine ⟨sp, hsp, (C60_comparing_joint example_net hsp hnd hvars e).2 sp' hj, ?_, ?_, ?_⟩
  · obtain ⟨cs, -, -, -, h⟩ := C60_comparing_inference example_net hsp hnd hvars (v := ['A']) (by decide) e
    exact h example_cycle
  · exact C60_markov_separation example_net example_positive hnd hvars hsep (by simp) (by simp)
  · exact (C60_graph_separation example_net hsp hsep (by simp) (by simp) e).2 example_cycle

/-- The tuples of the experiment. -/
example : joinedValues 4 = [[0, 0, 0, 0], [0, 0, 0, 1], [0, 0, 1, 0], [0, 0, 1, 1], [0, 1, 0, 0], [0, 1, 0, 1], [0, 1, 1, 0], [0, 1, 1, 1],
    [1, 0, 0, 0], [1, 0, 0, 1], [1, 0, 1, 0], [1, 0, 1, 1], [1, 1, 0, 0], [1, 1, 0, 1], [1, 1, 1, 0], [1, 1, 1, 1]] := by decide

/-- A value zero: the graph is not made. -/
example (prov : ℕ) : makeRelationGraph prov [['A'], ['B']] [((['A'], ['B']), [1, 0, 2, 3])] = .error .assertion :=
  (C60_make_relation_graph ⟨by decide, by decide, by decide, by decide, by decide, by decide⟩ prov).1 (by unfold PositiveNet; decide)

/-- Two separate edges: the graph is made but not joined. -/
example (prov : ℕ) (o : Orders Str Str Str) : ∃ sp, makeRelationGraph prov exampleNodes [((['A'], ['B']), [1, 1, 2, 3]), ((['C'], ['D']), [1, 1, 2, 3])] = .ok sp ∧
    sp.makeJoined o = .error .assertion := by
  have hN : MNet exampleNodes [((['A'], ['B']), [1, 1, 2, 3]), ((['C'], ['D']), [1, 1, 2, 3])] :=
    ⟨by decide, by decide, by decide, by decide, by decide, by decide⟩
  obtain ⟨sp, hsp, -⟩ := (C60_make_relation_graph hN prov).2 (by unfold PositiveNet; decide)
  exact ⟨sp, hsp, C60_disconnected hN hsp o {['A'], ['B']} (by decide) (by decide) (by decide)⟩

end Verif.Markov
