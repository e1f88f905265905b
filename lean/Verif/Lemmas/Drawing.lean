import Verif.Model.Drawing
import Verif.Lemmas.Provider
import Verif.Lemmas.Builder
import Verif.Lemmas.SampleSet

/-!
# Facts about networks that are filled call by call
-/

namespace Verif

/-- The set of the two ends of a drawn edge. -/
def DrawnEdge.ends {I : Type} [DecidableEq I] (e : DrawnEdge I) : Finset I := {e.src, e.dst}

section
variable {I : Type} [DecidableEq I]

theorem ends_eq_iff (a b : DrawnEdge I) : a.ends = b.ends ↔
    (a.src = b.dst ∧ a.dst = b.src) ∨ (a.src = b.src ∧ a.dst = b.dst) := by
  unfold DrawnEdge.ends
  constructor
  · intro h
    have h' : ({a.src, a.dst} : Set I) = {b.src, b.dst} := by
      have := congrArg (fun s : Finset I => (s : Set I)) h
      simpa using this
    rcases Set.pair_eq_pair_iff.1 h' with h | h
    · exact Or.inr h
    · exact Or.inl h
  · rintro (⟨h1, h2⟩ | ⟨h1, h2⟩)
    · rw [h1, h2, Finset.pair_comm]
    · rw [h1, h2]

/-- `net` is what remains of the calls `N` for nodes and `E` for edges. -/
structure Drawn (net : Net I) (N : List (DrawnNode I)) (E : List (DrawnEdge I)) : Prop where
  nodup : net.ids.Nodup
  ids : ∀ i, i ∈ net.ids ↔ ∃ n ∈ N, n.id = i
  nodes : net.nodes.Sublist N
  pairs : (net.edges.map DrawnEdge.ends).Nodup
  all : ∀ P, (∃ e ∈ net.edges, e.ends = P) ↔ ∃ e ∈ E, e.ends = P
  edges : net.edges.Sublist E

theorem Drawn.empty : Drawn (Net.empty : Net I) [] [] := by
  constructor <;> simp [Net.empty, Net.ids]

theorem Drawn.addNode {net : Net I} {N : List (DrawnNode I)} {E : List (DrawnEdge I)} (h : Drawn net N E) (n : DrawnNode I) :
    Drawn (net.addNode n) (N ++ [n]) E := by
  unfold Net.addNode
  split
  · rename_i hn
    refine ⟨h.nodup, fun i => ?_, h.nodes.trans (List.sublist_append_left _ _), h.pairs, h.all, h.edges⟩
    rw [h.ids]
    constructor
    · rintro ⟨m, hm, rfl⟩; exact ⟨m, by simp [hm], rfl⟩
    · rintro ⟨m, hm, rfl⟩
      rcases List.mem_append.1 hm with hm | hm
      · exact ⟨m, hm, rfl⟩
      · rw [List.mem_singleton.1 hm]; exact (h.ids _).1 hn
  · rename_i hn
    refine ⟨?_, fun i => ?_, h.nodes.append (List.Sublist.refl _), h.pairs, h.all, h.edges⟩
    · change ((net.nodes ++ [n]).map DrawnNode.id).Nodup
      rw [List.map_append, List.nodup_append']
      exact ⟨h.nodup, by simp, by simpa [List.disjoint_right, Net.ids] using hn⟩
    · change i ∈ (net.nodes ++ [n]).map DrawnNode.id ↔ _
      rw [List.map_append, List.mem_append]
      have := h.ids i
      rw [show net.nodes.map DrawnNode.id = net.ids from rfl, this]
      simp only [List.map_cons, List.map_nil, List.mem_singleton, List.mem_append]
      constructor
      · rintro (⟨m, hm, rfl⟩ | rfl)
        · exact ⟨m, Or.inl hm, rfl⟩
        · exact ⟨n, Or.inr rfl, rfl⟩
      · rintro ⟨m, hm | rfl, rfl⟩
        · exact Or.inl ⟨m, hm, rfl⟩
        · exact Or.inr rfl

theorem Drawn.addEdge {net : Net I} {N : List (DrawnNode I)} {E : List (DrawnEdge I)} (h : Drawn net N E) (e : DrawnEdge I)
    (h1 : ∃ n ∈ N, n.id = e.src) (h2 : ∃ n ∈ N, n.id = e.dst) : ∃ net', net.addEdge e = .ok net' ∧ Drawn net' N (E ++ [e]) := by
  unfold Net.addEdge
  rw [if_neg (by rw [not_or, not_not, not_not]; exact ⟨(h.ids _).2 h1, (h.ids _).2 h2⟩)]
  have key : (∃ d ∈ net.edges, (e.src = d.dst ∧ e.dst = d.src) ∨ (e.src = d.src ∧ e.dst = d.dst)) ↔
      e.ends ∈ net.edges.map DrawnEdge.ends := by
    simp only [List.mem_map, ← ends_eq_iff]
    exact exists_congr fun d => and_congr_right fun _ => eq_comm
  split
  · rename_i hd
    rw [key] at hd
    refine ⟨net, rfl, h.nodup, h.ids, h.nodes, h.pairs, fun P => ?_, h.edges.trans (List.sublist_append_left _ _)⟩
    rw [h.all]
    constructor
    · rintro ⟨d, hd, rfl⟩; exact ⟨d, by simp [hd], rfl⟩
    · rintro ⟨d, hd', rfl⟩
      rcases List.mem_append.1 hd' with hd' | hd'
      · exact ⟨d, hd', rfl⟩
      · rw [List.mem_singleton.1 hd', ← h.all]
        simpa using hd
  · rename_i hd
    rw [key] at hd
    refine ⟨_, rfl, h.nodup, h.ids, h.nodes, ?_, fun P => ?_, h.edges.append (List.Sublist.refl _)⟩
    · change ((net.edges ++ [e]).map DrawnEdge.ends).Nodup
      rw [List.map_append, List.nodup_append']
      exact ⟨h.pairs, by simp, by simpa [List.disjoint_right] using hd⟩
    · change (∃ d ∈ net.edges ++ [e], d.ends = P) ↔ _
      have := h.all P
      simp only [List.mem_append, List.mem_singleton, or_and_right, exists_or, exists_eq_left]
      rw [this]

theorem run_append (net : Net I) (a b : List (DrawOp I)) : net.run (a ++ b) = (net.run a >>= fun n => n.run b) := by
  unfold Net.run; exact List.foldlM_append

theorem Drawn.runNodes (ns : List (DrawnNode I)) : ∀ {net : Net I} {N : List (DrawnNode I)} {E : List (DrawnEdge I)},
    Drawn net N E → ∃ net', net.run (ns.map .node) = .ok net' ∧ Drawn net' (N ++ ns) E := by
  induction ns with
  | nil => intro net N E h; exact ⟨net, rfl, by simpa using h⟩
  | cons n t ih =>
    intro net N E h
    obtain ⟨net', h1, h2⟩ := ih (h.addNode n)
    exact ⟨net', h1, by simpa using h2⟩

theorem Drawn.runEdges (es : List (DrawnEdge I)) : ∀ {net : Net I} {N : List (DrawnNode I)} {E : List (DrawnEdge I)},
    Drawn net N E → (∀ e ∈ es, (∃ n ∈ N, n.id = e.src) ∧ ∃ n ∈ N, n.id = e.dst) →
    ∃ net', net.run (es.map .edge) = .ok net' ∧ Drawn net' N (E ++ es) := by
  induction es with
  | nil => intro net N E h _; exact ⟨net, rfl, by simpa using h⟩
  | cons e t ih =>
    intro net N E h he
    obtain ⟨net1, h1, h2⟩ := h.addEdge e (he e (by simp)).1 (he e (by simp)).2
    obtain ⟨net', h3, h4⟩ := ih h2 (fun e' h' => he e' (by simp [h']))
    refine ⟨net', ?_, by simpa using h4⟩
    unfold Net.run at h3 ⊢
    rw [List.map_cons, List.foldlM_cons]
    change (net.addEdge e >>= _) = _
    rw [h1]; exact h3

theorem Drawn.runBoth {net : Net I} {N : List (DrawnNode I)} {E : List (DrawnEdge I)} (h : Drawn net N E)
    (ns : List (DrawnNode I)) (es : List (DrawnEdge I))
    (he : ∀ e ∈ es, (∃ n ∈ N ++ ns, n.id = e.src) ∧ ∃ n ∈ N ++ ns, n.id = e.dst) :
    ∃ net', net.run (ns.map .node ++ es.map .edge) = .ok net' ∧ Drawn net' (N ++ ns) (E ++ es) := by
  obtain ⟨net1, h1, h2⟩ := h.runNodes ns
  obtain ⟨net', h3, h4⟩ := h2.runEdges es he
  refine ⟨net', ?_, h4⟩
  rw [run_append, h1]; exact h3

theorem Drawn.length_nodes {net : Net I} {N : List (DrawnNode I)} {E : List (DrawnEdge I)} (h : Drawn net N E) :
    net.nodes.length = (N.map DrawnNode.id).toFinset.card := by
  rw [show net.nodes.length = net.ids.length from (List.length_map _).symm, ← List.toFinset_card_of_nodup h.nodup]
  congr 1
  ext i
  simp [h.ids]

theorem Drawn.length_edges {net : Net I} {N : List (DrawnNode I)} {E : List (DrawnEdge I)} (h : Drawn net N E) :
    net.edges.length = (E.map DrawnEdge.ends).toFinset.card := by
  rw [show net.edges.length = (net.edges.map DrawnEdge.ends).length from (List.length_map _).symm,
    ← List.toFinset_card_of_nodup h.pairs]
  congr 1
  ext P
  simpa using h.all P

theorem Drawn.nodes_eq {net : Net I} {N : List (DrawnNode I)} {E : List (DrawnEdge I)} (h : Drawn net N E)
    (hn : (N.map DrawnNode.id).Nodup) : net.nodes = N := by
  apply h.nodes.eq_of_length
  rw [h.length_nodes, List.toFinset_card_of_nodup hn, List.length_map]

theorem Drawn.edges_eq {net : Net I} {N : List (DrawnNode I)} {E : List (DrawnEdge I)} (h : Drawn net N E)
    (hn : (E.map DrawnEdge.ends).Nodup) : net.edges = E := by
  apply h.edges.eq_of_length
  rw [h.length_edges, List.toFinset_card_of_nodup hn, List.length_map]

end

section
variable {V X R : Type} [DecidableEq V] [DecidableEq X] [DecidableEq R]

/-- The two endpoints of an edge in the order `oA`. -/
theorem good_ab (oA : Order (Node V X)) {e : Edge V X R} (h : GoodEdge e) :
    ∃ a b, e.ab oA = .ok (a, b) ∧ e.endpoints = {a, b} ∧ a ≠ b := by
  have hc := h.card
  unfold Edge.ab
  have hl := oA.length_run e.endpoints
  have hm := oA.toFinset_run e.endpoints
  have hn := oA.nodup e.endpoints
  rw [hc] at hl
  match hr : oA.run e.endpoints, hl with
  | [a, b], _ =>
    rw [hr] at hm hn
    exact ⟨a, b, rfl, by rw [← hm]; simp, by simpa using hn⟩

/-- The drawn form of the edge `e`, joining the identifiers `key a`, `key b` of its endpoints. -/
def Depicts (t : Texts V X R) (key : Node V X → Str) (color : Option Str) (e : Edge V X R) (d : DrawnEdge Str) : Prop :=
  ∃ a b, e.endpoints = {a, b} ∧ d = ⟨key a, key b, e.relation.repr t, color⟩

/-- The drawn edge for `e` with endpoints listed by `oA`. -/
def relEdge (t : Texts V X R) (oA : Order (Node V X)) (suffix : Str) (color : Option Str) (e : Edge V X R) : DrawnEdge Str :=
  match e.ab oA with
  | .ok (a, b) => ⟨a.stringId t ++ suffix, b.stringId t ++ suffix, e.relation.repr t, color⟩
  | .error _ => ⟨[], [], [], none⟩

theorem relEdge_depicts (t : Texts V X R) (oA : Order (Node V X)) (suffix : Str) (color : Option Str) {e : Edge V X R}
    (h : GoodEdge e) : Depicts t (fun n => n.stringId t ++ suffix) color e (relEdge t oA suffix color e) := by
  obtain ⟨a, b, h1, h2, -⟩ := good_ab oA h
  exact ⟨a, b, h2, by simp only [relEdge, h1]⟩

/-- The calls for a list of edges. -/
theorem drawRelations (t : Texts V X R) (oA : Order (Node V X)) (suffix : Str) (color : Option Str) (es : List (Edge V X R))
    (h : ∀ e ∈ es, GoodEdge e) :
    es.mapM (drawRelation t oA suffix color) = .ok ((es.map (relEdge t oA suffix color)).map .edge) := by
  rw [List.map_map]
  apply mapM_ok
  intro e he
  obtain ⟨a, b, h1, -, -⟩ := good_ab oA (h e he)
  simp only [drawRelation, h1, relEdge, Function.comp]

theorem Depicts.ends {t : Texts V X R} {key : Node V X → Str} {color : Option Str} {e : Edge V X R} {d : DrawnEdge Str}
    (h : Depicts t key color e d) : d.ends = e.endpoints.image key := by
  obtain ⟨a, b, h1, rfl⟩ := h
  rw [h1]; simp [DrawnEdge.ends, Finset.image_insert]

/-- The nodes drawn for an outcome. -/
def outNodes (t : Texts V X R) (nm : SampleGraph V X R → Str) (oN : Order (Node V X)) (p : (SampleGraph V X R × ℤ) × ℕ) :
    List (DrawnNode Str) :=
  match oN.run p.1.1.nodes with
  | [] => []
  | h :: rest => ⟨h.stringId t ++ natStr p.2, h.stringId t ++ '@' :: nm p.1.1 ++ '(' :: intStr p.1.2 ++ [')'], none⟩ ::
      rest.map fun n => ⟨n.stringId t ++ natStr p.2, n.stringId t, none⟩

/-- The edges drawn for an outcome. -/
def outEdges (t : Texts V X R) (oA : Order (Node V X)) (oE : Order (Edge V X R)) (p : (SampleGraph V X R × ℤ) × ℕ) :
    List (DrawnEdge Str) := (oE.run p.1.1.edges).map (relEdge t oA (natStr p.2) none)

theorem outNodes_ids (t : Texts V X R) (nm : SampleGraph V X R → Str) (oN : Order (Node V X)) (p : (SampleGraph V X R × ℤ) × ℕ) :
    (outNodes t nm oN p).map DrawnNode.id = (oN.run p.1.1.nodes).map fun n => n.stringId t ++ natStr p.2 := by
  unfold outNodes
  split
  · rename_i h; rw [h]; rfl
  · rename_i h; rw [h]; simp

theorem outcomeOps_ok (t : Texts V X R) (nm : SampleGraph V X R → Str) (oN oA : Order (Node V X)) (oE : Order (Edge V X R))
    (p : (SampleGraph V X R × ℤ) × ℕ) (hne : p.1.1.nodes ≠ ∅) (hg : ∀ e ∈ p.1.1.edges, GoodEdge e) :
    outcomeOps t nm oN oA oE p = .ok ((outNodes t nm oN p).map .node ++ (outEdges t oA oE p).map .edge) := by
  unfold outcomeOps outNodes
  split
  · rename_i h; rw [Order.run_eq_nil] at h; exact absurd h hne
  · rename_i h
    rw [drawRelations t oA (natStr p.2) none _ (fun e he => hg e ((oE.mem _ _).1 he)), h]
    simp [outEdges, Function.comp_def, pure, Except.pure, bind, Except.bind]

theorem outcomeOps_error (t : Texts V X R) (nm : SampleGraph V X R → Str) (oN oA : Order (Node V X)) (oE : Order (Edge V X R))
    (p : (SampleGraph V X R × ℤ) × ℕ) (hne : p.1.1.nodes = ∅) : outcomeOps t nm oN oA oE p = .error .indexError := by
  unfold outcomeOps
  rw [hne, Order.run_empty]

/-- The ends of the edges of an outcome are among its nodes. -/
theorem outEdges_ends (t : Texts V X R) (nm : SampleGraph V X R → Str) (oN oA : Order (Node V X)) (oE : Order (Edge V X R))
    (p : (SampleGraph V X R × ℤ) × ℕ) (hg : ∀ e ∈ p.1.1.edges, GoodEdge e) (hc : ∀ e ∈ p.1.1.edges, e.endpoints ⊆ p.1.1.nodes)
    (d : DrawnEdge Str) (hd : d ∈ outEdges t oA oE p) :
    (∃ n ∈ outNodes t nm oN p, n.id = d.src) ∧ ∃ n ∈ outNodes t nm oN p, n.id = d.dst := by
  obtain ⟨e, he, rfl⟩ := List.mem_map.1 hd
  have he' := (oE.mem _ _).1 he
  obtain ⟨a, b, hab, hd'⟩ := relEdge_depicts t oA (natStr p.2) none (hg e he')
  have hcl := hc e he'
  rw [hab] at hcl
  have hmem : ∀ n ∈ p.1.1.nodes, ∃ m ∈ outNodes t nm oN p, m.id = n.stringId t ++ natStr p.2 := by
    intro n hn
    have : n.stringId t ++ natStr p.2 ∈ (outNodes t nm oN p).map DrawnNode.id := by
      rw [outNodes_ids]
      exact List.mem_map.2 ⟨n, (oN.mem _ _).2 hn, rfl⟩
    exact List.mem_map.1 this
  rw [hd']
  exact ⟨hmem a (hcl (by simp)), hmem b (hcl (by simp))⟩

/-- The loop over the outcomes. -/
theorem Drawn.outcomes (t : Texts V X R) (nm : SampleGraph V X R → Str) (oN oA : Order (Node V X)) (oE : Order (Edge V X R))
    (l : List ((SampleGraph V X R × ℤ) × ℕ)) (hg : ∀ p ∈ l, ∀ e ∈ p.1.1.edges, GoodEdge e)
    (hc : ∀ p ∈ l, ∀ e ∈ p.1.1.edges, e.endpoints ⊆ p.1.1.nodes) :
    ∀ {net : Net Str} {N : List (DrawnNode Str)} {E : List (DrawnEdge Str)}, Drawn net N E →
    ((∀ p ∈ l, p.1.1.nodes ≠ ∅) → ∃ net', l.foldlM (fun net p => do net.run (← outcomeOps t nm oN oA oE p)) net = .ok net' ∧
      Drawn net' (N ++ l.flatMap (outNodes t nm oN)) (E ++ l.flatMap (outEdges t oA oE))) ∧
    ((∃ p ∈ l, p.1.1.nodes = ∅) → l.foldlM (fun net p => do net.run (← outcomeOps t nm oN oA oE p)) net = .error .indexError) := by
  induction l with
  | nil => intro net N E h; exact ⟨fun _ => ⟨net, rfl, by simpa using h⟩, by simp⟩
  | cons p l ih =>
    intro net N E h
    have ih' := @ih (fun q hq => hg q (by simp [hq])) (fun q hq => hc q (by simp [hq]))
    by_cases hp : p.1.1.nodes = ∅
    · refine ⟨fun hne => absurd hp (hne p (by simp)), fun _ => ?_⟩
      rw [List.foldlM_cons, outcomeOps_error t nm oN oA oE p hp]
      rfl
    · obtain ⟨net1, h1, h2⟩ := h.runBoth (outNodes t nm oN p) (outEdges t oA oE p) (by
        intro d hd
        obtain ⟨⟨n, hn, e1⟩, ⟨m, hm, e2⟩⟩ := outEdges_ends t nm oN oA oE p (hg p (by simp)) (hc p (by simp)) d hd
        exact ⟨⟨n, by simp [hn], e1⟩, ⟨m, by simp [hm], e2⟩⟩)
      have hstep : (do net.run (← outcomeOps t nm oN oA oE p)) = (.ok net1 : Py (Net Str)) := by
        rw [outcomeOps_ok t nm oN oA oE p hp (hg p (by simp))]; exact h1
      rw [List.foldlM_cons, hstep]
      obtain ⟨i1, i2⟩ := ih' h2
      refine ⟨fun hne => ?_, fun hex => ?_⟩
      · obtain ⟨net', h3, h4⟩ := i1 (fun q hq => hne q (by simp [hq]))
        exact ⟨net', h3, by simpa [List.flatMap_cons, List.append_assoc] using h4⟩
      · obtain ⟨q, hq, he⟩ := hex
        rcases List.mem_cons.1 hq with rfl | hq
        · exact absurd he hp
        · exact i2 ⟨q, hq, he⟩

/-- The nodes drawn for the evidence. -/
def evNodes (t : Texts V X R) (oN : Order (Node V X)) : Option (Sample V X R) → List (DrawnNode Str)
  | none => []
  | some ev => (oN.run ev.graph.nodes).map fun n => ⟨n.stringId t ++ querySuffix, n.stringId t, some red⟩

/-- The edges drawn for the evidence. -/
def evEdges (t : Texts V X R) (oA : Order (Node V X)) (oE : Order (Edge V X R)) : Option (Sample V X R) → List (DrawnEdge Str)
  | none => []
  | some ev => (oE.run ev.graph.edges).map (relEdge t oA querySuffix (some red))

theorem Drawn.evidence (t : Texts V X R) (oN oA : Order (Node V X)) (oE : Order (Edge V X R)) (ev : Option (Sample V X R))
    (hg : ∀ s ∈ ev, ∀ e ∈ s.graph.edges, GoodEdge e) (hc : ∀ s ∈ ev, ∀ e ∈ s.graph.edges, e.endpoints ⊆ s.graph.nodes)
    {net : Net Str} {N : List (DrawnNode Str)} {E : List (DrawnEdge Str)} (h : Drawn net N E) :
    ∃ net', (do net.run (← evidenceOps t oN oA oE ev)) = (.ok net' : Py (Net Str)) ∧
      Drawn net' (N ++ evNodes t oN ev) (E ++ evEdges t oA oE ev) := by
  cases ev with
  | none => exact ⟨net, rfl, by simpa [evNodes, evEdges] using h⟩
  | some s =>
    have hg := hg s rfl
    have hc := hc s rfl
    obtain ⟨net1, h1, h2⟩ := h.runBoth (evNodes t oN (some s)) (evEdges t oA oE (some s)) (by
      intro d hd
      obtain ⟨e, he, rfl⟩ := List.mem_map.1 hd
      have he' := (oE.mem _ _).1 he
      obtain ⟨a, b, hab, hd'⟩ := relEdge_depicts t oA querySuffix (some red) (hg e he')
      have hcl := hc e he'
      rw [hab] at hcl
      rw [hd']
      simp only [evNodes, List.mem_append, List.mem_map, oN.mem]
      exact ⟨⟨_, Or.inr ⟨a, hcl (by simp), rfl⟩, rfl⟩, ⟨_, Or.inr ⟨b, hcl (by simp), rfl⟩, rfl⟩⟩)
    refine ⟨net1, ?_, h2⟩
    unfold evidenceOps
    simp only
    rw [drawRelations t oA querySuffix (some red) _ (fun e he => hg e ((oE.mem _ _).1 he))]
    rw [← h1]
    simp [evNodes, evEdges, Function.comp_def, pure, Except.pure, bind, Except.bind]

end
end Verif
