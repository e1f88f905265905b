import Verif.Props.Builder

/-!
# C10, C11 – sample graphs and their simple views
-/

set_option linter.unusedSectionVars false

namespace Verif
open Relation

variable {V X R : Type} [DecidableEq V] [DecidableEq X] [DecidableEq R]

/-- The graph described by a set of user edges: an edge for each, and all mentioned nodes. -/
def graphOf (E : Finset (RawEdge V X R)) : SampleGraph V X R :=
  ⟨E.biUnion fun e => toNodes e.1, E.image fun e => ⟨toNodes e.1, e.2⟩⟩

/-- The mentioned nodes are connected by the user edges. -/
def RawConnected (E : Finset (RawEdge V X R)) : Prop := ConnectedBy Prod.fst E {n | ∃ e ∈ E, n ∈ e.1}

theorem linked_graphOf (E : Finset (RawEdge V X R)) (a b : Node V X) :
    Linked Edge.endpoints (graphOf E).edges a b ↔ Linked Prod.fst E (a.var, a.val) (b.var, b.val) := by
  unfold Linked graphOf
  constructor
  · rintro ⟨e, he, h1, h2⟩
    obtain ⟨r, hr, rfl⟩ := Finset.mem_image.1 he
    exact ⟨r, hr, (mem_toNodes _ _).1 h1, (mem_toNodes _ _).1 h2⟩
  · rintro ⟨r, hr, h1, h2⟩
    exact ⟨_, Finset.mem_image_of_mem _ hr, (mem_toNodes _ _).2 h1, (mem_toNodes _ _).2 h2⟩

theorem rawConnected_iff (E : Finset (RawEdge V X R)) :
    RawConnected E ↔ ConnectedBy Edge.endpoints (graphOf E).edges ((graphOf E).nodes : Set (Node V X)) := by
  have hmem : ∀ n : Node V X, n ∈ (graphOf E).nodes ↔ ∃ e ∈ E, (n.var, n.val) ∈ e.1 := by
    intro n; simp [graphOf, mem_toNodes]
  constructor
  · intro h a ha b hb
    have := h _ ((hmem a).1 ha) _ ((hmem b).1 hb)
    have lift : ∀ p q, ReflTransGen (Linked (Prod.fst : RawEdge V X R → _) E) p q →
        ReflTransGen (Linked Edge.endpoints (graphOf E).edges) ⟨p.1, p.2⟩ ⟨q.1, q.2⟩ := by
      intro p q hpq
      induction hpq with
      | refl => exact .refl
      | tail _ hl ih => exact ih.tail ((linked_graphOf E _ _).2 hl)
    exact lift _ _ this
  · intro h p hp q hq
    have := h ⟨p.1, p.2⟩ ((hmem _).2 hp) ⟨q.1, q.2⟩ ((hmem _).2 hq)
    have lift : ∀ a b, ReflTransGen (Linked Edge.endpoints (graphOf E).edges) a b →
        ReflTransGen (Linked (Prod.fst : RawEdge V X R → _) E) (a.var, a.val) (b.var, b.val) := by
      intro a b hab
      induction hab with
      | refl => exact .refl
      | tail _ hl ih => exact ih.tail ((linked_graphOf E _ _).1 hl)
    exact lift _ _ this

/-- C10, acceptance: `build_from_edges` on a fresh builder returns exactly for non-empty sets of declared two-variable
edges which (if validation is on) are connected; the sample then has exactly these edges and the mentioned nodes. For
every iteration order. -/
theorem C10_build_from_edges (s : Schema V X R) (oE : Order (RawEdge V X R)) (oN : Order (V × X)) (prov : Nat)
    (E : Finset (RawEdge V X R)) (validate : Bool) :
    (∀ smp, ((Builder.new prov).buildFromEdges s oE oN E validate).2 = .ok smp ↔
      E.Nonempty ∧ (∀ e ∈ E, TwoVars e.1 ∧ RawDeclared s e.1 e.2) ∧ (validate = true → RawConnected E) ∧
      smp = ⟨prov, graphOf E⟩) ∧
    (∀ er, ((Builder.new prov).buildFromEdges s oE oN E validate).2 = .error er →
      er = .assertion ∨ (er = .stopIteration ∧ E = ∅ ∧ validate = true)) := by
  -- the part after validation
  have hgo : (∀ e ∈ E, TwoVars e.1 ∧ RawDeclared s e.1 e.2) → E.Nonempty →
      ((Builder.new prov).buildFromEdges s oE oN E false).2 = .ok ⟨prov, graphOf E⟩ := by
    intro hall hne
    obtain ⟨b', h1, h2, h3, h4⟩ := Builder.addRawEdges_ok s (oE.run E) (fun e he => hall e ((oE.mem _ _).1 he))
      (Builder.new prov)
    rw [oE.toFinset_run] at h3 h4
    simp only [Builder.new, Finset.empty_union] at h3 h4
    unfold Builder.buildFromEdges
    simp only [h1]
    simp only [Builder.build, Bool.false_eq_true, if_false]
    rw [if_neg]
    · rw [h2, h3, h4]; rfl
    · rw [h4]
      obtain ⟨e, he⟩ := hne
      obtain ⟨n, hn⟩ := (goodEdge_of_twoVars (hall e he).1 e.2).nonempty
      intro h0
      have : n ∈ E.biUnion fun e => toNodes e.1 := Finset.mem_biUnion.2 ⟨e, he, hn⟩
      rw [h0] at this; simp at this
  have hbad : (∃ e ∈ E, ¬ (TwoVars e.1 ∧ RawDeclared s e.1 e.2)) →
      ((Builder.new prov).buildFromEdges s oE oN E false).2 = .error .assertion := by
    rintro ⟨e, he, hn⟩
    have := Builder.addRawEdges_error s (oE.run E) ⟨e, (oE.mem _ _).2 he, hn⟩ (Builder.new prov)
    unfold Builder.buildFromEdges
    match hr : Builder.addRawEdges s (oE.run E) (Builder.new prov) with
    | (b', some er) => rw [hr] at this; simp only [Option.some.injEq] at this; subst this; simp
    | (b', none) => rw [hr] at this; simp at this
  have hempty : E = ∅ → ((Builder.new prov).buildFromEdges s oE oN E false).2 = .error .assertion := by
    rintro rfl
    simp [Builder.buildFromEdges, Builder.addRawEdges, Builder.build, Builder.new]
  have hfalse : (∀ smp, ((Builder.new prov).buildFromEdges s oE oN E false).2 = .ok smp ↔
      E.Nonempty ∧ (∀ e ∈ E, TwoVars e.1 ∧ RawDeclared s e.1 e.2) ∧ smp = ⟨prov, graphOf E⟩) ∧
      (∀ er, ((Builder.new prov).buildFromEdges s oE oN E false).2 = .error er → er = .assertion) := by
    by_cases hne : E.Nonempty
    · by_cases hall : ∀ e ∈ E, TwoVars e.1 ∧ RawDeclared s e.1 e.2
      · rw [hgo hall hne]
        refine ⟨fun smp => ⟨fun h => ⟨hne, hall, ?_⟩, fun h => ?_⟩, fun er h => by simp at h⟩
        · simp only [Except.ok.injEq] at h; exact h.symm
        · rw [h.2.2]
      · rw [hbad (by simpa only [not_forall, exists_prop] using hall)]
        exact ⟨fun smp => ⟨fun h => by simp at h, fun h => absurd h.2.1 hall⟩,
          fun er h => by simpa [eq_comm] using h⟩
    · rw [hempty (Finset.not_nonempty_iff_eq_empty.1 hne)]
      exact ⟨fun smp => ⟨fun h => by simp at h, fun h => absurd h.1 hne⟩, fun er h => by simpa [eq_comm] using h⟩
  cases validate with
  | false =>
    refine ⟨fun smp => ?_, fun er h => Or.inl (hfalse.2 er h)⟩
    rw [hfalse.1 smp]
    exact ⟨fun h => ⟨h.1, h.2.1, fun h' => absurd h' (by simp), h.2.2⟩, fun h => ⟨h.1, h.2.1, h.2.2.2⟩⟩
  | true =>
    have hunf : ((Builder.new prov).buildFromEdges s oE oN E true).2 =
        match isEdgesConnected oE oN E with
        | .error e => .error e
        | .ok false => .error .assertion
        | .ok true => ((Builder.new prov).buildFromEdges s oE oN E false).2 := by
      unfold Builder.buildFromEdges
      cases isEdgesConnected oE oN E with
      | error e => rfl
      | ok b => cases b <;> rfl
    rw [hunf]
    by_cases hne : E.Nonempty
    · by_cases h2 : ∀ e ∈ E, e.1.card = 2
      · obtain ⟨c, hc, hiff⟩ := C04_is_edges_connected oE oN E hne h2
        rw [hc]
        cases c with
        | false =>
          refine ⟨fun smp => ⟨fun h => by simp at h, fun h => ?_⟩, fun er h => ?_⟩
          · exact absurd (hiff.2 (h.2.2.1 rfl)) (by simp)
          · left; simpa [eq_comm] using h
        | true =>
          have hconn : RawConnected E := hiff.1 rfl
          refine ⟨fun smp => ?_, fun er h => Or.inl (hfalse.2 er h)⟩
          rw [hfalse.1 smp]
          exact ⟨fun h => ⟨h.1, h.2.1, fun _ => hconn, h.2.2⟩, fun h => ⟨h.1, h.2.1, h.2.2.2⟩⟩
      · have hm := C04_malformed oE oN E (by simpa only [not_forall, exists_prop] using h2)
        rw [hm]
        refine ⟨fun smp => ⟨fun h => by simp at h, fun h => ?_⟩, fun er h => by left; simpa [eq_comm] using h⟩
        exfalso
        apply h2
        intro e he
        obtain ⟨a, b, hab, heq⟩ := (h.2.1 e he).1
        rw [heq, Finset.card_pair]
        rintro rfl; exact hab rfl
    · have h0 := Finset.not_nonempty_iff_eq_empty.1 hne
      subst h0
      rw [C04_empty]
      refine ⟨fun smp => ⟨fun h => by simp at h, fun h => absurd h.1 hne⟩, fun er h => ?_⟩
      right; simpa [eq_comm] using h

/-- C10, view of a built sample: whatever was accepted is read back exactly. -/
theorem C10_build_then_view (s : Schema V X R) (oE : Order (RawEdge V X R)) (oN : Order (V × X)) (o : Order (Node V X))
    (prov : Nat) (E : Finset (RawEdge V X R)) (validate : Bool) (smp : Sample V X R)
    (h : ((Builder.new prov).buildFromEdges s oE oN E validate).2 = .ok smp) :
    smp.graph.edgesSetView o = .edges E := by
  obtain ⟨hne, -, -, rfl⟩ := ((C10_build_from_edges s oE oN prov E validate).1 smp).1 h
  unfold SampleGraph.edgesSetView
  have hne' : (graphOf E).edges ≠ ∅ := by
    obtain ⟨e, he⟩ := hne
    exact Finset.nonempty_iff_ne_empty.1 ⟨_, Finset.mem_image_of_mem _ he⟩
  rw [if_pos hne']
  congr 1
  ext ⟨eps, r⟩
  simp only [graphOf, Finset.mem_image, exists_exists_and_eq_and, Prod.mk.injEq]
  have hback : ∀ eps : Finset (V × X), (toNodes eps).image (fun n => (n.var, n.val)) = eps := by
    intro eps
    ext ⟨v, x⟩
    simp only [Finset.mem_image, mem_toNodes, Prod.mk.injEq]
    constructor
    · rintro ⟨n, hn, rfl, rfl⟩; exact hn
    · intro h; exact ⟨⟨v, x⟩, h, rfl, rfl⟩
  constructor
  · rintro ⟨e, he, h1, h2⟩
    rw [hback] at h1
    subst h1; subst h2; exact he
  · intro he; exact ⟨_, he, hback _, rfl⟩

/-- C10, building from a view: every well formed declared sample with an edge is read into an edge set from which
`build_from_edges` (validating or not) makes an equal sample. -/
theorem C10_view_then_build (s : Schema V X R) (oE : Order (RawEdge V X R)) (oN : Order (V × X)) (o : Order (Node V X))
    (prov : Nat) (g : SampleGraph V X R) (hw : WellFormed g) (hd : DeclaredIn s g) (hne : g.edges ≠ ∅) (validate : Bool) :
    ∃ E, g.edgesSetView o = .edges E ∧
      ((Builder.new prov).buildFromEdges s oE oN E validate).2 = .ok ⟨prov, g⟩ := by
  refine ⟨g.edges.image fun e => (e.endpoints.image fun n => (n.var, n.val), e.relation), ?_, ?_⟩
  · unfold SampleGraph.edgesSetView; rw [if_pos hne]
  set E : Finset (RawEdge V X R) := g.edges.image fun e => (e.endpoints.image fun n => (n.var, n.val), e.relation) with hE
  have hto : ∀ ns : Finset (Node V X), toNodes (ns.image fun n => (n.var, n.val)) = ns := by
    intro ns; ext n
    simp only [mem_toNodes, Finset.mem_image, Prod.mk.injEq]
    constructor
    · rintro ⟨m, hm, h1, h2⟩; cases m; cases n; simp_all
    · intro h; exact ⟨n, h, rfl, rfl⟩
  have hgraph : graphOf E = g := by
    apply SampleGraph.ext
    · rw [hw.nodes_eq hne]
      ext n
      simp only [graphOf, hE, Finset.mem_biUnion, Finset.mem_image, exists_exists_and_eq_and, hto]
    · ext e
      simp only [graphOf, hE, Finset.mem_image, exists_exists_and_eq_and, hto]
      constructor
      · rintro ⟨e', he', rfl⟩; exact he'
      · intro he; exact ⟨e, he, rfl⟩
  rw [(C10_build_from_edges s oE oN prov E validate).1]
  refine ⟨?_, ?_, fun _ => ?_, by rw [hgraph]⟩
  · obtain ⟨e, he⟩ := Finset.nonempty_iff_ne_empty.2 hne
    exact ⟨_, Finset.mem_image_of_mem _ he⟩
  · intro r hr
    obtain ⟨e, he, rfl⟩ := Finset.mem_image.1 hr
    constructor
    · obtain ⟨a, b, hab, heq⟩ := hw.good e he
      exact ⟨(a.var, a.val), (b.var, b.val), hab, by simp [heq]⟩
    · rw [rawDeclared_iff]
      refine ⟨?_, ?_⟩
      · intro p hp
        obtain ⟨n, hn, rfl⟩ := Finset.mem_image.1 hp
        exact hd.nodes n (hw.closed e he hn)
      · simp only [hto]; exact hd.edges e he
  · rw [rawConnected_iff, hgraph]; exact hw.conn

/-- C10, single nodes: a declared single-node sample is read as its (variable, value) and `build_single_node` of that
gives it back; undeclared pairs are rejected. -/
theorem C10_single_node (s : Schema V X R) (o : Order (Node V X)) (b : Builder V X R) (v : V) (x : X) :
    (s.declared v x = true → b.buildSingleNode s v x = .ok ⟨b.prov, ⟨{⟨v, x⟩}, ∅⟩⟩) ∧
    (s.declared v x = false → b.buildSingleNode s v x = .error .assertion) ∧
    (⟨{⟨v, x⟩}, ∅⟩ : SampleGraph V X R).edgesSetView o = .single v x ∧
    (b.buildEmpty : Sample V X R).graph.edgesSetView o = .nothing := by
  refine ⟨fun h => ?_, fun h => ?_, ?_, ?_⟩
  · simp [Builder.buildSingleNode, Schema.getNode, h]
  · simp [Builder.buildSingleNode, Schema.getNode, h]
  · simp [SampleGraph.edgesSetView]
  · simp [SampleGraph.edgesSetView, Builder.buildEmpty]

/-- Non-vacuity of C10: a well formed declared sample with an edge (hence, by `C10_view_then_build`, an accepted edge set). -/
example : ∃ (s : Schema ℕ ℕ ℕ) (g : SampleGraph ℕ ℕ ℕ), WellFormed g ∧ DeclaredIn s g ∧ g.edges ≠ ∅ :=
  ⟨⟨⟨[(0, {0}), (1, {0})], by decide⟩, {0}⟩, oneEdge ⟨0, 0⟩ ⟨1, 0⟩, oneEdge_wf _ _ (by simp),
    ⟨by decide, by decide⟩, by decide⟩

/-! ### C11 -/

/-- C11. `sample.builder().build()` gives the sample back; `build` of a builder without nodes raises; the builder of a
well formed sample satisfies the invariant, in particular it indexes exactly the linked pairs. For every order. -/
theorem C11_builder_build (oE : Order (Edge V X R)) (smp : Sample V X R) :
    (smp.graph.nodes.Nonempty → (smp.builder oE).build = .ok smp) ∧
    (smp.graph.nodes = ∅ → (smp.builder oE).build = .error .assertion) ∧
    (WellFormed smp.graph → (smp.builder oE).Inv ∧ (smp.builder oE).graph = smp.graph) := by
  refine ⟨fun h => ?_, fun h => ?_, fun h => ?_⟩
  · unfold Builder.build
    rw [if_neg (by simpa [Sample.builder, Builder.ofSets] using Finset.nonempty_iff_ne_empty.1 h)]
    rfl
  · unfold Builder.build
    rw [if_pos (by simpa [Sample.builder, Builder.ofSets] using h)]
  · refine ⟨⟨h, ?_⟩, rfl⟩
    intro k e
    have hnd : (((oE.run smp.graph.edges).map fun e => (e.endpoints, e)).map Prod.fst).Nodup := by
      rw [List.map_map]
      refine List.Nodup.map_on ?_ (oE.nodup _)
      intro x hx y hy hxy
      exact h.onePer x ((oE.mem _ _).1 hx) y ((oE.mem _ _).1 hy) hxy
    show (Dict.ofList ((oE.run smp.graph.edges).map fun e => (e.endpoints, e))).get? k = some e ↔ _
    rw [Dict.get?_ofList _ hnd]
    simp only [List.mem_map, oE.mem, Prod.mk.injEq]
    constructor
    · rintro ⟨a, ha, rfl, rfl⟩; exact ⟨ha, rfl⟩
    · rintro ⟨ha, rfl⟩; exact ⟨e, ha, rfl, rfl⟩

/-- Non-vacuity of C11. -/
example : ∃ smp : Sample ℕ ℕ ℕ, smp.graph.nodes.Nonempty ∧ WellFormed smp.graph :=
  ⟨⟨0, oneEdge ⟨0, 0⟩ ⟨1, 0⟩⟩, by simp [oneEdge], oneEdge_wf _ _ (by simp)⟩

end Verif
