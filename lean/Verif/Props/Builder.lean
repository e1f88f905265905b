import Verif.Lemmas.AddRelation
import Verif.Props.Connectivity

/-!
# C05 – C11: `SampleGraphBuilder`
-/

set_option linter.unusedSectionVars false

namespace Verif
open Relation

variable {V X R : Type} [DecidableEq V] [DecidableEq X] [DecidableEq R]

/-! ### C05 -/

/-- A call adding one relation. -/
inductive RelCall (V X R : Type) where
  | relation (eps : Finset (V × X)) (r : Rel V R)
  | directed (source target : V × X) (r : R)

/-- Perform one call. -/
def RelCall.apply (s : Schema V X R) (b : Builder V X R) : RelCall V X R → Builder V X R × Option Err
  | .relation eps r => b.addRelation s eps r
  | .directed a c r => b.addDirectedRelation s a c r

/-- Perform calls one after another, exceptions being caught by the user. -/
def runRelCalls (s : Schema V X R) (b : Builder V X R) (cs : List (RelCall V X R)) : Builder V X R :=
  cs.foldl (fun b c => (c.apply s b).1) b

/-- Endpoints and relation a call is about. -/
def RelCall.args : RelCall V X R → Finset (V × X) × Rel V R
  | .relation eps r => (eps, r)
  | .directed a c r => ({a, c}, .directed a.1 c.1 r)

theorem RelCall.apply_eq (s : Schema V X R) (b : Builder V X R) (c : RelCall V X R) :
    c.apply s b = b.addRelation s c.args.1 c.args.2 := by cases c <;> rfl

/-- C05, invariant: after any history of `add_relation` / `add_directed_relation` calls on a fresh builder the graph is
connected, every edge joins two present nodes of different variables, no two edges share their endpoints, and all
components are declared. -/
theorem C05_history (s : Schema V X R) (prov : Nat) (cs : List (RelCall V X R)) :
    let b := runRelCalls s (Builder.new prov) cs
    b.Inv ∧ WellFormed b.graph ∧ DeclaredIn s b.graph ∧ b.prov = prov := by
  have key : ∀ (b : Builder V X R), b.Inv → DeclaredIn s b.graph → b.prov = prov →
      (runRelCalls s b cs).Inv ∧ DeclaredIn s (runRelCalls s b cs).graph ∧ (runRelCalls s b cs).prov = prov := by
    induction cs with
    | nil => intro b h h' h''; exact ⟨h, h', h''⟩
    | cons c cs ih =>
      intro b h h' h''
      simp only [runRelCalls, List.foldl_cons]
      refine ih _ ?_ ?_ ?_
      · rw [RelCall.apply_eq]; exact b.inv_addRelation s h _ _
      · rw [RelCall.apply_eq]; exact b.declaredIn_addRelation s h h' _ _
      · rw [RelCall.apply_eq]
        rcases b.addRelation_eq s h c.args.1 c.args.2 with ⟨-, -, -, -, he⟩ | ⟨-, he⟩ <;> rw [he]
        · exact h''
        · exact h''
  obtain ⟨h1, h2, h3⟩ := key (Builder.new prov) (Builder.inv_new prov)
    ⟨by simp [Builder.new, Builder.graph], by simp [Builder.new, Builder.graph]⟩ rfl
  exact ⟨h1, h1.wf, h2, h3⟩

/-- C05, atomicity: a call that raises leaves the builder as it was (in any state whatsoever). -/
theorem C05_atomic (s : Schema V X R) (b : Builder V X R) (c : RelCall V X R) (h : (c.apply s b).2 ≠ none) :
    (c.apply s b).1 = b := by
  rw [RelCall.apply_eq] at h ⊢
  exact b.addRelation_atomic s _ _ h

/-- C05, acceptance: after any history a call succeeds exactly when its arguments are declared, its endpoints are two
nodes of different variables, one of them is present (or the builder is empty) and the pair is not yet linked; it then
adds exactly this edge and its endpoints; otherwise it raises `AssertionError`. -/
theorem C05_accept (s : Schema V X R) (prov : Nat) (cs : List (RelCall V X R)) (c : RelCall V X R) :
    let b := runRelCalls s (Builder.new prov) cs
    ((c.apply s b).2 = none ↔
      TwoVars c.args.1 ∧ RawDeclared s c.args.1 c.args.2 ∧
      (b.nodes = ∅ ∨ ∃ p ∈ c.args.1, (⟨p.1, p.2⟩ : Node V X) ∈ b.nodes) ∧
      (∀ e ∈ b.edges, e.endpoints ≠ toNodes c.args.1)) ∧
    ((c.apply s b).2 = none →
      (c.apply s b).1.nodes = b.nodes ∪ toNodes c.args.1 ∧
      (c.apply s b).1.edges = insert ⟨toNodes c.args.1, c.args.2⟩ b.edges) ∧
    ((c.apply s b).2 ≠ none → (c.apply s b).2 = some .assertion) := by
  intro b
  have hb : b.Inv := (C05_history s prov cs).1
  have hdis : ¬ Disjoint (toNodes c.args.1) b.nodes ↔ ∃ p ∈ c.args.1, (⟨p.1, p.2⟩ : Node V X) ∈ b.nodes := by
    rw [Finset.not_disjoint_iff]
    constructor
    · rintro ⟨n, hn, hnb⟩; exact ⟨_, (mem_toNodes _ _).1 hn, hnb⟩
    · rintro ⟨p, hp, hpb⟩; exact ⟨_, (mem_toNodes _ _).2 hp, hpb⟩
  rw [← hdis, RelCall.apply_eq]
  rcases b.addRelation_eq s hb c.args.1 c.args.2 with ⟨h1, h2, h3, h4, h⟩ | ⟨hn, h⟩
  · rw [h]
    exact ⟨⟨fun _ => ⟨h1, h2, h3, h4⟩, fun _ => rfl⟩, fun _ => ⟨rfl, rfl⟩, fun h => absurd rfl h⟩
  · rw [h]
    exact ⟨⟨fun h => by simp at h, fun h => absurd h hn⟩, fun h => by simp at h, fun _ => rfl⟩

/-- Non-vacuity of C05: a history with an accepted, a duplicate (raising), an accepted and a disconnected call. -/
example : ∃ (s : Schema ℕ ℕ ℕ) (cs : List (RelCall ℕ ℕ ℕ)),
    (runRelCalls s (Builder.new 0) cs).nodes = {⟨0, 0⟩, ⟨1, 0⟩, ⟨2, 0⟩} ∧
    (runRelCalls s (Builder.new 0) cs).edges.card = 2 ∧ cs.length = 4 :=
  ⟨⟨⟨[(0, {0, 1}), (1, {0, 1}), (2, {0, 1}), (3, {0})], by decide⟩, {0, 1}⟩,
    [.relation {(0, 0), (1, 0)} (.plain 0), .relation {(0, 0), (1, 0)} (.plain 1), .directed (1, 0) (2, 0) 1,
      .relation {(2, 1), (3, 0)} (.plain 0)], by decide, by decide, rfl⟩

/-! ### C06 -/

/-- C06 is refuted for `add_relation`: a history of accepted calls gives a sample with two values of one variable. -/
theorem C06_add_relation_refuted : ∃ (s : Schema ℕ ℕ ℕ) (cs : List (RelCall ℕ ℕ ℕ)) (smp : Sample ℕ ℕ ℕ),
    (runRelCalls s (Builder.new 0) cs).build = .ok smp ∧ ¬ SingleValued smp.graph.nodes := by
  refine ⟨⟨⟨[(0, {0, 1}), (1, {0})], by decide⟩, {0}⟩,
    [.relation {(0, 0), (1, 0)} (.plain 0), .relation {(0, 1), (1, 0)} (.plain 0)],
    _, rfl, ?_⟩
  intro h
  have := h ⟨0, 0⟩ (by decide) ⟨0, 1⟩ (by decide) rfl
  simp at this

/-- C06 is refuted for `build_from_edges` too, under every iteration order. -/
theorem C06_build_from_edges_refuted : ∃ (s : Schema ℕ ℕ ℕ) (E : Finset (RawEdge ℕ ℕ ℕ)),
    ∀ (oE : Order (RawEdge ℕ ℕ ℕ)) (oN : Order (ℕ × ℕ)), ∃ smp : Sample ℕ ℕ ℕ,
      ((Builder.new 0).buildFromEdges s oE oN E false).2 = .ok smp ∧ ¬ SingleValued smp.graph.nodes := by
  refine ⟨⟨⟨[(0, {0, 1}), (1, {0})], by decide⟩, {0}⟩, {({(0, 0), (1, 0)}, .plain 0), ({(0, 1), (1, 0)}, .plain 0)},
    fun oE oN => ?_⟩
  set E : Finset (RawEdge ℕ ℕ ℕ) := {({(0, 0), (1, 0)}, .plain 0), ({(0, 1), (1, 0)}, .plain 0)} with hE
  obtain ⟨b', h1, h2, h3, h4⟩ := Builder.addRawEdges_ok
    (⟨⟨[(0, {0, 1}), (1, {0})], by decide⟩, {0}⟩ : Schema ℕ ℕ ℕ) (oE.run E) (by
      intro e he
      rw [oE.mem] at he
      simp only [hE, Finset.mem_insert, Finset.mem_singleton] at he
      rcases he with rfl | rfl
      · refine ⟨⟨(0, 0), (1, 0), by simp, rfl⟩, ?_, by simp⟩
        intro p hp
        simp only [Finset.mem_insert, Finset.mem_singleton] at hp
        rcases hp with rfl | rfl
        · exact ⟨{0, 1}, rfl, by simp⟩
        · exact ⟨{0}, rfl, by simp⟩
      · refine ⟨⟨(0, 1), (1, 0), by simp, rfl⟩, ?_, by simp⟩
        intro p hp
        simp only [Finset.mem_insert, Finset.mem_singleton] at hp
        rcases hp with rfl | rfl
        · exact ⟨{0, 1}, rfl, by simp⟩
        · exact ⟨{0}, rfl, by simp⟩) (Builder.new 0)
  rw [oE.toFinset_run] at h3 h4
  have hm : ∀ n, n ∈ b'.nodes ↔ n = ⟨0, 0⟩ ∨ n = ⟨1, 0⟩ ∨ n = ⟨0, 1⟩ := by
    intro n
    rw [h4]
    obtain ⟨v, x⟩ := n
    simp only [Builder.new, hE, Finset.empty_union, Finset.mem_biUnion, Finset.mem_insert, Finset.mem_singleton,
      exists_eq_or_imp, exists_eq_left, mem_toNodes, Prod.mk.injEq, Node.mk.injEq]
    tauto
  refine ⟨⟨b'.prov, ⟨b'.nodes, b'.edges⟩⟩, ?_, ?_⟩
  · simp only [Builder.buildFromEdges, h1, Builder.build]
    have hb' : b'.nodes ≠ ∅ := by
      intro h
      have := (hm ⟨0, 0⟩).2 (Or.inl rfl)
      rw [h] at this; simp at this
    simp [hb']
  · intro h
    have := h ⟨0, 0⟩ ((hm _).2 (by simp)) ⟨0, 1⟩ ((hm _).2 (by simp)) rfl
    simp at this

/-- C06, what remains true for `add_relation`: if the calls of the history mention at most one value per variable, so
does the graph. Nothing in `add_relation` enforces this hypothesis; the exact condition is `C06_history`. -/
theorem C06_one_value_calls (s : Schema V X R) (prov : Nat) (cs : List (RelCall V X R))
    (h : ∀ c ∈ cs, ∀ p ∈ c.args.1, ∀ c' ∈ cs, ∀ p' ∈ c'.args.1, p.1 = p'.1 → p.2 = p'.2) :
    SingleValued (runRelCalls s (Builder.new prov) cs).nodes := by
  have key : ∀ (cs' : List (RelCall V X R)) (b : Builder V X R), b.Inv →
      ∀ n ∈ (runRelCalls s b cs').nodes, n ∈ b.nodes ∨ ∃ c ∈ cs', (n.var, n.val) ∈ c.args.1 := by
    intro cs'
    induction cs' with
    | nil => intro b _ n hn; exact Or.inl hn
    | cons c cs ih =>
      intro b hb n hn
      simp only [runRelCalls, List.foldl_cons] at hn
      rw [RelCall.apply_eq] at hn
      rcases ih _ (b.inv_addRelation s hb _ _) n hn with hn | ⟨c', hc', hn⟩
      · rcases b.addRelation_eq s hb c.args.1 c.args.2 with ⟨-, -, -, -, he⟩ | ⟨-, he⟩
        · rw [he] at hn
          simp only [Builder.insertEdge, Finset.mem_union, mem_toNodes] at hn
          rcases hn with hn | hn
          · exact Or.inl hn
          · exact Or.inr ⟨c, by simp, hn⟩
        · rw [he] at hn; exact Or.inl hn
      · exact Or.inr ⟨c', by simp [hc'], hn⟩
  intro a ha b hb hv
  rcases key cs _ (Builder.inv_new prov) a ha with h1 | ⟨c1, hc1, h1⟩
  · simp [Builder.new] at h1
  rcases key cs _ (Builder.inv_new prov) b hb with h2 | ⟨c2, hc2, h2⟩
  · simp [Builder.new] at h2
  have := h c1 hc1 _ h1 c2 hc2 _ h2 hv
  cases a; cases b; simp_all

/-- Non-vacuity of `C06_one_value_calls`. -/
example : ∀ c ∈ ([.relation {(0, 0), (1, 0)} (.plain 0), .relation {(1, 0), (2, 3)} (.plain 0)] : List (RelCall ℕ ℕ ℕ)),
    ∀ p ∈ c.args.1, ∀ c' ∈ ([.relation {(0, 0), (1, 0)} (.plain 0), .relation {(1, 0), (2, 3)} (.plain 0)] :
      List (RelCall ℕ ℕ ℕ)), ∀ p' ∈ c'.args.1, p.1 = p'.1 → p.2 = p'.2 := by
  simp only [RelCall.args, List.mem_cons, List.not_mem_nil, or_false, forall_eq_or_imp, forall_eq]
  decide

/-! ### C07 -/

/-- The condition under which a sample can be joined to a builder: same provider; the builder is empty or shares a
node; no node that is new to the builder competes with another value of its variable; no linked pair gets a second
relation. -/
structure Joinable (b : Builder V X R) (smp : Sample V X R) : Prop where
  prov : smp.prov = b.prov
  touch : b.nodes = ∅ ∨ ∃ n ∈ smp.graph.nodes, n ∈ b.nodes
  values : ∀ n ∈ smp.graph.nodes, n ∉ b.nodes → ∀ m ∈ b.nodes ∪ smp.graph.nodes, m.var = n.var → m = n
  relations : ∀ e ∈ smp.graph.edges, ∀ e' ∈ b.edges, e'.endpoints = e.endpoints → e'.relation = e.relation

/-- C07. For a builder satisfying the invariant and a non-empty well formed sample, under every iteration order,
`join_sample` succeeds exactly when the sample is joinable; the builder then holds exactly the unions of nodes and of
edges (and satisfies the invariant); otherwise it raises `AssertionError`. -/
theorem C07_join_sample (oE : Order (Edge V X R)) (b : Builder V X R) (hb : b.Inv) (smp : Sample V X R)
    (hw : WellFormed smp.graph) (hne : smp.graph.nodes.Nonempty) :
    ((b.joinSample oE smp).2 = none ↔ Joinable b smp) ∧
    ((b.joinSample oE smp).2 = none →
      (b.joinSample oE smp).1.nodes = b.nodes ∪ smp.graph.nodes ∧
      (b.joinSample oE smp).1.edges = b.edges ∪ smp.graph.edges ∧
      (b.joinSample oE smp).1.prov = b.prov ∧ (b.joinSample oE smp).1.Inv) ∧
    ((b.joinSample oE smp).2 ≠ none → (b.joinSample oE smp).2 = some .assertion) := by
  unfold Builder.joinSample
  by_cases hp : smp.prov ≠ b.prov
  · rw [if_pos hp]
    exact ⟨⟨fun h => by simp at h, fun h => absurd h.prov hp⟩, fun h => by simp at h, fun _ => rfl⟩
  rw [if_neg hp]
  rw [not_not] at hp
  by_cases he : smp.graph.edges ≠ ∅
  · rw [if_pos he]
    set S := smp.graph.edges with hS
    have hnodes := hw.nodes_eq he
    -- facts that hold at any time of the run
    let Q : Builder V X R → Prop := fun c => c.Inv ∧ c.prov = b.prov ∧ b.nodes ⊆ c.nodes ∧ b.edges ⊆ c.edges ∧
      c.nodes ⊆ b.nodes ∪ smp.graph.nodes ∧ c.edges ⊆ b.edges ∪ S ∧
      (∀ n ∈ c.nodes, n ∉ b.nodes → ∀ m ∈ c.nodes, m.var = n.var → m = n) ∧
      (∀ e ∈ c.edges, e ∈ b.edges ∨ (∀ e' ∈ b.edges, e'.endpoints = e.endpoints → e'.relation = e.relation)) ∧
      (c.nodes ⊆ b.nodes ∨ b.nodes = ∅ ∨ ∃ n ∈ smp.graph.nodes, n ∈ b.nodes)
    have hQ0 : Q b := ⟨hb, rfl, fun _ h => h, fun _ h => h, Finset.subset_union_left, Finset.subset_union_left,
      fun n h h' => absurd h h', fun e h => Or.inl h, Or.inl fun _ h => h⟩
    have hQ : ∀ c e, Q c → e ∈ S → c.touches e = true → c.joinOk e = true → Q (c.insertEdge e) := by
      rintro c e ⟨q1, q2, q3, q4, q5, q6, q7, q8, q9⟩ heS ht hj
      have hg := hw.good e heS
      have hjk := (c.joinOk_iff q1 e).1 hj
      refine ⟨c.inv_join_step q1 e hg ht hj, q2, q3.trans (c.mono_insertEdge e).1, q4.trans (c.mono_insertEdge e).2,
        ?_, ?_, ?_, ?_, ?_⟩
      · intro n hn
        simp only [Builder.insertEdge, Finset.mem_union] at hn
        rcases hn with hn | hn
        · exact q5 hn
        · exact Finset.mem_union_right _ (hw.closed e heS hn)
      · intro e' he'
        simp only [Builder.insertEdge, Finset.mem_insert] at he'
        rcases he' with rfl | he'
        · exact Finset.mem_union_right _ heS
        · exact q6 he'
      · intro n hn hnb m hm hv
        simp only [Builder.insertEdge, Finset.mem_union] at hn hm
        by_cases hnc : n ∈ c.nodes <;> by_cases hmc : m ∈ c.nodes
        · exact q7 n hnc hnb m hmc hv
        · exact absurd hv.symm (hjk.2 m (hm.resolve_left hmc) hmc n hnc)
        · exact absurd hv (hjk.2 n (hn.resolve_left hnc) hnc m hmc)
        · exact hg.inj (hm.resolve_left hmc) (hn.resolve_left hnc) hv
      · intro e' he'
        simp only [Builder.insertEdge, Finset.mem_insert] at he'
        rcases he' with rfl | he'
        · exact Or.inr fun e'' he'' => hjk.1 e'' (q4 he'')
        · exact q8 e' he'
      · rcases q9 with q9 | q9
        · rcases (c.touches_iff e).1 ht with ht | ht
          · obtain ⟨n, hn1, hn2⟩ := Finset.not_disjoint_iff.1 ht
            exact Or.inr (Or.inr ⟨n, hw.closed e heS hn1, q9 hn2⟩)
          · refine Or.inr (Or.inl ?_)
            rw [ht] at q3
            exact Finset.subset_empty.1 q3
        · exact Or.inr q9
    have hfin := Builder.joinEdges_induct Q S hQ oE S.card S (fun _ h => h) b hQ0
    have hnf := Builder.joinEdges_no_fuel oE S.card S he (le_refl _) b
    have hdone := Builder.joinEdges_done oE S.card S b
    generalize hres : Builder.joinEdges oE S.card S b = res at hfin hnf hdone
    obtain ⟨c, err⟩ := res
    obtain ⟨q1, q2, q3, q4, q5, q6, q7, q8, q9⟩ := hfin
    simp only at q1 q2 q3 q4 q5 q6 q7 q8 q9 hnf hdone ⊢
    have hunion : err = none → c.nodes = b.nodes ∪ smp.graph.nodes ∧ c.edges = b.edges ∪ S := by
      intro h
      obtain ⟨d1, d2, d3⟩ := hdone h
      constructor
      · refine Finset.Subset.antisymm q5 (Finset.union_subset d1 ?_)
        rw [hnodes]
        intro n hn
        obtain ⟨e, he', hne⟩ := Finset.mem_biUnion.1 hn
        exact q1.wf.closed e (d3 he') hne
      · exact Finset.Subset.antisymm q6 (Finset.union_subset d2 d3)
    refine ⟨⟨?_, ?_⟩, ?_, ?_⟩
    · intro h
      obtain ⟨u1, u2⟩ := hunion h
      obtain ⟨d1, d2, d3⟩ := hdone h
      refine ⟨hp, ?_, ?_, ?_⟩
      · rcases q9 with q9 | q9
        · right
          obtain ⟨n, hn⟩ := hne
          exact ⟨n, hn, q9 (by rw [u1]; exact Finset.mem_union_right _ hn)⟩
        · exact q9
      · intro n hn hnb m hm hv
        exact q7 n (by rw [u1]; exact Finset.mem_union_right _ hn) hnb m (by rw [u1]; exact hm) hv
      · intro e heS e' he' hee
        rcases q8 e (d3 heS) with h | h
        · rw [hb.wf.onePer e' he' e h hee]
        · exact h e' he' hee
    · rintro ⟨-, j1, j2, j3⟩
      let Q' : Builder V X R → Prop := fun c => Q c
      have hJ : ∀ c e, Q c → e ∈ S → c.touches e = true → c.joinOk e = true := by
        rintro c e ⟨q1, q2, q3, q4, q5, q6, q7, q8, q9⟩ heS ht
        rw [c.joinOk_iff q1]
        constructor
        · intro e' he' hee
          rcases Finset.mem_union.1 (q6 he') with h | h
          · exact j3 e heS e' h hee
          · rw [hw.onePer e' h e heS hee]
        · intro n hn hnc m hm hv
          have : m = n := j2 n (hw.closed e heS hn) (fun h => hnc (q3 h)) m (q5 hm) hv
          subst this; exact hnc hm
      have hT : ∀ c (E : Finset (Edge V X R)), Q c → E ⊆ S → E ≠ ∅ → S ⊆ E ∪ c.edges → ∃ e ∈ E, c.touches e = true := by
        rintro c E ⟨q1, q2, q3, q4, q5, q6, q7, q8, q9⟩ hES hEne hrem
        obtain ⟨e0, he0⟩ := Finset.nonempty_iff_ne_empty.2 hEne
        by_cases hc : c.nodes = ∅
        · exact ⟨e0, he0, (c.touches_iff e0).2 (Or.inr hc)⟩
        have hshare : ∃ n ∈ smp.graph.nodes, n ∈ c.nodes := by
          rcases j1 with j1 | ⟨n, hn, hnb⟩
          · obtain ⟨n, hn⟩ := Finset.nonempty_iff_ne_empty.2 hc
            have := q5 hn
            rw [j1, Finset.empty_union] at this
            exact ⟨n, this, hn⟩
          · exact ⟨n, hn, q3 hnb⟩
        obtain ⟨n, hn, hnc⟩ := hshare
        obtain ⟨d, hd⟩ := (hw.good e0 (hES he0)).nonempty
        by_cases hdc : d ∈ c.nodes
        · exact ⟨e0, he0, (c.touches_iff e0).2 (Or.inl (Finset.not_disjoint_iff.2 ⟨d, hd, hdc⟩))⟩
        · obtain ⟨e, heS, ⟨x, hx, hxc⟩, ⟨y, hy, hyc⟩⟩ := exists_leaving (P := fun z => z ∈ c.nodes)
            (hw.conn n hn d (hw.closed e0 (hES he0) hd)) hnc hdc
          refine ⟨e, ?_, (c.touches_iff e).2 (Or.inl (Finset.not_disjoint_iff.2 ⟨x, hx, hxc⟩))⟩
          rcases Finset.mem_union.1 (hrem heS) with h | h
          · exact h
          · exact absurd (q1.wf.closed e h hy) hyc
      have := Builder.joinEdges_no_error Q S hQ hJ hT oE S.card S (fun _ h => h) he (le_refl _) b hQ0
        Finset.subset_union_left
      rw [hres] at this
      exact this
    · intro h
      obtain ⟨u1, u2⟩ := hunion h
      exact ⟨u1, u2, q2, q1⟩
    · intro h
      rcases hnf with h' | h'
      · exact absurd h' h
      · exact h'
  · rw [if_neg he]
    rw [not_not] at he
    have hcard : smp.graph.nodes.card = 1 := by
      have := hw.card_le_one he
      have := Finset.card_pos.2 hne
      omega
    obtain ⟨n, hn⟩ := Finset.card_eq_one.1 hcard
    simp only [hcard, true_and]
    by_cases hs : smp.graph.nodes ⊆ b.nodes ∨ b.nodes = ∅
    · rw [if_pos hs]
      have hj : Joinable b smp := by
        refine ⟨hp, ?_, ?_, ?_⟩
        · rcases hs with hs | hs
          · exact Or.inr ⟨n, by simp [hn], hs (by simp [hn])⟩
          · exact Or.inl hs
        · intro x hx hxb m hm hv
          rcases hs with hs | hs
          · exact absurd (hs hx) hxb
          · rw [hs, hn] at hm; rw [hn] at hx
            simp only [Finset.empty_union, Finset.mem_singleton] at hm hx
            rw [hm, hx]
        · intro e he'; rw [he] at he'; simp at he'
      refine ⟨⟨fun _ => hj, fun _ => rfl⟩, ?_, fun h => absurd rfl h⟩
      intro _
      by_cases hbe : b.nodes = ∅
      · rw [if_pos hbe]
        have hbee : b.edges = ∅ := by
          rw [Finset.eq_empty_iff_forall_notMem]
          intro e he'
          obtain ⟨x, hx⟩ := (hb.wf.good e he').nonempty
          have : x ∈ b.nodes := hb.wf.closed e he' hx
          rw [hbe] at this; simp at this
        refine ⟨rfl, by simp [he], rfl, ⟨⟨?_, ?_, ?_, ?_⟩, ?_⟩⟩
        · intro e he'; simp only [Builder.graph, hbee] at he'; simp at he'
        · intro e he'; simp only [Builder.graph, hbee] at he'; simp at he'
        · intro e he'; simp only [Builder.graph, hbee] at he'; simp at he'
        · intro x hx y hy
          simp only [Builder.graph, hbe, hn, Finset.empty_union, Finset.coe_singleton, Set.mem_singleton_iff] at hx hy
          rw [hx, hy]
        · exact hb.index
      · rw [if_neg hbe]
        have hsub := hs.resolve_right hbe
        exact ⟨(Finset.union_eq_left.2 hsub).symm, by simp [he], rfl, hb⟩
    · rw [if_neg hs]
      refine ⟨⟨fun h => by simp at h, fun h => ?_⟩, fun h => by simp at h, fun _ => rfl⟩
      exfalso
      apply hs
      rcases h.touch with h | ⟨x, hx, hxb⟩
      · exact Or.inr h
      · left
        rw [hn] at hx ⊢
        simp only [Finset.mem_singleton] at hx
        subst hx
        simpa using hxb

/-! ### C08 -/

/-- Join samples one after another, each with its own iteration order, exceptions being caught by the user. -/
def joinAll (b : Builder V X R) (l : List (Order (Edge V X R) × Sample V X R)) : Builder V X R :=
  l.foldl (fun b p => (b.joinSample p.1 p.2).1) b

/-- C08. Joining any sequence of well formed samples to an empty builder leaves a connected, single-valued graph with at
most one edge per pair, even if some of the calls raised half way. -/
theorem C08_join_history (prov : Nat) (l : List (Order (Edge V X R) × Sample V X R))
    (hl : ∀ p ∈ l, WellFormed p.2.graph) :
    let b := joinAll (Builder.new prov) l
    WellFormed b.graph ∧ SingleValued b.nodes ∧ b.Inv := by
  have key : ∀ b : Builder V X R, b.Inv → SingleValued b.nodes → (joinAll b l).Inv ∧ SingleValued (joinAll b l).nodes := by
    induction l with
    | nil => intro b h h'; exact ⟨h, h'⟩
    | cons p l ih =>
      intro b hb hs
      simp only [joinAll, List.foldl_cons]
      have hw := hl p (by simp)
      suffices h : (b.joinSample p.1 p.2).1.Inv ∧ SingleValued (b.joinSample p.1 p.2).1.nodes from
        ih (fun q hq => hl q (by simp [hq])) _ h.1 h.2
      by_cases hne : p.2.graph.edges ≠ ∅
      · unfold Builder.joinSample
        split
        · exact ⟨hb, hs⟩
        · exact Builder.joinEdges_induct (fun c => c.Inv ∧ SingleValued c.nodes) p.2.graph.edges
            (fun c e hc he ht hj => ⟨c.inv_join_step hc.1 e (hw.good e he) ht hj,
              c.singleValued_join_step hc.1 hc.2 e (hw.good e he) hj⟩)
            p.1 _ _ (fun _ h => h) b ⟨hb, hs⟩
      · rw [not_not] at hne
        by_cases hn : p.2.graph.nodes.Nonempty
        · obtain ⟨h1, h2, h3⟩ := C07_join_sample p.1 b hb p.2 hw hn
          by_cases hok : (b.joinSample p.1 p.2).2 = none
          · refine ⟨(h2 hok).2.2.2, ?_⟩
            rw [(h2 hok).1]
            have hj := h1.1 hok
            intro x hx y hy hv
            by_cases hxb : x ∈ b.nodes
            · by_cases hyb : y ∈ b.nodes
              · exact hs x hxb y hyb hv
              · exact hj.values y ((Finset.mem_union.1 hy).resolve_left hyb) hyb x hx hv
            · exact (hj.values x ((Finset.mem_union.1 hx).resolve_left hxb) hxb y hy hv.symm).symm
          · have : (b.joinSample p.1 p.2).1 = b := by
              revert hok
              unfold Builder.joinSample
              split
              · intro _; rfl
              · rw [if_neg (not_not.2 hne)]
                split
                · intro h; exact absurd rfl h
                · intro _; rfl
            rw [this]; exact ⟨hb, hs⟩
        · rw [Finset.not_nonempty_iff_eq_empty] at hn
          have : (b.joinSample p.1 p.2).1 = b := by
            unfold Builder.joinSample
            split
            · rfl
            · rw [if_neg (not_not.2 hne)]
              simp [hn]
          rw [this]; exact ⟨hb, hs⟩
  obtain ⟨h1, h2⟩ := key (Builder.new prov) (Builder.inv_new prov) (by simp [SingleValued, Builder.new])
  exact ⟨h1.wf, h2, h1⟩

/-- C06 for `join_sample` histories: at most one value per variable. (For histories that also use `add_relation`, where it can
fail, see `C06_history`.) -/
theorem C06_join_only (prov : Nat) (l : List (Order (Edge V X R) × Sample V X R))
    (hl : ∀ p ∈ l, WellFormed p.2.graph) (smp : Sample V X R) (h : (joinAll (Builder.new prov) l).build = .ok smp) :
    SingleValued smp.graph.nodes := by
  have := (C08_join_history prov l hl).2.1
  unfold Builder.build at h
  split at h
  · simp at h
  · simp only [Except.ok.injEq] at h; rw [← h]; exact this

/-! ### C09 -/

/-- C09, decision: on a builder satisfying the invariant `can_sample_be_joined` returns `True` exactly when no linked
pair would get a second relation; it raises exactly for a foreign sample. -/
theorem C09_can_sample_be_joined (oE : Order (Edge V X R)) (b : Builder V X R) (hb : b.Inv) (smp : Sample V X R) :
    (b.canSampleBeJoined oE smp = .ok true ↔ smp.prov = b.prov ∧
      ∀ e ∈ smp.graph.edges, ∀ e' ∈ b.edges, e'.endpoints = e.endpoints → e'.relation = e.relation) ∧
    (b.canSampleBeJoined oE smp = .error .assertion ↔ smp.prov ≠ b.prov) ∧
    (∀ er, b.canSampleBeJoined oE smp = .error er → er = .assertion) := by
  unfold Builder.canSampleBeJoined
  by_cases hp : smp.prov ≠ b.prov
  · simp [hp]
  · rw [if_neg hp]
    rw [not_not] at hp
    simp only [Except.ok.injEq, oE.all_run, hp, true_and, ne_eq, not_true, reduceCtorEq,
      false_implies, implies_true, and_true]
    constructor
    · intro h e he e' he' hee
      have := h e he
      rw [(hb.index e.endpoints e').2 ⟨he', hee⟩] at this
      simpa [eq_comm] using this
    · intro h e he
      cases hx : b.eps.get? e.endpoints with
      | none => rfl
      | some e' =>
        obtain ⟨h1, h2⟩ := (hb.index _ _).1 hx
        simpa [eq_comm] using h e he e' h1 h2

/-- C09, necessity: if `join_sample` succeeds then `can_sample_be_joined` was `True`. -/
theorem C09_necessary (oE oE' : Order (Edge V X R)) (b : Builder V X R) (hb : b.Inv) (smp : Sample V X R)
    (hw : WellFormed smp.graph) (hne : smp.graph.nodes.Nonempty) (h : (b.joinSample oE smp).2 = none) :
    b.canSampleBeJoined oE' smp = .ok true := by
  have hj := (C07_join_sample oE b hb smp hw hne).1.1 h
  exact (C09_can_sample_be_joined oE' b hb smp).1.2 ⟨hj.prov, hj.relations⟩

/-- A one-edge sample, for concrete cases. -/
def oneEdge (a b : Node ℕ ℕ) : SampleGraph ℕ ℕ ℕ := ⟨{a, b}, {⟨{a, b}, .plain 0⟩}⟩

theorem oneEdge_wf (a b : Node ℕ ℕ) (h : a.var ≠ b.var) : WellFormed (oneEdge a b) := by
  refine ⟨by simp [oneEdge], ?_, ?_, ?_⟩
  · intro e he
    simp only [oneEdge, Finset.mem_singleton] at he
    subst he; exact ⟨a, b, h, rfl⟩
  · intro e he e' he' _
    simp only [oneEdge, Finset.mem_singleton] at he he'
    rw [he, he']
  · intro x hx y hy
    exact .single ⟨_, Finset.mem_singleton_self _, by simpa [oneEdge] using hx, by simpa [oneEdge] using hy⟩

/-- C09, not sufficient: there are a builder and a sample for which `can_sample_be_joined` is `True` and `join_sample`
raises, whatever the orders (a second value of a variable). -/
theorem C09_not_sufficient : ∃ (b : Builder ℕ ℕ ℕ) (smp : Sample ℕ ℕ ℕ), b.Inv ∧ WellFormed smp.graph ∧
    ∀ oE oE', b.canSampleBeJoined oE smp = .ok true ∧ (b.joinSample oE' smp).2 = some .assertion := by
  have hb : ((Builder.new 0).insertEdge ⟨{⟨0, 0⟩, ⟨1, 0⟩}, .plain 0⟩ : Builder ℕ ℕ ℕ).Inv :=
    Builder.inv_insertEdge _ (Builder.inv_new 0) _ ⟨⟨0, 0⟩, ⟨1, 0⟩, by simp, rfl⟩ (Or.inr rfl) (by simp [Builder.new])
  have hw := oneEdge_wf ⟨0, 0⟩ ⟨1, 1⟩ (by simp)
  refine ⟨_, ⟨0, oneEdge ⟨0, 0⟩ ⟨1, 1⟩⟩, hb, hw, fun oE oE' => ⟨?_, ?_⟩⟩
  · refine (C09_can_sample_be_joined oE _ hb _).1.2 ⟨rfl, ?_⟩
    decide
  · obtain ⟨h1, -, h3⟩ := C07_join_sample oE' _ hb ⟨0, oneEdge ⟨0, 0⟩ ⟨1, 1⟩⟩ hw (by simp [oneEdge])
    apply h3
    intro h
    have := (h1.1 h).values ⟨1, 1⟩ (by simp [oneEdge]) (by decide) ⟨1, 0⟩ (by decide) rfl
    simp at this

/-- Non-vacuity of C07/C08/C09: a builder and a sample that can be joined, and one that cannot. -/
example : ∃ (b : Builder ℕ ℕ ℕ) (smp smp' : Sample ℕ ℕ ℕ), b.Inv ∧ b.nodes ≠ ∅ ∧ WellFormed smp.graph ∧
    WellFormed smp'.graph ∧ Joinable b smp ∧ ¬ Joinable b smp' := by
  have hb : ((Builder.new 0).insertEdge ⟨{⟨0, 0⟩, ⟨1, 0⟩}, .plain 0⟩ : Builder ℕ ℕ ℕ).Inv :=
    Builder.inv_insertEdge _ (Builder.inv_new 0) _ ⟨⟨0, 0⟩, ⟨1, 0⟩, by simp, rfl⟩ (Or.inr rfl) (by simp [Builder.new])
  refine ⟨_, ⟨0, oneEdge ⟨1, 0⟩ ⟨2, 0⟩⟩, ⟨0, oneEdge ⟨1, 1⟩ ⟨2, 0⟩⟩, hb, by decide, oneEdge_wf _ _ (by simp),
    oneEdge_wf _ _ (by simp), ⟨rfl, Or.inr ⟨⟨1, 0⟩, by decide, by decide⟩, by decide, by decide⟩, ?_⟩
  intro h
  have := h.touch
  revert this; decide

end Verif
