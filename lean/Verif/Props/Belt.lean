import Verif.Lemmas.Belt

/-!
# C17, C18: `belt_nodes` and `external_nodes`
-/

set_option linter.unusedSectionVars false

namespace Verif
open Relation

variable {V X R : Type} [DecidableEq V] [DecidableEq X] [DecidableEq R]

/-- C17. For a non-empty centre `belt_nodes` returns (for every iteration order, filter and centre, also one with nodes
that are not in the sample) a table whose entries are: the nodes outside the centre that an allowed edge links to the
centre, each with exactly the allowed edges between it and the centre. For the empty centre it raises `AssertionError`. -/
theorem C17_belt_nodes (oN : Order (Node V X)) (oE : Order (Edge V X R)) (g : SampleGraph V X R)
    (hg : ∀ e ∈ g.edges, GoodEdge e) (C : Finset (Node V X)) (f : Option (Finset (Rel V R))) :
    (C ≠ ∅ → ∃ d, g.beltNodes oN oE C f = .ok d ∧
      (∀ n, n ∈ d.keys ↔ n ∉ C ∧ ∃ e ∈ g.edges, Allowed f e.relation ∧ n ∈ e.endpoints ∧ ∃ m ∈ e.endpoints, m ∈ C) ∧
      (∀ n es, d.get? n = some es →
        ∀ e, e ∈ es ↔ e ∈ g.edges ∧ Allowed f e.relation ∧ n ∈ e.endpoints ∧ ∃ m ∈ e.endpoints, m ∈ C)) ∧
    (C = ∅ → g.beltNodes oN oE C f = .error .assertion) := by
  constructor
  · intro hC
    obtain ⟨d, h1, h2⟩ := g.beltNodes_spec oN oE hg C hC f
    refine ⟨d, h1, fun n => ?_, fun n es h => ((h2 n es).1 h).2.2⟩
    rw [Dict.mem_keys]
    constructor
    · rintro ⟨es, hes⟩
      obtain ⟨h3, ⟨e, he⟩, h4⟩ := (h2 n es).1 hes
      exact ⟨h3, e, (h4 e).1 he⟩
    · rintro ⟨h3, e, he⟩
      classical
      refine ⟨g.edges.filter fun e => Allowed f e.relation ∧ n ∈ e.endpoints ∧ ∃ m ∈ e.endpoints, m ∈ C, ?_⟩
      rw [h2]
      exact ⟨h3, ⟨e, Finset.mem_filter.2 he⟩, fun e => by rw [Finset.mem_filter]⟩
  · rintro rfl; simp [SampleGraph.beltNodes]

/-- Reachability over allowed edges is having a distance. -/
theorem reachable_iff_dist (E : Finset (Edge V X R)) (f : Option (Finset (Rel V R))) (C : Finset (Node V X)) (n : Node V X) :
    (∃ c ∈ C, ReflTransGen (Adj E f) c n) ↔ ∃ k, DistIs E f C n k := by
  constructor
  · rintro ⟨c, hc, h⟩
    have : ∃ k, Walk E f k c n := by
      induction h with
      | refl => exact ⟨0, rfl⟩
      | tail _ ha ih => obtain ⟨k, hk⟩ := ih; exact ⟨k + 1, _, hk, ha⟩
    obtain ⟨k, hk⟩ := this
    obtain ⟨j, -, hj⟩ := DistIs.exists_le ⟨c, hc, hk⟩
    exact ⟨j, hj⟩
  · rintro ⟨k, ⟨c, hc, hw⟩, -⟩
    refine ⟨c, hc, ?_⟩
    clear hc
    induction k generalizing n with
    | zero => cases hw; exact .refl
    | succ k ih => obtain ⟨m, hm, ha⟩ := hw; exact (ih m hm).tail ha

/-- C18. For a non-empty centre `external_nodes` returns (never trips an assertion, never runs out of recursion) a table
whose keys are the nodes outside the centre reachable from it over allowed edges; a node at distance `k + 1` is mapped to
exactly the allowed edges joining it to a node at distance `k`. For the empty centre it raises `AssertionError`. -/
theorem C18_external_nodes (oN : Order (Node V X)) (oE : Order (Edge V X R)) (g : SampleGraph V X R)
    (hg : ∀ e ∈ g.edges, GoodEdge e) (C : Finset (Node V X)) (f : Option (Finset (Rel V R))) :
    (C ≠ ∅ → ∃ d, g.externalNodes oN oE C f = .ok d ∧
      (∀ n, n ∈ d.keys ↔ n ∉ C ∧ ∃ c ∈ C, ReflTransGen (Adj g.edges f) c n) ∧
      (∀ n es k, d.get? n = some es → DistIs g.edges f C n (k + 1) →
        ∀ e, e ∈ es ↔ e ∈ g.edges ∧ Allowed f e.relation ∧ n ∈ e.endpoints ∧ ∃ m ∈ e.endpoints, DistIs g.edges f C m k) ∧
      (∀ n es, d.get? n = some es → ∃ k, DistIs g.edges f C n (k + 1))) ∧
    (C = ∅ → g.externalNodes oN oE C f = .error .assertion) := by
  constructor
  · intro hC
    obtain ⟨d, h1, h2⟩ := g.externalNodes_spec oN oE hg C hC f
    refine ⟨d, h1, fun n => ?_, ?_, ?_⟩
    · rw [Dict.mem_keys, reachable_iff_dist]
      constructor
      · rintro ⟨es, hes⟩
        obtain ⟨k, hk, -⟩ := (h2 n es).1 hes
        refine ⟨fun hn => ?_, k + 1, hk⟩
        have := hk.unique ((DistIs.zero_iff n).2 hn)
        omega
      · rintro ⟨hn, k, hk⟩
        cases k with
        | zero => exact absurd ((DistIs.zero_iff n).1 hk) hn
        | succ k =>
          classical
          refine ⟨g.edges.filter fun e => Allowed f e.relation ∧ n ∈ e.endpoints ∧
            ∃ m ∈ e.endpoints, DistIs g.edges f C m k, ?_⟩
          rw [h2]
          exact ⟨k, hk, fun e => by rw [Finset.mem_filter]⟩
    · intro n es k h hk
      obtain ⟨j, hj, h3⟩ := (h2 n es).1 h
      have : j = k := by have := hj.unique hk; omega
      subst this
      exact h3
    · intro n es h
      obtain ⟨k, hk, -⟩ := (h2 n es).1 h
      exact ⟨k, hk⟩
  · rintro rfl; simp [SampleGraph.externalNodes, SampleGraph.externalNodesFuel, SampleGraph.beltNodes]

/-- C18, consequence: an edge between two nodes of the same distance is in no entry of the table. -/
theorem C18_same_layer_omitted (oN : Order (Node V X)) (oE : Order (Edge V X R)) (g : SampleGraph V X R)
    (hg : ∀ e ∈ g.edges, GoodEdge e) (C : Finset (Node V X)) (hC : C ≠ ∅) (f : Option (Finset (Rel V R)))
    (e : Edge V X R) (k : ℕ) (hk : ∀ m ∈ e.endpoints, DistIs g.edges f C m k)
    (d : Dict (Node V X) (Finset (Edge V X R))) (hd : g.externalNodes oN oE C f = .ok d) (n : Node V X)
    (es : Finset (Edge V X R)) (hn : d.get? n = some es) : e ∉ es := by
  obtain ⟨d', h1, -, h3, h4⟩ := (C18_external_nodes oN oE g hg C f).1 hC
  rw [hd] at h1
  simp only [Except.ok.injEq] at h1
  subst h1
  intro he
  obtain ⟨j, hj⟩ := h4 n es hn
  obtain ⟨-, -, hne, m, hm, hmj⟩ := (h3 n es j hn hj e).1 he
  have e1 := (hk n hne).unique hj
  have e2 := (hk m hm).unique hmj
  omega

/-- A triangle `0 - 1 - 2` with all three edges: from the centre `{0}` the edge `1 - 2` joins equally distant nodes. -/
def triangle : SampleGraph ℕ ℕ ℕ :=
  ⟨{⟨0, 0⟩, ⟨1, 0⟩, ⟨2, 0⟩}, {⟨{⟨0, 0⟩, ⟨1, 0⟩}, .plain 0⟩, ⟨{⟨0, 0⟩, ⟨2, 0⟩}, .plain 0⟩, ⟨{⟨1, 0⟩, ⟨2, 0⟩}, .plain 0⟩}⟩

theorem triangle_good : ∀ e ∈ triangle.edges, GoodEdge e := by
  intro e he
  simp only [triangle, Finset.mem_insert, Finset.mem_singleton] at he
  rcases he with rfl | rfl | rfl
  · exact ⟨⟨0, 0⟩, ⟨1, 0⟩, by simp, rfl⟩
  · exact ⟨⟨0, 0⟩, ⟨2, 0⟩, by simp, rfl⟩
  · exact ⟨⟨1, 0⟩, ⟨2, 0⟩, by simp, rfl⟩

/-- Non-vacuity of C17, C18 and of the omission: in the triangle the edge `1 - 2` has both endpoints at distance one. -/
example : (∀ e ∈ triangle.edges, GoodEdge e) ∧
    ∃ e ∈ triangle.edges, ∀ m ∈ e.endpoints, DistIs triangle.edges none {⟨0, 0⟩} m 1 := by
  refine ⟨triangle_good, ⟨{⟨1, 0⟩, ⟨2, 0⟩}, .plain 0⟩, by simp [triangle], ?_⟩
  intro m hm
  simp only [Finset.mem_insert, Finset.mem_singleton] at hm
  rw [DistIs.one_iff]
  rcases hm with rfl | rfl
  · exact ⟨by simp, ⟨0, 0⟩, by simp, ⟨{⟨0, 0⟩, ⟨1, 0⟩}, .plain 0⟩, by simp [triangle], trivial, by simp, by simp⟩
  · exact ⟨by simp, ⟨0, 0⟩, by simp, ⟨{⟨0, 0⟩, ⟨2, 0⟩}, .plain 0⟩, by simp [triangle], trivial, by simp, by simp⟩

end Verif
