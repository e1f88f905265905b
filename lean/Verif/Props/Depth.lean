import Verif.Lemmas.DepthJoin
import Verif.Props.Group
import Mathlib.Data.Set.Card

/-!
# C65: how deep the recursive functions recurse
-/

set_option linter.unusedSectionVars false

namespace Verif

variable {V X R : Type} [DecidableEq V] [DecidableEq X] [DecidableEq R]

/-! ### `external_nodes` -/

/-- C65: `external_nodes` raises `RecursionError` exactly when there is a node as many steps away as nested calls are possible; otherwise the limit makes no
difference. -/
theorem C65_external_nodes (oN : Order (Node V X)) (oE : Order (Edge V X R)) (g : SampleGraph V X R) (hg : ∀ e ∈ g.edges, GoodEdge e)
    (f : Option (Finset (Rel V R))) (C : Finset (Node V X)) (hC : C ≠ ∅) (d : ℕ) :
    (g.externalNodesFuel oN oE f d C = .error .fuel ↔ ∃ n, DistIs g.edges f C n d) ∧
    (g.externalNodesFuel oN oE f d C ≠ .error .fuel → g.externalNodesFuel oN oE f d C = g.externalNodes oN oE C f) := by
  obtain ⟨r, hr, -⟩ := g.externalNodes_spec oN oE hg C hC f
  have hok : (¬ ∃ n, DistIs g.edges f C n d) → g.externalNodesFuel oN oE f d C = .ok r := fun h =>
    SampleGraph.externalNodesFuel_ok oN oE g hg f d C hC h r ⟨_, hr⟩
  have herr := SampleGraph.externalNodesFuel_error oN oE g hg f d C hC
  refine ⟨⟨fun h => ?_, herr⟩, fun h => ?_⟩
  · by_contra hn
    rw [hok hn] at h
    cases h
  · rw [hr, hok fun h' => h (herr h')]

/-- Non-vacuity: a path of three edges from its end needs four calls. -/
example : ∃ g : SampleGraph ℕ ℕ ℕ, (∀ e ∈ g.edges, GoodEdge e) ∧ (∃ n, DistIs g.edges none {⟨0, 0⟩} n 3) := by
  refine ⟨linkGraph {0, 1, 2, 3} {(0, 1), (1, 2), (2, 3)}, ?_, ⟨3, 0⟩, ⟨⟨0, 0⟩, by decide, ?_⟩, ?_⟩
  · intro e he
    simp only [linkGraph, Finset.mem_image, Finset.mem_insert, Finset.mem_singleton] at he
    obtain ⟨p, h | h | h, rfl⟩ := he <;> subst h <;> exact ⟨_, _, by decide, rfl⟩
  · exact ⟨⟨2, 0⟩, ⟨⟨1, 0⟩, ⟨⟨0, 0⟩, rfl, ⟨{⟨0, 0⟩, ⟨1, 0⟩}, .plain 0⟩, by decide, trivial, by decide, by decide⟩, ⟨{⟨1, 0⟩, ⟨2, 0⟩}, .plain 0⟩, by decide, trivial, by decide, by decide⟩,
      ⟨{⟨2, 0⟩, ⟨3, 0⟩}, .plain 0⟩, by decide, trivial, by decide, by decide⟩
  · have hadj : ∀ a b : Node ℕ ℕ, Adj (linkGraph {0, 1, 2, 3} {(0, 1), (1, 2), (2, 3)}).edges none a b → b.var ≤ a.var + 1 := by
      rintro a b ⟨e, he, -, ha, hb⟩
      simp only [linkGraph, Finset.mem_image, Finset.mem_insert, Finset.mem_singleton] at he
      obtain ⟨p, h | h | h, rfl⟩ := he <;> subst h <;> simp only [Finset.mem_insert, Finset.mem_singleton] at ha hb <;>
        rcases ha with rfl | rfl <;> rcases hb with rfl | rfl <;> simp
    have hw : ∀ k (a b : Node ℕ ℕ), Walk (linkGraph {0, 1, 2, 3} {(0, 1), (1, 2), (2, 3)}).edges none k a b → b.var ≤ a.var + k := by
      intro k
      induction k with
      | zero => intro a b h; cases h; omega
      | succ k ih => rintro a b ⟨c, h1, h2⟩; have := ih a c h1; have := hadj c b h2; omega
    rintro j hj ⟨c, hc, h⟩
    rw [Finset.mem_singleton] at hc
    subst hc
    have := hw j _ _ h
    simp only at this
    omega

/-! ### `is_edges_connected` -/

theorem connectedD_run (d : ℕ) (oE : Order (RawEdge V X R)) (oN : Order (V × X)) (edges : Finset (RawEdge V X R))
    (hne : edges.Nonempty) (h2 : ∀ e ∈ edges, e.1.card = 2) :
    ∃ (adj : V × X → List (V × X)) (start : V × X), start ∈ edges.biUnion Prod.fst ∧
      (∀ x y, y ∈ adj x ↔ x ≠ y ∧ Linked Prod.fst edges x y) ∧
      (isEdgesConnectedD d oE oN edges = .error .fuel ↔ traceD adj d start ∅ = none) ∧
      (∀ r, traceD adj d start ∅ = some r → isEdgesConnectedD d oE oN edges = isEdgesConnected oE oN edges ∧
        ∀ n, n ∈ r ↔ Relation.ReflTransGen (fun a b => b ∈ adj a) start n) := by
  obtain ⟨m, start, rest, hm, hks, hk, hg⟩ := tracing_facts oE oN edges hne h2
  set adj : V × X → List (V × X) := fun n => oN.run ((m.get? n).getD ∅) with hadj
  have hU : ∀ x, x ∈ m.keys.toFinset ↔ ∃ e ∈ edges, x ∈ e.1 := fun x => by rw [List.mem_toFinset, hk]
  have hclosed : ∀ n ∈ m.keys.toFinset, ∀ k ∈ adj n, k ∈ m.keys.toFinset := by
    intro n _ k hkn
    obtain ⟨-, e, he, -, hk2⟩ := (hg n k).1 hkn
    exact (hU k).2 ⟨e, he, hk2⟩
  have hstart : start ∈ m.keys.toFinset := by rw [List.mem_toFinset, hks]; simp
  have hcard : m.keys.toFinset.card = m.keys.length := List.toFinset_card_of_nodup m.nodup_keys
  have hample : traceD adj (m.keys.length + 1) start ∅ = some (trace adj (m.keys.length + 1) start ∅) :=
    traceD_eq adj _ hclosed _ start ∅ hstart (by simp) (by simp; omega)
  have hmono : ∀ d k r, traceD adj d start ∅ = some r → traceD adj (d + k) start ∅ = some r := by
    intro d k r h
    induction k with
    | zero => exact h
    | succ k ih => exact traceD_mono adj _ _ _ _ ih
  refine ⟨adj, start, ?_, hg, ?_, fun r hr => ?_⟩
  · obtain ⟨e, he, hx⟩ := (hU start).1 hstart
    exact Finset.mem_biUnion.2 ⟨e, he, hx⟩
  · unfold isEdgesConnectedD
    rw [hm]
    simp only [hks]
    cases h : traceD adj d start ∅ with
    | none => simp
    | some r => simp
  · have heq : r = trace adj (m.keys.length + 1) start ∅ := by
      have h1 := hmono _ (m.keys.length + 1) _ hr
      have h2 := hmono _ d _ hample
      rw [Nat.add_comm, h2] at h1
      exact (Option.some.inj h1).symm
    constructor
    · unfold isEdgesConnectedD isEdgesConnected
      rw [hm]
      simp only [hks]
      rw [show traceD (fun n => oN.run ((m.get? n).getD ∅)) d start ∅ = some r from hr, heq]
      simp only [hks, List.length_cons, ← hadj]
    · intro n
      rw [heq]
      exact mem_trace_iff adj _ hclosed start hstart _ (by omega) n

/-- C65: `is_edges_connected`. The limit makes no difference unless `RecursionError` is raised. More nested calls than there are nodes are not needed. If no error
is raised, then there is a node from which all connected nodes are at most two steps fewer away than nested calls are possible. -/
theorem C65_trace (d : ℕ) (oE : Order (RawEdge V X R)) (oN : Order (V × X)) (edges : Finset (RawEdge V X R))
    (hne : edges.Nonempty) (h2 : ∀ e ∈ edges, e.1.card = 2) :
    (isEdgesConnectedD d oE oN edges ≠ .error .fuel → isEdgesConnectedD d oE oN edges = isEdgesConnected oE oN edges) ∧
    ((edges.biUnion Prod.fst).card < d → isEdgesConnectedD d oE oN edges ≠ .error .fuel) ∧
    (isEdgesConnectedD d oE oN edges ≠ .error .fuel → ∃ s ∈ edges.biUnion Prod.fst, ∀ n, Relation.ReflTransGen (Linked Prod.fst edges) s n →
      ∃ k, k + 2 ≤ d ∧ StepsTo (Linked Prod.fst edges) k s n) := by
  obtain ⟨adj, start, hs, hadj, h3, h4⟩ := connectedD_run d oE oN edges hne h2
  have hclosed : ∀ n ∈ edges.biUnion Prod.fst, ∀ k ∈ adj n, k ∈ edges.biUnion Prod.fst := by
    intro n _ k hk
    obtain ⟨-, e, he, -, hk2⟩ := (hadj n k).1 hk
    exact Finset.mem_biUnion.2 ⟨e, he, hk2⟩
  have hsome : isEdgesConnectedD d oE oN edges ≠ .error .fuel → ∃ r, traceD adj d start ∅ = some r := by
    intro h
    cases hr : traceD adj d start ∅ with
    | none => exact absurd (h3.2 hr) h
    | some r => exact ⟨r, rfl⟩
  refine ⟨fun h => ?_, fun hc h => ?_, fun h => ?_⟩
  · obtain ⟨r, hr⟩ := hsome h
    exact (h4 r hr).1
  · have := traceD_eq adj _ hclosed d start ∅ hs (by simp) (by simpa using hc)
    rw [h3.1 h] at this
    cases this
  · obtain ⟨r, hr⟩ := hsome h
    refine ⟨start, hs, fun n hn => ?_⟩
    have hreach : Relation.ReflTransGen (fun a b => b ∈ adj a) start n := by
      induction hn with
      | refl => exact .refl
      | tail _ hbc ih =>
        rename_i b c _
        by_cases hbc' : b = c
        · exact hbc' ▸ ih
        · exact ih.tail ((hadj b c).2 ⟨hbc', hbc⟩)
    rcases traceD_near adj _ hclosed (by
      intro n hn h
      obtain ⟨e, he, hne⟩ := Finset.mem_biUnion.1 hn
      obtain ⟨m, hm, hmn⟩ := Finset.exists_mem_ne (by rw [h2 e he]; omega : 1 < e.1.card) n
      have := (hadj n m).2 ⟨Ne.symm hmn, e, he, hne, hm⟩
      rw [h] at this
      simp at this) d start ∅ r hs hr n (((h4 r hr).2 n).2 hreach) with h5 | ⟨k, hk, hst⟩
    · simp at h5
    · refine ⟨k, hk, ?_⟩
      have lift : ∀ k a, StepsTo (fun a b => b ∈ adj a) k a n → StepsTo (Linked Prod.fst edges) k a n := by
        intro k
        induction k with
        | zero => intro a h; exact h
        | succ k ih => rintro a ⟨c, hc, h⟩; exact ⟨c, ((hadj a c).1 hc).2, ih c h⟩
      exact lift k start hst

/-- C65: when any two nodes are linked, `RecursionError` is raised exactly when at most as many nested calls are possible as there are nodes, for all orders. -/
theorem C65_trace_complete (d : ℕ) (oE : Order (RawEdge V X R)) (oN : Order (V × X)) (edges : Finset (RawEdge V X R))
    (hne : edges.Nonempty) (h2 : ∀ e ∈ edges, e.1.card = 2)
    (hc : ∀ a ∈ edges.biUnion Prod.fst, ∀ b ∈ edges.biUnion Prod.fst, a ≠ b → Linked Prod.fst edges a b) :
    isEdgesConnectedD d oE oN edges = .error .fuel ↔ d ≤ (edges.biUnion Prod.fst).card := by
  obtain ⟨adj, start, hs, hadj, h3, h4⟩ := connectedD_run d oE oN edges hne h2
  constructor
  · intro h
    by_contra hd
    exact (C65_trace d oE oN edges hne h2).2.1 (by omega) h
  · intro h
    rw [h3]
    apply traceD_complete adj (edges.biUnion Prod.fst) ?_ ?_ d start ∅ hs (by simp) (by simpa using h)
    · intro n hn m
      rw [hadj]
      constructor
      · rintro ⟨h, e, he, h1, h2⟩; exact ⟨Finset.mem_biUnion.2 ⟨e, he, h2⟩, Ne.symm h⟩
      · rintro ⟨h1, h2⟩; exact ⟨Ne.symm h2, hc n hn m h1 (Ne.symm h2)⟩
    · obtain ⟨e, he⟩ := hne
      rw [← h2 e he]
      exact Finset.card_le_card fun x hx => Finset.mem_biUnion.2 ⟨e, he, hx⟩

/-- A line of `n` edges. -/
def lineEdges (n : ℕ) : Finset (RawEdge ℕ ℕ ℕ) := (Finset.range n).image fun i => ({(i, 0), (i + 1, 0)}, .plain 0)

/-- C65: for a line of `n` edges `RecursionError` is raised, whatever the orders, when about half as many nested calls are possible. -/
theorem C65_trace_line (n d : ℕ) (hn : 0 < n) (hd : 2 * d < n + 4) (oE : Order (RawEdge ℕ ℕ ℕ)) (oN : Order (ℕ × ℕ)) :
    isEdgesConnectedD d oE oN (lineEdges n) = .error .fuel := by
  by_contra h
  have hmem : ∀ i < n, (({(i, 0), (i + 1, 0)}, .plain 0) : RawEdge ℕ ℕ ℕ) ∈ lineEdges n := fun i hi =>
    Finset.mem_image.2 ⟨i, Finset.mem_range.2 hi, rfl⟩
  obtain ⟨s, hs, hnear⟩ := (C65_trace d oE oN (lineEdges n) ⟨_, hmem 0 hn⟩ (by
    intro e he
    obtain ⟨i, -, rfl⟩ := Finset.mem_image.1 he
    rw [Finset.card_pair (by simp)])).2.2 h
  have hstep : ∀ a b, Linked Prod.fst (lineEdges n) a b → a.1 ≤ b.1 + 1 ∧ b.1 ≤ a.1 + 1 := by
    rintro a b ⟨e, he, ha, hb⟩
    obtain ⟨i, -, rfl⟩ := Finset.mem_image.1 he
    simp only [Finset.mem_insert, Finset.mem_singleton] at ha hb
    rcases ha with rfl | rfl <;> rcases hb with rfl | rfl <;> simp only <;> omega
  have hsteps : ∀ k a b, StepsTo (Linked Prod.fst (lineEdges n)) k a b → a.1 ≤ b.1 + k ∧ b.1 ≤ a.1 + k := by
    intro k
    induction k with
    | zero => intro a b h; cases h; omega
    | succ k ih =>
      rintro a b ⟨c, h1, h2⟩
      have := hstep a c h1
      have := ih c b h2
      omega
  have hlink : ∀ i < n, Linked Prod.fst (lineEdges n) (i, 0) (i + 1, 0) := fun i hi => ⟨_, hmem i hi, by simp, by simp⟩
  have hlink' : ∀ i < n, Linked Prod.fst (lineEdges n) (i + 1, 0) (i, 0) := fun i hi => ⟨_, hmem i hi, by simp, by simp⟩
  have hsv : ∃ p ≤ n, s = (p, 0) := by
    obtain ⟨e, he, hse⟩ := Finset.mem_biUnion.1 hs
    obtain ⟨i, hi, rfl⟩ := Finset.mem_image.1 he
    rw [Finset.mem_range] at hi
    simp only [Finset.mem_insert, Finset.mem_singleton] at hse
    rcases hse with rfl | rfl
    · exact ⟨i, by omega, rfl⟩
    · exact ⟨i + 1, by omega, rfl⟩
  obtain ⟨p, hp, rfl⟩ := hsv
  have hup : ∀ j, p + j ≤ n → Relation.ReflTransGen (Linked Prod.fst (lineEdges n)) (p, 0) (p + j, 0) := by
    intro j
    induction j with
    | zero => intro _; exact .refl
    | succ j ih => intro h; exact (ih (by omega)).tail (hlink (p + j) (by omega))
  have hdown : ∀ j ≤ p, Relation.ReflTransGen (Linked Prod.fst (lineEdges n)) (p, 0) (p - j, 0) := by
    intro j
    induction j with
    | zero => intro _; exact .refl
    | succ j ih =>
      intro h
      refine (ih (by omega)).tail ?_
      have := hlink' (p - (j + 1)) (by omega)
      rwa [show p - (j + 1) + 1 = p - j by omega] at this
  obtain ⟨k1, hk1, hw1⟩ := hnear (n, 0) (by have := hup (n - p) (by omega); rwa [Nat.add_sub_cancel' hp] at this)
  obtain ⟨k2, hk2, hw2⟩ := hnear (0, 0) (by have := hdown p le_rfl; rwa [Nat.sub_self] at this)
  have h1 := hsteps k1 _ _ hw1
  have h2 := hsteps k2 _ _ hw2
  simp only at h1 h2
  omega

/-- Non-vacuity of `C65_trace_complete`: a triangle needs four nested calls. -/
example : let edges : Finset (RawEdge ℕ ℕ ℕ) := {({(0, 0), (1, 0)}, .plain 0), ({(1, 0), (2, 0)}, .plain 0), ({(2, 0), (0, 0)}, .plain 0)}
    (∀ e ∈ edges, e.1.card = 2) ∧ (edges.biUnion Prod.fst).card = 3 ∧
    ∀ a ∈ edges.biUnion Prod.fst, ∀ b ∈ edges.biUnion Prod.fst, a ≠ b → Linked Prod.fst edges a b := by
  refine ⟨by decide, by decide, ?_⟩
  unfold Linked
  decide

/-! ### `join_sample` -/

/-- C65: joining a well formed sample that can be joined to a non-empty builder. `join_edges` does not exceed `d` nested calls under any iteration order exactly when
each edge of the sample has an endpoint fewer than `d` steps away from the nodes of the builder. When no `RecursionError` is raised the limit makes no difference. -/
theorem C65_join_sample (d : ℕ) (b : Builder V X R) (hb : b.Inv) (hbn : b.nodes ≠ ∅) (smp : Sample V X R) (hw : WellFormed smp.graph)
    (he : smp.graph.edges ≠ ∅) (hj : Joinable b smp) :
    ((∀ oE, (b.joinSampleD d oE smp).2 ≠ some .fuel) ↔
      ∀ e ∈ smp.graph.edges, ∃ k < d, ∃ c ∈ b.nodes, ∃ n ∈ e.endpoints, Walk smp.graph.edges none k c n) ∧
    ∀ oE, (b.joinSampleD d oE smp).2 ≠ some .fuel → b.joinSampleD d oE smp = b.joinSample oE smp := by
  have hD : ∀ oE, b.joinSampleD d oE smp = Builder.joinEdges oE d smp.graph.edges b := by
    intro oE
    unfold Builder.joinSampleD
    rw [if_neg (by simpa using hj.prov), if_pos he]
  have hA : ∀ oE, b.joinSample oE smp = Builder.joinEdges oE smp.graph.edges.card smp.graph.edges b := by
    intro oE
    unfold Builder.joinSample
    rw [if_neg (by simpa using hj.prov), if_pos he]
  simp only [hD, hA]
  refine ⟨⟨fun h => ?_, fun h oE => Builder.joinEdges_near oE d _ b he h⟩, fun oE h => ?_⟩
  · set S := smp.graph.edges with hS
    let Q : Builder V X R → Prop := fun c => c.Inv ∧ b.nodes ⊆ c.nodes ∧ c.nodes ⊆ b.nodes ∪ smp.graph.nodes ∧ c.edges ⊆ b.edges ∪ S
    have hQ : ∀ c e, Q c → e ∈ S → c.touches e = true → c.joinOk e = true → Q (c.insertEdge e) := by
      rintro c e ⟨q1, q2, q3, q4⟩ heS ht hjk
      refine ⟨c.inv_join_step q1 e (hw.good e heS) ht hjk, q2.trans (c.mono_insertEdge e).1, ?_, ?_⟩
      · intro n hn
        simp only [Builder.insertEdge, Finset.mem_union] at hn
        rcases hn with hn | hn
        · exact q3 hn
        · exact Finset.mem_union_right _ (hw.closed e heS hn)
      · intro e' he'
        simp only [Builder.insertEdge, Finset.mem_insert] at he'
        rcases he' with rfl | he'
        · exact Finset.mem_union_right _ heS
        · exact q4 he'
    have hJ : ∀ c e, Q c → e ∈ S → c.touches e = true → c.joinOk e = true := by
      rintro c e ⟨q1, q2, q3, q4⟩ heS ht
      rw [c.joinOk_iff q1]
      constructor
      · intro e' he' hee
        rcases Finset.mem_union.1 (q4 he') with h | h
        · exact hj.relations e heS e' h hee
        · rw [hw.onePer e' h e heS hee]
      · intro n hn hnc m hm hv
        have : m = n := hj.values n (hw.closed e heS hn) (fun h => hnc (q2 h)) m (q3 hm) hv
        subst this; exact hnc hm
    -- all nodes of the sample are at some distance of the builder
    have hwalk : ∀ a n, Relation.ReflTransGen (Linked Edge.endpoints S) a n → ∃ k, Walk S none k a n := by
      intro a n h
      induction h with
      | refl => exact ⟨0, rfl⟩
      | tail _ hbc ih =>
        obtain ⟨k, hk⟩ := ih
        obtain ⟨e, he, h1, h2⟩ := hbc
        exact ⟨k + 1, _, hk, e, he, trivial, h1, h2⟩
    have hdist : ∀ n ∈ smp.graph.nodes, ∃ k, DistIs S none b.nodes n k := by
      intro n hn
      rcases hj.touch with h | ⟨a, ha, hab⟩
      · exact absurd h hbn
      · obtain ⟨k, hk⟩ := hwalk a n (hw.conn a ha n hn)
        obtain ⟨j, -, hj⟩ := DistIs.exists_le ⟨a, hab, hk⟩
        exact ⟨j, hj⟩
    have hex : ∀ e, ∃ k, e ∈ S → (∃ n ∈ e.endpoints, DistIs S none b.nodes n k) ∧ ∀ n ∈ e.endpoints, ∀ j, DistIs S none b.nodes n j → k ≤ j := by
      intro e
      by_cases heS : e ∈ S
      · classical
        have hx : ∃ k, ∃ n ∈ e.endpoints, DistIs S none b.nodes n k := by
          obtain ⟨a, a', -, hep⟩ := hw.good e heS
          have ha : a ∈ e.endpoints := by rw [hep]; simp
          obtain ⟨k, hk⟩ := hdist a (hw.closed e heS ha)
          exact ⟨k, a, ha, hk⟩
        exact ⟨Nat.find hx, fun _ => ⟨Nat.find_spec hx, fun n hn j hj => Nat.find_min' hx ⟨n, hn, hj⟩⟩⟩
      · exact ⟨0, fun h => absurd h heS⟩
    choose lev hlev using hex
    by_contra hcon
    push Not at hcon
    obtain ⟨e0, he0, hfar⟩ := hcon
    have hle : d ≤ lev e0 := by
      by_contra hlt
      obtain ⟨n, hn, ⟨c, hc, hwk⟩, -⟩ := (hlev e0 he0).1
      exact hfar (lev e0) (by omega) c hc n hn hwk
    have hfuel := Builder.joinEdges_far Q S b.nodes hw.good hQ hJ lev hlev d 0 b
      ⟨hb, fun _ h => h, Finset.subset_union_left, Finset.subset_union_left⟩ (by
        intro e heS n hn
        rw [← DistIs.zero_iff (E := S) (f := none)]
        constructor
        · intro h; exact ⟨0, le_rfl, h⟩
        · rintro ⟨k, hk, h⟩
          have : k = 0 := by omega
          rwa [this] at h) hbn ⟨e0, he0, by omega⟩
    rw [show S.filter (fun e => 0 ≤ lev e) = S by simp] at hfuel
    exact h _ hfuel
  · apply Builder.joinEdges_eq oE d _ _ b h
    rcases Builder.joinEdges_no_fuel oE _ _ he le_rfl b with h | h <;> rw [h] <;> simp

/-! ### `group_intersecting` -/

/-- The sets of linked pairs that occur in the sample set. -/
def linkSets (b : Samples V X R) : Set (Set (V ⊕ Finset V)) := {P | ∃ g c, b.samples.get? g = some c ∧ P = {x | Links g x}}

theorem linkSets_ncard (b : Samples V X R) : (linkSets b).ncard = (Samples.groupInit b.samples).keys.length := by
  obtain ⟨-, -, i3⟩ := Samples.groupInit_inv b.samples
  rw [← List.toFinset_card_of_nodup (Samples.groupInit b.samples).nodup_keys, ← Set.ncard_coe_finset]
  apply Eq.symm
  apply Set.ncard_congr (fun k _ => {x | x ∈ k})
  · intro k hk
    rw [Finset.mem_coe, List.mem_toFinset] at hk
    obtain ⟨g, c, hg, rfl⟩ := (i3 k).1 hk
    exact ⟨g, c, hg, Set.ext fun x => mem_groupKey g x⟩
  · intro k k' _ _ h
    ext x
    exact Set.ext_iff.1 h x
  · rintro P ⟨g, c, hg, rfl⟩
    refine ⟨Samples.groupKey g, ?_, Set.ext fun x => mem_groupKey g x⟩
    rw [Finset.mem_coe, List.mem_toFinset, i3]
    exact ⟨g, c, hg, rfl⟩

/-- C65: `group_intersecting`. There is a number `m` of merged pairs such that `RecursionError` is raised exactly when at most `m` nested calls are possible; otherwise the limit
makes no difference. With `K` different sets of linked pairs in the set and `F` groups returned, `m` is at most `K - F` and at least half of this; when no sample
is lost, it is `K - F`. -/
theorem C65_group_intersecting (iter : V → Option (Finset V)) (b : Samples V X R) : ∃ m,
    (∀ d, b.groupIntersectingD d iter = .error .fuel ↔ d ≤ m) ∧
    (∀ d, m < d → b.groupIntersectingD d iter = b.groupIntersecting iter) ∧
    ∀ gr, b.groupIntersecting iter = .ok gr → m + gr.entries.length ≤ (linkSets b).ncard ∧ (linkSets b).ncard ≤ 2 * m + gr.entries.length ∧
      (PairsSeparate b → m + gr.entries.length = (linkSets b).ncard) := by
  obtain ⟨m, acc', h1, h2, h3, h4, h5⟩ := Samples.groupLoop_depth _ (Samples.groupInit b.samples) le_rfl
  have hsame : ∀ d, m < d → b.groupIntersectingD d iter = b.groupIntersecting iter := by
    intro d hd
    unfold Samples.groupIntersectingD Samples.groupIntersecting
    rw [h2 d hd]
    simp only
    rw [h2 ((Samples.groupInit b.samples).keys.length + 1) (by omega)]
    rfl
  refine ⟨m, fun d => ⟨fun h => ?_, fun h => ?_⟩, hsame, fun gr hgr => ?_⟩
  · by_contra hd
    rw [hsame d (by omega)] at h
    rcases (C24_failures iter b).2 _ h with h | h <;> cases h
  · unfold Samples.groupIntersectingD
    rw [h1 d h]
  · have hlen : gr.entries.length = acc'.keys.length := by
      unfold Samples.groupIntersecting at hgr
      simp only at hgr
      rw [h2 ((Samples.groupInit b.samples).keys.length + 1) (by omega)] at hgr
      simp only at hgr
      split at hgr
      · cases hgr
      · rename_i l _
        split at hgr
        · rename_i h
          cases hgr
          rw [h, Dict.keys, List.length_map]
        · cases hgr
    rw [hlen, linkSets_ncard]
    exact ⟨h3, h4, fun hs => h5 _ ((pairsSeparate_iff b).1 hs) (Samples.blocks_init _)⟩

/-- The samples that link the variables 0 and 1, and 1 and `i + 2`, for `i < n`. -/
def fanSample (i : ℕ) : SampleGraph ℕ ℕ ℕ := linkGraph {0, 1, i + 2} {(0, 1), (1, i + 2)}

theorem fanSample_inj : Function.Injective fanSample := by
  intro i j h
  have h1 : (⟨i + 2, 0⟩ : Node ℕ ℕ) ∈ (fanSample j).nodes := by
    rw [← h]; simp [fanSample, linkGraph]
  simp only [fanSample, linkGraph, Finset.mem_image, Finset.mem_insert, Finset.mem_singleton, Node.mk.injEq, and_true] at h1
  obtain ⟨a, h1 | h1 | h1, h2⟩ := h1 <;> omega

/-- The set of the first `n` of them. -/
def fanSet (n : ℕ) : Samples ℕ ℕ ℕ :=
  ⟨0, ⟨(List.range n).map fun i => (fanSample i, 1), by
    rw [List.map_map]
    exact List.Nodup.map (fun i j h => fanSample_inj h) List.nodup_range⟩⟩

theorem fanSet_get (n : ℕ) (g : SampleGraph ℕ ℕ ℕ) (c : ℤ) : (fanSet n).samples.get? g = some c ↔ c = 1 ∧ ∃ i < n, fanSample i = g := by
  rw [← Dict.mem_entries]
  simp only [fanSet, List.mem_map, List.mem_range, Prod.mk.injEq]
  constructor
  · rintro ⟨i, hi, h1, h2⟩; exact ⟨h2.symm, i, hi, h1⟩
  · rintro ⟨h, i, hi, h1⟩; exact ⟨i, hi, h1, h.symm⟩

theorem fan_links (i : ℕ) (x : ℕ ⊕ Finset ℕ) : Links (fanSample i) x ↔ x = .inr {0, 1} ∨ x = .inr {1, i + 2} := by
  have himg : ∀ p : ℕ × ℕ, ({⟨p.1, 0⟩, ⟨p.2, 0⟩} : Finset (Node ℕ ℕ)).image Node.var = {p.1, p.2} := by
    intro p; rw [Finset.image_insert, Finset.image_singleton]
  cases x with
  | inl v =>
    simp only [Links, fanSample, linkGraph, reduceCtorEq, or_self, iff_false]
    rintro ⟨h, -⟩
    have : (⟨{⟨0, 0⟩, ⟨1, 0⟩}, .plain 0⟩ : Edge ℕ ℕ ℕ) ∈ (∅ : Finset (Edge ℕ ℕ ℕ)) := by
      rw [← h]
      exact Finset.mem_image.2 ⟨(0, 1), by simp, rfl⟩
    simp at this
  | inr vs =>
    simp only [Links, fanSample, linkGraph, Sum.inr.injEq, Finset.mem_image]
    constructor
    · rintro ⟨e, ⟨p, hp, rfl⟩, rfl⟩
      simp only at *
      rw [himg p]
      rw [Finset.mem_insert, Finset.mem_singleton] at hp
      rcases hp with rfl | rfl
      · exact Or.inl rfl
      · exact Or.inr rfl
    · rintro (rfl | rfl)
      · exact ⟨_, ⟨(0, 1), by simp, rfl⟩, himg (0, 1)⟩
      · exact ⟨_, ⟨(1, i + 2), by simp, rfl⟩, himg (1, i + 2)⟩

/-- C65: a set of `n` well formed samples with a common pair for which `group` nests `n` calls. -/
theorem C65_group_fan (n : ℕ) (hn : 0 < n) (iter : ℕ → Option (Finset ℕ)) :
    (fanSet n).samples.entries.length = n ∧ (∀ g c, (fanSet n).samples.get? g = some c → WellFormed g) ∧
    ∀ d, (fanSet n).groupIntersectingD d iter = .error .fuel ↔ d < n := by
  have hpair : ∀ i j : ℕ, ({1, i + 2} : Finset ℕ) = {1, j + 2} → i = j := by
    intro i j h
    have : i + 2 ∈ ({1, j + 2} : Finset ℕ) := by rw [← h]; simp
    simp only [Finset.mem_insert, Finset.mem_singleton] at this
    omega
  have hpair' : ∀ i : ℕ, ({1, i + 2} : Finset ℕ) ≠ {0, 1} := by
    intro i h
    have : i + 2 ∈ ({0, 1} : Finset ℕ) := by rw [← h]; simp
    simp only [Finset.mem_insert, Finset.mem_singleton] at this
    omega
  refine ⟨by simp [fanSet], fun g c hg => ?_, ?_⟩
  · obtain ⟨-, i, -, rfl⟩ := (fanSet_get n g c).1 hg
    have hedge : ∀ e ∈ (fanSample i).edges, e = ⟨{⟨0, 0⟩, ⟨1, 0⟩}, .plain 0⟩ ∨ e = ⟨{⟨1, 0⟩, ⟨i + 2, 0⟩}, .plain 0⟩ := by
      intro e he
      obtain ⟨p, hp, rfl⟩ := Finset.mem_image.1 he
      rw [Finset.mem_insert, Finset.mem_singleton] at hp
      rcases hp with rfl | rfl
      · exact Or.inl rfl
      · exact Or.inr rfl
    have hnode : ∀ m, m ∈ (fanSample i).nodes ↔ m = ⟨0, 0⟩ ∨ m = ⟨1, 0⟩ ∨ m = ⟨i + 2, 0⟩ := by
      intro m
      simp only [fanSample, linkGraph, Finset.mem_image, Finset.mem_insert, Finset.mem_singleton, exists_eq_or_imp, exists_eq_left]
      constructor
      · rintro (h | h | h) <;> simp [h]
      · rintro (h | h | h) <;> simp [h]
    have e1 : (⟨{⟨0, 0⟩, ⟨1, 0⟩}, .plain 0⟩ : Edge ℕ ℕ ℕ) ∈ (fanSample i).edges := Finset.mem_image.2 ⟨(0, 1), by simp, rfl⟩
    have e2 : (⟨{⟨1, 0⟩, ⟨i + 2, 0⟩}, .plain 0⟩ : Edge ℕ ℕ ℕ) ∈ (fanSample i).edges := Finset.mem_image.2 ⟨(1, i + 2), by simp, rfl⟩
    refine ⟨?_, ?_, ?_, ?_⟩
    · intro e he m hm
      rw [hnode]
      rcases hedge e he with rfl | rfl <;> simp only [Finset.mem_insert, Finset.mem_singleton] at hm <;> tauto
    · intro e he
      rcases hedge e he with rfl | rfl
      · exact ⟨⟨0, 0⟩, ⟨1, 0⟩, by simp, rfl⟩
      · exact ⟨⟨1, 0⟩, ⟨i + 2, 0⟩, by simp, rfl⟩
    · intro e he e' he' h
      have hne : ({⟨0, 0⟩, ⟨1, 0⟩} : Finset (Node ℕ ℕ)) ≠ {⟨1, 0⟩, ⟨i + 2, 0⟩} := by
        intro h
        have : (⟨0, 0⟩ : Node ℕ ℕ) ∈ ({⟨1, 0⟩, ⟨i + 2, 0⟩} : Finset (Node ℕ ℕ)) := by rw [← h]; simp
        simp at this
      rcases hedge e he with rfl | rfl <;> rcases hedge e' he' with rfl | rfl
      · rfl
      · exact absurd h hne
      · exact absurd h.symm hne
      · rfl
    · have l1 : ∀ a ∈ (fanSample i).nodes, Relation.ReflTransGen (Linked Edge.endpoints (fanSample i).edges) a ⟨1, 0⟩ ∧
          Relation.ReflTransGen (Linked Edge.endpoints (fanSample i).edges) ⟨1, 0⟩ a := by
        intro a ha
        rcases (hnode a).1 ha with rfl | rfl | rfl
        · exact ⟨.single ⟨_, e1, by simp, by simp⟩, .single ⟨_, e1, by simp, by simp⟩⟩
        · exact ⟨.refl, .refl⟩
        · exact ⟨.single ⟨_, e2, by simp, by simp⟩, .single ⟨_, e2, by simp, by simp⟩⟩
      intro a ha b hb
      exact (l1 a ha).1.trans (l1 b hb).2
  · have hown : PairsOwn (fanSet n) := by
      intro g c hg
      obtain ⟨-, i, -, rfl⟩ := (fanSet_get n g c).1 hg
      refine ⟨.inr {1, i + 2}, (fan_links i _).2 (Or.inr rfl), fun g' c' hg' hl => ?_⟩
      obtain ⟨-, j, -, rfl⟩ := (fanSet_get n g' c').1 hg'
      rcases (fan_links j _).1 hl with h | h
      · rw [Sum.inr.injEq] at h
        exact absurd h (hpair' i)
      · rw [Sum.inr.injEq] at h
        rw [hpair _ _ h]
        exact fun y => Iff.rfl
    have hsep := C24_own hown
    have hshare : ∀ i j, SharesPair (fanSample i) (fanSample j) := by
      intro i j
      rw [sharesPair_iff]
      exact ⟨.inr {0, 1}, (mem_groupKey _ _).2 ((fan_links i _).2 (Or.inl rfl)), (mem_groupKey _ _).2 ((fan_links j _).2 (Or.inl rfl))⟩
    have hne : ∀ g c, (fanSet n).samples.get? g = some c → g.nodes.Nonempty := by
      intro g c hg
      obtain ⟨-, i, -, rfl⟩ := (fanSet_get n g c).1 hg
      exact ⟨⟨0, 0⟩, by simp [fanSample, linkGraph]⟩
    obtain ⟨m, h1, h2, h3⟩ := C65_group_intersecting iter (fanSet n)
    obtain ⟨gr, hgr⟩ : Returns ((fanSet n).groupIntersecting iter) := by
      rw [(C24_complete iter (fanSet n) hsep hne).2]
      constructor
      · rintro ⟨g, c, hg, he, -⟩
        obtain ⟨-, i, -, rfl⟩ := (fanSet_get n g c).1 hg
        have : (⟨{⟨0, 0⟩, ⟨1, 0⟩}, .plain 0⟩ : Edge ℕ ℕ ℕ) ∈ (fanSample i).edges := Finset.mem_image.2 ⟨(0, 1), by simp, rfl⟩
        rw [he] at this
        simp at this
      · intro g c g' c' hg hg' _
        obtain ⟨-, i, -, rfl⟩ := (fanSet_get n g c).1 hg
        obtain ⟨-, j, -, rfl⟩ := (fanSet_get n g' c').1 hg'
        exact .single ⟨⟨c, hg⟩, ⟨c', hg'⟩, hshare i j⟩
    have hF : gr.entries.length = 1 := by
      obtain ⟨s1, s2, -⟩ := C24_sound iter (fanSet n) gr hgr
      have hcov := ((C24_complete iter (fanSet n) hsep hne).1 gr hgr).1 (fanSample 0) 1 ((fanSet_get n _ _).2 ⟨rfl, 0, hn, rfl⟩)
      obtain ⟨K, s, hK, hs⟩ := hcov
      have hall : ∀ p ∈ gr.entries, p = (K, s) := by
        intro p hp
        have hp' := (gr.mem_entries' p).1 hp
        obtain ⟨-, ⟨g, c, hg⟩, hsub, -⟩ := s1 p.1 p.2 hp'
        obtain ⟨-, i, -, rfl⟩ := (fanSet_get n g c).1 (hsub g c hg)
        by_cases hkk : p.1 = K
        · rw [hkk, hK, Option.some.injEq] at hp'
          exact Prod.ext hkk hp'.symm
        · exact absurd (hshare i 0) (s2 _ _ _ _ _ _ _ _ hp' hK hkk hg hs).2
      have hmem : (K, s) ∈ gr.entries := (gr.mem_entries K s).2 hK
      have hnd : gr.entries.Nodup := List.Nodup.of_map _ gr.nodup
      match hl : gr.entries with
      | [] => rw [hl] at hmem; simp at hmem
      | [_] => rfl
      | p :: q :: t =>
        exfalso
        rw [hl] at hall hnd
        rw [List.nodup_cons] at hnd
        apply hnd.1
        rw [hall p (by simp), ← hall q (by simp)]
        simp
    have hK : (linkSets (fanSet n)).ncard = n := by
      have : linkSets (fanSet n) = (fun i => {x | Links (fanSample i) x}) '' (Finset.range n : Set ℕ) := by
        ext P
        simp only [linkSets, fanSet_get, Set.mem_setOf_eq, Set.mem_image, Finset.mem_coe, Finset.mem_range]
        constructor
        · rintro ⟨g, c, ⟨-, i, hi, rfl⟩, rfl⟩; exact ⟨i, hi, rfl⟩
        · rintro ⟨i, hi, rfl⟩; exact ⟨_, 1, ⟨rfl, i, hi, rfl⟩, rfl⟩
      rw [this, Set.ncard_image_of_injOn, Set.ncard_coe_finset, Finset.card_range]
      intro i _ j _ h
      have h' : Links (fanSample j) (.inr {1, i + 2}) := (Set.ext_iff.1 h (.inr {1, i + 2})).1 ((fan_links i _).2 (Or.inr rfl))
      rcases (fan_links j _).1 h' with h | h
      · rw [Sum.inr.injEq] at h
        exact absurd h (hpair' i)
      · rw [Sum.inr.injEq] at h
        exact hpair _ _ h
    have := (h3 gr hgr).2.2 hsep
    intro d
    rw [h1]
    omega

/-- Non-vacuity of `C65_join_sample`: joining the path 0 - 1 - 2 to the node 0 takes two nested calls for some order, and never more. -/
example : ∃ (b : Builder ℕ ℕ ℕ) (smp : Sample ℕ ℕ ℕ), b.Inv ∧ b.nodes ≠ ∅ ∧ WellFormed smp.graph ∧ smp.graph.edges ≠ ∅ ∧ Joinable b smp ∧
    (∃ oE, (b.joinSampleD 1 oE smp).2 = some .fuel) ∧ ∀ oE, (b.joinSampleD 2 oE smp).2 ≠ some .fuel := by
  have hb : (⟨0, {⟨0, 0⟩}, ∅, Dict.empty⟩ : Builder ℕ ℕ ℕ).Inv := by
    refine ⟨⟨by simp [Builder.graph], by simp [Builder.graph], by intro e he; simp [Builder.graph] at he, ?_⟩, ?_⟩
    · intro a ha b hb
      simp only [Builder.graph, Finset.coe_singleton, Set.mem_singleton_iff] at ha hb
      rw [ha, hb]
    · simp
  have hw : WellFormed (fanSample 0) := (C65_group_fan 1 (by omega) fun _ => none).2.1 (fanSample 0) 1 ((fanSet_get 1 _ _).2 ⟨rfl, 0, by omega, rfl⟩)
  have hj : Joinable (⟨0, {⟨0, 0⟩}, ∅, Dict.empty⟩ : Builder ℕ ℕ ℕ) ⟨0, fanSample 0⟩ := by
    refine ⟨rfl, Or.inr ⟨⟨0, 0⟩, by decide, by decide⟩, by decide, by simp⟩
  have he : (fanSample 0).edges ≠ ∅ := by decide
  refine ⟨_, ⟨0, fanSample 0⟩, hb, by simp, hw, he, hj, ?_, ?_⟩
  · by_contra hcon
    push Not at hcon
    have h1 := (C65_join_sample 1 _ hb (by simp) ⟨0, fanSample 0⟩ hw he hj).1.1 hcon
    obtain ⟨k, hk, c, hc, n, hn, hwk⟩ := h1 ⟨{⟨1, 0⟩, ⟨2, 0⟩}, .plain 0⟩ (by decide)
    have : k = 0 := by omega
    subst this
    cases hwk
    simp only [Finset.mem_singleton] at hc
    subst hc
    simp at hn
  · refine (C65_join_sample 2 _ hb (by simp) ⟨0, fanSample 0⟩ hw he hj).1.2 fun e he => ?_
    have hee : e = ⟨{⟨0, 0⟩, ⟨1, 0⟩}, .plain 0⟩ ∨ e = ⟨{⟨1, 0⟩, ⟨2, 0⟩}, .plain 0⟩ := by
      simpa [fanSample, linkGraph] using he
    rcases hee with rfl | rfl
    · exact ⟨0, by omega, ⟨0, 0⟩, by simp, ⟨0, 0⟩, by simp, rfl⟩
    · exact ⟨1, by omega, ⟨0, 0⟩, by simp, ⟨1, 0⟩, by simp, ⟨0, 0⟩, rfl, ⟨{⟨0, 0⟩, ⟨1, 0⟩}, .plain 0⟩, by decide, trivial, by simp, by simp⟩

end Verif
