import Verif.Model.SampleGraphBuilder
import Verif.Spec.Graph

/-! Helper lemmas on `SampleGraphBuilder`: the invariant and the work-list loop of `join_sample`. -/

set_option linter.unusedSectionVars false

namespace Verif
open Relation

section conn
variable {N ε : Type} {ep : ε → Finset N} {E : Finset ε}

theorem Linked.symm {a b : N} (h : Linked ep E a b) : Linked ep E b a := by
  obtain ⟨e, he, h1, h2⟩ := h; exact ⟨e, he, h2, h1⟩

theorem Linked.mono {E' : Finset ε} (hs : E ⊆ E') {a b : N} (h : Linked ep E a b) : Linked ep E' a b := by
  obtain ⟨e, he, h1, h2⟩ := h; exact ⟨e, hs he, h1, h2⟩

theorem reach_symm {a b : N} (h : ReflTransGen (Linked ep E) a b) : ReflTransGen (Linked ep E) b a := by
  induction h with
  | refl => exact .refl
  | tail _ hbc ih => exact ReflTransGen.head hbc.symm ih

theorem reach_mono {E' : Finset ε} (hs : E ⊆ E') {a b : N} (h : ReflTransGen (Linked ep E) a b) :
    ReflTransGen (Linked ep E') a b := by
  induction h with
  | refl => exact .refl
  | tail _ hbc ih => exact ih.tail (hbc.mono hs)

/-- Attaching an edge that touches the connected set keeps it connected. -/
theorem connectedBy_insert [DecidableEq N] [DecidableEq ε] (ns : Finset N) (e : ε)
    (h : ConnectedBy ep E (ns : Set N)) (ht : ¬ Disjoint (ep e) ns ∨ ns = ∅) :
    ConnectedBy ep (insert e E) ((ns ∪ ep e : Finset N) : Set N) := by
  have hs : E ⊆ insert e E := Finset.subset_insert _ _
  have hin : ∀ a ∈ ep e, ∀ b ∈ ep e, ReflTransGen (Linked ep (insert e E)) a b :=
    fun a ha b hb => .single ⟨e, by simp, ha, hb⟩
  rcases ht with ht | rfl
  · rw [Finset.not_disjoint_iff] at ht
    obtain ⟨c, hc1, hc2⟩ := ht
    have key : ∀ a ∈ ns ∪ ep e, ReflTransGen (Linked ep (insert e E)) a c := by
      intro a ha
      rcases Finset.mem_union.1 ha with ha | ha
      · exact reach_mono hs (h a ha c hc2)
      · exact hin a ha c hc1
    intro a ha b hb
    exact (key a ha).trans (reach_symm (key b hb))
  · intro a ha b hb
    simp only [Finset.empty_union, Finset.mem_coe] at ha hb
    exact hin a ha b hb

/-- A connected set with one node in `P` and one outside has an edge leaving `P`. -/
theorem exists_leaving {P : N → Prop} {a b : N} (h : ReflTransGen (Linked ep E) a b) (ha : P a) (hb : ¬ P b) :
    ∃ e ∈ E, (∃ x ∈ ep e, P x) ∧ (∃ y ∈ ep e, ¬ P y) := by
  induction h with
  | refl => exact absurd ha hb
  | @tail x y _ hxy ih =>
    by_cases hx : P x
    · obtain ⟨e, he, h1, h2⟩ := hxy
      exact ⟨e, he, ⟨x, h1, hx⟩, ⟨y, h2, hb⟩⟩
    · exact ih hx

end conn

variable {V X R : Type} [DecidableEq V] [DecidableEq X] [DecidableEq R]

theorem GoodEdge.nonempty {e : Edge V X R} (h : GoodEdge e) : e.endpoints.Nonempty := by
  obtain ⟨a, b, _, h⟩ := h; rw [h]; exact ⟨a, by simp⟩

theorem GoodEdge.card {e : Edge V X R} (h : GoodEdge e) : e.endpoints.card = 2 := by
  obtain ⟨a, b, hne, h⟩ := h
  rw [h, Finset.card_pair]; rintro rfl; exact hne rfl

theorem GoodEdge.inj {e : Edge V X R} (h : GoodEdge e) {a b : Node V X} (ha : a ∈ e.endpoints) (hb : b ∈ e.endpoints)
    (hv : a.var = b.var) : a = b := by
  obtain ⟨c, d, hne, h⟩ := h
  rw [h] at ha hb
  simp only [Finset.mem_insert, Finset.mem_singleton] at ha hb
  rcases ha with rfl | rfl <;> rcases hb with rfl | rfl
  · rfl
  · exact absurd hv hne
  · exact absurd hv.symm hne
  · rfl

/-- In a connected graph with an edge every node is an endpoint. -/
theorem WellFormed.nodes_eq {g : SampleGraph V X R} (h : WellFormed g) (hne : g.edges ≠ ∅) :
    g.nodes = g.edges.biUnion Edge.endpoints := by
  apply Finset.Subset.antisymm
  · intro n hn
    obtain ⟨e, he⟩ := Finset.nonempty_iff_ne_empty.2 hne
    obtain ⟨m, hm⟩ := (h.good e he).nonempty
    rcases ReflTransGen.cases_head (h.conn n hn m (h.closed e he hm)) with heq | ⟨c, ⟨e', he', h1, -⟩, -⟩
    · subst heq; exact Finset.mem_biUnion.2 ⟨e, he, hm⟩
    · exact Finset.mem_biUnion.2 ⟨e', he', h1⟩
  · intro n hn
    obtain ⟨e, he, hne⟩ := Finset.mem_biUnion.1 hn
    exact h.closed e he hne

/-- A connected graph without edges has at most one node. -/
theorem WellFormed.card_le_one {g : SampleGraph V X R} (h : WellFormed g) (he : g.edges = ∅) : g.nodes.card ≤ 1 := by
  rw [Finset.card_le_one]
  intro a ha b hb
  rcases ReflTransGen.cases_head (h.conn a ha b hb) with heq | ⟨c, ⟨e', he', -⟩, -⟩
  · exact heq
  · rw [he] at he'; simp at he'

namespace Builder

theorem inv_new (prov : Nat) : (new prov : Builder V X R).Inv := by
  constructor
  · constructor <;> simp [graph, new, OnePerPair, ConnectedBy]
  · simp [new]

theorem touches_iff (b : Builder V X R) (e : Edge V X R) :
    b.touches e = true ↔ ¬ Disjoint e.endpoints b.nodes ∨ b.nodes = ∅ := by
  simp [touches]

theorem inv_insertEdge (b : Builder V X R) (hb : b.Inv) (e : Edge V X R) (hg : GoodEdge e)
    (ht : ¬ Disjoint e.endpoints b.nodes ∨ b.nodes = ∅)
    (hu : ∀ e' ∈ b.edges, e'.endpoints = e.endpoints → e' = e) : (b.insertEdge e).Inv := by
  constructor
  · constructor
    · intro e' he'
      simp only [graph, insertEdge, Finset.mem_insert] at he' ⊢
      rcases he' with rfl | he'
      · exact Finset.subset_union_right
      · exact (hb.wf.closed e' he').trans Finset.subset_union_left
    · intro e' he'
      simp only [graph, insertEdge, Finset.mem_insert] at he'
      rcases he' with rfl | he'
      · exact hg
      · exact hb.wf.good e' he'
    · intro e1 h1 e2 h2 heq
      simp only [graph, insertEdge, Finset.mem_insert] at h1 h2
      rcases h1 with rfl | h1 <;> rcases h2 with rfl | h2
      · rfl
      · exact (hu _ h2 heq.symm).symm
      · exact hu _ h1 heq
      · exact hb.wf.onePer _ h1 _ h2 heq
    · exact connectedBy_insert b.nodes e hb.wf.conn ht
  · intro k e'
    simp only [insertEdge, Dict.get?_set, Finset.mem_insert]
    split
    · rename_i hk
      simp only [Option.some.injEq]
      constructor
      · rintro rfl; exact ⟨Or.inl rfl, hk⟩
      · rintro ⟨rfl | h, hk'⟩
        · rfl
        · exact (hu _ h (hk'.trans hk.symm)).symm
    · rename_i hk
      rw [hb.index]
      constructor
      · rintro ⟨h, h'⟩; exact ⟨Or.inr h, h'⟩
      · rintro ⟨rfl | h, h'⟩
        · exact absurd h' hk
        · exact ⟨h, h'⟩

theorem joinOk_iff (b : Builder V X R) (hb : b.Inv) (e : Edge V X R) :
    b.joinOk e = true ↔ (∀ e' ∈ b.edges, e'.endpoints = e.endpoints → e'.relation = e.relation) ∧
      (∀ n ∈ e.endpoints, n ∉ b.nodes → ∀ m ∈ b.nodes, m.var ≠ n.var) := by
  unfold joinOk
  rw [Bool.and_eq_true, decide_eq_true_eq]
  apply and_congr
  · cases h : b.eps.get? e.endpoints with
    | none =>
      simp only [true_iff]
      intro e' he' hee
      have := (hb.index _ e').2 ⟨he', hee⟩
      rw [h] at this; simp at this
    | some e1 =>
      obtain ⟨h1, h2⟩ := (hb.index _ _).1 h
      simp only [decide_eq_true_eq]
      constructor
      · intro hr e' he' hee
        rw [hb.wf.onePer e' he' e1 h1 (hee.trans h2.symm), hr]
      · intro hr; exact (hr e1 h1 h2).symm
  · constructor
    · intro h n hn hnb m hm hv
      rcases h n hn with h | h
      · exact h (Finset.mem_image.2 ⟨m, hm, hv⟩)
      · exact hnb h
    · intro h n hn
      by_cases hnb : n ∈ b.nodes
      · exact Or.inr hnb
      · left
        intro hc
        obtain ⟨m, hm, hv⟩ := Finset.mem_image.1 hc
        exact h n hn hnb m hm hv

/-- One accepted step of `join_edges` keeps the invariant. -/
theorem inv_join_step (b : Builder V X R) (hb : b.Inv) (e : Edge V X R) (hg : GoodEdge e)
    (ht : b.touches e = true) (hj : b.joinOk e = true) : (b.insertEdge e).Inv := by
  refine inv_insertEdge b hb e hg ((b.touches_iff e).1 ht) ?_
  intro e' he' hee
  have := ((b.joinOk_iff hb e).1 hj).1 e' he' hee
  cases e; cases e'; simp_all

/-- … and single-valuedness. -/
theorem singleValued_join_step (b : Builder V X R) (hb : b.Inv) (hs : SingleValued b.nodes) (e : Edge V X R)
    (hg : GoodEdge e) (hj : b.joinOk e = true) : SingleValued (b.insertEdge e).nodes := by
  have hk := ((b.joinOk_iff hb e).1 hj).2
  intro x hx y hy hv
  simp only [insertEdge, Finset.mem_union] at hx hy
  by_cases hxb : x ∈ b.nodes <;> by_cases hyb : y ∈ b.nodes
  · exact hs x hxb y hyb hv
  · exact absurd hv (hk y (hy.resolve_left hyb) hyb x hxb)
  · exact absurd hv.symm (hk x (hx.resolve_left hxb) hxb y hyb)
  · exact hg.inj (hx.resolve_left hxb) (hy.resolve_left hyb) hv

/-! ### Induction principles for the loops -/

theorem joinRound_induct (Q : Builder V X R → Prop) (S : Finset (Edge V X R))
    (hQ : ∀ b e, Q b → e ∈ S → b.touches e = true → b.joinOk e = true → Q (b.insertEdge e))
    (l : List (Edge V X R)) (hl : ∀ e ∈ l, e ∈ S) (b : Builder V X R) (nc : Finset (Edge V X R)) (hb : Q b) :
    Q (joinRound l b nc).1 := by
  induction l generalizing b nc with
  | nil => exact hb
  | cons e t ih =>
    have hl' : ∀ e ∈ t, e ∈ S := fun x hx => hl x (by simp [hx])
    unfold joinRound
    split
    · rename_i ht
      split
      · rename_i hj
        exact ih hl' _ _ (hQ b e hb (hl e (by simp)) ht hj)
      · exact hb
    · exact ih hl' _ _ hb

theorem joinRound_nc_subset (l : List (Edge V X R)) (b : Builder V X R) (nc : Finset (Edge V X R)) :
    (joinRound l b nc).2.1 ⊆ nc ∪ l.toFinset := by
  induction l generalizing b nc with
  | nil => simp [joinRound]
  | cons e t ih =>
    unfold joinRound
    split
    · split
      · refine (ih _ _).trans ?_
        intro x; simp only [Finset.mem_union, List.toFinset_cons, Finset.mem_insert]; tauto
      · exact Finset.subset_union_left
    · refine (ih _ _).trans ?_
      intro x; simp only [Finset.mem_union, List.toFinset_cons, Finset.mem_insert]; tauto

/-- The out-of-fuel branch is unreachable when the fuel is at least the number of edges. -/
theorem joinEdges_induct (Q : Builder V X R → Prop) (S : Finset (Edge V X R))
    (hQ : ∀ b e, Q b → e ∈ S → b.touches e = true → b.joinOk e = true → Q (b.insertEdge e))
    (oE : Order (Edge V X R)) (fuel : Nat) (E : Finset (Edge V X R)) (hE : E ⊆ S) (b : Builder V X R) (hb : Q b) :
    Q (joinEdges oE fuel E b).1 := by
  induction fuel generalizing E b with
  | zero => exact hb
  | succ fuel ih =>
    unfold joinEdges
    have h1 := joinRound_induct Q S hQ (oE.run E) (fun e he => hE ((oE.mem _ _).1 he)) b ∅ hb
    have h2 := joinRound_nc_subset (oE.run E) b ∅
    rw [Finset.empty_union, oE.toFinset_run] at h2
    match hr : joinRound (oE.run E) b ∅ with
    | (b', nc, some er) => rw [hr] at h1; exact h1
    | (b', nc, none) =>
      rw [hr] at h1 h2
      simp only
      split
      · exact h1
      · split
        · exact ih nc (h2.trans hE) b' h1
        · exact h1

theorem joinEdges_no_fuel (oE : Order (Edge V X R)) (fuel : Nat) (E : Finset (Edge V X R)) (hne : E ≠ ∅)
    (hf : E.card ≤ fuel) (b : Builder V X R) :
    (joinEdges oE fuel E b).2 = none ∨ (joinEdges oE fuel E b).2 = some .assertion := by
  induction fuel generalizing E b with
  | zero => simp at hf; exact absurd hf hne
  | succ fuel ih =>
    unfold joinEdges
    have h2 := joinRound_nc_subset (oE.run E) b ∅
    rw [Finset.empty_union, oE.toFinset_run] at h2
    have herr : ∀ (l : List (Edge V X R)) (b : Builder V X R) nc er, (joinRound l b nc).2.2 = some er → er = .assertion := by
      intro l
      induction l with
      | nil => intro b nc er h; simp [joinRound] at h
      | cons e t ih =>
        intro b nc er h
        unfold joinRound at h
        split at h
        · split at h
          · exact ih _ _ _ h
          · simp at h; exact h.symm
        · exact ih _ _ _ h
    match hr : joinRound (oE.run E) b ∅ with
    | (b', nc, some er) =>
      have := herr (oE.run E) b ∅ er (by rw [hr])
      subst this; exact Or.inr rfl
    | (b', nc, none) =>
      rw [hr] at h2
      simp only
      split
      · exact Or.inr rfl
      · rename_i hne'
        split
        · rename_i hnc
          apply ih nc hnc
          have : nc.card < E.card := Finset.card_lt_card ⟨h2, fun h => hne' (Finset.Subset.antisymm h h2)⟩
          omega
        · exact Or.inl rfl

/-! ### Success means that everything was inserted -/

theorem mono_insertEdge (b : Builder V X R) (e : Edge V X R) :
    b.nodes ⊆ (b.insertEdge e).nodes ∧ b.edges ⊆ (b.insertEdge e).edges :=
  ⟨Finset.subset_union_left, Finset.subset_insert _ _⟩

theorem joinRound_mono (l : List (Edge V X R)) (b : Builder V X R) (nc : Finset (Edge V X R)) :
    b.nodes ⊆ (joinRound l b nc).1.nodes ∧ b.edges ⊆ (joinRound l b nc).1.edges ∧ nc ⊆ (joinRound l b nc).2.1 := by
  induction l generalizing b nc with
  | nil => simp [joinRound]
  | cons e t ih =>
    unfold joinRound
    split
    · split
      · obtain ⟨h1, h2, h3⟩ := ih (b.insertEdge e) nc
        exact ⟨(b.mono_insertEdge e).1.trans h1, (b.mono_insertEdge e).2.trans h2, h3⟩
      · simp
    · obtain ⟨h1, h2, h3⟩ := ih b (insert e nc)
      exact ⟨h1, h2, (Finset.subset_insert _ _).trans h3⟩

theorem joinRound_done (l : List (Edge V X R)) (b : Builder V X R) (nc : Finset (Edge V X R))
    (h : (joinRound l b nc).2.2 = none) :
    ∀ e ∈ l, e ∈ (joinRound l b nc).2.1 ∨ e ∈ (joinRound l b nc).1.edges := by
  induction l generalizing b nc with
  | nil => simp
  | cons e t ih =>
    unfold joinRound at h ⊢
    split at h
    · rename_i ht
      split at h
      · rename_i hj
        simp only [ht, hj, if_true]
        intro x hx
        rcases List.mem_cons.1 hx with rfl | hx
        · right; exact (joinRound_mono t _ nc).2.1 (by simp [insertEdge])
        · exact ih _ _ h x hx
      · simp at h
    · rename_i ht
      simp only [ht]
      intro x hx
      rcases List.mem_cons.1 hx with rfl | hx
      · left; exact (joinRound_mono t b _).2.2 (by simp)
      · exact ih _ _ h x hx

theorem joinEdges_done (oE : Order (Edge V X R)) (fuel : Nat) (E : Finset (Edge V X R)) (b : Builder V X R)
    (h : (joinEdges oE fuel E b).2 = none) :
    b.nodes ⊆ (joinEdges oE fuel E b).1.nodes ∧ b.edges ⊆ (joinEdges oE fuel E b).1.edges ∧
      E ⊆ (joinEdges oE fuel E b).1.edges := by
  induction fuel generalizing E b with
  | zero => simp [joinEdges] at h
  | succ fuel ih =>
    unfold joinEdges at h ⊢
    have hm := joinRound_mono (oE.run E) b ∅
    have hd := joinRound_done (oE.run E) b ∅
    match hr : joinRound (oE.run E) b ∅ with
    | (b', nc, some er) => rw [hr] at h; simp at h
    | (b', nc, none) =>
      rw [hr] at h hm hd
      simp only at h hm hd ⊢
      by_cases h1 : E = nc
      · simp [h1] at h
      · simp only [h1, if_false] at h ⊢
        by_cases h2 : nc ≠ ∅
        · rw [if_pos h2] at h ⊢
          obtain ⟨i1, i2, i3⟩ := ih nc b' h
          refine ⟨hm.1.trans i1, hm.2.1.trans i2, fun e he => ?_⟩
          rcases hd trivial e ((oE.mem _ _).2 he) with h' | h'
          · exact i3 h'
          · exact i2 h'
        · rw [if_neg h2]
          rw [not_not] at h2
          refine ⟨hm.1, hm.2.1, fun e he => ?_⟩
          rcases hd trivial e ((oE.mem _ _).2 he) with h' | h'
          · rw [h2] at h'; simp at h'
          · exact h'

/-! ### Progress -/

theorem touches_mono (b : Builder V X R) (e e' : Edge V X R) (hne : b.nodes ≠ ∅) (h : b.touches e = true) :
    (b.insertEdge e').touches e = true := by
  rw [touches_iff] at h ⊢
  rcases h with h | h
  · left
    intro hd
    exact h (hd.mono_right (b.mono_insertEdge e').1)
  · exact absurd h hne

theorem joinRound_progress (l : List (Edge V X R)) (hnd : l.Nodup) (hne : l ≠ []) (b : Builder V X R)
    (nc : Finset (Edge V X R)) (hdis : ∀ e ∈ l, e ∉ nc) (h : ∃ e ∈ l, b.touches e = true)
    (hok : (joinRound l b nc).2.2 = none) : ∃ e ∈ l, e ∉ (joinRound l b nc).2.1 := by
  induction l generalizing b nc with
  | nil => exact absurd rfl hne
  | cons x t ih =>
    have hxt : x ∉ t := (List.nodup_cons.1 hnd).1
    unfold joinRound at hok ⊢
    by_cases ht : b.touches x = true
    · simp only [ht, if_true] at hok ⊢
      by_cases hj : b.joinOk x = true
      · simp only [hj, if_true] at hok ⊢
        refine ⟨x, by simp, fun hc => ?_⟩
        have := joinRound_nc_subset t (b.insertEdge x) nc hc
        simp only [Finset.mem_union, List.mem_toFinset] at this
        rcases this with h | h
        · exact hdis x (by simp) h
        · exact hxt h
      · simp only [hj] at hok; simp at hok
    · simp only [ht] at hok ⊢
      obtain ⟨e, he, hte⟩ := h
      rcases List.mem_cons.1 he with rfl | he
      · exact absurd hte ht
      · obtain ⟨y, hy, hyn⟩ := ih (List.nodup_cons.1 hnd).2 (List.ne_nil_of_mem he) b (insert x nc)
          (by
            intro z hz hzc
            rcases Finset.mem_insert.1 hzc with rfl | hzc
            · exact hxt hz
            · exact hdis z (by simp [hz]) hzc) ⟨e, he, hte⟩ hok
        exact ⟨y, by simp [hy], hyn⟩

theorem joinRound_no_error (Q : Builder V X R → Prop) (S : Finset (Edge V X R))
    (hQ : ∀ b e, Q b → e ∈ S → b.touches e = true → b.joinOk e = true → Q (b.insertEdge e))
    (hJ : ∀ b e, Q b → e ∈ S → b.touches e = true → b.joinOk e = true)
    (l : List (Edge V X R)) (hl : ∀ e ∈ l, e ∈ S) (b : Builder V X R) (nc : Finset (Edge V X R)) (hb : Q b) :
    (joinRound l b nc).2.2 = none := by
  induction l generalizing b nc with
  | nil => rfl
  | cons e t ih =>
    have hl' : ∀ e ∈ t, e ∈ S := fun x hx => hl x (by simp [hx])
    unfold joinRound
    split
    · rename_i ht
      have hj := hJ b e hb (hl e (by simp)) ht
      rw [if_pos hj]
      exact ih hl' _ _ (hQ b e hb (hl e (by simp)) ht hj)
    · exact ih hl' _ _ hb

theorem joinEdges_no_error (Q : Builder V X R → Prop) (S : Finset (Edge V X R))
    (hQ : ∀ b e, Q b → e ∈ S → b.touches e = true → b.joinOk e = true → Q (b.insertEdge e))
    (hJ : ∀ b e, Q b → e ∈ S → b.touches e = true → b.joinOk e = true)
    (hT : ∀ b (E : Finset (Edge V X R)), Q b → E ⊆ S → E ≠ ∅ → S ⊆ E ∪ b.edges → ∃ e ∈ E, b.touches e = true)
    (oE : Order (Edge V X R)) (fuel : Nat) (E : Finset (Edge V X R)) (hE : E ⊆ S) (hne : E ≠ ∅) (hf : E.card ≤ fuel)
    (b : Builder V X R) (hb : Q b) (hrem : S ⊆ E ∪ b.edges) :
    (joinEdges oE fuel E b).2 = none := by
  induction fuel generalizing E b with
  | zero => simp at hf; exact absurd hf hne
  | succ fuel ih =>
    have hmem : ∀ e ∈ oE.run E, e ∈ S := fun e he => hE ((oE.mem _ _).1 he)
    have herr := joinRound_no_error Q S hQ hJ (oE.run E) hmem b ∅ hb
    have hind := joinRound_induct Q S hQ (oE.run E) hmem b ∅ hb
    have hsub := joinRound_nc_subset (oE.run E) b ∅
    have hmono := joinRound_mono (oE.run E) b ∅
    have hdone := joinRound_done (oE.run E) b ∅ herr
    obtain ⟨e0, he0, ht0⟩ := hT b E hb hE hne hrem
    have hprog := joinRound_progress (oE.run E) (oE.nodup _) (by simpa using hne) b ∅ (by simp)
      ⟨e0, (oE.mem _ _).2 he0, ht0⟩ herr
    rw [Finset.empty_union, oE.toFinset_run] at hsub
    unfold joinEdges
    match hr : joinRound (oE.run E) b ∅ with
    | (b', nc, some er) => rw [hr] at herr; simp at herr
    | (b', nc, none) =>
      rw [hr] at hind hsub hmono hdone hprog
      simp only at hind hsub hmono hdone hprog ⊢
      obtain ⟨y, hy, hyn⟩ := hprog
      have hEnc : E ≠ nc := by rintro rfl; exact hyn ((oE.mem _ _).1 hy)
      rw [if_neg hEnc]
      split
      · rename_i hnc
        have hlt : nc.card < E.card := Finset.card_lt_card ⟨hsub, fun h => hEnc (Finset.Subset.antisymm h hsub)⟩
        apply ih nc (hsub.trans hE) hnc (by omega) b' hind
        intro e he
        rcases Finset.mem_union.1 (hrem he) with h | h
        · rcases hdone e ((oE.mem _ _).2 h) with h | h
          · exact Finset.mem_union_left _ h
          · exact Finset.mem_union_right _ h
        · exact Finset.mem_union_right _ (hmono.2.1 h)
      · rfl

end Builder
end Verif
