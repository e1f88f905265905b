import Verif.Props.Depth

/-!
# C65: joining a sample to an empty builder
-/

set_option linter.unusedSectionVars false

namespace Verif

variable {V X R : Type} [DecidableEq V] [DecidableEq X] [DecidableEq R]

theorem assocSet_present {K A : Type} [DecidableEq K] : ∀ (l : List (K × A)) (k : K) (a : A), assoc? l k = some a → (l.map Prod.fst).Nodup → assocSet l k a = l := by
  intro l k a h hnd
  induction l with
  | nil => simp [assoc?] at h
  | cons p t ih =>
    obtain ⟨k', a'⟩ := p
    simp only [assoc?] at h
    simp only [assocSet]
    split at h
    · rename_i hk
      simp only [Option.some.injEq] at h
      subst h
      simp [hk]
    · rename_i hk
      simp only [List.map_cons, List.nodup_cons] at hnd
      simp [hk, ih h hnd.2]

theorem dict_set_present {K A : Type} [DecidableEq K] (d : Dict K A) (k : K) (a : A) (h : d.get? k = some a) : d.set k a = d := by
  cases d with
  | mk l hnd =>
    have := assocSet_present l k a h hnd
    unfold Dict.set
    congr

namespace Builder

/-- The builder holds the edge already. -/
def Settled (e0 : Edge V X R) (c : Builder V X R) : Prop := e0 ∈ c.edges ∧ c.eps.get? e0.endpoints = some e0 ∧ e0.endpoints ⊆ c.nodes

theorem settled_insert {e0 : Edge V X R} {c : Builder V X R} (h : Settled e0 c) : c.insertEdge e0 = c := by
  obtain ⟨h1, h2, h3⟩ := h
  cases c with
  | mk prov nodes edges eps =>
    simp only [insertEdge, Finset.insert_eq_of_mem h1, dict_set_present _ _ _ h2, Finset.union_eq_left.2 h3]

theorem settled_ok {e0 : Edge V X R} {c : Builder V X R} (hne : e0.endpoints.Nonempty) (h : Settled e0 c) : c.touches e0 = true ∧ c.joinOk e0 = true := by
  obtain ⟨h1, h2, h3⟩ := h
  constructor
  · rw [touches_iff]
    left
    obtain ⟨n, hn⟩ := hne
    exact fun hd => Finset.disjoint_left.1 hd hn (h3 hn)
  · unfold joinOk
    rw [h2]
    simp only [decide_true, Bool.true_and, decide_eq_true_eq]
    exact fun ep hep => Or.inr (h3 hep)

theorem settled_keep {e0 e : Edge V X R} {c : Builder V X R} (h : Settled e0 c) (hne : e.endpoints = e0.endpoints → e = e0) : Settled e0 (c.insertEdge e) := by
  obtain ⟨h1, h2, h3⟩ := h
  refine ⟨Finset.mem_insert_of_mem h1, ?_, h3.trans Finset.subset_union_left⟩
  simp only [insertEdge, Dict.get?_set]
  split
  · rename_i he; rw [hne he]
  · exact h2

theorem settled_new (e0 : Edge V X R) (c : Builder V X R) : Settled e0 (c.insertEdge e0) :=
  ⟨Finset.mem_insert_self _ _, by simp [insertEdge], Finset.subset_union_right⟩

/-- An edge that the builder holds already can be left out of a round. -/
theorem joinRound_erase {e0 : Edge V X R} (h0 : e0.endpoints.Nonempty) : ∀ (l : List (Edge V X R)) (c : Builder V X R) (nc : Finset (Edge V X R)),
    Settled e0 c → (∀ e ∈ l, e.endpoints = e0.endpoints → e = e0) → joinRound l c nc = joinRound (l.erase e0) c nc := by
  intro l
  induction l with
  | nil => intros; rfl
  | cons e t ih =>
    intro c nc hs hl
    by_cases he : e = e0
    · subst he
      rw [List.erase_cons_head, joinRound, if_pos (settled_ok h0 hs).1, if_pos (settled_ok h0 hs).2, settled_insert hs]
    · rw [List.erase_cons_tail (by simpa using he), joinRound, joinRound]
      split
      · split
        · exact ih _ _ (settled_keep hs (hl e (by simp))) fun e he => hl e (by simp [he])
        · rfl
      · exact ih _ _ hs fun e he => hl e (by simp [he])

/-- Orders that agree on all smaller sets give the same. -/
theorem joinEdges_order (o o' : Order (Edge V X R)) : ∀ (d : ℕ) (E : Finset (Edge V X R)) (c : Builder V X R), (∀ E' ⊆ E, o.run E' = o'.run E') →
    joinEdges o d E c = joinEdges o' d E c := by
  intro d
  induction d with
  | zero => intros; rfl
  | succ d ih =>
    intro E c h
    unfold joinEdges
    rw [h E subset_rfl]
    split
    · rfl
    · rename_i b' nc hr
      split
      · rfl
      · split
        · refine ih nc b' fun E' hE' => h E' (hE'.trans ?_)
          have := joinRound_nc_subset (o'.run E) c ∅
          rw [hr] at this
          intro x hx
          have := this hx
          simpa [o'.mem] using this
        · rfl

/-- The order that takes the edge first from the given set, and follows the other order otherwise. -/
noncomputable def firstOf (o : Order (Edge V X R)) (S : Finset (Edge V X R)) (e0 : Edge V X R) (h : e0 ∈ S) : Order (Edge V X R) := by
  classical
  exact
  { run := fun s => if s = S then e0 :: (o.run S).erase e0 else o.run s
    nodup := by
      intro s
      split
      · rw [List.nodup_cons]
        exact ⟨fun hc => absurd hc (by rw [(o.nodup S).mem_erase_iff]; simp), (o.nodup S).erase _⟩
      · exact o.nodup s
    mem := by
      intro s a
      split
      · rename_i hs
        subst hs
        rw [List.mem_cons, (o.nodup s).mem_erase_iff, o.mem]
        constructor
        · rintro (rfl | ⟨_, h'⟩)
          · exact h
          · exact h'
        · intro ha
          by_cases hae : a = e0
          · exact Or.inl hae
          · exact Or.inr ⟨hae, ha⟩
      · exact o.mem s a }

theorem firstOf_run (o : Order (Edge V X R)) (S : Finset (Edge V X R)) (e0 : Edge V X R) (h : e0 ∈ S) :
    (firstOf o S e0 h).run S = e0 :: (o.run S).erase e0 := by
  unfold firstOf
  simp

theorem firstOf_other (o : Order (Edge V X R)) (S : Finset (Edge V X R)) (e0 : Edge V X R) (h : e0 ∈ S) {s : Finset (Edge V X R)} (hs : s ≠ S) :
    (firstOf o S e0 h).run s = o.run s := by
  unfold firstOf
  simp [hs]

/-- To a builder that holds the edge already it makes no difference when it comes. -/
theorem joinEdges_firstOf (o : Order (Edge V X R)) (S : Finset (Edge V X R)) (e0 : Edge V X R) (h : e0 ∈ S) (h0 : e0.endpoints.Nonempty)
    (h1 : ∀ e ∈ S, e.endpoints = e0.endpoints → e = e0) (d : ℕ) (c : Builder V X R) (hc : Settled e0 c) :
    joinEdges (firstOf o S e0 h) d S c = joinEdges o d S c := by
  cases d with
  | zero => rfl
  | succ d =>
    unfold joinEdges
    have hr : joinRound ((firstOf o S e0 h).run S) c ∅ = joinRound (o.run S) c ∅ := by
      rw [firstOf_run, joinRound_erase h0 _ c ∅ hc ?_, List.erase_cons_head, ← joinRound_erase h0 _ c ∅ hc fun e he => h1 e ((o.mem S e).1 he)]
      intro e he
      rcases List.mem_cons.1 he with rfl | he
      · exact fun _ => rfl
      · exact h1 e ((o.mem S e).1 (List.mem_of_mem_erase he))
    rw [hr]
    split
    · rfl
    · rename_i b' nc hrr
      split
      · rfl
      · rename_i hne
        split
        · refine joinEdges_order _ _ d nc b' fun E' hE' => firstOf_other o S e0 h ?_
          rintro rfl
          apply hne
          refine Finset.Subset.antisymm hE' ?_
          have := joinRound_nc_subset (o.run E') c ∅
          rw [hrr] at this
          intro x hx
          have := this hx
          simpa [o.mem] using this
        · rfl

/-- In an empty builder the first edge of the first round is as if it were there before. -/
theorem joinEdges_start (o : Order (Edge V X R)) (S : Finset (Edge V X R)) (e0 : Edge V X R) (t : List (Edge V X R)) (hr : o.run S = e0 :: t)
    (h0 : e0.endpoints.Nonempty) (b : Builder V X R) (hb : b.nodes = ∅) (hj : b.joinOk e0 = true) (d : ℕ) (hd : 0 < d) :
    joinEdges o d S b = joinEdges o d S (b.insertEdge e0) := by
  cases d with
  | zero => omega
  | succ d =>
    have ht : b.touches e0 = true := (touches_iff _ _).2 (Or.inr hb)
    have hs := settled_ok h0 (settled_new e0 b)
    unfold joinEdges
    rw [hr, joinRound, if_pos ht, if_pos hj, joinRound, if_pos hs.1, if_pos hs.2, settled_insert (settled_new e0 b)]

end Builder

/-- C65: joining a well formed sample to a builder without nodes. `join_edges` does not exceed `d` nested calls under any iteration order exactly when any two edges of
the sample have endpoints fewer than `d` steps away from each other. When no `RecursionError` is raised the limit makes no difference. -/
theorem C65_join_empty (d : ℕ) (b : Builder V X R) (hb : b.Inv) (hbn : b.nodes = ∅) (smp : Sample V X R) (hw : WellFormed smp.graph)
    (he : smp.graph.edges ≠ ∅) (hj : Joinable b smp) :
    ((∀ oE, (b.joinSampleD d oE smp).2 ≠ some .fuel) ↔
      ∀ e ∈ smp.graph.edges, ∀ e' ∈ smp.graph.edges, ∃ k < d, ∃ c ∈ e.endpoints, ∃ n ∈ e'.endpoints, Walk smp.graph.edges none k c n) ∧
    ∀ oE, (b.joinSampleD d oE smp).2 ≠ some .fuel → b.joinSampleD d oE smp = b.joinSample oE smp := by
  have hD : ∀ (b : Builder V X R) (_ : smp.prov = b.prov) oE, b.joinSampleD d oE smp = Builder.joinEdges oE d smp.graph.edges b := by
    intro b hp oE
    unfold Builder.joinSampleD
    rw [if_neg (by simpa using hp), if_pos he]
  have hA : ∀ oE, b.joinSample oE smp = Builder.joinEdges oE smp.graph.edges.card smp.graph.edges b := by
    intro oE
    unfold Builder.joinSample
    rw [if_neg (by simpa using hj.prov), if_pos he]
  have hbe : b.edges = ∅ := by
    by_contra hne
    obtain ⟨e, hee⟩ := Finset.nonempty_iff_ne_empty.2 hne
    obtain ⟨a, a', -, hep⟩ := hb.wf.good e hee
    have : a ∈ b.nodes := hb.wf.closed e hee (by rw [hep]; simp)
    rw [hbn] at this
    simp at this
  have hend : ∀ e ∈ smp.graph.edges, e.endpoints.Nonempty := by
    intro e hee
    obtain ⟨a, a', -, hep⟩ := hw.good e hee
    exact ⟨a, by rw [hep]; simp⟩
  have hok : ∀ e ∈ smp.graph.edges, b.touches e = true ∧ b.joinOk e = true := by
    intro e _
    refine ⟨(b.touches_iff e).2 (Or.inr hbn), (b.joinOk_iff hb e).2 ⟨?_, ?_⟩⟩
    · intro e' he'; rw [hbe] at he'; simp at he'
    · intro n _ _ m hm; rw [hbn] at hm; simp at hm
  -- the theorem for non-empty builders, after the first edge
  have key : ∀ e ∈ smp.graph.edges, (∀ oE, (Builder.joinEdges oE d smp.graph.edges (b.insertEdge e)).2 ≠ some .fuel) ↔
      ∀ e' ∈ smp.graph.edges, ∃ k < d, ∃ c ∈ e.endpoints, ∃ n ∈ e'.endpoints, Walk smp.graph.edges none k c n := by
    intro e hee
    have hn : (b.insertEdge e).nodes = e.endpoints := by simp [Builder.insertEdge, hbn]
    have hne : (b.insertEdge e).nodes ≠ ∅ := by rw [hn]; exact (hend e hee).ne_empty
    have hj' : Joinable (b.insertEdge e) smp := by
      refine ⟨hj.prov, Or.inr ?_, ?_, ?_⟩
      · obtain ⟨n, hnn⟩ := hend e hee
        exact ⟨n, hw.closed e hee hnn, by rw [hn]; exact hnn⟩
      · intro n hnn _ m hm hv
        refine hj.values n hnn (by simp [hbn]) m ?_ hv
        rw [hn] at hm
        rcases Finset.mem_union.1 hm with hm | hm
        · exact Finset.mem_union_right _ (hw.closed e hee hm)
        · exact Finset.mem_union_right _ hm
      · intro f hf f' hf' hff
        simp only [Builder.insertEdge, hbe, Finset.mem_insert, Finset.notMem_empty, or_false] at hf'
        subst hf'
        rw [hw.onePer f' hee f hf hff]
    have := (C65_join_sample d (b.insertEdge e) (b.inv_join_step hb e (hw.good e hee) (hok e hee).1 (hok e hee).2) hne smp hw he hj').1
    simp only [hD (b.insertEdge e) hj.prov, hn] at this
    exact this
  simp only [hD b hj.prov, hA]
  have hd0 : ∀ oE, (Builder.joinEdges oE 0 smp.graph.edges b).2 = some .fuel := fun _ => rfl
  refine ⟨⟨fun h e hee => ?_, fun h oE => ?_⟩, fun oE h => ?_⟩
  · have hd : 0 < d := by
      rcases Nat.eq_zero_or_pos d with rfl | hd
      · exact absurd rfl (h (Order.first e))
      · exact hd
    refine (key e hee).1 fun oE => ?_
    have h1 := Builder.joinEdges_firstOf oE smp.graph.edges e hee (hend e hee) (fun f hf hff => hw.onePer f hf e hee hff) d (b.insertEdge e)
      (Builder.settled_new e b)
    rw [← h1, ← Builder.joinEdges_start (Builder.firstOf oE smp.graph.edges e hee) smp.graph.edges e _ (Builder.firstOf_run _ _ _ _) (hend e hee) b hbn
      (hok e hee).2 d hd]
    exact h _
  · obtain ⟨e, t, hr⟩ : ∃ e t, oE.run smp.graph.edges = e :: t := by
      cases hl : oE.run smp.graph.edges with
      | nil =>
        obtain ⟨e, hee⟩ := Finset.nonempty_iff_ne_empty.2 he
        have := (oE.mem _ e).2 hee
        rw [hl] at this
        simp at this
      | cons e t => exact ⟨e, t, rfl⟩
    have hee : e ∈ smp.graph.edges := (oE.mem _ e).1 (by rw [hr]; simp)
    have hd : 0 < d := by
      obtain ⟨k, hk, -⟩ := h e hee e hee
      omega
    rw [Builder.joinEdges_start oE smp.graph.edges e t hr (hend e hee) b hbn (hok e hee).2 d hd]
    exact (key e hee).2 (h e hee) oE
  · apply Builder.joinEdges_eq oE d _ _ b h
    rcases Builder.joinEdges_no_fuel oE _ _ he le_rfl b with h | h <;> rw [h] <;> simp

/-- Non-vacuity of `C65_join_empty`: joining the path 0 - 1 - 2 - 3 to an empty builder takes two nested calls for some order (one that begins at an end of the path
and goes on with the other end), and never more. -/
example : ∃ (b : Builder ℕ ℕ ℕ) (smp : Sample ℕ ℕ ℕ), b.Inv ∧ b.nodes = ∅ ∧ WellFormed smp.graph ∧ smp.graph.edges ≠ ∅ ∧ Joinable b smp ∧
    (∃ oE, (b.joinSampleD 1 oE smp).2 = some .fuel) ∧ ∀ oE, (b.joinSampleD 2 oE smp).2 ≠ some .fuel := by
  have hb : (⟨0, ∅, ∅, Dict.empty⟩ : Builder ℕ ℕ ℕ).Inv := by
    refine ⟨⟨by simp [Builder.graph], by simp [Builder.graph], by intro e he; simp [Builder.graph] at he, ?_⟩, by simp⟩
    intro a ha
    simp [Builder.graph] at ha
  have hw : WellFormed (linkGraph {0, 1, 2, 3} {(0, 1), (1, 2), (2, 3)}) := by
    refine ⟨by decide, ?_, ?_, ?_⟩
    · intro e he
      have hee : e = ⟨{⟨0, 0⟩, ⟨1, 0⟩}, .plain 0⟩ ∨ e = ⟨{⟨1, 0⟩, ⟨2, 0⟩}, .plain 0⟩ ∨ e = ⟨{⟨2, 0⟩, ⟨3, 0⟩}, .plain 0⟩ := by
        simpa [linkGraph] using he
      rcases hee with rfl | rfl | rfl
      · exact ⟨⟨0, 0⟩, ⟨1, 0⟩, by simp, rfl⟩
      · exact ⟨⟨1, 0⟩, ⟨2, 0⟩, by simp, rfl⟩
      · exact ⟨⟨2, 0⟩, ⟨3, 0⟩, by simp, rfl⟩
    · unfold OnePerPair
      decide
    · have up : ∀ i ∈ Finset.range 4, Relation.ReflTransGen (Linked Edge.endpoints (linkGraph {0, 1, 2, 3} {(0, 1), (1, 2), (2, 3)}).edges) ⟨0, 0⟩ ⟨i, 0⟩ := by
        intro i
        induction i with
        | zero => exact fun _ => .refl
        | succ i ih =>
          intro hi
          rw [Finset.mem_range] at hi
          refine (ih (by rw [Finset.mem_range]; omega)).tail ⟨⟨{⟨i, 0⟩, ⟨i + 1, 0⟩}, .plain 0⟩, ?_, by simp, by simp⟩
          have : i = 0 ∨ i = 1 ∨ i = 2 := by omega
          rcases this with rfl | rfl | rfl <;> decide
      have nd : ∀ a ∈ (linkGraph {0, 1, 2, 3} {(0, 1), (1, 2), (2, 3)}).nodes, a.val = 0 ∧ a.var ∈ Finset.range 4 := by decide
      intro a ha b hb
      obtain ⟨h1, h2⟩ := nd a ha
      obtain ⟨h3, h4⟩ := nd b hb
      cases a
      cases b
      simp only at h1 h2 h3 h4
      subst h1
      subst h3
      refine Relation.ReflTransGen.trans ?_ (up _ h4)
      exact reach_symm (up _ h2)
  have hj : Joinable (⟨0, ∅, ∅, Dict.empty⟩ : Builder ℕ ℕ ℕ) ⟨0, linkGraph {0, 1, 2, 3} {(0, 1), (1, 2), (2, 3)}⟩ :=
    ⟨rfl, Or.inl rfl, by decide, by simp⟩
  have he : (linkGraph {0, 1, 2, 3} {(0, 1), (1, 2), (2, 3)}).edges ≠ ∅ := by decide
  refine ⟨_, ⟨0, _⟩, hb, rfl, hw, he, hj, ?_, ?_⟩
  · by_contra hcon
    push Not at hcon
    have h1 := (C65_join_empty 1 _ hb rfl ⟨0, _⟩ hw he hj).1.1 hcon
    obtain ⟨k, hk, c, hc, n, hn, hwk⟩ := h1 ⟨{⟨0, 0⟩, ⟨1, 0⟩}, .plain 0⟩ (by decide) ⟨{⟨2, 0⟩, ⟨3, 0⟩}, .plain 0⟩ (by decide)
    have : k = 0 := by omega
    subst this
    cases hwk
    simp only [Finset.mem_insert, Finset.mem_singleton] at hc hn
    rcases hc with rfl | rfl <;> simp at hn
  · refine (C65_join_empty 2 _ hb rfl ⟨0, _⟩ hw he hj).1.2 fun e he e' he' => ?_
    have all : ∀ e ∈ (linkGraph {0, 1, 2, 3} {(0, 1), (1, 2), (2, 3)}).edges, (⟨1, 0⟩ ∈ e.endpoints ∨ ⟨2, 0⟩ ∈ e.endpoints) := by decide
    have mid : ∀ a b : Node ℕ ℕ, (a = ⟨1, 0⟩ ∨ a = ⟨2, 0⟩) → (b = ⟨1, 0⟩ ∨ b = ⟨2, 0⟩) →
        ∃ k < 2, Walk (linkGraph {0, 1, 2, 3} {(0, 1), (1, 2), (2, 3)}).edges none k a b := by
      rintro a b (rfl | rfl) (rfl | rfl)
      · exact ⟨0, by omega, rfl⟩
      · exact ⟨1, by omega, ⟨1, 0⟩, rfl, ⟨{⟨1, 0⟩, ⟨2, 0⟩}, .plain 0⟩, by decide, trivial, by simp, by simp⟩
      · exact ⟨1, by omega, ⟨2, 0⟩, rfl, ⟨{⟨1, 0⟩, ⟨2, 0⟩}, .plain 0⟩, by decide, trivial, by simp, by simp⟩
      · exact ⟨0, by omega, rfl⟩
    have pick : ∀ e ∈ (linkGraph {0, 1, 2, 3} {(0, 1), (1, 2), (2, 3)}).edges, ∃ a ∈ e.endpoints, a = ⟨1, 0⟩ ∨ a = ⟨2, 0⟩ := by
      intro e he
      rcases all e he with h | h
      · exact ⟨_, h, Or.inl rfl⟩
      · exact ⟨_, h, Or.inr rfl⟩
    obtain ⟨a, ha, ha'⟩ := pick e he
    obtain ⟨a', hb, hb'⟩ := pick e' he'
    obtain ⟨k, hk, hwk⟩ := mid a a' ha' hb'
    exact ⟨k, hk, a, ha, a', hb, hwk⟩

end Verif
