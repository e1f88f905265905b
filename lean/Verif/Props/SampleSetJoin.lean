import Verif.Props.SampleSet

/-!
# C27: exactly when `make_joined_sample` returns
-/

namespace Verif

variable {V X R : Type} [DecidableEq V] [DecidableEq X] [DecidableEq R]

theorem joinList_touch (oE : Order (Edge V X R)) (prov : ℕ) : ∀ (l : List (SampleGraph V X R)) (b : Builder V X R),
    b.Inv → b.prov = prov → (∀ g ∈ l, WellFormed g ∧ g.nodes.Nonempty) → (Samples.joinList oE prov l b).2 = none →
      ∀ pre g suf, l = pre ++ g :: suf → (b.nodes = ∅ ∧ pre = []) ∨ ∃ n ∈ g.nodes, n ∈ b.nodes ∨ ∃ h ∈ pre, n ∈ h.nodes := by
  intro l
  induction l with
  | nil => intro b _ _ _ _ pre g suf h; simp at h
  | cons g t ih =>
    intro b hb hp hl hnone pre h suf hsplit
    obtain ⟨hw, hne⟩ := hl g (by simp)
    obtain ⟨c1, c2, c3⟩ := C07_join_sample oE b hb ⟨prov, g⟩ hw hne
    rcases hr : b.joinSample oE ⟨prov, g⟩ with ⟨b', er⟩
    rw [hr] at c1 c2 c3
    simp only at c1 c2 c3
    cases er with
    | some e =>
      rw [Samples.joinList, hr] at hnone
      cases hnone
    | none =>
      rw [Samples.joinList, hr] at hnone
      obtain ⟨d1, d2, d3, d4⟩ := c2 rfl
      have hj := (c1.1 rfl).touch
      cases pre with
      | nil =>
        simp only [List.map_cons, List.map_nil, List.nil_append, List.cons.injEq] at hsplit
        obtain ⟨rfl, rfl⟩ := hsplit
        rcases hj with hj | ⟨n, h1, h2⟩
        · exact Or.inl ⟨hj, rfl⟩
        · exact Or.inr ⟨n, h1, Or.inl h2⟩
      | cons k pre =>
        simp only [List.cons_append, List.cons.injEq] at hsplit
        obtain ⟨rfl, hs⟩ := hsplit
        right
        rcases ih b' d4 (d3.trans hp) (fun x hx => hl x (by simp [hx])) hnone pre h suf hs with ⟨h0, -⟩ | ⟨n, hn, h'⟩
        · obtain ⟨n, hn⟩ := hne
          rw [d1] at h0
          have : n ∈ b.nodes ∪ g.nodes := Finset.mem_union_right _ hn
          rw [h0] at this
          simp at this
        · refine ⟨n, hn, ?_⟩
          rcases h' with h' | ⟨k, hk, hnk⟩
          · rw [d1] at h'
            rcases Finset.mem_union.1 h' with h' | h'
            · exact Or.inl h'
            · exact Or.inr ⟨g, by simp, h'⟩
          · exact Or.inr ⟨k, by simp [hk], hnk⟩

/-- C27, exactly: on non-empty well formed samples `make_joined_sample` returns if and only if there is a sample, no variable has two values and no pair two
relations over all samples, and each sample after the first, in the order of insertion, shares a node with an earlier one. -/
theorem C27_exact (oE : Order (Edge V X R)) (a : Samples V X R)
    (hw : ∀ g c, a.samples.get? g = some c → WellFormed g ∧ g.nodes.Nonempty) :
    Returns (a.makeJoinedSample oE) ↔ a.samples.entries ≠ [] ∧ Consistent a.samples.keys ∧ Chained a.samples.keys := by
  obtain ⟨h1, h2, h3, h4⟩ := C27_make_joined_sample oE a hw
  refine ⟨?_, fun h => h3 h.1 h.2.1 h.2.2⟩
  rintro ⟨⟨smp, cs⟩, hr⟩
  obtain ⟨rfl, -, hwf, hsv⟩ := h1 smp cs hr
  refine ⟨?_, ⟨hsv, hwf.onePer⟩, ?_⟩
  · intro he
    rw [h4 he] at hr
    cases hr
  · have hnone : (Samples.joinList oE a.prov a.samples.keys (Builder.new a.prov)).2 = none := by
      unfold Samples.makeJoinedSample at hr
      split at hr
      · cases hr
      · rename_i h; rw [h]
    have key := joinList_touch oE a.prov a.samples.keys (Builder.new a.prov) (Builder.inv_new _) rfl (by
      intro g hg; obtain ⟨c, hc⟩ := (a.samples.mem_keys g).1 hg; exact hw g c hc) hnone
    cases hk : a.samples.keys with
    | nil => trivial
    | cons g t =>
      rintro pre h suf rfl
      rcases key (g :: pre) h suf (by rw [hk]; rfl) with ⟨-, h'⟩ | ⟨n, hn, h' | ⟨k, hk', hnk⟩⟩
      · cases h'
      · exact absurd h' (by simp [Builder.new])
      · exact ⟨n, hn, k, hk', hnk⟩

/-- The same three samples, of a path, inserted in two orders. -/
def pathInOrder : Samples ℕ ℕ ℕ :=
  ⟨0, ⟨[(oneEdge ⟨0, 0⟩ ⟨1, 0⟩, 1), (oneEdge ⟨1, 0⟩ ⟨2, 0⟩, 1), (oneEdge ⟨2, 0⟩ ⟨3, 0⟩, 1)], by decide⟩⟩

@[inherit_doc pathInOrder]
def pathOutOfOrder : Samples ℕ ℕ ℕ :=
  ⟨0, ⟨[(oneEdge ⟨0, 0⟩ ⟨1, 0⟩, 1), (oneEdge ⟨2, 0⟩ ⟨3, 0⟩, 1), (oneEdge ⟨1, 0⟩ ⟨2, 0⟩, 1)], by decide⟩⟩

/-- C27, the order of insertion matters: two sets that compare equal, of which one can be joined and the other raises, whatever the orders of Python sets. -/
theorem C27_order_matters (oE : Order (Edge ℕ ℕ ℕ)) : pathInOrder.pyEq pathOutOfOrder = true ∧ Returns (pathInOrder.makeJoinedSample oE) ∧
    pathOutOfOrder.makeJoinedSample oE = .error .assertion := by
  have w1 : ∀ g c, pathInOrder.samples.get? g = some c → WellFormed g ∧ g.nodes.Nonempty := by
    intro g c h
    rw [← Dict.mem_entries] at h
    simp only [pathInOrder, List.mem_cons, Prod.mk.injEq, List.not_mem_nil, or_false] at h
    rcases h with ⟨rfl, -⟩ | ⟨rfl, -⟩ | ⟨rfl, -⟩
    · exact ⟨oneEdge_wf _ _ (by simp), ⟨⟨0, 0⟩, by simp [oneEdge]⟩⟩
    · exact ⟨oneEdge_wf _ _ (by simp), ⟨⟨1, 0⟩, by simp [oneEdge]⟩⟩
    · exact ⟨oneEdge_wf _ _ (by simp), ⟨⟨2, 0⟩, by simp [oneEdge]⟩⟩
  have w2 : ∀ g c, pathOutOfOrder.samples.get? g = some c → WellFormed g ∧ g.nodes.Nonempty := by
    intro g c h
    rw [← Dict.mem_entries] at h
    simp only [pathOutOfOrder, List.mem_cons, Prod.mk.injEq, List.not_mem_nil, or_false] at h
    rcases h with ⟨rfl, -⟩ | ⟨rfl, -⟩ | ⟨rfl, -⟩
    · exact ⟨oneEdge_wf _ _ (by simp), ⟨⟨0, 0⟩, by simp [oneEdge]⟩⟩
    · exact ⟨oneEdge_wf _ _ (by simp), ⟨⟨2, 0⟩, by simp [oneEdge]⟩⟩
    · exact ⟨oneEdge_wf _ _ (by simp), ⟨⟨1, 0⟩, by simp [oneEdge]⟩⟩
  refine ⟨by decide, (C27_exact oE _ w1).2 ⟨by simp [pathInOrder], ⟨?_, ?_⟩, ?_⟩, ?_⟩
  · unfold SingleValued; decide
  · unfold OnePerPair; decide
  · intro pre h suf hsplit
    match pre, hsplit with
    | [], hsplit =>
      simp only [List.map_cons, List.map_nil, List.nil_append, List.cons.injEq] at hsplit
      exact ⟨⟨1, 0⟩, by rw [← hsplit.1]; simp [oneEdge], _, List.mem_cons_self, by simp [oneEdge]⟩
    | [a], hsplit =>
      simp only [List.map_cons, List.map_nil, List.cons_append, List.nil_append, List.cons.injEq] at hsplit
      exact ⟨⟨2, 0⟩, by rw [← hsplit.2.1]; simp [oneEdge], a, by simp, by rw [← hsplit.1]; simp [oneEdge]⟩
    | a :: b :: t, hsplit => simp at hsplit
  · cases hr : pathOutOfOrder.makeJoinedSample oE with
    | error e => rw [(C27_make_joined_sample oE _ w2).2.1 e hr]
    | ok r =>
      exfalso
      have hc := ((C27_exact oE _ w2).1 ⟨r, hr⟩).2.2
      obtain ⟨n, hn, k, hk, hnk⟩ := hc [] (oneEdge ⟨2, 0⟩ ⟨3, 0⟩) [oneEdge ⟨1, 0⟩ ⟨2, 0⟩] rfl
      have hk' : k = oneEdge ⟨0, 0⟩ ⟨1, 0⟩ := by simpa using hk
      subst hk'
      simp only [oneEdge, Finset.mem_insert, Finset.mem_singleton] at hn hnk
      rcases hn with rfl | rfl <;> simp at hnk

end Verif
