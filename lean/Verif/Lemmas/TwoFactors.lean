import Verif.Lemmas.TableInference

/-!
# Joining when no variable is in more than two factors

Chains and cycles of any length.
-/

set_option linter.unusedSectionVars false

namespace Verif

variable {V X R : Type} [DecidableEq V] [DecidableEq X] [DecidableEq R] {ι : Type} [DecidableEq ι]

/-- No set of variables separates the sets of the list. -/
def ConnectedL (L : List (Finset V)) : Prop :=
  ∀ P : Finset V, (∀ s ∈ L, s ⊆ P ∨ Disjoint s P) → (∃ s ∈ L, s ⊆ P) → ∀ s ∈ L, s ⊆ P

theorem countP_split (L : List (Finset V)) (v w : V) :
    L.countP (w ∈ ·) = (L.filter (v ∈ ·)).countP (w ∈ ·) + (L.filter (v ∉ ·)).countP (w ∈ ·) := by
  induction L with
  | nil => rfl
  | cons s t ih =>
    by_cases hv : v ∈ s <;> by_cases hw : w ∈ s <;> simp [hv, hw, List.countP_cons, ih] <;> omega

theorem elimOk_two (T : Finset V) (vs : List V) (L : List (Finset V)) (h2 : ∀ w, L.countP (w ∈ ·) ≤ 2) (hconn : ConnectedL L)
    (hne : ∀ s ∈ L, s.Nonempty) (hvs : ∀ v ∈ vs, ∃ s ∈ L, v ∈ s) (hrest : ∀ w, w ∈ vs ∨ L.countP (w ∈ ·) ≤ 1) : elimOk T vs L = true := by
  induction vs generalizing L with
  | nil =>
    rw [elimOk, decide_eq_true_eq]
    match L with
    | [] => simp
    | [_] => simp
    | s :: t :: L' =>
      exfalso
      have hc : ∀ w, (s :: t :: L').countP (w ∈ ·) ≤ 1 := fun w => (hrest w).resolve_left (by simp)
      have hdis : ∀ u ∈ t :: L', Disjoint u s := by
        intro u hu
        rw [Finset.disjoint_left]
        intro w hwu hws
        have := hc w
        rw [List.countP_cons_of_pos (by simpa using hws)] at this
        have h0 : 0 < (t :: L').countP (w ∈ ·) := List.countP_pos_iff.2 ⟨u, hu, by simpa using hwu⟩
        omega
      have hsub := hconn s (by
        intro u hu
        rcases List.mem_cons.1 hu with rfl | hu
        · exact Or.inl (Finset.Subset.refl _)
        · exact Or.inr (hdis u hu)) ⟨s, by simp, Finset.Subset.refl _⟩ t (by simp)
      obtain ⟨w, hw⟩ := hne t (by simp)
      exact Finset.disjoint_left.1 (hdis t (by simp)) hw (hsub hw)
  | cons v vs ih =>
    obtain ⟨s₀, hs₀, hvs₀⟩ := hvs v (by simp)
    have hlen : (L.filter (v ∈ ·)).length = L.countP (v ∈ ·) := List.countP_eq_length_filter.symm
    rw [elimOk, Bool.and_eq_true]
    refine ⟨?_, ?_⟩
    · rw [decide_eq_true_eq]
      rintro w - ⟨a, b⟩
      have := h2 v
      omega
    · show elimOk T vs (unionL (L.filter (v ∈ ·)) :: L.filter (v ∉ ·)) = true
      have hle : ∀ w, (unionL (L.filter (v ∈ ·)) :: L.filter (v ∉ ·)).countP (w ∈ ·) ≤ L.countP (w ∈ ·) := by
        intro w
        rw [countP_split L v w, List.countP_cons]
        by_cases hw : w ∈ unionL (L.filter (v ∈ ·))
        · obtain ⟨s, hs, hws⟩ := (mem_unionL _ _).1 hw
          have h0 : 0 < (L.filter (v ∈ ·)).countP (w ∈ ·) := List.countP_pos_iff.2 ⟨s, hs, by simpa using hws⟩
          rw [if_pos (by simpa using hw)]
          omega
        · rw [if_neg (by simpa using hw)]
          omega
      refine ih _ (fun w => (hle w).trans (h2 w)) ?_ ?_ ?_ ?_
      · intro P hP hex
        have hA : ∀ s ∈ L, v ∈ s → s ⊆ unionL (L.filter (v ∈ ·)) := fun s hs hv w hw =>
          (mem_unionL _ _).2 ⟨s, List.mem_filter.2 ⟨hs, by simpa using hv⟩, hw⟩
        have hall := hconn P (by
          intro s hs
          by_cases hv : v ∈ s
          · rcases hP _ List.mem_cons_self with h | h
            · exact Or.inl ((hA s hs hv).trans h)
            · exact Or.inr (h.mono_left (hA s hs hv))
          · exact hP s (List.mem_cons_of_mem _ (List.mem_filter.2 ⟨hs, by simpa using hv⟩))) (by
          obtain ⟨s, hs, hsP⟩ := hex
          rcases List.mem_cons.1 hs with rfl | hs
          · exact ⟨s₀, hs₀, (hA s₀ hs₀ hvs₀).trans hsP⟩
          · exact ⟨s, (List.mem_filter.1 hs).1, hsP⟩)
        intro s hs
        rcases List.mem_cons.1 hs with rfl | hs
        · intro w hw
          obtain ⟨s, hs, hws⟩ := (mem_unionL _ _).1 hw
          exact hall s (List.mem_filter.1 hs).1 hws
        · exact hall s (List.mem_filter.1 hs).1
      · intro s hs
        rcases List.mem_cons.1 hs with rfl | hs
        · exact ⟨v, (mem_unionL _ _).2 ⟨s₀, List.mem_filter.2 ⟨hs₀, by simpa using hvs₀⟩, hvs₀⟩⟩
        · exact hne s (List.mem_filter.1 hs).1
      · intro w hw
        obtain ⟨s, hs, hws⟩ := hvs w (by simp [hw])
        by_cases hv : v ∈ s
        · exact ⟨_, List.mem_cons_self, (mem_unionL _ _).2 ⟨s, List.mem_filter.2 ⟨hs, by simpa using hv⟩, hws⟩⟩
        · exact ⟨s, List.mem_cons_of_mem _ (List.mem_filter.2 ⟨hs, by simpa using hv⟩), hws⟩
      · intro w
        by_cases e : w = v
        · right
          subst e
          rw [List.countP_cons]
          have : (L.filter (w ∉ ·)).countP (w ∈ ·) = 0 := by
            rw [List.countP_eq_zero]
            intro s hs
            simpa using (List.mem_filter.1 hs).2
          rw [this]
          split <;> omega
        · rcases hrest w with h | h
          · left
            exact (List.mem_cons.1 h).resolve_left e
          · right
            exact (hle w).trans h

/-- **C43.** If the factors are connected and no variable is in more than two of them (a chain or a cycle of factors), `make_joined` returns, whatever
the orders. -/
theorem C43_two_factors (o : Orders V X R) (sp : Space V X R) (hg : AllGood sp.outcomes) (hf : Factorizable sp.outcomes)
    (hc : CompleteFactors sp.outcomes) (F : Finset (ItemSet V X R)) (hF : AreFactors sp.outcomes F) (L : List (Finset V))
    (hL : (L : Multiset (Finset V)) = F.val.map factorVars) (h2 : ∀ w, L.countP (w ∈ ·) ≤ 2) (hconn : ConnectedL L) :
    ∃ sp', sp.makeJoined o = .ok sp' := by
  obtain ⟨T, hT⟩ := manyVals_exist sp.outcomes
  rw [(C43_returns_iff o sp hg hf hc F hF T hT L hL).1]
  have hmem : ∀ s, s ∈ L ↔ ∃ f ∈ F, factorVars f = s := by
    intro s; rw [← Multiset.mem_coe, hL, Multiset.mem_map]; rfl
  refine elimOk_two T _ L h2 hconn ?_ ?_ ?_
  · intro s hs
    obtain ⟨f, hf', rfl⟩ := (hmem _).1 hs
    obtain ⟨p, hp, hpf⟩ := (hF f).1 hf'
    have hpm : p ∈ f := (hpf p).2 ⟨hp, sameFactor_refl (hg _ ⟨p.2, (Samples.mem_items _ p).1 hp⟩).2.1⟩
    obtain ⟨n, hn⟩ := (hg _ ⟨p.2, (Samples.mem_items _ p).1 hp⟩).2.1
    exact ⟨n.var, (mem_factorVars hg hF hf' hpm n.var).2 ⟨n, hn, rfl⟩⟩
  · intro v hv
    obtain ⟨g, g1, g2⟩ := (mem_included_fst o sp v).1 hv
    obtain ⟨f, hf', c, hc'⟩ := exists_factor hg hF g1
    exact ⟨_, (hmem _).2 ⟨f, hf', rfl⟩, (mem_factorVars hg hF hf' hc' v).2 g2⟩
  · intro v
    by_cases hv : ∃ s ∈ L, v ∈ s
    · left
      obtain ⟨s, hs, hvs⟩ := hv
      obtain ⟨f, hf', rfl⟩ := (hmem _).1 hs
      rw [mem_included_fst]
      obtain ⟨p, hp, hpf⟩ := (hF f).1 hf'
      have hpm : p ∈ f := (hpf p).2 ⟨hp, sameFactor_refl (hg _ ⟨p.2, (Samples.mem_items _ p).1 hp⟩).2.1⟩
      exact ⟨p.1, ⟨p.2, (Samples.mem_items _ p).1 hp⟩, (mem_factorVars hg hF hf' hpm v).1 hvs⟩
    · right
      have : L.countP (v ∈ ·) = 0 := by
        rw [List.countP_eq_zero]
        intro s hs h
        exact hv ⟨s, hs, by simpa using h⟩
      omega

/-- Tables of which no variable is in more than two are joined. -/
theorem Tables.joins_two {dom : V → Finset ℕ} {val : V → ℕ → X} {I : Finset ι} {scope : ι → Finset V}
    {pairs : ι → Finset (Finset V)} {G : ι → (V → ℕ) → SampleGraph V X R} {φ : ι → (V → ℕ) → ℤ} {sp : Space V X R}
    (h : Tables sp.outcomes dom val I scope pairs G φ) (o : Orders V X R) (L : List (Finset V))
    (hL : (L : Multiset (Finset V)) = I.val.map scope) (h2 : ∀ w, L.countP (w ∈ ·) ≤ 2) (hconn : ConnectedL L) : ∃ sp', sp.makeJoined o = .ok sp' :=
  C43_two_factors o sp h.good h.factorizable h.complete _ h.areFactors L (hL.trans h.scopes.symm) h2 hconn

end Verif
