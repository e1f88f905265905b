import Verif.Lemmas.JoinDepth
import Mathlib.Data.Finset.Powerset

/-!
# `make_joined` and the recursion limit (C79)
-/

set_option linter.unusedSectionVars false

namespace Verif

variable {V X R : Type} [DecidableEq V] [DecidableEq X] [DecidableEq R]

namespace Samples

/-- **C79.** `join_factors` that would return with no limit, on lists of outcomes none of which is empty: within the limit `d` it returns the same if list number `i`
(from 0) has at most `d - 1 - i` outcomes for each `i`; otherwise it raises `RecursionError`. -/
theorem C79_join_factors (oI : Order (SampleGraph V X R × ℤ)) (oN : Order (Node V X)) (oE : Order (Edge V X R)) (d : ℕ)
    (L : List (List (SampleGraph V X R × ℤ))) (hL : ∀ os ∈ L, os ≠ []) (acc r : Samples V X R) (h : joinFactors oI oN oE L acc = .ok r) :
    ((0 < d ∧ ∀ i os, L[i]? = some os → i + 1 + os.length ≤ d) → joinFactorsD oI oN oE d L acc = .ok r) ∧
    (¬ (0 < d ∧ ∀ i os, L[i]? = some os → i + 1 + os.length ≤ d) → joinFactorsD oI oN oE d L acc = .error .fuel) := by
  rw [← need_le_iff L hL, joinFactorsD_need oI oN oE d L hL acc r h]
  exact ⟨fun h => if_pos h, fun h => if_neg h⟩

end Samples

/-- **C79.** With a limit `make_joined` returns the same as without, raises the same, or raises `RecursionError`. -/
theorem C79_limit (o : Orders V X R) (sp : Space V X R) (d : ℕ) : sp.makeJoinedD d o = .error .fuel ∨ sp.makeJoinedD d o = sp.makeJoined o :=
  makeJoinedD_lim d o sp

/-! ### Helper lemmas -/

namespace BlockInv
variable {F : Finset (ItemSet V X R)} {vals : V → Finset X} {𝓑 : Finset (Finset (ItemSet V X R))}
  {Jf : Finset (ItemSet V X R) → ItemSet V X R} {fs : Finset (ItemSet V X R)}

theorem outcomes_mem (h : BlockInv F 𝓑 Jf fs) (o : Orders V X R) (v : V) (x : X) {B : Finset (ItemSet V X R)} (hB : B ∈ 𝓑) :
    (Space.outcomesForVal o v x (Jf B)).length = (withValue v x (Jf B)).card := by
  have hnd : (Space.outcomesForVal o v x (Jf B)).Nodup := (o.items.nodup _).filter _
  rw [← List.toFinset_card_of_nodup hnd]
  congr 1
  ext p
  rw [List.mem_toFinset, mem_outcomesForVal o v x _ (fun p hp => (h.wf B hB p hp).2.2), withValue, Finset.mem_filter]

/-- The samples of a block with a given value of a variable: at least two for each other variable. -/
theorem two_pow_le (h : BlockInv F 𝓑 Jf fs) (hs : FactorSys F vals) (htwo : ∀ v, BlockVar F v → ∃ x ∈ vals v, ∃ y ∈ vals v, x ≠ y)
    {B : Finset (ItemSet V X R)} (hB : B ∈ 𝓑) {w : V} (hw : BlockVar B w) {x : X} (hx : x ∈ vals w) :
    2 ^ ((blockVars B).card - 1) ≤ (withValue w x (Jf B)).card := by
  classical
  have hsub : ∀ v, BlockVar B v → BlockVar F v := fun v hv => blockVar_mono (h.sub hB) hv
  have : ∀ v, ∃ a b : X, BlockVar B v → a ∈ vals v ∧ b ∈ vals v ∧ a ≠ b := by
    intro v
    by_cases hv : BlockVar B v
    · obtain ⟨a, ha, b, hb, hab⟩ := htwo v (hsub v hv)
      exact ⟨a, b, fun _ => ⟨ha, hb, hab⟩⟩
    · exact ⟨x, x, fun hv' => absurd hv' hv⟩
  choose a b hab using this
  let asg : Finset V → V → X := fun S v => if v = w then x else if v ∈ S then a v else b v
  have hasg : ∀ S v, BlockVar B v → asg S v ∈ vals v := by
    intro S v hv
    simp only [asg]
    split
    · rename_i e; rw [e]; exact hx
    · split
      · exact (hab v hv).1
      · exact (hab v hv).2.1
  have hex : ∀ S, ∃ p ∈ Jf B, ∀ n ∈ p.1.nodes, n.val = asg S n.var := fun S => h.complete hs hB (asg S) (hasg S)
  choose p hp hpn using hex
  have hcard : ((blockVars B).erase w).powerset.card = 2 ^ ((blockVars B).card - 1) := by
    rw [Finset.card_powerset, Finset.card_erase_of_mem ((mem_blockVars B w).2 hw)]
  rw [← hcard]
  refine Finset.card_le_card_of_injOn p ?_ ?_
  · intro S _
    refine Finset.mem_coe.2 (Finset.mem_filter.2 ⟨hp S, ?_⟩)
    obtain ⟨⟨k, y⟩, hn, rfl⟩ := (h.hasVar_iff_block hs hB (hp S) w).2 hw
    have := hpn S _ hn
    simp only [asg, if_true] at this
    rw [← this]; exact hn
  · intro S hS S' hS' he
    have hS1 := Finset.mem_powerset.1 (Finset.mem_coe.1 hS)
    have hS2 := Finset.mem_powerset.1 (Finset.mem_coe.1 hS')
    have key : ∀ v, BlockVar B v → v ≠ w → (v ∈ S ↔ v ∈ S') := by
      intro v hv hvw
      obtain ⟨n, hn, rfl⟩ := (h.hasVar_iff_block hs hB (hp S) v).2 hv
      have e1 := hpn S n hn
      have e2 := hpn S' n (he ▸ hn)
      rw [e1] at e2
      simp only [asg, if_neg hvw] at e2
      have hne := (hab n.var hv).2.2
      by_cases s1 : n.var ∈ S <;> by_cases s2 : n.var ∈ S' <;> simp only [s1, s2, if_true, if_false] at e2 ⊢
      · exact absurd e2 hne
      · exact absurd e2.symm hne
    ext v
    constructor
    · intro hv
      have := Finset.mem_erase.1 (hS1 hv)
      exact (key v ((mem_blockVars B v).1 this.2) this.1).1 hv
    · intro hv
      have := Finset.mem_erase.1 (hS2 hv)
      exact (key v ((mem_blockVars B v).1 this.2) this.1).2 hv

/-- No more blocks have a variable than factors have it. -/
theorem blocks_le (h : BlockInv F 𝓑 Jf fs) (w : V) (hall : ∀ B ∈ 𝓑, BlockVar B w) : 𝓑.card ≤ (F.filter fun f => w ∈ factorVars f).card := by
  classical
  have : ∀ B, ∃ f, B ∈ 𝓑 → f ∈ B ∧ w ∈ factorVars f := by
    intro B
    by_cases hB : B ∈ 𝓑
    · have hv := (mem_blockVars B w).2 (hall B hB)
      obtain ⟨f, hf, hwf⟩ := Finset.mem_biUnion.1 hv
      exact ⟨f, fun _ => ⟨hf, hwf⟩⟩
    · exact ⟨∅, fun h => absurd h hB⟩
  choose r hr using this
  refine Finset.card_le_card_of_injOn r ?_ ?_
  · intro B hB
    obtain ⟨h1, h2⟩ := hr B hB
    exact Finset.mem_coe.2 (Finset.mem_filter.2 ⟨h.sub hB h1, h2⟩)
  · intro B hB B' hB' he
    by_contra hne
    exact Finset.disjoint_left.1 (h.disj B hB B' hB' hne) (hr B hB).1 (he ▸ (hr B' hB').1)

/-- A step of the loop that returns within the limit. -/
theorem eliminateD_ok (h : BlockInv F 𝓑 Jf fs) (hs : FactorSys F vals) (o : Orders V X R) (prov d : ℕ) (v : V) (hv : BlockVar F v)
    {fs' : Finset (ItemSet V X R)} (he : Space.eliminateD d o prov fs (v, vals v) = .ok fs') :
    (∃ Jf', BlockInv F (mergeOn 𝓑 v) Jf' fs') ∧ ∀ B ∈ 𝓑, BlockVar B v → ∀ x ∈ vals v, (withValue v x (Jf B)).card < d := by
  have he' := (eliminateD_lim d o prov fs (v, vals v)).ok he
  obtain ⟨s1, s2⟩ := h.eliminate_spec hs o prov v hv
  have hnc : ¬ Conflict vals 𝓑 v := by
    intro hc
    rw [s2 hc] at he'
    cases he'
  obtain ⟨fs'', Jf', e1, e2⟩ := s1 hnc
  rw [e1] at he'
  cases he'
  refine ⟨⟨Jf', e2⟩, ?_⟩
  intro B hB hBv x hx
  have hmem : Space.outcomesForVal o v x (Jf B) ∈ (((Space.factorsForVar o v fs).map (Space.outcomesForVal o v x)).filter (· ≠ [])) ∨
      Space.outcomesForVal o v x (Jf B) = [] := by
    by_cases hnil : Space.outcomesForVal o v x (Jf B) = []
    · exact Or.inr hnil
    · left
      rw [List.mem_filter]
      exact ⟨List.mem_map.2 ⟨_, (h.mem_ffv hs o v _).2 ⟨B, hB, hBv, rfl⟩, rfl⟩, by simpa using hnil⟩
  have hneed : Samples.need (((Space.factorsForVar o v fs).map (Space.outcomesForVal o v x)).filter (· ≠ [])) ≤ d := by
    unfold Space.eliminateD at he
    simp only at he
    cases hfold : (o.vals.run (vals v)).foldlM (Space.joinValueD d o prov v (Space.factorsForVar o v fs)) (Samples.empty prov) with
    | error e => rw [hfold] at he; cases he
    | ok jf =>
      have key : ∀ (xs : List X) (a r : Samples V X R), xs.foldlM (Space.joinValueD d o prov v (Space.factorsForVar o v fs)) a = .ok r →
          ∀ x ∈ xs, ∃ a b, Space.joinValueD d o prov v (Space.factorsForVar o v fs) a x = .ok b := by
        intro xs
        induction xs with
        | nil => intro a r _ x hx; cases hx
        | cons y t ih =>
          intro a r hr x hx
          rw [List.foldlM_cons] at hr
          cases hy : Space.joinValueD d o prov v (Space.factorsForVar o v fs) a y with
          | error e => rw [hy] at hr; cases hr
          | ok b =>
            rcases List.mem_cons.1 hx with rfl | hx
            · exact ⟨a, b, hy⟩
            · rw [hy] at hr
              exact ih b r hr x hx
      obtain ⟨a, b, hab⟩ := key _ _ _ hfold x ((o.vals.mem _ _).2 hx)
      obtain ⟨r, hr, -⟩ := (h.value_spec hs o prov v hv x hx).1 hnc
      have hD := Samples.joinFactorsD_need o.items o.nodes o.edges d _ (by
        intro os hos
        have := (List.mem_filter.1 hos).2
        simpa using this) _ _ hr
      by_contra hn
      rw [if_neg hn] at hD
      unfold Space.joinValueD at hab
      rw [hD] at hab
      cases hab
  rw [Samples.need_le_iff _ (by
    intro os hos
    have := (List.mem_filter.1 hos).2
    simpa using this)] at hneed
  rw [← h.outcomes_mem o v x hB]
  rcases hmem with hmem | hnil
  · obtain ⟨i, hi, hie⟩ := List.mem_iff_getElem.1 hmem
    have := hneed.2 i _ (by rw [List.getElem?_eq_getElem hi, hie])
    omega
  · rw [hnil]; exact hneed.1

/-- The loop up to some point. -/
theorem eliminateD_loop (hs : FactorSys F vals) (o : Orders V X R) (prov d : ℕ) (qs : List (V × Finset X))
    (hqs : ∀ q ∈ qs, BlockVar F q.1 ∧ q.2 = vals q.1) : ∀ (𝓑 : Finset (Finset (ItemSet V X R))) (Jf : Finset (ItemSet V X R) → ItemSet V X R)
      (fs fs' : Finset (ItemSet V X R)), BlockInv F 𝓑 Jf fs → qs.foldlM (Space.eliminateD d o prov) fs = .ok fs' →
      ∃ 𝓑' Jf', BlockInv F 𝓑' Jf' fs' := by
  induction qs with
  | nil => intro 𝓑 Jf fs fs' h he; cases he; exact ⟨𝓑, Jf, h⟩
  | cons q t ih =>
    intro 𝓑 Jf fs fs' h he
    rw [List.foldlM_cons] at he
    obtain ⟨hq1, hq2⟩ := hqs q (by simp)
    have hq : q = (q.1, vals q.1) := Prod.ext rfl hq2
    cases hy : Space.eliminateD d o prov fs q with
    | error e => rw [hy] at he; cases he
    | ok b =>
      rw [hy] at he
      rw [hq] at hy
      obtain ⟨⟨Jf', h'⟩, -⟩ := h.eliminateD_ok hs o prov d q.1 hq1 hy
      exact ih (fun q hq => hqs q (by simp [hq])) _ _ _ _ h' he

end BlockInv

theorem factorized_ok {sp : Space V X R} (o : Orders V X R) (hg : AllGood sp.outcomes) (hf : Factorizable sp.outcomes)
    {F : Finset (ItemSet V X R)} (hF : AreFactors sp.outcomes F) : sp.factorized o.items o.nodes = .ok F := by
  obtain ⟨F', hF'⟩ := (C33_factorized_iff sp o.items o.nodes o.graphs).1 ((C33_is_factorized sp o.graphs).2 hf)
  rw [hF']
  congr 1
  ext f
  rw [mem_factors_iff sp o.items o.nodes (edgeless_card hg) F' hF']
  exact (hF f).symm

/-! ### C79 -/

/-- **C79.** Complete factors, each variable in at most `k` of them and with two values or more: when `make_joined` returns within the limit `d`, then the number `n` of the variables
is at most `k * j + 1` for some `j` with `2 ^ j < d`; whatever the order. -/
theorem C79_large (o : Orders V X R) (sp : Space V X R) (hg : AllGood sp.outcomes) (hc : CompleteFactors sp.outcomes) (hne : ∃ g, sp.outcomes.Occurs g)
    (F : Finset (ItemSet V X R)) (hF : AreFactors sp.outcomes F) (k : ℕ) (hk : ∀ v, (F.filter fun f => v ∈ factorVars f).card ≤ k)
    (htwo : ∀ v, (∃ g, sp.outcomes.Occurs g ∧ HasVar v g) → ∃ x y, x ≠ y ∧ (∃ g, sp.outcomes.Occurs g ∧ HasValue v x g) ∧ ∃ g, sp.outcomes.Occurs g ∧ HasValue v y g)
    (d : ℕ) (sp' : Space V X R) (h : sp.makeJoinedD d o = .ok sp') : ∃ j, (F.biUnion factorVars).card ≤ k * j + 1 ∧ 2 ^ j < d := by
  classical
  have hf : Factorizable sp.outcomes := by
    have h' := (makeJoinedD_lim d o sp).ok h
    unfold Space.makeJoined at h'
    rw [← C33_is_factorized sp o.graphs]
    by_contra hfz
    rw [(C33_factorized_iff sp o.items o.nodes o.graphs).2 (Bool.eq_false_iff.2 hfz)] at h'
    cases h'
  have hs := factorSys_of _ hg hf hc F hF
  have htwo' : ∀ v, BlockVar F v → ∃ x ∈ occVals sp.outcomes v, ∃ y ∈ occVals sp.outcomes v, x ≠ y := by
    intro v hv
    obtain ⟨x, y, hxy, hx, hy⟩ := htwo v ((blockVar_iff_occurs hg hF v).1 hv)
    exact ⟨x, (mem_occVals _ _ _).2 hx, y, (mem_occVals _ _ _).2 hy, hxy⟩
  have hqs : ∀ q ∈ o.incl.run (sp.includedVariables o.graphs o.nodes), BlockVar F q.1 ∧ q.2 = occVals sp.outcomes q.1 := by
    intro q hq
    rw [o.incl.mem, included_pair] at hq
    exact ⟨(blockVar_iff_occurs hg hF _).2 hq.1, hq.2⟩
  have hqne : o.incl.run (sp.includedVariables o.graphs o.nodes) ≠ [] := by
    obtain ⟨g, hgo⟩ := hne
    obtain ⟨n, hn⟩ := (hg g hgo).2.1
    refine List.ne_nil_of_mem (a := (n.var, occVals sp.outcomes n.var)) ?_
    rw [o.incl.mem, included_pair]
    exact ⟨⟨g, hgo, n, hn, rfl⟩, rfl⟩
  unfold Space.makeJoinedD at h
  rw [factorized_ok o hg hf hF] at h
  simp only at h
  generalize o.incl.run (sp.includedVariables o.graphs o.nodes) = qs at hqs hqne h
  obtain ⟨pre, q, rfl⟩ := (List.eq_nil_or_concat' qs).resolve_left hqne
  cases hfold : (pre ++ [q]).foldlM (Space.eliminateD d o sp.outcomes.prov) F with
  | error e => rw [hfold] at h; cases h
  | ok fs =>
    rw [hfold] at h
    simp only at h
    have hcard : fs.card ≤ 1 := by
      by_contra hcd
      rw [if_neg hcd] at h
      cases h
    rw [List.foldlM_append] at hfold
    cases hpre : pre.foldlM (Space.eliminateD d o sp.outcomes.prov) F with
    | error e => rw [hpre] at hfold; cases hfold
    | ok fs₁ =>
      rw [hpre] at hfold
      have hlast : Space.eliminateD d o sp.outcomes.prov fs₁ q = .ok fs := by
        have e : (Except.ok fs₁ >>= fun s => List.foldlM (Space.eliminateD d o sp.outcomes.prov) s [q] : Py _) =
          (Space.eliminateD d o sp.outcomes.prov fs₁ q >>= fun s => .ok s) := rfl
        rw [e] at hfold
        cases hq : Space.eliminateD d o sp.outcomes.prov fs₁ q with
        | error e => rw [hq] at hfold; cases hfold
        | ok b => rw [hq] at hfold; exact hfold
      obtain ⟨𝓑, Jf, hB⟩ := BlockInv.eliminateD_loop hs o sp.outcomes.prov d pre (fun q hq => hqs q (by simp [hq])) _ _ _ _ (blockInv_init hs) hpre
      obtain ⟨hw, hq2⟩ := hqs q (by simp)
      have hq : q = (q.1, occVals sp.outcomes q.1) := Prod.ext rfl hq2
      rw [hq] at hlast
      obtain ⟨⟨Jf', hB'⟩, hlt⟩ := hB.eliminateD_ok hs o sp.outcomes.prov d q.1 hw hlast
      generalize q.1 = w at hw hlt hB'
      have hc1 : (mergeOn 𝓑 w).card ≤ 1 := by
        rwa [hB'.image, Finset.card_image_of_injOn (fun B hB B' hB'' e => hB'.inj hs B hB B' hB'' e)] at hcard
      have hUw : BlockVar ((𝓑.filter fun B => BlockVar B w).biUnion id) w := by
        obtain ⟨f, hf, r, hr, hrv⟩ := hw
        rw [← hB.cover, Finset.mem_biUnion] at hf
        obtain ⟨B, hBm, hfB⟩ := hf
        exact ⟨f, Finset.mem_biUnion.2 ⟨B, Finset.mem_filter.2 ⟨hBm, f, hfB, r, hr, hrv⟩, hfB⟩, r, hr, hrv⟩
      have hall : ∀ B ∈ 𝓑, BlockVar B w := by
        intro B hBm
        by_contra hn
        have h1 : B ∈ mergeOn 𝓑 w := Finset.mem_union_left _ (Finset.mem_filter.2 ⟨hBm, hn⟩)
        have h2 : (𝓑.filter fun B => BlockVar B w).biUnion id ∈ mergeOn 𝓑 w := Finset.mem_union_right _ (Finset.mem_singleton_self _)
        rw [Finset.card_le_one] at hc1
        exact hn ((hc1 _ h1 _ h2) ▸ hUw)
      have hk' := (hB.blocks_le w hall).trans (hk w)
      have h𝓑ne : 𝓑.Nonempty := by
        obtain ⟨f, hf, -⟩ := hw
        rw [← hB.cover, Finset.mem_biUnion] at hf
        obtain ⟨B, hBm, -⟩ := hf
        exact ⟨B, hBm⟩
      obtain ⟨x, hx⟩ := BlockInv.vals_nonempty hs hw
      obtain ⟨B, hBm, hmax⟩ := Finset.exists_max_image 𝓑 (fun B => (blockVars B).card - 1) h𝓑ne
      refine ⟨(blockVars B).card - 1, ?_, lt_of_le_of_lt (hB.two_pow_le hs htwo' hBm (hall B hBm) hx) (hlt B hBm (hall B hBm) x hx)⟩
      have hsub : (F.biUnion factorVars).erase w ⊆ 𝓑.biUnion fun B => (blockVars B).erase w := by
        intro v hv
        obtain ⟨hvw, hv⟩ := Finset.mem_erase.1 hv
        obtain ⟨f, hf, hvf⟩ := Finset.mem_biUnion.1 hv
        rw [← hB.cover, Finset.mem_biUnion] at hf
        obtain ⟨B, hBm, hfB⟩ := hf
        exact Finset.mem_biUnion.2 ⟨B, hBm, Finset.mem_erase.2 ⟨hvw, Finset.mem_biUnion.2 ⟨f, hfB, hvf⟩⟩⟩
      have h1 := Finset.card_le_card hsub
      have h2 : (𝓑.biUnion fun B => (blockVars B).erase w).card ≤ 𝓑.card * ((blockVars B).card - 1) := by
        refine Finset.card_biUnion_le_card_mul _ _ _ fun B' hB' => ?_
        rw [Finset.card_erase_of_mem ((mem_blockVars B' w).2 (hall B' hB'))]
        exact hmax B' hB'
      have h3 : (F.biUnion factorVars).card - 1 ≤ ((F.biUnion factorVars).erase w).card := Finset.pred_card_le_card_erase
      have h4 := Nat.mul_le_mul_right ((blockVars B).card - 1) hk'
      omega

/-- **C79.** Factors that form a tree, each variable in at most `k` of them and with two values or more: when the number of the variables is more than `k * j + 1` for each `j` with
`2 ^ j < d`, then `make_joined` raises `RecursionError` for every order (without a limit it returns for every order, `C42_tree`). -/
theorem C79_tree (o : Orders V X R) (sp : Space V X R) (hg : AllGood sp.outcomes) (hf : Factorizable sp.outcomes) (hc : CompleteFactors sp.outcomes)
    (F : Finset (ItemSet V X R)) (hF : AreFactors sp.outcomes F) (L : List (Finset V))
    (hL : (L : Multiset (Finset V)) = F.val.map factorVars) (ht : TreeShape L) (k : ℕ) (hk : ∀ v, (F.filter fun f => v ∈ factorVars f).card ≤ k)
    (htwo : ∀ v, (∃ g, sp.outcomes.Occurs g ∧ HasVar v g) → ∃ x y, x ≠ y ∧ (∃ g, sp.outcomes.Occurs g ∧ HasValue v x g) ∧ ∃ g, sp.outcomes.Occurs g ∧ HasValue v y g)
    (d : ℕ) (hn : ∀ j, 2 ^ j < d → k * j + 1 < (F.biUnion factorVars).card) :
    sp.makeJoinedD d o = .error .fuel ∧ ∃ sp', sp.makeJoined o = .ok sp' := by
  obtain ⟨sp', hsp'⟩ := C42_tree o sp hg hf hc F hF L hL ht
  refine ⟨?_, sp', hsp'⟩
  rcases C79_limit o sp d with h | h
  · exact h
  · exfalso
    rw [hsp'] at h
    have hne : ∃ g, sp.outcomes.Occurs g := by
      have hLne := (forest_of_tree ht).2.2
      have hFne : F.Nonempty := by
        by_contra hF0
        rw [Finset.not_nonempty_iff_eq_empty] at hF0
        subst hF0
        simp at hL
        exact hLne hL
      obtain ⟨f, hf'⟩ := hFne
      obtain ⟨p, hp, -⟩ := (hF f).1 hf'
      exact ⟨p.1, p.2, (Samples.mem_items _ p).1 hp⟩
    obtain ⟨j, h1, h2⟩ := C79_large o sp hg hc hne F hF k hk htwo d sp' h
    have := hn j h2
    omega

/-! ### Enough -/

/-- A join of some of the factors extends to a join of all of them. -/
theorem FactorSys.card_le {F : Finset (ItemSet V X R)} {vals : V → Finset X} (hs : FactorSys F vals) {B : Finset (ItemSet V X R)} (hB : B ⊆ F)
    (J K : ItemSet V X R) (hJ : ∀ p ∈ J, IsJoin B id p) (hK : ∀ p, IsJoin F id p → p ∈ K) : J.card ≤ K.card := by
  classical
  by_cases hF0 : F.Nonempty
  swap
  · have hBF : B = F := by
      rw [Finset.not_nonempty_iff_eq_empty] at hF0
      subst hF0
      exact Finset.subset_empty.1 hB
    subst hBF
    exact Finset.card_le_card fun p hp => hK p (hJ p hp)
  have := BlockInv.nonempty_X hs hF0
  obtain ⟨asg0, ha0⟩ := BlockInv.exists_asg hs
  have inh : Inhabited (SampleGraph V X R × ℤ) := ⟨(⟨∅, ∅⟩, 0)⟩
  have hext : ∀ p ∈ J, ∃ sel : ItemSet V X R → SampleGraph V X R × ℤ, (∀ f ∈ F, sel f ∈ f) ∧ SingleValued (F.biUnion fun f => (sel f).1.nodes) ∧
      p.1.nodes = B.biUnion (fun f => (sel f).1.nodes) ∧ p.1.edges = B.biUnion (fun f => (sel f).1.edges) ∧ p.2 = ∏ f ∈ B, (sel f).2 := by
    intro p hp
    obtain ⟨sel, h1, h2, h3, h4, h5⟩ := hJ p hp
    let asg : V → X := fun v => if hv : HasVar v p.1 then (Classical.choose hv).val else asg0 v
    have hasgp : ∀ n ∈ p.1.nodes, n.val = asg n.var := by
      intro n hn
      have hv : HasVar n.var p.1 := ⟨n, hn, rfl⟩
      simp only [asg, dif_pos hv]
      obtain ⟨c1, c2⟩ := Classical.choose_spec hv
      rw [h2 _ c1 _ hn c2]
    have hasg : ∀ v, BlockVar F v → asg v ∈ vals v := by
      intro v hv
      by_cases hvp : HasVar v p.1
      · obtain ⟨n, hn, rfl⟩ := hvp
        rw [← hasgp n hn]
        exact hs.join_inVals hB (hJ p hp) n hn
      · simp only [asg, dif_neg hvp]; exact ha0 v hv
    have : ∀ f ∈ F, ∃ q ∈ f, ∀ n ∈ q.1.nodes, n.val = asg n.var := fun f hf =>
      hs.complete f hf asg fun q hq v hv => hasg v ⟨f, hf, q, hq, hv⟩
    choose! s k1 k2 using this
    have hin : ∀ f ∈ B, (if f ∈ B then sel f else s f) = sel f := fun f hf => if_pos hf
    refine ⟨fun f => if f ∈ B then sel f else s f, ?_, ?_, ?_, ?_, ?_⟩
    · intro f hf
      by_cases hfB : f ∈ B
      · simp only [if_pos hfB]; exact h1 f hfB
      · simp only [if_neg hfB]; exact k1 f hf
    · have hn : ∀ n ∈ F.biUnion (fun f => (if f ∈ B then sel f else s f).1.nodes), n.val = asg n.var := by
        intro n hn
        obtain ⟨f, hf, hnf⟩ := Finset.mem_biUnion.1 hn
        by_cases hfB : f ∈ B
        · rw [if_pos hfB] at hnf
          exact hasgp n (by rw [h3]; exact Finset.mem_biUnion.2 ⟨f, hfB, hnf⟩)
        · rw [if_neg hfB] at hnf
          exact k2 f hf n hnf
      intro a ha b hb hab
      obtain ⟨av, ax⟩ := a
      obtain ⟨bv, bx⟩ := b
      have e1 := hn _ ha
      have e2 := hn _ hb
      simp only at hab e1 e2
      subst hab
      rw [e1, e2]
    · rw [h3]; exact Finset.biUnion_congr rfl fun f hf => by simp only [hin f hf]
    · rw [h4]; exact Finset.biUnion_congr rfl fun f hf => by simp only [hin f hf]
    · rw [h5]; exact Finset.prod_congr rfl fun f hf => by simp only [hin f hf]
  choose! sel e1 e2 e3 e4 e5 using hext
  refine Finset.card_le_card_of_injOn (fun p => (⟨F.biUnion fun f => (sel p f).1.nodes, F.biUnion fun f => (sel p f).1.edges⟩, ∏ f ∈ F, (sel p f).2)) ?_ ?_
  · intro p hp
    exact hK _ ⟨sel p, e1 p hp, e2 p hp, rfl, rfl, rfl⟩
  · intro p hp q hq hpq
    simp only [Prod.mk.injEq, SampleGraph.mk.injEq] at hpq
    have key := hs.sys.sel_unique (sel p) (sel q) (e1 p hp) (e1 q hq) (F.biUnion fun f => (sel p f).1.nodes) (e2 p hp) (F.biUnion fun f => (sel p f).1.edges)
      (fun n => by simp) (fun n => by rw [hpq.1.1]; simp) (fun n => by simp) (fun n => by rw [hpq.1.2]; simp)
    refine Prod.ext (SampleGraph.ext ?_ ?_) ?_
    · rw [e3 p hp, e3 q hq]; exact Finset.biUnion_congr rfl fun f hf => by rw [key f (hB hf)]
    · rw [e4 p hp, e4 q hq]; exact Finset.biUnion_congr rfl fun f hf => by rw [key f (hB hf)]
    · rw [e5 p hp, e5 q hq]; exact Finset.prod_congr rfl fun f hf => by rw [key f (hB hf)]

/-- A loop whose steps return the same returns the same. -/
theorem foldlM_same {A B : Type} {f g : B → A → Py B} (l : List A) : ∀ b r, l.foldlM g b = .ok r →
    (∀ a ∈ l, ∀ b r, g b a = .ok r → f b a = .ok r) → l.foldlM f b = .ok r := by
  induction l with
  | nil => exact fun b r h _ => h
  | cons a t ih =>
    intro b r h hfg
    rw [List.foldlM_cons] at h ⊢
    cases hg : g b a with
    | error e => rw [hg] at h; cases h
    | ok c =>
      rw [hg] at h
      rw [hfg a (by simp) b c hg]
      exact ih c r h fun a ha => hfg a (by simp [ha])

namespace BlockInv
variable {F : Finset (ItemSet V X R)} {vals : V → Finset X} {𝓑 : Finset (Finset (ItemSet V X R))}
  {Jf : Finset (ItemSet V X R) → ItemSet V X R} {fs : Finset (ItemSet V X R)}

/-- A step of the loop with a limit that is enough. -/
theorem eliminateD_enough (h : BlockInv F 𝓑 Jf fs) (hs : FactorSys F vals) (o : Orders V X R) (prov d : ℕ) (v : V) (hv : BlockVar F v)
    (hd : ∀ B ∈ 𝓑, BlockVar B v → ∀ x ∈ vals v, 𝓑.card + (withValue v x (Jf B)).card ≤ d)
    {fs' : Finset (ItemSet V X R)} (he : Space.eliminate o prov fs (v, vals v) = .ok fs') : Space.eliminateD d o prov fs (v, vals v) = .ok fs' := by
  have hnc : ¬ Conflict vals 𝓑 v := by
    intro hc
    rw [(h.eliminate_spec hs o prov v hv).2 hc] at he
    cases he
  unfold Space.eliminate at he
  unfold Space.eliminateD
  simp only at he ⊢
  cases hfold : (o.vals.run (vals v)).foldlM (Space.joinValue o prov v (Space.factorsForVar o v fs)) (Samples.empty prov) with
  | error e => rw [hfold] at he; cases he
  | ok jf =>
    rw [hfold] at he
    rw [foldlM_same _ _ _ hfold]
    · exact he
    intro x hx a r hr
    rw [o.vals.mem] at hx
    obtain ⟨r', hr', -⟩ := (h.value_spec hs o prov v hv x hx).1 hnc
    have hne : ∀ os ∈ (((Space.factorsForVar o v fs).map (Space.outcomesForVal o v x)).filter (· ≠ [])), os ≠ [] := by
      intro os hos
      have := (List.mem_filter.1 hos).2
      simpa using this
    have hD := Samples.joinFactorsD_need o.items o.nodes o.edges d _ hne _ _ hr'
    rw [if_pos] at hD
    · unfold Space.joinValue at hr
      unfold Space.joinValueD
      rw [hr'] at hr
      rw [hD]
      exact hr
    · rw [Samples.need_le_iff _ hne]
      have hlen : (((Space.factorsForVar o v fs).map (Space.outcomesForVal o v x)).filter (· ≠ [])).length ≤ 𝓑.card := by
        refine (List.length_filter_le _ _).trans ?_
        rw [List.length_map]
        have hnd : (Space.factorsForVar o v fs).Nodup := (o.factors.nodup fs).filter _
        rw [← List.toFinset_card_of_nodup hnd]
        refine (Finset.card_le_card ?_).trans (Finset.card_image_le (s := 𝓑) (f := Jf))
        intro j hj
        obtain ⟨B, hB, -, rfl⟩ := (h.mem_ffv hs o v j).1 (List.mem_toFinset.1 hj)
        exact Finset.mem_image_of_mem _ hB
      constructor
      · obtain ⟨f, hf, q, hq, hqv⟩ := hv
        rw [← h.cover, Finset.mem_biUnion] at hf
        obtain ⟨B, hB, hfB⟩ := hf
        have := hd B hB ⟨f, hfB, q, hq, hqv⟩ x hx
        have : 0 < 𝓑.card := Finset.card_pos.2 ⟨B, hB⟩
        omega
      · intro i os hi
        have hil := (List.getElem?_eq_some_iff.1 hi).1
        have hmem := List.mem_of_getElem? hi
        rw [List.mem_filter, List.mem_map] at hmem
        obtain ⟨⟨j, hj, rfl⟩, -⟩ := hmem
        obtain ⟨B, hB, hBv, rfl⟩ := (h.mem_ffv hs o v j).1 hj
        rw [h.outcomes_mem o v x hB]
        have := hd B hB hBv x hx
        omega

theorem card_le (h : BlockInv F 𝓑 Jf fs) : 𝓑.card ≤ F.card := by
  rw [← h.cover, Finset.card_biUnion (t := id) (fun B hB B' hB' hne => h.disj B hB B' hB' hne)]
  have : ∑ B ∈ 𝓑, 1 ≤ ∑ B ∈ 𝓑, (id B).card := Finset.sum_le_sum fun B hB => Finset.card_pos.2 (h.ne B hB)
  simpa using this

theorem eliminateD_loop_enough (hs : FactorSys F vals) (o : Orders V X R) (prov d : ℕ) (K : ItemSet V X R) (hK : ∀ p, IsJoin F id p → p ∈ K)
    (hd : F.card + K.card ≤ d) (qs : List (V × Finset X))
    (hqs : ∀ q ∈ qs, BlockVar F q.1 ∧ q.2 = vals q.1) : ∀ (𝓑 : Finset (Finset (ItemSet V X R))) (Jf : Finset (ItemSet V X R) → ItemSet V X R)
      (fs fs' : Finset (ItemSet V X R)), BlockInv F 𝓑 Jf fs → qs.foldlM (Space.eliminate o prov) fs = .ok fs' →
      qs.foldlM (Space.eliminateD d o prov) fs = .ok fs' := by
  induction qs with
  | nil => exact fun _ _ _ _ _ he => he
  | cons q t ih =>
    intro 𝓑 Jf fs fs' h he
    rw [List.foldlM_cons] at he ⊢
    obtain ⟨hq1, hq2⟩ := hqs q (by simp)
    have hq : q = (q.1, vals q.1) := Prod.ext rfl hq2
    cases hy : Space.eliminate o prov fs q with
    | error e => rw [hy] at he; cases he
    | ok b =>
      rw [hy] at he
      rw [hq] at hy
      have hD := h.eliminateD_enough hs o prov d q.1 hq1 (fun B hB _ x _ => by
        have h1 := h.card_le
        have h2 := hs.card_le (h.sub hB) (Jf B) K (fun p hp => (h.join B hB p).1 hp) hK
        have h3 : (withValue q.1 x (Jf B)).card ≤ (Jf B).card := Finset.card_filter_le _ _
        omega) hy
      rw [← hq] at hD
      rw [hD]
      obtain ⟨s1, s2⟩ := h.eliminate_spec hs o prov q.1 hq1
      by_cases hc : Conflict vals 𝓑 q.1
      · rw [s2 hc] at hy; cases hy
      · obtain ⟨fs'', Jf', e1, e2⟩ := s1 hc
        rw [hy] at e1
        cases e1
        exact ih (fun q hq => hqs q (by simp [hq])) _ _ _ _ e2 he

end BlockInv

/-- **C79.** When `make_joined` with complete factors returns without a limit, then a limit of the number of the factors plus the number of the returned outcomes is enough. -/
theorem C79_enough (o : Orders V X R) (sp : Space V X R) (hg : AllGood sp.outcomes) (hf : Factorizable sp.outcomes) (hc : CompleteFactors sp.outcomes)
    (F : Finset (ItemSet V X R)) (hF : AreFactors sp.outcomes F) (sp' : Space V X R) (h : sp.makeJoined o = .ok sp') (d : ℕ)
    (hd : F.card + sp'.outcomes.items.card ≤ d) : sp.makeJoinedD d o = .ok sp' := by
  classical
  have hs := factorSys_of _ hg hf hc F hF
  obtain ⟨T, hT⟩ := manyVals_exist sp.outcomes
  have hT' : ∀ w, BlockVar F w → (w ∈ T ↔ ∃ x ∈ occVals sp.outcomes w, ∃ y ∈ occVals sp.outcomes w, x ≠ y) := by
    intro w _
    rw [hT]
    simp only [mem_occVals]
    constructor
    · rintro ⟨x, y, g, g', hxy, g1, g2, g3, g4⟩; exact ⟨x, ⟨g, g1, g2⟩, y, ⟨g', g3, g4⟩, hxy⟩
    · rintro ⟨x, ⟨g, g1, g2⟩, y, ⟨g', g3, g4⟩, hxy⟩; exact ⟨x, y, g, g', hxy, g1, g2, g3, g4⟩
  obtain ⟨m1, m2⟩ := makeJoined_spec o sp hg hf hc F hF T hT' (F.toList.map factorVars) (by rw [← Multiset.map_coe, Finset.coe_toList])
  have hK : ∀ p, IsJoin F id p → F ≠ ∅ → p ∈ sp'.outcomes.items := by
    intro p hp hF0
    cases he : elimOk T ((o.incl.run (sp.includedVariables o.graphs o.nodes)).map Prod.fst) (F.toList.map factorVars) with
    | false => rw [m2 he] at h; cases h
    | true =>
      obtain ⟨out, e1, -, -, e2⟩ := m1 he
      rw [h] at e1
      cases e1
      rw [Samples.mem_items]
      exact (e2 p.1 p.2).2 ⟨hF0, hp⟩
  have hqs : ∀ q ∈ o.incl.run (sp.includedVariables o.graphs o.nodes), BlockVar F q.1 ∧ q.2 = occVals sp.outcomes q.1 := by
    intro q hq
    rw [o.incl.mem, included_pair] at hq
    exact ⟨(blockVar_iff_occurs hg hF _).2 hq.1, hq.2⟩
  unfold Space.makeJoined at h
  unfold Space.makeJoinedD
  rw [factorized_ok o hg hf hF] at h ⊢
  simp only at h ⊢
  cases hfold : (o.incl.run (sp.includedVariables o.graphs o.nodes)).foldlM (Space.eliminate o sp.outcomes.prov) F with
  | error e => rw [hfold] at h; cases h
  | ok fs =>
    rw [hfold] at h
    have : (o.incl.run (sp.includedVariables o.graphs o.nodes)).foldlM (Space.eliminateD d o sp.outcomes.prov) F = .ok fs := by
      rcases Finset.eq_empty_or_nonempty F with hF0 | hF0
      · have : o.incl.run (sp.includedVariables o.graphs o.nodes) = [] := by
          rw [List.eq_nil_iff_forall_not_mem]
          intro q hq
          obtain ⟨⟨f, hf', -⟩, -⟩ := hqs q hq
          rw [hF0] at hf'
          exact absurd hf' (by simp)
        rw [this] at hfold ⊢
        exact hfold
      · exact BlockInv.eliminateD_loop_enough hs o _ d sp'.outcomes.items (fun p hp => hK p hp hF0.ne_empty) hd _ hqs _ _ _ _ (blockInv_init hs) hfold
    rw [this]
    exact h

/-! ### One factor -/

theorem mergeOn_one (f : ItemSet V X R) (v : V) (hv : BlockVar {f} v) : mergeOn {{f}} v = {{f}} := by
  classical
  unfold mergeOn
  rw [Finset.filter_singleton, Finset.filter_singleton, if_neg (by simpa using hv), if_pos hv]
  simp

theorem one_loop {f : ItemSet V X R} {vals : V → Finset X} (hs : FactorSys {f} vals) (o : Orders V X R) (prov d : ℕ) (qs : List (V × Finset X))
    (hqs : ∀ q ∈ qs, BlockVar {f} q.1 ∧ q.2 = vals q.1) : ∀ (Jf : Finset (ItemSet V X R) → ItemSet V X R)
      (fs fs' : Finset (ItemSet V X R)), BlockInv {f} {{f}} Jf fs → qs.foldlM (Space.eliminate o prov) fs = .ok fs' →
      (qs.foldlM (Space.eliminateD d o prov) fs = .ok fs' ↔ ∀ q ∈ qs, ∀ x ∈ vals q.1, (BlockInv.withValue q.1 x f).card < d) := by
  induction qs with
  | nil => intro Jf fs fs' h he; exact ⟨fun _ => by simp, fun _ => he⟩
  | cons q t ih =>
    intro Jf fs fs' h he
    rw [List.foldlM_cons] at he ⊢
    obtain ⟨hq1, hq2⟩ := hqs q (by simp)
    have hq : q = (q.1, vals q.1) := Prod.ext rfl hq2
    have hJ : Jf {f} = f := by
      ext p
      rw [h.join {f} (by simp)]
      exact isJoin_singleton f (fun p hp => (hs.sys.wf f (by simp) p hp).2.2) p
    cases hy : Space.eliminate o prov fs q with
    | error e => rw [hy] at he; cases he
    | ok b =>
      rw [hy] at he
      have he' : t.foldlM (Space.eliminate o prov) b = .ok fs' := he
      rw [hq] at hy
      obtain ⟨s1, s2⟩ := h.eliminate_spec hs o prov q.1 hq1
      have hnc : ¬ Conflict vals {{f}} q.1 := by
        intro hc
        rw [s2 hc] at hy; cases hy
      obtain ⟨fs'', Jf', e1, e2⟩ := s1 hnc
      rw [hy] at e1
      cases e1
      rw [mergeOn_one f _ hq1] at e2
      have iht := ih (fun q hq => hqs q (by simp [hq])) _ _ _ e2 he'
      constructor
      · intro hD
        cases hyD : Space.eliminateD d o prov fs q with
        | error e => rw [hyD] at hD; cases hD
        | ok b' =>
          rw [hyD] at hD
          have hbb : b' = b := by
            have := (eliminateD_lim d o prov fs q).ok hyD
            rw [hq, hy] at this
            cases this; rfl
          subst hbb
          rw [hq] at hyD
          have hlt := (h.eliminateD_ok hs o prov d q.1 hq1 hyD).2 {f} (by simp) hq1
          rw [hJ] at hlt
          intro q' hq'
          rcases List.mem_cons.1 hq' with rfl | hq'
          · exact hlt
          · exact iht.1 hD q' hq'
      · intro hall
        have hD := h.eliminateD_enough hs o prov d q.1 hq1 (fun B hB _ x hx => by
          rw [Finset.mem_singleton] at hB
          subst hB
          rw [hJ, Finset.card_singleton]
          have := hall q (by simp) x hx
          omega) hy
        rw [← hq] at hD
        rw [hD]
        exact iht.2 fun q' hq' => hall q' (by simp [hq'])

/-- **C79.** A graph with one complete factor (for example one that is joined already): `make_joined` returns the same outcomes if each value is in fewer than `d` outcomes; otherwise it
raises `RecursionError`. -/
theorem C79_joined (o : Orders V X R) (sp : Space V X R) (hg : AllGood sp.outcomes) (hf : Factorizable sp.outcomes) (hc : CompleteFactors sp.outcomes)
    (hne : ∃ g, sp.outcomes.Occurs g) (hone : ∀ g h, sp.outcomes.Occurs g → sp.outcomes.Occurs h → SameFactor g h) (d : ℕ) :
    ((∀ v x, (sp.outcomes.items.filter fun p => (⟨v, x⟩ : Node V X) ∈ p.1.nodes).card < d) →
      ∃ sp', sp.makeJoinedD d o = .ok sp' ∧ sp'.outcomes.items = sp.outcomes.items) ∧
    (¬ (∀ v x, (sp.outcomes.items.filter fun p => (⟨v, x⟩ : Node V X) ∈ p.1.nodes).card < d) → sp.makeJoinedD d o = .error .fuel) := by
  classical
  have hocc : ∀ p ∈ sp.outcomes.items, sp.outcomes.Occurs p.1 := fun p hp => ⟨p.2, (Samples.mem_items _ p).1 hp⟩
  obtain ⟨g0, c0, hg0⟩ := hne
  have hp0 : (g0, c0) ∈ sp.outcomes.items := (Samples.mem_items _ _).2 hg0
  have hF : AreFactors sp.outcomes {sp.outcomes.items} := by
    intro f
    rw [Finset.mem_singleton]
    constructor
    · rintro rfl
      exact ⟨_, hp0, fun q => ⟨fun hq => ⟨hq, hone _ _ ⟨c0, hg0⟩ (hocc q hq)⟩, fun hq => hq.1⟩⟩
    · rintro ⟨p, hp, hpf⟩
      ext q
      rw [hpf]
      exact ⟨fun hq => hq.1, fun hq => ⟨hq, hone _ _ (hocc p hp) (hocc q hq)⟩⟩
  have hs := factorSys_of _ hg hf hc _ hF
  have hvne : (factorVars sp.outcomes.items).Nonempty := by
    obtain ⟨n, hn⟩ := (hg g0 ⟨c0, hg0⟩).2.1
    exact ⟨n.var, Finset.mem_biUnion.2 ⟨_, hp0, Finset.mem_image_of_mem _ hn⟩⟩
  obtain ⟨sp', hsp'⟩ := C42_tree o sp hg hf hc _ hF [factorVars sp.outcomes.items] (by simp) (.one _ hvne)
  have hqs : ∀ q ∈ o.incl.run (sp.includedVariables o.graphs o.nodes), BlockVar {sp.outcomes.items} q.1 ∧ q.2 = occVals sp.outcomes q.1 := by
    intro q hq
    rw [o.incl.mem, included_pair] at hq
    exact ⟨(blockVar_iff_occurs hg hF _).2 hq.1, hq.2⟩
  have hinit : BlockInv {sp.outcomes.items} {{sp.outcomes.items}} (fun B => B.biUnion id) {sp.outcomes.items} := by
    have := blockInv_init hs
    rwa [Finset.image_singleton] at this
  have hpos : (∀ v x, (sp.outcomes.items.filter fun p => (⟨v, x⟩ : Node V X) ∈ p.1.nodes).card < d) ↔
      ∀ q ∈ o.incl.run (sp.includedVariables o.graphs o.nodes), ∀ x ∈ occVals sp.outcomes q.1, (BlockInv.withValue q.1 x sp.outcomes.items).card < d := by
    constructor
    · exact fun h q _ x _ => h q.1 x
    · intro h v x
      have key : ∀ v x, (∃ g, sp.outcomes.Occurs g ∧ HasValue v x g) → (sp.outcomes.items.filter fun p => (⟨v, x⟩ : Node V X) ∈ p.1.nodes).card < d := by
        rintro v x ⟨g, h1, h2⟩
        exact h (v, occVals sp.outcomes v) ((o.incl.mem _ _).2 ((included_pair sp _ _ _).2 ⟨⟨g, h1, _, h2, rfl⟩, rfl⟩)) x
          ((mem_occVals _ _ _).2 ⟨g, h1, h2⟩)
      by_cases hx : ∃ g, sp.outcomes.Occurs g ∧ HasValue v x g
      · exact key v x hx
      · have h0 : (sp.outcomes.items.filter fun p => (⟨v, x⟩ : Node V X) ∈ p.1.nodes) = ∅ := by
          rw [Finset.filter_eq_empty_iff]
          intro p hp hn
          exact hx ⟨p.1, hocc p hp, hn⟩
        rw [h0]
        obtain ⟨⟨k, y⟩, hn⟩ := (hg g0 ⟨c0, hg0⟩).2.1
        have := key k y ⟨g0, ⟨c0, hg0⟩, hn⟩
        rw [Finset.card_empty]
        omega
  have hD : sp.makeJoinedD d o = .ok sp' ↔ ∀ v x, (sp.outcomes.items.filter fun p => (⟨v, x⟩ : Node V X) ∈ p.1.nodes).card < d := by
    rw [hpos]
    have h := hsp'
    unfold Space.makeJoined at h
    unfold Space.makeJoinedD
    rw [factorized_ok o hg hf hF] at h ⊢
    simp only at h ⊢
    cases hfold : (o.incl.run (sp.includedVariables o.graphs o.nodes)).foldlM (Space.eliminate o sp.outcomes.prov) {sp.outcomes.items} with
    | error e => rw [hfold] at h; cases h
    | ok fs =>
      rw [hfold] at h
      rw [← one_loop hs o sp.outcomes.prov d _ hqs _ _ _ hinit hfold]
      constructor
      · intro h2
        cases hfD : (o.incl.run (sp.includedVariables o.graphs o.nodes)).foldlM (Space.eliminateD d o sp.outcomes.prov) {sp.outcomes.items} with
        | error e => rw [hfD] at h2; cases h2
        | ok fs' =>
          have := (Lim.foldlM (fun b a => eliminateD_lim d o sp.outcomes.prov b a) _ _).ok hfD
          rw [hfold] at this
          cases this; rfl
      · intro h2
        rw [h2]; exact h
  constructor
  · intro h
    refine ⟨sp', hD.2 h, ?_⟩
    obtain ⟨T, hT⟩ := manyVals_exist sp.outcomes
    have hT' : ∀ w, BlockVar {sp.outcomes.items} w → (w ∈ T ↔ ∃ x ∈ occVals sp.outcomes w, ∃ y ∈ occVals sp.outcomes w, x ≠ y) := by
      intro w _
      rw [hT]
      simp only [mem_occVals]
      constructor
      · rintro ⟨x, y, g, g', hxy, g1, g2, g3, g4⟩; exact ⟨x, ⟨g, g1, g2⟩, y, ⟨g', g3, g4⟩, hxy⟩
      · rintro ⟨x, ⟨g, g1, g2⟩, y, ⟨g', g3, g4⟩, hxy⟩; exact ⟨x, y, g, g', hxy, g1, g2, g3, g4⟩
    obtain ⟨m1, m2⟩ := makeJoined_spec o sp hg hf hc _ hF T hT' [factorVars sp.outcomes.items] (by simp)
    cases he : elimOk T ((o.incl.run (sp.includedVariables o.graphs o.nodes)).map Prod.fst) [factorVars sp.outcomes.items] with
    | false => rw [m2 he] at hsp'; cases hsp'
    | true =>
      obtain ⟨out, e1, -, -, e2⟩ := m1 he
      rw [hsp'] at e1
      cases e1
      ext p
      rw [Samples.mem_items, e2]
      rw [isJoin_singleton _ (fun p hp => (hg _ (hocc p hp)).2.2)]
      simp
  · intro h
    rcases C79_limit o sp d with h' | h'
    · exact h'
    · exact absurd (hD.1 (h'.trans hsp')) h

/-! ### Non-vacuity -/

/-- The edges of the chain 0 - 1 - ... - m. -/
def chainEdges : ℕ → List (ℕ × ℕ)
  | 0 => []
  | m + 1 => (m, m + 1) :: chainEdges m

theorem mem_chainEdges (m : ℕ) (e : ℕ × ℕ) : e ∈ chainEdges m ↔ e.1 < m ∧ e.2 = e.1 + 1 := by
  induction m with
  | zero => simp [chainEdges]
  | succ m ih =>
    obtain ⟨a, b⟩ := e
    simp only [chainEdges, List.mem_cons, ih, Prod.mk.injEq]
    omega

theorem chainEdges_nodup (m : ℕ) : (chainEdges m).Nodup := by
  induction m with
  | zero => simp [chainEdges]
  | succ m ih =>
    rw [chainEdges, List.nodup_cons, mem_chainEdges]
    exact ⟨by simp, ih⟩

theorem chain_union (m : ℕ) (v : ℕ) : v ∈ ((chainEdges (m + 1)).map fun e : ℕ × ℕ => ({e.1, e.2} : Finset ℕ)).foldr (· ∪ ·) ∅ ↔ v ≤ m + 1 := by
  rw [mem_foldr_union]
  simp only [List.mem_map, mem_chainEdges]
  constructor
  · rintro ⟨s, ⟨e, ⟨h1, h2⟩, rfl⟩, hv⟩
    simp only [Finset.mem_insert, Finset.mem_singleton] at hv
    omega
  · intro hv
    by_cases h : v = m + 1
    · exact ⟨_, ⟨(m, m + 1), ⟨by simp, rfl⟩, rfl⟩, by simp [h]⟩
    · exact ⟨_, ⟨(v, v + 1), ⟨by simp; omega, rfl⟩, rfl⟩, by simp⟩

theorem chain_tree (m : ℕ) : TreeShape ((chainEdges (m + 1)).map fun e : ℕ × ℕ => ({e.1, e.2} : Finset ℕ)) := by
  induction m with
  | zero => exact .one _ (by simp)
  | succ m ih =>
    rw [chainEdges, List.map_cons]
    refine .add _ _ ih ?_
    have : ({m + 1, m + 2} : Finset ℕ) ∩ ((chainEdges (m + 1)).map fun e : ℕ × ℕ => ({e.1, e.2} : Finset ℕ)).foldr (· ∪ ·) ∅ = {m + 1} := by
      ext v
      rw [Finset.mem_inter, chain_union]
      simp only [Finset.mem_insert, Finset.mem_singleton]
      omega
    rw [this, Finset.card_singleton]

theorem chain_two (m v : ℕ) : (chainEdges m).countP (fun e => v ∈ ({e.1, e.2} : Finset ℕ)) ≤ (if v < m then 1 else 0) + if 1 ≤ v ∧ v ≤ m then 1 else 0 := by
  induction m with
  | zero => simp [chainEdges]
  | succ m ih =>
    rw [chainEdges, List.countP_cons]
    simp only [Finset.mem_insert, Finset.mem_singleton, decide_eq_true_eq] at ih ⊢
    split_ifs at ih ⊢ <;> omega

theorem oneEdge_inj {a b c d x y z w : ℕ} (h1 : a < b) (h2 : c < d)
    (h : oneEdge ⟨a, x⟩ ⟨b, y⟩ = oneEdge ⟨c, z⟩ ⟨d, w⟩) : a = c ∧ b = d ∧ x = z ∧ y = w := by
  have hn : ({⟨a, x⟩, ⟨b, y⟩} : Finset (Node ℕ ℕ)) = {⟨c, z⟩, ⟨d, w⟩} := congrArg SampleGraph.nodes h
  have e1 : (⟨a, x⟩ : Node ℕ ℕ) ∈ ({⟨c, z⟩, ⟨d, w⟩} : Finset (Node ℕ ℕ)) := by rw [← hn]; simp
  have e2 : (⟨b, y⟩ : Node ℕ ℕ) ∈ ({⟨c, z⟩, ⟨d, w⟩} : Finset (Node ℕ ℕ)) := by rw [← hn]; simp
  have e3 : (⟨c, z⟩ : Node ℕ ℕ) ∈ ({⟨a, x⟩, ⟨b, y⟩} : Finset (Node ℕ ℕ)) := by rw [hn]; simp
  simp only [Finset.mem_insert, Finset.mem_singleton, Node.mk.injEq] at e1 e2 e3
  omega

theorem pair_nodup {E : List (ℕ × ℕ)} (hE : ∀ e ∈ E, e.1 < e.2) (hn : E.Nodup) : ((pairEntries E).map Prod.fst).Nodup := by
  unfold pairEntries
  rw [List.map_flatMap, List.nodup_flatMap]
  constructor
  · intro e he
    rw [List.map_map]
    refine List.Nodup.map_on ?_ (by decide)
    intro p _ q _ hpq
    obtain ⟨-, -, h1, h2⟩ := oneEdge_inj (hE e he) (hE e he) hpq
    exact Prod.ext h1 h2
  · refine List.Pairwise.imp_of_mem ?_ hn
    intro e e' he he' hne g hg hg'
    simp only [List.map_map, List.mem_map, Function.comp] at hg hg'
    obtain ⟨p, -, rfl⟩ := hg
    obtain ⟨q, -, hq⟩ := hg'
    obtain ⟨h1, h2, -, -⟩ := oneEdge_inj (hE e' he') (hE e he) hq
    exact hne (Prod.ext h1.symm h2.symm)

/-- **C79.** The chain of the pairs 0 - 1 - ... - m of variables with two values, all of whose pairs of values have been seen: with 20 variables or more `make_joined` raises
`RecursionError` for every order within the default limit of 1000 calls. -/
theorem C79_chain (m : ℕ) (hm : 19 ≤ m) : ∃ sp : Space ℕ ℕ ℕ, (∀ g, sp.outcomes.Occurs g ↔ ∃ i < m, ∃ x < 2, ∃ y < 2, g = oneEdge ⟨i, x⟩ ⟨i + 1, y⟩) ∧
    ∀ o, sp.makeJoinedD 1000 o = .error .fuel ∧ ∃ sp', sp.makeJoined o = .ok sp' := by
  classical
  have hE : ∀ e ∈ chainEdges m, e.1 < e.2 := by
    intro e he
    have := (mem_chainEdges m e).1 he
    omega
  have hn := chainEdges_nodup m
  have hocc : ∀ g, (pairSpace (chainEdges m) (pair_nodup hE hn)).outcomes.Occurs g ↔ ∃ i < m, ∃ x < 2, ∃ y < 2, g = oneEdge ⟨i, x⟩ ⟨i + 1, y⟩ := by
    intro g
    rw [pair_occurs]
    constructor
    · rintro ⟨e, he, x, hx, y, hy, rfl⟩
      obtain ⟨h1, h2⟩ := (mem_chainEdges m e).1 he
      exact ⟨e.1, h1, x, hx, y, hy, by rw [h2]⟩
    · rintro ⟨i, hi, x, hx, y, hy, rfl⟩
      exact ⟨(i, i + 1), (mem_chainEdges m _).2 ⟨hi, rfl⟩, x, hx, y, hy, rfl⟩
  refine ⟨pairSpace (chainEdges m) (pair_nodup hE hn), hocc, fun o => ?_⟩
  obtain ⟨F, hF, hL⟩ := pair_factors (h := pair_nodup hE hn) hE hn
  have hmem : ∀ f ∈ F, ∃ e ∈ chainEdges m, factorVars f = {e.1, e.2} := by
    intro f hf
    have : factorVars f ∈ ((chainEdges m).map fun e : ℕ × ℕ => ({e.1, e.2} : Finset ℕ)) := by
      rw [← Multiset.mem_coe, hL]
      exact Multiset.mem_map_of_mem _ hf
    obtain ⟨e, he, hef⟩ := List.mem_map.1 this
    exact ⟨e, he, hef.symm⟩
  obtain ⟨m, rfl⟩ : ∃ m', m = m' + 1 := ⟨m - 1, by omega⟩
  refine C79_tree o _ (pair_good hE) pair_factorizable pair_complete F hF _ hL (chain_tree m) 2 ?_ ?_ 1000 ?_
  · intro v
    have h1 : (F.filter fun f => v ∈ factorVars f).card = Multiset.countP (fun s => v ∈ s) (F.val.map factorVars) := by
      rw [Multiset.countP_map]; rfl
    rw [h1, ← hL, Multiset.coe_countP, List.countP_map]
    have := chain_two (m + 1) v
    have h2 : (chainEdges (m + 1)).countP ((fun s : Finset ℕ => decide (v ∈ s)) ∘ fun e : ℕ × ℕ => ({e.1, e.2} : Finset ℕ)) =
      (chainEdges (m + 1)).countP (fun e => v ∈ ({e.1, e.2} : Finset ℕ)) := rfl
    rw [h2]
    split_ifs at this <;> omega
  · rintro v ⟨g, hg, hv⟩
    obtain ⟨i, hi, x, hx, y, hy, rfl⟩ := (hocc g).1 hg
    rw [oneEdge_hasVar] at hv
    refine ⟨0, 1, by omega, ?_⟩
    rcases hv with rfl | rfl
    · exact ⟨⟨_, (hocc _).2 ⟨v, hi, 0, by omega, 0, by omega, rfl⟩, by simp [HasValue, oneEdge]⟩,
        ⟨_, (hocc _).2 ⟨v, hi, 1, by omega, 0, by omega, rfl⟩, by simp [HasValue, oneEdge]⟩⟩
    · exact ⟨⟨_, (hocc _).2 ⟨i, hi, 0, by omega, 0, by omega, rfl⟩, by simp [HasValue, oneEdge]⟩,
        ⟨_, (hocc _).2 ⟨i, hi, 0, by omega, 1, by omega, rfl⟩, by simp [HasValue, oneEdge]⟩⟩
  · intro j hj
    have hj9 : j ≤ 9 := by
      by_contra hc
      have := Nat.pow_le_pow_right (n := 2) (by omega) (show 10 ≤ j by omega)
      omega
    have : Finset.range (m + 2) ⊆ F.biUnion factorVars := by
      intro v hv
      rw [Finset.mem_range] at hv
      have hg : ∃ g, (pairSpace (chainEdges (m + 1)) (pair_nodup hE hn)).outcomes.Occurs g ∧ HasVar v g := by
        by_cases h : v = m + 1
        · exact ⟨_, (hocc _).2 ⟨m, by omega, 0, by omega, 0, by omega, rfl⟩, (oneEdge_hasVar _ _ _).2 (Or.inr h)⟩
        · exact ⟨_, (hocc _).2 ⟨v, by omega, 0, by omega, 0, by omega, rfl⟩, (oneEdge_hasVar _ _ _).2 (Or.inl rfl)⟩
      exact (mem_blockVars F v).2 ((blockVar_iff_occurs (pair_good hE) hF v).2 hg)
    have := Finset.card_le_card this
    rw [Finset.card_range] at this
    omega

/-- Non-vacuity of `C79_enough` and `C79_joined`: a factor of two variables with all the values; each value is in two outcomes. -/
example : ∃ sp : Space ℕ ℕ ℕ, AllGood sp.outcomes ∧ Factorizable sp.outcomes ∧ CompleteFactors sp.outcomes ∧ (∃ g, sp.outcomes.Occurs g) ∧
    (∀ g h, sp.outcomes.Occurs g → sp.outcomes.Occurs h → SameFactor g h) ∧
    ∀ o, (∃ sp', sp.makeJoinedD 3 o = .ok sp') ∧ sp.makeJoinedD 2 o = .error .fuel := by
  have hE : ∀ e ∈ [(0, 1)], e.1 < e.2 := by decide
  have hd := pair_nodup hE (by decide)
  have hone : ∀ g h, (pairSpace _ hd).outcomes.Occurs g → (pairSpace _ hd).outcomes.Occurs h → SameFactor g h := by
    intro g h hg hh
    obtain ⟨e, he, x, -, y, -, rfl⟩ := (pair_occurs g).1 hg
    obtain ⟨e', he', x', -, y', -, rfl⟩ := (pair_occurs h).1 hh
    rw [List.mem_singleton] at he he'
    subst he; subst he'
    exact (oneEdge_same _ _ _ _).2 rfl
  have hne : ∃ g, (pairSpace _ hd).outcomes.Occurs g := ⟨_, (pair_occurs _).2 ⟨(0, 1), by simp, 0, by omega, 0, by omega, rfl⟩⟩
  refine ⟨pairSpace _ hd, pair_good hE, pair_factorizable, pair_complete, hne, hone, fun o => ?_⟩
  have hitems : (pairSpace _ hd).outcomes.items = (pairEntries [(0, 1)]).toFinset := by
    ext p
    rw [Samples.mem_items, ← Dict.mem_entries, List.mem_toFinset]; rfl
  constructor
  · obtain ⟨sp', h, -⟩ := (C79_joined o _ (pair_good hE) pair_factorizable pair_complete hne hone 3).1 (by
      intro v x
      rw [hitems]
      by_cases h : v < 2 ∧ x < 2
      · obtain ⟨h1, h2⟩ := h
        have hk : ∀ v < 2, ∀ x < 2, ((pairEntries [(0, 1)]).toFinset.filter fun p => (⟨v, x⟩ : Node ℕ ℕ) ∈ p.1.nodes).card < 3 := by decide +kernel
        exact hk v h1 x h2
      · have : ((pairEntries [(0, 1)]).toFinset.filter fun p => (⟨v, x⟩ : Node ℕ ℕ) ∈ p.1.nodes) = ∅ := by
          rw [Finset.filter_eq_empty_iff]
          intro p hp hn
          simp only [pairEntries, List.flatMap_cons, List.flatMap_nil, List.append_nil, List.map_cons, List.map_nil, List.mem_toFinset, List.mem_cons,
            List.not_mem_nil, or_false] at hp
          rcases hp with rfl | rfl | rfl | rfl <;>
            (simp only [oneEdge, Finset.mem_insert, Finset.mem_singleton, Node.mk.injEq] at hn; omega)
        rw [this]; simp)
    exact ⟨sp', h⟩
  · refine (C79_joined o _ (pair_good hE) pair_factorizable pair_complete hne hone 2).2 fun h => ?_
    have := h 0 0
    rw [hitems] at this
    revert this
    decide +kernel

end Verif
