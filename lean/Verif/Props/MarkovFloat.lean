import Verif.Props.MarkovJoint
import Verif.Lemmas.NpSum
import Verif.Lemmas.TablesFloat

/-!
# The comparison with Markov networks in floating point (C76)
-/

set_option linter.unusedSectionVars false

namespace Verif.Markov

open Verif.Bayes

/-! ### Specification -/

/-- The sum of the weights of all assignments. -/
def totalWeight (edges : List MEdge) : ℤ := ∑ a ∈ assigns two (mVars edges), weight edges a

/-- The float nearest to the probability of an assignment. -/
def nearest (edges : List MEdge) (a : Str → ℕ) : ℚ := fl ((weight edges a : ℚ) / (totalWeight edges : ℚ))

section
variable {nodes : List Str} {edges : List MEdge} (hN : MNet nodes edges)
include hN

theorem weight_le_total (hp : PositiveNet edges) {a : Str → ℕ} (ha : InDom two (mVars edges) a) : weight edges a ≤ totalWeight edges := by
  rw [weight_local hN (b := cut (mVars edges) a) fun v hv => (cut_apply hv).symm]
  exact Finset.single_le_sum (f := weight edges) (fun b hb => (weight_pos hN hp (mem_assigns.1 hb).1).le) (cut_mem ha)

/-- The weights of part of the assignments. -/
theorem part_le_total (hp : PositiveNet edges) (s : Finset (Str → ℕ)) (hs : s ⊆ assigns two (mVars edges)) :
    ∑ a ∈ s, (weight edges a : ℚ) ≤ totalWeight edges := by
  have : ∑ a ∈ s, weight edges a ≤ totalWeight edges :=
    Finset.sum_le_sum_of_subset_of_nonneg hs fun b hb _ => (weight_pos hN hp (mem_assigns.1 hb).1).le
  exact_mod_cast this

theorem obs_subset {vs : List Str} (hvs : ∀ v ∈ vs, v ∈ mVars edges) : assigns (obsDom two vs) (mVars edges) ⊆ assigns two (mVars edges) := by
  rw [assigns_obsDom fun v hv => ⟨hvs v hv, by simp [two]⟩]
  exact Finset.filter_subset _ _

/-! ### The factors -/

omit hN in
theorem foldl_mul (l : List (ℕ × ℚ)) : ∀ (x : ℕ) (m : ℕ), x ≤ m → (∀ p ∈ l, 1 ≤ p.1 ∧ (p.2 = 0 ∨ p.2 = p.1)) → m * (l.map Prod.fst).prod ≤ 2 ^ 53 →
    (l.map Prod.snd).foldl (fun x y => fl (x * fl y)) (x : ℚ) = x * (l.map Prod.snd).prod := by
  induction l with
  | nil => intro x m _ _ _; simp
  | cons p t ih =>
    intro x m hx h1 h2
    obtain ⟨h3, h4⟩ := h1 p (by simp)
    have ht : ∀ q ∈ t, 1 ≤ q.1 ∧ (q.2 = 0 ∨ q.2 = q.1) := fun q hq => h1 q (List.mem_cons_of_mem _ hq)
    have hpos : 1 ≤ (t.map Prod.fst).prod := by
      rw [Nat.one_le_iff_ne_zero, Ne, List.prod_eq_zero_iff]
      intro h0
      obtain ⟨q, hq, hq0⟩ := List.mem_map.1 h0
      have := (ht q hq).1
      omega
    rw [List.map_cons, List.prod_cons, ← mul_assoc] at h2
    have hmp : m * p.1 ≤ 2 ^ 53 := (Nat.le_mul_of_pos_right _ hpos).trans h2
    rw [List.map_cons, List.foldl_cons, List.prod_cons]
    rcases h4 with h4 | h4
    · rw [h4, fl_zero, mul_zero, fl_zero, zero_mul, mul_zero]
      have := ih 0 (m * p.1) (by omega) ht h2
      rw [Nat.cast_zero] at this
      rw [this, zero_mul]
    · rcases Nat.eq_zero_or_pos m with hm | hm
      · subst hm
        have hx0 : x = 0 := by omega
        subst hx0
        have := ih 0 0 le_rfl ht (by simp)
        rw [Nat.cast_zero] at this
        rw [Nat.cast_zero, zero_mul, fl_zero, this, zero_mul, zero_mul]
      · have hp53 : p.1 ≤ 2 ^ 53 := (Nat.le_mul_of_pos_left _ hm).trans hmp
        have hxp : x * p.1 ≤ m * p.1 := Nat.mul_le_mul_right _ hx
        have e1 : fl ((p.1 : ℕ) : ℚ) = p.1 := by
          have := fl_int (k := (p.1 : ℤ)) (by positivity) (by exact_mod_cast hp53)
          exact_mod_cast this
        have e2 : fl ((x : ℚ) * p.1) = ((x * p.1 : ℕ) : ℚ) := by
          have := fl_int (k := ((x * p.1 : ℕ) : ℤ)) (by positivity) (by exact_mod_cast hxp.trans hmp)
          rw [Int.cast_natCast] at this
          rw [← this]
          push_cast
          rfl
        rw [h4, e1, e2, ih (x * p.1) (m * p.1) hxp ht h2]
        push_cast
        ring

theorem productFl_eq (hp : PositiveNet edges) (hb : totalWeight edges ≤ 2 ^ 53) (vs : List Str) {a : Str → ℕ} (ha : InDom two (mVars edges) a) :
    productFl (edges.map (setZero vs)) a = productFactor (edges.map (setZero vs)) a := by
  have hpos : ∀ e ∈ edges, 0 < factorAt e a := fun e he => factorAt_pos hN hp he fun v hv => ha v (ends_sub hN he hv)
  have h := foldl_mul (edges.map fun e => ((factorAt e a).toNat, setZero vs e a)) 1 1 le_rfl (by
      intro p hp'
      obtain ⟨e, he, rfl⟩ := List.mem_map.1 hp'
      have h0 := hpos e he
      refine ⟨by simp only; omega, ?_⟩
      simp only [setZero]
      split
      · exact Or.inl rfl
      · refine Or.inr ?_
        have : ((factorAt e a).toNat : ℤ) = factorAt e a := Int.toNat_of_nonneg h0.le
        unfold edgeFactor
        rw [← Int.cast_natCast, this]
        rfl) (by
      have hw : ((edges.map fun e => (factorAt e a).toNat).prod : ℤ) = weight edges a := by
        unfold weight
        rw [List.prod_toFinset _ hN.nodup, Nat.cast_list_prod, List.map_map]
        congr 1
        refine List.map_congr_left fun e he => ?_
        simp only [Function.comp]
        exact Int.toNat_of_nonneg (hpos e he).le
      have := (weight_le_total hN hp ha).trans hb
      rw [← hw] at this
      rw [List.map_map, one_mul]
      exact_mod_cast this)
  unfold productFl productFactor
  rw [List.foldl_map]
  rw [List.map_map, Nat.cast_one, one_mul, List.foldl_map] at h
  rw [List.map_map]
  exact h

/-- The values of the product of the factors are whole numbers. -/
theorem product_nat (hp : PositiveNet edges) (vs : List Str) (hvs : ∀ v ∈ vs, v ∈ mVars edges) {a : Str → ℕ} (ha : InDom two (mVars edges) a) :
    ∃ k : ℕ, productFactor (edges.map (setZero vs)) a = k := by
  classical
  rw [product_setZero hN vs hvs ha]
  split
  · refine ⟨(weight edges a).toNat, ?_⟩
    have := Int.toNat_of_nonneg (weight_pos hN hp ha).le
    rw [← Int.cast_natCast, this]
  · exact ⟨0, by simp⟩

theorem map_productFl (hp : PositiveNet edges) (hb : totalWeight edges ≤ 2 ^ 53) (vs : List Str) {vars : List Str}
    (hvars : vars.toFinset = mVars edges) (l : List (List ℕ)) (hl : l ⊆ joinedValues vars.length) :
    (l.map fun js => productFl (edges.map (setZero vs)) (kw vars js)) = l.map fun js => productFactor (edges.map (setZero vs)) (kw vars js) := by
  refine List.map_congr_left fun js hjs => productFl_eq hN hp hb vs ?_
  rw [← hvars]
  exact joined_two vars js (hl hjs)

/-- `numpy` adds the values of the product exactly. -/
theorem run_product (np : NpSum) (hp : PositiveNet edges) (hb : totalWeight edges ≤ 2 ^ 53) (vs : List Str) (hvs : ∀ v ∈ vs, v ∈ mVars edges) {vars : List Str}
    (hnd : vars.Nodup) (hvars : vars.toFinset = mVars edges) (P : List ℕ → Bool) :
    np.run (((joinedValues vars.length).filter P).map fun js => productFl (edges.map (setZero vs)) (kw vars js)) =
      (((joinedValues vars.length).filter P).map fun js => productFactor (edges.map (setZero vs)) (kw vars js)).sum := by
  have hk : ∀ js ∈ joinedValues vars.length, InDom two (mVars edges) (kw vars js) := by
    intro js h; rw [← hvars]; exact joined_two vars js h
  have hnn : ∀ js ∈ joinedValues vars.length, 0 ≤ productFactor (edges.map (setZero vs)) (kw vars js) := by
    intro js h
    obtain ⟨k, hk⟩ := product_nat hN hp vs hvs (hk js h)
    rw [hk]; positivity
  rw [map_productFl hN hp hb vs hvars _ (List.filter_subset_self _)]
  refine (np.adds _).exact_nat ?_ ?_
  · intro x hx
    obtain ⟨js, hjs, rfl⟩ := List.mem_map.1 hx
    exact product_nat hN hp vs hvs (hk js (List.mem_filter.1 hjs).1)
  · have h1 : (((joinedValues vars.length).filter P).map fun js => productFactor (edges.map (setZero vs)) (kw vars js)).sum ≤
        ((joinedValues vars.length).map fun js => productFactor (edges.map (setZero vs)) (kw vars js)).sum := by
      refine List.Sublist.sum_le_sum (List.filter_sublist.map _) ?_
      intro x hx
      obtain ⟨js, hjs, rfl⟩ := List.mem_map.1 hx
      exact hnn js hjs
    refine h1.trans ?_
    rw [obs_sum hN vs hvs hnd hvars]
    refine (part_le_total hN hp _ (obs_subset hN hvs)).trans ?_
    exact_mod_cast hb

theorem normalized_product (np : NpSum) (hp : PositiveNet edges) (hb : totalWeight edges ≤ 2 ^ 53) (vs : List Str) (hvs : ∀ v ∈ vs, v ∈ mVars edges) {vars : List Str}
    (hnd : vars.Nodup) (hvars : vars.toFinset = mVars edges) {a : Str → ℕ} (ha : InDom two (mVars edges) a) :
    normalizedFl np vars (productFl (edges.map (setZero vs))) a =
      fl (productFactor (edges.map (setZero vs)) a / ((joinedValues vars.length).map fun js => productFactor (edges.map (setZero vs)) (kw vars js)).sum) := by
  have h := run_product hN np hp hb vs hvs hnd hvars fun _ => true
  rw [List.filter_true] at h
  unfold normalizedFl
  rw [h, productFl_eq hN hp hb vs ha]

/-- The normalised product, normalised once, is the exact distribution, rounded. -/
theorem markovPropFl_once (np : NpSum) (hp : PositiveNet edges) (hb : totalWeight edges ≤ 2 ^ 53) (vs : List Str) (hvs : ∀ v ∈ vs, v ∈ mVars edges)
    {vars : List Str} (hnd : vars.Nodup) (hvars : vars.toFinset = mVars edges) :
    markovPropFl np vars (productFl (edges.map (setZero vs))) = Dict.ofList (((joinedValues vars.length).filter fun js =>
      decide (0 < productFactor (edges.map (setZero vs)) (kw vars js))).map fun js => (js, fl (productFactor (edges.map (setZero vs)) (kw vars js) /
        ((joinedValues vars.length).map fun js => productFactor (edges.map (setZero vs)) (kw vars js)).sum))) := by
  have hk : ∀ js ∈ joinedValues vars.length, InDom two (mVars edges) (kw vars js) := by
    intro js h; rw [← hvars]; exact joined_two vars js h
  unfold markovPropFl
  congr 1
  rw [List.filter_congr (q := fun js => decide (0 < productFactor (edges.map (setZero vs)) (kw vars js))) fun js hjs => by
    rw [productFl_eq hN hp hb vs (hk js hjs)]]
  refine List.map_congr_left fun js hjs => ?_
  rw [normalized_product hN np hp hb vs hvs hnd hvars (hk js (List.mem_filter.1 hjs).1)]

/-! ### The graph -/

theorem graphItemFl_eq (hp : PositiveNet edges) (hb : totalWeight edges ≤ 2 ^ 53) {prov : ℕ} {vs : List Str} {sp : Space Str Str Str}
    (hW : MWhole nodes edges prov (obsDom two vs) sp) {vars : List Str} (hnd : vars.Nodup) (hvars : vars.toFinset = mVars edges) (e : Env) {js : List ℕ}
    (hjs : js ∈ joinedValues vars.length) : graphItemFl e vars sp js = graphItem e vars sp js := by
  have h := graphItem_eq hN hW hnd hvars e hjs
  rw [h]
  unfold graphItem at h
  unfold graphItemFl
  cases hf : sp.findForValues e.o.items (queryValues vars js) with
  | error er => rw [hf] at h; simp only [bind, Except.bind] at h; split at h <;> cases h
  | ok c =>
    rw [hf] at h
    simp only [bind, Except.bind] at h ⊢
    cases hc : c.bool with
    | false => rw [hc] at h; exact h
    | true =>
      rw [hc] at h
      simp only [if_true] at h ⊢
      unfold popCount at h
      unfold popCountFl
      cases hr : e.o.items.run c.items with
      | nil => rw [hr] at h; simp only at h; split at h <;> cases h
      | cons p t =>
        rw [hr] at h
        simp only at h ⊢
        split at h
        · rename_i hd
          have h' : (p.2 : ℚ) = (weight edges (kw vars js) : ℚ) := by
            have := Except.ok.inj h
            exact (Prod.ext_iff.1 (Option.some.inj this)).2
          have hk : InDom two (mVars edges) (kw vars js) := by rw [← hvars]; exact joined_two vars js hjs
          have hw := weight_le_total hN hp hk
          rw [if_pos hd, h', fl_int (weight_pos hN hp hk).le (hw.trans hb)]
          rfl
        · cases h

/-- The relative counts are the exact ones, rounded. -/
theorem graphPropFl_eq (hp : PositiveNet edges) (hb : totalWeight edges ≤ 2 ^ 53) {prov : ℕ} {vs : List Str} (hvs : ∀ v ∈ vs, v ∈ mVars edges)
    {sp : Space Str Str Str} (hW : MWhole nodes edges prov (obsDom two vs) sp) {vars : List Str} (hnd : vars.Nodup) (hvars : vars.toFinset = mVars edges)
    (ver : PyVer) (e : Env) :
    ∃ d, graphPropFl ver e vars sp = .ok d ∧ ∀ js q, d.get? js = some q ↔ js ∈ joinedValues vars.length ∧ InDom (obsDom two vs) (mVars edges) (kw vars js) ∧
      q = fl ((weight edges (kw vars js) : ℚ) / ∑ a ∈ assigns (obsDom two vs) (mVars edges), (weight edges a : ℚ)) := by
  have hd : ∀ v ∈ mVars edges, obsDom two vs v ⊆ two v := fun w _ => by unfold obsDom; split <;> simp [two]
  obtain ⟨m, hm, hget, hsum⟩ := graphCounts_spec hN hd hW hnd hvars e
  have hm' : (joinedValues vars.length).mapM (graphItemFl e vars sp) = .ok m := by
    have : ∀ l : List (List ℕ), l ⊆ joinedValues vars.length → l.mapM (graphItemFl e vars sp) = l.mapM (graphItem e vars sp) := by
      intro l
      induction l with
      | nil => intro _; rfl
      | cons x t ih =>
        intro hl
        rw [List.mapM_cons, List.mapM_cons, graphItemFl_eq hN hp hb hW hnd hvars e (hl List.mem_cons_self), ih fun y hy => hl (List.mem_cons_of_mem _ hy)]
    rw [this _ fun _ h => h, hm]
  have hs : pySum ver (Dict.ofList (m.filterMap id)).vals = ∑ a ∈ assigns (obsDom two vs) (mVars edges), (weight edges a : ℚ) := by
    rw [← hsum]
    refine pySum_nat ver ?_ ?_
    · intro x hx
      obtain ⟨⟨js, q⟩, hp', rfl⟩ := List.mem_map.1 hx
      obtain ⟨h1, -, h3⟩ := (hget js q).1 ((Dict.mem_entries _ _ _).1 hp')
      have hk : InDom two (mVars edges) (kw vars js) := by rw [← hvars]; exact joined_two vars js h1
      refine ⟨(weight edges (kw vars js)).toNat, ?_⟩
      have := Int.toNat_of_nonneg (weight_pos hN hp hk).le
      simp only
      rw [h3, ← Int.cast_natCast, this]
    · rw [hsum]
      exact (part_le_total hN hp _ (obs_subset hN hvs)).trans (by exact_mod_cast hb)
  refine ⟨(Dict.ofList (m.filterMap id)).mapVals fun v => fl (v / pySum ver (Dict.ofList (m.filterMap id)).vals), ?_, fun js q => ?_⟩
  · unfold graphPropFl
    rw [hm']
    simp only [bind, Except.bind]
    unfold normalizeFl
    simp only
    rw [if_neg]
    rw [hs]
    rintro ⟨hne, h0⟩
    obtain ⟨⟨js, q⟩, he⟩ := List.exists_mem_of_ne_nil _ hne
    obtain ⟨-, h2, -⟩ := (hget js q).1 ((Dict.mem_entries _ _ _).1 he)
    exact (weights_ne_zero hN hd hp h2).ne' h0
  · rw [Dict.get?_mapVals, Option.map_eq_some_iff, hs]
    simp only [hget]
    constructor
    · rintro ⟨r, ⟨h1, h2, rfl⟩, rfl⟩; exact ⟨h1, h2, rfl⟩
    · rintro ⟨h1, h2, rfl⟩; exact ⟨_, ⟨h1, h2, rfl⟩, rfl⟩

theorem markovPropFl_spec (np : NpSum) (hp : PositiveNet edges) (hb : totalWeight edges ≤ 2 ^ 53) (vs : List Str) (hvs : ∀ v ∈ vs, v ∈ mVars edges)
    {vars : List Str} (hnd : vars.Nodup) (hvars : vars.toFinset = mVars edges) (js : List ℕ) (q : ℚ) :
    (markovPropFl np vars (productFl (edges.map (setZero vs)))).get? js = some q ↔
      js ∈ joinedValues vars.length ∧ InDom (obsDom two vs) (mVars edges) (kw vars js) ∧
        q = fl ((weight edges (kw vars js) : ℚ) / ∑ a ∈ assigns (obsDom two vs) (mVars edges), (weight edges a : ℚ)) := by
  rw [markovPropFl_once hN np hp hb vs hvs hnd hvars, Dict.get?_ofList]
  · have key := fun q' => markovProp_spec hN hp vs hvs hnd hvars js q'
    unfold markovProp at key
    simp only [Dict.get?_ofList _ (show ((((joinedValues vars.length).filter fun js => decide (0 < productFactor (edges.map (setZero vs)) (kw vars js))).map fun js =>
      (js, productFactor (edges.map (setZero vs)) (kw vars js) / ((joinedValues vars.length).map fun js => productFactor (edges.map (setZero vs)) (kw vars js)).sum)).map Prod.fst).Nodup from by
        rw [List.map_map]; simpa [Function.comp_def] using (joined_nodup _).filter _)] at key
    simp only [List.mem_map, Prod.mk.injEq] at key ⊢
    constructor
    · rintro ⟨x, hx, rfl, rfl⟩
      obtain ⟨h1, h2, h3⟩ := (key _).1 ⟨x, hx, rfl, rfl⟩
      exact ⟨h1, h2, by rw [h3]⟩
    · rintro ⟨h1, h2, rfl⟩
      obtain ⟨x, hx, rfl, hq⟩ := (key _).2 ⟨h1, h2, rfl⟩
      exact ⟨x, hx, rfl, by rw [hq]⟩
  · rw [List.map_map]
    simpa [Function.comp_def] using (joined_nodup _).filter _

end

/-! ### The comparisons -/

theorem pyAssert_iff (b : Bool) : pyAssert b = .ok () ↔ b = true := by cases b <;> simp [pyAssert]

/-- **C76.** `comparing_inference` in floating point: if the sum of the weights is at most `2 ^ 53`, the comparison of the floats with `==` succeeds whenever the graph can be
joined, whatever the order in which `numpy` adds and whatever the variant of `sum`. -/
theorem C76_markov_inference {nodes : List Str} {edges : List MEdge} (hN : MNet nodes edges) {prov : ℕ} {sp : Space Str Str Str}
    (hsp : makeRelationGraph prov nodes edges = .ok sp) (hb : totalWeight edges ≤ 2 ^ 53) {vars : List Str} (hnd : vars.Nodup)
    (hvars : vars.toFinset = mVars edges) {v : Str} (hv : v ∈ mVars edges) (ver : PyVer) (np : NpSum) (e : Env) :
    ∃ cs, condition e sp sp v = .ok cs ∧
    (∀ er, cs.makeJoined e.o = .error er → er = .assertion ∧ comparingInferenceFl ver np e vars edges v sp = .error .assertion) ∧
    (∀ sp', cs.makeJoined e.o = .ok sp' → comparingInferenceFl ver np e vars edges v sp = .ok ()) ∧
    (ChainOrCycle edges → comparingInferenceFl ver np e vars edges v sp = .ok ()) := by
  obtain ⟨hp, hT⟩ := tabs_of_make hN hsp
  obtain ⟨cs, c1, c2⟩ := condition_ok hN hT.1 hT.2.1 hT (mVars_nodes hN hv) (by simp [two]) e
  have hd : Function.update two v {0} = obsDom two [v] := by
    rw [← obsDom_nil two, obsDom_snoc, obsDom_nil]; rfl
  rw [hd] at c2
  obtain ⟨j1, j2, j3, -⟩ := tabs_join hN c2 e.o
  have hvs : ∀ w ∈ [v], w ∈ mVars edges := by simpa using hv
  have hok : ∀ sp', cs.makeJoined e.o = .ok sp' → comparingInferenceFl ver np e vars edges v sp = .ok () := by
    intro sp' hj
    have hW : MWhole nodes edges prov (obsDom two [v]) sp'.relationGraph := j2 sp' hj
    obtain ⟨d, d1, d2⟩ := graphPropFl_eq hN hp hb hvs hW hnd hvars ver e
    have hs : sameDict (markovPropFl np vars (productFl (edges.map (setZero [v])))) d = true := by
      rw [sameDict_iff]
      intro js
      refine Option.ext fun q => ?_
      rw [d2, markovPropFl_spec hN np hp hb [v] hvs hnd hvars]
    unfold comparingInferenceFl
    simp only [c1, hj, d1, hs, bind, Except.bind, pyAssert, if_true]
  refine ⟨cs, c1, fun er h => ?_, hok, fun hC => ?_⟩
  · have he := j1 er h
    refine ⟨he, ?_⟩
    subst he
    unfold comparingInferenceFl
    simp only [c1, h, bind, Except.bind]
  · obtain ⟨sp', h⟩ := j3 hC
    exact hok sp' h

theorem total_cast (edges : List MEdge) : ∑ a ∈ assigns two (mVars edges), (weight edges a : ℚ) = (totalWeight edges : ℚ) := by
  unfold totalWeight; push_cast; rfl

/-- The rounded probabilities are positive. -/
theorem nearest_pos {nodes : List Str} {edges : List MEdge} (hN : MNet nodes edges) (hp : PositiveNet edges) (hb : totalWeight edges ≤ 2 ^ 53) {a : Str → ℕ}
    (ha : InDom two (mVars edges) a) : 0 < nearest edges a :=
  fl_div_pos (weight_pos hN hp ha) ((weight_pos hN hp ha).trans_le (weight_le_total hN hp ha)) (hb.trans (pow_le_pow_right₀ (by norm_num) (by norm_num)))

/-- **C76.** `comparing_variable_joint_probability` in floating point: the factor is normalised twice, so the comparison succeeds exactly if dividing the rounded probabilities by
the float they add up to changes none of them; otherwise `AssertionError`. -/
theorem C76_markov_joint {nodes : List Str} {edges : List MEdge} (hN : MNet nodes edges) {prov : ℕ} {sp sp' : Space Str Str Str}
    (hsp : makeRelationGraph prov nodes edges = .ok sp) (hb : totalWeight edges ≤ 2 ^ 53) {vars : List Str} (hnd : vars.Nodup)
    (hvars : vars.toFinset = mVars edges) (ver : PyVer) (np : NpSum) (e : Env) (hj : sp.makeJoined e.o = .ok sp') :
    let total := np.run ((joinedValues vars.length).map fun js => nearest edges (kw vars js))
    (comparingJointFl ver np e vars edges sp = .ok () ↔ ∀ js ∈ joinedValues vars.length, fl (nearest edges (kw vars js) / total) = nearest edges (kw vars js)) ∧
    (comparingJointFl ver np e vars edges sp = .ok () ∨ comparingJointFl ver np e vars edges sp = .error .assertion) := by
  obtain ⟨hp, hT⟩ := tabs_of_make hN hsp
  have hW := (tabs_join hN hT e.o).2.1 sp' hj
  rw [← obsDom_nil two] at hW
  obtain ⟨d, d1, d2⟩ := graphPropFl_eq hN hp hb (vs := []) (by simp) hW hnd hvars ver e
  have hk : ∀ js ∈ joinedValues vars.length, InDom two (mVars edges) (kw vars js) := by
    intro js h; rw [← hvars]; exact joined_two vars js h
  rw [obsDom_nil, total_cast] at d2
  have hnz : ∀ js ∈ joinedValues vars.length, normalizedFl np vars (productFl (edges.map edgeFactor)) (kw vars js) = nearest edges (kw vars js) := by
    intro js hjs
    rw [← setZero_nil, normalized_product hN np hp hb [] (by simp) hnd hvars (hk js hjs), obs_sum hN [] (by simp) hnd hvars, obsDom_nil, total_cast,
      product_setZero hN [] (by simp) (hk js hjs), if_pos (by simp)]
    rfl
  have hmap : ((joinedValues vars.length).map fun js => normalizedFl np vars (productFl (edges.map edgeFactor)) (kw vars js)) =
      (joinedValues vars.length).map fun js => nearest edges (kw vars js) := List.map_congr_left hnz
  intro total
  have hget : ∀ js q, (markovPropFl np vars (normalizedFl np vars (productFl (edges.map edgeFactor)))).get? js = some q ↔
      js ∈ joinedValues vars.length ∧ q = fl (nearest edges (kw vars js) / total) := by
    intro js q
    unfold markovPropFl
    rw [Dict.get?_ofList]
    · simp only [List.mem_map, List.mem_filter, decide_eq_true_eq, Prod.mk.injEq]
      constructor
      · rintro ⟨x, ⟨hx, -⟩, rfl, rfl⟩
        refine ⟨hx, ?_⟩
        rw [normalizedFl, hmap, hnz x hx]
      · rintro ⟨hx, rfl⟩
        refine ⟨js, ⟨hx, ?_⟩, rfl, ?_⟩
        · rw [hnz js hx]; exact nearest_pos hN hp hb (hk js hx)
        · rw [normalizedFl, hmap, hnz js hx]
    · rw [List.map_map]
      simpa [Function.comp_def] using (joined_nodup _).filter _
  have he : comparingJointFl ver np e vars edges sp = pyAssert (sameDict (markovPropFl np vars (normalizedFl np vars (productFl (edges.map edgeFactor)))) d) := by
    unfold comparingJointFl
    simp only [hj, d1, bind, Except.bind]
  rw [he]
  constructor
  · rw [pyAssert_iff, sameDict_iff]
    constructor
    · intro h js hjs
      have h1 := (d2 js (nearest edges (kw vars js))).2 ⟨hjs, hk js hjs, rfl⟩
      rw [← h js, hget] at h1
      exact h1.2.symm
    · intro h js
      refine Option.ext fun q => ?_
      rw [hget, d2]
      constructor
      · rintro ⟨h1, rfl⟩; exact ⟨h1, hk js h1, h js h1⟩
      · rintro ⟨h1, -, rfl⟩; exact ⟨h1, (h js h1).symm⟩
  · unfold pyAssert
    split
    · exact Or.inl rfl
    · exact Or.inr rfl

theorem sum_nat_of {l : List ℚ} (h : ∀ x ∈ l, ∃ k : ℕ, x = k) : ∃ k : ℕ, l.sum = k := by
  obtain ⟨k, hk⟩ := grid_sum (d := 0) l (nat_grid h)
  exact ⟨k, by rw [hk]; simp⟩

/-- **C76.** It succeeds if the rounded probabilities add up to one, and, whatever the order, if the sum of the weights is a power of two. -/
theorem C76_markov_joint_ok {nodes : List Str} {edges : List MEdge} (hN : MNet nodes edges) {prov : ℕ} {sp sp' : Space Str Str Str}
    (hsp : makeRelationGraph prov nodes edges = .ok sp) (hb : totalWeight edges ≤ 2 ^ 53) {vars : List Str} (hnd : vars.Nodup)
    (hvars : vars.toFinset = mVars edges) (ver : PyVer) (np : NpSum) (e : Env) (hj : sp.makeJoined e.o = .ok sp')
    (h : np.run ((joinedValues vars.length).map fun js => nearest edges (kw vars js)) = 1 ∨ ∃ d : ℕ, totalWeight edges = 2 ^ d) :
    comparingJointFl ver np e vars edges sp = .ok () := by
  obtain ⟨hp, -⟩ := tabs_of_make hN hsp
  have hk : ∀ js ∈ joinedValues vars.length, InDom two (mVars edges) (kw vars js) := by
    intro js h; rw [← hvars]; exact joined_two vars js h
  have h1 : np.run ((joinedValues vars.length).map fun js => nearest edges (kw vars js)) = 1 := by
    rcases h with h | ⟨d, hd⟩
    · exact h
    · have hd53 : d ≤ 53 := by
        by_contra hc
        have : (2 : ℤ) ^ 54 ≤ 2 ^ d := pow_le_pow_right₀ (by norm_num) (by omega)
        rw [← hd] at this
        have := this.trans hb
        norm_num at this
      have hx : ∀ js ∈ joinedValues vars.length, nearest edges (kw vars js) = (weight edges (kw vars js)).toNat * 2 ^ (-(d : ℤ)) := by
        intro js hjs
        have h0 := Int.toNat_of_nonneg (weight_pos hN hp (hk js hjs)).le
        have hle := weight_le_total hN hp (hk js hjs)
        have e1 : (weight edges (kw vars js) : ℚ) / (totalWeight edges : ℚ) = (weight edges (kw vars js)).toNat * 2 ^ (-(d : ℤ)) := by
          rw [hd, ← Int.cast_natCast (weight edges (kw vars js)).toNat, h0, zpow_neg, zpow_natCast, div_eq_mul_inv]
          push_cast
          rfl
        unfold nearest
        rw [e1]
        refine grid_float (by omega) ?_
        refine mul_le_mul_of_nonneg_right ?_ (two_pow_pos _).le
        have : (weight edges (kw vars js)).toNat ≤ (2 : ℤ) ^ 53 := by rw [h0]; exact hle.trans hb
        exact_mod_cast this
      have hs : ((joinedValues vars.length).map fun js => nearest edges (kw vars js)).sum = 1 := by
        have : ((joinedValues vars.length).map fun js => nearest edges (kw vars js)) =
            (joinedValues vars.length).map fun js => (weight edges (kw vars js) : ℚ) * 2 ^ (-(d : ℤ)) := by
          refine List.map_congr_left fun js hjs => ?_
          have h0 := Int.toNat_of_nonneg (weight_pos hN hp (hk js hjs)).le
          rw [hx js hjs, ← Int.cast_natCast (weight edges (kw vars js)).toNat, h0]
        rw [this, List.sum_map_mul_right, sum_joined (fun a => (weight edges a : ℚ)) vars hnd, hvars, total_cast, hd]
        push_cast
        rw [← zpow_natCast, ← zpow_add₀ (by norm_num), add_neg_cancel, zpow_zero]
      rw [← hs]
      refine (np.adds _).exact (d := d) (by omega) ?_ ?_
      · intro x hx'
        obtain ⟨js, hjs, rfl⟩ := List.mem_map.1 hx'
        exact ⟨_, hx js hjs⟩
      · rw [hs, zpow_neg, zpow_natCast]
        have : (2 : ℚ) ^ d ≤ 2 ^ 53 := pow_le_pow_right₀ (by norm_num) hd53
        rw [← div_eq_mul_inv, le_div_iff₀ (by positivity), one_mul]
        exact this
  rw [(C76_markov_joint hN hsp hb hnd hvars ver np e hj).1]
  intro js _
  rw [h1, div_one]
  exact fl_of_isFloat (fl_isFloat _)

/-! ### Separation -/

/-- Marginals of a joined graph, rounded. -/
theorem whole_marginalsFl {nodes : List Str} {edges : List MEdge} (hN : MNet nodes edges) (hp : PositiveNet edges) (hb : totalWeight edges ≤ 2 ^ 1022) {prov : ℕ}
    {vs : List Str} (hvs : ∀ v ∈ vs, v ∈ mVars edges) {sp : Space Str Str Str} (hW : MWhole nodes edges prov (obsDom two vs) sp) (ver : PyVer) (e : Env) :
    ∃ m, sp.marginalsFl ver e.u e.o.items e.o.vars e.o.nodes none false = .ok m ∧ (∀ v, v ∈ m.keys ↔ v ∈ mVars edges) ∧
      ∀ v d, m.get? v = some d → ∀ x q, d.get? x = some q ↔ ∃ j ∈ obsDom two vs v, x = valName v j ∧ q = fl (posteriorM edges vs v j) := by
  obtain ⟨m, m1, m2, m3⟩ := whole_marginals hN hp hvs hW e
  obtain ⟨h1, h2, hT⟩ := hW
  have hF := hT.marginalsFl (fun a ha => weight_pos hN hp (inDom_obsTwo ha)) ver e.u e.o.items e.o.vars e.o.nodes
    ((Finset.sum_le_sum_of_subset_of_nonneg (obs_subset hN hvs) fun b hb _ => (weight_pos hN hp (mem_assigns.1 hb).1).le).trans hb)
    (fun v _ => by
      have h3 : (obsDom two vs v).card ≤ 2 := by unfold obsDom; split <;> simp [two]
      refine h3.trans ?_
      cases ver <;> simp [maxItems]) m1
  refine ⟨_, hF, fun v => ?_, fun v d hd x q => ?_⟩
  · rw [Dict.mem_keys]
    simp only [Dict.get?_mapVals, Option.map_eq_some_iff]
    rw [← m2 v, Dict.mem_keys]
    constructor
    · rintro ⟨-, x, hx, -⟩; exact ⟨x, hx⟩
    · rintro ⟨x, hx⟩; exact ⟨_, x, hx, rfl⟩
  · rw [Dict.get?_mapVals, Option.map_eq_some_iff] at hd
    obtain ⟨x', hx', rfl⟩ := hd
    rw [Dict.get?_mapVals, Option.map_eq_some_iff]
    simp only [m3 v x' hx']
    constructor
    · rintro ⟨r, ⟨j, hj, rfl, rfl⟩, rfl⟩; exact ⟨j, hj, rfl, rfl⟩
    · rintro ⟨j, hj, rfl, rfl⟩; exact ⟨_, ⟨j, hj, rfl, rfl⟩, rfl⟩

/-- **C76.** `relation_graph_separation` in floating point succeeds, with `==`, on every network in which the observed variables separate, if the graphs can be joined. -/
theorem C76_graph_separation {nodes : List Str} {edges : List MEdge} (hN : MNet nodes edges) {prov : ℕ} {sp : Space Str Str Str}
    (hsp : makeRelationGraph prov nodes edges = .ok sp) (hb : totalWeight edges ≤ 2 ^ 1022) {vs : List Str} {P Q : Finset Str} (hs : Separates edges vs P Q)
    {t d : Str} (ht : t ∈ P) (hd : d ∈ Q) (ver : PyVer) (e : Env) :
    (∀ er, separationFl ver e vs d t sp = .error er → er = .assertion) ∧ (ChainOrCycle edges → separationFl ver e vs d t sp = .ok ()) := by
  obtain ⟨hp, hT⟩ := tabs_of_make hN hsp
  have hvs : ∀ v ∈ vs, v ∈ mVars edges := fun v hv => by rw [hs.1]; simp [hv]
  have hdv : d ∈ mVars edges := by rw [hs.1]; simp [hd]
  have htv : t ∈ mVars edges := by rw [hs.1]; simp [ht]
  have hT' : Tabs nodes edges prov (obsDom two []) sp := by rw [obsDom_nil]; exact hT
  obtain ⟨cs, c1, c2⟩ := conditions_ok hN hT.1 hT.2.1 e vs [] sp (fun v hv => mVars_nodes hN (hvs v hv)) hT'
  rw [List.nil_append] at c2
  obtain ⟨cs', k1, k2⟩ := condition_ok hN hT.1 hT.2.1 c2 (mVars_nodes hN hdv) (by unfold obsDom two; split <;> simp) e
  rw [obsDom_snoc] at k2
  obtain ⟨j1, j2, j3, -⟩ := tabs_join hN c2 e.o
  obtain ⟨l1, l2, l3, -⟩ := tabs_join hN k2 e.o
  have hvs' : ∀ v ∈ vs ++ [d], v ∈ mVars edges := by
    intro v hv
    rcases List.mem_append.1 hv with h | h
    · exact hvs v h
    · rw [List.mem_singleton.1 h]; exact hdv
  have ht1 : t ∉ vs := fun h => Finset.disjoint_left.1 hs.2.1 ht (by simp [h])
  have ht2 : t ∉ vs ++ [d] := by
    intro h
    rcases List.mem_append.1 h with h | h
    · exact ht1 h
    · rw [List.mem_singleton.1 h] at ht
      exact Finset.disjoint_left.1 hs.2.1 ht (by simp [hd])
  have hboth : ∀ s s', cs.makeJoined e.o = .ok s → cs'.makeJoined e.o = .ok s' → separationFl ver e vs d t sp = .ok () := by
    intro s s' h h'
    obtain ⟨m, m1, m2, m3⟩ := whole_marginalsFl hN hp hb hvs (j2 s h) ver e
    obtain ⟨m', n1, n2, n3⟩ := whole_marginalsFl hN hp hb hvs' (l2 s' h') ver e
    obtain ⟨x, hx⟩ := (Dict.mem_keys _ _).1 ((m2 t).2 htv)
    obtain ⟨y, hy⟩ := (Dict.mem_keys _ _).1 ((n2 t).2 htv)
    have hxy : ∀ k, x.get? k = y.get? k := by
      intro k
      refine Option.ext fun q => ?_
      rw [m3 t x hx, n3 t y hy, obsDom, obsDom, if_neg ht1, if_neg ht2]
      exact exists_congr fun j => and_congr_right fun _ => and_congr_right fun _ => by
        rw [C60_separation hN hp hs ht (ds := [d]) (by simpa using hd)]
    have hsame : sameAt m m' t = .ok true := by
      unfold sameAt
      rw [hx, hy]
      simp only
      congr 1
      rw [Bool.and_eq_true, decide_eq_true_eq, List.all_eq_true]
      refine ⟨?_, fun k _ => decide_eq_true (hxy k)⟩
      ext k
      simp only [List.mem_toFinset, Dict.mem_keys, hxy]
    unfold separationFl
    simp only [c1, h, k1, h', m1, n1, hsame, bind, Except.bind, pyAssert, if_true]
  constructor
  · intro er her
    unfold separationFl at her
    simp only [c1, bind, Except.bind] at her
    cases hj : cs.makeJoined e.o with
    | error x =>
      rw [hj] at her
      have : x = er := by cases her; rfl
      rw [← this]; exact j1 x hj
    | ok s =>
      cases hj' : cs'.makeJoined e.o with
      | error x =>
        rw [hj] at her
        simp only [k1, hj'] at her
        have : x = er := by cases her; rfl
        rw [← this]; exact l1 x hj'
      | ok s' =>
        have h := hboth s s' hj hj'
        unfold separationFl at h
        simp only [c1, bind, Except.bind] at h
        rw [her] at h
        cases h
  · intro hC
    obtain ⟨s, h⟩ := j3 hC
    obtain ⟨s', h'⟩ := l3 hC
    exact hboth s s' h h'

theorem factorMarginalFl_eq {nodes : List Str} {edges : List MEdge} (hN : MNet nodes edges) (hp : PositiveNet edges) (hb : totalWeight edges ≤ 2 ^ 53)
    {vs : List Str} (hvs : ∀ v ∈ vs, v ∈ mVars edges) {vars : List Str} (hnd : vars.Nodup) (hvars : vars.toFinset = mVars edges) (np : NpSum) {t : Str}
    (ht : t ∈ mVars edges) (j : ℕ) :
    factorMarginalFl np vars (productFl (edges.map (setZero vs))) t j = fl (posteriorM edges vs t j) := by
  have hk : ∀ js ∈ joinedValues vars.length, InDom two (mVars edges) (kw vars js) := by
    intro js h; rw [← hvars]; exact joined_two vars js h
  have hm : ∀ j, marginalizedFl np vars (productFl (edges.map (setZero vs))) t j =
      (((joinedValues vars.length).filter fun js => decide (kw vars js t = j)).map fun js => productFactor (edges.map (setZero vs)) (kw vars js)).sum :=
    fun j => run_product hN np hp hb vs hvs hnd hvars _
  have hnat : ∀ j, ∃ k : ℕ, (((joinedValues vars.length).filter fun js => decide (kw vars js t = j)).map fun js =>
      productFactor (edges.map (setZero vs)) (kw vars js)).sum = k := by
    intro j
    refine sum_nat_of fun x hx => ?_
    obtain ⟨js, hjs, rfl⟩ := List.mem_map.1 hx
    exact product_nat hN hp vs hvs (hk js (List.mem_filter.1 hjs).1)
  have hsplit : ∀ l : List (List ℕ), (∀ js ∈ l, kw vars js t = 0 ∨ kw vars js t = 1) →
      ((l.filter fun js => decide (kw vars js t = 0)).map fun js => productFactor (edges.map (setZero vs)) (kw vars js)).sum +
      ((l.filter fun js => decide (kw vars js t = 1)).map fun js => productFactor (edges.map (setZero vs)) (kw vars js)).sum =
      (l.map fun js => productFactor (edges.map (setZero vs)) (kw vars js)).sum := by
    intro l
    induction l with
    | nil => intro _; simp
    | cons x l ih =>
      intro h
      have ih := ih fun js hjs => h js (List.mem_cons_of_mem _ hjs)
      rw [List.map_cons, List.sum_cons, ← ih]
      rcases h x (by simp) with h0 | h0 <;> simp [h0] <;> ring
  have hall := hsplit (joinedValues vars.length) fun js hjs => by simpa [two] using hk js hjs t ht
  have hrun : np.run ([0, 1].map (marginalizedFl np vars (productFl (edges.map (setZero vs))) t)) =
      ((joinedValues vars.length).map fun js => productFactor (edges.map (setZero vs)) (kw vars js)).sum := by
    have h1 := np.adds ([0, 1].map (marginalizedFl np vars (productFl (edges.map (setZero vs))) t))
    have h2 := h1.exact_nat (by
      intro x hx
      obtain ⟨i, -, rfl⟩ := List.mem_map.1 hx
      rw [hm i]; exact hnat i) (by
      simp only [List.map_cons, List.map_nil, List.sum_cons, List.sum_nil, add_zero, hm]
      rw [hall, obs_sum hN vs hvs hnd hvars]
      exact (part_le_total hN hp _ (obs_subset hN hvs)).trans (by exact_mod_cast hb))
    rw [h2]
    simp only [List.map_cons, List.map_nil, List.sum_cons, List.sum_nil, add_zero, hm]
    exact hall
  rw [← factorMarginal_eq hN hvs hnd hvars]
  unfold factorMarginalFl factorMarginal
  rw [hrun, hm]

/-- **C76.** `markov_separation` in floating point. -/
theorem C76_markov_separation {nodes : List Str} {edges : List MEdge} (hN : MNet nodes edges) (hp : PositiveNet edges) (hb : totalWeight edges ≤ 2 ^ 53)
    {vars : List Str} (hnd : vars.Nodup) (hvars : vars.toFinset = mVars edges) {vs : List Str} {P Q : Finset Str} (hs : Separates edges vs P Q) {t d : Str}
    (ht : t ∈ P) (hd : d ∈ Q) (np : NpSum) : markovSeparationFl np vars edges vs d t = .ok () := by
  have hvs : ∀ v ∈ vs, v ∈ mVars edges := fun v hv => by rw [hs.1]; simp [hv]
  have htv : t ∈ mVars edges := by rw [hs.1]; simp [ht]
  have hvs' : ∀ v ∈ vs ++ [d], v ∈ mVars edges := by
    intro v hv
    rcases List.mem_append.1 hv with h | h
    · exact hvs v h
    · rw [List.mem_singleton.1 h, hs.1]; simp [hd]
  unfold markovSeparationFl pyAssert
  rw [if_pos]
  rw [List.all_eq_true]
  intro j _
  rw [decide_eq_true_eq, factorMarginalFl_eq hN hp hb hvs hnd hvars np htv, factorMarginalFl_eq hN hp hb hvs' hnd hvars np htv,
    C60_separation hN hp hs ht (ds := [d]) (by simpa using hd)]

end Verif.Markov
