import Verif.Model.BayesFloat
import Verif.Props.BayesStudent
import Verif.Props.FloatProb
import Verif.Lemmas.Activation

/-!
# The graph of a Bayesian network, made with floats (C77)
-/

set_option linter.unusedSectionVars false

namespace Verif.Bayes

deriving instance DecidableEq for Cpd

/-! ### Changing the numbers of the tables -/

/-- The table with `g` applied to every number. -/
def mapRows (g : ℚ → ℚ) (c : Cpd) : Cpd := { c with rows := c.rows.map (List.map g) }

/-- The network with `g` applied to every number. -/
def mapCfg (g : ℚ → ℚ) (cfg : Config) : Config := cfg.mapVals (mapRows g)

section
variable (g : ℚ → ℚ) (cfg : Config)

theorem get?_mapCfg (v : Str) : (mapCfg g cfg).get? v = (cfg.get? v).map (mapRows g) := Dict.get?_mapVals _ _ _

theorem keys_mapCfg : (mapCfg g cfg).keys = cfg.keys := by
  show (cfg.entries.map _).map Prod.fst = cfg.entries.map Prod.fst
  rw [List.map_map]; rfl

theorem netVars_mapCfg : netVars (mapCfg g cfg) = netVars cfg := by unfold netVars; rw [keys_mapCfg]

theorem cardOf_mapCfg (v : Str) : cardOf (mapCfg g cfg) v = cardOf cfg v := by
  unfold cardOf
  rw [get?_mapCfg, Option.map_map]; rfl

theorem parentsOf_mapCfg (v : Str) : parentsOf (mapCfg g cfg) v = parentsOf cfg v := by
  unfold parentsOf
  rw [get?_mapCfg, Option.map_map]; rfl

theorem family_mapCfg (v : Str) : family (mapCfg g cfg) v = family cfg v := by unfold family; rw [parentsOf_mapCfg]

theorem domOf_mapCfg : domOf (mapCfg g cfg) = domOf cfg := by funext v; unfold domOf; rw [cardOf_mapCfg]

theorem prob_mapCfg (h0 : g 0 = 0) (v : Str) (a : Str → ℕ) : prob (mapCfg g cfg) v a = g (prob cfg v a) := by
  unfold prob
  rw [get?_mapCfg]
  cases cfg.get? v with
  | none => exact h0.symm
  | some c =>
    simp only [Option.map_some, mapRows, List.getElem?_map]
    cases c.rows[a v]? with
    | none => simp [h0]
    | some r =>
      simp only [Option.map_some, Option.getD_some, List.getElem?_map]
      cases r[rowIndex a (c.parents.zip c.pCards)]? with
      | none => simp [h0]
      | some q => rfl

theorem famGraph_mapCfg (v : Str) (a : Str → ℕ) : famGraph (mapCfg g cfg) v a = famGraph cfg v a := by
  unfold famGraph
  simp only [family_mapCfg, parentsOf_mapCfg]

theorem declared_mapCfg : declared (mapCfg g cfg) = declared cfg := by
  unfold declared
  show Dict.ofList ((cfg.entries.map _).map _) = _
  rw [List.map_map]; rfl

theorem schemaOf_mapCfg : schemaOf (mapCfg g cfg) = schemaOf cfg := by
  unfold schemaOf
  rw [declared_mapCfg]

variable {cfg}

theorem net_mapCfg (hN : Net cfg) : Net (mapCfg g cfg) where
  ne := by
    show cfg.entries.map _ ≠ []
    rw [Ne, List.map_eq_nil_iff]; exact hN.ne
  fits := by
    intro v c hc
    rw [get?_mapCfg, Option.map_eq_some_iff] at hc
    obtain ⟨c', hc', rfl⟩ := hc
    have h := hN.fits v c' hc'
    refine ⟨h.card, h.nodup, h.self, ?_, ?_, ?_, ?_⟩
    · rw [keys_mapCfg]; exact h.decl
    · have : cardOf (mapCfg g cfg) = cardOf cfg := funext (cardOf_mapCfg g cfg)
      rw [this]; exact h.pCards
    · exact (List.length_map _).trans h.rows
    · intro r hr
      obtain ⟨r', hr', rfl⟩ := List.mem_map.1 hr
      rw [List.length_map]
      exact h.row r' hr'
  two := by simp only [parentsOf_mapCfg]; exact hN.two
  names := by simp only [keys_mapCfg, family_mapCfg, cardOf_mapCfg]; exact hN.names

/-! ### The loops -/

theorem zip_map_foldl (cs : List (List Str)) : ∀ (row : List ℚ) (d : Dict (Finset Str) ℚ),
    ((cs.zip (row.map g)).foldl (fun d p => d.set p.1.toFinset p.2) (d.mapVals g)) =
      ((cs.zip row).foldl (fun d p => d.set p.1.toFinset p.2) d).mapVals g := by
  induction cs with
  | nil => intro row d; rfl
  | cons c t ih =>
    intro row d
    cases row with
    | nil => rfl
    | cons q r =>
      simp only [List.map_cons, List.zip_cons_cons, List.foldl_cons]
      rw [← Dict.mapVals_set, ih]

theorem valueMapRow_map (v : Str) (c : Cpd) (d : Dict (Finset Str) ℚ) (i : ℕ) :
    valueMapRow v (mapRows g c) (d.mapVals g) i = (valueMapRow v c d i).map fun d => d.mapVals g := by
  unfold valueMapRow
  simp only [mapRows, List.getElem?_map]
  split
  · cases valueCombination (c.parents.zip c.pCards) with
    | error e => rfl
    | ok cs =>
      cases c.rows[i]? with
      | none => rfl
      | some row =>
        simp only [Option.map_some, Except.map]
        rw [zip_map_foldl]
  · cases c.rows[i]? with
    | none => rfl
    | some row =>
      cases row with
      | nil => rfl
      | cons p t =>
        simp only [Option.map_some, List.map_cons, Except.map]
        rw [Dict.mapVals_set]

theorem foldlM_mapVals (v : Str) (c : Cpd) : ∀ (l : List ℕ) (d : Dict (Finset Str) ℚ),
    l.foldlM (valueMapRow v (mapRows g c)) (d.mapVals g) = (l.foldlM (valueMapRow v c) d).map fun d => d.mapVals g
  | [], d => rfl
  | i :: t, d => by
    rw [List.foldlM_cons, List.foldlM_cons, valueMapRow_map]
    cases h : valueMapRow v c d i with
    | error e => rfl
    | ok d' =>
      simp only [Except.map, bind, Except.bind]
      exact foldlM_mapVals v c t d'

theorem valueMap_map (v : Str) (c : Cpd) : valueMap v (mapRows g c) = (valueMap v c).map fun d => d.mapVals g := foldlM_mapVals g v c _ Dict.empty

/-- Rounding `p * k` is the same as changing `p`. -/
theorem makeRelationGraphFl_eq (k : ℚ) (hk : k ≠ 0) (o : Order Str) (prov : ℕ) (cfg : Config) :
    makeRelationGraphFl k o prov cfg = makeRelationGraph k o prov (mapCfg (fun p => fl (p * fl k) / k) cfg) := by
  have hentry : ∀ (v : Str) (ps : List Str) (b : RGBuilder Str Str Str) (e : Finset Str × ℚ),
      addEntryFl k o v ps b e = addEntry k o v ps b (e.1, fl (e.2 * fl k) / k) := by
    intro v ps b e
    unfold addEntryFl addEntry
    simp only [div_mul_cancel₀ _ hk]
    cases buildOutcome b.schema b.prov v ps (o.run e.1) <;> rfl
  have hvar : ∀ (b : RGBuilder Str Str Str) (e : Str × Cpd),
      addVariableFl k o b e = addVariable k o b (e.1, mapRows (fun p => fl (p * fl k) / k) e.2) := by
    intro b e
    unfold addVariableFl addVariable
    simp only
    rw [valueMap_map]
    cases valueMap e.1 e.2 with
    | error er => rfl
    | ok d =>
      simp only [Except.map]
      show _ = (d.entries.map fun e => (e.1, fl (e.2 * fl k) / k)).foldlM _ b
      rw [List.foldlM_map]
      congr 1
      funext b e'
      exact hentry _ _ _ _
  unfold makeRelationGraphFl makeRelationGraph
  rw [declared_mapCfg]
  cases RGBuilder.init prov (declared cfg) {['r']} none with
  | error e => rfl
  | ok b =>
    simp only
    have : cfg.entries.foldlM (addVariableFl k o) b =
        (mapCfg (fun p => fl (p * fl k) / k) cfg).entries.foldlM (addVariable k o) b := by
      show _ = (cfg.entries.map fun e => (e.1, mapRows (fun p => fl (p * fl k) / k) e.2)).foldlM _ b
      rw [List.foldlM_map]
      congr 1
      funext b e
      exact hvar b e
    rw [this]
    cases (mapCfg (fun p => fl (p * fl k) / k) cfg).entries.foldlM (addVariable k o) b <;> rfl

end

/-! ### Specification -/

/-- Every rounded product of a probability and `prop_factor` is a positive whole number. -/
def CountableFl (k : ℚ) (cfg : Config) : Prop :=
  ∀ v ∈ cfg.keys, ∀ a, InDom (domOf cfg) (family cfg v) a → ∃ n : ℕ, 0 < n ∧ fl (prob cfg v a * fl k) = n

/-- **C77.** `make_relation_graph` succeeds exactly if all rounded products are positive whole numbers; these are the counts then. Otherwise it raises
`AssertionError`. -/
theorem C77_make_relation_graph {cfg : Config} (hN : Net cfg) {k : ℚ} (hk : k ≠ 0) (o : Order Str) (prov : ℕ) :
    (¬ CountableFl k cfg → makeRelationGraphFl k o prov cfg = .error .assertion) ∧
    (CountableFl k cfg → ∃ sp, makeRelationGraphFl k o prov cfg = .ok sp ∧ sp.schema = schemaOf cfg ∧ sp.outcomes.prov = prov ∧ sp.evidence = none ∧
      ∀ g n, sp.outcomes.samples.get? g = some n ↔
        ∃ v ∈ cfg.keys, ∃ a, InDom (domOf cfg) (family cfg v) a ∧ g = famGraph cfg v a ∧ (n : ℚ) = fl (prob cfg v a * fl k)) := by
  have h0 : (fun p => fl (p * fl k) / k) 0 = 0 := by simp [fl_zero]
  have hp := prob_mapCfg (fun p => fl (p * fl k) / k) cfg h0
  have h := C59_make_relation_graph (net_mapCfg (fun p => fl (p * fl k) / k) hN) k o prov
  unfold Countable at h
  simp only [keys_mapCfg, domOf_mapCfg, family_mapCfg, famGraph_mapCfg, schemaOf_mapCfg, hp, div_mul_cancel₀ _ hk] at h
  rw [makeRelationGraphFl_eq k hk]
  exact h

/-- Every number of a table is the probability of an assignment. -/
theorem prob_surj {cfg : Config} (hN : Net cfg) {v : Str} {c : Cpd} (hv : cfg.get? v = some c) {r : List ℚ} (hr : r ∈ c.rows) {q : ℚ} (hq : q ∈ r) :
    ∃ a, InDom (domOf cfg) (family cfg v) a ∧ prob cfg v a = q := by
  have h := hN.fits v c hv
  obtain ⟨i, hi⟩ := List.mem_iff_getElem?.1 hr
  obtain ⟨j, hj⟩ := List.mem_iff_getElem?.1 hq
  have hil : i < c.card := by rw [← h.rows]; exact (List.getElem?_eq_some_iff.1 hi).1
  have hjl : j < c.pCards.prod := by rw [← h.row r hr]; exact (List.getElem?_eq_some_iff.1 hj).1
  have hlen : c.parents.length = c.pCards.length := by rw [h.pCards, List.length_map]
  have hfst : (c.parents.zip c.pCards).map Prod.fst = c.parents := List.map_fst_zip hlen.le
  have hsnd : (c.parents.zip c.pCards).map Prod.snd = c.pCards := List.map_snd_zip hlen.ge
  obtain ⟨a, a1, a2⟩ := rowIndex_surj (c.parents.zip c.pCards) (by rw [hfst]; exact h.nodup) j (by rw [hsnd]; exact hjl)
  have hne : ∀ p ∈ c.parents, p ≠ v := fun p hp e => h.self (e ▸ hp)
  refine ⟨Function.update a v i, ?_, ?_⟩
  · intro w hw
    rw [family_of hv] at hw
    by_cases e : w = v
    · subst e
      rw [Function.update_self, domOf, Finset.mem_range, cardOf, hv]
      exact hil
    · rw [Function.update_of_ne e, domOf, Finset.mem_range]
      have hw' : w ∈ c.parents := by
        rcases Finset.mem_insert.1 hw with h' | h'
        · exact absurd h' e
        · exact List.mem_toFinset.1 h'
      refine a1 (w, cardOf cfg w) ?_
      rw [h.pCards, List.zip_map_right, List.mem_map]
      refine ⟨(w, w), ?_, rfl⟩
      rw [List.zip_eq_zipWith, List.zipWith_self, List.mem_map]
      exact ⟨w, hw', rfl⟩
  · unfold prob
    rw [hv]
    simp only [Function.update_self, hi, Option.getD_some]
    have : rowIndex (Function.update a v i) (c.parents.zip c.pCards) = j := by
      rw [← a2]
      refine rowIndex_congr fun p hp => ?_
      exact Function.update_of_ne (hne p.1 (List.of_mem_zip hp).1) _ _
    rw [this, hj]
    rfl

/-- **C77.** Tables of decimals, read as floats: if the products of the decimals and `prop_factor` are positive whole numbers up to `2^50`, the graph is the one of the decimals or
`AssertionError` is raised; wrong counts are not possible. -/
theorem C77_decimals {cfg : Config} (hN : Net cfg) {k : ℕ} (hk : k ≤ 2 ^ 53) (hc : Countable k cfg)
    (hb : ∀ v ∈ cfg.keys, ∀ a, InDom (domOf cfg) (family cfg v) a → prob cfg v a * k ≤ 2 ^ 50) (o : Order Str) (prov : ℕ) :
    makeRelationGraphFl k o prov (mapCfg fl cfg) = .error .assertion ∨
    makeRelationGraphFl k o prov (mapCfg fl cfg) = makeRelationGraph k o prov cfg := by
  have hk0 : (k : ℚ) ≠ 0 := factor_ne_zero hN hc
  have hk1 : (0 : ℚ) < k := lt_of_le_of_ne (by positivity) hk0.symm
  have hfk : fl (k : ℚ) = k := by
    have := fl_int (k := (k : ℤ)) (by positivity) (by exact_mod_cast hk)
    exact_mod_cast this
  have hp := prob_mapCfg fl cfg fl_zero
  obtain ⟨h1, -⟩ := C77_make_relation_graph (net_mapCfg fl hN) hk0 o prov
  by_cases hC : CountableFl k (mapCfg fl cfg)
  · right
    have key : ∀ v ∈ cfg.keys, ∀ a, InDom (domOf cfg) (family cfg v) a → fl (fl (prob cfg v a) * k) = prob cfg v a * k := by
      intro v hv a ha
      obtain ⟨m, hm, em⟩ := hc v hv a ha
      obtain ⟨m', hm', em'⟩ := hC v (by rwa [keys_mapCfg]) a (by rwa [domOf_mapCfg, family_mapCfg])
      rw [hp, hfk] at em'
      have hbm := hb v hv a ha
      rw [em] at hbm
      have hm1 : (1 : ℚ) ≤ m := by exact_mod_cast hm
      have hpq : prob cfg v a = m / k := by rw [← em, mul_div_cancel_right₀ _ hk0]
      have hkb : (k : ℚ) ≤ 2 ^ 53 := by exact_mod_cast hk
      have hrange : (2 : ℚ) ^ (-1022 : ℤ) ≤ 1 / 2 ^ 53 := by
        rw [zpow_neg, ← one_div]
        refine one_div_le_one_div_of_le (by positivity) ?_
        rw [show (1022 : ℤ) = ((1022 : ℕ) : ℤ) from rfl, zpow_natCast]
        exact pow_le_pow_right₀ (by norm_num) (by norm_num)
      have hpr : 1 / 2 ^ 53 ≤ prob cfg v a := by
        rw [hpq]
        exact (div_le_div_of_nonneg_left (by norm_num) hk1 hkb).trans (by gcongr)
      have hp0 : 0 < prob cfg v a := lt_of_lt_of_le (by norm_num) hpr
      have r1 := fl_rel (x := prob cfg v a) (by rw [abs_of_pos hp0]; exact hrange.trans hpr)
      rw [abs_of_pos hp0] at r1
      have r1' : |fl (prob cfg v a) * k - m| ≤ uro * m := by
        rw [← em, ← sub_mul, abs_mul, abs_of_pos hk1, ← mul_assoc]
        exact mul_le_mul_of_nonneg_right r1 hk1.le
      have hu : uro = 1 / 2 ^ 53 := rfl
      have hy : 1 / 2 ≤ fl (prob cfg v a) * k := by
        have := (abs_le.1 r1').1
        have : uro * m ≤ m / 2 := by rw [hu]; linarith
        linarith
      have r2 := fl_rel (x := fl (prob cfg v a) * k) (by
        rw [abs_of_nonneg (by linarith)]
        exact hrange.trans (le_trans (by norm_num) hy))
      rw [abs_of_nonneg (by linarith : (0 : ℚ) ≤ fl (prob cfg v a) * k), em'] at r2
      have hlt : |(m' : ℚ) - m| < 1 := by
        have h3 := abs_le.1 r1'
        have h4 := abs_le.1 r2
        have h5 : uro * m ≤ 1 / 8 := by rw [hu]; linarith
        have h6 : uro * (fl (prob cfg v a) * k) ≤ 1 / 4 := by
          rw [hu]
          linarith
        rw [abs_lt]
        constructor <;> linarith
      have : m' = m := by
        have : |(m' : ℤ) - m| < 1 := by exact_mod_cast hlt
        have := Int.abs_lt_one_iff.1 this
        omega
      rw [em', em, this]
    rw [makeRelationGraphFl_eq _ hk0]
    congr 1
    refine Dict.ext ?_
    show (cfg.entries.map fun e => (e.1, mapRows fl e.2)).map (fun e => (e.1, mapRows _ e.2)) = cfg.entries
    rw [List.map_map]
    conv_rhs => rw [← List.map_id cfg.entries]
    refine List.map_congr_left fun e he => ?_
    have hv : cfg.get? e.1 = some e.2 := (cfg.mem_entries' e).1 he
    have hrows : (e.2.rows.map (List.map fl)).map (List.map fun p => fl (p * fl (k : ℚ)) / k) = e.2.rows := by
      rw [List.map_map]
      conv_rhs => rw [← List.map_id e.2.rows]
      refine List.map_congr_left fun r hr => ?_
      simp only [Function.comp, List.map_map, id]
      conv_rhs => rw [← List.map_id r]
      refine List.map_congr_left fun q hq => ?_
      obtain ⟨a, ha, rfl⟩ := prob_surj hN hv hr hq
      simp only [Function.comp, id, hfk]
      rw [key e.1 ((cfg.mem_keys _).2 ⟨_, hv⟩) a ha, mul_div_cancel_right₀ _ hk0]
    show (e.1, mapRows _ (mapRows fl e.2)) = e
    unfold mapRows
    simp only [hrows]
  · exact Or.inl (h1 hC)

/-- **C77.** The graph of the experiment: the literals of `net_config` give the counts of the decimals. -/
theorem C77_student_graph (o : Order Str) (prov : ℕ) :
    makeRelationGraphFl propFactor o prov studentConfigFl = makeRelationGraph propFactor o prov studentConfig := by
  rw [makeRelationGraphFl_eq propFactor (by decide +kernel)]
  congr 1
  refine Dict.ext ?_
  decide +kernel

/-- One variable with the probabilities 0.29 and 0.71: the products of the decimals are whole numbers, the rounded product `0.29 * 100` is not. -/
theorem C77_graph_fails (o : Order Str) (prov : ℕ) :
    let cfg : Config := Dict.ofList [(['A'], ⟨2, [[29/100], [71/100]], [], []⟩)]
    (∃ sp, makeRelationGraph propFactor o prov cfg = .ok sp) ∧ makeRelationGraphFl propFactor o prov (mapCfg fl cfg) = .error .assertion := by
  intro cfg
  have hf : ∀ v c, cfg.get? v = some c → Fits cfg v c := by
    refine get?_of_all fun e he => ?_
    have : e = (['A'], ⟨2, [[29/100], [71/100]], [], []⟩) := by simpa [cfg, Dict.ofList, Dict.set, assocSet] using he
    subst this
    exact ⟨by decide, by decide, by decide, by decide, by decide, by decide, by decide⟩
  have hp : ∀ v, parentsOf cfg v = [] := by
    intro v
    unfold parentsOf
    cases h : cfg.get? v with
    | none => rfl
    | some c =>
      have := (Dict.mem_entries _ v c).2 h
      have : (v, c) = (['A'], ⟨2, [[29/100], [71/100]], [], []⟩) := by simpa [cfg, Dict.ofList, Dict.set, assocSet] using this
      have : c = ⟨2, [[29/100], [71/100]], [], []⟩ := (Prod.ext_iff.1 this).2
      rw [this]
      rfl
  have hN : Net cfg := ⟨by decide +kernel, hf, fun v p h => by rw [hp] at h; simp at h, by decide +kernel⟩
  refine ⟨?_, ?_⟩
  · obtain ⟨sp, h, -⟩ := (C59_make_relation_graph hN propFactor o prov).2 (by
      intro v hv
      have hv' : v = ['A'] := by simpa [cfg, Dict.ofList, Dict.set, assocSet, Dict.keys] using hv
      subst hv'
      have := inDom_of_assigns hf (P := fun q => q * propFactor = 29 ∨ q * propFactor = 71) (v := ['A']) (by decide +kernel)
      intro a ha
      rcases this a ha with h | h
      · exact ⟨29, by norm_num, by rw [h]; norm_num⟩
      · exact ⟨71, by norm_num, by rw [h]; norm_num⟩)
    exact ⟨sp, h⟩
  · refine (C77_make_relation_graph (net_mapCfg fl hN) (by decide +kernel) o prov).1 fun h => ?_
    obtain ⟨n, -, e⟩ := h ['A'] (by decide +kernel) (fun _ => 0) (by unfold InDom; decide +kernel)
    rw [prob_mapCfg fl cfg fl_zero] at e
    have h1 : fl (fl (prob cfg ['A'] fun _ => 0) * fl propFactor) < 29 ∧ 28 < fl (fl (prob cfg ['A'] fun _ => 0) * fl propFactor) := by decide +kernel
    rw [e] at h1
    have h2 : n < 29 := by exact_mod_cast h1.1
    have h3 : 28 < n := by exact_mod_cast h1.2
    omega

end Verif.Bayes
