import Verif.Model.Coins
import Verif.Props.Gaps
import Verif.Props.Conditional
import Verif.Props.BayesGraph
import Mathlib.Data.Fintype.Defs

/-!
# Properties of the examples (C61)
-/

set_option linter.unusedSectionVars false

namespace Verif.Coins

/-! ### Specification -/

/-- The coins of the experiment. -/
inductive Coin | one | five | quarter
  deriving DecidableEq

/-- The sides of a coin. -/
inductive Side | head | tail
  deriving DecidableEq

/-- Tossing a coin. -/
structure Toss where
  coin : Coin
  side : Side
  deriving DecidableEq

instance : Fintype Toss where
  elems := {⟨.one, .head⟩, ⟨.one, .tail⟩, ⟨.five, .head⟩, ⟨.five, .tail⟩, ⟨.quarter, .head⟩, ⟨.quarter, .tail⟩}
  complete := by rintro ⟨⟨⟩, ⟨⟩⟩ <;> decide

/-- A result of the experiment: one coin was tossed, or two one after the other (the word between them is free). -/
inductive Result
  | single (t : Toss)
  | pair (first : Toss) (word : Str) (second : Toss)

/-- The value of a coin. -/
def Coin.cents : Coin → ℕ
  | .one => 1
  | .five => 5
  | .quarter => 25

/-- How a toss is written. -/
def Toss.text (t : Toss) : Str :=
  (match t.coin with | .one => ['1', '¢'] | .five => ['5', '¢'] | .quarter => ['2', '5', '¢']) ++ ' ' ::
    (match t.side with | .head => ['H'] | .tail => ['T'])

/-- How a result is written. -/
def Result.text : Result → Str
  | .single t => t.text
  | .pair a w b => a.text ++ ' ' :: w ++ ' ' :: b.text

/-- The results that can be used: not the same coin twice, and one word between two tosses. -/
def Result.Valid : Result → Prop
  | .single _ => True
  | .pair a w b => a.coin ≠ b.coin ∧ ' ' ∉ w

/-- The tosses of a result, in their order. -/
def Result.tosses : Result → List Toss
  | .single t => [t]
  | .pair a _ b => [a, b]

/-- The digit by which variables and values are named. -/
def Coin.digit : Coin → Char
  | .one => '1'
  | .five => '2'
  | .quarter => '3'

/-- The node of a toss: V1 = h1 for the head of 1¢ and so on. -/
def Toss.node (t : Toss) : Node Str Str := ⟨['V', t.coin.digit], [match t.side with | .head => 'h' | .tail => 't', t.coin.digit]⟩

/-- The outcome of a result: a node, or an edge with relation r1 if the first coin has the smaller value and r2 otherwise. -/
def Result.outcome : Result → SampleGraph Str Str Str
  | .single t => ⟨{t.node}, ∅⟩
  | .pair a _ b => ⟨{a.node, b.node}, {⟨{a.node, b.node}, .plain ['r', if a.coin.cents < b.coin.cents then '1' else '2']⟩}⟩

/-- The text is one of a result that can be used. -/
def IsResult (t : Str) : Prop := ∃ r : Result, r.Valid ∧ t = r.text

/-- The declarations of the network. -/
def coinSchema : Schema Str Str Str := ⟨coinVars, coinRels⟩

/-! ### Splitting -/

theorem splitSp_ne_nil : ∀ t, splitSp t ≠ []
  | [] => by simp [splitSp]
  | c :: t => by
    unfold splitSp
    split
    · simp
    · split <;> simp

theorem splitSp_join : ∀ t, joinStr [' '] (splitSp t) = t
  | [] => rfl
  | c :: t => by
    have ih := splitSp_join t
    have hne := splitSp_ne_nil t
    unfold splitSp
    by_cases hc : c = ' '
    · rw [if_pos hc]
      obtain ⟨w, ws, h⟩ := List.exists_cons_of_ne_nil hne
      rw [h] at ih ⊢
      show [] ++ [' '] ++ joinStr [' '] (w :: ws) = _
      rw [ih, hc]; rfl
    · rw [if_neg hc]
      obtain ⟨w, ws, h⟩ := List.exists_cons_of_ne_nil hne
      rw [h] at ih ⊢
      simp only
      cases ws with
      | nil =>
        have : w = t := ih
        rw [this]; rfl
      | cons b bs =>
        have : w ++ [' '] ++ joinStr [' '] (b :: bs) = t := ih
        show (c :: w) ++ [' '] ++ joinStr [' '] (b :: bs) = _
        rw [← this]; rfl

theorem splitSp_word : ∀ t, ∀ w ∈ splitSp t, ' ' ∉ w
  | [] => by simp [splitSp]
  | c :: t => by
    have ih := splitSp_word t
    unfold splitSp
    by_cases hc : c = ' '
    · rw [if_pos hc]
      intro w hw
      rcases List.mem_cons.1 hw with rfl | hw
      · simp
      · exact ih w hw
    · rw [if_neg hc]
      obtain ⟨v, vs, h⟩ := List.exists_cons_of_ne_nil (splitSp_ne_nil t)
      rw [h] at ih ⊢
      intro w hw
      rcases List.mem_cons.1 hw with rfl | hw
      · have := ih v (by simp)
        simp only [List.mem_cons, not_or]
        exact ⟨fun e => hc e.symm, this⟩
      · exact ih w (by simp [hw])

theorem splitSp_single : ∀ {a : Str}, ' ' ∉ a → splitSp a = [a]
  | [], _ => rfl
  | c :: t, h => by
    simp only [List.mem_cons, not_or] at h
    unfold splitSp
    rw [if_neg (fun e => h.1 e.symm), splitSp_single h.2]

theorem splitSp_cons : ∀ {a : Str} (r : Str), ' ' ∉ a → splitSp (a ++ ' ' :: r) = a :: splitSp r
  | [], r, _ => by
    show splitSp (' ' :: r) = _
    conv_lhs => unfold splitSp
    rw [if_pos rfl]
  | c :: t, r, h => by
    simp only [List.mem_cons, not_or] at h
    show splitSp (c :: (t ++ ' ' :: r)) = _
    conv_lhs => unfold splitSp
    rw [if_neg (fun e => h.1 e.symm), splitSp_cons r h.2]

/-- The two words of a toss. -/
def Toss.var (t : Toss) : Str := match t.coin with | .one => ['1', '¢'] | .five => ['5', '¢'] | .quarter => ['2', '5', '¢']
def Toss.val (t : Toss) : Str := match t.side with | .head => ['H'] | .tail => ['T']

theorem text_eq (t : Toss) : t.text = t.var ++ ' ' :: t.val := rfl

theorem words_clean : ∀ t : Toss, ' ' ∉ t.var ∧ ' ' ∉ t.val := by decide +kernel

theorem pareVar_some : ∀ t : Toss, pareVar t.var t.val = some (t.node.var, t.node.val) := by decide +kernel

theorem pareVar_inv {a b : Str} {p : Str × Str} (h : pareVar a b = some p) : ∃ t : Toss, a = t.var ∧ b = t.val := by
  unfold pareVar at h
  split_ifs at h with h1 h2 h3 h4 h5 h6 h7 h8 h9 <;> first | cases h | skip
  · exact ⟨⟨.one, .head⟩, h1, h2⟩
  · exact ⟨⟨.one, .tail⟩, h1, h3⟩
  · exact ⟨⟨.five, .head⟩, h4, h5⟩
  · exact ⟨⟨.five, .tail⟩, h4, h6⟩
  · exact ⟨⟨.quarter, .head⟩, h7, h8⟩
  · exact ⟨⟨.quarter, .tail⟩, h7, h9⟩

theorem var_cents : ∀ t : Toss, pyInt t.var.dropLast = t.coin.cents := by decide +kernel

theorem node_declared : ∀ t : Toss, coinSchema.declared t.node.var t.node.val = true := by decide +kernel

theorem node_var_inj : ∀ a b : Toss, a.node.var = b.node.var ↔ a.coin = b.coin := by decide +kernel

theorem node_inj : ∀ a b : Toss, a.node = b.node ↔ a = b := by decide +kernel

theorem split_single (t : Toss) : splitSp (Result.single t).text = [t.var, t.val] := by
  show splitSp (t.var ++ ' ' :: t.val) = _
  rw [splitSp_cons _ (words_clean t).1, splitSp_single (words_clean t).2]

theorem split_pair (a b : Toss) {w : Str} (hw : ' ' ∉ w) : splitSp (Result.pair a w b).text = [a.var, a.val, w, b.var, b.val] := by
  have e : (Result.pair a w b).text = a.var ++ ' ' :: (a.val ++ ' ' :: (w ++ ' ' :: (b.var ++ ' ' :: b.val))) := by
    simp [Result.text, text_eq]
  rw [e, splitSp_cons _ (words_clean a).1, splitSp_cons _ (words_clean a).2, splitSp_cons _ hw, splitSp_cons _ (words_clean b).1,
    splitSp_single (words_clean b).2]

/-! ### One result -/

theorem addRelation_tosses (prov : ℕ) (a b : Toss) (r : Str) (hr : r ∈ coinRels) :
    (a.coin ≠ b.coin → (Builder.new prov).addRelation coinSchema {(a.node.var, a.node.val), (b.node.var, b.node.val)} (.plain r) =
      ((Builder.new prov).insertEdge ⟨{a.node, b.node}, .plain r⟩, none)) ∧
    (a.coin = b.coin → (Builder.new prov).addRelation coinSchema {(a.node.var, a.node.val), (b.node.var, b.node.val)} (.plain r) =
      (Builder.new prov, some .assertion)) := by
  have hn : toNodes ({(a.node.var, a.node.val), (b.node.var, b.node.val)} : Finset (Str × Str)) = {a.node, b.node} := by
    simp [toNodes, Finset.image_insert]
  rcases (Builder.new prov).addRelation_eq coinSchema (Builder.inv_new prov) {(a.node.var, a.node.val), (b.node.var, b.node.val)} (.plain r)
    with ⟨h1, -, -, -, h⟩ | ⟨h1, h⟩
  · refine ⟨fun _ => by rw [h, hn], fun hab => ?_⟩
    exfalso
    obtain ⟨x, y, hxy, e⟩ := h1
    have hx : x ∈ ({(a.node.var, a.node.val), (b.node.var, b.node.val)} : Finset (Str × Str)) := by rw [e]; simp
    have hy : y ∈ ({(a.node.var, a.node.val), (b.node.var, b.node.val)} : Finset (Str × Str)) := by rw [e]; simp
    have hv := (node_var_inj a b).2 hab
    simp only [Finset.mem_insert, Finset.mem_singleton] at hx hy
    rcases hx with rfl | rfl <;> rcases hy with rfl | rfl <;> simp_all
  · refine ⟨fun hab => ?_, fun _ => h⟩
    exfalso
    apply h1
    refine ⟨⟨_, _, fun e => hab ((node_var_inj a b).1 e), rfl⟩, (rawDeclared_iff _ _ _).2 ⟨?_, ?_⟩, Or.inl rfl, by simp [Builder.new]⟩
    · intro p hp
      simp only [Finset.mem_insert, Finset.mem_singleton] at hp
      rcases hp with rfl | rfl <;> exact node_declared _
    · rw [relOk_iff]; exact hr

/-- A valid result gives its outcome. -/
theorem buildOutcome_ok (prov : ℕ) (r : Result) (h : r.Valid) : buildOutcome coinSchema prov r.text = .ok ⟨prov, r.outcome⟩ := by
  cases r with
  | single t =>
    unfold buildOutcome
    rw [split_single]
    simp only [pareVar_some]
    unfold Builder.buildSingleNode Schema.getNode
    rw [if_pos (node_declared t)]
    rfl
  | pair a w b =>
    unfold buildOutcome
    rw [split_pair a b h.2]
    simp only [pareVar_some, var_cents]
    have hr : (if a.coin.cents < b.coin.cents then ['r', '1'] else ['r', '2'] : Str) = ['r', if a.coin.cents < b.coin.cents then '1' else '2'] := by
      split_ifs <;> rfl
    rw [hr, (addRelation_tosses prov a b _ (by split_ifs <;> simp [coinRels])).1 h.1]
    have hne : (({a.node, b.node} : Finset (Node Str Str)) = ∅) ↔ False := by simp
    simp [toPy, Builder.build, Builder.insertEdge, Builder.new, Result.outcome, hne]

/-- Other texts raise. -/
theorem buildOutcome_error (prov : ℕ) (t : Str) (h : ¬ IsResult t) : ∃ e, buildOutcome coinSchema prov t = .error e := by
  have hj := splitSp_join t
  have hw := splitSp_word t
  unfold buildOutcome
  split
  · rename_i a b e
    cases hp : pareVar a b with
    | none => exact ⟨_, rfl⟩
    | some p =>
      exfalso
      obtain ⟨x, rfl, rfl⟩ := pareVar_inv hp
      rw [e] at hj
      refine h ⟨.single x, trivial, ?_⟩
      rw [← hj]
      simp [joinStr, Result.text, text_eq]
  · rename_i a b w c d e
    cases hp : pareVar a b with
    | none => exact ⟨_, rfl⟩
    | some p => cases hq : pareVar c d with
      | none => exact ⟨_, rfl⟩
      | some q =>
        obtain ⟨x, rfl, rfl⟩ := pareVar_inv hp
        obtain ⟨y, rfl, rfl⟩ := pareVar_inv hq
        rw [pareVar_some] at hp hq
        cases hp; cases hq
        by_cases hxy : x.coin = y.coin
        · simp only
          rw [(addRelation_tosses prov x y _ (by split_ifs <;> simp [coinRels])).2 hxy]
          exact ⟨_, rfl⟩
        · exfalso
          rw [e] at hj hw
          refine h ⟨.pair x w y, ⟨hxy, hw w (by simp)⟩, ?_⟩
          rw [← hj]
          simp [joinStr, Result.text, text_eq]
  · exact ⟨_, rfl⟩

/-! ### The network -/

theorem init_eq (prov : ℕ) : RGBuilder.init prov coinVars coinRels none = .ok (RGBuilder.fresh coinSchema prov) := by
  obtain ⟨h1, -, h3⟩ := C37_init prov coinVars coinRels (none : Option (Samples Str Str Str))
  have : Returns (RGBuilder.init prov coinVars coinRels (none : Option (Samples Str Str Str))) := by
    refine h1.2 ⟨⟨['V', '1'], by decide⟩, ?_, ⟨['r', '1'], by decide⟩⟩
    intro v xs h
    have : (v, xs) ∈ coinVars.entries := (coinVars.mem_entries v xs).2 h
    simp only [coinVars, List.mem_cons, List.not_mem_nil, or_false, Prod.mk.injEq] at this
    rcases this with ⟨-, rfl⟩ | ⟨-, rfl⟩ | ⟨-, rfl⟩
    · exact ⟨['h', '1'], by decide⟩
    · exact ⟨['h', '2'], by decide⟩
    · exact ⟨['h', '3'], by decide⟩
  obtain ⟨b, hb⟩ := this
  rw [hb, (h3 b hb).2.2.2.1 rfl]
  rfl

/-- The number of results with an outcome. -/
def times (R : List Result) (g : SampleGraph Str Str Str) : ℕ := R.countP fun r => decide (r.outcome = g)

theorem totalOf_times (R : List Result) (g : SampleGraph Str Str Str) :
    totalOf (R.map fun r => (r.outcome, (1 : ℤ))) g = if times R g = 0 then none else some (times R g : ℤ) := by
  induction R with
  | nil => simp [totalOf_nil, times]
  | cons r t ih =>
    rw [List.map_cons, totalOf_cons, ih]
    unfold times
    rw [List.countP_cons]
    by_cases h : r.outcome = g
    · simp only [h, decide_true, if_true]
      by_cases h0 : List.countP (fun r => decide (r.outcome = g)) t = 0
      · simp [h0, addCounts]
      · simp only [h0, if_false, addCounts]
        simp [add_comm]
    · simp [h]

theorem addCounts_assoc' (x y z : Option ℤ) : addCounts (addCounts x y) z = addCounts x (addCounts y z) := by
  cases x <;> cases y <;> cases z <;> simp [addCounts, add_assoc]

theorem results_fold (prov : ℕ) : ∀ (R : List Result) (b : RGBuilder Str Str Str), (∀ r ∈ R, r.Valid) → b.Coherent → b.prov = prov →
    b.schema = coinSchema → ∃ b', (R.map Result.text).foldlM addResult b = .ok b' ∧ b'.Coherent ∧ b'.prov = prov ∧ b'.schema = coinSchema ∧
      ∀ g, b'.outcomes.samples.get? g = addCounts (b.outcomes.samples.get? g) (totalOf (R.map fun r => (r.outcome, (1 : ℤ))) g)
  | [], b, _, h1, h2, h3 => ⟨b, rfl, h1, h2, h3, fun g => by rw [List.map_nil, totalOf_nil]; cases b.outcomes.samples.get? g <;> rfl⟩
  | r :: t, b, hv, h1, h2, h3 => by
    obtain ⟨k1, k2, k3, k4, -, k6⟩ := addOutcome_ok b h1 ⟨prov, r.outcome⟩ 1 h2.symm (by omega)
    obtain ⟨b', e1, e2, e3, e4, e5⟩ := results_fold prov t (b.addOutcome ⟨prov, r.outcome⟩ 1).1 (fun r hr => hv r (by simp [hr])) k2
      (k3.trans h2) (k4.trans h3)
    refine ⟨b', ?_, e2, e3, e4, fun g => ?_⟩
    · rw [List.map_cons, List.foldlM_cons]
      have : addResult b r.text = .ok (b.addOutcome ⟨prov, r.outcome⟩ 1).1 := by
        unfold addResult
        rw [h2, h3, buildOutcome_ok prov r (hv r (by simp))]
        simp only
        unfold toPy
        rw [k1]
      rw [this]
      exact e1
    · have e : (r :: t).map (fun r => (r.outcome, (1 : ℤ))) = [(r.outcome, (1 : ℤ))] ++ t.map fun r => (r.outcome, (1 : ℤ)) := rfl
      rw [e5, k6, e, totalOf_append, addCounts_assoc']

theorem keeps_step (prov : ℕ) (b : RGBuilder Str Str Str) (t : Str) (b' : RGBuilder Str Str Str)
    (hb : b.Coherent ∧ b.prov = prov ∧ b.schema = coinSchema) (h : addResult b t = .ok b') :
    IsResult t ∧ b'.Coherent ∧ b'.prov = prov ∧ b'.schema = coinSchema := by
  unfold addResult at h
  rw [hb.2.1, hb.2.2] at h
  by_cases ht : IsResult t
  · obtain ⟨r, hr, rfl⟩ := ht
    rw [buildOutcome_ok prov r hr] at h
    simp only at h
    obtain ⟨k1, k2, k3, k4, -, -⟩ := addOutcome_ok b hb.1 ⟨prov, r.outcome⟩ 1 hb.2.1.symm (by omega)
    unfold toPy at h
    rw [k1] at h
    cases h
    exact ⟨⟨r, hr, rfl⟩, k2, k3.trans hb.2.1, k4.trans hb.2.2⟩
  · obtain ⟨e, he⟩ := buildOutcome_error prov t ht
    rw [he] at h
    cases h

/-- **C61.** `build_relation_net` on any list of results: the network has the outcomes of the results, each counted as often as it was
observed. -/
theorem C61_coin_counts (prov : ℕ) (R : List Result) (hR : ∀ r ∈ R, r.Valid) (hne : R ≠ []) :
    ∃ sp, buildRelationNet prov (R.map Result.text) = .ok sp ∧ sp.schema = coinSchema ∧ sp.outcomes.prov = prov ∧ sp.evidence = none ∧
      ∀ g, sp.outcomes.samples.get? g = if times R g = 0 then none else some (times R g : ℤ) := by
  obtain ⟨b, e1, e2, e3, e4, e5⟩ := results_fold prov R (RGBuilder.fresh coinSchema prov) hR (coherent_fresh _ _) rfl rfl
  have hget : ∀ g, b.outcomes.samples.get? g = if times R g = 0 then none else some (times R g : ℤ) := by
    intro g
    rw [e5, totalOf_times]
    rfl
  unfold buildRelationNet
  rw [init_eq]
  simp only
  rw [e1]
  simp only
  unfold RGBuilder.build
  have hb : b.outcomes.bool = true := by
    obtain ⟨r, t, rfl⟩ := List.exists_cons_of_ne_nil hne
    have h := hget r.outcome
    rw [if_neg (by simp [times])] at h
    unfold Samples.bool
    have := (b.outcomes.samples.mem_entries _ _).2 h
    simp only [decide_eq_true_eq, ne_eq]
    intro h0
    simp_all
  rw [if_pos hb]
  exact ⟨_, rfl, e4, e2.trans e3, rfl, hget⟩

/-- **C61.** `build_relation_net` accepts exactly the non-empty lists of texts of results: one toss, or two tosses of different coins with
one word between them. -/
theorem C61_coin_accepts (prov : ℕ) (T : List Str) : Returns (buildRelationNet prov T) ↔ T ≠ [] ∧ ∀ t ∈ T, IsResult t := by
  constructor
  · rintro ⟨sp, h⟩
    refine ⟨?_, ?_⟩
    · rintro rfl
      unfold buildRelationNet at h
      rw [init_eq] at h
      cases h
    · unfold buildRelationNet at h
      rw [init_eq] at h
      simp only at h
      cases hf : T.foldlM addResult (RGBuilder.fresh coinSchema prov) with
      | error e => rw [hf] at h; cases h
      | ok b =>
        intro t ht
        obtain ⟨c, c', hc, hcc⟩ := (Bayes.foldlM_inv (fun b => b.Coherent ∧ b.prov = prov ∧ b.schema = coinSchema) T _ b
          (fun b x _ b' hb hx => (keeps_step prov b x b' hb hx).2) ⟨coherent_fresh _ _, rfl, rfl⟩ hf).2 t ht
        exact (keeps_step prov c t c' hc hcc).1
  · rintro ⟨hne, h⟩
    obtain ⟨R, hR, rfl⟩ : ∃ R : List Result, (∀ r ∈ R, r.Valid) ∧ R.map Result.text = T := by
      clear hne
      induction T with
      | nil => exact ⟨[], by simp, rfl⟩
      | cons t T ih =>
        obtain ⟨R, hR, rfl⟩ := ih fun t ht => h t (by simp [ht])
        obtain ⟨r, hr, rfl⟩ := h t (by simp)
        exact ⟨r :: R, by simpa using ⟨hr, hR⟩, rfl⟩
    obtain ⟨sp, hsp, -⟩ := C61_coin_counts prov R hR (by rintro rfl; exact hne rfl)
    exact ⟨sp, hsp⟩

/-- **C61.** Two results give the same outcome exactly if the same sides of the same coins came in the same order. -/
theorem C61_coin_outcome_inj (r r' : Result) (h : r.Valid) (h' : r'.Valid) : r.outcome = r'.outcome ↔ r.tosses = r'.tosses := by
  have key : ∀ a b c d : Toss, a.coin ≠ b.coin → c.coin ≠ d.coin → ((({a.node, b.node} : Finset (Node Str Str)) = {c.node, d.node} ∧
      (a.coin.cents < b.coin.cents ↔ c.coin.cents < d.coin.cents)) ↔ a = c ∧ b = d) := by decide +kernel
  cases r with
  | single t => cases r' with
    | single u =>
      have := node_inj t u
      simp [Result.outcome, Result.tosses, this]
    | pair c w d => simp [Result.outcome, Result.tosses]
  | pair a w b => cases r' with
    | single u => simp [Result.outcome, Result.tosses]
    | pair c w' d =>
      have hk := key a b c d h.1 h'.1
      simp only [Result.outcome, Result.tosses, SampleGraph.mk.injEq, List.cons.injEq, and_true, Finset.singleton_inj, Edge.mk.injEq,
        Rel.plain.injEq]
      rw [← hk]
      constructor
      · rintro ⟨h1, -, h2⟩
        refine ⟨h1, ?_⟩
        simp only [true_and] at h2
        split_ifs at h2 with x y <;> simp_all
      · rintro ⟨h1, h2⟩
        exact ⟨h1, h1, by simp [h2]⟩

theorem times_pos (R : List Result) (g : SampleGraph Str Str Str) : times R g ≠ 0 ↔ ∃ r ∈ R, r.outcome = g := by
  unfold times
  rw [← Nat.pos_iff_ne_zero, List.countP_pos_iff]
  simp

/-- The total of the counts is the number of results. -/
theorem net_length (a : Samples Str Str Str) (R : List Result)
    (h : ∀ g, a.samples.get? g = if times R g = 0 then none else some (times R g : ℤ)) : a.length = R.length := by
  rw [length_eq_sum]
  have hitems : a.items = (R.map Result.outcome).toFinset.image fun g => (g, (times R g : ℤ)) := by
    ext ⟨g, c⟩
    rw [Samples.mem_items]
    simp only [h, Finset.mem_image, List.mem_toFinset, Prod.mk.injEq, List.mem_map]
    constructor
    · intro hg
      split_ifs at hg with h0
      cases hg
      exact ⟨g, (times_pos R g).1 h0, rfl, rfl⟩
    · rintro ⟨g', hg', rfl, rfl⟩
      rw [if_neg ((times_pos R g').2 hg')]
  rw [hitems, Finset.sum_image (fun x _ y _ e => (Prod.mk.inj e).1)]
  have e : ∀ g, times R g = (R.map Result.outcome).count g := by
    intro g
    unfold times
    rw [List.count, List.countP_map]
    congr 1
  simp only [e]
  rw [← Nat.cast_sum, List.sum_toFinset_count_eq_length, List.length_map]

/-- **C61.** `describe_relation_net` on the network of the results lists, in every order of the set of outcomes, each observed outcome once
with the number of its observations and its relative frequency. -/
theorem C61_coin_describe (prov : ℕ) (R : List Result) (hR : ∀ r ∈ R, r.Valid) (hne : R ≠ []) (oI : Order (SampleGraph Str Str Str × ℤ)) :
    ∃ sp l, buildRelationNet prov (R.map Result.text) = .ok sp ∧ describe oI sp = .ok l ∧ sp.outcomes.length = R.length ∧
      (l.map Prod.fst).Nodup ∧ ∀ g c q, (g, c, q) ∈ l ↔ (∃ r ∈ R, r.outcome = g) ∧ c = times R g ∧ q = (times R g : ℚ) / R.length := by
  obtain ⟨sp, e1, -, -, -, e5⟩ := C61_coin_counts prov R hR hne
  have hlen := net_length _ R e5
  have hpos : R.length ≠ 0 := by simpa using hne
  refine ⟨sp, (oI.run sp.outcomes.items).map fun p => (p.1, p.2, (p.2 : ℚ) / R.length), e1, ?_, hlen, ?_, ?_⟩
  · unfold describe
    refine mapM_ok _ _ _ ?_
    intro p hp
    have hp := (Samples.mem_items _ _).1 ((oI.mem _ _).1 hp)
    unfold describeItem Samples.countOf
    rw [hp]
    simp only
    rw [hlen, if_neg (by exact_mod_cast hpos)]
    simp
  · rw [List.map_map]
    exact (((sp.outcomes.run_items_perm oI).map Prod.fst).nodup_iff).2 sp.outcomes.samples.nodup
  · intro g c q
    rw [← times_pos]
    simp only [List.mem_map, oI.mem, Prod.mk.injEq]
    constructor
    · rintro ⟨⟨g', c'⟩, hm, rfl, rfl, rfl⟩
      rw [Samples.mem_items, e5] at hm
      split_ifs at hm with h0
      have hm := (Option.some.inj hm).symm
      exact ⟨h0, hm, by rw [hm]; simp⟩
    · rintro ⟨h0, rfl, rfl⟩
      refine ⟨(g, times R g), ?_, rfl, rfl, by simp⟩
      rw [Samples.mem_items, e5, if_neg h0]

/-! ### Conditioning -/

/-- **C61.** `building_net_with_conditional_probability.py` on any results: of the outcomes those are kept, with their counts, where 1¢ and
then 5¢ were tossed and both showed the head, and those where only 25¢ was tossed. -/
theorem C61_coin_conditional (prov : ℕ) (R : List Result) (hR : ∀ r ∈ R, r.Valid) (hne : R ≠ []) (oI : Order (SampleGraph Str Str Str × ℤ)) :
    ∃ sp, conditionalExample oI prov (R.map Result.text) = .ok sp ∧ sp.schema = coinSchema ∧ sp.outcomes.prov = prov ∧ sp.evidence = none ∧
      ∀ g c, sp.outcomes.samples.get? g = some c ↔ ∃ r ∈ R, g = r.outcome ∧ c = times R r.outcome ∧
        (r.tosses = [⟨.one, .head⟩, ⟨.five, .head⟩] ∨ ∃ s, r.tosses = [⟨.quarter, s⟩]) := by
  obtain ⟨sp, e1, e2, e3, e4, e5⟩ := C61_coin_counts prov R hR hne
  have hadd := (addRelation_tosses prov ⟨.one, .head⟩ ⟨.five, .head⟩ ['r', '1'] (by decide)).1 (by decide)
  have hbuild : ((Builder.new prov : Builder Str Str Str).insertEdge ⟨{(⟨.one, .head⟩ : Toss).node, (⟨.five, .head⟩ : Toss).node}, .plain ['r', '1']⟩).build =
      .ok ⟨prov, (Result.pair ⟨.one, .head⟩ [] ⟨.five, .head⟩).outcome⟩ := by
    have hne : (({(⟨.one, .head⟩ : Toss).node, (⟨.five, .head⟩ : Toss).node} : Finset (Node Str Str)) = ∅) ↔ False := by simp
    simp [Builder.build, Builder.insertEdge, Builder.new, Result.outcome, hne, Coin.cents]
  obtain ⟨cs, c1, c2, c3, c4, c5⟩ := (C34_conditional_graph sp oI ⟨prov, (Result.pair ⟨.one, .head⟩ [] ⟨.five, .head⟩).outcome⟩).1 e3.symm
  refine ⟨cs.relationGraph, ?_, c2.trans e2, c4.trans e3, rfl, ?_⟩
  · unfold conditionalExample
    rw [e1]
    show (do
      let b ← toPy ((Builder.new sp.outcomes.prov).addRelation sp.schema {(['V', '1'], ['h', '1']), (['V', '2'], ['h', '2'])} (.plain ['r', '1']))
      let ev ← b.build
      let cs ← sp.conditionalGraph oI ev
      return cs.relationGraph) = _
    rw [e2, e3]
    have : toPy ((Builder.new prov).addRelation coinSchema {(['V', '1'], ['h', '1']), (['V', '2'], ['h', '2'])} (.plain ['r', '1'])) =
        .ok ((Builder.new prov : Builder Str Str Str).insertEdge ⟨{(⟨.one, .head⟩ : Toss).node, (⟨.five, .head⟩ : Toss).node}, .plain ['r', '1']⟩) := by
      have h : (Builder.new prov).addRelation coinSchema {(['V', '1'], ['h', '1']), (['V', '2'], ['h', '2'])} (.plain ['r', '1']) = _ := hadd
      rw [h]; rfl
    rw [this]
    show (do
      let ev ← ((Builder.new prov : Builder Str Str Str).insertEdge ⟨{(⟨.one, .head⟩ : Toss).node, (⟨.five, .head⟩ : Toss).node}, .plain ['r', '1']⟩).build
      let cs ← sp.conditionalGraph oI ev
      return cs.relationGraph) = _
    rw [hbuild]
    show (do
      let cs ← sp.conditionalGraph oI ⟨prov, (Result.pair ⟨.one, .head⟩ [] ⟨.five, .head⟩).outcome⟩
      return cs.relationGraph) = _
    rw [c1]
    rfl
  · intro g c
    show cs.outcomes.samples.get? g = some c ↔ _
    rw [c5, e5]
    have hk : ∀ r : Result, r.Valid → (KeptBy (Result.pair ⟨.one, .head⟩ [] ⟨.five, .head⟩).outcome r.outcome ↔
        (r.tosses = [⟨.one, .head⟩, ⟨.five, .head⟩] ∨ ∃ s, r.tosses = [⟨.quarter, s⟩])) := by
      have hp : ∀ a b : Toss, a.coin ≠ b.coin → ((ContainsGraph (Result.pair ⟨.one, .head⟩ [] ⟨.five, .head⟩).outcome (Result.pair a [] b).outcome ∨
          ∀ n ∈ (Result.pair ⟨.one, .head⟩ [] ⟨.five, .head⟩).outcome.nodes, ∀ m ∈ (Result.pair a [] b).outcome.nodes, n.var ≠ m.var) ↔
          a = ⟨.one, .head⟩ ∧ b = ⟨.five, .head⟩) := by decide +kernel
      have hs : ∀ t : Toss, ((ContainsGraph (Result.pair ⟨.one, .head⟩ [] ⟨.five, .head⟩).outcome (Result.single t).outcome ∨
          ∀ n ∈ (Result.pair ⟨.one, .head⟩ [] ⟨.five, .head⟩).outcome.nodes, ∀ m ∈ (Result.single t).outcome.nodes, n.var ≠ m.var) ↔
          t.coin = .quarter) := by decide +kernel
      intro r hr
      cases r with
      | single t =>
        refine (hs t).trans ?_
        obtain ⟨c, s⟩ := t
        simp [Result.tosses]
      | pair a w b =>
        refine (hp a b hr.1).trans ?_
        simp [Result.tosses]
    constructor
    · rintro ⟨h1, h2⟩
      split_ifs at h1 with h0
      obtain ⟨r, hr, rfl⟩ := (times_pos R g).1 h0
      exact ⟨r, hr, rfl, (Option.some.inj h1).symm, (hk r (hR r hr)).1 h2⟩
    · rintro ⟨r, hr, rfl, rfl, h⟩
      refine ⟨?_, (hk r (hR r hr)).2 h⟩
      rw [if_neg ((times_pos R _).2 ⟨r, hr, rfl⟩)]

/-! ### The joint distribution of the experiment -/

/-- The outcomes of valid results are well formed. -/
theorem outcome_good (r : Result) (hr : r.Valid) : WellFormed r.outcome ∧ r.outcome.nodes.Nonempty ∧ SingleValued r.outcome.nodes := by
  cases r with
  | single t =>
    refine ⟨⟨by simp [Result.outcome], by simp [Result.outcome], by simp [Result.outcome, OnePerPair], ?_⟩, by simp [Result.outcome], ?_⟩
    · intro x hx y hy
      simp only [Result.outcome, Finset.coe_singleton, Set.mem_singleton_iff] at hx hy
      rw [hx, hy]
    · intro x hx y hy _
      simp only [Result.outcome, Finset.mem_singleton] at hx hy
      rw [hx, hy]
  | pair a w b =>
    have hv : a.node.var ≠ b.node.var := fun e => hr.1 ((node_var_inj a b).1 e)
    have h := (Builder.new 0 : Builder Str Str Str).inv_insertEdge (Builder.inv_new 0)
      ⟨{a.node, b.node}, .plain ['r', if a.coin.cents < b.coin.cents then '1' else '2']⟩ ⟨a.node, b.node, hv, rfl⟩ (Or.inr rfl)
      (by simp [Builder.new])
    refine ⟨?_, by simp [Result.outcome], ?_⟩
    · have := h.wf
      simpa [Builder.graph, Builder.insertEdge, Builder.new, Result.outcome] using this
    · intro x hx y hy e
      simp only [Result.outcome, Finset.mem_insert, Finset.mem_singleton] at hx hy
      rcases hx with rfl | rfl <;> rcases hy with rfl | rfl
      · rfl
      · exact absurd e hv
      · exact absurd e.symm hv
      · rfl

/-- Whether two outcomes belong to the same factor, computed. -/
def sameFactorB (g h : SampleGraph Str Str Str) : Bool :=
  (decide (g.edges ≠ ∅) && decide (h.edges ≠ ∅) && decide (g.edgesEndpointVariables = h.edgesEndpointVariables)) ||
  (decide (g.edges = ∅) && decide (h.edges = ∅) && decide (∃ n ∈ g.nodes, ∃ m ∈ h.nodes, n.var = m.var))

theorem sameFactorB_iff (g h : SampleGraph Str Str Str) : sameFactorB g h = true ↔ SameFactor g h := by
  have : g.edgesEndpointVariables = h.edgesEndpointVariables ↔ ∀ P, LinksPair g P ↔ LinksPair h P := by
    rw [Finset.ext_iff]
    simp only [mem_edgesEndpointVariables]
  unfold sameFactorB SameFactor
  simp only [Bool.or_eq_true, Bool.and_eq_true, decide_eq_true_eq, this, and_assoc]

/-- The factors, computed from the items. -/
def factorsOf (E : ItemSet Str Str Str) : Finset (ItemSet Str Str Str) := E.image fun p => E.filter fun q => sameFactorB p.1 q.1 = true

theorem areFactors_of (a : Samples Str Str Str) : AreFactors a (factorsOf a.items) := by
  intro f
  unfold factorsOf
  rw [Finset.mem_image]
  refine exists_congr fun p => and_congr_right fun _ => ?_
  rw [Finset.ext_iff, ]
  simp only [Finset.mem_filter, sameFactorB_iff]
  exact forall_congr' fun q => iff_comm

/-- All unions of one item of each set. -/
def unions : List (ItemSet Str Str Str) → ItemSet Str Str Str
  | [] => {(⟨∅, ∅⟩, 1)}
  | D :: t => D.biUnion fun q => (unions t).image fun r => (⟨q.1.nodes ∪ r.1.nodes, q.1.edges ∪ r.1.edges⟩, q.2 * r.2)

theorem mem_unions {ι : Type} [DecidableEq ι] (D : ι → ItemSet Str Str Str) : ∀ (l : List ι), l.Nodup → ∀ p,
    p ∈ unions (l.map D) ↔ ∃ sel : ι → SampleGraph Str Str Str × ℤ, (∀ i ∈ l.toFinset, sel i ∈ D i) ∧
      p.1.nodes = l.toFinset.biUnion (fun i => (sel i).1.nodes) ∧ p.1.edges = l.toFinset.biUnion (fun i => (sel i).1.edges) ∧
      p.2 = ∏ i ∈ l.toFinset, (sel i).2
  | [], _, p => by
    simp only [List.map_nil, unions, Finset.mem_singleton, List.toFinset_nil, Finset.notMem_empty, false_imp_iff, implies_true, true_and,
      Finset.biUnion_empty, Finset.prod_empty]
    constructor
    · rintro rfl; exact ⟨fun _ => (⟨∅, ∅⟩, 1), rfl, rfl, rfl⟩
    · rintro ⟨-, h1, h2, h3⟩
      obtain ⟨⟨n, e⟩, c⟩ := p
      simp_all
  | i :: l, hn, p => by
    obtain ⟨hi, hl⟩ := List.nodup_cons.1 hn
    have hi' : i ∉ l.toFinset := by simpa using hi
    simp only [List.map_cons, unions, Finset.mem_biUnion, Finset.mem_image, List.toFinset_cons]
    constructor
    · rintro ⟨q, hq, r, hr, rfl⟩
      obtain ⟨sel, s1, s2, s3, s4⟩ := (mem_unions D l hl r).1 hr
      have hne : ∀ j ∈ l.toFinset, Function.update sel i q j = sel j := fun j hj => Function.update_of_ne (by rintro rfl; exact hi' hj) _ _
      refine ⟨Function.update sel i q, ?_, ?_, ?_, ?_⟩
      · intro j hj
        rcases Finset.mem_insert.1 hj with rfl | hj
        · rw [Function.update_self]; exact hq
        · rw [hne j hj]; exact s1 j hj
      · have e : l.toFinset.biUnion (fun j => (Function.update sel i q j).1.nodes) = l.toFinset.biUnion (fun j => (sel j).1.nodes) :=
          Finset.biUnion_congr rfl fun j hj => by rw [hne j hj]
        rw [Finset.biUnion_insert, Function.update_self, e, ← s2]
      · have e : l.toFinset.biUnion (fun j => (Function.update sel i q j).1.edges) = l.toFinset.biUnion (fun j => (sel j).1.edges) :=
          Finset.biUnion_congr rfl fun j hj => by rw [hne j hj]
        rw [Finset.biUnion_insert, Function.update_self, e, ← s3]
      · have e : ∏ j ∈ l.toFinset, (Function.update sel i q j).2 = ∏ j ∈ l.toFinset, (sel j).2 :=
          Finset.prod_congr rfl fun j hj => by rw [hne j hj]
        rw [Finset.prod_insert hi', Function.update_self, e, ← s4]
    · rintro ⟨sel, s1, s2, s3, s4⟩
      refine ⟨sel i, s1 i (by simp), (⟨l.toFinset.biUnion (fun i => (sel i).1.nodes), l.toFinset.biUnion (fun i => (sel i).1.edges)⟩,
        ∏ i ∈ l.toFinset, (sel i).2), (mem_unions D l hl _).2 ⟨sel, fun j hj => s1 j (by simp [hj]), rfl, rfl, rfl⟩, ?_⟩
      rw [Finset.biUnion_insert] at s2 s3
      rw [Finset.prod_insert hi'] at s4
      obtain ⟨⟨n, e⟩, c⟩ := p
      simp only at s2 s3 s4
      rw [s2, s3, s4]

/-- The results of the experiment. -/
def experiment : List Result :=
  let w : Str := ['t', 'h', 'e', 'n']
  [.single ⟨.five, .head⟩, .single ⟨.one, .head⟩, .single ⟨.five, .head⟩, .single ⟨.quarter, .tail⟩, .single ⟨.one, .head⟩,
   .single ⟨.five, .head⟩, .pair ⟨.five, .head⟩ w ⟨.quarter, .head⟩, .pair ⟨.one, .head⟩ w ⟨.five, .head⟩,
   .pair ⟨.quarter, .tail⟩ w ⟨.five, .tail⟩, .pair ⟨.one, .tail⟩ w ⟨.five, .tail⟩]

theorem experiment_text : experimentResults = experiment.map Result.text := by decide +kernel

theorem experiment_valid : ∀ r ∈ experiment, r.Valid := by
  simp only [experiment, List.mem_cons, List.not_mem_nil, or_false, forall_eq_or_imp, forall_eq, Result.Valid]
  decide

/-- The items of the network of the experiment. -/
def expItems : ItemSet Str Str Str := (experiment.map fun r => (r.outcome, (times experiment r.outcome : ℤ))).toFinset

/-- The all-heads and the all-tails outcome: the three nodes, 1¢ linked to 5¢ by r1 and 5¢ to 25¢ by `x`. -/
def allSides (s : Side) (x : Char) : SampleGraph Str Str Str :=
  ⟨{(⟨.one, s⟩ : Toss).node, (⟨.five, s⟩ : Toss).node, (⟨.quarter, s⟩ : Toss).node},
   {⟨{(⟨.one, s⟩ : Toss).node, (⟨.five, s⟩ : Toss).node}, .plain ['r', '1']⟩, ⟨{(⟨.five, s⟩ : Toss).node, (⟨.quarter, s⟩ : Toss).node}, .plain ['r', x]⟩}⟩

/-- `filled` on given items. -/
def fillWith (E : ItemSet Str Str Str) (f : ItemSet Str Str Str) : ItemSet Str Str Str :=
  f ∪ (((E.image Prod.fst).biUnion SampleGraph.nodes).filter fun n => ∀ p ∈ f, p.1.edges = ∅ ∧ n ∉ p.1.nodes ∧
    n.var ∈ p.1.nodes.image Node.var).image fun n => (⟨{n}, ∅⟩, 1)

/-- One item of each factor of the experiment. -/
def expKeys : List (ItemSet Str Str Str) :=
  [Result.single ⟨.one, .head⟩, .single ⟨.five, .head⟩, .single ⟨.quarter, .tail⟩, .pair ⟨.one, .head⟩ [] ⟨.five, .head⟩,
   .pair ⟨.five, .head⟩ [] ⟨.quarter, .head⟩].map fun r => expItems.filter fun q => sameFactorB r.outcome q.1 = true

/-- The variables of the factors. -/
def expVars : List (Finset Str) := [{['V', '1']}, {['V', '2']}, {['V', '3']}, {['V', '1'], ['V', '2']}, {['V', '2'], ['V', '3']}]

theorem exp_factors : factorsOf expItems = expKeys.toFinset ∧ expKeys.Nodup ∧
    (expKeys.toFinset.val.map factorVars = (expVars : Multiset (Finset Str))) := by decide +kernel

theorem exp_joins : (unions (expKeys.map (fillWith expItems))).filter (fun p => ∀ a ∈ p.1.nodes, ∀ b ∈ p.1.nodes, a.var = b.var → a = b) =
    {(allSides .head '1', 6), (allSides .tail '2', 1)} := by decide +kernel

theorem exp_items (a : Samples Str Str Str)
    (h : ∀ g, a.samples.get? g = if times experiment g = 0 then none else some (times experiment g : ℤ)) : a.items = expItems := by
  ext ⟨g, c⟩
  rw [Samples.mem_items, h]
  simp only [expItems, List.mem_toFinset, List.mem_map, Prod.mk.injEq]
  constructor
  · intro hg
    split_ifs at hg with h0
    obtain ⟨r, hr, rfl⟩ := (times_pos _ g).1 h0
    exact ⟨r, hr, rfl, Option.some.inj hg⟩
  · rintro ⟨r, hr, rfl, rfl⟩
    rw [if_neg ((times_pos _ _).2 ⟨r, hr, rfl⟩)]

theorem exp_good (a : Samples Str Str Str) (h : a.items = expItems) : AllGood a := by
  rintro g ⟨c, hc⟩
  have : (g, c) ∈ expItems := by rw [← h, Samples.mem_items]; exact hc
  simp only [expItems, List.mem_toFinset, List.mem_map, Prod.mk.injEq] at this
  obtain ⟨r, hr, rfl, -⟩ := this
  exact outcome_good r (experiment_valid r hr)

theorem exp_factorizable (a : Samples Str Str Str) (h : a.items = expItems) : Factorizable a := by
  have hocc : ∀ g, a.Occurs g → ∃ p ∈ expItems, p.1 = g := by
    rintro g ⟨c, hc⟩
    exact ⟨(g, c), by rw [← h, Samples.mem_items]; exact hc, rfl⟩
  refine ⟨fun g hg => Or.inl ((exp_good a h g hg).2.1.ne_empty), ?_⟩
  have hd : ∀ p ∈ expItems, ∀ q ∈ expItems, (∃ P ∈ p.1.edgesEndpointVariables, P ∈ q.1.edgesEndpointVariables) →
      p.1.edgesEndpointVariables = q.1.edgesEndpointVariables := by decide +kernel
  intro g k hg hk ⟨P, h1, h2⟩ Q
  obtain ⟨p, hp, rfl⟩ := hocc g hg
  obtain ⟨q, hq, rfl⟩ := hocc k hk
  have := hd p hp q hq ⟨P, (mem_edgesEndpointVariables _ _).2 h1, (mem_edgesEndpointVariables _ _).2 h2⟩
  rw [← mem_edgesEndpointVariables, ← mem_edgesEndpointVariables, this]

theorem exp_valued (a : Samples Str Str Str) (h : a.items = expItems) : ValuedFactors a := by
  have hocc : ∀ g, a.Occurs g → ∃ p ∈ expItems, p.1 = g := by
    rintro g ⟨c, hc⟩
    exact ⟨(g, c), by rw [← h, Samples.mem_items]; exact hc, rfl⟩
  have hd : ∀ p ∈ expItems, p.1.edges ≠ ∅ → ∀ n ∈ p.1.nodes, ∀ q ∈ expItems, ∀ m ∈ q.1.nodes, m.var = n.var →
      ∃ k ∈ expItems, sameFactorB p.1 k.1 = true ∧ m ∈ k.1.nodes := by decide +kernel
  intro g hg he v ⟨n, hn, hnv⟩ k x hk hx
  obtain ⟨p, hp, rfl⟩ := hocc g hg
  obtain ⟨q, hq, rfl⟩ := hocc k hk
  obtain ⟨u, hu, u1, u2⟩ := hd p hp he n hn q hq ⟨v, x⟩ hx hnv.symm
  exact ⟨u.1, ⟨u.2, by rw [← Samples.mem_items, h]; exact hu⟩, (sameFactorB_iff _ _).1 u1, u2⟩

theorem exp_tree : TreeShape expVars := by
  refine .add _ _ ?_ (by decide)
  refine .add _ _ ?_ (by decide)
  refine .add _ _ ?_ (by decide)
  refine .add _ _ ?_ (by decide)
  exact .one _ (by simp)

theorem filled_exp (a : Samples Str Str Str) (h : a.items = expItems) (f : ItemSet Str Str Str) : filled a f = fillWith expItems f := by
  have : a.graphs = expItems.image Prod.fst := by
    ext g
    rw [Samples.mem_graphs, Finset.mem_image, ← h]
    constructor
    · rintro ⟨c, hc⟩; exact ⟨(g, c), (Samples.mem_items _ _).2 hc, rfl⟩
    · rintro ⟨p, hp, rfl⟩; exact ⟨p.2, (Samples.mem_items _ _).1 hp⟩
  unfold filled fillWith
  rw [this]

/-- **C61.** `building_net_with_joint_probability.py`: whatever the iteration orders, the joint network of the experiment has exactly two
outcomes: all heads with count 6 and all tails with count 1. The counts multiply the ones observed, with 1 for a side of a coin that was
never observed alone. -/
theorem C61_coin_joint (o : Orders Str Str Str) (prov : ℕ) :
    ∃ sp, jointExample o prov experimentResults = .ok sp ∧ sp.schema = coinSchema ∧ sp.evidence = none ∧
      ∀ g c, sp.outcomes.samples.get? g = some c ↔ (g, c) = (allSides .head '1', 6) ∨ (g, c) = (allSides .tail '2', 1) := by
  obtain ⟨sp, e1, e2, e3, -, e5⟩ := C61_coin_counts prov experiment experiment_valid (by simp [experiment])
  have hi := exp_items _ e5
  have hF := areFactors_of sp.outcomes
  rw [hi, exp_factors.1] at hF
  obtain ⟨out, t1, -, -, t4⟩ := C61_tree o sp (exp_good _ hi) (exp_factorizable _ hi) (exp_valued _ hi) _ hF expVars exp_factors.2.2.symm exp_tree
  refine ⟨⟨sp.schema, out, none⟩, ?_, e2, rfl, fun g c => (t4 g c).trans ?_⟩
  · unfold jointExample
    rw [experiment_text, e1]
    exact t1
  · have hu := mem_unions (fillWith expItems) expKeys exp_factors.2.1 (g, c)
    have hj := congrArg ((g, c) ∈ ·) exp_joins
    simp only [Finset.mem_filter, Finset.mem_insert, Finset.mem_singleton, eq_iff_iff] at hj
    rw [← hj, hu]
    unfold IsJoin
    simp only [filled_exp _ hi]
    constructor
    · rintro ⟨sel, s1, s2, s3, s4, s5⟩; exact ⟨⟨sel, s1, s3, s4, s5⟩, s2⟩
    · rintro ⟨⟨sel, s1, s3, s4, s5⟩, s2⟩; exact ⟨sel, s1, s2, s3, s4, s5⟩

/-- Non-vacuity of `C61_tree` and `C61_order`: the network of the experiment is a tree of valued factors that are not complete. -/
example : ∃ (sp : Space Str Str Str) (F : Finset (ItemSet Str Str Str)) (L : List (Finset Str)), AllGood sp.outcomes ∧ Factorizable sp.outcomes ∧
    ValuedFactors sp.outcomes ∧ ¬ CompleteFactors sp.outcomes ∧ AreFactors sp.outcomes F ∧
    (L : Multiset (Finset Str)) = F.val.map factorVars ∧ TreeShape L := by
  obtain ⟨sp, -, -, -, -, e5⟩ := C61_coin_counts 0 experiment experiment_valid (by simp [experiment])
  have hi := exp_items _ e5
  have hF := areFactors_of sp.outcomes
  rw [hi, exp_factors.1] at hF
  refine ⟨sp, _, _, exp_good _ hi, exp_factorizable _ hi, exp_valued _ hi, ?_, hF, exp_factors.2.2.symm, exp_tree⟩
  intro hc
  have hocc : ∀ p ∈ expItems, sp.outcomes.Occurs p.1 := fun p hp => ⟨p.2, by rw [← Samples.mem_items, hi]; exact hp⟩
  have h1 : ((Result.single ⟨.one, .head⟩).outcome, (2 : ℤ)) ∈ expItems := by decide +kernel
  have h2 : ((Result.pair ⟨.one, .tail⟩ [] ⟨.five, .tail⟩).outcome, (1 : ℤ)) ∈ expItems := by decide +kernel
  obtain ⟨k, ⟨c, hk⟩, k2, k3⟩ := hc _ (hocc _ h1) (fun _ => ['t', '1']) (by
    rintro v ⟨n, hn, rfl⟩
    simp only [Result.outcome, Finset.mem_singleton] at hn
    subst hn
    refine ⟨_, hocc _ h2, ?_⟩
    decide +kernel)
  have hk' : (k, c) ∈ expItems := by rw [← hi, Samples.mem_items]; exact hk
  have hno : ∀ p ∈ expItems, sameFactorB (Result.single ⟨.one, .head⟩).outcome p.1 = true → ∃ n ∈ p.1.nodes, n.val ≠ ['t', '1'] := by decide +kernel
  obtain ⟨n, hn, hv⟩ := hno _ hk' ((sameFactorB_iff _ _).2 k2)
  exact hv (k3 n hn)

/-- Non-vacuity of `C61_coin_counts`, `C61_coin_describe` and `C61_coin_conditional`, and a result that is refused. -/
example : (∀ r ∈ experiment, r.Valid) ∧ experiment ≠ [] ∧ times experiment (Result.single ⟨.five, .head⟩).outcome = 3 ∧
    ¬ (Result.pair ⟨.one, .head⟩ [] ⟨.one, .tail⟩).Valid := by
  refine ⟨experiment_valid, by simp [experiment], by decide +kernel, by simp [Result.Valid]⟩

end Verif.Coins
