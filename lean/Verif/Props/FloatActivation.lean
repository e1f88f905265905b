import Verif.Props.FloatProb

/-!
# C64: rounding of floats in `activation_graph` (conditional_graph.py 59-113)
-/

set_option linter.unusedSectionVars false
set_option exponentiation.threshold 1100

namespace Verif

/-! ### Lists of addends -/

theorem one_sub_pow_le (k : ℕ) : 1 - (1 - uro) ^ k ≤ (1 + uro) ^ k - 1 := by
  have h1 := pow_lower (n := k)
  have h2 := one_add_mul_le_pow (a := uro) (by have := uro_pos; linarith) k
  linarith

theorem le_foldl {l : List ℚ} (h0 : ∀ x ∈ l, 0 ≤ x) : ∀ {s : ℚ}, IsFloat s → s ≤ l.foldl (fun s x => fl (s + x)) s := by
  induction l with
  | nil => intro s _; exact le_rfl
  | cons x t ih =>
    intro s hs
    rw [List.foldl_cons]
    exact (le_fl hs (by have := h0 x (by simp); linarith)).trans (ih (fun y hy => h0 y (by simp [hy])) (fl_isFloat _))

theorem mem_le_foldl {l : List ℚ} (h0 : ∀ x ∈ l, 0 ≤ x) (hf : ∀ x ∈ l, IsFloat x) : ∀ {s : ℚ}, 0 ≤ s → IsFloat s → ∀ x ∈ l, x ≤ l.foldl (fun s x => fl (s + x)) s := by
  induction l with
  | nil => intro s _ _ x hx; simp at hx
  | cons y t ih =>
    intro s hs0 hs x hx
    rw [List.foldl_cons]
    have h0' : ∀ z ∈ t, 0 ≤ z := fun z hz => h0 z (by simp [hz])
    rcases List.mem_cons.mp hx with rfl | hx
    · exact (le_fl (hf x (by simp)) (by linarith)).trans (le_foldl h0' (fl_isFloat _))
    · exact ih h0' (fun z hz => hf z (by simp [hz])) (fl_nonneg (by have := h0 y (by simp); linarith)) (fl_isFloat _) x hx

/-- Sums of floats below integers stay below the sum of the integers. -/
theorem foldl_le_int {P : Type} (l : List P) (x : P → ℚ) (c : P → ℤ) (h : ∀ p ∈ l, x p ≤ c p) (hc : ∀ p ∈ l, 0 ≤ c p) : ∀ (s : ℚ) (k : ℤ), s ≤ k → 0 ≤ k →
    k + (l.map c).sum ≤ 2 ^ 53 → (l.map x).foldl (fun s x => fl (s + x)) s ≤ ((k + (l.map c).sum : ℤ) : ℚ) := by
  induction l with
  | nil => intro s k hs _ _; simpa using hs
  | cons p t ih =>
    intro s k hs hk hb
    rw [List.map_cons, List.sum_cons] at hb
    rw [List.map_cons, List.foldl_cons, List.map_cons (f := c), List.sum_cons]
    have hcp := hc p (by simp)
    have hct : 0 ≤ (t.map c).sum := List.sum_nonneg (by
      intro y hy
      obtain ⟨q, hq, rfl⟩ := List.mem_map.mp hy
      exact hc q (by simp [hq]))
    have := ih (fun q hq => h q (by simp [hq])) (fun q hq => hc q (by simp [hq])) (fl (s + x p)) (k + c p) (by
      apply fl_le (isFloat_int (by rw [abs_of_nonneg (by omega)]; omega))
      have := h p (by simp)
      push_cast
      linarith) (by omega) (by omega)
    rwa [add_assoc] at this

/-- Sums of integers are exact. -/
theorem foldl_int {P : Type} (l : List P) (c : P → ℤ) (hc : ∀ p ∈ l, 0 ≤ c p) : ∀ (k : ℤ), 0 ≤ k →
    k + (l.map c).sum ≤ 2 ^ 53 → (l.map fun p => (c p : ℚ)).foldl (fun s x => fl (s + x)) (k : ℚ) = ((k + (l.map c).sum : ℤ) : ℚ) := by
  induction l with
  | nil => intro k _ _; simp
  | cons p t ih =>
    intro k hk hb
    rw [List.map_cons, List.sum_cons] at hb
    rw [List.map_cons, List.foldl_cons, List.map_cons (f := c), List.sum_cons]
    have hcp := hc p (by simp)
    have hct : 0 ≤ (t.map c).sum := List.sum_nonneg (by
      intro y hy
      obtain ⟨q, hq, rfl⟩ := List.mem_map.mp hy
      exact hc q (by simp [hq]))
    have e : fl ((k : ℚ) + (c p : ℚ)) = ((k + c p : ℤ) : ℚ) := by
      have := fl_int (k := k + c p) (by omega) (by omega)
      rwa [Int.cast_add] at this ⊢
    rw [e, ih (fun q hq => hc q (by simp [hq])) (k + c p) (by omega) (by omega), add_assoc]

/-- A value `w` computed for `e ≥ 0` with `k` roundings. -/
def Near (k : ℕ) (w e : ℚ) : Prop := (1 - uro) ^ k * e ≤ w ∧ w ≤ (1 + uro) ^ k * e

theorem Near.fl {k : ℕ} {w e : ℚ} (h : Near k w e) (he : 0 ≤ e) (hr : Roundable w) : Near (k + 1) (fl w) e := by
  have h1 := abs_le.mp hr.rel
  have hu := uro_pos
  have hu1 := uro_lt_one
  have h2 : 0 ≤ (1 - uro) ^ k := pow_nonneg (by linarith) _
  have h3 : 0 ≤ (1 + uro) ^ k := pow_nonneg (by linarith) _
  have hw := hr.nonneg
  unfold Near
  rw [pow_succ, pow_succ]
  constructor
  · have : (1 - uro) * ((1 - uro) ^ k * e) ≤ (1 - uro) * w := mul_le_mul_of_nonneg_left h.1 (by linarith)
    linarith [h1.1]
  · have : (1 + uro) * w ≤ (1 + uro) * ((1 + uro) ^ k * e) := mul_le_mul_of_nonneg_left h.2 (by linarith)
    linarith [h1.2]

theorem Near.mono {k j : ℕ} {w e : ℚ} (h : Near k w e) (he : 0 ≤ e) (hkj : k ≤ j) : Near j w e := by
  have hu := uro_pos
  have hu1 := uro_lt_one
  refine ⟨le_trans (mul_le_mul_of_nonneg_right ?_ he) h.1, h.2.trans (mul_le_mul_of_nonneg_right ?_ he)⟩
  · exact pow_le_pow_of_le_one (by linarith) (by linarith) hkj
  · exact pow_le_pow_right₀ (by linarith) hkj

theorem Near.mul {k : ℕ} {w e c : ℚ} (h : Near k w e) (hc : 0 ≤ c) : Near k (w * c) (e * c) := by
  unfold Near
  rw [← mul_assoc, ← mul_assoc]
  exact ⟨mul_le_mul_of_nonneg_right h.1 hc, mul_le_mul_of_nonneg_right h.2 hc⟩

theorem Near.abs {k : ℕ} {w e : ℚ} (h : Near k w e) (he : 0 ≤ e) : |w - e| ≤ ((1 + uro) ^ k - 1) * e := by
  have := mul_le_mul_of_nonneg_right (one_sub_pow_le k) he
  rw [abs_le]
  constructor <;> linarith [h.1, h.2]

theorem near_refl (e : ℚ) : Near 0 e e := by simp [Near]

theorem Near.sum {P : Type} {k : ℕ} (l : List P) (x y : P → ℚ) (h : ∀ p ∈ l, Near k (x p) (y p)) : Near k (l.map x).sum (l.map y).sum := by
  induction l with
  | nil => simp [Near]
  | cons p t ih =>
    have h1 := h p (by simp)
    have h2 := ih fun q hq => h q (by simp [hq])
    simp only [List.map_cons, List.sum_cons]
    unfold Near at *
    constructor <;> nlinarith [h1.1, h1.2, h2.1, h2.2]

theorem Near.trans {k j : ℕ} {w v e : ℚ} (h : Near k w v) (h' : Near j v e) : Near (k + j) w e := by
  have hu := uro_pos
  have hu1 := uro_lt_one
  unfold Near
  rw [pow_add, pow_add, mul_assoc, mul_assoc]
  exact ⟨(mul_le_mul_of_nonneg_left h'.1 (pow_nonneg (by linarith) _)).trans h.1, h.2.trans (mul_le_mul_of_nonneg_left h'.2 (pow_nonneg (by linarith) _))⟩

theorem near_foldl {P : Type} {k : ℕ} (l : List P) (x y : P → ℚ) (h : ∀ p ∈ l, Near k (x p) (y p)) (h0 : ∀ p ∈ l, 0 ≤ x p) (hf : ∀ p ∈ l, IsFloat (x p)) :
    Near (l.length + k) ((l.map x).foldl (fun s x => Verif.fl (s + x)) 0) (l.map y).sum := by
  refine Near.trans ?_ (Near.sum l x y h)
  have := foldl_bounds (l.map x) (by simpa using h0) (by simpa using hf) 0 le_rfl isFloat_zero
  rw [zero_add, List.length_map] at this
  exact this

section
variable {V X R : Type} [DecidableEq V] [DecidableEq X] [DecidableEq R]

/-! ### The loop over the nodes -/

/-- The weights collected for one node. -/
def weightOfFl (L : List (Node V X × ℚ × Bool)) (n : Node V X) : ℚ := ((L.filter fun t => t.1 = n).map fun t => t.2.1).foldl (fun s x => fl (s + x)) 0

/-- What `grouped_values` contains after the contributions `L`. -/
structure NodeInvFl (vars : Dict V (Finset X)) (inq : V → Bool) (L : List (Node V X × ℚ × Bool))
    (gv : Dict V (Dict X ℚ × Bool)) : Prop where
  keys : gv.keys = vars.keys
  get : ∀ v xs, vars.get? v = some xs → ∃ m, gv.get? v = some (m, inq v) ∧
    ∀ x q, m.get? x = some q ↔ x ∈ xs ∧ q = weightOfFl L ⟨v, x⟩

theorem activationNodeFl_loop (vars : Dict V (Finset X)) (inq : V → Bool) (gv0 : Dict V (Dict X ℚ × Bool))
    (h0 : NodeInvFl vars inq [] gv0) (L : List (Node V X × ℚ × Bool))
    (hL : ∀ t ∈ L, (∃ xs, vars.get? t.1.var = some xs ∧ t.1.val ∈ xs) ∧ t.2.2 = inq t.1.var) :
    ∃ gv, L.foldlM Space.activationNodeFl gv0 = .ok gv ∧ NodeInvFl vars inq L gv := by
  induction L using List.reverseRecOn with
  | nil => exact ⟨gv0, rfl, h0⟩
  | append_singleton L t ih =>
    obtain ⟨gv, hgv, inv⟩ := ih (fun s hs => hL s (by simp [hs]))
    obtain ⟨⟨xs, hxs, hx⟩, hq⟩ := hL t (by simp)
    obtain ⟨⟨v, x⟩, w, b⟩ := t
    simp only at hxs hx hq
    obtain ⟨m, hm, hmx⟩ := inv.get v xs hxs
    have hw := (hmx x _).2 ⟨hx, rfl⟩
    have hv : v ∈ gv.keys := (Dict.mem_keys _ _).2 ⟨_, hm⟩
    have hne : ∀ n : Node V X, (⟨v, x⟩ : Node V X) ≠ n → weightOfFl (L ++ [(⟨v, x⟩, w, b)]) n = weightOfFl L n := by
      intro n hn
      simp [weightOfFl, List.filter_append, hn]
    have heq : weightOfFl (L ++ [(⟨v, x⟩, w, b)]) ⟨v, x⟩ = fl (weightOfFl L ⟨v, x⟩ + w) := by
      simp [weightOfFl, List.filter_append]
    refine ⟨gv.set v (m.set x (fl (weightOfFl L ⟨v, x⟩ + w)), inq v), ?_, ?_⟩
    · rw [List.foldlM_append, hgv]
      simp only [List.foldlM_cons, List.foldlM_nil, bind_pure]
      show Space.activationNodeFl gv (⟨v, x⟩, w, b) = _
      unfold Space.activationNodeFl
      simp only [hm, hq, ne_eq, not_true_eq_false, if_false, hw]
    · refine ⟨?_, ?_⟩
      · rw [Dict.keys_set_mem _ _ _ hv, inv.keys]
      · intro v' xs' hxs'
        rw [Dict.get?_set]
        by_cases hvv : v = v'
        · subst hvv
          rw [hxs] at hxs'
          cases hxs'
          rw [if_pos rfl]
          refine ⟨_, rfl, ?_⟩
          intro y q
          rw [Dict.get?_set]
          by_cases hxy : x = y
          · subst hxy
            rw [if_pos rfl, heq]
            simp only [Option.some.injEq, hx, true_and]
            exact eq_comm
          · rw [if_neg hxy, hmx, hne _ (by simp [hxy])]
        · rw [if_neg hvv]
          obtain ⟨m', hm', hmx'⟩ := inv.get v' xs' hxs'
          refine ⟨m', hm', ?_⟩
          intro y q
          rw [hmx', hne _ (by simp [hvv])]

theorem activationInitFl_inv (sp : Space V X R) (oX : Order X) (ev : SampleGraph V X R) :
    NodeInvFl sp.schema.vars (fun v => decide (v ∈ ev.includedVariables)) [] (sp.activationInit oX ev) :=
  let h := activationInit_inv sp oX ev
  ⟨h.keys, h.get⟩

/-- What one outcome contributes to the nodes. -/
def nodeContribFl (oN : Order (Node V X)) (oE : Order (Edge V X R)) (f : Option (Finset (Rel V R))) (ev : SampleGraph V X R)
    (p : SampleGraph V X R × ℤ) : List (Node V X × ℚ × Bool) :=
  match p.1.similarity ev, p.1.externalNodes oN oE ev.nodes f with
  | .ok sim, .ok ext => (ext.keys.map fun n => (n, fl (fl sim * fl (p.2 : ℚ)), false)) ++
      (oN.run (ev.nodes ∩ p.1.nodes)).map fun n => (n, fl (1 * fl (p.2 : ℚ)), true)
  | _, _ => []

/-- The contribution of an outcome to a node of the evidence or to another one. -/
def addend (ev : SampleGraph V X R) (n : Node V X) (p : SampleGraph V X R × ℤ) : ℚ :=
  if n ∈ ev.nodes then fl (1 * fl (p.2 : ℚ)) else fl (fl ((graphSize ev : ℚ) / (graphSize p.1 : ℚ)) * fl (p.2 : ℚ))

/-- The same without rounding. -/
def exactAddend (ev : SampleGraph V X R) (n : Node V X) (p : SampleGraph V X R × ℤ) : ℚ :=
  if n ∈ ev.nodes then (p.2 : ℚ) else (graphSize ev : ℚ) / (graphSize p.1 : ℚ) * (p.2 : ℚ)

/-- The outcome contributes to the node. -/
def ContributesTo (f : Option (Finset (Rel V R))) (ev : SampleGraph V X R) (n : Node V X) (g : SampleGraph V X R) : Prop :=
  if n ∈ ev.nodes then ContainsGraph ev g else ReachedFrom f ev g n

theorem filter_map_nodup {A B : Type} [DecidableEq A] (l : List A) (hl : l.Nodup) (b : B) (n : A) (c : Bool) :
    (((l.map fun m => (m, b, c)).filter fun t => t.1 = n).map fun t => t.2.1) = if n ∈ l then [b] else [] := by
  induction l with
  | nil => simp
  | cons m t ih =>
    rw [List.nodup_cons] at hl
    rw [List.map_cons, List.filter_cons]
    by_cases h : m = n
    · subst h
      simp only [decide_true, if_true, List.map_cons, ih hl.2, if_neg hl.1, List.mem_cons, true_or]
    · simp only [h, decide_false, Bool.false_eq_true, if_false, ih hl.2, List.mem_cons, Ne.symm h, false_or]

section contrib
variable {cs : Space V X R} {ev : SampleGraph V X R} (h : ConditionedOn cs ev) (oN : Order (Node V X)) (oE : Order (Edge V X R))
  (oQ : Order (Edge V X R × Bool)) (f : Option (Finset (Rel V R))) (p : SampleGraph V X R × ℤ) (hp : cs.outcomes.Occurs p.1)
include h hp

theorem activationStepFl_ok (s s' : Dict V (Dict X ℚ × Bool)) (t t' : Dict (Finset V) (Dict (Rel V R) ℤ × Bool))
    (h1 : (nodeContribFl oN oE f ev p).foldlM Space.activationNodeFl s = .ok s')
    (h2 : (edgeContrib oN oE oQ f ev p).foldlM Space.activationEdge t = .ok t') :
    Space.activationStepFl oN oE oQ f ev (s, t) p = .ok (s', t') := by
  obtain ⟨sim, hsim, -⟩ := similarity_selected h p.1 hp
  obtain ⟨ext, hext, hk, -⟩ := external_spec oN oE f ev p.1 (h.sound p.1 hp).2 h.evNonempty
  unfold nodeContribFl at h1
  unfold edgeContrib at h2
  unfold Space.activationStepFl
  rw [hsim, hext] at h1
  rw [hext] at h2
  simp only at h1 h2
  rw [similarityFl_eq, hsim, hext]
  simp only [Except.map]
  rw [if_neg, if_neg, h1]
  · simp only; rw [h2]
  · rw [not_not, Finset.disjoint_left]
    intro q hq hq'
    rw [Finset.mem_image] at hq hq'
    obtain ⟨_, _, rfl⟩ := hq
    obtain ⟨_, _, h'⟩ := hq'
    cases h'
  · rw [not_not, Finset.disjoint_left]
    intro n hn hn'
    rw [List.mem_toFinset, hk] at hn
    exact hn.1 (Finset.mem_inter.1 hn').1

theorem mem_nodeContribFl (t : Node V X × ℚ × Bool) (ht : t ∈ nodeContribFl oN oE f ev p) :
    t.1 ∈ p.1.nodes ∧ t.2.2 = decide (t.1.var ∈ ev.includedVariables) := by
  obtain ⟨sim, hsim, -⟩ := similarity_selected h p.1 hp
  obtain ⟨ext, hext, hk, -⟩ := external_spec oN oE f ev p.1 (h.sound p.1 hp).2 h.evNonempty
  unfold nodeContribFl at ht
  rw [hsim, hext] at ht
  simp only [List.mem_append, List.mem_map] at ht
  rcases ht with ⟨n, hn, rfl⟩ | ⟨n, hn, rfl⟩
  · obtain ⟨_, h2, h3⟩ := reached_facts h f p.1 hp n ((hk n).1 hn)
    refine ⟨h2, ?_⟩
    simp only
    rw [eq_comm, decide_eq_false_iff_not]
    intro hv
    obtain ⟨m, hm, hv⟩ := Finset.mem_image.1 hv
    exact h3 m hm hv
  · rw [oN.mem, Finset.mem_inter] at hn
    refine ⟨hn.2, ?_⟩
    simp only
    rw [eq_comm, decide_eq_true_eq]
    exact Finset.mem_image_of_mem _ hn.1

open Classical in
theorem at_nodeContribFl (n : Node V X) : (((nodeContribFl oN oE f ev p).filter fun t => t.1 = n).map fun t => t.2.1) =
    if ContributesTo f ev n p.1 then [addend ev n p] else [] := by
  obtain ⟨sim, hsim, hs⟩ := similarity_selected h p.1 hp
  obtain ⟨ext, hext, hk, -⟩ := external_spec oN oE f ev p.1 (h.sound p.1 hp).2 h.evNonempty
  unfold nodeContribFl ContributesTo addend
  rw [hsim, hext]
  simp only
  rw [List.filter_append, List.map_append, filter_map_nodup _ ext.nodup_keys, filter_map_nodup _ (oN.nodup _)]
  simp only [hk, oN.mem, Finset.mem_inter]
  by_cases hn : n ∈ ev.nodes
  · have h1 : ¬ ReachedFrom f ev p.1 n := fun hr => hr.1 hn
    have h2 : n ∈ p.1.nodes ↔ ContainsGraph ev p.1 :=
      ⟨fun hm => reach_contains h p.1 hp n hn hm, fun hc => hc.1 hn⟩
    simp only [hn, h1, h2, if_true, if_false, true_and, List.nil_append]
  · simp only [hn, if_false, false_and, List.append_nil]
    by_cases hr : ReachedFrom f ev p.1 n
    · rw [if_pos hr, if_pos hr, hs (reached_facts h f p.1 hp n hr).1]
    · rw [if_neg hr, if_neg hr]

end contrib

theorem foldlM_pair_snd {σ τ P B : Type} (f : σ × τ → P → Py (σ × τ)) (fb : τ → B → Py τ) (lb : P → List B) (l : List P)
    (h : ∀ p ∈ l, ∀ s t s' t', f (s, t) p = .ok (s', t') → (lb p).foldlM fb t = .ok t')
    (s : σ) (t : τ) (s' : σ) (t' : τ) (hs : l.foldlM f (s, t) = .ok (s', t')) : (l.flatMap lb).foldlM fb t = .ok t' := by
  induction l generalizing s t with
  | nil => simp only [List.foldlM_nil] at hs; cases hs; rfl
  | cons p r ih =>
    rw [List.foldlM_cons] at hs
    cases h1 : f (s, t) p with
    | error e => rw [h1] at hs; cases hs
    | ok st =>
      obtain ⟨s1, t1⟩ := st
      rw [h1] at hs
      rw [List.flatMap_cons, List.foldlM_append, h p (by simp) s t s1 t1 h1]
      exact ih (fun q hq => h q (by simp [hq])) s1 t1 hs

theorem activationStep_edges (oN : Order (Node V X)) (oE : Order (Edge V X R))
    (oQ : Order (Edge V X R × Bool)) (f : Option (Finset (Rel V R))) (ev : SampleGraph V X R) (p : SampleGraph V X R × ℤ)
    (s s' : Dict V (Dict X ℚ × Bool)) (t t' : Dict (Finset V) (Dict (Rel V R) ℤ × Bool))
    (h : Space.activationStep oN oE oQ f ev (s, t) p = .ok (s', t')) : (edgeContrib oN oE oQ f ev p).foldlM Space.activationEdge t = .ok t' := by
  unfold Space.activationStep at h
  unfold edgeContrib
  cases h1 : p.1.similarity ev with
  | error e => rw [h1] at h; cases h
  | ok sim =>
    rw [h1] at h
    simp only at h
    cases h2 : p.1.externalNodes oN oE ev.nodes f with
    | error e => rw [h2] at h; cases h
    | ok ext =>
      rw [h2] at h
      simp only at h ⊢
      split at h
      · cases h
      split at h
      · cases h
      split at h
      · cases h
      split at h
      · cases h
      · rename_i gr hgr
        cases h
        exact hgr

theorem flatMap_ite {A B : Type} (l : List A) (c : A → Prop) [DecidablePred c] (x : A → B) : (l.flatMap fun a => if c a then [x a] else []) = (l.filter fun a => c a).map x := by
  induction l with
  | nil => rfl
  | cons a t ih =>
    rw [List.flatMap_cons, ih, List.filter_cons]
    by_cases h : c a <;> simp [h]

theorem flatMap_congr' {A B : Type} (l : List A) (f g : A → List B) (h : ∀ a ∈ l, f a = g a) : l.flatMap f = l.flatMap g := by
  induction l with
  | nil => rfl
  | cons a t ih => rw [List.flatMap_cons, List.flatMap_cons, h a (by simp), ih fun b hb => h b (by simp [hb])]

open Classical in
theorem weightFl_eq (oI : Order (SampleGraph V X R × ℤ)) (oN : Order (Node V X)) (oE : Order (Edge V X R))
    (f : Option (Finset (Rel V R))) (cs : Space V X R) (ev : SampleGraph V X R) (h : ConditionedOn cs ev) (n : Node V X) :
    weightOfFl ((oI.run cs.outcomes.items).flatMap (nodeContribFl oN oE f ev)) n =
      (((oI.run cs.outcomes.items).filter fun p => ContributesTo f ev n p.1).map (addend ev n)).foldl (fun s x => fl (s + x)) 0 := by
  unfold weightOfFl
  rw [List.filter_flatMap, List.map_flatMap, flatMap_congr' _ _ (fun p => if ContributesTo f ev n p.1 then [addend ev n p] else []), flatMap_ite]
  intro p hp
  exact at_nodeContribFl h oN oE f p (run_occurs oI cs.outcomes p hp) n

open Classical in
theorem exact_weight (oI : Order (SampleGraph V X R × ℤ)) 
    (f : Option (Finset (Rel V R))) (cs : Space V X R) (ev : SampleGraph V X R) (n : Node V X) :
    (((oI.run cs.outcomes.items).filter fun p => ContributesTo f ev n p.1).map (exactAddend ev n)).sum / (cs.outcomes.length : ℚ) =
      activationWeight cs.outcomes f ev n := by
  have h1 : (((oI.run cs.outcomes.items).filter fun p => ContributesTo f ev n p.1).map (exactAddend ev n)).sum =
      ∑ p ∈ cs.outcomes.items with ContributesTo f ev n p.1, exactAddend ev n p := by
    rw [Finset.sum_filter, ← oI.sum_map]
    generalize oI.run cs.outcomes.items = l
    induction l with
    | nil => rfl
    | cons a t ih =>
      rw [List.filter_cons, List.map_cons, List.sum_cons, ← ih]
      by_cases hc : ContributesTo f ev n a.1 <;> simp [hc]
  rw [h1]
  unfold activationWeight massOf mass ContributesTo exactAddend
  by_cases hn : n ∈ ev.nodes
  · simp only [if_pos hn]
    rw [Int.cast_sum]
    congr!
  · simp only [if_neg hn]

/-- The nodes of an activation graph computed with floats: one per declared variable, marked if the variable is in the evidence, with a weight for
every declared value. The weights are between `0` and `1`, have a relative error of at most `(1 + 2 ^ -53) ^ (k + 3) - 1` for `k` different outcomes, and those of
the values of the evidence are exact up to one rounding. -/
def RoundedActiveNodes (cs : Space V X R) (f : Option (Finset (Rel V R))) (ev : SampleGraph V X R) (ag : ActivationGraph V X R) : Prop :=
  (ag.nodes.map ActiveNode.var).Nodup ∧
  (∀ v, (∃ N ∈ ag.nodes, N.var = v) ↔ ∃ xs, cs.schema.vars.get? v = some xs) ∧
  ∀ N ∈ ag.nodes, (N.inQuery = true ↔ HasVar N.var ev) ∧
    (∀ x, (∃ w, N.values.get? x = some w) ↔ ∃ xs, cs.schema.vars.get? N.var = some xs ∧ x ∈ xs) ∧
    ∀ x w, N.values.get? x = some w → 0 ≤ w ∧ w ≤ 1 ∧
      |w - activationWeight cs.outcomes f ev ⟨N.var, x⟩| ≤ ((1 + uro) ^ (cs.outcomes.samples.entries.length + 3) - 1) * activationWeight cs.outcomes f ev ⟨N.var, x⟩ ∧
      ((⟨N.var, x⟩ : Node V X) ∈ ev.nodes → w = fl (activationWeight cs.outcomes f ev ⟨N.var, x⟩))

open Classical in
/-- The weight of one value. -/
theorem weight_rounded (cs : Space V X R) (ev : SampleGraph V X R) (h : ConditionedOn cs ev) (hpos : Positive cs.outcomes)
    (hne : ∃ g, cs.outcomes.Occurs g) (hlen : cs.outcomes.length ≤ 2 ^ 53) (hsize : ∀ g, cs.outcomes.Occurs g → graphSize g ≤ 2 ^ 53)
    (oI : Order (SampleGraph V X R × ℤ)) (f : Option (Finset (Rel V R))) (n : Node V X) :
    let w := fl ((((oI.run cs.outcomes.items).filter fun p => ContributesTo f ev n p.1).map (addend ev n)).foldl (fun s x => fl (s + x)) 0 / fl (cs.outcomes.length : ℚ))
    0 ≤ w ∧ w ≤ 1 ∧
      |w - activationWeight cs.outcomes f ev n| ≤ ((1 + uro) ^ (cs.outcomes.samples.entries.length + 3) - 1) * activationWeight cs.outcomes f ev n ∧
      (n ∈ ev.nodes → w = fl (activationWeight cs.outcomes f ev n)) := by
  intro w
  have hN : 0 < cs.outcomes.length := by
    obtain ⟨g, c, hg⟩ := hne
    exact lt_of_lt_of_le (hpos g c hg) (count_le_length _ hpos g c hg)
  have hNq : (0 : ℚ) < (cs.outcomes.length : ℚ) := by exact_mod_cast hN
  have hNb : (cs.outcomes.length : ℚ) ≤ 2 ^ 53 := by exact_mod_cast hlen
  set l := (oI.run cs.outcomes.items).filter fun p => ContributesTo f ev n p.1 with hl
  have hget : ∀ p ∈ l, cs.outcomes.samples.get? p.1 = some p.2 ∧ ContributesTo f ev n p.1 := by
    intro p hp
    rw [hl, List.mem_filter, oI.mem, Samples.mem_items, decide_eq_true_eq] at hp
    exact hp
  have hc0 : ∀ p ∈ l, 0 < p.2 := fun p hp => hpos _ _ (hget p hp).1
  have hcN : ∀ p ∈ l, p.2 ≤ cs.outcomes.length := fun p hp => count_le_length _ hpos _ _ (hget p hp).1
  have hlc : (l.map Prod.snd).sum ≤ cs.outcomes.length := by
    have h1 : (l.map Prod.snd).sum = mass cs.outcomes (ContributesTo f ev n) := by
      unfold mass
      rw [Finset.sum_filter, ← oI.sum_map, hl]
      generalize oI.run cs.outcomes.items = l'
      induction l' with
      | nil => rfl
      | cons a t ih =>
        rw [List.filter_cons, List.map_cons, List.sum_cons, ← ih]
        by_cases hc : ContributesTo f ev n a.1 <;> simp [hc]
    rw [h1]
    exact mass_le_length _ hpos _
  have hll : l.length ≤ cs.outcomes.samples.entries.length := by
    have h1 := List.length_filter_le (fun p : SampleGraph V X R × ℤ => decide (ContributesTo f ev n p.1)) (oI.run cs.outcomes.items)
    rw [oI.length_run] at h1
    refine h1.trans ?_
    unfold Samples.items
    exact List.toFinset_card_le _
  have hfc : ∀ p ∈ l, fl (p.2 : ℚ) = p.2 := fun p hp => fl_int (hc0 p hp).le ((hcN p hp).trans hlen)
  -- the addends
  have hratio : ∀ p ∈ l, n ∉ ev.nodes → 2 ^ (-53 : ℤ) ≤ (graphSize ev : ℚ) / (graphSize p.1 : ℚ) ∧ (graphSize ev : ℚ) / (graphSize p.1 : ℚ) ≤ 1 := by
    intro p hp hn
    have hr := (hget p hp).2
    unfold ContributesTo at hr
    rw [if_neg hn] at hr
    have hocc : cs.outcomes.Occurs p.1 := ⟨_, (hget p hp).1⟩
    have hcon := (reached_facts h f p.1 hocc n hr).1
    have hle : graphSize ev ≤ graphSize p.1 := Nat.add_le_add (Finset.card_le_card hcon.1) (Finset.card_le_card hcon.2)
    have hev : 1 ≤ graphSize ev := by
      have := Finset.card_pos.2 (Finset.nonempty_iff_ne_empty.2 h.evNonempty)
      unfold graphSize
      omega
    have hg : (0 : ℚ) < graphSize p.1 := by exact_mod_cast (by omega : 0 < graphSize p.1)
    have hgb : (graphSize p.1 : ℚ) ≤ 9007199254740992 := by exact_mod_cast hsize p.1 hocc
    have hevq : (1 : ℚ) ≤ graphSize ev := by exact_mod_cast hev
    constructor
    · rw [le_div_iff₀ hg]
      norm_num
      linarith
    · rw [div_le_one hg]
      exact_mod_cast hle
  have hf53 : IsFloat ((2 : ℚ) ^ (-53 : ℤ)) := ⟨1, -53, by norm_num, by norm_num, by simp⟩
  have htiny : (2 : ℚ) ^ (-1022 : ℤ) ≤ 2 ^ (-106 : ℤ) := zpow_le_zpow_right₀ (by norm_num) (by norm_num)
  have h106 : (2 : ℚ) ^ (-106 : ℤ) ≤ 2 ^ (-53 : ℤ) := zpow_le_zpow_right₀ (by norm_num) (by norm_num)
  have hadd : ∀ p ∈ l, 2 ^ (-53 : ℤ) ≤ addend ev n p ∧ addend ev n p ≤ p.2 ∧ IsFloat (addend ev n p) ∧ Near 2 (addend ev n p) (exactAddend ev n p) := by
    intro p hp
    have hc1 : (1 : ℚ) ≤ (p.2 : ℚ) := by exact_mod_cast hc0 p hp
    have hfl : IsFloat (p.2 : ℚ) := by rw [← hfc p hp]; exact fl_isFloat _
    unfold addend exactAddend
    by_cases hn : n ∈ ev.nodes
    · simp only [if_pos hn, one_mul, hfc p hp]
      refine ⟨?_, le_rfl, hfl, (near_refl _).mono (by linarith) (by omega)⟩
      refine le_trans ?_ hc1
      norm_num
    · simp only [if_neg hn, hfc p hp]
      obtain ⟨r1, r2⟩ := hratio p hp hn
      generalize (graphSize ev : ℚ) / (graphSize p.1 : ℚ) = r at r1 r2 ⊢
      have hr0 : 0 ≤ r := (two_pow_pos _).le.trans r1
      have f1 : 2 ^ (-53 : ℤ) ≤ fl r := le_fl hf53 r1
      have f2 : fl r ≤ 1 := fl_le isFloat_one r2
      have f0 : 0 ≤ fl r := (two_pow_pos _).le.trans f1
      have g1 : 2 ^ (-53 : ℤ) ≤ fl r * (p.2 : ℚ) := by nlinarith
      refine ⟨le_fl hf53 g1, fl_le hfl (by nlinarith), fl_isFloat _, ?_⟩
      have n1 : Near 1 (fl r) r := (near_refl r).fl hr0 (Or.inr (htiny.trans (h106.trans r1)))
      exact (n1.mul (c := (p.2 : ℚ)) (by linarith)).fl (by positivity) (Or.inr (htiny.trans (h106.trans g1)))
  have hadd0 : ∀ x ∈ l.map (addend ev n), 0 ≤ x := by
    intro x hx
    obtain ⟨p, hp, rfl⟩ := List.mem_map.mp hx
    exact (two_pow_pos _).le.trans (hadd p hp).1
  have haddf : ∀ x ∈ l.map (addend ev n), IsFloat x := by
    intro x hx
    obtain ⟨p, hp, rfl⟩ := List.mem_map.mp hx
    exact (hadd p hp).2.2.1
  have hex0 : 0 ≤ (l.map (exactAddend ev n)).sum := by
    apply List.sum_nonneg
    intro x hx
    obtain ⟨p, hp, rfl⟩ := List.mem_map.mp hx
    have hc1 : (0 : ℚ) ≤ (p.2 : ℚ) := by exact_mod_cast (hc0 p hp).le
    unfold exactAddend
    split
    · exact hc1
    · positivity
  set acc := (l.map (addend ev n)).foldl (fun s x => fl (s + x)) 0 with hacc
  have hw : w = fl (acc / (cs.outcomes.length : ℚ)) := by
    show fl (acc / fl (cs.outcomes.length : ℚ)) = _
    rw [fl_int hN.le hlen]
  have hacc0 : 0 ≤ acc := le_foldl hadd0 isFloat_zero
  have haccN : acc ≤ cs.outcomes.length := by
    have h1 := foldl_le_int l (addend ev n) Prod.snd (fun p hp => (hadd p hp).2.1) (fun p hp => (hc0 p hp).le) 0 0 (by simp) le_rfl (by omega)
    rw [zero_add] at h1
    exact h1.trans (by exact_mod_cast hlc)
  have hR : Roundable (acc / (cs.outcomes.length : ℚ)) := by
    by_cases hl0 : l = []
    · left; rw [hacc, hl0]; simp
    · right
      obtain ⟨p, hp⟩ := List.exists_mem_of_ne_nil l hl0
      have h1 := (hadd p hp).1.trans (mem_le_foldl hadd0 haddf le_rfl isFloat_zero _ (List.mem_map_of_mem hp))
      refine htiny.trans ?_
      rw [le_div_iff₀ hNq]
      refine le_trans ?_ h1
      have e : (2 : ℚ) ^ (-53 : ℤ) = 2 ^ (-106 : ℤ) * 2 ^ 53 := by norm_num
      rw [e]
      exact mul_le_mul_of_nonneg_left hNb (two_pow_pos _).le
  have hW := exact_weight oI f cs ev n
  rw [← hl] at hW
  refine ⟨?_, ?_, ?_, ?_⟩
  · rw [hw]; exact fl_nonneg hR.nonneg
  · rw [hw]; exact fl_le isFloat_one ((div_le_one hNq).2 haccN)
  · have hnear : Near (l.length + 2) acc (l.map (exactAddend ev n)).sum :=
      near_foldl l _ _ (fun p hp => (hadd p hp).2.2.2) (fun p hp => (two_pow_pos _).le.trans (hadd p hp).1) (fun p hp => (hadd p hp).2.2.1)
    have h2 := hnear.mul (c := 1 / (cs.outcomes.length : ℚ)) (by positivity)
    rw [mul_one_div, mul_one_div, hW] at h2
    have hW0 : 0 ≤ activationWeight cs.outcomes f ev n := by rw [← hW]; exact div_nonneg hex0 hNq.le
    have h3 := (h2.fl hW0 hR).mono hW0 (by omega : l.length + 2 + 1 ≤ cs.outcomes.samples.entries.length + 3)
    rw [hw]
    exact h3.abs hW0
  · intro hn
    rw [hw, ← hW]
    congr 2
    have h1 : l.map (addend ev n) = l.map fun p => (p.2 : ℚ) := by
      apply List.map_congr_left
      intro p hp
      unfold addend
      rw [if_pos hn, one_mul, hfc p hp, hfc p hp]
    have h2 : l.map (exactAddend ev n) = l.map fun p => (p.2 : ℚ) := by
      apply List.map_congr_left
      intro p _
      unfold exactAddend
      rw [if_pos hn]
    have h3 := foldl_int l Prod.snd (fun p hp => (hc0 p hp).le) 0 le_rfl (by omega)
    rw [Int.cast_zero, zero_add] at h3
    rw [hacc, h1, h2, h3]
    rw [Int.cast_list_sum, List.map_map]
    rfl

/-- **C64.** `activation_graph` with floats: no exception, the edges are those of C36, the nodes those of C35 up to rounding. -/
theorem C64_activation_graph (cs : Space V X R) (ev : SampleGraph V X R) (h : ConditionedOn cs ev) (hpos : Positive cs.outcomes)
    (hne : ∃ g, cs.outcomes.Occurs g) (hlen : cs.outcomes.length ≤ 2 ^ 53) (hsize : ∀ g, cs.outcomes.Occurs g → graphSize g ≤ 2 ^ 53)
    (oI : Order (SampleGraph V X R × ℤ)) (oN : Order (Node V X)) (oE : Order (Edge V X R))
    (oQ : Order (Edge V X R × Bool)) (oX : Order X) (f : Option (Finset (Rel V R))) :
    ∃ ag, cs.activationGraphFl oI oN oE oQ oX f ev = .ok ag ∧ ag.n = cs.outcomes.length ∧
      RoundedActiveNodes cs f ev ag ∧ ExactActiveEdges cs f ev ag := by
  classical
  have hocc := run_occurs oI cs.outcomes
  obtain ⟨ag, hag, -, -, hedges⟩ := C35_C36_activation_graph cs ev h hpos hne oI oN oE oQ oX f
  unfold Space.activationGraph at hag
  cases hx : (oI.run cs.outcomes.items).foldlM (Space.activationStep oN oE oQ f ev) (cs.activationInit oX ev, Dict.empty) with
  | error e => rw [hx] at hag; cases hag
  | ok st =>
    obtain ⟨gv0, gr⟩ := st
    rw [hx] at hag
    simp only at hag
    unfold Space.activationResult at hag
    simp only at hag
    split at hag
    · cases hag
    rename_i hz
    split at hag
    · cases hag
    rename_i hcard
    have hgr := foldlM_pair_snd _ Space.activationEdge (edgeContrib oN oE oQ f ev) _
      (fun p _ s t s' t' hs => activationStep_edges oN oE oQ f ev p s s' t t' hs) _ _ _ _ hx
    obtain ⟨gv, hgv, ninv⟩ := activationNodeFl_loop cs.schema.vars _ _ (activationInitFl_inv cs oX ev)
      ((oI.run cs.outcomes.items).flatMap (nodeContribFl oN oE f ev)) (by
        intro t ht
        obtain ⟨p, hp, ht⟩ := List.mem_flatMap.1 ht
        obtain ⟨h1, h2⟩ := mem_nodeContribFl h oN oE f p (hocc p hp) t ht
        exact ⟨(h.sound p.1 (hocc p hp)).1 t.1 h1, h2⟩)
    have hloop : (oI.run cs.outcomes.items).foldlM (Space.activationStepFl oN oE oQ f ev) (cs.activationInit oX ev, Dict.empty) =
        .ok (gv, gr) :=
      foldlM_pair _ Space.activationNodeFl Space.activationEdge (nodeContribFl oN oE f ev) (edgeContrib oN oE oQ f ev) _
        (fun p hp s t s' t' h1 h2 => activationStepFl_ok h oN oE oQ f p (hocc p hp) s s' t t' h1 h2) _ _ _ _ hgv hgr
    have hN : cs.outcomes.length ≠ 0 := by
      obtain ⟨g, c, hg⟩ := hne
      exact (lt_of_lt_of_le (hpos g c hg) (count_le_length _ hpos g c hg)).ne'
    refine ⟨⟨cs.outcomes.length, gv.entries.map fun p => ⟨p.1, p.2.1.mapVals fun w => fl (w / fl (cs.outcomes.length : ℚ)), p.2.2⟩,
      gr.entries.map fun p => ⟨p.1, p.2.1, p.2.2⟩⟩, ?_, rfl, ⟨?_, ?_, ?_⟩, ?_⟩
    · unfold Space.activationGraphFl
      rw [hloop]
      simp only
      unfold Space.activationResultFl
      simp only
      rw [if_neg (fun hx => hN hx.1), if_neg hcard]
    · rw [List.map_map]; exact gv.nodup
    · intro v
      rw [← Dict.mem_keys, ← ninv.keys]
      simp only [List.mem_map, Dict.keys]
      constructor
      · rintro ⟨_, ⟨p, hp, rfl⟩, rfl⟩; exact ⟨p, hp, rfl⟩
      · rintro ⟨p, hp, rfl⟩; exact ⟨_, ⟨p, hp, rfl⟩, rfl⟩
    · intro N hN'
      obtain ⟨⟨v, m, b⟩, hp, rfl⟩ := List.mem_map.1 hN'
      have hvk : v ∈ cs.schema.vars.keys := by rw [← ninv.keys]; exact List.mem_map_of_mem (f := Prod.fst) hp
      obtain ⟨xs, hxs⟩ := (Dict.mem_keys _ _).1 hvk
      obtain ⟨m', hm', hmx⟩ := ninv.get v xs hxs
      rw [(Dict.mem_entries _ _ _).1 hp] at hm'
      cases hm'
      refine ⟨?_, ?_, ?_⟩
      · simp only
        rw [decide_eq_true_eq, mem_includedVariables]
      · intro x
        simp only [Dict.get?_mapVals, Option.map_eq_some_iff]
        constructor
        · rintro ⟨_, q, hq, rfl⟩
          exact ⟨xs, hxs, ((hmx x q).1 hq).1⟩
        · rintro ⟨xs', hxs', hx'⟩
          rw [hxs] at hxs'
          cases hxs'
          exact ⟨_, _, (hmx x _).2 ⟨hx', rfl⟩, rfl⟩
      · intro x w hw
        simp only [Dict.get?_mapVals, Option.map_eq_some_iff] at hw
        obtain ⟨q, hq, rfl⟩ := hw
        obtain ⟨_, rfl⟩ := (hmx x q).1 hq
        rw [weightFl_eq oI oN oE f cs ev h]
        exact weight_rounded cs ev h hpos hne hlen hsize oI f ⟨v, x⟩
    · have := Except.ok.inj hag
      subst this
      exact hedges

/-- **C64.** The same, beginning with the relation graph and the evidence. -/
theorem C64_activation (sp : Space V X R) (hsp : GoodSpace sp) (ev : Sample V X R) (hev : GoodEvidence ev.graph)
    (oC : Order (SampleGraph V X R × ℤ)) (cs : Space V X R) (hc : sp.conditionalGraph oC ev = .ok cs)
    (hne : ∃ g, cs.outcomes.Occurs g) (hlen : cs.outcomes.length ≤ 2 ^ 53) (hsize : ∀ g, cs.outcomes.Occurs g → graphSize g ≤ 2 ^ 53)
    (oI : Order (SampleGraph V X R × ℤ)) (oN : Order (Node V X)) (oE : Order (Edge V X R))
    (oQ : Order (Edge V X R × Bool)) (oX : Order X) (f : Option (Finset (Rel V R))) :
    ∃ ag, cs.activationGraphFl oI oN oE oQ oX f ev.graph = .ok ag ∧ ag.n = cs.outcomes.length ∧
      RoundedActiveNodes cs f ev.graph ag ∧ ExactActiveEdges cs f ev.graph ag := by
  obtain ⟨h1, h2, -⟩ := conditionedOn_of_conditional sp hsp ev hev oC cs hc
  exact C64_activation_graph cs ev.graph h1 h2 hne hlen hsize oI oN oE oQ oX f

/-- Up to a million different outcomes the relative error is below `1.2e-10`. -/
theorem C64_error_bound (k : ℕ) (hk : k ≤ 10 ^ 6) : (1 + uro) ^ (k + 3) - 1 ≤ 12 / 10 ^ 11 := by
  have hu : uro = 1 / 9007199254740992 := by unfold uro; norm_num
  have hkq : (k : ℚ) ≤ 10 ^ 6 := by exact_mod_cast hk
  have hb : ((k + 3 : ℕ) : ℚ) * uro ≤ 1112 / 10 ^ 13 := by
    rw [hu]
    push_cast
    linarith
  have := pow_upper (n := k + 3) (by linarith)
  have h2 : 1 / (1 - ((k + 3 : ℕ) : ℚ) * uro) ≤ 1 + 12 / 10 ^ 11 := by
    rw [div_le_iff₀ (by linarith)]
    nlinarith
  linarith

/-- Non-vacuity of `C64_activation`: the example of C35 satisfies the bounds as well. -/
example : demoSpace.outcomes.length ≤ 2 ^ 53 ∧ ∀ g, demoSpace.outcomes.Occurs g → graphSize g ≤ 2 ^ 53 := by
  constructor
  · decide +kernel
  · intro g hg
    rw [demoSpace_occurs] at hg
    rcases hg with rfl | rfl <;> decide +kernel

end
end Verif
