import Verif.Model.BigActivation
import Verif.Props.BigCounts
import Verif.Props.FloatActivation

/-!
# C104: counts beyond the range of floats in `activation_graph`
-/

set_option linter.unusedSectionVars false
set_option exponentiation.threshold 1100

namespace Verif
namespace BigCounts
variable {V X R : Type} [DecidableEq V] [DecidableEq X] [DecidableEq R]

/-! ### The same keys -/

/-- Keys and marks of a table of weights. -/
def shape {A : Type} (d : Dict V (Dict X A × Bool)) : Dict V (Dict X Unit × Bool) := d.mapVals fun p => (p.1.mapVals fun _ => (), p.2)

theorem shape_set {A : Type} (d : Dict V (Dict X A × Bool)) (v : V) (e : Dict X A) (b : Bool) :
    shape (d.set v (e, b)) = (shape d).set v (e.mapVals fun _ => (), b) := Dict.mapVals_set _ _ _ _

theorem shape_get {A : Type} (d : Dict V (Dict X A × Bool)) (v : V) : (shape d).get? v = (d.get? v).map fun p => (p.1.mapVals fun _ => (), p.2) := by
  classical exact Dict.get?_mapVals _ _ _

theorem node_shape (a : Dict V (Dict X (Option ℚ) × Bool)) (b b' : Dict V (Dict X ℚ × Bool)) (h : shape a = shape b) (n : Node V X) (q : Option ℚ) (w : ℚ)
    (c : Bool) (hb : Space.activationNode b (n, w, c) = .ok b') : ∃ a', Space.activationNodeOv a (n, q, c) = .ok a' ∧ shape a' = shape b' := by
  unfold Space.activationNode at hb
  simp only at hb
  cases hv : b.get? n.var with
  | none => rw [hv] at hb; cases hb
  | some m =>
    obtain ⟨vals, iq⟩ := m
    rw [hv] at hb
    simp only at hb
    split at hb
    · cases hb
    rename_i hc
    cases hx : vals.get? n.val with
    | none => rw [hx] at hb; cases hb
    | some w0 =>
      rw [hx] at hb
      cases hb
      have h1 := shape_get a n.var
      rw [h, shape_get, hv] at h1
      cases hva : a.get? n.var with
      | none => rw [hva] at h1; cases h1
      | some m =>
        obtain ⟨avals, aq⟩ := m
        rw [hva] at h1
        simp only [Option.map_some, Option.some.injEq, Prod.mk.injEq] at h1
        obtain ⟨h2, rfl⟩ := h1
        have h3 : (avals.mapVals fun _ => ()).get? n.val = some () := by rw [← h2, Dict.get?_mapVals, hx]; rfl
        rw [Dict.get?_mapVals] at h3
        cases hxa : avals.get? n.val with
        | none => rw [hxa] at h3; cases h3
        | some w1 =>
          refine ⟨a.set n.var (avals.set n.val (addFloats w1 q), iq), ?_, ?_⟩
          · unfold Space.activationNodeOv
            simp only [hva, if_neg hc, hxa]
          · rw [shape_set, shape_set, Dict.mapVals_set, Dict.mapVals_set, h2, h]

theorem nodes_shape : ∀ (l : List (Node V X × ℚ × Bool)) (l' : List (Node V X × Option ℚ × Bool)),
    List.Forall₂ (fun t t' => t'.1 = t.1 ∧ t'.2.2 = t.2.2) l l' → ∀ (a : Dict V (Dict X (Option ℚ) × Bool)) (b b' : Dict V (Dict X ℚ × Bool)),
    shape a = shape b → l.foldlM Space.activationNode b = .ok b' → ∃ a', l'.foldlM Space.activationNodeOv a = .ok a' ∧ shape a' = shape b' := by
  intro l l' hl
  induction hl with
  | nil =>
    intro a b b' h hb
    rw [List.foldlM_nil] at hb
    cases hb
    exact ⟨a, rfl, h⟩
  | cons ht _ ih =>
    rename_i t t' _ _ _
    intro a b b' h hb
    rw [List.foldlM_cons] at hb
    cases h1 : Space.activationNode b t with
    | error e => rw [h1] at hb; cases hb
    | ok b1 =>
      rw [h1] at hb
      obtain ⟨n, w, c⟩ := t
      obtain ⟨n', q, c'⟩ := t'
      obtain ⟨rfl, rfl⟩ := ht
      obtain ⟨a1, h2, h3⟩ := node_shape a b b1 h _ q w _ h1
      obtain ⟨a', h4, h5⟩ := ih a1 b1 b' h3 hb
      refine ⟨a', ?_, h5⟩
      rw [List.foldlM_cons, h2]
      exact h4

theorem weigh_shape (s : ℚ) (q : ℚ) (c : ℤ) (flag : Bool) (l : List (Node V X)) (r : List (Node V X × Option ℚ × Bool)) (h : weighNodes s c flag l = .ok r) :
    List.Forall₂ (fun t t' => t'.1 = t.1 ∧ t'.2.2 = t.2.2) (l.map fun n => (n, q, flag)) r := by
  unfold weighNodes at h
  split at h
  · cases h
  · cases h
    induction l with
    | nil => exact .nil
    | cons n t ih => exact .cons ⟨rfl, rfl⟩ (ih (by rename_i h0; exact fun h => h0 ⟨by simp, h.2⟩))

theorem weigh_error (s : ℚ) (c : ℤ) (flag : Bool) (l : List (Node V X)) (e : OvErr) (h : weighNodes s c flag l = .error e) : e = .overflow := by
  unfold weighNodes at h
  split at h
  · cases h; rfl
  · cases h

theorem step_shape (oN : Order (Node V X)) (oE : Order (Edge V X R)) (oQ : Order (Edge V X R × Bool)) (f : Option (Finset (Rel V R))) (ev : SampleGraph V X R)
    (a : Dict V (Dict X (Option ℚ) × Bool)) (b b' : Dict V (Dict X ℚ × Bool)) (r r' : Dict (Finset V) (Dict (Rel V R) ℤ × Bool)) (p : SampleGraph V X R × ℤ)
    (h : shape a = shape b) (hb : Space.activationStep oN oE oQ f ev (b, r) p = .ok (b', r')) :
    Space.activationStepOv oN oE oQ f ev (a, r) p = .error .overflow ∨
      ∃ a', Space.activationStepOv oN oE oQ f ev (a, r) p = .ok (a', r') ∧ shape a' = shape b' := by
  unfold Space.activationStep at hb
  unfold Space.activationStepOv
  cases hsim : p.1.similarity ev with
  | error e => rw [hsim] at hb; cases hb
  | ok sim =>
    rw [hsim] at hb
    simp only at hb
    have hfl : ∃ s, p.1.similarityFl ev = .ok s := by
      unfold SampleGraph.similarity at hsim
      unfold SampleGraph.similarityFl
      simp only at hsim ⊢
      split at hsim
      · cases hsim
      · rename_i h0; rw [if_neg h0]; exact ⟨_, rfl⟩
    obtain ⟨s, hs⟩ := hfl
    rw [hs]
    simp only
    cases hext : p.1.externalNodes oN oE ev.nodes f with
    | error e => rw [hext] at hb; cases hb
    | ok ext =>
      rw [hext] at hb
      simp only at hb ⊢
      cases hw1 : weighNodes s p.2 false ext.keys with
      | error e => left; rw [weigh_error _ _ _ _ _ hw1]
      | ok out =>
        cases hw2 : weighNodes 1 p.2 true (oN.run (ev.nodes ∩ p.1.nodes)) with
        | error e => left; simp only; rw [weigh_error _ _ _ _ _ hw2]
        | ok inn =>
          right
          simp only
          split at hb
          · cases hb
          rename_i hd1
          rw [if_neg hd1]
          split at hb
          · cases hb
          rename_i hd2
          rw [if_neg hd2]
          split at hb
          · cases hb
          rename_i gv hgv
          obtain ⟨a', h4, h5⟩ := nodes_shape _ (out ++ inn)
            (List.rel_append (weigh_shape _ (sim * (p.2 : ℚ)) _ _ _ _ hw1) (weigh_shape _ (1 * (p.2 : ℚ)) _ _ _ _ hw2)) a b gv h hgv
          rw [h4]
          simp only
          split at hb
          · cases hb
          rename_i gr hgr
          cases hb
          rw [hgr]
          exact ⟨a', rfl, h5⟩

theorem steps_shape (oN : Order (Node V X)) (oE : Order (Edge V X R)) (oQ : Order (Edge V X R × Bool)) (f : Option (Finset (Rel V R))) (ev : SampleGraph V X R) :
    ∀ (l : List (SampleGraph V X R × ℤ)) (a : Dict V (Dict X (Option ℚ) × Bool)) (b b' : Dict V (Dict X ℚ × Bool)) (r r' : Dict (Finset V) (Dict (Rel V R) ℤ × Bool)),
    shape a = shape b → l.foldlM (Space.activationStep oN oE oQ f ev) (b, r) = .ok (b', r') →
    l.foldlM (Space.activationStepOv oN oE oQ f ev) (a, r) = .error .overflow ∨
      ∃ a', l.foldlM (Space.activationStepOv oN oE oQ f ev) (a, r) = .ok (a', r') ∧ shape a' = shape b' := by
  intro l
  induction l with
  | nil =>
    intro a b b' r r' h hb
    rw [List.foldlM_nil] at hb
    cases hb
    exact Or.inr ⟨a, rfl, h⟩
  | cons p t ih =>
    intro a b b' r r' h hb
    rw [List.foldlM_cons] at hb
    cases h1 : Space.activationStep oN oE oQ f ev (b, r) p with
    | error e => rw [h1] at hb; cases hb
    | ok st =>
      obtain ⟨b1, r1⟩ := st
      rw [h1] at hb
      rw [List.foldlM_cons]
      rcases step_shape oN oE oQ f ev a b b1 r r1 p h h1 with h2 | ⟨a1, h2, h3⟩
      · left; rw [h2]; rfl
      · rw [h2]
        exact ih a1 b1 b' r1 r' h3 hb

theorem divide_float_huge (n : ℤ) (hn : huge (n : ℚ)) (d : Dict X (Option ℚ)) :
    FoldedNode.divideOv n (d.mapVals AccNum.float).entries = if d.entries = [] then .ok [] else .error .overflow := by
  show FoldedNode.divideOv n (d.entries.map fun p => (p.1, AccNum.float p.2)) = _
  cases d.entries with
  | nil => rfl
  | cons p t =>
    rw [if_neg (by simp), List.map_cons]
    unfold FoldedNode.divideOv
    simp only [AccNum.divBy, if_pos hn]

theorem divideNodes_huge (n : ℤ) (hn : huge (n : ℚ)) : ∀ l : List (V × Dict X (Option ℚ) × Bool), (∃ p ∈ l, p.2.1.entries ≠ []) →
    Space.divideNodesOv n l = .error .overflow := by
  intro l
  induction l with
  | nil => rintro ⟨p, hp, _⟩; simp at hp
  | cons p t ih =>
    obtain ⟨v, d, b⟩ := p
    rintro ⟨p, hp, hne⟩
    unfold Space.divideNodesOv
    rw [divide_float_huge n hn]
    by_cases hd : d.entries = []
    · rw [if_pos hd]
      simp only
      rcases List.mem_cons.1 hp with rfl | hp
      · exact absurd hd hne
      · rw [ih ⟨p, hp, hne⟩]
    · rw [if_neg hd]

/-- **C104.** If the number of outcomes of a conditional graph rounds to `2 ^ 1024` or more and some variable has a value, `activation_graph` raises `OverflowError`,
for every filter of relations: while it adds up the weights or when it divides them. -/
theorem C104_overflow (cs : Space V X R) (ev : SampleGraph V X R) (h : ConditionedOn cs ev) (hpos : Positive cs.outcomes)
    (hne : ∃ g, cs.outcomes.Occurs g) (hn : huge (cs.outcomes.length : ℚ)) (hv : ∃ v xs, cs.schema.vars.get? v = some xs ∧ xs.Nonempty)
    (oI : Order (SampleGraph V X R × ℤ)) (oN : Order (Node V X)) (oE : Order (Edge V X R))
    (oQ : Order (Edge V X R × Bool)) (oX : Order X) (f : Option (Finset (Rel V R))) :
    cs.activationGraphOv oI oN oE oQ oX f ev = .error .overflow := by
  obtain ⟨ag, hag, -, hnodes, -⟩ := C35_C36_activation_graph cs ev h hpos hne oI oN oE oQ oX f
  unfold Space.activationGraph at hag
  cases hx : (oI.run cs.outcomes.items).foldlM (Space.activationStep oN oE oQ f ev) (cs.activationInit oX ev, Dict.empty) with
  | error e => rw [hx] at hag; cases hag
  | ok st =>
    obtain ⟨gv, gr⟩ := st
    rw [hx] at hag
    simp only at hag
    unfold Space.activationResult at hag
    simp only at hag
    split at hag
    · cases hag
    split at hag
    · cases hag
    cases hag
    unfold Space.activationGraphOv
    have h0 : shape ((cs.activationInit oX ev).mapVals fun p => (p.1.mapVals (some : ℚ → Option ℚ), p.2)) = shape (cs.activationInit oX ev) := by
      apply Dict.ext
      simp [shape, Dict.mapVals, List.map_map, Function.comp_def]
    rcases steps_shape oN oE oQ f ev _ _ _ _ _ _ h0 hx with h1 | ⟨a', h1, h2⟩
    · rw [h1]
    · rw [h1]
      simp only
      unfold Space.activationResultOv
      rw [divideNodes_huge _ hn]
      obtain ⟨v, xs, hxs, x, hxm⟩ := hv
      obtain ⟨N, hN, hNv⟩ := (hnodes.2.1 v).2 ⟨xs, hxs⟩
      obtain ⟨w, hw⟩ := (⟨_, ((hnodes.2.2 N hN).2 x _).2 ⟨⟨xs, by rw [hNv]; exact hxs, hxm⟩, rfl⟩⟩ : ∃ w, N.values.get? x = some w)
      obtain ⟨⟨v', m, b⟩, hp, rfl⟩ := List.mem_map.1 hN
      simp only at hNv hw
      subst hNv
      have h3 := shape_get a' v'
      rw [h2, shape_get, (Dict.mem_entries _ _ _).1 hp] at h3
      cases ha : a'.get? v' with
      | none => rw [ha] at h3; cases h3
      | some m' =>
        obtain ⟨am, ab⟩ := m'
        refine ⟨(v', am, ab), (Dict.mem_entries _ _ _).2 ha, ?_⟩
        rw [ha] at h3
        simp only [Option.map_some, Option.some.injEq, Prod.mk.injEq] at h3
        intro he
        simp only at he
        rw [Dict.get?_mapVals, Option.map_eq_some_iff] at hw
        obtain ⟨q, hq, -⟩ := hw
        have h4 : (am.mapVals fun _ => ()).get? x = some () := by rw [← h3.1, Dict.get?_mapVals, hq]; rfl
        rw [Dict.get?_mapVals] at h4
        unfold Dict.get? at h4
        rw [he] at h4
        cases h4

/-! ### Finite weights -/

/-- A table of floats as a table of floats which may be infinite. -/
def embed (d : Dict V (Dict X ℚ × Bool)) : Dict V (Dict X (Option ℚ) × Bool) := d.mapVals fun p => (p.1.mapVals some, p.2)

theorem embed_get (d : Dict V (Dict X ℚ × Bool)) (v : V) : (embed d).get? v = (d.get? v).map fun p => (p.1.mapVals some, p.2) := by
  classical exact Dict.get?_mapVals _ _ _

/-- Each weight is a float that is not negative. -/
def Weights (d : Dict V (Dict X ℚ × Bool)) : Prop := ∀ v m b, d.get? v = some (m, b) → ∀ x w, m.get? x = some w → IsFloat w ∧ 0 ≤ w

def Below (d : Dict V (Dict X ℚ × Bool)) : Prop := ∀ v m b, d.get? v = some (m, b) → ∀ x w, m.get? x = some w → w ≤ 2 ^ 1000

theorem not_huge_of_fl {q : ℚ} (h0 : 0 ≤ q) (h : fl q ≤ 2 ^ 1000) : ¬ huge q := by
  unfold huge
  rw [abs_of_nonneg (fl_nonneg h0), not_le]
  exact lt_of_le_of_lt h (by norm_num)

theorem node_embed (d d' : Dict V (Dict X ℚ × Bool)) (n : Node V X) (w : ℚ) (c : Bool) (hd : Weights d) (hw : 0 ≤ w)
    (h : Space.activationNodeFl d (n, w, c) = .ok d') : Weights d' ∧ (Below d' → Below d ∧ Space.activationNodeOv (embed d) (n, some w, c) = .ok (embed d')) := by
  unfold Space.activationNodeFl at h
  simp only at h
  cases hv : d.get? n.var with
  | none => rw [hv] at h; cases h
  | some m =>
    obtain ⟨vals, iq⟩ := m
    rw [hv] at h
    simp only at h
    split at h
    · cases h
    rename_i hc
    cases hx : vals.get? n.val with
    | none => rw [hx] at h; cases h
    | some w0 =>
      rw [hx] at h
      cases h
      obtain ⟨hf0, hp0⟩ := hd _ _ _ hv _ _ hx
      refine ⟨?_, fun hb => ⟨?_, ?_⟩⟩
      · intro v m b hm x q hq
        rw [Dict.get?_set] at hm
        split at hm
        · cases hm
          rw [Dict.get?_set] at hq
          split at hq
          · cases hq
            exact ⟨fl_isFloat _, fl_nonneg (by linarith)⟩
          · exact hd _ _ _ hv _ _ hq
        · exact hd _ _ _ hm _ _ hq
      · intro v m b hm x q hq
        by_cases hvv : n.var = v
        · subst hvv
          rw [hv] at hm
          cases hm
          have h1 := hb n.var (vals.set n.val (fl (w0 + w))) iq (by rw [Dict.get?_set, if_pos rfl])
          by_cases hxx : n.val = x
          · subst hxx
            rw [hx] at hq
            cases hq
            exact (le_fl hf0 (by linarith : w0 ≤ w0 + w)).trans (h1 n.val _ (by rw [Dict.get?_set, if_pos rfl]))
          · exact h1 x q (by rw [Dict.get?_set, if_neg hxx]; exact hq)
        · exact hb v m b (by rw [Dict.get?_set, if_neg hvv]; exact hm) x q hq
      · have h1 := hb n.var (vals.set n.val (fl (w0 + w))) iq (by rw [Dict.get?_set, if_pos rfl]) n.val _ (by rw [Dict.get?_set, if_pos rfl])
        unfold Space.activationNodeOv
        simp only [embed_get, hv, Option.map_some, if_neg hc, Dict.get?_mapVals, hx]
        simp only [addFloats, finite, if_neg (not_huge_of_fl (q := w0 + w) (by linarith) h1)]
        unfold embed
        rw [Dict.mapVals_set, Dict.mapVals_set]

theorem nodes_embed : ∀ (l : List (Node V X × ℚ × Bool)), (∀ t ∈ l, 0 ≤ t.2.1) → ∀ (d d' : Dict V (Dict X ℚ × Bool)), Weights d →
    l.foldlM Space.activationNodeFl d = .ok d' →
    Weights d' ∧ (Below d' → Below d ∧ (l.map fun t => (t.1, some t.2.1, t.2.2)).foldlM Space.activationNodeOv (embed d) = .ok (embed d')) := by
  intro l
  induction l with
  | nil =>
    intro _ d d' hd h
    rw [List.foldlM_nil] at h
    cases h
    exact ⟨hd, fun hb => ⟨hb, rfl⟩⟩
  | cons t r ih =>
    intro hl d d' hd h
    obtain ⟨n, w, c⟩ := t
    rw [List.foldlM_cons] at h
    cases h1 : Space.activationNodeFl d (n, w, c) with
    | error e => rw [h1] at h; cases h
    | ok d1 =>
      rw [h1] at h
      obtain ⟨h2, h3⟩ := node_embed d d1 n w c hd (hl _ List.mem_cons_self) h1
      obtain ⟨h4, h5⟩ := ih (fun t ht => hl t (List.mem_cons_of_mem _ ht)) d1 d' h2 h
      refine ⟨h4, fun hb => ?_⟩
      obtain ⟨h6, h7⟩ := h5 hb
      obtain ⟨h8, h9⟩ := h3 h6
      refine ⟨h8, ?_⟩
      rw [List.map_cons, List.foldlM_cons]
      simp only
      rw [h9]
      exact h7

theorem isFloat_960 : IsFloat (2 ^ 960) := ⟨1, 960, by norm_num, by norm_num, by norm_num⟩

theorem weigh_small (s : ℚ) (c : ℤ) (flag : Bool) (l : List (Node V X)) (hs0 : 0 ≤ s) (hs1 : s ≤ 1) (hc0 : 0 ≤ c) (hc : c ≤ 2 ^ 960) :
    weighNodes s c flag l = .ok ((l.map fun n => (n, fl (s * fl (c : ℚ)), flag)).map fun t => (t.1, some t.2.1, t.2.2)) := by
  have hcq : (0 : ℚ) ≤ c := by exact_mod_cast hc0
  have hcq' : (c : ℚ) ≤ 2 ^ 960 := by exact_mod_cast hc
  have hf0 : 0 ≤ fl (c : ℚ) := fl_nonneg hcq
  have hf1 : fl (c : ℚ) ≤ 2 ^ 960 := fl_le isFloat_960 hcq'
  have h1 : ¬ huge (c : ℚ) := not_huge_of_fl hcq (hf1.trans (by norm_num))
  have h2 : ¬ huge (s * fl (c : ℚ)) := by
    refine not_huge_of_le ?_
    rw [abs_of_nonneg (mul_nonneg hs0 hf0)]
    calc s * fl (c : ℚ) ≤ 1 * fl (c : ℚ) := mul_le_mul_of_nonneg_right hs1 hf0
      _ ≤ _ := by rw [one_mul]; exact hf1.trans (by norm_num)
  unfold weighNodes
  rw [if_neg (fun h => h1 h.2)]
  simp only [finite, if_neg h2, List.map_map, Function.comp_def]

theorem similarityFl_unit (g ev : SampleGraph V X R) (s : ℚ) (h : g.similarityFl ev = .ok s) : 0 ≤ s ∧ s ≤ 1 := by
  unfold SampleGraph.similarityFl at h
  simp only at h
  split at h
  · cases h
  · cases h
    refine ⟨fl_nonneg (by positivity), ?_⟩
    have h1 : (((g.hash ∩ ev.hash).card : ℚ)) / (((g.hash ∩ ev.hash).card + (symmDiff g.hash ev.hash).card : ℕ) : ℚ) ≤ 1 := by
      apply div_le_one_of_le₀
      · exact_mod_cast Nat.le_add_right _ _
      · positivity
    have h2 := fl_mono h1
    rwa [show fl (1 : ℚ) = 1 by decide +kernel] at h2

theorem step_embed (oN : Order (Node V X)) (oE : Order (Edge V X R)) (oQ : Order (Edge V X R × Bool)) (f : Option (Finset (Rel V R))) (ev : SampleGraph V X R)
    (d d' : Dict V (Dict X ℚ × Bool)) (r r' : Dict (Finset V) (Dict (Rel V R) ℤ × Bool)) (p : SampleGraph V X R × ℤ) (hd : Weights d)
    (hc0 : 0 ≤ p.2) (hc : p.2 ≤ 2 ^ 960) (h : Space.activationStepFl oN oE oQ f ev (d, r) p = .ok (d', r')) :
    Weights d' ∧ (Below d' → Below d ∧ Space.activationStepOv oN oE oQ f ev (embed d, r) p = .ok (embed d', r')) := by
  unfold Space.activationStepFl at h
  unfold Space.activationStepOv
  cases hsim : p.1.similarityFl ev with
  | error e => rw [hsim] at h; cases h
  | ok sim =>
    rw [hsim] at h
    simp only at h ⊢
    obtain ⟨hs0, hs1⟩ := similarityFl_unit _ _ _ hsim
    cases hext : p.1.externalNodes oN oE ev.nodes f with
    | error e => rw [hext] at h; cases h
    | ok ext =>
      rw [hext] at h
      simp only at h ⊢
      rw [weigh_small sim p.2 false _ hs0 hs1 hc0 hc, weigh_small 1 p.2 true _ zero_le_one le_rfl hc0 hc]
      simp only
      split at h
      · cases h
      rename_i hd1
      rw [if_neg hd1]
      split at h
      · cases h
      rename_i hd2
      rw [if_neg hd2]
      split at h
      · cases h
      rename_i gv hgv
      have hcq : (0 : ℚ) ≤ fl (p.2 : ℚ) := fl_nonneg (by exact_mod_cast hc0)
      obtain ⟨h4, h5⟩ := nodes_embed _ (by
        intro t ht
        rcases List.mem_append.1 ht with ht | ht
        · obtain ⟨n, -, rfl⟩ := List.mem_map.1 ht
          exact fl_nonneg (mul_nonneg hs0 hcq)
        · obtain ⟨n, -, rfl⟩ := List.mem_map.1 ht
          exact fl_nonneg (mul_nonneg zero_le_one hcq)) d gv hd hgv
      split at h
      · cases h
      rename_i gr hgr
      cases h
      refine ⟨h4, fun hb => ?_⟩
      obtain ⟨h6, h7⟩ := h5 hb
      refine ⟨h6, ?_⟩
      rw [← List.map_append, h7, hgr]
      rfl

theorem steps_embed (oN : Order (Node V X)) (oE : Order (Edge V X R)) (oQ : Order (Edge V X R × Bool)) (f : Option (Finset (Rel V R))) (ev : SampleGraph V X R) :
    ∀ (l : List (SampleGraph V X R × ℤ)), (∀ p ∈ l, 0 ≤ p.2 ∧ p.2 ≤ 2 ^ 960) → ∀ (d d' : Dict V (Dict X ℚ × Bool)) (r r' : Dict (Finset V) (Dict (Rel V R) ℤ × Bool)),
    Weights d → l.foldlM (Space.activationStepFl oN oE oQ f ev) (d, r) = .ok (d', r') →
    Weights d' ∧ (Below d' → Below d ∧ l.foldlM (Space.activationStepOv oN oE oQ f ev) (embed d, r) = .ok (embed d', r')) := by
  intro l
  induction l with
  | nil =>
    intro _ d d' r r' hd h
    rw [List.foldlM_nil] at h
    cases h
    exact ⟨hd, fun hb => ⟨hb, rfl⟩⟩
  | cons p t ih =>
    intro hl d d' r r' hd h
    rw [List.foldlM_cons] at h
    cases h1 : Space.activationStepFl oN oE oQ f ev (d, r) p with
    | error e => rw [h1] at h; cases h
    | ok st =>
      obtain ⟨d1, r1⟩ := st
      rw [h1] at h
      obtain ⟨h2, h3⟩ := step_embed oN oE oQ f ev d d1 r r1 p hd (hl p List.mem_cons_self).1 (hl p List.mem_cons_self).2 h1
      obtain ⟨h4, h5⟩ := ih (fun p hp => hl p (List.mem_cons_of_mem _ hp)) d1 d' r1 r' h2 h
      refine ⟨h4, fun hb => ?_⟩
      obtain ⟨h6, h7⟩ := h5 hb
      obtain ⟨h8, h9⟩ := h3 h6
      refine ⟨h8, ?_⟩
      rw [List.foldlM_cons, h9]
      exact h7

/-- The activation graph with finite weights. -/
def finiteGraph (ag : ActivationGraph V X R) : ActivationGraphOv V X R :=
  ⟨ag.n, ag.nodes.map fun N => (N.var, N.values.mapVals some, N.inQuery), ag.edges⟩

theorem divideNodes_small (n : ℤ) (hn0 : 0 < n) (hn : n ≤ 2 ^ 960) : ∀ l : List (V × Dict X ℚ × Bool),
    (∀ p ∈ l, ∀ q ∈ p.2.1.entries, 0 ≤ q.2 ∧ fl (q.2 / fl (n : ℚ)) ≤ 4) →
    Space.divideNodesOv n (l.map fun p => (p.1, p.2.1.mapVals some, p.2.2)) =
      .ok (l.map fun p => (p.1, (p.2.1.mapVals fun w => fl (w / fl (n : ℚ))).mapVals some, p.2.2)) := by
  have hnq : (0 : ℚ) < n := by exact_mod_cast hn0
  have hnh : ¬ huge (n : ℚ) := not_huge_of_fl hnq.le (by
    have : (n : ℚ) ≤ 2 ^ 960 := by exact_mod_cast hn
    exact (fl_le isFloat_960 this).trans (by norm_num))
  intro l
  induction l with
  | nil => intro _; rfl
  | cons p t ih =>
    intro h
    obtain ⟨v, d, b⟩ := p
    rw [List.map_cons]
    unfold Space.divideNodesOv
    simp only
    have h1 : FoldedNode.divideOv n ((d.mapVals some).mapVals AccNum.float).entries =
        .ok ((d.entries.map fun p => (p.1, AccNum.float (some p.2))).map fun p => (p.1, match p.2 with
          | .float (some w) => some (fl (w / fl (n : ℚ)))
          | _ => none)) := by
      have he : ((d.mapVals some).mapVals AccNum.float).entries = d.entries.map fun p => (p.1, AccNum.float (some p.2)) := by
        simp [Dict.mapVals, List.map_map, Function.comp_def]
      rw [he]
      refine divide_ok n (fun a => match a with
          | .float (some w) => some (fl (w / fl (n : ℚ)))
          | _ => none) _ ?_
      intro p hp
      obtain ⟨q, hq, rfl⟩ := List.mem_map.1 hp
      obtain ⟨h2, h3⟩ := h (v, d, b) List.mem_cons_self q hq
      have h4 : ¬ huge (q.2 / fl (n : ℚ)) := not_huge_of_fl (div_nonneg h2 (fl_nonneg hnq.le)) (h3.trans (by norm_num))
      simp only [AccNum.divBy, if_neg hnh, if_neg hn0.ne', if_neg h4]
    rw [h1, ih fun p hp => h p (List.mem_cons_of_mem _ hp)]
    simp only [List.map_cons]
    congr 4
    apply Dict.ext
    rw [Dict.entries_ofList]
    · simp [Dict.mapVals, List.map_map, Function.comp_def]
    · rw [List.map_map, List.map_map]; exact d.nodup

/-- If the weights computed without an upper limit are at most 4, no infinity arises on the way. -/
theorem finite_run (cs : Space V X R) (ev : SampleGraph V X R) (hpos : Positive cs.outcomes) (hne : ∃ g, cs.outcomes.Occurs g)
    (hlen : cs.outcomes.length ≤ 2 ^ 960) (oI : Order (SampleGraph V X R × ℤ)) (oN : Order (Node V X)) (oE : Order (Edge V X R))
    (oQ : Order (Edge V X R × Bool)) (oX : Order X) (f : Option (Finset (Rel V R))) (ag : ActivationGraph V X R)
    (hag : cs.activationGraphFl oI oN oE oQ oX f ev = .ok ag) (hval' : ∀ N ∈ ag.nodes, ∀ x w, N.values.get? x = some w → w ≤ 4) :
    cs.activationGraphOv oI oN oE oQ oX f ev = .ok (finiteGraph ag) := by
  have hn0 : 0 < cs.outcomes.length := by
    obtain ⟨g, c, hg⟩ := hne
    exact lt_of_lt_of_le (hpos g c hg) (count_le_length _ hpos g c hg)
  have hnq : (1 : ℚ) ≤ (cs.outcomes.length : ℚ) := by exact_mod_cast hn0
  have hfn0 : (0 : ℚ) < fl (cs.outcomes.length : ℚ) := by
    have h2 := fl_mono hnq
    rw [show fl (1 : ℚ) = 1 by decide +kernel] at h2
    linarith
  have hfn1 : fl (cs.outcomes.length : ℚ) ≤ 2 ^ 960 := fl_le isFloat_960 (by exact_mod_cast hlen)
  unfold Space.activationGraphFl at hag
  cases hx : (oI.run cs.outcomes.items).foldlM (Space.activationStepFl oN oE oQ f ev) (cs.activationInit oX ev, Dict.empty) with
  | error e => rw [hx] at hag; cases hag
  | ok st =>
    obtain ⟨gv, gr⟩ := st
    rw [hx] at hag
    simp only at hag
    unfold Space.activationResultFl at hag
    simp only at hag
    split at hag
    · cases hag
    split at hag
    · cases hag
    rename_i hcard
    cases hag
    have hw0 : Weights (cs.activationInit oX ev) := by
      intro v m b hm x w hw
      unfold Space.activationInit at hm
      rw [Dict.get?_ofList _ (by rw [List.map_map]; exact cs.schema.vars.nodup)] at hm
      obtain ⟨p, -, e⟩ := List.mem_map.1 hm
      cases e
      rw [Dict.get?_ofList _ (by
        rw [List.map_map]
        show ((oX.run p.2).map id).Nodup
        rw [List.map_id]
        exact oX.nodup _)] at hw
      obtain ⟨y, -, e⟩ := List.mem_map.1 hw
      cases e
      exact ⟨by have := isFloat_int (k := 0) (by norm_num); simpa using this, le_rfl⟩
    obtain ⟨h1, h2⟩ := steps_embed oN oE oQ f ev _ (by
      rintro ⟨g, c⟩ hp
      rw [oI.mem, Samples.mem_items] at hp
      exact ⟨(hpos g c hp).le, (count_le_length _ hpos g c hp).trans hlen⟩) _ _ _ _ hw0 hx
    have hval : ∀ v m b, gv.get? v = some (m, b) → ∀ x w, m.get? x = some w → fl (w / fl (cs.outcomes.length : ℚ)) ≤ 4 := by
      intro v m b hm x w hw
      exact hval' _ (List.mem_map.2 ⟨(v, m, b), (Dict.mem_entries _ _ _).2 hm, rfl⟩) x _ (by simp only [Dict.get?_mapVals, hw, Option.map_some])
    have hb : Below gv := by
      intro v m b hm x w hw
      have h3 := hval v m b hm x w hw
      have h4 : w / fl (cs.outcomes.length : ℚ) ≤ 8 := by
        by_contra hlt
        rw [not_le] at hlt
        have h5 := fl_mono hlt.le
        rw [show fl (8 : ℚ) = 8 by decide +kernel] at h5
        linarith
      rw [div_le_iff₀ hfn0] at h4
      have h5 : (8 : ℚ) * 2 ^ 960 ≤ 2 ^ 1000 := by norm_num
      linarith
    obtain ⟨-, h3⟩ := h2 hb
    unfold Space.activationGraphOv
    unfold embed at h3
    rw [h3]
    simp only
    unfold Space.activationResultOv
    have h4 := divideNodes_small cs.outcomes.length hn0 hlen gv.entries (by
      rintro ⟨v, m, b⟩ hp ⟨x, w⟩ hq
      rw [Dict.mem_entries] at hp
      simp only at hq
      rw [Dict.mem_entries] at hq
      exact ⟨(h1 v m b hp x w hq).2, hval v m b hp x w hq⟩)
    have h5 : (gv.mapVals fun p => (p.1.mapVals (some : ℚ → Option ℚ), p.2)).entries = gv.entries.map fun p => (p.1, p.2.1.mapVals some, p.2.2) := rfl
    rw [h5, h4]
    simp only
    rw [if_neg hcard]
    simp [finiteGraph, List.map_map, Function.comp_def]

/-- **C104.** Up to `2 ^ 53` outcomes the upper limit of floats plays no role: `activation_graph` returns what C64 says, and no weight is infinite. -/
theorem C104_small (cs : Space V X R) (ev : SampleGraph V X R) (h : ConditionedOn cs ev) (hpos : Positive cs.outcomes)
    (hne : ∃ g, cs.outcomes.Occurs g) (hlen : cs.outcomes.length ≤ 2 ^ 53) (hsize : ∀ g, cs.outcomes.Occurs g → graphSize g ≤ 2 ^ 53)
    (oI : Order (SampleGraph V X R × ℤ)) (oN : Order (Node V X)) (oE : Order (Edge V X R))
    (oQ : Order (Edge V X R × Bool)) (oX : Order X) (f : Option (Finset (Rel V R))) :
    ∃ ag, cs.activationGraphOv oI oN oE oQ oX f ev = .ok (finiteGraph ag) ∧ ag.n = cs.outcomes.length ∧
      RoundedActiveNodes cs f ev ag ∧ ExactActiveEdges cs f ev ag := by
  obtain ⟨ag, hag, hn, hnodes, hedges⟩ := C64_activation_graph cs ev h hpos hne hlen hsize oI oN oE oQ oX f
  refine ⟨ag, finite_run cs ev hpos hne (hlen.trans (by norm_num)) oI oN oE oQ oX f ag hag ?_, hn, hnodes, hedges⟩
  intro N hN x w hw
  exact ((hnodes.2.2 N hN).2.2 x w hw).2.1.trans (by norm_num)

open Classical in
/-- The weight of one value, for up to `2 ^ 960` outcomes. -/
theorem weight_range (cs : Space V X R) (ev : SampleGraph V X R) (h : ConditionedOn cs ev) (hpos : Positive cs.outcomes)
    (hne : ∃ g, cs.outcomes.Occurs g) (hlen : cs.outcomes.length ≤ 2 ^ 960) (hsize : ∀ g, cs.outcomes.Occurs g → graphSize g ≤ 2 ^ 53)
    (oI : Order (SampleGraph V X R × ℤ)) (f : Option (Finset (Rel V R))) (n : Node V X) :
    let w := fl ((((oI.run cs.outcomes.items).filter fun p => ContributesTo f ev n p.1).map (addend ev n)).foldl (fun s x => fl (s + x)) 0 / fl (cs.outcomes.length : ℚ))
    Near (cs.outcomes.samples.entries.length + 6) w (activationWeight cs.outcomes f ev n) := by
  intro w
  have hN : 0 < cs.outcomes.length := by
    obtain ⟨g, c, hg⟩ := hne
    exact lt_of_lt_of_le (hpos g c hg) (count_le_length _ hpos g c hg)
  have hNq : (0 : ℚ) < (cs.outcomes.length : ℚ) := by exact_mod_cast hN
  have hN1 : (1 : ℚ) ≤ (cs.outcomes.length : ℚ) := by exact_mod_cast hN
  have hNb : (cs.outcomes.length : ℚ) ≤ 2 ^ 960 := by exact_mod_cast hlen
  have hu := uro_pos
  have hu1 := uro_lt_one
  set l := (oI.run cs.outcomes.items).filter fun p => ContributesTo f ev n p.1 with hl
  have hget : ∀ p ∈ l, cs.outcomes.samples.get? p.1 = some p.2 ∧ ContributesTo f ev n p.1 := by
    intro p hp
    rw [hl, List.mem_filter, oI.mem, Samples.mem_items, decide_eq_true_eq] at hp
    exact hp
  have hc0 : ∀ p ∈ l, 0 < p.2 := fun p hp => hpos _ _ (hget p hp).1
  have hll : l.length ≤ cs.outcomes.samples.entries.length := by
    have h1 := List.length_filter_le (fun p : SampleGraph V X R × ℤ => decide (ContributesTo f ev n p.1)) (oI.run cs.outcomes.items)
    rw [oI.length_run] at h1
    refine h1.trans ?_
    unfold Samples.items
    exact List.toFinset_card_le _
  have hratio : ∀ p ∈ l, n ∉ ev.nodes → 2 ^ (-53 : ℤ) ≤ (graphSize ev : ℚ) / (graphSize p.1 : ℚ) := by
    intro p hp hn
    have hr := (hget p hp).2
    unfold ContributesTo at hr
    rw [if_neg hn] at hr
    have hocc : cs.outcomes.Occurs p.1 := ⟨_, (hget p hp).1⟩
    have hcon := (reached_facts h f p.1 hocc n hr).1
    have hle : graphSize ev ≤ graphSize p.1 := Nat.add_le_add (Finset.card_le_card hcon.1) (Finset.card_le_card hcon.2)
    have hev : 1 ≤ graphSize ev := by
      have := Finset.card_pos.2 (Finset.nonempty_iff_ne_empty.2 h.evNonempty)
      unfold graphSize
      omega
    have hg : (0 : ℚ) < graphSize p.1 := by exact_mod_cast (by omega : 0 < graphSize p.1)
    have hgb : (graphSize p.1 : ℚ) ≤ 9007199254740992 := by exact_mod_cast hsize p.1 hocc
    have hevq : (1 : ℚ) ≤ graphSize ev := by exact_mod_cast hev
    rw [le_div_iff₀ hg]
    norm_num
    linarith
  have hf53 : IsFloat ((2 : ℚ) ^ (-53 : ℤ)) := ⟨1, -53, by norm_num, by norm_num, by simp⟩
  have htiny : (2 : ℚ) ^ (-1022 : ℤ) ≤ 2 ^ (-53 : ℤ) := zpow_le_zpow_right₀ (by norm_num) (by norm_num)
  have htiny1 : (2 : ℚ) ^ (-1022 : ℤ) ≤ 1 := by
    have := zpow_le_zpow_right₀ (a := (2 : ℚ)) (by norm_num) (by norm_num : (-1022 : ℤ) ≤ 0)
    rwa [zpow_zero] at this
  have hone : (2 : ℚ) ^ (-53 : ℤ) ≤ 1 := by norm_num
  have hadd : ∀ p ∈ l, 2 ^ (-53 : ℤ) ≤ addend ev n p ∧ IsFloat (addend ev n p) ∧ Near 3 (addend ev n p) (exactAddend ev n p) := by
    intro p hp
    have hc1 : (1 : ℚ) ≤ (p.2 : ℚ) := by exact_mod_cast hc0 p hp
    have hf1 : (1 : ℚ) ≤ fl (p.2 : ℚ) := le_fl isFloat_one hc1
    have nc : Near 1 (fl (p.2 : ℚ)) (p.2 : ℚ) := (near_refl _).fl (by linarith) (Or.inr (htiny1.trans hc1))
    unfold addend exactAddend
    by_cases hn : n ∈ ev.nodes
    · simp only [if_pos hn, one_mul, fl_of_isFloat (fl_isFloat (p.2 : ℚ))]
      exact ⟨hone.trans hf1, fl_isFloat _, nc.mono (by linarith) (by omega)⟩
    · simp only [if_neg hn]
      have r1 := hratio p hp hn
      generalize (graphSize ev : ℚ) / (graphSize p.1 : ℚ) = r at r1 ⊢
      have hr0 : 0 ≤ r := (two_pow_pos _).le.trans r1
      have f1 : 2 ^ (-53 : ℤ) ≤ fl r := le_fl hf53 r1
      have f0 : 0 ≤ fl r := (two_pow_pos _).le.trans f1
      have g1 : 2 ^ (-53 : ℤ) ≤ fl r * fl (p.2 : ℚ) := by nlinarith
      refine ⟨le_fl hf53 g1, fl_isFloat _, ?_⟩
      have n1 : Near 1 (fl r) r := (near_refl r).fl hr0 (Or.inr (htiny.trans r1))
      have n2 : Near 1 (fl r * fl (p.2 : ℚ)) (r * fl (p.2 : ℚ)) := n1.mul (by linarith)
      have n3 : Near 1 (r * fl (p.2 : ℚ)) (r * (p.2 : ℚ)) := by
        have := nc.mul hr0
        rwa [mul_comm _ r, mul_comm _ r] at this
      exact (n2.trans n3).fl (mul_nonneg hr0 (by linarith)) (Or.inr (htiny.trans g1))
  have hadd0 : ∀ x ∈ l.map (addend ev n), 0 ≤ x := by
    intro x hx
    obtain ⟨p, hp, rfl⟩ := List.mem_map.mp hx
    exact (two_pow_pos _).le.trans (hadd p hp).1
  have haddf : ∀ x ∈ l.map (addend ev n), IsFloat x := by
    intro x hx
    obtain ⟨p, hp, rfl⟩ := List.mem_map.mp hx
    exact (hadd p hp).2.1
  have hex0 : 0 ≤ (l.map (exactAddend ev n)).sum := by
    apply List.sum_nonneg
    intro x hx
    obtain ⟨p, hp, rfl⟩ := List.mem_map.mp hx
    have hc1 : (0 : ℚ) ≤ (p.2 : ℚ) := by exact_mod_cast (hc0 p hp).le
    unfold exactAddend
    split
    · exact hc1
    · positivity
  set acc := (l.map (addend ev n)).foldl (fun s x => fl (s + x)) 0 with hacc
  have hacc0 : 0 ≤ acc := le_foldl hadd0 isFloat_zero
  have hfn1 : (1 : ℚ) ≤ fl (cs.outcomes.length : ℚ) := le_fl isFloat_one hN1
  have hfn0 : (0 : ℚ) < fl (cs.outcomes.length : ℚ) := by linarith
  have hfnb : fl (cs.outcomes.length : ℚ) ≤ 2 ^ 960 := fl_le isFloat_960 hNb
  have nN : Near 1 (fl (cs.outcomes.length : ℚ)) (cs.outcomes.length : ℚ) := (near_refl _).fl hNq.le (Or.inr (htiny1.trans hN1))
  unfold Near at nN
  rw [pow_one, pow_one] at nN
  have ninv : Near 2 (1 / fl (cs.outcomes.length : ℚ)) (1 / (cs.outcomes.length : ℚ)) := by
    constructor
    · rw [le_div_iff₀ hfn0, mul_one_div, div_mul_eq_mul_div, div_le_one hNq]
      calc (1 - uro) ^ 2 * fl (cs.outcomes.length : ℚ) ≤ (1 - uro) ^ 2 * ((1 + uro) * cs.outcomes.length) :=
            mul_le_mul_of_nonneg_left nN.2 (by positivity)
        _ = ((1 - uro) ^ 2 * (1 + uro)) * cs.outcomes.length := by ring
        _ ≤ 1 * cs.outcomes.length := by
            refine mul_le_mul_of_nonneg_right ?_ hNq.le
            have he : (1 - uro) ^ 2 * (1 + uro) = 1 - uro - uro * uro * (1 - uro) := by ring
            have hp : 0 ≤ uro * uro * (1 - uro) := mul_nonneg (mul_nonneg hu.le hu.le) (by linarith)
            linarith
        _ = _ := one_mul _
    · rw [div_le_iff₀ hfn0, mul_one_div, div_mul_eq_mul_div, le_div_iff₀ hNq, one_mul]
      calc (cs.outcomes.length : ℚ) = 1 * cs.outcomes.length := (one_mul _).symm
        _ ≤ ((1 + uro) ^ 2 * (1 - uro)) * cs.outcomes.length := by
            refine mul_le_mul_of_nonneg_right ?_ hNq.le
            have hu2 : uro ≤ 1 / 4 := by unfold uro; norm_num
            nlinarith [mul_pos hu hu, mul_pos (mul_pos hu hu) hu]
        _ = (1 + uro) ^ 2 * ((1 - uro) * cs.outcomes.length) := by ring
        _ ≤ _ := mul_le_mul_of_nonneg_left nN.1 (by positivity)
  have hR : Roundable (acc / fl (cs.outcomes.length : ℚ)) := by
    by_cases hl0 : l = []
    · left; rw [hacc, hl0]; simp
    · right
      obtain ⟨p, hp⟩ := List.exists_mem_of_ne_nil l hl0
      have h1 := (hadd p hp).1.trans (mem_le_foldl hadd0 haddf le_rfl isFloat_zero _ (List.mem_map_of_mem hp))
      rw [le_div_iff₀ hfn0]
      refine le_trans ?_ h1
      calc (2 : ℚ) ^ (-1022 : ℤ) * fl (cs.outcomes.length : ℚ) ≤ 2 ^ (-1022 : ℤ) * 2 ^ (960 : ℤ) :=
            mul_le_mul_of_nonneg_left (by exact_mod_cast hfnb) (two_pow_pos _).le
        _ = 2 ^ (-62 : ℤ) := by rw [← zpow_add₀ (by norm_num)]; norm_num
        _ ≤ _ := zpow_le_zpow_right₀ (by norm_num) (by norm_num)
  have hW := exact_weight oI f cs ev n
  rw [← hl] at hW
  have hnear : Near (l.length + 3) acc (l.map (exactAddend ev n)).sum :=
    near_foldl l _ _ (fun p hp => (hadd p hp).2.2) (fun p hp => (two_pow_pos _).le.trans (hadd p hp).1) (fun p hp => (hadd p hp).2.1)
  have h2 := hnear.mul (c := 1 / fl (cs.outcomes.length : ℚ)) (by positivity)
  have h3 := ninv.mul hex0
  rw [mul_comm, mul_comm (1 / (cs.outcomes.length : ℚ))] at h3
  have h4 := h2.trans h3
  rw [mul_one_div, mul_one_div, hW] at h4
  have hW0 : 0 ≤ activationWeight cs.outcomes f ev n := by rw [← hW]; exact div_nonneg hex0 hNq.le
  exact (h4.fl hW0 hR).mono hW0 (by omega)

/-- The nodes of an activation graph as in C64, for more outcomes: the weights have a relative error of at most `(1 + 2 ^ -53) ^ (k + 6) - 1` for `k` different outcomes. -/
def NearActiveNodes (cs : Space V X R) (f : Option (Finset (Rel V R))) (ev : SampleGraph V X R) (ag : ActivationGraph V X R) : Prop :=
  (ag.nodes.map ActiveNode.var).Nodup ∧
  (∀ v, (∃ N ∈ ag.nodes, N.var = v) ↔ ∃ xs, cs.schema.vars.get? v = some xs) ∧
  ∀ N ∈ ag.nodes, (N.inQuery = true ↔ HasVar N.var ev) ∧
    (∀ x, (∃ w, N.values.get? x = some w) ↔ ∃ xs, cs.schema.vars.get? N.var = some xs ∧ x ∈ xs) ∧
    ∀ x w, N.values.get? x = some w →
      |w - activationWeight cs.outcomes f ev ⟨N.var, x⟩| ≤ ((1 + uro) ^ (cs.outcomes.samples.entries.length + 6) - 1) * activationWeight cs.outcomes f ev ⟨N.var, x⟩

/-- **C104.** Up to `2 ^ 960` outcomes, of which less than `2 ^ 52` are different: `activation_graph` returns, no weight is infinite, and the weights are near the exact ones. -/
theorem C104_range (cs : Space V X R) (ev : SampleGraph V X R) (h : ConditionedOn cs ev) (hpos : Positive cs.outcomes)
    (hne : ∃ g, cs.outcomes.Occurs g) (hlen : cs.outcomes.length ≤ 2 ^ 960) (hk : cs.outcomes.samples.entries.length + 6 ≤ 2 ^ 52)
    (hsize : ∀ g, cs.outcomes.Occurs g → graphSize g ≤ 2 ^ 53)
    (oI : Order (SampleGraph V X R × ℤ)) (oN : Order (Node V X)) (oE : Order (Edge V X R))
    (oQ : Order (Edge V X R × Bool)) (oX : Order X) (f : Option (Finset (Rel V R))) :
    ∃ ag, cs.activationGraphOv oI oN oE oQ oX f ev = .ok (finiteGraph ag) ∧ ag.n = cs.outcomes.length ∧
      NearActiveNodes cs f ev ag ∧ ExactActiveEdges cs f ev ag := by
  classical
  have hpow : (1 + uro) ^ (cs.outcomes.samples.entries.length + 6) ≤ 2 := by
    have hkq : ((cs.outcomes.samples.entries.length + 6 : ℕ) : ℚ) ≤ 2 ^ 52 := by exact_mod_cast hk
    have hu : uro = 1 / 2 ^ 53 := by unfold uro; norm_num
    have h1 : ((cs.outcomes.samples.entries.length + 6 : ℕ) : ℚ) * uro ≤ 1 / 2 := by
      calc ((cs.outcomes.samples.entries.length + 6 : ℕ) : ℚ) * uro ≤ 2 ^ 52 * uro := mul_le_mul_of_nonneg_right hkq uro_pos.le
        _ = 1 / 2 := by rw [hu]; norm_num
    refine (pow_upper (by linarith)).trans ?_
    rw [div_le_iff₀ (by linarith)]
    linarith
  have hocc := run_occurs oI cs.outcomes
  obtain ⟨ag, hag, -, -, hedges⟩ := C35_C36_activation_graph cs ev h hpos hne oI oN oE oQ oX f
  unfold Space.activationGraph at hag
  cases hx : (oI.run cs.outcomes.items).foldlM (Space.activationStep oN oE oQ f ev) (cs.activationInit oX ev, Dict.empty) with
  | error e => rw [hx] at hag; cases hag
  | ok st =>
    obtain ⟨gv0, gr⟩ := st
    rw [hx] at hag
    simp only at hag
    unfold Space.activationResult at hag
    simp only at hag
    split at hag
    · cases hag
    rename_i hz
    split at hag
    · cases hag
    rename_i hcard
    have hgr := foldlM_pair_snd _ Space.activationEdge (edgeContrib oN oE oQ f ev) _
      (fun p _ s t s' t' hs => activationStep_edges oN oE oQ f ev p s s' t t' hs) _ _ _ _ hx
    obtain ⟨gv, hgv, ninv⟩ := activationNodeFl_loop cs.schema.vars _ _ (activationInitFl_inv cs oX ev)
      ((oI.run cs.outcomes.items).flatMap (nodeContribFl oN oE f ev)) (by
        intro t ht
        obtain ⟨p, hp, ht⟩ := List.mem_flatMap.1 ht
        obtain ⟨h1, h2⟩ := mem_nodeContribFl h oN oE f p (hocc p hp) t ht
        exact ⟨(h.sound p.1 (hocc p hp)).1 t.1 h1, h2⟩)
    have hloop : (oI.run cs.outcomes.items).foldlM (Space.activationStepFl oN oE oQ f ev) (cs.activationInit oX ev, Dict.empty) =
        .ok (gv, gr) :=
      foldlM_pair _ Space.activationNodeFl Space.activationEdge (nodeContribFl oN oE f ev) (edgeContrib oN oE oQ f ev) _
        (fun p hp s t s' t' h1 h2 => activationStepFl_ok h oN oE oQ f p (hocc p hp) s s' t t' h1 h2) _ _ _ _ hgv hgr
    have hN : cs.outcomes.length ≠ 0 := by
      obtain ⟨g, c, hg⟩ := hne
      exact (lt_of_lt_of_le (hpos g c hg) (count_le_length _ hpos g c hg)).ne'
    have hfl : cs.activationGraphFl oI oN oE oQ oX f ev = .ok ⟨cs.outcomes.length,
        gv.entries.map fun p => ⟨p.1, p.2.1.mapVals fun w => fl (w / fl (cs.outcomes.length : ℚ)), p.2.2⟩,
        gr.entries.map fun p => ⟨p.1, p.2.1, p.2.2⟩⟩ := by
      unfold Space.activationGraphFl
      rw [hloop]
      simp only
      unfold Space.activationResultFl
      simp only
      rw [if_neg (fun hx => hN hx.1), if_neg hcard]
    have hnear : ∀ v m b, (v, m, b) ∈ gv.entries → ∀ x w, (m.mapVals fun w => fl (w / fl (cs.outcomes.length : ℚ))).get? x = some w →
        Near (cs.outcomes.samples.entries.length + 6) w (activationWeight cs.outcomes f ev ⟨v, x⟩) := by
      intro v m b hp x w hw
      have hvk : v ∈ cs.schema.vars.keys := by rw [← ninv.keys]; exact List.mem_map_of_mem (f := Prod.fst) hp
      obtain ⟨xs, hxs⟩ := (Dict.mem_keys _ _).1 hvk
      obtain ⟨m', hm', hmx⟩ := ninv.get v xs hxs
      rw [(Dict.mem_entries _ _ _).1 hp] at hm'
      cases hm'
      simp only [Dict.get?_mapVals, Option.map_eq_some_iff] at hw
      obtain ⟨q, hq, rfl⟩ := hw
      obtain ⟨_, rfl⟩ := (hmx x q).1 hq
      rw [weightFl_eq oI oN oE f cs ev h]
      exact weight_range cs ev h hpos hne hlen hsize oI f ⟨v, x⟩
    refine ⟨_, finite_run cs ev hpos hne hlen oI oN oE oQ oX f _ hfl ?_, rfl, ⟨?_, ?_, ?_⟩, ?_⟩
    · intro N hN' x w hw
      obtain ⟨⟨v, m, b⟩, hp, rfl⟩ := List.mem_map.1 hN'
      obtain ⟨hb0, hb1⟩ := activationWeight_bounds cs ev h hpos hne f ⟨v, x⟩
      have h1 := (hnear v m b hp x w hw).2
      nlinarith [mul_le_mul_of_nonneg_right hpow hb0]
    · rw [List.map_map]; exact gv.nodup
    · intro v
      rw [← Dict.mem_keys, ← ninv.keys]
      simp only [List.mem_map, Dict.keys]
      constructor
      · rintro ⟨_, ⟨p, hp, rfl⟩, rfl⟩; exact ⟨p, hp, rfl⟩
      · rintro ⟨p, hp, rfl⟩; exact ⟨_, ⟨p, hp, rfl⟩, rfl⟩
    · intro N hN'
      obtain ⟨⟨v, m, b⟩, hp, rfl⟩ := List.mem_map.1 hN'
      have hvk : v ∈ cs.schema.vars.keys := by rw [← ninv.keys]; exact List.mem_map_of_mem (f := Prod.fst) hp
      obtain ⟨xs, hxs⟩ := (Dict.mem_keys _ _).1 hvk
      obtain ⟨m', hm', hmx⟩ := ninv.get v xs hxs
      rw [(Dict.mem_entries _ _ _).1 hp] at hm'
      cases hm'
      refine ⟨?_, ?_, ?_⟩
      · simp only
        rw [decide_eq_true_eq, mem_includedVariables]
      · intro x
        simp only [Dict.get?_mapVals, Option.map_eq_some_iff]
        constructor
        · rintro ⟨_, q, hq, rfl⟩
          exact ⟨xs, hxs, ((hmx x q).1 hq).1⟩
        · rintro ⟨xs', hxs', hx'⟩
          rw [hxs] at hxs'
          cases hxs'
          exact ⟨_, _, (hmx x _).2 ⟨hx', rfl⟩, rfl⟩
      · intro x w hw
        exact (hnear v m _ hp x w hw).abs (activationWeight_bounds cs ev h hpos hne f ⟨v, x⟩).1
    · have := Except.ok.inj hag
      subst this
      exact hedges

/-- **C104.** All three, beginning with the relation graph and the evidence. -/
theorem C104_activation (sp : Space V X R) (hsp : GoodSpace sp) (ev : Sample V X R) (hev : GoodEvidence ev.graph)
    (oC : Order (SampleGraph V X R × ℤ)) (cs : Space V X R) (hc : sp.conditionalGraph oC ev = .ok cs) (hne : ∃ g, cs.outcomes.Occurs g)
    (oI : Order (SampleGraph V X R × ℤ)) (oN : Order (Node V X)) (oE : Order (Edge V X R))
    (oQ : Order (Edge V X R × Bool)) (oX : Order X) (f : Option (Finset (Rel V R))) :
    (2 ^ 1024 ≤ cs.outcomes.length → (∃ v xs, sp.schema.vars.get? v = some xs ∧ xs.Nonempty) →
      cs.activationGraphOv oI oN oE oQ oX f ev.graph = .error .overflow) ∧
    (cs.outcomes.length ≤ 2 ^ 960 → cs.outcomes.samples.entries.length + 6 ≤ 2 ^ 52 → (∀ g, cs.outcomes.Occurs g → graphSize g ≤ 2 ^ 53) →
      ∃ ag, cs.activationGraphOv oI oN oE oQ oX f ev.graph = .ok (finiteGraph ag) ∧ ag.n = cs.outcomes.length ∧
        NearActiveNodes cs f ev.graph ag ∧ ExactActiveEdges cs f ev.graph ag) ∧
    (cs.outcomes.length ≤ 2 ^ 53 → (∀ g, cs.outcomes.Occurs g → graphSize g ≤ 2 ^ 53) →
      ∃ ag, cs.activationGraphOv oI oN oE oQ oX f ev.graph = .ok (finiteGraph ag) ∧ ag.n = cs.outcomes.length ∧
        RoundedActiveNodes cs f ev.graph ag ∧ ExactActiveEdges cs f ev.graph ag) := by
  obtain ⟨h1, h2, h3⟩ := conditionedOn_of_conditional sp hsp ev hev oC cs hc
  refine ⟨fun hn hv => ?_, fun hn hk hs => C104_range cs ev.graph h1 h2 hne hn hk hs oI oN oE oQ oX f,
    fun hn hs => C104_small cs ev.graph h1 h2 hne hn hs oI oN oE oQ oX f⟩
  exact C104_overflow cs ev.graph h1 h2 hne (huge_of_le (by exact_mod_cast hn)) (by rw [h3]; exact hv) oI oN oE oQ oX f

/-- The demo space with the same count for both samples. -/
def twoSpace (c : ℤ) : Space ℕ ℕ ℕ :=
  ⟨demoSpace.schema, ⟨0, ⟨[(oneEdge ⟨0, 0⟩ ⟨1, 0⟩, c), (oneEdge ⟨0, 1⟩ ⟨2, 0⟩, c)], by
    show [oneEdge (⟨0, 0⟩ : Node ℕ ℕ) ⟨1, 0⟩, oneEdge ⟨0, 1⟩ ⟨2, 0⟩].Nodup
    decide⟩⟩, none⟩

theorem two_get (k : ℤ) (g : SampleGraph ℕ ℕ ℕ) (c : ℤ) : (twoSpace k).outcomes.samples.get? g = some c ↔
    (g = oneEdge ⟨0, 0⟩ ⟨1, 0⟩ ∨ g = oneEdge ⟨0, 1⟩ ⟨2, 0⟩) ∧ c = k := by
  rw [← Dict.mem_entries]
  simp only [twoSpace, List.mem_cons, Prod.mk.injEq, List.not_mem_nil, or_false]
  tauto

theorem two_occurs (k : ℤ) (g : SampleGraph ℕ ℕ ℕ) : (twoSpace k).outcomes.Occurs g ↔ demoSpace.outcomes.Occurs g := by
  rw [demoSpace_occurs]
  constructor
  · rintro ⟨c, hc⟩; exact ((two_get k g c).1 hc).1
  · intro h; exact ⟨_, (two_get k g _).2 ⟨h, rfl⟩⟩

theorem twoSpace_good (k : ℤ) (hk : 0 < k) : GoodSpace (twoSpace k) := by
  refine ⟨?_, fun g hg => demoSpace_wf g ((two_occurs k g).1 hg), fun g hg => demoSpace_single g ((two_occurs k g).1 hg), ?_⟩
  · intro g hg
    rw [two_occurs] at hg
    refine ⟨?_, (demoSpace_wf g hg).good⟩
    rw [demoSpace_occurs] at hg
    rcases hg with rfl | rfl
    · intro n hn
      simp only [oneEdge, Finset.mem_insert, Finset.mem_singleton] at hn
      rcases hn with rfl | rfl
      · exact ⟨{0, 1}, rfl, by decide⟩
      · exact ⟨{0}, rfl, by decide⟩
    · intro n hn
      simp only [oneEdge, Finset.mem_insert, Finset.mem_singleton] at hn
      rcases hn with rfl | rfl
      · exact ⟨{0, 1}, rfl, by decide⟩
      · exact ⟨{0, 1}, rfl, by decide⟩
  · intro g c hg
    rw [((two_get k g c).1 hg).2]
    exact hk

/-- Conditioned on "variable 1 has value 0" the space keeps both samples. -/
theorem two_conditional (k : ℤ) (oC : Order (SampleGraph ℕ ℕ ℕ × ℤ)) :
    ∃ cs, (twoSpace k).conditionalGraph oC ⟨0, ⟨{⟨1, 0⟩}, ∅⟩⟩ = .ok cs ∧ cs.outcomes.length = k + k ∧ cs.outcomes.samples.entries.length = 2 ∧
      (∀ g, cs.outcomes.Occurs g ↔ demoSpace.outcomes.Occurs g) ∧ GoodEvidence (⟨{⟨1, 0⟩}, ∅⟩ : SampleGraph ℕ ℕ ℕ) := by
  obtain ⟨cs, hc, -, -, -, hg⟩ := (C34_conditional_graph (twoSpace k) oC ⟨0, ⟨{⟨1, 0⟩}, ∅⟩⟩).1 rfl
  have hg' : ∀ g c, cs.outcomes.samples.get? g = some c ↔ (twoSpace k).outcomes.samples.get? g = some c := by
    intro g c
    rw [hg]
    refine ⟨fun h => h.1, fun h => ⟨h, ?_⟩⟩
    rcases ((two_get k g c).1 h).1 with rfl | rfl
    · exact Or.inl (by simp [ContainsGraph, oneEdge])
    · exact Or.inr (by simp [NoCommonVariable, oneEdge])
  have h1 : cs.outcomes.samples.entries.Perm (twoSpace k).outcomes.samples.entries := by
    rw [List.perm_ext_iff_of_nodup (Dict.nodup_entries _) (Dict.nodup_entries _)]
    rintro ⟨g, c⟩
    rw [Dict.mem_entries, Dict.mem_entries, hg']
  refine ⟨cs, hc, ?_, h1.length_eq, ?_, ⟨by simp, ?_, by simp, by simp⟩⟩
  · have h2 : cs.outcomes.items = (twoSpace k).outcomes.items := by
      ext ⟨g, c⟩
      rw [Samples.mem_items, Samples.mem_items, hg']
    have h3 : (twoSpace k).outcomes.length = k + k := by simp [Samples.length, twoSpace, Dict.vals]
    rw [length_eq_sum] at h3 ⊢
    rw [h2, h3]
  · intro g
    rw [← two_occurs k]
    unfold Samples.Occurs
    simp only [hg']
  · intro a ha b hb _
    simp only [Finset.mem_singleton] at ha hb
    rw [ha, hb]

/-- **C104**, two cases, which also meet the hypotheses: with two samples counted `2 ^ 1023` times each the conditional graph is made, but its `activation_graph` raises
`OverflowError` for every filter and order; counted `2 ^ 900` times each it returns finite weights near the exact ones. -/
theorem C104_case (oC oI : Order (SampleGraph ℕ ℕ ℕ × ℤ)) (oN : Order (Node ℕ ℕ)) (oE : Order (Edge ℕ ℕ ℕ))
    (oQ : Order (Edge ℕ ℕ ℕ × Bool)) (oX : Order ℕ) (f : Option (Finset (Rel ℕ ℕ))) :
    (∃ cs, (twoSpace (2 ^ 1023)).conditionalGraph oC ⟨0, ⟨{⟨1, 0⟩}, ∅⟩⟩ = .ok cs ∧ cs.outcomes.length = 2 ^ 1024 ∧
      cs.activationGraphOv oI oN oE oQ oX f ⟨{⟨1, 0⟩}, ∅⟩ = .error .overflow) ∧
    ∃ cs, (twoSpace (2 ^ 900)).conditionalGraph oC ⟨0, ⟨{⟨1, 0⟩}, ∅⟩⟩ = .ok cs ∧ cs.outcomes.length = 2 ^ 901 ∧
      ∃ ag, cs.activationGraphOv oI oN oE oQ oX f ⟨{⟨1, 0⟩}, ∅⟩ = .ok (finiteGraph ag) ∧ NearActiveNodes cs f ⟨{⟨1, 0⟩}, ∅⟩ ag := by
  constructor
  · obtain ⟨cs, hc, hlen, -, hocc, hev⟩ := two_conditional (2 ^ 1023) oC
    have hlen' : cs.outcomes.length = 2 ^ 1024 := hlen.trans (by norm_num)
    have hne : ∃ g, cs.outcomes.Occurs g := ⟨_, (hocc _).2 ((demoSpace_occurs _).2 (Or.inl rfl))⟩
    have hv : ∃ v xs, (twoSpace (2 ^ 1023)).schema.vars.get? v = some xs ∧ xs.Nonempty := ⟨1, {0}, rfl, Finset.singleton_nonempty 0⟩
    have hle : 2 ^ 1024 ≤ cs.outcomes.length := le_of_eq hlen'.symm
    exact ⟨cs, hc, hlen', (C104_activation _ (twoSpace_good _ (by positivity)) _ hev oC cs hc hne oI oN oE oQ oX f).1 hle hv⟩
  · obtain ⟨cs, hc, hlen, hk, hocc, hev⟩ := two_conditional (2 ^ 900) oC
    have hlen' : cs.outcomes.length = 2 ^ 901 := hlen.trans (by norm_num)
    have hne : ∃ g, cs.outcomes.Occurs g := ⟨_, (hocc _).2 ((demoSpace_occurs _).2 (Or.inl rfl))⟩
    have hle : cs.outcomes.length ≤ 2 ^ 960 := by rw [hlen']; norm_num
    have hs : ∀ g, cs.outcomes.Occurs g → graphSize g ≤ 2 ^ 53 := by
      intro g hg
      rw [hocc, demoSpace_occurs] at hg
      rcases hg with rfl | rfl <;> decide
    obtain ⟨ag, h1, -, h2, -⟩ := (C104_activation _ (twoSpace_good _ (by positivity)) _ hev oC cs hc hne oI oN oE oQ oX f).2.1 hle (by rw [hk]; norm_num) hs
    exact ⟨cs, hc, hlen', ag, h1, h2⟩

end BigCounts
end Verif
