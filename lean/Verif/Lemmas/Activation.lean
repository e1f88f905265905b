import Verif.Model.Conditional
import Verif.Lemmas.SampleSpace

/-!
# Lemmas about the loops of `activation_graph`
-/

set_option linter.unusedSectionVars false

namespace Verif

section
variable {K A B : Type} [DecidableEq K]

theorem map_assocSet (l : List (K × A)) (k : K) (a : A) (f : A → B) :
    (assocSet l k a).map (fun p => (p.1, f p.2)) = assocSet (l.map fun p => (p.1, f p.2)) k (f a) := by
  induction l with
  | nil => rfl
  | cons p t ih =>
    simp only [assocSet, List.map_cons]
    split
    · rfl
    · simp only [List.map_cons, ih]

theorem Dict.mapVals_set (d : Dict K A) (k : K) (a : A) (f : A → B) : (d.set k a).mapVals f = (d.mapVals f).set k (f a) := by
  apply Dict.ext
  exact map_assocSet d.entries k a f

end

section
variable {V X R : Type} [DecidableEq V] [DecidableEq X] [DecidableEq R]

/-- Running two independent loops in lock step. -/
theorem foldlM_pair {σ τ P A B : Type} (f : σ × τ → P → Py (σ × τ)) (fa : σ → A → Py σ) (fb : τ → B → Py τ)
    (la : P → List A) (lb : P → List B) (l : List P)
    (h : ∀ p ∈ l, ∀ s t s' t', (la p).foldlM fa s = .ok s' → (lb p).foldlM fb t = .ok t' → f (s, t) p = .ok (s', t'))
    (s : σ) (t : τ) (s' : σ) (t' : τ) (hs : (l.flatMap la).foldlM fa s = .ok s') (ht : (l.flatMap lb).foldlM fb t = .ok t') :
    l.foldlM f (s, t) = .ok (s', t') := by
  induction l generalizing s t with
  | nil =>
    simp only [List.flatMap_nil, List.foldlM_nil] at hs ht ⊢
    cases hs; cases ht; rfl
  | cons p r ih =>
    rw [List.flatMap_cons, List.foldlM_append] at hs ht
    cases h1 : (la p).foldlM fa s with
    | error e => rw [h1] at hs; cases hs
    | ok s1 =>
      cases h2 : (lb p).foldlM fb t with
      | error e => rw [h2] at ht; cases ht
      | ok t1 =>
        rw [h1] at hs
        rw [h2] at ht
        rw [List.foldlM_cons, h p (by simp) s t s1 t1 h1 h2]
        exact ih (fun q hq => h q (by simp [hq])) s1 t1 hs ht

/-- The weights collected for one node. -/
def weightOf (L : List (Node V X × ℚ × Bool)) (n : Node V X) : ℚ := ((L.filter fun t => t.1 = n).map fun t => t.2.1).sum

theorem weightOf_append (L M : List (Node V X × ℚ × Bool)) (n : Node V X) :
    weightOf (L ++ M) n = weightOf L n + weightOf M n := by
  simp [weightOf, List.filter_append]

theorem weightOf_flatMap {P : Type} (l : List P) (f : P → List (Node V X × ℚ × Bool)) (n : Node V X) :
    weightOf (l.flatMap f) n = (l.map fun p => weightOf (f p) n).sum := by
  induction l with
  | nil => rfl
  | cons p t ih => rw [List.flatMap_cons, weightOf_append, ih, List.map_cons, List.sum_cons]

theorem weightOf_const (l : List (Node V X)) (hl : l.Nodup) (w : ℚ) (b : Bool) (n : Node V X) :
    weightOf (l.map fun m => (m, w, b)) n = if n ∈ l then w else 0 := by
  induction l with
  | nil => simp [weightOf]
  | cons m t ih =>
    rw [List.nodup_cons] at hl
    have ih' := ih hl.2
    have hsplit : weightOf ((m :: t).map fun m => (m, w, b)) n = (if m = n then w else 0) +
        weightOf (t.map fun m => (m, w, b)) n := by
      unfold weightOf
      rw [List.map_cons, List.filter_cons]
      by_cases h : m = n <;> simp [h]
    rw [hsplit, ih']
    by_cases h : m = n
    · subst h
      simp [hl.1]
    · by_cases h' : n ∈ t
      · simp [h, h']
      · simp [h, h', Ne.symm h]

/-- What `grouped_values` contains after the contributions `L`. -/
structure NodeInv (vars : Dict V (Finset X)) (inq : V → Bool) (L : List (Node V X × ℚ × Bool))
    (gv : Dict V (Dict X ℚ × Bool)) : Prop where
  keys : gv.keys = vars.keys
  get : ∀ v xs, vars.get? v = some xs → ∃ m, gv.get? v = some (m, inq v) ∧
    ∀ x q, m.get? x = some q ↔ x ∈ xs ∧ q = weightOf L ⟨v, x⟩

theorem keys_assocSet_mem {K A : Type} [DecidableEq K] (l : List (K × A)) (k : K) (a : A) (h : k ∈ l.map Prod.fst) :
    (assocSet l k a).map Prod.fst = l.map Prod.fst := by
  induction l with
  | nil => simp at h
  | cons p t ih =>
    obtain ⟨k', a'⟩ := p
    simp only [assocSet]
    split
    · rename_i hk; simp [hk]
    · rename_i hk
      simp only [List.map_cons, List.mem_cons] at h ⊢
      rw [ih (h.resolve_left (fun hh => hk hh.symm))]

theorem Dict.keys_set_mem {K A : Type} [DecidableEq K] (d : Dict K A) (k : K) (a : A) (h : k ∈ d.keys) :
    (d.set k a).keys = d.keys := keys_assocSet_mem d.entries k a h

theorem activationNode_loop (vars : Dict V (Finset X)) (inq : V → Bool) (gv0 : Dict V (Dict X ℚ × Bool))
    (h0 : NodeInv vars inq [] gv0) (L : List (Node V X × ℚ × Bool))
    (hL : ∀ t ∈ L, (∃ xs, vars.get? t.1.var = some xs ∧ t.1.val ∈ xs) ∧ t.2.2 = inq t.1.var) :
    ∃ gv, L.foldlM Space.activationNode gv0 = .ok gv ∧ NodeInv vars inq L gv := by
  induction L using List.reverseRecOn with
  | nil => exact ⟨gv0, rfl, h0⟩
  | append_singleton L t ih =>
    obtain ⟨gv, hgv, inv⟩ := ih (fun s hs => hL s (by simp [hs]))
    obtain ⟨⟨xs, hxs, hx⟩, hq⟩ := hL t (by simp)
    obtain ⟨⟨v, x⟩, w, b⟩ := t
    simp only at hxs hx hq
    obtain ⟨m, hm, hmx⟩ := inv.get v xs hxs
    have hw := (hmx x _).2 ⟨hx, rfl⟩
    have hv : v ∈ gv.keys := (Dict.mem_keys _ _).2 ⟨_, hm⟩
    refine ⟨gv.set v (m.set x (weightOf L ⟨v, x⟩ + w), inq v), ?_, ?_⟩
    · rw [List.foldlM_append, hgv]
      simp only [List.foldlM_cons, List.foldlM_nil, bind_pure]
      show Space.activationNode gv (⟨v, x⟩, w, b) = _
      unfold Space.activationNode
      simp only [hm, hq, ne_eq, not_true_eq_false, if_false, hw]
    · refine ⟨?_, ?_⟩
      · rw [Dict.keys_set_mem _ _ _ hv, inv.keys]
      · intro v' xs' hxs'
        rw [Dict.get?_set]
        by_cases hvv : v = v'
        · subst hvv
          rw [hxs] at hxs'
          cases hxs'
          rw [if_pos rfl]
          refine ⟨_, rfl, ?_⟩
          intro y q
          rw [Dict.get?_set, weightOf_append]
          by_cases hxy : x = y
          · subst hxy
            rw [if_pos rfl]
            simp only [Option.some.injEq, hx, true_and, weightOf, List.filter_cons, decide_true, if_true, List.filter_nil,
              List.map_cons, List.map_nil, List.sum_cons, List.sum_nil, add_zero]
            exact eq_comm
          · rw [if_neg hxy, hmx]
            have : weightOf [((⟨v, x⟩ : Node V X), w, b)] ⟨v, y⟩ = 0 := by simp [weightOf, hxy]
            rw [this, add_zero]
        · rw [if_neg hvv]
          obtain ⟨m', hm', hmx'⟩ := inv.get v' xs' hxs'
          refine ⟨m', hm', ?_⟩
          intro y q
          rw [hmx', weightOf_append]
          have : weightOf [((⟨v, x⟩ : Node V X), w, b)] ⟨v', y⟩ = 0 := by simp [weightOf, hvv]
          rw [this, add_zero]

theorem activationInit_inv (sp : Space V X R) (oX : Order X) (ev : SampleGraph V X R) :
    NodeInv sp.schema.vars (fun v => decide (v ∈ ev.includedVariables)) [] (sp.activationInit oX ev) := by
  have hnd : ((sp.schema.vars.entries.map fun p =>
    (p.1, (Dict.ofList ((oX.run p.2).map fun x => (x, (0 : ℚ))), decide (p.1 ∈ ev.includedVariables)))).map Prod.fst).Nodup := by
    rw [List.map_map]; exact sp.schema.vars.nodup
  refine ⟨?_, ?_⟩
  · unfold Space.activationInit Dict.keys
    rw [Dict.entries_ofList _ hnd, List.map_map]
    rfl
  · intro v xs hxs
    refine ⟨Dict.ofList ((oX.run xs).map fun x => (x, (0 : ℚ))), ?_, ?_⟩
    · unfold Space.activationInit
      rw [Dict.get?_ofList _ hnd, List.mem_map]
      exact ⟨(v, xs), (Dict.mem_entries _ _ _).2 hxs, rfl⟩
    · intro x q
      have hnd' : ((((oX.run xs).map fun x => (x, (0 : ℚ)))).map Prod.fst).Nodup := by
        rw [List.map_map]
        show ((oX.run xs).map id).Nodup
        rw [List.map_id]
        exact oX.nodup _
      rw [Dict.get?_ofList _ hnd', List.mem_map]
      simp only [oX.mem, Prod.mk.injEq, weightOf, List.filter_nil, List.map_nil, List.sum_nil]
      constructor
      · rintro ⟨y, hy, rfl, rfl⟩; exact ⟨hy, rfl⟩
      · rintro ⟨hx, rfl⟩; exact ⟨x, hx, rfl, rfl⟩

/-- The key and sub-key an edge is counted under. -/
def edgeTally (t : (Edge V X R × Bool) × ℤ) : (Finset V × Rel V R) × ℤ := ((t.1.1.vars, t.1.1.relation), t.2)

/-- What `grouped_relations` contains after the contributions `L`. -/
structure EdgeInv (L : List ((Edge V X R × Bool) × ℤ)) (gr : Dict (Finset V) (Dict (Rel V R) ℤ × Bool)) : Prop where
  tally : gr.mapVals Prod.fst = tally (L.map edgeTally)
  flag : ∀ P m b, gr.get? P = some (m, b) → ∃ t ∈ L, t.1.1.vars = P ∧ t.1.2 = b

theorem activationEdge_loop (L : List ((Edge V X R × Bool) × ℤ))
    (hL : ∀ t ∈ L, ∀ s ∈ L, t.1.1.vars = s.1.1.vars → t.1.2 = s.1.2) :
    ∃ gr, L.foldlM Space.activationEdge (Dict.empty : Dict (Finset V) (Dict (Rel V R) ℤ × Bool)) = .ok gr ∧ EdgeInv L gr := by
  induction L using List.reverseRecOn with
  | nil => exact ⟨Dict.empty, rfl, ⟨rfl, by simp⟩⟩
  | append_singleton L t ih =>
    obtain ⟨gr, hgr, inv⟩ := ih (fun s hs s' hs' => hL s (by simp [hs]) s' (by simp [hs']))
    rw [List.foldlM_append, hgr]
    simp only [List.foldlM_cons, List.foldlM_nil, bind_pure]
    show ∃ gr', Space.activationEdge gr t = .ok gr' ∧ _
    have htl : Verif.tally ((L ++ [t]).map edgeTally) =
        bump (gr.mapVals Prod.fst) t.1.1.vars t.1.1.relation t.2 := by
      rw [inv.tally]
      unfold Verif.tally
      rw [List.map_append, List.foldl_append]
      rfl
    unfold Space.activationEdge
    cases hg : gr.get? t.1.1.vars with
    | none =>
      refine ⟨_, rfl, ?_, ?_⟩
      · rw [htl, Dict.mapVals_set]
        unfold bump
        rw [Dict.get?_mapVals, hg]
        rfl
      · intro P m b h
        rw [Dict.get?_set] at h
        split at h
        · rename_i hP
          cases h
          exact ⟨t, by simp, hP, rfl⟩
        · obtain ⟨s, hs, h1, h2⟩ := inv.flag P m b h
          exact ⟨s, by simp [hs], h1, h2⟩
    | some p =>
      obtain ⟨m0, b0⟩ := p
      obtain ⟨s0, hs0, h01, h02⟩ := inv.flag _ _ _ hg
      have hb : t.1.2 = b0 := by rw [← h02]; exact hL t (by simp) s0 (by simp [hs0]) h01.symm
      simp only [hb, ne_eq, not_true_eq_false, if_false]
      refine ⟨_, rfl, ?_, ?_⟩
      · rw [htl, Dict.mapVals_set]
        unfold bump
        rw [Dict.get?_mapVals, hg]
        rfl
      · intro P m b h
        rw [Dict.get?_set] at h
        split at h
        · rename_i hP
          cases h
          exact ⟨t, by simp, hP, hb⟩
        · obtain ⟨s, hs, h1, h2⟩ := inv.flag P m b h
          exact ⟨s, by simp [hs], h1, h2⟩

end
end Verif
