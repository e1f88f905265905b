import Verif.Props.Drawing

/-!
# Drawings of folded graphs and activation graphs: C66

What the networks built by `FoldedGraph.visualize` and `ActivationGraph.visualize` show.
-/

set_option linter.unusedSectionVars false

namespace Verif
section
variable {V X R : Type} [DecidableEq V] [DecidableEq X] [DecidableEq R]

theorem firstTwo_ok (oV : Order V) (P : Finset V) (h : P.card = 2) : ∃ a b, firstTwo oV P = .ok (a, b) ∧ P = {a, b} := by
  unfold firstTwo
  have hl := oV.length_run P
  have hm := oV.toFinset_run P
  rw [h] at hl
  match hr : oV.run P, hl with
  | [a, b], _ =>
    rw [hr] at hm
    exact ⟨a, b, rfl, by rw [← hm]; simp⟩

/-- The label of a variable in the picture of the folded graph: `parts` in some order, then the number of outcomes without the
variable. -/
def FoldedLabel (t : Texts V X R) (v : V) (parts : List Str) (u : ℤ) : Str :=
  t.var v ++ [':', '{'] ++ joinStr [','] parts ++ [',', ' '] ++ counted ['u'] u ++ ['}']

/-- A comprehension of calls whose results are described by `Q`. -/
theorem mapM_calls {A D I : Type} (c : D → DrawOp I) (f : A → Py (DrawOp I)) (Q : A → D → Prop) (l : List A)
    (h : ∀ x ∈ l, ∃ d, f x = .ok (c d) ∧ Q x d) : ∃ ds : List D, l.mapM f = .ok (ds.map c) ∧ List.Forall₂ Q l ds := by
  induction l with
  | nil => exact ⟨[], rfl, .nil⟩
  | cons x t ih =>
    obtain ⟨d, h1, h2⟩ := h x (by simp)
    obtain ⟨ds, h3, h4⟩ := ih (fun y hy => h y (by simp [hy]))
    refine ⟨d :: ds, ?_, .cons h2 h4⟩
    rw [List.mapM_cons, h1, h3]
    rfl

theorem forall₂_map_eq {A D B : Type} {Q : A → D → Prop} (a : A → B) (d : D → B) (hQ : ∀ x y, Q x y → d y = a x) {l : List A}
    {ds : List D} (h : List.Forall₂ Q l ds) : ds.map d = l.map a := by
  induction h with
  | nil => rfl
  | cons h1 _ ih => rw [List.map_cons, List.map_cons, hQ _ _ h1, ih]

theorem forall₂_mem {A D : Type} {Q : A → D → Prop} {l : List A} {ds : List D} (h : List.Forall₂ Q l ds) :
    (∀ d ∈ ds, ∃ x ∈ l, Q x d) ∧ ∀ x ∈ l, ∃ d ∈ ds, Q x d := by
  induction h with
  | nil => simp
  | cons h1 _ ih =>
    constructor
    · intro d hd
      rcases List.mem_cons.1 hd with rfl | hd
      · exact ⟨_, by simp, h1⟩
      · obtain ⟨x, hx, hq⟩ := ih.1 d hd
        exact ⟨x, by simp [hx], hq⟩
    · intro x hx
      rcases List.mem_cons.1 hx with rfl | hx
      · exact ⟨_, by simp, h1⟩
      · obtain ⟨d, hd, hq⟩ := ih.2 x hx
        exact ⟨d, by simp [hd], hq⟩

/-- **C66.** `FoldedGraph.visualize` never raises. Every declared variable is drawn once; gray, with all values at 0, are exactly the
variables that occur in no outcome; the others are labelled with their occurring values and the numbers of outcomes. Two variables
are joined, once, iff some outcome relates them; the label lists the texts `relation(count)` of the edges between them without
repetition. -/
theorem C66_folded (t : Texts V X R) (sp : Space V X R) (hsp : GoodSpace sp) (oI : Order (SampleGraph V X R × ℤ))
    (oN : Order (Node V X)) (oE : Order (Edge V X R)) (f : FoldedGraph V X R) (hf : sp.foldedGraph oI oN oE = .ok f)
    (oV : Order V) (oX : Order X) (oS : Order Str) (lN : List (FoldedNode V X)) (lE : List (FoldedEdge V X R))
    (lV : List (V × Finset X)) (hN : lN.Perm f.nodes) (hE : lE.Perm f.edges) (hV : lV.Perm sp.schema.vars.entries) :
    ∃ net, f.visualize t oV oX oS lN lE lV = .ok net ∧ net.ids.Nodup ∧
      (∀ v, v ∈ net.ids ↔ ∃ xs, sp.schema.vars.get? v = some xs) ∧
      (∀ d ∈ net.nodes, (∃ g, sp.outcomes.Occurs g ∧ HasVar d.id g) → d.color = none ∧
        ∃ parts : List Str, d.label = FoldedLabel t d.id parts (mass sp.outcomes fun g => ¬ HasVar d.id g) ∧ parts.Nodup ∧
          ∀ s, s ∈ parts ↔ ∃ x, (∃ g, sp.outcomes.Occurs g ∧ HasValue d.id x g) ∧
            s = counted (t.val x) (mass sp.outcomes (HasValue d.id x))) ∧
      (∀ d ∈ net.nodes, (¬ ∃ g, sp.outcomes.Occurs g ∧ HasVar d.id g) → d.color = some gray ∧
        ∃ parts : List Str, d.label = FoldedLabel t d.id parts sp.outcomes.length ∧
          ∀ s, s ∈ parts ↔ ∃ xs, sp.schema.vars.get? d.id = some xs ∧ ∃ x ∈ xs, s = counted (t.val x) 0) ∧
      (net.edges.map DrawnEdge.ends).Nodup ∧
      (∀ P, (∃ d ∈ net.edges, d.ends = P) ↔ ∃ g, sp.outcomes.Occurs g ∧ ∃ e ∈ g.edges, e.endpoints.image Node.var = P) ∧
      ∀ d ∈ net.edges, d.color = none ∧ ∃ parts : List Str, d.label = '{' :: joinStr [','] parts ++ ['}'] ∧ parts.Nodup ∧
        ∀ s, s ∈ parts ↔ ∃ e, e.endpoints.image Node.var = d.ends ∧ (∃ g, sp.outcomes.Occurs g ∧ e ∈ g.edges) ∧
          s = counted (e.relation.repr t) (mass sp.outcomes fun g => e ∈ g.edges) := by
  obtain ⟨f', hf', hn, hvn, hen, hvar, hpair, hxn, hxe, -⟩ := C31_folded_graph sp oI oN oE hsp.sound
  rw [hf] at hf'
  cases hf'
  -- the calls for the edges
  obtain ⟨des, hdes, hQ⟩ := mapM_calls (I := V) .edge (FoldedEdge.drawn t oV oS)
    (fun F d => d.ends = F.endpoints ∧ d.color = none ∧ d.label = '{' :: joinStr [',']
      (oS.run (F.edges.entries.toFinset.image fun p => counted (p.1.relation.repr t) p.2)) ++ ['}']) lE (by
      intro F hF
      obtain ⟨a, b, h1, h2⟩ := firstTwo_ok oV F.endpoints (hxe F (hE.mem_iff.1 hF)).1
      refine ⟨⟨a, b, '{' :: joinStr [',']
        (oS.run (F.edges.entries.toFinset.image fun p => counted (p.1.relation.repr t) p.2)) ++ ['}'], none⟩, ?_, ?_, rfl, rfl⟩
      · simp only [FoldedEdge.drawn, h1]
      · exact h2.symm)
  have hends : des.map DrawnEdge.ends = lE.map FoldedEdge.endpoints := forall₂_map_eq _ _ (fun _ _ h => h.1) hQ
  have hmem := forall₂_mem hQ
  have hvarN : ∀ v, (∃ d ∈ lN.map (FoldedNode.drawn t oS), d.id = v) ↔ ∃ g, sp.outcomes.Occurs g ∧ HasVar v g := by
    intro v
    rw [← hvar]
    constructor
    · rintro ⟨d, hd, rfl⟩
      obtain ⟨N, hm, rfl⟩ := List.mem_map.1 hd
      exact ⟨N, hN.mem_iff.1 hm, rfl⟩
    · rintro ⟨N, hm, rfl⟩
      exact ⟨_, List.mem_map.2 ⟨N, hN.mem_iff.2 hm, rfl⟩, rfl⟩
  obtain ⟨net1, h1, h2⟩ := (Drawn.empty (I := V)).runBoth (lN.map (FoldedNode.drawn t oS)) des (by
    intro d hd
    obtain ⟨F, hF, hFd, -⟩ := hmem.1 d hd
    obtain ⟨g, ho, e, he, hP⟩ := (hpair F.endpoints).1 ⟨F, hE.mem_iff.1 hF, rfl⟩
    have hv : ∀ v ∈ d.ends, ∃ n ∈ [] ++ lN.map (FoldedNode.drawn t oS), n.id = v := by
      intro v hv
      rw [hFd, ← hP] at hv
      obtain ⟨n, hn, rfl⟩ := Finset.mem_image.1 hv
      rw [List.nil_append]
      exact (hvarN n.var).2 ⟨g, ho, n, (hsp.wf g ho).closed e he hn, rfl⟩
    exact ⟨hv _ (by simp [DrawnEdge.ends]), hv _ (by simp [DrawnEdge.ends])⟩)
  rw [List.nil_append, List.nil_append] at h2
  obtain ⟨net, h3, h4⟩ := h2.runNodes ((lV.filter fun p => p.1 ∉ f.nodes.map FoldedNode.var).map (absentNode t oX f.n))
  have hin : ∀ v, v ∈ f.nodes.map FoldedNode.var ↔ ∃ g, sp.outcomes.Occurs g ∧ HasVar v g := by
    intro v
    rw [← hvar, List.mem_map]
  have hids : ((lN.map (FoldedNode.drawn t oS) ++
      (lV.filter fun p => p.1 ∉ f.nodes.map FoldedNode.var).map (absentNode t oX f.n)).map DrawnNode.id).Nodup := by
    rw [List.map_append, List.map_map, List.map_map, List.nodup_append']
    refine ⟨?_, ?_, ?_⟩
    · exact (hN.map FoldedNode.var).nodup_iff.2 hvn
    · refine List.Nodup.sublist (List.Sublist.map Prod.fst List.filter_sublist) ?_
      exact (hV.map Prod.fst).nodup_iff.2 sp.schema.vars.nodup
    · rw [List.disjoint_left]
      intro v hv hv'
      obtain ⟨N, hm, rfl⟩ := List.mem_map.1 hv
      obtain ⟨p, hp, he⟩ := List.mem_map.1 hv'
      have := (List.mem_filter.1 hp).2
      simp only [decide_not, Bool.not_eq_true', decide_eq_false_iff_not] at this
      apply this
      rw [show p.1 = N.var from he]
      exact List.mem_map.2 ⟨N, hN.mem_iff.1 hm, rfl⟩
  have hnodes := h4.nodes_eq hids
  have hpairs : (des.map DrawnEdge.ends).Nodup := by
    rw [hends]
    exact (hE.map FoldedEdge.endpoints).nodup_iff.2 hen
  have hedges := h4.edges_eq hpairs
  have hdecl : ∀ p : V × Finset X, p ∈ lV ↔ sp.schema.vars.get? p.1 = some p.2 := fun p => by
    rw [hV.mem_iff, Dict.mem_entries']
  -- the two kinds of nodes
  have hkind : ∀ d ∈ net.nodes, (∃ N ∈ f.nodes, d = N.drawn t oS) ∨
      ∃ xs, sp.schema.vars.get? d.id = some xs ∧ (¬ ∃ g, sp.outcomes.Occurs g ∧ HasVar d.id g) ∧ d = absentNode t oX f.n (d.id, xs) := by
    intro d hd
    rw [hnodes, List.mem_append] at hd
    rcases hd with hd | hd
    · obtain ⟨N, hm, rfl⟩ := List.mem_map.1 hd
      exact Or.inl ⟨N, hN.mem_iff.1 hm, rfl⟩
    · obtain ⟨p, hp, rfl⟩ := List.mem_map.1 hd
      obtain ⟨h5, h6⟩ := List.mem_filter.1 hp
      simp only [decide_not, Bool.not_eq_true', decide_eq_false_iff_not] at h6
      rw [hin] at h6
      exact Or.inr ⟨p.2, (hdecl p).1 h5, h6, rfl⟩
  refine ⟨net, ?_, h4.nodup, ?_, ?_, ?_, ?_, ?_, ?_⟩
  · unfold FoldedGraph.visualize
    rw [hdes]
    rw [List.map_map] at h1 h3
    change Net.run _ _ = _
    rw [run_append]
    change (Net.empty.run (lN.map (DrawOp.node ∘ FoldedNode.drawn t oS) ++ des.map .edge) >>= _) = _
    rw [h1]
    exact h3
  · intro v
    rw [h4.ids]
    constructor
    · rintro ⟨d, hd, rfl⟩
      rcases List.mem_append.1 hd with hd | hd
      · obtain ⟨N, hm, rfl⟩ := List.mem_map.1 hd
        exact ⟨_, (hxn N (hN.mem_iff.1 hm)).2.1⟩
      · obtain ⟨p, hp, rfl⟩ := List.mem_map.1 hd
        exact ⟨_, (hdecl p).1 (List.mem_filter.1 hp).1⟩
    · rintro ⟨xs, hxs⟩
      by_cases ho : ∃ g, sp.outcomes.Occurs g ∧ HasVar v g
      · obtain ⟨d, hd, he⟩ := (hvarN v).2 ho
        exact ⟨d, List.mem_append_left _ hd, he⟩
      · refine ⟨absentNode t oX f.n (v, xs), List.mem_append_right _ (List.mem_map.2 ⟨(v, xs), ?_, rfl⟩), rfl⟩
        rw [List.mem_filter]
        refine ⟨(hdecl (v, xs)).2 hxs, ?_⟩
        simp only [decide_not, Bool.not_eq_true', decide_eq_false_iff_not]
        rw [hin]
        exact ho
  · intro d hd ho
    rcases hkind d hd with ⟨N, hm, rfl⟩ | ⟨xs, -, hno, -⟩
    · refine ⟨rfl, oS.run (N.valueNodes.image fun p => counted (t.val p.1.val) p.2), ?_, oS.nodup _, ?_⟩
      · have hu := (C31_unobserved sp N (hxn N hm) hsp.positive hsp.single).1
        change _ = FoldedLabel t N.var _ (mass sp.outcomes fun g => ¬ HasVar N.var g)
        rw [← hu]
        rfl
      · intro s
        rw [oS.mem, Finset.mem_image]
        have hx := (hxn N hm).2.2
        constructor
        · rintro ⟨⟨n, c⟩, hp, rfl⟩
          rw [FoldedNode.valueNodes, List.mem_toFinset, Dict.mem_entries] at hp
          obtain ⟨h5, ⟨g, ho', hg⟩, rfl⟩ := (hx n c).1 hp
          obtain ⟨nv, nx⟩ := n
          simp only at h5
          subst h5
          exact ⟨nx, ⟨g, ho', hg⟩, rfl⟩
        · rintro ⟨x, ⟨g, ho', hg⟩, rfl⟩
          refine ⟨(⟨N.var, x⟩, _), ?_, rfl⟩
          rw [FoldedNode.valueNodes, List.mem_toFinset, Dict.mem_entries]
          exact (hx ⟨N.var, x⟩ _).2 ⟨rfl, ⟨g, ho', hg⟩, rfl⟩
    · exact absurd ho hno
  · intro d hd hno
    rcases hkind d hd with ⟨N, hm, rfl⟩ | ⟨xs, hxs, -, he⟩
    · exact absurd ((hvar N.var).1 ⟨N, hm, rfl⟩) hno
    · refine ⟨by rw [he]; rfl, (oX.run xs).map fun x => counted (t.val x) 0, ?_, ?_⟩
      · rw [← hn]
        conv_lhs => rw [he]
        rfl
      · intro s
        rw [List.mem_map]
        constructor
        · rintro ⟨x, hx, rfl⟩
          exact ⟨xs, hxs, x, (oX.mem _ _).1 hx, rfl⟩
        · rintro ⟨ys, hys, x, hx, rfl⟩
          rw [hxs] at hys
          cases hys
          exact ⟨x, (oX.mem _ _).2 hx, rfl⟩
  · rw [hedges]; exact hpairs
  · intro P
    rw [h4.all, ← hpair]
    constructor
    · rintro ⟨d, hd, rfl⟩
      obtain ⟨F, hF, hq⟩ := hmem.1 d hd
      exact ⟨F, hE.mem_iff.1 hF, hq.1.symm⟩
    · rintro ⟨F, hF, rfl⟩
      obtain ⟨d, hd, hq⟩ := hmem.2 F (hE.mem_iff.2 hF)
      exact ⟨d, hd, hq.1⟩
  · intro d hd
    rw [hedges] at hd
    obtain ⟨F, hF, hq⟩ := hmem.1 d hd
    refine ⟨hq.2.1, _, hq.2.2, oS.nodup _, ?_⟩
    intro s
    rw [oS.mem, Finset.mem_image, hq.1]
    have hx := (hxe F (hE.mem_iff.1 hF)).2
    constructor
    · rintro ⟨⟨e, c⟩, hp, rfl⟩
      rw [List.mem_toFinset, Dict.mem_entries] at hp
      obtain ⟨h5, h6, rfl⟩ := (hx e c).1 hp
      exact ⟨e, h5, h6, rfl⟩
    · rintro ⟨e, h5, h6, rfl⟩
      refine ⟨(e, _), ?_, rfl⟩
      rw [List.mem_toFinset, Dict.mem_entries]
      exact (hx e _).2 ⟨h5, h6, rfl⟩

/-! ### The activation graph -/

/-- The hexadecimal digits. -/
def hexDigits : Str := ['0', '1', '2', '3', '4', '5', '6', '7', '8', '9', 'A', 'B', 'C', 'D', 'E', 'F']

/-- The red shade number `k`. -/
def redShade (k : ℕ) : Str := ['#', hexDigits.getD (k / 16) '?', hexDigits.getD (k % 16) '?', '0', '0', '0', '0']

theorem hexTwo_byte (k : ℕ) (h : k ≤ 255) : hexTwo (k : ℤ) = [hexDigits.getD (k / 16) '?', hexDigits.getD (k % 16) '?'] := by
  have : ∀ i : Fin 256, hexTwo ((i.val : ℕ) : ℤ) = [hexDigits.getD (i.val / 16) '?', hexDigits.getD (i.val % 16) '?'] := by
    decide +kernel
  exact this ⟨k, by omega⟩

theorem foldl_max (l : List ℚ) : ∀ a : ℚ, (l.foldl max a = a ∨ l.foldl max a ∈ l) ∧ a ≤ l.foldl max a ∧ ∀ w ∈ l, w ≤ l.foldl max a := by
  induction l with
  | nil => intro a; simp
  | cons b t ih =>
    intro a
    obtain ⟨h1, h2, h3⟩ := ih (max a b)
    rw [List.foldl_cons]
    refine ⟨?_, (le_max_left a b).trans h2, ?_⟩
    · rcases h1 with h1 | h1
      · rcases max_choice a b with h | h
        · exact Or.inl (h1.trans h)
        · exact Or.inr (by rw [h1, h]; simp)
      · exact Or.inr (List.mem_cons_of_mem _ h1)
    · intro w hw
      rcases List.mem_cons.1 hw with rfl | hw
      · exact (le_max_right a w).trans h2
      · exact h3 w hw

theorem maxRat_ok (l : List ℚ) (h : l ≠ []) : ∃ q, maxRat l = .ok q ∧ q ∈ l ∧ ∀ w ∈ l, w ≤ q := by
  obtain ⟨a, t, rfl⟩ := List.exists_cons_of_ne_nil h
  obtain ⟨h1, h2, h3⟩ := foldl_max t a
  refine ⟨_, rfl, ?_, ?_⟩
  · rcases h1 with h1 | h1
    · rw [h1]; simp
    · exact List.mem_cons_of_mem _ h1
  · intro w hw
    rcases List.mem_cons.1 hw with rfl | hw
    · exact h2
    · exact h3 w hw

/-- The colour of a variable outside the evidence: the shade of its largest weight. -/
theorem color_shade (N : ActiveNode V X) (hq : N.inQuery = false) (hne : N.values.vals ≠ [])
    (hb : ∀ w ∈ N.values.vals, 0 ≤ w ∧ w ≤ 1) : ∃ w ∈ N.values.vals, (∀ u ∈ N.values.vals, u ≤ w) ∧
      ∃ k : ℕ, k ≤ 255 ∧ (k : ℚ) ≤ 255 * w ∧ 255 * w < k + 1 ∧ N.color = .ok (redShade k) := by
  obtain ⟨q, h1, h2, h3⟩ := maxRat_ok N.values.vals hne
  obtain ⟨h4, h5⟩ := hb q h2
  have h6 : (0 : ℚ) ≤ q * 255 := by positivity
  have h7 : 0 ≤ ⌊q * 255⌋ := Int.floor_nonneg.2 h6
  obtain ⟨k, hk⟩ := Int.eq_ofNat_of_zero_le h7
  have hf1 := Int.floor_le (q * 255)
  have hf2 := Int.lt_floor_add_one (q * 255)
  rw [hk] at hf1 hf2
  push_cast at hf1 hf2
  have hk255 : k ≤ 255 := by
    have : (k : ℚ) ≤ 255 := by linarith
    exact_mod_cast this
  refine ⟨q, h2, h3, k, hk255, by linarith, by linarith, ?_⟩
  unfold ActiveNode.color
  rw [hq, h1]
  simp only [Bool.false_eq_true, if_false]
  unfold truncRat
  rw [if_pos h6, hk, hexTwo_byte k hk255]
  rfl

/-- **C66.** `ActivationGraph.visualize` never raises. Every declared variable is drawn once (none of them black), those of the evidence green,
the others in the shade of red given by the largest activation of one of their values: a colour with two hexadecimal digits, as all
activations are between 0 and 1. The label lists the activation of every declared value. Two variables are joined, once, iff they are
related in the evidence (drawn green) or by an edge that leads away from the evidence in some outcome (drawn red). -/
theorem C66_activation (t : Texts V X R) (num : ℚ → Str) (sp : Space V X R) (hsp : GoodSpace sp) (ev : Sample V X R)
    (hev : GoodEvidence ev.graph) (hdecl : ∀ n ∈ ev.graph.nodes, ∃ xs, sp.schema.vars.get? n.var = some xs)
    (hvals : ∀ v xs, sp.schema.vars.get? v = some xs → xs ≠ ∅)
    (oC : Order (SampleGraph V X R × ℤ)) (cs : Space V X R) (hc : sp.conditionalGraph oC ev = .ok cs)
    (hne : ∃ g, cs.outcomes.Occurs g) (oI : Order (SampleGraph V X R × ℤ)) (oN : Order (Node V X)) (oE : Order (Edge V X R))
    (oQ : Order (Edge V X R × Bool)) (oX : Order X) (f : Option (Finset (Rel V R))) (ag : ActivationGraph V X R)
    (ha : cs.activationGraph oI oN oE oQ oX f ev.graph = .ok ag)
    (oV : Order V) (oX' : Order X) (oW : Order (X × ℚ)) (oS : Order Str) (lE : List (ActiveEdge V R)) (lV : List (V × Finset X))
    (hE : lE.Perm ag.edges) (hV : lV.Perm cs.schema.vars.entries) :
    ∃ net, ag.visualize t num oV oX' oW oS lE lV = .ok net ∧ net.ids.Nodup ∧
      (∀ v, v ∈ net.ids ↔ ∃ xs, sp.schema.vars.get? v = some xs) ∧
      (∀ d ∈ net.nodes, HasVar d.id ev.graph → d.color = some green) ∧
      (∀ d ∈ net.nodes, ¬ HasVar d.id ev.graph → ∃ xs, sp.schema.vars.get? d.id = some xs ∧ ∃ x ∈ xs,
        (∀ y ∈ xs, activationWeight cs.outcomes f ev.graph ⟨d.id, y⟩ ≤ activationWeight cs.outcomes f ev.graph ⟨d.id, x⟩) ∧
        ∃ k : ℕ, k ≤ 255 ∧ (k : ℚ) ≤ 255 * activationWeight cs.outcomes f ev.graph ⟨d.id, x⟩ ∧
          255 * activationWeight cs.outcomes f ev.graph ⟨d.id, x⟩ < k + 1 ∧ d.color = some (redShade k)) ∧
      (∀ d ∈ net.nodes, ∃ parts : List Str, d.label = t.var d.id ++ [':', '{'] ++ joinStr [',', ' '] parts ++ ['}'] ∧
        ∀ s, s ∈ parts ↔ ∃ xs, sp.schema.vars.get? d.id = some xs ∧ ∃ x ∈ xs,
          s = t.val x ++ '=' :: num (activationWeight cs.outcomes f ev.graph ⟨d.id, x⟩)) ∧
      (net.edges.map DrawnEdge.ends).Nodup ∧
      (∀ P, (∃ d ∈ net.edges, d.ends = P) ↔ (∃ e ∈ ev.graph.edges, e.endpoints.image Node.var = P) ∨
        ∃ g, cs.outcomes.Occurs g ∧ ∃ e, Crossing f ev.graph g e ∧ e.endpoints.image Node.var = P) ∧
      (∀ d ∈ net.edges, (d.color = some green ↔ ∃ e ∈ ev.graph.edges, e.endpoints.image Node.var = d.ends) ∧
        (d.color = some green ∨ d.color = some red)) ∧
      (∀ d ∈ net.edges, ∃ parts : List Str, d.label = '{' :: joinStr [',', ' '] parts ++ ['}'] ∧ parts.Nodup ∧
        (d.color = some green → ∀ s, s ∈ parts ↔ ∃ e ∈ ev.graph.edges, e.endpoints.image Node.var = d.ends ∧
          s = counted (e.relation.repr t) cs.outcomes.length) ∧
        (d.color = some red → ∀ s, s ∈ parts ↔ ∃ r, (∃ g, cs.outcomes.Occurs g ∧ ∃ e, Crossing f ev.graph g e ∧ EdgeOn d.ends r e) ∧
          s = counted (r.repr t) (massOf cs.outcomes fun g => ∃ e, Crossing f ev.graph g e ∧ EdgeOn d.ends r e))) := by
  obtain ⟨hco, hpos, hsch⟩ := conditionedOn_of_conditional sp hsp ev hev oC cs hc
  obtain ⟨ag', ha', -, ⟨hn1, hn2, hn3⟩, ⟨he1, he2, he3⟩⟩ := C35_C36_activation_graph cs ev.graph hco hpos hne oI oN oE oQ oX f
  rw [ha] at ha'
  cases ha'
  rw [hsch] at hV hn2 hn3
  have hlV : ∀ p : V × Finset X, p ∈ lV ↔ sp.schema.vars.get? p.1 = some p.2 := fun p => by rw [hV.mem_iff, Dict.mem_entries']
  have hcard : ∀ A ∈ ag.edges, A.endpoints.card = 2 := by
    intro A hA
    rcases (he2 A.endpoints).1 ⟨A, hA, rfl⟩ with ⟨r, e, he, hP, -⟩ | ⟨g, ho, r, e, hcr, hP, -⟩
    · rw [← hP]
      obtain ⟨a, b, hab, heq⟩ := hev.good e he
      rw [heq, Finset.image_insert, Finset.image_singleton, Finset.card_pair hab]
    · rw [← hP]
      obtain ⟨a, b, hab, heq⟩ := (hco.sound g ho).2 e hcr.1
      rw [heq, Finset.image_insert, Finset.image_singleton, Finset.card_pair hab]
  have hbound : ∀ N ∈ ag.nodes, ∀ w ∈ N.values.vals, 0 ≤ w ∧ w ≤ 1 := by
    intro N hN w hw
    rw [Dict.vals, List.mem_map] at hw
    obtain ⟨⟨x, w'⟩, hp, rfl⟩ := hw
    rw [Dict.mem_entries] at hp
    obtain ⟨-, rfl⟩ := ((hn3 N hN).2 x w').1 hp
    exact activationWeight_bounds cs ev.graph hco hpos hne f ⟨N.var, x⟩
  -- the calls for the nodes
  obtain ⟨dns, hdns, hQN⟩ := mapM_calls (I := V) .node (activeVariable t num oX' oW ag)
    (fun p d => d.id = p.1 ∧ ∃ N ∈ ag.nodes, N.var = p.1 ∧ (N.color = .ok (d.color.getD [])) ∧ d.color ≠ none ∧
      d.label = t.var p.1 ++ [':', '{'] ++
        joinStr [',', ' '] ((oW.run N.values.entries.toFinset).map fun q => t.val q.1 ++ '=' :: num q.2) ++ ['}']) lV (by
      intro p hp
      have hdp := (hlV p).1 hp
      obtain ⟨N0, hN0, hv0⟩ := (hn2 p.1).2 ⟨_, hdp⟩
      have hfind : ∃ N, ag.nodes.find? (fun N => N.var = p.1) = some N := by
        rw [← Option.isSome_iff_exists, List.find?_isSome]
        exact ⟨N0, hN0, by simpa using hv0⟩
      obtain ⟨N, hN⟩ := hfind
      have hNm := List.mem_of_find?_eq_some hN
      have hNv : N.var = p.1 := by simpa using List.find?_some hN
      have hcol : ∃ c, N.color = .ok c := by
        by_cases hq : N.inQuery = true
        · exact ⟨green, by unfold ActiveNode.color; rw [if_pos hq]⟩
        · have hne' : N.values.vals ≠ [] := by
            obtain ⟨x, hx⟩ := Finset.nonempty_iff_ne_empty.2 (hvals _ _ hdp)
            have := ((hn3 N hNm).2 x _).2 ⟨⟨_, by rw [hNv]; exact hdp, hx⟩, rfl⟩
            rw [← Dict.mem_entries] at this
            intro hnil
            have h2 : activationWeight cs.outcomes f ev.graph ⟨N.var, x⟩ ∈ N.values.vals := List.mem_map.2 ⟨_, this, rfl⟩
            rw [hnil] at h2
            cases h2
          obtain ⟨w, -, -, k, -, -, -, hk⟩ := color_shade N (by simpa using hq) hne' (hbound N hNm)
          exact ⟨_, hk⟩
      obtain ⟨c, hcol⟩ := hcol
      refine ⟨⟨p.1, t.var p.1 ++ [':', '{'] ++
        joinStr [',', ' '] ((oW.run N.values.entries.toFinset).map fun q => t.val q.1 ++ '=' :: num q.2) ++ ['}'], some c⟩, ?_,
        rfl, N, hNm, hNv, hcol, by simp, rfl⟩
      simp only [activeVariable, hN, hcol])
  -- the calls for the edges
  obtain ⟨des, hdes, hQE⟩ := mapM_calls (I := V) .edge (ActiveEdge.drawn t oV oS)
    (fun A d => d.ends = A.endpoints ∧ d.color = some (if A.inQuery then green else red) ∧ d.label = '{' :: joinStr [',', ' ']
      (oS.run (A.relations.entries.toFinset.image fun p => counted (p.1.repr t) p.2)) ++ ['}']) lE (by
      intro A hA
      obtain ⟨a, b, h1, h2⟩ := firstTwo_ok oV A.endpoints (hcard A (hE.mem_iff.1 hA))
      refine ⟨⟨a, b, '{' :: joinStr [',', ' '] (oS.run (A.relations.entries.toFinset.image fun p =>
        counted (p.1.repr t) p.2)) ++ ['}'], some (if A.inQuery then green else red)⟩, ?_, ?_, rfl, rfl⟩
      · simp only [ActiveEdge.drawn, h1]
      · exact h2.symm)
  have hids : dns.map DrawnNode.id = lV.map Prod.fst := forall₂_map_eq _ _ (fun _ _ h => h.1) hQN
  have hends : des.map DrawnEdge.ends = lE.map ActiveEdge.endpoints := forall₂_map_eq _ _ (fun _ _ h => h.1) hQE
  have hmN := forall₂_mem hQN
  have hmE := forall₂_mem hQE
  have hdn : ∀ v, (∃ n ∈ dns, n.id = v) ↔ ∃ xs, sp.schema.vars.get? v = some xs := by
    intro v
    rw [show (∃ n ∈ dns, n.id = v) ↔ v ∈ dns.map DrawnNode.id from List.mem_map.symm, hids, List.mem_map]
    constructor
    · rintro ⟨p, hp, rfl⟩; exact ⟨_, (hlV p).1 hp⟩
    · rintro ⟨xs, hxs⟩; exact ⟨(v, xs), (hlV (v, xs)).2 hxs, rfl⟩
  obtain ⟨net, h1, h2⟩ := (Drawn.empty (I := V)).runBoth dns des (by
    intro d hd
    obtain ⟨A, hA, hAd, -⟩ := hmE.1 d hd
    have hv : ∀ v ∈ d.ends, ∃ n ∈ [] ++ dns, n.id = v := by
      intro v hv
      rw [List.nil_append, hdn]
      rw [hAd] at hv
      rcases (he2 A.endpoints).1 ⟨A, hE.mem_iff.1 hA, rfl⟩ with ⟨r, e, he, hP, -⟩ | ⟨g, ho, r, e, hcr, hP, -⟩
      · rw [← hP] at hv
        obtain ⟨n, hn, rfl⟩ := Finset.mem_image.1 hv
        exact hdecl n (hev.closed e he hn)
      · rw [← hP] at hv
        obtain ⟨n, hn, rfl⟩ := Finset.mem_image.1 hv
        obtain ⟨xs, hxs, -⟩ := (hco.sound g ho).1 n (hco.closed g ho e hcr.1 hn)
        exact ⟨xs, by rw [← hsch]; exact hxs⟩
    exact ⟨hv _ (by simp [DrawnEdge.ends]), hv _ (by simp [DrawnEdge.ends])⟩)
  rw [List.nil_append, List.nil_append] at h2
  have hnodes : net.nodes = dns := h2.nodes_eq (by
    rw [hids]; exact (hV.map Prod.fst).nodup_iff.2 sp.schema.vars.nodup)
  have hpairs : (des.map DrawnEdge.ends).Nodup := by
    rw [hends]; exact (hE.map ActiveEdge.endpoints).nodup_iff.2 he1
  have hedges := h2.edges_eq hpairs
  refine ⟨net, ?_, h2.nodup, ?_, ?_, ?_, ?_, ?_, ?_, ?_, ?_⟩
  · unfold ActivationGraph.visualize
    rw [hdns, hdes]
    exact h1
  · intro v
    rw [h2.ids, hdn]
  · intro d hd hv
    rw [hnodes] at hd
    obtain ⟨p, hp, hid, N, hN, hNv, hcol, hc0, -⟩ := hmN.1 d hd
    have hq : N.inQuery = true := ((hn3 N hN).1).2 (by rw [hNv, ← hid]; exact hv)
    unfold ActiveNode.color at hcol
    rw [if_pos hq] at hcol
    obtain ⟨c, hc'⟩ := Option.ne_none_iff_exists'.1 hc0
    rw [hc'] at hcol ⊢
    simpa using hcol.symm
  · intro d hd hv
    rw [hnodes] at hd
    obtain ⟨p, hp, hid, N, hN, hNv, hcol, hc0, -⟩ := hmN.1 d hd
    have hq : N.inQuery = false := by
      rw [← Bool.not_eq_true]
      intro hq
      exact hv (by rw [hid, ← hNv]; exact ((hn3 N hN).1).1 hq)
    have hdp := (hlV p).1 hp
    have hval : ∀ w, w ∈ N.values.vals ↔ ∃ x ∈ p.2, w = activationWeight cs.outcomes f ev.graph ⟨d.id, x⟩ := by
      intro w
      rw [Dict.vals, List.mem_map]
      constructor
      · rintro ⟨⟨x, w'⟩, hm, rfl⟩
        rw [Dict.mem_entries] at hm
        obtain ⟨⟨xs, h3, h4⟩, rfl⟩ := ((hn3 N hN).2 x w').1 hm
        rw [hNv, hdp] at h3
        cases h3
        exact ⟨x, h4, by rw [hid, ← hNv]⟩
      · rintro ⟨x, hx, rfl⟩
        refine ⟨(x, activationWeight cs.outcomes f ev.graph ⟨d.id, x⟩), ?_, rfl⟩
        rw [Dict.mem_entries]
        exact ((hn3 N hN).2 x _).2 ⟨⟨_, by rw [hNv]; exact hdp, hx⟩, by rw [hid, ← hNv]⟩
    have hne' : N.values.vals ≠ [] := by
      obtain ⟨x, hx⟩ := Finset.nonempty_iff_ne_empty.2 (hvals _ _ hdp)
      intro hnil
      have := (hval _).2 ⟨x, hx, rfl⟩
      rw [hnil] at this
      cases this
    obtain ⟨w, hw, hmax, k, hk1, hk2, hk3, hk4⟩ := color_shade N hq hne' (hbound N hN)
    obtain ⟨x, hx, rfl⟩ := (hval w).1 hw
    refine ⟨p.2, by rw [hid]; exact hdp, x, hx, fun y hy => hmax _ ((hval _).2 ⟨y, hy, rfl⟩), k, hk1, hk2, hk3, ?_⟩
    obtain ⟨c, hc'⟩ := Option.ne_none_iff_exists'.1 hc0
    rw [hc'] at hcol ⊢
    rw [hk4] at hcol
    simpa using hcol.symm
  · intro d hd
    rw [hnodes] at hd
    obtain ⟨p, hp, hid, N, hN, hNv, -, -, hlab⟩ := hmN.1 d hd
    have hdp := (hlV p).1 hp
    refine ⟨_, by rw [hlab, hid], ?_⟩
    intro s
    rw [List.mem_map]
    constructor
    · rintro ⟨⟨x, w⟩, hm, rfl⟩
      rw [oW.mem, List.mem_toFinset, Dict.mem_entries] at hm
      obtain ⟨⟨xs, h3, h4⟩, rfl⟩ := ((hn3 N hN).2 x w).1 hm
      exact ⟨xs, by rw [hid, ← hNv]; exact h3, x, h4, by rw [hid, ← hNv]⟩
    · rintro ⟨xs, hxs, x, hx, rfl⟩
      refine ⟨(x, activationWeight cs.outcomes f ev.graph ⟨d.id, x⟩), ?_, rfl⟩
      rw [oW.mem, List.mem_toFinset, Dict.mem_entries]
      refine ((hn3 N hN).2 x _).2 ⟨⟨xs, ?_, hx⟩, ?_⟩
      · rw [hNv, ← hid]; exact hxs
      · rw [hNv, ← hid]
  · rw [hedges]; exact hpairs
  · intro P
    rw [h2.all]
    have h3 : (∃ e ∈ des, e.ends = P) ↔ ∃ A ∈ ag.edges, A.endpoints = P := by
      rw [show (∃ e ∈ des, e.ends = P) ↔ P ∈ des.map DrawnEdge.ends from List.mem_map.symm, hends, List.mem_map]
      exact exists_congr fun A => by rw [hE.mem_iff]
    rw [h3, he2]
    refine or_congr ?_ (exists_congr fun g => and_congr_right fun _ => ?_)
    · constructor
      · rintro ⟨r, e, he, hP, -⟩; exact ⟨e, he, hP⟩
      · rintro ⟨e, he, hP⟩; exact ⟨_, e, he, hP, rfl⟩
    · constructor
      · rintro ⟨r, e, he, hP, -⟩; exact ⟨e, he, hP⟩
      · rintro ⟨e, he, hP⟩; exact ⟨_, e, he, hP, rfl⟩
  · intro d hd
    rw [hedges] at hd
    obtain ⟨A, hA, hAe, hAc, -⟩ := hmE.1 d hd
    obtain ⟨hq, -, -⟩ := he3 A (hE.mem_iff.1 hA)
    have h3 : A.inQuery = true ↔ ∃ e ∈ ev.graph.edges, e.endpoints.image Node.var = d.ends := by
      rw [hq, hAe]
      constructor
      · rintro ⟨r, e, he, hP, -⟩; exact ⟨e, he, hP⟩
      · rintro ⟨e, he, hP⟩; exact ⟨_, e, he, hP, rfl⟩
    rw [← h3, hAc]
    cases A.inQuery with
    | true => simp
    | false => simp [red, green]
  · intro d hd
    rw [hedges] at hd
    obtain ⟨A, hA, hAe, hAc, hAl⟩ := hmE.1 d hd
    obtain ⟨-, hqt, hqf⟩ := he3 A (hE.mem_iff.1 hA)
    refine ⟨_, hAl, oS.nodup _, ?_, ?_⟩
    · intro hgreen
      have hqq : A.inQuery = true := by
        rw [hAc] at hgreen
        cases hq : A.inQuery with
        | true => rfl
        | false => rw [hq] at hgreen; simp [red, green] at hgreen
      intro s
      rw [oS.mem, Finset.mem_image, hAe]
      constructor
      · rintro ⟨⟨r, c⟩, hp, rfl⟩
        rw [List.mem_toFinset, Dict.mem_entries] at hp
        obtain ⟨⟨e, he, hP, rfl⟩, rfl⟩ := (hqt hqq r c).1 hp
        exact ⟨e, he, hP, rfl⟩
      · rintro ⟨e, he, hP, rfl⟩
        refine ⟨(e.relation, _), ?_, rfl⟩
        rw [List.mem_toFinset, Dict.mem_entries]
        exact (hqt hqq e.relation _).2 ⟨⟨e, he, hP, rfl⟩, rfl⟩
    · intro hred
      have hqq : A.inQuery = false := by
        rw [hAc] at hred
        cases hq : A.inQuery with
        | false => rfl
        | true => rw [hq] at hred; simp [red, green] at hred
      intro s
      rw [oS.mem, Finset.mem_image, hAe]
      constructor
      · rintro ⟨⟨r, c⟩, hp, rfl⟩
        rw [List.mem_toFinset, Dict.mem_entries] at hp
        obtain ⟨h5, rfl⟩ := (hqf hqq r c).1 hp
        exact ⟨r, h5, rfl⟩
      · rintro ⟨r, h5, rfl⟩
        refine ⟨(r, _), ?_, rfl⟩
        rw [List.mem_toFinset, Dict.mem_entries]
        exact (hqf hqq r _).2 ⟨h5, rfl⟩

/-! ### A label that shows one of two relations -/

/-- Two outcomes, `0=0 - 1=0` and `0=1 - 1=1`, once each. -/
def twoSpace : Space ℕ ℕ ℕ :=
  ⟨⟨⟨[(0, {0, 1}), (1, {0, 1})], by decide⟩, {0}⟩,
   ⟨0, ⟨[(oneEdge ⟨0, 0⟩ ⟨1, 0⟩, 1), (oneEdge ⟨0, 1⟩ ⟨1, 1⟩, 1)], by decide⟩⟩, none⟩

theorem twoSpace_occurs (g : SampleGraph ℕ ℕ ℕ) :
    twoSpace.outcomes.Occurs g ↔ g = oneEdge ⟨0, 0⟩ ⟨1, 0⟩ ∨ g = oneEdge ⟨0, 1⟩ ⟨1, 1⟩ := by
  unfold Samples.Occurs
  simp only [← Dict.mem_entries]
  simp only [twoSpace, List.mem_cons, Prod.mk.injEq, List.not_mem_nil, or_false]
  constructor
  · rintro ⟨c, ⟨h, -⟩ | ⟨h, -⟩⟩ <;> simp [h]
  · rintro (h | h)
    · exact ⟨1, Or.inl ⟨h, rfl⟩⟩
    · exact ⟨1, Or.inr ⟨h, rfl⟩⟩

theorem twoSpace_good : GoodSpace twoSpace := by
  have hwf : ∀ g, twoSpace.outcomes.Occurs g → WellFormed g := by
    intro g h
    rw [twoSpace_occurs] at h
    rcases h with rfl | rfl
    · exact oneEdge_wf _ _ (by decide)
    · exact oneEdge_wf _ _ (by decide)
  refine ⟨?_, hwf, ?_, ?_⟩
  · intro g hg
    refine ⟨?_, (hwf g hg).good⟩
    rw [twoSpace_occurs] at hg
    intro n hn
    rcases hg with rfl | rfl
    · simp only [oneEdge, Finset.mem_insert, Finset.mem_singleton] at hn
      rcases hn with rfl | rfl
      · exact ⟨_, rfl, by decide⟩
      · exact ⟨_, rfl, by decide⟩
    · simp only [oneEdge, Finset.mem_insert, Finset.mem_singleton] at hn
      rcases hn with rfl | rfl
      · exact ⟨_, rfl, by decide⟩
      · exact ⟨_, rfl, by decide⟩
  · intro g h
    rw [twoSpace_occurs] at h
    rcases h with rfl | rfl
    · show ∀ a ∈ (oneEdge ⟨0, 0⟩ ⟨1, 0⟩).nodes, ∀ b ∈ (oneEdge ⟨0, 0⟩ ⟨1, 0⟩).nodes, a.var = b.var → a = b
      decide
    · show ∀ a ∈ (oneEdge ⟨0, 1⟩ ⟨1, 1⟩).nodes, ∀ b ∈ (oneEdge ⟨0, 1⟩ ⟨1, 1⟩).nodes, a.var = b.var → a = b
      decide
  · intro g c h
    rw [← Dict.mem_entries] at h
    simp only [twoSpace, List.mem_cons, Prod.mk.injEq, List.not_mem_nil, or_false] at h
    rcases h with ⟨-, rfl⟩ | ⟨-, rfl⟩ <;> norm_num

theorem eq_singleton_of_nodup {A : Type} {l : List A} {a : A} (hn : l.Nodup) (h : ∀ s, s ∈ l ↔ s = a) : l = [a] := by
  match l, hn, h with
  | [], _, h => exact absurd ((h a).2 rfl) (by simp)
  | [b], _, h => rw [(h b).1 (by simp)]
  | b :: c :: l, hn, h =>
    have h1 := (h b).1 (by simp)
    have h2 := (h c).1 (by simp)
    rw [h1, h2] at hn
    simp at hn

/-- **C66.** The label of an edge of the folded picture does not show how many relations there are: two different edges with the same
relation, between different values of the two variables, are shown as one entry `r(1)` when they occur in the same number of
outcomes, whatever the texts and orders are. -/
theorem C66_folded_merged : ∃ sp : Space ℕ ℕ ℕ, GoodSpace sp ∧ (∃ e e' : Edge ℕ ℕ ℕ, e ≠ e' ∧
      e.endpoints.image Node.var = {0, 1} ∧ e'.endpoints.image Node.var = {0, 1} ∧
      (∃ g, sp.outcomes.Occurs g ∧ e ∈ g.edges) ∧ ∃ g, sp.outcomes.Occurs g ∧ e' ∈ g.edges) ∧
    ∀ (t : Texts ℕ ℕ ℕ) oI oN oE f, sp.foldedGraph oI oN oE = .ok f → ∀ oV oX oS lN lE lV, lN.Perm f.nodes → lE.Perm f.edges →
      lV.Perm sp.schema.vars.entries → ∃ net, f.visualize t oV oX oS lN lE lV = .ok net ∧ net.edges.length = 1 ∧
        ∀ d ∈ net.edges, d.ends = {0, 1} ∧ d.label = '{' :: counted ((Rel.plain 0 : Rel ℕ ℕ).repr t) 1 ++ ['}'] := by
  have o1 := (twoSpace_occurs _).2 (Or.inl rfl)
  have o2 := (twoSpace_occurs _).2 (Or.inr rfl)
  refine ⟨twoSpace, twoSpace_good, ⟨⟨{⟨0, 0⟩, ⟨1, 0⟩}, .plain 0⟩, ⟨{⟨0, 1⟩, ⟨1, 1⟩}, .plain 0⟩, by decide, by decide, by decide,
    ⟨_, o1, by simp [oneEdge]⟩, _, o2, by simp [oneEdge]⟩, ?_⟩
  intro t oI oN oE f hf oV oX oS lN lE lV hN hE hV
  obtain ⟨net, h1, -, -, -, -, h2, h3, h4⟩ := C66_folded t twoSpace twoSpace_good oI oN oE f hf oV oX oS lN lE lV hN hE hV
  have hP : ∀ P : Finset ℕ, (∃ d ∈ net.edges, d.ends = P) ↔ P = {0, 1} := by
    intro P
    rw [h3]
    constructor
    · rintro ⟨g, hg, e, he, rfl⟩
      rw [twoSpace_occurs] at hg
      rcases hg with rfl | rfl
      · simp only [oneEdge, Finset.mem_singleton] at he; rw [he]; decide
      · simp only [oneEdge, Finset.mem_singleton] at he; rw [he]; decide
    · rintro rfl
      exact ⟨_, o1, ⟨{⟨0, 0⟩, ⟨1, 0⟩}, .plain 0⟩, by simp [oneEdge], by decide⟩
  have hm1 : mass twoSpace.outcomes (fun g => (⟨{⟨0, 0⟩, ⟨1, 0⟩}, .plain 0⟩ : Edge ℕ ℕ ℕ) ∈ g.edges) = 1 := by decide +kernel
  have hm2 : mass twoSpace.outcomes (fun g => (⟨{⟨0, 1⟩, ⟨1, 1⟩}, .plain 0⟩ : Edge ℕ ℕ ℕ) ∈ g.edges) = 1 := by decide +kernel
  refine ⟨net, h1, ?_, ?_⟩
  · have : net.edges.map DrawnEdge.ends = [{0, 1}] := eq_singleton_of_nodup h2 (fun P => by rw [List.mem_map]; exact hP P)
    simpa using congrArg List.length this
  · intro d hd
    have hde : d.ends = {0, 1} := (hP _).1 ⟨d, hd, rfl⟩
    obtain ⟨-, parts, hl, hpn, hps⟩ := h4 d hd
    refine ⟨hde, ?_⟩
    rw [hl, eq_singleton_of_nodup hpn (a := counted ((Rel.plain 0 : Rel ℕ ℕ).repr t) 1)]
    · simp [joinStr]
    · intro s
      rw [hps, hde]
      constructor
      · rintro ⟨e, -, ⟨g, hg, he⟩, rfl⟩
        rw [twoSpace_occurs] at hg
        rcases hg with rfl | rfl
        · simp only [oneEdge, Finset.mem_singleton] at he; rw [he, hm1]
        · simp only [oneEdge, Finset.mem_singleton] at he; rw [he, hm2]
      · rintro rfl
        exact ⟨⟨{⟨0, 0⟩, ⟨1, 0⟩}, .plain 0⟩, by decide, ⟨_, o1, by simp [oneEdge]⟩, by rw [hm1]⟩

/-- Non-vacuity of C66 for activation graphs: `twoSpace`, conditioned on "variable 0 has value 0". The first outcome stays. -/
example : GoodSpace twoSpace ∧ GoodEvidence (⟨{⟨0, 0⟩}, ∅⟩ : SampleGraph ℕ ℕ ℕ) ∧
    (∀ v xs, twoSpace.schema.vars.get? v = some xs → xs ≠ ∅) ∧
    ∃ cs, twoSpace.conditionalGraph default ⟨twoSpace.outcomes.prov, ⟨{⟨0, 0⟩}, ∅⟩⟩ = .ok cs ∧
      cs.outcomes.Occurs (oneEdge ⟨0, 0⟩ ⟨1, 0⟩) := by
  refine ⟨twoSpace_good, ?_, ?_, ?_⟩
  · refine ⟨by simp, ?_, by simp, by simp⟩
    intro a ha b hb _
    simp only [Finset.mem_singleton] at ha hb
    rw [ha, hb]
  · intro v xs h
    rw [← Dict.mem_entries] at h
    simp only [twoSpace, List.mem_cons, Prod.mk.injEq, List.not_mem_nil, or_false] at h
    rcases h with ⟨-, rfl⟩ | ⟨-, rfl⟩ <;> simp
  · obtain ⟨cs, hc, -, -, -, hg⟩ := (C34_conditional_graph twoSpace default ⟨twoSpace.outcomes.prov, ⟨{⟨0, 0⟩}, ∅⟩⟩).1 rfl
    refine ⟨cs, hc, ?_⟩
    obtain ⟨c, h⟩ := (twoSpace_occurs _).2 (Or.inl rfl)
    exact ⟨c, (hg _ _).2 ⟨h, Or.inl (by simp [ContainsGraph, oneEdge])⟩⟩

/-- The shades 0, 127 and 255. -/
example : redShade 0 = "#000000".toList ∧ redShade 127 = "#7F0000".toList ∧ redShade 255 = "#FF0000".toList := by
  decide +kernel

end
end Verif
