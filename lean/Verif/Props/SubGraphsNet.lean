import Verif.Props.SubGraphs
import Verif.Props.Drawing
import Verif.Props.Text

/-!
# The network of all labelled graphs (C50)
-/

set_option linter.unusedSectionVars false

namespace Verif

/-- C50: the identifiers of different nodes are different texts. -/
theorem C50_ids {p q : ℕ × ℕ} (h : subText p = subText q) : p = q := by
  obtain ⟨a, i⟩ := p
  obtain ⟨b, j⟩ := q
  simp only [subText, List.cons_append, List.cons.injEq, true_and] at h
  have hno : ∀ k, '_' ∉ natStr k := fun k hk => absurd (natStr_digits k hk) (by decide)
  have key : ∀ (u v x y : Str), '_' ∉ u → '_' ∉ v → u ++ '_' :: x = v ++ '_' :: y → u = v ∧ x = y := by
    intro u
    induction u with
    | nil =>
      intro v x y _ hv h
      cases v with
      | nil => simpa using h
      | cons c v =>
        simp only [List.nil_append, List.cons_append, List.cons.injEq] at h
        rw [← h.1] at hv
        simp at hv
    | cons c u ih =>
      intro v x y hu hv h
      cases v with
      | nil =>
        simp only [List.nil_append, List.cons_append, List.cons.injEq] at h
        rw [h.1] at hu
        simp at hu
      | cons c' v =>
        simp only [List.cons_append, List.cons.injEq] at h
        simp only [List.mem_cons, not_or] at hu hv
        obtain ⟨h1, h2⟩ := ih v x y hu.2 hv.2 h.2
        exact ⟨by rw [h.1, h1], h2⟩
  obtain ⟨h1, h2⟩ := key _ _ _ _ (hno a) (hno b) h
  rw [toDigits_ten_inj h1, toDigits_ten_inj h2]

theorem subNode_id (p : ℕ × ℕ) : (subNode p).id = subText p := rfl

/-- The calls for the graphs are all accepted. -/
theorem subDraw_foldlM (o : Order ℕ) (n : ℕ) : ∀ (l : List (List ℤ × ℕ)) (net : Net Str) (N : List (DrawnNode Str)) (E : List (DrawnEdge Str)),
    (∀ p ∈ l, IsIndex 2 (subPairs n).length p.1) → Drawn net N E →
    ∃ net', l.foldlM (subDraw o (subPairs n)) net = .ok net' ∧ Drawn net'
      (N ++ (l.flatMap (fun p => (o.run (subEnds (subPairs n) p.1).toFinset).map fun nid => (nid, p.2))).map subNode)
      (E ++ (l.flatMap (fun p => (subPick (subPairs n) p.1).map fun e => ((e.1.1, p.2), (e.1.2, p.2), e.2))).map subEdge) := by
  intro l
  induction l with
  | nil => intro net N E _ h; exact ⟨net, rfl, by simpa using h⟩
  | cons p t ih =>
    intro net N E hl h
    have hc := subChosen_ok n p.1 (hl p (by simp))
    obtain ⟨net1, h1, h2⟩ := h.runBoth ((o.run (subEnds (subPairs n) p.1).toFinset).map fun nid => subNode (nid, p.2))
      ((subPick (subPairs n) p.1).map fun e => subEdge ((e.1.1, p.2), (e.1.2, p.2), e.2)) (by
        intro e he
        obtain ⟨⟨⟨a, b⟩, t⟩, hm, rfl⟩ := List.mem_map.1 he
        have ha : ∀ c, (c = a ∨ c = b) → ∃ m ∈ N ++ (o.run (subEnds (subPairs n) p.1).toFinset).map (fun nid => subNode (nid, p.2)), m.id = subText (c, p.2) := by
          intro c hc
          refine ⟨subNode (c, p.2), List.mem_append_right _ (List.mem_map.2 ⟨c, ?_, rfl⟩), rfl⟩
          rw [o.mem, List.mem_toFinset, mem_subEnds]
          exact ⟨_, _, hm, hc⟩
        exact ⟨ha a (Or.inl rfl), ha b (Or.inr rfl)⟩)
    obtain ⟨net', h3, h4⟩ := ih net1 _ _ (fun q hq => hl q (by simp [hq])) h2
    refine ⟨net', ?_, ?_⟩
    · rw [List.foldlM_cons]
      have : subDraw o (subPairs n) net p = .ok net1 := by
        unfold subDraw
        rw [hc]
        simp only
        rw [← h1]
        simp [List.map_map, Function.comp_def]
      rw [this]
      exact h3
    · simpa [List.map_append, List.map_map, Function.comp_def, List.append_assoc] using h4

theorem subPick_sublist (edges : List (ℕ × ℕ)) (idx : List ℤ) : ((subPick edges idx).map Prod.fst).Sublist edges := by
  unfold subPick
  rw [List.map_map]
  have h1 : ((edges.zip idx).map Prod.fst).Sublist edges := by
    induction edges generalizing idx with
    | nil => simp
    | cons e t ih =>
      cases idx with
      | nil => simp
      | cons i idx => simpa using ih idx
  exact (List.filter_sublist.map Prod.fst).trans h1

/-- The pairs of drawn identifiers are all different. -/
theorem subEdges_nodup (n : ℕ) (L : List (List ℤ)) :
    ((((L.zipIdx 1).flatMap (fun p => (subPick (subPairs n) p.1).map fun e => (((e.1.1, p.2), (e.1.2, p.2), e.2) : (ℕ × ℕ) × (ℕ × ℕ) × String))).map
      subEdge).map DrawnEdge.ends).Nodup := by
  rw [List.map_map, List.map_flatMap, List.nodup_flatMap]
  have hlt : ∀ idx e, e ∈ subPick (subPairs n) idx → e.1.1 < e.1.2 := by
    intro idx e he
    have := (subPick_sublist (subPairs n) idx).subset (List.mem_map_of_mem he)
    exact ((mem_subPairs n _).1 this).2.1
  have hends : ∀ (a b c d i j : ℕ) (t u : String), (subEdge ((a, i), (b, i), t)).ends = (subEdge ((c, j), (d, j), u)).ends → a < b → c < d →
      a = c ∧ b = d ∧ i = j := by
    intro a b c d i j t u h h1 h2
    rcases (ends_eq_iff _ _).1 h with ⟨h3, h4⟩ | ⟨h3, h4⟩
    · have h5 := C50_ids h3
      have h6 := C50_ids h4
      simp only [Prod.mk.injEq] at h5 h6
      omega
    · have h5 := C50_ids h3
      have h6 := C50_ids h4
      simp only [Prod.mk.injEq] at h5 h6
      omega
  constructor
  · intro p _
    rw [List.map_map]
    have hnd : ((subPick (subPairs n) p.1).map Prod.fst).Nodup := (nodup_subPairs n).sublist (subPick_sublist _ _)
    have hnd' := List.Nodup.of_map _ hnd
    refine List.Nodup.map_on ?_ hnd'
    intro x hx y hy hxy
    obtain ⟨h1, h2, -⟩ := hends _ _ _ _ _ _ _ _ hxy (hlt _ _ hx) (hlt _ _ hy)
    exact List.inj_on_of_nodup_map hnd hx hy (Prod.ext h1 h2)
  · have hnd : ((L.zipIdx 1).map Prod.snd).Nodup := by
      rw [List.zipIdx_map_snd]; exact List.nodup_range'
    rw [List.nodup_iff_pairwise_ne, List.pairwise_map] at hnd
    refine hnd.imp ?_
    intro p q hpq x hx hy
    simp only [List.mem_map] at hx hy
    obtain ⟨_, ⟨e, he, rfl⟩, rfl⟩ := hx
    obtain ⟨_, ⟨f, hf, rfl⟩, h⟩ := hy
    exact hpq (hends _ _ _ _ _ _ _ _ h (hlt _ _ hf) (hlt _ _ he)).2.2.symm

/-- The drawn identifiers are all different. -/
theorem subNodes_nodup (o : Order ℕ) (n : ℕ) (L : List (List ℤ)) :
    ((((subIds n).map (fun nid => (nid, 0)) ++ (L.zipIdx 1).flatMap (fun (p : List ℤ × ℕ) => (o.run (subEnds (subPairs n) p.1).toFinset).map fun nid => ((nid, p.2) : ℕ × ℕ))).map
      subNode).map DrawnNode.id).Nodup := by
  rw [List.map_map]
  refine List.Nodup.map (fun x y h => C50_ids h) ?_
  rw [List.nodup_append]
  refine ⟨?_, ?_, ?_⟩
  · exact (List.nodup_range' : (subIds n).Nodup).map (fun x y h => by simpa using h)
  · rw [List.nodup_flatMap]
    refine ⟨fun p _ => (o.nodup _).map (fun x y h => by simpa using h), ?_⟩
    have hnd : ((L.zipIdx 1).map Prod.snd).Nodup := by
      rw [List.zipIdx_map_snd]; exact List.nodup_range'
    rw [List.nodup_iff_pairwise_ne, List.pairwise_map] at hnd
    refine hnd.imp ?_
    intro p q hpq x hx hy
    simp only [List.mem_map] at hx hy
    obtain ⟨_, _, rfl⟩ := hx
    obtain ⟨_, _, h⟩ := hy
    exact hpq (congrArg Prod.snd h).symm
  · intro x hx y hy hxy
    simp only [List.mem_map, List.mem_flatMap, Prod.exists] at hx hy
    obtain ⟨_, _, rfl⟩ := hx
    obtain ⟨idx, k, hk, z, _, rfl⟩ := hy
    rw [List.mk_mem_zipIdx_iff_le_and_getElem?_sub] at hk
    simp only [Prod.mk.injEq] at hxy
    omega

/-- C50: the network that is returned has exactly the nodes and edges of the calls: no call is refused by an assertion or ignored because the identifier or the pair is already
there. The exceptions are the same. -/
theorem C50_network (pw : ℕ → Option ℚ) (o : Order ℕ) (n : ℕ) :
    (∀ e, makeAllSubGraphs pw o n = .error e → drawAllSubGraphs pw o n = .error e) ∧
    (∀ sn, makeAllSubGraphs pw o n = .ok sn → ∃ net, drawAllSubGraphs pw o n = .ok net ∧ net.nodes = sn.nodes.map subNode ∧ net.edges = sn.edges.map subEdge) := by
  by_cases hn : n ≤ 1
  · refine ⟨fun e he => ?_, fun sn he => ?_⟩
    · rw [C50_no_pairs pw o n hn] at he
      cases he
      have : n = 0 ∨ n = 1 := by omega
      rcases this with rfl | rfl <;> rfl
    · rw [C50_no_pairs pw o n hn] at he
      cases he
  obtain ⟨L, -, hL2, hL3, hs⟩ := subIndices_eq pw n (by omega)
  have hidx : ∀ p ∈ L.zipIdx 1, IsIndex 2 (subPairs n).length p.1 := by
    intro p hp
    exact ((hL3 _).1 (List.fst_mem_of_mem_zipIdx hp)).1
  have hor : (∃ e, subIndices pw n = .error e) ∨ subIndices pw n = .ok L := by
    rw [hs]
    split
    · exact Or.inl ⟨_, rfl⟩
    · split
      · exact Or.inl ⟨_, rfl⟩
      · exact Or.inr rfl
  unfold makeAllSubGraphs drawAllSubGraphs
  rcases hor with ⟨e, he⟩ | he
  · rw [he]
    exact ⟨fun e h => by cases h; rfl, fun sn h => by cases h⟩
  rw [he]
  dsimp only
  rw [subAdd_foldlM o n _ _ hidx]
  dsimp only
  refine ⟨(fun e h => by cases h), (fun sn h => ?_)⟩
  cases h
  obtain ⟨net0, h1, h2⟩ := Drawn.empty.runBoth ((subIds n).map fun nid => subNode (nid, 0)) [] (by simp)
  rw [List.map_nil, List.append_nil, List.map_map] at h1
  obtain ⟨net, h3, hd⟩ := subDraw_foldlM o n (L.zipIdx 1) net0 _ _ hidx h2
  rw [List.nil_append, show (subIds n).map (fun nid => subNode (nid, 0)) = ((subIds n).map fun nid => (nid, 0)).map subNode by rw [List.map_map]; rfl,
    ← List.map_append, List.nil_append, List.nil_append] at hd
  refine ⟨net, ?_, ?_, ?_⟩
  · have h1' : Net.empty.run ((subIds n).map fun nid => .node (subNode (nid, 0))) = .ok net0 := h1
    rw [h1']
    change (match (L.zipIdx 1).foldlM (subDraw o (subPairs n)) net0 with | .error e => Except.error (SubErr.py e) | .ok net => Except.ok net) = _
    rw [h3]
  · refine hd.nodes.eq_of_length ?_
    rw [hd.length_nodes, List.toFinset_card_of_nodup (by exact subNodes_nodup o n L), List.length_map]
  · refine hd.edges.eq_of_length ?_
    rw [hd.length_edges, List.toFinset_card_of_nodup (subEdges_nodup n L), List.length_map]

end Verif
