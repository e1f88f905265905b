import Verif.Lemmas.Drawing
import Verif.Props.Activation
import Verif.Props.Text

/-!
# Drawings of sample graphs and of the outcomes of a sample space: C66

What the networks built by `SampleGraph.visualize` and `SampleSpace.visualize_outcomes` show.
-/

set_option linter.unusedSectionVars false

namespace Verif
section
variable {V X R : Type} [DecidableEq V] [DecidableEq X] [DecidableEq R]

/-- **C66.** `SampleGraph.visualize` of a well formed sample never raises. The picture has one node per text of a node and one edge per
pair of texts. It has as many nodes as the sample iff no two nodes have the same text, and then exactly its edges too. -/
theorem C66_sample_graph (t : Texts V X R) (g : SampleGraph V X R) (hg : WellFormed g) (oN oA : Order (Node V X))
    (oE : Order (Edge V X R)) : ∃ net, g.visualize t oN oA oE = .ok net ∧
      net.ids.Nodup ∧ (∀ s, s ∈ net.ids ↔ ∃ n ∈ g.nodes, s = n.stringId t) ∧
      (∀ d ∈ net.nodes, d.label = d.id ∧ d.color = none) ∧
      net.edges.length = (g.edges.image fun e => e.endpoints.image (Node.stringId t)).card ∧
      (∀ d ∈ net.edges, ∃ e ∈ g.edges, Depicts t (Node.stringId t) none e d) ∧
      (net.nodes.length = g.nodes.card ↔ ∀ n ∈ g.nodes, ∀ m ∈ g.nodes, n.stringId t = m.stringId t → n = m) ∧
      (net.nodes.length = g.nodes.card → net.edges.length = g.edges.card ∧
        ∀ e ∈ g.edges, ∃ d ∈ net.edges, Depicts t (Node.stringId t) none e d) := by
  have h1 := drawRelations t oA [] none (oE.run g.edges) (fun e he => hg.good e ((oE.mem _ _).1 he))
  have h2 : ∀ e ∈ oE.run g.edges, Depicts t (Node.stringId t) none e (relEdge t oA [] none e) := by
    intro e he
    have := relEdge_depicts t oA [] none (hg.good e ((oE.mem _ _).1 he))
    simpa only [List.append_nil] using this
  set dr := relEdge t oA [] none with hdr
  have hmk : ∀ e ∈ (oE.run g.edges).map dr, ∃ f ∈ g.edges, Depicts t (Node.stringId t) none f e ∧ e = dr f := by
    intro e he
    obtain ⟨f, hf, rfl⟩ := List.mem_map.1 he
    exact ⟨f, (oE.mem _ _).1 hf, h2 f hf, rfl⟩
  obtain ⟨net, h3, h4⟩ := (Drawn.empty (I := Str)).runBoth
    ((oN.run g.nodes).map fun n => ⟨n.stringId t, n.stringId t, none⟩) ((oE.run g.edges).map dr) (by
      intro d hd
      obtain ⟨f, hf, ⟨a, b, hab, rfl⟩, -⟩ := hmk d hd
      have hc := hg.closed f hf
      rw [hab] at hc
      have ha := hc (Finset.mem_insert_self a _)
      have hb := hc (Finset.mem_insert_of_mem (Finset.mem_singleton_self b))
      simp only [List.nil_append, List.mem_map, oN.mem]
      exact ⟨⟨_, ⟨a, ha, rfl⟩, rfl⟩, ⟨_, ⟨b, hb, rfl⟩, rfl⟩⟩)
  simp only [List.nil_append] at h4
  have hN : net.nodes.length = (g.nodes.image (Node.stringId t)).card := by
    rw [h4.length_nodes]
    congr 1
    ext s
    simp [oN.mem]
  have hE : net.edges.length = (g.edges.image fun e => e.endpoints.image (Node.stringId t)).card := by
    rw [h4.length_edges]
    congr 1
    ext P
    simp only [List.mem_toFinset, List.mem_map, Finset.mem_image, oE.mem]
    constructor
    · rintro ⟨_, ⟨e, he, rfl⟩, rfl⟩
      exact ⟨e, he, ((h2 e ((oE.mem _ _).2 he)).ends).symm⟩
    · rintro ⟨e, he, rfl⟩
      exact ⟨_, ⟨e, he, rfl⟩, (h2 e ((oE.mem _ _).2 he)).ends⟩
  have hiff : net.nodes.length = g.nodes.card ↔ ∀ n ∈ g.nodes, ∀ m ∈ g.nodes, n.stringId t = m.stringId t → n = m := by
    rw [hN, Finset.card_image_iff]
    exact ⟨fun h n hn m hm he => h hn hm he, fun h n hn m hm he => h n hn m hm he⟩
  refine ⟨net, ?_, h4.nodup, ?_, ?_, hE, ?_, hiff, ?_⟩
  · unfold SampleGraph.visualize
    rw [h1]
    simp only [List.map_map, Function.comp_def] at h3 ⊢
    exact h3
  · intro s
    rw [h4.ids]
    simp only [List.mem_map, oN.mem]
    constructor
    · rintro ⟨_, ⟨n, hn, rfl⟩, rfl⟩; exact ⟨n, hn, rfl⟩
    · rintro ⟨n, hn, rfl⟩; exact ⟨_, ⟨n, hn, rfl⟩, rfl⟩
  · intro d hd
    obtain ⟨n, hn, rfl⟩ := List.mem_map.1 (h4.nodes.subset hd)
    exact ⟨rfl, rfl⟩
  · intro d hd
    obtain ⟨f, hf, hd', -⟩ := hmk d (h4.edges.subset hd)
    exact ⟨f, hf, hd'⟩
  · intro hlen
    have hinj := hiff.1 hlen
    have hnd : (((oE.run g.edges).map dr).map DrawnEdge.ends).Nodup := by
      rw [List.map_map]
      refine List.Nodup.map_on ?_ (oE.nodup _)
      intro e he f hf hef
      simp only [Function.comp] at hef
      rw [(h2 e he).ends, (h2 f hf).ends] at hef
      have he' := (oE.mem _ _).1 he
      have hf' := (oE.mem _ _).1 hf
      refine hg.onePer e he' f hf' ?_
      have hi : Set.InjOn (Node.stringId t) (g.nodes : Set (Node V X)) := fun n hn m hm => hinj n hn m hm
      exact Finset.image_injOn_powerset_of_injOn hi (Finset.mem_powerset.2 (hg.closed e he'))
        (Finset.mem_powerset.2 (hg.closed f hf')) hef
    have := h4.edges_eq hnd
    rw [this]
    refine ⟨by rw [List.length_map, oE.length_run], fun e he => ?_⟩
    exact ⟨dr e, List.mem_map_of_mem ((oE.mem _ _).2 he), h2 e ((oE.mem _ _).2 he)⟩

/-! ### The outcomes of a sample space -/

theorem natStr_digits (i : ℕ) {c : Char} (hc : c ∈ natStr i) : c.isDigit = true := Nat.isDigit_of_mem_toDigits (by omega) (by omega) hc

theorem natStr_ne (i : ℕ) : natStr i ≠ [] := by
  intro h
  have := congrArg List.length h
  unfold natStr at this
  rw [List.length_nil] at this
  exact absurd this (Nat.ne_of_gt Nat.length_toDigits_pos)

theorem natStr_small {i : ℕ} (h : i < 10) : (natStr i).length = 1 := by
  unfold natStr
  rw [Nat.toDigits_of_lt_base h]
  rfl

/-- The text does not end with a decimal digit. -/
def NoFinalDigit (s : Str) : Prop := ∀ c, s.getLast? = some c → c.isDigit = false

/-- Digits appended to a text that does not end with one can be told from it. -/
theorem split_digits {a a' d d' : Str} (ha : NoFinalDigit a) (ha' : NoFinalDigit a') (hd : ∀ c ∈ d, c.isDigit = true)
    (hd' : ∀ c ∈ d', c.isDigit = true) (h : a ++ d = a' ++ d') : a = a' ∧ d = d' := by
  have key : ∀ (b u : Str), NoFinalDigit (b ++ u) → (∀ c ∈ u, c.isDigit = true) → u = [] := by
    intro b u hb hu
    by_contra hne
    have h1 : (b ++ u).getLast? = some (u.getLast hne) := by
      rw [List.getLast?_append_of_ne_nil _ hne, List.getLast?_eq_some_getLast hne]
    have h2 := hb _ h1
    rw [hu _ (List.getLast_mem hne)] at h2
    cases h2
  rcases List.append_eq_append_iff.1 h with ⟨u, h1, h2⟩ | ⟨u, h1, h2⟩
  · have hu : u = [] := key a u (h1 ▸ ha') (fun c hc => hd c (by rw [h2]; simp [hc]))
    subst hu
    simp_all
  · have hu : u = [] := key a' u (h1 ▸ ha) (fun c hc => hd' c (by rw [h2]; simp [hc]))
    subst hu
    simp_all

theorem noFinalDigit_stringId (t : Texts V X R) (n : Node V X) (h : NoFinalDigit (t.val n.val)) : NoFinalDigit (n.stringId t) := by
  intro c hc
  unfold Node.stringId at hc
  rw [List.getLast?_append_of_ne_nil _ (by simp)] at hc
  by_cases hv : t.val n.val = []
  · rw [hv] at hc
    simp only [List.getLast?_singleton, Option.some.injEq] at hc
    subst hc; decide
  · rw [show '_' :: t.val n.val = ['_'] ++ t.val n.val from rfl, List.getLast?_append_of_ne_nil _ hv] at hc
    exact h c hc

/-- When the numbers of the outcomes keep the identifiers apart: at most ten outcomes, or no value whose text ends with a digit. -/
def NumbersApart (t : Texts V X R) (a : Samples V X R) : Prop :=
  a.items.card ≤ 10 ∨ ∀ g, a.Occurs g → ∀ n ∈ g.nodes, NoFinalDigit (t.val n.val)

theorem id_apart (t : Texts V X R) {n m : Node V X} {i j k : ℕ} (hi : i < k) (hj : j < k)
    (h : k ≤ 10 ∨ NoFinalDigit (t.val n.val) ∧ NoFinalDigit (t.val m.val))
    (he : n.stringId t ++ natStr i = m.stringId t ++ natStr j) : n.stringId t = m.stringId t ∧ i = j := by
  have : n.stringId t = m.stringId t ∧ natStr i = natStr j := by
    rcases h with h | ⟨h1, h2⟩
    · exact List.append_inj' he (by rw [natStr_small (by omega), natStr_small (by omega)])
    · exact split_digits (noFinalDigit_stringId t n h1) (noFinalDigit_stringId t m h2) (fun c => natStr_digits i)
        (fun c => natStr_digits j) he
  exact ⟨this.1, toDigits_ten_inj this.2⟩

theorem query_apart (a b : Str) (i : ℕ) : a ++ natStr i ≠ b ++ querySuffix := by
  intro h
  have h1 := congrArg List.getLast? h
  rw [List.getLast?_append_of_ne_nil _ (natStr_ne i), List.getLast?_append_of_ne_nil _ (by decide),
    List.getLast?_eq_some_getLast (natStr_ne i)] at h1
  have h2 := natStr_digits i (List.getLast_mem (natStr_ne i))
  have h3 : (natStr i).getLast (natStr_ne i) = 'y' := by simpa [querySuffix] using h1
  rw [h3] at h2
  exact absurd h2 (by decide)

/-- What is drawn of a sample space: `outNodes`, `outEdges` of the numbered outcomes, then the evidence. -/
theorem visualizeOutcomes_drawn (t : Texts V X R) (nm : SampleGraph V X R → Str) (sp : Space V X R)
    (hg : ∀ g, sp.outcomes.Occurs g → WellFormed g) (hev : ∀ ev ∈ sp.evidence, WellFormed ev.graph)
    (oI : Order (SampleGraph V X R × ℤ)) (oN oA : Order (Node V X)) (oE : Order (Edge V X R)) :
    ((∀ g, sp.outcomes.Occurs g → g.nodes ≠ ∅) → ∃ net, sp.visualizeOutcomes t nm oI oN oA oE = .ok net ∧
      Drawn net ((oI.run sp.outcomes.items).zipIdx.flatMap (outNodes t nm oN) ++ evNodes t oN sp.evidence)
        ((oI.run sp.outcomes.items).zipIdx.flatMap (outEdges t oA oE) ++ evEdges t oA oE sp.evidence)) ∧
    ((∃ g, sp.outcomes.Occurs g ∧ g.nodes = ∅) → sp.visualizeOutcomes t nm oI oN oA oE = .error .indexError) := by
  have hocc : ∀ p ∈ (oI.run sp.outcomes.items).zipIdx, sp.outcomes.Occurs p.1.1 := fun p hp =>
    run_occurs oI _ _ (List.fst_mem_of_mem_zipIdx hp)
  obtain ⟨h1, h2⟩ := Drawn.outcomes t nm oN oA oE (oI.run sp.outcomes.items).zipIdx
    (fun p hp => (hg _ (hocc p hp)).good) (fun p hp => (hg _ (hocc p hp)).closed) (Drawn.empty (I := Str))
  constructor
  · intro hne
    obtain ⟨net1, h3, h4⟩ := h1 (fun p hp => hne _ (hocc p hp))
    obtain ⟨net, h5, h6⟩ := h4.evidence t oN oA oE sp.evidence (fun s hs => (hev s hs).good) (fun s hs => (hev s hs).closed)
    refine ⟨net, ?_, by simpa using h6⟩
    unfold Space.visualizeOutcomes
    rw [h3]; exact h5
  · rintro ⟨g, ⟨c, hc⟩, he⟩
    have hmem : (g, c) ∈ oI.run sp.outcomes.items := by rw [oI.mem, Samples.mem_items]; exact hc
    obtain ⟨i, hi, hi'⟩ := List.getElem_of_mem hmem
    have := h2 ⟨((g, c), i), by rw [List.mem_zipIdx_iff_getElem?, List.getElem?_eq_getElem hi, hi'], he⟩
    unfold Space.visualizeOutcomes
    rw [this]; rfl

/-- **C66.** `visualize_outcomes` raises `IndexError` iff the empty sample is one of the outcomes, and otherwise returns. -/
theorem C66_outcomes_raises (t : Texts V X R) (nm : SampleGraph V X R → Str) (sp : Space V X R)
    (hg : ∀ g, sp.outcomes.Occurs g → WellFormed g) (hev : ∀ ev ∈ sp.evidence, WellFormed ev.graph)
    (oI : Order (SampleGraph V X R × ℤ)) (oN oA : Order (Node V X)) (oE : Order (Edge V X R)) :
    (sp.visualizeOutcomes t nm oI oN oA oE = .error .indexError ↔ sp.outcomes.Occurs ⟨∅, ∅⟩) ∧
    (Returns (sp.visualizeOutcomes t nm oI oN oA oE) ↔ ¬ sp.outcomes.Occurs ⟨∅, ∅⟩) := by
  obtain ⟨h1, h2⟩ := visualizeOutcomes_drawn t nm sp hg hev oI oN oA oE
  have hempty : ∀ g, sp.outcomes.Occurs g → g.nodes = ∅ → g = ⟨∅, ∅⟩ := by
    intro g ho he
    apply SampleGraph.ext he
    rw [Finset.eq_empty_iff_forall_notMem]
    intro e hm
    obtain ⟨a, b, _, hab⟩ := (hg g ho).good e hm
    have := (hg g ho).closed e hm
    rw [hab, he] at this
    exact absurd (this (Finset.mem_insert_self a _)) (by simp)
  by_cases h : ∃ g, sp.outcomes.Occurs g ∧ g.nodes = ∅
  · have h3 := h2 h
    obtain ⟨g, ho, he⟩ := h
    rw [hempty g ho he] at ho
    rw [h3]
    simp [ho, Returns]
  · have h3 : ∀ g, sp.outcomes.Occurs g → g.nodes ≠ ∅ := fun g ho he => h ⟨g, ho, he⟩
    obtain ⟨net, h4, -⟩ := h1 h3
    rw [h4]
    have h5 : ¬ sp.outcomes.Occurs ⟨∅, ∅⟩ := fun ho => h3 _ ho rfl
    simp [h5, Returns]

theorem outcomes_nodup (oI : Order (SampleGraph V X R × ℤ)) (a : Samples V X R) : ((oI.run a.items).map Prod.fst).Nodup :=
  ((Samples.run_items_perm oI a).map Prod.fst).nodup_iff.2 a.samples.nodup

/-- The number under which an outcome is drawn. -/
theorem number_of (oI : Order (SampleGraph V X R × ℤ)) (a : Samples V X R) (g : SampleGraph V X R) (c : ℤ) (i : ℕ) :
    ((g, c), i) ∈ (oI.run a.items).zipIdx ↔ a.samples.get? g = some c ∧ i = ((oI.run a.items).map Prod.fst).idxOf g := by
  rw [List.mem_zipIdx_iff_getElem?]
  have hn := outcomes_nodup oI a
  have hm : ∀ d, (g, d) ∈ oI.run a.items ↔ a.samples.get? g = some d := fun d => by rw [oI.mem, Samples.mem_items]
  constructor
  · intro h
    obtain ⟨hi, h'⟩ := List.getElem?_eq_some_iff.1 h
    simp only at hi h'
    refine ⟨(hm c).1 (h' ▸ List.getElem_mem hi), ?_⟩
    have h2 := hn.idxOf_getElem i (by simpa using hi)
    rw [List.getElem_map, h'] at h2
    exact h2.symm
  · rintro ⟨h, rfl⟩
    have hmem : g ∈ (oI.run a.items).map Prod.fst := List.mem_map.2 ⟨(g, c), (hm c).2 h, rfl⟩
    have hlt := List.idxOf_lt_length_of_mem hmem
    have hlt' : ((oI.run a.items).map Prod.fst).idxOf g < (oI.run a.items).length := by simpa using hlt
    rw [List.getElem?_eq_getElem hlt']
    have h2 : ((oI.run a.items)[((oI.run a.items).map Prod.fst).idxOf g]).1 = g := by
      have := List.getElem_idxOf hlt
      rwa [List.getElem_map] at this
    have h3 : (oI.run a.items)[((oI.run a.items).map Prod.fst).idxOf g] ∈ oI.run a.items := List.getElem_mem hlt'
    generalize (oI.run a.items)[((oI.run a.items).map Prod.fst).idxOf g] = q at *
    obtain ⟨q1, q2⟩ := q
    simp only at h2
    subst h2
    rw [hm] at h3
    rw [h] at h3
    cases h3; rfl

/-- **C66.** The picture of `visualize_outcomes` when the texts of the nodes differ, and there are at most ten outcomes or no value whose
text ends with a digit. Every node of every outcome has an identifier of its own (its text and a number), the evidence is drawn
apart, in red. Each outcome has one node labelled with name and count. Edges are drawn within the outcomes and the evidence only,
each of them once. -/
theorem C66_outcomes (t : Texts V X R) (nm : SampleGraph V X R → Str) (sp : Space V X R)
    (hg : ∀ g, sp.outcomes.Occurs g → WellFormed g) (hev : ∀ ev ∈ sp.evidence, WellFormed ev.graph)
    (hne : ¬ sp.outcomes.Occurs ⟨∅, ∅⟩)
    (hid : ∀ g, sp.outcomes.Occurs g → ∀ g', sp.outcomes.Occurs g' → ∀ n ∈ g.nodes, ∀ m ∈ g'.nodes,
      n.stringId t = m.stringId t → n = m)
    (hidE : ∀ ev ∈ sp.evidence, ∀ n ∈ ev.graph.nodes, ∀ m ∈ ev.graph.nodes, n.stringId t = m.stringId t → n = m)
    (hnum : NumbersApart t sp.outcomes)
    (oI : Order (SampleGraph V X R × ℤ)) (oN oA : Order (Node V X)) (oE : Order (Edge V X R)) :
    ∃ (net : Net Str) (key : SampleGraph V X R → Node V X → Str), sp.visualizeOutcomes t nm oI oN oA oE = .ok net ∧
      (∀ g n, ∃ k : ℕ, key g n = n.stringId t ++ natStr k) ∧
      (∀ g, sp.outcomes.Occurs g → ∀ g', sp.outcomes.Occurs g' → ∀ n ∈ g.nodes, ∀ m ∈ g'.nodes,
        key g n = key g' m → g = g' ∧ n = m) ∧
      net.ids.Nodup ∧
      (∀ s, s ∈ net.ids ↔ (∃ g, sp.outcomes.Occurs g ∧ ∃ n ∈ g.nodes, s = key g n) ∨
        ∃ ev ∈ sp.evidence, ∃ n ∈ ev.graph.nodes, s = n.stringId t ++ querySuffix) ∧
      (∀ g c, sp.outcomes.samples.get? g = some c → ∃ h ∈ g.nodes,
        ⟨key g h, h.stringId t ++ '@' :: nm g ++ '(' :: intStr c ++ [')'], none⟩ ∈ net.nodes ∧
        ∀ n ∈ g.nodes, n ≠ h → ⟨key g n, n.stringId t, none⟩ ∈ net.nodes) ∧
      (∀ ev ∈ sp.evidence, ∀ n ∈ ev.graph.nodes, ⟨n.stringId t ++ querySuffix, n.stringId t, some red⟩ ∈ net.nodes) ∧
      (∀ d ∈ net.edges, (∃ g, sp.outcomes.Occurs g ∧ ∃ e ∈ g.edges, Depicts t (key g) none e d) ∨
        ∃ ev ∈ sp.evidence, ∃ e ∈ ev.graph.edges, Depicts t (fun n => n.stringId t ++ querySuffix) (some red) e d) ∧
      (∀ g, sp.outcomes.Occurs g → ∀ e ∈ g.edges, ∃ d ∈ net.edges, Depicts t (key g) none e d) ∧
      (∀ ev ∈ sp.evidence, ∀ e ∈ ev.graph.edges, ∃ d ∈ net.edges,
        Depicts t (fun n => n.stringId t ++ querySuffix) (some red) e d) ∧
      net.edges.length = ∑ g ∈ sp.outcomes.graphs, g.edges.card + (sp.evidence.elim 0 fun ev => ev.graph.edges.card) := by
  have hne' : ∀ g, sp.outcomes.Occurs g → g.nodes ≠ ∅ := by
    intro g ho he
    have h1 := ((C66_outcomes_raises t nm sp hg hev oI oN oA oE).1).not.2 hne
    exact h1 ((visualizeOutcomes_drawn t nm sp hg hev oI oN oA oE).2 ⟨g, ho, he⟩)
  obtain ⟨net, h1, h2⟩ := (visualizeOutcomes_drawn t nm sp hg hev oI oN oA oE).1 hne'
  set l := oI.run sp.outcomes.items with hl
  let num : SampleGraph V X R → ℕ := fun g => (l.map Prod.fst).idxOf g
  have hnumb : ∀ g c i, ((g, c), i) ∈ l.zipIdx ↔ sp.outcomes.samples.get? g = some c ∧ i = num g := number_of oI sp.outcomes
  have hlen : l.length = sp.outcomes.items.card := oI.length_run _
  have hlt : ∀ g, sp.outcomes.Occurs g → num g < sp.outcomes.items.card := by
    rintro g ⟨c, hc⟩
    have h := (hnumb g c (num g)).2 ⟨hc, rfl⟩
    have := List.snd_lt_of_mem_zipIdx h
    omega
  have hinj : ∀ g, sp.outcomes.Occurs g → ∀ g', sp.outcomes.Occurs g' → ∀ n ∈ g.nodes, ∀ m ∈ g'.nodes,
      n.stringId t ++ natStr (num g) = m.stringId t ++ natStr (num g') → num g = num g' ∧ n = m := by
    intro g ho g' ho' n hn m hm he
    have := id_apart t (hlt g ho) (hlt g' ho') (by
      rcases hnum with h | h
      · exact Or.inl h
      · exact Or.inr ⟨h g ho n hn, h g' ho' m hm⟩) he
    exact ⟨this.2, hid g ho g' ho' n hn m hm this.1⟩
  have hnuminj : ∀ g, sp.outcomes.Occurs g → ∀ g', sp.outcomes.Occurs g' → num g = num g' → g = g' := by
    rintro g ⟨c, hc⟩ g' ⟨c', hc'⟩ he
    have hmem : ∀ g c, sp.outcomes.samples.get? g = some c → g ∈ l.map Prod.fst := fun g c hc =>
      List.mem_map.2 ⟨(g, c), by rw [hl, oI.mem, Samples.mem_items]; exact hc, rfl⟩
    exact (List.idxOf_inj (hmem g c hc)).1 he
  have hocc : ∀ p ∈ l.zipIdx, sp.outcomes.Occurs p.1.1 ∧ p.2 = num p.1.1 ∧ sp.outcomes.samples.get? p.1.1 = some p.1.2 := by
    rintro ⟨⟨g, c⟩, i⟩ hp
    obtain ⟨h3, h4⟩ := (hnumb g c i).1 hp
    exact ⟨⟨c, h3⟩, h4, h3⟩
  have hzn : l.zipIdx.Nodup := by
    apply List.Nodup.of_map Prod.fst
    rw [List.zipIdx_map_fst]
    exact oI.nodup _
  -- identifiers are different
  have hids : ((l.zipIdx.flatMap (outNodes t nm oN) ++ evNodes t oN sp.evidence).map DrawnNode.id).Nodup := by
    rw [List.map_append, List.nodup_append', List.map_flatMap]
    refine ⟨?_, ?_, ?_⟩
    · rw [List.nodup_flatMap]
      refine ⟨fun p hp => ?_, ?_⟩
      · rw [outNodes_ids]
        refine List.Nodup.map_on ?_ (oN.nodup _)
        intro n hn m hm he
        obtain ⟨ho, hi, -⟩ := hocc p hp
        exact (hinj _ ho _ ho n ((oN.mem _ _).1 hn) m ((oN.mem _ _).1 hm) (by rwa [← hi])).2
      · refine hzn.imp_of_mem ?_
        intro p q hp hq hpq
        simp only [Function.onFun, outNodes_ids]
        rw [List.disjoint_left]
        intro s hs hs'
        obtain ⟨n, hn, rfl⟩ := List.mem_map.1 hs
        obtain ⟨m, hm, he⟩ := List.mem_map.1 hs'
        obtain ⟨ho, hi, hc⟩ := hocc p hp
        obtain ⟨ho', hi', hc'⟩ := hocc q hq
        have h3 := (hinj _ ho _ ho' n ((oN.mem _ _).1 hn) m ((oN.mem _ _).1 hm) (by rw [← hi, ← hi']; exact he.symm)).1
        have h4 := hnuminj _ ho _ ho' h3
        apply hpq
        obtain ⟨⟨g, c⟩, i⟩ := p
        obtain ⟨⟨g', c'⟩, i'⟩ := q
        simp only at h4 hi hi' hc hc'
        subst h4
        rw [hc] at hc'
        cases hc'
        rw [hi, hi']
    · cases hE : sp.evidence with
      | none => simp [evNodes]
      | some ev =>
        simp only [evNodes, List.map_map]
        refine List.Nodup.map_on ?_ (oN.nodup _)
        intro n hn m hm he
        simp only [Function.comp] at he
        exact hidE ev hE n ((oN.mem _ _).1 hn) m ((oN.mem _ _).1 hm) (List.append_cancel_right he)
    · rw [List.disjoint_left]
      intro s hs hs'
      obtain ⟨p, hp, hs⟩ := List.mem_flatMap.1 hs
      rw [outNodes_ids] at hs
      obtain ⟨n, -, rfl⟩ := List.mem_map.1 hs
      cases hE : sp.evidence with
      | none => rw [hE] at hs'; simp [evNodes] at hs'
      | some ev =>
        rw [hE] at hs'
        simp only [evNodes, List.map_map, List.mem_map, Function.comp] at hs'
        obtain ⟨m, -, he⟩ := hs'
        exact query_apart _ _ _ he.symm
  have hN := h2.nodes_eq hids
  -- the edges
  have hdep : ∀ p ∈ l.zipIdx, ∀ e ∈ p.1.1.edges,
      Depicts t (fun n => n.stringId t ++ natStr (num p.1.1)) none e (relEdge t oA (natStr p.2) none e) := by
    intro p hp e he
    obtain ⟨ho, hi, -⟩ := hocc p hp
    rw [← hi]
    exact relEdge_depicts t oA (natStr p.2) none ((hg _ ho).good e he)
  have hdepE : ∀ ev ∈ sp.evidence, ∀ e ∈ ev.graph.edges,
      Depicts t (fun n => n.stringId t ++ querySuffix) (some red) e (relEdge t oA querySuffix (some red) e) := fun ev hE e he =>
    relEdge_depicts t oA querySuffix (some red) ((hev ev hE).good e he)
  have hpairs : ((l.zipIdx.flatMap (outEdges t oA oE) ++ evEdges t oA oE sp.evidence).map DrawnEdge.ends).Nodup := by
    rw [List.map_append, List.nodup_append', List.map_flatMap]
    refine ⟨?_, ?_, ?_⟩
    · rw [List.nodup_flatMap]
      refine ⟨fun p hp => ?_, ?_⟩
      · obtain ⟨ho, hi, -⟩ := hocc p hp
        unfold outEdges
        rw [List.map_map]
        refine List.Nodup.map_on ?_ (oE.nodup _)
        intro e he f hf hef
        have he' := (oE.mem _ _).1 he
        have hf' := (oE.mem _ _).1 hf
        simp only [Function.comp] at hef
        rw [(hdep p hp e he').ends, (hdep p hp f hf').ends] at hef
        refine (hg _ ho).onePer e he' f hf' ?_
        have hi : Set.InjOn (fun n : Node V X => n.stringId t ++ natStr (num p.1.1)) (p.1.1.nodes : Set (Node V X)) :=
          fun n hn m hm hnm => (hinj _ ho _ ho n hn m hm hnm).2
        exact Finset.image_injOn_powerset_of_injOn hi (Finset.mem_powerset.2 ((hg _ ho).closed e he'))
          (Finset.mem_powerset.2 ((hg _ ho).closed f hf')) hef
      · refine hzn.imp_of_mem ?_
        intro p q hp hq hpq
        simp only [Function.onFun]
        rw [List.disjoint_left]
        intro P hP hP'
        simp only [outEdges, List.map_map, List.mem_map, Function.comp] at hP hP'
        obtain ⟨e, he, rfl⟩ := hP
        obtain ⟨f, hf, hef⟩ := hP'
        have he' := (oE.mem _ _).1 he
        have hf' := (oE.mem _ _).1 hf
        obtain ⟨ho, hi, hc⟩ := hocc p hp
        obtain ⟨ho', hi', hc'⟩ := hocc q hq
        rw [(hdep p hp e he').ends, (hdep q hq f hf').ends] at hef
        obtain ⟨a, ha⟩ := ((hg _ ho).good e he').nonempty
        have ha' := hef ▸ Finset.mem_image_of_mem (fun n : Node V X => n.stringId t ++ natStr (num p.1.1)) ha
        obtain ⟨b, hb, hab⟩ := Finset.mem_image.1 ha'
        have h3 := (hinj _ ho' _ ho b ((hg _ ho').closed f hf' hb) a ((hg _ ho).closed e he' ha) hab).1
        have h4 := hnuminj _ ho' _ ho h3
        apply hpq
        obtain ⟨⟨g, c⟩, i⟩ := p
        obtain ⟨⟨g', c'⟩, i'⟩ := q
        simp only at h4 hi hi' hc hc'
        subst h4
        rw [hc] at hc'
        cases hc'
        rw [hi, hi']
    · cases hE : sp.evidence with
      | none => simp [evEdges]
      | some ev =>
        simp only [evEdges, List.map_map]
        refine List.Nodup.map_on ?_ (oE.nodup _)
        intro e he f hf hef
        have he' := (oE.mem _ _).1 he
        have hf' := (oE.mem _ _).1 hf
        simp only [Function.comp] at hef
        rw [(hdepE ev hE e he').ends, (hdepE ev hE f hf').ends] at hef
        refine (hev ev hE).onePer e he' f hf' ?_
        have hi : Set.InjOn (fun n : Node V X => n.stringId t ++ querySuffix) (ev.graph.nodes : Set (Node V X)) :=
          fun n hn m hm hnm => hidE ev hE n hn m hm (List.append_cancel_right hnm)
        exact Finset.image_injOn_powerset_of_injOn hi (Finset.mem_powerset.2 ((hev ev hE).closed e he'))
          (Finset.mem_powerset.2 ((hev ev hE).closed f hf')) hef
    · rw [List.disjoint_left]
      intro P hP hP'
      obtain ⟨p, hp, hP⟩ := List.mem_flatMap.1 hP
      simp only [outEdges, List.map_map, List.mem_map, Function.comp] at hP
      obtain ⟨e, he, rfl⟩ := hP
      have he' := (oE.mem _ _).1 he
      cases hE : sp.evidence with
      | none => rw [hE] at hP'; simp [evEdges] at hP'
      | some ev =>
        rw [hE] at hP'
        simp only [evEdges, List.map_map, List.mem_map, Function.comp] at hP'
        obtain ⟨f, hf, hef⟩ := hP'
        have hf' := (oE.mem _ _).1 hf
        rw [(hdep p hp e he').ends, (hdepE ev hE f hf').ends] at hef
        obtain ⟨a, ha⟩ := ((hg _ (hocc p hp).1).good e he').nonempty
        have ha' := hef ▸ Finset.mem_image_of_mem (fun n : Node V X => n.stringId t ++ natStr (num p.1.1)) ha
        obtain ⟨b, hb, hab⟩ := Finset.mem_image.1 ha'
        exact query_apart _ _ _ hab.symm
  have hEq := h2.edges_eq hpairs
  refine ⟨net, fun g n => n.stringId t ++ natStr (num g), h1, fun g n => ⟨_, rfl⟩, ?_, h2.nodup, ?_, ?_, ?_, ?_, ?_, ?_, ?_⟩
  · intro g ho g' ho' n hn m hm he
    obtain ⟨h3, h4⟩ := hinj g ho g' ho' n hn m hm he
    exact ⟨hnuminj g ho g' ho' h3, h4⟩
  · intro s
    rw [Net.ids, hN, List.map_append, List.mem_append, List.map_flatMap, List.mem_flatMap]
    refine or_congr ?_ ?_
    · constructor
      · rintro ⟨p, hp, hs⟩
        rw [outNodes_ids] at hs
        obtain ⟨n, hn, rfl⟩ := List.mem_map.1 hs
        obtain ⟨ho, hi, -⟩ := hocc p hp
        exact ⟨_, ho, n, (oN.mem _ _).1 hn, by rw [hi]⟩
      · rintro ⟨g, ⟨c, hc⟩, n, hn, rfl⟩
        refine ⟨((g, c), num g), (hnumb g c _).2 ⟨hc, rfl⟩, ?_⟩
        rw [outNodes_ids]
        exact List.mem_map.2 ⟨n, (oN.mem _ _).2 hn, rfl⟩
    · cases sp.evidence with
      | none => simp [evNodes]
      | some ev =>
        simp only [evNodes, List.map_map, List.mem_map, oN.mem, Function.comp, Option.mem_def, Option.some.injEq,
          exists_eq_left']
        exact exists_congr fun n => and_congr_right fun _ => eq_comm
  · intro g c hc
    have hp := (hnumb g c (num g)).2 ⟨hc, rfl⟩
    have hmem : ∀ d ∈ outNodes t nm oN ((g, c), num g), d ∈ net.nodes := by
      intro d hd
      rw [hN, List.mem_append, List.mem_flatMap]
      exact Or.inl ⟨_, hp, hd⟩
    have hrun : oN.run g.nodes ≠ [] := by
      rw [Ne, Order.run_eq_nil]; exact hne' g ⟨c, hc⟩
    obtain ⟨h, rest, hr⟩ := List.exists_cons_of_ne_nil hrun
    have hm : ∀ n, n ∈ h :: rest ↔ n ∈ g.nodes := fun n => by rw [← hr, oN.mem]
    have hout : outNodes t nm oN ((g, c), num g) =
        ⟨h.stringId t ++ natStr (num g), h.stringId t ++ '@' :: nm g ++ '(' :: intStr c ++ [')'], none⟩ ::
          rest.map fun n => ⟨n.stringId t ++ natStr (num g), n.stringId t, none⟩ := by
      unfold outNodes
      rw [hr]
    rw [hout] at hmem
    refine ⟨h, (hm h).1 (by simp), hmem _ (by simp), fun n hn hnh => hmem _ ?_⟩
    have := (hm n).2 hn
    rcases List.mem_cons.1 this with h' | h'
    · exact absurd h' hnh
    · exact List.mem_cons_of_mem _ (List.mem_map.2 ⟨n, h', rfl⟩)
  · intro ev hE n hn
    rw [hN, List.mem_append]
    refine Or.inr ?_
    rw [Option.mem_def.1 hE]
    exact List.mem_map.2 ⟨n, (oN.mem _ _).2 hn, rfl⟩
  · intro d hd
    rw [hEq, List.mem_append] at hd
    rcases hd with hd | hd
    · obtain ⟨p, hp, hd⟩ := List.mem_flatMap.1 hd
      obtain ⟨e, he, rfl⟩ := List.mem_map.1 hd
      have he' := (oE.mem _ _).1 he
      exact Or.inl ⟨_, (hocc p hp).1, e, he', hdep p hp e he'⟩
    · refine Or.inr ?_
      cases hE : sp.evidence with
      | none => rw [hE] at hd; simp [evEdges] at hd
      | some ev =>
        rw [hE] at hd
        obtain ⟨e, he, rfl⟩ := List.mem_map.1 hd
        have he' := (oE.mem _ _).1 he
        exact ⟨ev, rfl, e, he', hdepE ev hE e he'⟩
  · rintro g ⟨c, hc⟩ e he
    have hp := (hnumb g c (num g)).2 ⟨hc, rfl⟩
    refine ⟨_, ?_, hdep _ hp e he⟩
    rw [hEq, List.mem_append, List.mem_flatMap]
    exact Or.inl ⟨_, hp, List.mem_map.2 ⟨e, (oE.mem _ _).2 he, rfl⟩⟩
  · intro ev hE e he
    refine ⟨_, ?_, hdepE ev hE e he⟩
    rw [hEq, List.mem_append]
    refine Or.inr ?_
    rw [Option.mem_def.1 hE]
    exact List.mem_map.2 ⟨e, (oE.mem _ _).2 he, rfl⟩
  · rw [hEq, List.length_append, List.length_flatMap]
    congr 1
    · have h3 : (l.zipIdx.map fun p => (outEdges t oA oE p).length) = ((l.map Prod.fst).map fun g => g.edges.card) := by
        have : (fun p : (SampleGraph V X R × ℤ) × ℕ => (outEdges t oA oE p).length) =
            (fun q : SampleGraph V X R × ℤ => q.1.edges.card) ∘ Prod.fst := by
          funext p
          simp [outEdges, oE.length_run]
        rw [this, ← List.map_map, List.zipIdx_map_fst, List.map_map]
        rfl
      rw [h3, ← List.sum_toFinset _ (outcomes_nodup oI sp.outcomes)]
      congr 1
      ext g
      rw [Samples.mem_graphs, List.mem_toFinset, List.mem_map]
      constructor
      · rintro ⟨q, hq, rfl⟩
        exact run_occurs oI _ _ hq
      · rintro ⟨c, hc⟩
        exact ⟨(g, c), by rw [oI.mem, Samples.mem_items]; exact hc, rfl⟩
    · cases sp.evidence with
      | none => rfl
      | some ev => simp [evEdges, oE.length_run]

theorem node_wf (n : Node V X) : WellFormed (⟨{n}, ∅⟩ : SampleGraph V X R) :=
  ⟨by simp, by simp, by simp [OnePerPair], by
    intro a ha b hb
    simp only [Finset.coe_singleton, Set.mem_singleton_iff] at ha hb
    subst ha; subst hb
    exact .refl⟩

end

/-- Texts of whole numbers: one variable `"a"`, decimal values. -/
def decimalTexts : Texts Unit ℕ Unit := ⟨fun _ => ['a'], natStr, fun _ => ['r']⟩

/-- The outcomes "a is 11", "a is 2", …, "a is 10", "a is 1". -/
def elevenEntries : List (SampleGraph Unit ℕ Unit × ℤ) := [11, 2, 3, 4, 5, 6, 7, 8, 9, 10, 1].map fun v => (⟨{⟨(), v⟩}, ∅⟩, 1)

/-- A sample space with these eleven outcomes. -/
def elevenSpace : Space Unit ℕ Unit :=
  ⟨⟨⟨[((), {1, 2, 3, 4, 5, 6, 7, 8, 9, 10, 11})], by decide⟩, {()}⟩, ⟨0, ⟨elevenEntries, by decide +kernel⟩⟩, none⟩

/-- **C66.** With eleven outcomes and whole numbers as values `visualize_outcomes` can draw nodes of two outcomes as one node: value 11 in
outcome 0 and value 1 in outcome 10 both have the identifier `a_110`. -/
theorem C66_outcomes_collision :
    (∀ g, elevenSpace.outcomes.Occurs g → WellFormed g) ∧ ¬ elevenSpace.outcomes.Occurs ⟨∅, ∅⟩ ∧
    (∀ n m : Node Unit ℕ, n.stringId decimalTexts = m.stringId decimalTexts → n = m) ∧
    ∑ g ∈ elevenSpace.outcomes.graphs, g.nodes.card = 11 ∧
    ∃ oI, ∀ nm oN oA oE, ∃ net, elevenSpace.visualizeOutcomes decimalTexts nm oI oN oA oE = .ok net ∧ net.nodes.length = 10 := by
  have hocc : ∀ g, elevenSpace.outcomes.Occurs g → ∃ v, g = ⟨{⟨(), v⟩}, ∅⟩ := by
    rintro g ⟨c, hc⟩
    rw [← Dict.mem_entries] at hc
    obtain ⟨v, -, hv⟩ := List.mem_map.1 (show (g, c) ∈ elevenEntries from hc)
    exact ⟨v, (congrArg Prod.fst hv).symm⟩
  have hwf : ∀ g, elevenSpace.outcomes.Occurs g → WellFormed g := by
    intro g hg
    obtain ⟨v, rfl⟩ := hocc g hg
    exact node_wf _
  have hne : ∀ g, elevenSpace.outcomes.Occurs g → g.nodes ≠ ∅ := by
    intro g hg
    obtain ⟨v, rfl⟩ := hocc g hg
    simp
  refine ⟨hwf, fun h => hne _ h rfl, ?_, by decide +kernel, Order.ofList elevenEntries, fun nm oN oA oE => ?_⟩
  · rintro ⟨⟨⟩, v⟩ ⟨⟨⟩, w⟩ h
    have h1 : natStr v = natStr w := by
      unfold Node.stringId decimalTexts at h
      simpa using h
    have := toDigits_ten_inj h1
    rw [this]
  · obtain ⟨net, h1, h2⟩ := (visualizeOutcomes_drawn decimalTexts nm elevenSpace hwf (by simp [elevenSpace])
      (Order.ofList elevenEntries) oN oA oE).1 hne
    refine ⟨net, h1, ?_⟩
    rw [h2.length_nodes]
    have hl : (Order.ofList elevenEntries).run elevenSpace.outcomes.items = elevenEntries := by decide +kernel
    rw [hl]
    have hn : (elevenEntries.zipIdx.flatMap (outNodes decimalTexts nm oN) ++ evNodes decimalTexts oN elevenSpace.evidence).map
        DrawnNode.id = [11, 2, 3, 4, 5, 6, 7, 8, 9, 10, 1].zipIdx.map fun p => 'a' :: '_' :: (natStr p.1 ++ natStr p.2) := by
      rw [List.map_append, List.map_flatMap]
      simp [outNodes_ids, elevenEntries, elevenSpace, evNodes, Node.stringId, decimalTexts]
    rw [hn]
    decide +kernel

/-- Non-vacuity of the collision: with at most ten outcomes, or values whose texts do not end with a digit, it cannot happen
(`C66_outcomes`); here neither holds. -/
example : ¬ NumbersApart decimalTexts elevenSpace.outcomes := by
  unfold NumbersApart
  rw [not_or]
  refine ⟨by decide +kernel, fun h => ?_⟩
  have h1 : elevenSpace.outcomes.Occurs ⟨{⟨(), 1⟩}, ∅⟩ := by
    refine ⟨1, ?_⟩
    rw [← Dict.mem_entries]
    exact List.mem_map.2 ⟨1, by simp, rfl⟩
  exact absurd (h _ h1 ⟨(), 1⟩ (by simp) '1' (by decide +kernel)) (by decide)

/-- **C66.** Nodes of different variables can have the same text; an edge between two of them is drawn as a loop. -/
theorem C66_sample_loop : ∃ (t : Texts Str Str Unit) (g : SampleGraph Str Str Unit), Function.Injective t.var ∧
    Function.Injective t.val ∧ WellFormed g ∧ g.nodes.card = 2 ∧ g.edges.card = 1 ∧
    ∀ oN oA oE, ∃ net, g.visualize t oN oA oE = .ok net ∧ net.nodes.length = 1 ∧ net.edges.length = 1 ∧
      ∀ d ∈ net.edges, d.src = d.dst := by
  let a : Node Str Str := ⟨['a'], ['b', '_', 'c']⟩
  let b : Node Str Str := ⟨['a', '_', 'b'], ['c']⟩
  let t : Texts Str Str Unit := ⟨id, id, fun _ => ['r']⟩
  let g : SampleGraph Str Str Unit := ⟨{a, b}, {⟨{a, b}, .plain ()⟩}⟩
  have hab : a ≠ b := by decide
  have hwf : WellFormed g := by
    refine ⟨?_, ?_, ?_, ?_⟩
    · intro e he
      rw [Finset.mem_singleton.1 he]
    · intro e he
      rw [Finset.mem_singleton.1 he]
      exact ⟨a, b, by decide, rfl⟩
    · intro e he e' he' _
      rw [Finset.mem_singleton.1 he, Finset.mem_singleton.1 he']
    · have hstep : ∀ x ∈ ({a, b} : Finset (Node Str Str)), ∀ y ∈ ({a, b} : Finset (Node Str Str)),
          ∃ e ∈ g.edges, x ∈ e.endpoints ∧ y ∈ e.endpoints := fun x hx y hy => ⟨_, Finset.mem_singleton_self _, hx, hy⟩
      intro x hx y hy
      exact .single (hstep x hx y hy)
  refine ⟨t, g, fun _ _ h => h, fun _ _ h => h, hwf, by decide, by decide, fun oN oA oE => ?_⟩
  obtain ⟨net, h1, h2, h3, -, h5, h6, -, -⟩ := C66_sample_graph t g hwf oN oA oE
  have hs : ∀ n ∈ g.nodes, n.stringId t = ['a', '_', 'b', '_', 'c'] := by decide
  refine ⟨net, h1, ?_, ?_, ?_⟩
  · have : net.ids.toFinset = {['a', '_', 'b', '_', 'c']} := by
      ext s
      rw [List.mem_toFinset, h3, Finset.mem_singleton]
      constructor
      · rintro ⟨n, hn, rfl⟩; exact hs n hn
      · rintro rfl; exact ⟨a, by simp [g], by decide⟩
    rw [show net.nodes.length = net.ids.length from (List.length_map _).symm, ← List.toFinset_card_of_nodup h2, this]
    rfl
  · rw [h5]; decide
  · intro d hd
    obtain ⟨e, he, x, y, hxy, rfl⟩ := h6 d hd
    have hc := hwf.closed e he
    rw [hxy] at hc
    rw [hs x (hc (by simp)), hs y (hc (by simp))]

/-- Non-vacuity of `C66_sample_graph` and `C66_outcomes`: the demo space with an evidence. -/
example : ∃ sp : Space ℕ ℕ ℕ, (∀ g, sp.outcomes.Occurs g → WellFormed g) ∧ (∀ ev ∈ sp.evidence, WellFormed ev.graph) ∧
    sp.evidence ≠ none ∧ ¬ sp.outcomes.Occurs ⟨∅, ∅⟩ ∧
    (∀ n m : Node ℕ ℕ, n.stringId unaryTexts = m.stringId unaryTexts → n = m) ∧
    (∃ g, sp.outcomes.Occurs g ∧ g.edges ≠ ∅) ∧ NumbersApart unaryTexts sp.outcomes ∧
    ∀ g, sp.outcomes.Occurs g → ∀ n ∈ g.nodes, NoFinalDigit (unaryTexts.val n.val) := by
  have hd : ∀ x, NoFinalDigit (unaryTexts.val x) := by
    intro x c hc
    have h1 := List.mem_of_getLast? hc
    rw [show unaryTexts.val x = List.replicate x 'b' from rfl] at h1
    rw [List.eq_of_mem_replicate h1]
    decide
  refine ⟨{ demoSpace with evidence := some ⟨0, ⟨{⟨1, 0⟩}, ∅⟩⟩ }, demoSpace_wf, ?_, by simp, ?_, ?_, ?_, ?_, fun g _ n _ => hd _⟩
  · rintro ev hev
    cases hev
    exact node_wf _
  · intro h
    rcases (demoSpace_occurs _).1 h with h | h <;> simp [oneEdge] at h
  · exact fun n m h => stringId_inj unaryTexts unaryTexts_clean h
  · exact ⟨_, (demoSpace_occurs _).2 (Or.inl rfl), by simp [oneEdge]⟩
  · exact Or.inr fun g _ n _ => hd _

end Verif
