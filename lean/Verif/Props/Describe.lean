import Verif.Model.Describe
import Verif.Props.Text
import Verif.Props.Folded
import Verif.Props.SampleSet

/-!
# C68 – names, descriptions and edge set views of sample spaces
-/

set_option linter.unusedSectionVars false

namespace Verif

variable {V X R : Type} [DecidableEq V] [DecidableEq X] [DecidableEq R]

/-! ### Specification -/

/-- Different members of the set have different texts. -/
def TextsDiffer {A : Type} (f : A → Str) (s : Finset A) : Prop := ∀ a ∈ s, ∀ b ∈ s, f a = f b → a = b

/-- `v` is a view of the sample: its edges as (set of (variable, value), relation), its only node if there are no edges, or
nothing if there is no node either. -/
inductive IsView (g : SampleGraph V X R) : EdgesView V X R → Prop
  | edges (E : Finset (Finset (V × X) × Rel V R)) (hne : g.edges ≠ ∅)
      (hE : ∀ eps r, (eps, r) ∈ E ↔ ∃ e ∈ g.edges, e.relation = r ∧ ∀ v x, (v, x) ∈ eps ↔ (⟨v, x⟩ : Node V X) ∈ e.endpoints) :
      IsView g (.edges E)
  | single (v : V) (x : X) (he : g.edges = ∅) (hn : (⟨v, x⟩ : Node V X) ∈ g.nodes) : IsView g (.single v x)
  | nothing (he : g.edges = ∅) (hn : g.nodes = ∅) : IsView g .nothing

/-! ### Names -/

theorem nameOr_nonempty (n : Option Str) {o : Str} (ho : o ≠ []) : nameOr n o ≠ [] := by
  unfold nameOr
  split <;> simp_all

theorem nameOr_some {s : Str} (hs : s ≠ []) (o : Str) : nameOr (some s) o = s := by
  cases s with
  | nil => exact absurd rfl hs
  | cons c s => rfl

theorem defaultName_ne (o : Samples V X R) : defaultName o ≠ [] := by
  intro h
  unfold defaultName at h
  exact absurd (List.append_eq_nil_iff.1 h).2 (by decide)

theorem defaultName_inj (a b : Samples V X R) : defaultName a = defaultName b ↔ a.length = b.length := by
  constructor
  · intro h
    unfold defaultName at h
    rw [List.append_assoc, List.append_assoc] at h
    exact intStr_inj (List.append_cancel_right (List.append_cancel_left h))
  · intro h; unfold defaultName; rw [h]

/-- **C68.** The name of a relation graph: the given one unless it is missing or empty; the default name tells exactly the total
count of the outcomes; no relation graph has an empty name. -/
theorem C68_name (s : Schema V X R) (n : Option Str) (a b : Samples V X R) :
    (∀ x, n = some x → x ≠ [] → (mkRelationGraph s n a).name = x) ∧
    (n = none ∨ n = some [] → (mkRelationGraph s n a).name = defaultName a) ∧
    (defaultName a = defaultName b ↔ ∑ p ∈ a.items, p.2 = ∑ p ∈ b.items, p.2) ∧
    (mkRelationGraph s n a).name ≠ [] ∧
    (mkRelationGraph s n a).space.outcomes = a ∧ (mkRelationGraph s n a).space.evidence = none := by
  refine ⟨?_, ?_, ?_, nameOr_nonempty _ (defaultName_ne a), rfl, rfl⟩
  · rintro x rfl hx; exact nameOr_some hx _
  · rintro (rfl | rfl) <;> rfl
  · rw [defaultName_inj, length_eq_sum, length_eq_sum]

theorem addOutcome_frame (b : NamedRG V X R) (p : Sample V X R × ℤ) : (b.addOutcome p).1.name = b.name := rfl

theorem addAll_name (l : List (Sample V X R × ℤ)) : ∀ b : NamedRG V X R,
    (l.foldl (fun b p => (b.addOutcome p).1) b).name = b.name := by
  induction l with
  | nil => intro b; rfl
  | cons p t ih => intro b; rw [List.foldl_cons, ih]; rfl

/-- **C68.** `builder()` hands the name on: whatever outcomes are added to the builder of a space, the relation graph built
afterwards carries the name of that space. -/
theorem C68_builder_name (g h : NamedSpace V X R) (hg : g.name ≠ []) (l : List (Sample V X R × ℤ))
    (hb : (l.foldl (fun b p => (b.addOutcome p).1) g.builder).build = .ok h) : h.name = g.name ∧ h.space.evidence = none := by
  have hn := addAll_name l g.builder
  generalize l.foldl (fun b p => (b.addOutcome p).1) g.builder = b at hb hn
  unfold NamedRG.build at hb
  split at hb
  · have := Except.ok.inj hb
    rw [← this]
    refine ⟨?_, rfl⟩
    show nameOr b.name _ = g.name
    rw [hn]
    exact nameOr_some hg _
  · cases hb

/-- **C68.** So a default name becomes false as soon as the total count changes: the name of the extended graph states the
total count of the graph it was made from. -/
theorem C68_stale_name (s : Schema V X R) (n : Option Str) (a : Samples V X R) (hn : n = none ∨ n = some []) (h : NamedSpace V X R)
    (l : List (Sample V X R × ℤ))
    (hb : (l.foldl (fun b p => (b.addOutcome p).1) (mkRelationGraph s n a).builder).build = .ok h)
    (hne : ∑ p ∈ h.space.outcomes.items, p.2 ≠ ∑ p ∈ a.items, p.2) : h.name ≠ defaultName h.space.outcomes := by
  rw [(C68_builder_name _ h (C68_name s n a a).2.2.2.1 l hb).1, (C68_name s n a a).2.1 hn]
  intro he
  exact hne ((C68_name s n a h.space.outcomes).2.2.1.1 he).symm

/-- **C68.** Going back to a relation graph. `builder().build()` gives the same name, outcomes and schema without the evidence,
and raises exactly when there are no outcomes; `relation_graph()` gives the same without this restriction, with another name if a
non-empty one is passed. -/
theorem C68_back (g : NamedSpace V X R) (hg : g.name ≠ []) :
    ((∃ x, g.space.outcomes.Occurs x) → g.builder.build = .ok ⟨⟨g.space.schema, g.space.outcomes, none⟩, g.name⟩) ∧
    ((¬ ∃ x, g.space.outcomes.Occurs x) → g.builder.build = .error .assertion) ∧
    g.relationGraph none = ⟨⟨g.space.schema, g.space.outcomes, none⟩, g.name⟩ ∧
    g.relationGraph (some []) = g.relationGraph none ∧
    (∀ x, x ≠ [] → g.relationGraph (some x) = ⟨⟨g.space.schema, g.space.outcomes, none⟩, x⟩) := by
  have hbool : g.space.outcomes.bool = true ↔ ∃ x, g.space.outcomes.Occurs x := by
    unfold Samples.bool Samples.Occurs
    rw [decide_eq_true_eq]
    constructor
    · intro h
      obtain ⟨p, hp⟩ := List.exists_mem_of_ne_nil _ h
      exact ⟨p.1, p.2, (Dict.mem_entries' _ _).1 hp⟩
    · rintro ⟨x, c, h⟩ h0
      rw [← Dict.mem_entries, h0] at h
      cases h
  refine ⟨fun h => ?_, fun h => ?_, ?_, ?_, fun x hx => ?_⟩
  · have hb := hbool.2 h
    simp [NamedSpace.builder, NamedRG.build, hb, mkRelationGraph, nameOr_some hg]
  · have hb : g.space.outcomes.bool = false := by
      rw [← Bool.not_eq_true]; exact fun h' => h (hbool.1 h')
    have he : (Samples.empty g.space.outcomes.prov : Samples V X R).bool = false := rfl
    simp [NamedSpace.builder, NamedRG.build, hb, he]
  · simp [NamedSpace.relationGraph, mkRelationGraph, nameOr, nameOr_some hg]
    cases hn : g.name with
    | nil => exact absurd hn hg
    | cons c s => rfl
  · rfl
  · cases x with
    | nil => exact absurd rfl hx
    | cons c s => rfl

/-- **C68.** The name of a conditional graph: the given one unless missing or empty, otherwise telling the graph it was made
from; two graphs have the same such name exactly if they have the same name. -/
theorem C68_conditional_name (oI : Order (SampleGraph V X R × ℤ)) (g h : NamedSpace V X R) (ev : Sample V X R) (n : Option Str)
    (hb : g.conditionalGraph oI ev n = .ok h) :
    g.space.conditionalGraph oI ev = .ok h.space ∧ (∀ x, n = some x → x ≠ [] → h.name = x) ∧
    (n = none ∨ n = some [] → h.name = "conditional_of_".toList ++ g.name) ∧ h.name ≠ [] := by
  unfold NamedSpace.conditionalGraph at hb
  cases hs : g.space.conditionalGraph oI ev with
  | error e => rw [hs] at hb; simp [bind, Except.bind] at hb
  | ok sp =>
    rw [hs] at hb
    have := Except.ok.inj hb
    rw [← this]
    refine ⟨rfl, ?_, ?_, ?_⟩
    · rintro x rfl hx; exact nameOr_some hx _
    · rintro (rfl | rfl) <;> rfl
    · refine nameOr_nonempty _ ?_
      intro h0
      have := congrArg List.length h0
      simp at this

/-! ### Descriptions -/

theorem card_image_iff_texts {A : Type} [DecidableEq A] (f : A → Str) (s : Finset A) :
    (s.image f).card ≤ s.card ∧ ((s.image f).card = s.card ↔ TextsDiffer f s) := by
  refine ⟨Finset.card_image_le, ?_⟩
  rw [Finset.card_image_iff]
  constructor
  · intro h a ha b hb hab; exact h ha hb hab
  · intro h a ha b hb hab; exact h a ha b hb hab

theorem keys_card {K A : Type} [DecidableEq K] (d : Dict K A) [DecidableEq A] : d.entries.toFinset.card = d.keys.toFinset.card := by
  have h1 : d.keys.Nodup := d.nodup
  rw [List.toFinset_card_of_nodup h1, List.toFinset_card_of_nodup (List.Nodup.of_map _ d.nodup)]
  simp [Dict.keys]

/-- **C68.** `RelationGraph.describe`: the numbers are the numbers of declared variables and relations and the total count of the
outcomes; the texts are exactly those of the declared variables and relations. There are never more texts than variables
(relations), and as many only if different ones have different texts. -/
theorem C68_describe (t : Texts V X R) (g : NamedSpace V X R) :
    (g.describe t).name = g.name ∧
    (g.describe t).numberOfVariables = g.space.schema.vars.keys.toFinset.card ∧
    (g.describe t).numberOfRelations = g.space.schema.rels.card ∧
    (g.describe t).numberOfOutcomes = ∑ p ∈ g.space.outcomes.items, p.2 ∧
    (∀ s, s ∈ (g.describe t).variableTexts ↔ ∃ v xs, g.space.schema.vars.get? v = some xs ∧ t.var v = s) ∧
    (∀ s, s ∈ (g.describe t).relationTexts ↔ ∃ r ∈ g.space.schema.rels, t.rel r = s) ∧
    (g.describe t).variableTexts.card ≤ (g.describe t).numberOfVariables ∧
    ((g.describe t).variableTexts.card = (g.describe t).numberOfVariables ↔
      TextsDiffer t.var g.space.schema.vars.keys.toFinset) ∧
    (g.describe t).relationTexts.card ≤ (g.describe t).numberOfRelations ∧
    ((g.describe t).relationTexts.card = (g.describe t).numberOfRelations ↔ TextsDiffer t.rel g.space.schema.rels) := by
  have himg : (g.describe t).variableTexts = g.space.schema.vars.keys.toFinset.image t.var := by
    ext s
    simp [NamedSpace.describe, Dict.keys]
  have hc : (g.describe t).numberOfVariables = g.space.schema.vars.keys.toFinset.card := keys_card _
  refine ⟨rfl, hc, rfl, length_eq_sum _, ?_, ?_, ?_, ?_, (card_image_iff_texts _ _).1, (card_image_iff_texts _ _).2⟩
  · intro s
    rw [himg]
    simp only [Finset.mem_image, List.mem_toFinset, Dict.mem_keys]
    constructor
    · rintro ⟨v, ⟨xs, h⟩, rfl⟩; exact ⟨v, xs, h, rfl⟩
    · rintro ⟨v, xs, h, rfl⟩; exact ⟨v, ⟨xs, h⟩, rfl⟩
  · intro s
    simp [NamedSpace.describe]
  · rw [himg, hc]; exact (card_image_iff_texts _ _).1
  · rw [himg, hc]; exact (card_image_iff_texts _ _).2

/-- **C68.** `ConditionalGraph.describe` returns for well formed evidence; the query is the text view of the evidence, the number
is the total count of the outcomes, the texts are exactly those of the variables and relations occurring in the outcomes. The
result does not depend on iteration orders. -/
theorem C68_describe_conditional (t : Texts V X R) (oG oG' : Order (SampleGraph V X R)) (oN oN' : Order (Node V X))
    (oE oE' : Order (Edge V X R)) (sp : Space V X R) (ev : Sample V X R) (hev : WellFormed ev.graph) :
    sp.describeConditional t oG oN oE ev = sp.describeConditional t oG' oN' oE' ev ∧
    ∃ d, sp.describeConditional t oG oN oE ev = .ok d ∧ ev.graph.textView t oN oE = .ok d.query ∧
      d.numberOutcomes = ∑ p ∈ sp.outcomes.items, p.2 ∧
      (∀ s, s ∈ d.includedVariables ↔ ∃ g v, sp.outcomes.Occurs g ∧ HasVar v g ∧ t.var v = s) ∧
      (∀ s, s ∈ d.includedRelations ↔ ∃ g, sp.outcomes.Occurs g ∧ ∃ e ∈ g.edges, e.relation.repr t = s) := by
  obtain ⟨q, hq⟩ := C46_text_view t ev.graph hev
  constructor
  · unfold Space.describeConditional
    rw [hq oN oE, hq oN' oE', C30_order sp oG oG' oN oN']
  · refine ⟨⟨q, sp.outcomes.length, (sp.includedVariables oG oN).image fun p => t.var p.1,
      sp.includedRelations.image (Rel.repr t)⟩, ?_, hq oN oE, length_eq_sum _, ?_, ?_⟩
    · unfold Space.describeConditional
      rw [hq oN oE]; rfl
    · intro s
      simp only [Finset.mem_image, Prod.exists]
      constructor
      · rintro ⟨v, xs, h, rfl⟩
        obtain ⟨⟨g, hg, hv⟩, -⟩ := (C30_included_variables sp oG oN v xs).1 h
        exact ⟨g, v, hg, hv, rfl⟩
      · rintro ⟨g, v, hg, hv, rfl⟩
        let xs : Finset X := (sp.outcomes.graphs.biUnion fun g => g.nodes.filter fun n => n.var = v).image Node.val
        refine ⟨v, xs, (C30_included_variables sp oG oN v xs).2 ⟨⟨g, hg, hv⟩, fun x => ?_⟩, rfl⟩
        simp only [xs, Finset.mem_image, Finset.mem_biUnion, Finset.mem_filter, Samples.mem_graphs]
        constructor
        · rintro ⟨n, ⟨g, hg, hn, rfl⟩, rfl⟩; exact ⟨g, hg, hn⟩
        · rintro ⟨g, hg, hn⟩; exact ⟨⟨v, x⟩, ⟨g, hg, hn, rfl⟩, rfl⟩
    · intro s
      simp only [Finset.mem_image, C30_included_relations]
      constructor
      · rintro ⟨r, ⟨g, hg, e, he, rfl⟩, rfl⟩; exact ⟨g, hg, e, he, rfl⟩
      · rintro ⟨g, hg, e, he, rfl⟩; exact ⟨_, ⟨g, hg, e, he, rfl⟩, rfl⟩

/-! ### Views -/

theorem edgesSetView_isView (o : Order (Node V X)) (g : SampleGraph V X R) : IsView g (g.edgesSetView o) := by
  unfold SampleGraph.edgesSetView
  split
  · rename_i hne
    refine .edges _ hne ?_
    intro eps r
    simp only [Finset.mem_image, Prod.mk.injEq]
    constructor
    · rintro ⟨e, he, rfl, rfl⟩
      refine ⟨e, he, rfl, fun v x => ?_⟩
      simp only [Finset.mem_image, Prod.mk.injEq]
      constructor
      · rintro ⟨n, hn, rfl, rfl⟩; exact hn
      · intro h; exact ⟨_, h, rfl, rfl⟩
    · rintro ⟨e, he, rfl, h⟩
      refine ⟨e, he, ?_, rfl⟩
      ext ⟨v, x⟩
      rw [h]
      simp only [Finset.mem_image, Prod.mk.injEq]
      constructor
      · rintro ⟨n, hn, rfl, rfl⟩; exact hn
      · intro h; exact ⟨_, h, rfl, rfl⟩
  · rename_i he
    have he : g.edges = ∅ := not_not.1 he
    split
    · rename_i n l hl
      refine .single _ _ he ?_
      rw [← o.mem g.nodes, hl]
      exact List.mem_cons_self
    · rename_i hl
      refine .nothing he ?_
      rw [← o.toFinset_run (s := g.nodes), hl]; rfl

theorem nodes_of_no_edges {g : SampleGraph V X R} (hg : WellFormed g) (he : g.edges = ∅) {a b : Node V X} (ha : a ∈ g.nodes)
    (hb : b ∈ g.nodes) : a = b := by
  have := hg.conn a ha b hb
  rw [he] at this
  induction this with
  | refl => rfl
  | tail _ h _ =>
    obtain ⟨e, he', -⟩ := h
    simp at he'

/-- **C68.** A view determines the sample: well formed samples with a common view are equal. -/
theorem C68_view_injective (g h : SampleGraph V X R) (hg : WellFormed g) (hh : WellFormed h) (v : EdgesView V X R)
    (h1 : IsView g v) (h2 : IsView h v) : g = h := by
  cases h1 with
  | edges E hne hE =>
    cases h2 with
    | edges _ hne' hE' =>
      have key : ∀ (a b : SampleGraph V X R),
          (∀ eps r, (eps, r) ∈ E ↔ ∃ e ∈ a.edges, e.relation = r ∧ ∀ v x, (v, x) ∈ eps ↔ (⟨v, x⟩ : Node V X) ∈ e.endpoints) →
          (∀ eps r, (eps, r) ∈ E ↔ ∃ e ∈ b.edges, e.relation = r ∧ ∀ v x, (v, x) ∈ eps ↔ (⟨v, x⟩ : Node V X) ∈ e.endpoints) →
          ∀ e ∈ a.edges, e ∈ b.edges := by
        intro a b ha hb e he
        have hm : ∀ v x, (v, x) ∈ e.endpoints.image (fun n => (n.var, n.val)) ↔ (⟨v, x⟩ : Node V X) ∈ e.endpoints := by
          intro v x
          simp only [Finset.mem_image, Prod.mk.injEq]
          constructor
          · rintro ⟨n, hn, rfl, rfl⟩; exact hn
          · intro h; exact ⟨_, h, rfl, rfl⟩
        obtain ⟨e', he', hr, hp⟩ := (hb _ _).1 ((ha (e.endpoints.image fun n => (n.var, n.val)) e.relation).2 ⟨e, he, rfl, hm⟩)
        have : e' = e := by
          cases e'; cases e
          simp only [Edge.mk.injEq]
          refine ⟨?_, hr⟩
          ext n
          rw [← hp n.var n.val, hm]
        rw [← this]; exact he'
      have hedges : g.edges = h.edges := by
        ext e; exact ⟨key g h hE hE' e, key h g hE' hE e⟩
      have hnodes : g.nodes = h.nodes := by
        rw [hg.nodes_eq hne, hh.nodes_eq hne', hedges]
      exact SampleGraph.ext hnodes hedges
  | single v x he hn =>
    cases h2 with
    | single _ _ he' hn' =>
      refine SampleGraph.ext ?_ (he.trans he'.symm)
      ext n
      constructor
      · intro h0; rw [nodes_of_no_edges hg he h0 hn]; exact hn'
      · intro h0; rw [nodes_of_no_edges hh he' h0 hn']; exact hn
  | nothing he hn =>
    cases h2 with
    | nothing he' hn' => exact SampleGraph.ext (hn.trans hn'.symm) (he.trans he'.symm)

/-- **C68.** `outcomes_as_edges_sets` lists exactly the views of the outcomes with their counts. -/
theorem C68_views (oN : Order (Node V X)) (sp : Space V X R) (hw : ∀ g, sp.outcomes.Occurs g → WellFormed g)
    (v : EdgesView V X R) (c : ℤ) :
    (v, c) ∈ sp.outcomesAsEdgesSets oN ↔ ∃ g, sp.outcomes.samples.get? g = some c ∧ IsView g v := by
  unfold Space.outcomesAsEdgesSets
  simp only [Finset.mem_image, Samples.mem_items, Prod.mk.injEq, Prod.exists]
  constructor
  · rintro ⟨g, c', hg, rfl, rfl⟩
    exact ⟨g, hg, edgesSetView_isView _ _⟩
  · rintro ⟨g, hg, hv⟩
    refine ⟨g, c, hg, ?_, rfl⟩
    have hwg := hw g ⟨c, hg⟩
    have hv' := edgesSetView_isView oN g
    generalize g.edgesSetView oN = w at hv'
    cases hv with
    | edges E hne hE =>
      cases hv' with
      | edges E' _ hE' =>
        congr 1
        ext ⟨eps, r⟩
        rw [hE, hE']
      | single _ _ he _ => exact absurd he hne
      | nothing he _ => exact absurd he hne
    | single v x he hn =>
      cases hv' with
      | edges _ hne _ => exact absurd he hne
      | single v' x' _ hn' =>
        have := nodes_of_no_edges hwg he hn hn'
        simp only [Node.mk.injEq] at this
        rw [this.1, this.2]
      | nothing _ hn' => rw [hn'] at hn; simp at hn
    | nothing he hn =>
      cases hv' with
      | edges _ hne _ => exact absurd he hne
      | single _ _ _ hn' => rw [hn] at hn'; simp at hn'
      | nothing _ _ => rfl

/-- **C68.** The views determine the outcomes: two spaces have the same views exactly if their sets of outcomes are equal; there
are as many views as different outcomes; iteration order does not matter. -/
theorem C68_views_determine (oN oN' : Order (Node V X)) (a b : Space V X R) (ha : ∀ g, a.outcomes.Occurs g → WellFormed g)
    (hb : ∀ g, b.outcomes.Occurs g → WellFormed g) :
    (a.outcomesAsEdgesSets oN = b.outcomesAsEdgesSets oN' ↔ a.outcomes.pyEq b.outcomes = true) ∧
    (a.outcomesAsEdgesSets oN).card = a.outcomes.graphs.card := by
  have sub : ∀ (a b : Space V X R) (o o' : Order (Node V X)), (∀ g, a.outcomes.Occurs g → WellFormed g) →
      (∀ g, b.outcomes.Occurs g → WellFormed g) → a.outcomesAsEdgesSets o = b.outcomesAsEdgesSets o' →
      ∀ p ∈ a.outcomes.items, p ∈ b.outcomes.items := by
    rintro a b o o' ha hb he ⟨g, c⟩ hp
    have hp := (Samples.mem_items _ _).1 hp
    have h1 := (C68_views o a ha (g.edgesSetView o) c).2 ⟨g, hp, edgesSetView_isView _ _⟩
    rw [he] at h1
    obtain ⟨h, hh, hv⟩ := (C68_views o' b hb _ _).1 h1
    have := C68_view_injective g h (ha g ⟨c, hp⟩) (hb h ⟨c, hh⟩) _ (edgesSetView_isView _ _) hv
    rw [this]
    exact (Samples.mem_items _ _).2 hh
  constructor
  · rw [pyEq_iff_items]
    constructor
    · intro h
      ext p
      exact ⟨sub a b _ _ ha hb h p, sub b a _ _ hb ha h.symm p⟩
    · intro h
      ext ⟨v, c⟩
      rw [C68_views _ _ ha, C68_views _ _ hb]
      have : ∀ g, a.outcomes.samples.get? g = some c ↔ b.outcomes.samples.get? g = some c := by
        intro g
        have := Finset.ext_iff.1 h (g, c)
        rwa [Samples.mem_items, Samples.mem_items] at this
      simp only [this]
  · unfold Space.outcomesAsEdgesSets
    rw [Finset.card_image_of_injOn]
    · unfold Samples.items Samples.graphs
      exact keys_card _
    · rintro ⟨g, c⟩ hp ⟨h, d⟩ hq he
      simp only [Prod.mk.injEq] at he
      have hp := (Samples.mem_items _ _).1 (Finset.mem_coe.1 hp)
      have hq := (Samples.mem_items _ _).1 (Finset.mem_coe.1 hq)
      have := C68_view_injective g h (ha g ⟨c, hp⟩) (ha h ⟨d, hq⟩) _ (edgesSetView_isView oN g)
        (by rw [he.1]; exact edgesSetView_isView oN h)
      rw [this, he.2]

/-! ### Texts of the builders -/

theorem split_last {a b d e : Str} (hd : ' ' ∉ d) (he : ' ' ∉ e) (h : a ++ ' ' :: d = b ++ ' ' :: e) : a = b ∧ d = e := by
  have key : ∀ (u v x y : Str), ' ' ∉ u → ' ' ∉ v → u ++ ' ' :: x = v ++ ' ' :: y → u = v ∧ x = y := by
    intro u
    induction u with
    | nil =>
      intro v x y _ hv h
      cases v with
      | nil => simpa using h
      | cons c v => simp at h; exact absurd h.1 (by rintro rfl; simp at hv)
    | cons c u ih =>
      intro v x y hu hv h
      cases v with
      | nil => simp at h; exact absurd h.1 (by rintro rfl; simp at hu)
      | cons c' v =>
        simp only [List.cons_append, List.cons.injEq] at h
        obtain ⟨h1, h2⟩ := ih v x y (by simp at hu; tauto) (by simp at hv; tauto) h.2
        exact ⟨by rw [h.1, h1], h2⟩
  have h' := congrArg List.reverse h
  simp only [List.reverse_append, List.reverse_cons, List.append_assoc, List.singleton_append] at h'
  obtain ⟨h1, h2⟩ := key _ _ _ _ (by simpa using hd) (by simpa using he) h'
  exact ⟨List.reverse_injective h2, List.reverse_injective h1⟩

theorem space_intStr (c : ℤ) : ' ' ∉ intStr c := by
  intro h
  rcases intStr_chars c h with h | h <;> exact absurd h (by decide)

/-- **C68.** The text of a relation graph builder tells exactly its name (as text) and the total count of its outcomes. -/
theorem C68_builder_text (b c : NamedRG V X R) :
    b.repr = c.repr ↔ optText b.name = optText c.name ∧
      ∑ p ∈ b.builder.outcomes.items, p.2 = ∑ p ∈ c.builder.outcomes.items, p.2 := by
  rw [← length_eq_sum, ← length_eq_sum]
  constructor
  · intro h
    unfold NamedRG.repr at h
    have h := List.append_cancel_right h
    have hs : (", len(outcomes) = ".toList : Str) = ", len(outcomes) =".toList ++ [' '] := by decide
    rw [hs] at h
    simp only [List.append_assoc, List.singleton_append] at h
    have h := List.append_cancel_left h
    rw [← List.append_assoc, ← List.append_assoc (optText c.name)] at h
    obtain ⟨h1, h2⟩ := split_last (space_intStr _) (space_intStr _) h
    exact ⟨List.append_cancel_right h1, intStr_inj h2⟩
  · rintro ⟨h1, h2⟩
    unfold NamedRG.repr
    rw [h1, h2]

/-- **C68.** The text of a sample graph builder tells its name (as text) and its numbers of nodes and edges; although it begins
with the name of the other class, it is never the text of a relation graph builder. -/
theorem C68_sample_builder_text (b c : NamedBuilder V X R) (d : NamedRG V X R) :
    (b.repr = c.repr ↔ optText b.name = optText c.name ∧ b.builder.nodes.card = c.builder.nodes.card ∧
      b.builder.edges.card = c.builder.edges.card) ∧ b.repr ≠ d.repr := by
  have hs : (", len(outcomes) = ".toList : Str) = ", len(outcomes) =".toList ++ [' '] := by decide
  have hn : (", len(nodes) = ".toList : Str) = ", len(nodes) =".toList ++ [' '] := by decide
  have he : (", len(edges) = ".toList : Str) = ", len(edges) =".toList ++ [' '] := by decide
  constructor
  · constructor
    · intro h
      unfold NamedBuilder.repr at h
      have h := List.append_cancel_right h
      rw [hn, he] at h
      simp only [List.append_assoc, List.singleton_append, List.cons_append, List.nil_append] at h
      have h := List.append_cancel_left h
      have key : ∀ (n : Str) (a b : Str), n ++ (", len(nodes) =".toList ++ ' ' :: (a ++ (", len(edges) =".toList ++ ' ' :: b))) =
          (n ++ ", len(nodes) =".toList ++ ' ' :: a ++ ", len(edges) =".toList) ++ ' ' :: b := by
        intro n a b; simp only [List.append_assoc, List.cons_append]
      rw [key, key] at h
      obtain ⟨h1, h2⟩ := split_last (space_intStr _) (space_intStr _) h
      obtain ⟨h3, h4⟩ := split_last (space_intStr _) (space_intStr _) (List.append_cancel_right h1)
      have h2 := intStr_inj h2
      have h4 := intStr_inj h4
      exact ⟨List.append_cancel_right h3, by exact_mod_cast h4, by exact_mod_cast h2⟩
    · rintro ⟨h1, h2, h3⟩
      unfold NamedBuilder.repr
      rw [h1, h2, h3]
  · intro h
    unfold NamedBuilder.repr NamedRG.repr at h
    have h := List.append_cancel_right h
    rw [hn, he, hs] at h
    simp only [List.append_assoc, List.singleton_append, List.cons_append, List.nil_append] at h
    have h := List.append_cancel_left h
    have key : ∀ (n : Str) (a b : Str), n ++ (", len(nodes) =".toList ++ ' ' :: (a ++ (", len(edges) =".toList ++ ' ' :: b))) =
        (n ++ ", len(nodes) =".toList ++ ' ' :: a ++ ", len(edges) =".toList) ++ ' ' :: b := by
      intro n a b; simp only [List.append_assoc, List.cons_append]
    rw [key, ← List.append_assoc (optText d.name)] at h
    obtain ⟨h1, -⟩ := split_last (space_intStr _) (space_intStr _) h
    have h5 := congrArg (fun l => l.reverse[5]?) h1
    simp only [List.reverse_append] at h5
    have e1 : (", len(edges) =".toList : Str).reverse = ['=', ' ', ')', 's', 'e', 'g', 'd', 'e', '(', 'n', 'e', 'l', ' ', ','] := by decide
    have e2 : (", len(outcomes) =".toList : Str).reverse =
      ['=', ' ', ')', 's', 'e', 'm', 'o', 'c', 't', 'u', 'o', '(', 'n', 'e', 'l', ' ', ','] := by decide
    rw [e1, e2] at h5
    simp at h5

/-! ### Non-vacuity -/

/-- Non-vacuity of `C68_name`, `C68_builder_name`, `C68_back`, `C68_stale_name`: a space of two outcomes with the default name,
to which one of them is added again. -/
example : ∃ (l : List (Sample ℕ ℕ ℕ × ℤ)) (h : NamedSpace ℕ ℕ ℕ),
    (l.foldl (fun b p => (b.addOutcome p).1) (mkRelationGraph demoSpace.schema none demoSpace.outcomes).builder).build = .ok h ∧
    ∑ p ∈ h.space.outcomes.items, p.2 ≠ ∑ p ∈ demoSpace.outcomes.items, p.2 := by
  refine ⟨[(⟨demoSpace.outcomes.prov, oneEdge ⟨0, 0⟩ ⟨1, 0⟩⟩, 1)], _, rfl, ?_⟩
  rw [← length_eq_sum, ← length_eq_sum]
  decide +kernel

/-- Non-vacuity of `C68_conditional_name` and `C68_describe_conditional`. -/
example (oI : Order (SampleGraph ℕ ℕ ℕ × ℤ)) : ∃ (ev : Sample ℕ ℕ ℕ) (h : NamedSpace ℕ ℕ ℕ), WellFormed ev.graph ∧
    (mkRelationGraph demoSpace.schema none demoSpace.outcomes).conditionalGraph oI ev none = .ok h :=
  ⟨⟨demoSpace.outcomes.prov, oneEdge ⟨0, 0⟩ ⟨1, 0⟩⟩, _, oneEdge_wf _ _ (by decide), rfl⟩

/-- Non-vacuity of `C68_views` and `C68_views_determine`. -/
example : (∀ g, demoSpace.outcomes.Occurs g → WellFormed g) ∧ ∃ g, demoSpace.outcomes.Occurs g := by
  refine ⟨fun g hg => ?_, ⟨_, (demoSpace_occurs _).2 (Or.inl rfl)⟩⟩
  rcases (demoSpace_occurs g).1 hg with rfl | rfl <;> exact oneEdge_wf _ _ (by decide)

/-- Both cases of `C68_describe`: numbers of texts equal to and smaller than the numbers of variables. -/
example : (∃ t : Texts ℕ ℕ ℕ, TextsDiffer t.var {0, 1}) ∧ ∃ t : Texts ℕ ℕ ℕ, ¬ TextsDiffer t.var {0, 1} :=
  ⟨⟨unaryTexts, fun a _ b _ h => unaryTexts_clean.1 h⟩,
    ⟨⟨fun _ => [], fun _ => [], fun _ => []⟩, fun h => absurd (h 0 (by decide) 1 (by decide) rfl) (by decide)⟩⟩

end Verif
