import Verif.Lemmas.Joined
import Verif.Spec.Join
import Verif.Props.Group

/-!
# Families of sets of samples that can be joined

The sets of such a family share no pair of variables, hence the chosen samples are determined by their join.
-/

set_option linter.unusedSectionVars false

namespace Verif

variable {V X R : Type} [DecidableEq V] [DecidableEq X] [DecidableEq R]

/-- Well formed samples, one count per sample; samples of different sets share no pair; single nodes in one set have the
same variable. -/
structure JoinSystem {ι : Type} (I : Finset ι) (D : ι → Finset (SampleGraph V X R × ℤ)) : Prop where
  wf : ∀ i ∈ I, ∀ p ∈ D i, WellFormed p.1 ∧ p.1.nodes.Nonempty ∧ SingleValued p.1.nodes
  func : ∀ i ∈ I, ∀ p ∈ D i, ∀ q ∈ D i, p.1 = q.1 → p = q
  apart : ∀ i ∈ I, ∀ j ∈ I, i ≠ j → ∀ p ∈ D i, ∀ q ∈ D j, ¬ SharesPair p.1 q.1
  single : ∀ i ∈ I, ∀ p ∈ D i, ∀ q ∈ D i, p.1.edges = ∅ → q.1.edges = ∅ → ∀ n ∈ p.1.nodes, ∀ m ∈ q.1.nodes, n.var = m.var

theorem sharesPair_self (g : SampleGraph V X R) (h : g.nodes.Nonempty) : SharesPair g g := by
  by_cases he : g.edges = ∅
  · obtain ⟨n, hn⟩ := h
    exact Or.inr ⟨he, he, n, hn, n, hn, rfl⟩
  · obtain ⟨e, he⟩ := Finset.nonempty_iff_ne_empty.2 he
    exact Or.inl ⟨e, he, e, he, rfl⟩

theorem sharesPair_of_edge {g g' : SampleGraph V X R} {e : Edge V X R} (h : e ∈ g.edges) (h' : e ∈ g'.edges) :
    SharesPair g g' := Or.inl ⟨e, h, e, h', rfl⟩

variable {ι : Type} {I : Finset ι} {D : ι → Finset (SampleGraph V X R × ℤ)}

theorem JoinSystem.sub (h : JoinSystem I D) {I' : Finset ι} (hI : I' ⊆ I) {D' : ι → Finset (SampleGraph V X R × ℤ)}
    (hD : ∀ i ∈ I', D' i ⊆ D i) : JoinSystem I' D' :=
  ⟨fun i hi p hp => h.wf i (hI hi) p (hD i hi hp), fun i hi p hp q hq => h.func i (hI hi) p (hD i hi hp) q (hD i hi hq),
    fun i hi j hj hij p hp q hq => h.apart i (hI hi) j (hI hj) hij p (hD i hi hp) q (hD j hj hq),
    fun i hi p hp q hq => h.single i (hI hi) p (hD i hi hp) q (hD i hi hq)⟩

/-- Choices of a mapped list are given by selections. -/
theorem mem_choices_map {α β : Type} [DecidableEq α] [Inhabited β] (l : List α) (hl : l.Nodup) (E : α → List β) (ps : List β) :
    ps ∈ choices (l.map E) ↔ ∃ sel : α → β, (∀ i ∈ l, sel i ∈ E i) ∧ ps = l.map sel := by
  induction l generalizing ps with
  | nil =>
    simp only [List.map_nil, choices, List.mem_singleton, List.not_mem_nil, false_imp_iff, implies_true, true_and]
    exact ⟨fun h => ⟨fun _ => default, h⟩, fun ⟨_, h⟩ => h⟩
  | cons i t ih =>
    rw [List.nodup_cons] at hl
    simp only [List.map_cons, choices, List.mem_flatMap, List.mem_map]
    constructor
    · rintro ⟨p, hp, qs, hqs, rfl⟩
      obtain ⟨sel, h1, rfl⟩ := (ih hl.2 qs).1 hqs
      refine ⟨Function.update sel i p, ?_, ?_⟩
      · intro j hj
        rcases List.mem_cons.1 hj with rfl | hj
        · rw [Function.update_self]; exact hp
        · have : j ≠ i := fun h => hl.1 (h ▸ hj)
          rw [Function.update_of_ne this]; exact h1 j hj
      · rw [Function.update_self]
        congr 1
        refine List.map_congr_left ?_
        intro j hj
        have : j ≠ i := fun h => hl.1 (h ▸ hj)
        rw [Function.update_of_ne this]
    · rintro ⟨sel, h1, rfl⟩
      exact ⟨sel i, h1 i (by simp), t.map sel, (ih hl.2 _).2 ⟨sel, fun j hj => h1 j (by simp [hj]), rfl⟩, rfl⟩

theorem mem_union_sel_nodes (l : List ι) (sel : ι → SampleGraph V X R × ℤ) (n : Node V X) :
    n ∈ (unionGraph ((l.map sel).map Prod.fst)).nodes ↔ ∃ i ∈ l, n ∈ (sel i).1.nodes := by
  rw [mem_unionGraph_nodes]
  simp

theorem mem_union_sel_edges (l : List ι) (sel : ι → SampleGraph V X R × ℤ) (e : Edge V X R) :
    e ∈ (unionGraph ((l.map sel).map Prod.fst)).edges ↔ ∃ i ∈ l, e ∈ (sel i).1.edges := by
  rw [mem_unionGraph_edges]
  simp

/-- The selected items are determined by the joined sample. -/
theorem JoinSystem.sel_unique (h : JoinSystem I D) (sel sel' : ι → SampleGraph V X R × ℤ) (hs : ∀ i ∈ I, sel i ∈ D i)
    (hs' : ∀ i ∈ I, sel' i ∈ D i) (ns : Finset (Node V X)) (hsv : SingleValued ns) (es : Finset (Edge V X R))
    (h1 : ∀ n, n ∈ ns ↔ ∃ i ∈ I, n ∈ (sel i).1.nodes) (h1' : ∀ n, n ∈ ns ↔ ∃ i ∈ I, n ∈ (sel' i).1.nodes)
    (h2 : ∀ e, e ∈ es ↔ ∃ i ∈ I, e ∈ (sel i).1.edges) (h2' : ∀ e, e ∈ es ↔ ∃ i ∈ I, e ∈ (sel' i).1.edges) :
    ∀ i ∈ I, sel i = sel' i := by
  classical
  intro i hi
  have hsub : ∀ (s s' : ι → SampleGraph V X R × ℤ), (∀ i ∈ I, s i ∈ D i) → (∀ i ∈ I, s' i ∈ D i) →
      (∀ e, e ∈ es ↔ ∃ i ∈ I, e ∈ (s i).1.edges) → (∀ e, e ∈ es ↔ ∃ i ∈ I, e ∈ (s' i).1.edges) →
      (s i).1.edges ⊆ (s' i).1.edges := by
    intro s s' hs hs' h2 h2' e he
    obtain ⟨j, hj, hej⟩ := (h2' e).1 ((h2 e).2 ⟨i, hi, he⟩)
    by_cases hij : i = j
    · rw [hij]; exact hej
    · exact absurd (sharesPair_of_edge he hej) (h.apart i hi j hj hij _ (hs i hi) _ (hs' j hj))
  have hE : (sel i).1.edges = (sel' i).1.edges :=
    Finset.Subset.antisymm (hsub sel sel' hs hs' h2 h2') (hsub sel' sel hs' hs h2' h2)
  have hw := h.wf i hi _ (hs i hi)
  have hw' := h.wf i hi _ (hs' i hi)
  refine h.func i hi _ (hs i hi) _ (hs' i hi) (SampleGraph.ext ?_ hE)
  by_cases he : (sel i).1.edges = ∅
  · have hc := hw.1.card_le_one he
    have hc' := hw'.1.card_le_one (hE ▸ he)
    obtain ⟨n, hn⟩ := hw.2.1
    obtain ⟨m, hm⟩ := hw'.2.1
    have hnm : n = m := hsv n ((h1 n).2 ⟨i, hi, hn⟩) m ((h1' m).2 ⟨i, hi, hm⟩)
      (h.single i hi _ (hs i hi) _ (hs' i hi) he (hE ▸ he) n hn m hm)
    subst hnm
    rw [Finset.card_le_one] at hc hc'
    ext x
    exact ⟨fun hx => (hc x hx n hn) ▸ hm, fun hx => (hc' x hx n hm) ▸ hn⟩
  · rw [hw.1.nodes_eq he, hw'.1.nodes_eq (hE ▸ he), hE]

/-- A choice of a system whose samples all contain a variable `v` is good. -/
theorem JoinSystem.goodChoice (h : JoinSystem I D) (l : List ι) (hl : l.Nodup) (hI : ∀ i, i ∈ l ↔ i ∈ I) (hne : l ≠ []) (v : V)
    (hv : ∀ i ∈ I, ∀ p ∈ D i, ∃ x, (⟨v, x⟩ : Node V X) ∈ p.1.nodes) (sel : ι → SampleGraph V X R × ℤ)
    (hs : ∀ i ∈ I, sel i ∈ D i) : GoodChoice (l.map sel) := by
  classical
  refine ⟨by simpa using hne, ?_, ?_, ?_, ?_⟩
  · rw [List.map_map]
    refine List.Nodup.map_on ?_ hl
    intro i hi j hj hij
    by_contra hne
    simp only [Function.comp_apply] at hij
    refine h.apart i ((hI i).1 hi) j ((hI j).1 hj) hne _ (hs i ((hI i).1 hi)) _ (hs j ((hI j).1 hj)) ?_
    rw [← hij]
    exact sharesPair_self _ (h.wf i ((hI i).1 hi) _ (hs i ((hI i).1 hi))).2.1
  · intro p hp
    obtain ⟨i, hi, rfl⟩ := List.mem_map.1 hp
    exact h.wf i ((hI i).1 hi) _ (hs i ((hI i).1 hi))
  · intro e he e' he' hee
    rw [mem_union_sel_edges] at he he'
    obtain ⟨i, hi, hei⟩ := he
    obtain ⟨j, hj, hej⟩ := he'
    rw [hI] at hi hj
    by_cases hij : i = j
    · subst hij
      exact (h.wf i hi _ (hs i hi)).1.onePer e hei e' hej hee
    · exact absurd (Or.inl ⟨e, hei, e', hej, by rw [hee]⟩) (h.apart i hi j hj hij _ (hs i hi) _ (hs j hj))
  · intro hca
    cases l with
    | nil => exact absurd rfl hne
    | cons i t =>
      have hall : ∀ p ∈ (i :: t).map sel, ∃ x, (⟨v, x⟩ : Node V X) ∈ p.1.nodes := by
        intro p hp
        obtain ⟨j, hj, rfl⟩ := List.mem_map.1 hp
        exact hv j ((hI j).1 hj) _ (hs j ((hI j).1 hj))
      simp only [List.map_cons, Chained]
      intro pre g suf hsplit
      have hg : g ∈ (t.map sel).map Prod.fst := by rw [hsplit]; simp
      obtain ⟨q, hq, rfl⟩ := List.mem_map.1 hg
      obtain ⟨x, hx⟩ := hall (sel i) (by simp)
      obtain ⟨y, hy⟩ := hall q (by rw [List.map_cons]; exact List.mem_cons_of_mem _ hq)
      have hxy := hca v hall (sel i) (by simp) q (by rw [List.map_cons]; exact List.mem_cons_of_mem _ hq) x y hx hy
      subst hxy
      exact ⟨_, hy, (sel i).1, by simp, hx⟩

/-- The total of counts when no sample comes twice. -/
theorem totalOf_unique {K : Type} [DecidableEq K] (l : List (K × ℤ)) (hl : (l.map Prod.fst).Nodup) (k : K) (c : ℤ) :
    totalOf l k = some c ↔ (k, c) ∈ l := by
  have := totalOf_entries (⟨l, hl⟩ : Dict K ℤ) k
  rw [this]
  exact (Dict.mem_entries (⟨l, hl⟩ : Dict K ℤ) k c).symm

/-- The joined items of a system, one of each set. -/
theorem JoinSystem.total_iff [DecidableEq ι] (h : JoinSystem I D) (l : List ι) (hl : l.Nodup) (hI : ∀ i, i ∈ l ↔ i ∈ I)
    (E : ι → List (SampleGraph V X R × ℤ)) (hE : ∀ i ∈ I, (E i).Nodup ∧ ∀ p, p ∈ E i ↔ p ∈ D i) (g : SampleGraph V X R) (c : ℤ) :
    totalOf (joinedItems (choices (l.map E))) g = some c ↔ IsJoin I D (g, c) := by
  have : Inhabited (SampleGraph V X R × ℤ) := ⟨(⟨∅, ∅⟩, 0)⟩
  have hsel : ∀ ps, ps ∈ choices (l.map E) ↔ ∃ sel : ι → SampleGraph V X R × ℤ, (∀ i ∈ I, sel i ∈ D i) ∧ ps = l.map sel := by
    intro ps
    rw [mem_choices_map l hl E ps]
    constructor
    · rintro ⟨sel, h1, h2⟩
      exact ⟨sel, fun i hi => ((hE i hi).2 _).1 (h1 i ((hI i).2 hi)), h2⟩
    · rintro ⟨sel, h1, h2⟩
      exact ⟨sel, fun i hi => ((hE i ((hI i).1 hi)).2 _).2 (h1 i ((hI i).1 hi)), h2⟩
  have hnd : ((joinedItems (choices (l.map E))).map Prod.fst).Nodup := by
    unfold joinedItems
    rw [List.map_filterMap, List.Nodup, List.pairwise_filterMap]
    have hch : (choices (l.map E)).Nodup := nodup_choices _ (by
      intro x hx
      obtain ⟨i, hi, rfl⟩ := List.mem_map.1 hx
      exact (hE i ((hI i).1 hi)).1)
    refine List.Pairwise.imp_of_mem ?_ hch
    intro ps ps' hps hps' hne g hg g' hg' hgg
    rw [Option.map_eq_some_iff] at hg hg'
    obtain ⟨p, hp, rfl⟩ := hg
    obtain ⟨p', hp', rfl⟩ := hg'
    rw [joinedItem_eq_some] at hp hp'
    obtain ⟨ha, rfl⟩ := hp
    obtain ⟨ha', rfl⟩ := hp'
    obtain ⟨sel, hs, rfl⟩ := (hsel ps).1 hps
    obtain ⟨sel', hs', rfl⟩ := (hsel ps').1 hps'
    simp only at hgg
    apply hne
    refine List.map_congr_left ?_
    intro i hi
    refine h.sel_unique sel sel' hs hs' _ ha (unionGraph ((l.map sel).map Prod.fst)).edges ?_ ?_ ?_ ?_ i ((hI i).1 hi)
    · intro n; rw [mem_union_sel_nodes]; simp only [hI]
    · intro n; rw [hgg, mem_union_sel_nodes]; simp only [hI]
    · intro e; rw [mem_union_sel_edges]; simp only [hI]
    · intro e; rw [hgg, mem_union_sel_edges]; simp only [hI]
  rw [totalOf_unique _ hnd]
  unfold joinedItems
  simp only [List.mem_filterMap, joinedItem_eq_some, hsel]
  have hlI : l.toFinset = I := by ext i; rw [List.mem_toFinset, hI]
  constructor
  · rintro ⟨ps, ⟨sel, hs, rfl⟩, ha, hp⟩
    rw [Prod.mk.injEq] at hp
    obtain ⟨rfl, rfl⟩ := hp
    refine ⟨sel, hs, ha, ?_, ?_, ?_⟩
    · ext n; simp only [mem_union_sel_nodes, Finset.mem_biUnion, hI]
    · ext e; simp only [mem_union_sel_edges, Finset.mem_biUnion, hI]
    · simp only
      rw [List.map_map, ← hlI, List.prod_toFinset _ hl]
      rfl
  · rintro ⟨sel, hs, hsv, hn, he, hc⟩
    simp only at hsv hn he hc
    have hg : g = unionGraph ((l.map sel).map Prod.fst) := by
      refine SampleGraph.ext ?_ ?_
      · rw [hn]; ext n; simp only [mem_union_sel_nodes, Finset.mem_biUnion, hI]
      · rw [he]; ext e; simp only [mem_union_sel_edges, Finset.mem_biUnion, hI]
    refine ⟨_, ⟨sel, hs, rfl⟩, ?_, ?_⟩
    · unfold Agrees; rw [← hg]; exact hsv
    · rw [← hg, hc, ← hlI, List.map_map, List.prod_toFinset _ hl]
      rfl

end Verif
