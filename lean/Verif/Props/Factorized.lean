import Verif.Props.SampleSpace

/-!
# `factorized` (sample_space.py) and `is_factorized` (relation_graph.py): C33
-/

set_option linter.unusedSectionVars false

namespace Verif

section
variable {V X R : Type} [DecidableEq V] [DecidableEq X] [DecidableEq R]

/-- The sample links the pair of variables `P`. -/
def LinksPair (g : SampleGraph V X R) (P : Finset V) : Prop := ∃ e ∈ g.edges, e.endpoints.image Node.var = P

/-- Factorized outcomes: none is empty, and two outcomes linking a common pair of variables link the same pairs. -/
structure Factorizable (a : Samples V X R) : Prop where
  nonempty : ∀ g, a.Occurs g → g.nodes ≠ ∅ ∨ g.edges ≠ ∅
  pairs : ∀ g h, a.Occurs g → a.Occurs h → (∃ P, LinksPair g P ∧ LinksPair h P) → ∀ P, LinksPair g P ↔ LinksPair h P

/-- Two outcomes belong to the same factor: they link the same pairs, or are single nodes of the same variable. -/
def SameFactor (g h : SampleGraph V X R) : Prop :=
  (g.edges ≠ ∅ ∧ h.edges ≠ ∅ ∧ ∀ P, LinksPair g P ↔ LinksPair h P) ∨
  (g.edges = ∅ ∧ h.edges = ∅ ∧ ∃ n ∈ g.nodes, ∃ m ∈ h.nodes, n.var = m.var)

theorem mem_edgesEndpointVariables (g : SampleGraph V X R) (P : Finset V) : P ∈ g.edgesEndpointVariables ↔ LinksPair g P := by
  simp [SampleGraph.edgesEndpointVariables, LinksPair, Edge.vars]

theorem isK0_iff (g : SampleGraph V X R) : g.isK0 = true ↔ ¬ (g.nodes ≠ ∅ ∨ g.edges ≠ ∅) := by
  simp only [SampleGraph.isK0, Bool.and_eq_true, decide_eq_true_eq]
  tauto

theorem isFactorizedLoop_spec : ∀ (l : List (SampleGraph V X R)) (acc : Finset (Finset (Finset V))),
    (∀ k ∈ acc, ∀ k' ∈ acc, ¬ Disjoint k k' → k = k') →
    (Space.isFactorizedLoop l acc = true ↔ (∀ g ∈ l, g.isK0 = false) ∧
      (∀ g ∈ l, ∀ k ∈ acc, ¬ Disjoint k g.edgesEndpointVariables → k = g.edgesEndpointVariables) ∧
      ∀ g ∈ l, ∀ h ∈ l, ¬ Disjoint g.edgesEndpointVariables h.edgesEndpointVariables →
        g.edgesEndpointVariables = h.edgesEndpointVariables) := by
  intro l
  induction l with
  | nil => intro acc _; simp [Space.isFactorizedLoop]
  | cons g t ih =>
    intro acc hacc
    unfold Space.isFactorizedLoop
    cases hk : g.isK0 with
    | true => simp [hk]
    | false =>
      simp only [Bool.false_eq_true, if_false]
      by_cases hmem : g.edgesEndpointVariables ∈ acc
      · rw [if_pos hmem, ih acc hacc]
        constructor
        · rintro ⟨h1, h2, h3⟩
          refine ⟨?_, ?_, ?_⟩
          · intro h hh
            rw [List.mem_cons] at hh
            rcases hh with rfl | hh
            · exact hk
            · exact h1 h hh
          · intro h hh k hkacc hd
            rw [List.mem_cons] at hh
            rcases hh with rfl | hh
            · exact hacc _ hkacc _ hmem hd
            · exact h2 h hh k hkacc hd
          · intro h hh h' hh' hd
            rw [List.mem_cons] at hh hh'
            rcases hh with rfl | hh
            · rcases hh' with rfl | hh'
              · rfl
              · exact h2 h' hh' _ hmem hd
            · rcases hh' with rfl | hh'
              · exact (h2 h hh _ hmem (fun hd' => hd hd'.symm)).symm
              · exact h3 h hh h' hh' hd
        · rintro ⟨h1, h2, h3⟩
          exact ⟨fun h hh => h1 h (by simp [hh]), fun h hh => h2 h (by simp [hh]),
            fun h hh h' hh' => h3 h (by simp [hh]) h' (by simp [hh'])⟩
      · rw [if_neg hmem]
        by_cases hex : ∃ k ∈ acc, ¬ Disjoint k g.edgesEndpointVariables
        · rw [if_pos hex]
          obtain ⟨k, hka, hd⟩ := hex
          constructor
          · intro h; exact absurd h (by simp)
          · rintro ⟨_, h2, _⟩
            exact absurd (h2 g (by simp) k hka hd ▸ hka) hmem
        · rw [if_neg hex]
          push Not at hex
          rw [ih]
          · constructor
            · rintro ⟨h1, h2, h3⟩
              refine ⟨?_, ?_, ?_⟩
              · intro h hh
                rw [List.mem_cons] at hh
                rcases hh with rfl | hh
                · exact hk
                · exact h1 h hh
              · intro h hh k hkacc hd
                rw [List.mem_cons] at hh
                rcases hh with rfl | hh
                · exact absurd (hex k hkacc) hd
                · exact h2 h hh k (by simp [hkacc]) hd
              · intro h hh h' hh' hd
                rw [List.mem_cons] at hh hh'
                rcases hh with rfl | hh
                · rcases hh' with rfl | hh'
                  · rfl
                  · exact h2 h' hh' _ (by simp) hd
                · rcases hh' with rfl | hh'
                  · exact (h2 h hh _ (by simp) (fun hd' => hd hd'.symm)).symm
                  · exact h3 h hh h' hh' hd
            · rintro ⟨h1, h2, h3⟩
              refine ⟨fun h hh => h1 h (by simp [hh]), ?_, fun h hh h' hh' => h3 h (by simp [hh]) h' (by simp [hh'])⟩
              intro h hh k hkk hd
              rw [Finset.mem_insert] at hkk
              rcases hkk with rfl | hkk
              · exact h3 g (by simp) h (by simp [hh]) hd
              · exact h2 h (by simp [hh]) k hkk hd
          · intro k hkk k' hkk' hd
            rw [Finset.mem_insert] at hkk hkk'
            rcases hkk with rfl | hkk
            · rcases hkk' with rfl | hkk'
              · rfl
              · exact absurd (hex k' hkk').symm hd
            · rcases hkk' with rfl | hkk'
              · exact absurd (hex k hkk) hd
              · exact hacc k hkk k' hkk' hd

theorem not_disjoint_pairs (g h : SampleGraph V X R) :
    ¬ Disjoint g.edgesEndpointVariables h.edgesEndpointVariables ↔ ∃ P, LinksPair g P ∧ LinksPair h P := by
  rw [Finset.not_disjoint_iff]
  simp only [mem_edgesEndpointVariables]

theorem pairs_eq_iff (g h : SampleGraph V X R) :
    g.edgesEndpointVariables = h.edgesEndpointVariables ↔ ∀ P, LinksPair g P ↔ LinksPair h P := by
  rw [Finset.ext_iff]
  simp only [mem_edgesEndpointVariables]

/-- **C33.** `is_factorized` is `True` exactly on factorized outcomes, whatever the order. -/
theorem C33_is_factorized (sp : Space V X R) (oG : Order (SampleGraph V X R)) :
    sp.isFactorized oG = true ↔ Factorizable sp.outcomes := by
  unfold Space.isFactorized
  rw [isFactorizedLoop_spec _ _ (by simp)]
  simp only [oG.mem, Samples.mem_graphs, Finset.notMem_empty, false_imp_iff, implies_true, true_and]
  constructor
  · rintro ⟨h1, h2⟩
    refine ⟨fun g hg => ?_, fun g h hg hh hP => ?_⟩
    · have := h1 g hg
      by_contra hn
      rw [(isK0_iff g).2 hn] at this
      cases this
    · exact (pairs_eq_iff g h).1 (h2 g hg h hh ((not_disjoint_pairs g h).2 hP))
  · rintro ⟨h1, h2⟩
    refine ⟨fun g hg => ?_, fun g hg h hh hd => ?_⟩
    · rw [Bool.eq_false_iff]
      intro hk
      exact (isK0_iff g).1 hk (h1 g hg)
    · exact (pairs_eq_iff g h).2 (h2 g h hg hh ((not_disjoint_pairs g h).1 hd))

/-- The key an outcome gets in `factorized`, with a dummy for the empty outcome. -/
def keyOf (oN : Order (Node V X)) (g : SampleGraph V X R) : GKey V :=
  match Space.factorKey oN g with
  | .ok k => k
  | .error _ => ∅

theorem factorKey_ok (oN : Order (Node V X)) (g : SampleGraph V X R) (h : g.isK0 = false) :
    Space.factorKey oN g = .ok (keyOf oN g) := by
  unfold keyOf
  have : ∃ k, Space.factorKey oN g = .ok k := by
    unfold Space.factorKey
    by_cases hs : g.isSingleNode = true
    · rw [if_pos hs]
      unfold SampleGraph.singleNodeVariable
      rw [if_pos hs]
      cases hr : oN.run g.nodes with
      | nil =>
        rw [Order.run_eq_nil] at hr
        simp only [SampleGraph.isSingleNode, decide_eq_true_eq] at hs
        simp [SampleGraph.isK0, hr, hs] at h
      | cons n t => exact ⟨_, rfl⟩
    · rw [if_neg hs]; exact ⟨_, rfl⟩
  obtain ⟨k, hk⟩ := this
  rw [hk]

theorem keyOf_edges (oN : Order (Node V X)) (g : SampleGraph V X R) (h : g.edges ≠ ∅) :
    keyOf oN g = g.edgesEndpointVariables.image .inr := by
  unfold keyOf Space.factorKey
  rw [if_neg (by simp [SampleGraph.isSingleNode, h])]

theorem keyOf_single (oN : Order (Node V X)) (g : SampleGraph V X R) (h : g.edges = ∅) (hn : g.nodes ≠ ∅) :
    ∃ n ∈ g.nodes, keyOf oN g = {.inl n.var} := by
  unfold keyOf Space.factorKey SampleGraph.singleNodeVariable
  have hs : g.isSingleNode = true := by simp [SampleGraph.isSingleNode, h]
  rw [if_pos hs, if_pos hs]
  cases hr : oN.run g.nodes with
  | nil => exact absurd ((Order.run_eq_nil _ _).1 hr) hn
  | cons n t => exact ⟨n, (oN.mem _ _).1 (by simp [hr]), rfl⟩

theorem keyOf_nonempty (oN : Order (Node V X)) (g : SampleGraph V X R) (h : g.isK0 = false) : keyOf oN g ≠ ∅ := by
  by_cases he : g.edges = ∅
  · have hn : g.nodes ≠ ∅ := by
      intro hn; simp [SampleGraph.isK0, he, hn] at h
    obtain ⟨n, _, hk⟩ := keyOf_single oN g he hn
    rw [hk]; simp
  · rw [keyOf_edges oN g he]
    intro h0
    rw [Finset.image_eq_empty, SampleGraph.edgesEndpointVariables, Finset.image_eq_empty] at h0
    exact he h0

theorem keyOf_disjoint (oN : Order (Node V X)) (g h : SampleGraph V X R) (hg : g.isK0 = false) (hh : h.isK0 = false) :
    (¬ Disjoint (keyOf oN g) (keyOf oN h) → keyOf oN g = keyOf oN h) ↔
      ((∃ P, LinksPair g P ∧ LinksPair h P) → ∀ P, LinksPair g P ↔ LinksPair h P) := by
  have hno : ∀ (k : SampleGraph V X R), k.edges = ∅ → ∀ P, ¬ LinksPair k P := by
    rintro k hk P ⟨e, he, _⟩; rw [hk] at he; simp at he
  have hne : ∀ (k : SampleGraph V X R), k.isK0 = false → k.edges = ∅ → k.nodes ≠ ∅ := by
    intro k hk he hn; simp [SampleGraph.isK0, he, hn] at hk
  by_cases hge : g.edges = ∅
  · obtain ⟨n, _, hkg⟩ := keyOf_single oN g hge (hne g hg hge)
    constructor
    · rintro - ⟨P, hP, _⟩
      exact absurd hP (hno g hge P)
    · rintro -
      by_cases hhe : h.edges = ∅
      · obtain ⟨m, _, hkh⟩ := keyOf_single oN h hhe (hne h hh hhe)
        rw [hkg, hkh]
        simp
      · rw [hkg, keyOf_edges oN h hhe]
        simp
  · by_cases hhe : h.edges = ∅
    · obtain ⟨m, _, hkh⟩ := keyOf_single oN h hhe (hne h hh hhe)
      constructor
      · rintro - ⟨P, _, hP⟩
        exact absurd hP (hno h hhe P)
      · rintro -
        rw [hkh, keyOf_edges oN g hge]
        simp
    · rw [keyOf_edges oN g hge, keyOf_edges oN h hhe]
      have hinj : Function.Injective (Sum.inr : Finset V → V ⊕ Finset V) := Sum.inr_injective
      rw [Finset.disjoint_image hinj, not_disjoint_pairs, (Finset.image_injective hinj).eq_iff, pairs_eq_iff]

/-- State of `factorized` after the outcomes `l`. -/
structure FactInv (oN : Order (Node V X)) (prov : ℕ) (l : List (SampleGraph V X R × ℤ)) (acc : Dict (GKey V) (Samples V X R)) :
    Prop where
  keys : ∀ k, k ∈ acc.keys ↔ ∃ p ∈ l, keyOf oN p.1 = k
  prov : ∀ k b, acc.get? k = some b → b.prov = prov
  mem : ∀ k b, acc.get? k = some b → ∀ g c, b.samples.get? g = some c ↔ (g, c) ∈ l ∧ keyOf oN g = k

/-- The condition under which the loop of `factorized` does not raise. -/
def FactGood (oN : Order (Node V X)) (l : List (SampleGraph V X R × ℤ)) : Prop :=
  (∀ p ∈ l, p.1.isK0 = false) ∧
  ∀ p ∈ l, ∀ q ∈ l, ¬ Disjoint (keyOf oN p.1) (keyOf oN q.1) → keyOf oN p.1 = keyOf oN q.1

theorem factorized_loop (oN : Order (Node V X)) (prov : ℕ) (l : List (SampleGraph V X R × ℤ)) (hl : (l.map Prod.fst).Nodup) :
    (FactGood oN l → ∃ acc, l.foldlM (Space.factorStep oN prov) Dict.empty = .ok acc ∧ FactInv oN prov l acc) ∧
    (¬ FactGood oN l → l.foldlM (Space.factorStep oN prov) Dict.empty = .error .assertion) := by
  induction l using List.reverseRecOn with
  | nil =>
    refine ⟨fun _ => ⟨Dict.empty, rfl, ⟨by simp, by simp, by simp⟩⟩, fun h => absurd ⟨by simp, by simp⟩ h⟩
  | append_singleton l p ih =>
    obtain ⟨g, c⟩ := p
    rw [List.map_append, List.nodup_append] at hl
    obtain ⟨hl1, _, hl2⟩ := hl
    have hgl : ∀ c', (g, c') ∉ l := by
      intro c' hc'
      exact hl2 g (List.mem_map_of_mem (f := Prod.fst) hc') g (by simp) rfl
    obtain ⟨ih1, ih2⟩ := ih hl1
    rw [List.foldlM_append]
    by_cases hg : FactGood oN l
    · obtain ⟨acc, ha, inv⟩ := ih1 hg
      rw [ha]
      simp only [List.foldlM_cons, List.foldlM_nil, bind_pure]
      show (_ → ∃ acc', Space.factorStep oN prov acc (g, c) = .ok acc' ∧ _) ∧ (_ → Space.factorStep oN prov acc (g, c) = _)
      unfold Space.factorStep
      simp only
      cases hk0 : g.isK0 with
      | true =>
        refine ⟨fun h => ?_, fun _ => rfl⟩
        have := h.1 (g, c) (by simp)
        rw [hk0] at this; cases this
      | false =>
        simp only [Bool.false_eq_true, if_false, factorKey_ok oN g hk0]
        cases hget : acc.get? (keyOf oN g) with
        | none =>
          simp only
          have hnk : keyOf oN g ∉ acc.keys := (Dict.get?_eq_none _ _).1 hget
          by_cases hall : acc.keys.all (fun k => decide (Disjoint k (keyOf oN g))) = true
          · rw [if_pos hall]
            rw [List.all_eq_true] at hall
            have hall' : ∀ p ∈ l, Disjoint (keyOf oN p.1) (keyOf oN g) := by
              intro p hp
              have := hall _ ((inv.keys _).2 ⟨p, hp, rfl⟩)
              rwa [decide_eq_true_eq] at this
            refine ⟨fun _ => ⟨_, rfl, ?_⟩, fun hng => ?_⟩
            · refine ⟨?_, ?_, ?_⟩
              · intro k
                rw [Dict.mem_keys_set, inv.keys]
                simp only [List.mem_append, List.mem_singleton]
                constructor
                · rintro (rfl | ⟨p, hp, rfl⟩)
                  · exact ⟨(g, c), Or.inr rfl, rfl⟩
                  · exact ⟨p, Or.inl hp, rfl⟩
                · rintro ⟨p, hp | rfl, rfl⟩
                  · exact Or.inr ⟨p, hp, rfl⟩
                  · exact Or.inl rfl
              · intro k b hb
                rw [Dict.get?_set] at hb
                split at hb
                · cases hb; rfl
                · exact inv.prov k b hb
              · intro k b hb h d
                rw [Dict.get?_set] at hb
                simp only [List.mem_append, List.mem_singleton, Prod.mk.injEq]
                split at hb
                · rename_i hkk
                  cases hb
                  subst hkk
                  rw [Dict.get?_set]
                  constructor
                  · intro hx
                    split at hx
                    · rename_i hgh; subst hgh; cases hx; exact ⟨Or.inr ⟨rfl, rfl⟩, rfl⟩
                    · simp at hx
                  · rintro ⟨hx | ⟨rfl, rfl⟩, hkx⟩
                    · exact absurd ((inv.keys _).2 ⟨_, hx, hkx⟩) hnk
                    · simp
                · rename_i hkk
                  rw [inv.mem k b hb]
                  constructor
                  · rintro ⟨h1, h2⟩; exact ⟨Or.inl h1, h2⟩
                  · rintro ⟨h1 | ⟨rfl, rfl⟩, h2⟩
                    · exact ⟨h1, h2⟩
                    · exact absurd h2 hkk
            · exfalso
              apply hng
              refine ⟨?_, ?_⟩
              · intro p hp
                rw [List.mem_append, List.mem_singleton] at hp
                rcases hp with hp | rfl
                · exact hg.1 p hp
                · exact hk0
              · intro p hp q hq hd
                rw [List.mem_append, List.mem_singleton] at hp hq
                rcases hp with hp | rfl
                · rcases hq with hq | rfl
                  · exact hg.2 p hp q hq hd
                  · exact absurd (hall' p hp) hd
                · rcases hq with hq | rfl
                  · exact absurd (hall' q hq).symm hd
                  · rfl
          · rw [if_neg hall]
            refine ⟨fun hgood => ?_, fun _ => rfl⟩
            exfalso
            apply hall
            rw [List.all_eq_true]
            intro k hk
            obtain ⟨p, hp, rfl⟩ := (inv.keys k).1 hk
            rw [decide_eq_true_eq]
            by_contra hd
            have := hgood.2 p (by simp [hp]) (g, c) (by simp) hd
            exact hnk (this ▸ hk)
        | some b =>
          simp only
          have hp := inv.prov _ _ hget
          obtain ⟨a1, a2, a3, -⟩ := b.add_ok ⟨prov, g⟩ c hp.symm
          rcases hr : b.add ⟨prov, g⟩ c with ⟨b', e⟩
          rw [hr] at a1 a2 a3
          simp only at a1 a2 a3
          subst a1
          simp only
          obtain ⟨p0, hp0, hkp0⟩ := (inv.keys _).1 ((Dict.mem_keys _ _).2 ⟨b, hget⟩)
          have hbg : b.samples.get? g = none := by
            cases hx : b.samples.get? g with
            | none => rfl
            | some c' => exact absurd ((inv.mem _ _ hget g c').1 hx).1 (hgl c')
          refine ⟨fun _ => ⟨_, rfl, ?_⟩, fun hng => ?_⟩
          · refine ⟨?_, ?_, ?_⟩
            · intro k
              rw [Dict.mem_keys_set, inv.keys]
              simp only [List.mem_append, List.mem_singleton]
              constructor
              · rintro (rfl | ⟨p, hp, rfl⟩)
                · exact ⟨(g, c), Or.inr rfl, rfl⟩
                · exact ⟨p, Or.inl hp, rfl⟩
              · rintro ⟨p, hp | rfl, rfl⟩
                · exact Or.inr ⟨p, hp, rfl⟩
                · exact Or.inl rfl
            · intro k b1 hb
              rw [Dict.get?_set] at hb
              split at hb
              · cases hb; exact a2.trans hp
              · exact inv.prov k b1 hb
            · intro k b1 hb h d
              rw [Dict.get?_set] at hb
              simp only [List.mem_append, List.mem_singleton, Prod.mk.injEq]
              split at hb
              · rename_i hkk
                cases hb
                subst hkk
                rw [a3]
                by_cases hgh : g = h
                · subst hgh
                  rw [if_pos rfl, hbg]
                  simp only [addCounts, Option.some.injEq]
                  constructor
                  · rintro rfl; exact ⟨Or.inr ⟨trivial, rfl⟩, trivial⟩
                  · rintro ⟨hx | ⟨_, rfl⟩, _⟩
                    · exact absurd hx (hgl d)
                    · rfl
                · rw [if_neg hgh, inv.mem _ _ hget]
                  constructor
                  · rintro ⟨h1, h2⟩; exact ⟨Or.inl h1, h2⟩
                  · rintro ⟨h1 | ⟨rfl, rfl⟩, h2⟩
                    · exact ⟨h1, h2⟩
                    · exact absurd rfl hgh
              · rename_i hkk
                rw [inv.mem k b1 hb]
                constructor
                · rintro ⟨h1, h2⟩; exact ⟨Or.inl h1, h2⟩
                · rintro ⟨h1 | ⟨rfl, rfl⟩, h2⟩
                  · exact ⟨h1, h2⟩
                  · exact absurd h2 hkk
          · exfalso
            apply hng
            refine ⟨?_, ?_⟩
            · intro p hp
              rw [List.mem_append, List.mem_singleton] at hp
              rcases hp with hp | rfl
              · exact hg.1 p hp
              · exact hk0
            · intro p hp q hq hd
              rw [List.mem_append, List.mem_singleton] at hp hq
              rcases hp with hp | rfl
              · rcases hq with hq | rfl
                · exact hg.2 p hp q hq hd
                · rw [← hkp0] at hd
                  rw [hg.2 p hp p0 hp0 hd]
                  exact hkp0
              · rcases hq with hq | rfl
                · rw [← hkp0] at hd
                  rw [← hg.2 p0 hp0 q hq hd]
                  exact hkp0.symm
                · rfl
    · rw [ih2 hg]
      refine ⟨fun h => ?_, fun _ => rfl⟩
      exact absurd ⟨fun p hp => h.1 p (by simp [hp]), fun p hp q hq => h.2 p (by simp [hp]) q (by simp [hq])⟩ hg

theorem factGood_iff (oI : Order (SampleGraph V X R × ℤ)) (oN : Order (Node V X)) (a : Samples V X R) :
    FactGood oN (oI.run a.items) ↔ Factorizable a := by
  have hm : ∀ p, p ∈ oI.run a.items ↔ a.samples.get? p.1 = some p.2 := fun p => by rw [oI.mem, Samples.mem_items]
  constructor
  · rintro ⟨h1, h2⟩
    refine ⟨fun g ⟨c, hg⟩ => ?_, fun g h ⟨c, hg⟩ ⟨d, hh⟩ => ?_⟩
    · have := h1 (g, c) ((hm _).2 hg)
      by_contra hn
      rw [(isK0_iff g).2 hn] at this
      cases this
    · exact (keyOf_disjoint oN g h (h1 (g, c) ((hm _).2 hg)) (h1 (h, d) ((hm _).2 hh))).1
        (h2 (g, c) ((hm _).2 hg) (h, d) ((hm _).2 hh))
  · rintro ⟨h1, h2⟩
    have h3 : ∀ p ∈ oI.run a.items, p.1.isK0 = false := by
      intro p hp
      rw [Bool.eq_false_iff]
      intro hk
      exact (isK0_iff p.1).1 hk (h1 p.1 ⟨_, (hm p).1 hp⟩)
    refine ⟨h3, fun p hp q hq => ?_⟩
    exact (keyOf_disjoint oN p.1 q.1 (h3 p hp) (h3 q hq)).2 (h2 p.1 q.1 ⟨_, (hm p).1 hp⟩ ⟨_, (hm q).1 hq⟩)

/-- **C33.** `factorized` returns exactly if `is_factorized` is `True`, otherwise it raises `AssertionError`; the answer does not
depend on any order. -/
theorem C33_factorized_iff (sp : Space V X R) (oI : Order (SampleGraph V X R × ℤ)) (oN : Order (Node V X))
    (oG : Order (SampleGraph V X R)) :
    (sp.isFactorized oG = true → ∃ F, sp.factorized oI oN = .ok F) ∧
    (sp.isFactorized oG = false → sp.factorized oI oN = .error .assertion) := by
  have hnd : ((oI.run sp.outcomes.items).map Prod.fst).Nodup :=
    (((sp.outcomes.run_items_perm oI).map Prod.fst).nodup_iff).2 sp.outcomes.samples.nodup
  obtain ⟨h1, h2⟩ := factorized_loop oN sp.outcomes.prov _ hnd
  constructor
  · intro h
    obtain ⟨acc, ha, _⟩ := h1 ((factGood_iff oI oN _).2 ((C33_is_factorized sp oG).1 h))
    unfold Space.factorized
    rw [ha]
    exact ⟨_, rfl⟩
  · intro h
    unfold Space.factorized
    rw [h2]
    · rfl
    · intro hg
      rw [(C33_is_factorized sp oG).2 ((factGood_iff oI oN _).1 hg)] at h
      cases h

theorem keyOf_eq_iff (oN : Order (Node V X)) (g h : SampleGraph V X R) (hg : g.isK0 = false) (hh : h.isK0 = false)
    (hgs : g.edges = ∅ → g.nodes.card = 1) (hhs : h.edges = ∅ → h.nodes.card = 1) :
    keyOf oN g = keyOf oN h ↔ SameFactor g h := by
  have hne : ∀ (k : SampleGraph V X R), k.isK0 = false → k.edges = ∅ → k.nodes ≠ ∅ := by
    intro k hk he hn; simp [SampleGraph.isK0, he, hn] at hk
  have hone : ∀ k : SampleGraph V X R, k.nodes.card = 1 → ∀ n ∈ k.nodes, ∀ m ∈ k.nodes, n = m := by
    intro k hk n hn m hm
    exact Finset.card_le_one.1 hk.le n hn m hm
  unfold SameFactor
  by_cases hge : g.edges = ∅
  · obtain ⟨n, hn, hkg⟩ := keyOf_single oN g hge (hne g hg hge)
    by_cases hhe : h.edges = ∅
    · obtain ⟨m, hm, hkh⟩ := keyOf_single oN h hhe (hne h hh hhe)
      rw [hkg, hkh]
      simp only [hge, hhe, ne_eq, not_true_eq_false, false_and, true_and, false_or, Finset.singleton_inj, Sum.inl.injEq]
      constructor
      · intro he; exact ⟨n, hn, m, hm, he⟩
      · rintro ⟨n', hn', m', hm', he⟩
        rw [hone g (hgs hge) n hn n' hn', hone h (hhs hhe) m hm m' hm', he]
    · rw [hkg, keyOf_edges oN h hhe]
      simp only [hge, hhe, ne_eq, not_true_eq_false, false_and, and_false, or_false, iff_false]
      intro he
      have : (Sum.inl n.var : V ⊕ Finset V) ∈ h.edgesEndpointVariables.image Sum.inr := by rw [← he]; simp
      simp at this
  · by_cases hhe : h.edges = ∅
    · obtain ⟨m, hm, hkh⟩ := keyOf_single oN h hhe (hne h hh hhe)
      rw [hkh, keyOf_edges oN g hge]
      simp only [hge, hhe, ne_eq, not_true_eq_false, false_and, and_false, or_false, iff_false]
      intro he
      have : (Sum.inl m.var : V ⊕ Finset V) ∈ g.edgesEndpointVariables.image Sum.inr := by rw [he]; simp
      simp at this
    · rw [keyOf_edges oN g hge, keyOf_edges oN h hhe, (Finset.image_injective Sum.inr_injective).eq_iff, pairs_eq_iff]
      simp [hge, hhe]

/-- **C33.** The factors partition the outcomes (with counts): every outcome is in exactly one factor, and the factor of an
outcome consists of the outcomes of the same kind. Hence the factors do not depend on the order. Outcomes without
edges are single nodes, as for connected graphs. -/
theorem C33_factors (sp : Space V X R) (oI : Order (SampleGraph V X R × ℤ)) (oN : Order (Node V X))
    (hsingle : ∀ g, sp.outcomes.Occurs g → g.edges = ∅ → g.nodes.card = 1)
    (F : Finset (Finset (SampleGraph V X R × ℤ))) (hF : sp.factorized oI oN = .ok F) :
    (∀ p, p ∈ sp.outcomes.items ↔ ∃ f ∈ F, p ∈ f) ∧
    (∀ f ∈ F, f ≠ ∅) ∧
    (∀ f ∈ F, ∀ f' ∈ F, f ≠ f' → Disjoint f f') ∧
    (∀ f ∈ F, ∀ p ∈ f, ∀ q, q ∈ f ↔ q ∈ sp.outcomes.items ∧ SameFactor p.1 q.1) := by
  have hnd : ((oI.run sp.outcomes.items).map Prod.fst).Nodup :=
    (((sp.outcomes.run_items_perm oI).map Prod.fst).nodup_iff).2 sp.outcomes.samples.nodup
  obtain ⟨h1, h2⟩ := factorized_loop oN sp.outcomes.prov _ hnd
  unfold Space.factorized at hF
  have hgood : FactGood oN (oI.run sp.outcomes.items) := by
    by_contra hn
    rw [h2 hn] at hF
    cases hF
  obtain ⟨acc, ha, inv⟩ := h1 hgood
  rw [ha] at hF
  have hFe : (acc.vals.map Samples.items).toFinset = F := by
    cases hF; rfl
  have hmF : ∀ f, f ∈ F ↔ ∃ k b, acc.get? k = some b ∧ b.items = f := by
    intro f
    rw [← hFe, List.mem_toFinset, List.mem_map]
    constructor
    · rintro ⟨b, hb, rfl⟩
      rw [Dict.vals, List.mem_map] at hb
      obtain ⟨⟨k, b'⟩, hp, rfl⟩ := hb
      exact ⟨k, b', (Dict.mem_entries _ _ _).1 hp, rfl⟩
    · rintro ⟨k, b, hb, rfl⟩
      exact ⟨b, List.mem_map.2 ⟨(k, b), (Dict.mem_entries _ _ _).2 hb, rfl⟩, rfl⟩
  have hm : ∀ p, p ∈ oI.run sp.outcomes.items ↔ p ∈ sp.outcomes.items := fun p => oI.mem _ _
  have hmb : ∀ k b, acc.get? k = some b → ∀ p, p ∈ b.items ↔ p ∈ sp.outcomes.items ∧ keyOf oN p.1 = k := by
    intro k b hb p
    rw [Samples.mem_items, inv.mem k b hb, hm]
  refine ⟨?_, ?_, ?_, ?_⟩
  · intro p
    constructor
    · intro hp
      obtain ⟨b, hb⟩ := (Dict.mem_keys _ _).1 ((inv.keys _).2 ⟨p, (hm p).2 hp, rfl⟩)
      exact ⟨b.items, (hmF _).2 ⟨_, b, hb, rfl⟩, (hmb _ b hb p).2 ⟨hp, rfl⟩⟩
    · rintro ⟨f, hf, hpf⟩
      obtain ⟨k, b, hb, rfl⟩ := (hmF f).1 hf
      exact ((hmb k b hb p).1 hpf).1
  · intro f hf h0
    obtain ⟨k, b, hb, rfl⟩ := (hmF f).1 hf
    obtain ⟨p, hp, hk⟩ := (inv.keys k).1 ((Dict.mem_keys _ _).2 ⟨b, hb⟩)
    have := (hmb k b hb p).2 ⟨(hm p).1 hp, hk⟩
    rw [h0] at this
    simp at this
  · intro f hf f' hf' hne
    obtain ⟨k, b, hb, rfl⟩ := (hmF f).1 hf
    obtain ⟨k', b', hb', rfl⟩ := (hmF f').1 hf'
    rw [Finset.disjoint_left]
    intro p hp hp'
    have e1 := ((hmb k b hb p).1 hp).2
    have e2 := ((hmb k' b' hb' p).1 hp').2
    apply hne
    rw [← e1] at hb
    rw [← e2, hb] at hb'
    cases hb'
    rfl
  · intro f hf p hp q
    obtain ⟨k, b, hb, rfl⟩ := (hmF f).1 hf
    rw [hmb k b hb] at hp
    rw [hmb k b hb]
    constructor
    · rintro ⟨hq, hk⟩
      refine ⟨hq, (keyOf_eq_iff oN p.1 q.1 (hgood.1 p ((hm p).2 hp.1)) (hgood.1 q ((hm q).2 hq)) ?_ ?_).1 (hp.2.trans hk.symm)⟩
      · exact hsingle _ ⟨p.2, (Samples.mem_items _ _).1 hp.1⟩
      · exact hsingle _ ⟨q.2, (Samples.mem_items _ _).1 hq⟩
    · rintro ⟨hq, hs⟩
      refine ⟨hq, ?_⟩
      rw [← hp.2]
      refine ((keyOf_eq_iff oN p.1 q.1 (hgood.1 p ((hm p).2 hp.1)) (hgood.1 q ((hm q).2 hq)) ?_ ?_).2 hs).symm
      · exact hsingle _ ⟨p.2, (Samples.mem_items _ _).1 hp.1⟩
      · exact hsingle _ ⟨q.2, (Samples.mem_items _ _).1 hq⟩

/-- Factors as an intrinsic set: the classes of `SameFactor`. -/
theorem mem_factors_iff (sp : Space V X R) (oI : Order (SampleGraph V X R × ℤ)) (oN : Order (Node V X))
    (hsingle : ∀ g, sp.outcomes.Occurs g → g.edges = ∅ → g.nodes.card = 1)
    (F : Finset (Finset (SampleGraph V X R × ℤ))) (hF : sp.factorized oI oN = .ok F) (f : Finset (SampleGraph V X R × ℤ)) :
    f ∈ F ↔ ∃ p ∈ sp.outcomes.items, ∀ q, q ∈ f ↔ q ∈ sp.outcomes.items ∧ SameFactor p.1 q.1 := by
  obtain ⟨h1, h2, h3, h4⟩ := C33_factors sp oI oN hsingle F hF
  constructor
  · intro hf
    obtain ⟨p, hp⟩ := Finset.nonempty_iff_ne_empty.2 (h2 f hf)
    exact ⟨p, (h1 p).2 ⟨f, hf, hp⟩, h4 f hf p hp⟩
  · rintro ⟨p, hp, hq⟩
    obtain ⟨f', hf', hpf'⟩ := (h1 p).1 hp
    have : f = f' := by
      ext q
      rw [hq, h4 f' hf' p hpf']
    rw [this]; exact hf'

/-- **C33.** The set of factors does not depend on the orders. -/
theorem C33_order (sp : Space V X R) (oI oI' : Order (SampleGraph V X R × ℤ)) (oN oN' : Order (Node V X))
    (hsingle : ∀ g, sp.outcomes.Occurs g → g.edges = ∅ → g.nodes.card = 1)
    (F F' : Finset (Finset (SampleGraph V X R × ℤ))) (hF : sp.factorized oI oN = .ok F)
    (hF' : sp.factorized oI' oN' = .ok F') : F = F' := by
  ext f
  rw [mem_factors_iff sp oI oN hsingle F hF, mem_factors_iff sp oI' oN' hsingle F' hF']

/-- Non-vacuity of C33: the demo space is factorized, and its two outcomes are in different factors. -/
example : Factorizable demoSpace.outcomes ∧ (∀ g, demoSpace.outcomes.Occurs g → g.edges = ∅ → g.nodes.card = 1) ∧
    ¬ SameFactor (oneEdge ⟨0, 0⟩ ⟨1, 0⟩) (oneEdge ⟨0, 1⟩ ⟨2, 0⟩) := by
  have hl : ∀ a b P, LinksPair (oneEdge a b) P ↔ {a.var, b.var} = P := by
    intro a b P
    simp [LinksPair, oneEdge]
  refine ⟨⟨?_, ?_⟩, ?_, ?_⟩
  · intro g hg
    rw [demoSpace_occurs] at hg
    rcases hg with rfl | rfl <;> simp [oneEdge]
  · intro g h hg hh
    rw [demoSpace_occurs] at hg hh
    rcases hg with rfl | rfl <;> rcases hh with rfl | rfl <;> simp only [hl]
    · simp
    · rintro ⟨P, h1, h2⟩
      rw [← h2] at h1; exact absurd h1 (by decide)
    · rintro ⟨P, h1, h2⟩
      rw [← h2] at h1; exact absurd h1 (by decide)
    · simp
  · intro g hg
    rw [demoSpace_occurs] at hg
    rcases hg with rfl | rfl <;> simp [oneEdge]
  · rintro (⟨-, -, h⟩ | ⟨h, -⟩)
    · have := (h {0, 1}).1 ((hl _ _ _).2 rfl)
      rw [hl] at this
      revert this
      decide
    · simp [oneEdge] at h

end
end Verif
