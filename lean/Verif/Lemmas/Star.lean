import Verif.Lemmas.Tables
import Verif.Lemmas.AddRelation
import Verif.Props.RelationGraphBuilder

/-!
# Star shaped outcomes

A centre with its neighbours: the shape of the outcomes of a conditional probability table (child and parents) and of a pair factor.
-/

set_option linter.unusedSectionVars false

namespace Verif

variable {V X R : Type} [DecidableEq V] [DecidableEq X] [DecidableEq R] {ι : Type} [DecidableEq ι]

/-- The edge between a neighbour and the centre. -/
def starEdge (val : V → ℕ → X) (rel : V → Rel V R) (v : V) (a : V → ℕ) (p : V) : Edge V X R :=
  ⟨{⟨p, val p (a p)⟩, ⟨v, val v (a v)⟩}, rel p⟩

/-- The star with centre `v` and neighbours `ps`. -/
def starOf (val : V → ℕ → X) (rel : V → Rel V R) (v : V) (ps : Finset V) (a : V → ℕ) : SampleGraph V X R :=
  ⟨asgNodes val (insert v ps) a, ps.image (starEdge val rel v a)⟩

variable {val : V → ℕ → X} {rel : V → Rel V R} {v : V} {ps : Finset V} {a : V → ℕ}

theorem starEdge_good {p : V} (h : p ≠ v) : GoodEdge (starEdge val rel v a p) := ⟨_, _, h, rfl⟩

theorem starEdge_endpoints_inj {p q : V} (hp : p ≠ v) (hq : q ≠ v)
    (h : (starEdge val rel v a p).endpoints = (starEdge val rel v a q).endpoints) : p = q := by
  have : (⟨p, val p (a p)⟩ : Node V X) ∈ (starEdge val rel v a q).endpoints := by rw [← h]; simp [starEdge]
  simp only [starEdge, Finset.mem_insert, Finset.mem_singleton, Node.mk.injEq] at this
  rcases this with ⟨h, -⟩ | ⟨h, -⟩
  · exact h
  · exact absurd h hp

theorem star_wf (hv : v ∉ ps) : WellFormed (starOf val rel v ps a) := by
  have hne : ∀ p ∈ ps, p ≠ v := fun p hp e => hv (e ▸ hp)
  refine ⟨?_, ?_, ?_, ?_⟩
  · intro e he
    obtain ⟨p, hp, rfl⟩ := Finset.mem_image.1 he
    intro n hn
    simp only [starEdge, Finset.mem_insert, Finset.mem_singleton] at hn
    rcases hn with rfl | rfl
    · exact mem_asgNodes.2 ⟨Finset.mem_insert_of_mem hp, rfl⟩
    · exact mem_asgNodes.2 ⟨Finset.mem_insert_self _ _, rfl⟩
  · intro e he
    obtain ⟨p, hp, rfl⟩ := Finset.mem_image.1 he
    exact starEdge_good (hne p hp)
  · intro e he e' he' h
    obtain ⟨p, hp, rfl⟩ := Finset.mem_image.1 he
    obtain ⟨q, hq, rfl⟩ := Finset.mem_image.1 he'
    rw [starEdge_endpoints_inj (hne p hp) (hne q hq) h]
  · have key : ∀ n ∈ (starOf val rel v ps a).nodes,
        Relation.ReflTransGen (Linked Edge.endpoints (starOf val rel v ps a).edges) n ⟨v, val v (a v)⟩ := by
      rintro ⟨w, x⟩ hn
      obtain ⟨hw, hx⟩ := mem_asgNodes.1 hn
      simp only at hw hx
      subst hx
      rcases Finset.mem_insert.1 hw with rfl | hw
      · exact .refl
      · exact .single ⟨starEdge val rel v a w, Finset.mem_image_of_mem _ hw, by simp [starEdge], by simp [starEdge]⟩
    intro n hn m hm
    exact (key n hn).trans (reach_symm (key m hm))

theorem star_links {P : Finset V} : LinksPair (starOf val rel v ps a) P ↔ P ∈ ps.image fun p => ({p, v} : Finset V) := by
  unfold LinksPair starOf
  simp only [Finset.mem_image]
  constructor
  · rintro ⟨e, ⟨p, hp, rfl⟩, rfl⟩
    exact ⟨p, hp, by simp [starEdge, Finset.image_insert]⟩
  · rintro ⟨p, hp, rfl⟩
    exact ⟨_, ⟨p, hp, rfl⟩, by simp [starEdge, Finset.image_insert]⟩

theorem star_local {b : V → ℕ} (h : ∀ w ∈ insert v ps, a w = b w) : starOf val rel v ps a = starOf val rel v ps b := by
  refine SampleGraph.ext ?_ ?_
  · ext n
    simp only [starOf, mem_asgNodes]
    refine and_congr_right fun hn => ?_
    rw [h _ hn]
  · refine Finset.image_congr fun p hp => ?_
    simp only [starEdge]
    rw [h p (Finset.mem_insert_of_mem hp), h v (Finset.mem_insert_self _ _)]

/-- Outcomes that are stars, one family for each index, are tables. -/
theorem star_tables {s : Samples V X R} {dom : V → Finset ℕ} {I : Finset ι} (ctr : ι → V) (ps : ι → Finset V) (rel : ι → V → Rel V R)
    {φ : ι → (V → ℕ) → ℤ}
    (get : ∀ g c, s.samples.get? g = some c ↔
      ∃ i ∈ I, ∃ a, InDom dom (insert (ctr i) (ps i)) a ∧ g = starOf val (rel i) (ctr i) (ps i) a ∧ c = φ i a)
    (inj : ∀ v j k, val v j = val v k → j = k) (hv : ∀ i ∈ I, ctr i ∉ ps i)
    (dom_ne : ∀ i ∈ I, ∀ v ∈ insert (ctr i) (ps i), (dom v).Nonempty)
    (locφ : ∀ i ∈ I, ∀ a b, (∀ v ∈ insert (ctr i) (ps i), a v = b v) → φ i a = φ i b)
    (disj : ∀ i ∈ I, ∀ j ∈ I, i ≠ j → ∀ p ∈ ps i, ∀ q ∈ ps j, ({p, ctr i} : Finset V) ≠ {q, ctr j})
    (single : ∀ i ∈ I, ∀ j ∈ I, ps i = ∅ → ps j = ∅ → ctr i = ctr j → i = j) :
    Tables s dom val I (fun i => insert (ctr i) (ps i)) (fun i => (ps i).image fun p => {p, ctr i})
      (fun i => starOf val (rel i) (ctr i) (ps i)) φ := by
  refine ⟨get, inj, dom_ne, fun _ _ _ => rfl, fun i _ a b h => star_local h, locφ, fun i hi a _ => star_wf (hv i hi),
    fun i _ => Finset.insert_nonempty _ _, fun i _ a P => star_links, ?_, ?_⟩
  · intro i hi j hj hne
    rw [Finset.disjoint_left]
    intro P hP hQ
    obtain ⟨p, hp, rfl⟩ := Finset.mem_image.1 hP
    obtain ⟨q, hq, e⟩ := Finset.mem_image.1 hQ
    exact disj i hi j hj hne p hp q hq e.symm
  · intro i hi j hj h1 h2 h3
    rw [Finset.image_eq_empty] at h1 h2
    refine single i hi j hj h1 h2 ?_
    rw [h1, h2] at h3
    simpa using h3

/-- One more neighbour: `add_relation` on the builder of a star. -/
theorem star_step {s : Schema V X R} {b : Builder V X R} {dn : Finset V} {p : V} (hb : b.Inv)
    (hE : b.edges = dn.image (starEdge val rel v a)) (hN : b.nodes = if dn = ∅ then ∅ else asgNodes val (insert v dn) a)
    (hv : v ∉ dn) (hp : p ∉ dn) (hpv : p ≠ v) (hd : RawDeclared s {(p, val p (a p)), (v, val v (a v))} (rel p)) :
    ∃ b', b.addRelation s {(p, val p (a p)), (v, val v (a v))} (rel p) = (b', none) ∧ b'.Inv ∧ b'.prov = b.prov ∧
      b'.edges = (insert p dn).image (starEdge val rel v a) ∧ b'.nodes = asgNodes val (insert v (insert p dn)) a := by
  have hn : toNodes ({(p, val p (a p)), (v, val v (a v))} : Finset (V × X)) = {⟨p, val p (a p)⟩, ⟨v, val v (a v)⟩} := by
    simp [toNodes, Finset.image_insert]
  have hinv := b.inv_addRelation s hb {(p, val p (a p)), (v, val v (a v))} (rel p)
  rcases b.addRelation_eq s hb {(p, val p (a p)), (v, val v (a v))} (rel p) with ⟨-, -, -, -, h⟩ | ⟨h, -⟩
  · rw [h] at hinv ⊢
    refine ⟨_, rfl, hinv, rfl, ?_, ?_⟩
    · rw [hn]
      show insert _ b.edges = _
      rw [hE, Finset.image_insert]; rfl
    · rw [hn]
      show b.nodes ∪ _ = _
      rw [hN]
      ext n
      split
      · rename_i h0
        subst h0
        obtain ⟨w, x⟩ := n
        simp only [Finset.empty_union, Finset.mem_insert, Finset.mem_singleton, Node.mk.injEq, mem_asgNodes, Finset.notMem_empty, or_false]
        constructor
        · rintro (⟨rfl, rfl⟩ | ⟨rfl, rfl⟩) <;> simp
        · rintro ⟨rfl | rfl, rfl⟩ <;> simp
      · obtain ⟨w, x⟩ := n
        simp only [Finset.mem_union, Finset.mem_insert, Finset.mem_singleton, Node.mk.injEq, mem_asgNodes]
        constructor
        · rintro (⟨h1, rfl⟩ | ⟨rfl, rfl⟩ | ⟨rfl, rfl⟩)
          · exact ⟨by tauto, rfl⟩
          · simp
          · simp
        · rintro ⟨rfl | rfl | h1, rfl⟩
          · simp
          · simp
          · simp [h1]
  · exfalso
    apply h
    refine ⟨⟨_, _, hpv, rfl⟩, hd, ?_, ?_⟩
    · rw [hN]
      split
      · exact Or.inl rfl
      · right
        rw [hn, Finset.not_disjoint_iff]
        exact ⟨⟨v, val v (a v)⟩, by simp, mem_asgNodes.2 ⟨Finset.mem_insert_self _ _, rfl⟩⟩
    · intro e he h'
      rw [hE] at he
      obtain ⟨q, hq, rfl⟩ := Finset.mem_image.1 he
      rw [hn] at h'
      exact hp (starEdge_endpoints_inj (val := val) (rel := rel) (a := a) (fun e : q = v => hv (e ▸ hq)) hpv h' ▸ hq)

/-- A loop that adds different new outcomes. -/
theorem fold_outcomes {E : Type} (s : Schema V X R) (prov : ℕ) (step : RGBuilder V X R → E → Py (RGBuilder V X R)) (G : E → SampleGraph V X R)
    (C : E → ℤ) : ∀ (l : List E) (b : RGBuilder V X R), b.Coherent → b.prov = prov → b.schema = s →
    (∀ b : RGBuilder V X R, b.prov = prov → b.schema = s → ∀ e ∈ l, step b e = toPy (b.addOutcome ⟨prov, G e⟩ (C e))) →
    (∀ e ∈ l, 0 < C e) → (l.map G).Nodup → (∀ e ∈ l, b.outcomes.samples.get? (G e) = none) →
    ∃ b', l.foldlM step b = .ok b' ∧ b'.Coherent ∧ b'.prov = prov ∧ b'.schema = s ∧
      ∀ g c, b'.outcomes.samples.get? g = some c ↔ (∃ e ∈ l, g = G e ∧ c = C e) ∨ b.outcomes.samples.get? g = some c := by
  intro l
  induction l with
  | nil => intro b h1 h2 h3 _ _ _ _; exact ⟨b, rfl, h1, h2, h3, by simp⟩
  | cons e t ih =>
    intro b h1 h2 h3 hs hc hnd hf
    obtain ⟨k1, k2, k3, k4, -, k6⟩ := addOutcome_ok b h1 ⟨prov, G e⟩ (C e) h2.symm (hc e (by simp))
    have hst : step b e = .ok (b.addOutcome ⟨prov, G e⟩ (C e)).1 := by
      rw [hs b h2 h3 e (by simp)]; unfold toPy; rw [k1]
    rw [List.map_cons, List.nodup_cons] at hnd
    have hg : ∀ g c, (b.addOutcome ⟨prov, G e⟩ (C e)).1.outcomes.samples.get? g = some c ↔
        (g = G e ∧ c = C e) ∨ b.outcomes.samples.get? g = some c := by
      intro g c
      rw [k6, totalOf_cons, totalOf_nil]
      by_cases hge : G e = g
      · subst hge
        rw [if_pos rfl, hf e (by simp)]
        simp [addCounts, eq_comm]
      · rw [if_neg hge]
        constructor
        · intro h; right; rw [addCounts_none_right] at h; exact h
        · rintro (⟨h, -⟩ | h)
          · exact absurd h.symm hge
          · rw [addCounts_none_right]; exact h
    obtain ⟨b', r1, r2, r3, r4, r5⟩ := ih (b.addOutcome ⟨prov, G e⟩ (C e)).1 k2 (k3.trans h2) (k4.trans h3)
      (fun b hb hb' e he => hs b hb hb' e (by simp [he])) (fun e he => hc e (by simp [he])) hnd.2
      (by
        intro x hx
        cases hq : (b.addOutcome ⟨prov, G e⟩ (C e)).1.outcomes.samples.get? (G x) with
        | none => rfl
        | some c =>
          rcases (hg _ _).1 hq with ⟨h, -⟩ | h
          · exact absurd (List.mem_map.2 ⟨x, hx, h⟩) hnd.1
          · rw [hf x (by simp [hx])] at h; cases h)
    refine ⟨b', ?_, r2, r3, r4, ?_⟩
    · rw [List.foldlM_cons, hst]; exact r1
    · intro g c
      rw [r5, hg]
      simp only [List.mem_cons, exists_eq_or_imp]
      constructor
      · rintro (h | h | h)
        · exact Or.inl (Or.inr h)
        · exact Or.inl (Or.inl h)
        · exact Or.inr h
      · rintro ((h | h) | h)
        · exact Or.inr (Or.inl h)
        · exact Or.inl h
        · exact Or.inr (Or.inr h)

end Verif
