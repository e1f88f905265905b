import Verif.Props.Inference

/-!
# Outcomes given by tables

A set of outcomes that comes from a family of tables: the outcomes of table `i` are the graphs `G i a` with counts `φ i a`, for the
assignments `a` of the variables `scope i`. Assignments give the index of a value, `val v j` is the value with index `j`.
-/

set_option linter.unusedSectionVars false

namespace Verif

variable {V X R : Type} [DecidableEq V] [DecidableEq X] [DecidableEq R] {ι : Type} [DecidableEq ι]

/-- The assignment gives each variable of `S` one of the indices of the variable. -/
def InDom (dom : V → Finset ℕ) (S : Finset V) (a : V → ℕ) : Prop := ∀ v ∈ S, a v ∈ dom v

/-- The nodes of the variables `S` under an assignment. -/
def asgNodes (val : V → ℕ → X) (S : Finset V) (a : V → ℕ) : Finset (Node V X) := S.image fun v => ⟨v, val v (a v)⟩

theorem mem_asgNodes {val : V → ℕ → X} {S : Finset V} {a : V → ℕ} {n : Node V X} :
    n ∈ asgNodes val S a ↔ n.var ∈ S ∧ n.val = val n.var (a n.var) := by
  unfold asgNodes
  rw [Finset.mem_image]
  constructor
  · rintro ⟨v, hv, rfl⟩; exact ⟨hv, rfl⟩
  · rintro ⟨h1, h2⟩; refine ⟨n.var, h1, ?_⟩; rw [← h2]

/-- The outcomes are those of the tables. -/
structure Tables (s : Samples V X R) (dom : V → Finset ℕ) (val : V → ℕ → X) (I : Finset ι) (scope : ι → Finset V)
    (pairs : ι → Finset (Finset V)) (G : ι → (V → ℕ) → SampleGraph V X R) (φ : ι → (V → ℕ) → ℤ) : Prop where
  get : ∀ g c, s.samples.get? g = some c ↔ ∃ i ∈ I, ∃ a, InDom dom (scope i) a ∧ g = G i a ∧ c = φ i a
  inj : ∀ v j k, val v j = val v k → j = k
  dom_ne : ∀ i ∈ I, ∀ v ∈ scope i, (dom v).Nonempty
  nodes : ∀ i ∈ I, ∀ a, (G i a).nodes = asgNodes val (scope i) a
  locG : ∀ i ∈ I, ∀ a b, (∀ v ∈ scope i, a v = b v) → G i a = G i b
  locφ : ∀ i ∈ I, ∀ a b, (∀ v ∈ scope i, a v = b v) → φ i a = φ i b
  wf : ∀ i ∈ I, ∀ a, InDom dom (scope i) a → WellFormed (G i a)
  ne : ∀ i ∈ I, (scope i).Nonempty
  links : ∀ i ∈ I, ∀ a P, LinksPair (G i a) P ↔ P ∈ pairs i
  disj : ∀ i ∈ I, ∀ j ∈ I, i ≠ j → Disjoint (pairs i) (pairs j)
  single : ∀ i ∈ I, ∀ j ∈ I, pairs i = ∅ → pairs j = ∅ → scope i = scope j → i = j

namespace Tables
variable {s : Samples V X R} {dom : V → Finset ℕ} {val : V → ℕ → X} {I : Finset ι} {scope : ι → Finset V}
  {pairs : ι → Finset (Finset V)} {G : ι → (V → ℕ) → SampleGraph V X R} {φ : ι → (V → ℕ) → ℤ}

/-- An assignment of all variables. -/
theorem exists_asg (h : Tables s dom val I scope pairs G φ) : ∃ a, ∀ i ∈ I, InDom dom (scope i) a := by
  classical
  refine ⟨fun v => if hv : (dom v).Nonempty then hv.choose else 0, fun i hi v hv => ?_⟩
  have := h.dom_ne i hi v hv
  simp only [dif_pos this]
  exact this.choose_spec

/-- Each assignment of the scope of a table can be extended. -/
theorem extend (h : Tables s dom val I scope pairs G φ) {S : Finset V} {a : V → ℕ} (ha : InDom dom S a) :
    ∃ b, (∀ v ∈ S, b v = a v) ∧ ∀ i ∈ I, InDom dom (scope i) b := by
  obtain ⟨c, hc⟩ := h.exists_asg
  refine ⟨fun v => if v ∈ S then a v else c v, fun v hv => if_pos hv, fun i hi v hv => ?_⟩
  dsimp only
  split
  · exact ha v ‹_›
  · exact hc i hi v hv

theorem occurs (h : Tables s dom val I scope pairs G φ) {g : SampleGraph V X R} :
    s.Occurs g ↔ ∃ i ∈ I, ∃ a, InDom dom (scope i) a ∧ g = G i a := by
  unfold Samples.Occurs
  simp only [h.get]
  constructor
  · rintro ⟨c, i, hi, a, ha, hg, -⟩; exact ⟨i, hi, a, ha, hg⟩
  · rintro ⟨i, hi, a, ha, hg⟩; exact ⟨_, i, hi, a, ha, hg, rfl⟩

theorem hasVar (h : Tables s dom val I scope pairs G φ) {i : ι} (hi : i ∈ I) {a : V → ℕ} {v : V} :
    HasVar v (G i a) ↔ v ∈ scope i := by
  unfold HasVar
  rw [h.nodes i hi]
  simp only [mem_asgNodes]
  constructor
  · rintro ⟨n, ⟨h1, -⟩, rfl⟩; exact h1
  · intro hv; exact ⟨⟨v, val v (a v)⟩, ⟨hv, rfl⟩, rfl⟩

theorem hasValue (h : Tables s dom val I scope pairs G φ) {i : ι} (hi : i ∈ I) {a : V → ℕ} {v : V} {j : ℕ} :
    HasValue v (val v j) (G i a) ↔ v ∈ scope i ∧ a v = j := by
  unfold HasValue
  rw [h.nodes i hi, mem_asgNodes]
  simp only
  refine and_congr_right fun _ => ⟨fun e => (h.inj _ _ _ e).symm, fun e => by rw [e]⟩

theorem edges_empty (h : Tables s dom val I scope pairs G φ) {i : ι} (hi : i ∈ I) {a : V → ℕ} :
    (G i a).edges = ∅ ↔ pairs i = ∅ := by
  constructor
  · intro he
    rw [Finset.eq_empty_iff_forall_notMem]
    intro P hP
    obtain ⟨e, he', -⟩ := (h.links i hi a P).2 hP
    rw [he] at he'; simp at he'
  · intro hp
    rw [Finset.eq_empty_iff_forall_notMem]
    intro e he
    have := (h.links i hi a (e.endpoints.image Node.var)).1 ⟨e, he, rfl⟩
    rw [hp] at this; simp at this

theorem sv (h : Tables s dom val I scope pairs G φ) {i : ι} (hi : i ∈ I) (a : V → ℕ) : SingleValued (G i a).nodes := by
  rw [h.nodes i hi]
  intro n hn m hm e
  rw [mem_asgNodes] at hn hm
  obtain ⟨nv, nx⟩ := n
  obtain ⟨mv, mx⟩ := m
  simp only at hn hm e
  rw [hn.2, hm.2, e]

theorem good (h : Tables s dom val I scope pairs G φ) : AllGood s := by
  intro g hg
  obtain ⟨i, hi, a, ha, rfl⟩ := h.occurs.1 hg
  refine ⟨h.wf i hi a ha, ?_, h.sv hi a⟩
  obtain ⟨v, hv⟩ := h.ne i hi
  rw [h.nodes i hi]
  exact ⟨⟨v, val v (a v)⟩, mem_asgNodes.2 ⟨hv, rfl⟩⟩

theorem sameFactor (h : Tables s dom val I scope pairs G φ) {i j : ι} (hi : i ∈ I) (hj : j ∈ I) {a b : V → ℕ}
    (ha : InDom dom (scope i) a) (hb : InDom dom (scope j) b) : SameFactor (G i a) (G j b) ↔ i = j := by
  unfold SameFactor
  rw [ne_eq, ne_eq, h.edges_empty hi, h.edges_empty hj]
  constructor
  · rintro (⟨h1, h2, h3⟩ | ⟨h1, h2, n, hn, m, hm, hnm⟩)
    · by_contra hne
      have hd := h.disj i hi j hj hne
      obtain ⟨P, hP⟩ := Finset.nonempty_iff_ne_empty.2 h1
      have hP' := (h.links j hj b P).1 ((h3 P).1 ((h.links i hi a P).2 hP))
      exact Finset.disjoint_left.1 hd hP hP'
    · refine h.single i hi j hj h1 h2 ?_
      have c1 := (h.wf i hi a ha).card_le_one ((h.edges_empty hi).2 h1)
      have c2 := (h.wf j hj b hb).card_le_one ((h.edges_empty hj).2 h2)
      rw [Finset.card_le_one] at c1 c2
      have key : ∀ (k : ι) (_ : k ∈ I) (d : V → ℕ) (n : Node V X), n ∈ (G k d).nodes →
          (∀ x ∈ (G k d).nodes, ∀ y ∈ (G k d).nodes, x = y) → scope k = {n.var} := by
        intro k hk d n hn hc
        ext v
        rw [Finset.mem_singleton, ← h.hasVar hk (a := d)]
        constructor
        · rintro ⟨m, hm, rfl⟩; rw [hc m hm n hn]
        · rintro rfl; exact ⟨n, hn, rfl⟩
      rw [key i hi a n hn c1, key j hj b m hm c2, hnm]
  · rintro rfl
    by_cases hp : pairs i = ∅
    · right
      obtain ⟨v, hv⟩ := h.ne i hi
      obtain ⟨n, hn, hnv⟩ := (h.hasVar hi (a := a)).2 hv
      obtain ⟨m, hm, hmv⟩ := (h.hasVar hi (a := b)).2 hv
      exact ⟨hp, hp, n, hn, m, hm, by rw [hnv, hmv]⟩
    · left
      exact ⟨hp, hp, fun P => by rw [h.links i hi, h.links i hi]⟩

theorem factorizable (h : Tables s dom val I scope pairs G φ) : Factorizable s := by
  constructor
  · intro g hg
    left
    exact Finset.nonempty_iff_ne_empty.1 (h.good g hg).2.1
  · intro g g' hg hg' ⟨P, hP, hP'⟩
    obtain ⟨i, hi, a, ha, rfl⟩ := h.occurs.1 hg
    obtain ⟨j, hj, b, hb, rfl⟩ := h.occurs.1 hg'
    rw [h.links i hi] at hP
    rw [h.links j hj] at hP'
    have : i = j := by
      by_contra hne
      exact Finset.disjoint_left.1 (h.disj i hi j hj hne) hP hP'
    subst this
    intro Q
    rw [h.links i hi, h.links i hi]

/-- The values of a variable that occur. -/
theorem occursValue (h : Tables s dom val I scope pairs G φ) {v : V} {x : X} :
    (∃ g, s.Occurs g ∧ HasValue v x g) ↔ (∃ i ∈ I, v ∈ scope i) ∧ ∃ j ∈ dom v, x = val v j := by
  constructor
  · rintro ⟨g, hg, hx⟩
    obtain ⟨i, hi, a, ha, rfl⟩ := h.occurs.1 hg
    rw [HasValue, h.nodes i hi, mem_asgNodes] at hx
    exact ⟨⟨i, hi, hx.1⟩, a v, ha v hx.1, hx.2⟩
  · rintro ⟨⟨i, hi, hv⟩, j, hj, rfl⟩
    obtain ⟨a, ha⟩ := h.exists_asg
    refine ⟨G i (Function.update a v j), h.occurs.2 ⟨i, hi, _, ?_, rfl⟩, (h.hasValue hi).2 ⟨hv, by simp⟩⟩
    intro w hw
    by_cases hwv : w = v
    · subst hwv; simpa using hj
    · rw [Function.update_of_ne hwv]; exact ha i hi w hw

theorem complete (h : Tables s dom val I scope pairs G φ) : CompleteFactors s := by
  classical
  intro g hg asg hasg
  obtain ⟨i, hi, a, ha, rfl⟩ := h.occurs.1 hg
  have : ∀ v, v ∈ scope i → ∃ j ∈ dom v, asg v = val v j := by
    intro v hv
    exact (h.occursValue.1 (hasg v ((h.hasVar hi).2 hv))).2
  choose! f hf hf' using this
  refine ⟨G i f, h.occurs.2 ⟨i, hi, f, fun v hv => hf v hv, rfl⟩, (h.sameFactor hi hi ha fun v hv => hf v hv).2 rfl, ?_⟩
  intro n hn
  rw [h.nodes i hi, mem_asgNodes] at hn
  rw [hn.2, hf' _ hn.1]

/-- The items of one table. -/
noncomputable def factorOf (s : Samples V X R) (dom : V → Finset ℕ) (scope : ι → Finset V) (G : ι → (V → ℕ) → SampleGraph V X R)
    (φ : ι → (V → ℕ) → ℤ) (i : ι) : ItemSet V X R := by
  classical exact s.items.filter fun p => ∃ a, InDom dom (scope i) a ∧ p = (G i a, φ i a)

theorem mem_factorOf (h : Tables s dom val I scope pairs G φ) {i : ι} (hi : i ∈ I) {p : SampleGraph V X R × ℤ} :
    p ∈ factorOf s dom scope G φ i ↔ ∃ a, InDom dom (scope i) a ∧ p = (G i a, φ i a) := by
  classical
  unfold factorOf
  rw [Finset.mem_filter, Samples.mem_items, h.get]
  constructor
  · exact fun h => h.2
  · rintro ⟨a, ha, rfl⟩; exact ⟨⟨i, hi, a, ha, rfl, rfl⟩, a, ha, rfl⟩

theorem item (h : Tables s dom val I scope pairs G φ) {p : SampleGraph V X R × ℤ} :
    p ∈ s.items ↔ ∃ i ∈ I, ∃ a, InDom dom (scope i) a ∧ p = (G i a, φ i a) := by
  rw [Samples.mem_items, h.get]
  refine exists_congr fun i => and_congr_right fun _ => exists_congr fun a => and_congr_right fun _ => ?_
  rw [Prod.ext_iff]

theorem areFactors (h : Tables s dom val I scope pairs G φ) : AreFactors s (I.image (factorOf s dom scope G φ)) := by
  intro f
  rw [Finset.mem_image]
  have key : ∀ i ∈ I, ∀ a, InDom dom (scope i) a → ∀ q, q ∈ factorOf s dom scope G φ i ↔ q ∈ s.items ∧ SameFactor (G i a) q.1 := by
    intro i hi a ha q
    rw [h.mem_factorOf hi]
    constructor
    · rintro ⟨b, hb, rfl⟩
      exact ⟨h.item.2 ⟨i, hi, b, hb, rfl⟩, (h.sameFactor hi hi ha hb).2 rfl⟩
    · rintro ⟨hq, hs⟩
      obtain ⟨j, hj, b, hb, rfl⟩ := h.item.1 hq
      have := (h.sameFactor hi hj ha hb).1 hs
      subst this
      exact ⟨b, hb, rfl⟩
  constructor
  · rintro ⟨i, hi, rfl⟩
    obtain ⟨a, ha⟩ := h.exists_asg
    exact ⟨(G i a, φ i a), h.item.2 ⟨i, hi, a, ha i hi, rfl⟩, key i hi a (ha i hi)⟩
  · rintro ⟨p, hp, hf⟩
    obtain ⟨i, hi, a, ha, rfl⟩ := h.item.1 hp
    refine ⟨i, hi, ?_⟩
    ext q
    rw [hf, key i hi a ha]

theorem factorOf_inj (h : Tables s dom val I scope pairs G φ) {i j : ι} (hi : i ∈ I) (hj : j ∈ I)
    (e : factorOf s dom scope G φ i = factorOf s dom scope G φ j) : i = j := by
  obtain ⟨a, ha⟩ := h.exists_asg
  have : (G i a, φ i a) ∈ factorOf s dom scope G φ j := by
    rw [← e, h.mem_factorOf hi]; exact ⟨a, ha i hi, rfl⟩
  obtain ⟨b, hb, hab⟩ := (h.mem_factorOf hj).1 this
  refine (h.sameFactor hi hj (ha i hi) hb).1 ?_
  rw [show G i a = G j b from (Prod.ext_iff.1 hab).1]
  exact (h.sameFactor hj hj hb hb).2 rfl

theorem factorVars_of (h : Tables s dom val I scope pairs G φ) {i : ι} (hi : i ∈ I) :
    factorVars (factorOf s dom scope G φ i) = scope i := by
  obtain ⟨a, ha⟩ := h.exists_asg
  ext v
  rw [mem_factorVars h.good h.areFactors (Finset.mem_image_of_mem _ hi) ((h.mem_factorOf hi).2 ⟨a, ha i hi, rfl⟩), h.hasVar hi]

/-- The sets of variables of the factors are the scopes of the tables. -/
theorem scopes (h : Tables s dom val I scope pairs G φ) :
    (I.image (factorOf s dom scope G φ)).val.map factorVars = I.val.map scope := by
  rw [Finset.image_val_of_injOn (fun i hi j hj e => h.factorOf_inj hi hj e), Multiset.map_map]
  exact Multiset.map_congr rfl fun i hi => h.factorVars_of hi

end Tables

/-! ### The joined table -/

/-- All variables of the tables. -/
def allVars (I : Finset ι) (scope : ι → Finset V) : Finset V := I.biUnion scope

/-- The joined graph of an assignment. -/
def joinedGraph (val : V → ℕ → X) (I : Finset ι) (scope : ι → Finset V) (G : ι → (V → ℕ) → SampleGraph V X R) (a : V → ℕ) :
    SampleGraph V X R := ⟨asgNodes val (allVars I scope) a, I.biUnion fun i => (G i a).edges⟩

theorem mem_allVars {I : Finset ι} {scope : ι → Finset V} {v : V} : v ∈ allVars I scope ↔ ∃ i ∈ I, v ∈ scope i := by
  unfold allVars; rw [Finset.mem_biUnion]

namespace Tables
variable {s : Samples V X R} {dom : V → Finset ℕ} {val : V → ℕ → X} {I : Finset ι} {scope : ι → Finset V}
  {pairs : ι → Finset (Finset V)} {G : ι → (V → ℕ) → SampleGraph V X R} {φ : ι → (V → ℕ) → ℤ}

theorem isJoin_iff (h : Tables s dom val I scope pairs G φ) {p : SampleGraph V X R × ℤ} :
    IsJoin (I.image (factorOf s dom scope G φ)) id p ↔
      ∃ a, InDom dom (allVars I scope) a ∧ p = (joinedGraph val I scope G a, ∏ i ∈ I, φ i a) := by
  classical
  have hinj : Set.InjOn (factorOf s dom scope G φ) (I : Set ι) := fun i hi j hj e => h.factorOf_inj hi hj e
  constructor
  · rintro ⟨sel, h1, h2, h3, h4, h5⟩
    have hs : ∀ i, i ∈ I → ∃ a, InDom dom (scope i) a ∧ sel (factorOf s dom scope G φ i) = (G i a, φ i a) := fun i hi =>
      (h.mem_factorOf hi).1 (h1 _ (Finset.mem_image_of_mem _ hi))
    choose! b hb hsel using hs
    have hmem : ∀ i ∈ I, ∀ v ∈ scope i, (⟨v, val v (b i v)⟩ : Node V X) ∈ p.1.nodes := by
      intro i hi v hv
      rw [h3, Finset.mem_biUnion]
      refine ⟨_, Finset.mem_image_of_mem _ hi, ?_⟩
      rw [hsel i hi, h.nodes i hi, mem_asgNodes]
      exact ⟨hv, rfl⟩
    have hag : ∀ i ∈ I, ∀ j ∈ I, ∀ v, v ∈ scope i → v ∈ scope j → b i v = b j v := by
      intro i hi j hj v hv hv'
      have := h2 _ (hmem i hi v hv) _ (hmem j hj v hv') rfl
      rw [Node.mk.injEq] at this
      exact h.inj _ _ _ this.2
    let a : V → ℕ := fun v => if hv : ∃ i ∈ I, v ∈ scope i then b hv.choose v else 0
    have ha : ∀ i ∈ I, ∀ v ∈ scope i, a v = b i v := by
      intro i hi v hv
      have hex : ∃ i ∈ I, v ∈ scope i := ⟨i, hi, hv⟩
      have := hex.choose_spec
      simp only [a, dif_pos hex]
      exact hag _ this.1 i hi v this.2 hv
    refine ⟨a, ?_, ?_⟩
    · intro v hv
      obtain ⟨i, hi, hv⟩ := mem_allVars.1 hv
      rw [ha i hi v hv]
      exact hb i hi v hv
    · have hG : ∀ i ∈ I, sel (factorOf s dom scope G φ i) = (G i a, φ i a) := by
        intro i hi
        rw [hsel i hi, h.locG i hi a (b i) (ha i hi), h.locφ i hi a (b i) (ha i hi)]
      refine Prod.ext (SampleGraph.ext ?_ ?_) ?_
      · ext n
        rw [h3, Finset.mem_biUnion, joinedGraph]
        simp only [Finset.mem_image, exists_exists_and_eq_and, mem_asgNodes, mem_allVars]
        constructor
        · rintro ⟨i, hi, hn⟩
          rw [hG i hi, h.nodes i hi, mem_asgNodes] at hn
          exact ⟨⟨i, hi, hn.1⟩, hn.2⟩
        · rintro ⟨⟨i, hi, hn⟩, hv⟩
          refine ⟨i, hi, ?_⟩
          rw [hG i hi, h.nodes i hi, mem_asgNodes]
          exact ⟨hn, hv⟩
      · ext e
        rw [h4, Finset.mem_biUnion, joinedGraph]
        simp only [Finset.mem_image, exists_exists_and_eq_and, Finset.mem_biUnion]
        refine exists_congr fun i => and_congr_right fun hi => ?_
        rw [hG i hi]
      · rw [h5, Finset.prod_image hinj]
        exact Finset.prod_congr rfl fun i hi => by rw [hG i hi]
  · rintro ⟨a, ha, rfl⟩
    have ha' : ∀ i ∈ I, InDom dom (scope i) a := fun i hi v hv => ha v (mem_allVars.2 ⟨i, hi, hv⟩)
    let sel : ItemSet V X R → SampleGraph V X R × ℤ := fun f =>
      if hf : ∃ i ∈ I, factorOf s dom scope G φ i = f then (G hf.choose a, φ hf.choose a) else (⟨∅, ∅⟩, 0)
    have hsel : ∀ i ∈ I, sel (factorOf s dom scope G φ i) = (G i a, φ i a) := by
      intro i hi
      have hex : ∃ j ∈ I, factorOf s dom scope G φ j = factorOf s dom scope G φ i := ⟨i, hi, rfl⟩
      have := hex.choose_spec
      have e := h.factorOf_inj this.1 hi this.2
      simp only [sel, dif_pos hex, e]
    refine ⟨sel, ?_, ?_, ?_, ?_, ?_⟩
    · intro f hf
      obtain ⟨i, hi, rfl⟩ := Finset.mem_image.1 hf
      rw [hsel i hi, id, h.mem_factorOf hi]
      exact ⟨a, ha' i hi, rfl⟩
    · intro n hn m hm e
      simp only [joinedGraph, mem_asgNodes] at hn hm
      obtain ⟨nv, nx⟩ := n
      obtain ⟨mv, mx⟩ := m
      simp only at hn hm e
      rw [hn.2, hm.2, e]
    · ext n
      simp only [joinedGraph, Finset.mem_biUnion, Finset.mem_image, exists_exists_and_eq_and, mem_asgNodes, mem_allVars]
      constructor
      · rintro ⟨⟨i, hi, hv⟩, hn⟩
        refine ⟨i, hi, ?_⟩
        rw [hsel i hi, h.nodes i hi, mem_asgNodes]
        exact ⟨hv, hn⟩
      · rintro ⟨i, hi, hn⟩
        rw [hsel i hi, h.nodes i hi, mem_asgNodes] at hn
        exact ⟨⟨i, hi, hn.1⟩, hn.2⟩
    · ext e
      simp only [joinedGraph, Finset.mem_biUnion, Finset.mem_image, exists_exists_and_eq_and]
      refine exists_congr fun i => and_congr_right fun hi => ?_
      rw [hsel i hi]
    · rw [Finset.prod_image hinj]
      exact Finset.prod_congr rfl fun i hi => by rw [hsel i hi]

/-- The joined graph is one table: the product of the tables. -/
theorem joined {sp sp' : Space V X R} (h : Tables sp.outcomes dom val I scope pairs G φ) (hI : I.Nonempty) (o : Orders V X R)
    (hj : sp.makeJoined o = .ok sp') :
    Tables sp'.outcomes dom val ({()} : Finset Unit) (fun _ => allVars I scope) (fun _ => I.biUnion pairs)
      (fun _ => joinedGraph val I scope G) (fun _ a => ∏ i ∈ I, φ i a) := by
  classical
  have hne : ∃ g, sp.outcomes.Occurs g := by
    obtain ⟨i, hi⟩ := hI
    obtain ⟨a, ha⟩ := h.exists_asg
    exact ⟨_, h.occurs.2 ⟨i, hi, a, ha i hi, rfl⟩⟩
  have hget : ∀ g c, sp'.outcomes.samples.get? g = some c ↔
      ∃ a, InDom dom (allVars I scope) a ∧ g = joinedGraph val I scope G a ∧ c = ∏ i ∈ I, φ i a := by
    intro g c
    rw [((C42_make_joined o sp h.good h.complete).2 sp' hj).2.2.2 _ h.areFactors, h.isJoin_iff]
    simp only [hne, true_and, Prod.ext_iff]
  have hgood := C42_good o sp h.good h.complete sp' hj
  refine ⟨?_, h.inj, ?_, ?_, ?_, ?_, ?_, ?_, ?_, ?_, ?_⟩
  · intro g c; rw [hget]; simp
  · intro _ _ v hv
    obtain ⟨i, hi, hv⟩ := mem_allVars.1 hv
    exact h.dom_ne i hi v hv
  · intro _ _ a; rfl
  · intro _ _ a b hab
    have hG : ∀ i ∈ I, G i a = G i b := fun i hi => h.locG i hi a b fun v hv => hab v (mem_allVars.2 ⟨i, hi, hv⟩)
    refine SampleGraph.ext ?_ ?_
    · ext n
      simp only [joinedGraph, mem_asgNodes]
      refine and_congr_right fun hn => ?_
      rw [hab _ hn]
    · exact Finset.biUnion_congr rfl fun i hi => by rw [hG i hi]
  · intro _ _ a b hab
    exact Finset.prod_congr rfl fun i hi => h.locφ i hi a b fun v hv => hab v (mem_allVars.2 ⟨i, hi, hv⟩)
  · intro _ _ a ha
    exact (hgood _ ⟨_, (hget _ _).2 ⟨a, ha, rfl, rfl⟩⟩).1
  · intro _ _
    obtain ⟨i, hi⟩ := hI
    obtain ⟨v, hv⟩ := h.ne i hi
    exact ⟨v, mem_allVars.2 ⟨i, hi, hv⟩⟩
  · intro _ _ a P
    rw [Finset.mem_biUnion]
    unfold LinksPair
    simp only [joinedGraph, Finset.mem_biUnion]
    constructor
    · rintro ⟨e, ⟨i, hi, he⟩, hP⟩
      exact ⟨i, hi, (h.links i hi a P).1 ⟨e, he, hP⟩⟩
    · rintro ⟨i, hi, hP⟩
      obtain ⟨e, he, hP⟩ := (h.links i hi a P).2 hP
      exact ⟨e, ⟨i, hi, he⟩, hP⟩
  · intro i _ j _ hne; exact absurd rfl hne
  · intro i _ j _ _ _ _; rfl

/-- Conditioning on a value leaves only its index in the domain of the variable. -/
theorem conditioned {sp cs : Space V X R} (h : Tables sp.outcomes dom val I scope pairs G φ) (oI : Order (SampleGraph V X R × ℤ))
    {v : V} {j : ℕ} (hj : j ∈ dom v) {ev : Sample V X R} (hev : ev.graph = valueEvidence v (val v j))
    (hc : sp.conditionalGraph oI ev = .ok cs) :
    Tables cs.outcomes (Function.update dom v {j}) val I scope pairs G φ := by
  have hsub : ∀ S a, InDom (Function.update dom v {j}) S a ↔ InDom dom S a ∧ (v ∈ S → a v = j) := by
    intro S a
    constructor
    · intro ha
      refine ⟨fun w hw => ?_, fun hv => ?_⟩
      · have := ha w hw
        by_cases hwv : w = v
        · subst hwv
          rw [Function.update_self, Finset.mem_singleton] at this
          rw [this]; exact hj
        · rwa [Function.update_of_ne hwv] at this
      · have := ha v hv
        rwa [Function.update_self, Finset.mem_singleton] at this
    · rintro ⟨h1, h2⟩ w hw
      by_cases hwv : w = v
      · subst hwv
        rw [Function.update_self, Finset.mem_singleton]; exact h2 hw
      · rw [Function.update_of_ne hwv]; exact h1 w hw
  refine ⟨?_, h.inj, ?_, h.nodes, h.locG, h.locφ, ?_, h.ne, h.links, h.disj, h.single⟩
  · intro g c
    rw [condition_get hev hc, h.get]
    constructor
    · rintro ⟨⟨i, hi, a, ha, rfl, rfl⟩, hk⟩
      refine ⟨i, hi, a, (hsub _ _).2 ⟨ha, fun hv => ?_⟩, rfl, rfl⟩
      rcases hk with hk | hk
      · exact ((h.hasValue hi).1 hk).2
      · exact absurd ((h.hasVar hi).2 hv) hk
    · rintro ⟨i, hi, a, ha, rfl, rfl⟩
      obtain ⟨h1, h2⟩ := (hsub _ _).1 ha
      refine ⟨⟨i, hi, a, h1, rfl, rfl⟩, ?_⟩
      by_cases hv : v ∈ scope i
      · exact Or.inl ((h.hasValue hi).2 ⟨hv, h2 hv⟩)
      · exact Or.inr fun hh => hv ((h.hasVar hi).1 hh)
  · intro i hi w hw
    by_cases hwv : w = v
    · subst hwv; rw [Function.update_self]; simp
    · rw [Function.update_of_ne hwv]; exact h.dom_ne i hi w hw
  · intro i hi a ha
    exact h.wf i hi a ((hsub _ _).1 ha).1

end Tables

/-! ### Sums over assignments -/

/-- An assignment of the variables `S` as a function that is 0 elsewhere. -/
def padded (S : Finset V) (f : ∀ v ∈ S, ℕ) (v : V) : ℕ := if h : v ∈ S then f v h else 0

theorem padded_injective (S : Finset V) : Function.Injective (padded S) := by
  intro f g e
  funext v hv
  have := congrFun e v
  simpa [padded, hv] using this

/-- The assignments of the variables `S`, being 0 elsewhere. -/
def assigns (dom : V → Finset ℕ) (S : Finset V) : Finset (V → ℕ) :=
  (S.pi dom).map ⟨padded S, padded_injective S⟩

theorem mem_assigns {dom : V → Finset ℕ} {S : Finset V} {a : V → ℕ} :
    a ∈ assigns dom S ↔ InDom dom S a ∧ ∀ v, v ∉ S → a v = 0 := by
  unfold assigns
  rw [Finset.mem_map]
  constructor
  · rintro ⟨f, hf, rfl⟩
    rw [Finset.mem_pi] at hf
    refine ⟨fun v hv => ?_, fun v hv => ?_⟩
    · show padded S f v ∈ dom v
      rw [padded, dif_pos hv]; exact hf v hv
    · show padded S f v = 0
      rw [padded, dif_neg hv]
  · rintro ⟨h1, h2⟩
    refine ⟨fun v _ => a v, Finset.mem_pi.2 fun v hv => h1 v hv, ?_⟩
    funext v
    show padded S (fun v _ => a v) v = a v
    by_cases hv : v ∈ S
    · simp [padded, hv]
    · simp [padded, hv, h2 v hv]

/-- Cut an assignment off outside `S`. -/
def cut (S : Finset V) (a : V → ℕ) : V → ℕ := fun v => if v ∈ S then a v else 0

theorem cut_mem {dom : V → Finset ℕ} {S : Finset V} {a : V → ℕ} (h : InDom dom S a) : cut S a ∈ assigns dom S := by
  rw [mem_assigns]
  refine ⟨fun v hv => ?_, fun v hv => ?_⟩
  · unfold cut; rw [if_pos hv]; exact h v hv
  · unfold cut; rw [if_neg hv]

theorem cut_apply {S : Finset V} {a : V → ℕ} {v : V} (hv : v ∈ S) : cut S a v = a v := if_pos hv

/-- One variable more. -/
theorem sum_assigns_insert {M : Type} [AddCommMonoid M] {dom : V → Finset ℕ} {S : Finset V} {v : V} (hv : v ∉ S) (f : (V → ℕ) → M) :
    ∑ a ∈ assigns dom (insert v S), f a = ∑ a ∈ assigns dom S, ∑ j ∈ dom v, f (Function.update a v j) := by
  rw [Finset.sum_sigma']
  refine Finset.sum_bij' (fun a _ => (⟨Function.update a v 0, a v⟩ : Σ _ : V → ℕ, ℕ)) (fun p _ => Function.update p.1 v p.2) ?_ ?_ ?_ ?_ ?_
  · intro a ha
    rw [mem_assigns] at ha
    rw [Finset.mem_sigma, mem_assigns]
    refine ⟨⟨fun w hw => ?_, fun w hw => ?_⟩, ha.1 v (Finset.mem_insert_self _ _)⟩
    · have : w ≠ v := by rintro rfl; exact hv hw
      show Function.update a v 0 w ∈ dom w
      rw [Function.update_of_ne this]; exact ha.1 w (Finset.mem_insert_of_mem hw)
    · show Function.update a v 0 w = 0
      by_cases e : w = v
      · subst e; simp
      · rw [Function.update_of_ne e]; exact ha.2 w (by simp [e, hw])
  · intro p hp
    rw [Finset.mem_sigma, mem_assigns] at hp
    rw [mem_assigns]
    refine ⟨fun w hw => ?_, fun w hw => ?_⟩
    · by_cases e : w = v
      · subst e; simpa using hp.2
      · rw [Function.update_of_ne e]; exact hp.1.1 w (by simpa [e] using hw)
    · have e : w ≠ v := by rintro rfl; simp at hw
      rw [Function.update_of_ne e]; exact hp.1.2 w (by simp at hw; tauto)
  · intro a _; simp
  · intro p hp
    rw [Finset.mem_sigma, mem_assigns] at hp
    obtain ⟨a, j⟩ := p
    have h0 : a v = 0 := hp.1.2 v hv
    simp only [Function.update_idem, Function.update_self]
    congr 1
    rw [← h0, Function.update_eq_self]
  · intro a _; simp

namespace Tables
variable {s : Samples V X R} {dom : V → Finset ℕ} {val : V → ℕ → X} {S : Finset V}
  {pairs : Unit → Finset (Finset V)} {G : Unit → (V → ℕ) → SampleGraph V X R} {φ : Unit → (V → ℕ) → ℤ}

/-- With one table: a weighted count of outcomes is a sum over assignments. -/
theorem sum_items {M : Type} [AddCommMonoid M] (h : Tables s dom val ({()} : Finset Unit) (fun _ => S) pairs G φ)
    (f : SampleGraph V X R × ℤ → M) : ∑ p ∈ s.items, f p = ∑ a ∈ assigns dom S, f (G () a, φ () a) := by
  symm
  refine Finset.sum_bij (fun a _ => (G () a, φ () a)) ?_ ?_ ?_ ?_
  · intro a ha
    exact h.item.2 ⟨(), by simp, a, (mem_assigns.1 ha).1, rfl⟩
  · intro a ha b hb e
    have e1 : G () a = G () b := (Prod.ext_iff.1 e).1
    rw [mem_assigns] at ha hb
    funext v
    by_cases hv : v ∈ S
    · have := (h.hasValue (i := ()) (by simp) (a := a) (v := v) (j := a v)).2 ⟨hv, rfl⟩
      rw [e1, h.hasValue (by simp)] at this
      exact this.2.symm
    · rw [ha.2 v hv, hb.2 v hv]
  · intro p hp
    obtain ⟨⟨⟩, -, a, ha, rfl⟩ := h.item.1 hp
    refine ⟨cut S a, cut_mem ha, ?_⟩
    have : ∀ v ∈ S, cut S a v = a v := fun v hv => cut_apply hv
    rw [h.locG () (by simp) _ _ this, h.locφ () (by simp) _ _ this]
  · intro a _; rfl

/-- The marginal distributions of a joined graph with positive counts. -/
theorem marginals {sp : Space V X R} (h : Tables sp.outcomes dom val ({()} : Finset Unit) (fun _ => S) pairs G φ)
    (hpos : ∀ a, InDom dom S a → 0 < φ () a) (u : X) (oI : Order (SampleGraph V X R × ℤ)) (oV : Order V) (oN : Order (Node V X))
    (hdecl : ∀ v ∈ S, v ∈ sp.schema.vars.keys) :
    ∃ d, sp.marginals u oI oV oN none false = .ok d ∧ (∀ v, v ∈ d.keys ↔ v ∈ S) ∧
      ∀ v m, d.get? v = some m → ∀ x q, m.get? x = some q ↔ ∃ j ∈ dom v, x = val v j ∧
        q = (∑ a ∈ assigns dom S with a v = j, (φ () a : ℚ)) / ∑ a ∈ assigns dom S, (φ () a : ℚ) := by
  classical
  have hP : Positive sp.outcomes := by
    intro g c hc
    obtain ⟨⟨⟩, -, a, ha, -, rfl⟩ := (h.get g c).1 hc
    exact hpos a ha
  have hsv : ∀ g, sp.outcomes.Occurs g → SingleValued g.nodes := fun g hg => (h.good g hg).2.2
  obtain ⟨d, e1, e2, e3⟩ := C28_marginals sp u oI oV oN none hP hsv
  have hvar : ∀ v, (∃ g, sp.outcomes.Occurs g ∧ HasVar v g) ↔ v ∈ S := by
    intro v
    constructor
    · rintro ⟨g, hg, hv⟩
      obtain ⟨⟨⟩, -, a, ha, rfl⟩ := h.occurs.1 hg
      exact (h.hasVar (by simp)).1 hv
    · intro hv
      obtain ⟨a, ha⟩ := h.exists_asg
      exact ⟨_, h.occurs.2 ⟨(), by simp, a, ha () (by simp), rfl⟩, (h.hasVar (by simp)).2 hv⟩
  have hkeys : ∀ v, v ∈ d.keys ↔ v ∈ S := by
    intro v
    rw [e2, hvar]
    refine ⟨fun hh => hh.2, fun hh => ⟨?_, hh⟩⟩
    have := hdecl v hh
    rw [Dict.mem_keys] at this
    exact Or.inr ⟨Or.inl rfl, this⟩
  refine ⟨d, e1, hkeys, ?_⟩
  intro v m hm x q
  have hvS : v ∈ S := (hkeys v).1 ((Dict.mem_keys _ _).2 ⟨m, hm⟩)
  rw [(e3 v m hm).2, h.occursValue]
  have hm1 : ∀ j, (mass sp.outcomes (HasValue v (val v j)) : ℚ) = ∑ a ∈ assigns dom S with a v = j, (φ () a : ℚ) := by
    intro j
    unfold mass
    rw [Finset.sum_filter, h.sum_items, Int.cast_sum, Finset.sum_filter]
    refine Finset.sum_congr rfl fun a _ => ?_
    have := h.hasValue (i := ()) (by simp) (a := a) (v := v) (j := j)
    simp only [this, hvS, true_and]
    split <;> simp
  have hm2 : (mass sp.outcomes (HasVar v) : ℚ) = ∑ a ∈ assigns dom S, (φ () a : ℚ) := by
    unfold mass
    rw [Finset.sum_filter, h.sum_items, Int.cast_sum]
    refine Finset.sum_congr rfl fun a _ => ?_
    have := h.hasVar (i := ()) (by simp) (a := a) (v := v)
    rw [if_pos (this.2 hvS)]
  constructor
  · rintro ⟨⟨-, j, hj, rfl⟩, rfl⟩
    exact ⟨j, hj, rfl, by rw [hm1, hm2]⟩
  · rintro ⟨j, hj, rfl, rfl⟩
    exact ⟨⟨⟨(), by simp, hvS⟩, j, hj, rfl⟩, by rw [hm1, hm2]⟩

end Tables

end Verif
