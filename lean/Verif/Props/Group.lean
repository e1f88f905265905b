import Verif.Lemmas.GroupExact
import Verif.Props.Builder
import Mathlib.Data.Finset.Max
import Mathlib.Data.Finset.Powerset

/-!
# C24: `SampleSet.group_intersecting`
-/

set_option linter.unusedSectionVars false

namespace Verif

variable {V X R : Type} [DecidableEq V] [DecidableEq X] [DecidableEq R]

/-! ### Specification -/

/-- Two samples link a common pair of variables; samples without edges count as sharing when they have a variable in
common. -/
def SharesPair (g g' : SampleGraph V X R) : Prop :=
  (∃ e ∈ g.edges, ∃ e' ∈ g'.edges, e.endpoints.image Node.var = e'.endpoints.image Node.var) ∨
  (g.edges = ∅ ∧ g'.edges = ∅ ∧ ∃ n ∈ g.nodes, ∃ n' ∈ g'.nodes, n.var = n'.var)

/-- Two samples of the set that share a pair. -/
def SharesIn (b : Samples V X R) (g g' : SampleGraph V X R) : Prop :=
  (∃ c, b.samples.get? g = some c) ∧ (∃ c, b.samples.get? g' = some c) ∧ SharesPair g g'

/-- Linked by a chain of samples of the set, each sharing a pair with the next. -/
def ChainLinked (b : Samples V X R) : SampleGraph V X R → SampleGraph V X R → Prop := Relation.ReflTransGen (SharesIn b)

/-- The variables a sample contributes to the key of its group: those of its edges; for a sample without edges what
iterating its variable yields (a variable is itself iterated by the code). -/
def KeyVariable (iter : V → Option (Finset V)) (g : SampleGraph V X R) (v : V) : Prop :=
  (∃ e ∈ g.edges, ∃ n ∈ e.endpoints, n.var = v) ∨
  (g.edges = ∅ ∧ ∃ n ∈ g.nodes, ∃ s, iter n.var = some s ∧ v ∈ s)

/-- `g` links the pair of variables `vs` (`inr`); a sample without edges instead "links" each of its variables (`inl`). -/
def Links (g : SampleGraph V X R) : V ⊕ Finset V → Prop
  | .inr vs => ∃ e ∈ g.edges, e.endpoints.image Node.var = vs
  | .inl v => g.edges = ∅ ∧ ∃ n ∈ g.nodes, n.var = v

/-- For any two samples the linked pairs of one are among those of the other, or they have none in common. -/
def PairsLaminar (b : Samples V X R) : Prop :=
  ∀ g c g' c', b.samples.get? g = some c → b.samples.get? g' = some c' →
    (∀ x, Links g x → Links g' x) ∨ (∀ x, Links g' x → Links g x) ∨ ¬ ∃ x, Links g x ∧ Links g' x

/-- Each sample links some pair which is linked only by samples with the same set of linked pairs. -/
def PairsOwn (b : Samples V X R) : Prop :=
  ∀ g c, b.samples.get? g = some c → ∃ x, Links g x ∧ ∀ g' c', b.samples.get? g' = some c' →
    Links g' x → ∀ y, Links g' y ↔ Links g y

/-- A non-empty family of samples in which any two are linked by a chain of samples of the family. -/
def LinkedFamily (A : Finset (SampleGraph V X R)) : Prop :=
  A.Nonempty ∧ ∀ g ∈ A, ∀ g' ∈ A, Relation.ReflTransGen (fun x y => x ∈ A ∧ y ∈ A ∧ SharesPair x y) g g'

/-- If two linked families of samples link the same pairs, then a sample of one and a sample of the other link the same pairs. -/
def PairsSeparate (b : Samples V X R) : Prop :=
  ∀ A B : Finset (SampleGraph V X R), (∀ g ∈ A, ∃ c, b.samples.get? g = some c) → (∀ g ∈ B, ∃ c, b.samples.get? g = some c) →
    LinkedFamily A → LinkedFamily B → (∀ x, (∃ g ∈ A, Links g x) ↔ ∃ g ∈ B, Links g x) → ∃ g ∈ A, ∃ g' ∈ B, ∀ x, Links g x ↔ Links g' x

/-! ### Helper lemmas -/

theorem mem_groupKey_inr (g : SampleGraph V X R) (vs : Finset V) :
    Sum.inr vs ∈ Samples.groupKey g ↔ ∃ e ∈ g.edges, e.endpoints.image Node.var = vs := by
  unfold Samples.groupKey
  split
  · rw [Finset.mem_image]
    unfold SampleGraph.edgesEndpointVariables
    constructor
    · rintro ⟨a, ha, h⟩
      rw [Sum.inr.injEq] at h
      subst h
      rw [Finset.mem_image] at ha
      exact ha
    · rintro ⟨e, he, h⟩
      exact ⟨vs, Finset.mem_image.2 ⟨e, he, h⟩, rfl⟩
  · rename_i h
    simp only [ne_eq, not_not] at h
    rw [h]
    simp

theorem mem_groupKey_inl (g : SampleGraph V X R) (v : V) :
    Sum.inl v ∈ Samples.groupKey g ↔ g.edges = ∅ ∧ ∃ n ∈ g.nodes, n.var = v := by
  unfold Samples.groupKey
  split
  · rename_i h; simp [h]
  · rename_i h
    simp only [ne_eq, not_not] at h
    simp only [h, true_and]
    rw [Finset.mem_image]
    unfold SampleGraph.includedVariables
    constructor
    · rintro ⟨a, ha, h'⟩
      rw [Sum.inl.injEq] at h'
      subst h'
      rwa [Finset.mem_image] at ha
    · rintro ⟨n, hn, h'⟩
      exact ⟨v, Finset.mem_image.2 ⟨n, hn, h'⟩, rfl⟩

theorem mem_groupKey (g : SampleGraph V X R) (x : V ⊕ Finset V) : x ∈ Samples.groupKey g ↔ Links g x := by
  cases x with
  | inl v => exact mem_groupKey_inl g v
  | inr vs => exact mem_groupKey_inr g vs

theorem sharesPair_iff (g g' : SampleGraph V X R) :
    SharesPair g g' ↔ ∃ x, x ∈ Samples.groupKey g ∧ x ∈ Samples.groupKey g' := by
  constructor
  · rintro (⟨e, he, e', he', h⟩ | ⟨h1, h2, n, hn, n', hn', h⟩)
    · exact ⟨.inr (e.endpoints.image Node.var), (mem_groupKey_inr _ _).2 ⟨e, he, rfl⟩, (mem_groupKey_inr _ _).2 ⟨e', he', h.symm⟩⟩
    · exact ⟨.inl n.var, (mem_groupKey_inl _ _).2 ⟨h1, n, hn, rfl⟩, (mem_groupKey_inl _ _).2 ⟨h2, n', hn', h.symm⟩⟩
  · rintro ⟨v | vs, h1, h2⟩
    · obtain ⟨h3, n, hn, rfl⟩ := (mem_groupKey_inl _ _).1 h1
      obtain ⟨h4, n', hn', h⟩ := (mem_groupKey_inl _ _).1 h2
      exact Or.inr ⟨h3, h4, n, hn, n', hn', h.symm⟩
    · obtain ⟨e, he, rfl⟩ := (mem_groupKey_inr _ _).1 h1
      obtain ⟨e', he', h⟩ := (mem_groupKey_inr _ _).1 h2
      exact Or.inl ⟨e, he, e', he', h.symm⟩

theorem SharesPair.symm {g g' : SampleGraph V X R} (h : SharesPair g g') : SharesPair g' g := by
  rw [sharesPair_iff] at h ⊢
  obtain ⟨x, h1, h2⟩ := h
  exact ⟨x, h2, h1⟩

theorem ChainLinked.symm {b : Samples V X R} {g g' : SampleGraph V X R} (h : ChainLinked b g g') : ChainLinked b g' g := by
  unfold ChainLinked at h ⊢
  induction h with
  | refl => exact .refl
  | tail _ h ih => exact .head ⟨h.2.1, h.1, h.2.2.symm⟩ ih

theorem groupKey_eq_iff (g g' : SampleGraph V X R) : Samples.groupKey g = Samples.groupKey g' ↔ ∀ x, Links g x ↔ Links g' x := by
  rw [Finset.ext_iff]
  exact forall_congr' fun x => by rw [mem_groupKey, mem_groupKey]

theorem not_disjoint_groupKey (g g' : SampleGraph V X R) : ¬ Disjoint (Samples.groupKey g) (Samples.groupKey g') ↔ SharesPair g g' := by
  rw [Finset.not_disjoint_iff, sharesPair_iff]

/-- The condition in terms of keys. -/
theorem pairsSeparate_iff (b : Samples V X R) : PairsSeparate b ↔ Samples.SepKeys (Samples.groupInit b.samples).keys := by
  obtain ⟨-, -, i3⟩ := Samples.groupInit_inv b.samples
  constructor
  · intro h A B hA hB lA lB hun hdis
    have hrep : ∀ k : GKey V, ∃ g : SampleGraph V X R, k ∈ (Samples.groupInit b.samples).keys → (∃ c, b.samples.get? g = some c) ∧ Samples.groupKey g = k := by
      intro k
      by_cases hk : k ∈ (Samples.groupInit b.samples).keys
      · obtain ⟨g, c, hg, hgk⟩ := (i3 k).1 hk
        exact ⟨g, fun _ => ⟨⟨c, hg⟩, hgk⟩⟩
      · exact ⟨⟨∅, ∅⟩, fun hk' => absurd hk' hk⟩
    choose rep hrep using hrep
    have fam : ∀ A : Finset (GKey V), (∀ k ∈ A, k ∈ (Samples.groupInit b.samples).keys) → Samples.KLinked A →
        (∀ g ∈ A.image rep, ∃ c, b.samples.get? g = some c) ∧ LinkedFamily (A.image rep) ∧ ∀ x, (∃ g ∈ A.image rep, Links g x) ↔ x ∈ A.biUnion id := by
      intro A hA lA
      refine ⟨?_, ⟨lA.1.image rep, ?_⟩, ?_⟩
      · intro g hg
        obtain ⟨k, hk, rfl⟩ := Finset.mem_image.1 hg
        exact (hrep k (hA k hk)).1
      · intro g hg g' hg'
        obtain ⟨k, hk, rfl⟩ := Finset.mem_image.1 hg
        obtain ⟨k', hk', rfl⟩ := Finset.mem_image.1 hg'
        refine (lA.2 k hk k' hk').lift rep fun x y hxy => ⟨Finset.mem_image_of_mem _ hxy.1, Finset.mem_image_of_mem _ hxy.2.1, ?_⟩
        rw [← not_disjoint_groupKey, (hrep x (hA x hxy.1)).2, (hrep y (hA y hxy.2.1)).2]
        exact hxy.2.2
      · intro x
        rw [Finset.mem_biUnion]
        constructor
        · rintro ⟨g, hg, hx⟩
          obtain ⟨k, hk, rfl⟩ := Finset.mem_image.1 hg
          refine ⟨k, hk, ?_⟩
          rw [← mem_groupKey, (hrep k (hA k hk)).2] at hx
          exact hx
        · rintro ⟨k, hk, hx⟩
          refine ⟨rep k, Finset.mem_image_of_mem _ hk, ?_⟩
          rw [← mem_groupKey, (hrep k (hA k hk)).2]
          exact hx
    obtain ⟨a1, a2, a3⟩ := fam A hA lA
    obtain ⟨b1, b2, b3⟩ := fam B hB lB
    obtain ⟨g, hg, g', hg', hl⟩ := h _ _ a1 b1 a2 b2 (fun x => by rw [a3, b3, hun])
    obtain ⟨k, hk, rfl⟩ := Finset.mem_image.1 hg
    obtain ⟨k', hk', rfl⟩ := Finset.mem_image.1 hg'
    have := (groupKey_eq_iff _ _).2 hl
    rw [(hrep k (hA k hk)).2, (hrep k' (hB k' hk')).2] at this
    subst this
    exact Finset.disjoint_left.1 hdis hk hk'
  · intro h A B hA hB lA lB hl
    have fam : ∀ A : Finset (SampleGraph V X R), (∀ g ∈ A, ∃ c, b.samples.get? g = some c) → LinkedFamily A →
        (∀ k ∈ A.image Samples.groupKey, k ∈ (Samples.groupInit b.samples).keys) ∧ Samples.KLinked (A.image Samples.groupKey) ∧
          ∀ x, x ∈ (A.image Samples.groupKey).biUnion id ↔ ∃ g ∈ A, Links g x := by
      intro A hA lA
      refine ⟨?_, ⟨lA.1.image _, ?_⟩, ?_⟩
      · intro k hk
        obtain ⟨g, hg, rfl⟩ := Finset.mem_image.1 hk
        obtain ⟨c, hc⟩ := hA g hg
        exact (i3 _).2 ⟨g, c, hc, rfl⟩
      · intro k hk k' hk'
        obtain ⟨g, hg, rfl⟩ := Finset.mem_image.1 hk
        obtain ⟨g', hg', rfl⟩ := Finset.mem_image.1 hk'
        exact (lA.2 g hg g' hg').lift Samples.groupKey fun x y hxy =>
          ⟨Finset.mem_image_of_mem _ hxy.1, Finset.mem_image_of_mem _ hxy.2.1, (not_disjoint_groupKey x y).2 hxy.2.2⟩
      · intro x
        simp only [Finset.mem_biUnion, Finset.mem_image, id]
        constructor
        · rintro ⟨_, ⟨g, hg, rfl⟩, hx⟩; exact ⟨g, hg, (mem_groupKey _ _).1 hx⟩
        · rintro ⟨g, hg, hx⟩; exact ⟨_, ⟨g, hg, rfl⟩, (mem_groupKey _ _).2 hx⟩
    obtain ⟨a1, a2, a3⟩ := fam A hA lA
    obtain ⟨b1, b2, b3⟩ := fam B hB lB
    have := h _ _ a1 b1 a2 b2 (by ext x; rw [a3, b3, hl])
    rw [Finset.not_disjoint_iff] at this
    obtain ⟨k, hk, hk'⟩ := this
    obtain ⟨g, hg, rfl⟩ := Finset.mem_image.1 hk
    obtain ⟨g', hg', he⟩ := Finset.mem_image.1 hk'
    exact ⟨g, hg, g', hg', (groupKey_eq_iff _ _).1 he.symm⟩

/-- Variables of a group key. -/
def flatKey (iter : V → Option (Finset V)) (k : GKey V) : Finset V := k.biUnion fun x => (Samples.elemIter iter x).getD ∅

theorem mem_flatKey_groupKey (iter : V → Option (Finset V)) (g : SampleGraph V X R) (v : V) :
    v ∈ flatKey iter (Samples.groupKey g) ↔ KeyVariable iter g v := by
  unfold flatKey KeyVariable
  rw [Finset.mem_biUnion]
  constructor
  · rintro ⟨w | vs, h1, h2⟩
    · right
      obtain ⟨h3, n, hn, rfl⟩ := (mem_groupKey_inl _ _).1 h1
      refine ⟨h3, n, hn, ?_⟩
      simp only [Samples.elemIter] at h2
      cases hi : iter n.var with
      | none => rw [hi] at h2; simp at h2
      | some s => rw [hi] at h2; exact ⟨s, rfl, h2⟩
    · left
      obtain ⟨e, he, rfl⟩ := (mem_groupKey_inr _ _).1 h1
      simp only [Samples.elemIter, Option.getD_some] at h2
      obtain ⟨n, hn, h⟩ := Finset.mem_image.1 h2
      exact ⟨e, he, n, hn, h⟩
  · rintro (⟨e, he, n, hn, rfl⟩ | ⟨h1, n, hn, s, hs, hv⟩)
    · exact ⟨.inr (e.endpoints.image Node.var), (mem_groupKey_inr _ _).2 ⟨e, he, rfl⟩, Finset.mem_image_of_mem _ hn⟩
    · exact ⟨.inl n.var, (mem_groupKey_inl _ _).2 ⟨h1, n, hn, rfl⟩, by simp [Samples.elemIter, hs, hv]⟩

theorem keys_ofList_foldl {K A : Type} [DecidableEq K] (l : List (K × A)) (d : Dict K A) (k : K) :
    k ∈ (l.foldl (fun d p => d.set p.1 p.2) d).keys ↔ k ∈ d.keys ∨ k ∈ l.map Prod.fst := by
  induction l generalizing d with
  | nil => simp
  | cons p t ih =>
    rw [List.foldl_cons, ih, Dict.mem_keys_set, List.map_cons, List.mem_cons]
    tauto

theorem length_ofList {K A : Type} [DecidableEq K] (l : List (K × A)) :
    (Dict.ofList l).entries.length = l.length ↔ (l.map Prod.fst).Nodup := by
  have h1 : (Dict.ofList l).entries.length = (l.map Prod.fst).toFinset.card := by
    have : (Dict.ofList l).entries.length = (Dict.ofList l).keys.length := by simp [Dict.keys]
    rw [this, ← List.toFinset_card_of_nodup (Dict.nodup_keys _)]
    congr 1
    ext k
    rw [List.mem_toFinset, List.mem_toFinset]
    unfold Dict.ofList
    rw [keys_ofList_foldl]
    simp
  rw [h1, ← List.length_map (f := Prod.fst) (as := l), List.card_toFinset]
  constructor
  · intro h
    rw [← List.dedup_eq_self]
    exact (List.dedup_sublist _).eq_of_length h
  · intro h; rw [List.dedup_eq_self.2 h]

/-- What the last part of `group_intersecting` does with the final `sample_acc`. -/
theorem groupIntersecting_cases (iter : V → Option (Finset V)) (b : Samples V X R)
    (acc : Dict (GKey V) (Dict (SampleGraph V X R) ℤ))
    (h : Samples.groupLoop ((Samples.groupInit b.samples).keys.length + 1) (Samples.groupInit b.samples) = .ok acc) :
    ((∃ k ∈ acc.keys, ∃ x ∈ k, Samples.elemIter iter x = none) → b.groupIntersecting iter = .error .typeError) ∧
    (¬ (∃ k ∈ acc.keys, ∃ x ∈ k, Samples.elemIter iter x = none) →
      ((∀ k ∈ acc.keys, ∀ k' ∈ acc.keys, flatKey iter k = flatKey iter k' → k = k') →
        ∃ d, b.groupIntersecting iter = .ok d ∧ ∀ K s, d.get? K = some s ↔
          ∃ k m, acc.get? k = some m ∧ flatKey iter k = K ∧ s = ⟨b.prov, m⟩) ∧
      (¬ (∀ k ∈ acc.keys, ∀ k' ∈ acc.keys, flatKey iter k = flatKey iter k' → k = k') →
        b.groupIntersecting iter = .error .assertion)) := by
  have hf : ∀ p : GKey V × Dict (SampleGraph V X R) ℤ, (¬ ∃ x ∈ p.1, Samples.elemIter iter x = none) →
      (do return (← Samples.flattenKey iter p.1, (⟨b.prov, p.2⟩ : Samples V X R)) : Py _) =
        .ok (flatKey iter p.1, ⟨b.prov, p.2⟩) := by
    intro p hp
    unfold Samples.flattenKey
    rw [if_neg hp]
    rfl
  have hfe : ∀ p : GKey V × Dict (SampleGraph V X R) ℤ, (∃ x ∈ p.1, Samples.elemIter iter x = none) →
      (do return (← Samples.flattenKey iter p.1, (⟨b.prov, p.2⟩ : Samples V X R)) : Py _) = .error .typeError := by
    intro p hp
    unfold Samples.flattenKey
    rw [if_pos hp]
    rfl
  unfold Samples.groupIntersecting
  simp only [h]
  constructor
  · rintro ⟨k, hk, hx⟩
    obtain ⟨m, hm⟩ := (acc.mem_keys k).1 hk
    rw [mapM_error _ .typeError]
    · intro p hp e he
      by_cases hp' : ∃ x ∈ p.1, Samples.elemIter iter x = none
      · rw [hfe p hp'] at he; simpa using he.symm
      · rw [hf p hp'] at he; simp at he
    · refine ⟨(k, m), (acc.mem_entries k m).2 hm, ?_⟩
      rw [hfe (k, m) hx]
      rintro ⟨y, hy⟩; simp at hy
  · intro hno
    have hk : ∀ p ∈ acc.entries, p.1 ∈ acc.keys := fun p hp => List.mem_map_of_mem hp
    rw [mapM_ok _ (fun p => (flatKey iter p.1, (⟨b.prov, p.2⟩ : Samples V X R)))
      _ (fun p hp => hf p (fun hx => hno ⟨p.1, hk p hp, hx⟩))]
    have hlen := length_ofList (acc.entries.map fun p => (flatKey iter p.1, (⟨b.prov, p.2⟩ : Samples V X R)))
    rw [List.length_map] at hlen
    have hmap : ((acc.entries.map fun p => (flatKey iter p.1, (⟨b.prov, p.2⟩ : Samples V X R))).map Prod.fst) =
        acc.keys.map (flatKey iter) := by
      rw [List.map_map]; unfold Dict.keys; rw [List.map_map]; rfl
    have hnd : ((acc.entries.map fun p => (flatKey iter p.1, (⟨b.prov, p.2⟩ : Samples V X R))).map Prod.fst).Nodup ↔
        ∀ k ∈ acc.keys, ∀ k' ∈ acc.keys, flatKey iter k = flatKey iter k' → k = k' := by
      rw [hmap]
      exact List.nodup_map_iff_inj_on acc.nodup_keys
    constructor
    · intro hinj
      have hn := hnd.2 hinj
      refine ⟨_, by simp only; rw [if_pos (hlen.2 hn)], fun K s => ?_⟩
      rw [Dict.get?_ofList _ hn, List.mem_map]
      constructor
      · rintro ⟨p, hp, he⟩
        rw [Prod.mk.injEq] at he
        exact ⟨p.1, p.2, (acc.mem_entries' p).1 hp, he.1, he.2.symm⟩
      · rintro ⟨k, m, hm, h1, h2⟩
        exact ⟨(k, m), (acc.mem_entries k m).2 hm, by rw [h1, h2]⟩
    · intro hinj
      simp only
      rw [if_neg (fun h' => hinj (hnd.1 (hlen.1 h')))]

theorem group_loop_result (b : Samples V X R) : ∃ acc,
    Samples.groupLoop ((Samples.groupInit b.samples).keys.length + 1) (Samples.groupInit b.samples) = .ok acc ∧
    Samples.GroupInv b.samples acc ∧ (∀ k k', k ∈ acc.keys → k' ∈ acc.keys → k ≠ k' → Disjoint k k') ∧
    (∀ x, (∃ k ∈ acc.keys, x ∈ k) ↔ ∃ g c, b.samples.get? g = some c ∧ x ∈ Samples.groupKey g) ∧
    ((∀ g c, b.samples.get? g = some c → g.nodes.Nonempty) → Samples.GroupWithin (ChainLinked b) acc) ∧
    (PairsSeparate b → Samples.GroupFull b.samples acc) := by
  obtain ⟨i1, i2, i3⟩ := Samples.groupInit_inv b.samples
  obtain ⟨acc, h1, h2, h3, h4, h5, h6, h7⟩ := Samples.groupLoop_spec b.samples _ (Samples.groupInit b.samples) (Nat.lt_succ_self _) i1
  refine ⟨acc, h1, h2, h3, fun x => ⟨?_, ?_⟩, fun hne => ?_, ?_⟩
  · rintro ⟨k, hk, hx⟩
    obtain ⟨k₀, hk₀, hx⟩ := h4 k hk x hx
    obtain ⟨g, c, hg, rfl⟩ := (i3 k₀).1 hk₀
    exact ⟨g, c, hg, hx⟩
  · rintro ⟨g, c, hg, hx⟩
    exact h5 _ ((i3 _).2 ⟨g, c, hg, rfl⟩) x hx
  · apply h6 (ChainLinked b) (fun _ _ h => h.symm) (fun _ _ _ h h' => h.trans h')
    · intro g c g' c' x hg hg' hx hx'
      exact .single ⟨⟨c, hg⟩, ⟨c', hg'⟩, (sharesPair_iff _ _).2 ⟨x, hx, hx'⟩⟩
    · intro k m hm g c g' c' hg hg'
      rcases Samples.groupInit_spec b.samples k with ⟨j1, -⟩ | ⟨m', j1, -, j3⟩
      · rw [j1] at hm; simp at hm
      · rw [j1, Option.some.injEq] at hm
        subst hm
        obtain ⟨a1, a2⟩ := (j3 g c).1 hg
        obtain ⟨b1, b2⟩ := (j3 g' c').1 hg'
        refine .single ⟨⟨c, a1⟩, ⟨c', b1⟩, (sharesPair_iff _ _).2 ?_⟩
        rw [a2, b2]
        have : ∃ x, x ∈ Samples.groupKey g := by
          by_cases he : g.edges = ∅
          · obtain ⟨n, hn⟩ := hne g c a1
            exact ⟨.inl n.var, (mem_groupKey_inl _ _).2 ⟨he, n, hn, rfl⟩⟩
          · obtain ⟨e, he⟩ := Finset.nonempty_iff_ne_empty.2 he
            exact ⟨_, (mem_groupKey_inr _ _).2 ⟨e, he, rfl⟩⟩
        rw [a2] at this
        obtain ⟨x, hx⟩ := this
        exact ⟨x, hx, hx⟩
  · intro hs
    exact h7 _ (Samples.blocks_step ((pairsSeparate_iff b).1 hs)) (Samples.blocks_init _) i2

/-! ### C24 -/

/-- C24, soundness, for every sample set: when `group_intersecting` returns, each group is a non-empty part of the set
with unchanged counts, its key is the set of variables of its members, members are linked by chains of samples sharing
pairs, and samples of different groups are different and share no pair. -/
theorem C24_sound (iter : V → Option (Finset V)) (b : Samples V X R) (d : Dict (Finset V) (Samples V X R))
    (h : b.groupIntersecting iter = .ok d) :
    (∀ K s, d.get? K = some s → s.prov = b.prov ∧ (∃ g c, s.samples.get? g = some c) ∧
      (∀ g c, s.samples.get? g = some c → b.samples.get? g = some c) ∧
      (∀ v, v ∈ K ↔ ∃ g c, s.samples.get? g = some c ∧ KeyVariable iter g v)) ∧
    (∀ K s K' s' g c g' c', d.get? K = some s → d.get? K' = some s' → K ≠ K' → s.samples.get? g = some c →
      s'.samples.get? g' = some c' → g ≠ g' ∧ ¬ SharesPair g g') ∧
    ((∀ g c, b.samples.get? g = some c → g.nodes.Nonempty) → ∀ K s g c g' c', d.get? K = some s →
      s.samples.get? g = some c → s.samples.get? g' = some c' → ChainLinked b g g') := by
  obtain ⟨acc, h1, h2, h3, h4, h5, -⟩ := group_loop_result b
  obtain ⟨c1, c2⟩ := groupIntersecting_cases iter b acc h1
  by_cases hT : ∃ k ∈ acc.keys, ∃ x ∈ k, Samples.elemIter iter x = none
  · rw [c1 hT] at h; simp at h
  by_cases hI : ∀ k ∈ acc.keys, ∀ k' ∈ acc.keys, flatKey iter k = flatKey iter k' → k = k'
  swap
  · rw [(c2 hT).2 hI] at h; simp at h
  obtain ⟨d', hd', hd⟩ := (c2 hT).1 hI
  rw [hd', Except.ok.injEq] at h
  subst h
  refine ⟨?_, ?_, ?_⟩
  · intro K s hs
    obtain ⟨k, m, hm, rfl, rfl⟩ := (hd K s).1 hs
    refine ⟨rfl, h2.nonempty k m hm, fun g c hg => (h2.sub k m hm g c hg).1, fun v => ?_⟩
    constructor
    · intro hv
      unfold flatKey at hv
      obtain ⟨x, hx, hvx⟩ := Finset.mem_biUnion.1 hv
      obtain ⟨g, c, hg, hxg⟩ := h2.cover k m hm x hx
      exact ⟨g, c, hg, (mem_flatKey_groupKey iter g v).1 (Finset.mem_biUnion.2 ⟨x, hxg, hvx⟩)⟩
    · rintro ⟨g, c, hg, hv⟩
      obtain ⟨x, hx, hvx⟩ := Finset.mem_biUnion.1 ((mem_flatKey_groupKey iter g v).2 hv)
      exact Finset.mem_biUnion.2 ⟨x, (h2.sub k m hm g c hg).2 hx, hvx⟩
  · intro K s K' s' g c g' c' hs hs' hne hg hg'
    obtain ⟨k, m, hm, rfl, rfl⟩ := (hd K s).1 hs
    obtain ⟨k', m', hm', rfl, rfl⟩ := (hd K' s').1 hs'
    have hkk : k ≠ k' := fun h => hne (by rw [h])
    constructor
    · rintro rfl
      exact hkk (h2.disj k m k' m' g c c' hm hm' hg hg')
    · intro hsh
      obtain ⟨x, hx, hx'⟩ := (sharesPair_iff _ _).1 hsh
      exact Finset.disjoint_left.1 (h3 k k' ((acc.mem_keys k).2 ⟨m, hm⟩) ((acc.mem_keys k').2 ⟨m', hm'⟩) hkk)
        ((h2.sub k m hm g c hg).2 hx) ((h2.sub k' m' hm' g' c' hg').2 hx')
  · intro hne K s g c g' c' hs hg hg'
    obtain ⟨k, m, hm, rfl, rfl⟩ := (hd K s).1 hs
    exact h5 hne k m hm g c g' c' hg hg'

/-- C24, failures, for every sample set: `TypeError` exactly when a sample without edges has a variable that cannot be
iterated; nothing else than `TypeError` and `AssertionError` is raised; the loop always ends. -/
theorem C24_failures (iter : V → Option (Finset V)) (b : Samples V X R) :
    (b.groupIntersecting iter = .error .typeError ↔
      ∃ g c, b.samples.get? g = some c ∧ g.edges = ∅ ∧ ∃ n ∈ g.nodes, iter n.var = none) ∧
    ∀ e, b.groupIntersecting iter = .error e → e = .typeError ∨ e = .assertion := by
  obtain ⟨acc, h1, h2, h3, h4, h5, -⟩ := group_loop_result b
  obtain ⟨c1, c2⟩ := groupIntersecting_cases iter b acc h1
  have hiff : (∃ k ∈ acc.keys, ∃ x ∈ k, Samples.elemIter iter x = none) ↔
      ∃ g c, b.samples.get? g = some c ∧ g.edges = ∅ ∧ ∃ n ∈ g.nodes, iter n.var = none := by
    constructor
    · rintro ⟨k, hk, x, hx, hi⟩
      obtain ⟨g, c, hg, hxg⟩ := (h4 x).1 ⟨k, hk, hx⟩
      cases x with
      | inr vs => simp [Samples.elemIter] at hi
      | inl v =>
        obtain ⟨he, n, hn, rfl⟩ := (mem_groupKey_inl _ _).1 hxg
        exact ⟨g, c, hg, he, n, hn, hi⟩
    · rintro ⟨g, c, hg, he, n, hn, hi⟩
      obtain ⟨k, hk, hx⟩ := (h4 (.inl n.var)).2 ⟨g, c, hg, (mem_groupKey_inl _ _).2 ⟨he, n, hn, rfl⟩⟩
      exact ⟨k, hk, _, hx, hi⟩
  rw [← hiff]
  by_cases hT : ∃ k ∈ acc.keys, ∃ x ∈ k, Samples.elemIter iter x = none
  · rw [c1 hT]
    exact ⟨⟨fun _ => hT, fun _ => rfl⟩, fun e he => Or.inl (by simpa using he.symm)⟩
  · by_cases hI : ∀ k ∈ acc.keys, ∀ k' ∈ acc.keys, flatKey iter k = flatKey iter k' → k = k'
    · obtain ⟨d', hd', -⟩ := (c2 hT).1 hI
      rw [hd']
      exact ⟨⟨fun h => by simp at h, fun h => absurd h hT⟩, fun e he => by simp at he⟩
    · rw [(c2 hT).2 hI]
      exact ⟨⟨fun h => by simp at h, fun h => absurd h hT⟩, fun e he => Or.inr (by simpa using he.symm)⟩

/-- C24, completeness: if linked families of samples that link the same pairs always have samples with the same pairs in common, no sample is lost and the
groups are exactly the classes of `ChainLinked`; it then returns exactly when the variables can be iterated and different classes have different variables.
The condition is exact for merging pairs in any order (`C24_exact`); without it samples can be lost (`C24_loss_first`). -/
theorem C24_complete (iter : V → Option (Finset V)) (b : Samples V X R) (hb : PairsSeparate b)
    (hne : ∀ g c, b.samples.get? g = some c → g.nodes.Nonempty) :
    (∀ d, b.groupIntersecting iter = .ok d →
      (∀ g c, b.samples.get? g = some c → ∃ K s, d.get? K = some s ∧ s.samples.get? g = some c) ∧
      (∀ K s g c g' c', d.get? K = some s → s.samples.get? g = some c → b.samples.get? g' = some c' →
        ((∃ c'', s.samples.get? g' = some c'') ↔ ChainLinked b g g'))) ∧
    (Returns (b.groupIntersecting iter) ↔
      (¬ ∃ g c, b.samples.get? g = some c ∧ g.edges = ∅ ∧ ∃ n ∈ g.nodes, iter n.var = none) ∧
      ∀ g c g' c', b.samples.get? g = some c → b.samples.get? g' = some c' →
        (∀ v, (∃ h, ChainLinked b g h ∧ KeyVariable iter h v) ↔ (∃ h, ChainLinked b g' h ∧ KeyVariable iter h v)) →
        ChainLinked b g g') := by
  obtain ⟨acc, h1, h2, h3, h4, h5, h6⟩ := group_loop_result b
  obtain ⟨c1, c2⟩ := groupIntersecting_cases iter b acc h1
  have hfull := h6 hb
  have hwith := h5 hne
  -- same group iff linked
  have hclass : ∀ k m g c g' c', acc.get? k = some m → m.get? g = some c → b.samples.get? g' = some c' →
      ((∃ c'', m.get? g' = some c'') ↔ ChainLinked b g g') := by
    intro k m g c g' c' hm hg hg'
    constructor
    · rintro ⟨c'', h''⟩; exact hwith k m hm g c g' c'' hg h''
    · intro hl
      clear hg'
      induction hl with
      | refl => exact ⟨c, hg⟩
      | tail _ hstep ih =>
        rename_i x y _
        obtain ⟨cx, hx⟩ := ih
        obtain ⟨-, ⟨cy, hy⟩, hs⟩ := hstep
        obtain ⟨k', m', hm', hy'⟩ := hfull y cy hy
        obtain ⟨z, hz, hz'⟩ := (sharesPair_iff _ _).1 hs
        have hkk : k = k' := by
          by_contra hne'
          exact Finset.disjoint_left.1 (h3 k k' ((acc.mem_keys k).2 ⟨m, hm⟩) ((acc.mem_keys k').2 ⟨m', hm'⟩) hne')
            ((h2.sub k m hm x cx hx).2 hz) ((h2.sub k' m' hm' y cy hy').2 hz')
        subst hkk
        rw [hm, Option.some.injEq] at hm'
        subst hm'
        exact ⟨cy, hy'⟩
  -- variables of a class
  have hvars : ∀ k m g c, acc.get? k = some m → m.get? g = some c → ∀ v, v ∈ flatKey iter k ↔
      ∃ h, ChainLinked b g h ∧ KeyVariable iter h v := by
    intro k m g c hm hg v
    constructor
    · intro hv
      obtain ⟨x, hx, hvx⟩ := Finset.mem_biUnion.1 hv
      obtain ⟨g', c', hg', hxg⟩ := h2.cover k m hm x hx
      exact ⟨g', hwith k m hm g c g' c' hg hg', (mem_flatKey_groupKey iter g' v).1 (Finset.mem_biUnion.2 ⟨x, hxg, hvx⟩)⟩
    · rintro ⟨g', hl, hv⟩
      have hin : ∃ c', b.samples.get? g' = some c' := by
        rcases Relation.ReflTransGen.cases_tail hl with heq | ⟨_, _, h⟩
        · exact ⟨c, by rw [heq]; exact (h2.sub k m hm g c hg).1⟩
        · exact h.2.1
      obtain ⟨c', hc'⟩ := hin
      obtain ⟨c'', hg'⟩ := (hclass k m g c g' c' hm hg hc').2 hl
      obtain ⟨x, hx, hvx⟩ := Finset.mem_biUnion.1 ((mem_flatKey_groupKey iter g' v).2 hv)
      exact Finset.mem_biUnion.2 ⟨x, (h2.sub k m hm g' c'' hg').2 hx, hvx⟩
  have hinj : (∀ k ∈ acc.keys, ∀ k' ∈ acc.keys, flatKey iter k = flatKey iter k' → k = k') ↔
      ∀ g c g' c', b.samples.get? g = some c → b.samples.get? g' = some c' →
        (∀ v, (∃ h, ChainLinked b g h ∧ KeyVariable iter h v) ↔ (∃ h, ChainLinked b g' h ∧ KeyVariable iter h v)) →
        ChainLinked b g g' := by
    constructor
    · intro hI g c g' c' hg hg' hv
      obtain ⟨k, m, hm, hgm⟩ := hfull g c hg
      obtain ⟨k', m', hm', hgm'⟩ := hfull g' c' hg'
      have hkk := hI k ((acc.mem_keys k).2 ⟨m, hm⟩) k' ((acc.mem_keys k').2 ⟨m', hm'⟩) (by
        ext v; rw [hvars k m g c hm hgm, hvars k' m' g' c' hm' hgm', hv])
      subst hkk
      rw [hm, Option.some.injEq] at hm'
      subst hm'
      exact hwith k m hm g c g' c' hgm hgm'
    · intro hall k hk k' hk' hfl
      obtain ⟨m, hm⟩ := (acc.mem_keys k).1 hk
      obtain ⟨m', hm'⟩ := (acc.mem_keys k').1 hk'
      obtain ⟨g, c, hg⟩ := h2.nonempty k m hm
      obtain ⟨g', c', hg'⟩ := h2.nonempty k' m' hm'
      have hl := hall g c g' c' (h2.sub k m hm g c hg).1 (h2.sub k' m' hm' g' c' hg').1 (by
        intro v; rw [← hvars k m g c hm hg, ← hvars k' m' g' c' hm' hg', hfl])
      obtain ⟨c'', hg''⟩ := (hclass k m g c g' c' hm hg (h2.sub k' m' hm' g' c' hg').1).2 hl
      exact h2.disj k m k' m' g' c'' c' hm hm' hg'' hg'
  constructor
  · intro d hd
    by_cases hT : ∃ k ∈ acc.keys, ∃ x ∈ k, Samples.elemIter iter x = none
    · rw [c1 hT] at hd; simp at hd
    by_cases hI : ∀ k ∈ acc.keys, ∀ k' ∈ acc.keys, flatKey iter k = flatKey iter k' → k = k'
    swap
    · rw [(c2 hT).2 hI] at hd; simp at hd
    obtain ⟨d', hd', hdd⟩ := (c2 hT).1 hI
    rw [hd', Except.ok.injEq] at hd
    subst hd
    constructor
    · intro g c hg
      obtain ⟨k, m, hm, hgm⟩ := hfull g c hg
      exact ⟨flatKey iter k, ⟨b.prov, m⟩, (hdd _ _).2 ⟨k, m, hm, rfl, rfl⟩, hgm⟩
    · intro K s g c g' c' hs hg hg'
      obtain ⟨k, m, hm, rfl, rfl⟩ := (hdd K s).1 hs
      exact hclass k m g c g' c' hm hg hg'
  · rw [← hinj, ← (C24_failures iter b).1]
    constructor
    · intro hr
      refine ⟨fun h => by obtain ⟨x, hx⟩ := hr; rw [h] at hx; simp at hx, ?_⟩
      by_contra hI
      obtain ⟨x, hx⟩ := hr
      by_cases hT : ∃ k ∈ acc.keys, ∃ x ∈ k, Samples.elemIter iter x = none
      · rw [c1 hT] at hx; simp at hx
      · rw [(c2 hT).2 hI] at hx; simp at hx
    · rintro ⟨hT, hI⟩
      have hT' : ¬ ∃ k ∈ acc.keys, ∃ x ∈ k, Samples.elemIter iter x = none := fun h => hT (c1 h)
      obtain ⟨d, hd, -⟩ := (c2 hT').1 hI
      exact ⟨d, hd⟩

/-- C24, exactness: whichever intersecting keys are merged next, as long as there are any, nothing is lost, if and only if linked families with the same pairs have samples with
the same pairs in common. The loop of `group_intersecting` is one such run. -/
theorem C24_exact (b : Samples V X R) :
    ((∀ acc, Samples.MergeRun (Samples.groupInit b.samples) acc → Samples.Merged acc →
      ∀ g c, b.samples.get? g = some c → ∃ k m, acc.get? k = some m ∧ m.get? g = some c) ↔ PairsSeparate b) ∧
    ∀ n acc, Samples.groupLoop n (Samples.groupInit b.samples) = .ok acc → Samples.MergeRun (Samples.groupInit b.samples) acc ∧ Samples.Merged acc :=
  ⟨(Samples.merge_exact b.samples).trans (pairsSeparate_iff b).symm, fun n acc h => Samples.groupLoop_run n _ acc h⟩

/-- C24: nested or disjoint sets of pairs satisfy the condition. -/
theorem C24_laminar {b : Samples V X R} (h : PairsLaminar b) : PairsSeparate b := by
  rw [pairsSeparate_iff]
  obtain ⟨-, -, i3⟩ := Samples.groupInit_inv b.samples
  have hlam : ∀ k ∈ (Samples.groupInit b.samples).keys, ∀ k' ∈ (Samples.groupInit b.samples).keys, k ⊆ k' ∨ k' ⊆ k ∨ Disjoint k k' := by
    intro k hk k' hk'
    obtain ⟨g, c, hg, rfl⟩ := (i3 k).1 hk
    obtain ⟨g', c', hg', rfl⟩ := (i3 k').1 hk'
    rcases h g c g' c' hg hg' with h | h | h
    · exact Or.inl fun x hx => (mem_groupKey _ _).2 (h x ((mem_groupKey _ _).1 hx))
    · exact Or.inr (Or.inl fun x hx => (mem_groupKey _ _).2 (h x ((mem_groupKey _ _).1 hx)))
    · right; right
      rw [Finset.disjoint_left]
      intro x hx hx'
      exact h ⟨x, (mem_groupKey _ _).1 hx, (mem_groupKey _ _).1 hx'⟩
  -- a linked family contains its union
  have top : ∀ A : Finset (GKey V), (∀ k ∈ A, k ∈ (Samples.groupInit b.samples).keys) → Samples.KLinked A → A.biUnion id ∈ A := by
    intro A hA lA
    obtain ⟨m, hm, hmax⟩ := Finset.exists_max_image A Finset.card lA.1
    have hsub : ∀ k, Relation.ReflTransGen (fun x y => x ∈ A ∧ y ∈ A ∧ ¬ Disjoint x y) m k → k ⊆ m := by
      intro k hk
      induction hk with
      | refl => exact Finset.Subset.refl _
      | tail _ hs ih =>
        rename_i y z _
        rcases hlam z (hA z hs.2.1) m (hA m hm) with h' | h' | h'
        · exact h'
        · exact (Finset.eq_of_subset_of_card_le h' (hmax z hs.2.1)).symm.subset
        · exact absurd (Finset.disjoint_of_subset_left ih h'.symm) hs.2.2
    have : A.biUnion id = m := by
      refine Finset.Subset.antisymm (Finset.biUnion_subset.2 fun k hk => hsub k (lA.2 m hm k hk)) (Finset.subset_biUnion_of_mem id hm)
    rw [this]
    exact hm
  intro A B hA hB lA lB hun hdis
  have h1 := top A hA lA
  have h2 := top B hB lB
  rw [← hun] at h2
  exact Finset.disjoint_left.1 hdis h1 h2

/-- C24: so do sets in which each sample links a pair of its own. -/
theorem C24_own {b : Samples V X R} (h : PairsOwn b) : PairsSeparate b := by
  intro A B hA hB lA lB hl
  obtain ⟨g, hg⟩ := lA.1
  obtain ⟨c, hc⟩ := hA g hg
  obtain ⟨x, hx, hown⟩ := h g c hc
  obtain ⟨g', hg', hx'⟩ := (hl x).1 ⟨g, hg, hx⟩
  obtain ⟨c', hc'⟩ := hB g' hg'
  exact ⟨g, hg, g', hg', fun y => (hown g' c' hc' hx' y).symm⟩

theorem keys_groupStep (acc : Dict (GKey V) (Dict (SampleGraph V X R) ℤ)) (p : SampleGraph V X R × ℤ) : acc.keys <+: (Samples.groupStep acc p).keys := by
  have : ∀ (l : List (GKey V × Dict (SampleGraph V X R) ℤ)) k a, l.map Prod.fst <+: (assocSet l k a).map Prod.fst := by
    intro l k a
    induction l with
    | nil => exact List.nil_prefix
    | cons q t ih =>
      obtain ⟨k', a'⟩ := q
      unfold assocSet
      split
      · rename_i he
        simp [he]
      · simpa using ih
  exact this _ _ _

theorem keys_groupSteps (l : List (SampleGraph V X R × ℤ)) : ∀ acc : Dict (GKey V) (Dict (SampleGraph V X R) ℤ), acc.keys <+: (l.foldl Samples.groupStep acc).keys := by
  induction l with
  | nil => intro acc; exact List.prefix_refl _
  | cons p t ih => intro acc; exact (keys_groupStep acc p).trans (ih _)

/-- C24, loss: if the first two samples share a pair and a later sample links exactly the pairs of the two together, more than either, then the later sample is in no group. -/
theorem C24_loss_first (iter : V → Option (Finset V)) (b : Samples V X R) {g₁ g₂ g : SampleGraph V X R} {c₁ c₂ c : ℤ} {t : List (SampleGraph V X R × ℤ)}
    (hb : b.samples.entries = (g₁, c₁) :: (g₂, c₂) :: t) (hg : b.samples.get? g = some c) (hs : SharesPair g₁ g₂)
    (hu : ∀ x, Links g x ↔ Links g₁ x ∨ Links g₂ x) (h₁ : ∃ x, Links g x ∧ ¬ Links g₁ x) (h₂ : ∃ x, Links g x ∧ ¬ Links g₂ x)
    (d : Dict (Finset V) (Samples V X R)) (h : b.groupIntersecting iter = .ok d) : ∀ K s, d.get? K = some s → s.samples.get? g = none := by
  obtain ⟨acc, l1, -⟩ := group_loop_result b
  obtain ⟨i1, i2, i3⟩ := Samples.groupInit_inv b.samples
  have hk : Samples.groupKey g = Samples.groupKey g₁ ∪ Samples.groupKey g₂ := by
    ext x; rw [Finset.mem_union, mem_groupKey, mem_groupKey, mem_groupKey, hu]
  have n1 : Samples.groupKey g₁ ∪ Samples.groupKey g₂ ≠ Samples.groupKey g₁ := by
    rw [← hk]
    obtain ⟨x, hx, hx'⟩ := h₁
    exact fun he => hx' (((groupKey_eq_iff _ _).1 he x).1 hx)
  have n2 : Samples.groupKey g₁ ∪ Samples.groupKey g₂ ≠ Samples.groupKey g₂ := by
    rw [← hk]
    obtain ⟨x, hx, hx'⟩ := h₂
    exact fun he => hx' (((groupKey_eq_iff _ _).1 he x).1 hx)
  have n12 : Samples.groupKey g₁ ≠ Samples.groupKey g₂ := by
    intro he
    rw [he, Finset.union_self] at n2
    exact n2 rfl
  have hpre : [Samples.groupKey g₁, Samples.groupKey g₂] <+: (Samples.groupInit b.samples).keys := by
    rw [Samples.groupInit_eq, hb, List.foldl_cons, List.foldl_cons]
    refine List.IsPrefix.trans ⟨[], ?_⟩ (keys_groupSteps t _)
    simp [Samples.groupStep, Dict.keys, Dict.set, Dict.get?, assoc?, assocSet, Dict.empty, n12]
  obtain ⟨rest, hrest⟩ := hpre
  have hdis := (not_disjoint_groupKey g₁ g₂).2 hs
  have hfind : Samples.groupFind (Samples.groupInit b.samples).keys = some (Samples.groupKey g₁, Samples.groupKey g₂) := by
    rw [← hrest]
    simp [Samples.groupFind, List.product, n12, hdis]
  have hin1 : Samples.groupKey g₁ ∈ (Samples.groupInit b.samples).keys := by rw [← hrest]; simp
  have hin2 : Samples.groupKey g₂ ∈ (Samples.groupInit b.samples).keys := by rw [← hrest]; simp
  rw [Samples.groupLoop, hfind] at l1
  have hrun := (Samples.groupLoop_run _ _ _ l1).1
  have hin : Samples.In (Samples.groupInit b.samples) (Samples.groupKey g₁ ∪ Samples.groupKey g₂) g := by
    rcases Samples.groupInit_spec b.samples (Samples.groupKey g) with ⟨-, j2⟩ | ⟨m, j1, -, j3⟩
    · exact absurd rfl (j2 g c hg)
    · rw [← hk]; exact ⟨m, c, j1, (j3 g c).2 ⟨hg, rfl⟩⟩
  have hlost := hrun.lost (Samples.merge_loses i1 hin1 hin2 hin n1 n2)
  obtain ⟨acc', l1', -⟩ := group_loop_result b
  have hacc : acc' = acc := by
    rw [Samples.groupLoop, hfind] at l1'
    rw [l1] at l1'
    exact (Except.ok.inj l1').symm
  subst hacc
  obtain ⟨c1, c2⟩ := groupIntersecting_cases iter b acc' l1'
  by_cases hT : ∃ k ∈ acc'.keys, ∃ x ∈ k, Samples.elemIter iter x = none
  · rw [c1 hT] at h; simp at h
  by_cases hI : ∀ k ∈ acc'.keys, ∀ k' ∈ acc'.keys, flatKey iter k = flatKey iter k' → k = k'
  swap
  · rw [(c2 hT).2 hI] at h; simp at h
  obtain ⟨d', hd', hd⟩ := (c2 hT).1 hI
  rw [hd', Except.ok.injEq] at h
  subst h
  intro K s hK
  obtain ⟨k, m, hm, rfl, rfl⟩ := (hd K s).1 hK
  by_contra hne
  obtain ⟨c', hc'⟩ := Option.ne_none_iff_exists'.1 hne
  exact hlost k ⟨m, c', hm, hc'⟩

/-! ### Witnesses -/

/-- A sample with one node (value 0) per variable `< n` and the given links. -/
def linkGraph (vs : Finset ℕ) (links : Finset (ℕ × ℕ)) : SampleGraph ℕ ℕ ℕ :=
  ⟨vs.image fun v => ⟨v, 0⟩, links.image fun p => ⟨{⟨p.1, 0⟩, ⟨p.2, 0⟩}, .plain 0⟩⟩

/-- Three samples over the variables 0, 1, 2: two paths and the triangle. -/
def lossSet : Samples ℕ ℕ ℕ :=
  ⟨0, ⟨[(linkGraph {0, 1, 2} {(0, 1), (1, 2)}, 1), (linkGraph {0, 1, 2} {(1, 2), (2, 0)}, 1),
    (linkGraph {0, 1, 2} {(0, 1), (1, 2), (2, 0)}, 1)], by decide +kernel⟩⟩

/-- C24, refutation: the first two keys are merged into the key of the third sample, whose group is overwritten: the
third sample is in no group. -/
theorem C24_loss : ∃ d, lossSet.groupIntersecting (fun _ => none) = .ok d ∧
    (∃ c, lossSet.samples.get? (linkGraph {0, 1, 2} {(0, 1), (1, 2), (2, 0)}) = some c) ∧
    ∀ K s, d.get? K = some s → s.samples.get? (linkGraph {0, 1, 2} {(0, 1), (1, 2), (2, 0)}) = none := by
  have h1 : (match lossSet.groupIntersecting (fun _ => none) with
      | .ok d => d.vals.all fun s => decide (s.samples.get? (linkGraph {0, 1, 2} {(0, 1), (1, 2), (2, 0)}) = none)
      | .error _ => false) = true := by decide +kernel
  cases hd : lossSet.groupIntersecting (fun _ => none) with
  | error e => rw [hd] at h1; simp at h1
  | ok d =>
    rw [hd] at h1
    refine ⟨d, rfl, ⟨1, by decide +kernel⟩, fun K s hs => ?_⟩
    rw [List.all_eq_true] at h1
    simpa using h1 s (List.mem_map.2 ⟨(K, s), (d.mem_entries K s).2 hs, rfl⟩)

/-- C24, refutation: `AssertionError` for two samples that share no pair but have the same variables. -/
theorem C24_collision : ∃ b : Samples ℕ ℕ ℕ, b.samples.entries.length = 2 ∧
    b.groupIntersecting (fun _ => none) = .error .assertion := by
  refine ⟨⟨0, ⟨[(linkGraph {0, 1, 2, 3} {(0, 1), (1, 2), (2, 3)}, 1), (linkGraph {0, 1, 2, 3} {(0, 2), (0, 3), (1, 3)}, 1)],
    by decide +kernel⟩⟩, rfl, ?_⟩
  have h1 : (match (⟨0, ⟨[(linkGraph {0, 1, 2, 3} {(0, 1), (1, 2), (2, 3)}, 1),
      (linkGraph {0, 1, 2, 3} {(0, 2), (0, 3), (1, 3)}, 1)], by decide +kernel⟩⟩ : Samples ℕ ℕ ℕ).groupIntersecting
      (fun _ => none) with | .ok _ => false | .error e => decide (e = .assertion)) = true := by decide +kernel
  split at h1
  · simp at h1
  · rename_i e he
    simp only [decide_eq_true_eq] at h1
    rw [h1] at he
    exact he

/-- Non-vacuity of C24: a laminar set with two groups. -/
example : PairsLaminar (⟨0, ⟨[(linkGraph {0, 1} {(0, 1)}, 1), (linkGraph {0, 1, 2} {(0, 1), (1, 2)}, 2),
    (linkGraph {3, 4} {(3, 4)}, 3)], by decide +kernel⟩⟩ : Samples ℕ ℕ ℕ) := by
  intro g c g' c' h h'
  rw [← Dict.mem_entries] at h h'
  simp only [List.mem_cons, Prod.mk.injEq, List.not_mem_nil, or_false] at h h'
  have key : ∀ g ∈ [linkGraph {0, 1} {(0, 1)}, linkGraph {0, 1, 2} {(0, 1), (1, 2)}, linkGraph {3, 4} {(3, 4)}],
      ∀ g' ∈ [linkGraph {0, 1} {(0, 1)}, linkGraph {0, 1, 2} {(0, 1), (1, 2)}, linkGraph {3, 4} {(3, 4)}],
      Samples.groupKey g ⊆ Samples.groupKey g' ∨ Samples.groupKey g' ⊆ Samples.groupKey g ∨
        ∀ x ∈ Samples.groupKey g, x ∉ Samples.groupKey g' := by decide +kernel
  have := key g (by rcases h with ⟨rfl, -⟩ | ⟨rfl, -⟩ | ⟨rfl, -⟩ <;> simp) g'
    (by rcases h' with ⟨rfl, -⟩ | ⟨rfl, -⟩ | ⟨rfl, -⟩ <;> simp)
  rcases this with h | h | h
  · exact Or.inl fun x hx => (mem_groupKey _ _).1 (h ((mem_groupKey _ _).2 hx))
  · exact Or.inr (Or.inl fun x hx => (mem_groupKey _ _).1 (h ((mem_groupKey _ _).2 hx)))
  · exact Or.inr (Or.inr fun ⟨x, hx, hx'⟩ => h x ((mem_groupKey _ _).2 hx) ((mem_groupKey _ _).2 hx'))

/-- Three paths of two links in a triangle. -/
def pathSet : Samples ℕ ℕ ℕ :=
  ⟨0, ⟨[(linkGraph {0, 1, 2} {(0, 1), (1, 2)}, 1), (linkGraph {0, 1, 2} {(1, 2), (2, 0)}, 1),
    (linkGraph {0, 1, 2} {(0, 1), (2, 0)}, 1)], by decide +kernel⟩⟩

/-- Non-vacuity of `C24_complete`: the paths meet the condition though no two are nested or disjoint and none has a link of its own. -/
example : PairsSeparate pathSet := by
  rw [pairsSeparate_iff]
  intro A B hA hB lA lB hun hdis
  have key : ∀ A ∈ (Samples.groupInit pathSet.samples).keys.toFinset.powerset, ∀ B ∈ (Samples.groupInit pathSet.samples).keys.toFinset.powerset,
      A ≠ ∅ → B ≠ ∅ → A ∩ B = ∅ → A.biUnion id ≠ B.biUnion id := by decide +kernel
  exact key A (Finset.mem_powerset.2 fun k hk => List.mem_toFinset.2 (hA k hk)) B (Finset.mem_powerset.2 fun k hk => List.mem_toFinset.2 (hB k hk))
    (Finset.nonempty_iff_ne_empty.1 lA.1) (Finset.nonempty_iff_ne_empty.1 lB.1) (Finset.disjoint_iff_inter_eq_empty.1 hdis) hun

/-- Non-vacuity of `C24_loss_first`: two paths and the triangle. -/
example : let g₁ := linkGraph {0, 1, 2} {(0, 1), (1, 2)}; let g₂ := linkGraph {0, 1, 2} {(1, 2), (2, 0)}; let g := linkGraph {0, 1, 2} {(0, 1), (1, 2), (2, 0)}
    SharesPair g₁ g₂ ∧ (∀ x, Links g x ↔ Links g₁ x ∨ Links g₂ x) ∧ (∃ x, Links g x ∧ ¬ Links g₁ x) ∧ ∃ x, Links g x ∧ ¬ Links g₂ x := by
  intro g₁ g₂ g
  refine ⟨(not_disjoint_groupKey _ _).1 (by decide +kernel), fun x => ?_, ⟨.inr {2, 0}, ?_⟩, ⟨.inr {0, 1}, ?_⟩⟩
  · rw [← mem_groupKey, ← mem_groupKey, ← mem_groupKey, ← Finset.mem_union]
    have : Samples.groupKey g = Samples.groupKey g₁ ∪ Samples.groupKey g₂ := by decide +kernel
    rw [this]
  · rw [← mem_groupKey, ← mem_groupKey]; exact ⟨by decide +kernel, by decide +kernel⟩
  · rw [← mem_groupKey, ← mem_groupKey]; exact ⟨by decide +kernel, by decide +kernel⟩

end Verif
