import Verif.Model.Joined
import Verif.Props.SampleSet

/-!
# Lemmas on the recursions `cross_join` and `join_factors`

Both go through all ways to choose one item from each of a list of collections.
-/

set_option linter.unusedSectionVars false

namespace Verif

/-- All ways to choose one element of each list. -/
def choices {α : Type} : List (List α) → List (List α)
  | [] => [[]]
  | l :: t => l.flatMap fun a => (choices t).map (a :: ·)

theorem mem_choices {α : Type} (L : List (List α)) (ps : List α) : ps ∈ choices L ↔ List.Forall₂ (· ∈ ·) ps L := by
  induction L generalizing ps with
  | nil => simp [choices]
  | cons l t ih =>
    simp only [choices, List.mem_flatMap, List.mem_map]
    constructor
    · rintro ⟨a, ha, qs, hqs, rfl⟩
      exact List.Forall₂.cons ha ((ih qs).1 hqs)
    · intro h
      cases h with
      | cons ha hqs => exact ⟨_, ha, _, (ih _).2 hqs, rfl⟩

theorem choices_ne_nil {α : Type} (L : List (List α)) (h : ∀ l ∈ L, l ≠ []) : choices L ≠ [] := by
  induction L with
  | nil => simp [choices]
  | cons l t ih =>
    obtain ⟨a, s, rfl⟩ := List.exists_cons_of_ne_nil (h l (by simp))
    obtain ⟨b, u, hb⟩ := List.exists_cons_of_ne_nil (ih fun l hl => h l (by simp [hl]))
    simp [choices, hb]

theorem nodup_choices {α : Type} (L : List (List α)) (h : ∀ l ∈ L, l.Nodup) : (choices L).Nodup := by
  induction L with
  | nil => simp [choices]
  | cons l t ih =>
    have ih' := ih fun l hl => h l (by simp [hl])
    rw [choices, List.nodup_flatMap]
    refine ⟨fun a _ => ih'.map (by intro x y hxy; simpa using hxy), ?_⟩
    refine (h l (by simp)).imp ?_
    intro a b hab
    rw [Function.onFun, List.disjoint_left]
    intro x hx hy
    simp only [List.mem_map] at hx hy
    obtain ⟨q, -, rfl⟩ := hx
    obtain ⟨q', -, h'⟩ := hy
    simp only [List.cons.injEq] at h'
    exact hab h'.1.symm

theorem assocSet_new_key {K A : Type} [DecidableEq K] (l : List (K × A)) (k : K) (a : A) (h : k ∉ l.map Prod.fst) :
    assocSet l k a = l ++ [(k, a)] := by
  induction l with
  | nil => rfl
  | cons p t ih =>
    obtain ⟨k', a'⟩ := p
    simp only [List.map_cons, List.mem_cons, not_or] at h
    simp [assocSet, Ne.symm h.1, ih h.2]

variable {V X R : Type} [DecidableEq V] [DecidableEq X] [DecidableEq R]

theorem Samples.add_new (a : Samples V X R) (g : SampleGraph V X R) (c : ℤ) (h : g ∉ a.samples.keys) :
    ∃ a', toPy (a.add ⟨a.prov, g⟩ c) = .ok a' ∧ a'.prov = a.prov ∧ a'.samples.entries = a.samples.entries ++ [(g, c)] := by
  have hg : a.samples.get? g = none := by
    rw [Dict.get?_eq_none]; exact h
  refine ⟨⟨a.prov, a.samples.set g c⟩, ?_, rfl, ?_⟩
  · simp [Samples.add, hg, toPy]
  · exact assocSet_new_key _ _ _ h

/-- No variable has two values in the samples of the choice. -/
def Agrees (qs : List (SampleGraph V X R × ℤ)) : Prop := SingleValued (unionGraph (qs.map Prod.fst)).nodes

/-- The variables that all samples of the choice have, have one value. -/
def CommonAgrees (qs : List (SampleGraph V X R × ℤ)) : Prop :=
  ∀ v, (∀ p ∈ qs, ∃ x, (⟨v, x⟩ : Node V X) ∈ p.1.nodes) →
    ∀ p ∈ qs, ∀ p' ∈ qs, ∀ x x', (⟨v, x⟩ : Node V X) ∈ p.1.nodes → (⟨v, x'⟩ : Node V X) ∈ p'.1.nodes → x = x'

/-- The samples of a choice can be put together one after the other; only their values may be in conflict. -/
structure GoodChoice (qs : List (SampleGraph V X R × ℤ)) : Prop where
  ne : qs ≠ []
  nodup : (qs.map Prod.fst).Nodup
  wf : ∀ p ∈ qs, WellFormed p.1 ∧ p.1.nodes.Nonempty ∧ SingleValued p.1.nodes
  onePer : OnePerPair (unionGraph (qs.map Prod.fst)).edges
  chained : CommonAgrees qs → Chained (qs.map Prod.fst)

theorem Agrees.common {qs : List (SampleGraph V X R × ℤ)} (h : Agrees qs) : CommonAgrees qs := by
  intro v _ p hp p' hp' x x' hx hx'
  have := h ⟨v, x⟩ ((mem_unionGraph_nodes _ _).2 ⟨_, List.mem_map_of_mem hp, hx⟩) ⟨v, x'⟩
    ((mem_unionGraph_nodes _ _).2 ⟨_, List.mem_map_of_mem hp', hx'⟩) rfl
  simpa using this

/-- The joined sample of a choice with the product of the counts; none if the values are in conflict. -/
noncomputable def joinedItem (qs : List (SampleGraph V X R × ℤ)) : Option (SampleGraph V X R × ℤ) :=
  open scoped Classical in
  if Agrees qs then some (unionGraph (qs.map Prod.fst), (qs.map Prod.snd).prod) else none

theorem joinedItem_eq_some (qs : List (SampleGraph V X R × ℤ)) (p : SampleGraph V X R × ℤ) :
    joinedItem qs = some p ↔ Agrees qs ∧ p = (unionGraph (qs.map Prod.fst), (qs.map Prod.snd).prod) := by
  unfold joinedItem
  split <;> simp_all [eq_comm]

theorem Samples.keys_eq (a : Samples V X R) {qs : List (SampleGraph V X R × ℤ)} (h : a.samples.entries = qs) :
    a.samples.keys = qs.map Prod.fst := by rw [← h]; rfl

theorem Samples.vals_eq (a : Samples V X R) {qs : List (SampleGraph V X R × ℤ)} (h : a.samples.entries = qs) :
    a.samples.vals = qs.map Prod.snd := by rw [← h]; rfl

theorem allMatch_iff (oN : Order (Node V X)) (a : Samples V X R) {qs : List (SampleGraph V X R × ℤ)}
    (h : a.samples.entries = qs) : a.isAllValuesMatch oN = true ↔ Agrees qs := by
  rw [C25_is_all_values_match]
  have hm : ∀ n : Node V X, (∃ g c, a.samples.get? g = some c ∧ n ∈ g.nodes) ↔ n ∈ (unionGraph (qs.map Prod.fst)).nodes := by
    intro n
    rw [mem_unionGraph_nodes]
    constructor
    · rintro ⟨g, c, hg, hn⟩
      rw [← Dict.mem_entries, h] at hg
      exact ⟨g, List.mem_map_of_mem (f := Prod.fst) hg, hn⟩
    · rintro ⟨g, hg, hn⟩
      obtain ⟨p, hp, rfl⟩ := List.mem_map.1 hg
      exact ⟨p.1, p.2, by rw [← Dict.mem_entries, h]; exact hp, hn⟩
  simp only [hm]
  constructor
  · intro H a ha b hb hab
    obtain ⟨av, ax⟩ := a
    obtain ⟨bv, bx⟩ := b
    have := H _ _ ha hb hab
    simp only at hab this
    rw [hab, this]
  · intro H n m hn hm hnm
    rw [H n hn m hm hnm]

theorem makeJoined_of_agrees (oE : Order (Edge V X R)) (a : Samples V X R) {qs : List (SampleGraph V X R × ℤ)}
    (h : a.samples.entries = qs) (hg : GoodChoice qs) :
    (Agrees qs → a.makeJoinedSample oE = .ok (⟨a.prov, unionGraph (qs.map Prod.fst)⟩, qs.map Prod.snd)) ∧
    (¬ Agrees qs → a.makeJoinedSample oE = .error .assertion) := by
  have hw : ∀ g c, a.samples.get? g = some c → WellFormed g ∧ g.nodes.Nonempty := by
    intro g c hgc
    rw [← Dict.mem_entries, h] at hgc
    exact ⟨(hg.wf _ hgc).1, (hg.wf _ hgc).2.1⟩
  obtain ⟨h1, h2, h3, -⟩ := C27_make_joined_sample oE a hw
  rw [a.keys_eq h] at h1 h3
  rw [a.vals_eq h] at h1
  constructor
  · intro hag
    obtain ⟨⟨s, cs⟩, hr⟩ := h3 (by rw [h]; exact hg.ne) ⟨hag, hg.onePer⟩ (hg.chained hag.common)
    obtain ⟨rfl, rfl, -, -⟩ := h1 s cs hr
    exact hr
  · intro hag
    cases hr : a.makeJoinedSample oE with
    | error e => rw [h2 e hr]
    | ok r =>
      obtain ⟨s, cs⟩ := r
      obtain ⟨rfl, -, -, h4⟩ := h1 s cs hr
      exact absurd h4 hag

/-- The leaf of `join_factors`. -/
theorem factorLeaf_spec (oN : Order (Node V X)) (oE : Order (Edge V X R)) (a : Samples V X R)
    {qs : List (SampleGraph V X R × ℤ)} (h : a.samples.entries = qs) (hg : GoodChoice qs) :
    ((CommonAgrees qs → Agrees qs) → ∃ r, Samples.factorLeaf oN oE a = .ok r ∧ r.prov = a.prov ∧
      ∀ g, r.samples.get? g = totalOf (joinedItem qs).toList g) ∧
    (¬ (CommonAgrees qs → Agrees qs) → Samples.factorLeaf oN oE a = .error .assertion) := by
  obtain ⟨hm1, hm2⟩ := makeJoined_of_agrees oE a h hg
  have hs : ∀ g c, a.samples.get? g = some c → SingleValued g.nodes := by
    intro g c hgc
    rw [← Dict.mem_entries, h] at hgc
    exact (hg.wf _ hgc).2.2
  obtain ⟨b, hb1, hb2⟩ := (C26_can_join_samples oN a hs).2 (by rw [h]; exact hg.ne)
  have hc : b = true ↔ CommonAgrees qs := by
    rw [hb2]
    have hall : ∀ P : SampleGraph V X R → Prop, (∀ g c, a.samples.get? g = some c → P g) ↔ ∀ p ∈ qs, P p.1 := by
      intro P
      constructor
      · intro H p hp
        exact H p.1 p.2 (by rw [← Dict.mem_entries, h]; exact hp)
      · intro H g c hgc
        rw [← Dict.mem_entries, h] at hgc
        exact H _ hgc
    constructor
    · intro H v hv p hp p' hp' x x' hx hx'
      exact H v ((hall _).2 hv) p.1 p.2 p'.1 p'.2 x x' (by rw [← Dict.mem_entries, h]; exact hp)
        (by rw [← Dict.mem_entries, h]; exact hp') hx hx'
    · intro H v hv g c g' c' x x' hg1 hg2 hx hx'
      rw [← Dict.mem_entries, h] at hg1 hg2
      exact H v ((hall _).1 hv) _ hg1 _ hg2 x x' hx hx'
  unfold Samples.factorLeaf
  rw [hb1]
  cases b with
  | false =>
    have hnc : ¬ CommonAgrees qs := fun hh => by simpa using hc.2 hh
    have hna : ¬ Agrees qs := fun hh => hnc hh.common
    refine ⟨fun _ => ⟨_, rfl, rfl, fun g => ?_⟩, fun hh => absurd (fun h' => absurd h' hnc) hh⟩
    simp [joinedItem, hna, Samples.empty, totalOf_nil]
  | true =>
    have hca : CommonAgrees qs := hc.1 rfl
    constructor
    · intro hh
      rw [hm1 (hh hca)]
      refine ⟨_, rfl, rfl, fun g => ?_⟩
      simp [joinedItem, hh hca, Dict.get?_set, totalOf_cons, totalOf_nil]
    · intro hh
      rw [hm2 fun h' => hh fun _ => h']

/-- The leaf of `cross_join`. -/
theorem crossLeaf_spec (oN : Order (Node V X)) (oE : Order (Edge V X R)) (a : Samples V X R)
    {qs : List (SampleGraph V X R × ℤ)} (h : a.samples.entries = qs) (hg : GoodChoice qs) :
    ∃ r, Samples.crossLeaf oN oE a = .ok r ∧ r.prov = a.prov ∧
      ∀ g, r.samples.get? g = totalOf (joinedItem qs).toList g := by
  obtain ⟨hm1, hm2⟩ := makeJoined_of_agrees oE a h hg
  have hb : a.bool = true := by simp [Samples.bool, h, hg.ne]
  unfold Samples.crossLeaf
  by_cases hag : Agrees qs
  · rw [hb, (allMatch_iff oN a h).2 hag, Bool.and_self, if_pos rfl, hm1 hag]
    obtain ⟨h1, h2, h3, -⟩ := (Samples.empty a.prov).add_ok ⟨a.prov, unionGraph (qs.map Prod.fst)⟩ (qs.map Prod.snd).prod rfl
    refine ⟨_, ?_, h2, fun g => ?_⟩
    · simp only [toPy]; rw [h1]
    · rw [h3]
      simp [joinedItem, hag, totalOf_cons, totalOf_nil, Samples.empty]
  · have : a.isAllValuesMatch oN = false := by
      rw [← Bool.not_eq_true, allMatch_iff oN a h]; exact hag
    rw [this, Bool.and_false, if_neg (by simp)]
    refine ⟨_, rfl, rfl, fun g => ?_⟩
    simp [joinedItem, hag, totalOf_nil, Samples.empty]

/-- The items that a list of choices gives. -/
noncomputable def joinedItems (L : List (List (SampleGraph V X R × ℤ))) : List (SampleGraph V X R × ℤ) := L.filterMap joinedItem

theorem joinedItems_append (L M : List (List (SampleGraph V X R × ℤ))) :
    joinedItems (L ++ M) = joinedItems L ++ joinedItems M := List.filterMap_append

theorem joinedItems_flatMap {α : Type} (l : List α) (f : α → List (List (SampleGraph V X R × ℤ))) :
    joinedItems (l.flatMap f) = l.flatMap fun a => joinedItems (f a) := by
  induction l with
  | nil => rfl
  | cons a t ih => rw [List.flatMap_cons, joinedItems_append, ih, List.flatMap_cons]

theorem totalOf_flatMap_congr {α K : Type} [DecidableEq K] (l : List α) (f f' : α → List (K × ℤ)) (k : K)
    (h : ∀ a ∈ l, totalOf (f a) k = totalOf (f' a) k) : totalOf (l.flatMap f) k = totalOf (l.flatMap f') k := by
  induction l with
  | nil => rfl
  | cons a t ih =>
    rw [List.flatMap_cons, List.flatMap_cons, totalOf_append, totalOf_append, h a (by simp), ih fun b hb => h b (by simp [hb])]

theorem prefix_choices (acc : List (SampleGraph V X R × ℤ)) (os : List (SampleGraph V X R × ℤ))
    (rest : List (List (SampleGraph V X R × ℤ))) :
    (choices (os :: rest)).map (acc ++ ·) = os.flatMap fun p => (choices rest).map ((acc ++ [p]) ++ ·) := by
  simp [choices, List.map_flatMap, List.map_map, Function.comp_def]

/-- `join_factors`. -/
theorem joinFactors_spec (oI : Order (SampleGraph V X R × ℤ)) (oN : Order (Node V X)) (oE : Order (Edge V X R))
    (L : List (List (SampleGraph V X R × ℤ))) (hne : ∀ l ∈ L, l ≠ []) (a : Samples V X R)
    (hg : ∀ ps ∈ choices L, GoodChoice (a.samples.entries ++ ps)) :
    ((∀ ps ∈ choices L, CommonAgrees (a.samples.entries ++ ps) → Agrees (a.samples.entries ++ ps)) →
      ∃ r, Samples.joinFactors oI oN oE L a = .ok r ∧ r.prov = a.prov ∧
        ∀ g, r.samples.get? g = totalOf (joinedItems ((choices L).map (a.samples.entries ++ ·))) g) ∧
    ((∃ ps ∈ choices L, ¬ (CommonAgrees (a.samples.entries ++ ps) → Agrees (a.samples.entries ++ ps))) →
      Samples.joinFactors oI oN oE L a = .error .assertion) := by
  induction L generalizing a with
  | nil =>
    simp only [choices, List.mem_singleton, forall_eq, exists_eq_left, List.append_nil, List.map_cons, List.map_nil] at hg ⊢
    obtain ⟨h1, h2⟩ := factorLeaf_spec oN oE a rfl hg
    refine ⟨fun h => ?_, fun h => h2 h⟩
    obtain ⟨r, i1, i2, i3⟩ := h1 h
    refine ⟨r, i1, i2, fun g => ?_⟩
    rw [i3]
    unfold joinedItems
    cases hj : joinedItem a.samples.entries <;> simp [hj]
  | cons os rest ih =>
    have hne' : ∀ l ∈ rest, l ≠ [] := fun l hl => hne l (by simp [hl])
    have hmem : ∀ p ∈ os, ∀ ps ∈ choices rest, p :: ps ∈ choices (os :: rest) := by
      intro p hp ps hps
      simp only [choices, List.mem_flatMap, List.mem_map]
      exact ⟨p, hp, ps, hps, rfl⟩
    have hadd : ∀ p ∈ os, ∃ a', toPy (a.add ⟨a.prov, p.1⟩ p.2) = .ok a' ∧ a'.prov = a.prov ∧
        a'.samples.entries = a.samples.entries ++ [p] := by
      intro p hp
      obtain ⟨ps, s, hps⟩ := List.exists_cons_of_ne_nil (choices_ne_nil rest hne')
      have hps : ps ∈ choices rest := by rw [hps]; simp
      have hnd := (hg _ (hmem p hp ps hps)).nodup
      refine a.add_new p.1 p.2 ?_
      intro hk
      rw [List.map_append, List.nodup_append] at hnd
      exact hnd.2.2 p.1 hk p.1 (by simp) rfl
    have hgood : ∀ p ∈ os, ∀ a' : Samples V X R, a'.samples.entries = a.samples.entries ++ [p] →
        ∀ ps ∈ choices rest, GoodChoice (a'.samples.entries ++ ps) := by
      intro p hp a' ha' ps hps
      rw [ha', List.append_assoc]
      exact hg _ (hmem p hp ps hps)
    unfold Samples.joinFactors
    constructor
    · intro hall
      have hstep : ∀ p ∈ os, ∃ r, (toPy (a.add ⟨a.prov, p.1⟩ p.2) >>= Samples.joinFactors oI oN oE rest) = .ok r ∧ r.prov = a.prov ∧
          ∀ g, r.samples.get? g = totalOf (joinedItems ((choices rest).map ((a.samples.entries ++ [p]) ++ ·))) g := by
        intro p hp
        obtain ⟨a', h1, h2, h3⟩ := hadd p hp
        rw [h1]
        obtain ⟨r, i1, i2, i3⟩ := (ih hne' a' (hgood p hp a' h3)).1 (by
          intro ps hps
          rw [h3, List.append_assoc]
          exact hall _ (hmem p hp ps hps))
        rw [h3] at i3
        exact ⟨r, i1, i2.trans h2, i3⟩
      have : Inhabited (Samples V X R) := ⟨Samples.empty 0⟩
      choose! f hf1 hf2 hf3 using hstep
      rw [mapM_ok _ f os hf1]
      obtain ⟨-, hj, -⟩ := C21_join_sample_set oI oI a.prov (os.map f) (os.map f) (by
        intro s hs
        obtain ⟨p, hp, rfl⟩ := List.mem_map.1 hs
        exact hf2 p hp)
      obtain ⟨r, h1, h2, h3, -⟩ := hj (by simpa using hne os (by simp))
      refine ⟨r, h1, h2, fun g => ?_⟩
      rw [h3, prefix_choices, joinedItems_flatMap, allEntries, List.flatMap_map]
      refine totalOf_flatMap_congr _ _ _ _ ?_
      intro p hp
      rw [totalOf_entries, hf3 p hp]
    · rintro ⟨qs, hqs, hbad⟩
      have hmap : os.mapM (fun p => toPy (a.add ⟨a.prov, p.1⟩ p.2) >>= Samples.joinFactors oI oN oE rest) = .error .assertion := by
        apply mapM_error
        · intro p hp e he
          obtain ⟨a', h1, h2, h3⟩ := hadd p hp
          rw [h1] at he
          change Samples.joinFactors oI oN oE rest a' = _ at he
          obtain ⟨i1, i2⟩ := ih hne' a' (hgood p hp a' h3)
          by_cases hall : ∀ ps ∈ choices rest, CommonAgrees (a'.samples.entries ++ ps) → Agrees (a'.samples.entries ++ ps)
          · obtain ⟨r, j1, -, -⟩ := i1 hall
            rw [j1] at he
            simp at he
          · push Not at hall
            obtain ⟨ps, hps, j1, j2⟩ := hall
            rw [i2 ⟨ps, hps, fun h => j2 (h j1)⟩] at he
            simpa using he.symm
        · simp only [choices, List.mem_flatMap, List.mem_map] at hqs
          obtain ⟨p, hp, ps, hps, rfl⟩ := hqs
          refine ⟨p, hp, ?_⟩
          obtain ⟨a', h1, h2, h3⟩ := hadd p hp
          rw [h1]
          rintro ⟨r, hr⟩
          have := (ih hne' a' (hgood p hp a' h3)).2 ⟨ps, hps, by rw [h3, List.append_assoc]; exact hbad⟩
          change Samples.joinFactors oI oN oE rest a' = _ at hr
          rw [this] at hr
          simp at hr
      rw [hmap]
      rfl

/-- `cross_join`. -/
theorem crossJoin_spec (oI : Order (SampleGraph V X R × ℤ)) (oN : Order (Node V X)) (oE : Order (Edge V X R))
    (L : List (Samples V X R)) (a : Samples V X R) (hL : ∀ s ∈ L, s.prov = a.prov ∧ s.samples.entries ≠ [])
    (hg : ∀ ps ∈ choices (L.map fun s => s.samples.entries), GoodChoice (a.samples.entries ++ ps)) :
    ∃ r, Samples.crossJoin oI oN oE L a = .ok r ∧ r.prov = a.prov ∧
      ∀ g, r.samples.get? g =
        totalOf (joinedItems ((choices (L.map fun s => s.samples.entries)).map (a.samples.entries ++ ·))) g := by
  induction L generalizing a with
  | nil =>
    simp only [choices, List.mem_singleton, forall_eq, List.append_nil, List.map_cons, List.map_nil] at hg ⊢
    obtain ⟨r, i1, i2, i3⟩ := crossLeaf_spec oN oE a rfl hg
    refine ⟨r, i1, i2, fun g => ?_⟩
    rw [i3]
    unfold joinedItems
    cases hj : joinedItem a.samples.entries <;> simp [hj]
  | cons s rest ih =>
    rw [List.map_cons] at hg
    have hne' : ∀ l ∈ rest.map (fun s => s.samples.entries), l ≠ [] := by
      intro l hl
      obtain ⟨s', hs', rfl⟩ := List.mem_map.1 hl
      exact (hL s' (by simp [hs'])).2
    have hmem : ∀ p ∈ s.samples.entries, ∀ ps ∈ choices (rest.map fun s => s.samples.entries),
        p :: ps ∈ choices (s.samples.entries :: rest.map fun s => s.samples.entries) := by
      intro p hp ps hps
      simp only [choices, List.mem_flatMap, List.mem_map]
      exact ⟨p, hp, ps, hps, rfl⟩
    have hsp : s.prov = a.prov := (hL s (by simp)).1
    have hstep : ∀ p ∈ s.samples.entries, ∃ a' r, toPy (a.add ⟨s.prov, p.1⟩ p.2) = .ok a' ∧
        Samples.crossJoin oI oN oE rest a' = .ok r ∧ r.prov = a.prov ∧
        ∀ g, r.samples.get? g = totalOf (joinedItems
          ((choices (rest.map fun s => s.samples.entries)).map ((a.samples.entries ++ [p]) ++ ·))) g := by
      intro p hp
      obtain ⟨ps, t, hps⟩ := List.exists_cons_of_ne_nil (choices_ne_nil _ hne')
      have hps : ps ∈ choices (rest.map fun s => s.samples.entries) := by rw [hps]; simp
      have hnd := (hg _ (hmem p hp ps hps)).nodup
      obtain ⟨a', h1, h2, h3⟩ := a.add_new p.1 p.2 (by
        intro hk
        rw [List.map_append, List.nodup_append] at hnd
        exact hnd.2.2 p.1 hk p.1 (by simp) rfl)
      obtain ⟨r, i1, i2, i3⟩ := ih a' (fun s' hs' => ⟨by rw [h2]; exact (hL s' (by simp [hs'])).1, (hL s' (by simp [hs'])).2⟩) (by
        intro ps hps
        rw [h3, List.append_assoc]
        exact hg _ (hmem p hp ps hps))
      rw [h3] at i3
      exact ⟨a', r, by rw [hsp]; exact h1, i1, i2.trans h2, i3⟩
    have : Inhabited (Samples V X R) := ⟨Samples.empty 0⟩
    choose! fa fr hf1 hf2 hf3 hf4 using hstep
    have hloop : ∀ (l : List (SampleGraph V X R × ℤ)), (∀ p ∈ l, p ∈ s.samples.entries) → ∀ (b : Samples V X R), b.prov = a.prov →
        ∃ r, l.foldlM (fun ssb p =>
          match toPy (a.add ⟨s.prov, p.1⟩ p.2) with
          | .error e => (.error e : Py (Samples V X R))
          | .ok joints' =>
            match Samples.crossJoin oI oN oE rest joints' with
            | .error e => .error e
            | .ok r => toPy (ssb.addAll oI r)) b = .ok r ∧ r.prov = a.prov ∧
          ∀ g, r.samples.get? g = addCounts (b.samples.get? g) (totalOf (l.flatMap fun p => (fr p).samples.entries) g) := by
      intro l
      induction l with
      | nil => intro _ b hb; exact ⟨b, rfl, hb, fun g => by simp [totalOf_nil]⟩
      | cons p t iht =>
        intro hl b hb
        have hp := hl p (by simp)
        obtain ⟨j1, j2, j3, -⟩ := b.addAll_ok oI (fr p) ((hf3 p hp).trans hb.symm)
        obtain ⟨r, k1, k2, k3⟩ := iht (fun q hq => hl q (by simp [hq])) (b.addAll oI (fr p)).1 (j2.trans hb)
        refine ⟨r, ?_, k2, fun g => ?_⟩
        · rw [List.foldlM_cons, hf1 p hp]
          simp only
          rw [hf2 p hp]
          simp only [toPy]
          rw [j1]
          exact k1
        · rw [k3, j3, List.flatMap_cons, totalOf_append, totalOf_entries, addCounts_assoc]
    unfold Samples.crossJoin
    obtain ⟨r, h1, h2, h3⟩ := hloop (oI.run s.items) (fun p hp => by
      rw [oI.mem, Samples.mem_items, ← Dict.mem_entries] at hp; exact hp) (Samples.empty a.prov) rfl
    refine ⟨r, h1, h2, fun g => ?_⟩
    rw [h3]
    have hperm : (oI.run s.items).Perm s.samples.entries := s.run_items_perm oI
    simp only [Samples.empty, Dict.get?_empty, addCounts_none_left]
    rw [totalOf_perm (hperm.flatMap_right _), List.map_cons, prefix_choices, joinedItems_flatMap]
    refine totalOf_flatMap_congr _ _ _ _ ?_
    intro p hp
    rw [totalOf_entries, hf4 p hp]

end Verif
