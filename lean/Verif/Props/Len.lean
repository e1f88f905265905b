import Verif.Model.Len
import Verif.Props.MakeJoinedShapes
import Mathlib.Algebra.BigOperators.Ring.Finset
import Mathlib.Algebra.Order.BigOperators.Group.Finset
import Mathlib.Algebra.Order.BigOperators.Ring.Finset

/-!
# `len` of a sample set (C101)
-/

namespace Verif

section
variable {V X R : Type} [DecidableEq V] [DecidableEq X] [DecidableEq R]

/-- **C101.** After any list of operations on a builder: `len` of the sample set that is built returns the sum of the counts since the last removals exactly if the sum is neither
negative nor 2^63 or more; it raises `ValueError` exactly if the sum is negative, `OverflowError` exactly if it is 2^63 or more. The truth of the set is whether something is left. -/
theorem C101_history (prov : ℕ) (ops : List (SetOp V X R)) :
    ∃ log, History prov ops (runSetOps (Samples.empty prov) ops).2 log ∧
      (∀ g, g ∈ (runSetOps (Samples.empty prov) ops).1.graphs ↔ sinceLastRemoval log g ≠ none) ∧
      ((runSetOps (Samples.empty prov) ops).1.bool = true ↔ ∃ g, sinceLastRemoval log g ≠ none) ∧
      ∀ t, t = ∑ g ∈ (runSetOps (Samples.empty prov) ops).1.graphs, (sinceLastRemoval log g).getD 0 →
        (∀ n, (runSetOps (Samples.empty prov) ops).1.len = .ok n ↔ (n : ℤ) = t ∧ t < 2 ^ 63) ∧
        ((runSetOps (Samples.empty prov) ops).1.len = .valueError ↔ t < 0) ∧
        ((runSetOps (Samples.empty prov) ops).1.len = .overflowError ↔ 2 ^ 63 ≤ t) := by
  obtain ⟨log, h1, h2, h3, h4⟩ := C20_history (V := V) (X := X) (R := R) prov ops
  have hg : ∀ g, g ∈ (runSetOps (Samples.empty prov) ops).1.graphs ↔ sinceLastRemoval log g ≠ none := by
    intro g
    rw [← h2 g]
    unfold Samples.graphs
    rw [List.mem_toFinset, Dict.mem_keys]
    exact Option.ne_none_iff_exists'.symm
  refine ⟨log, h1, hg, ?_, fun t ht => ?_⟩
  · simp only [← hg]
    unfold Samples.bool Samples.graphs Dict.keys
    cases (runSetOps (Samples.empty prov) ops).1.samples.entries with
    | nil => simp
    | cons p l => simp only [ne_eq, reduceCtorEq, not_false_eq_true, decide_true, true_iff]; exact ⟨p.1, by simp⟩
  · unfold Samples.len
    rw [h4, ← ht]
    unfold pyLen
    refine ⟨fun n => ?_, ?_, ?_⟩ <;> split_ifs with a b <;> simp <;> omega

theorem len_ok (a : Samples V X R) (n : ℕ) : a.len = .ok n ↔ a.length = n ∧ n < 2 ^ 63 := by
  unfold Samples.len pyLen
  split_ifs with h1 h2 <;> simp <;> omega

theorem len_overflow (a : Samples V X R) : a.len = .overflowError ↔ 2 ^ 63 ≤ a.length := by
  unfold Samples.len pyLen
  split_ifs with h1 h2 <;> simp <;> omega

/-- **C101.** If `len` returns for two sample sets of one provider, it returns the sum for their union when this is below 2^63, and raises `OverflowError` otherwise. -/
theorem C101_union (o : Order (SampleGraph V X R × ℤ)) (a b : Samples V X R) (hp : a.prov = b.prov) (m n : ℕ) (hm : a.len = .ok m) (hn : b.len = .ok n) :
    ∃ r, a.union o b = .ok r ∧ (m + n < 2 ^ 63 → r.len = .ok (m + n)) ∧ (2 ^ 63 ≤ m + n → r.len = .overflowError) := by
  obtain ⟨h1, -, h3⟩ := C21_union o a b
  obtain ⟨r, hr⟩ := h1.2 hp
  have := (h3 r hr).2.1
  rw [len_ok] at hm hn
  refine ⟨r, hr, fun h => ?_, fun h => ?_⟩
  · rw [len_ok]; push_cast; omega
  · rw [len_overflow]; omega

/-- **C101.** With positive counts: if `len` returns for a sample set, it returns for every set filtered from it, no larger number. -/
theorem C101_filter (o : Order (SampleGraph V X R × ℤ)) (a : Samples V X R) (h : Positive a) (p : SampleGraph V X R → Bool) (n : ℕ) (hn : a.len = .ok n) :
    ∃ m ≤ n, (a.filterSamples p).len = .ok m := by
  have hpos : ∀ q : SampleGraph V X R → Bool, 0 ≤ (a.filterSamples q).length := by
    intro q
    rw [length_eq_sum]
    refine Finset.sum_nonneg fun x hx => ?_
    rw [Samples.mem_items, (C22_filter_samples o a q q).1] at hx
    exact (h _ _ hx.1).le
  have h3 := (C22_filter_samples o a p p).2.2.1
  have h4 := hpos p
  have h5 := hpos fun g => !p g
  rw [len_ok] at hn
  refine ⟨(a.filterSamples p).length.toNat, by omega, ?_⟩
  rw [len_ok]
  omega

theorem joined_positive (o : Orders V X R) (sp : Space V X R) (hg : AllGood sp.outcomes) (hc : CompleteFactors sp.outcomes) (hp : Positive sp.outcomes)
    (F : Finset (ItemSet V X R)) (hF : AreFactors sp.outcomes F) (sp' : Space V X R) (h : sp.makeJoined o = .ok sp') : Positive sp'.outcomes := by
  intro g c hgc
  obtain ⟨-, sel, h1, -, -, -, h5⟩ := (((C42_make_joined o sp hg hc).2 sp' h).2.2.2 F hF g c).1 hgc
  simp only at h5
  rw [h5]
  refine Finset.prod_pos fun f hf => ?_
  obtain ⟨p, -, hq⟩ := (hF f).1 hf
  have := ((hq _).1 (h1 f hf)).1
  rw [Samples.mem_items] at this
  exact hp _ _ this

open scoped Classical in
/-- **C101.** For complete factors with positive counts, when `make_joined` returns: if the counts of one assignment in the factors have a product of 2^63 or more, then `len` of the joined
outcomes raises `OverflowError`. -/
theorem C101_joined_overflow (o : Orders V X R) (sp : Space V X R) (hg : AllGood sp.outcomes) (hc : CompleteFactors sp.outcomes) (hp : Positive sp.outcomes)
    (hne : ∃ h, sp.outcomes.Occurs h) (F : Finset (ItemSet V X R)) (hF : AreFactors sp.outcomes F) (sp' : Space V X R) (h : sp.makeJoined o = .ok sp') (asg : V → X)
    (hbig : 2 ^ 63 ≤ ∏ f ∈ F, ∑ q ∈ f.filter (fun q => Follows asg q.1), q.2) : sp'.outcomes.len = .overflowError := by
  rw [len_overflow]
  refine hbig.trans ?_
  rw [← C42_product o sp hg hc hne F hF sp' h asg, length_eq_sum]
  refine Finset.sum_le_sum_of_subset_of_nonneg (Finset.filter_subset _ _) fun p hp' _ => ?_
  rw [Samples.mem_items] at hp'
  exact (joined_positive o sp hg hc hp F hF sp' h _ _ hp').le

/-- **C101.** For complete factors with positive counts, when `make_joined` returns: the total of the joined outcomes is at most the product of the totals of the factors; if this is below 2^63
then `len` returns. -/
theorem C101_joined_returns (o : Orders V X R) (sp : Space V X R) (hg : AllGood sp.outcomes) (hc : CompleteFactors sp.outcomes) (hp : Positive sp.outcomes)
    (F : Finset (ItemSet V X R)) (hF : AreFactors sp.outcomes F) (sp' : Space V X R) (h : sp.makeJoined o = .ok sp')
    (hsmall : ∏ f ∈ F, ∑ q ∈ f, q.2 < 2 ^ 63) : ∃ n : ℕ, sp'.outcomes.len = .ok n ∧ (n : ℤ) ≤ ∏ f ∈ F, ∑ q ∈ f, q.2 := by
  classical
  have hJ := ((C42_make_joined o sp hg hc).2 sp' h).2.2.2 F hF
  have hsel : ∀ p ∈ sp'.outcomes.items, IsJoin F id p := by
    intro p hp'
    rw [Samples.mem_items] at hp'
    exact ((hJ p.1 p.2).1 hp').2
  choose! sel s1 s2 s3 s4 s5 using hsel
  have hle : sp'.outcomes.length ≤ ∏ f ∈ F, ∑ q ∈ f, q.2 := by
    rw [length_eq_sum, Finset.prod_sum]
    have hinj : ∀ p ∈ sp'.outcomes.items, ∀ q ∈ sp'.outcomes.items,
        (fun (f : ItemSet V X R) (_ : f ∈ F) => sel p f) = (fun (f : ItemSet V X R) (_ : f ∈ F) => sel q f) → p = q := by
      intro p hp' q hq' he
      have he' : ∀ f ∈ F, sel p f = sel q f := fun f hf => congrFun (congrFun he f) hf
      obtain ⟨⟨pn, pe⟩, pc⟩ := p
      obtain ⟨⟨qn, qe⟩, qc⟩ := q
      have a1 : pn = qn := (s3 _ hp').trans ((Finset.biUnion_congr rfl fun f hf => by rw [he' f hf]).trans (s3 _ hq').symm)
      have a2 : pe = qe := (s4 _ hp').trans ((Finset.biUnion_congr rfl fun f hf => by rw [he' f hf]).trans (s4 _ hq').symm)
      have a3 : pc = qc := (s5 _ hp').trans ((Finset.prod_congr rfl fun f hf => by rw [he' f hf]).trans (s5 _ hq').symm)
      rw [a1, a2, a3]
    calc ∑ p ∈ sp'.outcomes.items, p.2
        = ∑ p ∈ sp'.outcomes.items, ∏ x ∈ F.attach, (sel p x.1).2 := by
          refine Finset.sum_congr rfl fun p hp' => ?_
          rw [s5 p hp', ← Finset.prod_attach]
      _ = ∑ u ∈ sp'.outcomes.items.image (fun p (f : ItemSet V X R) (_ : f ∈ F) => sel p f), ∏ x ∈ F.attach, (u x.1 x.2).2 := by
          rw [Finset.sum_image hinj]
      _ ≤ _ := by
          refine Finset.sum_le_sum_of_subset_of_nonneg ?_ fun u hu _ => ?_
          · intro u hu
            obtain ⟨p, hp', rfl⟩ := Finset.mem_image.1 hu
            exact Finset.mem_pi.2 fun f hf => s1 p hp' f hf
          · refine Finset.prod_nonneg fun x _ => ?_
            have hx := Finset.mem_pi.1 hu x.1 x.2
            obtain ⟨p, -, hq⟩ := (hF x.1).1 x.2
            have := ((hq _).1 hx).1
            rw [Samples.mem_items] at this
            exact (hp _ _ this).le
  have hnn : 0 ≤ sp'.outcomes.length := by
    rw [length_eq_sum]
    refine Finset.sum_nonneg fun p hp' => ?_
    rw [Samples.mem_items] at hp'
    exact (joined_positive o sp hg hc hp F hF sp' h _ _ hp').le
  refine ⟨sp'.outcomes.length.toNat, ?_, by omega⟩
  rw [len_ok]
  omega

end

/-- The pairs 0 - 1 and 1 - 2 of variables with one value each, counted 2^32 times. -/
def bigSpace : Space ℕ ℕ ℕ :=
  ⟨⟨Dict.ofList [(0, {0}), (1, {0}), (2, {0})], {0}⟩,
    ⟨0, ⟨[(oneEdge ⟨0, 0⟩ ⟨1, 0⟩, 2 ^ 32), (oneEdge ⟨1, 0⟩ ⟨2, 0⟩, 2 ^ 32)], by decide⟩⟩, none⟩

theorem big_mem (p : SampleGraph ℕ ℕ ℕ × ℤ) : p ∈ bigSpace.outcomes.items ↔ p = (oneEdge ⟨0, 0⟩ ⟨1, 0⟩, 2 ^ 32) ∨ p = (oneEdge ⟨1, 0⟩ ⟨2, 0⟩, 2 ^ 32) := by
  have : p ∈ bigSpace.outcomes.items ↔ p ∈ bigSpace.outcomes.samples.entries := by rw [Samples.mem_items, ← Dict.mem_entries]
  rw [this]
  simp [bigSpace]

theorem big_occurs (g : SampleGraph ℕ ℕ ℕ) : bigSpace.outcomes.Occurs g ↔ ∃ i < 2, g = oneEdge ⟨i, 0⟩ ⟨i + 1, 0⟩ := by
  constructor
  · rintro ⟨c, hc⟩
    rcases (big_mem (g, c)).1 ((Samples.mem_items _ _).2 hc) with h | h
    · exact ⟨0, by omega, (Prod.ext_iff.1 h).1⟩
    · exact ⟨1, by omega, (Prod.ext_iff.1 h).1⟩
  · rintro ⟨i, hi, rfl⟩
    refine ⟨2 ^ 32, (Samples.mem_items _ (_, _)).1 ((big_mem _).2 ?_)⟩
    obtain rfl | rfl : i = 0 ∨ i = 1 := by omega
    · exact Or.inl rfl
    · exact Or.inr rfl

/-- Its factors. -/
def bigFactors : Finset (ItemSet ℕ ℕ ℕ) := {{(oneEdge ⟨0, 0⟩ ⟨1, 0⟩, 2 ^ 32)}, {(oneEdge ⟨1, 0⟩ ⟨2, 0⟩, 2 ^ 32)}}

/-- **C101**, a case: two factors with one outcome each; `len` of the outcomes returns 2^33, but the graph that `make_joined` returns for every order has outcomes whose `len`
raises `OverflowError`. -/
theorem C101_joined_case : bigSpace.outcomes.len = .ok (2 ^ 33) ∧
    ∀ o, ∃ sp', bigSpace.makeJoined o = .ok sp' ∧ sp'.outcomes.len = .overflowError := by
  have hgood : AllGood bigSpace.outcomes := by
    intro g hg
    obtain ⟨i, hi, rfl⟩ := (big_occurs g).1 hg
    have hne : (⟨i, 0⟩ : Node ℕ ℕ).var ≠ (⟨i + 1, 0⟩ : Node ℕ ℕ).var := by simp
    exact ⟨oneEdge_wf _ _ hne, by simp [oneEdge], oneEdge_single _ _ hne⟩
  have hfac : Factorizable bigSpace.outcomes := by
    refine ⟨?_, ?_⟩
    · intro g hg
      obtain ⟨i, hi, rfl⟩ := (big_occurs g).1 hg
      simp [oneEdge]
    · intro g g' hg hg'
      obtain ⟨i, hi, rfl⟩ := (big_occurs g).1 hg
      obtain ⟨i', hi', rfl⟩ := (big_occurs g').1 hg'
      simp only [oneEdge_links]
      rintro ⟨P, h1, h2⟩ Q
      rw [h1, h2]
  have hcomp : CompleteFactors bigSpace.outcomes := by
    intro g hg asg ha
    obtain ⟨i, hi, rfl⟩ := (big_occurs g).1 hg
    refine ⟨_, (big_occurs _).2 ⟨i, hi, rfl⟩, (oneEdge_same _ _ _ _).2 rfl, ?_⟩
    intro n hn
    have hv : HasVar n.var (oneEdge ⟨i, 0⟩ ⟨i + 1, 0⟩) := by
      rw [oneEdge_hasVar]
      simp only [oneEdge, Finset.mem_insert, Finset.mem_singleton] at hn
      rcases hn with rfl | rfl <;> simp
    obtain ⟨g', hg', hn'⟩ := ha _ hv
    obtain ⟨i', hi', rfl⟩ := (big_occurs g').1 hg'
    simp only [HasValue, oneEdge, Finset.mem_insert, Finset.mem_singleton, Node.mk.injEq] at hn'
    simp only [oneEdge, Finset.mem_insert, Finset.mem_singleton] at hn
    rcases hn with rfl | rfl <;> simp only at hn' ⊢ <;> omega
  have hpos : Positive bigSpace.outcomes := by
    intro g c hgc
    rcases (big_mem (g, c)).1 ((Samples.mem_items _ _).2 hgc) with h | h <;> (rw [show c = 2 ^ 32 from (Prod.ext_iff.1 h).2]; norm_num)
  have hsame : ¬ SameFactor (oneEdge (⟨0, 0⟩ : Node ℕ ℕ) ⟨1, 0⟩) (oneEdge ⟨1, 0⟩ ⟨2, 0⟩) := by
    rw [oneEdge_same]; decide
  have hsame' : ¬ SameFactor (oneEdge (⟨1, 0⟩ : Node ℕ ℕ) ⟨2, 0⟩) (oneEdge ⟨0, 0⟩ ⟨1, 0⟩) := by
    rw [oneEdge_same]; decide
  have hF : AreFactors bigSpace.outcomes bigFactors := by
    intro f
    unfold bigFactors
    rw [Finset.mem_insert, Finset.mem_singleton]
    constructor
    · rintro (rfl | rfl)
      · refine ⟨_, (big_mem _).2 (Or.inl rfl), fun q => ?_⟩
        rw [Finset.mem_singleton, big_mem]
        constructor
        · rintro rfl; exact ⟨Or.inl rfl, (oneEdge_same _ _ _ _).2 rfl⟩
        · rintro ⟨rfl | rfl, h⟩
          · rfl
          · exact absurd h hsame
      · refine ⟨_, (big_mem _).2 (Or.inr rfl), fun q => ?_⟩
        rw [Finset.mem_singleton, big_mem]
        constructor
        · rintro rfl; exact ⟨Or.inr rfl, (oneEdge_same _ _ _ _).2 rfl⟩
        · rintro ⟨rfl | rfl, h⟩
          · exact absurd h hsame'
          · rfl
    · rintro ⟨p, hp, hq⟩
      rcases (big_mem p).1 hp with rfl | rfl
      · left
        ext q
        rw [hq, Finset.mem_singleton, big_mem]
        constructor
        · rintro ⟨rfl | rfl, h⟩
          · rfl
          · exact absurd h hsame
        · rintro rfl; exact ⟨Or.inl rfl, (oneEdge_same _ _ _ _).2 rfl⟩
      · right
        ext q
        rw [hq, Finset.mem_singleton, big_mem]
        constructor
        · rintro ⟨rfl | rfl, h⟩
          · exact absurd h hsame'
          · rfl
        · rintro rfl; exact ⟨Or.inr rfl, (oneEdge_same _ _ _ _).2 rfl⟩
  refine ⟨(by rw [len_ok]; decide), fun o => ?_⟩
  obtain ⟨sp', h⟩ := C42_tree o bigSpace hgood hfac hcomp bigFactors hF [{0, 1}, {1, 2}] (by decide +kernel) (.add _ _ (.one _ (by simp)) (by decide))
  refine ⟨sp', h, C101_joined_overflow o bigSpace hgood hcomp hpos ⟨_, (big_occurs _).2 ⟨0, by omega, rfl⟩⟩ bigFactors hF sp' h (fun _ => 0) ?_⟩
  have hne : (({(oneEdge (⟨0, 0⟩ : Node ℕ ℕ) ⟨1, 0⟩, 2 ^ 32)} : ItemSet ℕ ℕ ℕ)) ≠ {(oneEdge ⟨1, 0⟩ ⟨2, 0⟩, 2 ^ 32)} := by decide
  have hfol : ∀ i : ℕ, Follows (fun _ => 0) (oneEdge (⟨i, 0⟩ : Node ℕ ℕ) ⟨i + 1, 0⟩) := by
    intro i n hn
    simp only [oneEdge, Finset.mem_insert, Finset.mem_singleton] at hn
    rcases hn with rfl | rfl <;> rfl
  unfold bigFactors
  rw [Finset.prod_insert (by simpa using hne), Finset.prod_singleton, Finset.filter_singleton, if_pos (hfol 0), Finset.filter_singleton, if_pos (hfol 1)]
  simp

/-- Non-vacuity of `C101_joined_returns`: the path 0 - 1 - 2 with values 0 and 1. -/
example : ∃ (sp : Space ℕ ℕ ℕ) (F : Finset (ItemSet ℕ ℕ ℕ)), AllGood sp.outcomes ∧ CompleteFactors sp.outcomes ∧ Positive sp.outcomes ∧ AreFactors sp.outcomes F ∧
    (∀ o, ∃ sp', sp.makeJoined o = .ok sp') ∧ ∏ f ∈ F, ∑ q ∈ f, q.2 < 2 ^ 63 := by
  have hE : ∀ e ∈ [(0, 1), (1, 2)], e.1 < e.2 := by decide
  have hn : [(0, 1), (1, 2)].Nodup := by decide
  have hd : ((pairEntries [(0, 1), (1, 2)]).map Prod.fst).Nodup := by decide +kernel
  obtain ⟨F, hF, hL⟩ := pair_factors (h := hd) hE hn
  have hpos : ∀ p ∈ (pairSpace _ hd).outcomes.items, 0 < p.2 := by
    intro p hp
    obtain ⟨e, -, x, -, y, -, rfl⟩ := (pair_mem p).1 hp
    simp only; positivity
  have hsub : ∀ f ∈ F, f ⊆ (pairSpace _ hd).outcomes.items := by
    intro f hf q hq
    obtain ⟨p, -, h⟩ := (hF f).1 hf
    exact ((h q).1 hq).1
  refine ⟨pairSpace _ hd, F, pair_good hE, pair_complete, fun g c h => hpos (g, c) ((Samples.mem_items _ (_, _)).2 h), hF, fun o => ?_, ?_⟩
  · exact C42_tree o _ (pair_good hE) pair_factorizable pair_complete F hF _ hL (.add _ _ (.one _ (by simp)) (by decide))
  · have hlen : (pairSpace _ hd).outcomes.length = 20 := by show ((pairEntries [(0, 1), (1, 2)]).map Prod.snd).sum = 20; decide +kernel
    have hcard : F.card = 2 := by
      have := congrArg Multiset.card hL
      simpa using this.symm
    have h1 : ∏ f ∈ F, ∑ q ∈ f, q.2 ≤ ∏ _f ∈ F, (20 : ℤ) := by
      refine Finset.prod_le_prod (fun f hf => Finset.sum_nonneg fun q hq => (hpos q (hsub f hf hq)).le) fun f hf => ?_
      rw [← hlen, length_eq_sum]
      exact Finset.sum_le_sum_of_subset_of_nonneg (hsub f hf) fun q hq _ => (hpos q hq).le
    rw [Finset.prod_const, hcard] at h1
    omega

end Verif
