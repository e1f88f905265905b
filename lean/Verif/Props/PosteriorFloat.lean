import Verif.Props.Posterior
import Verif.Props.FloatProb

/-!
# C91: exact inference in floating point

Observing, joining with `joined_on_variables` and asking for the marginal probabilities, with the floats the program computes.
-/

set_option linter.unusedSectionVars false

namespace Verif

section
variable {V X R : Type} [DecidableEq V] [DecidableEq X] [DecidableEq R]

/-- The posterior probability, by summation over all assignments. -/
noncomputable def posterior (F : Finset (ItemSet V X R)) (W : Finset V) (D : V → Finset X) (es : List (V × X)) (v : V) (x : X) : ℚ :=
  (totalWeight F W D ((v, x) :: es) : ℚ) / (totalWeight F W D es : ℚ)

/-- What a result of `marginal_variables_probability` has to say: exactly the requested variables and the values that agree with the observations, with the posterior probability
rounded to the nearest float, in `(0, 1]`, in the order of the exact numbers and with a relative error of at most `2 ^ -53`. -/
def RoundedPosterior (sp : Space V X R) (req : Option (Finset V)) (F : Finset (ItemSet V X R)) (W : Finset V) (D : V → Finset X) (es : List (V × X))
    (d : Dict V (Dict X ℚ)) : Prop :=
  (∀ v, v ∈ d.keys ↔ Requested sp req v ∧ v ∈ W) ∧
  ∀ v m, d.get? v = some m → (∀ x q, m.get? x = some q ↔ x ∈ D v ∧ (∀ e ∈ es, e.1 = v → e.2 = x) ∧ q = fl (posterior F W D es v x)) ∧
    (∀ x q, m.get? x = some q → 0 < q ∧ q ≤ 1 ∧ |q - posterior F W D es v x| ≤ uro * posterior F W D es v x) ∧
    ∀ x y q r, m.get? x = some q → m.get? y = some r → q < r → posterior F W D es v x < posterior F W D es v y

/-- **C91.** In floating point observing, joining and asking for the marginal probabilities gives the posterior of the product of the factors, rounded once. No assertion fails, in spite of
rounding, unless a variable has very many values. -/
theorem C91_float (ver : PyVer) (iter : V → Option (Finset V)) (o o' : Orders V X R) (oI oI' : Order (SampleGraph V X R × ℤ)) (oV : Order V) (oN : Order (Node V X)) (u : X)
    (req : Option (Finset V)) (sp : Space V X R) (hg : AllGood sp.outcomes) (hf : Factorizable sp.outcomes) (hc : CompleteFactors sp.outcomes)
    (hh : HangTogether sp.outcomes) (hpos : Positive sp.outcomes) (hne : ∃ k, sp.outcomes.Occurs k) (es : List (V × X)) (hes : (es.map Prod.fst).Nodup)
    (hx : ∀ q ∈ es, ∃ g, sp.outcomes.Occurs g ∧ HasValue q.1 q.2 g) (hiter : ∀ v s, iter v = some s → v ∈ s → s = {v})
    (h₁ : ∃ sp₁, sp.joinedOnVariables iter o none = .ok sp₁) (F : Finset (ItemSet V X R)) (hF : AreFactors sp.outcomes F)
    (W : Finset V) (hW : ∀ v, v ∈ W ↔ ∃ g, sp.outcomes.Occurs g ∧ HasVar v g)
    (D : V → Finset X) (hD : ∀ v x, x ∈ D v ↔ ∃ g, sp.outcomes.Occurs g ∧ HasValue v x g)
    (hlen : totalWeight F W D es ≤ 2 ^ 1022) (hn : ∀ v, (D v).card ≤ maxItems ver) :
    ∃ cs sp₂ d, conditionAll oI sp es = .ok cs ∧ cs.joinedOnVariables iter o' none = .ok sp₂ ∧ sp₂.marginalsFl ver u oI' oV oN req false = .ok d ∧
      RoundedPosterior sp req F W D es d := by
  obtain ⟨cs, sp₂, e, h1, h2, h3, ⟨p1, p2, p3, p4⟩, -, h5, h6⟩ :=
    posterior_full iter o o' oI oI' oV oN u req sp hg hf hc hh hpos hne es hes hx hiter h₁ F hF W hW D hD
  obtain ⟨d, e', k1, k2, k3, k4⟩ := C64_marginals ver sp₂ u oI' oV oN req p1 p2 (by rw [p3]; exact hlen) (fun v s hs =>
    (Finset.card_le_card fun x hxs => by obtain ⟨g, g1, g2⟩ := hs x hxs; exact p4 v x g g1 g2).trans (hn v))
  rw [h3] at k2
  cases k2
  refine ⟨cs, sp₂, d, h1, h2, k1, ?_, ?_⟩
  · intro v
    rw [k3, ← h5]
    simp [Dict.mem_keys, Dict.get?_mapVals]
  · intro v m hm
    rw [k3, Dict.get?_mapVals] at hm
    obtain ⟨m', hm', rfl⟩ := Option.map_eq_some_iff.1 hm
    obtain ⟨-, h7⟩ := h6 v m' hm'
    have hget : ∀ x q, (m'.mapVals fl).get? x = some q ↔ ∃ e, m'.get? x = some e ∧ q = fl e := by
      intro x q
      rw [Dict.get?_mapVals, Option.map_eq_some_iff]
      exact exists_congr fun e => and_congr_right fun _ => eq_comm
    have hpost : ∀ x e, m'.get? x = some e → e = posterior F W D es v x := fun x e he => ((h7 x e).1 he).2.2
    refine ⟨fun x q => ?_, fun x q hq => ?_, fun x y q r hq hr hlt => ?_⟩
    · rw [hget]
      constructor
      · rintro ⟨e, he, rfl⟩
        obtain ⟨a, b, -⟩ := (h7 x e).1 he
        exact ⟨a, b, by rw [hpost x e he]⟩
      · rintro ⟨a, b, rfl⟩
        exact ⟨posterior F W D es v x, (h7 x _).2 ⟨a, b, rfl⟩, rfl⟩
    · obtain ⟨e, he, rfl⟩ := (hget x q).1 hq
      rw [← hpost x e he]
      exact k4 v m' hm' x e he
    · obtain ⟨e, he, rfl⟩ := (hget x q).1 hq
      obtain ⟨e2, he2, rfl⟩ := (hget y r).1 hr
      rw [← hpost x e he, ← hpost y e2 he2]
      by_contra hle
      exact absurd ((C64_rounding e2).2.2.2.2 e (not_lt.1 hle)) (not_le.2 hlt)

/-- **C91.** For a connected pairwise network with positive potentials and whatever cycles this always works. -/
theorem C91_pairs (ver : PyVer) (iter : V → Option (Finset V)) (o : Orders V X R) (oI oI' : Order (SampleGraph V X R × ℤ)) (oV : Order V) (oN : Order (Node V X)) (u : X)
    (req : Option (Finset V)) (sp : Space V X R) (hg : AllGood sp.outcomes) (hc : CompleteFactors sp.outcomes) (h2 : OneOrTwo sp.outcomes)
    (hl : AllLinked sp.outcomes) (hpos : Positive sp.outcomes) (hne : ∃ k, sp.outcomes.Occurs k) (es : List (V × X)) (hes : (es.map Prod.fst).Nodup)
    (hx : ∀ q ∈ es, ∃ g, sp.outcomes.Occurs g ∧ HasValue q.1 q.2 g) (hiter : ∀ v, ∃ s, iter v = some s ∧ (v ∈ s → s = {v}))
    (F : Finset (ItemSet V X R)) (hF : AreFactors sp.outcomes F) (W : Finset V) (hW : ∀ v, v ∈ W ↔ ∃ g, sp.outcomes.Occurs g ∧ HasVar v g)
    (D : V → Finset X) (hD : ∀ v x, x ∈ D v ↔ ∃ g, sp.outcomes.Occurs g ∧ HasValue v x g)
    (hlen : totalWeight F W D es ≤ 2 ^ 1022) (hn : ∀ v, (D v).card ≤ maxItems ver) :
    ∃ cs sp₂ d, conditionAll oI sp es = .ok cs ∧ cs.joinedOnVariables iter o none = .ok sp₂ ∧ sp₂.marginalsFl ver u oI' oV oN req false = .ok d ∧
      RoundedPosterior sp req F W D es d := by
  have hi : ∀ v s, iter v = some s → v ∈ s → s = {v} := by
    intro v s hs hv
    obtain ⟨s', h1, h2⟩ := hiter v
    rw [hs, Option.some.injEq] at h1
    exact h1 ▸ h2 (h1 ▸ hv)
  obtain ⟨sp₁, h₁, -⟩ := C88_pairs iter o sp hg hc h2 hl hiter hne
  exact C91_float ver iter o o oI oI' oV oN u req sp hg (factorizable_of_two hg h2) hc ((hang_iff_linked hg).2 hl) hpos hne es hes hx hi ⟨sp₁, h₁⟩ F hF W hW D hD hlen hn

/-- **C91.** The weight of all assignments is at most the number of assignments times the product of all counts plus one, so that it can be checked on the network, without joining. -/
theorem C91_size (sp : Space V X R) (hg : AllGood sp.outcomes) (hpos : Positive sp.outcomes) (F : Finset (ItemSet V X R)) (hF : AreFactors sp.outcomes F)
    (W : Finset V) (D : V → Finset X) (es : List (V × X)) :
    totalWeight F W D es ≤ (∏ v ∈ W, ((D v).card : ℤ)) * ∏ p ∈ sp.outcomes.items, (1 + p.2) := by
  classical
  have hc : ∀ p ∈ sp.outcomes.items, 0 < p.2 ∧ WellFormed p.1 := fun p hp =>
    ⟨hpos p.1 p.2 ((Samples.mem_items _ p).1 hp), (hg p.1 ⟨p.2, (Samples.mem_items _ p).1 hp⟩).1⟩
  have hsub : ∀ f ∈ F, ∀ q ∈ f, q ∈ sp.outcomes.items := fun f hf q hq => by
    obtain ⟨p, -, h⟩ := (hF f).1 hf
    exact ((h q).1 hq).1
  have hdis : (F : Set (ItemSet V X R)).PairwiseDisjoint id := by
    intro f hf f' hf' hne
    rw [Function.onFun, id, id, Finset.disjoint_left]
    intro q hq hq'
    refine hne ?_
    obtain ⟨p, hp, h⟩ := (hF f).1 hf
    obtain ⟨p', hp', h'⟩ := (hF f').1 hf'
    have k := ((h q).1 hq).2
    have k' := ((h' q).1 hq').2
    have wq := (hc q (hsub f hf q hq)).2
    ext r
    rw [h, h']
    exact and_congr_right fun _ =>
      ⟨fun z => sameFactor_trans wq k' (sameFactor_trans (hc p hp).2 (sameFactor_symm k) z),
       fun z => sameFactor_trans wq k (sameFactor_trans (hc p' hp').2 (sameFactor_symm k') z)⟩
  have hprod : ∀ s : ItemSet V X R, (∀ q ∈ s, 0 < q.2) → 1 ≤ ∏ q ∈ s, (1 + q.2) := fun s h =>
    Int.add_one_le_iff.2 (Finset.prod_pos fun q hq => by have := h q hq; omega)
  have hsum : ∀ s : ItemSet V X R, (∀ q ∈ s, 0 < q.2) → ∑ q ∈ s, q.2 ≤ ∏ q ∈ s, (1 + q.2) := by
    intro s
    induction s using Finset.induction_on with
    | empty => simp
    | insert a s ha ih =>
      intro h
      rw [Finset.sum_insert ha, Finset.prod_insert ha]
      have h1 := ih fun q hq => h q (Finset.mem_insert_of_mem hq)
      have h2 : 1 ≤ ∏ q ∈ s, (1 + q.2) := hprod s fun q hq => h q (Finset.mem_insert_of_mem hq)
      have h3 := h a (Finset.mem_insert_self _ _)
      nlinarith
  have hone : ∀ a : ∀ v ∈ W, X, productWeight F a ≤ ∏ p ∈ sp.outcomes.items, (1 + p.2) := by
    intro a
    have hp : ∀ f ∈ F, ∀ q ∈ f, 0 < q.2 := fun f hf q hq => (hc q (hsub f hf q hq)).1
    calc productWeight F a ≤ ∏ f ∈ F, ∏ q ∈ f, (1 + q.2) := by
          refine Finset.prod_le_prod (fun f hf => Finset.sum_nonneg fun q hq => (hp f hf q (Finset.mem_filter.1 hq).1).le) fun f hf => ?_
          exact (Finset.sum_le_sum_of_subset_of_nonneg (Finset.filter_subset _ _) fun q hq _ => (hp f hf q hq).le).trans (hsum f (hp f hf))
      _ = ∏ q ∈ F.biUnion id, (1 + q.2) := (Finset.prod_biUnion hdis).symm
      _ ≤ ∏ p ∈ sp.outcomes.items, (1 + p.2) := by
          have hs : F.biUnion id ⊆ sp.outcomes.items := fun q hq => by
            obtain ⟨f, hf, hq⟩ := Finset.mem_biUnion.1 hq
            exact hsub f hf q hq
          rw [← Finset.prod_sdiff hs]
          refine le_mul_of_one_le_left (Finset.prod_nonneg fun q hq => ?_) (hprod _ fun q hq => (hc q (Finset.mem_sdiff.1 hq).1).1)
          have := (hc q (hs hq)).1
          omega
  have hnn : 0 ≤ ∏ p ∈ sp.outcomes.items, (1 + p.2) := Finset.prod_nonneg fun q hq => by have := (hc q hq).1; omega
  calc totalWeight F W D es ≤ ∑ a ∈ W.pi D with ∀ q ∈ es, ∀ h : q.1 ∈ W, a q.1 h = q.2, ∏ p ∈ sp.outcomes.items, (1 + p.2) :=
        Finset.sum_le_sum fun a _ => hone a
    _ ≤ ∑ _a ∈ W.pi D, ∏ p ∈ sp.outcomes.items, (1 + p.2) := Finset.sum_le_sum_of_subset_of_nonneg (Finset.filter_subset _ _) fun _ _ _ => hnn
    _ = _ := by rw [Finset.sum_const, Finset.card_pi, nsmul_eq_mul]; push_cast; rfl

end

/-! ### Non-vacuity -/

/-- The triangle with a potential on each variable, where `make_joined` always fails: with floats observing, joining and asking for the marginals returns the rounded posterior. -/
theorem cycle_float : ∃ sp : Space ℕ ℕ ℕ, (∀ o, sp.makeJoined o = .error .assertion) ∧
    ∀ (ver : PyVer) (o : Orders ℕ ℕ ℕ) oI oI' oV oN, ∃ F W D cs sp₂ d, conditionAll oI sp [(0, 0)] = .ok cs ∧ cs.joinedOnVariables (fun v => some {v}) o none = .ok sp₂ ∧
      sp₂.marginalsFl ver 9 oI' oV oN (some {0, 1}) false = .ok d ∧ RoundedPosterior sp (some {0, 1}) F W D [(0, 0)] d ∧ 0 ∈ d.keys := by
  obtain ⟨sp, hg, hc, h2, hl, ⟨k, hk, hk0⟩, hpos, hno, -, hsize, hcard⟩ := cycle_joined_small
  refine ⟨sp, hno, fun ver o oI oI' oV oN => ?_⟩
  obtain ⟨F, hF⟩ := factors_exist o sp hg (factorizable_of_two hg h2)
  obtain ⟨cs, sp₂, d, h1, h2, h3, h4⟩ := C91_pairs ver (fun v => some {v}) o oI oI' oV oN 9 (some {0, 1}) sp hg hc h2 hl hpos ⟨k, hk⟩ [(0, 0)] (by simp)
    (by simp only [List.mem_singleton, forall_eq]; exact ⟨k, hk, hk0⟩) (fun v => ⟨{v}, rfl, fun _ => rfl⟩) F hF _ (default_vars _) (occVals sp.outcomes) (mem_occVals _)
    ((C91_size sp hg hpos F hF _ _ _).trans hsize) (fun v => (hcard v).trans (by cases ver <;> decide))
  exact ⟨F, _, _, cs, sp₂, d, h1, h2, h3, h4, (h4.1 0).2 ⟨Or.inl ⟨_, rfl, by simp⟩, (default_vars _ 0).2 ⟨k, hk, _, hk0, rfl⟩⟩⟩

end Verif
