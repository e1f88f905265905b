import Verif.Props.Posterior
import Verif.Props.Laws

/-!
# C90: observing several variables with one sample graph

`conditional_graph` drops the outcomes that have some of the observed variables only. In factorized graphs these are whole factors.
-/

set_option linter.unusedSectionVars false

namespace Verif

section
variable {V X R : Type} [DecidableEq V] [DecidableEq X] [DecidableEq R]

/-! ### Helper lemmas -/

theorem kept_get {sp cs : Space V X R} {oI : Order (SampleGraph V X R × ℤ)} {ev : Sample V X R} (h : sp.conditionalGraph oI ev = .ok cs) (g : SampleGraph V X R) (c : ℤ) :
    cs.outcomes.samples.get? g = some c ↔ sp.outcomes.samples.get? g = some c ∧ KeptBy ev.graph g := by
  obtain ⟨h1, h2⟩ := C34_conditional_graph sp oI ev
  by_cases hp : ev.prov = sp.outcomes.prov
  · obtain ⟨cs', e1, -, -, -, e2⟩ := h1 hp
    rw [h] at e1
    rw [Except.ok.inj e1, e2]
  · rw [h2 hp] at h; simp at h

theorem kept_schema {sp cs : Space V X R} {oI : Order (SampleGraph V X R × ℤ)} {ev : Sample V X R} (h : sp.conditionalGraph oI ev = .ok cs) : cs.schema = sp.schema := by
  obtain ⟨h1, h2⟩ := C34_conditional_graph sp oI ev
  by_cases hp : ev.prov = sp.outcomes.prov
  · obtain ⟨cs', e1, e2, -⟩ := h1 hp
    rw [h] at e1
    rw [Except.ok.inj e1, e2]
  · rw [h2 hp] at h; simp at h

theorem kept_occurs {sp cs : Space V X R} {oI : Order (SampleGraph V X R × ℤ)} {ev : Sample V X R} (h : sp.conditionalGraph oI ev = .ok cs) (g : SampleGraph V X R) :
    cs.outcomes.Occurs g ↔ sp.outcomes.Occurs g ∧ KeptBy ev.graph g := by
  constructor
  · rintro ⟨c, hc⟩; exact ⟨⟨c, ((kept_get h g c).1 hc).1⟩, ((kept_get h g c).1 hc).2⟩
  · rintro ⟨⟨c, hc⟩, hk⟩; exact ⟨c, (kept_get h g c).2 ⟨hc, hk⟩⟩

theorem noCommon_iff (ev g : SampleGraph V X R) : NoCommonVariable ev g ↔ ∀ w, HasVar w ev → ¬ HasVar w g := by
  constructor
  · rintro h w ⟨n, hn, rfl⟩ ⟨m, hm, e⟩; exact h n hn m hm e.symm
  · intro h n hn m hm e; exact h n.var ⟨n, hn, rfl⟩ ⟨m, hm, e.symm⟩

theorem contains_hasVar {ev g : SampleGraph V X R} (h : ContainsGraph ev g) {w : V} (hw : HasVar w ev) : HasVar w g := by
  obtain ⟨n, hn, e⟩ := hw; exact ⟨n, h.1 hn, e⟩

theorem contains_links {ev g : SampleGraph V X R} (h : ContainsGraph ev g) {P : Finset V} (hw : LinksPair ev P) : LinksPair g P := by
  obtain ⟨e, he, hP⟩ := hw; exact ⟨e, h.2 he, hP⟩

theorem sameFactor_of_links {a : Samples V X R} (hf : Factorizable a) {g h : SampleGraph V X R} (hg : a.Occurs g) (hh : a.Occurs h) {P : Finset V}
    (h1 : LinksPair g P) (h2 : LinksPair h P) : SameFactor g h := by
  have := hf.pairs g h hg hh ⟨P, h1, h2⟩
  obtain ⟨e, he, -⟩ := h1
  obtain ⟨e', he', -⟩ := h2
  exact Or.inl ⟨Finset.ne_empty_of_mem he, Finset.ne_empty_of_mem he', this⟩

/-! ### Properties -/

/-- **C90.** In a factorized graph evidence with an edge leaves only one factor of those that have a variable of it: all outcomes that stay and have a variable of the evidence are of one factor. -/
theorem C90_one_factor (sp cs : Space V X R) (oI : Order (SampleGraph V X R × ℤ)) (ev : Sample V X R) (hf : Factorizable sp.outcomes)
    (h : sp.conditionalGraph oI ev = .ok cs) (he : ev.graph.edges ≠ ∅) (g k : SampleGraph V X R) (hg : cs.outcomes.Occurs g) (hk : cs.outcomes.Occurs k)
    (hge : ∃ w, HasVar w ev.graph ∧ HasVar w g) (hke : ∃ w, HasVar w ev.graph ∧ HasVar w k) : SameFactor g k := by
  obtain ⟨e, he⟩ := Finset.nonempty_iff_ne_empty.2 he
  have hl : LinksPair ev.graph (e.endpoints.image Node.var) := ⟨e, he, rfl⟩
  have key : ∀ g, cs.outcomes.Occurs g → (∃ w, HasVar w ev.graph ∧ HasVar w g) → sp.outcomes.Occurs g ∧ LinksPair g (e.endpoints.image Node.var) := by
    rintro g hg ⟨w, w1, w2⟩
    obtain ⟨g1, g2⟩ := (kept_occurs h g).1 hg
    refine ⟨g1, ?_⟩
    rcases g2 with g2 | g2
    · exact contains_links g2 hl
    · exact absurd w2 ((noCommon_iff _ _).1 g2 w w1)
  exact sameFactor_of_links hf (key g hg hge).1 (key k hk hke).1 (key g hg hge).2 (key k hk hke).2

/-- **C90.** All outcomes of other factors that have a variable of the evidence are lost. -/
theorem C90_lost (sp cs : Space V X R) (oI : Order (SampleGraph V X R × ℤ)) (ev : Sample V X R) (hf : Factorizable sp.outcomes)
    (h : sp.conditionalGraph oI ev = .ok cs) (he : ev.graph.edges ≠ ∅) (g k : SampleGraph V X R) (hg : sp.outcomes.Occurs g) (hge : ContainsGraph ev.graph g)
    (hk : sp.outcomes.Occurs k) (hne : ¬ SameFactor g k) : cs.outcomes.Occurs k ↔ ∀ w, HasVar w ev.graph → ¬ HasVar w k := by
  rw [kept_occurs h, ← noCommon_iff]
  constructor
  · rintro ⟨-, h1 | h1⟩
    · obtain ⟨e, he⟩ := Finset.nonempty_iff_ne_empty.2 he
      have hl : LinksPair ev.graph (e.endpoints.image Node.var) := ⟨e, he, rfl⟩
      exact absurd (sameFactor_of_links hf hg hk (contains_links hge hl) (contains_links h1 hl)) hne
    · exact h1
  · exact fun h1 => ⟨hk, Or.inr h1⟩

/-- **C90.** In a pairwise network evidence on two variables has no influence on the others: whatever was observed, the probabilities stated for another variable are the same. -/
theorem C90_no_influence (M M' : MargOrders V X R) (sp cs cs' : Space V X R) (hp : Plain sp) (h2 : OneOrTwo sp.outcomes) (oI oI' : Order (SampleGraph V X R × ℤ))
    (ev ev' : Sample V X R) (A B : V) (hAB : A ≠ B) (hev : ∀ w, HasVar w ev.graph ↔ w = A ∨ w = B) (hev' : ∀ w, HasVar w ev'.graph ↔ w = A ∨ w = B)
    (h : sp.conditionalGraph oI ev = .ok cs) (h' : sp.conditionalGraph oI' ev' = .ok cs') (v : V) (hv : sp.Has v) (hvA : v ≠ A) (hvB : v ≠ B) (x : X) :
    cs.chance M v x = cs'.chance M' v x := by
  rw [C69_conditional M sp cs hp oI ev h v hv x, C69_conditional M' sp cs' hp oI' ev' h' v hv x]
  have key : ∀ (ev : Sample V X R), (∀ w, HasVar w ev.graph ↔ w = A ∨ w = B) → ∀ g, sp.outcomes.Occurs g → HasVar v g →
      (KeptBy ev.graph g ↔ ¬ HasVar A g ∧ ¬ HasVar B g) := by
    intro ev hev g hg hvg
    constructor
    · rintro (h1 | h1)
      · exfalso
        obtain ⟨y, z, hyz⟩ := h2 g hg
        have a1 := (hyz A).1 (contains_hasVar h1 ((hev A).2 (Or.inl rfl)))
        have b1 := (hyz B).1 (contains_hasVar h1 ((hev B).2 (Or.inr rfl)))
        have v1 := (hyz v).1 hvg
        rcases a1 with rfl | rfl <;> rcases b1 with rfl | rfl <;> rcases v1 with rfl | rfl <;> simp_all
      · rw [noCommon_iff] at h1
        exact ⟨h1 A ((hev A).2 (Or.inl rfl)), h1 B ((hev B).2 (Or.inr rfl))⟩
    · rintro ⟨hA, hB⟩
      refine Or.inr ((noCommon_iff _ _).2 fun w hw => ?_)
      rcases (hev w).1 hw with rfl | rfl
      · exact hA
      · exact hB
  have e1 : massOf sp.outcomes (fun g => HasValue v x g ∧ KeptBy ev.graph g) = massOf sp.outcomes (fun g => HasValue v x g ∧ KeptBy ev'.graph g) :=
    massOf_congr fun g hg => and_congr_right fun hvg => by rw [key ev hev g hg ⟨_, hvg, rfl⟩, key ev' hev' g hg ⟨_, hvg, rfl⟩]
  have e2 : massOf sp.outcomes (fun g => HasVar v g ∧ KeptBy ev.graph g) = massOf sp.outcomes (fun g => HasVar v g ∧ KeptBy ev'.graph g) :=
    massOf_congr fun g hg => and_congr_right fun hvg => by rw [key ev hev g hg hvg, key ev' hev' g hg hvg]
  rw [e1, e2]

/-- Conditioning a pairwise network on two variables keeps its factors complete. -/
theorem kept_complete {sp cs : Space V X R} {oI : Order (SampleGraph V X R × ℤ)} {ev : Sample V X R} (hg : AllGood sp.outcomes) (hc : CompleteFactors sp.outcomes)
    (h2 : OneOrTwo sp.outcomes) {A B : V} (hAB : A ≠ B) (hev : ∀ w, HasVar w ev.graph ↔ w = A ∨ w = B) (h : sp.conditionalGraph oI ev = .ok cs) :
    AllGood cs.outcomes ∧ Factorizable cs.outcomes ∧ CompleteFactors cs.outcomes ∧
    (∀ g, cs.outcomes.Occurs g → ContainsGraph ev.graph g → ∀ w, HasVar w g ↔ w = A ∨ w = B) := by
  have hf := factorizable_of_two hg h2
  have hocc := kept_occurs h
  have hfull : ∀ g, sp.outcomes.Occurs g → ContainsGraph ev.graph g → ∀ w, HasVar w g ↔ w = A ∨ w = B := by
    intro g g1 g2 w
    obtain ⟨y, z, hyz⟩ := h2 g g1
    have a1 := (hyz A).1 (contains_hasVar g2 ((hev A).2 (Or.inl rfl)))
    have b1 := (hyz B).1 (contains_hasVar g2 ((hev B).2 (Or.inr rfl)))
    rw [hyz]
    rcases a1 with rfl | rfl <;> rcases b1 with rfl | rfl
    · exact absurd rfl hAB
    · exact Iff.rfl
    · exact or_comm
    · exact absurd rfl hAB
  refine ⟨fun g hgo => hg g ((hocc g).1 hgo).1, ⟨fun g hgo => hf.nonempty g ((hocc g).1 hgo).1,
    fun g k h1 h2 => hf.pairs g k ((hocc g).1 h1).1 ((hocc k).1 h2).1⟩, ?_, fun g hgo => hfull g ((hocc g).1 hgo).1⟩
  intro g hgo asg ha
  obtain ⟨g1, g2⟩ := (hocc g).1 hgo
  rcases g2 with g2 | g2
  · -- the outcome with the evidence is the only assignment
    refine ⟨g, hgo, sameFactor_refl (hg g g1).2.1, fun n hn => ?_⟩
    obtain ⟨k, k1, k2⟩ := ha n.var ⟨n, hn, rfl⟩
    obtain ⟨k3, k4⟩ := (hocc k).1 k1
    have hnv : HasVar n.var ev.graph := (hev _).2 ((hfull g g1 g2 _).1 ⟨n, hn, rfl⟩)
    obtain ⟨m, hm, hmn⟩ := hnv
    have e1 : m = n := (hg g g1).2.2 m (g2.1 hm) n hn hmn
    rcases k4 with k4 | k4
    · have e2 := (hg k k3).2.2 m (k4.1 hm) _ k2 hmn
      rw [e1] at e2
      rw [e2]
    · exact absurd ⟨_, k2, rfl⟩ ((noCommon_iff _ _).1 k4 n.var ⟨m, hm, hmn⟩)
  · obtain ⟨k, k1, k2, k3⟩ := hc g g1 asg fun w hw => by
      obtain ⟨k, k1, k2⟩ := ha w hw; exact ⟨k, ((hocc k).1 k1).1, k2⟩
    refine ⟨k, (hocc k).2 ⟨k1, Or.inr ((noCommon_iff _ _).2 fun w hw hwk => ?_)⟩, k2, k3⟩
    exact (noCommon_iff _ _).1 g2 w hw (sameFactor_hasVar (hg k k1).1 (hg g g1).1 (sameFactor_symm k2) hwk)

/-- **C90.** And the graph cannot be joined any more, if another variable stays: `make_joined` raises `AssertionError` for every order. -/
theorem C90_never_joined (sp cs : Space V X R) (hg : AllGood sp.outcomes) (hc : CompleteFactors sp.outcomes) (h2 : OneOrTwo sp.outcomes)
    (oI : Order (SampleGraph V X R × ℤ)) (ev : Sample V X R) (A B : V) (hAB : A ≠ B) (hev : ∀ w, HasVar w ev.graph ↔ w = A ∨ w = B)
    (h : sp.conditionalGraph oI ev = .ok cs) (g k : SampleGraph V X R) (h1 : sp.outcomes.Occurs g) (h1' : ContainsGraph ev.graph g)
    (hk : sp.outcomes.Occurs k) (hkA : ¬ HasVar A k) (hkB : ¬ HasVar B k) (o : Orders V X R) : cs.relationGraph.makeJoined o = .error .assertion := by
  obtain ⟨k1, k2, k3, k4⟩ := kept_complete hg hc h2 hAB hev h
  have hocc := kept_occurs h
  have hgc : cs.outcomes.Occurs g := (hocc g).2 ⟨h1, Or.inl h1'⟩
  have hkc : cs.outcomes.Occurs k := by
    refine (hocc k).2 ⟨hk, Or.inr ((noCommon_iff _ _).2 fun w hw => ?_)⟩
    rcases (hev w).1 hw with rfl | rfl
    · exact hkA
    · exact hkB
  cases hm : cs.relationGraph.makeJoined o with
  | error e => rw [(C42_make_joined o cs.relationGraph k1 k3).1 e hm]
  | ok sp' =>
    exfalso
    have hh : HangTogether cs.outcomes := ((C84_order o cs.relationGraph k1 k2 k3).1 ⟨sp', hm⟩).1
    have key : ∀ k, JoinedBy cs.outcomes (fun _ => True) g k → ∀ w, HasVar w k → w = A ∨ w = B := by
      intro k hj
      induction hj with
      | refl => exact fun w => (k4 g hgc h1' w).1
      | @tail b c _ hbc ih =>
        obtain ⟨b1, c1, hs⟩ := hbc
        have hcont : ContainsGraph ev.graph c := by
          rcases ((hocc c).1 c1).2 with h5 | h5
          · exact h5
          · exfalso
            rw [noCommon_iff] at h5
            rcases hs with hs | ⟨r, -, r1, r2⟩
            · obtain ⟨n, hn⟩ := (k1 b b1).2.1
              exact h5 n.var ((hev _).2 (ih n.var ⟨n, hn, rfl⟩)) (sameFactor_hasVar (k1 b b1).1 (k1 c c1).1 hs ⟨n, hn, rfl⟩)
            · exact h5 r ((hev r).2 (ih r r1)) r2
        exact fun w => (k4 c c1 hcont w).1
    obtain ⟨n, hn⟩ := (hg k hk).2.1
    rcases key k (hh g k hgc hkc) n.var ⟨n, hn, rfl⟩ with e | e
    · exact hkA ⟨n, hn, e⟩
    · exact hkB ⟨n, hn, e⟩

open scoped Classical in
/-- The entries of a factor that stay. -/
noncomputable def keptPart (ev : SampleGraph V X R) (f : ItemSet V X R) : ItemSet V X R := f.filter fun q => KeptBy ev q.1

theorem mem_keptPart {ev : SampleGraph V X R} {f : ItemSet V X R} {q : SampleGraph V X R × ℤ} : q ∈ keptPart ev f ↔ q ∈ f ∧ KeptBy ev q.1 := by
  classical
  unfold keptPart; rw [Finset.mem_filter]

/-- **C90.** If only one factor has variables of the evidence, and an outcome containing the evidence, conditioning and joining is exact: it returns when joining returns, and gives the
joined outcomes containing the evidence, with their counts. -/
theorem C90_exact (iter : V → Option (Finset V)) (o o' : Orders V X R) (oI : Order (SampleGraph V X R × ℤ)) (sp cs sp₁ : Space V X R)
    (hg : AllGood sp.outcomes) (hf : Factorizable sp.outcomes) (hc : CompleteFactors sp.outcomes) (hh : HangTogether sp.outcomes) (ev : Sample V X R)
    (h : sp.conditionalGraph oI ev = .ok cs) (g₀ : SampleGraph V X R) (hg₀ : sp.outcomes.Occurs g₀) (hev : ContainsGraph ev.graph g₀)
    (hne₀ : ev.graph.nodes.Nonempty) (honly : ∀ k, sp.outcomes.Occurs k → (∃ w, HasVar w ev.graph ∧ HasVar w k) → SameFactor g₀ k) (hiter : ∀ v s, iter v = some s → v ∈ s → s = {v})
    (h₁ : sp.joinedOnVariables iter o none = .ok sp₁) :
    ∃ sp₂, cs.relationGraph.joinedOnVariables iter o' none = .ok sp₂ ∧
      ∀ g c, sp₂.outcomes.samples.get? g = some c ↔ sp₁.outcomes.samples.get? g = some c ∧ ContainsGraph ev.graph g := by
  classical
  have hocc : ∀ g, cs.relationGraph.outcomes.Occurs g ↔ sp.outcomes.Occurs g ∧ KeptBy ev.graph g := fun g => kept_occurs (cs := cs) h g
  have hk1 : AllGood cs.relationGraph.outcomes := fun g hgo => hg g ((hocc g).1 hgo).1
  have hk2 : Factorizable cs.relationGraph.outcomes := ⟨fun g hgo => hf.nonempty g ((hocc g).1 hgo).1,
    fun g k h1 h2 => hf.pairs g k ((hocc g).1 h1).1 ((hocc k).1 h2).1⟩
  obtain ⟨F, hF⟩ := factors_exist o sp hg hf
  obtain ⟨F', hF'⟩ := factors_exist o cs.relationGraph hk1 hk2
  have hjF := C88_complete _ hg hf hc F hF
  have ha : FactorFacts sp.outcomes F := ⟨hg, hf, hF, hjF⟩
  have hs := factorSys_of sp.outcomes hg hf hc F hF
  have hg₀c : cs.relationGraph.outcomes.Occurs g₀ := (hocc g₀).2 ⟨hg₀, Or.inl hev⟩
  obtain ⟨c₀, hc₀⟩ := hg₀
  obtain ⟨f₀, hf₀, hgf₀⟩ := ha.mem_factor hc₀
  have hitems : ∀ q, q ∈ cs.relationGraph.outcomes.items ↔ q ∈ sp.outcomes.items ∧ KeptBy ev.graph q.1 := by
    intro q; rw [Samples.mem_items, Samples.mem_items]; exact kept_get h q.1 q.2
  have hin : ∀ f ∈ F, ∀ q ∈ f, q ∈ sp.outcomes.items := by
    intro f hf q hq
    obtain ⟨r, hr, hrf⟩ := (hF f).1 hf
    exact ((hrf q).1 hq).1
  -- other factors stay as they are
  have hother : ∀ f ∈ F, f ≠ f₀ → ∀ q ∈ f, KeptBy ev.graph q.1 := by
    intro f hf' hne q hq
    refine Or.inr ((noCommon_iff _ _).2 fun w hw hwq => hne ?_)
    exact ((ha.same_iff hf₀ hf' hgf₀ hq).1 (honly q.1 (ha.occ hf' hq) ⟨w, hw, hwq⟩)).symm
  have hne : ∀ f ∈ F, (keptPart ev.graph f).Nonempty := by
    intro f hf'
    by_cases e : f = f₀
    · subst e; exact ⟨_, mem_keptPart.2 ⟨hgf₀, Or.inl hev⟩⟩
    · obtain ⟨q, hq⟩ := ha.nonempty hf'
      exact ⟨q, mem_keptPart.2 ⟨hq, hother f hf' e q hq⟩⟩
  have hinj : ∀ f ∈ F, ∀ f' ∈ F, keptPart ev.graph f = keptPart ev.graph f' → f = f' := by
    intro f hf1 f' hf2 he
    obtain ⟨q, hq⟩ := hne f hf1
    have hq' := hq
    rw [he] at hq'
    exact (ha.same_iff hf1 hf2 (mem_keptPart.1 hq).1 (mem_keptPart.1 hq').1).1 (sameFactor_refl (ha.gd hf1 (mem_keptPart.1 hq).1).2.1)
  have hFF : F' = F.image (keptPart ev.graph) := by
    ext f'
    rw [hF', Finset.mem_image]
    constructor
    · rintro ⟨r, hr, hrf⟩
      have hra := ((hitems r).1 hr).1
      refine ⟨sp.outcomes.items.filter fun q => SameFactor r.1 q.1, (hF _).2 ⟨r, hra, fun q => by rw [Finset.mem_filter]⟩, ?_⟩
      ext q
      rw [hrf, hitems, mem_keptPart, Finset.mem_filter]
      tauto
    · rintro ⟨f, hf', rfl⟩
      obtain ⟨q, hq⟩ := hne f hf'
      obtain ⟨q1, q2⟩ := mem_keptPart.1 hq
      refine ⟨q, (hitems q).2 ⟨hin f hf' q q1, q2⟩, fun s => ?_⟩
      obtain ⟨r, hr, hrf⟩ := (hF f).1 hf'
      have hrq := ((hrf q).1 q1).2
      rw [mem_keptPart, hrf, hitems]
      have hgr : WellFormed r.1 := (hg _ ⟨r.2, (Samples.mem_items _ r).1 hr⟩).1
      have : SameFactor r.1 s.1 ↔ SameFactor q.1 s.1 :=
        ⟨fun h => sameFactor_trans hgr (sameFactor_symm hrq) h, fun h => sameFactor_trans (ha.gd hf' q1).1 hrq h⟩
      rw [this]
      tauto
  -- a joint outcome with the evidence
  have hj : ∃ p, IsJoin F' id p := by
    obtain ⟨n₀, -⟩ := (hg g₀ ⟨c₀, hc₀⟩).2.1
    have : Nonempty X := ⟨n₀.val⟩
    obtain ⟨asg₀, hasg₀⟩ := BlockInv.exists_asg hs
    let asg : V → X := fun w => if hw : ∃ x, HasValue w x g₀ then hw.choose else asg₀ w
    have hasg : ∀ w, BlockVar F w → asg w ∈ occVals sp.outcomes w := by
      intro w hw
      by_cases e : ∃ x, HasValue w x g₀
      · simp only [asg, dif_pos e]; exact (mem_occVals _ _ _).2 ⟨g₀, ⟨c₀, hc₀⟩, e.choose_spec⟩
      · simp only [asg, dif_neg e]; exact hasg₀ w hw
    have hfol : ∀ n ∈ g₀.nodes, n.val = asg n.var := by
      intro n hn
      have e : ∃ x, HasValue n.var x g₀ := ⟨n.val, hn⟩
      simp only [asg, dif_pos e]
      exact congrArg Node.val ((hg g₀ ⟨c₀, hc₀⟩).2.2 n hn _ e.choose_spec rfl)
    obtain ⟨p, ⟨sel, s1, s2, s3, s4, s5⟩, hp⟩ := hs.join_complete (Finset.Subset.refl F) asg hasg
    have hsel : ∀ f ∈ F, ∀ n ∈ (sel f).1.nodes, n.val = asg n.var := by
      intro f hf' n hn
      exact hp n (by rw [s3]; exact Finset.mem_biUnion.2 ⟨f, hf', hn⟩)
    let sel' : ItemSet V X R → SampleGraph V X R × ℤ := fun f => if f = f₀ then (g₀, c₀) else sel f
    have hsel' : ∀ f ∈ F, ∀ n ∈ (sel' f).1.nodes, n.val = asg n.var := by
      intro f hf' n hn
      by_cases e : f = f₀
      · simp only [sel', if_pos e] at hn; exact hfol n hn
      · simp only [sel', if_neg e] at hn; exact hsel f hf' n hn
    refine ⟨(⟨F.biUnion fun f => (sel' f).1.nodes, F.biUnion fun f => (sel' f).1.edges⟩, ∏ f ∈ F, (sel' f).2), ?_⟩
    rw [hFF, isJoin_image F _ id hinj]
    refine ⟨sel', fun f hf' => mem_keptPart.2 ?_, ?_, rfl, rfl, rfl⟩
    · by_cases e : f = f₀
      · simp only [sel', if_pos e]; rw [e]; exact ⟨hgf₀, Or.inl hev⟩
      · simp only [sel', if_neg e]; exact ⟨s1 f hf', hother f hf' e _ (s1 f hf')⟩
    · intro n hn m hm hnm
      obtain ⟨f, hf', hn⟩ := Finset.mem_biUnion.1 hn
      obtain ⟨f', hf'', hm⟩ := Finset.mem_biUnion.1 hm
      have e1 := hsel' f hf' n hn
      have e2 := hsel' f' hf'' m hm
      cases n; cases m
      simp only at hnm e1 e2
      subst hnm
      rw [e1, e2]
  -- the outcomes hang together
  have hrep : ∀ k, sp.outcomes.Occurs k → ∃ k', cs.relationGraph.outcomes.Occurs k' ∧ SameFactor k' k := by
    intro k hk
    by_cases e : ∃ w, HasVar w ev.graph ∧ HasVar w k
    · exact ⟨g₀, hg₀c, honly k hk e⟩
    · exact ⟨k, (hocc k).2 ⟨hk, Or.inr ((noCommon_iff _ _).2 fun w hw hwk => e ⟨w, hw, hwk⟩)⟩, sameFactor_refl (hg k hk).2.1⟩
  have hhang : HangTogether cs.relationGraph.outcomes := by
    intro g k hgo hko
    have key : ∀ k, JoinedBy sp.outcomes (fun _ => True) g k → ∀ k', cs.relationGraph.outcomes.Occurs k' → SameFactor k' k →
        JoinedBy cs.relationGraph.outcomes (fun _ => True) g k' := by
      intro k hj
      induction hj with
      | refl => exact fun k' h1 h2 => .single ⟨hgo, h1, Or.inl (sameFactor_symm h2)⟩
      | @tail b c _ hbc ih =>
        intro k' h1 h2
        obtain ⟨b1, c1, hbc⟩ := hbc
        obtain ⟨b', b2, b3⟩ := hrep b b1
        refine (ih b' b2 b3).tail ⟨b2, h1, ?_⟩
        rcases hbc with hbc | ⟨r, -, r1, r2⟩
        · exact Or.inl (sameFactor_trans (hg b b1).1 b3 (sameFactor_trans (hg c c1).1 hbc (sameFactor_symm h2)))
        · exact Or.inr ⟨r, trivial, sameFactor_hasVar (hg b b1).1 (hk1 b' b2).1 (sameFactor_symm b3) r1,
            sameFactor_hasVar (hg c c1).1 (hk1 k' h1).1 (sameFactor_symm h2) r2⟩
    exact key k (hh g k ((hocc g).1 hgo).1 ((hocc k).1 hko).1) k hko (sameFactor_refl (hk1 k hko).2.1)
  have hret : ∃ sp₂, cs.relationGraph.joinedOnVariables iter o' none = .ok sp₂ := by
    have h₁' : ∃ sp₁, sp.joinedOnVariables iter o none = .ok sp₁ := ⟨sp₁, h₁⟩
    rw [C41_default iter o sp _ (default_vars _), C88_returns iter o sp hg hf F hF hjF _ (fun v _ => hiter v)] at h₁'
    have hret := (C88_returns iter o' cs.relationGraph hk1 hk2 F' hF' hj (cs.relationGraph.outcomes.graphs.biUnion graphVars)
      (fun v _ => hiter v)).2 ⟨fun g g1 g2 v _ hgv => h₁'.1 g ((hocc g).1 g1).1 g2 v ((default_vars _ v).2 ⟨g, ((hocc g).1 g1).1, hgv⟩) hgv,
        fun g k g1 k1 g2 k2 hw ⟨v, _, hv⟩ => h₁'.2 g k ((hocc g).1 g1).1 ((hocc k).1 k1).1 g2 k2 hw ⟨v, (default_vars _ v).2 ⟨g, ((hocc g).1 g1).1, hv⟩, hv⟩⟩
    rwa [← C41_default iter o' cs.relationGraph _ (default_vars _)] at hret
  obtain ⟨sp₂, h₂⟩ := hret
  refine ⟨sp₂, h₂, fun g c => ?_⟩
  rw [C88_all iter o' cs.relationGraph hk1 hk2 F' hF' hj hhang sp₂ h₂, C88_all iter o sp hg hf F hF hjF hh sp₁ h₁, hFF, isJoin_image F _ id hinj]
  have e1 : ∃ k, sp.outcomes.Occurs k := ⟨g₀, c₀, hc₀⟩
  have e2 : ∃ k, cs.relationGraph.outcomes.Occurs k := ⟨g₀, hg₀c⟩
  simp only [e1, e2, true_and]
  have hcontained : ∀ q ∈ f₀, KeptBy ev.graph q.1 → ContainsGraph ev.graph q.1 := by
    obtain ⟨n, hn⟩ := hne₀
    rintro q hq (h5 | h5)
    · exact h5
    · exact absurd ((ha.hasVar_iff' hf₀ hq n.var).2 ((ha.hasVar_iff' hf₀ hgf₀ n.var).1 ⟨n, hev.1 hn, rfl⟩)) ((noCommon_iff _ _).1 h5 n.var ⟨n, hn, rfl⟩)
  constructor
  · rintro ⟨sel, s1, s2, s3, s4, s5⟩
    refine ⟨⟨sel, fun f hf' => (mem_keptPart.1 (s1 f hf')).1, s2, s3, s4, s5⟩, ?_⟩
    obtain ⟨m1, m2⟩ := mem_keptPart.1 (s1 f₀ hf₀)
    have hm := hcontained _ m1 m2
    constructor
    · intro n hn
      change n ∈ (g, c).1.nodes
      rw [s3]; exact Finset.mem_biUnion.2 ⟨f₀, hf₀, hm.1 hn⟩
    · intro ed hed
      change ed ∈ (g, c).1.edges
      rw [s4]; exact Finset.mem_biUnion.2 ⟨f₀, hf₀, hm.2 hed⟩
  · rintro ⟨⟨sel, s1, s2, s3, s4, s5⟩, hcon⟩
    refine ⟨sel, fun f hf' => mem_keptPart.2 ⟨s1 f hf', ?_⟩, s2, s3, s4, s5⟩
    by_cases e : f = f₀
    · subst e
      left
      constructor
      · intro n hn
        obtain ⟨m, hm, hmn⟩ := (ha.hasVar_iff' hf₀ (s1 f hf') n.var).2 ((ha.hasVar_iff' hf₀ hgf₀ n.var).1 ⟨n, hev.1 hn, rfl⟩)
        have hmp : m ∈ g.nodes := by
          change m ∈ (g, c).1.nodes
          rw [s3]; exact Finset.mem_biUnion.2 ⟨f, hf', hm⟩
        rw [← s2 m hmp n (hcon.1 hn) hmn]; exact hm
      · intro ed hed
        have hed' : ed ∈ (g, c).1.edges := hcon.2 hed
        rw [s4, Finset.mem_biUnion] at hed'
        obtain ⟨f', hf'', hm⟩ := hed'
        have hl : LinksPair g₀ (ed.endpoints.image Node.var) := ⟨ed, hev.2 hed, rfl⟩
        have hl' : LinksPair (sel f').1 (ed.endpoints.image Node.var) := ⟨ed, hm, rfl⟩
        have := (ha.same_iff hf₀ hf'' hgf₀ (s1 f' hf'')).1 (sameFactor_of_links hf ⟨c₀, hc₀⟩ (ha.occ hf'' (s1 f' hf'')) hl hl')
        rw [this]; exact hm
    · exact hother f hf' e _ (s1 f hf')

end

/-! ### Non-vacuity, and the difference to observing one variable after the other -/

/-- The chain 0 - 1 - 2 - 3. -/
def fourChain : Space ℕ ℕ ℕ := pairSpace [(0, 1), (1, 2), (2, 3)] (by decide +kernel)

/-- The sample `0=a - 1=b`. -/
def edgeSample (a b : ℕ) : Sample ℕ ℕ ℕ := ⟨0, oneEdge ⟨0, a⟩ ⟨1, b⟩⟩

theorem fourChain_plain : Plain fourChain := by
  constructor
  · intro g c hc
    have : ∀ p ∈ pairEntries [(0, 1), (1, 2), (2, 3)], 0 < p.2 := by decide +kernel
    exact this (g, c) ((Dict.mem_entries _ _ _).2 hc)
  · exact fun g hg => (pair_good (by decide) g hg).2.2

theorem edgeSample_hasVar (a b w : ℕ) : HasVar w (edgeSample a b).graph ↔ w = 0 ∨ w = 1 := by
  simp [edgeSample, oneEdge_hasVar]

/-- In the chain, observing `0=a - 1=b` leaves 3/10 for `3=0` whatever `a` and `b` are, and `make_joined` raises. -/
theorem fourChain_edge (M : MargOrders ℕ ℕ ℕ) (o : Orders ℕ ℕ ℕ) (oI : Order (SampleGraph ℕ ℕ ℕ × ℤ)) (a b : ℕ) (ha : a < 2) (hb : b < 2) :
    ∃ cs, fourChain.conditionalGraph oI (edgeSample a b) = .ok cs ∧ cs.chance M 3 0 = 3/10 ∧ cs.relationGraph.makeJoined o = .error .assertion ∧
      ∀ k, cs.outcomes.Occurs k → ¬ (HasVar 1 k ∧ HasVar 2 k) := by
  have h3 : fourChain.Has 3 := ⟨{0, 1}, by decide +kernel⟩
  have hgood : AllGood fourChain.outcomes := pair_good (by decide)
  have hcomp : CompleteFactors fourChain.outcomes := pair_complete
  have htwo : OneOrTwo fourChain.outcomes := pair_oneOrTwo
  have hocc : ∀ e ∈ [(0, 1), (1, 2), (2, 3)], ∀ x < 2, ∀ y < 2, fourChain.outcomes.Occurs (oneEdge ⟨e.1, x⟩ ⟨e.2, y⟩) :=
    fun e he x hx y hy => (pair_occurs _).2 ⟨e, he, x, hx, y, hy, rfl⟩
  have hk := hocc (2, 3) (by simp) 0 (by omega) 0 (by omega)
  have h0 := hocc (0, 1) (by simp) a ha b hb
  obtain ⟨cs, h, -⟩ := (C34_conditional_graph fourChain oI (edgeSample a b)).1 rfl
  obtain ⟨cs', h', -⟩ := (C34_conditional_graph fourChain oI (edgeSample 0 0)).1 rfl
  refine ⟨cs, h, ?_, ?_, ?_⟩
  · rw [C90_no_influence M M fourChain cs cs' fourChain_plain htwo oI oI _ _ 0 1 (by decide) (edgeSample_hasVar a b) (edgeSample_hasVar 0 0) h h' 3 h3 (by decide) (by decide) 0,
      C69_conditional M _ _ fourChain_plain oI _ h' 3 h3]
    simp only [massOf_eq]
    decide +kernel
  · refine C90_never_joined fourChain cs hgood hcomp htwo oI _ 0 1 (by decide) (edgeSample_hasVar a b) h _ _ h0 ⟨subset_rfl, subset_rfl⟩ hk ?_ ?_ o <;>
      simp [oneEdge_hasVar]
  · rintro k hk ⟨k1, k2⟩
    obtain ⟨k3, k4⟩ := (kept_occurs h k).1 hk
    obtain ⟨y, z, hyz⟩ := htwo k k3
    rcases k4 with k4 | k4
    · have a1 := (hyz 0).1 (contains_hasVar k4 ((edgeSample_hasVar a b 0).2 (Or.inl rfl)))
      have b1 := (hyz 1).1 k1
      have c1 := (hyz 2).1 k2
      omega
    · exact (noCommon_iff _ _).1 k4 1 ((edgeSample_hasVar a b 1).2 (Or.inr rfl)) k1

/-- `0=a - 1=b - 2=c`. -/
def path3 (a b c : ℕ) : SampleGraph ℕ ℕ ℕ := ⟨{⟨0, a⟩, ⟨1, b⟩, ⟨2, c⟩}, {⟨{⟨0, a⟩, ⟨1, b⟩}, .plain 0⟩, ⟨{⟨1, b⟩, ⟨2, c⟩}, .plain 0⟩}⟩

/-- `0=a - 1=b - 2=c - 3=d`. -/
def path4 (a b c d : ℕ) : SampleGraph ℕ ℕ ℕ :=
  ⟨{⟨0, a⟩, ⟨1, b⟩, ⟨2, c⟩, ⟨3, d⟩}, {⟨{⟨0, a⟩, ⟨1, b⟩}, .plain 0⟩, ⟨{⟨1, b⟩, ⟨2, c⟩}, .plain 0⟩, ⟨{⟨2, c⟩, ⟨3, d⟩}, .plain 0⟩}⟩

def pairWeight (x y : ℕ) : ℤ := (1 + x + 2 * y : ℕ)

/-- The outcomes that arise when the chain is joined after `0=a` and `1=a`. -/
def pathItems (a : ℕ) : List (SampleGraph ℕ ℕ ℕ × ℤ) :=
  ([0, 1].map fun c => (path3 a a c, pairWeight a a * pairWeight a c)) ++
  [0, 1].flatMap fun c => [0, 1].map fun d => (path4 a a c d, pairWeight a a * pairWeight a c * pairWeight c d)

noncomputable def fourOrders (a : ℕ) : Orders ℕ ℕ ℕ where
  items := .ofList (pairEntries [(0, 1), (1, 2), (2, 3)] ++ pathItems a)
  graphs := .ofList ((pairEntries [(0, 1), (1, 2), (2, 3)] ++ pathItems a).map Prod.fst)
  nodes := .ofList ([0, 1, 2, 3].flatMap fun v => [⟨v, 0⟩, ⟨v, 1⟩])
  edges := .ofList ([(0, 1), (1, 2), (2, 3)].flatMap fun e => [(0, 0), (0, 1), (1, 0), (1, 1)].map fun x => ⟨{⟨e.1, x.1⟩, ⟨e.2, x.2⟩}, .plain 0⟩)
  vars := .ofList [0, 1, 2, 3]
  vals := .ofList [0, 1]
  incl := default
  factors := default

/-- The orders of the call of `marginal_variables_probability`. -/
noncomputable def fourMarg (a : ℕ) : MargOrders ℕ ℕ ℕ := ⟨9, (fourOrders a).items, (fourOrders a).vars, (fourOrders a).nodes⟩

theorem fourChain_pieces : (∃ cs sp, conditionAll (fourOrders 0).items fourChain [(0, 0), (1, 0)] = .ok cs ∧
      cs.joinedOnVariables (fun v => some {v}) (fourOrders 0) none = .ok sp ∧ sp.chance (fourMarg 0) 3 0 = 7/22) ∧
    ∃ cs sp, conditionAll (fourOrders 1).items fourChain [(0, 1), (1, 1)] = .ok cs ∧
      cs.joinedOnVariables (fun v => some {v}) (fourOrders 1) none = .ok sp ∧ sp.chance (fourMarg 1) 3 0 = 5/16 := by
  have h1 : (match conditionAll (fourOrders 0).items fourChain [(0, 0), (1, 0)] with
    | .ok cs => match cs.joinedOnVariables (fun v => some {v}) (fourOrders 0) none with
      | .ok sp => decide (sp.chance (fourMarg 0) 3 0 = 7/22)
      | .error _ => false
    | .error _ => false) = true := by decide +kernel
  have h2 : (match conditionAll (fourOrders 1).items fourChain [(0, 1), (1, 1)] with
    | .ok cs => match cs.joinedOnVariables (fun v => some {v}) (fourOrders 1) none with
      | .ok sp => decide (sp.chance (fourMarg 1) 3 0 = 5/16)
      | .error _ => false
    | .error _ => false) = true := by decide +kernel
  constructor
  · split at h1 <;> [skip; simp at h1]
    split at h1 <;> [skip; simp at h1]
    rename_i cs hcs _ sp hsp
    exact ⟨cs, sp, hcs, hsp, by simpa using h1⟩
  · split at h2 <;> [skip; simp at h2]
    split at h2 <;> [skip; simp at h2]
    rename_i cs hcs _ sp hsp
    exact ⟨cs, sp, hcs, hsp, by simpa using h2⟩

theorem fourChain_hang : HangTogether fourChain.outcomes := by
  have hgood : AllGood fourChain.outcomes := pair_good (by decide)
  rw [hang_iff_linked hgood]
  have hlt : ∀ g, fourChain.outcomes.Occurs g → ∀ v, HasVar v g → (varGraph fourChain.outcomes).Reachable v 0 := by
    have h10 : (varGraph fourChain.outcomes).Reachable 1 0 := ((pair_adj 1 0).2 ⟨by decide, (0, 1), by simp, by simp, by simp⟩).reachable
    have h20 : (varGraph fourChain.outcomes).Reachable 2 0 := SimpleGraph.Reachable.trans ((pair_adj 2 1).2 ⟨by decide, (1, 2), by simp, by simp, by simp⟩).reachable h10
    have h30 : (varGraph fourChain.outcomes).Reachable 3 0 := SimpleGraph.Reachable.trans ((pair_adj 3 2).2 ⟨by decide, (2, 3), by simp, by simp, by simp⟩).reachable h20
    intro g h v hv
    obtain ⟨e, he, x, hx, y, hy, rfl⟩ := (pair_occurs g).1 h
    rw [oneEdge_hasVar] at hv
    simp only [List.mem_cons, List.not_mem_nil, or_false] at he
    rcases he with rfl | rfl | rfl <;> rcases hv with rfl | rfl <;> first | exact .refl _ | assumption
  exact fun u v g k g1 g2 k1 k2 => (hlt g g1 u g2).trans (hlt k k1 v k2).symm

/-- The case of C90_exact: the first variable of the chain is in one factor only. -/
theorem fourChain_exact (o o' : Orders ℕ ℕ ℕ) (oI : Order (SampleGraph ℕ ℕ ℕ × ℤ)) :
    ∃ cs sp₁ sp₂, fourChain.conditionalGraph oI (oneValue 0 0 0) = .ok cs ∧ fourChain.joinedOnVariables (fun v => some {v}) o none = .ok sp₁ ∧
      cs.relationGraph.joinedOnVariables (fun v => some {v}) o' none = .ok sp₂ ∧
      ∀ g c, sp₂.outcomes.samples.get? g = some c ↔ sp₁.outcomes.samples.get? g = some c ∧ ContainsGraph (oneValue 0 0 0).graph g := by
  have hgood : AllGood fourChain.outcomes := pair_good (by decide)
  have hfac : Factorizable fourChain.outcomes := pair_factorizable
  have h0 : fourChain.outcomes.Occurs (oneEdge ⟨0, 0⟩ ⟨1, 0⟩) := (pair_occurs _).2 ⟨(0, 1), by simp, 0, by omega, 0, by omega, rfl⟩
  obtain ⟨cs, h, -⟩ := (C34_conditional_graph fourChain oI (oneValue 0 0 0)).1 rfl
  obtain ⟨sp₁, h₁, -⟩ := C88_pairs (fun v => some {v}) o _ hgood pair_complete pair_oneOrTwo ((hang_iff_linked hgood).1 fourChain_hang) (fun v => ⟨{v}, rfl, fun _ => rfl⟩) ⟨_, h0⟩
  obtain ⟨sp₂, h₂, h₃⟩ := C90_exact (fun v => some {v}) o o' oI fourChain cs sp₁ hgood hfac pair_complete fourChain_hang (oneValue 0 0 0) h _ h0
    (by decide) (by decide) (fun k hk hw => by
      obtain ⟨w, w1, w2⟩ := hw
      have hw0 : w = 0 := by
        obtain ⟨n, hn, rfl⟩ := w1
        simp only [oneValue, Finset.mem_singleton] at hn
        rw [hn]
      subst hw0
      obtain ⟨e, he, x, hx, y, hy, rfl⟩ := (pair_occurs k).1 hk
      rw [oneEdge_hasVar] at w2
      simp only [List.mem_cons, List.not_mem_nil, or_false] at he
      rcases he with rfl | rfl | rfl
      · exact sameFactor_of_links hfac h0 hk (P := {0, 1}) ⟨_, Finset.mem_singleton_self _, by simp [Finset.image_insert]⟩
          ⟨_, Finset.mem_singleton_self _, by simp [Finset.image_insert]⟩
      · simp at w2
      · simp at w2) (by rintro v s hs -; exact (Option.some.inj hs).symm) h₁
  exact ⟨cs, sp₁, sp₂, h, h₁, h₂, h₃⟩

end Verif
