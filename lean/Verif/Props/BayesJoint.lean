import Verif.Props.BayesGraph
import Verif.Lemmas.TableInference
import Mathlib.Algebra.Order.BigOperators.Ring.Finset

/-!
# The joint distribution of a Bayesian network (C59)
-/

set_option linter.unusedSectionVars false

namespace Verif.Bayes

/-! ### Specification -/

/-- The variables of a network. -/
def netVars (cfg : Config) : Finset Str := cfg.keys.toFinset

/-- The probability of an assignment: the product of the conditional probabilities. -/
def jointProb (cfg : Config) (a : Str → ℕ) : ℚ := ∏ v ∈ netVars cfg, prob cfg v a

/-- No variable is its own ancestor. -/
def Acyclic (cfg : Config) : Prop := ∃ rank : Str → ℕ, ∀ v, ∀ p ∈ parentsOf cfg v, rank p < rank v

/-- In each column the probabilities add to one. -/
def Stochastic (cfg : Config) : Prop :=
  ∀ v ∈ cfg.keys, ∀ a, InDom (domOf cfg) (family cfg v) a → ∑ j ∈ domOf cfg v, prob cfg v (Function.update a v j) = 1

/-- The graph with all variables: their values, and an edge from each parent. -/
def netGraph (cfg : Config) (a : Str → ℕ) : SampleGraph Str Str Str :=
  ⟨(netVars cfg).image fun v => ⟨v, valName v (a v)⟩, (netVars cfg).biUnion fun v => (parentsOf cfg v).toFinset.image fun p =>
    ⟨{⟨p, valName p (a p)⟩, ⟨v, valName v (a v)⟩}, .directed p v ['r']⟩⟩

/-- `P(v = j | u = 0 for u in vs)` by the definition of conditional probability. -/
def posterior (cfg : Config) (vs : List Str) (v : Str) (j : ℕ) : ℚ :=
  (∑ a ∈ assigns (domOf cfg) (netVars cfg) with (∀ u ∈ vs, a u = 0) ∧ a v = j, jointProb cfg a) /
    ∑ a ∈ assigns (domOf cfg) (netVars cfg) with ∀ u ∈ vs, a u = 0, jointProb cfg a

/-- A set of variables with all their ancestors. -/
def Ancestral (cfg : Config) (S : Finset Str) : Prop := S ⊆ netVars cfg ∧ ∀ v ∈ S, ∀ p ∈ parentsOf cfg v, p ∈ S

/-! ### The tables -/

section
variable {cfg : Config} (hN : Net cfg)
include hN

theorem family_sub {v : Str} (hv : v ∈ cfg.keys) : family cfg v ⊆ netVars cfg := by
  obtain ⟨c, hc⟩ := (cfg.mem_keys v).1 hv
  rw [family_of hc]
  intro w hw
  rcases Finset.mem_insert.1 hw with rfl | hw
  · exact List.mem_toFinset.2 hv
  · exact List.mem_toFinset.2 ((hN.fits v c hc).decl w (List.mem_toFinset.1 hw))

theorem allVars_net : allVars (netVars cfg) (family cfg) = netVars cfg := by
  ext v
  rw [mem_allVars]
  constructor
  · rintro ⟨w, hw, hv⟩; exact family_sub hN (List.mem_toFinset.1 hw) hv
  · intro hv; exact ⟨v, hv, Finset.mem_insert_self _ _⟩

theorem self_notMem (v : Str) : v ∉ parentsOf cfg v := fun h => hN.two v v h h

theorem dom_nonempty {v : Str} (hv : v ∈ netVars cfg) : (domOf cfg v).Nonempty := by
  obtain ⟨c, hc⟩ := (cfg.mem_keys v).1 (List.mem_toFinset.1 hv)
  rw [domOf, cardOf_of hc]
  exact ⟨0, Finset.mem_range.2 (hN.fits v c hc).card⟩

theorem zero_mem_dom {v : Str} (hv : v ∈ netVars cfg) : 0 ∈ domOf cfg v := by
  obtain ⟨j, hj⟩ := dom_nonempty hN hv
  rw [domOf, Finset.mem_range] at hj ⊢
  omega

theorem netVars_nonempty : (netVars cfg).Nonempty := by
  obtain ⟨⟨v, c⟩, hvc⟩ := List.exists_mem_of_ne_nil _ hN.ne
  exact ⟨v, List.mem_toFinset.2 ((cfg.mem_keys v).2 ⟨c, (cfg.mem_entries v c).1 hvc⟩)⟩

/-- The outcomes of `make_relation_graph` as tables. -/
theorem net_tables {k : ℚ} {o : Order Str} {prov : ℕ} {sp : Space Str Str Str} (hsp : makeRelationGraph k o prov cfg = .ok sp) :
    Countable k cfg ∧ sp.schema = schemaOf cfg ∧ sp.outcomes.prov = prov ∧
    Tables sp.outcomes (domOf cfg) valName (netVars cfg) (family cfg) (famPairs cfg) (famGraph cfg) (famCount k cfg) := by
  obtain ⟨h1, h2⟩ := C59_make_relation_graph hN k o prov
  by_cases hc : Countable k cfg
  · obtain ⟨sp', e1, e2, e3, -, e5⟩ := h2 hc
    rw [hsp] at e1
    cases e1
    refine ⟨hc, e2, e3, ?_⟩
    refine star_tables (fun v => v) (fun v => (parentsOf cfg v).toFinset) (fun v p => .directed p v ['r']) ?_ ?_ ?_ ?_ ?_ ?_ ?_
    · intro g n
      rw [e5]
      constructor
      · rintro ⟨v, hv, a, ha, rfl, hn⟩
        refine ⟨v, List.mem_toFinset.2 hv, a, ha, rfl, ?_⟩
        have := (pos_iff.2 (hc v hv a ha)).1
        rw [← this] at hn
        exact Int.cast_injective hn
      · rintro ⟨v, hv, a, ha, rfl, rfl⟩
        exact ⟨v, List.mem_toFinset.1 hv, a, ha, rfl, (pos_iff.2 (hc v (List.mem_toFinset.1 hv) a ha)).1⟩
    · intro v j l h; exact (valName_inj h).2
    · intro v _ h; exact self_notMem hN v (List.mem_toFinset.1 h)
    · intro v hv w hw; exact dom_nonempty hN (family_sub hN (List.mem_toFinset.1 hv) hw)
    · intro v _ a b hab
      unfold famCount
      rw [prob_local v (fun c hc => hN.fits v c hc) hab]
    · intro v hv w hw hne p hp q hq e
      have h1 : v ∈ ({q, w} : Finset Str) := by rw [← e]; simp
      have h2 : w ∈ ({p, v} : Finset Str) := by rw [e]; simp
      simp only [Finset.mem_insert, Finset.mem_singleton] at h1 h2
      have h1' : v = q := by tauto
      have h2' : w = p := by
        rcases h2 with h | h
        · exact h
        · exact absurd h.symm hne
      subst h1' h2'
      exact hN.two v w (List.mem_toFinset.1 hp) (List.mem_toFinset.1 hq)
    · intro v _ w _ _ _ h; exact h
  · rw [h1 hc] at hsp; cases hsp

theorem joinedGraph_net (a : Str → ℕ) : joinedGraph valName (netVars cfg) (family cfg) (famGraph cfg) a = netGraph cfg a := by
  unfold joinedGraph netGraph
  rw [allVars_net hN]
  rfl

/-- The graph of the whole network with the domains `dom`. -/
def Whole (k : ℚ) (cfg : Config) (prov : ℕ) (dom : Str → Finset ℕ) (sp : Space Str Str Str) : Prop :=
  sp.schema = schemaOf cfg ∧ sp.outcomes.prov = prov ∧
    Tables sp.outcomes dom valName ({()} : Finset Unit) (fun _ => netVars cfg) (fun _ => (netVars cfg).biUnion (famPairs cfg))
      (fun _ => netGraph cfg) (fun _ a => ∏ v ∈ netVars cfg, famCount k cfg v a)

theorem whole_of_joined {k : ℚ} {o : Order Str} {prov : ℕ} {sp sp' : Space Str Str Str} (hsp : makeRelationGraph k o prov cfg = .ok sp)
    (os : Orders Str Str Str) (hj : sp.makeJoined os = .ok sp') : Whole k cfg prov (domOf cfg) sp' := by
  obtain ⟨-, h2, h3, hT⟩ := net_tables hN hsp
  have hk := (C42_make_joined os sp hT.good hT.complete).2 sp' hj
  have := hT.joined (netVars_nonempty hN) os hj
  rw [allVars_net hN] at this
  have hG : joinedGraph valName (netVars cfg) (family cfg) (famGraph cfg) = netGraph cfg := funext fun a => joinedGraph_net hN a
  rw [hG] at this
  exact ⟨hk.1.trans h2, hk.2.1.trans h3, this⟩

theorem famCount_cast {k : ℚ} (hc : Countable k cfg) {v : Str} (hv : v ∈ netVars cfg) {a : Str → ℕ} (ha : InDom (domOf cfg) (netVars cfg) a) :
    (famCount k cfg v a : ℚ) = prob cfg v a * k ∧ 0 < famCount k cfg v a := by
  have hv' := List.mem_toFinset.1 hv
  have := pos_iff.2 (hc v hv' a fun w hw => ha w (family_sub hN hv' hw))
  exact ⟨this.1, by have := this.2; unfold famCount; omega⟩

theorem count_cast {k : ℚ} (hc : Countable k cfg) {a : Str → ℕ} (ha : InDom (domOf cfg) (netVars cfg) a) :
    ((∏ v ∈ netVars cfg, famCount k cfg v a : ℤ) : ℚ) = k ^ (netVars cfg).card * jointProb cfg a ∧ 0 < ∏ v ∈ netVars cfg, famCount k cfg v a := by
  constructor
  · rw [Int.cast_prod, Finset.prod_congr rfl fun v hv => (famCount_cast hN hc hv ha).1, Finset.prod_mul_distrib, Finset.prod_const, mul_comm]
    rfl
  · exact Finset.prod_pos fun v hv => (famCount_cast hN hc hv ha).2

theorem factor_ne_zero {k : ℚ} (hc : Countable k cfg) : k ≠ 0 := by
  obtain ⟨v, hv⟩ := netVars_nonempty hN
  have hv' := List.mem_toFinset.1 hv
  obtain ⟨n, hn, e⟩ := hc v hv' (fun _ => 0) fun w hw => zero_mem_dom hN (family_sub hN hv' hw)
  rintro rfl
  rw [mul_zero] at e
  exact absurd (by exact_mod_cast e.symm) hn.ne'

/-! ### The chain rule -/

/-- Summing out descendants: the probability of an ancestral set. -/
theorem sum_ancestral (hA : Acyclic cfg) (hS : Stochastic cfg) : ∀ (n : ℕ) (S T : Finset Str), Ancestral cfg S → Ancestral cfg T → T ⊆ S → (S \ T).card = n →
    ∀ f : (Str → ℕ) → ℚ, (∀ a b, (∀ v ∈ T, a v = b v) → f a = f b) →
    ∑ a ∈ assigns (domOf cfg) S, f a * ∏ v ∈ S, prob cfg v a = ∑ a ∈ assigns (domOf cfg) T, f a * ∏ v ∈ T, prob cfg v a := by
  obtain ⟨rank, hrank⟩ := hA
  intro n
  induction n with
  | zero =>
    intro S T _ _ hTS hn f _
    have : S = T := Finset.Subset.antisymm (by rwa [Finset.card_eq_zero, Finset.sdiff_eq_empty_iff_subset] at hn) hTS
    rw [this]
  | succ n ih =>
    intro S T hSa hTa hTS hn f hf
    have hne : (S \ T).Nonempty := by rw [← Finset.card_pos]; omega
    obtain ⟨v, hv, hmax⟩ := Finset.exists_max_image (S \ T) rank hne
    rw [Finset.mem_sdiff] at hv
    have hchild : ∀ w ∈ S, w ≠ v → v ∉ parentsOf cfg w := by
      intro w hw hwv hp
      by_cases hwT : w ∈ T
      · exact hv.2 (hTa.2 w hwT v hp)
      · have := hmax w (Finset.mem_sdiff.2 ⟨hw, hwT⟩)
        have := hrank w v hp
        omega
    have hTS' : T ⊆ S.erase v := fun w hw => Finset.mem_erase.2 ⟨fun e => hv.2 (e ▸ hw), hTS hw⟩
    have hSa' : Ancestral cfg (S.erase v) := by
      refine ⟨fun w hw => hSa.1 (Finset.mem_of_mem_erase hw), fun w hw p hp => ?_⟩
      rw [Finset.mem_erase] at hw ⊢
      exact ⟨fun e => hchild w hw.2 hw.1 (e ▸ hp), hSa.2 w hw.2 p hp⟩
    have hcard : (S.erase v \ T).card = n := by
      have : S.erase v \ T = (S \ T).erase v := by ext w; simp only [Finset.mem_sdiff, Finset.mem_erase]; tauto
      rw [this, Finset.card_erase_of_mem (Finset.mem_sdiff.2 hv), hn]
      rfl
    rw [← ih (S.erase v) T hSa' hTa hTS' hcard f hf]
    conv_lhs => rw [← Finset.insert_erase hv.1]
    rw [sum_assigns_insert (Finset.notMem_erase v S)]
    refine Finset.sum_congr rfl fun a ha => ?_
    have hloc : ∀ j, f (Function.update a v j) = f a := fun j =>
      hf _ _ fun w hw => Function.update_of_ne (fun e : w = v => hv.2 (e ▸ hw)) _ _
    have hprod : ∀ j, ∏ w ∈ S.erase v, prob cfg w (Function.update a v j) = ∏ w ∈ S.erase v, prob cfg w a := by
      intro j
      refine Finset.prod_congr rfl fun w hw => prob_local w (fun c hc => hN.fits w c hc) fun u hu => ?_
      rw [Finset.mem_erase] at hw
      refine Function.update_of_ne ?_ _ _
      rintro rfl
      rcases Finset.mem_insert.1 hu with h | h
      · exact hw.1 h.symm
      · exact hchild w hw.2 hw.1 (List.mem_toFinset.1 h)
    have hsum : ∑ j ∈ domOf cfg v, prob cfg v (Function.update a v j) = 1 := by
      have hvk : v ∈ cfg.keys := List.mem_toFinset.1 (hSa.1 hv.1)
      obtain ⟨j, hj⟩ := dom_nonempty hN (hSa.1 hv.1)
      have := hS v hvk (Function.update a v j) (by
        intro w hw
        by_cases e : w = v
        · subst e; simpa using hj
        · rw [Function.update_of_ne e]
          rcases Finset.mem_insert.1 hw with h | h
          · exact absurd h e
          · exact (mem_assigns.1 ha).1 w (Finset.mem_erase.2 ⟨e, hSa.2 v hv.1 w (List.mem_toFinset.1 h)⟩))
      simpa using this
    simp only [Finset.prod_insert (Finset.notMem_erase v S), hloc, hprod]
    rw [← Finset.mul_sum, ← Finset.sum_mul, hsum, one_mul]

theorem ancestral_all : Ancestral cfg (netVars cfg) :=
  ⟨Finset.Subset.refl _, fun _ hv _ hp => family_sub hN (List.mem_toFinset.1 hv) (Finset.mem_insert_of_mem (List.mem_toFinset.2 hp))⟩

theorem sum_ancestral' (hA : Acyclic cfg) (hS : Stochastic cfg) {T : Finset Str} (hT : Ancestral cfg T) (f : (Str → ℕ) → ℚ)
    (hf : ∀ a b, (∀ v ∈ T, a v = b v) → f a = f b) :
    ∑ a ∈ assigns (domOf cfg) (netVars cfg), f a * jointProb cfg a = ∑ a ∈ assigns (domOf cfg) T, f a * ∏ v ∈ T, prob cfg v a :=
  sum_ancestral hN hA hS _ _ _ (ancestral_all hN) hT hT.1 rfl f hf

/-- The probabilities of all assignments add to one. -/
theorem sum_jointProb (hA : Acyclic cfg) (hS : Stochastic cfg) : ∑ a ∈ assigns (domOf cfg) (netVars cfg), jointProb cfg a = 1 := by
  have := sum_ancestral' hN hA hS (T := ∅) ⟨by simp, by simp⟩ (fun _ => 1) (fun _ _ _ => rfl)
  simp only [one_mul, Finset.prod_empty] at this
  rw [this]
  have hc := card_assigns (domOf cfg) (∅ : Finset Str)
  simp only [Finset.prod_empty] at hc
  simp [hc]

end

/-- **C59.** Whenever the relation graph of an acyclic network can be joined, the outcomes of the joined graph are the assignments of all variables,
counted with their probability (the product of the conditional probabilities) times the factor to the number of variables; the sum of all
counts is that power, so that the normalised counts are the joint distribution of the network. -/
theorem C59_joint {cfg : Config} (hN : Net cfg) (hA : Acyclic cfg) (hS : Stochastic cfg) {k : ℚ} {o : Order Str} {prov : ℕ}
    {sp sp' : Space Str Str Str} (hsp : makeRelationGraph k o prov cfg = .ok sp) (os : Orders Str Str Str) (hj : sp.makeJoined os = .ok sp') :
    (∀ g n, sp'.outcomes.samples.get? g = some n ↔
      ∃ a, InDom (domOf cfg) (netVars cfg) a ∧ g = netGraph cfg a ∧ (n : ℚ) = k ^ (netVars cfg).card * jointProb cfg a) ∧
    (∑ p ∈ sp'.outcomes.items, (p.2 : ℚ)) = k ^ (netVars cfg).card ∧ k ≠ 0 ∧
    ∀ g n, sp'.outcomes.samples.get? g = some n →
      ∃ a, InDom (domOf cfg) (netVars cfg) a ∧ g = netGraph cfg a ∧ (n : ℚ) / (∑ p ∈ sp'.outcomes.items, (p.2 : ℚ)) = jointProb cfg a := by
  have hc := (net_tables hN hsp).1
  obtain ⟨-, -, hW⟩ := whole_of_joined hN hsp os hj
  have h1 : ∀ g n, sp'.outcomes.samples.get? g = some n ↔
      ∃ a, InDom (domOf cfg) (netVars cfg) a ∧ g = netGraph cfg a ∧ (n : ℚ) = k ^ (netVars cfg).card * jointProb cfg a := by
    intro g n
    rw [hW.get]
    constructor
    · rintro ⟨-, -, a, ha, hg, rfl⟩
      exact ⟨a, ha, hg, (count_cast hN hc ha).1⟩
    · rintro ⟨a, ha, hg, hn⟩
      refine ⟨(), by simp, a, ha, hg, ?_⟩
      rw [← (count_cast hN hc ha).1] at hn
      exact Int.cast_injective hn
  have h2 : (∑ p ∈ sp'.outcomes.items, (p.2 : ℚ)) = k ^ (netVars cfg).card := by
    rw [hW.sum_items]
    simp only
    rw [Finset.sum_congr rfl fun a ha => (count_cast hN hc (mem_assigns.1 ha).1).1, ← Finset.mul_sum, sum_jointProb hN hA hS, mul_one]
  have hk := factor_ne_zero hN hc
  refine ⟨h1, h2, hk, ?_⟩
  intro g n hgn
  obtain ⟨a, ha, hg, hn⟩ := (h1 g n).1 hgn
  refine ⟨a, ha, hg, ?_⟩
  rw [hn, h2]
  field_simp

/-- The families of the network form a tree: the graph is connected and has no loops, however the edges are directed. -/
def Polytree (cfg : Config) : Prop := ∃ L : List (Finset Str), (L : Multiset (Finset Str)) = (netVars cfg).val.map (family cfg) ∧ TreeShape L

/-- **C59.** If the families form a tree, the graph is joined, whatever the iteration orders. -/
theorem C59_polytree {cfg : Config} (hN : Net cfg) (hP : Polytree cfg) {k : ℚ} {o : Order Str} {prov : ℕ} {sp : Space Str Str Str}
    (hsp : makeRelationGraph k o prov cfg = .ok sp) (os : Orders Str Str Str) : ∃ sp', sp.makeJoined os = .ok sp' := by
  obtain ⟨L, h1, h2⟩ := hP
  exact (net_tables hN hsp).2.2.2.joins os L h1 h2

/-- **C59.** A network that falls into parts (a set of variables closed under parents and children) is never joined. -/
theorem C59_disconnected {cfg : Config} (hN : Net cfg) {k : ℚ} {o : Order Str} {prov : ℕ} {sp : Space Str Str Str}
    (hsp : makeRelationGraph k o prov cfg = .ok sp) (os : Orders Str Str Str) (P : Finset Str)
    (hP : ∀ v ∈ netVars cfg, ∀ p ∈ parentsOf cfg v, p ∈ P ↔ v ∈ P) (h1 : ∃ v ∈ netVars cfg, v ∈ P) (h2 : ∃ v ∈ netVars cfg, v ∉ P) :
    sp.makeJoined os = .error .assertion := by
  have hT := (net_tables hN hsp).2.2.2
  obtain ⟨a, ha⟩ := hT.exists_asg
  refine C43_disconnected os sp hT.good hT.complete P ?_ ?_ ?_
  · intro g hg
    obtain ⟨v, hv, b, hb, rfl⟩ := hT.occurs.1 hg
    simp only [hT.hasVar hv]
    by_cases hvP : v ∈ P
    · left
      intro w hw
      rcases Finset.mem_insert.1 hw with rfl | hw
      · exact hvP
      · exact (hP v hv w (List.mem_toFinset.1 hw)).2 hvP
    · right
      intro w hw
      rcases Finset.mem_insert.1 hw with rfl | hw
      · exact hvP
      · exact fun h => hvP ((hP v hv w (List.mem_toFinset.1 hw)).1 h)
  · obtain ⟨v, hv, hvP⟩ := h1
    exact ⟨famGraph cfg v a, v, hT.occurs.2 ⟨v, hv, a, ha v hv, rfl⟩, (hT.hasVar hv).2 (Finset.mem_insert_self _ _), hvP⟩
  · obtain ⟨v, hv, hvP⟩ := h2
    exact ⟨famGraph cfg v a, v, hT.occurs.2 ⟨v, hv, a, ha v hv, rfl⟩, (hT.hasVar hv).2 (Finset.mem_insert_self _ _), hvP⟩

end Verif.Bayes
