import Verif.Props.Posterior
import Verif.Props.Laws

/-!
# C93: what the results depend on

Two processes (with different hash seeds) build a relation graph with the same contents, maybe inserting in another order, and iterate over sets and
dictionaries in orders of their own. Which queries give the same answers?
-/

set_option linter.unusedSectionVars false

namespace Verif

section
variable {V X R : Type} [DecidableEq V] [DecidableEq X] [DecidableEq R]

/-! ### Specification -/

/-- The two graphs have the same contents: only the orders inside of dictionaries may differ. -/
structure SameContent (a b : Space V X R) : Prop where
  prov : a.outcomes.prov = b.outcomes.prov
  vars : ∀ v, a.schema.vars.get? v = b.schema.vars.get? v
  rels : a.schema.rels = b.schema.rels
  evidence : a.evidence = b.evidence
  counts : ∀ g, a.outcomes.samples.get? g = b.outcomes.samples.get? g

/-- Both calls return and the results are related, or both raise the same exception. -/
def SameResult {A B : Type} (rel : A → B → Prop) : Py A → Py B → Prop
  | .ok x, .ok y => rel x y
  | .error e, .error f => e = f
  | _, _ => False

/-- Tables of probabilities with the same variables, values and probabilities. -/
def SameTables (d d' : Dict V (Dict X ℚ)) : Prop :=
  (∀ v, v ∈ d.keys ↔ v ∈ d'.keys) ∧ ∀ v m m', d.get? v = some m → d'.get? v = some m' → ∀ x, m.get? x = m'.get? x

/-- Every element of the one list has a partner in the other. -/
def Matched {A B : Type} (rel : A → B → Prop) (l : List A) (l' : List B) : Prop := (∀ x ∈ l, ∃ y ∈ l', rel x y) ∧ ∀ y ∈ l', ∃ x ∈ l, rel x y

/-- Folded graphs with the same nodes and edges. -/
def SameFolded (f f' : FoldedGraph V X R) : Prop :=
  f.n = f'.n ∧ f.nodes.length = f'.nodes.length ∧ f.edges.length = f'.edges.length ∧
  Matched (fun N N' => N.var = N'.var ∧ N.values = N'.values ∧ N.n = N'.n ∧ ∀ n, N.nodes.get? n = N'.nodes.get? n) f.nodes f'.nodes ∧
  Matched (fun E E' => E.endpoints = E'.endpoints ∧ ∀ e, E.edges.get? e = E'.edges.get? e) f.edges f'.edges

/-- Activation graphs with the same nodes and edges. -/
def SameActivation (f f' : ActivationGraph V X R) : Prop :=
  f.n = f'.n ∧ f.nodes.length = f'.nodes.length ∧ f.edges.length = f'.edges.length ∧
  Matched (fun N N' => N.var = N'.var ∧ N.inQuery = N'.inQuery ∧ ∀ x, N.values.get? x = N'.values.get? x) f.nodes f'.nodes ∧
  Matched (fun E E' => E.endpoints = E'.endpoints ∧ E.inQuery = E'.inQuery ∧ ∀ r, E.relations.get? r = E'.relations.get? r) f.edges f'.edges

/-! ### Helper lemmas -/

theorem SameContent.symm {a b : Space V X R} (h : SameContent a b) : SameContent b a :=
  ⟨h.prov.symm, fun v => (h.vars v).symm, h.rels.symm, h.evidence.symm, fun g => (h.counts g).symm⟩

theorem SameContent.items {a b : Space V X R} (h : SameContent a b) : a.outcomes.items = b.outcomes.items := by
  ext p
  rw [Samples.mem_items, Samples.mem_items, h.counts]

theorem SameContent.occurs {a b : Space V X R} (h : SameContent a b) : a.outcomes.Occurs = b.outcomes.Occurs := by
  funext g
  unfold Samples.Occurs
  rw [h.counts]

theorem SameContent.length {a b : Space V X R} (h : SameContent a b) : a.outcomes.length = b.outcomes.length := by
  rw [length_eq_sum, length_eq_sum, h.items]

theorem SameContent.mass {a b : Space V X R} (h : SameContent a b) (P : SampleGraph V X R → Prop) [DecidablePred P] :
    mass a.outcomes P = mass b.outcomes P := by
  unfold Verif.mass
  rw [h.items]

theorem SameContent.massOf {a b : Space V X R} (h : SameContent a b) (P : SampleGraph V X R → Prop) : massOf a.outcomes P = massOf b.outcomes P := by
  unfold Verif.massOf
  exact @SameContent.mass V X R _ _ _ a b h P (Classical.decPred P)

theorem SameContent.positive {a b : Space V X R} (h : SameContent a b) (hp : Positive a.outcomes) : Positive b.outcomes :=
  fun g c hc => hp g c (by rw [h.counts]; exact hc)

theorem SameContent.good {a b : Space V X R} (h : SameContent a b) (hp : AllGood a.outcomes) : AllGood b.outcomes := by
  unfold AllGood
  rw [← h.occurs]
  exact hp

theorem SameContent.fact {a b : Space V X R} (h : SameContent a b) : Factorizable a.outcomes ↔ Factorizable b.outcomes := by
  have key : ∀ c d : Space V X R, c.outcomes.Occurs = d.outcomes.Occurs → Factorizable c.outcomes → Factorizable d.outcomes :=
    fun c d he hc => ⟨by rw [← he]; exact hc.nonempty, by rw [← he]; exact hc.pairs⟩
  exact ⟨key a b h.occurs, key b a h.occurs.symm⟩

theorem SameContent.comp {a b : Space V X R} (h : SameContent a b) (hp : CompleteFactors a.outcomes) : CompleteFactors b.outcomes := by
  unfold CompleteFactors
  rw [← h.occurs]
  exact hp

theorem SameContent.hang {a b : Space V X R} (h : SameContent a b) (hp : HangTogether a.outcomes) : HangTogether b.outcomes := by
  unfold HangTogether JoinedBy
  rw [← h.occurs]
  exact hp

theorem SameContent.factors {a b : Space V X R} (h : SameContent a b) {F : Finset (ItemSet V X R)} (hp : AreFactors a.outcomes F) : AreFactors b.outcomes F := by
  unfold AreFactors
  rw [← h.items]
  exact hp

theorem SameContent.sound {a b : Space V X R} (h : SameContent a b) (hp : Sound a) : Sound b := by
  intro g hg
  rw [← h.occurs] at hg
  obtain ⟨h1, h2⟩ := hp g hg
  refine ⟨fun n hn => ?_, h2⟩
  rw [← h.vars]
  exact h1 n hn

theorem SameContent.requested {a b : Space V X R} (h : SameContent a b) (req : Option (Finset V)) (v : V) : Requested a req v ↔ Requested b req v := by
  unfold Requested
  rw [h.vars]

/-- Lists without repetition and with the same members have the same length. -/
theorem length_of_keys {A B K : Type} {l : List A} {l' : List B} (f : A → K) (f' : B → K) (h : (l.map f).Nodup) (h' : (l'.map f').Nodup)
    (hk : ∀ k, (∃ x ∈ l, f x = k) ↔ ∃ y ∈ l', f' y = k) : l.length = l'.length := by
  have : (l.map f).Perm (l'.map f') := by
    rw [List.perm_ext_iff_of_nodup h h']
    intro k
    rw [List.mem_map, List.mem_map]
    exact hk k
  simpa using this.length_eq

theorem matched_of_keys {A B K : Type} {l : List A} {l' : List B} (f : A → K) (f' : B → K) (rel : A → B → Prop)
    (hk : ∀ k, (∃ x ∈ l, f x = k) ↔ ∃ y ∈ l', f' y = k) (hr : ∀ x ∈ l, ∀ y ∈ l', f x = f' y → rel x y) : Matched rel l l' := by
  constructor
  · intro x hx
    obtain ⟨y, hy, he⟩ := (hk (f x)).1 ⟨x, hx, rfl⟩
    exact ⟨y, hy, hr x hx y hy he.symm⟩
  · intro y hy
    obtain ⟨x, hx, he⟩ := (hk (f' y)).2 ⟨y, hy, rfl⟩
    exact ⟨x, hx, hr x hx y hy he⟩

/-! ### Queries -/

/-- **C93.** Graphs whose dictionaries were filled in another order have the same contents. -/
theorem C93_reordered (a b : Space V X R) (hp : a.outcomes.prov = b.outcomes.prov) (hv : a.schema.vars.entries.Perm b.schema.vars.entries)
    (hr : a.schema.rels = b.schema.rels) (he : a.evidence = b.evidence) (hs : a.outcomes.samples.entries.Perm b.outcomes.samples.entries) : SameContent a b := by
  refine ⟨hp, fun v => ?_, hr, he, fun g => ?_⟩
  · ext xs
    rw [← Dict.mem_entries, ← Dict.mem_entries, hv.mem_iff]
  · ext c
    rw [← Dict.mem_entries, ← Dict.mem_entries, hs.mem_iff]

/-- **C93.** Always the same: the number of outcomes, the variables with their values, the relations, and the answers to whether the graph is factorized or joined. -/
theorem C93_queries (a b : Space V X R) (h : SameContent a b) (oG oG' : Order (SampleGraph V X R)) (oN oN' : Order (Node V X)) :
    a.outcomes.length = b.outcomes.length ∧ a.outcomes.items = b.outcomes.items ∧ a.includedVariables oG oN = b.includedVariables oG' oN' ∧
    a.includedRelations = b.includedRelations ∧ a.isFactorized oG = b.isFactorized oG' ∧ a.isJoined oG = b.isJoined oG' := by
  refine ⟨h.length, h.items, ?_, ?_, ?_, ?_⟩
  · ext ⟨v, xs⟩
    rw [C30_included_variables, C30_included_variables, h.occurs]
  · ext r
    rw [C30_included_relations, C30_included_relations, h.occurs]
  · rw [Bool.eq_iff_iff, C33_is_factorized, C33_is_factorized, h.fact]
  · rw [Bool.eq_iff_iff, C44_is_joined, C44_is_joined, h.occurs]

/-- **C93.** `find_for_values` gives the same outcomes. -/
theorem C93_find (a b : Space V X R) (h : SameContent a b) (oI oI' : Order (SampleGraph V X R × ℤ)) (values : Finset (V × X)) :
    SameResult (fun s s' => s.prov = s'.prov ∧ ∀ g, s.samples.get? g = s'.samples.get? g) (a.findForValues oI values) (b.findForValues oI' values) := by
  obtain ⟨s, h1, h2, h3⟩ := C32_find_for_values a oI values
  obtain ⟨s', h1', h2', h3'⟩ := C32_find_for_values b oI' values
  rw [h1, h1']
  refine ⟨by rw [h2, h2', h.prov], fun g => ?_⟩
  ext c
  rw [h3, h3', h.counts]

/-- **C93.** The marginals are the same, with or without the unobserved part: the same tables or the same exception. -/
theorem C93_marginals (a b : Space V X R) (h : SameContent a b) (u : X) (oI oI' : Order (SampleGraph V X R × ℤ)) (oV oV' : Order V)
    (oN oN' : Order (Node V X)) (req : Option (Finset V)) (unobserved : Bool) (hp : Plain a) :
    SameResult SameTables (a.marginals u oI oV oN req unobserved) (b.marginals u oI' oV' oN' req unobserved) := by
  have hposb := h.positive hp.pos
  have hsvb : ∀ g, b.outcomes.Occurs g → SingleValued g.nodes := by rw [← h.occurs]; exact hp.single
  cases unobserved with
  | false =>
    obtain ⟨d, h1, h2, h3⟩ := C28_marginals a u oI oV oN req hp.pos hp.single
    obtain ⟨d', h1', h2', h3'⟩ := C28_marginals b u oI' oV' oN' req hposb hsvb
    rw [h1, h1']
    refine ⟨fun v => by rw [h2, h2', h.requested, h.occurs], fun v m m' hm hm' x => ?_⟩
    ext q
    rw [(h3 v m hm).2, (h3' v m' hm').2, h.occurs, h.mass, h.mass]
  | true =>
    by_cases hu : ∀ g v, a.outcomes.Occurs g → Requested a req v → ¬ HasValue v u g
    · obtain ⟨d, h1, h2, h3⟩ := C28_unobserved a u oI oV oN req hp.pos hp.single hu
      obtain ⟨d', h1', h2', h3'⟩ := C28_unobserved b u oI' oV' oN' req hposb hsvb (by
        intro g v hg hv
        exact hu g v (by rw [h.occurs]; exact hg) ((h.requested req v).2 hv))
      rw [h1, h1']
      refine ⟨fun v => by rw [h2, h2', h.requested, h.occurs], fun v m m' hm hm' x => ?_⟩
      by_cases hx : x = u
      · rw [hx, (h3 v m hm).2.1, (h3' v m' hm').2.1, h.mass, h.length]
      · ext q
        rw [(h3 v m hm).2.2 x q hx, (h3' v m' hm').2.2 x q hx, h.occurs, h.mass, h.length]
    · push Not at hu
      obtain ⟨g, v, hg, hv, hgv⟩ := hu
      rw [C29_collision a u oI oV oN req hp.pos hp.single v hv g hg hgv,
        C29_collision b u oI' oV' oN' req hposb hsvb v ((h.requested req v).1 hv) g (by rw [← h.occurs]; exact hg) hgv]
      rfl

/-- **C93.** The folded graph is the same. -/
theorem C93_folded (a b : Space V X R) (h : SameContent a b) (hs : Sound a) (oI oI' : Order (SampleGraph V X R × ℤ)) (oN oN' : Order (Node V X))
    (oE oE' : Order (Edge V X R)) : SameResult SameFolded (a.foldedGraph oI oN oE) (b.foldedGraph oI' oN' oE') := by
  obtain ⟨f, h1, h2, h3, h4, h5, h6, h7, h8, -⟩ := C31_folded_graph a oI oN oE hs
  obtain ⟨f', h1', h2', h3', h4', h5', h6', h7', h8', -⟩ := C31_folded_graph b oI' oN' oE' (h.sound hs)
  rw [h1, h1']
  have hk : ∀ v, (∃ N ∈ f.nodes, N.var = v) ↔ ∃ N ∈ f'.nodes, N.var = v := fun v => by rw [h5, h5', h.occurs]
  have hk' : ∀ v, (∃ N ∈ f.edges, N.endpoints = v) ↔ ∃ N ∈ f'.edges, N.endpoints = v := fun v => by rw [h6, h6', h.occurs]
  refine ⟨by rw [h2, h2', h.length], length_of_keys _ _ h3 h3' hk, length_of_keys _ _ h4 h4' hk',
    matched_of_keys _ _ _ hk fun N hN N' hN' he => ?_, matched_of_keys _ _ _ hk' fun E hE E' hE' he => ?_⟩
  · obtain ⟨i1, i2, i3⟩ := h7 N hN
    obtain ⟨j1, j2, j3⟩ := h7' N' hN'
    refine ⟨he, ?_, by rw [i1, j1, h.length], fun n => ?_⟩
    · rw [he, h.vars, j2] at i2
      exact (Option.some.inj i2).symm
    · ext c
      rw [i3, j3, he, h.occurs, h.mass]
  · obtain ⟨i1, i2⟩ := h8 E hE
    obtain ⟨j1, j2⟩ := h8' E' hE'
    refine ⟨he, fun e => ?_⟩
    ext c
    rw [i2, j2, he, h.occurs, h.mass]

/-- **C93.** `factorized` gives the same set of factors or raises in both. -/
theorem C93_factorized (a b : Space V X R) (h : SameContent a b) (hsingle : ∀ g, a.outcomes.Occurs g → g.edges = ∅ → g.nodes.card = 1)
    (oI oI' : Order (SampleGraph V X R × ℤ)) (oN oN' : Order (Node V X)) : SameResult Eq (a.factorized oI oN) (b.factorized oI' oN') := by
  obtain ⟨h1, h2⟩ := C33_factorized_iff a oI oN default
  obtain ⟨h1', h2'⟩ := C33_factorized_iff b oI' oN' default
  have he : a.isFactorized default = b.isFactorized default := (C93_queries a b h default default default default).2.2.2.2.1
  cases hb : b.isFactorized default with
  | false =>
    rw [h2 (he.trans hb), h2' hb]
    rfl
  | true =>
    obtain ⟨F, hF⟩ := h1 (he.trans hb)
    obtain ⟨F', hF'⟩ := h1' hb
    rw [hF, hF']
    show F = F'
    ext f
    rw [mem_factors_iff a oI oN hsingle F hF, mem_factors_iff b oI' oN' (by rw [← h.occurs]; exact hsingle) F' hF', h.items]

/-- **C93.** Conditioning gives a graph with the same contents, or raises in both. -/
theorem C93_condition (a b : Space V X R) (h : SameContent a b) (oI oI' : Order (SampleGraph V X R × ℤ)) (ev : Sample V X R) :
    SameResult SameContent (a.conditionalGraph oI ev) (b.conditionalGraph oI' ev) := by
  obtain ⟨h1, h2⟩ := C34_conditional_graph a oI ev
  obtain ⟨h1', h2'⟩ := C34_conditional_graph b oI' ev
  by_cases hp : ev.prov = a.outcomes.prov
  · obtain ⟨cs, i1, i2, i3, i4, i5⟩ := h1 hp
    obtain ⟨cs', j1, j2, j3, j4, j5⟩ := h1' (hp.trans h.prov)
    rw [i1, j1]
    refine ⟨by rw [i4, j4, h.prov], fun v => by rw [i2, j2, h.vars], by rw [i2, j2, h.rels], by rw [i3, j3], fun g => ?_⟩
    ext c
    rw [i5, j5, h.counts]
  · rw [h2 hp, h2' (by rw [← h.prov]; exact hp)]
    rfl

/-- **C93.** The activation graph of a conditioned graph with outcomes is the same. -/
theorem C93_activation (a b : Space V X R) (h : SameContent a b) (ev : SampleGraph V X R) (hc : ConditionedOn a ev) (hpos : Positive a.outcomes)
    (hne : ∃ g, a.outcomes.Occurs g) (oI oI' : Order (SampleGraph V X R × ℤ)) (oN oN' : Order (Node V X)) (oE oE' : Order (Edge V X R))
    (oQ oQ' : Order (Edge V X R × Bool)) (oX oX' : Order X) (f : Option (Finset (Rel V R))) :
    SameResult SameActivation (a.activationGraph oI oN oE oQ oX f ev) (b.activationGraph oI' oN' oE' oQ' oX' f ev) := by
  have hcb : ConditionedOn b ev := ⟨h.sound hc.sound, by rw [← h.occurs]; exact hc.single, by rw [← h.occurs]; exact hc.closed,
    by rw [← h.occurs]; exact hc.kept, hc.evNonempty, hc.evSingle, hc.evClosed, hc.evGood⟩
  obtain ⟨ag, h1, h2, ⟨h3, h4, h5⟩, h6, h7, h8⟩ := C35_C36_activation_graph a ev hc hpos hne oI oN oE oQ oX f
  obtain ⟨ag', h1', h2', ⟨h3', h4', h5'⟩, h6', h7', h8'⟩ := C35_C36_activation_graph b ev hcb (h.positive hpos) (by rw [← h.occurs]; exact hne) oI' oN' oE' oQ' oX' f
  rw [h1, h1']
  have hk : ∀ v, (∃ N ∈ ag.nodes, N.var = v) ↔ ∃ N ∈ ag'.nodes, N.var = v := fun v => by rw [h4, h4', h.vars]
  have hk' : ∀ v, (∃ N ∈ ag.edges, N.endpoints = v) ↔ ∃ N ∈ ag'.edges, N.endpoints = v := fun v => by rw [h7, h7', h.occurs]
  have hw : ∀ n, activationWeight a.outcomes f ev n = activationWeight b.outcomes f ev n := by
    intro n
    unfold activationWeight
    rw [h.massOf, h.length, h.items]
  refine ⟨by rw [h2, h2', h.length], length_of_keys _ _ h3 h3' hk, length_of_keys _ _ h6 h6' hk',
    matched_of_keys _ _ _ hk fun N hN N' hN' he => ?_, matched_of_keys _ _ _ hk' fun E hE E' hE' he => ?_⟩
  · obtain ⟨i1, i2⟩ := h5 N hN
    obtain ⟨j1, j2⟩ := h5' N' hN'
    refine ⟨he, by rw [Bool.eq_iff_iff, i1, j1, he], fun x => ?_⟩
    ext w
    rw [i2, j2, he, h.vars, hw]
  · obtain ⟨i1, i2, i3⟩ := h8 E hE
    obtain ⟨j1, j2, j3⟩ := h8' E' hE'
    have hq : E.inQuery = E'.inQuery := by rw [Bool.eq_iff_iff, i1, j1, he]
    refine ⟨he, hq, fun r => ?_⟩
    ext c
    cases hE'' : E'.inQuery with
    | true => rw [i2 (hq.trans hE''), j2 hE'', he, h.length]
    | false => rw [i3 (hq.trans hE''), j3 hE'', he, h.occurs, h.massOf]

/-! ### Joining -/

/-- **C93.** `joined_on_variables` on a factorized graph that has some join: whether it returns does not depend on the orders, and the results have the same
contents. -/
theorem C93_joined_on (iter : V → Option (Finset V)) (o o' : Orders V X R) (a b : Space V X R) (h : SameContent a b) (hg : AllGood a.outcomes)
    (hf : Factorizable a.outcomes) (F : Finset (ItemSet V X R)) (hF : AreFactors a.outcomes F) (hj : ∃ p, IsJoin F id p) (vs : Option (Finset V))
    (hiter : ∀ v s, iter v = some s → v ∈ s → s = {v}) :
    ((∃ r, a.joinedOnVariables iter o vs = .ok r) ↔ ∃ r, b.joinedOnVariables iter o' vs = .ok r) ∧
    ∀ r r', a.joinedOnVariables iter o vs = .ok r → b.joinedOnVariables iter o' vs = .ok r' → SameContent r r' := by
  have key : ∀ vs : Finset V, ((∃ r, a.joinedOnVariables iter o (some vs) = .ok r) ↔ ∃ r, b.joinedOnVariables iter o' (some vs) = .ok r) ∧
      ∀ r r', a.joinedOnVariables iter o (some vs) = .ok r → b.joinedOnVariables iter o' (some vs) = .ok r' → SameContent r r' := by
    intro vs
    have hFb := h.factors hF
    constructor
    · rw [C88_returns iter o a hg hf F hF hj vs (fun v _ => hiter v), C88_returns iter o' b (h.good hg) (h.fact.1 hf) F hFb hj vs (fun v _ => hiter v), h.occurs]
    · intro r r' hr hr'
      obtain ⟨i1, i2, i3, -⟩ := (C41_untouched iter o a hg vs).1 r hr
      obtain ⟨j1, j2, j3, -⟩ := (C41_untouched iter o' b (h.good hg) vs).1 r' hr'
      refine ⟨by rw [i2, j2, h.prov], fun v => by rw [i1, j1, h.vars], by rw [i1, j1, h.rels], by rw [i3, j3], fun g => ?_⟩
      ext c
      rw [C88_parts iter o a hg hf F hF hj vs r hr, C88_parts iter o' b (h.good hg) (h.fact.1 hf) F hFb hj vs r' hr']
      unfold IsPart JoinedBy
      rw [h.occurs]
  cases vs with
  | some vs => exact key vs
  | none =>
    rw [C41_default iter o a (a.outcomes.graphs.biUnion graphVars) (default_vars _),
      C41_default iter o' b (a.outcomes.graphs.biUnion graphVars) (fun v => by rw [default_vars, h.occurs])]
    exact key _

/-- **C93.** `make_joined` with complete factors: any two results have the same contents. (Whether it returns does depend on the orders, C43, C84.) -/
theorem C93_make_joined (o o' : Orders V X R) (a b : Space V X R) (h : SameContent a b) (hg : AllGood a.outcomes) (hc : CompleteFactors a.outcomes)
    (r r' : Space V X R) (hr : a.makeJoined o = .ok r) (hr' : b.makeJoined o' = .ok r') : SameContent r r' := by
  have hf : Factorizable a.outcomes := by
    by_contra hf
    unfold Space.makeJoined at hr
    have hfalse : a.isFactorized o.graphs = false := by
      rw [Bool.eq_false_iff, ne_eq, C33_is_factorized]; exact hf
    rw [(C33_factorized_iff a o.items o.nodes o.graphs).2 hfalse] at hr
    simp at hr
  obtain ⟨F, hF⟩ := factors_exist o a hg hf
  obtain ⟨i1, i2, i3, i4⟩ := (C42_make_joined o a hg hc).2 r hr
  obtain ⟨j1, j2, j3, j4⟩ := (C42_make_joined o' b (h.good hg) (h.comp hc)).2 r' hr'
  refine ⟨by rw [i2, j2, h.prov], fun v => by rw [i1, j1, h.vars], by rw [i1, j1, h.rels], by rw [i3, j3], fun g => ?_⟩
  ext c
  rw [i4 F hF, j4 F (h.factors hF), h.occurs]

/-! ### The whole inference -/

/-- Conditioning on values one after the other. -/
theorem SameContent.conditionAll {pr : ℕ} (oI oI' : Order (SampleGraph V X R × ℤ)) (es : List (V × X)) : ∀ (a b : Space V X R), SameContent a b →
    SameResult SameContent
      (es.foldlM (init := a) fun s q => (s.conditionalGraph oI ⟨pr, valueEvidence q.1 q.2⟩).map Space.relationGraph)
      (es.foldlM (init := b) fun s q => (s.conditionalGraph oI' ⟨pr, valueEvidence q.1 q.2⟩).map Space.relationGraph) := by
  induction es with
  | nil => exact fun a b h => h
  | cons q t ih =>
    intro a b h
    have := C93_condition a b h oI oI' ⟨pr, valueEvidence q.1 q.2⟩
    rw [List.foldlM_cons, List.foldlM_cons]
    revert this
    cases a.conditionalGraph oI ⟨pr, valueEvidence q.1 q.2⟩ with
    | error e =>
      cases b.conditionalGraph oI' ⟨pr, valueEvidence q.1 q.2⟩ with
      | error f => exact id
      | ok y => exact False.elim
    | ok x =>
      cases b.conditionalGraph oI' ⟨pr, valueEvidence q.1 q.2⟩ with
      | error f => exact False.elim
      | ok y => exact fun hxy => ih x.relationGraph y.relationGraph ⟨hxy.prov, hxy.vars, hxy.rels, rfl, hxy.counts⟩

/-- **C93.** Observing values, joining and asking for the marginals: two processes get the same posterior. -/
theorem C93_inference (iter : V → Option (Finset V)) (o o' : Orders V X R) (oI oI' oM oM' : Order (SampleGraph V X R × ℤ)) (oV oV' : Order V) (oN oN' : Order (Node V X))
    (u : X) (req : Option (Finset V)) (a b : Space V X R) (h : SameContent a b) (hg : AllGood a.outcomes) (hf : Factorizable a.outcomes)
    (hc : CompleteFactors a.outcomes) (hh : HangTogether a.outcomes) (hpos : Positive a.outcomes) (hne : ∃ k, a.outcomes.Occurs k) (es : List (V × X))
    (hes : (es.map Prod.fst).Nodup) (hx : ∀ q ∈ es, ∃ g, a.outcomes.Occurs g ∧ HasValue q.1 q.2 g) (hiter : ∀ v s, iter v = some s → v ∈ s → s = {v})
    (h₁ : ∃ r, a.joinedOnVariables iter o none = .ok r) :
    ∃ ca cb ra rb da db, conditionAll oI a es = .ok ca ∧ conditionAll oI' b es = .ok cb ∧ SameContent ca cb ∧
      ca.joinedOnVariables iter o none = .ok ra ∧ cb.joinedOnVariables iter o' none = .ok rb ∧ SameContent ra rb ∧
      ra.marginals u oM oV oN req false = .ok da ∧ rb.marginals u oM' oV' oN' req false = .ok db ∧ SameTables da db := by
  obtain ⟨F, hF⟩ := factors_exist o a hg hf
  have hj := C88_complete _ hg hf hc F hF
  have h₂ : ∃ r, b.joinedOnVariables iter o' none = .ok r := (C93_joined_on iter o o' a b h hg hf F hF hj none hiter).1.1 h₁
  obtain ⟨ca, ra, da, i1, i2, i3, -, i4, i5⟩ := C89_posterior iter o o oI oM oV oN u req a hg hf hc hh hpos hne es hes hx hiter h₁ F hF
    (a.outcomes.graphs.biUnion graphVars) (default_vars _) (occVals a.outcomes) (mem_occVals _)
  obtain ⟨cb, rb, db, j1, j2, j3, -, j4, j5⟩ := C89_posterior iter o' o' oI' oM' oV' oN' u req b (h.good hg) (h.fact.1 hf) (h.comp hc) (h.hang hh) (h.positive hpos)
    (by rw [← h.occurs]; exact hne) es hes (by rw [← h.occurs]; exact hx) hiter h₂ F (h.factors hF) (a.outcomes.graphs.biUnion graphVars)
    (by rw [← h.occurs]; exact default_vars _) (occVals a.outcomes) (by rw [← h.occurs]; exact mem_occVals _)
  have hcc : SameContent ca cb := by
    have := SameContent.conditionAll (pr := a.outcomes.prov) oI oI' es a b h
    have e1 : (es.foldlM (init := a) fun s q => (s.conditionalGraph oI ⟨a.outcomes.prov, valueEvidence q.1 q.2⟩).map Space.relationGraph) = .ok ca := i1
    have e2 : (es.foldlM (init := b) fun s q => (s.conditionalGraph oI' ⟨a.outcomes.prov, valueEvidence q.1 q.2⟩).map Space.relationGraph) = .ok cb := by
      rw [h.prov]; exact j1
    rw [e1, e2] at this
    exact this
  have hk := conditionAll_keeps oI es a.outcomes.prov a ca hg hf hc hes hx i1
  obtain ⟨F', hF'⟩ := factors_exist o ca hk.good hk.fact
  refine ⟨ca, cb, ra, rb, da, db, i1, j1, hcc, i2, j2,
    (C93_joined_on iter o o' ca cb hcc hk.good hk.fact F' hF' (C88_complete _ hk.good hk.fact hk.comp F' hF') none hiter).2 ra rb i2 j2, i3, j3,
    fun v => by rw [i4, j4, h.requested], fun v m m' hm hm' x => ?_⟩
  ext q
  rw [(i5 v m hm).2, (j5 v m' hm').2]

end

/-! ### Non-vacuity and refutations -/

/-- The space `demoSpace` filled in the opposite order. -/
def demoReversed : Space ℕ ℕ ℕ :=
  ⟨⟨⟨[(2, {0, 1}), (1, {0}), (0, {0, 1})], by decide⟩, {0}⟩,
   ⟨0, ⟨[(oneEdge ⟨0, 1⟩ ⟨2, 0⟩, 3), (oneEdge ⟨0, 0⟩ ⟨1, 0⟩, 2)], by decide⟩⟩, none⟩

/-- The two have the same contents and are not the same. -/
theorem demo_same : SameContent demoSpace demoReversed ∧ demoSpace ≠ demoReversed := by
  refine ⟨C93_reordered _ _ rfl ?_ rfl rfl ?_, fun h => ?_⟩
  · exact (List.Perm.swap _ _ _).trans ((List.Perm.cons _ (List.Perm.swap _ _ _)).trans (List.Perm.swap _ _ _))
  · exact List.Perm.swap _ _ _
  · have := congrArg (fun s : Space ℕ ℕ ℕ => s.schema.vars.entries.map Prod.fst) h
    simp [demoSpace, demoReversed] at this

/-- The network of `cycle_posterior`: two processes with whatever orders get the same posterior. -/
theorem cycle_same : ∃ sp : Space ℕ ℕ ℕ, ∀ (o o' : Orders ℕ ℕ ℕ) oI oI' oM oM' oV oV' oN oN', ∃ ca cb ra rb da db,
    conditionAll oI sp [(0, 0)] = .ok ca ∧ conditionAll oI' sp [(0, 0)] = .ok cb ∧
    ca.joinedOnVariables (fun v => some {v}) o none = .ok ra ∧ cb.joinedOnVariables (fun v => some {v}) o' none = .ok rb ∧
    ra.marginals 9 oM oV oN (some {0, 1}) false = .ok da ∧ rb.marginals 9 oM' oV' oN' (some {0, 1}) false = .ok db ∧ SameTables da db := by
  obtain ⟨sp, hg, hc, h2, hl, ⟨k, hk, hk0⟩, hpos, -, hj⟩ := cycle_joined
  refine ⟨sp, fun o o' oI oI' oM oM' oV oV' oN oN' => ?_⟩
  obtain ⟨ca, cb, ra, rb, da, db, i1, i2, -, i3, i4, -, i5, i6, i7⟩ := C93_inference (fun v => some {v}) o o' oI oI' oM oM' oV oV' oN oN' 9 (some {0, 1}) sp sp
    ⟨rfl, fun _ => rfl, rfl, rfl, fun _ => rfl⟩ hg (factorizable_of_two hg h2) hc ((hang_iff_linked hg).2 hl) hpos ⟨k, hk⟩ [(0, 0)] (by simp)
    (by simp only [List.mem_singleton, forall_eq]; exact ⟨k, hk, hk0⟩) (fun v s hs _ => (Option.some.inj hs).symm) (hj o)
  exact ⟨ca, cb, ra, rb, da, db, i1, i2, i3, i4, i5, i6, i7⟩

/-- **C93, refuted for `make_joined`.** With complete factors it may return in one process and raise in another (C43); without, two processes may get
different outcomes. -/
theorem C93_make_joined_refuted :
    (∃ (a : Space ℕ ℕ ℕ) (o o' : Orders ℕ ℕ ℕ), AllGood a.outcomes ∧ CompleteFactors a.outcomes ∧ (∃ r, a.makeJoined o = .ok r) ∧ a.makeJoined o' = .error .assertion) ∧
    ∃ (a : Space ℕ ℕ ℕ) (o o' : Orders ℕ ℕ ℕ) (r r' : Space ℕ ℕ ℕ), AllGood a.outcomes ∧ a.makeJoined o = .ok r ∧ a.makeJoined o' = .ok r' ∧ ¬ SameContent r r' := by
  constructor
  · obtain ⟨a, o, o', h1, -, h2, h3, h4⟩ := C43_order
    exact ⟨a, o, o', h1, h2, h3, h4⟩
  · obtain ⟨h1, h2, -, -⟩ := C43_gap
    have get : ∀ (x : Py (Space ℕ ℕ ℕ)) l, outcomesOf x = .inl l → ∃ r, x = .ok r ∧ r.outcomes.samples.entries = l := by
      rintro (e | r) l hl
      · cases hl
      · exact ⟨r, rfl, Sum.inl.inj hl⟩
    obtain ⟨r, i1, i2⟩ := get _ _ h1
    obtain ⟨r', j1, j2⟩ := get _ _ h2
    refine ⟨gapSpace, _, _, r, r', ?_, i1, j1, fun h => ?_⟩
    · rintro g ⟨c, hc⟩
      rw [← Dict.mem_entries] at hc
      simp only [gapSpace, List.mem_cons, Prod.mk.injEq, List.not_mem_nil, or_false] at hc
      rcases hc with ⟨rfl, -⟩ | ⟨rfl, -⟩
      · exact ⟨oneEdge_wf _ _ (by decide), ⟨⟨0, 1⟩, by simp [oneEdge]⟩, oneEdge_single _ _ (by decide)⟩
      · exact ⟨oneEdge_wf _ _ (by decide), ⟨⟨1, 2⟩, by simp [oneEdge]⟩, oneEdge_single _ _ (by decide)⟩
    · have h0 := h.counts (oneEdge ⟨1, 2⟩ ⟨2, 1⟩)
      have h3 : r.outcomes.samples.get? (oneEdge ⟨1, 2⟩ ⟨2, 1⟩) = some 3 := by rw [← Dict.mem_entries, i2]; simp
      rw [h3] at h0
      have h4 := (Dict.mem_entries _ _ _).2 h0.symm
      rw [j2] at h4
      revert h4
      decide

end Verif
