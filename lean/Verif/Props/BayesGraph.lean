import Verif.Props.BayesNet

/-!
# The relation graph of a Bayesian network (C59): `make_relation_graph`
-/

set_option linter.unusedSectionVars false

namespace Verif.Bayes

/-! ### Specification -/

/-- What the builder of `make_relation_graph` declares: the variables with the texts of their values and the relation `r`. -/
def schemaOf (cfg : Config) : Schema Str Str Str := ⟨declared cfg, {['r']}⟩

/-- The outcome of an assignment of a family: the variable with an edge from each parent. -/
def famGraph (cfg : Config) (v : Str) (a : Str → ℕ) : SampleGraph Str Str Str :=
  starOf valName (fun p => .directed p v ['r']) v (parentsOf cfg v).toFinset a

/-- The count of an assignment of a family. -/
def famCount (k : ℚ) (cfg : Config) (v : Str) (a : Str → ℕ) : ℤ := pyInt (prob cfg v a * k)

/-- The pairs of a family. -/
def famPairs (cfg : Config) (v : Str) : Finset (Finset Str) := (parentsOf cfg v).toFinset.image fun p => {p, v}

/-- All probabilities times the factor are positive integers. -/
def Countable (k : ℚ) (cfg : Config) : Prop :=
  ∀ v ∈ cfg.keys, ∀ a, InDom (domOf cfg) (family cfg v) a → ∃ n : ℕ, 0 < n ∧ prob cfg v a * k = n

/-! ### Loops -/

theorem foldlM_inv {A B : Type} {f : B → A → Py B} (P : B → Prop) : ∀ (l : List A) (b b' : B), (∀ b, ∀ x ∈ l, ∀ b', P b → f b x = .ok b' → P b') →
    P b → l.foldlM f b = .ok b' → P b' ∧ ∀ x ∈ l, ∃ c c', P c ∧ f c x = .ok c'
  | [], b, b', _, hb, h => by
    cases h
    exact ⟨hb, by simp⟩
  | x :: t, b, b', hP, hb, h => by
    rw [List.foldlM_cons] at h
    cases hx : f b x with
    | error e => rw [hx] at h; cases h
    | ok c =>
      rw [hx] at h
      obtain ⟨h1, h2⟩ := foldlM_inv P t c b' (fun b x hx => hP b x (by simp [hx])) (hP b x (by simp) c hb hx) h
      refine ⟨h1, fun y hy => ?_⟩
      rcases List.mem_cons.1 hy with rfl | hy
      · exact ⟨b, c, hb, hx⟩
      · exact h2 y hy

theorem foldlM_error {A B : Type} {f : B → A → Py B} (P : B → Prop) {er : Err} : ∀ (l : List A) (b : B), (∀ b, ∀ x ∈ l, ∀ b', P b → f b x = .ok b' → P b') →
    P b → l.foldlM f b = .error er → ∃ c, P c ∧ ∃ x ∈ l, f c x = .error er
  | [], b, _, hb, h => by cases h
  | x :: t, b, hP, hb, h => by
    rw [List.foldlM_cons] at h
    cases hx : f b x with
    | error e =>
      rw [hx] at h
      have : e = er := by cases h; rfl
      subst this
      exact ⟨b, hb, x, by simp, hx⟩
    | ok c =>
      rw [hx] at h
      obtain ⟨c', h1, y, hy, h2⟩ := foldlM_error P t c (fun b x hx => hP b x (by simp [hx])) (hP b x (by simp) c hb hx) h
      exact ⟨c', h1, y, by simp [hy], h2⟩

/-! ### One outcome -/

theorem declared_get (cfg : Config) (v : Str) (xs : Finset Str) : (declared cfg).get? v = some xs ↔
    ∃ c, cfg.get? v = some c ∧ xs = (Finset.range c.card).image (valName v) := by
  have hi : ∀ (v : Str) (n : ℕ), ((List.range n).map (valName v)).toFinset = (Finset.range n).image (valName v) := by
    intro v n; ext x; simp
  unfold declared
  rw [Dict.get?_ofList]
  · simp only [List.mem_map, Prod.mk.injEq, Prod.exists, Dict.mem_entries, hi]
    constructor
    · rintro ⟨w, c, h1, rfl, rfl⟩; exact ⟨c, h1, rfl⟩
    · rintro ⟨c, h1, rfl⟩; exact ⟨v, c, h1, rfl, rfl⟩
  · rw [List.map_map]; exact cfg.nodup

theorem declared_value {cfg : Config} {v : Str} {j : ℕ} (hv : v ∈ cfg.keys) (hj : j ∈ domOf cfg v) :
    ∃ xs, (schemaOf cfg).vars.get? v = some xs ∧ valName v j ∈ xs := by
  obtain ⟨c, hc⟩ := (cfg.mem_keys v).1 hv
  refine ⟨_, (declared_get cfg v _).2 ⟨c, hc, rfl⟩, Finset.mem_image_of_mem _ ?_⟩
  rwa [domOf, cardOf_of hc] at hj

theorem pick_eq {S : Finset Str} {a : Str → ℕ} (vs : List Str) (hvs : ∀ x, x ∈ vs ↔ x ∈ nameSet S a) {u : Str} (hu : u ∈ S)
    (hn : ∀ w ∈ S, u <:+: valName w (a w) → u = w) : pick vs u = .ok (valName u (a u)) := by
  unfold pick
  have hmem : valName u (a u) ∈ vs := (hvs _).2 (Finset.mem_image_of_mem _ hu)
  cases hf : vs.find? fun v => decide (u <:+: v) with
  | none =>
    rw [List.find?_eq_none] at hf
    exact absurd (infix_valName u (a u)) (by simpa using hf _ hmem)
  | some x =>
    have h1 := List.find?_some hf
    have h2 := List.mem_of_find?_eq_some hf
    obtain ⟨w, hw, rfl⟩ := Finset.mem_image.1 ((hvs x).1 h2)
    have := hn w hw (by simpa using h1)
    subst this
    rfl

theorem addParents_ok {cfg : Config} {v : Str} {c : Cpd} (hN : Net cfg) (hv : cfg.get? v = some c) {a : Str → ℕ}
    (ha : InDom (domOf cfg) (family cfg v) a) (vs : List Str) (hvs : ∀ x, x ∈ vs ↔ x ∈ nameSet (family cfg v) a) (prov : ℕ) :
    ∀ (l : List Str) (b : Builder Str Str Str) (dn : Finset Str), (∀ p ∈ l, p ∈ c.parents) → l.Nodup → (∀ p ∈ l, p ∉ dn) → v ∉ dn → b.Inv →
      b.prov = prov → b.edges = dn.image (starEdge valName (fun p => .directed p v ['r']) v a) →
      (b.nodes = if dn = ∅ then ∅ else asgNodes valName (insert v dn) a) →
      ∃ b', l.foldlM (addParent (schemaOf cfg) v vs) b = .ok b' ∧ b'.prov = prov ∧
        b'.edges = (dn ∪ l.toFinset).image (starEdge valName (fun p => .directed p v ['r']) v a) ∧
        b'.nodes = if dn ∪ l.toFinset = ∅ then ∅ else asgNodes valName (insert v (dn ∪ l.toFinset)) a
  | [], b, dn, _, _, _, _, _, h1, h2, h3 => ⟨b, rfl, h1, by simpa using h2, by simpa using h3⟩
  | p :: t, b, dn, hp, hnd, hdis, hvd, hI, h1, h2, h3 => by
    have hF := hN.fits v c hv
    have hvk : v ∈ cfg.keys := (cfg.mem_keys v).2 ⟨c, hv⟩
    have hpc : p ∈ c.parents := hp p (by simp)
    have hpf : p ∈ family cfg v := by rw [family_of hv]; exact Finset.mem_insert_of_mem (by simpa using hpc)
    have hvf : v ∈ family cfg v := Finset.mem_insert_self _ _
    have hpick : ∀ u ∈ family cfg v, pick vs u = .ok (valName u (a u)) := by
      intro u hu
      refine pick_eq vs hvs hu fun w hw hin => hN.names v hvk u hu w hw (a w) ?_ hin
      have := ha w hw
      rwa [domOf, Finset.mem_range] at this
    have hpv : p ≠ v := fun e => hF.self (e ▸ hpc)
    rw [List.nodup_cons] at hnd
    obtain ⟨b', e1, e2, e3, e4, e5⟩ := star_step (s := schemaOf cfg) (b := b) (dn := dn) (p := p) (val := valName)
      (rel := fun p => .directed p v ['r']) (v := v) (a := a) hI h2 h3 hvd (hdis p (by simp)) hpv (by
        refine ⟨?_, ?_, ⟨_, Finset.mem_insert_self _ _, rfl⟩, ⟨_, Finset.mem_insert_of_mem (Finset.mem_singleton_self _), rfl⟩⟩
        · intro q hq
          rcases Finset.mem_insert.1 hq with rfl | hq
          · exact declared_value (hF.decl p hpc) (ha p hpf)
          · rw [Finset.mem_singleton.1 hq]
            exact declared_value hvk (ha v hvf)
        · exact Finset.mem_singleton_self _)
    have hst : addParent (schemaOf cfg) v vs b p = .ok b' := by
      unfold addParent
      rw [hpick p hpf, hpick v hvf]
      simp only
      rw [e1]
      rfl
    obtain ⟨b'', r1, r2, r3, r4⟩ := addParents_ok hN hv ha vs hvs prov t b' (insert p dn) (fun q hq => hp q (by simp [hq])) hnd.2
      (fun q hq h => by
        rcases Finset.mem_insert.1 h with rfl | h
        · exact hnd.1 hq
        · exact hdis q (by simp [hq]) h)
      (fun h => by
        rcases Finset.mem_insert.1 h with h | h
        · exact hpv h.symm
        · exact hvd h) e2 (e3.trans h1) e4 (by rw [if_neg (Finset.insert_ne_empty _ _)]; exact e5)
    have hset : insert p dn ∪ t.toFinset = dn ∪ (p :: t).toFinset := by
      rw [List.toFinset_cons, Finset.insert_union, Finset.union_insert]
    rw [hset] at r3 r4
    exact ⟨b'', by rw [List.foldlM_cons, hst]; exact r1, r2, r3, r4⟩

theorem buildOutcome_ok {cfg : Config} {v : Str} {c : Cpd} (hN : Net cfg) (hv : cfg.get? v = some c) {a : Str → ℕ}
    (ha : InDom (domOf cfg) (family cfg v) a) (o : Order Str) (prov : ℕ) :
    buildOutcome (schemaOf cfg) prov v c.parents (o.run (nameSet (family cfg v) a)) = .ok ⟨prov, famGraph cfg v a⟩ := by
  have hvk : v ∈ cfg.keys := (cfg.mem_keys v).2 ⟨c, hv⟩
  unfold buildOutcome famGraph
  rw [parentsOf_of hv]
  by_cases hp : c.parents = []
  · have hrun : o.run (nameSet (family cfg v) a) = [valName v (a v)] := by
      have hf : nameSet (family cfg v) a = {valName v (a v)} := by rw [family_of hv, hp]; simp [nameSet]
      have h1 := o.nodup (nameSet (family cfg v) a)
      have h2 := o.mem (nameSet (family cfg v) a)
      rw [hf] at h1 h2 ⊢
      match hl : o.run {valName v (a v)} with
      | [] => rw [hl] at h2; exact absurd ((h2 (valName v (a v))).2 (by simp)) (by simp)
      | [x] => rw [hl] at h2; rw [Finset.mem_singleton.1 ((h2 x).1 (by simp))]
      | x :: y :: t =>
        rw [hl] at h1 h2
        have hx := Finset.mem_singleton.1 ((h2 x).1 (by simp))
        have hy := Finset.mem_singleton.1 ((h2 y).1 (by simp))
        simp [hx, hy] at h1
    rw [if_neg (by simp [hp]), hrun, hp]
    simp only
    unfold Builder.buildSingleNode Schema.getNode
    have hd : (schemaOf cfg).declared v (valName v (a v)) = true := (declared_iff _ _ _).2 (declared_value hvk (ha v (Finset.mem_insert_self _ _)))
    simp [hd, starOf, asgNodes, Builder.new]
  · rw [if_pos hp]
    obtain ⟨b', e1, e2, e3, e4⟩ := addParents_ok hN hv ha (o.run (nameSet (family cfg v) a)) (fun x => o.mem _ x) prov c.parents (Builder.new prov) ∅
      (fun p h => h) (hN.fits v c hv).nodup (by simp) (by simp) (Builder.inv_new _) rfl (by simp [Builder.new]) (by simp [Builder.new])
    rw [e1]
    simp only
    rw [Finset.empty_union] at e3 e4
    have hne : c.parents.toFinset ≠ ∅ := by simpa using hp
    rw [if_neg hne] at e4
    unfold Builder.build
    rw [if_neg]
    · rw [e2, e3, e4]; rfl
    · rw [e4]
      exact Finset.nonempty_iff_ne_empty.1 ⟨⟨v, valName v (a v)⟩, mem_asgNodes.2 ⟨Finset.mem_insert_self _ _, rfl⟩⟩

/-! ### Different outcomes -/

theorem famGraph_inj {cfg : Config} {v w : Str} {a b : Str → ℕ} (h : famGraph cfg v a = famGraph cfg w b) :
    v = w ∧ ∀ u ∈ family cfg v, a u = b u := by
  have hN : asgNodes valName (family cfg v) a = asgNodes valName (family cfg w) b := congrArg SampleGraph.nodes h
  have hE : (parentsOf cfg v).toFinset.image (starEdge valName (fun p => .directed p v ['r']) v a) =
      (parentsOf cfg w).toFinset.image (starEdge valName (fun p => .directed p w ['r']) w b) := congrArg SampleGraph.edges h
  have hag : ∀ u ∈ family cfg v, a u = b u := by
    intro u hu
    have : (⟨u, valName u (a u)⟩ : Node Str Str) ∈ asgNodes valName (family cfg w) b := by rw [← hN]; exact mem_asgNodes.2 ⟨hu, rfl⟩
    exact (valName_inj (mem_asgNodes.1 this).2).2
  refine ⟨?_, hag⟩
  by_cases hp : (parentsOf cfg v).toFinset = ∅
  · have hp' : (parentsOf cfg w).toFinset = ∅ := by
      rw [hp, Finset.image_empty] at hE
      exact Finset.image_eq_empty.1 hE.symm
    have : (⟨v, valName v (a v)⟩ : Node Str Str) ∈ asgNodes valName (family cfg w) b := by
      rw [← hN]; exact mem_asgNodes.2 ⟨Finset.mem_insert_self _ _, rfl⟩
    have := (mem_asgNodes.1 this).1
    rw [family, hp'] at this
    simpa using this
  · obtain ⟨p, hp⟩ := Finset.nonempty_iff_ne_empty.2 hp
    have : starEdge valName (fun p => .directed p v ['r']) v a p ∈ (parentsOf cfg w).toFinset.image (starEdge valName (fun p => .directed p w ['r']) w b) := by
      rw [← hE]; exact Finset.mem_image_of_mem _ hp
    obtain ⟨q, -, hq⟩ := Finset.mem_image.1 this
    have := congrArg Edge.relation hq
    simp only [starEdge, Rel.directed.injEq] at this
    exact this.2.1.symm

/-! ### One variable -/

theorem pyInt_natCast (n : ℕ) : pyInt (n : ℚ) = n := by
  unfold pyInt
  rw [if_pos (by positivity)]
  exact Int.floor_natCast n

theorem pos_iff {x : ℚ} : ((pyInt x : ℚ) = x ∧ pyInt x ≥ 1) ↔ ∃ n : ℕ, 0 < n ∧ x = n := by
  constructor
  · rintro ⟨h1, h2⟩
    refine ⟨(pyInt x).toNat, by omega, ?_⟩
    have : ((pyInt x).toNat : ℤ) = pyInt x := Int.toNat_of_nonneg (by omega)
    have h3 : (((pyInt x).toNat : ℤ) : ℚ) = (pyInt x : ℚ) := by rw [this]
    exact (h3.trans h1).symm.trans (Int.cast_natCast _)
  · rintro ⟨n, hn, rfl⟩
    rw [pyInt_natCast]
    refine ⟨by simp, by omega⟩

theorem addEntry_eq {cfg : Config} {v : Str} {c : Cpd} (hN : Net cfg) (hv : cfg.get? v = some c) {a : Str → ℕ}
    (ha : InDom (domOf cfg) (family cfg v) a) (k : ℚ) (o : Order Str) (b : RGBuilder Str Str Str) (hb : b.schema = schemaOf cfg) :
    addEntry k o v c.parents b (nameSet (family cfg v) a, prob cfg v a) =
      if (famCount k cfg v a : ℚ) = prob cfg v a * k then toPy (b.addOutcome ⟨b.prov, famGraph cfg v a⟩ (famCount k cfg v a)) else .error .assertion := by
  unfold addEntry
  simp only
  rw [hb, buildOutcome_ok hN hv ha]
  rfl

/-- The loops keep the provider and its declarations. -/
def Keeps (cfg : Config) (prov : ℕ) (b : RGBuilder Str Str Str) : Prop := b.prov = prov ∧ b.schema = schemaOf cfg ∧ b.Coherent

theorem addOutcome_cases (b : RGBuilder Str Str Str) (hb : b.Coherent) (g : SampleGraph Str Str Str) (c : ℤ) :
    (¬ 0 < c ∧ toPy (b.addOutcome ⟨b.prov, g⟩ c) = .error .assertion) ∨
    (0 < c ∧ ∃ b', toPy (b.addOutcome ⟨b.prov, g⟩ c) = .ok b' ∧ b'.prov = b.prov ∧ b'.schema = b.schema ∧ b'.Coherent) := by
  by_cases hc : 0 < c
  · right
    obtain ⟨k1, k2, k3, k4, -, -⟩ := addOutcome_ok b hb ⟨b.prov, g⟩ c rfl hc
    exact ⟨hc, _, by unfold toPy; rw [k1], k3, k4, k2⟩
  · left
    refine ⟨hc, ?_⟩
    unfold RGBuilder.addOutcome
    rw [if_neg (by simp), if_pos (by omega)]
    rfl

theorem addEntry_cases {cfg : Config} {v : Str} {c : Cpd} (hN : Net cfg) (hv : cfg.get? v = some c) {a : Str → ℕ}
    (ha : InDom (domOf cfg) (family cfg v) a) (k : ℚ) (o : Order Str) (prov : ℕ) (b : RGBuilder Str Str Str) (hb : Keeps cfg prov b) :
    ((∃ n : ℕ, 0 < n ∧ prob cfg v a * k = n) ∧ ∃ b', addEntry k o v c.parents b (nameSet (family cfg v) a, prob cfg v a) = .ok b' ∧ Keeps cfg prov b') ∨
    (¬ (∃ n : ℕ, 0 < n ∧ prob cfg v a * k = n) ∧ addEntry k o v c.parents b (nameSet (family cfg v) a, prob cfg v a) = .error .assertion) := by
  rw [addEntry_eq hN hv ha k o b hb.2.1, ← pos_iff]
  unfold famCount
  by_cases h1 : (pyInt (prob cfg v a * k) : ℚ) = prob cfg v a * k
  · rw [if_pos h1]
    rcases addOutcome_cases b hb.2.2 (famGraph cfg v a) (pyInt (prob cfg v a * k)) with ⟨h2, h3⟩ | ⟨h2, b', h3, h4, h5, h6⟩
    · exact Or.inr ⟨fun h => h2 (by omega), h3⟩
    · exact Or.inl ⟨⟨h1, by omega⟩, b', h3, h4.trans hb.1, h5.trans hb.2.1, h6⟩
  · rw [if_neg h1]
    exact Or.inr ⟨fun h => h1 h.1, rfl⟩

/-- All counts of one variable are positive integers. -/
def CountableAt (k : ℚ) (cfg : Config) (v : Str) : Prop :=
  ∀ a, InDom (domOf cfg) (family cfg v) a → ∃ n : ℕ, 0 < n ∧ prob cfg v a * k = n

theorem addVariable_cases {cfg : Config} {v : Str} {c : Cpd} (hN : Net cfg) (hv : cfg.get? v = some c) (k : ℚ) (o : Order Str) (prov : ℕ)
    (b : RGBuilder Str Str Str) (hb : Keeps cfg prov b) :
    (CountableAt k cfg v ∧ ∃ b', addVariable k o b (v, c) = .ok b' ∧ Keeps cfg prov b') ∨
    (¬ CountableAt k cfg v ∧ addVariable k o b (v, c) = .error .assertion) := by
  obtain ⟨d, hd, hget⟩ := C59_value_map hv (hN.fits v c hv)
  unfold addVariable
  simp only
  rw [hd]
  simp only
  have hent : ∀ e ∈ d.entries, ∃ a, InDom (domOf cfg) (family cfg v) a ∧ e = (nameSet (family cfg v) a, prob cfg v a) := by
    rintro ⟨key, q⟩ he
    obtain ⟨a, h1, h2, h3⟩ := (hget key q).1 ((d.mem_entries key q).1 he)
    exact ⟨a, h1, by rw [h2, h3]⟩
  have hkeep : ∀ b, ∀ e ∈ d.entries, ∀ b', Keeps cfg prov b → addEntry k o v c.parents b e = .ok b' → Keeps cfg prov b' := by
    intro b e he b' hb h
    obtain ⟨a, ha, rfl⟩ := hent e he
    rcases addEntry_cases hN hv ha k o prov b hb with ⟨-, b'', h1, h2⟩ | ⟨-, h1⟩
    · rw [h1] at h; cases h; exact h2
    · rw [h1] at h; cases h
  cases hf : d.entries.foldlM (addEntry k o v c.parents) b with
  | ok b' =>
    left
    obtain ⟨h1, h2⟩ := foldlM_inv (Keeps cfg prov) _ b b' hkeep hb hf
    refine ⟨fun a ha => ?_, b', rfl, h1⟩
    obtain ⟨x, y, hx, hy⟩ := h2 (nameSet (family cfg v) a, prob cfg v a) ((d.mem_entries _ _).2 ((hget _ _).2 ⟨a, ha, rfl, rfl⟩))
    rcases addEntry_cases hN hv ha k o prov x hx with ⟨h, -⟩ | ⟨-, h1⟩
    · exact h
    · rw [h1] at hy; cases hy
  | error er =>
    right
    obtain ⟨x, hx, e, he, h1⟩ := foldlM_error (Keeps cfg prov) _ b hkeep hb hf
    obtain ⟨a, ha, rfl⟩ := hent e he
    rcases addEntry_cases hN hv ha k o prov x hx with ⟨-, b', h2, -⟩ | ⟨h2, h3⟩
    · rw [h2] at h1; cases h1
    · rw [h3] at h1
      cases h1
      exact ⟨fun hc => h2 (hc a ha), rfl⟩

theorem addVariable_get {cfg : Config} {v : Str} {c : Cpd} (hN : Net cfg) (hv : cfg.get? v = some c) (k : ℚ) (o : Order Str) (prov : ℕ)
    (b : RGBuilder Str Str Str) (hb : Keeps cfg prov b) (hc : CountableAt k cfg v) (hfresh : ∀ a, b.outcomes.samples.get? (famGraph cfg v a) = none) :
    ∃ b', addVariable k o b (v, c) = .ok b' ∧ Keeps cfg prov b' ∧ ∀ g n, b'.outcomes.samples.get? g = some n ↔
      (∃ a, InDom (domOf cfg) (family cfg v) a ∧ g = famGraph cfg v a ∧ n = famCount k cfg v a) ∨ b.outcomes.samples.get? g = some n := by
  classical
  obtain ⟨d, hd, hget⟩ := C59_value_map hv (hN.fits v c hv)
  have hent : ∀ e, e ∈ d.entries → ∃ a, InDom (domOf cfg) (family cfg v) a ∧ e = (nameSet (family cfg v) a, prob cfg v a) := by
    rintro ⟨key, q⟩ he
    obtain ⟨a, h1, h2, h3⟩ := (hget key q).1 ((d.mem_entries key q).1 he)
    exact ⟨a, h1, by rw [h2, h3]⟩
  choose! A hA hA' using hent
  have hpos : ∀ a, InDom (domOf cfg) (family cfg v) a → (famCount k cfg v a : ℚ) = prob cfg v a * k ∧ famCount k cfg v a ≥ 1 :=
    fun a ha => pos_iff.2 (hc a ha)
  obtain ⟨b', r1, r2, r3, r4, r5⟩ := fold_outcomes (schemaOf cfg) prov (addEntry k o v c.parents) (fun e => famGraph cfg v (A e))
    (fun e => famCount k cfg v (A e)) d.entries b hb.2.2 hb.1 hb.2.1 (by
      intro b h1 h2 e he
      have := addEntry_eq hN hv (hA e he) k o b h2
      rw [← hA' e he, if_pos (hpos _ (hA e he)).1, h1] at this
      exact this) (fun e he => by have := (hpos _ (hA e he)).2; omega) (by
      refine List.Nodup.map_on ?_ d.nodup_entries
      intro e he e' he' h
      have hag := (famGraph_inj h).2
      rw [hA' e he, hA' e' he']
      refine Prod.ext ?_ ?_
      · exact Finset.image_congr fun w hw => by show valName w (A e w) = valName w (A e' w); rw [hag w hw]
      · exact prob_local v (fun c' hc' => hN.fits v c' hc') hag) (fun e _ => hfresh _)
  refine ⟨b', ?_, ⟨r3, r4, r2⟩, ?_⟩
  · unfold addVariable
    simp only
    rw [hd]
    exact r1
  · intro g n
    rw [r5]
    refine or_congr_left ⟨?_, ?_⟩
    · rintro ⟨e, he, h1, h2⟩; exact ⟨A e, hA e he, h1, h2⟩
    · rintro ⟨a, ha, rfl, rfl⟩
      have he : (nameSet (family cfg v) a, prob cfg v a) ∈ d.entries := (d.mem_entries _ _).2 ((hget _ _).2 ⟨a, ha, rfl, rfl⟩)
      have hk := hA' _ he
      have hag := nameSet_inj (Prod.ext_iff.1 hk).1
      refine ⟨_, he, ?_, ?_⟩
      · unfold famGraph; exact star_local hag
      · have hp : prob cfg v a = prob cfg v (A (nameSet (family cfg v) a, prob cfg v a)) := prob_local v (fun c' hc' => hN.fits v c' hc') hag
        unfold famCount
        exact congrArg (fun q => pyInt (q * k)) hp

theorem addVariables_get {cfg : Config} (hN : Net cfg) (k : ℚ) (o : Order Str) (prov : ℕ) : ∀ (l : List (Str × Cpd)) (b : RGBuilder Str Str Str),
    (∀ e ∈ l, cfg.get? e.1 = some e.2) → (l.map Prod.fst).Nodup → Keeps cfg prov b → (∀ e ∈ l, CountableAt k cfg e.1) →
    (∀ e ∈ l, ∀ a, b.outcomes.samples.get? (famGraph cfg e.1 a) = none) →
    ∃ b', l.foldlM (addVariable k o) b = .ok b' ∧ Keeps cfg prov b' ∧ ∀ g n, b'.outcomes.samples.get? g = some n ↔
      (∃ e ∈ l, ∃ a, InDom (domOf cfg) (family cfg e.1) a ∧ g = famGraph cfg e.1 a ∧ n = famCount k cfg e.1 a) ∨ b.outcomes.samples.get? g = some n
  | [], b, _, _, hb, _, _ => ⟨b, rfl, hb, by simp⟩
  | (v, c) :: t, b, hl, hnd, hb, hc, hf => by
    rw [List.map_cons, List.nodup_cons] at hnd
    obtain ⟨b1, e1, e2, e3⟩ := addVariable_get hN (hl (v, c) (by simp)) k o prov b hb (hc (v, c) (by simp)) (hf (v, c) (by simp))
    obtain ⟨b', r1, r2, r3⟩ := addVariables_get hN k o prov t b1 (fun e he => hl e (by simp [he])) hnd.2 e2 (fun e he => hc e (by simp [he])) (by
      intro e he a
      cases hq : b1.outcomes.samples.get? (famGraph cfg e.1 a) with
      | none => rfl
      | some n =>
        rcases (e3 _ _).1 hq with ⟨a', -, h, -⟩ | h
        · exact absurd (List.mem_map.2 ⟨e, he, (famGraph_inj h).1⟩) hnd.1
        · rw [hf e (by simp [he])] at h; cases h)
    refine ⟨b', by rw [List.foldlM_cons, e1]; exact r1, r2, fun g n => ?_⟩
    rw [r3, e3]
    simp only [List.mem_cons, exists_eq_or_imp]
    constructor
    · rintro (h | h | h)
      · exact Or.inl (Or.inr h)
      · exact Or.inl (Or.inl h)
      · exact Or.inr h
    · rintro ((h | h) | h)
      · exact Or.inr (Or.inl h)
      · exact Or.inl h
      · exact Or.inr (Or.inr h)

/-! ### `make_relation_graph` -/

theorem init_ok {cfg : Config} (hN : Net cfg) (prov : ℕ) :
    RGBuilder.init prov (declared cfg) {['r']} none = .ok ⟨schemaOf cfg, prov, Samples.empty prov, 0⟩ := by
  have h1 : (declared cfg).entries ≠ [] := by
    obtain ⟨⟨v, c⟩, hvc⟩ := List.exists_mem_of_ne_nil _ hN.ne
    intro h0
    have := (Dict.mem_entries _ _ _).2 ((declared_get cfg v _).2 ⟨c, (cfg.mem_entries v c).1 hvc, rfl⟩)
    rw [h0] at this
    simp at this
  unfold RGBuilder.init Schema.check
  rw [if_neg (by simp [h1]), if_neg h1, if_neg, if_neg (by simp)]
  · rfl
  · simp only [List.any_eq_true, decide_eq_true_eq, Prod.exists, not_exists, not_and]
    intro v xs hm h0
    rw [Dict.mem_entries, declared_get] at hm
    obtain ⟨c, hc, rfl⟩ := hm
    rw [Finset.image_eq_empty, Finset.range_eq_empty_iff] at h0
    have := (hN.fits v c hc).card
    omega

/-- **C59.** `make_relation_graph` on a network: it returns exactly if every probability times the factor is a positive integer (otherwise it
raises `AssertionError`), whatever the iteration orders; the outcomes are then, for each variable and each assignment of the variable and its
parents, the variable with a directed edge from each parent, counted with the probability of the table times the factor. -/
theorem C59_make_relation_graph {cfg : Config} (hN : Net cfg) (k : ℚ) (o : Order Str) (prov : ℕ) :
    (¬ Countable k cfg → makeRelationGraph k o prov cfg = .error .assertion) ∧
    (Countable k cfg → ∃ sp, makeRelationGraph k o prov cfg = .ok sp ∧ sp.schema = schemaOf cfg ∧ sp.outcomes.prov = prov ∧ sp.evidence = none ∧
      ∀ g n, sp.outcomes.samples.get? g = some n ↔
        ∃ v ∈ cfg.keys, ∃ a, InDom (domOf cfg) (family cfg v) a ∧ g = famGraph cfg v a ∧ (n : ℚ) = prob cfg v a * k) := by
  have hK : Keeps cfg prov ⟨schemaOf cfg, prov, Samples.empty prov, 0⟩ := ⟨rfl, rfl, rfl⟩
  have hl : ∀ e ∈ cfg.entries, cfg.get? e.1 = some e.2 := fun e he => (cfg.mem_entries' e).1 he
  unfold makeRelationGraph
  rw [init_ok hN]
  simp only
  constructor
  · intro hc
    have hkeep : ∀ b, ∀ e ∈ cfg.entries, ∀ b', Keeps cfg prov b → addVariable k o b e = .ok b' → Keeps cfg prov b' := by
      intro b e he b' hb h
      rcases addVariable_cases hN (hl e he) k o prov b hb with ⟨-, b'', h1, h2⟩ | ⟨-, h1⟩
      · rw [h1] at h; cases h; exact h2
      · rw [h1] at h; cases h
    cases hf : cfg.entries.foldlM (addVariable k o) ⟨schemaOf cfg, prov, Samples.empty prov, 0⟩ with
    | ok b' =>
      exfalso
      apply hc
      intro v hv a ha
      obtain ⟨c, hc'⟩ := (cfg.mem_keys v).1 hv
      obtain ⟨x, y, hx, hy⟩ := (foldlM_inv (Keeps cfg prov) _ _ b' hkeep hK hf).2 (v, c) ((cfg.mem_entries v c).2 hc')
      rcases addVariable_cases hN hc' k o prov x hx with ⟨h, -⟩ | ⟨-, h1⟩
      · exact h a ha
      · rw [h1] at hy; cases hy
    | error er =>
      obtain ⟨x, hx, e, he, h1⟩ := foldlM_error (Keeps cfg prov) _ _ hkeep hK hf
      rcases addVariable_cases hN (hl e he) k o prov x hx with ⟨-, b', h2, -⟩ | ⟨-, h3⟩
      · have h2' : addVariable k o x e = .ok b' := h2
        rw [h2'] at h1; cases h1
      · have h3' : addVariable k o x e = .error .assertion := h3
        rw [h3'] at h1; cases h1; rfl
  · intro hc
    obtain ⟨b', r1, r2, r3⟩ := addVariables_get hN k o prov cfg.entries ⟨schemaOf cfg, prov, Samples.empty prov, 0⟩ hl cfg.nodup hK
      (fun e he => hc e.1 ((cfg.mem_keys e.1).2 ⟨_, hl e he⟩)) (fun _ _ _ => rfl)
    rw [r1]
    simp only
    have hcount : ∀ v ∈ cfg.keys, ∀ a, InDom (domOf cfg) (family cfg v) a → ∀ n : ℤ, n = famCount k cfg v a ↔ (n : ℚ) = prob cfg v a * k := by
      intro v hv a ha n
      have := (pos_iff.2 (hc v hv a ha)).1
      rw [← this]
      unfold famCount
      exact Int.cast_inj.symm
    have hget : ∀ g n, b'.outcomes.samples.get? g = some n ↔
        ∃ v ∈ cfg.keys, ∃ a, InDom (domOf cfg) (family cfg v) a ∧ g = famGraph cfg v a ∧ (n : ℚ) = prob cfg v a * k := by
      intro g n
      rw [r3]
      simp only [show ∀ g n, (Samples.empty prov : Samples Str Str Str).samples.get? g = some n ↔ False from fun g n => by simp [Samples.empty], or_false]
      constructor
      · rintro ⟨e, he, a, ha, h1, h2⟩
        have hk := (cfg.mem_keys e.1).2 ⟨_, hl e he⟩
        exact ⟨e.1, hk, a, ha, h1, (hcount e.1 hk a ha n).1 h2⟩
      · rintro ⟨v, hv, a, ha, h1, h2⟩
        obtain ⟨c, hc'⟩ := (cfg.mem_keys v).1 hv
        exact ⟨(v, c), (cfg.mem_entries v c).2 hc', a, ha, h1, (hcount v hv a ha n).2 h2⟩
    refine ⟨⟨b'.schema, b'.outcomes, none⟩, ?_, r2.2.1, ?_, rfl, hget⟩
    · unfold RGBuilder.build
      rw [if_pos]
      obtain ⟨⟨v, c⟩, hvc⟩ := List.exists_mem_of_ne_nil _ hN.ne
      have hv := hl _ hvc
      have hvk : v ∈ cfg.keys := (cfg.mem_keys v).2 ⟨c, hv⟩
      have hF := hN.fits v c hv
      have ha : InDom (domOf cfg) (family cfg v) fun _ => 0 := by
        intro w hw
        rw [domOf, Finset.mem_range]
        rw [family_of hv] at hw
        have : w ∈ cfg.keys := by
          rcases Finset.mem_insert.1 hw with rfl | hw
          · exact hvk
          · exact hF.decl w (List.mem_toFinset.1 hw)
        obtain ⟨c', hc'⟩ := (cfg.mem_keys w).1 this
        rw [cardOf_of hc']
        exact (hN.fits w c' hc').card
      obtain ⟨n, -, hn⟩ := hc v hvk _ ha
      have := (hget (famGraph cfg v fun _ => 0) n).2 ⟨v, hvk, _, ha, rfl, by rw [hn]; simp⟩
      rw [← Dict.mem_entries] at this
      unfold Samples.bool
      cases he : b'.outcomes.samples.entries with
      | nil => rw [he] at this; simp at this
      | cons => simp [he]
    · exact r2.2.2.trans r2.1

end Verif.Bayes
