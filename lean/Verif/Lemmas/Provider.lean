import Verif.Model.Components

/-! Helper lemmas on the components provider: the cache invariant and its preservation. -/

set_option linter.unusedSectionVars false

namespace Verif
namespace Provider

variable {V X R : Type} [DecidableEq V] [DecidableEq X] [DecidableEq R]

/-- What the caches currently hold for a call. -/
def lookup (p : Provider V X R) : Call V X R → Option (Obj V X R)
  | .node v x => (p.nodes.get? (v, x)).map .node
  | .edge es r => (p.edges.get? (es, r)).map .edge

/-- The content of an object is what the call asked for. -/
def Answers : Call V X R → Obj V X R → Prop
  | .node v x, .node n => n.node = ⟨v, x⟩
  | .edge es r, .edge e => e.edge = ⟨es, r⟩ ∧ e.a ∈ es ∧ e.b ∈ es ∧ e.a ≠ e.b
  | _, _ => False

/-- Cache invariant. -/
structure Inv (p : Provider V X R) : Prop where
  fresh : ∀ c ob, p.lookup c = some ob → ob.oid < p.next
  inj : ∀ c c' ob ob', p.lookup c = some ob → p.lookup c' = some ob' → ob.oid = ob'.oid → c = c'
  answers : ∀ c ob, p.lookup c = some ob → Answers c ob
  nodesDeclared : ∀ v x n, p.nodes.get? (v, x) = some n → p.schema.declared v x = true

theorem inv_init (s : Schema V X R) : (init s).Inv := by
  constructor <;> intro c <;> try cases c
  all_goals simp [init, lookup]

omit [DecidableEq V] [DecidableEq X] [DecidableEq R] in
theorem ab_spec (o : Order (Node V X)) (e : Edge V X R) (a b : Node V X) (h : e.ab o = .ok (a, b)) :
    a ∈ e.endpoints ∧ b ∈ e.endpoints ∧ a ≠ b := by
  unfold Edge.ab at h
  have hnd := o.nodup e.endpoints
  have hm := o.mem e.endpoints
  split at h
  · rename_i a' b' t heq
    simp only [Except.ok.injEq, Prod.mk.injEq] at h
    obtain ⟨rfl, rfl⟩ := h
    rw [heq] at hnd hm
    refine ⟨(hm _).1 (by simp), (hm _).1 (by simp), ?_⟩
    simp only [List.nodup_cons, List.mem_cons, not_or] at hnd
    exact hnd.1.1
  · simp at h

/-- Everything needed about one step. -/
theorem step_spec (o : Order (Node V X)) (p : Provider V X R) (hp : p.Inv) (c : Call V X R) :
    (p.step o c).2.Inv ∧ (p.step o c).2.schema = p.schema ∧
    (∀ c' ob, p.lookup c' = some ob → (p.step o c).2.lookup c' = some ob) ∧
    (∀ ob, (p.step o c).1 = .ok ob → (p.step o c).2.lookup c = some ob) ∧
    (∀ e, (p.step o c).1 = .error e → (p.step o c).2 = p) ∧
    (∀ c' ob, (p.step o c).2.lookup c' = some ob → p.lookup c' = some ob ∨ (c' = c ∧ (p.step o c).1 = .ok ob)) := by
  cases c with
  | node v x =>
    unfold step getNode
    by_cases h1 : (p.schema.vars.get? v).isNone = true
    · simp only [h1, if_true]
      exact ⟨hp, by simp, fun _ _ h => h, by simp, by simp, fun _ _ h => Or.inl h⟩
    simp only [h1]
    by_cases h2 : (!p.schema.declared v x) = true
    · simp only [h2, if_true]
      exact ⟨hp, by simp, fun _ _ h => h, by simp, by simp, fun _ _ h => Or.inl h⟩
    simp only [h2]
    cases h3 : p.nodes.get? (v, x) with
    | some n =>
      refine ⟨hp, by simp, fun _ _ h => h, ?_, by simp, fun _ _ h => Or.inl h⟩
      intro ob h
      simp only [Bool.false_eq_true, if_false, Except.ok.injEq] at h
      simp [lookup, h3, ← h]
    | none =>
      simp only [Bool.false_eq_true, if_false, Bool.not_eq_true, Bool.not_eq_false'] at h2 ⊢
      have hlk : ∀ c', lookup { p with nodes := p.nodes.set (v, x) ⟨p.next, ⟨v, x⟩⟩, next := p.next + 1 } c' =
          if c' = .node v x then some (.node ⟨p.next, ⟨v, x⟩⟩) else p.lookup c' := by
        intro c'
        cases c' with
        | node v' x' =>
          simp only [lookup, Dict.get?_set, Call.node.injEq, Prod.mk.injEq]
          by_cases h : v = v' ∧ x = x'
          · obtain ⟨rfl, rfl⟩ := h; simp
          · have h' : ¬ (v' = v ∧ x' = x) := fun e => h ⟨e.1.symm, e.2.symm⟩
            simp [h, h']
        | edge => simp [lookup]
      have hnone : p.lookup (.node v x) = none := by simp [lookup, h3]
      refine ⟨⟨?_, ?_, ?_, ?_⟩, by trivial, ?_, ?_, by simp, ?_⟩
      · intro c' ob h
        rw [hlk] at h
        split at h
        · simp only [Option.some.injEq] at h; subst h; simp [Obj.oid]
        · exact Nat.lt_succ_of_lt (hp.fresh _ _ h)
      · intro c1 c2 o1 o2 h1 h2 he
        rw [hlk] at h1 h2
        split at h1 <;> split at h2
        · simp_all
        · simp only [Option.some.injEq] at h1; subst h1
          have := hp.fresh _ _ h2
          simp only [Obj.oid] at he this; omega
        · simp only [Option.some.injEq] at h2; subst h2
          have := hp.fresh _ _ h1
          simp only [Obj.oid] at he this; omega
        · exact hp.inj _ _ _ _ h1 h2 he
      · intro c' ob h
        rw [hlk] at h
        split at h
        · rename_i hc; simp only [Option.some.injEq] at h; subst h; subst hc; simp [Answers]
        · exact hp.answers _ _ h
      · intro v' x' n h
        simp only [Dict.get?_set] at h
        split at h
        · rename_i hc; simp only [Prod.mk.injEq] at hc; obtain ⟨rfl, rfl⟩ := hc; exact h2
        · exact hp.nodesDeclared _ _ _ h
      · intro c' ob h
        rw [hlk, if_neg, h]
        rintro rfl; simp [hnone] at h
      · intro ob h
        simp only [Except.ok.injEq] at h
        rw [hlk, if_pos rfl, h]
      · intro c' ob h
        rw [hlk] at h
        split at h
        · simp only [Option.some.injEq] at h; subst h; rename_i hc; exact Or.inr ⟨hc, rfl⟩
        · exact Or.inl h
  | edge es r =>
    unfold step getEdge
    by_cases h1 : ¬ es ⊆ p.cached
    · simp only [h1]
      exact ⟨hp, by simp, fun _ _ h => h, by simp, by simp, fun _ _ h => Or.inl h⟩
    simp only [h1]
    by_cases h2 : ¬ r.label ∈ p.schema.rels
    · simp only [h2]
      exact ⟨hp, by simp, fun _ _ h => h, by simp, by simp, fun _ _ h => Or.inl h⟩
    simp only [h2]
    generalize Schema.dirOk es r = d
    cases d with
    | false =>
      exact ⟨hp, by simp, fun _ _ h => h, by simp, by simp, fun _ _ h => Or.inl h⟩
    | true =>
      simp only [not_true, if_false]
      cases h3 : p.edges.get? (es, r) with
      | some n =>
        refine ⟨hp, by simp, fun _ _ h => h, ?_, by simp, fun _ _ h => Or.inl h⟩
        intro ob h
        simp only [Except.ok.injEq] at h
        simp [lookup, h3, ← h]
      | none =>
        simp only
        cases h4 : (⟨es, r⟩ : Edge V X R).ab o with
        | error er =>
          exact ⟨hp, by simp, fun _ _ h => h, by simp, by simp, fun _ _ h => Or.inl h⟩
        | ok ab =>
          obtain ⟨a, b⟩ := ab
          have hab := ab_spec o _ a b h4
          simp only
          have hlk : ∀ c', lookup { p with edges := p.edges.set (es, r) ⟨p.next, ⟨es, r⟩, a, b⟩, next := p.next + 1 } c' =
              if c' = .edge es r then some (.edge ⟨p.next, ⟨es, r⟩, a, b⟩) else p.lookup c' := by
            intro c'
            cases c' with
            | edge v' x' =>
              simp only [lookup, Dict.get?_set, Call.edge.injEq, Prod.mk.injEq]
              by_cases h : es = v' ∧ r = x'
              · obtain ⟨rfl, rfl⟩ := h; simp
              · have h' : ¬ (v' = es ∧ x' = r) := fun e => h ⟨e.1.symm, e.2.symm⟩
                simp [h, h']
            | node => simp [lookup]
          have hnone : p.lookup (.edge es r) = none := by simp [lookup, h3]
          refine ⟨⟨?_, ?_, ?_, ?_⟩, by trivial, ?_, ?_, by simp, ?_⟩
          · intro c' ob h
            rw [hlk] at h
            split at h
            · simp only [Option.some.injEq] at h; subst h; simp [Obj.oid]
            · exact Nat.lt_succ_of_lt (hp.fresh _ _ h)
          · intro c1 c2 o1 o2 h1 h2 he
            rw [hlk] at h1 h2
            split at h1 <;> split at h2
            · simp_all
            · simp only [Option.some.injEq] at h1; subst h1
              have := hp.fresh _ _ h2
              simp only [Obj.oid] at he this; omega
            · simp only [Option.some.injEq] at h2; subst h2
              have := hp.fresh _ _ h1
              simp only [Obj.oid] at he this; omega
            · exact hp.inj _ _ _ _ h1 h2 he
          · intro c' ob h
            rw [hlk] at h
            split at h
            · rename_i hc; simp only [Option.some.injEq] at h; subst h; subst hc
              exact ⟨rfl, hab⟩
            · exact hp.answers _ _ h
          · intro v' x' n h
            exact hp.nodesDeclared _ _ _ h
          · intro c' ob h
            rw [hlk, if_neg, h]
            rintro rfl; simp [hnone] at h
          · intro ob h
            simp only [Except.ok.injEq] at h
            rw [hlk, if_pos rfl, h]
          · intro c' ob h
            rw [hlk] at h
            split at h
            · simp only [Option.some.injEq] at h; subst h; rename_i hc; exact Or.inr ⟨hc, rfl⟩
            · exact Or.inl h

/-- Everything needed about a history. -/
theorem runCalls_spec (o : Order (Node V X)) (p : Provider V X R) (hp : p.Inv) (cs : List (Call V X R)) :
    (p.runCalls o cs).2.Inv ∧ (p.runCalls o cs).2.schema = p.schema ∧
    (∀ c' ob, p.lookup c' = some ob → (p.runCalls o cs).2.lookup c' = some ob) ∧
    (p.runCalls o cs).1.length = cs.length ∧
    (∀ c ob, (c, .ok ob) ∈ cs.zip (p.runCalls o cs).1 → (p.runCalls o cs).2.lookup c = some ob) ∧
    (∀ c ob, (p.runCalls o cs).2.lookup c = some ob → p.lookup c = some ob ∨ (c, .ok ob) ∈ cs.zip (p.runCalls o cs).1) := by
  induction cs generalizing p with
  | nil => exact ⟨hp, rfl, fun _ _ h => h, rfl, by simp [runCalls], fun _ _ h => Or.inl h⟩
  | cons c cs ih =>
    obtain ⟨s1, s2, s3, s4, s5, s6⟩ := step_spec o p hp c
    obtain ⟨r1, r2, r3, r4, r5, r6⟩ := ih _ s1
    refine ⟨r1, r2.trans s2, fun c' ob h => r3 _ _ (s3 _ _ h), by simp [runCalls, r4], ?_, ?_⟩
    · intro c' ob h
      simp only [runCalls, List.zip_cons_cons, List.mem_cons, Prod.mk.injEq] at h
      rcases h with ⟨rfl, h⟩ | h
      · exact r3 _ _ (s4 _ h.symm)
      · exact r5 _ _ h
    · intro c' ob h
      simp only [runCalls, List.zip_cons_cons, List.mem_cons, Prod.mk.injEq]
      rcases r6 c' ob h with h | h
      · rcases s6 _ _ h with h | ⟨h, h'⟩
        · exact Or.inl h
        · exact Or.inr (Or.inl ⟨h, h'.symm⟩)
      · exact Or.inr (Or.inr h)

theorem mem_cached (p : Provider V X R) (hp : p.Inv) (n : Node V X) :
    n ∈ p.cached ↔ ∃ ob, p.lookup (.node n.var n.val) = some (.node ob) := by
  unfold cached
  simp only [List.mem_toFinset, List.mem_map, Dict.vals]
  constructor
  · rintro ⟨ob, ⟨⟨⟨v, x⟩, ob'⟩, hmem, rfl⟩, rfl⟩
    have h1 := (p.nodes.mem_entries _ _).1 hmem
    have h2 := hp.answers (.node v x) (.node ob') (by simp [lookup, h1])
    simp only [Answers] at h2
    exact ⟨ob', by simp [lookup, h1, h2]⟩
  · rintro ⟨ob, h⟩
    have h2 := hp.answers _ _ h
    simp only [lookup, Option.map_eq_some_iff, Obj.node.injEq, exists_eq_right] at h
    exact ⟨ob, ⟨_, (p.nodes.mem_entries _ _).2 h, rfl⟩, h2⟩

theorem ab_ok (o : Order (Node V X)) (e : Edge V X R) (h : 2 ≤ e.endpoints.card) : ∃ a b, e.ab o = .ok (a, b) := by
  unfold Edge.ab
  rw [← o.length_run] at h
  match hr : o.run e.endpoints with
  | [] => rw [hr] at h; simp at h
  | [_] => rw [hr] at h; simp at h
  | a :: b :: _ => exact ⟨a, b, rfl⟩

theorem ab_error (o : Order (Node V X)) (e : Edge V X R) (h : e.endpoints.card < 2) : e.ab o = .error .indexError := by
  unfold Edge.ab
  rw [← o.length_run] at h
  match hr : o.run e.endpoints with
  | [] => rfl
  | [_] => rfl
  | a :: b :: _ => rw [hr] at h; simp only [List.length_cons] at h; omega

/-- The cache does not matter for the content of the result of `get_node`. -/
theorem getNode_value (p : Provider V X R) (hp : p.Inv) (v : V) (x : X) :
    (p.getNode v x).1.map NodeObj.node = p.schema.getNode v x := by
  unfold getNode Schema.getNode
  by_cases h1 : (p.schema.vars.get? v).isNone = true
  · have : p.schema.declared v x = false := by
      unfold Schema.declared
      rw [Option.isNone_iff_eq_none] at h1
      simp [h1]
    simp [h1, this, Except.map]
  simp only [h1]
  cases h2 : p.schema.declared v x with
  | false => simp [Except.map]
  | true =>
    cases h3 : p.nodes.get? (v, x) with
    | some n =>
      have := hp.answers (.node v x) (.node n) (by simp [lookup, h3])
      simp only [Answers] at this
      simp [Except.map, this]
    | none => simp [Except.map]

/-- The cache does not matter for the content of the result of `get_edge`, once the endpoints were obtained. -/
theorem getEdge_value (o : Order (Node V X)) (p : Provider V X R) (hp : p.Inv) (es : Finset (Node V X)) (r : Rel V R)
    (hc : es ⊆ p.cached) :
    (p.getEdge o es r).1.map EdgeObj.edge = p.schema.getEdge es r := by
  unfold getEdge Schema.getEdge Schema.relOk
  simp only [hc, not_true, if_false]
  by_cases h2 : r.label ∈ p.schema.rels
  · simp only [h2, not_true, if_false, decide_true, Bool.true_and]
    generalize Schema.dirOk es r = d
    cases d with
    | false => simp [Except.map]
    | true =>
      simp only [not_true, if_false, if_true]
      cases h3 : p.edges.get? (es, r) with
      | some n =>
        have h4 := hp.answers (.edge es r) (.edge n) (by simp [lookup, h3])
        simp only [Answers] at h4
        have : ¬ es.card < 2 := by
          have : ({n.a, n.b} : Finset (Node V X)) ⊆ es := by
            intro y hy; simp only [Finset.mem_insert, Finset.mem_singleton] at hy
            rcases hy with rfl | rfl
            · exact h4.2.1
            · exact h4.2.2.1
          have := Finset.card_le_card this
          rw [Finset.card_pair h4.2.2.2] at this
          omega
        simp [Except.map, h4.1, this]
      | none =>
        simp only
        by_cases h4 : es.card < 2
        · rw [ab_error o ⟨es, r⟩ h4]; simp [h4, Except.map]
        · obtain ⟨a, b, hab⟩ := ab_ok o (⟨es, r⟩ : Edge V X R) (by simpa using h4)
          rw [hab]; simp [h4, Except.map]
  · simp [h2, Except.map]

end Provider
end Verif
