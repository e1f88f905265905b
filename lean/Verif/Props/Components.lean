import Verif.Lemmas.Provider

/-!
# C01, C02, C03 – graph components
-/

set_option linter.unusedSectionVars false

namespace Verif

variable {V X R : Type} [DecidableEq V] [DecidableEq X] [DecidableEq R]

/-- The object has the content the call asked for (specification of C01). -/
def HasContent : Provider.Call V X R → Provider.Obj V X R → Prop
  | .node v x, .node n => n.node = ⟨v, x⟩
  | .edge es r, .edge e => e.edge = ⟨es, r⟩
  | _, _ => False

/-- C01. In any history of `get_node` / `get_edge` calls on one provider (failing calls included), two successful
calls return the very same object iff they ask for the same thing, and each returned object has the content asked
for. Calls and results are paired by position. -/
theorem C01_interning (o : Order (Node V X)) (s : Schema V X R) (cs : List (Provider.Call V X R)) :
    let rs := ((Provider.init s).runCalls o cs).1
    rs.length = cs.length ∧
    ∀ i j (hi : i < cs.length) (hj : j < cs.length) ob ob', rs[i]? = some (.ok ob) → rs[j]? = some (.ok ob') →
      HasContent cs[i] ob ∧ ((ob.oid = ob'.oid ↔ cs[i] = cs[j]) ∧ (ob = ob' ↔ cs[i] = cs[j])) := by
  intro rs
  obtain ⟨hinv, -, -, hlen, hres, -⟩ := Provider.runCalls_spec o _ (Provider.inv_init s) cs
  refine ⟨hlen, ?_⟩
  intro i j hi hj ob ob' h1 h2
  have key : ∀ i (hi : i < cs.length) ob, rs[i]? = some (.ok ob) →
      ((Provider.init s).runCalls o cs).2.lookup cs[i] = some ob := by
    intro i hi ob h
    apply hres
    rw [List.mem_iff_getElem?]
    exact ⟨i, by rw [List.getElem?_zip_eq_some]; exact ⟨List.getElem?_eq_getElem hi, h⟩⟩
  have k1 := key i hi ob h1
  have k2 := key j hj ob' h2
  refine ⟨?_, ⟨fun h => hinv.inj _ _ _ _ k1 k2 h, ?_⟩, ⟨fun h => hinv.inj _ _ _ _ k1 k2 (by rw [h]), ?_⟩⟩
  · have := hinv.answers _ _ k1
    revert this
    cases cs[i] <;> cases ob <;> simp [HasContent, Provider.Answers]
    intro h _ _ _; exact h
  · intro h; rw [h, k2] at k1; simp at k1; rw [k1]
  · intro h; rw [h, k2] at k1; simp at k1; rw [k1]

/-- Non-vacuity of C01: a history with two successful equal calls and a different one. -/
example : ∃ (s : Schema ℕ ℕ ℕ) (cs : List (Provider.Call ℕ ℕ ℕ)), ∀ o : Order (Node ℕ ℕ),
    ((Provider.init s).runCalls o cs).1 =
      [.ok (.node ⟨0, ⟨0, 0⟩⟩), .error .assertion, .ok (.node ⟨0, ⟨0, 0⟩⟩), .ok (.node ⟨1, ⟨0, 1⟩⟩)] :=
  ⟨⟨⟨[(0, {0, 1})], by simp⟩, {0}⟩, [.node 0 0, .node 0 2, .node 0 0, .node 0 1], fun _ => rfl⟩

/-- A provider state reached by some history of calls. -/
def Reached (o : Order (Node V X)) (s : Schema V X R) (cs : List (Provider.Call V X R)) : Provider V X R :=
  ((Provider.init s).runCalls o cs).2

/-- `n` was handed out by a successful `get_node` call of the history. -/
def Obtained (o : Order (Node V X)) (s : Schema V X R) (cs : List (Provider.Call V X R)) (n : Node V X) : Prop :=
  ∃ i : ℕ, cs[i]? = some (Provider.Call.node n.var n.val) ∧
    ∃ ob, ((Provider.init s).runCalls o cs).1[i]? = some (Except.ok ob)

/-- C02, `get_node`: in every reachable state the call succeeds exactly when the value was declared for the variable,
otherwise it raises `AssertionError` and changes nothing. -/
theorem C02_get_node (o : Order (Node V X)) (s : Schema V X R) (cs : List (Provider.Call V X R)) (v : V) (x : X) :
    let p := Reached o s cs
    (Returns (p.getNode v x).1 ↔ ∃ xs, s.vars.get? v = some xs ∧ x ∈ xs) ∧
    (¬ Returns (p.getNode v x).1 → p.getNode v x = (.error .assertion, p)) := by
  intro p
  obtain ⟨hinv, hs, -⟩ := Provider.runCalls_spec o _ (Provider.inv_init s) cs
  have hs : p.schema = s := hs
  unfold Provider.getNode
  rw [hs]
  have hd : s.declared v x = true ↔ ∃ xs, s.vars.get? v = some xs ∧ x ∈ xs := by
    unfold Schema.declared
    cases s.vars.get? v <;> simp
  rw [← hd]
  by_cases h1 : (s.vars.get? v).isNone = true
  · have h2 : s.declared v x = false := by
      unfold Schema.declared
      rw [Option.isNone_iff_eq_none] at h1
      simp [h1]
    simp [h1, h2, Returns]
  · cases h2 : s.declared v x with
    | false => simp [h1, Returns]
    | true => cases h3 : p.nodes.get? (v, x) <;> simp [h1, Returns]

/-- C02, `get_edge`: in every reachable state and for a two-endpoint set, the call succeeds exactly when both endpoints
were obtained from this provider before, the label is declared and a directed relation mentions endpoint variables
only; otherwise it raises `AssertionError` and changes nothing. -/
theorem C02_get_edge (o : Order (Node V X)) (s : Schema V X R) (cs : List (Provider.Call V X R))
    (es : Finset (Node V X)) (r : Rel V R) (h2 : es.card = 2) :
    let p := Reached o s cs
    (Returns (p.getEdge o es r).1 ↔
      (∀ n ∈ es, Obtained o s cs n) ∧
      (match r with
        | .plain l => l ∈ s.rels
        | .directed a b l => l ∈ s.rels ∧ (∃ n ∈ es, n.var = a) ∧ (∃ n ∈ es, n.var = b))) ∧
    (¬ Returns (p.getEdge o es r).1 → p.getEdge o es r = (.error .assertion, p)) := by
  intro p
  obtain ⟨hinv, hs, -, hlen, hres, hres'⟩ := Provider.runCalls_spec o _ (Provider.inv_init s) cs
  have hs : p.schema = s := hs
  have hobt : es ⊆ p.cached ↔ ∀ n ∈ es, Obtained o s cs n := by
    have : ∀ n, n ∈ p.cached ↔ Obtained o s cs n := by
      intro n
      rw [Provider.mem_cached p hinv]
      constructor
      · rintro ⟨ob, h⟩
        rcases hres' _ _ h with h | h
        · simp [Provider.init, Provider.lookup] at h
        · obtain ⟨i, hi⟩ := List.mem_iff_getElem?.1 h
          rw [List.getElem?_zip_eq_some] at hi
          exact ⟨i, hi.1, _, hi.2⟩
      · rintro ⟨i, hi, ob, hob⟩
        have h := hres (.node n.var n.val) ob (List.mem_iff_getElem?.2 ⟨i, by
          rw [List.getElem?_zip_eq_some]; exact ⟨hi, hob⟩⟩)
        have ha := hinv.answers _ _ h
        cases ob with
        | node ob => exact ⟨ob, h⟩
        | edge _ => simp [Provider.Answers] at ha
    constructor
    · intro h n hn; exact (this n).1 (h hn)
    · intro h n hn; exact (this n).2 (h n hn)
  have hrel : (r.label ∈ s.rels ∧ Schema.dirOk es r = true) ↔ (match r with
        | .plain l => l ∈ s.rels
        | .directed a b l => l ∈ s.rels ∧ (∃ n ∈ es, n.var = a) ∧ (∃ n ∈ es, n.var = b)) := by
    cases r <;> simp [Rel.label, Schema.dirOk]
  rw [← hrel, ← hobt]
  unfold Provider.getEdge
  rw [hs]
  obtain ⟨a, b, hab⟩ := Provider.ab_ok o (⟨es, r⟩ : Edge V X R) (by simp [h2])
  by_cases c1 : es ⊆ p.cached
  · by_cases c2 : r.label ∈ s.rels
    · cases c3 : Schema.dirOk es r with
      | false => simp [c1, c2, Returns]
      | true => cases c4 : p.edges.get? (es, r) <;> simp [c1, c2, Returns, hab]
    · simp [c1, c2, Returns]
  · simp [c1, Returns]

/-- Non-vacuity of C02: after obtaining two nodes an edge between them is accepted. -/
example : ∃ (s : Schema ℕ ℕ ℕ) (cs : List (Provider.Call ℕ ℕ ℕ)) (es : Finset (Node ℕ ℕ)), es.card = 2 ∧
    ∀ o : Order (Node ℕ ℕ), Returns ((Reached o s cs).getEdge o es (.directed 0 1 0)).1 := by
  refine ⟨⟨⟨[(0, {0, 1}), (1, {0})], by simp⟩, {0}⟩, [.node 0 0, .node 1 0], {⟨0, 0⟩, ⟨1, 0⟩}, rfl, fun o => ?_⟩
  refine (C02_get_edge o _ _ _ _ rfl).1.2 ⟨?_, ?_⟩
  · intro n hn
    simp only [Finset.mem_insert, Finset.mem_singleton] at hn
    rcases hn with rfl | rfl
    · exact ⟨0, rfl, _, rfl⟩
    · exact ⟨1, rfl, _, rfl⟩
  · exact ⟨by simp, ⟨⟨0, 0⟩, by simp⟩, ⟨⟨1, 0⟩, by simp⟩⟩

/-- C02, construction: a provider can be made exactly when there is at least one variable, every variable has at least
one value and there is at least one relation. -/
theorem C02_init (vars : Dict V (Finset X)) (rels : Finset R) :
    (Returns (Schema.check vars rels) ↔
      (∃ v, v ∈ vars.keys) ∧ (∀ v xs, vars.get? v = some xs → ∃ x, x ∈ xs) ∧ (∃ r, r ∈ rels)) ∧
    (¬ Returns (Schema.check vars rels) → Schema.check vars rels = .error .assertion) ∧
    (∀ s, Schema.check vars rels = .ok s → s = ⟨vars, rels⟩) := by
  have e1 : (∃ v, v ∈ vars.keys) ↔ vars.entries ≠ [] := by
    unfold Dict.keys
    constructor
    · rintro ⟨v, hv⟩ h; simp [h] at hv
    · intro h
      obtain ⟨a, t, hat⟩ := List.exists_cons_of_ne_nil h
      exact ⟨a.1, by simp [hat]⟩
  have e2 : (∀ v xs, vars.get? v = some xs → ∃ x, x ∈ xs) ↔ ¬ (vars.entries.any (fun p => p.2 = ∅)) = true := by
    simp only [List.any_eq_true, decide_eq_true_eq, not_exists, not_and]
    constructor
    · rintro h ⟨v, xs⟩ hm he
      obtain ⟨x, hx⟩ := h v xs ((vars.mem_entries _ _).1 hm)
      simp only at he; simp [he] at hx
    · intro h v xs hg
      exact Finset.nonempty_iff_ne_empty.2 (h _ ((vars.mem_entries _ _).2 hg))
  have e3 : (∃ r, r ∈ rels) ↔ rels ≠ ∅ := Finset.nonempty_iff_ne_empty
  rw [e1, e2, e3]
  unfold Schema.check
  by_cases h1 : vars.entries = []
  · simp [h1, Returns]
  · by_cases h2 : (vars.entries.any (fun p => p.2 = ∅)) = true
    · simp only [h1, h2, if_false, if_true, Returns]; simp
    · by_cases h3 : rels = ∅
      · simp only [h1, h2, h3, if_false, if_true, Returns]; simp
      · simp only [h1, h2, h3, if_false, Returns]; simp [eq_comm, h1, h3]

/-- C03. For an edge with two endpoints and any internal ordering, `opposite_endpoint(n)` returns exactly the endpoint
other than `n` when `n` is an endpoint and raises `AssertionError` when it is not. -/
theorem C03_opposite_endpoint (o : Order (Node V X)) (e : Edge V X R) (h2 : e.endpoints.card = 2) (n : Node V X) :
    (∀ m, e.oppositeEndpoint o n = .ok m ↔ n ∈ e.endpoints ∧ m ∈ e.endpoints ∧ m ≠ n) ∧
    (n ∉ e.endpoints → e.oppositeEndpoint o n = .error .assertion) ∧
    (n ∈ e.endpoints → ∃ m, e.oppositeEndpoint o n = .ok m ∧ e.oppositeEndpoint o m = .ok n) := by
  obtain ⟨a, b, hl⟩ := List.length_eq_two.1 ((o.length_run e.endpoints).trans h2)
  have hnd := o.nodup e.endpoints
  have hab : a ≠ b := by rw [hl] at hnd; simpa using hnd
  have hmem : ∀ m, m ∈ e.endpoints ↔ m = a ∨ m = b := by
    intro m; rw [← o.mem, hl]; simp
  have hop : ∀ m, e.oppositeEndpoint o m =
      if a = m then .ok b else if b = m then .ok a else .error .assertion := by
    intro m; unfold Edge.oppositeEndpoint Edge.ab; rw [hl]
  have hba : b ≠ a := hab.symm
  refine ⟨?_, ?_, ?_⟩
  · intro m
    rw [hop, hmem, hmem]
    by_cases h1 : a = n
    · subst h1; simp; constructor
      · rintro rfl; exact ⟨Or.inr rfl, hba⟩
      · rintro ⟨rfl | rfl, h⟩
        · exact absurd rfl h
        · rfl
    · by_cases h3 : b = n
      · subst h3; simp [hab]; constructor
        · rintro rfl; exact ⟨Or.inl rfl, hab⟩
        · rintro ⟨rfl | rfl, h⟩
          · rfl
          · exact absurd rfl h
      · simp [h1, h3, Ne.symm h1, Ne.symm h3]
  · intro h
    rw [hmem, not_or] at h
    rw [hop, if_neg (Ne.symm h.1), if_neg (Ne.symm h.2)]
  · intro h
    rcases (hmem n).1 h with rfl | rfl
    · exact ⟨b, by simp [hop], by simp [hop, hab]⟩
    · exact ⟨a, by simp [hop, hab], by simp [hop]⟩

/-- Non-vacuity of C03. -/
example : ∃ e : Edge ℕ ℕ ℕ, e.endpoints.card = 2 ∧
    ∀ o, e.oppositeEndpoint o ⟨0, 0⟩ = .ok ⟨1, 0⟩ := by
  refine ⟨⟨{⟨0, 0⟩, ⟨1, 0⟩}, .plain 0⟩, rfl, fun o => ?_⟩
  exact ((C03_opposite_endpoint o _ rfl _).1 _).2 ⟨by simp, by simp, by simp⟩

end Verif
