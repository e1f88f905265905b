import Verif.Props.Builder

/-!
# C06: which builder histories give single-valued samples

`add_relation` and `build_from_edges` do not look at the values already present (sample_graph.py 124-170), `join_sample`
does (222-226). The theorems say exactly which calls break "one value per variable" in histories that mix all of them.
-/

set_option linter.unusedSectionVars false

namespace Verif

variable {V X R : Type} [DecidableEq V] [DecidableEq X] [DecidableEq R]

/-- A call changing a builder. -/
inductive BCall (V X R : Type) where
  | rel (c : RelCall V X R)
  | join (oE : Order (Edge V X R)) (smp : Sample V X R)

/-- Perform one call. -/
def BCall.apply (s : Schema V X R) (b : Builder V X R) : BCall V X R → Builder V X R × Option Err
  | .rel c => c.apply s b
  | .join oE smp => b.joinSample oE smp

/-- Perform calls one after another, exceptions being caught by the user. -/
def runBCalls (s : Schema V X R) (b : Builder V X R) (cs : List (BCall V X R)) : Builder V X R :=
  cs.foldl (fun b c => (c.apply s b).1) b

/-- Joined samples are well formed (every sample made by a builder is, see C05 and C08). -/
def BCall.Ok : BCall V X R → Prop
  | .rel _ => True
  | .join _ smp => WellFormed smp.graph

/-- The call names a node whose variable is already there with another value. -/
def BCall.SecondValue (b : Builder V X R) : BCall V X R → Prop
  | .rel c => ∃ p ∈ c.args.1, ∃ n ∈ b.nodes, n.var = p.1 ∧ n.val ≠ p.2
  | .join _ _ => False

theorem Builder.joinSample_keeps (oE : Order (Edge V X R)) (b : Builder V X R) (hb : b.Inv) (smp : Sample V X R)
    (hw : WellFormed smp.graph) :
    (b.joinSample oE smp).1.Inv ∧ b.nodes ⊆ (b.joinSample oE smp).1.nodes ∧
      (SingleValued b.nodes → SingleValued (b.joinSample oE smp).1.nodes) := by
  by_cases hne : smp.graph.edges ≠ ∅
  · unfold Builder.joinSample
    split
    · exact ⟨hb, fun _ h => h, fun h => h⟩
    · have := Builder.joinEdges_induct
        (fun c => c.Inv ∧ b.nodes ⊆ c.nodes ∧ (SingleValued b.nodes → SingleValued c.nodes)) smp.graph.edges
        (fun c e hc he ht hj => ⟨c.inv_join_step hc.1 e (hw.good e he) ht hj, hc.2.1.trans (c.mono_insertEdge e).1,
          fun h => c.singleValued_join_step hc.1 (hc.2.2 h) e (hw.good e he) hj⟩)
        oE smp.graph.edges.card smp.graph.edges (fun _ h => h) b ⟨hb, fun _ h => h, fun h => h⟩
      exact this
  · rw [not_not] at hne
    have hcase : (b.joinSample oE smp).1 = b ∨ (b.joinSample oE smp).2 = none := by
      unfold Builder.joinSample
      split
      · exact Or.inl rfl
      · rw [if_neg (not_not.2 hne)]
        split
        · exact Or.inr rfl
        · exact Or.inl rfl
    rcases hcase with h | h
    · rw [h]; exact ⟨hb, fun _ h => h, fun h => h⟩
    · by_cases hn : smp.graph.nodes.Nonempty
      · obtain ⟨h1, h2, -⟩ := C07_join_sample oE b hb smp hw hn
        obtain ⟨e1, -, -, e4⟩ := h2 h
        have hj := h1.1 h
        refine ⟨e4, by rw [e1]; exact Finset.subset_union_left, fun hs => ?_⟩
        rw [e1]
        intro x hx y hy hv
        by_cases hxb : x ∈ b.nodes
        · by_cases hyb : y ∈ b.nodes
          · exact hs x hxb y hyb hv
          · exact hj.values y ((Finset.mem_union.1 hy).resolve_left hyb) hyb x hx hv
        · exact (hj.values x ((Finset.mem_union.1 hx).resolve_left hxb) hxb y hy hv.symm).symm
      · rw [Finset.not_nonempty_iff_eq_empty] at hn
        exfalso
        revert h
        unfold Builder.joinSample
        split
        · simp
        · rw [if_neg (not_not.2 hne)]
          simp [hn]

/-- One call: the invariant stays, nodes are never lost, and a single-valued graph stays so unless the call is an
accepted relation naming a second value. -/
theorem BCall.apply_keeps (s : Schema V X R) (b : Builder V X R) (hb : b.Inv) (c : BCall V X R) (hc : c.Ok) :
    (c.apply s b).1.Inv ∧ b.nodes ⊆ (c.apply s b).1.nodes ∧
      (SingleValued (c.apply s b).1.nodes ↔
        SingleValued b.nodes ∧ ((c.apply s b).2 = none → ¬ c.SecondValue b)) := by
  cases c with
  | join oE smp =>
    obtain ⟨h1, h2, h3⟩ := Builder.joinSample_keeps oE b hb smp hc
    refine ⟨h1, h2, fun h => ⟨fun x hx y hy => h x (h2 hx) y (h2 hy), fun _ => ?_⟩, fun h => h3 h.1⟩
    exact fun h => h
  | rel c =>
    simp only [BCall.apply, RelCall.apply_eq, BCall.SecondValue]
    refine ⟨b.inv_addRelation s hb _ _, ?_⟩
    rcases b.addRelation_eq s hb c.args.1 c.args.2 with ⟨h1, -, -, -, he⟩ | ⟨-, he⟩
    · rw [he]
      refine ⟨(b.mono_insertEdge _).1, ?_⟩
      simp only [true_implies]
      have hsub := (b.mono_insertEdge ⟨toNodes c.args.1, c.args.2⟩).1
      constructor
      · intro h
        refine ⟨fun x hx y hy => h x (hsub hx) y (hsub hy), ?_⟩
        rintro ⟨p, hp, n, hn, hv, hx⟩
        have := h n (hsub hn) ⟨p.1, p.2⟩ (by
          simp only [Builder.insertEdge, Finset.mem_union]; exact Or.inr ((mem_toNodes _ _).2 hp)) hv
        apply hx; rw [this]
      · rintro ⟨h, hno⟩
        have hno' : ∀ n ∈ b.nodes, ∀ m ∈ toNodes c.args.1, n.var = m.var → n = m := by
          intro n hn m hm hv
          by_contra hne
          refine hno ⟨_, (mem_toNodes _ _).1 hm, n, hn, hv, fun hx => hne ?_⟩
          cases n; cases m; simp_all
        obtain ⟨p, q, hpq, hE⟩ := h1
        have hin : ∀ n ∈ toNodes c.args.1, ∀ m ∈ toNodes c.args.1, n.var = m.var → n = m := by
          intro n hn m hm hv
          have hn := (mem_toNodes _ _).1 hn
          have hm := (mem_toNodes _ _).1 hm
          rw [hE] at hn hm
          simp only [Finset.mem_insert, Finset.mem_singleton] at hn hm
          obtain ⟨nv, nx⟩ := n
          obtain ⟨mv, mx⟩ := m
          simp only at hn hm hv
          subst hv
          rcases hn with rfl | rfl <;> rcases hm with hm | hm
          · rw [Prod.mk.injEq] at hm; rw [hm.2]
          · subst hm; exact absurd rfl hpq
          · subst hm; exact absurd rfl hpq
          · rw [Prod.mk.injEq] at hm; rw [hm.2]
        intro x hx y hy hv
        simp only [Builder.insertEdge, Finset.mem_union] at hx hy
        rcases hx with hx | hx <;> rcases hy with hy | hy
        · exact h x hx y hy hv
        · exact hno' x hx y hy hv
        · exact (hno' y hy x hx hv.symm).symm
        · exact hin x hx y hy hv
    · rw [he]
      exact ⟨fun _ h => h, fun h => ⟨h, fun h' => by simp at h'⟩, fun h => h.1⟩

/-- C06, exact form. For every history mixing `add_relation`, `add_directed_relation` and `join_sample` (of well formed
samples, under every iteration order) on a fresh builder, exceptions being caught: what is held at the end is single-valued
if and only if no accepted relation call of the history named a node whose variable was, at the time of the call, present
with another value. In particular `join_sample` never brings in a second value, and nothing repairs one. -/
theorem C06_history (s : Schema V X R) (prov : Nat) (cs : List (BCall V X R)) (hok : ∀ c ∈ cs, c.Ok) :
    SingleValued (runBCalls s (Builder.new prov) cs).nodes ↔
      ∀ before c after, cs = before ++ c :: after →
        (c.apply s (runBCalls s (Builder.new prov) before)).2 = none →
          ¬ c.SecondValue (runBCalls s (Builder.new prov) before) := by
  have key : ∀ (cs : List (BCall V X R)) (b : Builder V X R), b.Inv → (∀ c ∈ cs, c.Ok) →
      (SingleValued (runBCalls s b cs).nodes ↔ SingleValued b.nodes ∧
        ∀ before c after, cs = before ++ c :: after → (c.apply s (runBCalls s b before)).2 = none →
          ¬ c.SecondValue (runBCalls s b before)) := by
    intro cs
    induction cs with
    | nil => intro b _ _; exact ⟨fun h => ⟨h, by simp⟩, fun h => h.1⟩
    | cons c cs ih =>
      intro b hb hok
      obtain ⟨k1, -, k3⟩ := BCall.apply_keeps s b hb c (hok c (by simp))
      have hstep : runBCalls s b (c :: cs) = runBCalls s (c.apply s b).1 cs := rfl
      rw [hstep, ih _ k1 (fun x hx => hok x (by simp [hx])), k3]
      constructor
      · rintro ⟨⟨h1, h2⟩, h3⟩
        refine ⟨h1, ?_⟩
        intro before d after heq hacc
        cases before with
        | nil =>
          simp only [List.nil_append, List.cons.injEq] at heq
          obtain ⟨rfl, rfl⟩ := heq
          exact h2 hacc
        | cons d' before =>
          simp only [List.cons_append, List.cons.injEq] at heq
          obtain ⟨rfl, rfl⟩ := heq
          exact h3 before d after rfl hacc
      · rintro ⟨h1, h2⟩
        refine ⟨⟨h1, fun hacc => h2 [] c cs rfl hacc⟩, ?_⟩
        intro before d after heq hacc
        exact h2 (c :: before) d after (by rw [heq]; rfl) hacc
  rw [key cs _ (Builder.inv_new prov) hok]
  exact ⟨fun h => h.2, fun h => ⟨by simp [SingleValued, Builder.new], h⟩⟩

/-- The histories of `C06_history` keep the builder invariant, so the samples they build are well formed. -/
theorem C06_history_inv (s : Schema V X R) (prov : Nat) (cs : List (BCall V X R)) (hok : ∀ c ∈ cs, c.Ok) :
    (runBCalls s (Builder.new prov) cs).Inv ∧
      ∀ smp, (runBCalls s (Builder.new prov) cs).build = .ok smp → WellFormed smp.graph := by
  have key : ∀ (cs : List (BCall V X R)) (b : Builder V X R), b.Inv → (∀ c ∈ cs, c.Ok) → (runBCalls s b cs).Inv := by
    intro cs
    induction cs with
    | nil => intro b hb _; exact hb
    | cons c cs ih =>
      intro b hb hok
      exact ih _ (BCall.apply_keeps s b hb c (hok c (by simp))).1 (fun x hx => hok x (by simp [hx]))
  have h := key cs _ (Builder.inv_new prov) hok
  refine ⟨h, fun smp hs => ?_⟩
  unfold Builder.build at hs
  split at hs
  · simp at hs
  · simp only [Except.ok.injEq] at hs; rw [← hs]; exact h.wf

/-- C06 for `build_from_edges`, exact form: whatever it returns is single-valued if and only if the nodes already in the
builder together with all endpoints named by the edges hold one value per variable (validation of connectivity plays no
role). -/
theorem C06_build_from_edges (s : Schema V X R) (oE : Order (RawEdge V X R)) (oN : Order (V × X)) (b : Builder V X R)
    (E : Finset (RawEdge V X R)) (validate : Bool) (smp : Sample V X R)
    (h : (b.buildFromEdges s oE oN E validate).2 = .ok smp) :
    SingleValued smp.graph.nodes ↔
      ∀ v x y, ((⟨v, x⟩ : Node V X) ∈ b.nodes ∨ ∃ e ∈ E, (v, x) ∈ e.1) →
        ((⟨v, y⟩ : Node V X) ∈ b.nodes ∨ ∃ e ∈ E, (v, y) ∈ e.1) → x = y := by
  have hrun : ∃ b', Builder.addRawEdges s (oE.run E) b = (b', none) ∧ b'.build = .ok smp := by
    have hgo : (match Builder.addRawEdges s (oE.run E) b with
        | (b', some e) => ((b', .error e) : Builder V X R × Py (Sample V X R))
        | (b', none) => (b', b'.build)).2 = .ok smp := by
      unfold Builder.buildFromEdges at h
      dsimp only at h
      split at h
      · split at h
        · simp at h
        · simp at h
        · exact h
      · exact h
    cases hr : Builder.addRawEdges s (oE.run E) b with
    | mk b' o =>
      rw [hr] at hgo
      cases o with
      | none => exact ⟨b', rfl, hgo⟩
      | some e => simp at hgo
  obtain ⟨b', hr, hb⟩ := hrun
  have hraw : ∀ e ∈ oE.run E, Builder.RawOk s e := by
    by_contra hno
    push Not at hno
    have := Builder.addRawEdges_error s (oE.run E) hno b
    rw [hr] at this
    simp at this
  obtain ⟨b'', h1, -, -, h4⟩ := Builder.addRawEdges_ok s (oE.run E) hraw b
  rw [hr] at h1
  obtain ⟨rfl⟩ : b' = b'' := (Prod.mk.inj h1).1
  rw [oE.toFinset_run] at h4
  have hnodes : smp.graph.nodes = b'.nodes := by
    unfold Builder.build at hb
    split at hb
    · simp at hb
    · simp only [Except.ok.injEq] at hb; rw [← hb]
  have hm : ∀ v x, (⟨v, x⟩ : Node V X) ∈ smp.graph.nodes ↔
      ((⟨v, x⟩ : Node V X) ∈ b.nodes ∨ ∃ e ∈ E, (v, x) ∈ e.1) := by
    intro v x
    rw [hnodes, h4, Finset.mem_union, Finset.mem_biUnion]
    simp only [mem_toNodes]
  constructor
  · intro hs v x y hx hy
    have := hs _ ((hm v x).2 hx) _ ((hm v y).2 hy) rfl
    exact congrArg Node.val this
  · intro hs n hn m hm' hv
    obtain ⟨nv, nx⟩ := n
    obtain ⟨mv, mx⟩ := m
    simp only at hv
    subst hv
    rw [hs nv nx mx ((hm _ _).1 hn) ((hm _ _).1 hm')]

/-- Non-vacuity of `C06_history`, both sides: with the same relations, a history that joins a sample and keeps one value
per variable, and one whose second accepted relation names a second value of variable `0`. -/
example : ∃ (s : Schema ℕ ℕ ℕ) (good bad : List (BCall ℕ ℕ ℕ)),
    (∀ c ∈ good, c.Ok) ∧ (∀ c ∈ bad, c.Ok) ∧
    (runBCalls s (Builder.new 0) good).nodes = {⟨0, 0⟩, ⟨1, 0⟩, ⟨2, 0⟩} ∧
    (runBCalls s (Builder.new 0) bad).nodes = {⟨0, 0⟩, ⟨1, 0⟩, ⟨0, 1⟩} := by
  refine ⟨⟨⟨[(0, {0, 1}), (1, {0, 1}), (2, {0, 1})], by decide⟩, {0}⟩,
    [.rel (.relation {(0, 0), (1, 0)} (.plain 0)), .rel (.directed (1, 0) (2, 0) 0),
      .join (Order.ofList []) ⟨0, ⟨{⟨2, 0⟩}, ∅⟩⟩],
    [.rel (.relation {(0, 0), (1, 0)} (.plain 0)), .rel (.relation {(0, 1), (1, 0)} (.plain 0))], ?_, ?_, ?_, ?_⟩
  · intro c hc
    simp only [List.mem_cons, List.not_mem_nil, or_false] at hc
    rcases hc with rfl | rfl | rfl
    · trivial
    · trivial
    · refine ⟨by simp, by simp, by simp [OnePerPair], ?_⟩
      intro a ha b hb
      simp only [Finset.coe_singleton, Set.mem_singleton_iff] at ha hb
      rw [ha, hb]
  · intro c hc
    simp only [List.mem_cons, List.not_mem_nil, or_false] at hc
    rcases hc with rfl | rfl <;> trivial
  · decide +kernel
  · decide +kernel

end Verif
