import Verif.Model.ProviderCalls
import Verif.Props.Components

/-! C02, continued: the provider seen from a builder. What `add_relation` and `build_from_edges` get from the provider depends on
the declarations only, not on the calls made before, whatever they were, and not on the order in which sets are visited. -/

set_option linter.unusedSectionVars false

namespace Verif

variable {V X R : Type} [DecidableEq V] [DecidableEq X] [DecidableEq R]

namespace Provider

theorem getNodes_spec (p : Provider V X R) (hp : p.Inv) (l : List (V × X)) :
    (p.getNodes l).2.Inv ∧ (p.getNodes l).2.schema = p.schema ∧
    (∀ c ob, p.lookup c = some ob → (p.getNodes l).2.lookup c = some ob) ∧
    (if ∀ e ∈ l, p.schema.declared e.1 e.2 = true then
      ∃ ns, (p.getNodes l).1 = .ok ns ∧ ns.map NodeObj.node = l.map (fun e => ⟨e.1, e.2⟩) ∧
        ∀ e ∈ l, ∃ ob, (p.getNodes l).2.lookup (.node e.1 e.2) = some (.node ob)
    else (p.getNodes l).1 = .error .assertion) := by
  induction l generalizing p with
  | nil => exact ⟨hp, rfl, fun _ _ h => h, by simp [getNodes]⟩
  | cons e l ih =>
    have o : Order (Node V X) := ⟨fun s => s.toList, fun s => s.nodup_toList, fun s a => by simp⟩
    obtain ⟨s1, s2, s3, s4, -, -⟩ := step_spec o p hp (.node e.1 e.2)
    have hv := getNode_value p hp e.1 e.2
    cases hg : p.getNode e.1 e.2 with
    | mk res q =>
      have hq : (p.step o (.node e.1 e.2)).2 = q := by
        unfold step; simp only [hg]; cases res <;> rfl
      rw [hq] at s1 s2 s3 s4
      rw [hg] at hv
      unfold Schema.getNode at hv
      unfold getNodes
      rw [hg]
      cases res with
      | error er =>
        refine ⟨s1, s2, s3, ?_⟩
        by_cases hd : p.schema.declared e.1 e.2 = true
        · rw [if_pos hd] at hv; simp [Except.map] at hv
        · rw [if_neg hd] at hv
          rw [if_neg (fun h => hd (h e (by simp)))]
          simpa [Except.map] using hv
      | ok n =>
        have hd : p.schema.declared e.1 e.2 = true := by
          by_contra hd
          rw [if_neg hd] at hv; simp [Except.map] at hv
        rw [if_pos hd] at hv
        have hn : n.node = ⟨e.1, e.2⟩ := by simpa [Except.map] using hv
        have hl : q.lookup (.node e.1 e.2) = some (.node n) := s4 _ (by unfold step; simp only [hg])
        obtain ⟨i1, i2, i3, i4⟩ := ih q s1
        rw [s2] at i4
        cases hr : q.getNodes l with
        | mk res' q' =>
          rw [hr] at i1 i2 i3 i4
          by_cases ha : ∀ e ∈ l, p.schema.declared e.1 e.2 = true
          · rw [if_pos ha] at i4
            obtain ⟨ns, h1, h2, h3⟩ := i4
            simp only at h1
            subst h1
            simp only [hr]
            refine ⟨i1, i2.trans s2, fun c ob h => i3 _ _ (s3 _ _ h), ?_⟩
            rw [if_pos (by intro x hx; rcases List.mem_cons.1 hx with rfl | hx; exacts [hd, ha x hx])]
            refine ⟨n :: ns, rfl, by simp [hn, h2], ?_⟩
            intro x hx
            rcases List.mem_cons.1 hx with rfl | hx
            · exact ⟨n, i3 _ _ hl⟩
            · exact h3 x hx
          · rw [if_neg ha] at i4
            simp only at i4
            subst i4
            simp only [hr]
            refine ⟨i1, i2.trans s2, fun c ob h => i3 _ _ (s3 _ _ h), ?_⟩
            rw [if_neg (fun h => ha fun x hx => h x (by simp [hx]))]
            trivial

end Provider

theorem relOk_pairs (s : Schema V X R) (es : Finset (Node V X)) (eps : Finset (V × X)) (r : Rel V R)
    (hmem : ∀ n : Node V X, n ∈ es ↔ (n.var, n.val) ∈ eps) :
    s.relOk es r = true ↔ (match r with
      | .plain l => l ∈ s.rels
      | .directed a b l => l ∈ s.rels ∧ (∃ e ∈ eps, e.1 = a) ∧ (∃ e ∈ eps, e.1 = b)) := by
  have hx : ∀ a, (∃ n ∈ es, n.var = a) ↔ ∃ e ∈ eps, e.1 = a := by
    intro a
    constructor
    · rintro ⟨n, hn, rfl⟩; exact ⟨_, (hmem n).1 hn, rfl⟩
    · rintro ⟨e, he, rfl⟩; exact ⟨⟨e.1, e.2⟩, (hmem _).2 he, rfl⟩
  cases r with
  | plain l => simp only [Schema.relOk, Schema.dirOk, Rel.label, Bool.and_true]; exact decide_eq_true_iff
  | directed a b l =>
    show _ ↔ l ∈ s.rels ∧ (∃ e ∈ eps, e.1 = a) ∧ (∃ e ∈ eps, e.1 = b)
    rw [← hx a, ← hx b]
    unfold Schema.relOk Schema.dirOk Rel.label
    rw [Bool.and_eq_true, decide_eq_true_iff]
    simp

/-- **C02.** In every state of the provider reached by any calls, the nodes and the edge a builder gets for two endpoint pairs exist
exactly when both values are declared, the label is declared and a directed relation mentions variables of the endpoints only. What
it gets has the content asked for, so neither the cache nor an order of iteration is seen in it; a refusal is an `AssertionError`.
In particular the test that the endpoints were obtained before never refuses such a call. -/
theorem C02_builder_calls (oP : Order (V × X)) (o : Order (Node V X)) (s : Schema V X R) (cs : List (Provider.Call V X R))
    (eps : Finset (V × X)) (r : Rel V R) (h2 : eps.card = 2) :
    let out := (Reached o s cs).nodesEdge oP o eps r
    let ok := (∀ e ∈ eps, ∃ xs, s.vars.get? e.1 = some xs ∧ e.2 ∈ xs) ∧
      (match r with
        | .plain l => l ∈ s.rels
        | .directed a b l => l ∈ s.rels ∧ (∃ e ∈ eps, e.1 = a) ∧ (∃ e ∈ eps, e.1 = b))
    (ok → ∃ ns e, out.1 = .ok (ns, e) ∧ (∀ n : Node V X, (∃ m ∈ ns, m.node = n) ↔ (n.var, n.val) ∈ eps) ∧
      e.edge.relation = r ∧ ∀ n : Node V X, n ∈ e.edge.endpoints ↔ (n.var, n.val) ∈ eps) ∧
    (¬ ok → out.1 = .error .assertion) := by
  intro out ok
  obtain ⟨hinv, hs, -⟩ := Provider.runCalls_spec o _ (Provider.inv_init s) cs
  have hs : (Reached o s cs).schema = s := hs
  obtain ⟨g1, g2, -, g4⟩ := Provider.getNodes_spec (Reached o s cs) hinv (oP.run eps)
  rw [hs] at g2 g4
  have hdec : (∀ e ∈ oP.run eps, s.declared e.1 e.2 = true) ↔ ∀ e ∈ eps, ∃ xs, s.vars.get? e.1 = some xs ∧ e.2 ∈ xs := by
    constructor <;> intro h e he
    · have := h e ((oP.mem eps e).2 he)
      unfold Schema.declared at this
      cases hg : s.vars.get? e.1 with
      | none => simp [hg] at this
      | some xs => exact ⟨xs, rfl, by simpa [hg] using this⟩
    · obtain ⟨xs, h1, h2⟩ := h e ((oP.mem eps e).1 he)
      simp [Schema.declared, h1, h2]
  have hout : out = (Reached o s cs).nodesEdge oP o eps r := rfl
  unfold Provider.nodesEdge at hout
  by_cases hd : ∀ e ∈ oP.run eps, s.declared e.1 e.2 = true
  · rw [if_pos hd] at g4
    obtain ⟨ns, k1, k2, k3⟩ := g4
    cases hg : (Reached o s cs).getNodes (oP.run eps) with
    | mk res q =>
      rw [hg] at g1 g2 k1 k3 hout
      simp only at g1 g2 k1 k3
      subst k1
      simp only at hout
      have hmem : ∀ n : Node V X, n ∈ (ns.map NodeObj.node).toFinset ↔ (n.var, n.val) ∈ eps := by
        intro n
        rw [k2, List.mem_toFinset, List.mem_map]
        constructor
        · rintro ⟨e, he, rfl⟩; exact (oP.mem eps e).1 he
        · intro h; exact ⟨_, (oP.mem eps _).2 h, rfl⟩
      have hsub : (ns.map NodeObj.node).toFinset ⊆ q.cached := by
        intro n hn
        rw [Provider.mem_cached q g1]
        exact k3 (n.var, n.val) ((oP.mem eps _).2 ((hmem n).1 hn))
      have hcard : (ns.map NodeObj.node).toFinset.card = 2 := by
        rw [← h2]
        have : (ns.map NodeObj.node).toFinset = eps.image (fun e => (⟨e.1, e.2⟩ : Node V X)) := by
          ext n
          rw [hmem, Finset.mem_image]
          constructor
          · intro h; exact ⟨_, h, rfl⟩
          · rintro ⟨e, he, rfl⟩; exact he
        rw [this, Finset.card_image_of_injective]
        intro a b hab
        simp only [Node.mk.injEq] at hab
        exact Prod.ext hab.1 hab.2
      have hv := Provider.getEdge_value o q g1 _ r hsub
      rw [g2] at hv
      unfold Schema.getEdge at hv
      rw [if_neg (show ¬ (ns.map NodeObj.node).toFinset.card < 2 by omega)] at hv
      have hrel := relOk_pairs s _ eps r hmem
      cases he : q.getEdge o (ns.map NodeObj.node).toFinset r with
      | mk res' q' =>
        rw [he] at hv hout
        by_cases hr : s.relOk (ns.map NodeObj.node).toFinset r = true
        · rw [if_pos hr] at hv
          cases res' with
          | error er => simp [Except.map] at hv
          | ok e =>
            have hv : e.edge = ⟨(ns.map NodeObj.node).toFinset, r⟩ := by simpa [Except.map] using hv
            refine ⟨fun _ => ⟨ns, e, by rw [hout], ?_, by rw [hv], fun n => by rw [hv]; exact hmem n⟩, fun h => ?_⟩
            · intro n
              rw [← hmem n, List.mem_toFinset, List.mem_map]
            · exact absurd ⟨hdec.1 hd, hrel.1 hr⟩ h
        · rw [if_neg hr] at hv
          refine ⟨fun h => absurd (hrel.2 h.2) hr, fun _ => ?_⟩
          cases res' with
          | ok e => simp [Except.map] at hv
          | error er =>
            have hv : er = .assertion := by simpa [Except.map] using hv
            rw [hout, hv]
  · rw [if_neg hd] at g4
    refine ⟨fun h => absurd (hdec.2 h.1) hd, fun _ => ?_⟩
    cases hg : (Reached o s cs).getNodes (oP.run eps) with
    | mk res q =>
      rw [hg] at g4 hout
      simp only at g4
      subst g4
      rw [hout]

/-- Non-vacuity of `C02_builder_calls`: with a fresh provider two declared values give an edge, an undeclared one does not. -/
theorem builder_calls_demo (oP : Order (ℕ × ℕ)) (o : Order (Node ℕ ℕ)) :
    let s : Schema ℕ ℕ ℕ := ⟨⟨[(0, {0, 1}), (1, {0})], by simp⟩, {0}⟩
    (∃ ns e, ((Reached o s []).nodesEdge oP o {(0, 1), (1, 0)} (.directed 0 1 0)).1 = .ok (ns, e)) ∧
    ((Reached o s []).nodesEdge oP o {(0, 1), (1, 7)} (.directed 0 1 0)).1 = .error .assertion := by
  intro s
  constructor
  · obtain ⟨ns, e, h, -⟩ := (C02_builder_calls oP o s [] {(0, 1), (1, 0)} (.directed 0 1 0) (by decide)).1
      ⟨by
        intro e he
        simp only [Finset.mem_insert, Finset.mem_singleton] at he
        rcases he with rfl | rfl
        · exact ⟨{0, 1}, rfl, by decide⟩
        · exact ⟨{0}, rfl, by decide⟩, by decide, ⟨(0, 1), by decide, rfl⟩, ⟨(1, 0), by decide, rfl⟩⟩
    exact ⟨ns, e, h⟩
  · refine (C02_builder_calls oP o s [] {(0, 1), (1, 7)} (.directed 0 1 0) (by decide)).2 ?_
    rintro ⟨h, -⟩
    obtain ⟨xs, h1, h2⟩ := h (1, 7) (by decide)
    have : xs = {0} := (Option.some.inj h1).symm
    rw [this] at h2
    revert h2; decide

end Verif
