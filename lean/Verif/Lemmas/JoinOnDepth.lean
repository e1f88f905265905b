import Verif.Model.JoinOnDepth
import Verif.Lemmas.JoinBlocks
import Verif.Lemmas.JoinDepth
import Verif.Props.Depth

/-!
# Lemmas on `joined_on_variables` with a limit on nested calls
-/

set_option linter.unusedSectionVars false

namespace Verif

variable {V X R : Type} [DecidableEq V] [DecidableEq X] [DecidableEq R]

/-! ### Joining one sample -/

theorem joinSample_not_fuel (oE : Order (Edge V X R)) (b : Builder V X R) (s : Sample V X R) : (b.joinSample oE s).2 ≠ some .fuel := by
  unfold Builder.joinSample
  split
  · simp
  · split
    · rename_i h
      rcases Builder.joinEdges_no_fuel oE _ s.graph.edges h le_rfl b with h | h <;> simp [h]
    · split
      · simp
      · simp

theorem joinSampleD_lim (d : ℕ) (oE : Order (Edge V X R)) (b : Builder V X R) (s : Sample V X R) :
    (b.joinSampleD d oE s).2 = some .fuel ∨ b.joinSampleD d oE s = b.joinSample oE s := by
  by_cases hf : (b.joinSampleD d oE s).2 = some .fuel
  · exact Or.inl hf
  · right
    have h' := joinSample_not_fuel oE b s
    unfold Builder.joinSampleD Builder.joinSample at *
    split
    · rfl
    · rename_i h1
      rw [if_neg h1] at hf h'
      split
      · rename_i h2
        rw [if_pos h2] at hf h'
        exact Builder.joinEdges_eq oE _ _ _ _ hf h'
      · rfl

theorem joinSampleD_enough (d : ℕ) (oE : Order (Edge V X R)) (b : Builder V X R) (s : Sample V X R) (h : s.graph.edges.card ≤ d) :
    b.joinSampleD d oE s = b.joinSample oE s := by
  refine (joinSampleD_lim d oE b s).resolve_left fun hf => ?_
  unfold Builder.joinSampleD at hf
  split at hf
  · simp at hf
  · split at hf
    · rename_i h2
      rcases Builder.joinEdges_no_fuel oE d s.graph.edges h2 h b with h | h <;> rw [h] at hf <;> simp at hf
    · split at hf <;> simp at hf

namespace Samples

theorem joinListD_lim (d : ℕ) (oE : Order (Edge V X R)) (prov : ℕ) (l : List (SampleGraph V X R)) : ∀ b : Builder V X R,
    (joinListD d oE prov l b).2 = some .fuel ∨ joinListD d oE prov l b = joinList oE prov l b := by
  induction l with
  | nil => exact fun b => Or.inr rfl
  | cons g t ih =>
    intro b
    rw [joinListD, joinList]
    rcases joinSampleD_lim d oE b ⟨prov, g⟩ with h | h
    · left
      revert h
      obtain ⟨b', e⟩ := b.joinSampleD d oE ⟨prov, g⟩
      intro h
      cases h
      rfl
    · rw [h]
      obtain ⟨b', e⟩ := b.joinSample oE ⟨prov, g⟩
      cases e with
      | none => exact ih b'
      | some e => exact Or.inr rfl

theorem joinListD_enough (d : ℕ) (oE : Order (Edge V X R)) (prov : ℕ) (l : List (SampleGraph V X R)) (h : ∀ g ∈ l, g.edges.card ≤ d) : ∀ b : Builder V X R,
    joinListD d oE prov l b = joinList oE prov l b := by
  induction l with
  | nil => exact fun b => rfl
  | cons g t ih =>
    intro b
    rw [joinListD, joinList, joinSampleD_enough d oE b ⟨prov, g⟩ (h g (by simp))]
    obtain ⟨b', e⟩ := b.joinSample oE ⟨prov, g⟩
    cases e with
    | none => exact ih (fun g hg => h g (by simp [hg])) b'
    | some e => rfl

theorem crossLeafD_lim (d : ℕ) (oN : Order (Node V X)) (oE : Order (Edge V X R)) (joints : Samples V X R) :
    Lim (crossLeafD d oN oE joints) (crossLeaf oN oE joints) := by
  unfold crossLeafD crossLeaf makeJoinedSampleD makeJoinedSample
  split
  · rcases joinListD_lim d oE joints.prov joints.samples.keys (Builder.new joints.prov) with h | h
    · left
      revert h
      obtain ⟨b', e⟩ := joinListD d oE joints.prov joints.samples.keys (Builder.new joints.prov)
      intro h
      cases h
      rfl
    · rw [h]; exact Or.inr rfl
  · exact Or.inr rfl

theorem crossLeafD_enough (d : ℕ) (oN : Order (Node V X)) (oE : Order (Edge V X R)) (joints : Samples V X R) (h : ∀ g ∈ joints.samples.keys, g.edges.card ≤ d) :
    crossLeafD d oN oE joints = crossLeaf oN oE joints := by
  unfold crossLeafD crossLeaf makeJoinedSampleD makeJoinedSample
  rw [joinListD_enough d oE joints.prov joints.samples.keys h]
  rfl

/-! ### `cross_join` -/

theorem foldlM_congr_mem {A B : Type} {f g : B → A → Py B} (l : List A) : (∀ a ∈ l, ∀ b, f b a = g b a) → ∀ b, l.foldlM f b = l.foldlM g b := by
  induction l with
  | nil => exact fun _ _ => rfl
  | cons a t ih =>
    intro h b
    rw [List.foldlM_cons, List.foldlM_cons, h a (by simp)]
    cases g b a with
    | error e => rfl
    | ok b' => exact ih (fun a ha => h a (by simp [ha])) b'

theorem crossJoinD_lim (oI : Order (SampleGraph V X R × ℤ)) (oN : Order (Node V X)) (oE : Order (Edge V X R)) (d : ℕ) : ∀ (L : List (Samples V X R)) (joints : Samples V X R),
    Lim (crossJoinD oI oN oE d L joints) (crossJoin oI oN oE L joints) := by
  induction d with
  | zero => exact fun L j => Or.inl (by cases L <;> rfl)
  | succ d ih =>
    intro L joints
    cases L with
    | nil => exact crossLeafD_lim d oN oE joints
    | cons grp rest =>
      rw [crossJoinD, crossJoin]
      refine Lim.foldlM (fun ssb p => ?_) _ _
      cases toPy (joints.add ⟨grp.prov, p.1⟩ p.2) with
      | error e => exact Or.inr rfl
      | ok j' =>
        simp only
        rcases ih rest j' with h | h
        · rw [h]; exact Or.inl rfl
        · rw [h]; exact Or.inr rfl

theorem add_keys {b b' : Samples V X R} {s : Sample V X R} {c : ℤ} (h : toPy (b.add s c) = .ok b') : ∀ g ∈ b'.samples.keys, g = s.graph ∨ g ∈ b.samples.keys := by
  intro g hg
  by_cases hp : s.prov = b.prov
  · obtain ⟨h1, -, h3, -⟩ := add_ok b s c hp
    have hb : (b.add s c).1 = b' := by
      revert h h1
      obtain ⟨x, e⟩ := b.add s c
      rintro h rfl
      exact Except.ok.inj h
    subst hb
    rw [Dict.mem_keys, h3] at hg
    by_cases hs : s.graph = g
    · exact Or.inl hs.symm
    · rw [if_neg hs, ← Dict.mem_keys] at hg
      exact Or.inr hg
  · unfold add at h
    rw [if_pos hp] at h
    cases h

theorem crossJoinD_enough (oI : Order (SampleGraph V X R × ℤ)) (oN : Order (Node V X)) (oE : Order (Edge V X R)) (n : ℕ) (L : List (Samples V X R)) :
    ∀ (d : ℕ) (joints : Samples V X R), (∀ grp ∈ L, ∀ p ∈ grp.items, p.1.edges.card ≤ n) → (∀ g ∈ joints.samples.keys, g.edges.card ≤ n) → L.length + 1 + n ≤ d →
      crossJoinD oI oN oE d L joints = crossJoin oI oN oE L joints := by
  induction L with
  | nil =>
    intro d joints _ hj hd
    obtain ⟨d, rfl⟩ : ∃ e, d = e + 1 := ⟨d - 1, by simp at hd; omega⟩
    exact crossLeafD_enough d oN oE joints fun g hg => (hj g hg).trans (by simp at hd; omega)
  | cons grp rest ih =>
    intro d joints hL hj hd
    obtain ⟨d, rfl⟩ : ∃ e, d = e + 1 := ⟨d - 1, by simp at hd; omega⟩
    rw [crossJoinD, crossJoin]
    refine foldlM_congr_mem _ (fun p hp ssb => ?_) _
    cases ha : toPy (joints.add ⟨grp.prov, p.1⟩ p.2) with
    | error e => rfl
    | ok j' =>
      simp only
      have hj' : ∀ g ∈ j'.samples.keys, g.edges.card ≤ n := ?_
      · rw [ih d j' (fun g hg => hL g (by simp [hg])) hj' (by simp at hd; omega)]
        rfl
      intro g hg
      rcases add_keys ha g hg with rfl | h
      · exact hL grp (by simp) p ((oI.mem _ _).1 hp)
      · exact hj g h

/-- With as many groups as nested calls, none of them empty, it raises `RecursionError`. -/
theorem crossJoinD_fuel (oI : Order (SampleGraph V X R × ℤ)) (oN : Order (Node V X)) (oE : Order (Edge V X R)) (L : List (Samples V X R)) :
    ∀ (d : ℕ) (joints : Samples V X R), (∀ grp ∈ L, grp.prov = joints.prov ∧ grp.items.Nonempty) → d ≤ L.length →
      crossJoinD oI oN oE d L joints = .error .fuel := by
  induction L with
  | nil =>
    intro d joints _ hd
    obtain rfl : d = 0 := by simpa using hd
    rfl
  | cons grp rest ih =>
    intro d joints hL hd
    cases d with
    | zero => rfl
    | succ d =>
      obtain ⟨hp, q, hq⟩ := hL grp (by simp)
      rw [crossJoinD]
      cases hl : oI.run grp.items with
      | nil =>
        have := (oI.mem _ _).2 hq
        rw [hl] at this
        cases this
      | cons p t =>
        rw [List.foldlM_cons]
        obtain ⟨h1, h2, -⟩ := add_ok joints ⟨grp.prov, p.1⟩ p.2 hp
        have ha : toPy (joints.add ⟨grp.prov, p.1⟩ p.2) = .ok (joints.add ⟨grp.prov, p.1⟩ p.2).1 := by
          revert h1
          obtain ⟨x, e⟩ := joints.add ⟨grp.prov, p.1⟩ p.2
          rintro rfl
          rfl
        rw [ha]
        simp only
        rw [ih d _ (fun g hg => ?_) (by simpa using hd)]
        · rfl
        · obtain ⟨a, b⟩ := hL g (by simp [hg])
          exact ⟨by rw [h2]; exact a, b⟩

/-! ### `group_intersecting` -/

theorem groupIntersectingD_lim (d : ℕ) (iter : V → Option (Finset V)) (b : Samples V X R) : Lim (b.groupIntersectingD d iter) (b.groupIntersecting iter) := by
  obtain ⟨m, h1, h2, -⟩ := C65_group_intersecting iter b
  rcases Nat.lt_or_ge m d with h | h
  · exact Or.inr (h2 d h)
  · exact Or.inl ((h1 d).2 h)

/-- No two groups of factorized outcomes are merged. -/
theorem groupIntersectingD_factorized {d : ℕ} (hd : 0 < d) (iter : V → Option (Finset V)) (b : Samples V X R)
    (h : ∀ g g', b.Occurs g → b.Occurs g' → SharesPair g g' → ∀ x, Links g x ↔ Links g' x) : b.groupIntersectingD d iter = b.groupIntersecting iter := by
  have hf : groupFind (groupInit b.samples).keys = none := by
    cases hf : groupFind (groupInit b.samples).keys with
    | none => rfl
    | some q =>
      obtain ⟨ka, kb⟩ := q
      obtain ⟨h1, h2, h3, h4⟩ := groupFind_some hf
      obtain ⟨-, -, i3⟩ := groupInit_inv b.samples
      obtain ⟨g, c, hg, rfl⟩ := (i3 ka).1 h1
      obtain ⟨g', c', hg', rfl⟩ := (i3 kb).1 h2
      exact absurd ((groupKey_eq_iff g g').2 (h g g' ⟨c, hg⟩ ⟨c', hg'⟩ ((not_disjoint_groupKey g g').1 h4))) h3
  obtain ⟨d, rfl⟩ : ∃ e, d = e + 1 := ⟨d - 1, by omega⟩
  have hl : ∀ n, groupLoop (n + 1) (groupInit b.samples) = .ok (groupInit b.samples) := fun n => by rw [groupLoop, hf]
  unfold groupIntersectingD groupIntersecting
  rw [hl]
  simp only
  rw [hl]
  rfl

theorem joinOnD_lim (d : ℕ) (iter : V → Option (Finset V)) (oI : Order (SampleGraph V X R × ℤ)) (oG : Order (SampleGraph V X R))
    (oN : Order (Node V X)) (oE : Order (Edge V X R)) (acc : Samples V X R) (v : V) : Lim (joinOnD d iter oI oG oN oE acc v) (joinOn iter oI oG oN oE acc v) := by
  unfold joinOnD joinOn
  simp only
  rcases groupIntersectingD_lim d iter (acc.filterSamples fun g => v ∈ g.includedVariables) with h | h
  · rw [h]; exact Or.inl rfl
  · rw [h]
    cases (acc.filterSamples fun g => v ∈ g.includedVariables).groupIntersecting iter with
    | error e => exact Or.inr rfl
    | ok gr =>
      simp only
      rcases crossJoinD_lim oI oN oE d gr.vals (Samples.empty acc.prov) with h | h
      · rw [h]; exact Or.inl rfl
      · rw [h]; exact Or.inr rfl

end Samples

end Verif
