import Verif.Model.JoinDepth
import Verif.Props.MakeJoinedShapes

/-!
# Lemmas on `make_joined` with a limit on nested calls
-/

set_option linter.unusedSectionVars false

namespace Verif

variable {V X R : Type} [DecidableEq V] [DecidableEq X] [DecidableEq R]

/-- `x` is `y` or `RecursionError`. -/
def Lim {A : Type} (x y : Py A) : Prop := x = .error .fuel ∨ x = y

theorem Lim.bind {A B : Type} {x y : Py A} {f g : A → Py B} (h : Lim x y) (hfg : ∀ a, Lim (f a) (g a)) : Lim (x >>= f) (y >>= g) := by
  rcases h with rfl | rfl
  · exact Or.inl rfl
  · cases x with
    | error e => exact Or.inr rfl
    | ok a => exact hfg a

theorem Lim.mapM {A B : Type} {f g : A → Py B} (hfg : ∀ a, Lim (f a) (g a)) (l : List A) : Lim (l.mapM f) (l.mapM g) := by
  induction l with
  | nil => exact Or.inr rfl
  | cons a t ih =>
    rw [List.mapM_cons, List.mapM_cons]
    exact (hfg a).bind fun b => ih.bind fun bs => Or.inr rfl

theorem Lim.foldlM {A B : Type} {f g : B → A → Py B} (hfg : ∀ b a, Lim (f b a) (g b a)) (l : List A) : ∀ b, Lim (l.foldlM f b) (l.foldlM g b) := by
  induction l with
  | nil => exact fun b => Or.inr rfl
  | cons a t ih =>
    intro b
    rw [List.foldlM_cons, List.foldlM_cons]
    exact (hfg b a).bind ih

theorem Lim.ok {A : Type} {x y : Py A} (h : Lim x y) {a : A} (hx : x = .ok a) : y = .ok a := by
  rcases h with rfl | rfl
  · cases hx
  · exact hx

namespace Samples

/-- `join_sample_set` needs as many nested calls as there are sets, at least one. -/
theorem joinSampleSetD_eq (o : Order (SampleGraph V X R × ℤ)) (d : ℕ) (L : List (Samples V X R)) :
    joinSampleSetD o d L = if max 1 L.length ≤ d then joinSampleSet o L else .error .fuel := by
  induction d generalizing L with
  | zero => rw [if_neg (by omega)]; rfl
  | succ d ih =>
    match L with
    | [] => rw [if_pos (by simp)]; rfl
    | [s] => rw [if_pos (by simp)]; rfl
    | s :: t :: u =>
      have h1 : joinSampleSetD o (d + 1) (s :: t :: u) = match joinSampleSetD o d (t :: u) with
        | .error e => .error e
        | .ok r => s.union o r := rfl
      have h2 : joinSampleSet o (s :: t :: u) = match joinSampleSet o (t :: u) with
        | .error e => .error e
        | .ok r => s.union o r := rfl
      rw [h1, h2, ih]
      simp only [List.length_cons]
      by_cases hd : u.length + 1 ≤ d
      · rw [if_pos (by omega), if_pos (by omega)]
      · rw [if_neg (by omega), if_neg (by omega)]

theorem joinFactorsD_lim (oI : Order (SampleGraph V X R × ℤ)) (oN : Order (Node V X)) (oE : Order (Edge V X R)) (d : ℕ) :
    ∀ (L : List (List (SampleGraph V X R × ℤ))) (acc : Samples V X R), Lim (joinFactorsD oI oN oE d L acc) (joinFactors oI oN oE L acc) := by
  induction d with
  | zero => exact fun L acc => Or.inl rfl
  | succ d ih =>
    intro L acc
    cases L with
    | nil => exact Or.inr rfl
    | cons os rest =>
      refine Lim.bind (Lim.mapM (fun p => Lim.bind (Or.inr rfl) fun a => ih rest a) os) fun l => ?_
      rw [joinSampleSetD_eq]
      split
      · exact Or.inr rfl
      · exact Or.inl rfl

/-- The number of nested calls that `join_factors` needs. -/
def need : List (List (SampleGraph V X R × ℤ)) → ℕ
  | [] => 1
  | os :: rest => 1 + max (need rest) (max 1 os.length)

theorem need_le_iff (L : List (List (SampleGraph V X R × ℤ))) (hL : ∀ os ∈ L, os ≠ []) : ∀ d, need L ≤ d ↔
    0 < d ∧ ∀ i os, L[i]? = some os → i + 1 + os.length ≤ d := by
  induction L with
  | nil => intro d; simp [need]; omega
  | cons os rest ih =>
    intro d
    have h1 : 0 < os.length := List.length_pos_iff.2 (hL os (by simp))
    cases d with
    | zero => simp [need]
    | succ d =>
      have := ih (fun q hq => hL q (by simp [hq])) d
      unfold need
      constructor
      · intro h
        obtain ⟨a, b⟩ := this.1 (by omega)
        refine ⟨by omega, ?_⟩
        intro i q hq
        cases i with
        | zero => simp only [List.getElem?_cons_zero, Option.some.injEq] at hq; subst hq; omega
        | succ i => have := b i q (by simpa using hq); omega
      · rintro ⟨-, h⟩
        have h0 := h 0 os rfl
        have : need rest ≤ d := this.2 ⟨by omega, fun i q hq => by have := h (i + 1) q (by simpa using hq); omega⟩
        omega

theorem mapM_ok_length {A B : Type} (f : A → Py B) (l : List A) : ∀ r, l.mapM f = .ok r → r.length = l.length := by
  induction l with
  | nil => intro r h; rw [List.mapM_nil] at h; cases h; rfl
  | cons a t ih =>
    intro r h
    rw [List.mapM_cons] at h
    cases hf : f a with
    | error e => rw [hf] at h; cases h
    | ok b =>
      rw [hf] at h
      cases ht : t.mapM f with
      | error e => rw [ht] at h; cases h
      | ok bs =>
        rw [ht] at h
        cases h
        simp [ih bs ht]

/-- `join_factors` that returns: with a limit it returns the same or raises `RecursionError`. -/
theorem joinFactorsD_need (oI : Order (SampleGraph V X R × ℤ)) (oN : Order (Node V X)) (oE : Order (Edge V X R)) (d : ℕ) :
    ∀ (L : List (List (SampleGraph V X R × ℤ))) (_ : ∀ os ∈ L, os ≠ []) (acc r : Samples V X R), joinFactors oI oN oE L acc = .ok r →
      joinFactorsD oI oN oE d L acc = if need L ≤ d then .ok r else .error .fuel := by
  induction d with
  | zero =>
    intro L _ acc r _
    rw [if_neg (by cases L <;> simp [need])]
    rfl
  | succ d ih =>
    intro L hL acc r hr
    cases L with
    | nil => rw [if_pos (by simp [need])]; exact hr
    | cons os rest =>
      have e1 : joinFactors oI oN oE (os :: rest) acc =
        (os.mapM (fun p => toPy (acc.add ⟨acc.prov, p.1⟩ p.2) >>= joinFactors oI oN oE rest) >>= joinSampleSet oI) := rfl
      have e2 : joinFactorsD oI oN oE (d + 1) (os :: rest) acc =
        (os.mapM (fun p => toPy (acc.add ⟨acc.prov, p.1⟩ p.2) >>= joinFactorsD oI oN oE d rest) >>= joinSampleSetD oI d) := rfl
      rw [e1] at hr
      rw [e2]
      have hrest : ∀ os ∈ rest, os ≠ [] := fun q hq => hL q (by simp [hq])
      cases hm : os.mapM (fun p => toPy (acc.add ⟨acc.prov, p.1⟩ p.2) >>= joinFactors oI oN oE rest) with
      | error e => rw [hm] at hr; cases hr
      | ok l =>
        rw [hm] at hr
        have hr' : joinSampleSet oI l = .ok r := hr
        have hlen := mapM_ok_length _ _ _ hm
        by_cases hn : need rest ≤ d
        · have hmd : os.mapM (fun p => toPy (acc.add ⟨acc.prov, p.1⟩ p.2) >>= joinFactorsD oI oN oE d rest) = .ok l := by
            rcases Lim.mapM (f := fun p => toPy (acc.add ⟨acc.prov, p.1⟩ p.2) >>= joinFactorsD oI oN oE d rest)
              (g := fun p => toPy (acc.add ⟨acc.prov, p.1⟩ p.2) >>= joinFactors oI oN oE rest)
              (fun p => Lim.bind (Or.inr rfl) fun a => joinFactorsD_lim oI oN oE d rest a) os with h | h
            · exfalso
              have key : ∀ (os : List (SampleGraph V X R × ℤ)) l,
                  os.mapM (fun p => toPy (acc.add ⟨acc.prov, p.1⟩ p.2) >>= joinFactors oI oN oE rest) = .ok l →
                  os.mapM (fun p => toPy (acc.add ⟨acc.prov, p.1⟩ p.2) >>= joinFactorsD oI oN oE d rest) = .ok l := by
                intro os
                induction os with
                | nil => exact fun l h => h
                | cons p t iht =>
                  intro l h
                  rw [List.mapM_cons] at h ⊢
                  cases ha : toPy (acc.add ⟨acc.prov, p.1⟩ p.2) with
                  | error e => rw [ha] at h; cases h
                  | ok a =>
                    rw [ha] at h
                    have hb : ∀ f : Samples V X R → Py (Samples V X R), ((Except.ok a : Py (Samples V X R)) >>= f) = f a := fun _ => rfl
                    rw [hb] at h ⊢
                    cases hj : joinFactors oI oN oE rest a with
                    | error e => rw [hj] at h; cases h
                    | ok b =>
                      rw [ih rest hrest a b hj, if_pos hn]
                      rw [hj] at h
                      have hc : ∀ f : Samples V X R → Py (List (Samples V X R)), ((Except.ok b : Py (Samples V X R)) >>= f) = f b := fun _ => rfl
                      rw [hc] at h ⊢
                      cases ht : t.mapM (fun p => toPy (acc.add ⟨acc.prov, p.1⟩ p.2) >>= joinFactors oI oN oE rest) with
                      | error e => rw [ht] at h; cases h
                      | ok bs => rw [iht bs ht]; rw [ht] at h; exact h
              rw [key os l hm] at h
              cases h
            · rw [h, hm]
          rw [hmd]
          have : ((Except.ok l : Py (List (Samples V X R))) >>= joinSampleSetD oI d) = joinSampleSetD oI d l := rfl
          rw [this, joinSampleSetD_eq, hlen, hr']
          unfold need
          by_cases h2 : max 1 os.length ≤ d
          · rw [if_pos h2, if_pos (by omega)]
          · rw [if_neg h2, if_neg (by omega)]
        · rw [if_neg (by unfold need; omega)]
          cases os with
          | nil => exact absurd rfl (hL [] (by simp))
          | cons p t =>
            rw [List.mapM_cons] at hm ⊢
            cases ha : toPy (acc.add ⟨acc.prov, p.1⟩ p.2) with
            | error e => rw [ha] at hm; cases hm
            | ok a =>
              rw [ha] at hm
              have hb : ∀ f : Samples V X R → Py (Samples V X R), ((Except.ok a : Py (Samples V X R)) >>= f) = f a := fun _ => rfl
              rw [hb] at hm ⊢
              cases hj : joinFactors oI oN oE rest a with
              | error e => rw [hj] at hm; cases hm
              | ok b =>
                rw [ih rest hrest a b hj, if_neg hn]
                rfl

end Samples

/-- A loop of which each step returns the same or raises `RecursionError`, depending on the element. -/
theorem foldlM_limited {A B : Type} {f g : B → A → Py B} {P : A → Prop} [DecidablePred P]
    (hfg : ∀ b a r, g b a = .ok r → f b a = if P a then .ok r else .error .fuel) (l : List A) : ∀ b r, l.foldlM g b = .ok r →
      l.foldlM f b = if ∀ a ∈ l, P a then .ok r else .error .fuel := by
  induction l with
  | nil => intro b r h; rw [if_pos (by simp)]; exact h
  | cons a t ih =>
    intro b r h
    rw [List.foldlM_cons] at h ⊢
    cases hg : g b a with
    | error e => rw [hg] at h; cases h
    | ok c =>
      rw [hg] at h
      have h' : t.foldlM g c = .ok r := h
      rw [hfg b a c hg]
      by_cases hp : P a
      · rw [if_pos hp]
        have : ((Except.ok c : Py B) >>= fun s => t.foldlM f s) = t.foldlM f c := rfl
        rw [this, ih c r h']
        simp [hp]
      · rw [if_neg hp, if_neg (fun hh => hp (hh a (by simp)))]
        rfl

theorem joinValueD_lim (d : ℕ) (o : Orders V X R) (prov : ℕ) (v : V) (ffv : List (ItemSet V X R)) (jf : Samples V X R) (x : X) :
    Lim (Space.joinValueD d o prov v ffv jf x) (Space.joinValue o prov v ffv jf x) := by
  unfold Space.joinValueD Space.joinValue
  rcases Samples.joinFactorsD_lim o.items o.nodes o.edges d ((ffv.map (Space.outcomesForVal o v x)).filter (· ≠ [])) (Samples.empty prov) with h | h
  · rw [h]; exact Or.inl rfl
  · rw [h]; exact Or.inr rfl

theorem eliminateD_lim (d : ℕ) (o : Orders V X R) (prov : ℕ) (fs : Finset (ItemSet V X R)) (q : V × Finset X) :
    Lim (Space.eliminateD d o prov fs q) (Space.eliminate o prov fs q) := by
  unfold Space.eliminateD Space.eliminate
  rcases Lim.foldlM (fun b a => joinValueD_lim d o prov q.1 (Space.factorsForVar o q.1 fs) b a) (o.vals.run q.2) (Samples.empty prov) with h | h
  · simp only [h]; exact Or.inl rfl
  · simp only [h]; exact Or.inr rfl

theorem makeJoinedD_lim (d : ℕ) (o : Orders V X R) (sp : Space V X R) : Lim (sp.makeJoinedD d o) (sp.makeJoined o) := by
  unfold Space.makeJoinedD Space.makeJoined
  cases sp.factorized o.items o.nodes with
  | error e => exact Or.inr rfl
  | ok F =>
    rcases Lim.foldlM (fun b a => eliminateD_lim d o sp.outcomes.prov b a) (o.incl.run (sp.includedVariables o.graphs o.nodes)) F with h | h
    · simp only [h]; exact Or.inl rfl
    · simp only [h]; exact Or.inr rfl

end Verif
