import Verif.Props.Describe
import Verif.Props.PacQueue
import Verif.Lemmas.MakeJoined

/-!
# Lookups in sample sets (C15), names set on builders (C46, C68), queues with a priority function (C56)
-/

set_option linter.unusedSectionVars false

namespace Verif

section
variable {V X R : Type} [DecidableEq V] [DecidableEq X] [DecidableEq R]

/-! ### C15 -/

/-- **C15** A sample set has a variable exactly if one of its samples contains a value of it, and has a value exactly if one of its samples contains
it, for every iteration order. -/
theorem C15_set_lookups (b : Samples V X R) (o : Order (Node V X)) (v : V) (x : X) :
    (b.haveVariable o v = true ↔ ∃ g, b.Occurs g ∧ HasVar v g) ∧
    (b.haveValue o v x = true ↔ ∃ g, b.Occurs g ∧ HasValue v x g) := by
  have hocc : ∀ g, g ∈ b.samples.keys ↔ b.Occurs g := fun g => Dict.mem_keys _ _
  constructor
  · unfold Samples.haveVariable
    rw [List.any_eq_true]
    exact exists_congr fun g => and_congr (hocc g) (haveVariable_iff g o v)
  · unfold Samples.haveValue
    rw [List.any_eq_true]
    refine exists_congr fun g => and_congr (hocc g) ?_
    unfold SampleGraph.haveValue
    rw [o.any_run]
    constructor
    · rintro ⟨⟨a, y⟩, h1, h2⟩
      simp only [decide_eq_true_eq, Prod.mk.injEq] at h2
      obtain ⟨rfl, rfl⟩ := h2
      exact h1
    · intro h
      exact ⟨_, h, by simp⟩

/-- A set of two samples of different variables: it has both variables, and neither is in all of its samples. -/
theorem set_lookups_demo : ∃ b : Samples ℕ ℕ ℕ,
    (∃ g, b.Occurs g ∧ HasVar 0 g) ∧ (∃ g, b.Occurs g ∧ HasVar 1 g) ∧ (∃ g, b.Occurs g ∧ ¬ HasVar 0 g) ∧ ∃ g, b.Occurs g ∧ ¬ HasVar 1 g := by
  let g0 : SampleGraph ℕ ℕ ℕ := ⟨{⟨0, 5⟩}, ∅⟩
  let g1 : SampleGraph ℕ ℕ ℕ := ⟨{⟨1, 5⟩}, ∅⟩
  let b : Samples ℕ ℕ ℕ := ⟨0, Dict.ofList [(g0, 1), (g1, 1)]⟩
  have h0 : b.Occurs g0 := ⟨1, by decide⟩
  have h1 : b.Occurs g1 := ⟨1, by decide⟩
  exact ⟨b, ⟨g0, h0, by decide⟩, ⟨g1, h1, by decide⟩, ⟨g1, h1, by decide⟩, ⟨g0, h0, by decide⟩⟩

/-! ### C46, C68 -/

/-- What a client does with the builder of a sample: set the name or add a relation. -/
inductive NameOp (V X R : Type) where
  | name (n : Option Str)
  | rel (eps : Finset (V × X)) (r : Rel V R)

/-- One call; the client goes on after an exception. -/
def NamedBuilder.apply (s : Schema V X R) (b : NamedBuilder V X R) : NameOp V X R → NamedBuilder V X R
  | .name n => b.setName n
  | .rel eps r => (b.addRelation s eps r).1

/-- The name set last, or the first one. -/
def lastName {A : Type} (isName : A → Option (Option Str)) (n : Option Str) (ops : List A) : Option Str := ((ops.filterMap isName).getLast?).getD n

theorem lastName_cons {A : Type} (isName : A → Option (Option Str)) (n : Option Str) (a : A) (ops : List A) :
    lastName isName n (a :: ops) = lastName isName ((isName a).getD n) ops := by
  unfold lastName
  cases h : isName a with
  | none => rw [List.filterMap_cons_none h]; rfl
  | some m => rw [List.filterMap_cons_some h, List.getLast?_cons]; rfl

/-- The name of a call of `set_name`. -/
def NameOp.name? : NameOp V X R → Option (Option Str)
  | .name n => some n
  | .rel _ _ => none

/-- **C46** Names and content of a sample builder do not disturb each other: after any calls of `set_name` and `add_relation` the name is the one set last, and the
content is that of the calls of `add_relation` alone. So the sample built is the same as without names; it has the last name or, if this is `None` or empty, its text. -/
theorem C46_set_name (t : Texts V X R) (s : Schema V X R) (oN : Order (Node V X)) (oE : Order (Edge V X R)) (b : NamedBuilder V X R) (ops : List (NameOp V X R)) :
    let c := ops.foldl (NamedBuilder.apply s) b
    c.name = lastName NameOp.name? b.name ops ∧
    c.builder = ((ops.filter fun o => o.name?.isNone).foldl (NamedBuilder.apply s) b).builder ∧
    ∀ q, c.build t oN oE = .ok q → c.builder.build = .ok q.sample ∧
      (∀ n, n ≠ [] → lastName NameOp.name? b.name ops = some n → q.name = n) ∧
      (lastName NameOp.name? b.name ops = none ∨ lastName NameOp.name? b.name ops = some [] → q.sample.graph.nameOf t oN oE none = .ok q.name) := by
  have hname : ∀ (ops : List (NameOp V X R)) (b : NamedBuilder V X R), (ops.foldl (NamedBuilder.apply s) b).name = lastName NameOp.name? b.name ops := by
    intro ops
    induction ops with
    | nil => intro b; rfl
    | cons o r ih =>
      intro b
      rw [List.foldl_cons, ih, lastName_cons]
      cases o <;> rfl
  have hcont : ∀ (ops : List (NameOp V X R)) (b c : NamedBuilder V X R), b.builder = c.builder →
      (ops.foldl (NamedBuilder.apply s) b).builder = ((ops.filter fun o => o.name?.isNone).foldl (NamedBuilder.apply s) c).builder := by
    intro ops
    induction ops with
    | nil => intro b c h; exact h
    | cons o r ih =>
      intro b c h
      cases o with
      | name n => rw [List.filter_cons_of_neg (by simp [NameOp.name?])]; exact ih _ _ h
      | rel eps e =>
        rw [List.filter_cons_of_pos (by simp [NameOp.name?])]
        refine ih _ _ ?_
        show (b.builder.addRelation s eps e).1 = (c.builder.addRelation s eps e).1
        rw [h]
  intro c
  refine ⟨hname ops b, hcont ops b b rfl, fun q hq => ?_⟩
  have hn := hname ops b
  change c.name = _ at hn
  unfold NamedBuilder.build at hq
  rw [hn] at hq
  cases hb : c.builder.build with
  | error e => rw [hb] at hq; simp [bind, Except.bind] at hq
  | ok g =>
    rw [hb] at hq
    simp only [bind, Except.bind] at hq
    cases hm : g.graph.nameOf t oN oE (lastName NameOp.name? b.name ops) with
    | error e => rw [hm] at hq; cases hq
    | ok m =>
      rw [hm] at hq
      have := Except.ok.inj hq
      subst this
      refine ⟨rfl, ?_, ?_⟩
      · rintro (_ | ⟨ch, n⟩) hne hl
        · exact absurd rfl hne
        · rw [hl] at hm
          exact (Except.ok.inj hm).symm
      · rintro (hl | hl)
        · rw [hl] at hm; exact hm
        · rw [hl] at hm; exact hm

/-- What a client does with the builder of a relation graph: set the name or add an outcome. -/
inductive NameOutOp (V X R : Type) where
  | name (n : Option Str)
  | out (p : Sample V X R × ℤ)

/-- One call; the client goes on after an exception. -/
def NamedRG.apply (b : NamedRG V X R) : NameOutOp V X R → NamedRG V X R
  | .name n => b.setName n
  | .out p => (b.addOutcome p).1

/-- The name of a call of `set_name`. -/
def NameOutOp.name? : NameOutOp V X R → Option (Option Str)
  | .name n => some n
  | .out _ => none

/-- **C68** Likewise for the builder of a relation graph: after any calls of `set_name` and `add_outcome` the name is the one set last and the content is that of the
calls of `add_outcome` alone. The graph built has these outcomes and the last name or, if this is `None` or empty, the default name for its total count. -/
theorem C68_set_name (b : NamedRG V X R) (ops : List (NameOutOp V X R)) :
    let c := ops.foldl NamedRG.apply b
    c.name = lastName NameOutOp.name? b.name ops ∧
    c.builder = ((ops.filter fun o => o.name?.isNone).foldl NamedRG.apply b).builder ∧
    ∀ q, c.build = .ok q → q.space.outcomes = c.builder.outcomes ∧
      (∀ n, n ≠ [] → lastName NameOutOp.name? b.name ops = some n → q.name = n) ∧
      (lastName NameOutOp.name? b.name ops = none ∨ lastName NameOutOp.name? b.name ops = some [] → q.name = defaultName q.space.outcomes) := by
  have hname : ∀ (ops : List (NameOutOp V X R)) (b : NamedRG V X R), (ops.foldl NamedRG.apply b).name = lastName NameOutOp.name? b.name ops := by
    intro ops
    induction ops with
    | nil => intro b; rfl
    | cons o r ih =>
      intro b
      rw [List.foldl_cons, ih, lastName_cons]
      cases o <;> rfl
  have hcont : ∀ (ops : List (NameOutOp V X R)) (b c : NamedRG V X R), b.builder = c.builder →
      (ops.foldl NamedRG.apply b).builder = ((ops.filter fun o => o.name?.isNone).foldl NamedRG.apply c).builder := by
    intro ops
    induction ops with
    | nil => intro b c h; exact h
    | cons o r ih =>
      intro b c h
      cases o with
      | name n => rw [List.filter_cons_of_neg (by simp [NameOutOp.name?])]; exact ih _ _ h
      | out p =>
        rw [List.filter_cons_of_pos (by simp [NameOutOp.name?])]
        refine ih _ _ ?_
        show (b.builder.addOutcome p.1 p.2).1 = (c.builder.addOutcome p.1 p.2).1
        rw [h]
  intro c
  refine ⟨hname ops b, hcont ops b b rfl, fun q hq => ?_⟩
  have hn := hname ops b
  change c.name = _ at hn
  unfold NamedRG.build at hq
  split at hq
  · have := Except.ok.inj hq
    subst this
    refine ⟨rfl, ?_, ?_⟩
    · intro n hne hl
      show nameOr c.name _ = n
      rw [hn, hl]
      exact nameOr_some hne _
    · intro hl
      show nameOr c.name _ = defaultName c.builder.outcomes
      rw [hn]
      rcases hl with hl | hl <;> rw [hl] <;> rfl
  · cases hq

/-- The last of several names counts; `None` brings the default name back. -/
theorem set_name_demo (e : Finset (ℕ × ℕ)) (r : Rel ℕ ℕ) :
    lastName NameOp.name? none [.name (some ['a']), .rel e r, .name (some ['b']), .rel e r] = some ['b'] ∧
    lastName NameOp.name? none [.name (some ['a']), .rel e r, .name none] = none := ⟨rfl, rfl⟩

end

/-! ### C56 -/

namespace Pac

/-- **C56** `isEmpty` tells whether the container holds nothing: for stacks and queues by the list, for a priority queue by what it stands for. -/
theorem C56_isEmpty {I : Type} (l : List I) {H : Heapq I} {q : PQ I} {w : List (ℚ × I)} (h : Repr H q w) :
    (isEmptyList l = true ↔ l = []) ∧ (isEmptyList q.heap = true ↔ w = []) ∧
    (isEmptyList l = false ↔ ∃ x t, listPop l = .ok (x, t)) ∧ (isEmptyList q.heap = false ↔ ∃ x t, q.pop H = .ok (x, t)) := by
  have he : ∀ {A : Type} (l : List A), isEmptyList l = true ↔ l = [] := by
    intro A l; unfold isEmptyList; rw [beq_iff_eq, List.length_eq_zero_iff]
  have hw : q.heap = [] ↔ w = [] := by
    obtain ⟨_, es, h1, _, _, h4⟩ := h
    rw [← h4, List.map_eq_nil_iff]
    constructor
    · intro h; rw [h] at h1; exact h1.eq_nil
    · intro h; rw [h] at h1; exact h1.symm.eq_nil
  have hf : ∀ {A : Type} (l : List A), isEmptyList l = false ↔ l ≠ [] := by
    intro A l; rw [← Bool.not_eq_true, he]
  refine ⟨he l, (he _).trans hw, ?_, ?_⟩
  · rw [hf]
    constructor
    · intro hl
      obtain ⟨t, x, rfl⟩ : ∃ t x, l = t ++ [x] := ⟨_, _, (List.dropLast_append_getLast hl).symm⟩
      exact ⟨x, t, listPop_snoc t x⟩
    · rintro ⟨x, t, h1⟩ rfl
      rw [listPop_nil] at h1; cases h1
  · rw [hf]
    constructor
    · intro hl
      obtain ⟨x, q1, l1, hp, _⟩ := (C56_pop h).2 fun h0 => hl (hw.2 h0)
      exact ⟨x, q1, hp⟩
    · rintro ⟨x, t, h1⟩ h0
      rw [(C56_pop h).1 (hw.1 h0)] at h1; cases h1

/-- **C56** `push` of a queue with a priority function stores the item with the value of the function. -/
theorem C56_function_push {I : Type} {H : Heapq I} {q : PQ I} {l : List (ℚ × I)} (h : Repr H q l) (f : I → ℚ) (x : I) :
    Repr H (q.pushF H f x) (l ++ [(f x, x)]) := repr_push h x (f x)

/-- **C56** So filling and emptying it sorts by the function, stably. -/
theorem C56_function_sort {I : Type} [DecidableEq I] (H : Heapq I) (f : I → ℚ) (xs : List I) :
    ∃ q', PQ.run H (xs.foldl (fun q x => q.pushF H f x) PQ.empty) (List.replicate xs.length .pop) =
      .ok (q', xs.insertionSort fun a b => f a ≤ f b) := by
  have hr : ∀ (xs : List I) (q : PQ I) (l : List (ℚ × I)), Repr H q l → Repr H (xs.foldl (fun q x => q.pushF H f x) q) (l ++ xs.map fun x => (f x, x)) := by
    intro xs
    induction xs with
    | nil => intro q l h; simpa using h
    | cons x t ih =>
      intro q l h
      have := ih _ _ (C56_function_push h f x)
      rw [List.append_assoc] at this
      exact this
  have h := hr xs PQ.empty [] (repr_empty H)
  rw [List.nil_append] at h
  obtain ⟨q', h1, _⟩ := C56_drain H h
  refine ⟨q', ?_⟩
  rw [List.length_map] at h1
  rw [h1]
  congr 2
  have hins : ∀ (x : I) (l : List I), ((l.map fun x => (f x, x)).orderedInsert byPri (f x, x)) = (l.orderedInsert (fun a b => f a ≤ f b) x).map fun x => (f x, x) := by
    intro x l
    induction l with
    | nil => rfl
    | cons y t ih =>
      rw [List.map_cons, List.orderedInsert_cons, List.orderedInsert_cons, ih]
      by_cases hc : f x ≤ f y
      · rw [if_pos hc, if_pos (show byPri (f x, x) (f y, y) from hc)]; rfl
      · rw [if_neg hc, if_neg (show ¬ byPri (f x, x) (f y, y) from hc)]; rfl
  have : ∀ l : List I, (l.map fun x => (f x, x)).insertionSort byPri = (l.insertionSort fun a b => f a ≤ f b).map fun x => (f x, x) := by
    intro l
    induction l with
    | nil => rfl
    | cons x t ih => rw [List.map_cons, List.insertionSort_cons, ih, hins, List.insertionSort_cons]
  rw [this, List.map_map]
  exact List.map_id' _

end Pac
end Verif
