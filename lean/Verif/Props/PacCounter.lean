import Mathlib.Tactic.Ring
import Mathlib.Tactic.FieldSimp
import Mathlib.Algebra.BigOperators.Group.List.Basic
import Mathlib.Algebra.BigOperators.Ring.Finset
import Mathlib.Algebra.Order.BigOperators.Group.List
import Verif.Model.PacUtil

/-! # C57: `Counter` of `demo/util.py` is a vector space of finitely supported functions with an inner product -/

namespace Verif.Pac

section counter
variable {K : Type} [DecidableEq K]

/-! ### Folds -/

/-- A loop that stores values which do not depend on the counter. -/
theorem get?_foldl_set {A : Type} (p : K → Bool) (f : K → A) (ks : List K) (d : Dict K A) (x : K) :
    (ks.foldl (fun d k => if p k then d.set k (f k) else d) d).get? x = if x ∈ ks ∧ p x = true then some (f x) else d.get? x := by
  induction ks generalizing d with
  | nil => simp
  | cons k t ih =>
    rw [List.foldl_cons, ih]
    by_cases hx : x ∈ t ∧ p x = true
    · rw [if_pos hx, if_pos ⟨List.mem_cons_of_mem _ hx.1, hx.2⟩]
    · rw [if_neg hx]
      by_cases hp : p k = true
      · rw [if_pos hp, Dict.get?_set]
        by_cases hk : k = x
        · subst hk; rw [if_pos rfl, if_pos ⟨List.mem_cons_self, hp⟩]
        · rw [if_neg hk, if_neg]
          rintro ⟨h1, h2⟩
          rcases List.mem_cons.1 h1 with h1 | h1
          · exact hk h1.symm
          · exact hx ⟨h1, h2⟩
      · rw [if_neg hp, if_neg]
        rintro ⟨h1, h2⟩
        rcases List.mem_cons.1 h1 with h1 | h1
        · subst h1; exact hp h2
        · exact hx ⟨h1, h2⟩

/-- A loop over different keys in which every key is stored as a function of its own value. -/
theorem get?_foldl_upd (f : K → ℚ → ℚ) (ks : List K) (hn : ks.Nodup) (d : Counter K) (x : K) :
    (ks.foldl (fun d k => d.set k (f k (Counter.at d k))) d).get? x = if x ∈ ks then some (f x (Counter.at d x)) else d.get? x := by
  induction ks generalizing d with
  | nil => simp
  | cons k t ih =>
    obtain ⟨hk, ht⟩ := List.nodup_cons.1 hn
    rw [List.foldl_cons, ih ht]
    by_cases hx : x ∈ t
    · rw [if_pos hx, if_pos (List.mem_cons_of_mem _ hx)]
      have hne : k ≠ x := by rintro rfl; exact hk hx
      unfold Counter.at
      rw [Dict.get?_set_ne _ _ hne]
    · rw [if_neg hx, Dict.get?_set]
      by_cases hkx : k = x
      · subst hkx; rw [if_pos rfl, if_pos List.mem_cons_self]
      · rw [if_neg hkx, if_neg]
        intro h; rcases List.mem_cons.1 h with h | h
        · exact hkx h.symm
        · exact hx h

theorem assocSet_keys {A : Type} (l : List (K × A)) (k : K) (a : A) (h : k ∈ l.map Prod.fst) : (assocSet l k a).map Prod.fst = l.map Prod.fst := by
  induction l with
  | nil => simp at h
  | cons e t ih =>
    obtain ⟨k', a'⟩ := e
    unfold assocSet
    split
    · rename_i hk; simp [hk]
    · rename_i hk
      simp only [List.map_cons, List.mem_cons] at h
      rcases h with h | h
      · exact absurd h.symm hk
      · simp [ih h]

/-- Storing at an existing key keeps the order of the keys. -/
theorem keys_set_mem {A : Type} (d : Dict K A) (k : K) (a : A) (h : k ∈ d.keys) : (d.set k a).keys = d.keys :=
  assocSet_keys d.entries k a h

theorem keys_foldl_upd (f : K → ℚ → ℚ) (ks : List K) (d : Counter K) (h : ∀ k ∈ ks, k ∈ d.keys) :
    (ks.foldl (fun d k => d.set k (f k (Counter.at d k))) d).keys = d.keys := by
  induction ks generalizing d with
  | nil => rfl
  | cons k t ih =>
    have e := keys_set_mem d k (f k (Counter.at d k)) (h k List.mem_cons_self)
    rw [List.foldl_cons, ih, e]
    intro x hx; rw [e]; exact h x (List.mem_cons_of_mem _ hx)

/-! ### Reading and the total -/

theorem at_of_not_mem {c : Counter K} {k : K} (h : k ∉ c.keys) : c.at k = 0 := by
  unfold Counter.at; rw [(Dict.get?_eq_none c k).2 h]; rfl

theorem vals_eq_map (c : Counter K) : c.vals = c.keys.map c.at := by
  unfold Dict.vals Dict.keys
  rw [List.map_map]
  refine List.map_congr_left fun e he => ?_
  have := (Dict.mem_entries' c e).1 he
  show e.2 = Counter.at c e.1
  unfold Counter.at; rw [this]; rfl

/-- The total is the sum of the values over the stored keys. -/
theorem total_eq_sum (c : Counter K) : c.total = (c.keys.map c.at).sum := by
  unfold Counter.total; rw [vals_eq_map]

theorem total_eq_finset (c : Counter K) (s : Finset K) (hs : ∀ k ∈ c.keys, k ∈ s) : c.total = ∑ k ∈ s, c.at k := by
  rw [total_eq_sum, ← List.sum_toFinset _ c.nodup_keys]
  refine Finset.sum_subset (fun k hk => hs k (List.mem_toFinset.1 hk)) fun k _ hk => ?_
  exact at_of_not_mem fun h => hk (List.mem_toFinset.2 h)

/-- **C57** Reading never raises and changes no value, but it stores the key: afterwards the key is in the counter and all other keys are as
before; the total does not change. -/
theorem C57_read (c : Counter K) (k : K) : (∀ x, (c.touch k).at x = c.at x) ∧ (∀ x, x ∈ (c.touch k).keys ↔ x = k ∨ x ∈ c.keys) ∧
    (c.touch k).total = c.total := by
  have h1 : ∀ x, (c.touch k).at x = c.at x := by
    intro x; unfold Counter.touch
    split
    · rfl
    · rename_i h
      unfold Counter.at
      rw [Dict.get?_set]
      by_cases e : k = x
      · subst e; rw [if_pos rfl, (Dict.has_eq_false c k).1 (by simpa using h)]; rfl
      · rw [if_neg e]
  have h2 : ∀ x, x ∈ (c.touch k).keys ↔ x = k ∨ x ∈ c.keys := by
    intro x; unfold Counter.touch
    split
    · rename_i h
      constructor
      · exact Or.inr
      · rintro (rfl | h')
        · exact (Dict.has_iff c x).1 h
        · exact h'
    · rw [Dict.mem_keys_set]
  refine ⟨h1, h2, ?_⟩
  rw [total_eq_finset _ (c.touch k).keys.toFinset (fun x hx => List.mem_toFinset.2 hx),
    total_eq_finset c (c.touch k).keys.toFinset (fun x hx => List.mem_toFinset.2 ((h2 x).2 (Or.inr hx)))]
  exact Finset.sum_congr rfl fun x _ => h1 x

theorem inc_at (c : Counter K) (k : K) (v : ℚ) (x : K) : (c.inc k v).at x = c.at x + if x = k then v else 0 := by
  unfold Counter.inc
  have := (C57_read c k).1 x
  unfold Counter.at at *
  rw [Dict.get?_set]
  by_cases e : k = x
  · subst e; rw [if_pos rfl, if_pos rfl]; rfl
  · rw [if_neg e, if_neg (Ne.symm e), this, add_zero]

theorem inc_keys (c : Counter K) (k : K) (v : ℚ) (x : K) : x ∈ (c.inc k v).keys ↔ x = k ∨ x ∈ c.keys := by
  unfold Counter.inc
  rw [Dict.mem_keys_set, (C57_read c k).2.1]
  tauto

/-- **C57** `incrementAll` adds the amount once for every occurrence of a key in the list, and stores exactly the keys of the list besides the old ones. -/
theorem C57_incrementAll (c : Counter K) (ks : List K) (v : ℚ) :
    (∀ x, (c.incrementAll ks v).at x = c.at x + ks.count x * v) ∧ ∀ x, x ∈ (c.incrementAll ks v).keys ↔ x ∈ ks ∨ x ∈ c.keys := by
  unfold Counter.incrementAll
  induction ks generalizing c with
  | nil => simp
  | cons k t ih =>
    obtain ⟨h1, h2⟩ := ih (c.inc k v)
    constructor
    · intro x
      rw [List.foldl_cons, h1, inc_at, List.count_cons]
      by_cases e : x = k
      · subst e; simp; ring
      · have : (k == x) = false := by simpa using Ne.symm e
        simp [e, this]
    · intro x
      rw [List.foldl_cons, h2, inc_keys, List.mem_cons]
      tauto

/-! ### Normalisation -/

theorem divAll_at (c : Counter K) (d : ℚ) : (∀ x, (c.keys.foldl (Counter.divAt d) c).at x = c.at x / d) ∧
    (c.keys.foldl (Counter.divAt d) c).keys = c.keys := by
  have hk : (c.keys.foldl (Counter.divAt d) c).keys = c.keys := keys_foldl_upd (fun _ v => v / d) c.keys c (fun k hk => hk)
  refine ⟨fun x => ?_, hk⟩
  have := get?_foldl_upd (fun _ v => v / d) c.keys c.nodup_keys c x
  unfold Counter.at
  show ((c.keys.foldl (fun c k => c.set k (Counter.at c k / d)) c).get? x).getD 0 = _
  rw [this]
  split
  · rfl
  · rename_i hx
    rw [(Dict.get?_eq_none c x).2 hx]; simp

/-- **C57** Normalising a counter with a total other than zero divides every value by the total, keeps the keys in their order and makes the total one;
a counter with total zero — in particular an empty one, contrary to the documentation — is left as it is. -/
theorem C57_normalize (c : Counter K) : (c.total ≠ 0 → (∀ x, c.normalize.at x = c.at x / c.total) ∧ c.normalize.keys = c.keys ∧ c.normalize.total = 1) ∧
    (c.total = 0 → c.normalize = c) := by
  constructor
  · intro h
    unfold Counter.normalize
    rw [if_neg h]
    obtain ⟨h1, h2⟩ := divAll_at c c.total
    refine ⟨h1, h2, ?_⟩
    rw [total_eq_sum, h2]
    have : (c.keys.map (c.keys.foldl (Counter.divAt c.total) c).at) = (c.keys.map c.at).map (fun v => v / c.total) := by
      rw [List.map_map]; exact List.map_congr_left fun k _ => h1 k
    rw [this]
    have hs : ∀ l : List ℚ, (l.map fun v => v / c.total).sum = l.sum / c.total := by
      intro l; induction l with
      | nil => simp
      | cons a t ih => simp [ih, add_div]
    rw [hs, ← total_eq_sum, div_self h]
  · intro h; unfold Counter.normalize; rw [if_pos h]

/-- **C57** `divideAll` divides every value; it raises exactly when a counter that is not empty is divided by zero. -/
theorem C57_divideAll (c : Counter K) (d : ℚ) : (d = 0 → c.keys ≠ [] → c.divideAll d = .error .value) ∧
    ((d ≠ 0 ∨ c.keys = []) → ∃ c', c.divideAll d = .ok c' ∧ (∀ x, c'.at x = c.at x / d) ∧ c'.keys = c.keys) := by
  constructor
  · intro h1 h2; unfold Counter.divideAll; rw [if_pos ⟨h1, h2⟩]
  · intro h
    refine ⟨c.keys.foldl (Counter.divAt d) c, ?_, divAll_at c d⟩
    unfold Counter.divideAll
    rw [if_neg]; rintro ⟨h1, h2⟩; rcases h with h | h
    · exact h h1
    · exact h2 h

/-! ### Sum, difference, product -/

theorem combine_fold (f : ℚ → ℚ → ℚ) (g : ℚ → ℚ) (x y : Counter K) (k : K) :
    (y.keys.foldl (Counter.rest g x y) (x.keys.foldl (Counter.combine f x y) Dict.empty)).get? k =
      if k ∈ x.keys then some (if k ∈ y.keys then f (x.at k) (y.at k) else x.at k) else if k ∈ y.keys then some (g (y.at k)) else none := by
  have h1 : ∀ d : Counter K, (y.keys.foldl (Counter.rest g x y) d) = y.keys.foldl (fun d k => if !x.has k then d.set k (g (y.at k)) else d) d := by
    intro d; congr 1; funext d k; unfold Counter.rest; cases x.has k <;> rfl
  have h2 : ∀ d : Counter K, (x.keys.foldl (Counter.combine f x y) d) =
      x.keys.foldl (fun d k => if (fun _ => true) k then d.set k (if y.has k then f (x.at k) (y.at k) else x.at k) else d) d := by
    intro d; rfl
  rw [h1, h2, get?_foldl_set, get?_foldl_set]
  have hx := Dict.has_iff x k
  have hy := Dict.has_iff y k
  by_cases a : k ∈ x.keys <;> by_cases b : k ∈ y.keys
  · simp [a, b, hx.2 a, hy.2 b]
  · have hb : y.has k = false := by rw [Bool.eq_false_iff]; exact fun h => b (hy.1 h)
    simp [a, b, hb]
  · have ha : x.has k = false := by rw [Bool.eq_false_iff]; exact fun h => a (hx.1 h)
    simp [a, b, ha]
  · simp [a, b]

/-- **C57** The sum of counters is pointwise; its keys are the keys of both. -/
theorem C57_add (x y : Counter K) : (∀ k, (x.add y).at k = x.at k + y.at k) ∧ ∀ k, k ∈ (x.add y).keys ↔ k ∈ x.keys ∨ k ∈ y.keys := by
  have h := combine_fold (· + ·) id x y
  constructor
  · intro k
    show ((x.add y).get? k).getD 0 = _
    unfold Counter.add; rw [h]
    by_cases a : k ∈ x.keys <;> by_cases b : k ∈ y.keys
    · rw [if_pos a, if_pos b]; rfl
    · rw [if_pos a, if_neg b, at_of_not_mem b]; simp
    · rw [if_neg a, if_pos b, at_of_not_mem a]; simp
    · rw [if_neg a, if_neg b, at_of_not_mem a, at_of_not_mem b]; simp
  · intro k
    rw [Dict.mem_keys]; unfold Counter.add; rw [h]
    by_cases a : k ∈ x.keys <;> by_cases b : k ∈ y.keys <;> simp [a, b]

/-- **C57** The difference of counters is pointwise; its keys are the keys of both. -/
theorem C57_sub (x y : Counter K) : (∀ k, (x.sub y).at k = x.at k - y.at k) ∧ ∀ k, k ∈ (x.sub y).keys ↔ k ∈ x.keys ∨ k ∈ y.keys := by
  have h := combine_fold (· - ·) (fun v => -1 * v) x y
  constructor
  · intro k
    show ((x.sub y).get? k).getD 0 = _
    unfold Counter.sub; rw [h]
    by_cases a : k ∈ x.keys <;> by_cases b : k ∈ y.keys
    · rw [if_pos a, if_pos b]; rfl
    · rw [if_pos a, if_neg b, at_of_not_mem b]; simp
    · rw [if_neg a, if_pos b, at_of_not_mem a]; simp
    · rw [if_neg a, if_neg b, at_of_not_mem a, at_of_not_mem b]; simp
  · intro k
    rw [Dict.mem_keys]; unfold Counter.sub; rw [h]
    by_cases a : k ∈ x.keys <;> by_cases b : k ∈ y.keys <;> simp [a, b]

theorem mulLoop_eq (x y : Counter K) (s : Finset K) (hs : ∀ k ∈ x.keys, k ∈ s) : x.mulLoop y = ∑ k ∈ s, x.at k * y.at k := by
  have h : ∀ (ks : List K) (t : ℚ), ks.foldl (fun s k => if y.has k then s + Counter.at x k * Counter.at y k else s) t =
      t + (ks.map fun k => x.at k * y.at k).sum := by
    intro ks; induction ks with
    | nil => simp
    | cons k ks ih =>
      intro t
      rw [List.foldl_cons, ih, List.map_cons, List.sum_cons]
      by_cases hk : y.has k = true
      · rw [if_pos hk]; ring
      · rw [if_neg hk, at_of_not_mem (c := y) (fun h => hk ((Dict.has_iff y k).2 h))]; ring
  unfold Counter.mulLoop
  rw [h, zero_add, ← List.sum_toFinset _ x.nodup_keys]
  refine Finset.sum_subset (fun k hk => hs k (List.mem_toFinset.1 hk)) fun k _ hk => ?_
  rw [at_of_not_mem (c := x) fun h => hk (List.mem_toFinset.2 h), zero_mul]

/-- **C57** The product of counters is the inner product of the functions they stand for, over any finite set with all keys of one of them;
which of the two is the shorter makes no difference. -/
theorem C57_mul (x y : Counter K) (s : Finset K) (hs : (∀ k ∈ x.keys, k ∈ s) ∨ ∀ k ∈ y.keys, k ∈ s) : x.mul y = ∑ k ∈ s, x.at k * y.at k := by
  have key : ∀ (x y : Counter K) (s : Finset K), (∀ k ∈ x.keys, k ∈ s) → x.mulLoop y = ∑ k ∈ s, x.at k * y.at k ∧ y.mulLoop x = ∑ k ∈ s, x.at k * y.at k := by
    intro x y s hs
    have a := mulLoop_eq x y s hs
    refine ⟨a, ?_⟩
    have b := mulLoop_eq y x (s ∪ y.keys.toFinset) (fun k hk => Finset.mem_union_right _ (List.mem_toFinset.2 hk))
    rw [b]
    rw [show (∑ k ∈ s, x.at k * y.at k) = ∑ k ∈ s ∪ y.keys.toFinset, x.at k * y.at k from ?_]
    · exact Finset.sum_congr rfl fun k _ => mul_comm _ _
    · refine Finset.sum_subset Finset.subset_union_left fun k _ hk => ?_
      rw [at_of_not_mem (c := x) fun h => hk (hs k h), zero_mul]
  unfold Counter.mul
  rcases hs with hs | hs
  · obtain ⟨a, b⟩ := key x y s hs
    split
    · exact b
    · exact a
  · obtain ⟨a, b⟩ := key y x s hs
    have e : (∑ k ∈ s, y.at k * x.at k) = ∑ k ∈ s, x.at k * y.at k := Finset.sum_congr rfl fun k _ => mul_comm _ _
    rw [e] at a b
    split
    · exact a
    · exact b

/-- **C57** The product is symmetric and linear, the total is linear. -/
theorem C57_bilinear (x y z : Counter K) : x.mul y = y.mul x ∧ (x.add y).mul z = x.mul z + y.mul z ∧ (x.sub y).mul z = x.mul z - y.mul z ∧
    (x.add y).total = x.total + y.total ∧ (x.sub y).total = x.total - y.total := by
  classical
  let s : Finset K := x.keys.toFinset ∪ y.keys.toFinset ∪ z.keys.toFinset
  have hx : ∀ k ∈ x.keys, k ∈ s := fun k hk => by simp only [s, Finset.mem_union, List.mem_toFinset]; tauto
  have hy : ∀ k ∈ y.keys, k ∈ s := fun k hk => by simp only [s, Finset.mem_union, List.mem_toFinset]; tauto
  have hz : ∀ k ∈ z.keys, k ∈ s := fun k hk => by simp only [s, Finset.mem_union, List.mem_toFinset]; tauto
  have ha : ∀ k ∈ (x.add y).keys, k ∈ s := fun k hk => ((C57_add x y).2 k).1 hk |>.elim (hx k) (hy k)
  have hb : ∀ k ∈ (x.sub y).keys, k ∈ s := fun k hk => ((C57_sub x y).2 k).1 hk |>.elim (hx k) (hy k)
  refine ⟨?_, ?_, ?_, ?_, ?_⟩
  · rw [C57_mul x y s (Or.inl hx), C57_mul y x s (Or.inl hy)]; exact Finset.sum_congr rfl fun k _ => mul_comm _ _
  · rw [C57_mul _ z s (Or.inr hz), C57_mul _ z s (Or.inr hz), C57_mul _ z s (Or.inr hz), ← Finset.sum_add_distrib]
    exact Finset.sum_congr rfl fun k _ => by rw [(C57_add x y).1, add_mul]
  · rw [C57_mul _ z s (Or.inr hz), C57_mul _ z s (Or.inr hz), C57_mul _ z s (Or.inr hz), ← Finset.sum_sub_distrib]
    exact Finset.sum_congr rfl fun k _ => by rw [(C57_sub x y).1, sub_mul]
  · rw [total_eq_finset _ s ha, total_eq_finset _ s hx, total_eq_finset _ s hy, ← Finset.sum_add_distrib]
    exact Finset.sum_congr rfl fun k _ => (C57_add x y).1 k
  · rw [total_eq_finset _ s hb, total_eq_finset _ s hx, total_eq_finset _ s hy, ← Finset.sum_sub_distrib]
    exact Finset.sum_congr rfl fun k _ => (C57_sub x y).1 k

/-- **C57** `y + counter` for a dictionary `y` adds into the counter itself and has no value. -/
theorem C57_radd (c y : Counter K) : (c.radd y).2 = none ∧ (∀ k, (c.radd y).1.at k = c.at k + y.at k) := by
  refine ⟨rfl, fun k => ?_⟩
  have h : ∀ (l : List (K × ℚ)) (c : Counter K), (l.foldl (fun c e => Counter.inc c e.1 e.2) c).at k =
      c.at k + (l.map fun e => if k = e.1 then e.2 else 0).sum := by
    intro l; induction l with
    | nil => simp
    | cons e t ih =>
      intro c; rw [List.foldl_cons, ih, inc_at, List.map_cons, List.sum_cons]; ring
  show (y.entries.foldl (fun c e => Counter.inc c e.1 e.2) c).at k = _
  rw [h]
  congr 1
  have e1 : (y.entries.map fun e => if k = e.1 then e.2 else 0) = y.entries.map ((fun x => if k = x then y.at k else 0) ∘ Prod.fst) := by
    refine List.map_congr_left fun e he => ?_
    show _ = if k = e.1 then y.at k else 0
    by_cases h : k = e.1
    · rw [if_pos h, if_pos h, h]; unfold Counter.at; rw [(Dict.mem_entries' y e).1 he]; rfl
    · rw [if_neg h, if_neg h]
  rw [e1, ← List.map_map]
  show (y.keys.map _).sum = _
  rw [← List.sum_toFinset _ y.nodup_keys, Finset.sum_ite_eq]
  by_cases hk : k ∈ y.keys
  · rw [if_pos (List.mem_toFinset.2 hk)]
  · rw [if_neg (fun h => hk (List.mem_toFinset.1 h)), at_of_not_mem hk]

/-- **C57** In Python 3 `argMax` only works for an empty counter and `sortedKeys` never does. -/
theorem C57_python3 (c : Counter K) : (c.keys = [] → c.argMax = .ok none) ∧ (c.keys ≠ [] → c.argMax = .error .value) ∧ c.sortedKeys = .error .value := by
  unfold Counter.argMax Counter.sortedKeys
  exact ⟨fun h => if_pos h, fun h => if_neg h, rfl⟩

end counter

/-- The example of the documentation: the product is 14. -/
example : (Dict.ofList [("first", (-2 : ℚ)), ("second", 4), ("third", 3 / 2), ("fourth", 5 / 2)]).keys.length = 4 ∧
    Counter.mul (Dict.ofList [("first", (-2 : ℚ)), ("second", 4), ("third", 3 / 2), ("fourth", 5 / 2)]) (Dict.ofList [("first", 3), ("second", 5)]) = 14 ∧
    Counter.at (Counter.normalize (Dict.ofList [("a", 1), ("b", (3 : ℚ))])) "b" = 3 / 4 := by
  refine ⟨by decide +kernel, by decide +kernel, by decide +kernel⟩

end Verif.Pac
