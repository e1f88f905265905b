import Mathlib.Tactic.Linarith
import Mathlib.Data.List.TakeDrop
import Verif.Props.PacCounter

/-! # C57: sampling functions of `demo/util.py` -/

namespace Verif.Pac

theorem sampleLoop_ok (r : ℚ) (t : List ℚ) : ∀ (total : ℚ) (i k : ℕ), sampleLoop r total i t = .ok k ↔
    ∃ m ≤ t.length, k = i + m ∧ r ≤ total + (t.take m).sum ∧ ∀ j < m, total + (t.take j).sum < r := by
  induction t with
  | nil =>
    intro total i k
    unfold sampleLoop
    by_cases h : r > total
    · rw [if_pos h]
      constructor
      · intro hc; cases hc
      · rintro ⟨m, hm, -, h2, -⟩
        simp at hm; subst hm; simp at h2; linarith
    · rw [if_neg h]
      constructor
      · intro hc; cases hc
        exact ⟨0, le_refl _, rfl, by simpa using not_lt.1 h, fun j hj => absurd hj (by omega)⟩
      · rintro ⟨m, hm, rfl, -⟩
        simp at hm; subst hm; rfl
  | cons p t ih =>
    intro total i k
    unfold sampleLoop
    by_cases h : r > total
    · rw [if_pos h, ih]
      constructor
      · rintro ⟨m, hm, rfl, h2, h3⟩
        refine ⟨m + 1, by simpa using hm, by omega, by simpa [add_assoc] using h2, ?_⟩
        intro j hj
        cases j with
        | zero => simpa using h
        | succ j => have := h3 j (by omega); simpa [add_assoc] using this
      · rintro ⟨m, hm, rfl, h2, h3⟩
        cases m with
        | zero => simp at h2; linarith
        | succ m =>
          refine ⟨m, by simpa using hm, by omega, by simpa [add_assoc] using h2, ?_⟩
          intro j hj; have := h3 (j + 1) (by omega); simpa [add_assoc] using this
    · rw [if_neg h]
      constructor
      · intro hc; cases hc
        exact ⟨0, Nat.zero_le _, rfl, by simpa using not_lt.1 h, fun j hj => absurd hj (by omega)⟩
      · rintro ⟨m, hm, rfl, h2, h3⟩
        cases m with
        | zero => rfl
        | succ m => have := h3 0 (by omega); simp at this; exact absurd this h

theorem sampleLoop_err (r : ℚ) (t : List ℚ) : ∀ (total : ℚ) (i : ℕ) (e : PErr), sampleLoop r total i t = .error e → e = .index ∧ total + t.sum < r := by
  induction t with
  | nil =>
    intro total i e h
    unfold sampleLoop at h
    split at h
    · cases h; rename_i h; exact ⟨rfl, by simpa using h⟩
    · cases h
  | cons p t ih =>
    intro total i e h
    unfold sampleLoop at h
    split at h
    · obtain ⟨h1, h2⟩ := ih _ _ _ h
      exact ⟨h1, by rw [List.sum_cons, ← add_assoc]; exact h2⟩
    · cases h

theorem sum_map_div (l : List ℚ) (d : ℚ) : (l.map fun v => v / d).sum = l.sum / d := by
  induction l with
  | nil => simp
  | cons a t ih => simp [ih, add_div]

theorem dist_eq {p : List ℚ} (hS : p.sum ≠ 0) : (if p.sum ≠ 1 then normalizeList p else p) = p.map fun v => v / p.sum := by
  by_cases h : p.sum = 1
  · rw [if_neg (by simpa using h), h]; simp
  · rw [if_pos h]; unfold normalizeList; rw [if_neg hS]

theorem take_mono {p : List ℚ} (h0 : ∀ x ∈ p, 0 ≤ x) {i j : ℕ} (hij : i ≤ j) : (p.take i).sum ≤ (p.take j).sum := by
  have : (p.take j) = p.take i ++ (p.take j).drop i := by
    conv_lhs => rw [← List.take_append_drop i (p.take j)]
    rw [List.take_take, min_eq_left hij]
  rw [this, List.sum_append]
  have := List.sum_nonneg (l := (p.take j).drop i) fun x hx => h0 x (List.mem_of_mem_take (List.mem_of_mem_drop hx))
  linarith

/-- **C57** `sample` for weights that are not negative and have a positive sum `S`: for every random number `0 ≤ r ≤ 1` it chooses an index, namely
the one whose cumulated weight interval `(w₀ + … + wᵢ₋₁, w₀ + … + wᵢ]` contains `r S`, or the first one if `r` is not above the first weight.
Hence every index is chosen for an interval of random numbers of length `wᵢ / S`. -/
theorem C57_sample {p : List ℚ} (h0 : ∀ x ∈ p, 0 ≤ x) (hS : 0 < p.sum) {r : ℚ} (hr1 : r ≤ 1) :
    (∃ i, sampleIdx p r = .ok i) ∧
    ∀ i, sampleIdx p r = .ok i ↔ i < p.length ∧ r * p.sum ≤ (p.take (i + 1)).sum ∧ (i = 0 ∨ (p.take i).sum < r * p.sum) := by
  obtain ⟨q, t, rfl⟩ : ∃ q t, p = q :: t := by
    cases p with
    | nil => simp at hS
    | cons q t => exact ⟨q, t, rfl⟩
  set p := q :: t with hp
  have hd : sampleIdx p r = sampleLoop r (q / p.sum) 0 (t.map fun v => v / p.sum) := by
    unfold sampleIdx
    rw [dist_eq hS.ne', hp, List.map_cons]
  have hcum : ∀ m, q / p.sum + ((t.map fun v => v / p.sum).take m).sum = (p.take (m + 1)).sum / p.sum := by
    intro m
    rw [← List.map_take, sum_map_div, ← add_div, hp, List.take_succ_cons, List.sum_cons, List.sum_cons]
  constructor
  · cases h : sampleIdx p r with
    | ok i => exact ⟨i, rfl⟩
    | error e =>
      rw [hd] at h
      obtain ⟨-, h2⟩ := sampleLoop_err _ _ _ _ _ h
      exfalso
      rw [sum_map_div, ← add_div] at h2
      have : (q + t.sum) / p.sum = 1 := by rw [← List.sum_cons]; exact div_self hS.ne'
      rw [this] at h2; linarith
  · intro i
    rw [hd, sampleLoop_ok]
    constructor
    · rintro ⟨m, hm, rfl, h2, h3⟩
      rw [hcum, le_div_iff₀ hS] at h2
      rw [List.length_map] at hm
      rw [Nat.zero_add]
      refine ⟨by rw [hp, List.length_cons]; omega, h2, ?_⟩
      rcases Nat.eq_zero_or_pos m with h | h
      · exact Or.inl h
      · have := h3 (m - 1) (by omega)
        rw [hcum, show m - 1 + 1 = m by omega, div_lt_iff₀ hS] at this
        exact Or.inr this
    · rintro ⟨h1, h2, h3⟩
      refine ⟨i, ?_, by omega, ?_, ?_⟩
      · rw [hp, List.length_cons] at h1; rw [List.length_map]; omega
      · rw [hcum, le_div_iff₀ hS]; exact h2
      · intro j hj
        rcases h3 with h3 | h3
        · omega
        · rw [hcum, div_lt_iff₀ hS]
          exact lt_of_le_of_lt (take_mono h0 (by omega)) h3

/-- **C57** What is chosen has a positive weight, unless the random number is zero and the first weight is zero. -/
theorem C57_sample_positive {p : List ℚ} (h0 : ∀ x ∈ p, 0 ≤ x) (hS : 0 < p.sum) {r : ℚ} (hr0 : 0 < r) (hr1 : r ≤ 1) {i : ℕ} (h : sampleIdx p r = .ok i) :
    ∃ w, p[i]? = some w ∧ 0 < w := by
  obtain ⟨h1, h2, h3⟩ := ((C57_sample h0 hS hr1).2 i).1 h
  refine ⟨p[i], List.getElem?_eq_getElem h1, ?_⟩
  have he : (p.take (i + 1)).sum = (p.take i).sum + p[i] := by
    rw [List.take_add_one, List.getElem?_eq_getElem h1, List.sum_append]; simp only [Option.toList_some, List.sum_cons, List.sum_nil, add_zero]
  have hpos : 0 < r * p.sum := mul_pos hr0 hS
  rcases h3 with rfl | h3
  · rw [he] at h2; simp at h2; linarith
  · linarith

/-- With the random number zero an outcome of probability zero can be returned. -/
theorem C57_sample_zero : sampleList [0, (1 : ℚ)] ["impossible", "certain"] 0 = .ok "impossible" := by decide +kernel

/-- **C57** An empty distribution raises `IndexError`; so does one with weights zero (unless the random number is zero). -/
theorem C57_sample_empty (r : ℚ) {K : Type} (vs : List K) : sampleList [] vs r = .error .index ∧
    (0 < r → ∀ n, sampleList (List.replicate n 0) vs r = .error .index) := by
  constructor
  · unfold sampleList sampleIdx; simp [normalizeList]
  · intro hr n
    have hs : (List.replicate n (0 : ℚ)).sum = 0 := by simp
    have hi : sampleIdx (List.replicate n 0) r = .error .index := by
      unfold sampleIdx
      rw [hs, if_pos (by norm_num)]
      unfold normalizeList
      rw [if_pos hs]
      cases n with
      | zero => rfl
      | succ n =>
        rw [List.replicate_succ]
        show sampleLoop r 0 0 (List.replicate n 0) = _
        cases h : sampleLoop r 0 0 (List.replicate n 0) with
        | error e => rw [(sampleLoop_err _ _ _ _ _ h).1]
        | ok k =>
          obtain ⟨m, hm, -, h2, -⟩ := (sampleLoop_ok _ _ _ _ _).1 h
          rw [List.take_replicate] at h2
          simp at h2; linarith
    unfold sampleList; rw [hi]

/-! ### Counters -/

section
variable {K : Type} [DecidableEq K]

/-- Weight of the keys before `k` in the order. -/
def weightBefore (le : K → K → Bool) (c : Counter K) (k : K) : ℚ := ((c.keys.filter fun x => le x k && decide (x ≠ k)).map c.at).sum

theorem items_perm (le : K → K → Bool) (c : Counter K) : (c.entries.mergeSort fun a b => le a.1 b.1).Perm c.entries := List.mergeSort_perm _ _

theorem sum_items (c : Counter K) {l : List (K × ℚ)} (hl : l.Perm c.entries) : (l.map Prod.snd).sum = c.total := by
  unfold Counter.total Dict.vals; exact (hl.map Prod.snd).sum_eq

/-- In sorted items the weights before position `i` are the weights of the keys before the key at `i`. -/
theorem take_items {le : K → K → Bool} (htrans : ∀ a b c, le a b → le b c → le a c) (htot : ∀ a b, le a b || le b a) (hanti : ∀ a b, le a b → le b a → a = b)
    (c : Counter K) {i : ℕ} {k : K} {v : ℚ} (h : (c.entries.mergeSort fun a b => le a.1 b.1)[i]? = some (k, v)) :
    (((c.entries.mergeSort fun a b => le a.1 b.1).map Prod.snd).take i).sum = weightBefore le c k := by
  set items := c.entries.mergeSort fun a b => le a.1 b.1 with hit
  have hp : items.Perm c.entries := items_perm le c
  have hsorted : items.Pairwise fun a b => le a.1 b.1 = true := by
    have := List.pairwise_mergeSort (le := fun a b : K × ℚ => le a.1 b.1) (fun a b c => htrans a.1 b.1 c.1) (fun a b => htot a.1 b.1) c.entries
    exact this
  have hnod : (items.map Prod.fst).Nodup := (hp.map Prod.fst).nodup_iff.2 c.nodup
  obtain ⟨hi, he⟩ := List.getElem?_eq_some_iff.1 h
  have hsplit : items = items.take i ++ (k, v) :: items.drop (i + 1) := by
    conv_lhs => rw [← List.take_append_drop i items, List.drop_eq_getElem_cons hi, he]
  have hf : items.filter (fun e => le e.1 k && decide (e.1 ≠ k)) = items.take i := by
    rw [hsplit] at hsorted hnod
    rw [List.pairwise_append, List.pairwise_cons] at hsorted
    rw [List.map_append, List.map_cons, List.nodup_append, List.nodup_cons] at hnod
    conv_lhs => rw [hsplit]
    rw [List.filter_append, List.filter_cons_of_neg (by simp)]
    rw [List.filter_eq_self.2, List.filter_eq_nil_iff.2, List.append_nil]
    · intro e he' hc
      simp only [Bool.and_eq_true, decide_eq_true_eq] at hc
      exact hc.2 (hanti _ _ hc.1 (hsorted.2.1.1 e he'))
    · intro e he'
      simp only [Bool.and_eq_true, decide_eq_true_eq]
      refine ⟨hsorted.2.2 e he' (k, v) List.mem_cons_self, ?_⟩
      intro hek
      exact hnod.2.2 e.1 (List.mem_map_of_mem he') k List.mem_cons_self hek
  rw [← List.map_take, ← hf, ((hp.filter _).map Prod.snd).sum_eq]
  unfold weightBefore Dict.keys
  rw [List.filter_map, List.map_map]
  congr 1
  refine List.map_congr_left fun e he' => ?_
  have := (Dict.mem_entries' c e).1 (List.mem_filter.1 he').1
  show e.2 = Counter.at c e.1
  unfold Counter.at; rw [this]; rfl

/-- **C57** Sampling from a counter whose values are not negative and not all zero: it returns a key for every random number; it returns key `k`
exactly for the random numbers in an interval of length value over total, which starts at the share of the keys before `k`. Only the first key is also
returned for `r = 0`. The order of insertion does not matter. -/
theorem C57_sample_counter {le : K → K → Bool} (htrans : ∀ a b c, le a b → le b c → le a c) (htot : ∀ a b, le a b || le b a)
    (hanti : ∀ a b, le a b → le b a → a = b) {c : Counter K} (h0 : ∀ k, 0 ≤ c.at k) (hS : 0 < c.total) {r : ℚ} (hr1 : r ≤ 1) :
    (∃ k ∈ c.keys, sampleCounter le c r = .ok k) ∧
    (0 < r → ∀ k, sampleCounter le c r = .ok k ↔
      k ∈ c.keys ∧ weightBefore le c k / c.total < r ∧ r ≤ (weightBefore le c k + c.at k) / c.total) := by
  have hp := items_perm le c
  have hsum := sum_items c hp
  have htake := fun i k v => take_items htrans htot hanti c (i := i) (k := k) (v := v)
  have hdef : sampleCounter le c r = sampleList ((c.entries.mergeSort fun a b => le a.1 b.1).map Prod.snd)
    ((c.entries.mergeSort fun a b => le a.1 b.1).map Prod.fst) r := rfl
  generalize (c.entries.mergeSort fun a b => le a.1 b.1) = items at hp hsum htake hdef
  have hval : ∀ e ∈ items, e.2 = c.at e.1 := by
    intro e he; unfold Counter.at; rw [(Dict.mem_entries' c e).1 (hp.mem_iff.1 he)]; rfl
  have hnn : ∀ x ∈ items.map Prod.snd, 0 ≤ x := by
    intro x hx; obtain ⟨e, he, rfl⟩ := List.mem_map.1 hx; rw [hval e he]; exact h0 _
  have hs := C57_sample hnn (by rw [hsum]; exact hS) hr1
  have hok : ∀ k, sampleCounter le c r = .ok k ↔ ∃ i v, sampleIdx (items.map Prod.snd) r = .ok i ∧ items[i]? = some (k, v) := by
    intro k
    rw [hdef]
    unfold sampleList
    cases hi : sampleIdx (items.map Prod.snd) r with
    | error e => simp
    | ok i =>
      simp only [List.getElem?_map, Except.ok.injEq]
      cases hg : items[i]? with
      | none =>
        simp only [Option.map_none]
        constructor
        · intro hc; cases hc
        · rintro ⟨j, v, rfl, hv⟩; rw [hg] at hv; cases hv
      | some e =>
        simp only [Option.map_some, Except.ok.injEq]
        constructor
        · rintro rfl; exact ⟨i, e.2, rfl, hg⟩
        · rintro ⟨j, v, rfl, hv⟩; rw [hg] at hv; cases hv; rfl
  constructor
  · obtain ⟨i, hi⟩ := hs.1
    have hl := ((hs.2 i).1 hi).1
    rw [List.length_map] at hl
    refine ⟨items[i].1, ?_, (hok _).2 ⟨i, items[i].2, hi, List.getElem?_eq_getElem hl⟩⟩
    exact List.mem_map_of_mem (hp.mem_iff.1 (List.getElem_mem hl))
  · intro hr0 k
    rw [hok]
    have hstep : ∀ i v, items[i]? = some (k, v) → ((items.map Prod.snd).take (i + 1)).sum = weightBefore le c k + c.at k := by
      intro i v h
      rw [List.take_add_one, List.getElem?_map, h]
      simp only [Option.map_some, Option.toList_some, List.sum_append, List.sum_cons, List.sum_nil, add_zero]
      rw [htake i k v h, show v = c.at k from hval (k, v) (List.mem_of_getElem? h)]
    constructor
    · rintro ⟨i, v, hi, hv⟩
      obtain ⟨h1, h2, h3⟩ := (hs.2 i).1 hi
      rw [hstep i v hv, hsum] at h2
      rw [htake i k v hv, hsum] at h3
      refine ⟨List.mem_map_of_mem (f := Prod.fst) (hp.mem_iff.1 (List.mem_of_getElem? hv)), ?_, ?_⟩
      · rw [div_lt_iff₀ hS]
        rcases h3 with rfl | h3
        · have := htake 0 k v hv; simp at this; rw [← this]; exact mul_pos hr0 hS
        · exact h3
      · rw [le_div_iff₀ hS]; exact h2
    · rintro ⟨hk, h1, h2⟩
      obtain ⟨e, he, rfl⟩ := List.mem_map.1 hk
      obtain ⟨i, hi⟩ := List.getElem?_of_mem (hp.mem_iff.2 he)
      refine ⟨i, e.2, (hs.2 i).2 ⟨?_, ?_, Or.inr ?_⟩, hi⟩
      · rw [List.length_map]; exact (List.getElem?_eq_some_iff.1 hi).1
      · rw [hstep i e.2 hi, hsum, ← le_div_iff₀ hS]; exact h2
      · rw [htake i e.1 e.2 hi, hsum, ← div_lt_iff₀ hS]; exact h1

end

/-! ### The other functions -/

theorem nSampleLoop_spec {K : Type} (S : ℚ) (hS : 0 < S) (p : List ℚ) (vs : List K) (hlen : vs.length = p.length) (hsum : p.sum = S) (rs : List ℚ) :
    ∀ (i : ℕ) (d : List ℚ), i < p.length → d = (p.drop (i + 1)).map (fun v => v / S) → rs.Pairwise (· ≤ ·) → (∀ r ∈ rs, (p.take i).sum / S ≤ r ∧ r < 1) →
    ∃ l, nSampleLoop ((p.take (i + 1)).sum / S) d (vs.drop i) rs = .ok l ∧ l.length = rs.length ∧
      ∀ (j : ℕ) v r, l[j]? = some v → rs[j]? = some r → ∃ m : ℕ, vs[m]? = some v ∧ (p.take m).sum ≤ r * S ∧ r * S < (p.take (m + 1)).sum := by
  induction rs with
  | nil => intro i d _ _ _ _; exact ⟨[], by unfold nSampleLoop; rfl, rfl, by simp⟩
  | cons r rs ih =>
    intro i d hi hd hsort hr
    obtain ⟨n, hn⟩ : ∃ n, n = p.length - i := ⟨_, rfl⟩
    induction n generalizing i d with
    | zero => omega
    | succ n ihn =>
      have hr' := hr r List.mem_cons_self
      unfold nSampleLoop
      by_cases hc : r < (p.take (i + 1)).sum / S
      · rw [if_pos hc]
        have hv : i < vs.length := by omega
        obtain ⟨l, h1, h2, h3⟩ := ih i d hi hd (List.pairwise_cons.1 hsort).2 (fun x hx => hr x (List.mem_cons_of_mem _ hx))
        rw [List.drop_eq_getElem_cons hv] at h1 ⊢
        simp only [h1]
        refine ⟨_, rfl, by simp [h2], ?_⟩
        intro j v x hj hx
        cases j with
        | zero =>
          simp only [List.getElem?_cons_zero, Option.some.injEq] at hj hx
          subst hj; subst hx
          refine ⟨i, List.getElem?_eq_getElem hv, ?_, ?_⟩
          · rw [← div_le_iff₀ hS]; exact hr'.1
          · rw [← lt_div_iff₀ hS]; exact hc
        | succ j =>
          simp only [List.getElem?_cons_succ] at hj hx
          exact h3 j v x hj hx
      · rw [if_neg hc]
        have hi2 : i + 1 < p.length := by
          rcases Nat.lt_or_ge (i + 1) p.length with h | h
          · exact h
          · exfalso
            rw [List.take_of_length_le h, hsum, div_self hS.ne'] at hc
            exact hc hr'.2
        have hd2 : d = p[i + 1] / S :: (p.drop (i + 1 + 1)).map (fun v => v / S) := by
          rw [hd, List.drop_eq_getElem_cons hi2, List.map_cons]
        rw [hd2]
        have e : (p.take (i + 1)).sum / S + p[i + 1] / S = (p.take (i + 1 + 1)).sum / S := by
          rw [List.take_add_one (i := i + 1), List.getElem?_eq_getElem hi2, List.sum_append]; simp [add_div]
        simp only [e, List.tail_drop]
        refine ihn (i + 1) _ hi2 rfl ?_ (by omega)
        intro x hx
        refine ⟨?_, (hr x hx).2⟩
        rcases List.mem_cons.1 hx with rfl | hx
        · exact not_lt.1 hc
        · exact le_trans (not_lt.1 hc) ((List.pairwise_cons.1 hsort).1 x hx)

/-- **C57** `nSample` returns one value for each of the sorted random numbers `0 ≤ r < 1`, the one in whose interval `[w₀ + … + wᵢ₋₁, w₀ + … + wᵢ)`
the number `r S` lies; so a value of weight zero is never returned. -/
theorem C57_nSample {K : Type} {p : List ℚ} (hS : 0 < p.sum) {vs : List K} (hlen : vs.length = p.length) {rs : List ℚ}
    (hsort : rs.Pairwise (· ≤ ·)) (hr : ∀ r ∈ rs, 0 ≤ r ∧ r < 1) :
    ∃ l, nSample p vs rs = .ok l ∧ l.length = rs.length ∧
      ∀ (j : ℕ) v r, l[j]? = some v → rs[j]? = some r → ∃ m : ℕ, vs[m]? = some v ∧ (p.take m).sum ≤ r * p.sum ∧ r * p.sum < (p.take (m + 1)).sum := by
  obtain ⟨q, t, rfl⟩ : ∃ q t, p = q :: t := by
    cases p with
    | nil => simp at hS
    | cons q t => exact ⟨q, t, rfl⟩
  obtain ⟨l, h1, h2⟩ := nSampleLoop_spec _ hS (q :: t) vs hlen rfl rs 0 _ (by simp) rfl hsort (by simpa using hr)
  refine ⟨l, ?_, h2⟩
  unfold nSample
  rw [dist_eq hS.ne', List.map_cons]
  simpa using h1

/-- **C57** `getProbability` is the total weight of the positions of a value. -/
theorem C57_getProbability {K : Type} [DecidableEq K] (v : K) (p : List ℚ) (vs : List K) :
    getProbability v p vs = (((p.zip vs).filter fun e => decide (e.2 = v)).map Prod.fst).sum := by
  unfold getProbability
  have h : ∀ (l : List (ℚ × K)) (t : ℚ), l.foldl (fun total e => if e.2 = v then total + e.1 else total) t =
      t + ((l.filter fun e => decide (e.2 = v)).map Prod.fst).sum := by
    intro l; induction l with
    | nil => simp
    | cons e l ih =>
      intro t
      rw [List.foldl_cons, ih]
      by_cases he : e.2 = v
      · rw [if_pos he, List.filter_cons_of_pos (by simpa using he), List.map_cons, List.sum_cons]; ring
      · rw [if_neg he, List.filter_cons_of_neg (by simpa using he)]
  rw [h, zero_add]

/-- **C57** `chooseFromDistribution` for pairs does not normalise: it returns nothing exactly when all partial sums are below the random number, and
otherwise the first element whose partial sum reaches it. -/
theorem C57_choosePairs {K : Type} (r : ℚ) (l : List (ℚ × K)) (base : ℚ) :
    (choosePairs r base l = none ↔ ∀ j < l.length, base + ((l.take (j + 1)).map Prod.fst).sum < r) ∧
    ∀ v, choosePairs r base l = some v → ∃ j, (l[j]?).map Prod.snd = some v ∧ r ≤ base + ((l.take (j + 1)).map Prod.fst).sum ∧
      ∀ i < j, base + ((l.take (i + 1)).map Prod.fst).sum < r := by
  induction l generalizing base with
  | nil => simp [choosePairs]
  | cons e t ih =>
    obtain ⟨p, w⟩ := e
    obtain ⟨h1, h2⟩ := ih (base + p)
    unfold choosePairs
    by_cases h : r ≤ base + p
    · rw [if_pos h]
      constructor
      · simp only [reduceCtorEq, false_iff, not_forall]
        exact ⟨0, by simp, by simpa using h⟩
      · intro v hv
        cases hv
        exact ⟨0, by simp, by simpa using h, fun i hi => absurd hi (by omega)⟩
    · rw [if_neg h]
      constructor
      · rw [h1]
        constructor
        · intro hall j hj
          cases j with
          | zero => simpa using h
          | succ j => have := hall j (by simpa using hj); simpa [add_assoc] using this
        · intro hall j hj
          have := hall (j + 1) (by simpa using hj); simpa [add_assoc] using this
      · intro v hv
        obtain ⟨j, a, b, c⟩ := h2 v hv
        refine ⟨j + 1, by simpa using a, by simpa [add_assoc] using b, ?_⟩
        intro i hi
        cases i with
        | zero => simpa using h
        | succ i => have := c i (by omega); simpa [add_assoc] using this

example : sampleList [1, 0, (3 : ℚ)] ["a", "b", "c"] (1 / 4) = .ok "a" ∧ sampleList [1, 0, (3 : ℚ)] ["a", "b", "c"] (1 / 3) = .ok "c" ∧
    choosePairs (9 / 10) 0 [((1 / 2 : ℚ), "a")] = none := by decide +kernel

end Verif.Pac
