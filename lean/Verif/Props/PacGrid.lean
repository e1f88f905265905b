import Verif.Lemmas.PacGrid

set_option linter.unusedSectionVars false

/-!
# C51: grids (`demo/game.py` 162-281)
-/

namespace Verif.Pac

/-! ### Packing -/

/-- The number whose bits from position `29 - j` downwards are the list. -/
def enc : ℕ → List Bool → ℕ
  | _, [] => 0
  | j, b :: t => (if b then 2 ^ (30 - j - 1) else 0) + enc (j + 1) t

theorem enc_lt (l : List Bool) (j : ℕ) (h : l.length + j ≤ 30) : enc j l < 2 ^ (30 - j) := by
  induction l generalizing j with
  | nil => exact Nat.two_pow_pos _
  | cons b t ih =>
    rw [List.length_cons] at h
    have h1 := ih (j + 1) (by omega)
    have h2 : 2 ^ (30 - j) = 2 * 2 ^ (30 - j - 1) := by
      rw [← pow_succ']; congr 1; omega
    have h3 : 30 - (j + 1) = 30 - j - 1 := by omega
    rw [h3] at h1
    unfold enc
    split <;> omega

theorem enc_append (l : List Bool) (j : ℕ) (b : Bool) :
    enc j (l ++ [b]) = if b then enc j l + 2 ^ (30 - (j + l.length) - 1) else enc j l := by
  induction l generalizing j with
  | nil => cases b <;> simp [enc]
  | cons c t ih =>
    rw [List.cons_append, enc, enc, ih]
    have : j + 1 + t.length = j + (c :: t).length := by rw [List.length_cons]; omega
    rw [this]
    cases b
    · simp
    · simp only [if_true]; omega

theorem unpack_zero (j k : ℕ) : Grid.unpackFrom 0 j k = List.replicate k false := by
  induction k generalizing j with
  | zero => rfl
  | succ k ih =>
    unfold Grid.unpackFrom
    rw [if_neg (by have := Nat.two_pow_pos (30 - j - 1); omega), ih, List.replicate_succ]

theorem unpack_enc (l : List Bool) (j k : ℕ) (h : l.length + j ≤ 30) (hk : l.length ≤ k) :
    Grid.unpackFrom (enc j l) j k = l ++ List.replicate (k - l.length) false := by
  induction l generalizing j k with
  | nil => simp [enc, unpack_zero]
  | cons b t ih =>
    rw [List.length_cons] at h hk
    obtain ⟨k, rfl⟩ : ∃ m, k = m + 1 := ⟨k - 1, by omega⟩
    have hlt := enc_lt t (j + 1) (by omega)
    have h3 : 30 - (j + 1) = 30 - j - 1 := by omega
    rw [h3] at hlt
    have hlen : k + 1 - (b :: t).length = k - t.length := by rw [List.length_cons]; omega
    rw [hlen]
    unfold Grid.unpackFrom enc
    cases b
    · simp only [Bool.false_eq_true, if_false, Nat.zero_add]
      rw [if_neg (by omega), ih (j + 1) k (by omega) (by omega), List.cons_append]
    · simp only [if_true]
      rw [if_pos (by omega), Nat.add_sub_cancel_left, ih (j + 1) k (by omega) (by omega), List.cons_append]

/-- State of the packing loop after the first cells. -/
def PackInv (w h : ℕ) (done : List Bool) (s : List ℕ × ℕ) : Prop :=
  ∃ (cs : List (List Bool)) (r : List Bool), (∀ c ∈ cs, c.length = 30) ∧ r.length < 30 ∧ cs.flatten ++ r = done ∧ s = ([w, h] ++ cs.map (enc 0), enc 0 r)

theorem flatten_const (cs : List (List Bool)) (h : ∀ c ∈ cs, c.length = 30) : cs.flatten.length = cs.length * 30 :=
  flat_length cs 30 h

theorem packStep_inv {g : Grid} (hg : g.Shaped) {i : ℕ} (hi : i < g.width * g.height) {s : List ℕ × ℕ}
    (h : PackInv g.width g.height (g.flat.take i) s) :
    ∃ s', g.packStep s i = .ok s' ∧ PackInv g.width g.height (g.flat.take (i + 1)) s' := by
  obtain ⟨cs, r, hcs, hr, hd, rfl⟩ := h
  have hi' : i < g.flat.length := by rw [hg.flat_length]; exact hi
  have hget := (hg.get_cell hi (g.flat[i])).2 (List.getElem?_eq_getElem hi')
  have hlen : cs.length * 30 + r.length = i := by
    have := congrArg List.length hd
    rw [List.length_append, flatten_const cs hcs, List.length_take] at this
    omega
  have hmod : i % 30 = r.length := by omega
  have htake : g.flat.take (i + 1) = cs.flatten ++ (r ++ [g.flat[i]]) := by
    rw [List.take_add_one, List.getElem?_eq_getElem hi', ← hd, List.append_assoc]; rfl
  have hcur : (if g.flat[i] = true then enc 0 r + 2 ^ (30 - i % 30 - 1) else enc 0 r) = enc 0 (r ++ [g.flat[i]]) := by
    rw [enc_append, hmod, Nat.zero_add]
  unfold Grid.packStep
  rw [hget]
  simp only
  rw [hcur]
  by_cases hm : (i + 1) % 30 = 0
  · rw [if_pos hm]
    refine ⟨_, rfl, cs ++ [r ++ [g.flat[i]]], [], ?_, by simp, ?_, ?_⟩
    · intro c hc
      rcases List.mem_append.1 hc with h1 | h1
      · exact hcs c h1
      · rw [List.mem_singleton.1 h1, List.length_append, List.length_singleton]; omega
    · rw [htake]; simp
    · simp [enc]
  · rw [if_neg hm]
    refine ⟨_, rfl, cs, r ++ [g.flat[i]], hcs, ?_, htake.symm, rfl⟩
    rw [List.length_append, List.length_singleton]; omega

theorem packLoop {g : Grid} (hg : g.Shaped) (n : ℕ) (hn : n ≤ g.width * g.height) :
    ∃ s, (List.range n).foldlM (g.packStep) ([g.width, g.height], 0) = .ok s ∧ PackInv g.width g.height (g.flat.take n) s := by
  induction n with
  | zero => exact ⟨_, rfl, [], [], by simp, by simp, by simp, by simp [enc]⟩
  | succ n ih =>
    obtain ⟨s, hs, hinv⟩ := ih (by omega)
    obtain ⟨s', hs', hinv'⟩ := packStep_inv hg (by omega : n < _) hinv
    refine ⟨s', ?_, hinv'⟩
    rw [List.range_succ, List.foldlM_append, hs]
    show (List.foldlM g.packStep s [n]) = _
    rw [List.foldlM_cons, hs']
    rfl

/-- What `packBits` computes: width, height, then the cells column by column in groups of thirty, each a number of thirty bits with the
first cell as the highest bit; the last group is shorter than thirty, possibly empty. -/
theorem pack_spec {g : Grid} (hg : g.Shaped) :
    ∃ (cs : List (List Bool)) (r : List Bool), (∀ c ∈ cs, c.length = 30) ∧ r.length < 30 ∧ cs.flatten ++ r = g.flat ∧
      g.packBits = .ok (g.width :: g.height :: (cs.map (enc 0) ++ [enc 0 r])) := by
  obtain ⟨s, hs, cs, r, hcs, hr, hd, rfl⟩ := packLoop hg (g.width * g.height) le_rfl
  refine ⟨cs, r, hcs, hr, ?_, ?_⟩
  · rw [hd, List.take_of_length_le (by rw [hg.flat_length])]
  · unfold Grid.packBits
    rw [Nat.mul_comm, hs]
    simp

/-! ### Unpacking -/

theorem fill_spec (bs : List Bool) {g : Grid} (hg : g.Shaped) (cell : ℕ) (hc : cell ≤ g.width * g.height) :
    ∃ g', Grid.fillBits (g, cell) bs = .ok (g', min (cell + bs.length) (g.width * g.height)) ∧ g'.Shaped ∧ g'.width = g.width ∧
      g'.height = g.height ∧ g'.flat.take (min (cell + bs.length) (g.width * g.height)) =
        g.flat.take cell ++ bs.take (g.width * g.height - cell) := by
  induction bs generalizing g cell with
  | nil =>
    refine ⟨g, ?_, hg, rfl, rfl, ?_⟩
    · unfold Grid.fillBits
      simp [Nat.min_eq_left hc]
    · simp [Nat.min_eq_left hc]
  | cons b t ih =>
    unfold Grid.fillBits
    by_cases he : cell = g.width * g.height
    · rw [if_pos he]
      refine ⟨g, ?_, hg, rfl, rfl, ?_⟩
      · rw [Nat.min_eq_right (by omega), he]
      · rw [Nat.min_eq_right (by omega), he]; simp
    · rw [if_neg he]
      have hlt : cell < g.width * g.height := by omega
      obtain ⟨g1, e1, hs1, hw1, hh1, hf1⟩ := hg.put_cell hlt b
      rw [e1]
      obtain ⟨g2, e2, hs2, hw2, hh2, hf2⟩ := ih hs1 (cell + 1) (by rw [hw1, hh1]; omega)
      have hmin : min (cell + 1 + t.length) (g.width * g.height) = min (cell + (b :: t).length) (g.width * g.height) := by
        rw [List.length_cons]; congr 1; omega
      rw [hw1, hh1, hmin] at e2 hf2
      refine ⟨g2, e2, hs2, hw2.trans hw1, hh2.trans hh1, ?_⟩
      rw [hf2, hf1]
      have hl : cell < g.flat.length := by rw [hg.flat_length]; exact hlt
      have h1 : (g.flat.set cell b).take (cell + 1) = g.flat.take cell ++ [b] := by
        rw [List.take_add_one, List.getElem?_set_self hl, List.take_set_of_le le_rfl]; rfl
      have h2 : g.width * g.height - cell = (g.width * g.height - (cell + 1)) + 1 := by omega
      rw [h1, h2, List.take_succ_cons, List.append_assoc]; rfl

theorem unpack_chunks (cs : List (List Bool)) (hcs : ∀ c ∈ cs, c.length = 30) {g : Grid} (hg : g.Shaped) (cell : ℕ) (done : List Bool)
    (hd : g.flat.take cell = done) (hl : done.length = cell) (hc : cell + cs.flatten.length ≤ g.width * g.height) :
    ∃ g', (cs.map (enc 0)).foldlM (fun s packed => Grid.fillBits s (Grid.unpackFrom packed 0 30)) (g, cell) =
        .ok (g', cell + cs.flatten.length) ∧ g'.Shaped ∧ g'.width = g.width ∧ g'.height = g.height ∧
      g'.flat.take (cell + cs.flatten.length) = done ++ cs.flatten := by
  induction cs generalizing g cell done with
  | nil => exact ⟨g, rfl, hg, rfl, rfl, by simpa using hd⟩
  | cons c t ih =>
    have hc30 := hcs c List.mem_cons_self
    rw [List.flatten_cons, List.length_append] at hc
    obtain ⟨g1, e1, hs1, hw1, hh1, hf1⟩ := fill_spec (Grid.unpackFrom (enc 0 c) 0 30) hg cell (by omega)
    rw [unpack_enc c 0 30 (by omega) (by omega), hc30] at e1 hf1
    simp only [Nat.sub_self, List.replicate_zero, List.append_nil] at e1 hf1
    rw [Nat.min_eq_left (by omega)] at e1 hf1
    rw [List.take_of_length_le (l := c) (by omega), hd] at hf1
    obtain ⟨g2, e2, hs2, hw2, hh2, hf2⟩ := ih (fun d hd => hcs d (List.mem_cons_of_mem _ hd)) hs1 (cell + c.length) (done ++ c) hf1
      (by rw [List.length_append, hl]) (by rw [hw1, hh1]; omega)
    refine ⟨g2, ?_, hs2, hw2.trans hw1, hh2.trans hh1, ?_⟩
    · rw [List.map_cons, List.foldlM_cons]
      rw [unpack_enc c 0 30 (by omega) (by omega), hc30]
      simp only [Nat.sub_self, List.replicate_zero, List.append_nil]
      rw [e1]
      show List.foldlM _ (g1, cell + c.length) _ = _
      rw [e2, List.flatten_cons, List.length_append, Nat.add_assoc]
    · rw [List.flatten_cons, List.length_append, ← Nat.add_assoc, hf2, List.append_assoc]

/-- **C51** `packBits` never fails on a grid and `reconstituteGrid` restores exactly that grid from it, for all sizes. -/
theorem C51_roundtrip {g : Grid} (hg : g.Shaped) : ∃ bits, g.packBits = .ok bits ∧ Grid.reconstitute bits = .ok g := by
  obtain ⟨cs, r, hcs, hr, hd, hp⟩ := pack_spec hg
  refine ⟨_, hp, ?_⟩
  have hlen : cs.flatten.length + r.length = g.width * g.height := by
    rw [← hg.flat_length, ← hd, List.length_append]
  show Grid.ofBits _ _ _ = _
  unfold Grid.ofBits
  rw [if_pos (by simp)]
  have hn := Grid.new_shaped g.width g.height false
  obtain ⟨g1, e1, hs1, hw1, hh1, hf1⟩ := unpack_chunks cs hcs hn 0 [] (by simp) rfl
    (by show 0 + _ ≤ g.width * g.height; omega)
  obtain ⟨g2, e2, hs2, hw2, hh2, hf2⟩ := fill_spec (Grid.unpackFrom (enc 0 r) 0 30) hs1 (0 + cs.flatten.length)
    (by rw [hw1, hh1]; show _ ≤ g.width * g.height; omega)
  have hwd : g1.width = g.width := hw1
  have hht : g1.height = g.height := hh1
  rw [hwd, hht] at e2 hf2
  rw [unpack_enc r 0 30 (by omega) (by omega)] at hf2 e2
  have hmin : min (0 + cs.flatten.length + (r ++ List.replicate (30 - r.length) false).length) (g.width * g.height) =
      g.width * g.height := by
    rw [List.length_append, List.length_replicate]
    exact Nat.min_eq_right (by omega)
  rw [hmin] at hf2 e2
  have hgg : g2 = g := by
    refine hs2.eq_of_flat hg (hw2.trans hwd) (hh2.trans hht) ?_
    rw [List.take_of_length_le (by rw [hs2.flat_length, hw2, hh2, hwd, hht]), hf1] at hf2
    rw [hf2, ← hd]
    have : g.width * g.height - (0 + cs.flatten.length) = r.length := by omega
    rw [this, List.take_left]
    simp
  have hfold : List.foldlM (fun s packed => Grid.fillBits s (Grid.unpackFrom packed 0 30)) (Grid.new g.width g.height false, 0)
      (cs.map (enc 0) ++ [enc 0 r]) = .ok (g2, g.width * g.height) := by
    rw [List.foldlM_append, e1]
    show List.foldlM (fun s packed => Grid.fillBits s (Grid.unpackFrom packed 0 30)) (g1, 0 + cs.flatten.length) [enc 0 r] = _
    rw [List.foldlM_cons, unpack_enc r 0 30 (by omega) (by omega), e2]
    rfl
  unfold Grid.unpackBits
  rw [hfold]
  show Except.ok g2 = _
  rw [hgg]

/-- **C51** The packed form has `cells / 30 + 3` numbers, the two sizes and numbers below `2 ^ 30`. -/
theorem C51_packed_size {g : Grid} (hg : g.Shaped) : ∃ ints, g.packBits = .ok (g.width :: g.height :: ints) ∧
    ints.length = g.width * g.height / 30 + 1 ∧ ∀ n ∈ ints, n < 2 ^ 30 := by
  obtain ⟨cs, r, hcs, hr, hd, hp⟩ := pack_spec hg
  refine ⟨_, hp, ?_, ?_⟩
  · have hlen : cs.flatten.length + r.length = g.width * g.height := by
      rw [← hg.flat_length, ← hd, List.length_append]
    rw [flatten_const cs hcs] at hlen
    rw [List.length_append, List.length_map, List.length_singleton, ← hlen]
    omega
  · intro n hn
    rcases List.mem_append.1 hn with h | h
    · obtain ⟨c, hc, rfl⟩ := List.mem_map.1 h
      have := enc_lt c 0 (by rw [hcs c hc])
      simpa using this
    · rw [List.mem_singleton.1 h]
      have := enc_lt r 0 (by omega)
      simpa using this

/-- **C51** Different grids have different packed forms. -/
theorem C51_pack_injective {g h : Grid} (hg : g.Shaped) (hh : h.Shaped) (he : g.packBits = h.packBits) : g = h := by
  obtain ⟨b, h1, h2⟩ := C51_roundtrip hg
  obtain ⟨c, h3, h4⟩ := C51_roundtrip hh
  rw [h1, h3] at he
  cases he
  rw [h2] at h4
  cases h4
  rfl

example : (⟨3, 2, [[true, false], [false, false], [true, true]]⟩ : Grid).Shaped := by
  constructor <;> simp

example :
    (⟨3, 2, [[true, false], [false, false], [true, true]]⟩ : Grid).packBits = .ok [3, 2, 587202560] := by decide +kernel

/-- A grid of exactly thirty cells gets an additional number zero. -/
example : (Grid.new 5 6 true).packBits = .ok [5, 6, 1073741823, 0] := by decide +kernel

/-! ### Counting and listing -/

theorem mem_cells (w h : ℕ) (p : ℕ × ℕ) : p ∈ Grid.cells w h ↔ p.1 < w ∧ p.2 < h := by
  obtain ⟨x, y⟩ := p
  unfold Grid.cells
  simp only [List.mem_flatMap, List.mem_range, List.mem_map, Prod.mk.injEq]
  constructor
  · rintro ⟨a, hx, b, hy, rfl, rfl⟩; exact ⟨hx, hy⟩
  · rintro ⟨hx, hy⟩; exact ⟨x, hx, y, hy, rfl, rfl⟩

theorem asList_loop (g : Grid) (key : Bool) (f : ℕ × ℕ → Bool) (l : List (ℕ × ℕ)) (h : ∀ p ∈ l, g.get p.1 p.2 = .ok (f p)) :
    g.asListLoop key l = .ok ((l.filter fun p => f p = key).map fun p => ((p.1 : ℤ), (p.2 : ℤ))) := by
  induction l with
  | nil => rfl
  | cons p t ih =>
    unfold Grid.asListLoop
    rw [h p List.mem_cons_self, ih fun q hq => h q (List.mem_cons_of_mem _ hq)]
    simp only
    by_cases hp : f p = key
    · rw [if_pos hp, List.filter_cons_of_pos (by simpa using hp), List.map_cons]
    · rw [if_neg hp, List.filter_cons_of_neg (by simpa using hp)]

/-- **C51** `asList` never fails and lists exactly the cells with that content, each once, ordered by column and then by row; there are
`count` of them. -/
theorem C51_asList {g : Grid} (hg : g.Shaped) (key : Bool) : ∃ l, g.asList key = .ok l ∧
    (∀ p, p ∈ l ↔ ∃ x y : ℕ, p = ((x : ℤ), (y : ℤ)) ∧ g.At x y key) ∧ l.Nodup ∧
    l.Pairwise (fun p q => p.1 < q.1 ∨ (p.1 = q.1 ∧ p.2 < q.2)) ∧ l.length = g.count key := by
  classical
  have hf : ∀ p ∈ Grid.cells g.width g.height, ∃ b, g.get p.1 p.2 = .ok b := by
    intro p hp
    obtain ⟨hx, hy⟩ := (mem_cells _ _ _).1 hp
    obtain ⟨b, hb⟩ := hg.at_of_lt hx hy
    exact ⟨b, (g.get_nat _ _ b).2 hb⟩
  let f : ℕ × ℕ → Bool := fun p => match g.get p.1 p.2 with | .ok b => b | .error _ => false
  have hf' : ∀ p ∈ Grid.cells g.width g.height, g.get p.1 p.2 = .ok (f p) := by
    intro p hp
    obtain ⟨b, hb⟩ := hf p hp
    simp only [f, hb]
  have hsort : (Grid.cells g.width g.height).Pairwise (fun p q => p.1 < q.1 ∨ (p.1 = q.1 ∧ p.2 < q.2)) := by
    unfold Grid.cells
    rw [List.pairwise_flatMap]
    constructor
    · intro x _
      rw [List.pairwise_map]
      exact List.pairwise_lt_range.imp fun h => Or.inr ⟨rfl, h⟩
    · refine List.pairwise_lt_range.imp ?_
      intro a b hab p hp q hq
      obtain ⟨_, _, rfl⟩ := List.mem_map.1 hp
      obtain ⟨_, _, rfl⟩ := List.mem_map.1 hq
      exact Or.inl hab
  have hs : (((Grid.cells g.width g.height).filter fun p => f p = key).map fun p => ((p.1 : ℤ), (p.2 : ℤ))).Pairwise
      (fun p q => p.1 < q.1 ∨ (p.1 = q.1 ∧ p.2 < q.2)) := by
    rw [List.pairwise_map]
    refine (hsort.filter _).imp ?_
    intro p q h
    show (p.1 : ℤ) < q.1 ∨ ((p.1 : ℤ) = q.1 ∧ (p.2 : ℤ) < q.2)
    rcases h with h | h
    · left; exact_mod_cast h
    · right; exact ⟨by exact_mod_cast h.1, by exact_mod_cast h.2⟩
  refine ⟨_, asList_loop g key f _ hf', ?_, ?_, hs, ?_⟩
  · intro p
    simp only [List.mem_map, List.mem_filter, decide_eq_true_eq]
    constructor
    · rintro ⟨q, ⟨hq, hk⟩, rfl⟩
      exact ⟨q.1, q.2, rfl, by rw [← hk]; exact (g.get_nat _ _ _).1 (hf' q hq)⟩
    · rintro ⟨x, y, rfl, hk⟩
      have hm := (mem_cells g.width g.height (x, y)).2 (hg.lt_of_at hk)
      refine ⟨(x, y), ⟨hm, ?_⟩, rfl⟩
      have := hf' _ hm
      rw [(g.get_nat x y key).2 hk] at this
      cases this
      rfl
  · refine hs.imp ?_
    rintro p q h rfl
    rcases h with h | h
    · exact lt_irrefl _ h
    · exact lt_irrefl _ h.2
  · have hflat : g.data = (List.range g.width).map fun x => (List.range g.height).map fun y => f (x, y) := by
      apply List.ext_getElem
      · simp [hg.1]
      · intro x h1 h2
        apply List.ext_getElem
        · simp [hg.2 _ (List.getElem_mem h1)]
        · intro y h3 h4
          have hx : x < g.width := by rw [← hg.1]; exact h1
          have hy : y < g.height := by rw [← hg.2 _ (List.getElem_mem h1)]; exact h3
          have := hf' _ ((mem_cells g.width g.height (x, y)).2 ⟨hx, hy⟩)
          have hat := (g.get_nat x y _).1 this
          have hat' : g.At x y (g.data[x][y]) := ⟨_, List.getElem?_eq_getElem h1, List.getElem?_eq_getElem h3⟩
          simp only [List.getElem_map, List.getElem_range]
          exact hat'.unique hat
    unfold Grid.count
    rw [hflat, List.map_map, List.length_map]
    unfold Grid.cells
    rw [List.filter_flatMap, List.length_flatMap]
    congr 1
    apply List.map_congr_left
    intro x _
    simp only [Function.comp]
    rw [List.filter_map, List.length_map, List.count_eq_countP, List.countP_map, List.countP_eq_length_filter]
    rfl

/-! ### Equality and hash -/

/-- Binary number with the first entry as lowest digit. -/
def binary : List Bool → ℕ
  | [] => 0
  | b :: t => (if b then 1 else 0) + 2 * binary t

theorem hash_row (l : List Bool) (s : ℕ × ℕ) :
    l.foldl (fun s i => (s.1 * 2, if i then s.2 + s.1 else s.2)) s = (s.1 * 2 ^ l.length, s.2 + s.1 * binary l) := by
  induction l generalizing s with
  | nil => simp [binary]
  | cons b t ih =>
    rw [List.foldl_cons, ih]
    simp only [List.length_cons, binary]
    refine Prod.ext ?_ ?_
    · simp only; ring
    · simp only
      cases b
      · simp; ring
      · simp; ring

theorem binary_append (l m : List Bool) : binary (l ++ m) = binary l + 2 ^ l.length * binary m := by
  induction l with
  | nil => simp [binary]
  | cons b t ih => rw [List.cons_append, binary, binary, ih, List.length_cons]; ring

theorem hash_rows (d : List (List Bool)) (s : ℕ × ℕ) :
    d.foldl (fun s l => l.foldl (fun s i => (s.1 * 2, if i then s.2 + s.1 else s.2)) s) s =
      (s.1 * 2 ^ d.flatten.length, s.2 + s.1 * binary d.flatten) := by
  induction d generalizing s with
  | nil => simp [binary]
  | cons l t ih =>
    rw [List.foldl_cons, hash_row, ih, List.flatten_cons, List.length_append, binary_append, pow_add]
    refine Prod.ext ?_ ?_
    · simp only; ring
    · simp only; ring

theorem binary_inj (l m : List Bool) (hl : l.length = m.length) (h : binary l = binary m) : l = m := by
  induction l generalizing m with
  | nil =>
    cases m with
    | nil => rfl
    | cons _ _ => simp at hl
  | cons b t ih =>
    cases m with
    | nil => simp at hl
    | cons c u =>
      simp only [binary] at h
      have hbc : b = c := by
        cases b <;> cases c <;> simp at h ⊢ <;> omega
      subst hbc
      rw [ih u (by simpa using hl) (by omega)]

/-- **C51** The number hashed by `__hash__` is the binary number of the cells: equal grids have equal hashes, and for grids of the same
size equal numbers mean equal grids. -/
theorem C51_hash {g h : Grid} (hg : g.Shaped) (hh : h.Shaped) (hw : g.width = h.width) (hht : g.height = h.height) :
    (g.hashLoop.2 = h.hashLoop.2 ↔ g.pyEq h = true) ∧ (g.pyEq h = true ↔ g = h) := by
  have e1 : g.hashLoop.2 = binary g.flat := by
    unfold Grid.hashLoop; rw [hash_rows]; simp [Grid.flat]
  have e2 : h.hashLoop.2 = binary h.flat := by
    unfold Grid.hashLoop; rw [hash_rows]; simp [Grid.flat]
  have key : g.pyEq h = true ↔ g = h := by
    unfold Grid.pyEq
    rw [decide_eq_true_eq]
    constructor
    · intro hd
      cases g; cases h
      simp_all
    · rintro rfl; rfl
  refine ⟨?_, key⟩
  rw [key]
  constructor
  · intro he
    rw [e1, e2] at he
    exact hg.eq_of_flat hh hw hht (binary_inj _ _ (by rw [hg.flat_length, hh.flat_length, hw, hht]) he)
  · rintro rfl; rfl

/-- **C51** Equality as `__eq__` implies equal hashes for grids of any shape. -/
theorem C51_hash_contract (g h : Grid) (he : g.pyEq h = true) : g.hashLoop.2 = h.hashLoop.2 := by
  unfold Grid.pyEq at he
  rw [decide_eq_true_eq] at he
  unfold Grid.hashLoop
  rw [he]

/-- Empty grids of different size are equal for `__eq__`. -/
example : (Grid.new 0 3 true).pyEq (Grid.new 0 2 false) = true := by decide

/-- **C51** Assignment: inside the grid it never fails and changes exactly that cell. -/
theorem C51_put {g : Grid} (hg : g.Shaped) {x y : ℕ} (hx : x < g.width) (hy : y < g.height) (b : Bool) :
    ∃ g', g.put x y b = .ok g' ∧ g'.Shaped ∧ g'.width = g.width ∧ g'.height = g.height ∧
      ∀ u v c, g'.At u v c ↔ (u = x ∧ v = y ∧ c = b) ∨ (¬ (u = x ∧ v = y) ∧ g.At u v c) := by
  obtain ⟨g', e, hs, hw, hh, col, hc, hd⟩ := Grid.put_nat hg hx hy b
  obtain ⟨hlt, hcol⟩ := List.getElem?_eq_some_iff.1 hc
  exact ⟨g', e, hs, hw, hh, Grid.put_at hc (by rw [hg.2 col (by rw [← hcol]; exact List.getElem_mem _)]; exact hy) hd⟩

/-- **C51** Clearing a set cell lowers the number of set cells by one. -/
theorem C51_put_count {g g' : Grid} (hg : g.Shaped) {x y : ℕ} (hb : g.At x y true) (he : g.put x y false = .ok g') :
    g'.count true + 1 = g.count true := by
  obtain ⟨hx, hy⟩ := hg.lt_of_at hb
  obtain ⟨g2, e, hs, hw, hh, col, hc, hd⟩ := Grid.put_nat hg hx hy false
  rw [he] at e
  cases e
  obtain ⟨c2, h1, h2⟩ := hb
  rw [hc] at h1
  cases h1
  unfold Grid.count
  have flatc : ∀ (d : List (List Bool)), (d.map fun col => col.count true).sum = d.flatten.count true := by
    intro d; rw [List.count_flatten]
  rw [hd, flatc, flatc, flat_set _ _ hg.2 _ _ hy _ _ hc]
  have hget := flat_get _ _ hg.2 x y hy
  rw [hc] at hget
  simp only [Option.bind_some] at hget
  rw [h2] at hget
  obtain ⟨hlt, hv⟩ := List.getElem?_eq_some_iff.1 hget
  rw [List.count_set (by exact hlt), hv]
  have hpos : 0 < g.data.flatten.count true := List.count_pos_iff.2 (by rw [← hv]; exact List.getElem_mem _)
  simp
  omega

end Verif.Pac
