import Verif.Lemmas.PacGame

set_option linter.unusedSectionVars false

/-!
# C98: neighbours of a position (`demo/game.py` 89-91, 351-369)
-/

namespace Verif.Pac

/-- Nearest to a cell with natural coordinates; a half is rounded up. -/
def NearestTo (p : Pos) (x y : ℕ) : Prop := (x : ℚ) - 1 / 2 ≤ p.1 ∧ p.1 < x + 1 / 2 ∧ (y : ℚ) - 1 / 2 ≤ p.2 ∧ p.2 < y + 1 / 2

theorem pyInt_near {q : ℚ} {x : ℕ} (h1 : (x : ℚ) - 1 / 2 ≤ q) (h2 : q < x + 1 / 2) : pyInt (q + 1 / 2) = x := by
  have hx : (0 : ℚ) ≤ x := Nat.cast_nonneg x
  unfold pyInt
  rw [if_pos (by linarith), Int.floor_eq_iff]
  constructor
  · push_cast; linarith
  · push_cast; linarith

theorem at_decide {walls : Grid} (hs : walls.Shaped) {a b : ℕ} (ha : a < walls.width) (hb : b < walls.height) :
    walls.At a b (decide (¬ walls.Free (a, b))) := by
  obtain ⟨w, hw⟩ := hs.at_of_lt ha hb
  cases w
  · have : decide (¬ walls.Free (a, b)) = false := decide_eq_false (not_not.2 hw)
    rw [this]; exact hw
  · have hn : ¬ walls.Free (a, b) := fun h => by cases hw.unique h
    rw [decide_eq_true hn]; exact hw

/-- The step of the loop as a partial function: skipped, failed or kept. -/
theorem neighbor_loop (walls : Grid) (hs : walls.Shaped) {x y : ℕ} (hx : x < walls.width) (hy : y < walls.height) (l : List Dir) :
    neighborLoop walls x y l = .ok ((l.map fun d => ((x : ℤ) + d.vec.1, (y : ℤ) + d.vec.2)).filter fun q =>
      decide (0 ≤ q.1 ∧ 0 ≤ q.2 ∧ walls.Free (q.1.toNat, q.2.toNat))) := by
  induction l with
  | nil => rfl
  | cons d t ih =>
    unfold neighborLoop
    simp only [ih, List.map_cons]
    have hv : -1 ≤ d.vec.1 ∧ d.vec.1 ≤ 1 ∧ -1 ≤ d.vec.2 ∧ d.vec.2 ≤ 1 := by cases d <;> decide
    by_cases c1 : (x : ℤ) + d.vec.1 < 0 ∨ (x : ℤ) + d.vec.1 = walls.width
    · rw [if_pos c1, List.filter_cons_of_neg]
      simp only [decide_eq_true_eq]
      rintro ⟨h1, h2, h3⟩
      have := (hs.lt_of_at h3).1
      dsimp only at this
      omega
    rw [if_neg c1]
    by_cases c2 : (y : ℤ) + d.vec.2 < 0 ∨ (y : ℤ) + d.vec.2 = walls.height
    · rw [if_pos c2, List.filter_cons_of_neg]
      simp only [decide_eq_true_eq]
      rintro ⟨h1, h2, h3⟩
      have := (hs.lt_of_at h3).2
      dsimp only at this
      omega
    rw [if_neg c2]
    obtain ⟨a, ha⟩ : ∃ a : ℕ, (x : ℤ) + d.vec.1 = a := ⟨((x : ℤ) + d.vec.1).toNat, by omega⟩
    obtain ⟨b, hb⟩ : ∃ b : ℕ, (y : ℤ) + d.vec.2 = b := ⟨((y : ℤ) + d.vec.2).toNat, by omega⟩
    obtain ⟨w, hw⟩ := hs.at_of_lt (x := a) (y := b) (by omega) (by omega)
    rw [ha, hb]
    rw [(Grid.get_nat _ _ _ _).2 hw]
    cases w
    · rw [List.filter_cons_of_pos]
      · simp
      · simp only [decide_eq_true_eq, Int.toNat_natCast]
        exact ⟨by omega, by omega, hw⟩
    · rw [List.filter_cons_of_neg]
      · simp
      · simp only [decide_eq_true_eq, Int.toNat_natCast]
        rintro ⟨_, _, h⟩
        cases hw.unique h

theorem legalNeighbors_at {walls : Grid} {p : Pos} {x y : ℕ} (hp : NearestTo p x y) : legalNeighbors p walls = neighborLoop walls x y dirList := by
  unfold legalNeighbors
  rw [pyInt_near hp.1 hp.2.1, pyInt_near hp.2.2.1 hp.2.2.2]

/-- **C98** For every position within a grid of walls, with or without a border, `getLegalNeighbors` does not fail: it lists, once each, the free cells of the grid at a
distance of at most one from the nearest cell, this cell itself included. -/
theorem C98_neighbors {walls : Grid} (hs : walls.Shaped) {p : Pos} {x y : ℕ} (hp : NearestTo p x y) (hx : x < walls.width) (hy : y < walls.height) :
    ∃ l, legalNeighbors p walls = .ok l ∧ l.Nodup ∧
      ∀ q : ℤ × ℤ, q ∈ l ↔ ∃ a b : ℕ, q = ((a : ℤ), (b : ℤ)) ∧ walls.Free (a, b) ∧ |(a : ℤ) - x| + |(b : ℤ) - y| ≤ 1 := by
  refine ⟨_, (legalNeighbors_at hp).trans (neighbor_loop walls hs hx hy dirList), ?_, ?_⟩
  · apply List.filter_sublist.nodup
    simp [dirList, Dir.vec]
  · rintro ⟨q1, q2⟩
    simp only [List.mem_filter, List.mem_map, decide_eq_true_eq, Prod.mk.injEq]
    constructor
    · rintro ⟨⟨d, _, rfl, rfl⟩, h1, h2, h3⟩
      refine ⟨_, _, ⟨(Int.toNat_of_nonneg h1).symm, (Int.toNat_of_nonneg h2).symm⟩, h3, ?_⟩
      rw [Int.toNat_of_nonneg h1, Int.toNat_of_nonneg h2]
      cases d <;> simp [Dir.vec]
    · rintro ⟨a, b, ⟨rfl, rfl⟩, hf, hd⟩
      refine ⟨?_, by omega, by omega, by simpa using hf⟩
      have h : ((a : ℤ) = x ∧ (b : ℤ) = y + 1) ∨ ((a : ℤ) = x ∧ (b : ℤ) = y - 1) ∨ ((a : ℤ) = x + 1 ∧ (b : ℤ) = y) ∨
          ((a : ℤ) = x - 1 ∧ (b : ℤ) = y) ∨ ((a : ℤ) = x ∧ (b : ℤ) = y) := by
        rcases abs_cases ((a : ℤ) - x) with ⟨e1, _⟩ | ⟨e1, _⟩ <;> rcases abs_cases ((b : ℤ) - y) with ⟨e2, _⟩ | ⟨e2, _⟩ <;> omega
      rcases h with ⟨h1, h2⟩ | ⟨h1, h2⟩ | ⟨h1, h2⟩ | ⟨h1, h2⟩ | ⟨h1, h2⟩
      · exact ⟨.north, mem_dirList _, by simp [Dir.vec]; omega⟩
      · exact ⟨.south, mem_dirList _, by simp [Dir.vec]; omega⟩
      · exact ⟨.east, mem_dirList _, by simp [Dir.vec]; omega⟩
      · exact ⟨.west, mem_dirList _, by simp [Dir.vec]; omega⟩
      · exact ⟨.stop, mem_dirList _, by simp [Dir.vec]; omega⟩

/-- **C98** On a cell off the border the neighbours are, in the same order, where the possible actions lead. -/
theorem C98_moves {walls : Grid} (hs : walls.Shaped) {x y : ℕ} (hx : 0 < x) (hx' : x + 1 < walls.width) (hy : 0 < y) (hy' : y + 1 < walls.height) (dir : Dir) :
    ∃ l m, possibleActions ⟨cellAt (x, y), dir⟩ walls = .ok l ∧ legalNeighbors (cellAt (x, y)) walls = .ok m ∧
      m.map toPos = l.map (getSuccessor (cellAt (x, y))) := by
  have hn : NearestTo (cellAt (x, y)) x y := by unfold NearestTo cellAt; refine ⟨?_, ?_, ?_, ?_⟩ <;> dsimp only <;> linarith
  have key : ∀ d : Dir, ∃ a b : ℕ, (x : ℤ) + d.vec.1 = a ∧ (y : ℤ) + d.vec.2 = b ∧ a < walls.width ∧ b < walls.height := by
    intro d
    refine ⟨((x : ℤ) + d.vec.1).toNat, ((y : ℤ) + d.vec.2).toNat, ?_⟩
    cases d <;> simp only [Dir.vec] <;> omega
  have hget : ∀ d ∈ dirList, walls.get ((x : ℤ) + d.vec.1) ((y : ℤ) + d.vec.2) =
      .ok (decide (¬ walls.Free (((x : ℤ) + d.vec.1).toNat, ((y : ℤ) + d.vec.2).toNat))) := by
    intro d _
    obtain ⟨a, b, h1, h2, h3, h4⟩ := key d
    rw [h1, h2, Int.toNat_natCast, Int.toNat_natCast, Grid.get_nat]
    exact at_decide hs h3 h4
  refine ⟨dirList.filter fun d => !decide (¬ walls.Free (((x : ℤ) + d.vec.1).toNat, ((y : ℤ) + d.vec.2).toNat)), _, ?_,
    (legalNeighbors_at hn).trans (neighbor_loop walls hs (by omega) (by omega) dirList), ?_⟩
  · unfold possibleActions
    simp only [pyInt_near hn.1 hn.2.1, pyInt_near hn.2.2.1 hn.2.2.2]
    rw [if_neg (by simp [cellAt])]
    exact possibleLoop_eq walls x y _ dirList hget
  · rw [List.filter_map, List.map_map]
    have : (dirList.filter fun d => !decide (¬ walls.Free (((x : ℤ) + d.vec.1).toNat, ((y : ℤ) + d.vec.2).toNat))) =
        dirList.filter ((fun q : ℤ × ℤ => decide (0 ≤ q.1 ∧ 0 ≤ q.2 ∧ walls.Free (q.1.toNat, q.2.toNat))) ∘ fun d : Dir => ((x : ℤ) + d.vec.1, (y : ℤ) + d.vec.2)) := by
      apply List.filter_congr
      intro d _
      obtain ⟨a, b, h1, h2, h3, h4⟩ := key d
      simp only [Function.comp, h1, h2, Int.toNat_natCast]
      simp
    rw [this]
    apply List.map_congr_left
    intro d _
    unfold toPos getSuccessor directionToVector cellAt
    push_cast
    simp

/-- **C98** On the left border they differ: `getPossibleActions` looks through the border, because the index `-1` is the last column. `West` is possible exactly
if the cell at the other end of the row is free, while no neighbour lies there unless the grid has at most two columns. -/
theorem C98_wrap {walls : Grid} (hs : walls.Shaped) {y : ℕ} (hw : 2 ≤ walls.width) (hy : 0 < y) (hy' : y + 1 < walls.height) (dir : Dir) :
    ∃ l, possibleActions ⟨cellAt (0, y), dir⟩ walls = .ok l ∧ (Dir.west ∈ l ↔ walls.Free (walls.width - 1, y)) ∧
      ∃ m, legalNeighbors (cellAt (0, y)) walls = .ok m ∧ (2 < walls.width → (((walls.width - 1 : ℕ) : ℤ), (y : ℤ)) ∉ m) := by
  have hn : NearestTo (cellAt (0, y)) 0 y := by unfold NearestTo cellAt; refine ⟨?_, ?_, ?_, ?_⟩ <;> norm_num
  have hwest : walls.get (((0 : ℕ) : ℤ) + (-1)) ((y : ℤ) + 0) = walls.get ((walls.width - 1 : ℕ) : ℤ) (y : ℤ) := by
    unfold Grid.get pyGet
    have : pyIdx walls.data.length (((0 : ℕ) : ℤ) + (-1)) = pyIdx walls.data.length ((walls.width - 1 : ℕ) : ℤ) := by
      rw [pyIdx_nat, hs.1, if_pos (by omega)]
      unfold pyIdx
      rw [if_neg (by simp), if_pos (by omega)]
      congr 1
      omega
    rw [this]
    simp
  have key : ∀ d : Dir, ∃ a b : ℕ, walls.get (((0 : ℕ) : ℤ) + d.vec.1) ((y : ℤ) + d.vec.2) = walls.get (a : ℤ) (b : ℤ) ∧ a < walls.width ∧ b < walls.height ∧
      (d = .west → a = walls.width - 1 ∧ b = y) := by
    intro d
    cases d with
    | north => exact ⟨0, y + 1, by simp [Dir.vec], by omega, by omega, by simp⟩
    | south => exact ⟨0, y - 1, by simp only [Dir.vec]; congr 1; omega, by omega, by omega, by simp⟩
    | east => exact ⟨1, y, by simp [Dir.vec], by omega, by omega, by simp⟩
    | west => exact ⟨walls.width - 1, y, hwest, by omega, by omega, by simp⟩
    | stop => exact ⟨0, y, by simp [Dir.vec], by omega, by omega, by simp⟩
  choose a b hk ha hb hwst using key
  have hget : ∀ d ∈ dirList, walls.get (((0 : ℕ) : ℤ) + d.vec.1) ((y : ℤ) + d.vec.2) = .ok (decide (¬ walls.Free (a d, b d))) := by
    intro d _
    rw [hk d, Grid.get_nat]
    exact at_decide hs (ha d) (hb d)
  refine ⟨dirList.filter fun d => !decide (¬ walls.Free (a d, b d)), ?_, ?_, ?_⟩
  · unfold possibleActions
    simp only [pyInt_near hn.1 hn.2.1, pyInt_near hn.2.2.1 hn.2.2.2]
    rw [if_neg (by simp [cellAt])]
    exact possibleLoop_eq walls _ y _ dirList hget
  · rw [List.mem_filter, (hwst .west rfl).1, (hwst .west rfl).2]
    simp [mem_dirList]
  · obtain ⟨m, h1, h2, h3⟩ := C98_neighbors hs hn (by omega) (by omega)
    refine ⟨m, h1, fun h hm => ?_⟩
    obtain ⟨a, b, h4, h5, h6⟩ := (h3 _).1 hm
    simp only [Prod.mk.injEq] at h4
    rw [← h4.1, ← h4.2] at h6
    rcases abs_cases (((walls.width - 1 : ℕ) : ℤ) - (0 : ℕ)) with ⟨e1, _⟩ | ⟨e1, _⟩ <;> rcases abs_cases ((y : ℤ) - y) with ⟨e2, _⟩ | ⟨e2, _⟩ <;> omega

/-- **C98** Right of the grid `getLegalNeighbors` raises `IndexError`: only the coordinate just outside is skipped. -/
theorem C98_outside {walls : Grid} (hs : walls.Shaped) {p : Pos} {x y : ℕ} (hp : NearestTo p x y) (hx : walls.width ≤ x) (hy : y < walls.height) :
    legalNeighbors p walls = .error .index := by
  rw [legalNeighbors_at hp]
  have hbad : ∀ a b : ℕ, walls.width < a → walls.get (a : ℤ) (b : ℤ) = .error .index := by
    intro a b ha
    unfold Grid.get pyGet
    rw [pyIdx_nat, if_neg (by rw [hs.1]; omega)]
  by_cases hxw : x = walls.width
  · subst hxw
    have := hbad (walls.width + 1) y (by omega)
    push_cast at this
    have c1 : ¬ ((walls.width : ℤ) + 1 < 0 ∨ (walls.width : ℤ) + 1 = walls.width) := by omega
    have c2 : ¬ ((y : ℤ) < 0 ∨ (y : ℤ) = walls.height) := by omega
    simp only [neighborLoop, dirList, Dir.vec, add_zero, c1, c2, or_true, if_true, if_false, this]
  · have h1 : walls.get (x : ℤ) ((y : ℤ) + 1) = .error .index := by have := hbad x (y + 1) (by omega); push_cast at this; exact this
    have h2 : walls.get ((x : ℤ) + 1) (y : ℤ) = .error .index := by have := hbad (x + 1) y (by omega); push_cast at this; exact this
    have h3 : walls.get (x : ℤ) (y : ℤ) = .error .index := hbad x y (by omega)
    have h5 : ∀ z : ℤ, walls.get (x : ℤ) z = .error .index := by
      intro z
      unfold Grid.get pyGet
      rw [pyIdx_nat, if_neg (by rw [hs.1]; omega)]
    have c0 : ¬ ((x : ℤ) < 0 ∨ (x : ℤ) = walls.width) := by omega
    have c1 : ¬ ((x : ℤ) + 1 < 0 ∨ (x : ℤ) + 1 = walls.width) := by omega
    have c2 : ¬ ((y : ℤ) < 0 ∨ (y : ℤ) = walls.height) := by omega
    simp only [neighborLoop, dirList, Dir.vec, add_zero, c0, c1, c2, if_false, h1, h2, h3, h5]
    split <;> [split <;> rfl; rfl]

/-- **C98** Left of the grid there is no mark of the border: because `int` truncates towards zero, a position one cell outside has the same neighbours as the border
cell. -/
theorem C98_left (walls : Grid) (q r : ℚ) (h : q < 1 / 2) (h' : -3 / 2 < q) : legalNeighbors (q, r) walls = legalNeighbors (0, r) walls := by
  have : pyInt (q + 1 / 2) = pyInt ((0 : ℚ) + 1 / 2) := by
    have h0 : pyInt ((0 : ℚ) + 1 / 2) = 0 := by unfold pyInt; norm_num
    rw [h0]
    unfold pyInt
    split
    · rw [Int.floor_eq_iff]; constructor <;> push_cast <;> linarith
    · rw [Int.ceil_eq_iff]; constructor <;> push_cast <;> linarith
  unfold legalNeighbors
  rw [this]

/-- **C98** `isInteger` is true exactly if both coordinates are integers; then a whole step and the way back lead to such positions, and back to the start. -/
theorem C98_integer (c : Config) (d : Dir) :
    (c.isInteger = true ↔ ∃ a b : ℤ, c.pos = ((a : ℚ), (b : ℚ))) ∧
    (c.isInteger = true ↔ Config.isInteger ⟨getSuccessor c.pos d, d⟩ = true) ∧
    getSuccessor (getSuccessor c.pos d) d.reverse = c.pos := by
  have hint : ∀ e : Config, e.isInteger = true ↔ ∃ a b : ℤ, e.pos = ((a : ℚ), (b : ℚ)) := by
    intro e
    unfold Config.isInteger
    simp only [Bool.and_eq_true, decide_eq_true_eq]
    constructor
    · rintro ⟨h1, h2⟩; exact ⟨_, _, Prod.ext h1 h2⟩
    · rintro ⟨a, b, h⟩
      rw [h]
      have : ∀ n : ℤ, pyInt (n : ℚ) = n := by intro n; unfold pyInt; split <;> simp
      simp [this]
  have hback : ∀ p : Pos, ∀ d : Dir, getSuccessor (getSuccessor p d) d.reverse = p := by
    intro p d
    unfold getSuccessor directionToVector
    cases d <;> simp [Dir.vec, Dir.reverse]
  have hstep : ∀ (p : Pos) (d : Dir), (∃ a b : ℤ, p = ((a : ℚ), (b : ℚ))) → ∃ a b : ℤ, getSuccessor p d = ((a : ℚ), (b : ℚ)) := by
    rintro p d ⟨a, b, rfl⟩
    refine ⟨a + d.vec.1, b + d.vec.2, ?_⟩
    unfold getSuccessor directionToVector
    push_cast
    simp
  refine ⟨hint c, ?_, hback c.pos d⟩
  rw [hint, hint]
  constructor
  · exact hstep c.pos d
  · intro h
    have := hstep _ d.reverse h
    rwa [hback] at this

/-- A room of three by three cells without walls meets the hypotheses: the corner has three neighbours (itself included), the middle has five, and the cell at the right border
has none outside. -/
theorem neighbors_demo : (Grid.new 3 3 false).Shaped ∧ NearestTo (cellAt (1, 1)) 1 1 ∧
    legalNeighbors (cellAt (0, 0)) (Grid.new 3 3 false) = .ok [(0, 1), (1, 0), (0, 0)] ∧
    legalNeighbors (cellAt (1, 1)) (Grid.new 3 3 false) = .ok [(1, 2), (1, 0), (2, 1), (0, 1), (1, 1)] ∧
    possibleActions ⟨cellAt (0, 1), .stop⟩ (Grid.new 3 3 false) = .ok [.north, .south, .east, .west, .stop] := by
  refine ⟨Grid.new_shaped 3 3 false, ?_, by decide +kernel, by decide +kernel, by decide +kernel⟩
  unfold NearestTo cellAt
  norm_num

end Verif.Pac
