import Verif.Spec.Pac
import Mathlib.Tactic.Linarith
import Mathlib.Tactic.NormNum
import Mathlib.Tactic.Ring

set_option linter.unusedSectionVars false

/-!
# Lemmas on moves and collisions
-/

namespace Verif.Pac

/-! ### Positions -/

theorem pyInt_half (n : ℕ) : pyInt ((n : ℚ) + 1 / 2) = n := by
  unfold pyInt
  rw [if_pos (by positivity), Int.floor_eq_iff]
  constructor
  · push_cast; linarith
  · push_cast; linarith

theorem pyInt_nat (n : ℕ) : pyInt (n : ℚ) = n := by
  unfold pyInt
  rw [if_pos (by positivity)]
  simp

theorem pyInt_half_half (n : ℕ) : pyInt ((n : ℚ) + 1 / 2 + 1 / 2) = n + 1 := by
  have : (n : ℚ) + 1 / 2 + 1 / 2 = ((n + 1 : ℕ) : ℚ) := by push_cast; ring
  rw [this, pyInt_nat]; push_cast; rfl

theorem nearestPoint_cell (p : ℕ × ℕ) : nearestPoint (cellAt p) = ((p.1 : ℤ), (p.2 : ℤ)) := by
  unfold nearestPoint cellAt
  simp only
  rw [pyInt_half, pyInt_half]

theorem toPos_cell (p : ℕ × ℕ) : toPos ((p.1 : ℤ), (p.2 : ℤ)) = cellAt p := by
  unfold toPos cellAt; simp

theorem nextCell_vec {x y : ℕ} (hx : 0 < x) (hy : 0 < y) (d : Dir) :
    (x : ℤ) + d.vec.1 = ((nextCell x y d).1 : ℤ) ∧ (y : ℤ) + d.vec.2 = ((nextCell x y d).2 : ℤ) := by
  cases d <;> simp [Dir.vec, nextCell] <;> omega

theorem nextCell_pos {x y : ℕ} (hx : 0 < x) (hy : 0 < y) (d : Dir) :
    ((x : ℚ) + (directionToVector d 1).1, (y : ℚ) + (directionToVector d 1).2) = cellAt (nextCell x y d) := by
  obtain ⟨h1, h2⟩ := nextCell_vec hx hy d
  unfold directionToVector cellAt
  have e1 : (x : ℚ) + d.vec.1 = ((nextCell x y d).1 : ℚ) := by exact_mod_cast h1
  have e2 : (y : ℚ) + d.vec.2 = ((nextCell x y d).2 : ℚ) := by exact_mod_cast h2
  simp only [mul_one]
  rw [e1, e2]

theorem vectorToDirection_of {d : Dir} {v : ℚ} (hv : 0 < v) : vectorToDirection (directionToVector d v) = d := by
  unfold vectorToDirection directionToVector
  cases d <;> simp [Dir.vec, hv, not_lt.2 hv.le]

theorem succ_dir (c : Config) (d : Dir) {v : ℚ} (hv : 0 < v) : (c.succ (directionToVector d v)).dir = if d = .stop then c.dir else d := by
  unfold Config.succ
  simp only [vectorToDirection_of hv]

/-! ### Possible actions -/

theorem mem_dirList (d : Dir) : d ∈ dirList := by cases d <;> decide

theorem possibleLoop_eq (walls : Grid) (x y : ℤ) (w : Dir → Bool) (l : List Dir)
    (h : ∀ d ∈ l, walls.get (x + d.vec.1) (y + d.vec.2) = .ok (w d)) :
    possibleLoop walls x y l = .ok (l.filter fun d => !w d) := by
  induction l with
  | nil => rfl
  | cons d t ih =>
    unfold possibleLoop
    rw [h d List.mem_cons_self, ih fun e he => h e (List.mem_cons_of_mem _ he)]
    cases hw : w d
    · simp [hw]
    · simp [hw]

theorem Grid.Bordered.next_at {g : Grid} (hb : g.Bordered) {x y : ℕ} (hf : g.Free (x, y)) (d : Dir) :
    ∃ b, g.At (nextCell x y d).1 (nextCell x y d).2 b := by
  obtain ⟨h1, h2, h3, h4⟩ := hb.inner x y hf
  apply hb.shaped.at_of_lt
  · cases d <;> simp [nextCell] <;> omega
  · cases d <;> simp [nextCell] <;> omega

theorem possible_cell {walls : Grid} (hb : walls.Bordered) {x y : ℕ} (hf : walls.Free (x, y)) {c : Config} (hc : c.pos = cellAt (x, y)) :
    possibleActions c walls = .ok (dirList.filter fun d => walls.Free (nextCell x y d)) := by
  obtain ⟨h1, h2, h3, h4⟩ := hb.inner x y hf
  have hx : pyInt (c.pos.1 + 1 / 2) = x := by rw [hc]; exact pyInt_half x
  have hy : pyInt (c.pos.2 + 1 / 2) = y := by rw [hc]; exact pyInt_half y
  unfold possibleActions
  simp only [hx, hy]
  rw [if_neg (by rw [hc]; simp [cellAt])]
  have key : ∀ d ∈ dirList, walls.get ((x : ℤ) + d.vec.1) ((y : ℤ) + d.vec.2) = .ok (decide (¬ walls.Free (nextCell x y d))) := by
    intro d _
    obtain ⟨e1, e2⟩ := nextCell_vec h1 h3 d
    rw [e1, e2, Grid.get_nat]
    obtain ⟨b, hb'⟩ := hb.next_at hf d
    cases b
    · have : decide (¬ walls.Free (nextCell x y d)) = false := decide_eq_false (not_not.2 hb')
      rw [this]; exact hb'
    · have hn : ¬ walls.Free (nextCell x y d) := fun h => by cases hb'.unique h
      rw [decide_eq_true hn]; exact hb'
  rw [possibleLoop_eq walls x y _ dirList key]
  congr 1
  apply List.filter_congr
  intro d _
  simp

theorem possible_between {walls : Grid} {c : Config} (h : Between walls c) : possibleActions c walls = .ok [c.dir] := by
  obtain ⟨x, y, _, h | h⟩ := h
  · obtain ⟨_, hp, _⟩ := h
    have hx : pyInt (c.pos.1 + 1 / 2) = x + 1 := by rw [hp]; exact pyInt_half_half x
    have hy : pyInt (c.pos.2 + 1 / 2) = y := by rw [hp]; exact pyInt_half y
    unfold possibleActions
    simp only [hx, hy]
    rw [if_pos]
    rw [hp]
    push_cast
    have : |(x : ℚ) + 1 / 2 - (x + 1)| = 1 / 2 := by
      rw [show (x : ℚ) + 1 / 2 - (x + 1) = -(1 / 2) by ring, abs_neg]; norm_num [abs_of_pos]
    rw [this]
    simp; norm_num
  · obtain ⟨_, hp, _⟩ := h
    have hx : pyInt (c.pos.1 + 1 / 2) = x := by rw [hp]; exact pyInt_half x
    have hy : pyInt (c.pos.2 + 1 / 2) = y + 1 := by rw [hp]; exact pyInt_half_half y
    unfold possibleActions
    simp only [hx, hy]
    rw [if_pos]
    rw [hp]
    push_cast
    have : |(y : ℚ) + 1 / 2 - (y + 1)| = 1 / 2 := by
      rw [show (y : ℚ) + 1 / 2 - (y + 1) = -(1 / 2) by ring, abs_neg]; norm_num [abs_of_pos]
    rw [this]
    simp; norm_num

/-! ### Collisions -/

theorem canKill_iff (p : Pos) (g : Agent) : canKill p g.conf.pos = decide (Near p g) := by
  unfold canKill Near manhattan; rfl

/-- Effect of one check on the state of a given list split. -/
theorem deathAt_eq (p : Pos) (s : GState) (pre post : List Agent) (g : Agent) (pe qe : List Bool) (e : Bool) (h : s.agents = pre ++ g :: post)
    (he : s.eaten = pe ++ e :: qe) (hl : pe.length = pre.length) :
    deathAt p s pre.length = { s with
      agents := pre ++ g.meet p :: post
      eaten := pe ++ (e || decide (g.Eaten p)) :: qe
      scoreChange := s.scoreChange + (if g.Eaten p then 200 else 0) - (if s.win = false ∧ g.Kills p then 500 else 0)
      lose := s.lose || decide (s.win = false ∧ g.Kills p) } := by
  have hget : s.agents[pre.length]? = some g := by rw [h]; simp
  have hset : ∀ a : Agent, s.agents.set pre.length a = pre ++ a :: post := by intro a; rw [h]; simp
  have hsete : s.eaten.set pre.length true = pe ++ true :: qe := by rw [he, ← hl]; simp
  have hid : { s with agents := pre ++ g :: post, eaten := pe ++ e :: qe } = s := by rw [← h, ← he]
  unfold deathAt collide
  simp only [hget, canKill_iff]
  by_cases hn : Near p g
  · rw [decide_eq_true hn, if_pos rfl]
    by_cases hs : 0 < g.scared
    · rw [if_pos hs, hset, hsete]
      have h1 : g.Eaten p := ⟨hn, hs⟩
      have h2 : ¬ g.Kills p := fun h => by have := h.2; omega
      simp only [if_pos h1, h2, and_false, if_false, decide_false, Bool.or_false, sub_zero, decide_eq_true h1, Bool.or_true]
      unfold Agent.meet
      rw [if_pos ⟨hn, hs⟩]
    · rw [if_neg hs]
      have h1 : ¬ g.Eaten p := fun h => hs h.2
      have h2 : g.Kills p := ⟨hn, by omega⟩
      have h3 : g.meet p = g := by unfold Agent.meet; rw [if_neg fun h => hs h.2]
      simp only [if_neg h1, h2, and_true, decide_eq_false h1, Bool.or_false, add_zero, h3]
      by_cases hw : s.win = false
      · simp only [hw, if_true, decide_true, Bool.or_true]
        rw [← h, ← he]
      · rw [if_neg hw, if_neg hw, decide_eq_false hw, Bool.or_false, sub_zero, ← h, ← he]
  · have h1 : ¬ g.Eaten p := fun h => hn h.1
    have h2 : ¬ g.Kills p := fun h => hn h.1
    have h3 : g.meet p = g := by unfold Agent.meet; rw [if_neg fun h => hn h.1]
    simp only [decide_eq_false hn, Bool.false_eq_true, if_false, h1, h2, and_false, decide_false, Bool.or_false, add_zero, sub_zero, h3]
    rw [← h, ← he]

/-- Effect of all checks from a position of the list on. -/
theorem deaths_eq (p : Pos) (post : List Agent) : ∀ (s : GState) (pre : List Agent) (pe qe : List Bool), s.agents = pre ++ post →
    s.eaten = pe ++ qe → pe.length = pre.length → qe.length = post.length →
    (List.range' pre.length post.length).foldl (deathAt p) s = { s with
      agents := pre ++ post.map (Agent.meet p)
      eaten := pe ++ List.zipWith (fun e g => e || decide (Agent.Eaten p g)) qe post
      scoreChange := s.scoreChange + 200 * (post.countP fun g => g.Eaten p) - (if s.win = false then 500 * (post.countP fun g => g.Kills p) else 0)
      lose := s.lose || (!s.win && post.any fun g => decide (g.Kills p)) } := by
  induction post with
  | nil =>
    intro s pre pe qe h he hl hq
    have : qe = [] := List.length_eq_zero_iff.1 (by simpa using hq)
    subst this
    simp only [List.append_nil] at h he
    simp only [List.length_nil, List.range'_zero, List.foldl_nil, List.map_nil, List.append_nil, List.zipWith_nil_left, List.countP_nil,
      List.any_nil, Bool.and_false, Bool.or_false, Nat.cast_zero, mul_zero, add_zero, ite_self, sub_zero]
    rw [← h, ← he]
  | cons g t ih =>
    intro s pre pe qe h he hl hq
    obtain ⟨e, qe, rfl⟩ : ∃ e q, qe = e :: q := by
      cases qe with
      | nil => simp at hq
      | cons e q => exact ⟨e, q, rfl⟩
    rw [List.length_cons, List.range'_succ, List.foldl_cons, deathAt_eq p s pre t g pe qe e h he hl]
    have := ih { s with
      agents := pre ++ g.meet p :: t
      eaten := pe ++ (e || decide (g.Eaten p)) :: qe
      scoreChange := s.scoreChange + (if g.Eaten p then 200 else 0) - (if s.win = false ∧ g.Kills p then 500 else 0)
      lose := s.lose || decide (s.win = false ∧ g.Kills p) } (pre ++ [g.meet p]) (pe ++ [e || decide (g.Eaten p)]) qe
      (by simp) (by simp) (by simp [hl]) (by simpa using hq)
    rw [List.length_append, List.length_singleton] at this
    rw [this]
    simp only [List.map_cons, List.append_assoc, List.singleton_append, List.zipWith_cons_cons, List.countP_cons, List.any_cons]
    congr 1
    · cases s.win <;> simp [Bool.or_assoc]
    · by_cases h1 : g.Eaten p <;> by_cases h2 : g.Kills p <;> cases s.win <;> simp [h1, h2] <;> ring

end Verif.Pac
