import Verif.Lemmas.PacStep

set_option linter.unusedSectionVars false

/-!
# C52: moves (`demo/game.py` 287-369, `demo/pacman.py` 82-125, 323-455)
-/

namespace Verif.Pac

/-! ### Directions -/

/-- **C52** The vectors point up, down, right and left; turning left turns the vector by a quarter counterclockwise. `RIGHT` is defined for all directions and undoes `LEFT`; two left turns are
a reversal, and both reversals agree. -/
theorem C52_directions (d : Dir) : d.left.right = some d ∧ (d.right.map Dir.left) = some d ∧ d.left.left = d.reverse ∧
    d.reverse.reverse = d ∧ reverseDirection d = d.reverse ∧ d.reverse.vec = (-d.vec.1, -d.vec.2) ∧ d.left.vec = (-d.vec.2, d.vec.1) ∧
    [Dir.north, .south, .east, .west, .stop].map Dir.vec = [(0, 1), (0, -1), (1, 0), (-1, 0), (0, 0)] := by
  cases d <;> decide

/-- **C52** Turning the vector of a direction back into a direction gives that direction, for any positive speed. -/
theorem C52_vector_roundtrip (d : Dir) (v : ℚ) (hv : 0 < v) : vectorToDirection (directionToVector d v) = d := vectorToDirection_of hv

/-! ### Possible and legal actions -/

/-- **C52** On a free cell of a bordered maze the possible actions are, without failure, exactly the directions of the free neighbours and
`Stop`, in the fixed order. -/
theorem C52_possible {walls : Grid} (hb : walls.Bordered) {x y : ℕ} (hf : walls.Free (x, y)) {c : Config} (hc : c.pos = cellAt (x, y)) :
    ∃ l, possibleActions c walls = .ok l ∧ l.Sublist [.north, .south, .east, .west, .stop] ∧
      ∀ d, d ∈ l ↔ walls.Free (nextCell x y d) := by
  refine ⟨_, possible_cell hb hf hc, List.filter_sublist, ?_⟩
  intro d
  rw [List.mem_filter, decide_eq_true_eq]
  exact ⟨fun h => h.2, fun h => ⟨mem_dirList d, h⟩⟩

/-- **C52** Between two cells the only possible action is to continue. -/
theorem C52_between {walls : Grid} {c : Config} (h : Between walls c) : possibleActions c walls = .ok [c.dir] := possible_between h

theorem Between.dir_ne {walls : Grid} {c : Config} (h : Between walls c) : c.dir ≠ .stop ∧ reverseDirection c.dir ≠ c.dir := by
  obtain ⟨x, y, _, h | h⟩ := h
  · rcases h.2.2 with h | h <;> rw [h] <;> decide
  · rcases h.2.2 with h | h <;> rw [h] <;> decide

theorem ghostFilter_between {walls : Grid} {c : Config} (h : Between walls c) : ghostFilter c.dir [c.dir] = [c.dir] := by
  obtain ⟨h1, h2⟩ := h.dir_ne
  unfold ghostFilter
  have : [c.dir].erase .stop = [c.dir] := List.erase_of_not_mem (by simpa using Ne.symm h1)
  simp only [this]
  rw [if_neg (by simp)]

theorem ghostFilter_mem (dir : Dir) (P : Dir → Prop) [DecidablePred P] (d : Dir) :
    d ∈ ghostFilter dir (dirList.filter fun d => P d) ↔
      d ≠ .stop ∧ P d ∧ (d = reverseDirection dir → ∀ e, e ≠ .stop → P e → e = d) := by
  have hnd : (dirList.filter fun d => decide (P d)).Nodup :=
    List.Pairwise.sublist List.filter_sublist (by decide : dirList.Nodup)
  have hm1 : ∀ e, e ∈ (dirList.filter fun d => decide (P d)).erase .stop ↔ e ≠ .stop ∧ P e := by
    intro e
    rw [hnd.mem_erase_iff, List.mem_filter, decide_eq_true_eq]
    exact ⟨fun h => ⟨h.1, h.2.2⟩, fun h => ⟨h.1, mem_dirList e, h.2⟩⟩
  have hnd1 := hnd.erase Dir.stop
  unfold ghostFilter
  simp only
  generalize (dirList.filter fun d => decide (P d)).erase .stop = l1 at hm1 hnd1
  by_cases hr : reverseDirection dir ∈ l1 ∧ l1.length > 1
  · rw [if_pos hr, hnd1.mem_erase_iff, hm1]
    constructor
    · rintro ⟨h1, h2, h3⟩
      exact ⟨h2, h3, fun h => absurd h h1⟩
    · rintro ⟨h2, h3, h4⟩
      refine ⟨?_, h2, h3⟩
      intro hd
      -- a second element
      have h5 := h4 hd
      have : l1 = [d] := by
        have hsub : ∀ e ∈ l1, e = d := fun e he => h5 e ((hm1 e).1 he).1 ((hm1 e).1 he).2
        have hrep := List.eq_replicate_of_mem hsub
        have hle : l1.length ≤ 1 := by
          rw [hrep] at hnd1
          exact List.nodup_replicate.1 hnd1
        omega
      rw [this] at hr
      simp at hr
  · rw [if_neg hr, hm1]
    constructor
    · rintro ⟨h2, h3⟩
      refine ⟨h2, h3, ?_⟩
      intro hd e he hpe
      have hin : reverseDirection dir ∈ l1 := (hm1 _).2 (by rw [← hd]; exact ⟨h2, h3⟩)
      have hlen : l1.length ≤ 1 := by
        by_contra hc
        exact hr ⟨hin, by omega⟩
      have hd1 : d ∈ l1 := (hm1 d).2 ⟨h2, h3⟩
      have he1 : e ∈ l1 := (hm1 e).2 ⟨he, hpe⟩
      match l1, hlen, hd1, he1 with
      | [a], _, h1, h2 => rw [List.mem_singleton.1 h1, List.mem_singleton.1 h2]
    · rintro ⟨h2, h3, _⟩; exact ⟨h2, h3⟩

/-- **C52** The legal actions of a ghost on a free cell: the directions of the free neighbours, never `Stop`, and the way back only if
there is no other. -/
theorem C52_ghost_legal {s : GState} (hb : s.layout.walls.Bordered) {i : ℕ} (hi : i ≠ 0) {g : Agent} (hg : s.agents[i]? = some g) {x y : ℕ}
    (hf : s.layout.walls.Free (x, y)) (hc : g.conf.pos = cellAt (x, y)) (hwin : s.win = false) (hlose : s.lose = false) :
    ∃ l, legalActions s i = .ok l ∧ ∀ d, d ∈ l ↔ d ≠ .stop ∧ s.layout.walls.Free (nextCell x y d) ∧
      (d = g.conf.dir.reverse → ∀ e, e ≠ .stop → s.layout.walls.Free (nextCell x y e) → e = d) := by
  refine ⟨ghostFilter g.conf.dir (dirList.filter fun d => s.layout.walls.Free (nextCell x y d)), ?_, ?_⟩
  · unfold legalActions ghostLegal ghostState
    rw [hwin, hlose]
    simp only [Bool.or_self, Bool.false_eq_true, if_false, hi, hg]
    rw [possible_cell hb hf hc]
  · intro d
    rw [ghostFilter_mem, (C52_directions g.conf.dir).2.2.2.2.1]

/-- **C52** The legal actions of Pacman: the free neighbours and `Stop`; hence never empty. -/
theorem C52_pacman_legal {s : GState} (hb : s.layout.walls.Bordered) {g : Agent} (hg : s.agents[0]? = some g) {x y : ℕ}
    (hf : s.layout.walls.Free (x, y)) (hc : g.conf.pos = cellAt (x, y)) (hwin : s.win = false) (hlose : s.lose = false) :
    ∃ l, legalActions s 0 = .ok l ∧ (∀ d, d ∈ l ↔ s.layout.walls.Free (nextCell x y d)) ∧ Dir.stop ∈ l := by
  obtain ⟨l, h1, _, h2⟩ := C52_possible hb hf (c := g.copy.conf) hc
  refine ⟨l, ?_, h2, (h2 _).2 hf⟩
  unfold legalActions pacLegal
  rw [hwin, hlose]
  simp only [Bool.or_self, Bool.false_eq_true, if_false, if_true, hg]
  exact h1

/-! ### Where agents can be -/

/-- A ghost is on a free cell, or scared and in the middle between two; its start is a free cell and its timer at most 40. -/
structure GhostOk (walls : Grid) (g : Agent) : Prop where
  start : OnFree walls g.start
  place : OnFree walls g.conf ∨ (0 < g.scared ∧ Between walls g.conf)
  timer : g.scared ≤ 40

/-- All agents are at allowed places; the maze is bordered and the food grid has its size. -/
structure Placed (s : GState) : Prop where
  walls : s.layout.walls.Bordered
  foodShaped : s.food.Shaped
  foodWidth : s.food.width = s.layout.walls.width
  foodHeight : s.food.height = s.layout.walls.height
  agents : ∃ pac rest, s.agents = pac :: rest ∧ OnFree s.layout.walls pac.conf ∧ ∀ g ∈ rest, GhostOk s.layout.walls g
  eaten : s.eaten.length = s.agents.length

theorem meet_ok {walls : Grid} {g : Agent} (h : GhostOk walls g) (p : Pos) : GhostOk walls (g.meet p) := by
  unfold Agent.meet
  split
  · exact ⟨h.start, Or.inl h.start, by simp⟩
  · exact h

theorem succ_pos (c : Config) (v : Pos) : (c.succ v).pos = (c.pos.1 + v.1, c.pos.2 + v.2) := rfl

theorem moved_full {g : Agent} {x y : ℕ} (hx : 0 < x) (hy : 0 < y) (hc : g.conf.pos = cellAt (x, y)) (hs : g.scared = 0) (a : Dir) :
    (ghostMoved g a).conf.pos = cellAt (nextCell x y a) ∧ (ghostMoved g a).scared = 0 ∧ (ghostMoved g a).start = g.start := by
  unfold ghostMoved decrement
  simp only [hs, lt_irrefl, if_false, gt_iff_lt, zero_ne_one]
  refine ⟨?_, trivial, trivial⟩
  rw [succ_pos, hc, ← nextCell_pos hx hy a]
  rfl

/-- The half-way position when leaving a free cell. -/
theorem half_between {walls : Grid} (hb : walls.Bordered) {x y : ℕ} (hf : walls.Free (x, y)) {c : Config} (hc : c.pos = cellAt (x, y)) {a : Dir}
    (ha : a ≠ .stop) (hn : walls.Free (nextCell x y a)) : Between walls (c.succ (directionToVector a (1 / 2))) := by
  obtain ⟨h1, h2, h3, h4⟩ := hb.inner x y hf
  have hd := succ_dir c a (v := 1 / 2) (by norm_num)
  rw [if_neg ha] at hd
  have hp : (c.succ (directionToVector a (1 / 2))).pos = ((x : ℚ) + (directionToVector a (1 / 2)).1, (y : ℚ) + (directionToVector a (1 / 2)).2) := by
    rw [succ_pos, hc]; rfl
  cases a with
  | stop => exact absurd rfl ha
  | north =>
    refine ⟨x, y, hf, Or.inr ⟨hn, ?_, Or.inl hd⟩⟩
    rw [hp]; simp [directionToVector, Dir.vec]
  | south =>
    have hxy : y - 1 + 1 = y := by omega
    refine ⟨x, y - 1, hn, Or.inr ⟨by rw [hxy]; exact hf, ?_, Or.inr hd⟩⟩
    rw [hp]
    have : ((y - 1 : ℕ) : ℚ) = (y : ℚ) - 1 := by rw [Nat.cast_sub (by omega)]; simp
    rw [this]
    simp [directionToVector, Dir.vec]; ring
  | east =>
    refine ⟨x, y, hf, Or.inl ⟨hn, ?_, Or.inl hd⟩⟩
    rw [hp]; simp [directionToVector, Dir.vec]
  | west =>
    have hxy : x - 1 + 1 = x := by omega
    refine ⟨x - 1, y, hn, Or.inl ⟨by rw [hxy]; exact hf, ?_, Or.inr hd⟩⟩
    rw [hp]
    have : ((x - 1 : ℕ) : ℚ) = (x : ℚ) - 1 := by rw [Nat.cast_sub (by omega)]; simp
    rw [this]
    simp [directionToVector, Dir.vec]; ring

/-- Rounding a half-way position gives one of the two free cells. -/
theorem snap_free {walls : Grid} {c : Config} (h : Between walls c) : ∃ p, walls.Free p ∧ toPos (nearestPoint c.pos) = cellAt p := by
  obtain ⟨x, y, h0, h | h⟩ := h
  · refine ⟨(x + 1, y), h.1, ?_⟩
    rw [h.2.1]
    unfold nearestPoint toPos cellAt
    simp only [pyInt_half, pyInt_half_half]
    push_cast; rfl
  · refine ⟨(x, y + 1), h.1, ?_⟩
    rw [h.2.1]
    unfold nearestPoint toPos cellAt
    simp only [pyInt_half, pyInt_half_half]
    push_cast; rfl

/-- Continuing from a half-way position reaches one of the two free cells. -/
theorem between_succ {walls : Grid} {c : Config} (h : Between walls c) : OnFree walls (c.succ (directionToVector c.dir (1 / 2))) := by
  obtain ⟨x, y, h0, h | h⟩ := h
  · obtain ⟨h1, h2, h3 | h3⟩ := h
    · refine ⟨(x + 1, y), h1, ?_⟩
      rw [succ_pos, h2, h3]
      simp [directionToVector, Dir.vec, cellAt]; ring
    · refine ⟨(x, y), h0, ?_⟩
      rw [succ_pos, h2, h3]
      simp [directionToVector, Dir.vec, cellAt]
  · obtain ⟨h1, h2, h3 | h3⟩ := h
    · refine ⟨(x, y + 1), h1, ?_⟩
      rw [succ_pos, h2, h3]
      simp [directionToVector, Dir.vec, cellAt]; ring
    · refine ⟨(x, y), h0, ?_⟩
      rw [succ_pos, h2, h3]
      simp [directionToVector, Dir.vec, cellAt]

theorem decrement_ok {walls : Grid} {g : Agent} (hst : OnFree walls g.start) (ht : g.scared ≤ 40)
    (hp : OnFree walls g.conf ∨ (0 < g.scared ∧ Between walls g.conf)) : GhostOk walls (decrement g) := by
  unfold decrement
  refine ⟨hst, ?_, by show g.scared - 1 ≤ 40; omega⟩
  by_cases h1 : g.scared = 1
  · left
    simp only [h1, if_true]
    rcases hp with ⟨p, hf, hc⟩ | ⟨_, hb⟩
    · refine ⟨p, hf, ?_⟩
      show toPos (nearestPoint g.conf.pos) = _
      rw [hc, nearestPoint_cell, toPos_cell]
    · obtain ⟨p, hf, hc⟩ := snap_free hb
      exact ⟨p, hf, hc⟩
  · simp only [h1, if_false]
    rcases hp with hp | ⟨h2, hb⟩
    · exact Or.inl hp
    · exact Or.inr ⟨by omega, hb⟩

/-- The possible actions of a well placed ghost never fail, and every legal move leads to an allowed place. -/
theorem ghost_move_ok {walls : Grid} (hb : walls.Bordered) {g : Agent} (hg : GhostOk walls g) :
    ∃ l, possibleActions g.conf walls = .ok l ∧ ∀ a ∈ ghostFilter g.conf.dir l, GhostOk walls (ghostMoved g a) := by
  rcases hg.place with ⟨⟨x, y⟩, hf, hc⟩ | ⟨hs, hbt⟩
  · refine ⟨_, possible_cell hb hf hc, ?_⟩
    intro a ha
    obtain ⟨h1, h2, _⟩ := (ghostFilter_mem _ _ _).1 ha
    unfold ghostMoved
    refine decrement_ok hg.start hg.timer ?_
    by_cases hs : g.scared > 0
    · right
      refine ⟨hs, ?_⟩
      simp only [hs, if_true]
      exact half_between hb hf hc h1 h2
    · left
      simp only [hs, if_false]
      obtain ⟨h3, _, h4, _⟩ := hb.inner x y hf
      refine ⟨nextCell x y a, h2, ?_⟩
      rw [← nextCell_pos h3 h4 a]
      show (g.conf.succ _).pos = _
      rw [succ_pos, hc]; rfl
  · refine ⟨_, possible_between hbt, ?_⟩
    intro a ha
    rw [ghostFilter_between hbt, List.mem_singleton] at ha
    subst ha
    unfold ghostMoved
    refine decrement_ok hg.start hg.timer (Or.inl ?_)
    have hs' : g.scared > 0 := hs
    simp only [hs', if_true]
    exact between_succ hbt

theorem split_at {A : Type} (l : List A) (i : ℕ) (a : A) (h : l[i]? = some a) : ∃ pre post, l = pre ++ a :: post ∧ pre.length = i := by
  obtain ⟨hlt, rfl⟩ := List.getElem?_eq_some_iff.1 h
  refine ⟨l.take i, l.drop (i + 1), ?_, by rw [List.length_take]; omega⟩
  rw [List.getElem_cons_drop, List.take_append_drop]

/-- One step from a well placed state: it fails only for the documented reasons, and its result is well placed with the same layout. -/
theorem step_placed {s : GState} (h : Placed s) (i : ℕ) (a : Dir) :
    (∃ s', generateSuccessor s i a = .ok s' ∧ Placed s' ∧ s'.layout = s.layout ∧ s'.agents.length = s.agents.length) ∨
      generateSuccessor s i a = .error .illegal ∨ (generateSuccessor s i a = .error .finished ∧ (s.win || s.lose) = true) ∨
      (generateSuccessor s i a = .error .ghostIndex ∧ s.agents.length ≤ i) := by
  by_cases hterm : (s.win || s.lose) = true
  · right; right; left
    refine ⟨?_, hterm⟩
    unfold generateSuccessor
    rw [if_pos hterm]
  have hwl : s.win = false ∧ s.lose = false := by simpa using hterm
  obtain ⟨hwin, hlose⟩ := hwl
  obtain ⟨pac, rest, hag, ⟨⟨x, y⟩, hfree, hpos⟩, hrest⟩ := h.agents
  cases i with
  | zero =>
    obtain ⟨h1, h2⟩ := pacStep_eq h.walls h.foodShaped h.foodWidth h.foodHeight hag hfree hpos hwin hlose a
    by_cases hq : s.layout.walls.Free (nextCell x y a)
    · left
      obtain ⟨food', hfa, heq⟩ := h1 hq
      obtain ⟨h5, h6, h7, h8⟩ := h.walls.inner _ _ hq
      have hfood : food'.Shaped ∧ food'.width = s.food.width ∧ food'.height = s.food.height := by
        by_cases hf : s.FoodAt (nextCell x y a)
        · obtain ⟨g', e, hs, hw, hh, _⟩ := C51_put h.foodShaped (x := (nextCell x y a).1) (y := (nextCell x y a).2)
            (by rw [h.foodWidth]; omega) (by rw [h.foodHeight]; omega) false
          rw [hfa.1 hf] at e
          cases e
          exact ⟨hs, hw, hh⟩
        · rw [hfa.2 hf]; exact ⟨h.foodShaped, rfl, rfl⟩
      have hgl : (s.ghostsAt rest (nextCell x y a)).length = rest.length := by
        unfold GState.ghostsAt; split
        · rw [List.length_map]
        · rfl
      refine ⟨_, heq, ⟨h.walls, hfood.1, hfood.2.1.trans h.foodWidth, hfood.2.2.trans h.foodHeight, ⟨_, _, rfl, ⟨_, hq, rfl⟩, ?_⟩, ?_⟩, rfl, ?_⟩
      · intro g hg
        obtain ⟨g0, hg0, rfl⟩ := List.mem_map.1 hg
        apply meet_ok
        unfold GState.ghostsAt at hg0
        split at hg0
        · obtain ⟨g1, hg1, rfl⟩ := List.mem_map.1 hg0
          have := hrest g1 hg1
          refine ⟨this.start, ?_, le_rfl⟩
          rcases this.place with hp | hp
          · exact Or.inl hp
          · exact Or.inr ⟨by show 0 < scaredTime; decide, hp.2⟩
        · exact hrest g0 hg0
      · simp [pacResult]
      · simp [pacResult, hgl, hag]
    · right; left; exact h2 hq
  | succ i =>
    cases hget : s.agents[i + 1]? with
    | none =>
      right; right; right
      refine ⟨?_, by rw [List.getElem?_eq_none_iff] at hget; exact hget⟩
      have hget' : s.next.agents[i + 1]? = none := by
        show (s.agents.map Agent.copy)[i + 1]? = none
        rw [map_copy]; exact hget
      unfold generateSuccessor
      rw [if_neg hterm, if_neg (by omega)]
      have : ghostApply s.next a (i + 1) = .error .ghostIndex := by
        unfold ghostApply ghostLegal ghostState
        rw [hget']
      rw [this]
    | some g =>
      have hget2 : rest[i]? = some g := by rw [hag] at hget; simpa using hget
      obtain ⟨pre, post, hsplit, hlen⟩ := split_at rest i g hget2
      obtain ⟨e, he⟩ : ∃ e, s.eaten[i + 1]? = some e := by
        have : i + 1 < s.eaten.length := by
          rw [h.eaten]; exact (List.getElem?_eq_some_iff.1 hget).1
        exact ⟨_, List.getElem?_eq_getElem this⟩
      obtain ⟨pe, qe, hesplit, helen⟩ := split_at s.eaten (i + 1) e he
      have hag' : s.agents = (pac :: pre) ++ g :: post := by rw [hag, hsplit]; rfl
      have hgm : g ∈ rest := by rw [hsplit]; simp
      obtain ⟨l, hl, hok⟩ := ghost_move_ok h.walls (hrest g hgm)
      have heq := ghostStep_eq hag' hesplit (by rw [helen, hlen]) hl hwin hlose a
      rw [hlen] at heq
      by_cases hm : a ∈ ghostFilter g.conf.dir l
      · left
        rw [if_pos hm] at heq
        have hmem : ∀ g' ∈ pre ++ (ghostMoved g a).meet pac.conf.pos :: post, GhostOk s.layout.walls g' := by
          intro g' hg'
          rcases List.mem_append.1 hg' with h1 | h1
          · exact hrest g' (by rw [hsplit]; exact List.mem_append_left _ h1)
          · rcases List.mem_cons.1 h1 with h1 | h1
            · rw [h1]; exact meet_ok (hok a hm) _
            · exact hrest g' (by rw [hsplit]; exact List.mem_append_right _ (List.mem_cons_of_mem _ h1))
        refine ⟨_, heq, ⟨h.walls, h.foodShaped, h.foodWidth, h.foodHeight, ⟨pac, _, rfl, ⟨(x, y), hfree, hpos⟩, hmem⟩, ?_⟩, rfl, ?_⟩
        · have h9 := h.eaten
          rw [hag', hesplit] at h9
          simp only [ghostResult, List.length_append, List.length_cons] at h9 ⊢
          omega
        · rw [hag']
          simp [ghostResult]
      · right; left
        rw [if_neg hm] at heq
        exact heq

/-- **C52** In every execution from a well placed state all agents stay at allowed places: Pacman on a free cell, every ghost on a free cell
or, while scared, half-way between two free cells; timers stay at most 40; layout and number of agents do not change. -/
theorem C52_placed {s s' : GState} (h : Placed s) (ms : List (ℕ × Dir)) (hrun : playMoves s ms = .ok s') :
    Placed s' ∧ s'.layout = s.layout ∧ s'.agents.length = s.agents.length := by
  induction ms generalizing s with
  | nil => cases hrun; exact ⟨h, rfl, rfl⟩
  | cons m t ih =>
    unfold playMoves at hrun
    cases hg : generateSuccessor s m.1 m.2 with
    | error e => rw [hg] at hrun; cases hrun
    | ok s1 =>
      rw [hg] at hrun
      rcases step_placed h m.1 m.2 with ⟨s2, he, hp, hl, hn⟩ | he | ⟨he, _⟩ | ⟨he, _⟩
      · rw [hg] at he
        cases he
        obtain ⟨h1, h2, h3⟩ := ih hp hrun
        exact ⟨h1, h2.trans hl, h3.trans hn⟩
      all_goals rw [hg] at he; cases he

/-- **C52** From a well placed state a step never raises anything but the three documented exceptions, in particular no `IndexError`. -/
theorem C52_errors {s : GState} (h : Placed s) (i : ℕ) (a : Dir) (e : PErr) (he : generateSuccessor s i a = .error e) :
    e = .illegal ∨ (e = .finished ∧ (s.win = true ∨ s.lose = true)) ∨ (e = .ghostIndex ∧ s.agents.length ≤ i) := by
  rcases step_placed h i a with ⟨s', h1, _⟩ | h1 | ⟨h1, h2⟩ | ⟨h1, h2⟩
  · rw [he] at h1; cases h1
  · rw [he] at h1; cases h1; exact Or.inl rfl
  · rw [he] at h1; cases h1; exact Or.inr (Or.inl ⟨rfl, by simpa using h2⟩)
  · rw [he] at h1; cases h1; exact Or.inr (Or.inr ⟨rfl, h2⟩)

/-- **C52** A step succeeds exactly for the legal actions of an existing agent. -/
theorem C52_legal_iff {s : GState} (h : Placed s) (i : ℕ) (a : Dir) (hi : i < s.agents.length) :
    ∃ l, legalActions s i = .ok l ∧ (a ∈ l ↔ ∃ s', generateSuccessor s i a = .ok s') := by
  by_cases hterm : (s.win || s.lose) = true
  · refine ⟨[], ?_, ?_⟩
    · unfold legalActions; rw [if_pos hterm]
    · unfold generateSuccessor
      rw [if_pos hterm]
      simp
  have hwl : s.win = false ∧ s.lose = false := by simpa using hterm
  obtain ⟨hwin, hlose⟩ := hwl
  obtain ⟨pac, rest, hag, ⟨⟨x, y⟩, hfree, hpos⟩, hrest⟩ := h.agents
  cases i with
  | zero =>
    obtain ⟨l, h1, h2, _⟩ := C52_pacman_legal h.walls (g := pac) (by rw [hag]; rfl) hfree hpos hwin hlose
    refine ⟨l, h1, ?_⟩
    rw [h2]
    obtain ⟨h3, h4⟩ := pacStep_eq h.walls h.foodShaped h.foodWidth h.foodHeight hag hfree hpos hwin hlose a
    constructor
    · intro hq
      obtain ⟨f, _, he⟩ := h3 hq
      exact ⟨_, he⟩
    · rintro ⟨s', hs'⟩
      by_contra hq
      rw [h4 hq] at hs'
      cases hs'
  | succ i =>
    have hget : s.agents[i + 1]? = some s.agents[i + 1] := List.getElem?_eq_getElem hi
    generalize s.agents[i + 1] = g at hget
    have hget2 : rest[i]? = some g := by rw [hag] at hget; simpa using hget
    obtain ⟨pre, post, hsplit, hlen⟩ := split_at rest i g hget2
    obtain ⟨e, he⟩ : ∃ e, s.eaten[i + 1]? = some e := by
      have : i + 1 < s.eaten.length := by rw [h.eaten]; exact hi
      exact ⟨_, List.getElem?_eq_getElem this⟩
    obtain ⟨pe, qe, hesplit, helen⟩ := split_at s.eaten (i + 1) e he
    have hag' : s.agents = (pac :: pre) ++ g :: post := by rw [hag, hsplit]; rfl
    have hgm : g ∈ rest := by rw [hsplit]; simp
    obtain ⟨l, hl, _⟩ := ghost_move_ok h.walls (hrest g hgm)
    refine ⟨ghostFilter g.conf.dir l, ?_, ?_⟩
    · unfold legalActions ghostLegal ghostState
      rw [if_neg hterm]
      simp only [Nat.add_eq_zero_iff, one_ne_zero, and_false, if_false, hget, hl]
    · have heq := ghostStep_eq hag' hesplit (by rw [helen, hlen]) hl hwin hlose a
      rw [hlen] at heq
      rw [heq]
      by_cases hm : a ∈ ghostFilter g.conf.dir l
      · simp [hm]
      · simp [hm]

end Verif.Pac
