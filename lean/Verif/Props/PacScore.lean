import Verif.Props.PacLayout

set_option linter.unusedSectionVars false

/-!
# C53: score and outcome; C54: collisions
-/

namespace Verif.Pac

/-! ### Specification of the account -/

/-- The ghosts of a state. -/
def GState.ghosts (s : GState) : List Agent := s.agents.tail

/-- The food that is left. -/
def GState.foodLeft (s : GState) : ℕ := s.food.count true

/-- Number of scared ghosts. -/
def GState.scaredGhosts (s : GState) : ℕ := s.ghosts.countP fun g => decide (0 < g.scared)

/-- How many ghosts can still be eaten: the scared ones, and all of them once more for every capsule. -/
def GState.prey (s : GState) : ℕ := s.scaredGhosts + s.ghosts.length * s.capsules.length

/-- The state is open: neither won nor lost. -/
def GState.Open (s : GState) : Prop := s.win = false ∧ s.lose = false

theorem ghostsAt_length (s : GState) (rest : List Agent) (q : ℕ × ℕ) : (s.ghostsAt rest q).length = rest.length := by
  unfold GState.ghostsAt
  split
  · rw [List.length_map]
  · rfl

theorem meet_scared (p : Pos) (g : Agent) : (g.meet p).scared = if g.Eaten p then 0 else g.scared := by
  by_cases h : g.Eaten p
  · rw [if_pos h]; unfold Agent.meet; rw [if_pos (show Near p g ∧ 0 < g.scared from h)]
  · rw [if_neg h]; unfold Agent.meet; rw [if_neg (show ¬ (Near p g ∧ 0 < g.scared) from h)]

theorem scared_meet_count (p : Pos) (l : List Agent) :
    ((l.map (Agent.meet p)).countP fun g => decide (0 < g.scared)) + (l.countP fun g => decide (g.Eaten p)) =
      l.countP fun g => decide (0 < g.scared) := by
  induction l with
  | nil => rfl
  | cons g t ih =>
    simp only [List.map_cons, List.countP_cons, meet_scared]
    by_cases h : g.Eaten p
    · have h2 : 0 < g.scared := h.2
      simp only [h, h2, if_true, decide_true, Nat.lt_irrefl, decide_false, Bool.false_eq_true, if_false]
      omega
    · simp only [h, if_false, decide_false, Bool.false_eq_true]
      omega

theorem foodAfter_count {s : GState} (hs : s.food.Shaped) {q : ℕ × ℕ} {food' : Grid} (h : FoodAfter s q food') :
    food'.count true + (if s.FoodAt q then 1 else 0) = s.foodLeft := by
  by_cases hf : s.FoodAt q
  · rw [if_pos hf]; exact C51_put_count hs hf (h.1 hf)
  · rw [if_neg hf, h.2 hf]; rfl

theorem foodAfter_at {s : GState} (hs : s.food.Shaped) {q : ℕ × ℕ} {food' : Grid} (h : FoodAfter s q food') (x y : ℕ) :
    food'.At x y true ↔ s.food.At x y true ∧ (x, y) ≠ q := by
  by_cases hf : s.FoodAt q
  · obtain ⟨hx, hy⟩ := hs.lt_of_at hf
    obtain ⟨g', e, _, _, _, hat⟩ := C51_put hs hx hy false
    rw [h.1 hf] at e
    cases e
    rw [hat]
    constructor
    · rintro (⟨_, _, hc⟩ | ⟨h1, h2⟩)
      · cases hc
      · exact ⟨h2, fun e => h1 (by rw [← e]; exact ⟨rfl, rfl⟩)⟩
    · rintro ⟨h1, h2⟩
      exact Or.inr ⟨fun e => h2 (Prod.ext e.1 e.2), h1⟩
  · rw [h.2 hf]
    exact ⟨fun h1 => ⟨h1, fun e => hf (by rw [← e]; exact h1)⟩, fun h1 => h1.1⟩

/-- **C53** A move of Pacman to the cell `q`: exactly the food and the capsule on `q` disappear; the score changes by −1, +10 for food,
+500 for the last food, +200 for every scared ghost near `q`, −500 for every other ghost near `q` unless the food was the last. A capsule
on `q` scares all ghosts before that. The game is won exactly if the last food was eaten, lost exactly if some ghost killed. -/
theorem C53_pacman_step {s s' : GState} (h : Placed s) {a : Dir} (hs : generateSuccessor s 0 a = .ok s') :
    ∃ pac rest q, s.agents = pac :: rest ∧ (∃ pac' rest', s'.agents = pac' :: rest' ∧ pac'.conf.pos = cellAt q) ∧
      (∀ x y, s'.food.At x y true ↔ s.food.At x y true ∧ (x, y) ≠ q) ∧
      s'.capsules = s.capsules.erase ((q.1 : ℤ), (q.2 : ℤ)) ∧
      (s'.win = true ↔ s.food.At q.1 q.2 true ∧ s'.foodLeft = 0) ∧
      (s'.lose = true ↔ s'.win = false ∧ ∃ g ∈ s.ghostsAt rest q, g.Kills (cellAt q)) ∧
      s'.score = s.score - 1 + 10 * ((s.foodLeft : ℤ) - s'.foodLeft) + 200 * ((s.ghostsAt rest q).countP fun g => g.Eaten (cellAt q)) +
        (if s'.win then 500 else (-500 : ℤ) * (((s.ghostsAt rest q).countP fun g => g.Kills (cellAt q) : ℕ) : ℤ)) := by
  obtain ⟨_, _, ⟨_, pac, rest, p, food', hp⟩ | ⟨h0, _⟩⟩ := step_cases h hs
  · refine ⟨pac, rest, nextCell p.1 p.2 a, hp.agents, ⟨_, _, by rw [hp.result]; rfl, rfl⟩, ?_, by rw [hp.result]; rfl, ?_, ?_, ?_⟩
    · intro x y
      rw [hp.result]
      exact foodAfter_at h.foodShaped hp.food x y
    · rw [hp.result]
      show decide _ = true ↔ _
      rw [decide_eq_true_eq]
      rfl
    · rw [hp.result]
      simp only [pacResult, Bool.and_eq_true, Bool.not_eq_true', decide_eq_false_iff_not, List.any_eq_true, decide_eq_true_eq]
    · have hc := foodAfter_count h.foodShaped hp.food
      rw [hp.result]
      simp only [pacResult, pacDelta, GState.foodLeft] at hc ⊢
      by_cases hf : s.FoodAt (nextCell p.1 p.2 a)
      · rw [if_pos hf] at hc
        by_cases hw : s.WonAt food' (nextCell p.1 p.2 a)
        · simp only [hf, hw, if_true, decide_true]
          have : ((s.food.count true : ℕ) : ℤ) = food'.count true + 1 := by rw [← hc]; push_cast; ring
          rw [this]; push_cast; ring
        · simp only [hf, hw, if_true, if_false, decide_false, Bool.false_eq_true]
          have : ((s.food.count true : ℕ) : ℤ) = food'.count true + 1 := by rw [← hc]; push_cast; ring
          rw [this]; push_cast; ring
      · rw [if_neg hf] at hc
        have hw : ¬ s.WonAt food' (nextCell p.1 p.2 a) := fun h => hf h.1
        simp only [hf, hw, if_false, decide_false, Bool.false_eq_true]
        have : ((s.food.count true : ℕ) : ℤ) = food'.count true := by rw [← hc]; push_cast; ring
        rw [this]; push_cast; ring
  · exact absurd rfl h0

/-- **C53** A move of a ghost leaves food and capsules alone; the score changes by +200 if the moving ghost is still scared and near Pacman
after the move, by −500 if it is near and not scared; in the second case, and only then, the game is lost; it is never won. -/
theorem C53_ghost_step {s s' : GState} (h : Placed s) {i : ℕ} (hi : i ≠ 0) {a : Dir} (hs : generateSuccessor s i a = .ok s') :
    ∃ pac rest g, s.agents = pac :: rest ∧ s.agents[i]? = some g ∧ s'.agents = s.agents.set i ((ghostMoved g a).meet pac.conf.pos) ∧
      s'.food = s.food ∧ s'.capsules = s.capsules ∧ s'.win = false ∧ (s'.lose = true ↔ (ghostMoved g a).Kills pac.conf.pos) ∧
      s'.score = s.score + (if (ghostMoved g a).Eaten pac.conf.pos then 200 else 0) - (if (ghostMoved g a).Kills pac.conf.pos then 500 else 0) := by
  obtain ⟨_, _, ⟨h0, _⟩ | ⟨_, pac, pre, post, g, pe, qe, e, l, hp⟩⟩ := step_cases h hs
  · exact absurd h0 hi
  · refine ⟨pac, pre ++ g :: post, g, by rw [hp.agents]; rfl, ?_, ?_, ?_, ?_, ?_, ?_, ?_⟩
    · rw [hp.agents, hp.index, List.getElem?_append_right (by simp)]; simp
    · rw [hp.result, hp.agents, hp.index]
      simp [ghostResult]
    · rw [hp.result]; rfl
    · rw [hp.result]; rfl
    · rw [hp.result]; rfl
    · rw [hp.result]; simp [ghostResult]
    · rw [hp.result]; simp only [ghostResult]; ring

/-! ### Whole games -/

theorem eaten_le_scared (p : Pos) (l : List Agent) : (l.countP fun g => decide (g.Eaten p)) ≤ l.countP fun g => decide (0 < g.scared) := by
  have := scared_meet_count p l; omega

theorem scared_le_length (l : List Agent) : (l.countP fun g => decide (0 < g.scared)) ≤ l.length := List.countP_le_length

theorem moved_scared (g : Agent) (a : Dir) : (ghostMoved g a).scared = g.scared - 1 := rfl

/-- The account of one step. -/
theorem step_account {s s' : GState} (h : Placed s) {i : ℕ} {a : Dir} (hs : generateSuccessor s i a = .ok s') :
    ∃ E K : ℕ, s'.score = s.score - (if i = 0 then 1 else 0) + 10 * ((s.foodLeft : ℤ) - s'.foodLeft) + 200 * E + (if s'.win then 500 else 0) - 500 * K ∧
      (0 < K ↔ s'.lose = true) ∧ K ≤ s.ghosts.length ∧ E + s'.prey ≤ s.prey ∧ s'.ghosts.length = s.ghosts.length ∧ s'.foodLeft ≤ s.foodLeft ∧
      (s'.win = true ↔ s'.foodLeft = 0 ∧ 0 < s.foodLeft) ∧ (s'.win = true → s'.lose = false) := by
  by_cases hi : i = 0
  · subst hi
    obtain ⟨_, _, ⟨_, pac, rest, p, food', hp⟩ | ⟨h0, _⟩⟩ := step_cases h hs
    swap
    · exact absurd rfl h0
    obtain ⟨pac', rest', q, hag, ⟨pac2, rest2, hag2, hpos2⟩, _, hcap, hwin, hlose, hscore⟩ := C53_pacman_step h hs
    have hq : q = nextCell p.1 p.2 a := by
      rw [hp.result] at hag2
      obtain ⟨h1, _⟩ := List.cons.inj hag2
      rw [← h1] at hpos2
      exact (cellAt_inj hpos2).symm
    have hpr : pac' = pac ∧ rest' = rest := by
      have := hag.symm.trans hp.agents
      exact ⟨(List.cons.inj this).1, (List.cons.inj this).2⟩
    obtain ⟨rfl, rfl⟩ := hpr
    have hgh : s.ghosts = rest' := by unfold GState.ghosts; rw [hag]; rfl
    have hgh' : s'.ghosts = (s.ghostsAt rest' q).map (Agent.meet (cellAt q)) := by
      rw [hp.result, hq]; rfl
    have hfc := foodAfter_count h.foodShaped hp.food
    rw [← hq] at hfc
    have hfl : s'.foodLeft = food'.count true := by rw [hp.result]; rfl
    have hwin' : s'.win = true ↔ s'.foodLeft = 0 ∧ 0 < s.foodLeft := by
      rw [hwin, hfl]
      constructor
      · rintro ⟨h1, h2⟩
        refine ⟨h2, ?_⟩
        rw [if_pos (show s.FoodAt q from h1)] at hfc
        omega
      · rintro ⟨h1, h2⟩
        refine ⟨?_, h1⟩
        by_contra hc
        rw [if_neg (show ¬ s.FoodAt q from hc)] at hfc
        omega
    have hprey : ((s.ghostsAt rest' q).countP fun g => decide (g.Eaten (cellAt q))) + s'.prey ≤ s.prey := by
      unfold GState.prey GState.scaredGhosts
      rw [hgh', hgh, List.length_map, ghostsAt_length, hcap]
      have h1 := scared_meet_count (cellAt q) (s.ghostsAt rest' q)
      by_cases hc : s.CapsuleAt q
      · have h2 : (s.ghostsAt rest' q).countP (fun g => decide (0 < g.scared)) ≤ rest'.length := by
          rw [← ghostsAt_length s rest' q]; exact List.countP_le_length
        have h3 : (s.capsules.erase ((q.1 : ℤ), (q.2 : ℤ))).length + 1 = s.capsules.length := by
          rw [List.length_erase_of_mem hc]
          have := List.length_pos_of_mem hc
          omega
        rw [← h3, Nat.mul_add, Nat.mul_one]
        omega
      · have h2 : s.ghostsAt rest' q = rest' := by unfold GState.ghostsAt; rw [if_neg hc]
        rw [List.erase_of_not_mem hc]
        rw [h2] at h1 ⊢
        omega
    refine ⟨(s.ghostsAt rest' q).countP fun g => decide (g.Eaten (cellAt q)),
      if s'.win then 0 else (s.ghostsAt rest' q).countP fun g => decide (g.Kills (cellAt q)), ?_, ?_, ?_, hprey, ?_, ?_, hwin', ?_⟩
    · rw [hscore]
      cases s'.win <;> simp <;> ring
    · rw [hlose]
      cases hw : s'.win
      · simp only [Bool.false_eq_true, if_false, true_and, List.countP_pos_iff, decide_eq_true_eq]
      · simp
    · split
      · omega
      · rw [hgh, ← ghostsAt_length s rest' q]; exact List.countP_le_length
    · rw [hgh', hgh, List.length_map, ghostsAt_length]
    · rw [hfl]; omega
    · intro hw
      cases hl : s'.lose
      · rfl
      · have := (hlose.1 hl).1
        rw [hw] at this; cases this
  · obtain ⟨pac, rest, g, hag, hget, hag', hfood, hcap, hwin, hlose, hscore⟩ := C53_ghost_step h hi hs
    have hfl : s'.foodLeft = s.foodLeft := by unfold GState.foodLeft; rw [hfood]
    obtain ⟨j, rfl⟩ := Nat.exists_eq_succ_of_ne_zero hi
    have hgh : s.ghosts = rest := by unfold GState.ghosts; rw [hag]; rfl
    have hgh' : s'.ghosts = rest.set j ((ghostMoved g a).meet pac.conf.pos) := by
      unfold GState.ghosts; rw [hag', hag]; rfl
    have hgj : rest[j]? = some g := by rw [hag] at hget; simpa using hget
    obtain ⟨pre, post, hsplit, hlen⟩ := split_at rest j g hgj
    have hset : s'.ghosts = pre ++ (ghostMoved g a).meet pac.conf.pos :: post := by
      rw [hgh', hsplit, ← hlen]; simp
    refine ⟨if (ghostMoved g a).Eaten pac.conf.pos then 1 else 0, if (ghostMoved g a).Kills pac.conf.pos then 1 else 0, ?_, ?_, ?_, ?_, ?_, ?_, ?_, ?_⟩
    · rw [hscore, hfl, hwin, if_neg hi]
      split <;> split <;> simp
    · rw [hlose]; split <;> simp [*]
    · rw [hgh, hsplit]; split <;> simp; omega
    · unfold GState.prey GState.scaredGhosts
      rw [hset, hgh, hsplit, hcap]
      simp only [List.countP_append, List.countP_cons, List.length_append, List.length_cons, meet_scared, moved_scared]
      have hle : (if (ghostMoved g a).Eaten pac.conf.pos then 1 else 0) +
          (if decide (0 < if (ghostMoved g a).Eaten pac.conf.pos then 0 else g.scared - 1) = true then 1 else 0) ≤
          (if decide (0 < g.scared) = true then 1 else 0) := by
        by_cases he : (ghostMoved g a).Eaten pac.conf.pos
        · have : 0 < g.scared - 1 := he.2
          have h2 : 0 < g.scared := by omega
          simp [he, h2]
        · simp only [he, if_false, decide_eq_true_eq]
          by_cases h2 : 0 < g.scared - 1
          · have h3 : 0 < g.scared := by omega
            simp [h2, h3]
          · simp [h2]
      omega
    · rw [hgh', hgh, List.length_set]
    · omega
    · rw [hwin, hfl]; constructor
      · intro hf; cases hf
      · rintro ⟨h1, h2⟩; omega
    · intro hw; rw [hwin] at hw; cases hw

theorem open_of_run {s s' : GState} (h : Placed s) {m : ℕ × Dir} {t : List (ℕ × Dir)} (hrun : playMoves s (m :: t) = .ok s') : s.Open := by
  unfold playMoves at hrun
  cases hst : generateSuccessor s m.1 m.2 with
  | error e => rw [hst] at hrun; cases hrun
  | ok s2 =>
    obtain ⟨a, b, _⟩ := step_cases h hst
    exact ⟨a, b⟩

/-- **C53** The account of a whole game. The score is −1 for every move of Pacman, +10 for every food eaten, +200 for every ghost eaten, +500
for winning and −500 for each killing ghost. Killing happens only at the end of a lost game, by at most all ghosts. Ghosts can be eaten at most
once per capsule and ghost, besides those scared at the start. Winning and losing exclude each other, and food never grows. -/
theorem C53_account {s s' : GState} (h : Placed s) (ho : s.Open) (ms : List (ℕ × Dir)) (hrun : playMoves s ms = .ok s') :
    ∃ E K : ℕ, s'.score = s.score - (ms.countP fun m => m.1 = 0) + 10 * ((s.foodLeft : ℤ) - s'.foodLeft) + 200 * E + (if s'.win then 500 else 0) - 500 * K ∧
      (0 < K ↔ s'.lose = true) ∧ K ≤ s.ghosts.length ∧ E + s'.prey ≤ s.prey ∧ s'.foodLeft ≤ s.foodLeft ∧
      (s'.win = true → s'.lose = false ∧ s'.foodLeft = 0 ∧ 0 < s.foodLeft) ∧ (0 < s.foodLeft → s'.foodLeft = 0 → s'.win = true) := by
  induction ms generalizing s with
  | nil =>
    cases hrun
    refine ⟨0, 0, ?_, ?_, Nat.zero_le _, by omega, le_refl _, ?_, ?_⟩
    · rw [ho.1]; simp
    · rw [ho.2]; simp
    · intro hw; rw [ho.1] at hw; cases hw
    · intro h1 h2; omega
  | cons m t ih =>
    unfold playMoves at hrun
    cases hst : generateSuccessor s m.1 m.2 with
    | error e => rw [hst] at hrun; cases hrun
    | ok s1 =>
      rw [hst] at hrun
      obtain ⟨h1, _, _⟩ := C52_placed h [m] (s' := s1) (by unfold playMoves; rw [hst]; rfl)
      obtain ⟨E1, K1, hsc1, hK1, hKb1, hE1, hgl1, hf1, hw1, hwl1⟩ := step_account h hst
      cases t with
      | nil =>
        cases hrun
        refine ⟨E1, K1, ?_, hK1, hKb1, hE1, hf1, ?_, ?_⟩
        · rw [hsc1]
          by_cases h0 : m.1 = 0 <;> simp [h0]
        · intro hw; exact ⟨hwl1 hw, hw1.1 hw⟩
        · intro a b; exact hw1.2 ⟨b, a⟩
      | cons m2 t2 =>
        -- a further move was made, so the state in between is open
        have ho1 : s1.Open := open_of_run h1 hrun
        obtain ⟨E2, K2, hsc2, hK2, hKb2, hE2, hf2, hw2, hw2'⟩ := ih h1 ho1 hrun
        have hK10 : K1 = 0 := by
          rcases Nat.eq_zero_or_pos K1 with h0 | h0
          · exact h0
          · have := hK1.1 h0; rw [ho1.2] at this; cases this
        refine ⟨E1 + E2, K2, ?_, hK2, by omega, by omega, by omega, ?_, ?_⟩
        · rw [hsc2, hsc1, hK10, ho1.1]
          rw [List.countP_cons (a := m)]
          generalize List.countP _ (m2 :: t2) = c
          by_cases h0 : m.1 = 0
          · simp only [h0, if_true, decide_true, Bool.false_eq_true, if_false]; push_cast; ring
          · simp only [h0, if_false, decide_false, Bool.false_eq_true]; push_cast; ring
        · intro hw
          obtain ⟨a, b, c⟩ := hw2 hw
          exact ⟨a, b, by omega⟩
        · intro a b
          refine hw2' ?_ b
          rcases Nat.eq_zero_or_pos s1.foodLeft with h0 | h0
          · have := hw1.2 ⟨h0, a⟩; rw [ho1.1] at this; cases this
          · exact h0

/-- **C53** A finished state has no legal actions and no successors, so that no game goes on after it. -/
theorem C53_terminal {s : GState} (h : s.win = true ∨ s.lose = true) (i : ℕ) (a : Dir) :
    legalActions s i = .ok [] ∧ generateSuccessor s i a = .error .finished ∧ ∀ ms, playMoves s ((i, a) :: ms) = .error .finished := by
  have ht : (s.win || s.lose) = true := by simpa using h
  have hg : generateSuccessor s i a = .error .finished := by unfold generateSuccessor; rw [if_pos ht]
  refine ⟨by unfold legalActions; rw [if_pos ht], hg, fun ms => ?_⟩
  unfold playMoves
  simp only [hg]

/-- **C53** A layout without food cannot be won. -/
theorem C53_no_food {s s' : GState} (h : Placed s) (ho : s.Open) (h0 : s.foodLeft = 0) (ms : List (ℕ × Dir)) (hrun : playMoves s ms = .ok s') :
    s'.win = false := by
  obtain ⟨_, _, _, _, _, _, _, hw, _⟩ := C53_account h ho ms hrun
  cases hc : s'.win
  · rfl
  · have := (hw hc).2.2; omega

/-- **C53** A bound for the score of every game from the start: ten for each food, two hundred for each ghost and capsule, five hundred for
winning, and minus one for each move of Pacman. -/
theorem C53_bound {text : List (List Char)} {w : ℕ} (hb : TextBordered text w)
    (hP : ∃ x y, x < w ∧ y < text.length ∧ charAt text (x, y) = some 'P') (n : ℕ) {l : Layout} (hl : Layout.ofText text = .ok l)
    (ms : List (ℕ × Dir)) {s' : GState} (hrun : playMoves (GState.init l n) ms = .ok s') :
    s'.score ≤ 10 * l.food.count true + 200 * ((GState.init l n).ghosts.length * l.capsules.length) + 500 - ms.countP (fun m => m.1 = 0) := by
  obtain ⟨l', h1, hpl, _, hrest, _⟩ := C58_initial hb hP n
  rw [hl] at h1
  cases h1
  obtain ⟨E, K, hsc, _, _, hE, _, _, _⟩ := C53_account hpl ⟨rfl, rfl⟩ ms hrun
  have hs0 : (GState.init l n).scaredGhosts = 0 := by
    unfold GState.scaredGhosts
    rw [List.countP_eq_zero]
    intro g hg
    have := (hrest g (List.mem_of_mem_tail hg)).2
    simp [this]
  have hE' : E ≤ (GState.init l n).ghosts.length * l.capsules.length := by
    unfold GState.prey at hE
    rw [hs0] at hE
    have : (GState.init l n).capsules = l.capsules := rfl
    rw [this] at hE
    omega
  have h3 : (GState.init l n).score = 0 := rfl
  have h4 : (GState.init l n).foodLeft = l.food.count true := rfl
  rw [hsc, h3, h4]
  have hE2 : (E : ℤ) ≤ ((GState.init l n).ghosts.length * l.capsules.length : ℤ) := by exact_mod_cast hE'
  split <;> omega

/-! ### C54: collisions -/

/-- Every ghost near Pacman stands, not scared, at its own start. -/
def Clear (s : GState) : Prop := ∀ pac rest, s.agents = pac :: rest → ∀ g ∈ rest, Near pac.conf.pos g → g.conf = g.start ∧ g.scared = 0

theorem meet_clear {p : Pos} {g : Agent} (hk : ¬ g.Kills p) (hn : Near p (g.meet p)) : (g.meet p).conf = (g.meet p).start ∧ (g.meet p).scared = 0 := by
  unfold Agent.meet at hn ⊢
  by_cases h : Near p g ∧ 0 < g.scared
  · rw [if_pos h]; exact ⟨rfl, rfl⟩
  · rw [if_neg h] at hn
    exact absurd ⟨hn, by by_contra hc; exact h ⟨hn, Nat.pos_of_ne_zero hc⟩⟩ hk

theorem step_clear {s s' : GState} (h : Placed s) {i : ℕ} {a : Dir} (hs : generateSuccessor s i a = .ok s') (hc : Clear s) (ho : s'.Open) : Clear s' := by
  obtain ⟨_, _, ⟨_, pac, rest, p, food', hp⟩ | ⟨_, pac, pre, post, g0, pe, qe, e, l, hp⟩⟩ := step_cases h hs
  · intro pac1 rest1 hag g hg hn
    obtain ⟨h1, h2⟩ := ho
    rw [hp.result] at hag h1 h2
    obtain ⟨rfl, rfl⟩ := List.cons.inj hag
    obtain ⟨g1, hg1, rfl⟩ := List.mem_map.1 hg
    refine meet_clear ?_ hn
    intro hk
    simp only [pacResult] at h1 h2
    rw [h1] at h2
    simp only [Bool.not_false, Bool.true_and, List.any_eq_false, decide_eq_true_eq] at h2
    exact h2 g1 hg1 hk
  · intro pac1 rest1 hag g hg hn
    obtain ⟨h1, h2⟩ := ho
    rw [hp.result] at hag h2
    obtain ⟨rfl, rfl⟩ := List.cons.inj hag
    simp only [ghostResult, decide_eq_false_iff_not] at h2
    replace hg : g ∈ pre ++ (ghostMoved g0 a).meet pac.conf.pos :: post := hg
    rw [List.mem_append, List.mem_cons] at hg
    rcases hg with hg | rfl | hg
    · exact hc pac (pre ++ g0 :: post) (by rw [hp.agents]; rfl) g (by simp [hg]) hn
    · exact meet_clear h2 hn
    · exact hc pac (pre ++ g0 :: post) (by rw [hp.agents]; rfl) g (by simp [hg]) hn

/-- **C54** No collision is missed: in every open state of a game, a ghost within 0.7 of Pacman stands at its start and is not scared. It was
sent there while Pacman was near, and meets are not examined again until one of the two moves. -/
theorem C54_no_missed {s s' : GState} (h : Placed s) (hc : Clear s) (ms : List (ℕ × Dir)) (hrun : playMoves s ms = .ok s') (ho : s'.Open) : Clear s' := by
  induction ms generalizing s with
  | nil => cases hrun; exact hc
  | cons m t ih =>
    unfold playMoves at hrun
    cases hst : generateSuccessor s m.1 m.2 with
    | error e => rw [hst] at hrun; cases hrun
    | ok s1 =>
      rw [hst] at hrun
      obtain ⟨h1, _, _⟩ := C52_placed h [m] (s' := s1) (by unfold playMoves; rw [hst]; rfl)
      cases t with
      | nil => cases hrun; exact step_clear h hst hc ho
      | cons m2 t2 =>
        have ho1 : s1.Open := open_of_run h1 hrun
        exact ih h1 (step_clear h hst hc ho1) hrun

/-- **C54** No false death: when a step loses the game, a ghost that is not scared is within 0.7 of Pacman. -/
theorem C54_lose_sound {s s' : GState} (h : Placed s) {i : ℕ} {a : Dir} (hs : generateSuccessor s i a = .ok s') (hl : s'.lose = true) :
    ∃ pac rest, s'.agents = pac :: rest ∧ ∃ g ∈ rest, Near pac.conf.pos g ∧ g.scared = 0 := by
  have hmeet : ∀ (p : Pos) (g : Agent), g.Kills p → g.meet p = g := by
    intro p g hk
    unfold Agent.meet
    rw [if_neg]
    rintro ⟨_, h2⟩
    have := hk.2
    omega
  obtain ⟨_, _, ⟨_, pac, rest, p, food', hp⟩ | ⟨_, pac, pre, post, g0, pe, qe, e, l, hp⟩⟩ := step_cases h hs
  · rw [hp.result] at hl ⊢
    simp only [pacResult, Bool.and_eq_true, List.any_eq_true, decide_eq_true_eq] at hl
    obtain ⟨_, g, hg, hk⟩ := hl
    exact ⟨_, _, rfl, g, List.mem_map.2 ⟨g, hg, hmeet _ _ hk⟩, hk.1, hk.2⟩
  · rw [hp.result] at hl ⊢
    simp only [ghostResult, decide_eq_true_eq] at hl
    refine ⟨pac, pre ++ (ghostMoved g0 a).meet pac.conf.pos :: post, rfl, (ghostMoved g0 a).meet pac.conf.pos, by simp, ?_⟩
    rw [hmeet _ _ hl]
    exact ⟨hl.1, hl.2⟩

/-- **C54** The initial states of parsed layouts are clear, so that the above holds for all games from the start. -/
theorem C54_initial {text : List (List Char)} {w : ℕ} (hb : TextBordered text w)
    (hP : ∃ x y, x < w ∧ y < text.length ∧ charAt text (x, y) = some 'P') (n : ℕ) {l : Layout} (hl : Layout.ofText text = .ok l)
    (ms : List (ℕ × Dir)) {s' : GState} (hrun : playMoves (GState.init l n) ms = .ok s') (ho : s'.Open) : Clear s' := by
  obtain ⟨l', h1, hpl, _, hrest, _⟩ := C58_initial hb hP n
  rw [hl] at h1
  cases h1
  refine C54_no_missed hpl ?_ ms hrun ho
  intro pac rest hag g hg _
  exact hrest g (by rw [hag]; exact List.mem_cons_of_mem _ hg)

/-! ### Witnesses -/

/-- A corridor of three cells: `%%%%%`, `%   %`, `%%%%%`. -/
def corridor : Grid := ⟨5, 3, [[true, true, true], [true, false, true], [true, false, true], [true, false, true], [true, true, true]]⟩

def corridorLayout : Layout := ⟨5, 3, corridor, Grid.new 5 3 false, [], [], 0, [], 0⟩

/-- Pacman at the left end and a ghost at the right end; the start of the ghost is `start`, its timer `t`; food in the middle. -/
def corridorState (start : ℕ × ℕ) (t : ℕ) : GState :=
  ⟨⟨5, 3, [[false, false, false], [false, false, false], [false, true, false], [false, true, false], [false, false, false]]⟩, [],
   [⟨⟨cellAt (1, 1), .stop⟩, ⟨cellAt (1, 1), .stop⟩, true, 0⟩, ⟨⟨cellAt start, .stop⟩, ⟨cellAt (3, 1), .stop⟩, false, t⟩],
   corridorLayout, [false, false], 0, none, none, none, false, false, 0⟩

theorem corridor_bordered : corridor.Bordered := by
  refine ⟨⟨by decide, by decide⟩, ?_⟩
  intro x y h
  obtain ⟨col, h1, h2⟩ := h
  match x, y with
  | 1, 1 => decide
  | 2, 1 => decide
  | 3, 1 => decide
  | 0, y => cases h1; rcases y with _ | _ | _ | y <;> simp at h2
  | 4, y => cases h1; rcases y with _ | _ | _ | y <;> simp at h2
  | x + 5, y => simp [corridor] at h1
  | 1, 0 => cases h1; cases h2
  | 2, 0 => cases h1; cases h2
  | 3, 0 => cases h1; cases h2
  | 1, y + 2 => cases h1; rcases y with _ | y <;> simp at h2
  | 2, y + 2 => cases h1; rcases y with _ | y <;> simp at h2
  | 3, y + 2 => cases h1; rcases y with _ | y <;> simp at h2

theorem corridor_placed (x t : ℕ) (hx : x = 1 ∨ x = 2 ∨ x = 3) (ht : t ≤ 40) : Placed (corridorState (x, 1) t) := by
  refine ⟨corridor_bordered, ⟨by show _ = 5; rfl, by show ∀ c ∈ (corridorState (1, 1) 0).food.data, c.length = 3; decide⟩, rfl, rfl, ⟨_, _, rfl, ⟨(1, 1), by show corridor.Free _; decide, rfl⟩, ?_⟩, rfl⟩
  intro g hg
  rw [List.mem_singleton] at hg
  subst hg
  refine ⟨⟨(x, 1), ?_, rfl⟩, Or.inl ⟨(3, 1), by show corridor.Free _; decide, rfl⟩, ht⟩
  show corridor.Free _
  rcases hx with rfl | rfl | rfl <;> decide

/-- Is the outcome of a run a state with the property? -/
def okAnd (r : Except PErr GState) (p : GState → Bool) : Bool := match r with
  | .ok s => p s
  | .error _ => false

/-- Pacman eats and is then killed: `-1 + 10 - 500`. -/
example : okAnd (playMoves (corridorState (3, 1) 0) [(0, .east), (1, .west)]) fun s => s.lose && !s.win && s.score == -491 && s.foodLeft == 1 := by
  decide +kernel

/-- Pacman eats a scared ghost, then the last food, and wins: `2 * (-1 + 10) + 200 + 500`. -/
example : okAnd (playMoves (corridorState (1, 1) 5) [(0, .east), (1, .west), (0, .east)]) fun s => s.win && !s.lose && s.score == 718 && s.prey == 0 := by
  decide +kernel

/-- **C54** A ghost that is sent to its start while Pacman stands there stays beside Pacman: the game goes on with both on the same cell. -/
theorem C54_respawn_overlap : okAnd (playMoves (corridorState (2, 1) 5) [(0, .east), (1, .west)]) (fun s => !s.win && !s.lose &&
    decide (s.agents.map (fun g => (g.conf.pos, g.scared)) = [(cellAt (2, 1), 0), (cellAt (2, 1), 0)])) = true := by
  decide +kernel

/-- **C52** The last scared move: when the timer is one, a ghost on a cell that moves west or south does not move at all, one that moves east or north moves
a whole cell. -/
theorem C52_last_scared_move {g : Agent} {x y : ℕ} (hx : 0 < x) (hy : 0 < y) (hc : g.conf.pos = cellAt (x, y)) (ht : g.scared = 1) :
    (ghostMoved g .west).conf.pos = cellAt (x, y) ∧ (ghostMoved g .south).conf.pos = cellAt (x, y) ∧
      (ghostMoved g .east).conf.pos = cellAt (x + 1, y) ∧ (ghostMoved g .north).conf.pos = cellAt (x, y + 1) := by
  obtain ⟨x, rfl⟩ := Nat.exists_eq_succ_of_ne_zero hx.ne'
  obtain ⟨y, rfl⟩ := Nat.exists_eq_succ_of_ne_zero hy.ne'
  have key : ∀ a, (ghostMoved g a).conf.pos = toPos (nearestPoint (g.conf.succ (directionToVector a (1 / 2))).pos) := by
    intro a; unfold ghostMoved decrement; simp [ht]
  have n1 : ∀ k : ℕ, pyInt ((k : ℚ) + 1 / 2 + 1 / 2) = k + 1 := fun k => by
    have := pyInt_half_half k; simpa using this
  have n2 : ∀ k : ℕ, pyInt ((k : ℚ) + 1 / 2) = k := fun k => by
    have := pyInt_half k; simpa using this
  refine ⟨?_, ?_, ?_, ?_⟩ <;> rw [key, succ_pos, hc] <;> unfold nearestPoint toPos cellAt <;> simp only [directionToVector, Dir.vec, Int.cast_neg, Int.cast_one, Int.cast_zero]
  · rw [show ((x.succ : ℕ) : ℚ) + -1 * (1 / 2) + 1 / 2 = ((x : ℕ) : ℚ) + 1 / 2 + 1 / 2 by push_cast; ring, n1,
      show ((y.succ : ℕ) : ℚ) + 0 * (1 / 2) + 1 / 2 = ((y.succ : ℕ) : ℚ) + 1 / 2 by ring, n2]; push_cast; rfl
  · rw [show ((y.succ : ℕ) : ℚ) + -1 * (1 / 2) + 1 / 2 = ((y : ℕ) : ℚ) + 1 / 2 + 1 / 2 by push_cast; ring, n1,
      show ((x.succ : ℕ) : ℚ) + 0 * (1 / 2) + 1 / 2 = ((x.succ : ℕ) : ℚ) + 1 / 2 by ring, n2]; push_cast; rfl
  · rw [show ((x.succ : ℕ) : ℚ) + 1 * (1 / 2) + 1 / 2 = ((x.succ : ℕ) : ℚ) + 1 / 2 + 1 / 2 by ring, n1,
      show ((y.succ : ℕ) : ℚ) + 0 * (1 / 2) + 1 / 2 = ((y.succ : ℕ) : ℚ) + 1 / 2 by ring, n2]; push_cast; rfl
  · rw [show ((y.succ : ℕ) : ℚ) + 1 * (1 / 2) + 1 / 2 = ((y.succ : ℕ) : ℚ) + 1 / 2 + 1 / 2 by ring, n1,
      show ((x.succ : ℕ) : ℚ) + 0 * (1 / 2) + 1 / 2 = ((x.succ : ℕ) : ℚ) + 1 / 2 by ring, n2]; push_cast; rfl

/-- **C52** The border is needed: in an open grid of two by two cells an agent at the lower left may leave to the west (index −1 wraps around), and at
the upper right asking for the possible actions raises `IndexError`. -/
theorem C52_border_needed : (∃ l, possibleActions ⟨cellAt (0, 0), .stop⟩ (Grid.new 2 2 false) = .ok l ∧ Dir.west ∈ l) ∧
    possibleActions ⟨cellAt (1, 1), .stop⟩ (Grid.new 2 2 false) = .error .index := by
  have h1 : possibleActions ⟨cellAt (0, 0), .stop⟩ (Grid.new 2 2 false) = .ok [.north, .south, .east, .west, .stop] := by decide +kernel
  exact ⟨⟨_, h1, by decide⟩, by decide +kernel⟩

end Verif.Pac
