import Verif.Lemmas.PacGame
import Verif.Props.PacGrid

set_option linter.unusedSectionVars false

/-!
# Closed forms of the two kinds of step
-/

namespace Verif.Pac

theorem map_copy (l : List Agent) : l.map Agent.copy = l := by
  induction l with
  | nil => rfl
  | cons a t ih => rw [List.map_cons, ih]; rfl

theorem manhattan_self (p : Pos) : manhattan p p = 0 := by simp [manhattan]

/-- Is there food on the cell? -/
def GState.FoodAt (s : GState) (q : ℕ × ℕ) : Prop := s.food.At q.1 q.2 true

/-- Is there a capsule on the cell? -/
def GState.CapsuleAt (s : GState) (q : ℕ × ℕ) : Prop := ((q.1 : ℤ), (q.2 : ℤ)) ∈ s.capsules

instance (s : GState) (q : ℕ × ℕ) : Decidable (s.FoodAt q) := by unfold GState.FoodAt; infer_instance
instance (s : GState) (q : ℕ × ℕ) : Decidable (s.CapsuleAt q) := by unfold GState.CapsuleAt; infer_instance

/-- The ghosts after Pacman came to the cell, before meetings. -/
def GState.ghostsAt (s : GState) (rest : List Agent) (q : ℕ × ℕ) : List Agent :=
  if s.CapsuleAt q then rest.map fun g => { g with scared := scaredTime } else rest

/-- Has Pacman won by coming to the cell with the given remaining food? -/
def GState.WonAt (s : GState) (food' : Grid) (q : ℕ × ℕ) : Prop := s.FoodAt q ∧ food'.count true = 0

instance (s : GState) (food' : Grid) (q : ℕ × ℕ) : Decidable (s.WonAt food' q) := by unfold GState.WonAt; infer_instance

/-- The change of the score by a move of Pacman. -/
def pacDelta (s : GState) (food' : Grid) (rest : List Agent) (q : ℕ × ℕ) : ℤ :=
  (if s.FoodAt q then 10 else 0) + (if s.WonAt food' q then 500 else 0) - 1 +
    200 * ((s.ghostsAt rest q).countP fun g => g.Eaten (cellAt q)) -
    (if s.WonAt food' q then 0 else 500 * ((s.ghostsAt rest q).countP fun g => g.Kills (cellAt q)))

/-- The state after a move of Pacman. -/
def pacResult (s : GState) (food' : Grid) (pac : Agent) (rest : List Agent) (q : ℕ × ℕ) (a : Dir) : GState :=
  { food := food'
    capsules := s.capsules.erase ((q.1 : ℤ), (q.2 : ℤ))
    agents := { pac with conf := ⟨cellAt q, if a = .stop then pac.conf.dir else a⟩ } :: (s.ghostsAt rest q).map (Agent.meet (cellAt q))
    layout := s.layout
    eaten := false :: (s.ghostsAt rest q).map fun g => decide (g.Eaten (cellAt q))
    score := s.score + pacDelta s food' rest q
    foodEaten := if s.FoodAt q then some ((q.1 : ℤ), (q.2 : ℤ)) else none
    capsuleEaten := if s.CapsuleAt q then some ((q.1 : ℤ), (q.2 : ℤ)) else none
    agentMoved := some 0
    lose := !decide (s.WonAt food' q) && (s.ghostsAt rest q).any fun g => decide (g.Kills (cellAt q))
    win := decide (s.WonAt food' q)
    scoreChange := pacDelta s food' rest q }

/-- The food after Pacman came to the cell. -/
def FoodAfter (s : GState) (q : ℕ × ℕ) (food' : Grid) : Prop :=
  (s.FoodAt q → s.food.put q.1 q.2 false = .ok food') ∧ (¬ s.FoodAt q → food' = s.food)

theorem zipWith_replicate_or (l : List Agent) (f : Agent → Bool) :
    List.zipWith (fun e g => e || f g) (List.replicate l.length false) l = l.map f := by
  induction l with
  | nil => rfl
  | cons a t ih => rw [List.length_cons, List.replicate_succ, List.zipWith_cons_cons, ih]; simp

theorem consumeFood_eq {s : GState} (hs : s.food.Shaped) {q : ℕ × ℕ} (hx : q.1 < s.food.width) (hy : q.2 < s.food.height)
    (hlose : s.lose = false) (hfe : s.foodEaten = none) (hwin : s.win = false) :
    ∃ food', FoodAfter s q food' ∧ consumeFood s ((q.1 : ℤ), (q.2 : ℤ)) = .ok { s with
      food := food', foodEaten := if s.FoodAt q then some ((q.1 : ℤ), (q.2 : ℤ)) else none
      scoreChange := s.scoreChange + (if s.FoodAt q then 10 else 0) + (if s.WonAt food' q then 500 else 0)
      win := decide (s.WonAt food' q) } := by
  obtain ⟨b, hb⟩ := hs.at_of_lt hx hy
  have hget := (s.food.get_nat q.1 q.2 b).2 hb
  cases b with
  | false =>
    have hnf : ¬ s.FoodAt q := fun h => by cases hb.unique h
    refine ⟨s.food, ⟨fun h => absurd h hnf, fun _ => rfl⟩, ?_⟩
    have hnw : ¬ s.WonAt s.food q := fun h => hnf h.1
    unfold consumeFood
    simp only [hget, if_neg hnf, if_neg hnw, decide_eq_false hnw, add_zero]
    rw [← hfe, ← hwin]
  | true =>
    have hf : s.FoodAt q := hb
    obtain ⟨g', e, _⟩ := C51_put hs hx hy false
    refine ⟨g', ⟨fun _ => e, fun h => absurd hf h⟩, ?_⟩
    unfold consumeFood
    simp only [hget, e, if_pos hf]
    by_cases hw : g'.count true = 0
    · have hwon : s.WonAt g' q := ⟨hf, hw⟩
      rw [if_pos ⟨hw, hlose⟩, if_pos hwon, decide_eq_true hwon]
    · have hnw : ¬ s.WonAt g' q := fun h => hw h.2
      rw [if_neg fun h => hw h.1, if_neg hnw, decide_eq_false hnw, add_zero]
      rw [← hwin]

theorem consumeCapsule_eq {s : GState} (pac : Agent) (rest : List Agent) (ha : s.agents = pac :: rest) (q : ℕ × ℕ) (hc : s.capsuleEaten = none) :
    consumeCapsule s ((q.1 : ℤ), (q.2 : ℤ)) = { s with
      capsules := s.capsules.erase ((q.1 : ℤ), (q.2 : ℤ)), capsuleEaten := if s.CapsuleAt q then some ((q.1 : ℤ), (q.2 : ℤ)) else none
      agents := pac :: s.ghostsAt rest q } := by
  unfold consumeCapsule GState.ghostsAt
  by_cases h : s.CapsuleAt q
  · rw [if_pos (show _ ∈ _ from h), if_pos h, if_pos h, ha]; rfl
  · rw [if_neg (show ¬ _ ∈ _ from h), if_neg h, if_neg h, List.erase_of_not_mem h, ← hc, ← ha]

/-- **Pacman's step.** From a free cell of a bordered maze the move succeeds exactly when the next cell is free. -/
theorem pacStep_eq {s : GState} (hb : s.layout.walls.Bordered) (hfs : s.food.Shaped) (hfw : s.food.width = s.layout.walls.width)
    (hfh : s.food.height = s.layout.walls.height) {pac : Agent} {rest : List Agent} (ha : s.agents = pac :: rest) {x y : ℕ}
    (hfree : s.layout.walls.Free (x, y)) (hpos : pac.conf.pos = cellAt (x, y)) (hwin : s.win = false) (hlose : s.lose = false) (a : Dir) :
    (s.layout.walls.Free (nextCell x y a) → ∃ food', FoodAfter s (nextCell x y a) food' ∧
      generateSuccessor s 0 a = .ok (pacResult s food' pac rest (nextCell x y a) a)) ∧
    (¬ s.layout.walls.Free (nextCell x y a) → generateSuccessor s 0 a = .error .illegal) := by
  obtain ⟨h1, h2, h3, h4⟩ := hb.inner x y hfree
  have hlegal : ∀ e : List Bool, pacLegal { s.next with eaten := e } =
      .ok (dirList.filter fun d => s.layout.walls.Free (nextCell x y d)) := by
    intro e
    unfold pacLegal GState.next
    simp only [map_copy, ha, List.getElem?_cons_zero]
    exact possible_cell hb hfree hpos
  have hmem : (a ∈ dirList.filter fun d => s.layout.walls.Free (nextCell x y d)) ↔ s.layout.walls.Free (nextCell x y a) := by
    rw [List.mem_filter, decide_eq_true_eq]
    exact ⟨fun h => h.2, fun h => ⟨mem_dirList a, h⟩⟩
  constructor
  · intro hq
    generalize hqd : nextCell x y a = q at hq
    obtain ⟨h5, h6, h7, h8⟩ := hb.inner q.1 q.2 hq
    have hconf : pac.conf.succ (directionToVector a 1) = ⟨cellAt q, if a = .stop then pac.conf.dir else a⟩ := by
      have hd := succ_dir pac.conf a (v := 1) one_pos
      have hp : (pac.conf.succ (directionToVector a 1)).pos = cellAt q := by
        unfold Config.succ
        simp only
        rw [hpos, ← hqd, ← nextCell_pos h1 h3 a]
        rfl
      rw [← hd, ← hp]
    let s1 : GState := { s.next with
      eaten := List.replicate s.next.agents.length false
      agents := { pac with conf := ⟨cellAt q, if a = .stop then pac.conf.dir else a⟩ } :: rest }
    obtain ⟨food', hfa, hcf⟩ := consumeFood_eq (s := s1) (q := q) hfs (by show q.1 < s.food.width; omega)
      (by show q.2 < s.food.height; omega) rfl rfl rfl
    refine ⟨food', hfa, ?_⟩
    have hlen : s.next.agents.length = rest.length + 1 := by
      show (s.agents.map Agent.copy).length = _
      rw [List.length_map, ha, List.length_cons]
    have happly : pacApply { s.next with eaten := List.replicate s.next.agents.length false } a = consume s1 ((q.1 : ℤ), (q.2 : ℤ)) := by
      unfold pacApply
      rw [hlegal]
      simp only
      rw [if_neg (by rw [hmem, hqd]; exact not_not.2 hq)]
      have hag : s.next.agents = pac :: rest := by
        show s.agents.map Agent.copy = _
        rw [map_copy, ha]
      simp only [hag, hconf, nearestPoint_cell, toPos_cell, manhattan_self]
      rw [if_pos (by norm_num)]
      show consume _ _ = consume _ _
      rw [← hag]
    have hcons : consume s1 ((q.1 : ℤ), (q.2 : ℤ)) = .ok (consumeCapsule { s1 with
      food := food', foodEaten := if s.FoodAt q then some ((q.1 : ℤ), (q.2 : ℤ)) else none
      scoreChange := 0 + (if s.FoodAt q then 10 else 0) + (if s.WonAt food' q then 500 else 0)
      win := decide (s.WonAt food' q) } ((q.1 : ℤ), (q.2 : ℤ))) := by
      unfold consume
      rw [hcf]
      rfl
    rw [consumeCapsule_eq { pac with conf := ⟨cellAt q, if a = .stop then pac.conf.dir else a⟩ } rest rfl q rfl] at hcons
    unfold generateSuccessor
    rw [hwin, hlose]
    simp only [Bool.or_self, Bool.false_eq_true, if_false, if_true]
    rw [happly, hcons]
    simp only
    have hgl : (s.ghostsAt rest q).length = rest.length := by
      unfold GState.ghostsAt
      split
      · rw [List.length_map]
      · rfl
    unfold checkDeath
    simp only [List.getElem?_cons_zero, if_true, List.length_cons, Nat.add_sub_cancel]
    have hgeq : ∀ (f : Grid) (fe : Option (ℤ × ℤ)) (sc : ℤ) (w : Bool), ({ s1 with food := f, foodEaten := fe, scoreChange := sc, win := w } : GState).ghostsAt rest q
        = s.ghostsAt rest q := fun _ _ _ _ => rfl
    rw [hgeq]
    have hD := deaths_eq (cellAt q) (s.ghostsAt rest q) { s1 with
        food := food', foodEaten := if s.FoodAt q then some ((q.1 : ℤ), (q.2 : ℤ)) else none
        capsules := s.capsules.erase ((q.1 : ℤ), (q.2 : ℤ)), capsuleEaten := if s.CapsuleAt q then some ((q.1 : ℤ), (q.2 : ℤ)) else none
        agents := { pac with conf := ⟨cellAt q, if a = .stop then pac.conf.dir else a⟩ } :: s.ghostsAt rest q
        scoreChange := 0 + (if s.FoodAt q then 10 else 0) + (if s.WonAt food' q then 500 else 0) - 1
        win := decide (s.WonAt food' q) } [{ pac with conf := ⟨cellAt q, if a = .stop then pac.conf.dir else a⟩ }]
        [false] (List.replicate rest.length false) rfl
        (by show List.replicate s.next.agents.length false = _; rw [hlen, List.replicate_succ]; rfl) rfl (by rw [List.length_replicate, hgl])
    have hD' := congrArg (fun t => Except.ok (ε := PErr) (bookKeep t 0)) hD
    refine hD'.trans ?_
    rw [← hgl, zipWith_replicate_or]
    unfold bookKeep pacResult
    simp only [List.singleton_append]
    congr 1
    have hsc : (0 + (if s.FoodAt q then 10 else 0) + (if s.WonAt food' q then 500 else 0) - 1 +
        200 * ((s.ghostsAt rest q).countP fun g => g.Eaten (cellAt q)) -
        (if decide (s.WonAt food' q) = false then 500 * ((s.ghostsAt rest q).countP fun g => g.Kills (cellAt q)) else 0) : ℤ) =
        pacDelta s food' rest q := by
      unfold pacDelta
      by_cases hw : s.WonAt food' q <;> simp [hw]
    rw [hsc]
    rfl
  · intro hq
    unfold generateSuccessor
    rw [hwin, hlose]
    simp only [Bool.or_self, Bool.false_eq_true, if_false, if_true]
    have : pacApply { s.next with eaten := List.replicate s.next.agents.length false } a = .error .illegal := by
      unfold pacApply
      rw [hlegal]
      simp only
      rw [if_pos (by rw [hmem]; exact hq)]
    rw [this]

/-! ### Ghosts -/

theorem modify_mid {A : Type} (f : A → A) (pre post : List A) (b : A) :
    (pre ++ b :: post).modify pre.length f = pre ++ f b :: post := by
  induction pre with
  | nil => simp [List.modify]
  | cons a t ih => simpa using ih

/-- The state after a move of a ghost. -/
def ghostResult (s : GState) (p : Pos) (pre post : List Agent) (g2 : Agent) (pe qe : List Bool) (e : Bool) : GState :=
  { s with
    agents := pre ++ g2.meet p :: post
    eaten := pe ++ (e || decide (g2.Eaten p)) :: qe
    score := s.score + ((if g2.Eaten p then 200 else 0) - (if g2.Kills p then 500 else 0))
    scoreChange := (if g2.Eaten p then 200 else 0) - (if g2.Kills p then 500 else 0)
    foodEaten := none, capsuleEaten := none, agentMoved := some pre.length
    lose := decide (g2.Kills p), win := false }

/-- The ghost after its move, before meetings. -/
def ghostMoved (g : Agent) (a : Dir) : Agent :=
  decrement { g with conf := g.conf.succ (directionToVector a (if g.scared > 0 then 1 / 2 else 1)) }

/-- **A ghost's step.** -/
theorem ghostStep_eq {s : GState} {pac : Agent} {pre post : List Agent} {g : Agent} {pe qe : List Bool} {e : Bool}
    (ha : s.agents = (pac :: pre) ++ g :: post) (he : s.eaten = pe ++ e :: qe) (hl : pe.length = pre.length + 1)
    {l : List Dir} (hp : possibleActions g.conf s.layout.walls = .ok l) (hwin : s.win = false) (hlose : s.lose = false) (a : Dir) :
    generateSuccessor s (pre.length + 1) a =
      if a ∈ ghostFilter g.conf.dir l then .ok (ghostResult s pac.conf.pos (pac :: pre) post (ghostMoved g a) pe qe e) else .error .illegal := by
  have hag : s.next.agents = (pac :: pre) ++ g :: post := by
    show s.agents.map Agent.copy = _
    rw [map_copy, ha]
  have hget : s.next.agents[pre.length + 1]? = some g := by
    rw [hag]
    rw [List.getElem?_append_right (by simp)]
    simp
  have hlegal : ghostLegal s.next (pre.length + 1) = .ok (ghostFilter g.conf.dir l) := by
    unfold ghostLegal ghostState
    simp only [hget, Nat.add_eq_zero_iff, one_ne_zero, and_false, if_false]
    have : possibleActions g.conf s.next.layout.walls = .ok l := hp
    rw [this]
  unfold generateSuccessor
  rw [hwin, hlose]
  simp only [Bool.or_self, Bool.false_eq_true, if_false, Nat.add_eq_zero_iff, one_ne_zero, and_false]
  unfold ghostApply
  rw [hlegal]
  simp only
  by_cases hm : a ∈ ghostFilter g.conf.dir l
  · rw [if_neg (not_not.2 hm), if_pos hm, hget]
    simp only
    have hset : ∀ b : Agent, s.next.agents.set (pre.length + 1) b = (pac :: pre) ++ b :: post := by
      intro b
      rw [hag]
      have : pre.length + 1 = (pac :: pre).length := by simp
      rw [this, List.set_append_right _ _ le_rfl]
      simp
    rw [hset]
    have hmod : ∀ b : Agent, ((pac :: pre) ++ b :: post).modify (pre.length + 1) decrement = (pac :: pre) ++ decrement b :: post := by
      intro b
      have : pre.length + 1 = (pac :: pre).length := by simp
      rw [this]
      exact modify_mid decrement (pac :: pre) post b
    simp only [hmod]
    unfold checkDeath
    have h0 : ∀ b : Agent, ((pac :: pre) ++ b :: post)[0]? = some pac := fun _ => rfl
    have h1 : ∀ b : Agent, ((pac :: pre) ++ b :: post)[pre.length + 1]? = some b := by
      intro b
      rw [List.getElem?_append_right (by simp)]
      simp
    simp only [h0, h1, Nat.add_eq_zero_iff, one_ne_zero, and_false, if_false]
    have hD := deathAt_eq pac.conf.pos { s.next with agents := (pac :: pre) ++ ghostMoved g a :: post } (pac :: pre) post (ghostMoved g a)
      pe qe e rfl he (by simpa using hl)
    have hD' := congrArg (fun t => Except.ok (ε := PErr) (bookKeep t (pre.length + 1))) hD
    refine Eq.trans ?_ (hD'.trans ?_)
    · rfl
    · unfold bookKeep ghostResult
      simp only [GState.next, true_and, zero_add, Bool.false_or, List.length_cons]
  · rw [if_pos hm, if_neg hm]

end Verif.Pac
