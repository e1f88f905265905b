import Verif.Model.PacQuery
import Verif.Props.PacAgents
import Verif.Props.PacEq
import Verif.Props.PacHeap

/-!
# C80: queries of a game state and the explored states
-/

namespace Verif.Pac

theorem pyIdx_neg {n k : ℕ} (hk : k < n) : pyIdx n ((k : ℤ) - n) = some k := by
  unfold pyIdx
  rw [if_neg (by omega), if_pos (by omega)]
  congr 1
  omega

theorem pyIdx_none {n : ℕ} {i : ℤ} (h : (n : ℤ) ≤ i ∨ i < -n) : pyIdx n i = none := by
  unfold pyIdx
  rcases h with h | h
  · rw [if_pos (by omega), if_neg (by omega)]
  · rw [if_neg (by omega), if_neg (by omega)]

theorem pyIdx_lt {n k : ℕ} {i : ℤ} (h : pyIdx n i = some k) : k < n ∧ i < n := by
  unfold pyIdx at h
  split at h
  · split at h
    · cases h; omega
    · cases h
  · split at h
    · cases h; omega
    · cases h

theorem pyGet_idx {A : Type} {l : List A} {i : ℤ} {k : ℕ} (h : pyIdx l.length i = some k) {a : A} (ha : l[k]? = some a) : pyGet l i = .ok a := by
  unfold pyGet
  rw [h]
  simp only [ha]

theorem pySet_idx {A : Type} {l : List A} {i : ℤ} {k : ℕ} (h : pyIdx l.length i = some k) (a : A) : pySet l i a = .ok (l.set k a) := by
  unfold pySet
  rw [h]

theorem pyGet_none {A : Type} {l : List A} {i : ℤ} (h : (l.length : ℤ) ≤ i ∨ i < -l.length) : pyGet l i = .error .index := by
  unfold pyGet
  rw [pyIdx_none h]

theorem ghostStateZ_idx {s : GState} {i : ℤ} {k : ℕ} (h : pyIdx s.agents.length i = some k) (hi : i ≠ 0) {g : Agent} (hg : s.agents[k]? = some g) :
    ghostStateZ s i = .ok g := by
  unfold ghostStateZ numAgents
  rw [if_neg (by have := (pyIdx_lt h).2; omega), pyGet_idx h hg]

theorem ghostLegalZ_idx {s : GState} {i : ℤ} {k : ℕ} (h : pyIdx s.agents.length i = some k) (hi : i ≠ 0) (hk : k ≠ 0) : ghostLegalZ s i = ghostLegal s k := by
  have hg := List.getElem?_eq_getElem (pyIdx_lt h).1
  unfold ghostLegalZ ghostLegal ghostState getWalls
  rw [ghostStateZ_idx h hi hg]
  simp only [hg, hk, if_false]
  rfl

theorem legalZ_idx {s : GState} {i : ℤ} {k : ℕ} (h : pyIdx s.agents.length i = some k) (hi : i ≠ 0) (hk : k ≠ 0) : legalActionsZ s i = legalActions s k := by
  unfold legalActionsZ legalActions isWin isLose
  rw [if_neg hi, if_neg hk, ghostLegalZ_idx h hi hk]

/-- The state of a result, without `_agentMoved`, and the index that is kept beside it. -/
def beside (i : ℤ) (t : GState) : GState × ℤ := ({ t with agentMoved := none }, i)

theorem modify_set {A : Type} (l : List A) (k : ℕ) (f : A → A) (a : A) (h : l[k]? = some a) : l.modify k f = l.set k (f a) := by
  apply List.ext_getElem?
  intro j
  rw [List.getElem?_modify, List.getElem?_set]
  by_cases hj : k = j
  · subst hj
    obtain ⟨h1, rfl⟩ := List.getElem?_eq_some_iff.1 h
    simp [h1]
  · simp [hj]

theorem succZ_idx {s : GState} {i : ℤ} {k : ℕ} (he : s.eaten.length = s.agents.length) (h : pyIdx s.agents.length i = some k) (hi : i ≠ 0) (hk : k ≠ 0)
    (a : Dir) : generateSuccessorZ s i a = (generateSuccessor s k a).map (beside i) := by
  unfold generateSuccessorZ generateSuccessor isWin isLose
  by_cases ht : (s.win || s.lose) = true
  · rw [if_pos ht, if_pos ht]; rfl
  rw [if_neg ht, if_neg ht, if_neg hi, if_neg hk]
  have hlen : s.next.agents.length = s.agents.length := by simp [GState.next]
  have h' : pyIdx s.next.agents.length i = some k := by rw [hlen]; exact h
  have hkl : k < s.next.agents.length := (pyIdx_lt h').1
  have hg := List.getElem?_eq_getElem hkl
  unfold ghostApplyZ ghostApply
  rw [ghostLegalZ_idx h' hi hk]
  cases hl : ghostLegal s.next k with
  | error e => rfl
  | ok legal =>
    dsimp only
    by_cases ha : a ∈ legal
    · rw [if_neg (not_not.2 ha), if_neg (not_not.2 ha)]
      simp only [pyGet_idx h' hg, pySet_idx h', hg]
      generalize hG : ({ s.next.agents[k] with
        conf := s.next.agents[k].conf.succ (directionToVector a (if s.next.agents[k].scared > 0 then 1 / 2 else 1)) } : Agent) = G
      have h2 : pyIdx (s.next.agents.set k G).length i = some k := by rw [List.length_set]; exact h'
      have hG2 : (s.next.agents.set k G)[k]? = some G := by simp [hkl]
      unfold decrementZ
      simp only [pyGet_idx h2 hG2, pySet_idx h2, modify_set _ _ _ _ hG2]
      have h3 : pyIdx ((s.next.agents.set k G).set k (decrement G)).length i = some k := by rw [List.length_set]; exact h2
      have hG3 : ((s.next.agents.set k G).set k (decrement G))[k]? = some (decrement G) := by simp [hkl]
      have h4 : pyIdx s.next.eaten.length i = some k := by
        show pyIdx s.eaten.length i = some k
        rw [he]; exact h
      have h0 : 0 < ((s.next.agents.set k G).set k (decrement G)).length := by rw [List.length_set, List.length_set]; omega
      have hp := List.getElem?_eq_getElem h0
      unfold checkDeathZ checkDeath pacmanPosition
      simp only [hk, if_false, pyGet_idx h3 hG3, hG3, hp]
      rw [pyGet_idx (k := 0) (by rw [show (0 : ℤ) = ((0 : ℕ) : ℤ) from rfl, pyIdx_nat, if_pos h0]) hp]
      simp only [Except.map]
      unfold deathAt
      simp only [hG3]
      by_cases hc : canKill ((s.next.agents.set k G).set k (decrement G))[0].conf.pos (decrement G).conf.pos = true
      · simp only [if_pos hc]
        unfold collideZ collide
        simp only [hG3, pySet_idx h3, pySet_idx h4]
        by_cases hs : (decrement G).scared > 0
        · simp only [if_pos hs]; rfl
        · simp only [if_neg hs, show s.next.win = false from rfl]
          rfl
      · simp only [if_neg hc]
        rfl
    · rw [if_pos ha, if_pos ha]; rfl

/-! ### Indices -/

/-- **C80** With a natural number as index, moves and legal actions are those of the rules; a number beyond the agents is refused. -/
theorem C80_natural {s : GState} (he : s.eaten.length = s.agents.length) (k : ℕ) (a : Dir) :
    legalActionsZ s k = legalActions s k ∧ generateSuccessorZ s k a = (generateSuccessor s k a).map (beside k) ∧
    (s.agents.length ≤ k → ghostStateZ s k = .error .ghostIndex ∧ (k ≠ 0 → ghostPositionZ s k = .error .index)) := by
  refine ⟨?_, ?_, ?_⟩
  · by_cases hk : k = 0
    · subst hk; rfl
    · by_cases hl : k < s.agents.length
      · exact legalZ_idx (by rw [pyIdx_nat, if_pos hl]) (by exact_mod_cast hk) hk
      · unfold legalActionsZ legalActions ghostLegalZ ghostLegal ghostStateZ ghostState numAgents isWin isLose
        rw [if_pos (show ((k : ℤ) = 0 ∨ (s.agents.length : ℤ) ≤ (k : ℤ)) from Or.inr (by omega)), List.getElem?_eq_none (by omega), if_neg hk,
          if_neg (show ¬ (k : ℤ) = 0 by exact_mod_cast hk)]
  · by_cases hk : k = 0
    · subst hk
      unfold generateSuccessorZ generateSuccessor isWin isLose numAgents
      by_cases ht : (s.win || s.lose) = true
      · rw [if_pos ht, if_pos ht]; rfl
      rw [if_neg ht, if_neg ht, if_pos rfl, if_pos (by rfl)]
      cases pacApply { s.next with eaten := List.replicate s.next.agents.length false } a with
      | error e => rfl
      | ok s1 =>
        dsimp only
        cases checkDeath { s1 with scoreChange := s1.scoreChange - 1 } 0 with
        | error e => rfl
        | ok s2 => rfl
    · by_cases hl : k < s.agents.length
      · exact succZ_idx he (by rw [pyIdx_nat, if_pos hl]) (by exact_mod_cast hk) hk a
      · have hz : ¬ (k : ℤ) = 0 := by exact_mod_cast hk
        have hn : s.next.agents.length ≤ k := by simp [GState.next]; omega
        unfold generateSuccessorZ generateSuccessor isWin isLose
        by_cases ht : (s.win || s.lose) = true
        · rw [if_pos ht, if_pos ht]; rfl
        rw [if_neg ht, if_neg ht, if_neg hz, if_neg hk]
        unfold ghostApplyZ ghostApply ghostLegalZ ghostLegal ghostStateZ ghostState numAgents
        rw [if_pos (show ((k : ℤ) = 0 ∨ (s.next.agents.length : ℤ) ≤ (k : ℤ)) from Or.inr (by omega)), List.getElem?_eq_none hn]
        rfl
  · intro h
    refine ⟨?_, fun hk => ?_⟩
    · unfold ghostStateZ numAgents
      rw [if_pos (Or.inr (by omega))]
    · unfold ghostPositionZ
      rw [if_neg (by exact_mod_cast hk), pyGet_none (Or.inl (by omega))]
      rfl

/-- **C80** A negative index names a ghost from the end: with `k - n` instead of `k`, for `n` agents and `0 < k < n`, all queries and moves give the same, but
the index is kept as it is in `_agentMoved`. -/
theorem C80_negative {s : GState} (he : s.eaten.length = s.agents.length) {k : ℕ} (hk : 0 < k) (hn : k < s.agents.length) (a : Dir) :
    ghostStateZ s ((k : ℤ) - numAgents s) = ghostStateZ s k ∧ ghostPositionZ s ((k : ℤ) - numAgents s) = ghostPositionZ s k ∧
    legalActionsZ s ((k : ℤ) - numAgents s) = legalActions s k ∧
    generateSuccessorZ s ((k : ℤ) - numAgents s) a = (generateSuccessor s k a).map (beside ((k : ℤ) - numAgents s)) := by
  have hi : ((k : ℤ) - numAgents s) ≠ 0 := by unfold numAgents; omega
  have hz : ¬ (k : ℤ) = 0 := by omega
  have h1 : pyIdx s.agents.length ((k : ℤ) - numAgents s) = some k := pyIdx_neg hn
  have h2 : pyIdx s.agents.length (k : ℤ) = some k := by rw [pyIdx_nat, if_pos hn]
  have hg := List.getElem?_eq_getElem hn
  refine ⟨?_, ?_, legalZ_idx h1 hi hk.ne', succZ_idx he h1 hi hk.ne' a⟩
  · rw [ghostStateZ_idx h1 hi hg, ghostStateZ_idx h2 hz hg]
  · unfold ghostPositionZ
    rw [if_neg hi, if_neg hz, pyGet_idx h1 hg, pyGet_idx h2 hg]

/-- **C80** Below `-n` every query of a ghost and every move raises `IndexError`. -/
theorem C80_below {s : GState} {i : ℤ} (h : i < -numAgents s) (hw : s.win = false) (hl : s.lose = false) (a : Dir) :
    ghostStateZ s i = .error .index ∧ ghostPositionZ s i = .error .index ∧ legalActionsZ s i = .error .index ∧
    generateSuccessorZ s i a = .error .index := by
  unfold numAgents at h
  have hi : i ≠ 0 := by omega
  have h1 : ∀ t : GState, t.agents.length = s.agents.length → ghostStateZ t i = .error .index := by
    intro t ht
    unfold ghostStateZ numAgents
    rw [if_neg (by omega), pyGet_none (Or.inr (by omega))]
  refine ⟨h1 s rfl, ?_, ?_, ?_⟩
  · unfold ghostPositionZ
    rw [if_neg hi, pyGet_none (Or.inr (by omega))]
    rfl
  · unfold legalActionsZ ghostLegalZ isWin isLose
    rw [hw, hl, if_neg (by simp), if_neg hi, h1 s rfl]
  · unfold generateSuccessorZ ghostApplyZ ghostLegalZ isWin isLose
    rw [hw, hl, if_neg (by simp), if_neg hi, h1 s.next (by simp [GState.next])]

theorem possible_nodup {walls : Grid} {c : Config} {r : List Dir} (h : possibleActions c walls = .ok r) : r.Nodup := by
  unfold possibleActions at h
  dsimp only at h
  split at h
  · cases h; simp
  · exact (possibleLoop_sublist h).nodup (by decide)

theorem ghostFilter_stop {dir : Dir} {l : List Dir} (h : l.Nodup) : Dir.stop ∉ ghostFilter dir l := by
  have h1 : Dir.stop ∉ l.erase .stop := h.not_mem_erase
  unfold ghostFilter
  dsimp only
  split
  · exact fun h2 => h1 (List.mem_of_mem_erase h2)
  · exact h1

/-- **C80** The index `-n` passes as a ghost but names Pacman: the query returns Pacman, and each move that is legal for it as a ghost (never `Stop`) loses the
game at once, for 500 points; nothing is eaten and the ghosts stay. -/
theorem C80_pacman_as_ghost {s : GState} {pac : Agent} {rest : List Agent} (hs : s.agents = pac :: rest) (ht : pac.scared = 0) (hw : s.win = false)
    (hl : s.lose = false) :
    ghostStateZ s (-numAgents s) = .ok pac ∧ ghostPositionZ s (-numAgents s) = pacmanPosition s ∧
    ∀ l, legalActionsZ s (-numAgents s) = .ok l → .stop ∉ l ∧ ∀ a ∈ l, ∃ t, generateSuccessorZ s (-numAgents s) a = .ok (t, -numAgents s) ∧
      t.lose = true ∧ t.win = false ∧ t.score = s.score - 500 ∧ t.food = s.food ∧ t.capsules = s.capsules ∧
      t.agents = { pac with conf := pac.conf.succ (directionToVector a 1) } :: rest := by
  have hlen : 0 < s.agents.length := by rw [hs]; simp
  have hi : (-numAgents s : ℤ) ≠ 0 := by unfold numAgents; omega
  have hidx : ∀ n : ℕ, n = s.agents.length → pyIdx n (-numAgents s) = some 0 := by
    intro n hn
    have := pyIdx_neg (n := n) (k := 0) (by omega)
    rwa [show (((0 : ℕ) : ℤ) - (n : ℤ)) = -numAgents s by unfold numAgents; omega] at this
  have hidx0 : ∀ n : ℕ, n = s.agents.length → pyIdx n 0 = some 0 := by
    intro n hn
    rw [show (0 : ℤ) = ((0 : ℕ) : ℤ) from rfl, pyIdx_nat, if_pos (by omega)]
  have hg : s.agents[0]? = some pac := by rw [hs]; rfl
  have hst := ghostStateZ_idx (hidx _ rfl) hi hg
  have hnl : s.next.agents.length = s.agents.length := by simp [GState.next]
  have hcopy : s.next.agents = pac :: rest := by
    show s.agents.map Agent.copy = _
    rw [hs]
    exact List.map_id _
  have hgn : s.next.agents[0]? = some pac := by rw [hcopy]; rfl
  have hstn := ghostStateZ_idx (s := s.next) (hidx _ hnl) hi hgn
  refine ⟨hst, ?_, ?_⟩
  · unfold ghostPositionZ pacmanPosition
    rw [if_neg hi, pyGet_idx (hidx _ rfl) hg, pyGet_idx (hidx0 _ rfl) hg]
  · intro l h
    unfold legalActionsZ ghostLegalZ isWin isLose at h
    rw [hw, hl, if_neg (by simp), if_neg hi, hst] at h
    dsimp only at h
    cases hp : possibleActions pac.conf (getWalls s) with
    | error e => rw [hp] at h; cases h
    | ok r =>
      rw [hp] at h
      cases h
      refine ⟨ghostFilter_stop (possible_nodup hp), fun a ha => ?_⟩
      have hp' : possibleActions pac.conf (getWalls s.next) = .ok r := hp
      have hd : decrement { pac with conf := pac.conf.succ (directionToVector a 1) } = { pac with conf := pac.conf.succ (directionToVector a 1) } := by
        unfold decrement
        simp [ht]
      unfold generateSuccessorZ ghostApplyZ ghostLegalZ isWin isLose
      rw [hw, hl, if_neg (by simp), if_neg hi, hstn]
      simp only [hp', if_neg (not_not.2 ha), pyGet_idx (hidx _ hnl) hgn, pySet_idx (hidx _ hnl), hcopy, List.set_cons_zero, ht, lt_irrefl, gt_iff_lt, if_false]
      have hl2 : ∀ x : Agent, (x :: rest).length = s.agents.length := by intro x; rw [hs]; rfl
      unfold decrementZ
      simp only [pyGet_idx (hidx _ (hl2 _)) (List.getElem?_cons_zero ..), pySet_idx (hidx _ (hl2 _)), List.set_cons_zero, hd]
      unfold checkDeathZ pacmanPosition
      simp only [pyGet_idx (hidx _ (hl2 _)) (List.getElem?_cons_zero ..), pyGet_idx (hidx0 _ (hl2 _)) (List.getElem?_cons_zero ..), Except.map]
      have hc : ∀ p : Pos, canKill p p = true := by
        intro p
        unfold canKill manhattan
        norm_num
      unfold collideZ
      simp only [hc, if_true, ht, lt_irrefl, gt_iff_lt, if_false, show s.next.win = false from rfl]
      refine ⟨_, rfl, rfl, rfl, ?_, rfl, rfl, rfl⟩
      show s.score + (0 - 500) = s.score - 500
      ring

/-! ### The ghosts -/

/-- **C80** The lists of ghosts and of their positions are the agents from 1 on; Pacman's state is that of agent 0. -/
theorem C80_ghosts {s : GState} {pac : Agent} {rest : List Agent} (hs : s.agents = pac :: rest) :
    ghostStates s = rest ∧ pacmanState s = .ok pac ∧ pacmanPosition s = .ok pac.conf.pos ∧ numAgents s = (ghostStates s).length + 1 ∧
    (ghostPositions s).length = (ghostStates s).length ∧
    ∀ k (h : k < (ghostStates s).length), ghostStateZ s ((k : ℤ) + 1) = .ok (ghostStates s)[k] ∧
      ghostPositionZ s ((k : ℤ) + 1) = .ok (ghostStates s)[k].conf.pos ∧ (ghostPositions s)[k]? = some (ghostStates s)[k].conf.pos := by
  have h1 : ghostStates s = rest := by unfold ghostStates; rw [hs]; rfl
  have h0 : pyGet s.agents 0 = .ok pac := by rw [show (0 : ℤ) = ((0 : ℕ) : ℤ) from rfl, pyGet_nat, hs]; rfl
  refine ⟨h1, ?_, ?_, ?_, by unfold ghostPositions; rw [List.length_map], ?_⟩
  · unfold pacmanState; rw [h0]; rfl
  · unfold pacmanPosition; rw [h0]; rfl
  · rw [h1]; unfold numAgents; rw [hs]; rfl
  · intro k hk
    have hk' : k < rest.length := by rw [← h1]; exact hk
    have hk2 : k + 1 < s.agents.length := by rw [hs]; simpa using hk'
    have hz : ((k : ℤ) + 1) ≠ 0 := by omega
    have hi : pyIdx s.agents.length ((k : ℤ) + 1) = some (k + 1) := by
      rw [show ((k : ℤ) + 1) = ((k + 1 : ℕ) : ℤ) by push_cast; rfl, pyIdx_nat, if_pos hk2]
    have hg : s.agents[k + 1]? = some (ghostStates s)[k] := by
      simp only [hs, List.getElem?_cons_succ, h1, List.getElem?_eq_getElem hk']
    refine ⟨ghostStateZ_idx hi hz hg, ?_, ?_⟩
    · unfold ghostPositionZ
      rw [if_neg hz, pyGet_idx hi hg]
      rfl
    · unfold ghostPositions
      rw [List.getElem?_map, List.getElem?_eq_getElem hk]
      rfl

/-! ### The other queries -/

/-- **C80** `getLegalPacmanActions` lists exactly the actions for which `generatePacmanSuccessor` returns, and the result is the move of the rules. -/
theorem C80_pacman {s : GState} (h : Placed s) (a : Dir) :
    generatePacmanSuccessor s a = (generateSuccessor s 0 a).map (beside 0) ∧
    ∃ l, legalPacmanActions s = .ok l ∧ (a ∈ l ↔ ∃ t, generatePacmanSuccessor s a = .ok t) := by
  obtain ⟨h1, h2, -⟩ := C80_natural h.eaten 0 a
  have h2' : generatePacmanSuccessor s a = (generateSuccessor s 0 a).map (beside 0) := h2
  refine ⟨h2', ?_⟩
  obtain ⟨pac, rest, hag, -⟩ := h.agents
  obtain ⟨l, h3, h4⟩ := C52_legal_iff h 0 a (by rw [hag]; simp)
  refine ⟨l, h1.trans h3, h4.trans ?_⟩
  rw [h2']
  constructor
  · rintro ⟨s', e⟩; rw [e]; exact ⟨_, rfl⟩
  · rintro ⟨t, e⟩
    cases hg : generateSuccessor s 0 a with
    | error x => rw [hg] at e; cases e
    | ok s' => exact ⟨s', rfl⟩

/-- **C80** `hasFood` and `hasWall` never fail inside the maze and agree with the lists of `getFood` and `getWalls`; `getNumFood` is the number of cells with food; there
is no wall at Pacman's place. -/
theorem C80_cells {s : GState} (h : Placed s) :
    (∀ x y : ℕ, x < (getWalls s).width → y < (getWalls s).height → ∃ f w, hasFood s x y = .ok f ∧ hasWall s x y = .ok w) ∧
    (∃ l, (getFood s).asList true = .ok l ∧ l.Nodup ∧ l.length = numFood s ∧ ∀ x y : ℕ, ((x : ℤ), (y : ℤ)) ∈ l ↔ hasFood s x y = .ok true) ∧
    (∃ l, (getWalls s).asList true = .ok l ∧ ∀ x y : ℕ, ((x : ℤ), (y : ℤ)) ∈ l ↔ hasWall s x y = .ok true) ∧
    ∃ x y : ℕ, pacmanPosition s = .ok (cellAt (x, y)) ∧ hasWall s x y = .ok false := by
  have hcell : ∀ (g : Grid), g.Shaped → ∃ l, g.asList true = .ok l ∧ l.Nodup ∧ l.length = g.count true ∧ ∀ x y : ℕ, ((x : ℤ), (y : ℤ)) ∈ l ↔ g.get x y = .ok true := by
    intro g hg
    obtain ⟨l, h1, h2, h3, -, h4⟩ := C51_asList hg true
    refine ⟨l, h1, h3, h4, fun x y => ?_⟩
    rw [h2, Grid.get_nat]
    constructor
    · rintro ⟨x', y', e, hx⟩
      simp only [Prod.mk.injEq, Nat.cast_inj] at e
      rw [e.1, e.2]; exact hx
    · exact fun hx => ⟨x, y, rfl, hx⟩
  refine ⟨fun x y hx hy => ?_, hcell s.food h.foodShaped, ?_, ?_⟩
  · obtain ⟨f, hf⟩ := h.foodShaped.at_of_lt (x := x) (y := y) (by rw [h.foodWidth]; exact hx) (by rw [h.foodHeight]; exact hy)
    obtain ⟨w, hw⟩ := h.walls.shaped.at_of_lt (x := x) (y := y) hx hy
    exact ⟨f, w, (Grid.get_nat _ _ _ _).2 hf, (Grid.get_nat _ _ _ _).2 hw⟩
  · obtain ⟨l, h1, -, -, h2⟩ := hcell s.layout.walls h.walls.shaped
    exact ⟨l, h1, h2⟩
  · obtain ⟨pac, rest, hag, ⟨⟨x, y⟩, hf, hp⟩, -⟩ := h.agents
    refine ⟨x, y, ?_, (Grid.get_nat _ _ _ _).2 hf⟩
    rw [(C80_ghosts hag).2.2.1, hp]

/-- **C80** The account of a game in terms of the queries: `getScore` falls by one for each move of Pacman and rises by ten for each food that `getNumFood` lost; `isWin` says exactly
that the last food was eaten and excludes `isLose`; capsules only disappear; the walls stay. -/
theorem C80_game {s s' : GState} (h : Placed s) (ho : isWin s = false ∧ isLose s = false) (ms : List (ℕ × Dir)) (hrun : playMoves s ms = .ok s') :
    (∃ E K : ℕ, getScore s' = getScore s - (ms.countP fun m => m.1 = 0) + 10 * ((numFood s : ℚ) - numFood s') + 200 * E + (if isWin s' then 500 else 0) - 500 * K ∧
      (0 < K ↔ isLose s' = true)) ∧ (isWin s' = true → isLose s' = false) ∧ (isWin s' = true ↔ 0 < numFood s ∧ numFood s' = 0) ∧
    (getCapsules s').Sublist (getCapsules s) ∧ getWalls s' = getWalls s ∧ numAgents s' = numAgents s := by
  obtain ⟨E, K, h1, h2, -, -, h3, h4, h5⟩ := C53_account h ho ms hrun
  obtain ⟨-, h6, h7⟩ := C52_placed h ms hrun
  refine ⟨⟨E, K, ?_, h2⟩, fun hw => (h4 hw).1, ⟨fun hw => ⟨(h4 hw).2.2, (h4 hw).2.1⟩, fun hw => h5 hw.1 hw.2⟩, ?_, ?_, h7⟩
  · have h1' : (s'.score : ℚ) = _ := congrArg (Int.cast (R := ℚ)) h1
    push_cast at h1'
    exact h1'
  · clear h1 h2 h3 h4 h5 h6 h7 ho
    induction ms generalizing s with
    | nil => cases hrun; exact List.Sublist.refl _
    | cons m t ih =>
      unfold playMoves at hrun
      cases hg : generateSuccessor s m.1 m.2 with
      | error e => rw [hg] at hrun; cases hrun
      | ok s1 =>
        rw [hg] at hrun
        have hp : Placed s1 := (C52_placed h [m] (by unfold playMoves; rw [hg]; rfl)).1
        refine (ih hp hrun).trans ?_
        by_cases hm : m.1 = 0
        · rw [hm] at hg
          obtain ⟨_, _, q, _, _, _, hc, _⟩ := C53_pacman_step h hg
          show s1.capsules.Sublist s.capsules
          rw [hc]; exact List.erase_sublist
        · obtain ⟨_, _, _, _, _, _, _, hc, _⟩ := C53_ghost_step h hm hg
          show s1.capsules.Sublist s.capsules
          rw [hc]
  · unfold getWalls; rw [h6]

/-! ### Explored states -/

/-- A state that a successful call of `generateSuccessor` of the list used or made. -/
def Touched (ops : List ExpOp) (u : GState) : Prop :=
  ∃ s i a t j, ExpOp.move s i a ∈ ops ∧ generateSuccessorZ s i a = .ok (t, j) ∧ (u = s ∨ u = t)

/-- Whether Python finds a state in the set: `u in explored`. -/
def Found (e : List GState) (u : GState) : Prop := ∃ t ∈ e, t.pyEq u = true

theorem found_add (e : List GState) (s u : GState) : Found (addExplored e s) u ↔ Found e u ∨ s.pyEq u = true := by
  unfold addExplored Found
  split
  · rename_i h
    obtain ⟨t, h1, h2⟩ := List.any_eq_true.1 h
    refine ⟨Or.inl, fun h => h.elim id fun h => ⟨t, h1, C62_equivalence.trans h2 h⟩⟩
  · constructor
    · rintro ⟨t, h1, h2⟩
      rcases List.mem_append.1 h1 with h | h
      · exact Or.inl ⟨t, h, h2⟩
      · rw [List.mem_singleton] at h; subst h; exact Or.inr h2
    · rintro (⟨t, h1, h2⟩ | h)
      · exact ⟨t, List.mem_append_left _ h1, h2⟩
      · exact ⟨s, by simp, h⟩

theorem add_pairwise {e : List GState} (h : e.Pairwise fun s t => s.pyEq t = false) (s : GState) : (addExplored e s).Pairwise fun s t => s.pyEq t = false := by
  unfold addExplored
  split
  · exact h
  · rename_i hn
    rw [List.pairwise_append]
    refine ⟨h, List.pairwise_singleton _ _, fun t ht u hu => ?_⟩
    rw [List.mem_singleton] at hu
    subst hu
    by_contra hc
    exact hn (List.any_eq_true.2 ⟨t, ht, by simpa using hc⟩)

theorem expRun_spec (ops : List ExpOp) (hr : ExpOp.reset ∉ ops) : ∀ e : List GState, e.Pairwise (fun s t => s.pyEq t = false) →
    (expRun e ops).Pairwise (fun s t => s.pyEq t = false) ∧ ∀ u, Found (expRun e ops) u ↔ Found e u ∨ ∃ v, Touched ops v ∧ v.pyEq u = true := by
  induction ops with
  | nil =>
    intro e he
    refine ⟨he, fun u => ⟨Or.inl, fun h => h.elim id ?_⟩⟩
    rintro ⟨v, ⟨_, _, _, _, _, h, _⟩, _⟩
    cases h
  | cons o ops ih =>
    intro e he
    have hr' : ExpOp.reset ∉ ops := fun h => hr (List.mem_cons_of_mem _ h)
    cases o with
    | reset => exact absurd List.mem_cons_self hr
    | move s i a =>
      have hrun : expRun e (.move s i a :: ops) = expRun (expStep e (.move s i a)).1 ops := rfl
      rw [hrun]
      have htail : ∀ v, Touched ops v → Touched (.move s i a :: ops) v := by
        rintro v ⟨s', i', a', t', j', h1, h2⟩
        exact ⟨s', i', a', t', j', List.mem_cons_of_mem _ h1, h2⟩
      have hhead : ∀ v, Touched (.move s i a :: ops) v → Touched ops v ∨ ∃ t j, generateSuccessorZ s i a = .ok (t, j) ∧ (v = s ∨ v = t) := by
        rintro v ⟨s', i', a', t', j', h1, h2⟩
        rcases List.mem_cons.1 h1 with h | h
        · cases h; exact Or.inr ⟨t', j', h2⟩
        · exact Or.inl ⟨s', i', a', t', j', h, h2⟩
      cases hg : generateSuccessorZ s i a with
      | error x =>
        rw [show (expStep e (.move s i a)).1 = e by unfold expStep; simp only [hg]]
        obtain ⟨h1, h2⟩ := ih hr' e he
        refine ⟨h1, fun u => (h2 u).trans (or_congr_right ⟨fun ⟨v, hv, he⟩ => ⟨v, htail v hv, he⟩, fun ⟨v, hv, he⟩ => ⟨v, ?_, he⟩⟩)⟩
        rcases hhead v hv with h | ⟨t, j, h, _⟩
        · exact h
        · rw [hg] at h; cases h
      | ok p =>
        obtain ⟨t, j⟩ := p
        rw [show (expStep e (.move s i a)).1 = addExplored (addExplored e s) t by unfold expStep; simp only [hg]]
        obtain ⟨h1, h2⟩ := ih hr' (addExplored (addExplored e s) t) (add_pairwise (add_pairwise he s) t)
        refine ⟨h1, fun u => (h2 u).trans ?_⟩
        rw [found_add, found_add]
        constructor
        · rintro (((h | h) | h) | ⟨v, hv, he⟩)
          · exact Or.inl h
          · exact Or.inr ⟨s, ⟨s, i, a, t, j, List.mem_cons_self, hg, Or.inl rfl⟩, h⟩
          · exact Or.inr ⟨t, ⟨s, i, a, t, j, List.mem_cons_self, hg, Or.inr rfl⟩, h⟩
          · exact Or.inr ⟨v, htail v hv, he⟩
        · rintro (h | ⟨v, hv, he⟩)
          · exact Or.inl (Or.inl (Or.inl h))
          · rcases hhead v hv with h | ⟨t', j', h, h3⟩
            · exact Or.inr ⟨v, h, he⟩
            · rw [hg] at h
              cases h
              rcases h3 with rfl | rfl
              · exact Or.inl (Or.inl (Or.inr he))
              · exact Or.inl (Or.inr he)

/-- **C80** `getAndResetExplored` returns, whatever was called before, each state once that was used or made by a successful `generateSuccessor`
since the last reset, up to equality of states, and no others; afterwards the set is empty. -/
theorem C80_explored (before since : List ExpOp) (hr : ExpOp.reset ∉ since) :
    ∃ r, expStep (expRun [] (before ++ .reset :: since)) .reset = ([], some r) ∧ r.Pairwise (fun s t => s.pyEq t = false) ∧
      ∀ u, Found r u ↔ ∃ v, Touched since v ∧ v.pyEq u = true := by
  have h : expRun [] (before ++ .reset :: since) = expRun [] since := by
    unfold expRun
    rw [List.foldl_append, List.foldl_cons]
    rfl
  obtain ⟨h1, h2⟩ := expRun_spec since hr [] List.Pairwise.nil
  refine ⟨_, rfl, by rw [h]; exact h1, fun u => ?_⟩
  rw [h, h2]
  exact ⟨fun h => h.elim (fun ⟨_, h, _⟩ => by cases h) id, Or.inr⟩

/-! ### Live objects -/

namespace PHeap

theorem ghostApply_state (h : PHeap) (s : ℕ) (a : Dir) (i : ℕ) : (h.ghostApply s a i).2.state = h.state := by
  unfold ghostApply
  split
  · rfl
  · split
    · rfl
    · split <;> rfl

theorem decrement_state (h : PHeap) (g : ℕ) : (h.decrement g).state = h.state := by
  unfold decrement
  dsimp only
  split <;> rfl

theorem collide_food (h : PHeap) (s g i : ℕ) : ((h.collide s g i).2.state s).food = (h.state s).food := by
  unfold collide
  split
  · dsimp only
    split <;> simp [setState, setAgent, setEaten]
  · split
    · simp [setState]
    · rfl

theorem checkDeath_food (h : PHeap) (s : ℕ) {i : ℕ} (hi : i ≠ 0) : ((h.checkDeath s i).2.state s).food = (h.state s).food := by
  unfold checkDeath
  split
  · rfl
  · dsimp only
    rw [if_neg hi]
    split
    · rfl
    · unfold deathAt
      split
      · exact collide_food h s _ i
      · rfl

end PHeap

/-- **C80** `getFood` returns the grid of the state itself, and a state made by the move of a ghost has the rows of its predecessor: what a program
writes through the grid that `getFood` of the new state returns, changes the predecessor, too. -/
theorem C80_food_shared {h : PHeap} {s t : ℕ} (hl : PHeap.Live h s) {i : ℕ} (hi : i ≠ 0) {a : Dir} {h' : PHeap}
    (hg : h.generateSuccessor s i a = (.ok t, h')) (d : List (List Bool)) :
    let h'' := h'.setCells (h'.state t).food.data d
    (getFood (h''.read t)).data = d ∧ (getFood (h''.read s)).data = d := by
  have hf : (h'.state t).food.data = (h.state s).food.data ∧ h'.state s = h.state s := by
    have hspec := PHeap.generate_spec hl i a
    rw [hg] at hspec
    have hframe : PHeap.Frame h.next h h' := by
      cases hv : Pac.generateSuccessor (h.read s) i a with
      | error e => rw [hv] at hspec; exact hspec.2.1
      | ok v => rw [hv] at hspec; obtain ⟨_, _, _, _, hF, _⟩ := hspec; exact hF
    refine ⟨?_, hframe.state s hl.self⟩
    obtain ⟨_, _, _, _, _, _, cdata⟩ := PHeap.copyState_spec hl
    unfold PHeap.generateSuccessor at hg
    split at hg
    · cases hg
    · dsimp only at hg
      have h1 := PHeap.ghostApply_state (h.copyState s).1 (h.copyState s).2 a i
      split at hg
      · cases hg
      · rename_i h3 he
        rw [he] at h1
        split at hg
        · cases hg
        · rename_i g _
          have h2 := PHeap.checkDeath_food (h3.decrement g) (h.copyState s).2 hi
          split at hg
          · cases hg
          · rename_i h5 he5
            rw [he5] at h2
            cases hg
            have h6 : ((h5.setState (h.copyState s).2 fun o => { o with agentMoved := some i, score := o.score + o.scoreChange }).state (h.copyState s).2).food =
                (h5.state (h.copyState s).2).food := by simp [PHeap.setState]
            rw [h6, h2, PHeap.decrement_state, h1, cdata]
  refine ⟨?_, ?_⟩
  · show Function.update h'.cells (h'.state t).food.data d (h'.state t).food.data = d
    rw [Function.update_self]
  · show Function.update h'.cells (h'.state t).food.data d (h'.state s).food.data = d
    rw [hf.1, hf.2, Function.update_self]

/-- In a corridor with Pacman and a ghost the index `-2` moves Pacman as if it was a ghost, and the ghost has index `-1`. -/
example : (legalActionsZ (corridorState (3, 1) 0) (-2)).toOption = some [Dir.east] ∧
    (legalActionsZ (corridorState (3, 1) 0) (-1)).toOption = some [Dir.west] ∧
    ((generateSuccessorZ (corridorState (3, 1) 0) (-2) .east).toOption.map fun t => (t.1.lose, t.1.score)) = some (true, -500) ∧
    ((generateSuccessorZ (corridorState (3, 1) 0) (-1) .west).toOption.map fun t => (t.1.lose, t.2)) = some (false, -1) ∧
    (expRun [] [.move (corridorState (3, 1) 0) (-1) .west, .move (corridorState (3, 1) 0) 1 .west, .move (corridorState (3, 1) 0) 5 .west]).length = 2 := by
  decide +kernel

end Verif.Pac
