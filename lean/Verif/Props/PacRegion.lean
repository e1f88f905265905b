import Verif.Props.PacMoves

set_option linter.unusedSectionVars false

/-!
# C52 continued: regions of the maze, ghosts are never stuck
-/

namespace Verif.Pac

/-- Data of a successful step of Pacman. -/
structure PacStep (s s' : GState) (a : Dir) (pac : Agent) (rest : List Agent) (p : ℕ × ℕ) (food' : Grid) : Prop where
  agents : s.agents = pac :: rest
  free : s.layout.walls.Free p
  pos : pac.conf.pos = cellAt p
  nextFree : s.layout.walls.Free (nextCell p.1 p.2 a)
  food : FoodAfter s (nextCell p.1 p.2 a) food'
  result : s' = pacResult s food' pac rest (nextCell p.1 p.2 a) a

/-- Data of a successful step of a ghost. -/
structure GhostStep (s s' : GState) (i : ℕ) (a : Dir) (pac : Agent) (pre post : List Agent) (g : Agent) (pe qe : List Bool) (e : Bool)
    (l : List Dir) : Prop where
  agents : s.agents = (pac :: pre) ++ g :: post
  index : i = pre.length + 1
  eaten : s.eaten = pe ++ e :: qe
  eatenLength : pe.length = pre.length + 1
  possible : possibleActions g.conf s.layout.walls = .ok l
  legal : a ∈ ghostFilter g.conf.dir l
  result : s' = ghostResult s pac.conf.pos (pac :: pre) post (ghostMoved g a) pe qe e

/-- A successful step is one of the two kinds, and starts in a state that is not finished. -/
theorem step_cases {s s' : GState} (h : Placed s) {i : ℕ} {a : Dir} (hs : generateSuccessor s i a = .ok s') :
    s.win = false ∧ s.lose = false ∧
    ((i = 0 ∧ ∃ pac rest p food', PacStep s s' a pac rest p food') ∨
      (i ≠ 0 ∧ ∃ pac pre post g pe qe e l, GhostStep s s' i a pac pre post g pe qe e l)) := by
  have hterm : ¬ (s.win || s.lose) = true := by
    intro hc
    unfold generateSuccessor at hs
    rw [if_pos hc] at hs
    cases hs
  have hwl : s.win = false ∧ s.lose = false := by simpa using hterm
  obtain ⟨hwin, hlose⟩ := hwl
  refine ⟨hwin, hlose, ?_⟩
  obtain ⟨pac, rest, hag, ⟨⟨x, y⟩, hfree, hpos⟩, hrest⟩ := h.agents
  cases i with
  | zero =>
    left
    refine ⟨rfl, ?_⟩
    obtain ⟨h1, h2⟩ := pacStep_eq h.walls h.foodShaped h.foodWidth h.foodHeight hag hfree hpos hwin hlose a
    by_cases hq : s.layout.walls.Free (nextCell x y a)
    · obtain ⟨food', hfa, heq⟩ := h1 hq
      rw [hs] at heq
      cases heq
      exact ⟨pac, rest, (x, y), food', hag, hfree, hpos, hq, hfa, rfl⟩
    · rw [h2 hq] at hs; cases hs
  | succ i =>
    right
    refine ⟨by omega, ?_⟩
    cases hget : s.agents[i + 1]? with
    | none =>
      rcases step_placed h (i + 1) a with ⟨s2, h1, _, _, h2⟩ | h1 | ⟨h1, _⟩ | ⟨h1, _⟩
      · exfalso
        have hget' : s.next.agents[i + 1]? = none := by
          show (s.agents.map Agent.copy)[i + 1]? = none
          rw [map_copy]; exact hget
        unfold generateSuccessor at hs
        rw [if_neg hterm, if_neg (by omega)] at hs
        have : ghostApply s.next a (i + 1) = .error .ghostIndex := by
          unfold ghostApply ghostLegal ghostState
          rw [hget']
        rw [this] at hs
        cases hs
      all_goals rw [hs] at h1; cases h1
    | some g =>
      have hget2 : rest[i]? = some g := by rw [hag] at hget; simpa using hget
      obtain ⟨pre, post, hsplit, hlen⟩ := split_at rest i g hget2
      obtain ⟨e, he⟩ : ∃ e, s.eaten[i + 1]? = some e := by
        have : i + 1 < s.eaten.length := by
          rw [h.eaten]; exact (List.getElem?_eq_some_iff.1 hget).1
        exact ⟨_, List.getElem?_eq_getElem this⟩
      obtain ⟨pe, qe, hesplit, helen⟩ := split_at s.eaten (i + 1) e he
      have hag' : s.agents = (pac :: pre) ++ g :: post := by rw [hag, hsplit]; rfl
      have hgm : g ∈ rest := by rw [hsplit]; simp
      obtain ⟨l, hl, hok⟩ := ghost_move_ok h.walls (hrest g hgm)
      have heq := ghostStep_eq hag' hesplit (by rw [helen, hlen]) hl hwin hlose a
      rw [hlen, hs] at heq
      by_cases hm : a ∈ ghostFilter g.conf.dir l
      · rw [if_pos hm] at heq
        cases heq
        exact ⟨pac, pre, post, g, pe, qe, e, l, hag', by rw [hlen], hesplit, by rw [helen, hlen], hl, hm, rfl⟩
      · rw [if_neg hm] at heq; cases heq

/-! ### Regions -/

/-- A set of free cells that no single move leaves. -/
structure Region (walls : Grid) (A : ℕ × ℕ → Prop) : Prop where
  free : ∀ p, A p → walls.Free p
  closed : ∀ p d, A p → walls.Free (nextCell p.1 p.2 d) → A (nextCell p.1 p.2 d)

/-- On a cell of the set or half-way between two of them. -/
def Within (A : ℕ × ℕ → Prop) (q : Pos) : Prop :=
  (∃ p, A p ∧ q = cellAt p) ∨ ∃ x y : ℕ, A (x, y) ∧
    ((A (x + 1, y) ∧ q = ((x : ℚ) + 1 / 2, (y : ℚ))) ∨ (A (x, y + 1) ∧ q = ((x : ℚ), (y : ℚ) + 1 / 2)))

theorem cellAt_inj {p q : ℕ × ℕ} (h : cellAt p = cellAt q) : p = q := by
  unfold cellAt at h
  obtain ⟨h1, h2⟩ := Prod.mk.inj h
  exact Prod.ext (by exact_mod_cast h1) (by exact_mod_cast h2)

theorem nat_ne_half (a b : ℕ) : (a : ℚ) ≠ (b : ℚ) + 1 / 2 := by
  intro h
  have h2 : (2 * a : ℚ) = 2 * b + 1 := by linarith
  have h3 : 2 * a = 2 * b + 1 := by exact_mod_cast h2
  omega

theorem Within.cell {A : ℕ × ℕ → Prop} {p : ℕ × ℕ} (h : Within A (cellAt p)) : A p := by
  rcases h with ⟨q, hq, he⟩ | ⟨x, y, _, h | h⟩
  · rw [cellAt_inj he]; exact hq
  · exact absurd (congrArg Prod.fst h.2) (nat_ne_half _ _)
  · exact absurd (congrArg Prod.snd h.2) (nat_ne_half _ _)

/-- A legal move of a ghost stays within a region. -/
theorem moved_within {walls : Grid} (hb : walls.Bordered) {A : ℕ × ℕ → Prop} (hA : Region walls A) {g : Agent} (hg : GhostOk walls g)
    (hw : Within A g.conf.pos) {l : List Dir} (hl : possibleActions g.conf walls = .ok l) {a : Dir} (ha : a ∈ ghostFilter g.conf.dir l) :
    Within A (ghostMoved g a).conf.pos := by
  have hdec : ∀ c : Config, (Within A c.pos → Within A (toPos (nearestPoint c.pos))) := by
    intro c hc
    rcases hc with ⟨p, hp, he⟩ | ⟨x, y, h0, h | h⟩
    · rw [he, nearestPoint_cell, toPos_cell]; exact Or.inl ⟨p, hp, rfl⟩
    · refine Or.inl ⟨(x + 1, y), h.1, ?_⟩
      rw [h.2]; unfold nearestPoint toPos cellAt; simp only [pyInt_half, pyInt_half_half]; push_cast; rfl
    · refine Or.inl ⟨(x, y + 1), h.1, ?_⟩
      rw [h.2]; unfold nearestPoint toPos cellAt; simp only [pyInt_half, pyInt_half_half]; push_cast; rfl
  suffices hs : Within A (g.conf.succ (directionToVector a (if g.scared > 0 then 1 / 2 else 1))).pos by
    unfold ghostMoved decrement
    simp only
    split
    · exact hdec _ hs
    · exact hs
  rcases hg.place with ⟨⟨x, y⟩, hf, hc⟩ | ⟨hsc, hbt⟩
  · rw [possible_cell hb hf hc] at hl
    cases hl
    obtain ⟨h1, h2, _⟩ := (ghostFilter_mem _ _ _).1 ha
    have hAp : A (x, y) := Within.cell (by rw [← hc]; exact hw)
    have hAn := hA.closed _ a hAp h2
    obtain ⟨hx, _, hy, _⟩ := hb.inner x y hf
    by_cases hsc : g.scared > 0
    · rw [if_pos hsc]
      right
      have hp : (g.conf.succ (directionToVector a (1 / 2))).pos =
          ((x : ℚ) + (directionToVector a (1 / 2)).1, (y : ℚ) + (directionToVector a (1 / 2)).2) := by
        rw [succ_pos, hc]; rfl
      rw [hp]
      cases a with
      | stop => exact absurd rfl h1
      | north => exact ⟨x, y, hAp, Or.inr ⟨hAn, by simp [directionToVector, Dir.vec]⟩⟩
      | south =>
        have hxy : y - 1 + 1 = y := by omega
        refine ⟨x, y - 1, hAn, Or.inr ⟨by rw [hxy]; exact hAp, ?_⟩⟩
        have : ((y - 1 : ℕ) : ℚ) = (y : ℚ) - 1 := by rw [Nat.cast_sub (by omega)]; simp
        rw [this]
        simp [directionToVector, Dir.vec]; ring
      | east => exact ⟨x, y, hAp, Or.inl ⟨hAn, by simp [directionToVector, Dir.vec]⟩⟩
      | west =>
        have hxy : x - 1 + 1 = x := by omega
        refine ⟨x - 1, y, hAn, Or.inl ⟨by rw [hxy]; exact hAp, ?_⟩⟩
        have : ((x - 1 : ℕ) : ℚ) = (x : ℚ) - 1 := by rw [Nat.cast_sub (by omega)]; simp
        rw [this]
        simp [directionToVector, Dir.vec]; ring
    · rw [if_neg hsc]
      refine Or.inl ⟨nextCell x y a, hAn, ?_⟩
      rw [← nextCell_pos hx hy a, succ_pos, hc]; rfl
  · rw [possible_between hbt] at hl
    cases hl
    rw [ghostFilter_between hbt, List.mem_singleton] at ha
    subst ha
    have hsc' : g.scared > 0 := hsc
    rw [if_pos hsc']
    -- both ends are in the region
    obtain ⟨x, y, h0, h | h⟩ := hbt
    · have hA2 : A (x, y) ∧ A (x + 1, y) := by
        rcases hw with ⟨p, _, he⟩ | ⟨u, v, hu, h' | h'⟩
        · rw [h.2.1] at he
          exact absurd (congrArg Prod.fst he).symm (nat_ne_half _ _)
        · have e1 := congrArg Prod.fst (h.2.1.symm.trans h'.2)
          have e2 := congrArg Prod.snd (h.2.1.symm.trans h'.2)
          have e3 : x = u := by
            have : (x : ℚ) = u := by simpa using e1
            exact_mod_cast this
          have e4 : y = v := by
            have : (y : ℚ) = v := by simpa using e2
            exact_mod_cast this
          subst e3; subst e4; exact ⟨hu, h'.1⟩
        · exact absurd (congrArg Prod.snd (h.2.1.symm.trans h'.2)) (nat_ne_half _ _)
      rw [succ_pos, h.2.1]
      rcases h.2.2 with h3 | h3
      · refine Or.inl ⟨(x + 1, y), hA2.2, ?_⟩
        rw [h3]; simp [directionToVector, Dir.vec, cellAt]; ring
      · refine Or.inl ⟨(x, y), hA2.1, ?_⟩
        rw [h3]; simp [directionToVector, Dir.vec, cellAt]
    · have hA2 : A (x, y) ∧ A (x, y + 1) := by
        rcases hw with ⟨p, _, he⟩ | ⟨u, v, hu, h' | h'⟩
        · rw [h.2.1] at he
          exact absurd (congrArg Prod.snd he).symm (nat_ne_half _ _)
        · exact absurd (congrArg Prod.fst (h.2.1.symm.trans h'.2)) (nat_ne_half _ _)
        · have e1 := congrArg Prod.fst (h.2.1.symm.trans h'.2)
          have e2 := congrArg Prod.snd (h.2.1.symm.trans h'.2)
          have e3 : x = u := by
            have : (x : ℚ) = u := by simpa using e1
            exact_mod_cast this
          have e4 : y = v := by
            have : (y : ℚ) = v := by simpa using e2
            exact_mod_cast this
          subst e3; subst e4; exact ⟨hu, h'.1⟩
      rw [succ_pos, h.2.1]
      rcases h.2.2 with h3 | h3
      · refine Or.inl ⟨(x, y + 1), hA2.2, ?_⟩
        rw [h3]; simp [directionToVector, Dir.vec, cellAt]; ring
      · refine Or.inl ⟨(x, y), hA2.1, ?_⟩
        rw [h3]; simp [directionToVector, Dir.vec, cellAt]

/-- The agent's start and place are within the set. -/
def Agent.In (A : ℕ × ℕ → Prop) (g : Agent) : Prop := Within A g.start.pos ∧ Within A g.conf.pos

theorem meet_in {A : ℕ × ℕ → Prop} {g : Agent} (h : g.In A) (p : Pos) : (g.meet p).In A := by
  unfold Agent.meet
  split
  · exact ⟨h.1, h.1⟩
  · exact h

theorem step_region {s s' : GState} (h : Placed s) {i : ℕ} {a : Dir} (hs : generateSuccessor s i a = .ok s') {A : ℕ × ℕ → Prop}
    (hA : Region s.layout.walls A) (j : ℕ) {g g' : Agent} (hj : s.agents[j]? = some g) (hj' : s'.agents[j]? = some g') (hg : g.In A) :
    g'.In A := by
  obtain ⟨_, _, ⟨_, pac, rest, p, food', hp⟩ | ⟨_, pac, pre, post, g0, pe, qe, e, l, hp⟩⟩ := step_cases h hs
  · rw [hp.result] at hj'
    rw [hp.agents] at hj
    cases j with
    | zero =>
      simp only [pacResult, List.getElem?_cons_zero, Option.some.injEq] at hj hj'
      subst hj hj'
      refine ⟨hg.1, Or.inl ⟨_, hA.closed p a ?_ hp.nextFree, rfl⟩⟩
      have := hg.2
      rw [hp.pos] at this
      exact this.cell
    | succ j =>
      simp only [pacResult, List.getElem?_cons_succ] at hj hj'
      rw [List.getElem?_map] at hj'
      obtain ⟨g1, hg1, rfl⟩ := Option.map_eq_some_iff.1 hj'
      apply meet_in
      unfold GState.ghostsAt at hg1
      split at hg1
      · rw [List.getElem?_map] at hg1
        obtain ⟨g2, hg2, rfl⟩ := Option.map_eq_some_iff.1 hg1
        rw [hj] at hg2
        cases hg2
        exact hg
      · rw [hj] at hg1
        cases hg1
        exact hg
  · rw [hp.result] at hj'
    rw [hp.agents] at hj
    simp only [ghostResult] at hj'
    by_cases hji : j = pre.length + 1
    · subst hji
      rw [List.getElem?_append_right (by simp)] at hj hj'
      simp only [List.length_cons, Nat.sub_self, List.getElem?_cons_zero, Option.some.injEq] at hj hj'
      subst hj hj'
      apply meet_in
      obtain ⟨pac', rest', hag, _, hrest⟩ := h.agents
      have hmem : g0 ∈ rest' := by
        have := hp.agents
        rw [hag] at this
        rw [(List.cons.inj this).2]
        simp
      exact ⟨hg.1, moved_within h.walls hA (hrest g0 hmem) hg.2 hp.possible hp.legal⟩
    · have hsame : ((pac :: pre) ++ (ghostMoved g0 a).meet pac.conf.pos :: post)[j]? = ((pac :: pre) ++ g0 :: post)[j]? := by
        by_cases hlt : j < (pac :: pre).length
        · rw [List.getElem?_append_left hlt, List.getElem?_append_left hlt]
        · have hge : (pac :: pre).length ≤ j := by omega
          rw [List.getElem?_append_right hge, List.getElem?_append_right hge]
          have : j - (pac :: pre).length ≠ 0 := by
            simp only [List.length_cons] at hge ⊢; omega
          obtain ⟨k, hk⟩ := Nat.exists_eq_succ_of_ne_zero this
          rw [hk]
          simp
      rw [hsame, hj] at hj'
      cases hj'
      exact hg

/-- **C52** No agent ever leaves a region: a set of free cells that is closed under moves to free neighbours, such as the connected part of
the maze in which the agent started. -/
theorem C52_region {s s' : GState} (h : Placed s) (ms : List (ℕ × Dir)) (hrun : playMoves s ms = .ok s') {A : ℕ × ℕ → Prop}
    (hA : Region s.layout.walls A) (j : ℕ) {g g' : Agent} (hj : s.agents[j]? = some g) (hj' : s'.agents[j]? = some g') (hg : g.In A) :
    g'.In A := by
  induction ms generalizing s g with
  | nil =>
    cases hrun
    rw [hj] at hj'
    cases hj'
    exact hg
  | cons m t ih =>
    unfold playMoves at hrun
    cases hst : generateSuccessor s m.1 m.2 with
    | error e => rw [hst] at hrun; cases hrun
    | ok s1 =>
      rw [hst] at hrun
      obtain ⟨h1, hl, hn⟩ := C52_placed h [m] (s' := s1) (by unfold playMoves; rw [hst]; rfl)
      have hjl : j < s1.agents.length := by rw [hn]; exact (List.getElem?_eq_some_iff.1 hj).1
      exact ih h1 hrun (by rw [hl]; exact hA) (List.getElem?_eq_getElem hjl)
        (step_region h hst hA j hj (List.getElem?_eq_getElem hjl) hg)

theorem nextCell_back {x y : ℕ} (hx : 0 < x) (hy : 0 < y) (d : Dir) : nextCell (nextCell x y d).1 (nextCell x y d).2 d.reverse = (x, y) := by
  cases d <;> simp [nextCell, Dir.reverse] <;> omega

/-- **C52** A ghost whose start has a free neighbour has a legal action in every later state that is not finished. -/
theorem C52_never_stuck {s s' : GState} (h : Placed s) (ms : List (ℕ × Dir)) (hrun : playMoves s ms = .ok s') (hwin : s'.win = false)
    (hlose : s'.lose = false) {j : ℕ} (hj0 : j ≠ 0) {g : Agent} (hj : s.agents[j]? = some g) {p : ℕ × ℕ} (hstart : g.start.pos = cellAt p)
    (hfree : s.layout.walls.Free p) (hconf : g.conf = g.start) {d : Dir} (hd : d ≠ .stop) (hn : s.layout.walls.Free (nextCell p.1 p.2 d)) :
    ∃ l, legalActions s' j = .ok l ∧ l ≠ [] := by
  obtain ⟨h', hl, hlen⟩ := C52_placed h ms hrun
  have hjl : j < s'.agents.length := by rw [hlen]; exact (List.getElem?_eq_some_iff.1 hj).1
  have hj' : s'.agents[j]? = some s'.agents[j] := List.getElem?_eq_getElem hjl
  generalize s'.agents[j] = g' at hj'
  let A : ℕ × ℕ → Prop := fun q => s.layout.walls.Free q ∧ ∃ e, e ≠ Dir.stop ∧ s.layout.walls.Free (nextCell q.1 q.2 e)
  have hA : Region s.layout.walls A := by
    refine ⟨fun q hq => hq.1, ?_⟩
    intro q e hq hf
    by_cases he : e = .stop
    · subst he; exact hq
    · refine ⟨hf, e.reverse, by cases e <;> simp [Dir.reverse] at he ⊢, ?_⟩
      obtain ⟨h1, _, h3, _⟩ := h.walls.inner q.1 q.2 hq.1
      rw [nextCell_back h1 h3]; exact hq.1
  have hin : g.In A := by
    have : Within A g.start.pos := Or.inl ⟨p, ⟨hfree, d, hd, hn⟩, hstart⟩
    exact ⟨this, by rw [hconf]; exact this⟩
  have hin' := C52_region h ms hrun hA j hj hj' hin
  obtain ⟨pac, rest, hag, _, hrest⟩ := h'.agents
  have hmem : g' ∈ rest := by
    obtain ⟨k, rfl⟩ := Nat.exists_eq_succ_of_ne_zero hj0
    rw [hag, List.getElem?_cons_succ] at hj'
    exact List.mem_of_getElem? hj'
  rcases (hrest g' hmem).place with ⟨⟨x, y⟩, hf, hc⟩ | ⟨_, hbt⟩
  · obtain ⟨l, h1, h2⟩ := C52_ghost_legal h'.walls hj0 hj' hf hc hwin hlose
    refine ⟨l, h1, ?_⟩
    have hAq : A (x, y) := by
      have := hin'.2; rw [hc] at this; exact this.cell
    obtain ⟨_, e, he, hef⟩ := hAq
    rw [← hl] at hef
    by_cases hex : ∃ e, e ≠ Dir.stop ∧ s'.layout.walls.Free (nextCell x y e) ∧ e ≠ g'.conf.dir.reverse
    · obtain ⟨e1, he1, hf1, hr1⟩ := hex
      exact List.ne_nil_of_mem ((h2 e1).2 ⟨he1, hf1, fun h => absurd h hr1⟩)
    · refine List.ne_nil_of_mem ((h2 e).2 ⟨he, hef, ?_⟩)
      intro her e' he' hf'
      by_contra hne
      exact hex ⟨e', he', hf', by rw [← her]; exact hne⟩
  · refine ⟨[g'.conf.dir], ?_, by simp⟩
    unfold legalActions ghostLegal ghostState
    rw [hwin, hlose]
    simp only [Bool.or_self, Bool.false_eq_true, if_false, hj0, hj']
    rw [possible_between hbt]
    simp only
    rw [ghostFilter_between hbt]

end Verif.Pac
