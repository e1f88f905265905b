import Verif.Model.PacEq
import Verif.Props.PacScore
import Mathlib.Data.Fintype.Pigeonhole
import Mathlib.Data.Int.Interval

/-!
# C62: equality and hashing of game states

When two states are equal, that their hashes agree, and that equal open states of one game are interchangeable: the same moves are possible and lead to
equal states.
-/

namespace Verif.Pac

/-! ### What equality sees -/

/-- What the comparison of two states looks at. -/
structure Visible where
  agents : List (Pos × Dir × ℕ)
  food : List (List Bool)
  capsules : List (ℤ × ℤ)
  score : ℤ
  deriving DecidableEq

/-- The visible part of a state. -/
def GState.visible (s : GState) : Visible :=
  ⟨s.agents.map fun a => (a.conf.pos, a.conf.dir, a.scared), s.food.data, s.capsules, s.score⟩

theorem Agent.pyEq_iff (a b : Agent) : a.pyEq b = true ↔ a.conf.pos = b.conf.pos ∧ a.conf.dir = b.conf.dir ∧ a.scared = b.scared := by
  simp [Agent.pyEq, Config.pyEq, and_assoc]

theorem agentsEq_iff : ∀ (s t : List Agent), agentsEq s t = true ↔
    s.map (fun a => (a.conf.pos, a.conf.dir, a.scared)) = t.map fun a => (a.conf.pos, a.conf.dir, a.scared)
  | [], [] => by simp [agentsEq]
  | [], b :: t => by simp [agentsEq]
  | a :: s, [] => by simp [agentsEq]
  | a :: s, b :: t => by
    simp only [agentsEq, Bool.and_eq_true, Agent.pyEq_iff, agentsEq_iff s t, List.map_cons, List.cons.injEq, Prod.mk.injEq]

/-- **C62** Two states are equal exactly when positions, directions and timers of the agents, the cells of the food grid, the capsules with
their order, and the scores agree. -/
theorem C62_eq (s t : GState) : s.pyEq t = true ↔ s.visible = t.visible := by
  unfold GState.pyEq GState.visible
  simp only [Visible.mk.injEq, ← agentsEq_iff, Grid.pyEq]
  cases agentsEq s.agents t.agents <;> by_cases h1 : s.food.data = t.food.data <;> by_cases h2 : s.capsules = t.capsules <;>
    by_cases h3 : s.score = t.score <;> simp [h1, h2, h3]

/-- **C62** Equality of states is an equivalence relation. -/
theorem C62_equivalence : Equivalence fun s t : GState => s.pyEq t = true := by
  refine ⟨fun s => (C62_eq s s).2 rfl, fun {s t} h => (C62_eq t s).2 ((C62_eq s t).1 h).symm, fun {s t u} h1 h2 => ?_⟩
  exact (C62_eq s u).2 (((C62_eq s t).1 h1).trans ((C62_eq t u).1 h2))

theorem Agent.hash_eq (H : Hashes) {a b : Agent} (h : (a.conf.pos, a.conf.dir, a.scared) = (b.conf.pos, b.conf.dir, b.scared)) : a.hash H = b.hash H := by
  obtain ⟨h1, h2, h3⟩ := by simpa using h
  unfold Agent.hash Config.hash
  rw [h1, h2, h3]

theorem Grid.hash_eq (H : Hashes) {g h : Grid} (e : g.data = h.data) : g.hash H = h.hash H := by
  unfold Grid.hash Grid.hashLoop
  rw [e]

theorem agents_hash_eq (H : Hashes) : ∀ (s t : List Agent), s.map (fun a => (a.conf.pos, a.conf.dir, a.scared)) = t.map (fun a => (a.conf.pos, a.conf.dir, a.scared)) →
    s.map (Agent.hash H) = t.map (Agent.hash H)
  | [], [], _ => rfl
  | [], b :: t, h => by simp at h
  | a :: s, [], h => by simp at h
  | a :: s, b :: t, h => by
    rw [List.map_cons, List.map_cons, List.cons.injEq] at h
    rw [List.map_cons, List.map_cons, Agent.hash_eq H h.1, agents_hash_eq H s t h.2]

/-- **C62** Equal states have equal hashes, whatever the hash functions of Python are, so that states can be keys of dictionaries; hashes are between 0
and 1048574. -/
theorem C62_hash (H : Hashes) (s t : GState) : (s.pyEq t = true → s.hash H = t.hash H) ∧ 0 ≤ s.hash H ∧ s.hash H < 1048575 := by
  refine ⟨fun h => ?_, Int.emod_nonneg _ (by decide), Int.emod_lt_of_pos _ (by decide)⟩
  rw [C62_eq] at h
  unfold GState.visible at h
  rw [Visible.mk.injEq] at h
  obtain ⟨h1, h2, h3, h4⟩ := h
  unfold GState.hash
  rw [agents_hash_eq H _ _ h1, Grid.hash_eq H h2, h3, h4]

/-- **C62** Different states can have the same hash, whatever the hash functions of Python are: two scores of otherwise the same state. -/
theorem C62_hash_collision (H : Hashes) (s : GState) : ∃ m n : ℕ, m ≠ n ∧
    ({ s with score := m } : GState).pyEq { s with score := n } = false ∧
    ({ s with score := m } : GState).hash H = ({ s with score := n } : GState).hash H := by
  let f : ℕ → Finset.Ico (0 : ℤ) 1048575 := fun n => ⟨({ s with score := n } : GState).hash H, by
    rw [Finset.mem_Ico]; exact (C62_hash H _ s).2⟩
  obtain ⟨m, n, hne, he⟩ := Finite.exists_ne_map_eq_of_infinite f
  refine ⟨m, n, hne, ?_, congrArg Subtype.val he⟩
  cases hc : ({ s with score := m } : GState).pyEq { s with score := n }
  · rfl
  · rw [C62_eq] at hc
    have h2 : (m : ℤ) = n := congrArg Visible.score hc
    exact absurd (by exact_mod_cast h2) hne

/-! ### Equal states are interchangeable -/

/-- Two states of the same game: the layout and, for each agent, its start and its kind agree. -/
def SameGame (s t : GState) : Prop :=
  s.layout = t.layout ∧ s.agents.map (fun a => (a.start, a.isPacman)) = t.agents.map fun a => (a.start, a.isPacman)

/-- Everything but the `_eaten` marks and the stored size of the food grid. -/
def GState.erase (s : GState) : GState := { s with eaten := [], food := ⟨0, 0, s.food.data⟩ }

theorem erase_inj {s t : GState} (h : s.erase = t.erase) : ∃ e w k, t = { s with eaten := e, food := ⟨w, k, s.food.data⟩ } := by
  obtain ⟨⟨w, k, d⟩, c, a, l, e, sc, fe, ce, am, lo, wi, ch⟩ := s
  obtain ⟨⟨w', k', d'⟩, c', a', l', e', sc', fe', ce', am', lo', wi', ch'⟩ := t
  simp only [GState.erase, GState.mk.injEq, Grid.mk.injEq, true_and] at h
  obtain ⟨rfl, rfl, rfl, rfl, rfl, rfl, rfl, rfl, rfl, rfl, rfl⟩ := h
  exact ⟨e', w', k', rfl⟩

/-- The outcomes of two computations agree up to `erase`. -/
def Alike (x y : Except PErr GState) : Prop := x.map GState.erase = y.map GState.erase

theorem Alike.ok {s t : GState} (h : s.erase = t.erase) : Alike (.ok s) (.ok t) := congrArg Except.ok h

theorem Alike.cases {x y : Except PErr GState} (h : Alike x y) : (∃ e, x = .error e ∧ y = .error e) ∨ ∃ s t, x = .ok s ∧ y = .ok t ∧ s.erase = t.erase := by
  cases x <;> cases y <;> simp [Alike, Except.map] at h
  · exact Or.inl ⟨_, rfl, by rw [h]⟩
  · exact Or.inr ⟨_, _, rfl, rfl, h⟩

theorem consumeFood_alike {s t : GState} (h : s.erase = t.erase) (p : ℤ × ℤ) : Alike (consumeFood s p) (consumeFood t p) := by
  obtain ⟨e, w, k, rfl⟩ := erase_inj h
  unfold consumeFood
  simp only [Grid.get, Grid.put]
  cases hg : pyGet s.food.data p.1 with
  | error er => exact rfl
  | ok col =>
    simp only
    cases hb : pyGet col p.2 with
    | error er => exact rfl
    | ok b =>
      cases b with
      | false => exact rfl
      | true =>
        simp only
        cases hi : pyIdx s.food.data.length p.1 with
        | none => exact rfl
        | some i =>
          simp only
          cases hc : s.food.data[i]? with
          | none => exact rfl
          | some c =>
            simp only
            cases hj : pyIdx c.length p.2 with
            | none => exact rfl
            | some j =>
              simp only [Grid.count]
              by_cases hz : (List.map (fun col => List.count true col) (s.food.data.set i (c.set j false))).sum = 0 ∧ s.lose = false
              · simp only [hz, and_self, if_true]; exact rfl
              · simp only [hz, if_false]; exact rfl

theorem consume_alike {s t : GState} (h : s.erase = t.erase) (p : ℤ × ℤ) : Alike (consume s p) (consume t p) := by
  unfold consume
  rcases (consumeFood_alike h p).cases with ⟨e, h1, h2⟩ | ⟨s1, t1, h1, h2, h3⟩
  · rw [h1, h2]; rfl
  · rw [h1, h2]
    refine Alike.ok ?_
    obtain ⟨e, w, k, rfl⟩ := erase_inj h3
    unfold consumeCapsule
    simp only
    split <;> rfl

theorem pacApply_alike {s t : GState} (h : s.erase = t.erase) (a : Dir) : Alike (pacApply s a) (pacApply t a) := by
  obtain ⟨e, w, k, rfl⟩ := erase_inj h
  unfold pacApply
  have hl : pacLegal { s with eaten := e, food := ⟨w, k, s.food.data⟩ } = pacLegal s := rfl
  rw [hl]
  cases pacLegal s with
  | error er => exact rfl
  | ok legal =>
    simp only
    by_cases hm : a ∉ legal
    · rw [if_pos hm, if_pos hm]; exact rfl
    · rw [if_neg hm, if_neg hm]
      cases s.agents with
      | nil => exact rfl
      | cons pac rest =>
        simp only
        split
        · refine consume_alike ?_ _
          exact rfl
        · exact rfl

theorem ghostApply_alike {s t : GState} (h : s.erase = t.erase) (a : Dir) (i : ℕ) : Alike (ghostApply s a i) (ghostApply t a i) := by
  obtain ⟨e, w, k, rfl⟩ := erase_inj h
  unfold ghostApply
  have hl : ghostLegal { s with eaten := e, food := ⟨w, k, s.food.data⟩ } i = ghostLegal s i := rfl
  rw [hl]
  cases ghostLegal s i with
  | error er => exact rfl
  | ok legal =>
    simp only
    by_cases hm : a ∉ legal
    · rw [if_pos hm, if_pos hm]; exact rfl
    · rw [if_neg hm, if_neg hm]
      cases s.agents[i]? with
      | none => exact rfl
      | some g => exact rfl

theorem deathAt_alike {s t : GState} (h : s.erase = t.erase) (p : Pos) (i : ℕ) : (deathAt p s i).erase = (deathAt p t i).erase := by
  obtain ⟨e, w, k, rfl⟩ := erase_inj h
  unfold deathAt collide
  simp only
  cases s.agents[i]? with
  | none => exact rfl
  | some g =>
    simp only
    split
    · split
      · exact rfl
      · split <;> exact rfl
    · exact rfl

theorem deaths_alike (p : Pos) (l : List ℕ) : ∀ {s t : GState}, s.erase = t.erase → (l.foldl (deathAt p) s).erase = (l.foldl (deathAt p) t).erase := by
  induction l with
  | nil => intro s t h; exact h
  | cons i l ih => intro s t h; exact ih (deathAt_alike h p i)

theorem checkDeath_alike {s t : GState} (h : s.erase = t.erase) (i : ℕ) : Alike (checkDeath s i) (checkDeath t i) := by
  have hag : s.agents = t.agents := by
    obtain ⟨e, w, k, rfl⟩ := erase_inj h; rfl
  unfold checkDeath
  rw [← hag]
  cases s.agents[0]? with
  | none => exact rfl
  | some p =>
    simp only
    split
    · exact Alike.ok (deaths_alike _ _ h)
    · cases s.agents[i]? with
      | none => exact rfl
      | some g => exact Alike.ok (deathAt_alike h _ _)

/-- The part of a state that its successors depend on. -/
def GState.core (s : GState) : Visible × List Agent × Layout × Bool × Bool := (s.visible, s.agents, s.layout, s.win, s.lose)

theorem next_erase {s t : GState} (h : s.core = t.core) : s.next.erase = t.next.erase := by
  unfold GState.core GState.visible at h
  simp only [Prod.mk.injEq, Visible.mk.injEq] at h
  obtain ⟨⟨-, h1, h2, h3⟩, h4, h5, h6, h7⟩ := h
  simp only [GState.next, GState.erase, h1, h2, h3, h4, h5]

theorem step_alike {s t : GState} (h : s.core = t.core) (i : ℕ) (a : Dir) : Alike (generateSuccessor s i a) (generateSuccessor t i a) := by
  have hn := next_erase h
  have hw : s.win = t.win := congrArg (fun c => c.2.2.2.1) h
  have hl : s.lose = t.lose := congrArg (fun c => c.2.2.2.2) h
  unfold generateSuccessor
  rw [hw, hl]
  split
  · exact rfl
  · split
    · have hn' : ({ s.next with eaten := List.replicate s.next.agents.length false } : GState).erase =
          ({ t.next with eaten := List.replicate t.next.agents.length false } : GState).erase := hn
      rcases (pacApply_alike hn' a).cases with ⟨e, h1, h2⟩ | ⟨s1, t1, h1, h2, h3⟩
      · rw [h1, h2]; rfl
      · rw [h1, h2]
        simp only
        have h4 : ({ s1 with scoreChange := s1.scoreChange - 1 } : GState).erase = ({ t1 with scoreChange := t1.scoreChange - 1 } : GState).erase := by
          obtain ⟨e, w, k, rfl⟩ := erase_inj h3; rfl
        rcases (checkDeath_alike h4 0).cases with ⟨e, h5, h6⟩ | ⟨s2, t2, h5, h6, h7⟩
        · rw [h5, h6]; rfl
        · rw [h5, h6]
          refine Alike.ok ?_
          obtain ⟨e, w, k, rfl⟩ := erase_inj h7; rfl
    · rcases (ghostApply_alike hn a i).cases with ⟨e, h1, h2⟩ | ⟨s1, t1, h1, h2, h3⟩
      · rw [h1, h2]; rfl
      · rw [h1, h2]
        simp only
        have h4 : ({ s1 with agents := s1.agents.modify i decrement } : GState).erase = ({ t1 with agents := t1.agents.modify i decrement } : GState).erase := by
          obtain ⟨e, w, k, rfl⟩ := erase_inj h3; rfl
        rcases (checkDeath_alike h4 i).cases with ⟨e, h5, h6⟩ | ⟨s2, t2, h5, h6, h7⟩
        · rw [h5, h6]; rfl
        · rw [h5, h6]
          refine Alike.ok ?_
          obtain ⟨e, w, k, rfl⟩ := erase_inj h7; rfl

theorem agents_of_views : ∀ (l m : List Agent), l.map (fun a => (a.conf.pos, a.conf.dir, a.scared)) = m.map (fun a => (a.conf.pos, a.conf.dir, a.scared)) →
    l.map (fun a => (a.start, a.isPacman)) = m.map (fun a => (a.start, a.isPacman)) → l = m
  | [], [], _, _ => rfl
  | [], b :: t, h, _ => by simp at h
  | a :: s, [], h, _ => by simp at h
  | a :: s, b :: t, h, k => by
    rw [List.map_cons, List.map_cons, List.cons.injEq] at h k
    obtain ⟨st, ⟨p, d⟩, pc, sc⟩ := a
    obtain ⟨st', ⟨p', d'⟩, pc', sc'⟩ := b
    obtain ⟨h1, h2⟩ := h
    obtain ⟨k1, k2⟩ := k
    simp only [Prod.mk.injEq] at h1 k1
    obtain ⟨rfl, rfl, rfl⟩ := h1
    obtain ⟨rfl, rfl⟩ := k1
    rw [agents_of_views s t h2 k2]

theorem core_of {s t : GState} (hg : SameGame s t) (he : s.pyEq t = true) (hw : s.win = t.win) (hl : s.lose = t.lose) : s.core = t.core := by
  rw [C62_eq] at he
  have ha : s.agents = t.agents := agents_of_views _ _ (congrArg Visible.agents he) hg.2
  unfold GState.core
  rw [he, ha, hg.1, hw, hl]

theorem legal_of_core {s t : GState} (h : s.core = t.core) (i : ℕ) : legalActions s i = legalActions t i := by
  unfold GState.core at h
  simp only [Prod.mk.injEq] at h
  obtain ⟨-, h1, h2, h3, h4⟩ := h
  unfold legalActions pacLegal ghostLegal ghostState
  rw [h1, h2, h3, h4]

/-- The two outcomes are the same error, or equal states of the same game that agree in everything but the `_eaten` marks and the stored size of the food grid. -/
def SameOutcome (x y : Except PErr GState) : Prop :=
  (∃ e, x = .error e ∧ y = .error e) ∨ ∃ s t, x = .ok s ∧ y = .ok t ∧ s.pyEq t = true ∧ SameGame s t ∧ s.win = t.win ∧ s.lose = t.lose ∧
    s.scoreChange = t.scoreChange ∧ s.foodEaten = t.foodEaten ∧ s.capsuleEaten = t.capsuleEaten ∧ s.agentMoved = t.agentMoved

theorem Alike.same {x y : Except PErr GState} (h : Alike x y) : SameOutcome x y := by
  rcases h.cases with h | ⟨s, t, h1, h2, h3⟩
  · exact Or.inl h
  · obtain ⟨e, w, k, rfl⟩ := erase_inj h3
    exact Or.inr ⟨_, _, h1, h2, (C62_eq _ _).2 rfl, ⟨rfl, rfl⟩, rfl, rfl, rfl, rfl, rfl, rfl⟩

theorem core_of_erase {s t : GState} (h : s.erase = t.erase) : s.core = t.core := by
  obtain ⟨e, w, k, rfl⟩ := erase_inj h; rfl

/-- **C62** Equal states of the same game that are both finished in the same way or both open are interchangeable: every agent has the same legal actions in the
same order, and every action leads to the same error or to equal states again. -/
theorem C62_step {s t : GState} (hg : SameGame s t) (he : s.pyEq t = true) (hw : s.win = t.win) (hl : s.lose = t.lose) (i : ℕ) (a : Dir) :
    legalActions s i = legalActions t i ∧ SameOutcome (generateSuccessor s i a) (generateSuccessor t i a) :=
  ⟨legal_of_core (core_of hg he hw hl) i, (step_alike (core_of hg he hw hl) i a).same⟩

theorem play_alike (ms : List (ℕ × Dir)) : ∀ {s t : GState}, s.core = t.core → ms ≠ [] → Alike (playMoves s ms) (playMoves t ms) := by
  induction ms with
  | nil => intro s t h hne; exact absurd rfl hne
  | cons m ms ih =>
    intro s t h _
    unfold playMoves
    rcases (step_alike h m.1 m.2).cases with ⟨e, h1, h2⟩ | ⟨s1, t1, h1, h2, h3⟩
    · rw [h1, h2]; exact rfl
    · rw [h1, h2]
      simp only
      cases ms with
      | nil => exact Alike.ok h3
      | cons m2 ms2 => exact ih (core_of_erase h3) (by simp)

/-- **C62** So they are for whole sequences of moves, of any length. -/
theorem C62_play {s t : GState} (hg : SameGame s t) (he : s.pyEq t = true) (hw : s.win = t.win) (hl : s.lose = t.lose) (ms : List (ℕ × Dir)) (hne : ms ≠ []) :
    SameOutcome (playMoves s ms) (playMoves t ms) :=
  (play_alike ms (core_of hg he hw hl) hne).same

/-! ### All states of one game -/

/-- What a game never changes. -/
def GState.fixed (s : GState) : Layout × List (Config × Bool) := (s.layout, s.agents.map fun a => (a.start, a.isPacman))

theorem sameGame_iff (s t : GState) : SameGame s t ↔ s.fixed = t.fixed := by simp [SameGame, GState.fixed]

theorem map_set_same {A B : Type} (f : A → B) (l : List A) (i : ℕ) (a b : A) (h : l[i]? = some a) (hf : f b = f a) : (l.set i b).map f = l.map f := by
  rw [List.map_set, hf, ← List.map_set]
  congr 1
  obtain ⟨hi, h⟩ := List.getElem?_eq_some_iff.1 h
  rw [← h, List.set_getElem_self]

theorem scareAll_fixed (l : List Agent) : (scareAll l).map (fun a => (a.start, a.isPacman)) = l.map fun a => (a.start, a.isPacman) := by
  cases l with
  | nil => rfl
  | cons a t => simp [scareAll, List.map_map, Function.comp_def]

theorem consume_fixed {s s' : GState} {p : ℤ × ℤ} (h : consume s p = .ok s') : s'.fixed = s.fixed := by
  unfold consume at h
  cases hf : consumeFood s p with
  | error e => rw [hf] at h; cases h
  | ok s1 =>
    rw [hf] at h
    have h1 : s1.fixed = s.fixed := by
      unfold consumeFood at hf
      cases hg : s.food.get p.1 p.2 with
      | error e => rw [hg] at hf; cases hf
      | ok b =>
        rw [hg] at hf
        cases b with
        | false => cases hf; rfl
        | true =>
          simp only at hf
          cases hp : s.food.put p.1 p.2 false with
          | error e => rw [hp] at hf; cases hf
          | ok g =>
            rw [hp] at hf
            simp only at hf
            split at hf <;> cases hf <;> rfl
    cases h
    rw [← h1]
    unfold consumeCapsule
    split
    · simp only [GState.fixed, scareAll_fixed]
    · rfl

theorem pacApply_fixed {s s' : GState} {a : Dir} (h : pacApply s a = .ok s') : s'.fixed = s.fixed := by
  unfold pacApply at h
  cases hl : pacLegal s with
  | error e => rw [hl] at h; cases h
  | ok legal =>
    rw [hl] at h
    simp only at h
    split at h
    · cases h
    · cases hag : s.agents with
      | nil => rw [hag] at h; cases h
      | cons pac rest =>
        rw [hag] at h
        simp only at h
        split at h
        · rw [consume_fixed h]; simp [GState.fixed, hag]
        · cases h; simp [GState.fixed, hag]

theorem ghostApply_fixed {s s' : GState} {a : Dir} {i : ℕ} (h : ghostApply s a i = .ok s') : s'.fixed = s.fixed := by
  unfold ghostApply at h
  cases hl : ghostLegal s i with
  | error e => rw [hl] at h; cases h
  | ok legal =>
    rw [hl] at h
    simp only at h
    split at h
    · cases h
    · cases hag : s.agents[i]? with
      | none => rw [hag] at h; cases h
      | some g =>
        rw [hag] at h
        cases h
        exact congrArg (Prod.mk s.layout) (map_set_same (fun a : Agent => (a.start, a.isPacman)) s.agents i g _ hag rfl)

theorem deathAt_fixed (p : Pos) (s : GState) (i : ℕ) : (deathAt p s i).fixed = s.fixed := by
  unfold deathAt collide
  cases hag : s.agents[i]? with
  | none => rfl
  | some g =>
    simp only
    split
    · split
      · exact congrArg (Prod.mk s.layout) (map_set_same (fun a : Agent => (a.start, a.isPacman)) s.agents i g _ hag rfl)
      · split <;> rfl
    · rfl

theorem deaths_fixed (p : Pos) (l : List ℕ) : ∀ s : GState, (l.foldl (deathAt p) s).fixed = s.fixed := by
  induction l with
  | nil => intro s; rfl
  | cons i l ih => intro s; rw [List.foldl_cons, ih, deathAt_fixed]

theorem checkDeath_fixed {s s' : GState} {i : ℕ} (h : checkDeath s i = .ok s') : s'.fixed = s.fixed := by
  unfold checkDeath at h
  cases h0 : s.agents[0]? with
  | none => rw [h0] at h; cases h
  | some p =>
    rw [h0] at h
    simp only at h
    split at h
    · cases h; exact deaths_fixed _ _ _
    · cases hi : s.agents[i]? with
      | none => rw [hi] at h; cases h
      | some g => rw [hi] at h; cases h; exact deathAt_fixed _ _ _

theorem modify_fixed (l : List Agent) (i : ℕ) : (l.modify i decrement).map (fun a => (a.start, a.isPacman)) = l.map fun a => (a.start, a.isPacman) := by
  induction l generalizing i with
  | nil => cases i <;> rfl
  | cons a t ih =>
    cases i with
    | zero => rfl
    | succ i => rw [List.modify_succ_cons, List.map_cons, List.map_cons, ih]

theorem step_fixed {s s' : GState} {i : ℕ} {a : Dir} (h : generateSuccessor s i a = .ok s') : s'.fixed = s.fixed := by
  have hn : s.next.fixed = s.fixed := by simp only [GState.fixed, GState.next, map_copy]
  unfold generateSuccessor at h
  split at h
  · cases h
  · split at h
    · cases h1 : pacApply { s.next with eaten := List.replicate s.next.agents.length false } a with
      | error e => rw [h1] at h; cases h
      | ok s1 =>
        rw [h1] at h
        simp only at h
        cases h2 : checkDeath { s1 with scoreChange := s1.scoreChange - 1 } 0 with
        | error e => rw [h2] at h; cases h
        | ok s2 =>
          rw [h2] at h
          cases h
          have e1 := checkDeath_fixed h2
          have e2 := pacApply_fixed h1
          exact (e1.trans e2).trans hn
    · cases h1 : ghostApply s.next a i with
      | error e => rw [h1] at h; cases h
      | ok s1 =>
        rw [h1] at h
        simp only at h
        cases h2 : checkDeath { s1 with agents := s1.agents.modify i decrement } i with
        | error e => rw [h2] at h; cases h
        | ok s2 =>
          rw [h2] at h
          cases h
          refine (checkDeath_fixed h2).trans (Eq.trans ?_ ((ghostApply_fixed h1).trans hn))
          simp only [GState.fixed, modify_fixed]

theorem play_fixed (ms : List (ℕ × Dir)) : ∀ {s s' : GState}, playMoves s ms = .ok s' → s'.fixed = s.fixed := by
  induction ms with
  | nil => intro s s' h; cases h; rfl
  | cons m t ih =>
    intro s s' h
    unfold playMoves at h
    cases hst : generateSuccessor s m.1 m.2 with
    | error e => rw [hst] at h; cases h
    | ok s1 => rw [hst] at h; rw [ih h, step_fixed hst]

/-- **C62** All states of a game are states of the same game. Two open ones that are equal, however they were reached, have the same continuations; so a search may
keep only one of them. -/
theorem C62_runs {u s t : GState} {ms ns : List (ℕ × Dir)} (hs : playMoves u ms = .ok s) (ht : playMoves u ns = .ok t) :
    SameGame s t ∧ (s.pyEq t = true → s.Open → t.Open → ∀ more, more ≠ [] →
      (∀ i, legalActions s i = legalActions t i) ∧ SameOutcome (playMoves u (ms ++ more)) (playMoves u (ns ++ more))) := by
  have happ : ∀ (ms : List (ℕ × Dir)) {u s : GState}, playMoves u ms = .ok s → ∀ more, playMoves u (ms ++ more) = playMoves s more := by
    intro ms
    induction ms with
    | nil => intro u s h more; cases h; rfl
    | cons m t ih =>
      intro u s h more
      rw [List.cons_append]
      unfold playMoves at h
      rw [playMoves]
      cases hst : generateSuccessor u m.1 m.2 with
      | error e => rw [hst] at h; cases h
      | ok s1 => rw [hst] at h; simp only; exact ih h more
  have hg : SameGame s t := (sameGame_iff s t).2 ((play_fixed ms hs).trans (play_fixed ns ht).symm)
  refine ⟨hg, fun he hos hot more hne => ⟨fun i => ?_, ?_⟩⟩
  · exact (C62_step hg he (hos.1.trans hot.1.symm) (hos.2.trans hot.2.symm) i .stop).1
  · rw [happ ms hs, happ ns ht]
    exact C62_play hg he (hos.1.trans hot.1.symm) (hos.2.trans hot.2.symm) more hne

/-- **C62** Equal states of a game from an open state are both won or both not won. -/
theorem C62_win {u s t : GState} (h : Placed u) (ho : u.Open) {ms ns : List (ℕ × Dir)} (hs : playMoves u ms = .ok s) (ht : playMoves u ns = .ok t)
    (he : s.pyEq t = true) : s.win = t.win := by
  have hf : s.foodLeft = t.foodLeft := by
    have := congrArg Visible.food ((C62_eq s t).1 he)
    unfold GState.foodLeft Grid.count
    rw [show s.food.data = t.food.data from this]
  obtain ⟨_, _, _, _, _, _, _, ws, ws'⟩ := C53_account h ho ms hs
  obtain ⟨_, _, _, _, _, _, _, wt, wt'⟩ := C53_account h ho ns ht
  cases h1 : s.win <;> cases h2 : t.win
  · rfl
  · obtain ⟨_, a, b⟩ := wt h2
    rw [ws' b (hf.trans a)] at h1; cases h1
  · obtain ⟨_, a, b⟩ := ws h1
    rw [wt' b (hf.symm.trans a)] at h2; cases h2
  · rfl

/-- The two runs of `C62_lose`: Pacman waits 501 times, steps beside the scared ghost, and the ghost is eaten and returns to its start, Pacman's cell; or
Pacman does this at once and then waits once, which kills it. -/
def slowRun : List (ℕ × Dir) := List.replicate 501 (0, .stop) ++ [(0, .east), (1, .west)]

def fastRun : List (ℕ × Dir) := [(0, .east), (1, .west), (0, .stop)]

/-- **C62** Equality does not see whether a game is lost: a lost state and an open one of the same game can be equal, and then only the latter has
successors. -/
theorem C62_lose : ∃ s t, playMoves (corridorState (2, 1) 5) slowRun = .ok s ∧ playMoves (corridorState (2, 1) 5) fastRun = .ok t ∧ s.pyEq t = true ∧
    s.Open ∧ t.lose = true := by
  have h : okAnd (playMoves (corridorState (2, 1) 5) slowRun) (fun s => okAnd (playMoves (corridorState (2, 1) 5) fastRun) fun t =>
      s.pyEq t && !s.win && !s.lose && t.lose) = true := by decide +kernel
  cases h1 : playMoves (corridorState (2, 1) 5) slowRun with
  | error e => rw [h1] at h; cases h
  | ok s =>
    cases h2 : playMoves (corridorState (2, 1) 5) fastRun with
    | error e => rw [h1, h2] at h; cases h
    | ok t =>
      rw [h1, h2] at h
      simp only [okAnd, Bool.and_eq_true, Bool.not_eq_true'] at h
      exact ⟨s, t, rfl, rfl, h.1.1.1, ⟨h.1.1.2, h.1.2⟩, h.2⟩

/-- Equality does not see the walls: two equal states of different layouts with different legal actions. -/
example : (corridorState (2, 1) 5).pyEq { corridorState (2, 1) 5 with layout := { corridorLayout with walls := Grid.new 5 3 true } } = true ∧
    legalActions (corridorState (2, 1) 5) 0 = .ok [.east, .stop] ∧
    legalActions { corridorState (2, 1) 5 with layout := { corridorLayout with walls := Grid.new 5 3 true } } 0 = .ok [] := by
  refine ⟨by decide +kernel, by decide +kernel, by decide +kernel⟩

/-- Two runs of one game that end in equal open states: Pacman and the ghost move in either order. -/
example : okAnd (playMoves (corridorState (1, 1) 0) [(0, .stop), (1, .west)]) (fun s => okAnd (playMoves (corridorState (1, 1) 0) [(1, .west), (0, .stop)]) fun t =>
      s.pyEq t && !s.win && !s.lose && !t.win && !t.lose && !decide (s = t)) = true := by decide +kernel

end Verif.Pac
