import Verif.Model.PacRun
import Verif.Props.PacScore

set_option linter.unusedSectionVars false

/-!
# C55: the control loop
-/

namespace Verif.Pac

theorem playMoves_append (s : GState) (l m : List (ℕ × Dir)) : playMoves s (l ++ m) = match playMoves s l with
    | .error e => .error e
    | .ok s' => playMoves s' m := by
  induction l generalizing s with
  | nil => rfl
  | cons a t ih =>
    simp only [List.cons_append, playMoves]
    cases generateSuccessor s a.1 a.2 with
    | error e => rfl
    | ok s1 => exact ih s1

theorem playMoves_snoc {s s1 s2 : GState} {l : List (ℕ × Dir)} {m : ℕ × Dir} (h1 : playMoves s l = .ok s1) (h2 : generateSuccessor s1 m.1 m.2 = .ok s2) :
    playMoves s (l ++ [m]) = .ok s2 := by
  rw [playMoves_append, h1]
  simp only [playMoves, h2]

/-- **C55** What an agent sees: a copy of a state in an open game, made from a parsed layout, is the state except that the last change of the
score is forgotten. -/
theorem C55_observation {s : GState} (ho : s.Open) {text : List (List Char)} (hl : Layout.ofText text = .ok s.layout) :
    s.deepCopy = .ok { s with scoreChange := 0 } := by
  unfold GState.deepCopy
  rw [C58_deepCopy hl]
  unfold GState.next
  simp only [map_copy]
  obtain ⟨h1, h2⟩ := ho
  rw [h1, h2]

/-- **C55** A copy of a finished state is not finished: `deepCopy` drops the outcome. -/
theorem C55_copy_forgets {s c : GState} (h : s.deepCopy = .ok c) : c.win = false ∧ c.lose = false := by
  unfold GState.deepCopy at h
  split at h
  · cases h
  · cases h; exact ⟨rfl, rfl⟩

/-- The agents' turns in round robin order. -/
def RoundRobin (n : ℕ) (l : List (ℕ × Dir)) : Prop := ∀ j m, l[j]? = some m → m.1 = j % n

theorem RoundRobin.snoc {n : ℕ} {l : List (ℕ × Dir)} (h : RoundRobin n l) (m : ℕ × Dir) (hm : m.1 = l.length % n) : RoundRobin n (l ++ [m]) := by
  intro j x hx
  by_cases hj : j < l.length
  · rw [List.getElem?_append_left hj] at hx; exact h j x hx
  · have hj2 : j = l.length := by
      have := (List.getElem?_eq_some_iff.1 hx).1
      simp only [List.length_append, List.length_singleton] at this
      omega
    subst hj2
    rw [List.getElem?_append_right (le_refl _)] at hx
    simp only [Nat.sub_self, List.getElem?_cons_zero, Option.some.injEq] at hx
    rw [← hx]; exact hm

/-- What holds of the game at any time, after `k` turns. -/
structure RunInv (s0 : GState) (catchExc : Bool) (numAgents k : ℕ) (r : Run) : Prop where
  robin : RoundRobin numAgents r.moveHistory
  moves : r.numMoves = 0
  layout : r.state.layout = s0.layout
  running : r.status = .running → playMoves s0 r.moveHistory = .ok r.state ∧ r.moveHistory.length = k ∧ r.agentIndex = k % numAgents ∧ r.state.Open
  finished : r.status = .finished → playMoves s0 r.moveHistory = .ok r.state ∧ r.moveHistory.length ≤ k ∧ (r.state.win = true ∨ r.state.lose = true)
  failed : r.status = .crashed ∨ (∃ e, r.status = .raised e) →
    r.state.Open ∧ (playMoves s0 r.moveHistory = .ok r.state ∨
      ∃ h m e, r.moveHistory = h ++ [m] ∧ playMoves s0 h = .ok r.state ∧ generateSuccessor r.state m.1 m.2 = .error e)
  caught : (r.status = .crashed → catchExc = true) ∧ (∀ e, r.status = .raised e → catchExc = false ∨ r.state.deepCopy = .error e)

theorem step_layout {s s' : GState} (h : Placed s) {i : ℕ} {a : Dir} (hs : generateSuccessor s i a = .ok s') : s'.layout = s.layout :=
  (C52_placed h [(i, a)] (s' := s') (by unfold playMoves; rw [hs]; rfl)).2.1

theorem turn_inv {s0 : GState} (h0 : Placed s0) (act : ℕ → ℕ → GState → Except PErr Dir) (catchExc : Bool) {n : ℕ} (hn : 0 < n) {k : ℕ} {r : Run}
    (h : RunInv s0 catchExc n k r) (hr : r.status = .running) : RunInv s0 catchExc n (k + 1) (r.turn act catchExc n k) := by
  obtain ⟨hp, hlen, hidx, hopen⟩ := h.running hr
  have hpl := (C52_placed h0 _ hp).1
  unfold Run.turn
  cases hd : r.state.deepCopy with
  | error e =>
    refine ⟨h.robin, h.moves, h.layout, fun hc => (by cases hc), fun hc => (by cases hc), fun _ => ⟨hopen, Or.inl hp⟩, fun hc => (by cases hc), ?_⟩
    intro e' he'
    cases he'
    exact Or.inr hd
  | ok obs =>
    simp only
    cases act k r.agentIndex obs with
    | error e =>
      simp only [Run.fail]
      refine ⟨h.robin, h.moves, h.layout, ?_, ?_, fun _ => ⟨hopen, Or.inl hp⟩, ?_, ?_⟩
      · intro hc; cases catchExc <;> cases hc
      · intro hc; cases catchExc <;> cases hc
      · intro hc
        cases catchExc
        · cases hc
        · rfl
      · intro e' hc
        cases catchExc
        · exact Or.inl rfl
        · cases hc
    | ok a =>
      simp only [Run.execute]
      have hrr : RoundRobin n (r.moveHistory ++ [(r.agentIndex, a)]) := h.robin.snoc _ (by rw [hidx, hlen])
      cases hg : generateSuccessor r.state r.agentIndex a with
      | error e =>
        simp only [Run.fail]
        refine ⟨hrr, h.moves, h.layout, ?_, ?_, fun _ => ⟨hopen, Or.inr ⟨_, _, e, rfl, hp, hg⟩⟩, ?_, ?_⟩
        · intro hc; cases catchExc <;> cases hc
        · intro hc; cases catchExc <;> cases hc
        · intro hc
          cases catchExc
          · cases hc
          · rfl
        · intro e' hc
          cases catchExc
          · exact Or.inl rfl
          · cases hc
      | ok s =>
        have hps : playMoves s0 (r.moveHistory ++ [(r.agentIndex, a)]) = .ok s := playMoves_snoc hp hg
        have hlay : s.layout = s0.layout := (step_layout hpl hg).trans h.layout
        have hil : r.agentIndex ≠ n + 1 := by
          rw [hidx]
          have := Nat.mod_lt k hn
          omega
        have hmod : (k % n + 1) % n = (k + 1) % n := by simp
        simp only [Run.process]
        by_cases ht : (s.win || s.lose) = true
        · rw [if_pos ht]
          refine ⟨hrr, ?_, hlay, fun hc => (by cases hc), ?_, ?_, fun hc => (by cases hc), fun e hc => (by cases hc)⟩
          · simp only [if_neg hil]; exact h.moves
          · intro _; exact ⟨hps, by simp [hlen], by simpa using ht⟩
          · rintro (hc | ⟨e, hc⟩) <;> cases hc
        · rw [if_neg ht]
          refine ⟨hrr, ?_, hlay, ?_, ?_, ?_, ?_, ?_⟩
          · simp only [if_neg hil]; exact h.moves
          · intro _
            refine ⟨hps, by simp [hlen], ?_, ?_⟩
            · simp only [hidx, hmod]
            · unfold GState.Open; simpa using ht
          · intro hc; rw [show r.status = .finished from hc] at hr; cases hr
          · rintro (hc | ⟨e, hc⟩)
            · rw [show r.status = .crashed from hc] at hr; cases hr
            · rw [show r.status = .raised e from hc] at hr; cases hr
          · intro hc; rw [show r.status = .crashed from hc] at hr; cases hr
          · intro e hc; rw [show r.status = .raised e from hc] at hr; cases hr

theorem loop_inv {s0 : GState} (h0 : Placed s0) (act : ℕ → ℕ → GState → Except PErr Dir) (catchExc : Bool) {na : ℕ} (hn : 0 < na) (n : ℕ) :
    ∀ (k : ℕ) (r : Run), RunInv s0 catchExc na k r → RunInv s0 catchExc na (k + n) (Run.loop act catchExc na n k r) := by
  induction n with
  | zero => intro k r h; exact h
  | succ n ih =>
    intro k r h
    unfold Run.loop
    by_cases hr : r.status = .running
    · rw [if_pos hr]
      have := ih (k + 1) _ (turn_inv h0 act catchExc hn h hr)
      rwa [show k + 1 + n = k + (n + 1) by omega] at this
    · rw [if_neg hr]
      refine ⟨h.robin, h.moves, h.layout, fun hc => absurd hc hr, ?_, h.failed, h.caught⟩
      intro hc
      obtain ⟨a, b, c⟩ := h.finished hc
      exact ⟨a, by omega, c⟩

/-- **C55** After any number of turns with any agents: the turns go round in the order of the agents; the state is the result of replaying the
recorded moves, where only a crash may leave one further, refused, move at the end of the record; the loop runs exactly while the game is neither
won nor lost and nothing was raised; `numMoves` is never increased. -/
theorem C55_run {l : Layout} {ghostAgents : ℕ} (h0 : Placed (GState.init l ghostAgents)) (act : ℕ → ℕ → GState → Except PErr Dir) (catchExc : Bool)
    (n : ℕ) : RunInv (GState.init l ghostAgents) catchExc (newGameAgents l ghostAgents) n
      (Run.loop act catchExc (newGameAgents l ghostAgents) n 0 (Run.start l ghostAgents)) := by
  have := loop_inv h0 act catchExc (na := newGameAgents l ghostAgents) (by unfold newGameAgents; omega) n 0 (Run.start l ghostAgents) ?_
  · rwa [Nat.zero_add] at this
  · refine ⟨?_, rfl, rfl, fun _ => ⟨rfl, rfl, by simp [Run.start], rfl, rfl⟩, fun hc => (by cases hc), ?_, fun hc => (by cases hc), fun e hc => (by cases hc)⟩
    · intro j m hm; simp [Run.start] at hm
    · rintro (hc | ⟨e, hc⟩) <;> cases hc

/-- **C55** Agents that answer with a legal action whenever there is one never crash the game: after any number of turns it is still running,
or it was won or lost. Required is that the game and the state have the same number of agents and that the ghosts can move (C52_never_stuck). -/
theorem C55_legal_agents {text : List (List Char)} {l : Layout} (hl : Layout.ofText text = .ok l) {ghostAgents : ℕ}
    (h0 : Placed (GState.init l ghostAgents)) (hsame : (GState.init l ghostAgents).agents.length = newGameAgents l ghostAgents)
    (hstart : ∀ g ∈ (GState.init l ghostAgents).agents, g.conf = g.start ∧ g.scared = 0)
    (hmove : ∀ g ∈ (GState.init l ghostAgents).ghosts, ∃ p d, g.start.pos = cellAt p ∧ l.walls.Free p ∧ d ≠ Dir.stop ∧ l.walls.Free (nextCell p.1 p.2 d))
    (act : ℕ → ℕ → GState → Except PErr Dir)
    (hact : ∀ k i obs legal, legalActions obs i = .ok legal → legal ≠ [] → ∃ a ∈ legal, act k i obs = .ok a) (catchExc : Bool) (n : ℕ) :
    let r := Run.loop act catchExc (newGameAgents l ghostAgents) n 0 (Run.start l ghostAgents)
    (r.status = .running ∧ r.moveHistory.length = n) ∨ (r.status = .finished ∧ (r.state.win = true ∨ r.state.lose = true)) := by
  have hna : 0 < newGameAgents l ghostAgents := by unfold newGameAgents; omega
  -- one turn of a running game does not fail
  have hturn : ∀ k r, RunInv (GState.init l ghostAgents) catchExc (newGameAgents l ghostAgents) k r → r.status = .running →
      (r.turn act catchExc (newGameAgents l ghostAgents) k).status = .running ∨ (r.turn act catchExc (newGameAgents l ghostAgents) k).status = .finished := by
    intro k r h hr
    obtain ⟨hp, hlen, hidx, hopen⟩ := h.running hr
    obtain ⟨hpl, hlay, hal⟩ := C52_placed h0 _ hp
    have hlt : r.agentIndex < r.state.agents.length := by
      rw [hal, hsame, hidx]; exact Nat.mod_lt _ hna
    have hobs := C55_observation hopen (text := text) (by rw [hlay]; exact hl)
    -- the observation has the same legal actions
    have hleg : legalActions { r.state with scoreChange := 0 } r.agentIndex = legalActions r.state r.agentIndex := rfl
    obtain ⟨legal, hlegal, hne⟩ : ∃ legal, legalActions r.state r.agentIndex = .ok legal ∧ legal ≠ [] := by
      by_cases hi : r.agentIndex = 0
      · rw [hi]
        obtain ⟨pac, rest, hag, ⟨⟨x, y⟩, hfree, hpos⟩, _⟩ := hpl.agents
        obtain ⟨legal, h1, h2, _⟩ := C52_pacman_legal hpl.walls (g := pac) (by rw [hag]; rfl) hfree hpos hopen.1 hopen.2
        refine ⟨legal, h1, ?_⟩
        rintro rfl
        have := (h2 .stop).2 hfree
        simp at this
      · have hj : ∃ g, (GState.init l ghostAgents).agents[r.agentIndex]? = some g :=
          ⟨_, List.getElem?_eq_getElem (by rw [← hal]; exact hlt)⟩
        obtain ⟨g, hg⟩ := hj
        have hgm : g ∈ (GState.init l ghostAgents).ghosts := by
          unfold GState.ghosts
          obtain ⟨j, hj⟩ := Nat.exists_eq_succ_of_ne_zero hi
          rw [hj] at hg
          rw [← List.getElem?_tail] at hg
          exact List.mem_of_getElem? hg
        obtain ⟨p, d, hsp, hfp, hd, hnf⟩ := hmove g hgm
        exact C52_never_stuck h0 _ hp hopen.1 hopen.2 hi hg hsp hfp (hstart g (List.mem_of_mem_tail hgm)).1 hd hnf
    obtain ⟨a, ha, hacta⟩ := hact k r.agentIndex _ legal (hleg.trans hlegal) hne
    obtain ⟨l2, hl2, hiff⟩ := C52_legal_iff hpl r.agentIndex a hlt
    rw [hlegal] at hl2
    cases hl2
    obtain ⟨s', hs'⟩ := hiff.1 ha
    unfold Run.turn
    rw [hobs]
    simp only [hacta, Run.execute, hs', Run.process]
    by_cases ht : (s'.win || s'.lose) = true
    · right; rw [if_pos ht]
    · left; rw [if_neg ht]; exact hr
  have hloop : ∀ n k r, RunInv (GState.init l ghostAgents) catchExc (newGameAgents l ghostAgents) k r → r.status = .running ∨ r.status = .finished →
      (Run.loop act catchExc (newGameAgents l ghostAgents) n k r).status = .running ∨
        (Run.loop act catchExc (newGameAgents l ghostAgents) n k r).status = .finished := by
    intro n
    induction n with
    | zero => intro k r _ h; exact h
    | succ n ih =>
      intro k r hi h
      unfold Run.loop
      by_cases hr : r.status = .running
      · rw [if_pos hr]; exact ih _ _ (turn_inv h0 act catchExc hna hi hr) (hturn k r hi hr)
      · rw [if_neg hr]; exact h
  intro r
  have hinv := C55_run h0 act catchExc n
  have hst : RunInv (GState.init l ghostAgents) catchExc (newGameAgents l ghostAgents) 0 (Run.start l ghostAgents) := C55_run h0 act catchExc 0
  rcases hloop n 0 _ hst (Or.inl rfl) with h | h
  · exact Or.inl ⟨h, (hinv.running h).2.1⟩
  · exact Or.inr ⟨h, (hinv.finished h).2.2⟩

/-- **C55** The game has as many agents as the state exactly if the layout has exactly one Pacman. -/
theorem C55_agents {text : List (List Char)} {w : ℕ} (hb : TextBordered text w) (hP : ∃ x y, x < w ∧ y < text.length ∧ charAt text (x, y) = some 'P')
    {l : Layout} (hl : Layout.ofText text = .ok l) (ghostAgents : ℕ) :
    (GState.init l ghostAgents).agents.length = newGameAgents l ghostAgents ↔ (l.agentPositions.countP fun p => p.1) = 1 := by
  obtain ⟨l', h1, _, _, _, hlen⟩ := C58_initial hb hP ghostAgents
  rw [hl] at h1
  cases h1
  rw [hlen]
  unfold newGameAgents
  omega

/-- **C55** `getProgress` is the share of food that is left — it falls from one to zero — except that it is one when the game is over; with no food
at the start it divides by zero. -/
theorem C55_progress {s0 : GState} (h0 : Placed s0) (ho : s0.Open) {r : Run} (hr : r.status = .running) (hp : playMoves s0 r.moveHistory = .ok r.state) :
    (s0.foodLeft = 0 → r.progress s0.foodLeft = .error .value) ∧
    (0 < s0.foodLeft → r.state.Open → ∃ q : ℚ, r.progress s0.foodLeft = .ok q ∧ 0 < q ∧ q ≤ 1 ∧ q * s0.foodLeft = r.state.foodLeft) := by
  constructor
  · intro hz; unfold Run.progress; rw [if_neg (by simp [hr]), if_pos hz]
  · intro hpos hopen
    obtain ⟨_, _, _, _, _, _, hle, _, hwin⟩ := C53_account h0 ho _ hp
    have hfp : 0 < r.state.foodLeft := by
      rcases Nat.eq_zero_or_pos r.state.foodLeft with hz | hz
      · have := hwin hpos hz; rw [hopen.1] at this; cases this
      · exact hz
    have hq : (0 : ℚ) < s0.foodLeft := by exact_mod_cast hpos
    refine ⟨(r.state.foodLeft : ℚ) / s0.foodLeft, ?_, ?_, ?_, ?_⟩
    · unfold Run.progress; rw [if_neg (by simp [hr]), if_neg (by omega)]; rfl
    · exact div_pos (by exact_mod_cast hfp) hq
    · rw [div_le_one hq]; exact_mod_cast hle
    · exact div_mul_cancel₀ _ hq.ne'

/-- Is the character at the cell something other than a wall? -/
def openChar (text : List (List Char)) (p : ℕ × ℕ) : Bool := match charAt text p with
  | some c => c != '%'
  | none => false

/-- Every agent of the text has an open neighbour. -/
def Roomy (text : List (List Char)) (w : ℕ) : Prop := ∀ x < w, ∀ y < text.length, (agentAt text (x, y)).isSome →
  ∃ d ∈ [Dir.north, Dir.south, Dir.east, Dir.west], (nextCell x y d).1 < w ∧ (nextCell x y d).2 < text.length ∧ openChar text (nextCell x y d) = true

instance (text : List (List Char)) (w : ℕ) : Decidable (Roomy text w) := by unfold Roomy; infer_instance

theorem openChar_free {text : List (List Char)} {w : ℕ} {l : Layout} (hs : LayoutSpec text w l) {p : ℕ × ℕ} (h1 : p.1 < w) (h2 : p.2 < text.length)
    (h3 : openChar text p = true) : l.walls.Free p := by
  unfold openChar at h3
  split at h3
  · rename_i c hc
    exact spec_free hs h1 h2 hc (by simpa using h3)
  · cases h3

/-- **C55** For a bordered text with one Pacman in which every agent has an open neighbour, all games of agents that answer legally run until they
are won or lost. -/
theorem C55_text {text : List (List Char)} {w : ℕ} (hb : TextBordered text w) (hroomy : Roomy text w)
    (hP : ((scanCells w text.length).filterMap (agentAt text)).countP (fun p => p.1 = 0) = 1) (ghostAgents : ℕ) :
    ∃ l, Layout.ofText text = .ok l ∧ ∀ (act : ℕ → ℕ → GState → Except PErr Dir),
      (∀ k i obs legal, legalActions obs i = .ok legal → legal ≠ [] → ∃ a ∈ legal, act k i obs = .ok a) → ∀ (catchExc : Bool) (n : ℕ),
      let r := Run.loop act catchExc (newGameAgents l ghostAgents) n 0 (Run.start l ghostAgents)
      (r.status = .running ∧ r.moveHistory.length = n) ∨ (r.status = .finished ∧ (r.state.win = true ∨ r.state.lose = true)) := by
  have hPex : ∃ x y, x < w ∧ y < text.length ∧ charAt text (x, y) = some 'P' := by
    have : 0 < ((scanCells w text.length).filterMap (agentAt text)).countP (fun p => p.1 = 0) := by omega
    rw [List.countP_pos_iff] at this
    obtain ⟨⟨k, q⟩, hm, hk⟩ := this
    obtain ⟨⟨x, y⟩, hc, ha⟩ := List.mem_filterMap.1 hm
    obtain ⟨h1, h2⟩ := (mem_scanCells _ _ _).1 hc
    obtain ⟨_, c, hcc, hkc⟩ := agentAt_some.1 ha
    have hk0 : k = 0 := by simpa using hk
    refine ⟨x, y, h1, h2, ?_⟩
    rw [hk0] at hkc
    unfold agentKey at hkc
    by_cases e : c = 'P'
    · rw [hcc, e]
    · rw [if_neg e] at hkc
      split at hkc
      · cases hkc
      · split at hkc
        · cases hkc
        · split at hkc
          · cases hkc
          · split at hkc
            · cases hkc
            · split at hkc <;> cases hkc
  obtain ⟨l, hl, hs⟩ := C58_parse hb.rect
  obtain ⟨l', hl', hpl, _, hrest, _⟩ := C58_initial hb hPex ghostAgents
  rw [hl] at hl'
  cases hl'
  refine ⟨l, hl, ?_⟩
  intro act hact catchExc n
  refine C55_legal_agents hl hpl ?_ hrest ?_ act hact catchExc n
  · rw [C55_agents hb hPex hl, (spec_agents_perm hs).1]; exact hP
  · intro g hg
    obtain ⟨b, p, hp, rfl⟩ := placeAgents_mem _ _ _ _ (List.mem_of_mem_tail hg)
    obtain ⟨ags, hap, _, _, hmem, _⟩ := hs.agents
    rw [hap] at hp
    obtain ⟨⟨k, q⟩, hkq, he⟩ := List.mem_map.1 hp
    obtain ⟨rfl, rfl⟩ := Prod.mk.inj he
    obtain ⟨x, y, hxy, hx, hy, c, hc, hk⟩ := (hmem k q).1 hkq
    obtain ⟨d, hd, h1, h2, h3⟩ := hroomy x hx y hy (by rw [agentAt_some.2 ⟨rfl, c, hc, hk⟩]; rfl)
    refine ⟨(x, y), d, ?_, spec_free hs hx hy hc ?_, ?_, openChar_free hs h1 h2 h3⟩
    · show toPos q = _
      rw [hxy]; exact toPos_cell (x, y)
    · rintro rfl; rw [show agentKey '%' = none by decide] at hk; cases hk
    · rintro rfl; simp at hd

/-- **C55** The demo meets the hypotheses. -/
theorem C55_demo : TextBordered mediumClassic 20 ∧ Roomy mediumClassic 20 ∧
    ((scanCells 20 mediumClassic.length).filterMap (agentAt mediumClassic)).countP (fun p => p.1 = 0) = 1 :=
  ⟨mediumClassic_bordered, by decide +kernel, by decide +kernel⟩

/-- An agent that answers with the first legal action. -/
def firstAct (_ i : ℕ) (obs : GState) : Except PErr Dir := match legalActions obs i with
  | .error e => .error e
  | .ok [] => .error .value
  | .ok (a :: _) => .ok a

/-- Such agents meet the hypothesis of C55_legal_agents. -/
example : ∀ k i obs legal, legalActions obs i = .ok legal → legal ≠ [] → ∃ a ∈ legal, firstAct k i obs = .ok a := by
  intro k i obs legal h hne
  cases legal with
  | nil => exact absurd rfl hne
  | cons a t => exact ⟨a, List.mem_cons_self, by unfold firstAct; rw [h]⟩

end Verif.Pac
