import Verif.Model.PacFirstPerson
import Verif.Props.PacDisplay
import Mathlib.Tactic.IntervalCases
import Mathlib.Tactic.Linarith

/-!
# C99: the first person display
-/

namespace Verif.Pac

/-! ### Specification -/

/-- A ghost that is not shown: ghosts are not to be shown and it is above the first row. -/
def Unseen (shown : Bool) (a : Agent) : Prop := shown = false ∧ a.isPacman = false ∧ 1 < a.conf.pos.2

instance (shown : Bool) (a : Agent) : Decidable (Unseen shown a) := by unfold Unseen; infer_instance

/-- The agent as the display sees it: an unseen ghost is far away. -/
def veil (shown : Bool) (a : Agent) : Agent := if Unseen shown a then { a with conf := ⟨(-1000, -1000), a.conf.dir⟩ } else a

/-! ### The overridden methods are those of `PacmanGraphics` on veiled agents -/

theorem veil_flag (shown : Bool) (a : Agent) : (veil shown a).isPacman = a.isPacman := by unfold veil; split <;> rfl

theorem veil_dir (shown : Bool) (a : Agent) : (veil shown a).conf.dir = a.conf.dir := by unfold veil; split <;> rfl

theorem veil_scared (shown : Bool) (a : Agent) : (veil shown a).scared = a.scared := by unfold veil; split <;> rfl

theorem veil_pacman (shown : Bool) (a : Agent) (h : a.isPacman = true) : veil shown a = a := by
  unfold veil
  rw [if_neg]
  rintro ⟨_, h2, _⟩
  rw [h] at h2; cases h2

theorem fpPos_veil (shown : Bool) (a : Agent) : fpPos shown a = (veil shown a).conf.pos := by
  unfold fpPos veil
  by_cases h : Unseen shown a
  · rw [if_pos h, if_pos (by simp [h.1, h.2.1, h.2.2])]
  · rw [if_neg h, if_neg]
    intro h'
    simp only [Bool.and_eq_true, Bool.not_eq_true', decide_eq_true_eq] at h'
    exact h ⟨h'.1.1, h'.1.2, h'.2⟩

/-- The entries of `agentImages`, veiled. -/
def veilEntry (shown : Bool) (p : Agent × List ℕ) : Agent × List ℕ := (veil shown p.1, p.2)

/-- The display of `PacmanGraphics` that shows the same. -/
def veilDisp (shown : Bool) (d : Disp) : Disp := { d with agents := d.agents.map (veilEntry shown) }

theorem fpAgentItems_veil (shown : Bool) (sn : ℚ → ℚ) (g : ℚ) (h : ℕ) (a : Agent) (i : ℕ) (h0 : a.scared = 0) :
    fpAgentItems shown sn g h a i = agentItems sn g h (veil shown a) i := by
  unfold fpAgentItems agentItems fpPacmanItems pacmanItems fpGhostItems ghostItems
  rw [fpPos_veil, veil_flag, veil_dir]
  have hcol : ghostColor (veil shown a) i = fpGhostColor i := by
    unfold ghostColor fpGhostColor
    rw [if_neg (by rw [veil_scared, h0]; decide)]
    rfl
  rw [hcol]
  rfl

theorem fpDrawAgents_veil (shown : Bool) (sn : ℚ → ℚ) (g : ℚ) (h : ℕ) (l : List Agent) (h0 : ∀ a ∈ l, a.scared = 0) : ∀ (i : ℕ) (c : Canvas)
    (r : Canvas × List (Agent × List ℕ)), drawAgents sn g h i (l.map (veil shown)) c = .ok r →
    ∃ r', fpDrawAgents shown sn g h i l c = .ok (r.1, r') ∧ r.2 = r'.map (veilEntry shown) := by
  induction l with
  | nil =>
    intro i c r hr
    simp only [List.map_nil, drawAgents, Except.ok.injEq] at hr
    subst hr
    exact ⟨[], rfl, rfl⟩
  | cons a t ih =>
    intro i c r hr
    simp only [List.map_cons, drawAgents] at hr
    simp only [fpDrawAgents]
    rw [fpAgentItems_veil _ _ _ _ _ _ (h0 a (by simp))]
    cases ha : agentItems sn g h (veil shown a) i with
    | error e => rw [ha] at hr; cases hr
    | ok its =>
      rw [ha] at hr
      simp only at hr ⊢
      cases hd : drawAgents sn g h (i + 1) (t.map (veil shown)) (c.addAll its).1 with
      | error e => rw [hd] at hr; cases hr
      | ok r1 =>
        rw [hd] at hr
        simp only [Except.ok.injEq] at hr
        obtain ⟨r', e1, e2⟩ := ih (fun b hb => h0 b (by simp [hb])) (i + 1) _ _ hd
        rw [e1]
        subst hr
        exact ⟨(a, (c.addAll its).2) :: r', rfl, by simp [veilEntry, e2]⟩

theorem fpDrawAgents_fst (shown : Bool) (sn : ℚ → ℚ) (g : ℚ) (h : ℕ) (l : List Agent) : ∀ (i : ℕ) (c : Canvas)
    (r : Canvas × List (Agent × List ℕ)), fpDrawAgents shown sn g h i l c = .ok r → r.2.map Prod.fst = l := by
  induction l with
  | nil => intro i c r hr; simp only [fpDrawAgents, Except.ok.injEq] at hr; subst hr; rfl
  | cons a t ih =>
    intro i c r hr
    simp only [fpDrawAgents] at hr
    split at hr
    · cases hr
    · rename_i its _
      split at hr
      · cases hr
      · rename_i r1 h1
        simp only [Except.ok.injEq] at hr
        subst hr
        simp only [List.map_cons, ih _ _ _ h1]

theorem fpInitialize_veil (shown : Bool) (sn : ℚ → ℚ) (g : ℚ) (s : GState) (h0 : ∀ a ∈ s.agents, a.scared = 0) (d : Disp)
    (hd : Disp.initialize sn g { s with agents := s.agents.map (veil shown) } = .ok d) :
    ∃ d', fpInitialize shown sn g s = .ok d' ∧ d = veilDisp shown d' ∧ d'.agents.map Prod.fst = s.agents := by
  unfold Disp.initialize at hd
  unfold fpInitialize
  simp only [bind, Except.bind, pure, Except.pure] at hd ⊢
  cases hw : wallsFrom s.layout.walls g s.layout.height 0 s.layout.walls.data with
  | error e => rw [hw] at hd; cases hd
  | ok walls =>
    rw [hw] at hd
    simp only at hd ⊢
    generalize hc : (drawCapsules g s.layout.height s.layout.capsules _ Dict.empty) = cc at hd ⊢
    cases ha : drawAgents sn g s.layout.height 0 (s.agents.map (veil shown)) cc.1 with
    | error e => rw [ha] at hd; cases hd
    | ok r =>
      rw [ha] at hd
      simp only [Except.ok.injEq] at hd
      obtain ⟨r', e1, e2⟩ := fpDrawAgents_veil shown sn g s.layout.height s.agents h0 0 _ _ ha
      rw [e1]
      refine ⟨_, rfl, ?_, fpDrawAgents_fst _ _ _ _ _ _ _ _ e1⟩
      rw [← hd]
      unfold veilDisp
      simp only [e2]

theorem fpMoveAgent_veil (shown : Bool) (sn : ℚ → ℚ) (slow : Bool) (d : Disp) (i : ℕ) (a : Agent)
    (hfl : ∀ p im, d.agents[i]? = some (p, im) → p.isPacman = a.isPacman) (e : Disp)
    (he : (veilDisp shown d).moveAgent sn slow i (veil shown a) = .ok e) :
    ∃ e', fpMoveAgent shown sn slow d i a = .ok e' ∧ e = veilDisp shown e' ∧ e'.agents.map Prod.fst = (d.agents.map Prod.fst).set i a := by
  unfold Disp.moveAgent at he
  unfold fpMoveAgent
  have hget : (veilDisp shown d).agents[i]? = (d.agents[i]?).map (veilEntry shown) := by
    unfold veilDisp; rw [List.getElem?_map]
  rw [hget] at he
  cases hp : d.agents[i]? with
  | none => rw [hp] at he; cases he
  | some p =>
    obtain ⟨p, im⟩ := p
    have hpa := hfl p im hp
    rw [hp] at he
    simp only [Option.map_some, veilEntry, veil_flag] at he
    simp only
    rw [if_neg (by rw [hpa]; simp)] at he ⊢
    simp only [bind, Except.bind, pure, Except.pure] at he ⊢
    rw [hget, hp] at he
    rw [hp]
    simp only [Option.map_some, veilEntry] at he
    simp only
    by_cases hpac : a.isPacman = true
    · rw [if_pos hpac] at he ⊢
      have hmove : animatePacman sn slow (veilDisp shown d) (veil shown a) (veil shown p) im (veilDisp shown d).canvas =
          fpAnimatePacman shown sn slow d a p im d.canvas := by
        unfold animatePacman fpAnimatePacman movePacman
        simp only [fpPos_veil, veil_dir]
        rfl
      rw [hmove] at he
      cases hc : fpAnimatePacman shown sn slow d a p im d.canvas with
      | error x => rw [hc] at he; cases he
      | ok c =>
        rw [hc] at he
        simp only [Except.ok.injEq] at he
        refine ⟨_, rfl, ?_, ?_⟩
        · rw [← he]
          unfold veilDisp
          simp only [List.map_set, veilEntry]
        · simp only [List.map_set]
    · rw [if_neg hpac] at he ⊢
      have hmove : moveGhost (veilDisp shown d) (veil shown a) i (veil shown p) im (veilDisp shown d).canvas = fpMoveGhost shown d a i p im d.canvas := by
        unfold moveGhost fpMoveGhost ghostColor
        simp only [fpPos_veil, veil_dir, veil_scared]
        rfl
      rw [hmove] at he
      cases hc : fpMoveGhost shown d a i p im d.canvas with
      | error x => rw [hc] at he; cases he
      | ok c =>
        rw [hc] at he
        simp only [Except.ok.injEq] at he
        refine ⟨_, rfl, ?_, ?_⟩
        · rw [← he]
          unfold veilDisp
          simp only [List.map_set, veilEntry]
        · simp only [List.map_set]

theorem removeFood_veil (shown : Bool) (x y : Disp) (p : ℤ × ℤ) (hy : removeFood (veilDisp shown x) p = .ok y) :
    ∃ y', removeFood x p = .ok y' ∧ y = veilDisp shown y' ∧ y'.agents = x.agents := by
  unfold removeFood at hy ⊢
  simp only [veilDisp] at hy
  cases hc : pyGet x.food p.1 with
  | error e => rw [hc] at hy; cases hy
  | ok col =>
    rw [hc] at hy
    simp only at hy ⊢
    cases hn : pyGet col p.2 with
    | error e => rw [hn] at hy; cases hy
    | ok o =>
      rw [hn] at hy
      cases o with
      | none => simp only [Except.ok.injEq] at hy; exact ⟨x, rfl, by rw [← hy]; rfl, rfl⟩
      | some id => simp only [Except.ok.injEq] at hy; exact ⟨_, rfl, by rw [← hy]; rfl, rfl⟩

theorem removeCapsule_veil (shown : Bool) (x y : Disp) (p : ℤ × ℤ) (hy : removeCapsule (veilDisp shown x) p = .ok y) :
    ∃ y', removeCapsule x p = .ok y' ∧ y = veilDisp shown y' ∧ y'.agents = x.agents := by
  unfold removeCapsule at hy ⊢
  simp only [veilDisp] at hy
  cases hn : x.capsules.get? p with
  | none => rw [hn] at hy; cases hy
  | some id => rw [hn] at hy; simp only [Except.ok.injEq] at hy; exact ⟨_, rfl, by rw [← hy]; rfl, rfl⟩

theorem fpUpdate_veil (shown : Bool) (sn : ℚ → ℚ) (slow : Bool) (d : Disp) (s : GState)
    (hfl : ∀ (i : ℕ) p im a, d.agents[i]? = some (p, im) → s.agents[i]? = some a → p.isPacman = a.isPacman) (e : Disp)
    (he : (veilDisp shown d).update sn slow { s with agents := s.agents.map (veil shown) } = .ok e) :
    ∃ e', fpUpdate shown sn slow d s = .ok e' ∧ e = veilDisp shown e' ∧
      ∀ i a, s.agentMoved = some i → s.agents[i]? = some a → e'.agents.map Prod.fst = (d.agents.map Prod.fst).set i a := by
  unfold Disp.update at he
  unfold fpUpdate
  simp only at he
  cases hi : s.agentMoved with
  | none => rw [hi] at he; cases he
  | some i =>
    rw [hi] at he
    simp only [List.getElem?_map] at he ⊢
    cases ha : s.agents[i]? with
    | none => rw [ha] at he; cases he
    | some a =>
      rw [ha] at he
      simp only [Option.map_some, bind, Except.bind, pure, Except.pure] at he ⊢
      cases h1 : (veilDisp shown d).moveAgent sn slow i (veil shown a) with
      | error x => rw [h1] at he; cases he
      | ok d1 =>
        rw [h1] at he
        obtain ⟨d1', f1, f2, f3⟩ := fpMoveAgent_veil shown sn slow d i a (fun p im hp => hfl i p im a hp ha) d1 h1
        rw [f1]
        subst f2
        simp only at he ⊢
        have hend : ∀ x : Disp, x.agents = d1'.agents → ∀ i' a', some i = some i' → s.agents[i']? = some a' →
            x.agents.map Prod.fst = (d.agents.map Prod.fst).set i' a' := by
          intro x hx i' a' hi' ha'
          obtain rfl : i = i' := Option.some.inj hi'
          obtain rfl : a = a' := Option.some.inj (ha.symm.trans ha')
          rw [hx, f3]
        have hcaps : ∀ (x : Disp) (q : Option (ℤ × ℤ)), x.agents = d1'.agents →
            (match q with
              | none => Except.ok { veilDisp shown x with canvas := (veilDisp shown x).canvas.change (veilDisp shown x).scoreText fun it => { it with text := scoreStr s.score } }
              | some p => Except.bind (removeCapsule (veilDisp shown x) p) fun v =>
                Except.ok { v with canvas := v.canvas.change v.scoreText fun it => { it with text := scoreStr s.score } }) = Except.ok e →
            ∃ e', (match q with
              | none => Except.ok { x with canvas := x.canvas.change x.scoreText fun it => { it with text := scoreStr s.score } }
              | some p => Except.bind (removeCapsule x p) fun v =>
                Except.ok { v with canvas := v.canvas.change v.scoreText fun it => { it with text := scoreStr s.score } }) = Except.ok e' ∧
              e = veilDisp shown e' ∧ ∀ i' a', some i = some i' → s.agents[i']? = some a' → e'.agents.map Prod.fst = (d.agents.map Prod.fst).set i' a' := by
          intro x q hx hq
          cases q with
          | none =>
            simp only [Except.ok.injEq] at hq
            exact ⟨_, rfl, by rw [← hq]; rfl, hend _ hx⟩
          | some p =>
            simp only at hq ⊢
            cases hr : removeCapsule (veilDisp shown x) p with
            | error z => rw [hr] at hq; cases hq
            | ok v =>
              rw [hr] at hq
              obtain ⟨v', k1, k2, k3⟩ := removeCapsule_veil shown x v p hr
              subst k2
              rw [k1]
              simp only [Except.bind, Except.ok.injEq] at hq
              exact ⟨_, rfl, by rw [← hq]; rfl, hend _ (k3.trans hx)⟩
        cases hf : s.foodEaten with
        | none =>
          rw [hf] at he
          cases hq : s.capsuleEaten with
          | none => rw [hq] at he; exact hcaps d1' none rfl he
          | some q => rw [hq] at he; exact hcaps d1' (some q) rfl he
        | some p =>
          rw [hf] at he
          simp only at he ⊢
          cases hr : removeFood (veilDisp shown d1') p with
          | error z => rw [hr] at he; cases he
          | ok v =>
            rw [hr] at he
            obtain ⟨v', k1, k2, k3⟩ := removeFood_veil shown d1' v p hr
            subst k2
            rw [k1]
            cases hq : s.capsuleEaten with
            | none => rw [hq] at he; exact hcaps v' none k3 he
            | some q => rw [hq] at he; exact hcaps v' (some q) k3 he

/-- The agent that moved. -/
theorem step_moved {s s' : GState} (h : Placed s) {i : ℕ} {a : Dir} (hs : generateSuccessor s i a = .ok s') : s'.agentMoved = some i := by
  obtain ⟨_, _, ⟨rfl, pac, rest, p, food', hst⟩ | ⟨hi, pac, pre, post, gh, pe, qe, e, ld, hst⟩⟩ := step_cases h hs
  · rw [hst.result]; rfl
  · rw [hst.result, hst.index]; rfl

theorem fpPlayShown_append {shown : Bool} {sn : ℚ → ℚ} {slow : Bool} (l m : List (ℕ × Dir)) : ∀ r : Disp × GState, fpPlayShown shown sn slow r (l ++ m) =
    match fpPlayShown shown sn slow r l with
    | .error e => .error e
    | .ok r' => fpPlayShown shown sn slow r' m := by
  induction l with
  | nil => intro r; rfl
  | cons x t ih =>
    rintro ⟨d, s⟩
    simp only [List.cons_append, fpPlayShown]
    cases generateSuccessor s x.1 x.2 with
    | error e => rfl
    | ok s' =>
      simp only
      cases fpUpdate shown sn slow d s' with
      | error e => rfl
      | ok d' => exact ih (d', s')

/-! ### The run -/

theorem fp_run {sn : ℚ → ℚ} {g : ℚ} {s0 : GState} (h0 : Fresh s0) (shown : Bool) {S : List Slot} {d0 : Disp}
    (hd : Shows sn g S s0.layout (veilDisp shown d0) s0 (s0.agents.map (veil shown))) (hd0 : d0.agents.map Prod.fst = s0.agents)
    (slow : Bool) (ms : List (ℕ × Dir)) : ∀ s, playMoves s0 ms = .ok s →
    ∃ d seen, fpPlayShown shown sn slow (d0, s0) ms = .ok (d, s) ∧ d.agents.map Prod.fst = seen ∧
      Shows sn g S s0.layout (veilDisp shown d) s (seen.map (veil shown)) ∧ Kept s0.layout s0.agents.length s ∧
      seen.map Agent.isPacman = s.agents.map Agent.isPacman ∧
      ∀ (i : ℕ) (a : Agent), seen[i]? = some a → ∃ k, LastOwn ms i k ∧ ∃ s1, playMoves s0 (ms.take k) = .ok s1 ∧ s1.agents[i]? = some a := by
  have hvf : ∀ l : List Agent, (l.map (veil shown)).map Agent.isPacman = l.map Agent.isPacman := by
    intro l
    rw [List.map_map]
    exact List.map_congr_left fun a _ => veil_flag shown a
  induction ms using List.reverseRecOn with
  | nil =>
    intro s hs
    cases hs
    exact ⟨d0, s0.agents, rfl, hd0, hd, h0.kept, rfl, fun i a ha => ⟨0, ⟨by simp, Or.inl rfl, by simp⟩, s0, rfl, ha⟩⟩
  | append_singleton ms m ih =>
    intro s hs
    rw [playMoves_append] at hs
    cases h1 : playMoves s0 ms with
    | error e => rw [h1] at hs; cases hs
    | ok s1 =>
      rw [h1] at hs
      simp only [playMoves] at hs
      cases h2 : generateSuccessor s1 m.1 m.2 with
      | error e => rw [h2] at hs; cases hs
      | ok s2 =>
        rw [h2] at hs
        simp only [Except.ok.injEq] at hs
        subst hs
        obtain ⟨d, seen, e1, e0, e2, e3, e4, e5⟩ := ih s1 h1
        obtain ⟨d', b, f1, f2, f3, f4, f5, f6⟩ := step_shows_map h0.few (veil shown) (veil_flag shown) (veil_pacman shown) e3 e2
          ((hvf seen).trans e4) slow h2
        have hseen : seen.length = s1.agents.length := by simpa using congrArg List.length e4
        obtain ⟨d2, g1, g2, g3⟩ := fpUpdate_veil shown sn slow d s2 (by
          intro i p im a hp ha
          have k1 : (seen.map Agent.isPacman)[i]? = some p.isPacman := by
            rw [← e0, List.map_map, List.getElem?_map, hp]; rfl
          rw [e4, ← f6, List.getElem?_map, ha] at k1
          exact (Option.some.inj k1).symm) d' f1
        subst g2
        refine ⟨d2, seen.set m.1 b, ?_, ?_, ?_, f5, ?_, ?_⟩
        · rw [fpPlayShown_append, e1]
          simp only [fpPlayShown, h2, g1]
        · rw [g3 m.1 b (step_moved e3.placed h2) f2, e0]
        · rw [List.map_set]; exact f4
        · rw [f6, ← e4, List.map_set]
          apply List.ext_getElem?
          intro k
          rw [List.getElem?_set]
          by_cases hk : m.1 = k
          · subst hk
            rw [if_pos rfl]
            have hlt : m.1 < (seen.map Agent.isPacman).length := by rw [List.length_map, hseen, e3.length]; exact f3
            rw [if_pos hlt]
            have : (s2.agents.map Agent.isPacman)[m.1]? = some b.isPacman := by rw [List.getElem?_map, f2]; rfl
            rw [f6, ← e4] at this
            rw [this]
          · rw [if_neg hk]
        · intro i a ha
          rw [List.getElem?_set] at ha
          by_cases hk : m.1 = i
          · subst hk
            rw [if_pos rfl, if_pos (by rw [hseen, e3.length]; exact f3)] at ha
            cases ha
            refine ⟨ms.length + 1, LastOwn.snoc_self m, s2, ?_, f2⟩
            rw [List.take_of_length_le (by simp)]
            exact playMoves_snoc h1 h2
          · rw [if_neg hk] at ha
            obtain ⟨k, hk1, s', hk2, hk3⟩ := e5 i a ha
            refine ⟨k, hk1.snoc_other hk, s', ?_, hk3⟩
            rw [List.take_append_of_le_length hk1.1]
            exact hk2

theorem partSlots_veil (shown : Bool) (l : List Agent) : ∀ i : ℕ, partSlots i (l.map (veil shown)) = partSlots i l := by
  induction l with
  | nil => intro i; rfl
  | cons a t ih =>
    intro i
    simp only [List.map_cons, partSlots, partCount, veil_flag, ih]

/-! ### The theorems -/

/-- **C99** The first person display follows the game in the same way as the other one (C71), but with unseen ghosts moved away. -/
theorem C99_screen {sn : ℚ → ℚ} (hsn : sn 0 = 0) (g : ℚ) {s0 : GState} (h0 : Fresh s0) (h1 : ∀ a ∈ s0.agents, a.scared = 0) (shown slow : Bool) :
    ∃ walls d0, fpInitialize shown sn g s0 = .ok d0 ∧ wallsFrom s0.layout.walls g s0.layout.height 0 s0.layout.walls.data = .ok walls ∧
      d0.visible = picture g walls s0 (s0.agents.map (veil shown)) ∧
      ∀ ms s, playMoves s0 ms = .ok s → ∃ (d : Disp) (seen : List Agent), fpPlayShown shown sn slow (d0, s0) ms = .ok (d, s) ∧
        d.visible = picture g walls s (seen.map (veil shown)) ∧ seen.length = s.agents.length ∧
        ∀ (i : ℕ) (a : Agent), seen[i]? = some a → ∃ k, LastOwn ms i k ∧ ∃ s1, playMoves s0 (ms.take k) = .ok s1 ∧ s1.agents[i]? = some a := by
  have hsh : s0.layout.food.Shaped := by rw [← h0.food]; exact h0.placed.foodShaped
  have hvf : ∀ l : List Agent, (l.map (veil shown)).map Agent.isPacman = l.map Agent.isPacman := by
    intro l
    rw [List.map_map]
    exact List.map_congr_left fun a _ => veil_flag shown a
  obtain ⟨walls, d1, hw, hi, hs⟩ := initialize_shows (sn := sn) (g := g) (s := { s0 with agents := s0.agents.map (veil shown) })
    h0.placed.walls.shaped h0.food hsh h0.capsules h0.capsulesNodup (by rw [List.length_map]; exact h0.few) h0.score
  obtain ⟨d0, e1, e2, e3⟩ := fpInitialize_veil shown sn g s0 h1 d1 hi
  subst e2
  have hslots : slots walls s0.layout (s0.agents.map (veil shown)) = slots walls s0.layout s0.agents := by
    unfold slots
    rw [partSlots_veil]
  have hs' : Shows sn g (slots walls s0.layout s0.agents) s0.layout (veilDisp shown d0) s0 (s0.agents.map (veil shown)) := by
    rw [← hslots]; exact ⟨hs.ids, hs.grid, hs.agents, hs.canvas⟩
  have hvis : ∀ d : Disp, (veilDisp shown d).visible = d.visible := fun _ => rfl
  refine ⟨walls, d0, e1, hw, (hvis d0).symm.trans (shows_picture hsn h0 hs' h0.kept (hvf _)), ?_⟩
  intro ms s hrun
  obtain ⟨d, seen, k1, _, k2, k3, k4, k5⟩ := fp_run h0 shown hs' e3 slow ms s hrun
  exact ⟨d, seen, k1, (hvis d).symm.trans (shows_picture hsn h0 k2 k3 ((hvf _).trans k4)), by simpa using congrArg List.length k4, k5⟩

/-- **C99** An unseen ghost is drawn left of the window: every `x` of every item of its picture is negative. -/
theorem C99_away {g : ℚ} (hg : 0 < g) (h : ℕ) {a : Agent} (ha : Unseen false a) (i : ℕ) :
    ∀ it ∈ agentPicture g h (veil false a) i, ∀ k x, it.coords[2 * k]? = some x → x < 0 := by
  have hp : (veil false a).isPacman = false := by rw [veil_flag]; exact ha.2.1
  have hpos : (veil false a).conf.pos = (-1000, -1000) := by unfold veil; rw [if_pos ha]
  have hv : ∀ d : Dir, (-1 : ℚ) ≤ d.vec.1 ∧ (d.vec.1 : ℚ) ≤ 1 := by intro d; cases d <;> simp [Dir.vec]
  obtain ⟨v1, v2⟩ := hv (veil false a).conf.dir
  have w1 : 0 ≤ g * (((veil false a).conf.dir.vec.1 : ℚ) + 1) := mul_nonneg hg.le (by linarith)
  have w2 : 0 ≤ g * (1 - ((veil false a).conf.dir.vec.1 : ℚ)) := mul_nonneg hg.le (by linarith)
  intro it hit k x hk
  have hlt := (List.getElem?_eq_some_iff.1 hk).1
  unfold agentPicture at hit
  rw [hp] at hit
  simp only [ghostPicture, centre, hpos, disc, bodyShape, List.mem_cons, List.not_mem_nil, or_false, if_false, Bool.false_eq_true] at hit
  rcases hit with rfl | rfl | rfl | rfl | rfl <;>
  simp only [List.flatMap_cons, List.flatMap_nil, List.cons_append, List.nil_append, List.length_cons, List.length_nil] at hk hlt <;>
  (have hk12 : k < 12 := by omega) <;>
  interval_cases k <;>
  simp at hk hlt <;>
  (try subst hk) <;>
  nlinarith

/-- **C99** Pacman, ghosts of the first row and, if ghosts are to be shown, all ghosts are drawn where they are. -/
theorem C99_seen (shown : Bool) (a : Agent) (h : shown = true ∨ a.isPacman = true ∨ a.conf.pos.2 ≤ 1) : veil shown a = a := by
  unfold veil
  rw [if_neg]
  rintro ⟨h1, h2, h3⟩
  rcases h with h | h | h
  · rw [h1] at h; cases h
  · rw [h2] at h; cases h
  · exact absurd h3 (not_lt.2 h)

/-! ### A case -/

/-- Two columns: Pacman below, a ghost in the second row, with food beside them. -/
def shaftLayout : Layout :=
  ⟨4, 4, ⟨4, 4, [[true, true, true, true], [true, false, false, true], [true, false, false, true], [true, true, true, true]]⟩,
    ⟨4, 4, [[false, false, false, false], [false, false, true, false], [false, false, false, false], [false, false, false, false]]⟩,
    [], [(true, (1, 1)), (false, (2, 2))], 1, ["%%%%", "%.G%", "%P %", "%%%%"].map String.toList, 1⟩

/-- The start of a game in it. -/
def shaft : GState := GState.init shaftLayout 1

theorem shaft_fresh : Fresh shaft ∧ (∀ a ∈ shaft.agents, a.scared = 0) ∧ ∀ a ∈ shaft.agents, Unseen false a ↔ a.isPacman = false := by
  refine ⟨⟨⟨⟨⟨rfl, by decide⟩, ?_⟩, ⟨rfl, by decide⟩, rfl, rfl, ?_, rfl⟩, rfl, rfl, rfl, rfl, by decide, rfl, ?_, by decide⟩, by decide, ?_⟩
  · have : ∀ x < 4, ∀ y < 4, shaft.layout.walls.At x y false → 0 < x ∧ x + 1 < 4 ∧ 0 < y ∧ y + 1 < 4 := by decide
    intro x y h
    have hs : shaft.layout.walls.Shaped := ⟨rfl, by decide⟩
    obtain ⟨hx, hy⟩ := hs.lt_of_at h
    exact this x hx y hy h
  · refine ⟨⟨⟨toPos (1, 1), .stop⟩, ⟨toPos (1, 1), .stop⟩, true, 0⟩, [⟨⟨toPos (2, 2), .stop⟩, ⟨toPos (2, 2), .stop⟩, false, 0⟩], rfl, ?_, ?_⟩
    · exact ⟨(1, 1), by decide, by decide +kernel⟩
    · intro g hg
      rw [List.mem_singleton.1 hg]
      have hon : OnFree shaft.layout.walls ⟨toPos (2, 2), .stop⟩ := ⟨(2, 2), by decide, by decide +kernel⟩
      exact ⟨hon, Or.inl hon, by decide⟩
  · intro i a h
    have hi := (List.getElem?_eq_some_iff.1 h).1
    have h2 : i < 2 := hi
    match i, h2, h with
    | 0, _, h => cases h; rfl
    | 1, _, h => cases h; rfl
  · intro a ha
    refine ⟨fun h => h.2.1, fun h => ?_⟩
    have hag : shaft.agents = [⟨⟨toPos (1, 1), .stop⟩, ⟨toPos (1, 1), .stop⟩, true, 0⟩, ⟨⟨toPos (2, 2), .stop⟩, ⟨toPos (2, 2), .stop⟩, false, 0⟩] := rfl
    rw [hag] at ha
    simp only [List.mem_cons, List.not_mem_nil, or_false] at ha
    rcases ha with rfl | rfl
    · cases h
    · exact ⟨rfl, rfl, by simp [toPos]⟩

end Verif.Pac
