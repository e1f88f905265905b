import Verif.Model.PacTimed
import Verif.Props.PacTimeout
import Verif.Props.PacRun

/-!
# C82: games with time limits
-/

namespace Verif.Pac

/-- How a turn of an agent is judged; times in microseconds since the turn began. -/
inductive Verdict
  /-- The action is carried out; the turn took `t`. -/
  | move (d : Dir) (t : ℕ)
  /-- The agent raised an exception after `t`; the alarm for `al` is still pending. -/
  | own (t al : ℕ)
  /-- The agent was interrupted after `t`. -/
  | late (t : ℕ)
  /-- The agent answered after `t`, which is more than the limit. -/
  | warned (t : ℕ)
  /-- The agent answered after `t`, and has used more than the limit in the game. -/
  | total (t : ℕ)

/-- The judgement of `getAction` after an observation that took `o`; `T` is the limit in seconds, `before` the time used in the game. -/
def judgeAction (T o before : ℕ) (a : Call Dir) : Verdict :=
  let L := 1000000 * (T - o / 1000000)
  if L ≤ a.time then .late (o + L)
  else match a.res with
    | none => .own (o + a.time) (o + L)
    | some d => if 1000000 * T < o + a.time then .warned (o + a.time)
      else if 1000000 * T < before + (o + a.time) then .total (o + a.time)
      else .move d (o + a.time)

/-- The judgement of a turn; `o` is the call of `observationFunction` if there is one. -/
def judge (T before : ℕ) (o : Option (Call Unit)) (a : Call Dir) : Verdict :=
  match o with
  | none => judgeAction T 0 before a
  | some c => if 1000000 * T ≤ c.time then .late (1000000 * T)
    else if c.res = none then .own c.time (1000000 * T)
    else judgeAction T c.time before a

namespace TRun

/-- A game between two turns: output goes to the console, nothing is pending, nobody was warned. -/
structure Calm (C : TConf) (r : TRun) : Prop where
  out : r.out = .console
  old : r.old = none ∨ r.old = some .console
  handler : r.sig.handler = .dfl
  alarm : r.sig.alarm = none
  index : r.agentIndex < C.numAgents
  times : r.times.length = C.numAgents
  warnings : r.warnings = List.replicate C.numAgents 0

theorem call_plain {α : Type} (c : Call α) : c.prog.Plain := by
  unfold Call.prog
  refine ⟨trivial, ?_⟩
  split <;> trivial

theorem call_cost {α : Type} (c : Call α) : c.prog.cost = some (c.time, c.res.isNone) := by
  unfold Call.prog
  cases h : c.res <;> simp [Prog.cost]

theorem timed_late {α : Type} (r : TRun) {s : ℤ} (hs : 0 < s) (hf : s < 2 ^ 31) (c : Call α) (h : 1000000 * s ≤ (c.time : ℤ)) :
    r.timed s c = (.timeout, { r with sig := ⟨r.sig.now + 1000000 * s.toNat, r.sig.handler, none⟩ }) := by
  unfold timed
  rw [(C81_limit (call_plain c) hs hf r.sig).2.2]
  intro d b hc
  rw [call_cost] at hc
  cases hc
  exact h

theorem timed_ok {α : Type} (r : TRun) {s : ℤ} (hs : 0 < s) (hf : s < 2 ^ 31) (c : Call α) (h : (c.time : ℤ) < 1000000 * s) {x : α} (hx : c.res = some x) :
    r.timed s c = (.ok, { r with sig := ⟨r.sig.now + c.time, r.sig.handler, none⟩ }) := by
  unfold timed
  rw [(C81_limit (call_plain c) hs hf r.sig).1 c.time (by rw [call_cost, hx]; rfl) h]

theorem timed_exn {α : Type} (r : TRun) {s : ℤ} (hs : 0 < s) (hf : s < 2 ^ 31) (c : Call α) (h : (c.time : ℤ) < 1000000 * s) (hx : c.res = none) :
    r.timed s c = (.exn, { r with sig := ⟨r.sig.now + c.time, r.sig.handler, some (r.sig.now + 1000000 * s.toNat)⟩ }) := by
  unfold timed
  rw [(C81_limit (call_plain c) hs hf r.sig).2.1 c.time (by rw [call_cost, hx]; rfl) h]

theorem plain_call {α : Type} (r : TRun) (ha : r.sig.alarm = none) (c : Call α) :
    r.plain c = (endOf c.res.isNone, { r with sig := { r.sig with now := r.sig.now + c.time } }) := by
  unfold plain
  have := plain_free (call_plain c) r.sig ha
  rw [call_cost] at this
  dsimp only at this
  rw [this]

/-- What is saved of the output after a call of an agent. -/
def oldAfter (C : TConf) (r : TRun) : Option Stream := if C.muteAgents then some .console else r.old

theorem mute_timed {α : Type} (C : TConf) (r : TRun) (i : ℕ) (s : ℤ) (c : Call α) : ((r.mute C i).timed s c) =
    ((r.timed s c).1, (r.timed s c).2.mute C i) := by
  unfold mute timed
  cases C.muteAgents <;> rfl

theorem mute_plain {α : Type} (C : TConf) (r : TRun) (i : ℕ) (c : Call α) : ((r.mute C i).plain c) =
    ((r.plain c).1, (r.plain c).2.mute C i) := by
  unfold mute plain
  cases C.muteAgents <;> rfl

theorem mute_sig (C : TConf) (r : TRun) (i : ℕ) : (r.mute C i).sig = r.sig := by
  unfold mute; cases C.muteAgents <;> rfl

/-- The turn after the observation. -/
theorem ask_spec (C : TConf) {T : ℕ} (hc : C.catchExc = true) (hTC : C.timeout = T) (hTm : T < 2 ^ 31) (A : Agents) (k : ℕ) (r : TRun) (ho : r.out = .console)
    (hh : r.sig.handler = .dfl) (hix : r.agentIndex < C.numAgents) (hti : r.times.length = C.numAgents) (hw : r.warnings = List.replicate C.numAgents 0)
    (obs : GState) (o : ℕ) (hol : o < 1000000 * T) :
    r.ask C A k obs o false = match judgeAction T o (r.times.getD r.agentIndex 0) (A.action k r.agentIndex obs) with
      | .move d t => execute C { r with times := r.times.modify r.agentIndex (· + t), old := r.oldAfter C, sig := ⟨r.sig.now + (t - o), .dfl, none⟩ } d
      | .own t al => { r with status := .crashed r.agentIndex, old := r.oldAfter C, sig := ⟨r.sig.now + (t - o), .dfl, some (r.sig.now + (al - o))⟩ }
      | .late t => { r with status := .crashed r.agentIndex, agentTimeout := true, old := r.oldAfter C, sig := ⟨r.sig.now + (t - o), .dfl, none⟩ }
      | .warned t => { r with status := .crashed r.agentIndex, agentTimeout := true, old := r.oldAfter C, sig := ⟨r.sig.now + (t - o), .dfl, none⟩
                              warnings := r.warnings.modify r.agentIndex (· + 1) }
      | .total t => { r with status := .crashed r.agentIndex, agentTimeout := true, old := r.oldAfter C, sig := ⟨r.sig.now + (t - o), .dfl, none⟩
                             times := r.times.modify r.agentIndex (· + t) } := by
  obtain ⟨st, ix, mh, ti, wa, at', stat, out, old, ⟨now, hd, al⟩⟩ := r
  dsimp only at ho hh hix hti hw
  subst ho; subst hh; subst hw
  have hq : o / 1000000 < T := by omega
  have hs : (0 : ℤ) < C.timeout - (o / 1000000 : ℕ) := by rw [hTC]; omega
  have hf : C.timeout - (o / 1000000 : ℕ) < 2 ^ 31 := by rw [hTC]; omega
  have hst : (C.timeout - (o / 1000000 : ℕ)).toNat = T - o / 1000000 := by rw [hTC]; omega
  have hwg : ((List.replicate C.numAgents 0).modify ix (· + 1)).getD ix 0 > 0 := by
    rw [List.getD_eq_getElem?_getD, List.getElem?_modify]
    simp [hix]
  have htg : ∀ t, (ti.modify ix (· + t)).getD ix 0 = ti.getD ix 0 + t := by
    intro t
    rw [List.getD_eq_getElem?_getD, List.getD_eq_getElem?_getD, List.getElem?_modify]
    simp [hti, hix]
  unfold ask
  simp only [hc, if_true, mute_timed, mute_sig, Bool.false_eq_true, if_false]
  generalize hact : A.action k ix obs = a
  unfold judgeAction
  dsimp only
  by_cases hL : 1000000 * (T - o / 1000000) ≤ a.time
  · rw [timed_late _ hs hf a (by rw [hTC]; omega), if_pos hL, hst]
    simp only [oldAfter, crash, mute, unmute]
    cases C.muteAgents <;> simp
  · rw [if_neg hL]
    have hlt : (a.time : ℤ) < 1000000 * (C.timeout - (o / 1000000 : ℕ)) := by rw [hTC]; omega
    cases hr : a.res with
    | none =>
      rw [timed_exn _ hs hf a hlt hr, hst]
      simp only [oldAfter, crash, mute, unmute]
      cases C.muteAgents <;> simp
    | some d =>
      rw [timed_ok _ hs hf a hlt hr]
      dsimp only
      have e1 : now + a.time - now = a.time := by omega
      have e2 : o + a.time - o = a.time := by omega
      have hdec1 : (1000000 * C.timeout < ((o + a.time : ℕ) : ℤ)) ↔ 1000000 * T < o + a.time := by rw [hTC]; omega
      have hdec2 : (1000000 * C.timeout < ((ti.getD ix 0 + (o + a.time) : ℕ) : ℤ)) ↔ 1000000 * T < ti.getD ix 0 + (o + a.time) := by rw [hTC]; omega
      by_cases h1 : 1000000 * T < o + a.time
      · rw [if_pos h1]
        cases hm : C.muteAgents <;> simp only [mute, hm, if_true, if_false, Bool.false_eq_true, mute_sig, e1, e2, hdec1, if_pos h1, if_pos hwg, crash, unmute, oldAfter]
      · rw [if_neg h1]
        by_cases h2 : 1000000 * T < ti.getD ix 0 + (o + a.time)
        · rw [if_pos h2]
          cases hm : C.muteAgents <;> simp only [mute, hm, if_true, if_false, Bool.false_eq_true, mute_sig, e1, e2, hdec1, if_neg h1, addTime, htg, hdec2, if_pos h2, crash, unmute, oldAfter]
        · rw [if_neg h2]
          cases hm : C.muteAgents <;> simp only [mute, hm, if_true, if_false, Bool.false_eq_true, mute_sig, e1, e2, hdec1, if_neg h1, addTime, htg, hdec2, if_neg h2, crash, unmute, oldAfter]

/-- The call of `observationFunction` in a turn, if there is one. -/
def observation (A : Agents) (k i : ℕ) (obs : GState) : Option (Call Unit) := if A.hasObserve i then some (A.observe k i obs) else none

/-- The judgement of the turn of the agent whose turn it is. -/
def verdict (T : ℕ) (A : Agents) (k : ℕ) (r : TRun) (obs : GState) : Verdict :=
  judge T (r.times.getD r.agentIndex 0) (observation A k r.agentIndex obs) (A.action k r.agentIndex obs)

/-- **C82** One turn with time limits, exactly: an interruption, an overdrawn move and an overdrawn account end the game with `agentTimeout`, an exception of the agent
ends it without; otherwise the time is charged to the agent and the action is carried out. Output goes to the console afterwards. An alarm is left pending exactly after
an exception of the agent. -/
theorem C82_turn (C : TConf) {T : ℕ} (hT : 0 < T) (hc : C.catchExc = true) (hTC : C.timeout = T) (hTm : T < 2 ^ 31) (A : Agents) (k : ℕ) (r : TRun) (h : r.Calm C)
    {obs : GState} (hobs : r.state.deepCopy = .ok obs) :
    r.turn C A k = match r.verdict T A k obs with
      | .move d t => execute C { r with times := r.times.modify r.agentIndex (· + t), old := r.oldAfter C, sig := ⟨r.sig.now + t, .dfl, none⟩ } d
      | .own t al => { r with status := .crashed r.agentIndex, old := r.oldAfter C, sig := ⟨r.sig.now + t, .dfl, some (r.sig.now + al)⟩ }
      | .late t => { r with status := .crashed r.agentIndex, agentTimeout := true, old := r.oldAfter C, sig := ⟨r.sig.now + t, .dfl, none⟩ }
      | .warned t => { r with status := .crashed r.agentIndex, agentTimeout := true, old := r.oldAfter C, sig := ⟨r.sig.now + t, .dfl, none⟩
                              warnings := r.warnings.modify r.agentIndex (· + 1) }
      | .total t => { r with status := .crashed r.agentIndex, agentTimeout := true, old := r.oldAfter C, sig := ⟨r.sig.now + t, .dfl, none⟩
                             times := r.times.modify r.agentIndex (· + t) } := by
  have hs : (0 : ℤ) < C.timeout := by rw [hTC]; exact_mod_cast hT
  have hf : C.timeout < 2 ^ 31 := by rw [hTC]; exact_mod_cast hTm
  have hst : C.timeout.toNat = T := by rw [hTC]; rfl
  unfold turn verdict judge observation
  cases hh : A.hasObserve r.agentIndex with
  | false =>
    simp only [hobs, hh, Bool.false_eq_true, if_false]
    rw [ask_spec C hc hTC hTm A k r h.out h.handler h.index h.times h.warnings obs 0 (by omega)]
    simp only [Nat.sub_zero]
  | true =>
    simp only [hobs, hh, if_true, hc, mute_timed, mute_sig]
    generalize hob : A.observe k r.agentIndex obs = c
    by_cases hL : 1000000 * T ≤ c.time
    · rw [timed_late r hs hf c (by rw [hTC]; omega), if_pos hL, hst]
      unfold ask oldAfter
      simp only [hc, if_true, crash]
      cases hm : C.muteAgents <;> simp [mute, unmute, hm, h.out, h.handler]
    · have hlt : (c.time : ℤ) < 1000000 * C.timeout := by rw [hTC]; omega
      rw [if_neg hL]
      cases hr : c.res with
      | none =>
        rw [timed_exn r hs hf c hlt hr, hst]
        unfold oldAfter
        simp only [crash, if_true]
        cases hm : C.muteAgents <;> simp [mute, unmute, hm, h.out, h.handler]
      | some x =>
        rw [timed_ok r hs hf c hlt hr]
        rw [if_neg (by simp)]
        have e1 : (mute C { r with sig := ⟨r.sig.now + c.time, r.sig.handler, none⟩ } r.agentIndex).sig.now - r.sig.now = c.time := by
          rw [mute_sig]; dsimp only; omega
        have e2 : (unmute C (unmute C (mute C { r with sig := ⟨r.sig.now + c.time, r.sig.handler, none⟩ } r.agentIndex))) =
            { r with sig := ⟨r.sig.now + c.time, .dfl, none⟩, old := r.oldAfter C } := by
          unfold oldAfter
          cases hm : C.muteAgents <;> simp [mute, unmute, hm, h.out, h.handler]
        simp only [e1, e2]
        rw [ask_spec C hc hTC hTm A k { r with sig := ⟨r.sig.now + c.time, .dfl, none⟩, old := r.oldAfter C } (by exact h.out) rfl h.index h.times h.warnings obs c.time (by omega)]
        have e3 : oldAfter C { r with sig := ⟨r.sig.now + c.time, .dfl, none⟩, old := r.oldAfter C } = r.oldAfter C := by
          unfold oldAfter; cases C.muteAgents <;> rfl
        unfold judgeAction
        dsimp only
        rw [e3]
        have e4 : ∀ x, r.sig.now + c.time + (c.time + x - c.time) = r.sig.now + (c.time + x) := by intro x; omega
        by_cases h1 : 1000000 * (T - c.time / 1000000) ≤ (A.action k r.agentIndex obs).time
        · simp only [if_pos h1, e4]
        · simp only [if_neg h1]
          cases (A.action k r.agentIndex obs).res with
          | none => simp only [e4]
          | some d =>
            dsimp only
            by_cases h2 : 1000000 * T < c.time + (A.action k r.agentIndex obs).time
            · simp only [if_pos h2, e4]
            · simp only [if_neg h2]
              by_cases h3 : 1000000 * T < r.times.getD r.agentIndex 0 + (c.time + (A.action k r.agentIndex obs).time)
              · simp only [if_pos h3, e4]
              · simp only [if_neg h3, e4]

theorem sum_modify (l : List ℕ) (i t : ℕ) (h : i < l.length) : (l.modify i (· + t)).sum = l.sum + t := by
  induction l generalizing i with
  | nil => cases h
  | cons x l ih =>
    cases i with
    | zero => simp only [List.modify_zero_cons, List.sum_cons]; omega
    | succ i =>
      simp only [List.modify_succ_cons, List.sum_cons]
      rw [ih i (by simpa using h)]
      omega

theorem getD_modify (l : List ℕ) (i j t : ℕ) (h : i < l.length) : (l.modify i (· + t)).getD j 0 = l.getD j 0 + if j = i then t else 0 := by
  rw [List.getD_eq_getElem?_getD, List.getD_eq_getElem?_getD, List.getElem?_modify]
  by_cases hj : j = i
  · subst hj; simp [h]
  · rw [if_neg hj]
    have : ¬ i = j := fun e => hj e.symm
    simp [this]

theorem sum_bound (l : List ℕ) (B : ℕ) (h : ∀ i, l.getD i 0 ≤ B) : l.sum ≤ l.length * B := by
  induction l with
  | nil => simp
  | cons x l ih =>
    have h0 := h 0
    have := ih fun i => by simpa using h (i + 1)
    simp only [List.getD_cons_zero] at h0
    simp only [List.sum_cons, List.length_cons]
    rw [Nat.add_mul]
    omega

/-- The time of a turn. -/
def _root_.Verif.Pac.Verdict.elapsed : Verdict → ℕ
  | .move _ t => t
  | .own t _ => t
  | .late t => t
  | .warned t => t
  | .total t => t

/-- A turn never takes as long as a second more than the limit. -/
theorem judge_elapsed (T before : ℕ) (o : Option (Call Unit)) (a : Call Dir) : (judge T before o a).elapsed < 1000000 * (T + 1) := by
  have key : ∀ o, o < 1000000 * T → (judgeAction T o before a).elapsed < 1000000 * (T + 1) := by
    intro o ho
    unfold judgeAction
    dsimp only
    split
    · simp only [Verdict.elapsed]; omega
    · split
      · simp only [Verdict.elapsed]; omega
      · split
        · simp only [Verdict.elapsed]; omega
        · split <;> simp only [Verdict.elapsed] <;> omega
  unfold judge
  cases o with
  | none =>
    by_cases hT : T = 0
    · subst hT
      unfold judgeAction
      simp [Verdict.elapsed]
    · exact key 0 (by omega)
  | some c =>
    dsimp only
    split
    · simp only [Verdict.elapsed]; omega
    · split
      · simp only [Verdict.elapsed]; omega
      · exact key _ (by omega)

theorem judge_move {T before : ℕ} {o : Option (Call Unit)} {a : Call Dir} {d : Dir} {t : ℕ} (h : judge T before o a = .move d t) :
    a.res = some d ∧ before + t ≤ 1000000 * T ∧ a.time ≤ t ∧ t = (o.elim 0 Call.time) + a.time := by
  have key : ∀ o, judgeAction T o before a = .move d t → a.res = some d ∧ before + t ≤ 1000000 * T ∧ a.time ≤ t ∧ t = o + a.time := by
    intro o h
    unfold judgeAction at h
    dsimp only at h
    split at h
    · cases h
    · split at h
      · cases h
      · rename_i d' hd
        split at h
        · cases h
        · split at h
          · cases h
          · cases h
            exact ⟨hd, by omega, by omega, rfl⟩
  unfold judge at h
  cases o with
  | none => exact key 0 h
  | some c =>
    dsimp only at h
    split at h
    · cases h
    · split at h
      · cases h
      · exact key _ h

/-- What holds of a game with time limits at any time before agents are told the result. -/
structure Sound (C : TConf) (T : ℕ) (r : TRun) : Prop where
  out : r.out = .console
  alive : r.status ≠ .nameError ∧ r.status ≠ .killed
  handler : r.sig.handler = .dfl
  calm : r.status = .running ∨ r.status = .finished →
    r.Calm C ∧ r.agentTimeout = false ∧ (∀ i, r.times.getD i 0 ≤ 1000000 * T) ∧ r.sig.now = r.times.sum
  alarm : r.sig.alarm ≠ none → ∃ i, r.status = .crashed i ∧ r.agentTimeout = false
  now : r.sig.now < C.numAgents * (1000000 * T) + 1000000 * (T + 1)
  raised : r.status = .raised → ∃ e, r.state.deepCopy = .error e

theorem now_bound {C : TConf} {T : ℕ} {r : TRun} (h : r.Calm C) (hl : ∀ i, r.times.getD i 0 ≤ 1000000 * T) (hn : r.sig.now = r.times.sum) :
    r.sig.now ≤ C.numAgents * (1000000 * T) := by
  rw [hn, ← h.times]
  exact sum_bound _ _ hl

theorem execute_sound (C : TConf) {T : ℕ} (hc : C.catchExc = true) {r : TRun} (hr : r.status = .running) (h : r.Sound C T) (d : Dir) : (r.execute C d).Sound C T := by
  obtain ⟨hcalm, h2, h3, h4⟩ := h.calm (Or.inl hr)
  have hn := now_bound hcalm h3 h4
  unfold execute
  dsimp only
  cases hg : generateSuccessor r.state r.agentIndex d with
  | error e =>
    simp only [hc, if_true]
    unfold mute crash unmute
    cases hm : C.muteAgents
    · simp only [Bool.false_eq_true, if_false]
      exact ⟨hcalm.out, by simp, hcalm.handler, by simp, by simp [hcalm.alarm], by dsimp only; omega, by simp⟩
    · simp only [if_true]
      exact ⟨hcalm.out, by simp, hcalm.handler, by simp, by simp [hcalm.alarm], by dsimp only; omega, by simp⟩
  | ok s =>
    dsimp only
    refine ⟨hcalm.out, ?_, hcalm.handler, ?_, by simp [hcalm.alarm], by dsimp only; omega, ?_⟩
    · dsimp only; rw [hr]; split <;> simp
    · intro _
      have := hcalm.index
      exact ⟨⟨hcalm.out, hcalm.old, hcalm.handler, hcalm.alarm, Nat.mod_lt _ (by omega), hcalm.times, hcalm.warnings⟩, h2, h3, h4⟩
    · dsimp only; rw [hr]; split <;> simp

theorem turn_sound (C : TConf) {T : ℕ} (hT : 0 < T) (hc : C.catchExc = true) (hTC : C.timeout = T) (hTm : T < 2 ^ 31) (A : Agents) (k : ℕ) {r : TRun} (hr : r.status = .running)
    (h : r.Sound C T) : (r.turn C A k).Sound C T := by
  obtain ⟨hcalm, h2, h3, h4⟩ := h.calm (Or.inl hr)
  have hn := now_bound hcalm h3 h4
  cases hd : r.state.deepCopy with
  | error e =>
    unfold turn
    cases hh : A.hasObserve r.agentIndex with
    | false =>
      simp only [hd, hh]
      exact ⟨hcalm.out, by simp, hcalm.handler, by simp, by simp [hcalm.alarm], by dsimp only; omega, fun _ => ⟨e, hd⟩⟩
    | true =>
      simp only [hd, hh, hc, if_true]
      unfold mute crash unmute
      cases hm : C.muteAgents
      · simp only [Bool.false_eq_true, if_false]
        exact ⟨hcalm.out, by simp, hcalm.handler, by simp, by simp [hcalm.alarm], by dsimp only; omega, by simp⟩
      · simp only [if_true]
        exact ⟨hcalm.out, by simp, hcalm.handler, by simp, by simp [hcalm.alarm], by dsimp only; omega, by simp⟩
  | ok obs =>
    rw [C82_turn C hT hc hTC hTm A k r hcalm hd]
    have he : (r.verdict T A k obs).elapsed < 1000000 * (T + 1) := judge_elapsed ..
    cases hv : r.verdict T A k obs with
    | move d t =>
      obtain ⟨_, hb, _, _⟩ := judge_move hv
      have hlen : r.agentIndex < r.times.length := by rw [hcalm.times]; exact hcalm.index
      refine execute_sound C hc (r := { r with times := r.times.modify r.agentIndex (· + t), old := r.oldAfter C, sig := ⟨r.sig.now + t, .dfl, none⟩ }) hr
        ⟨hcalm.out, by dsimp only; rw [hr]; simp, rfl, ?_, by simp, ?_, by dsimp only; rw [hr]; simp⟩ d
      · intro _
        refine ⟨⟨hcalm.out, ?_, rfl, rfl, hcalm.index, by simpa using hcalm.times, hcalm.warnings⟩, h2, ?_, ?_⟩
        · unfold oldAfter
          dsimp only
          split
          · right; rfl
          · exact hcalm.old
        · intro j
          dsimp only
          rw [getD_modify _ _ _ _ hlen]
          have := h3 j
          split
          · rename_i hj; subst hj; omega
          · omega
        · dsimp only; rw [sum_modify _ _ _ hlen, h4]
      · dsimp only
        rw [hv] at he
        simp only [Verdict.elapsed] at he
        omega
    | own t al =>
      rw [hv] at he
      simp only [Verdict.elapsed] at he
      exact ⟨hcalm.out, by simp, rfl, by simp, fun _ => ⟨_, rfl, h2⟩, by dsimp only; omega, by simp⟩
    | late t =>
      rw [hv] at he
      simp only [Verdict.elapsed] at he
      exact ⟨hcalm.out, by simp, rfl, by simp, by simp, by dsimp only; omega, by simp⟩
    | warned t =>
      rw [hv] at he
      simp only [Verdict.elapsed] at he
      exact ⟨hcalm.out, by simp, rfl, by simp, by simp, by dsimp only; omega, by simp⟩
    | total t =>
      rw [hv] at he
      simp only [Verdict.elapsed] at he
      exact ⟨hcalm.out, by simp, rfl, by simp, by simp, by dsimp only; omega, by simp⟩

theorem loop_sound (C : TConf) {T : ℕ} (hT : 0 < T) (hc : C.catchExc = true) (hTC : C.timeout = T) (hTm : T < 2 ^ 31) (A : Agents) (n : ℕ) : ∀ (k : ℕ) {r : TRun},
    r.Sound C T → (r.loop C A n k).Sound C T := by
  induction n with
  | zero => intro k r h; exact h
  | succ n ih =>
    intro k r h
    unfold loop
    by_cases hr : r.status = .running
    · rw [if_pos hr]; exact ih _ (turn_sound C hT hc hTC hTm A k hr h)
    · rw [if_neg hr]; exact h

theorem register_sound (C : TConf) {T : ℕ} (hT : 0 < T) (hc : C.catchExc = true) (hTC : C.timeout = T) (hTm : T < 2 ^ 31) (A : Agents) {r : TRun} (hr : r.status = .running)
    (h : r.Sound C T) {i : ℕ} (hi : i < C.numAgents) (hz : r.times.getD i 0 = 0) :
    (r.register C A i).Sound C T ∧ ∀ j, j ≠ i → (r.register C A i).times.getD j 0 = r.times.getD j 0 := by
  obtain ⟨hcalm, h2, h3, h4⟩ := h.calm (Or.inl hr)
  have hn := now_bound hcalm h3 h4
  have hs : (0 : ℤ) < C.timeout := by rw [hTC]; exact_mod_cast hT
  have hf : C.timeout < 2 ^ 31 := by rw [hTC]; exact_mod_cast hTm
  have hst : C.timeout.toNat = T := by rw [hTC]; rfl
  have hlen : i < r.times.length := by rw [hcalm.times]; exact hi
  unfold register
  cases hl : A.loaded i with
  | false =>
    simp only [Bool.not_false, if_true]
    unfold mute unmute crash
    cases hm : C.muteAgents
    · simp only [Bool.false_eq_true, if_false]
      exact ⟨⟨hcalm.out, by simp, hcalm.handler, by simp, by simp [hcalm.alarm], by dsimp only; omega, by simp⟩, by simp⟩
    · simp only [if_true]
      exact ⟨⟨hcalm.out, by simp, hcalm.handler, by simp, by simp [hcalm.alarm], by dsimp only; omega, by simp⟩, by simp⟩
  | true =>
    simp only [Bool.not_true, Bool.false_eq_true, if_false]
    cases hreg : A.register i with
    | none => exact ⟨h, by simp⟩
    | some c =>
      simp only [hc, if_true, mute_timed, mute_sig]
      cases hd : r.state.deepCopy with
      | error e =>
        simp only
        unfold mute unmute crash
        cases hm : C.muteAgents
        · simp only [Bool.false_eq_true, if_false]
          exact ⟨⟨hcalm.out, by simp, hcalm.handler, by simp, by simp [hcalm.alarm], by dsimp only; omega, by simp⟩, by simp⟩
        · simp only [if_true]
          exact ⟨⟨hcalm.out, by simp, hcalm.handler, by simp, by simp [hcalm.alarm], by dsimp only; omega, by simp⟩, by simp⟩
      | ok obs =>
        simp only
        by_cases hL : 1000000 * T ≤ c.time
        · rw [timed_late r hs hf c (by rw [hTC]; omega), hst]
          dsimp only
          unfold mute unmute crash
          cases hm : C.muteAgents
          · simp only [Bool.false_eq_true, if_false]
            exact ⟨⟨hcalm.out, by simp, hcalm.handler, by simp, by simp, by dsimp only; omega, by simp⟩, by simp⟩
          · simp only [if_true]
            exact ⟨⟨hcalm.out, by simp, hcalm.handler, by simp, by simp, by dsimp only; omega, by simp⟩, by simp⟩
        · have hlt : (c.time : ℤ) < 1000000 * C.timeout := by rw [hTC]; omega
          cases hres : c.res with
          | none =>
            rw [timed_exn r hs hf c hlt hres, hst]
            dsimp only
            unfold mute unmute crash
            cases hm : C.muteAgents
            · simp only [Bool.false_eq_true, if_false]
              exact ⟨⟨hcalm.out, by simp, hcalm.handler, by simp, fun _ => ⟨_, rfl, h2⟩, by dsimp only; omega, by simp⟩, by simp⟩
            · simp only [if_true]
              exact ⟨⟨hcalm.out, by simp, hcalm.handler, by simp, fun _ => ⟨_, rfl, h2⟩, by dsimp only; omega, by simp⟩, by simp⟩
          | some x =>
            rw [timed_ok r hs hf c hlt hres]
            simp only [mute_sig]
            have e : r.sig.now + c.time - r.sig.now = c.time := by omega
            rw [e]
            have hsum := sum_modify r.times i c.time hlen
            have htimes : ∀ j, (r.times.modify i (· + c.time)).getD j 0 ≤ 1000000 * T := by
              intro j
              rw [getD_modify _ _ _ _ hlen]
              have := h3 j
              split
              · rename_i hj; subst hj; omega
              · omega
            have hother : ∀ j, j ≠ i → (r.times.modify i (· + c.time)).getD j 0 = r.times.getD j 0 := by
              intro j hj
              rw [getD_modify _ _ _ _ hlen, if_neg hj]
              rfl
            unfold mute unmute addTime
            cases hm : C.muteAgents
            · simp only [Bool.false_eq_true, if_false]
              refine ⟨⟨hcalm.out, by dsimp only; rw [hr]; simp, hcalm.handler, fun _ => ⟨⟨hcalm.out, hcalm.old, hcalm.handler, rfl, hcalm.index,
                by simpa using hcalm.times, hcalm.warnings⟩, h2, htimes, by dsimp only; rw [hsum, h4]⟩, by simp, by dsimp only; omega,
                by dsimp only; rw [hr]; simp⟩, hother⟩
            · simp only [if_true]
              refine ⟨⟨hcalm.out, by dsimp only; rw [hr]; simp, hcalm.handler, fun _ => ⟨⟨hcalm.out, Or.inr (by dsimp only; rw [hcalm.out]), hcalm.handler, rfl, hcalm.index,
                by simpa using hcalm.times, hcalm.warnings⟩, h2, htimes, by dsimp only; rw [hsum, h4]⟩, by simp, by dsimp only; omega,
                by dsimp only; rw [hr]; simp⟩, hother⟩

theorem registerAll_sound (C : TConf) {T : ℕ} (hT : 0 < T) (hc : C.catchExc = true) (hTC : C.timeout = T) (hTm : T < 2 ^ 31) (A : Agents) (l : List ℕ) (hl : l.Nodup)
    (hi : ∀ i ∈ l, i < C.numAgents) : ∀ {r : TRun}, r.Sound C T → (∀ i ∈ l, r.times.getD i 0 = 0) → (r.registerAll C A l).Sound C T := by
  induction l with
  | nil => intro r h _; exact h
  | cons i l ih =>
    intro r h hz
    unfold registerAll
    by_cases hr : r.status = .running
    · rw [if_pos hr]
      obtain ⟨h1, h2⟩ := register_sound C hT hc hTC hTm A hr h (hi i List.mem_cons_self) (hz i List.mem_cons_self)
      refine ih (List.nodup_cons.1 hl).2 (fun j hj => hi j (List.mem_cons_of_mem _ hj)) h1 fun j hj => ?_
      rw [h2 j]
      · exact hz j (List.mem_cons_of_mem _ hj)
      · rintro rfl; exact (List.nodup_cons.1 hl).1 hj
    · rw [if_neg hr]; exact h

theorem start_sound (C : TConf) (T : ℕ) (hn : 0 < C.numAgents) (s : GState) : (start C s).Sound C T := by
  have hz : ∀ i, (List.replicate C.numAgents 0).getD i 0 = 0 := by
    intro i
    rw [List.getD_eq_getElem?_getD, List.getElem?_replicate]
    split <;> rfl
  refine ⟨rfl, by simp [start], rfl, fun _ => ⟨⟨rfl, Or.inl rfl, rfl, rfl, hn, by simp [start], rfl⟩, rfl, ?_, ?_⟩, by simp [start], ?_, by simp [start]⟩
  · intro i
    unfold start
    dsimp only
    rw [hz]
    exact Nat.zero_le _
  · simp [start]
  · show 0 < _
    omega

/-- **C82** A game with time limits, up to any turn: the output goes to the console; the game is not ended by a signal; what is raised out of it comes from copying the state; while it
goes on, the times that are charged to the agents add up to all the time of their calls, nobody has more than the limit, and no alarm is pending; an alarm is pending only after a crash
by an exception of an agent. All calls together take less than `T` seconds for each agent and `T + 1` more. -/
theorem C82_game (C : TConf) {T : ℕ} (hT : 0 < T) (hc : C.catchExc = true) (hTC : C.timeout = T) (hTm : T < 2 ^ 31) (hn : 0 < C.numAgents) (A : Agents) (s : GState) (n : ℕ) :
    (((start C s).registerAll C A (List.range C.numAgents)).loop C A n 0).Sound C T := by
  refine loop_sound C hT hc hTC hTm A n 0 (registerAll_sound C hT hc hTC hTm A _ List.nodup_range (fun i hi => List.mem_range.1 hi) (start_sound C T hn s) ?_)
  intro i _
  unfold start
  dsimp only
  rw [List.getD_eq_getElem?_getD, List.getElem?_replicate]
  split <;> rfl

theorem execute_now (C : TConf) (r : TRun) (d : Dir) : (r.execute C d).sig = r.sig := by
  unfold execute
  dsimp only
  cases generateSuccessor r.state r.agentIndex d with
  | error e =>
    cases C.catchExc <;> cases hm : C.muteAgents <;> simp [mute, unmute, crash, hm]
  | ok s => rfl

theorem loop_now (C : TConf) {T : ℕ} (hT : 0 < T) (hc : C.catchExc = true) (hTC : C.timeout = T) (hTm : T < 2 ^ 31) (A : Agents)
    (hA : ∀ k i obs, 0 < (A.action k i obs).time) (n : ℕ) : ∀ (k : ℕ) {r : TRun}, r.Sound C T → (r.loop C A n k).status = .running →
    r.sig.now + n ≤ (r.loop C A n k).sig.now := by
  induction n with
  | zero => intro k r _ _; exact le_refl _
  | succ n ih =>
    intro k r h hrun
    unfold loop at hrun ⊢
    by_cases hr : r.status = .running
    · rw [if_pos hr] at hrun ⊢
      have hs := turn_sound C hT hc hTC hTm A k hr h
      have := ih (k + 1) hs hrun
      suffices hx : r.sig.now + 1 ≤ (r.turn C A k).sig.now by omega
      have hrt : (r.turn C A k).status = .running := by
        by_contra hne
        cases n with
        | zero => exact hne hrun
        | succ n => unfold loop at hrun; rw [if_neg hne] at hrun; exact hne hrun
      obtain ⟨hcalm, _, _, _⟩ := h.calm (Or.inl hr)
      cases hd : r.state.deepCopy with
      | error e =>
        exfalso
        unfold turn at hrt
        cases hh : A.hasObserve r.agentIndex with
        | false => simp [hd, hh] at hrt
        | true =>
          simp only [hd, hh, hc, if_true] at hrt
          unfold mute crash unmute at hrt
          cases hm : C.muteAgents <;> simp [hm] at hrt
      | ok obs =>
        rw [C82_turn C hT hc hTC hTm A k r hcalm hd] at hrt ⊢
        cases hv : r.verdict T A k obs with
        | move d t =>
          dsimp only
          rw [execute_now]
          have := (judge_move hv).2.2.1
          have := hA k r.agentIndex obs
          dsimp only
          omega
        | own t al => rw [hv] at hrt; simp at hrt
        | late t => rw [hv] at hrt; simp at hrt
        | warned t => rw [hv] at hrt; simp at hrt
        | total t => rw [hv] at hrt; simp at hrt
    · rw [if_neg hr] at hrun; exact absurd hrun hr

/-- **C82** With time limits every game ends: if each action takes some time, at least a microsecond, then the game is over after as many turns as there are microseconds in the limit of all
agents. -/
theorem C82_ends (C : TConf) {T : ℕ} (hT : 0 < T) (hc : C.catchExc = true) (hTC : C.timeout = T) (hTm : T < 2 ^ 31) (hn : 0 < C.numAgents) (A : Agents)
    (hA : ∀ k i obs, 0 < (A.action k i obs).time) (s : GState) {n : ℕ} (hbig : C.numAgents * (1000000 * T) < n) :
    (((start C s).registerAll C A (List.range C.numAgents)).loop C A n 0).status ≠ .running := by
  intro hrun
  have h0 := C82_game C hT hc hTC hTm hn A s 0
  have h1 := C82_game C hT hc hTC hTm hn A s n
  have hx := loop_now C hT hc hTC hTm A hA n 0 h0 hrun
  obtain ⟨hcalm, _, h3, h4⟩ := h1.calm (Or.inl hrun)
  have hy := now_bound hcalm h3 h4
  change _ + n ≤ (((start C s).registerAll C A (List.range C.numAgents)).loop C A n 0).sig.now at hx
  omega

/-- The status in the model without time limits. -/
def eraseStatus : TStatus → Status
  | .running => .running
  | .finished => .finished
  | .crashed _ => .crashed
  | _ => .raised .value

/-- The game without times, output and signals. -/
def erase (r : TRun) : Run := ⟨r.state, r.agentIndex, r.moveHistory, 0, eraseStatus r.status⟩

theorem execute_erase (C : TConf) (hc : C.catchExc = true) (r : TRun) (hix : r.agentIndex < C.numAgents) (d : Dir) :
    (r.execute C d).erase = Run.execute true C.numAgents r.erase d := by
  unfold execute Run.execute erase
  dsimp only
  cases hg : generateSuccessor r.state r.agentIndex d with
  | error e =>
    simp only [hc, if_true, mute, unmute, crash, Run.fail]
    cases C.muteAgents <;> simp [eraseStatus]
  | ok s =>
    simp only [Run.process]
    have hne : r.agentIndex ≠ C.numAgents + 1 := by omega
    by_cases hw : (s.win || s.lose) = true
    · simp [hw, hne, eraseStatus]
    · simp [hw, hne]

theorem loop_succ (C : TConf) (A : Agents) (n : ℕ) : ∀ (k : ℕ) (r : TRun), r.loop C A (n + 1) k =
    if (r.loop C A n k).status = .running then (r.loop C A n k).turn C A (k + n) else r.loop C A n k := by
  induction n with
  | zero => intro k r; rfl
  | succ n ih =>
    intro k r
    rw [loop]
    by_cases hr : r.status = .running
    · rw [if_pos hr, ih (k + 1), loop, if_pos hr, show k + 1 + n = k + (n + 1) by omega]
    · rw [if_neg hr, loop, if_neg hr, if_neg hr]

theorem _root_.Verif.Pac.Run.loop_succ (act : ℕ → ℕ → GState → Except PErr Dir) (c : Bool) (na n : ℕ) : ∀ (k : ℕ) (r : Run), Run.loop act c na (n + 1) k r =
    if (Run.loop act c na n k r).status = .running then (Run.loop act c na n k r).turn act c na (k + n) else Run.loop act c na n k r := by
  induction n with
  | zero => intro k r; rfl
  | succ n ih =>
    intro k r
    rw [Run.loop]
    by_cases hr : r.status = .running
    · rw [if_pos hr, ih (k + 1), Run.loop, if_pos hr, show k + 1 + n = k + (n + 1) by omega]
    · rw [if_neg hr, Run.loop, if_neg hr, if_neg hr]

/-- The answers of the agents as the game without time limits sees them: an exception unless the action is carried out. -/
def answers (C : TConf) (T : ℕ) (A : Agents) (r : TRun) (k i : ℕ) (obs : GState) : Except PErr Dir :=
  let rk := r.loop C A k 0
  if i = rk.agentIndex then
    match rk.verdict T A k obs with
    | .move d _ => .ok d
    | _ => .error .value
  else .error .value

theorem erase_running (s : TStatus) : eraseStatus s = .running ↔ s = .running := by
  cases s <;> simp [eraseStatus]

/-- **C82** A game with time limits is a game as in C55 whose agents raise when they are late: there are answers of agents, each of them either that of the agent or an exception, with
which the game without limits goes through the same states, moves and turns and ends in the same way. In particular all that C55 says of such games holds. -/
theorem C82_refines {text : List (List Char)} {l : Layout} (hl : Layout.ofText text = .ok l) {ghostAgents : ℕ} (h0 : Placed (GState.init l ghostAgents))
    (C : TConf) {T : ℕ} (hT : 0 < T) (hc : C.catchExc = true) (hTC : C.timeout = T) (hTm : T < 2 ^ 31) (hn : C.numAgents = newGameAgents l ghostAgents) (A : Agents) {r : TRun}
    (hr : r.erase = Run.start l ghostAgents) (hs : r.Sound C T) :
    ∃ act : ℕ → ℕ → GState → Except PErr Dir, (∀ k i obs d, act k i obs = .ok d → (A.action k i obs).res = some d) ∧
      ∀ n, (r.loop C A n 0).erase = Run.loop act true (newGameAgents l ghostAgents) n 0 (Run.start l ghostAgents) := by
  refine ⟨answers C T A r, ?_, ?_⟩
  · intro k i obs d h
    unfold answers at h
    dsimp only at h
    split at h
    · rename_i hi
      split at h
      · rename_i d' t hv
        cases h
        rw [hi]
        exact (judge_move hv).1
      · cases h
    · cases h
  · intro n
    induction n with
    | zero => exact hr
    | succ n ih =>
      rw [loop_succ, Run.loop_succ, ← ih]
      have hsn := loop_sound C hT hc hTC hTm A n 0 hs
      have hinv := C55_run h0 (answers C T A r) true n
      rw [← ih] at hinv
      simp only [Nat.zero_add]
      by_cases hrun : (r.loop C A n 0).status = .running
      · have hrun' : (r.loop C A n 0).erase.status = .running := (erase_running _).2 hrun
        rw [if_pos hrun, if_pos hrun']
        obtain ⟨hp, hlen, hidx, hopen⟩ := hinv.running hrun'
        have hobs := C55_observation hopen (text := text) (by rw [hinv.layout]; exact hl)
        obtain ⟨hcalm, _, _, _⟩ := hsn.calm (Or.inl hrun)
        have hobs' : (r.loop C A n 0).state.deepCopy = .ok { (r.loop C A n 0).state with scoreChange := 0 } := hobs
        rw [C82_turn C hT hc hTC hTm A n _ hcalm hobs']
        unfold Run.turn
        rw [show (r.loop C A n 0).erase.state = (r.loop C A n 0).state from rfl, hobs']
        simp only
        rw [show (r.loop C A n 0).erase.agentIndex = (r.loop C A n 0).agentIndex from rfl]
        unfold answers
        simp only [if_true]
        cases hv : (r.loop C A n 0).verdict T A n { (r.loop C A n 0).state with scoreChange := 0 } with
        | move d t =>
          dsimp only
          rw [← hn]
          exact execute_erase C hc { r.loop C A n 0 with times := (r.loop C A n 0).times.modify (r.loop C A n 0).agentIndex (· + t), old := oldAfter C (r.loop C A n 0), sig := ⟨(r.loop C A n 0).sig.now + t, .dfl, none⟩ } hcalm.index d
        | own t al => rfl
        | late t => rfl
        | warned t => rfl
        | total t => rfl
      · rw [if_neg hrun, if_neg (show ¬ (r.loop C A n 0).erase.status = .running from fun h => hrun ((erase_running _).1 h))]

/-- **C82** Without `catchExceptions` there are no limits: whatever the times of the calls, nothing is charged, and if the observation and the action do not raise, the action is carried
out. If one of them raises, the exception leaves `run` and, if agents are muted, the output of the process stays redirected to the buffer of the agent. -/
theorem C82_uncaught (C : TConf) (hc : C.catchExc = false) (A : Agents) (k : ℕ) (r : TRun) (h : r.Calm C) {obs : GState} (hobs : r.state.deepCopy = .ok obs) :
    ((∀ c, observation A k r.agentIndex obs = some c → c.res ≠ none) → ∀ d, (A.action k r.agentIndex obs).res = some d →
      r.turn C A k = execute C { r with old := r.oldAfter C, sig := { r.sig with now := r.sig.now + ((observation A k r.agentIndex obs).elim 0 Call.time + (A.action k r.agentIndex obs).time) } } d) ∧
    ((∃ c, observation A k r.agentIndex obs = some c ∧ c.res = none) ∨ (A.action k r.agentIndex obs).res = none →
      (r.turn C A k).status = .raised ∧ (r.turn C A k).state = r.state ∧ (r.turn C A k).times = r.times ∧ (r.turn C A k).moveHistory = r.moveHistory ∧
      (r.turn C A k).out = if C.muteAgents then .buffer r.agentIndex else .console) := by
  have hask : ∀ (r : TRun) (hx : r.sig.alarm = none) (hout : r.out = .console), 
      (∀ d, (A.action k r.agentIndex obs).res = some d → r.ask C A k obs 0 false = execute C { r with old := r.oldAfter C, sig := { r.sig with now := r.sig.now + (A.action k r.agentIndex obs).time } } d) ∧
      ((A.action k r.agentIndex obs).res = none → (r.ask C A k obs 0 false).status = .raised ∧ (r.ask C A k obs 0 false).state = r.state ∧
        (r.ask C A k obs 0 false).times = r.times ∧ (r.ask C A k obs 0 false).moveHistory = r.moveHistory ∧
        (r.ask C A k obs 0 false).out = if C.muteAgents then .buffer r.agentIndex else .console) := by
    intro r hx hout
    unfold ask
    simp only [hc, Bool.false_eq_true, if_false, mute_plain, plain_call r hx]
    refine ⟨?_, ?_⟩
    · intro d hd
      simp only [hd, Option.isNone_some, endOf, Bool.false_eq_true, if_false]
      unfold oldAfter
      cases hm : C.muteAgents <;> simp [mute, unmute, hm, hout]
    · intro hd
      simp only [hd, Option.isNone_none, endOf, if_true]
      cases hm : C.muteAgents <;> simp [mute, hm, hout]
  unfold turn
  cases hh : A.hasObserve r.agentIndex with
  | false =>
    have hob : observation A k r.agentIndex obs = none := by unfold observation; rw [hh]; rfl
    simp only [hobs, hh, hob, Option.elim_none, Nat.zero_add]
    obtain ⟨h1, h2⟩ := hask r h.alarm h.out
    refine ⟨fun _ d hd => h1 d hd, ?_⟩
    rintro (⟨c, hc', _⟩ | hr)
    · cases hc'
    · exact h2 hr
  | true =>
    have hob : observation A k r.agentIndex obs = some (A.observe k r.agentIndex obs) := by unfold observation; rw [hh]; rfl
    simp only [hobs, hh, hob, Option.elim_some, hc, Bool.false_eq_true, if_false, mute_plain, plain_call r h.alarm]
    generalize A.observe k r.agentIndex obs = c
    cases hr : c.res with
    | none =>
      simp only [Option.isNone_none, endOf, if_true]
      refine ⟨fun hx => absurd hr (hx c rfl), fun _ => ?_⟩
      cases hm : C.muteAgents <;> simp [mute, hm, h.out]
    | some x =>
      simp only [Option.isNone_some, endOf, Bool.false_eq_true, if_false]
      have e : unmute C (mute C { r with sig := { r.sig with now := r.sig.now + c.time } } r.agentIndex) =
          { r with old := r.oldAfter C, sig := { r.sig with now := r.sig.now + c.time } } := by
        unfold oldAfter
        cases hm : C.muteAgents <;> simp [mute, unmute, hm, h.out]
      rw [e]
      obtain ⟨h1, h2⟩ := hask { r with old := r.oldAfter C, sig := { r.sig with now := r.sig.now + c.time } } h.alarm h.out
      refine ⟨?_, ?_⟩
      · intro _ d hd
        rw [h1 d hd]
        have e2 : oldAfter C { r with old := r.oldAfter C, sig := { r.sig with now := r.sig.now + c.time } } = r.oldAfter C := by
          unfold oldAfter; cases C.muteAgents <;> rfl
        rw [e2]
        dsimp only
        rw [Nat.add_assoc]
      · rintro (⟨c', hc', hn⟩ | hn)
        · cases hc'; rw [hr] at hn; cases hn
        · exact h2 hn

/-- The agents that are told the result: up to the first whose `final` raises. -/
def told (A : Agents) : List ℕ → List ℕ
  | [] => []
  | i :: t => i :: match A.final i with
    | some c => if c.res = none then [] else told A t
    | none => told A t

/-- Does `final` of the agent raise? -/
def finalRaises (A : Agents) (i : ℕ) : Bool := match A.final i with
  | some c => c.res.isNone
  | none => false

/-- **C82** The end of a game: the agents are told the result in their order until one of them raises, without time limits; nothing else changes. If one raises, with
`catchExceptions` the game counts as crashed although it was won or lost, and the output goes to the console; without, the exception leaves `run` and the output stays redirected. -/
theorem C82_final (C : TConf) (A : Agents) (l : List ℕ) : ∀ (r : TRun), r.Calm C →
    (r.finals C A l).sig = { r.sig with now := r.sig.now + ((told A l).map fun i => (A.final i).elim 0 Call.time).sum } ∧
    (r.finals C A l).state = r.state ∧ (r.finals C A l).moveHistory = r.moveHistory ∧ (r.finals C A l).times = r.times ∧
    (r.finals C A l).agentTimeout = r.agentTimeout ∧
    match l.find? (finalRaises A) with
    | none => (r.finals C A l).status = r.status ∧ (r.finals C A l).out = .console
    | some i => if C.catchExc then (r.finals C A l).status = .crashed i ∧ (r.finals C A l).out = .console
      else (r.finals C A l).status = .raised ∧ (r.finals C A l).out = if C.muteAgents then .buffer i else .console := by
  induction l with
  | nil => intro r h; exact ⟨rfl, rfl, rfl, rfl, rfl, rfl, h.out⟩
  | cons i l ih =>
    intro r h
    unfold finals final told
    cases hf : A.final i with
    | none =>
      have hfr : finalRaises A i = false := by unfold finalRaises; rw [hf]
      simp only [List.find?_cons, hfr, List.map_cons, hf, Option.elim_none, List.sum_cons, Nat.zero_add]
      exact ih r h
    | some c =>
      simp only [mute_plain, plain_call r h.alarm]
      cases hr : c.res with
      | none =>
        have hfr : finalRaises A i = true := by unfold finalRaises; rw [hf]; simp [hr]
        simp only [List.find?_cons, hfr, Option.isNone_none, endOf, if_true, List.map_cons, List.map_nil, hf, Option.elim_some, List.sum_cons, List.sum_nil, Nat.add_zero]
        cases hcx : C.catchExc <;> cases hm : C.muteAgents <;> simp [mute, unmute, crash, hm, h.out]
      | some x =>
        have hfr : finalRaises A i = false := by unfold finalRaises; rw [hf]; simp [hr]
        simp only [List.find?_cons, hfr, Option.isNone_some, endOf, Bool.false_eq_true, if_false, List.map_cons, hf, Option.elim_some, List.sum_cons, reduceCtorEq]
        have e : unmute C (mute C { r with sig := { r.sig with now := r.sig.now + c.time } } i) =
            { r with old := r.oldAfter C, sig := { r.sig with now := r.sig.now + c.time } } := by
          unfold oldAfter
          cases hm : C.muteAgents <;> simp [mute, unmute, hm, h.out]
        rw [e]
        have hcalm : Calm C { r with old := r.oldAfter C, sig := { r.sig with now := r.sig.now + c.time } } := by
          refine ⟨h.out, ?_, h.handler, h.alarm, h.index, h.times, h.warnings⟩
          unfold oldAfter
          dsimp only
          split
          · right; rfl
          · exact h.old
        have := ih _ hcalm
        dsimp only at this
        rw [Nat.add_assoc] at this
        exact this

/-- **C82** With `catchExceptions` a whole game always leaves the output on the console, is never ended by a signal and never finds the output unsaved; a timeout is always a crash. -/
theorem C82_run (C : TConf) {T : ℕ} (hT : 0 < T) (hc : C.catchExc = true) (hTC : C.timeout = T) (hTm : T < 2 ^ 31) (hn : 0 < C.numAgents) (A : Agents) (s : GState) (n : ℕ) :
    let r := (start C s).run C A n
    r.out = .console ∧ r.status ≠ .nameError ∧ r.status ≠ .killed ∧ r.sig.handler = .dfl ∧ (r.status = .raised → ∃ e, r.state.deepCopy = .error e) ∧
    (r.status = .running ∨ r.status = .finished → r.agentTimeout = false ∧ r.sig.alarm = none) ∧
    (r.sig.alarm ≠ none → ∃ i, r.status = .crashed i ∧ r.agentTimeout = false) := by
  have hg := C82_game C hT hc hTC hTm hn A s
  have key : ∀ r : TRun, r.Sound C T → r.out = .console ∧ r.status ≠ .nameError ∧ r.status ≠ .killed ∧ r.sig.handler = .dfl ∧
      (r.status = .raised → ∃ e, r.state.deepCopy = .error e) ∧ (r.status = .running ∨ r.status = .finished → r.agentTimeout = false ∧ r.sig.alarm = none) ∧
      (r.sig.alarm ≠ none → ∃ i, r.status = .crashed i ∧ r.agentTimeout = false) := by
    intro r h
    exact ⟨h.out, h.alive.1, h.alive.2, h.handler, h.raised, fun hx => ⟨(h.calm hx).2.1, (h.calm hx).1.alarm⟩, h.alarm⟩
  unfold run
  dsimp only
  split
  · split
    · rename_i hfin
      have hs := hg n
      obtain ⟨hcalm, h2, _, _⟩ := hs.calm (Or.inr hfin)
      obtain ⟨f1, f2, f3, f4, f5, f6⟩ := C82_final C A (List.range C.numAgents) _ hcalm
      have ha : (finals C A (loop C A n 0 (registerAll C A (start C s) (List.range C.numAgents))) (List.range C.numAgents)).sig.alarm = none := by
        rw [f1]; exact hcalm.alarm
      have hh : (finals C A (loop C A n 0 (registerAll C A (start C s) (List.range C.numAgents))) (List.range C.numAgents)).sig.handler = .dfl := by
        rw [f1]; exact hcalm.handler
      rw [hc] at f6
      simp only [if_true] at f6
      split at f6
      · refine ⟨f6.2, ?_, ?_, hh, ?_, fun _ => ⟨f5.trans h2, ha⟩, fun hx => absurd ha hx⟩ <;> rw [f6.1, hfin] <;> simp
      · refine ⟨f6.2, ?_, ?_, hh, ?_, fun _ => ⟨f5.trans h2, ha⟩, fun hx => absurd ha hx⟩ <;> rw [f6.1] <;> simp
    · exact key _ (hg n)
  · exact key _ (hg 0)

/-- A game in which nothing has happened yet. -/
def Untouched (s : GState) (r : TRun) : Prop :=
  r.state = s ∧ r.moveHistory = [] ∧ r.sig.now = 0 ∧ r.agentTimeout = false

theorem timed_overflow {α : Type} (r : TRun) {s : ℤ} (hs : 2 ^ 31 ≤ s) (c : Call α) :
    r.timed s c = (.exn, { r with sig := { r.sig with handler := .timeout } }) := by
  unfold timed
  rw [(C81_overflow c.prog (Or.inr hs) r.sig).1]

theorem register_overflow (C : TConf) (hc : C.catchExc = true) (hT : 2 ^ 31 ≤ C.timeout) (A : Agents) {s : GState} {r : TRun} (h : r.Untouched s)
    (hr : r.status = .running) (i : ℕ) : (r.register C A i).Untouched s ∧ ((r.register C A i).status = .running ∨ ∃ j, (r.register C A i).status = .crashed j) := by
  unfold register
  cases A.loaded i with
  | false =>
    unfold mute unmute crash
    cases C.muteAgents
    · exact ⟨h, Or.inr ⟨i, rfl⟩⟩
    · exact ⟨h, Or.inr ⟨i, rfl⟩⟩
  | true =>
    cases A.register i with
    | none => exact ⟨h, Or.inl hr⟩
    | some c =>
      simp only [Bool.not_true, Bool.false_eq_true, if_false, hc, if_true]
      cases r.state.deepCopy with
      | error e =>
        unfold mute unmute crash
        cases C.muteAgents
        · exact ⟨h, Or.inr ⟨i, rfl⟩⟩
        · exact ⟨h, Or.inr ⟨i, rfl⟩⟩
      | ok obs =>
        dsimp only
        rw [timed_overflow _ hT]
        unfold mute unmute crash
        cases C.muteAgents
        · exact ⟨h, Or.inr ⟨i, rfl⟩⟩
        · exact ⟨h, Or.inr ⟨i, rfl⟩⟩

theorem registerAll_overflow (C : TConf) (hc : C.catchExc = true) (hT : 2 ^ 31 ≤ C.timeout) (A : Agents) {s : GState} (l : List ℕ) : ∀ {r : TRun}, r.Untouched s →
    r.status = .running ∨ (∃ j, r.status = .crashed j) →
    (r.registerAll C A l).Untouched s ∧ ((r.registerAll C A l).status = .running ∨ ∃ j, (r.registerAll C A l).status = .crashed j) := by
  induction l with
  | nil => intro r h hr; exact ⟨h, hr⟩
  | cons i l ih =>
    intro r h hr
    unfold registerAll
    by_cases hx : r.status = .running
    · rw [if_pos hx]
      obtain ⟨h1, h2⟩ := register_overflow C hc hT A h hx i
      exact ih h1 h2
    · rw [if_neg hx]; exact ⟨h, hr⟩

theorem turn_overflow (C : TConf) (hc : C.catchExc = true) (hT : 2 ^ 31 ≤ C.timeout) (A : Agents) (k : ℕ) {s : GState} {r : TRun} (h : r.Untouched s) :
    (r.turn C A k).Untouched s ∧ ((r.turn C A k).status = .crashed r.agentIndex ∨ ((r.turn C A k).status = .raised ∧ ∃ e, s.deepCopy = .error e)) := by
  have hs := h.1
  unfold turn
  dsimp only
  cases hd : r.state.deepCopy with
  | error e =>
    cases A.hasObserve r.agentIndex with
    | false => exact ⟨h, Or.inr ⟨rfl, e, by rw [← hs]; exact hd⟩⟩
    | true =>
      simp only [hc, if_true]
      unfold mute unmute crash
      cases C.muteAgents
      · exact ⟨h, Or.inl rfl⟩
      · exact ⟨h, Or.inl rfl⟩
  | ok obs =>
    cases A.hasObserve r.agentIndex with
    | false =>
      dsimp only
      unfold ask
      dsimp only
      simp only [hc, if_true, Bool.false_eq_true, if_false]
      rw [timed_overflow _ (by simpa using hT)]
      unfold mute unmute crash
      cases C.muteAgents
      · exact ⟨h, Or.inl rfl⟩
      · exact ⟨h, Or.inl rfl⟩
    | true =>
      simp only [hc, if_true]
      rw [timed_overflow _ hT]
      unfold mute unmute crash
      cases C.muteAgents
      · exact ⟨h, Or.inl rfl⟩
      · exact ⟨h, Or.inl rfl⟩

/-- **C82** With `catchExceptions` and a limit of `2 ^ 31` seconds or more nobody ever moves: `signal.alarm` does not take the number, and the exception counts as a crash of the
agent that was to be called. No method of an agent is run, no time passes, and it does not count as a timeout. -/
theorem C82_overflow (C : TConf) (hc : C.catchExc = true) (hT : 2 ^ 31 ≤ C.timeout) (A : Agents) (s : GState) {n : ℕ} (hn : 0 < n) :
    let r := (start C s).run C A n
    ((∃ i, r.status = .crashed i) ∨ (r.status = .raised ∧ ∃ e, s.deepCopy = .error e)) ∧
    r.state = s ∧ r.moveHistory = [] ∧ r.sig.now = 0 ∧ r.agentTimeout = false := by
  obtain ⟨h1, h2⟩ := registerAll_overflow C hc hT A (s := s) (List.range C.numAgents) (r := start C s) ⟨rfl, rfl, rfl, rfl⟩ (Or.inl rfl)
  unfold run
  dsimp only
  by_cases hx : (registerAll C A (start C s) (List.range C.numAgents)).status = .running
  · rw [if_pos hx]
    obtain ⟨m, rfl⟩ : ∃ m, n = m + 1 := ⟨n - 1, by omega⟩
    obtain ⟨t1, t2⟩ := turn_overflow C hc hT A 0 h1
    have hstop : ∀ (m k : ℕ) (r : TRun), r.status ≠ .running → loop C A m k r = r := by
      intro m k r hr
      cases m with
      | zero => rfl
      | succ m => rw [loop, if_neg hr]
    rw [loop, if_pos hx, hstop _ _ _ (by rcases t2 with t | ⟨t, _⟩ <;> rw [t] <;> simp)]
    rw [if_neg (by rcases t2 with t | ⟨t, _⟩ <;> rw [t] <;> simp)]
    exact ⟨t2.imp (fun t => ⟨_, t⟩) id, t1⟩
  · rw [if_neg hx]
    exact ⟨Or.inl (h2.resolve_left hx), h1⟩

theorem timed_nonpos {α : Type} (r : TRun) {s : ℤ} (hs : s ≤ 0) (hf : -2 ^ 31 ≤ s) (c : Call α) (hc : c.time < 1000000 * 2 ^ 31) :
    ∃ al, r.timed s c = (endOf c.res.isNone, { r with sig := ⟨r.sig.now + c.time, r.sig.handler, al⟩ }) := by
  unfold timed
  by_cases h0 : s = 0
  · subst h0
    rw [(C81_zero (call_plain c) r.sig).1 c.time c.res.isNone (call_cost c)]
    exact ⟨none, rfl⟩
  · obtain ⟨h1, h2, _⟩ := C81_negative (call_plain c) (by omega : s < 0) hf r.sig
    cases hr : c.res.isNone with
    | false =>
      rw [h1 c.time (by rw [call_cost, hr]) (by omega)]
      exact ⟨none, rfl⟩
    | true =>
      rw [h2 c.time (by rw [call_cost, hr]) (by omega)]
      exact ⟨_, rfl⟩

/-- **C82** With `catchExceptions` and a limit of 0 or less nobody ever moves either, but the agent is asked first and never interrupted: if it does not raise, its answer came too late.
The calls take less than `2 ^ 30` seconds, and `getAction` takes some time. -/
theorem C82_nonpositive (C : TConf) (hc : C.catchExc = true) (hT : C.timeout ≤ 0) (hf : -2 ^ 30 ≤ C.timeout) (A : Agents) (k : ℕ) (r : TRun) (hi : r.agentIndex < C.numAgents)
    (hw : r.warnings.length = C.numAgents) (hat : r.agentTimeout = false) {obs : GState} (hobs : r.state.deepCopy = .ok obs)
    (ho : (A.observe k r.agentIndex obs).time < 1000000 * 2 ^ 30) (ha : (A.action k r.agentIndex obs).time < 1000000 * 2 ^ 30)
    (hp : 0 < (A.action k r.agentIndex obs).time) :
    let r' := r.turn C A k
    r'.status = .crashed r.agentIndex ∧ r'.state = r.state ∧ r'.moveHistory = r.moveHistory ∧
    (r'.agentTimeout = true ↔ (A.hasObserve r.agentIndex = true → (A.observe k r.agentIndex obs).res ≠ none) ∧ (A.action k r.agentIndex obs).res ≠ none) ∧
    r'.sig.now = r.sig.now + (if A.hasObserve r.agentIndex = true then (A.observe k r.agentIndex obs).time else 0) +
      (if A.hasObserve r.agentIndex = true ∧ (A.observe k r.agentIndex obs).res = none then 0 else (A.action k r.agentIndex obs).time) := by
  have hask : ∀ (r1 : TRun) (o : ℕ), r1.agentIndex = r.agentIndex → r1.warnings = r.warnings → r1.agentTimeout = false → o < 1000000 * 2 ^ 30 →
      let r' := r1.ask C A k obs o false
      r'.status = .crashed r.agentIndex ∧ r'.state = r1.state ∧ r'.moveHistory = r1.moveHistory ∧
      (r'.agentTimeout = true ↔ (A.action k r.agentIndex obs).res ≠ none) ∧ r'.sig.now = r1.sig.now + (A.action k r.agentIndex obs).time := by
    intro r1 o e1 e2 e3 ho
    unfold ask
    dsimp only
    simp only [hc, if_true, Bool.false_eq_true, if_false, e1]
    obtain ⟨al, hal⟩ := timed_nonpos (r1.mute C r.agentIndex) (s := C.timeout - (o / 1000000 : ℕ)) (by omega) (by omega) (A.action k r.agentIndex obs) (by omega)
    rw [hal]
    cases hr : (A.action k r.agentIndex obs).res with
    | none =>
      simp only [Option.isNone_none, endOf, if_true]
      unfold mute unmute crash
      cases C.muteAgents
      · exact ⟨rfl, rfl, rfl, by simp [e3], rfl⟩
      · exact ⟨rfl, rfl, rfl, by simp [e3], rfl⟩
    | some d =>
      simp only [Option.isNone_some, endOf, Bool.false_eq_true, if_false]
      rw [if_pos (by push_cast; omega)]
      have hwg : ((r1.mute C r.agentIndex).warnings.modify r.agentIndex (· + 1)).getD r.agentIndex 0 > 0 := by
        have : (r1.mute C r.agentIndex).warnings = r.warnings := by
          unfold mute; cases C.muteAgents <;> exact e2
        rw [this, List.getD_eq_getElem?_getD, List.getElem?_modify, List.getElem?_eq_getElem (by omega)]
        simp
      rw [if_pos hwg]
      unfold mute unmute crash
      cases C.muteAgents
      · exact ⟨rfl, rfl, rfl, by simp, rfl⟩
      · exact ⟨rfl, rfl, rfl, by simp, rfl⟩
  intro r'
  rcases Bool.eq_false_or_eq_true (A.hasObserve r.agentIndex) with hh | hh
  rotate_left
  · have hob : ¬ A.hasObserve r.agentIndex = true := by rw [hh]; simp
    have hr' : r' = r.ask C A k obs 0 false := by show r.turn C A k = _; unfold turn; simp only [hobs, hh]
    rw [hr']
    obtain ⟨a1, a2, a3, a4, a5⟩ := hask r 0 rfl rfl hat (by omega)
    refine ⟨a1, a2, a3, a4.trans ⟨fun h => ⟨fun hx => absurd hx hob, h⟩, fun h => h.2⟩, ?_⟩
    rw [a5, if_neg hob, if_neg (fun h => hob h.1)]
    rfl
  · have hob := hh
    obtain ⟨al, hal⟩ := timed_nonpos (r.mute C r.agentIndex) hT (by omega) (A.observe k r.agentIndex obs) (by omega)
    cases hr : (A.observe k r.agentIndex obs).res with
    | none =>
      have hr' : r' = r.turn C A k := rfl
      rw [hr']
      unfold turn
      simp only [hobs, hh, hc, if_true]
      rw [hal, hr]
      simp only [Option.isNone_none, endOf, if_true]
      unfold mute unmute crash
      cases C.muteAgents
      · exact ⟨rfl, rfl, rfl, by simp [hat], by simp⟩
      · exact ⟨rfl, rfl, rfl, by simp [hat], by simp⟩
    | some x =>
      have hr' : r' = ((({ r.mute C r.agentIndex with sig := ⟨(r.mute C r.agentIndex).sig.now + (A.observe k r.agentIndex obs).time,
          (r.mute C r.agentIndex).sig.handler, al⟩ } : TRun).unmute C).unmute C).ask C A k obs (A.observe k r.agentIndex obs).time false := by
        show r.turn C A k = _
        unfold turn
        simp only [hobs, hh, hc, if_true]
        rw [hal, hr]
        simp only [Option.isNone_some, endOf, Bool.false_eq_true, if_false, Nat.add_sub_cancel_left]
      have hpre : ∃ r1 : TRun, r' = r1.ask C A k obs (A.observe k r.agentIndex obs).time false ∧ r1.agentIndex = r.agentIndex ∧ r1.warnings = r.warnings ∧
          r1.agentTimeout = false ∧ r1.state = r.state ∧ r1.moveHistory = r.moveHistory ∧ r1.sig.now = r.sig.now + (A.observe k r.agentIndex obs).time := by
        refine ⟨_, hr', ?_⟩
        unfold mute unmute
        cases C.muteAgents
        · exact ⟨rfl, rfl, hat, rfl, rfl, rfl⟩
        · exact ⟨rfl, rfl, hat, rfl, rfl, rfl⟩
      obtain ⟨r1, e0, e1, e2, e3, e4, e5, e6⟩ := hpre
      rw [e0]
      obtain ⟨a1, a2, a3, a4, a5⟩ := hask r1 _ e1 e2 e3 ho
      refine ⟨a1, a2.trans e4, a3.trans e5, a4.trans ⟨fun h => ⟨fun _ => by simp, h⟩, fun h => h.2⟩, ?_⟩
      rw [a5, e6, if_pos hob, if_neg (fun h => nomatch h.2)]

/-- The cases of C82, with a limit of two seconds: an observation of 1.5 seconds leaves one whole second for the action, so that an action of 0.9 seconds is not interrupted but
overdraws the move; one of a second is interrupted; the third move of 0.7 seconds overdraws the account. A new game meets the hypotheses of C82_refines. -/
example (l : Layout) (g : ℕ) (C : TConf) (hn : 0 < C.numAgents) :
    judge 2 0 (some ⟨1500000, some ()⟩) ⟨900000, some .stop⟩ = .warned 2400000 ∧ judge 2 0 (some ⟨1500000, some ()⟩) ⟨1000000, some .stop⟩ = .late 2500000 ∧
    judge 2 1400000 none ⟨700000, some .stop⟩ = .total 700000 ∧ judge 2 700000 none ⟨700000, some .stop⟩ = .move .stop 700000 ∧
    judge 2 0 none ⟨700000, none⟩ = .own 700000 2000000 ∧ (2 : ℤ) ^ 31 ≤ (⟨true, true, 3000000000, 2⟩ : TConf).timeout ∧ (start C (GState.init l g)).erase = Run.start l g ∧ (start C (GState.init l g)).Sound C 2 := by
  refine ⟨?_, ?_, ?_, ?_, ?_, by norm_num, rfl, start_sound C 2 hn _⟩ <;> simp [judge, judgeAction]

end TRun

end Verif.Pac
