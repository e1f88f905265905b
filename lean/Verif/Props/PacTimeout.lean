import Verif.Model.PacTimeout

/-!
# C81: time limits of functions
-/

namespace Verif.Pac

/-- What a program without time limits and `try` does when nobody interrupts it: the time it takes and whether it raises; `none` if it runs for ever. -/
def Prog.cost : Prog → Option (ℕ × Bool)
  | .work d => some (d, false)
  | .forever => none
  | .raise => some (0, true)
  | .seq p q => match p.cost with
    | some (d, false) => q.cost.map fun c => (d + c.1, c.2)
    | c => c
  | .catch _ _ => none
  | .timed _ _ => none

/-- Programs without time limits and `try`. -/
def Prog.Plain : Prog → Prop
  | .seq p q => p.Plain ∧ q.Plain
  | .catch _ _ => False
  | .timed _ _ => False
  | _ => True

/-- All limits in the program are numbers that `signal.alarm` takes. -/
def Prog.Fits : Prog → Prop
  | .seq p q => p.Fits ∧ q.Fits
  | .catch p q => p.Fits ∧ q.Fits
  | .timed s p => -2 ^ 31 ≤ s ∧ s < 2 ^ 31 ∧ p.Fits
  | _ => True

theorem fitsInt_iff (s : ℤ) : fitsInt s = true ↔ -2 ^ 31 ≤ s ∧ s < 2 ^ 31 := by
  unfold fitsInt
  rw [Bool.and_eq_true, decide_eq_true_eq, decide_eq_true_eq]

/-- A timed call with a limit that `signal.alarm` takes. -/
theorem timed_fits {s : ℤ} (h1 : -2 ^ 31 ≤ s) (h2 : s < 2 ^ 31) (p : Prog) (σ : Sig) : (Prog.timed s p).run σ =
    match p.run { σ with handler := .timeout, alarm := alarmAt σ.now s } with
    | (.ok, σ') => (.ok, { σ' with handler := σ.handler, alarm := none })
    | (.exn, σ') => (.exn, { σ' with handler := σ.handler })
    | (.timeout, σ') => (.timeout, { σ' with handler := σ.handler })
    | r => r := by
  rw [Prog.run, (fitsInt_iff s).mpr ⟨h1, h2⟩]
  rfl

/-- How an uninterrupted program ends. -/
def endOf (raised : Bool) : Ending := if raised then .exn else .ok

theorem plain_free {p : Prog} (hp : p.Plain) : ∀ σ : Sig, σ.alarm = none →
    match p.cost with
    | some (d, b) => p.run σ = (endOf b, { σ with now := σ.now + d })
    | none => (p.run σ).1 = .diverges := by
  induction p with
  | work d => intro σ h; simp [Prog.cost, Prog.run, h, endOf]
  | forever => intro σ h; simp [Prog.cost, Prog.run, h]
  | raise => intro σ h; simp [Prog.cost, Prog.run, endOf]
  | seq p q ihp ihq =>
    intro σ h
    have h1 := ihp hp.1 σ h
    unfold Prog.cost Prog.run
    cases hc : p.cost with
    | none =>
      rw [hc] at h1
      dsimp only at h1 ⊢
      rcases hr : p.run σ with ⟨r, σ'⟩
      rw [hr] at h1
      dsimp only at h1
      subst h1
      rfl
    | some c =>
      obtain ⟨d, b⟩ := c
      rw [hc] at h1
      dsimp only at h1 ⊢
      rw [h1]
      cases b with
      | true => rfl
      | false =>
        have h2 := ihq hp.2 { σ with now := σ.now + d } h
        simp only [endOf, Bool.false_eq_true, if_false]
        cases hq : q.cost with
        | none => rw [hq] at h2; exact h2
        | some c' =>
          obtain ⟨d', b'⟩ := c'
          rw [hq] at h2
          simp only [Option.map_some]
          dsimp only at h2
          rw [h2, Nat.add_assoc]
          rfl
  | «catch» p q => exact absurd hp id
  | timed s p => exact absurd hp id

theorem plain_alarm {p : Prog} (hp : p.Plain) : ∀ (σ : Sig) (t : ℕ), σ.alarm = some t → σ.now < t →
    (∃ d b, p.cost = some (d, b) ∧ σ.now + d < t ∧ p.run σ = (endOf b, { σ with now := σ.now + d })) ∨
    ((∀ d b, p.cost = some (d, b) → t ≤ σ.now + d) ∧ p.run σ = σ.deliver t) := by
  induction p with
  | work d =>
    intro σ t h hlt
    unfold Prog.run Prog.cost
    rw [h]
    dsimp only
    by_cases hd : t ≤ σ.now + d
    · right
      rw [if_pos hd]
      refine ⟨fun d' b h => ?_, rfl⟩
      cases h; exact hd
    · left
      rw [if_neg hd]
      exact ⟨d, false, rfl, by omega, rfl⟩
  | forever =>
    intro σ t h hlt
    right
    unfold Prog.run Prog.cost
    rw [h]
    refine ⟨?_, rfl⟩
    intro d b h
    cases h
  | raise =>
    intro σ t h hlt
    left
    exact ⟨0, true, rfl, hlt, rfl⟩
  | seq p q ihp ihq =>
    intro σ t h hlt
    unfold Prog.run Prog.cost
    rcases ihp hp.1 σ t h hlt with ⟨d, b, hc, hd, hr⟩ | ⟨hc, hr⟩
    · rw [hr, hc]
      cases b with
      | true => left; exact ⟨d, true, rfl, hd, rfl⟩
      | false =>
        simp only [endOf, Bool.false_eq_true, if_false]
        rcases ihq hp.2 { σ with now := σ.now + d } t h hd with ⟨d', b', hc', hd', hr'⟩ | ⟨hc', hr'⟩
        · left
          rw [hr', hc']
          refine ⟨d + d', b', rfl, by dsimp only at hd'; omega, ?_⟩
          rw [Nat.add_assoc]
          rfl
        · right
          rw [hr']
          refine ⟨?_, ?_⟩
          · intro e b he
            cases hq : q.cost with
            | none => rw [hq] at he; cases he
            | some c =>
              rw [hq] at he
              obtain ⟨d', b'⟩ := c
              have := hc' d' b' hq
              simp only [Option.map_some, Option.some.injEq, Prod.mk.injEq] at he
              dsimp only at this
              omega
          · unfold Sig.deliver
            dsimp only
            congr 2
            omega
    · right
      rw [hr]
      refine ⟨?_, ?_⟩
      · intro e b he
        cases hq : p.cost with
        | none => rw [hq] at he; cases he
        | some c =>
          obtain ⟨d, b'⟩ := c
          have := hc d b' hq
          rw [hq] at he
          cases b' with
          | true => cases he; exact this
          | false =>
            dsimp only at he
            cases hq' : q.cost with
            | none => rw [hq'] at he; cases he
            | some c =>
              rw [hq'] at he
              simp only [Option.map_some, Option.some.injEq, Prod.mk.injEq] at he
              omega
      · unfold Sig.deliver
        cases σ.handler <;> rfl
  | «catch» p q => exact absurd hp id
  | timed s p => exact absurd hp id

/-- **C81** A function with a limit of `s > 0` seconds (a C `int`) that does not use limits itself: it does what it would do without limit if it ends in less time, and afterwards the handler is the
old one; if it returns there is no alarm, if it raises the alarm is still pending. Otherwise `TimeoutFunctionException` is raised when the time is up. Whatever alarm was
pending before is lost. -/
theorem C81_limit {p : Prog} (hp : p.Plain) {s : ℤ} (hs : 0 < s) (hf : s < 2 ^ 31) (σ : Sig) :
    (∀ d, p.cost = some (d, false) → (d : ℤ) < 1000000 * s → (Prog.timed s p).run σ = (.ok, ⟨σ.now + d, σ.handler, none⟩)) ∧
    (∀ d, p.cost = some (d, true) → (d : ℤ) < 1000000 * s → (Prog.timed s p).run σ = (.exn, ⟨σ.now + d, σ.handler, some (σ.now + 1000000 * s.toNat)⟩)) ∧
    ((∀ d b, p.cost = some (d, b) → 1000000 * s ≤ (d : ℤ)) → (Prog.timed s p).run σ = (.timeout, ⟨σ.now + 1000000 * s.toNat, σ.handler, none⟩)) := by
  have ha : alarmAt σ.now s = some (σ.now + 1000000 * s.toNat) := by
    unfold alarmAt
    rw [if_neg (by omega), if_pos hs]
  have key := plain_alarm hp { σ with handler := .timeout, alarm := alarmAt σ.now s } _ ha (by dsimp only; omega)
  rw [timed_fits (by omega) hf]
  rcases key with ⟨d, b, hc, hd, hr⟩ | ⟨hc, hr⟩
  · dsimp only at hd
    rw [hr, hc]
    refine ⟨?_, ?_, ?_⟩
    · intro d' h _; cases h; rfl
    · intro d' h _; cases h; simp only [endOf, if_true, ha]
    · intro h; have := h d b rfl; omega
  · dsimp only at hc
    rw [hr]
    refine ⟨?_, ?_, ?_⟩
    · intro d' h h2; have := hc d' _ h; omega
    · intro d' h h2; have := hc d' _ h; omega
    · intro _
      unfold Sig.deliver
      dsimp only
      rw [Nat.max_eq_right (by omega)]

/-- **C81** For all programs, with any nesting and limits that are C `int`s: a program that returns or raises leaves the handler as it was, and after a timed function that returned no alarm is pending. -/
theorem C81_handler (p : Prog) (hf : p.Fits) : (∀ (σ σ' : Sig) (r : Ending), p.run σ = (r, σ') → r ≠ .killed → r ≠ .diverges →
    σ'.handler = σ.handler ∧ σ.now ≤ σ'.now) ∧ ∀ (σ σ' : Sig) (s : ℤ), (Prog.timed s p).run σ = (.ok, σ') → σ'.alarm = none := by
  have h3 : ∀ (p : Prog) (σ σ' : Sig) (s : ℤ), (Prog.timed s p).run σ = (.ok, σ') → σ'.alarm = none := by
    intro p σ σ' s h
    cases hfi : fitsInt s with
    | false => rw [Prog.run, hfi] at h; cases h
    | true =>
    obtain ⟨f1, f2⟩ := (fitsInt_iff s).mp hfi
    rw [timed_fits f1 f2] at h
    split at h
    · cases h; rfl
    · cases h
    · cases h
    · rename_i hx _ _
      rcases hr : p.run { σ with handler := .timeout, alarm := alarmAt σ.now s } with ⟨x, y⟩
      rw [hr] at h hx
      cases h
      exact absurd rfl (hx _)
  suffices h : ∀ (σ σ' : Sig) (r : Ending), p.run σ = (r, σ') → r ≠ .killed → r ≠ .diverges → σ'.handler = σ.handler ∧ σ.now ≤ σ'.now from ⟨h, h3 p⟩
  induction p with
  | work d =>
    intro σ σ' r h _ _
    unfold Prog.run at h
    split at h
    · split at h
      · unfold Sig.deliver at h; cases h; exact ⟨rfl, Nat.le_max_left _ _⟩
      · cases h; exact ⟨rfl, Nat.le_add_right _ _⟩
    · cases h; exact ⟨rfl, Nat.le_add_right _ _⟩
  | forever =>
    intro σ σ' r h _ _
    unfold Prog.run at h
    split at h
    · unfold Sig.deliver at h; cases h; exact ⟨rfl, Nat.le_max_left _ _⟩
    · cases h; exact ⟨rfl, le_refl _⟩
  | raise =>
    intro σ σ' r h _ _
    unfold Prog.run at h
    cases h; exact ⟨rfl, le_refl _⟩
  | seq p q ihp ihq =>
    intro σ σ' r h hk hd
    unfold Prog.run at h
    rcases hr : p.run σ with ⟨x, y⟩
    rw [hr] at h
    cases x with
    | ok =>
      obtain ⟨a1, a2⟩ := ihp hf.1 σ y .ok hr (by decide) (by decide)
      obtain ⟨b1, b2⟩ := ihq hf.2 y σ' r h hk hd
      exact ⟨b1.trans a1, a2.trans b2⟩
    | exn => cases h; exact ihp hf.1 σ _ _ hr hk hd
    | timeout => cases h; exact ihp hf.1 σ _ _ hr hk hd
    | killed => cases h; exact absurd rfl hk
    | diverges => cases h; exact absurd rfl hd
  | «catch» p q ihp ihq =>
    intro σ σ' r h hk hd
    unfold Prog.run at h
    rcases hr : p.run σ with ⟨x, y⟩
    rw [hr] at h
    cases x with
    | ok => cases h; exact ihp hf.1 σ _ _ hr hk hd
    | exn =>
      obtain ⟨a1, a2⟩ := ihp hf.1 σ y .exn hr (by decide) (by decide)
      obtain ⟨b1, b2⟩ := ihq hf.2 y σ' r h hk hd
      exact ⟨b1.trans a1, a2.trans b2⟩
    | timeout =>
      obtain ⟨a1, a2⟩ := ihp hf.1 σ y .timeout hr (by decide) (by decide)
      obtain ⟨b1, b2⟩ := ihq hf.2 y σ' r h hk hd
      exact ⟨b1.trans a1, a2.trans b2⟩
    | killed => cases h; exact absurd rfl hk
    | diverges => cases h; exact absurd rfl hd
  | timed s p ih =>
    intro σ σ' r h hk hd
    rw [timed_fits hf.1 hf.2.1] at h
    rcases hr : p.run { σ with handler := .timeout, alarm := alarmAt σ.now s } with ⟨x, y⟩
    rw [hr] at h
    cases x with
    | ok => cases h; exact ⟨rfl, (ih hf.2.2 _ _ _ hr (by decide) (by decide)).2⟩
    | exn => cases h; exact ⟨rfl, (ih hf.2.2 _ _ _ hr (by decide) (by decide)).2⟩
    | timeout => cases h; exact ⟨rfl, (ih hf.2.2 _ _ _ hr (by decide) (by decide)).2⟩
    | killed => cases h; exact absurd rfl hk
    | diverges => cases h; exact absurd rfl hd

/-- The code that calls a timed function and goes on after exceptions (as `Game.run` does, game.py 588-604). -/
def Prog.guarded (s : ℤ) (p : Prog) : Prog := .catch (.timed s p) (.work 0)

/-- **C81** The alarm that is left pending after an exception ends the process: a program under the default handler that calls a timed function, which raises after `d`
microseconds, catches the exception and computes for `e` more, is killed exactly if `d + e` reaches the limit. -/
theorem C81_killed {p : Prog} (hp : p.Plain) {s : ℤ} {d : ℕ} (hc : p.cost = some (d, true)) (hd : (d : ℤ) < 1000000 * s) (hf : s < 2 ^ 31)
    (now : ℕ) (alarm : Option ℕ) (e : ℕ) :
    ((Prog.seq (.guarded s p) (.work e)).run ⟨now, .dfl, alarm⟩).1 = (if 1000000 * s ≤ (d + e : ℤ) then .killed else .ok) := by
  have hs : 0 < s := by omega
  have h1 := (C81_limit hp hs hf ⟨now, .dfl, alarm⟩).2.1 d hc hd
  unfold Prog.guarded
  rw [Prog.run, Prog.run, h1]
  dsimp only
  have h2 : (Prog.work 0).run ⟨now + d, .dfl, some (now + 1000000 * s.toNat)⟩ = (.ok, ⟨now + d, .dfl, some (now + 1000000 * s.toNat)⟩) := by
    unfold Prog.run
    dsimp only
    rw [if_neg (by omega)]
    rfl
  rw [h2]
  dsimp only
  unfold Prog.run
  dsimp only
  by_cases h : 1000000 * s ≤ (d + e : ℤ)
  · rw [if_pos h, if_pos (by omega)]; rfl
  · rw [if_neg h, if_neg (by omega)]

/-- A session: timed calls whose exceptions are caught, and computing in between. -/
inductive SessionItem
  | call (s : ℤ) (p : Prog)
  | between (d : ℕ)

/-- The program of a session. -/
def sessionProg : List SessionItem → Prog
  | [] => .work 0
  | .call s p :: t => .seq (.guarded s p) (sessionProg t)
  | .between d :: t => .seq (.work d) (sessionProg t)

/-- **C81** As long as no timed function raises an exception of its own before its time is up, a session is never killed, whatever the functions do otherwise; it always ends, without a
pending alarm. -/
theorem C81_safe (l : List SessionItem)
    (h : ∀ s p, SessionItem.call s p ∈ l → p.Plain ∧ 0 < s ∧ s < 2 ^ 31 ∧ ∀ d, p.cost = some (d, true) → 1000000 * s ≤ (d : ℤ)) (now : ℕ) :
    ∃ t, (sessionProg l).run ⟨now, .dfl, none⟩ = (.ok, ⟨t, .dfl, none⟩) := by
  induction l generalizing now with
  | nil => exact ⟨now + 0, rfl⟩
  | cons i l ih =>
    have ih := ih fun s p hm => h s p (List.mem_cons_of_mem _ hm)
    cases i with
    | between d =>
      obtain ⟨t, ht⟩ := ih (now + d)
      refine ⟨t, ?_⟩
      unfold sessionProg
      rw [Prog.run]
      have : (Prog.work d).run ⟨now, .dfl, none⟩ = (.ok, ⟨now + d, .dfl, none⟩) := rfl
      rw [this]
      exact ht
    | call s p =>
      obtain ⟨hp, hs, hf, he⟩ := h s p List.mem_cons_self
      have key : ∃ t', (Prog.guarded s p).run ⟨now, .dfl, none⟩ = (.ok, ⟨t', .dfl, none⟩) := by
        obtain ⟨h1, h2, h3⟩ := C81_limit hp hs hf ⟨now, .dfl, none⟩
        unfold Prog.guarded
        by_cases hq : ∀ d b, p.cost = some (d, b) → 1000000 * s ≤ (d : ℤ)
        · rw [Prog.run, h3 hq]
          exact ⟨_, rfl⟩
        · push Not at hq
          obtain ⟨d, b, hc, hd⟩ := hq
          cases b with
          | true => have := he d hc; omega
          | false =>
            rw [Prog.run, h1 d hc hd]
            exact ⟨_, rfl⟩
      obtain ⟨t', ht'⟩ := key
      obtain ⟨t, ht⟩ := ih t'
      refine ⟨t, ?_⟩
      unfold sessionProg
      rw [Prog.run, ht']
      exact ht

/-- **C81** A limit of `0` is no limit: the function runs as without `TimeoutFunction`, and a pending alarm of the caller is cancelled. -/
theorem C81_zero {p : Prog} (hp : p.Plain) (σ : Sig) :
    (∀ d b, p.cost = some (d, b) → (Prog.timed 0 p).run σ = (endOf b, ⟨σ.now + d, σ.handler, none⟩)) ∧
    (p.cost = none → ((Prog.timed 0 p).run σ).1 = .diverges) := by
  have key := plain_free hp { σ with handler := .timeout, alarm := alarmAt σ.now 0 } rfl
  refine ⟨?_, ?_⟩
  · intro d b hc
    rw [hc] at key
    dsimp only at key
    rw [timed_fits (by norm_num) (by norm_num), key]
    cases b <;> rfl
  · intro hc
    rw [hc] at key
    rw [timed_fits (by norm_num) (by norm_num)]
    dsimp only at key ⊢
    rcases hr : p.run { σ with handler := .timeout, alarm := alarmAt σ.now 0 } with ⟨r, σ'⟩
    rw [hr] at key
    dsimp only at key
    subst key
    rfl

/-- **C81** Limits are not nested: when an inner timed function returned, the outer limit is gone. What comes after it may take any time, and may run for ever. -/
theorem C81_nested {p q : Prog} (hp : p.Plain) (hq : q.Plain) {s s' : ℤ} (hs : -2 ^ 31 ≤ s) (hf : s < 2 ^ 31) (hs' : 0 < s') (hf' : s' < 2 ^ 31) {d : ℕ} (hc : p.cost = some (d, false)) (hd : (d : ℤ) < 1000000 * s')
    (σ : Sig) :
    (∀ e, q.cost = some (e, false) → (Prog.timed s (.seq (.timed s' p) q)).run σ = (.ok, ⟨σ.now + d + e, σ.handler, none⟩)) ∧
    (q.cost = none → ((Prog.timed s (.seq (.timed s' p) q)).run σ).1 = .diverges) := by
  have h1 := (C81_limit hp hs' hf' { σ with handler := .timeout, alarm := alarmAt σ.now s }).1 d hc hd
  have h2 := plain_free hq ⟨σ.now + d, .timeout, none⟩ rfl
  have hr : (Prog.seq (.timed s' p) q).run { σ with handler := .timeout, alarm := alarmAt σ.now s } = q.run ⟨σ.now + d, .timeout, none⟩ := by
    rw [Prog.run, h1]
  refine ⟨?_, ?_⟩
  · intro e he
    rw [he] at h2
    rw [timed_fits hs hf]
    dsimp only at h2 ⊢
    rw [hr, h2]
    rfl
  · intro he
    rw [he] at h2
    rw [timed_fits hs hf]
    dsimp only at h2 ⊢
    rw [hr]
    rcases hx : q.run ⟨σ.now + d, .timeout, none⟩ with ⟨r, σ'⟩
    rw [hx] at h2
    dsimp only at h2
    subst h2
    rfl

/-- **C81** A function that catches exceptions can swallow the timeout; then it has no limit any more. -/
theorem C81_swallowed {p q : Prog} (hp : p.Plain) (hq : q.Plain) {s : ℤ} (hs : 0 < s) (hf : s < 2 ^ 31) (hc : ∀ d b, p.cost = some (d, b) → 1000000 * s ≤ (d : ℤ)) (σ : Sig) :
    (∀ e, q.cost = some (e, false) → (Prog.timed s (.catch p q)).run σ = (.ok, ⟨σ.now + 1000000 * s.toNat + e, σ.handler, none⟩)) ∧
    (q.cost = none → ((Prog.timed s (.catch p q)).run σ).1 = .diverges) := by
  have ha : alarmAt σ.now s = some (σ.now + 1000000 * s.toNat) := by
    unfold alarmAt
    rw [if_neg (by omega), if_pos hs]
  have key := plain_alarm hp { σ with handler := .timeout, alarm := alarmAt σ.now s } _ ha (by dsimp only; omega)
  have hr : p.run { σ with handler := .timeout, alarm := alarmAt σ.now s } = (.timeout, ⟨σ.now + 1000000 * s.toNat, .timeout, none⟩) := by
    rcases key with ⟨d, b, h1, h2, _⟩ | ⟨_, h⟩
    · have := hc d b h1; dsimp only at h2; omega
    · rw [h]
      unfold Sig.deliver
      dsimp only
      rw [Nat.max_eq_right (by omega)]
  have h2 := plain_free hq ⟨σ.now + 1000000 * s.toNat, .timeout, none⟩ rfl
  have hr2 : (Prog.catch p q).run { σ with handler := .timeout, alarm := alarmAt σ.now s } = q.run ⟨σ.now + 1000000 * s.toNat, .timeout, none⟩ := by
    rw [Prog.run, hr]
  refine ⟨?_, ?_⟩
  · intro e he
    rw [he] at h2
    rw [timed_fits (by omega) hf]
    dsimp only at h2 ⊢
    rw [hr2, h2]
    rfl
  · intro he
    rw [he] at h2
    rw [timed_fits (by omega) hf]
    dsimp only at h2 ⊢
    rw [hr2]
    rcases hx : q.run ⟨σ.now + 1000000 * s.toNat, .timeout, none⟩ with ⟨r, σ'⟩
    rw [hx] at h2
    dsimp only at h2
    subst h2
    rfl

theorem plain_poll {p : Prog} (hp : p.Plain) : ∀ t : ℕ,
    match p.cost with
    | some (d, b) => p.runPoll t = (endOf b, t + d)
    | none => (p.runPoll t).1 = .diverges := by
  induction p with
  | work d => intro t; simp [Prog.cost, Prog.runPoll, endOf]
  | forever => intro t; simp [Prog.cost, Prog.runPoll]
  | raise => intro t; simp [Prog.cost, Prog.runPoll, endOf]
  | seq p q ihp ihq =>
    intro t
    have h1 := ihp hp.1 t
    unfold Prog.cost Prog.runPoll
    cases hc : p.cost with
    | none =>
      rw [hc] at h1
      dsimp only at h1 ⊢
      rcases hr : p.runPoll t with ⟨r, t'⟩
      rw [hr] at h1
      dsimp only at h1
      subst h1
      rfl
    | some c =>
      obtain ⟨d, b⟩ := c
      rw [hc] at h1
      dsimp only at h1 ⊢
      rw [h1]
      cases b with
      | true => rfl
      | false =>
        have h2 := ihq hp.2 (t + d)
        simp only [endOf, Bool.false_eq_true, if_false]
        cases hq : q.cost with
        | none => rw [hq] at h2; exact h2
        | some c' =>
          obtain ⟨d', b'⟩ := c'
          rw [hq] at h2
          simp only [Option.map_some]
          dsimp only at h2
          rw [h2, Nat.add_assoc]
          rfl
  | «catch» p q => exact absurd hp id
  | timed s p => exact absurd hp id

/-- **C81** Without `SIGALRM` a function that returns within the limit gives the same, one that returns later is run to its end and then raises the timeout, an exception of its own is
passed on whenever it comes, and an endless loop is never stopped. -/
theorem C81_poll {p : Prog} (hp : p.Plain) (s : ℤ) (t : ℕ) :
    (∀ d, p.cost = some (d, false) → (Prog.timed s p).runPoll t = (if 1000000 * s ≤ (d : ℤ) then .timeout else .ok, t + d)) ∧
    (∀ d, p.cost = some (d, true) → (Prog.timed s p).runPoll t = (.exn, t + d)) ∧
    (p.cost = none → ((Prog.timed s p).runPoll t).1 = .diverges) := by
  have key := plain_poll hp t
  refine ⟨?_, ?_, ?_⟩
  · intro d hc
    rw [hc] at key
    unfold Prog.runPoll
    dsimp only at key
    rw [key]
    simp only [endOf, Bool.false_eq_true, if_false, Nat.add_sub_cancel_left]
    split <;> rfl
  · intro d hc
    rw [hc] at key
    unfold Prog.runPoll
    dsimp only at key
    rw [key]
    rfl
  · intro hc
    rw [hc] at key
    unfold Prog.runPoll
    dsimp only at key
    rcases hr : p.runPoll t with ⟨r, t'⟩
    rw [hr] at key
    dsimp only at key
    subst key
    rfl

/-- The cases of C81: with a limit of 30 seconds a function that raises after one second and a pause of 29 seconds end the process. -/
example : (Prog.seq (.work 1000000) .raise).cost = some (1000000, true) ∧ (Prog.seq (.work 1000000) .raise).Plain ∧
    ((Prog.seq (.guarded 30 (.seq (.work 1000000) .raise)) (.work 29000000)).run ⟨0, .dfl, none⟩).1 = .killed ∧
    ((Prog.seq (.guarded 30 (.seq (.work 1000000) .raise)) (.work 28999999)).run ⟨0, .dfl, none⟩).1 = .ok ∧
    ((Prog.timed 30 .forever).run ⟨0, .dfl, none⟩).1 = .timeout := by
  refine ⟨rfl, ⟨trivial, trivial⟩, ?_, ?_, ?_⟩ <;> decide

/-- **C81** A negative limit is a limit of `2 ^ 32 + s` seconds, more than 68 years. -/
theorem C81_negative {p : Prog} (hp : p.Plain) {s : ℤ} (hs : s < 0) (hf : -2 ^ 31 ≤ s) (σ : Sig) :
    (∀ d, p.cost = some (d, false) → (d : ℤ) < 1000000 * (2 ^ 32 + s) → (Prog.timed s p).run σ = (.ok, ⟨σ.now + d, σ.handler, none⟩)) ∧
    (∀ d, p.cost = some (d, true) → (d : ℤ) < 1000000 * (2 ^ 32 + s) →
      (Prog.timed s p).run σ = (.exn, ⟨σ.now + d, σ.handler, some (σ.now + 1000000 * (2 ^ 32 + s).toNat)⟩)) ∧
    ((∀ d b, p.cost = some (d, b) → 1000000 * (2 ^ 32 + s) ≤ (d : ℤ)) →
      (Prog.timed s p).run σ = (.timeout, ⟨σ.now + 1000000 * (2 ^ 32 + s).toNat, σ.handler, none⟩)) := by
  have ha : alarmAt σ.now s = some (σ.now + 1000000 * (2 ^ 32 + s).toNat) := by
    unfold alarmAt
    rw [if_neg (by omega), if_neg (by omega)]
  have key := plain_alarm hp { σ with handler := .timeout, alarm := alarmAt σ.now s } _ ha (by dsimp only; omega)
  rw [timed_fits hf (by omega)]
  rcases key with ⟨d, b, hc, hd, hr⟩ | ⟨hc, hr⟩
  · dsimp only at hd
    rw [hr, hc]
    refine ⟨?_, ?_, ?_⟩
    · intro d' h _; cases h; rfl
    · intro d' h _; cases h; simp only [endOf, if_true, ha]
    · intro h; have := h d b rfl; omega
  · dsimp only at hc
    rw [hr]
    refine ⟨?_, ?_, ?_⟩
    · intro d' h h2; have := hc d' _ h; omega
    · intro d' h h2; have := hc d' _ h; omega
    · intro _
      unfold Sig.deliver
      dsimp only
      rw [Nat.max_eq_right (by omega)]

/-- **C81** A limit that is no C `int`: the function is not called, an exception is raised at once, and `handle_timeout` stays the handler of `SIGALRM`; a pending alarm stays. So a
caller under the default handler who catches the exception and whose alarm comes afterwards gets `TimeoutFunctionException` from it. -/
theorem C81_overflow (p : Prog) {s : ℤ} (hs : s < -2 ^ 31 ∨ 2 ^ 31 ≤ s) (σ : Sig) :
    (Prog.timed s p).run σ = (.exn, { σ with handler := .timeout }) ∧
    ∀ (t e : ℕ), σ.alarm = some t → σ.now < t → t ≤ σ.now + e →
      ((Prog.seq (.guarded s p) (.work e)).run σ).1 = .timeout ∧ ((Prog.work e).run { σ with handler := .dfl }).1 = .killed := by
  have hfi : fitsInt s = false := by
    cases h : fitsInt s with
    | false => rfl
    | true => have := (fitsInt_iff s).mp h; omega
  have h1 : (Prog.timed s p).run σ = (.exn, { σ with handler := .timeout }) := by
    rw [Prog.run, hfi]; rfl
  refine ⟨h1, fun t e ha hlt hle => ⟨?_, ?_⟩⟩
  · unfold Prog.guarded
    rw [Prog.run, Prog.run, h1]
    dsimp only
    have h2 : (Prog.work 0).run { σ with handler := .timeout } = (.ok, { σ with handler := .timeout }) := by
      unfold Prog.run
      rw [ha]
      dsimp only
      rw [if_neg (by omega)]
      rfl
    rw [h2]
    dsimp only
    unfold Prog.run
    rw [ha]
    dsimp only
    rw [if_pos hle]
    rfl
  · unfold Prog.run
    rw [ha]
    dsimp only
    rw [if_pos hle]
    rfl

/-- Limits that are no C `int`s, and a negative one. -/
example : ((Prog.timed (2 ^ 31) .forever).run ⟨0, .dfl, some 5⟩) = (.exn, ⟨0, .timeout, some 5⟩) ∧
    ((Prog.timed (-1) (.work 7)).run ⟨0, .dfl, some 5⟩) = (.ok, ⟨7, .dfl, none⟩) := by
  refine ⟨?_, ?_⟩ <;> decide

end Verif.Pac
