import Verif.Lemmas.PacDisplayInit
import Verif.Spec.PacDisplay
import Verif.Props.PacRegion
import Verif.Props.PacRun
import Mathlib.Tactic.NormNum

/-!
# C71: the screen follows the game
-/

namespace Verif.Pac

/-! ### Colours -/

theorem colours : ghostColors = palette.map String.toList ∧ scaredColor = "#ffffff".toList ∧ pacmanColor = "#ffff3d".toList ∧
    foodColor = "#ffffff".toList ∧ capsuleColor = "#ffffff".toList ∧ backgroundColor = "#000000".toList ∧
    formatColor 1 1 1 = "#ffffff".toList ∧ formatColor 0 0 0 = "#000000".toList := by decide +kernel

theorem circle_disc (p : ℚ × ℚ) (rad : ℚ) (c : String) : circleItem p rad c.toList c.toList = disc p rad c := by
  unfold circleItem disc circleBox wrapAngle
  norm_num

theorem mouth (sn : ℚ → ℚ) (h0 : sn 0 = 0) (d : Dir) : getEndpoints sn d (0, 0) = (facing d + 15, facing d - 15) := by
  have h1 : pyInt 0 = 0 := by decide +kernel
  unfold getEndpoints
  simp only [h1, Int.cast_zero, sub_zero, add_zero, h0, mul_zero]
  cases d <;> simp only [facing] <;> norm_num

theorem wrap_mouth (x : ℚ) : wrapAngle (x + 15) (x - 15) - (x + 15) = 330 := by
  have h : ⌈(x + 15 - (x - 15)) / 360⌉ = 1 := by
    rw [show x + 15 - (x - 15) = 30 by ring]
    decide +kernel
  unfold wrapAngle
  rw [if_pos (by linarith), h]
  push_cast
  ring

/-- Drawing an agent from scratch gives its picture. -/
theorem fresh_picture {sn : ℚ → ℚ} (h0 : sn 0 = 0) (g : ℚ) (h : ℕ) (a : Agent) {i : ℕ} (hi : i < 6) :
    freshItems sn g h a i = agentPicture g h a i := by
  obtain ⟨hcol, hsc, hpc, _, _, _, hw, hb⟩ := colours
  have h1 := agentItems_fresh (sn := sn) (g := g) (h := h) (a := a) hi
  unfold agentItems at h1
  unfold agentPicture
  by_cases hp : a.isPacman = true
  · rw [if_pos hp] at h1 ⊢
    rw [← Except.ok.inj h1]
    unfold pacmanItems
    rw [mouth sn h0, hpc]
    unfold circleItem pacPicture circleBox pacmanScale
    simp only [wrap_mouth, List.cons.injEq, and_true, Item.mk.injEq, true_and]
    simp only [toScreen, centre]
    refine ⟨?_, ?_, ?_, ?_⟩ <;> ring
  · rw [if_neg hp] at h1 ⊢
    have hcolor : ghostColor a i = .ok (ghostPaint a i).toList := by
      unfold ghostColor ghostPaint
      by_cases hs : 0 < a.scared
      · rw [if_pos hs, if_pos hs, hsc]
      · rw [if_neg hs, if_neg hs, hcol, List.getElem?_map, List.getD_eq_getElem?_getD]
        have : i < palette.length := hi
        rw [List.getElem?_eq_getElem this]
        rfl
    unfold ghostItems at h1
    rw [hcolor] at h1
    simp only [Except.ok.injEq] at h1
    rw [← h1]
    unfold ghostPicture eyes eyeColors polygonItem
    simp only [hw, hb, List.zipWith_cons_cons, List.zipWith_nil_left, circle_disc]
    have hshift : eyeShift a.conf.dir = ((a.conf.dir.vec.1 : ℚ) * (1 / 5), -((a.conf.dir.vec.2 : ℚ) * (1 / 5))) := by
      cases a.conf.dir <;> simp only [eyeShift, Dir.vec] <;> norm_num
    rw [hshift]
    have hc : toScreen g h a.conf.pos = centre g h a.conf.pos := rfl
    rw [hc]
    simp only [List.cons.injEq, and_true]
    refine ⟨?_, ?_, ?_, ?_, ?_⟩
    · simp only [Item.mk.injEq, true_and, and_true]
      rw [List.flatMap_map]
      have hsh : ghostShape = bodyShape := rfl
      rw [hsh]
      congr 1
      funext p
      simp only [List.cons.injEq, and_true, ghostSize]
      constructor <;> ring
    all_goals
      simp only [ghostSize]
      congr 1
      · ext <;> simp only <;> ring
      · ring

/-! ### What holds in every state of a game -/

/-- A state at the start of a game: nothing is eaten yet, only the first agent is Pacman, and there are at most six agents. -/
structure Fresh (s : GState) : Prop where
  placed : Placed s
  width : s.layout.food.width = s.layout.width
  height : s.layout.food.height = s.layout.height
  food : s.food = s.layout.food
  capsules : s.capsules = s.layout.capsules
  capsulesNodup : s.layout.capsules.Nodup
  score : s.score = 0
  flags : ∀ (i : ℕ) (a : Agent), s.agents[i]? = some a → a.isPacman = decide (i = 0)
  few : s.agents.length ≤ 6

/-- What is kept from the start. -/
structure Kept (l : Layout) (n : ℕ) (s : GState) : Prop where
  placed : Placed s
  layout : s.layout = l
  food : ∀ x y, s.food.At x y true → l.food.At x y true
  capsulesNodup : l.capsules.Nodup
  capsules : s.capsules = l.capsules.filter fun p => decide (p ∈ s.capsules)
  flags : ∀ (i : ℕ) (a : Agent), s.agents[i]? = some a → a.isPacman = decide (i = 0)
  length : s.agents.length = n

theorem Fresh.kept {s : GState} (h : Fresh s) : Kept s.layout s.agents.length s := by
  refine ⟨h.placed, rfl, fun x y hh => by rw [h.food] at hh; exact hh, h.capsulesNodup, ?_, h.flags, rfl⟩
  rw [h.capsules]
  symm
  rw [List.filter_eq_self]
  intro p hp
  simpa using hp

theorem meet_flag (p : Pos) (g : Agent) : (g.meet p).isPacman = g.isPacman := by
  unfold Agent.meet; split <;> rfl

theorem ghostsAt_flags (s : GState) (rest : List Agent) (q : ℕ × ℕ) (p : Pos) :
    ((s.ghostsAt rest q).map (Agent.meet p)).map Agent.isPacman = rest.map Agent.isPacman := by
  rw [List.map_map]
  unfold GState.ghostsAt
  split
  · rw [List.map_map]
    apply List.map_congr_left
    intro g _
    simp only [Function.comp, meet_flag]
  · apply List.map_congr_left
    intro g _
    simp only [Function.comp, meet_flag]

theorem flags_iff (l : List Agent) : (∀ (i : ℕ) (a : Agent), l[i]? = some a → a.isPacman = decide (i = 0)) ↔
    ∀ i b, (l.map Agent.isPacman)[i]? = some b → b = decide (i = 0) := by
  constructor
  · intro h i b hb
    rw [List.getElem?_map] at hb
    obtain ⟨a, h1, h2⟩ := Option.map_eq_some_iff.1 hb
    rw [← h2]; exact h i a h1
  · intro h i a ha
    apply h
    rw [List.getElem?_map, ha]; rfl

theorem steady_cell {sn : ℚ → ℚ} {a : Agent} {q : ℕ × ℕ} (h : a.conf.pos = cellAt q) : Steady sn a := by
  intro _
  have h1 : pyInt 0 = 0 := by decide +kernel
  unfold getEndpoints
  rw [h]
  simp only [cellAt, pyInt_nat, h1]
  simp

/-- **One move with a call of `update`** on the new state, where the places of ghosts may have been changed by `f`. -/
theorem step_shows_map {sn : ℚ → ℚ} {g : ℚ} {S : List Slot} {l : Layout} {n : ℕ} {d : Disp} {s s' : GState} {seen : List Agent} (hn : n ≤ 6)
    (f : Agent → Agent) (hf1 : ∀ a, (f a).isPacman = a.isPacman) (hf2 : ∀ a, a.isPacman = true → f a = a)
    (hk : Kept l n s) (h : Shows sn g S l d s seen) (hfl : seen.map Agent.isPacman = s.agents.map Agent.isPacman) (slow : Bool) {i : ℕ} {a : Dir}
    (hs : generateSuccessor s i a = .ok s') :
    ∃ d' b, d.update sn slow { s' with agents := s'.agents.map f } = .ok d' ∧ s'.agents[i]? = some b ∧ i < n ∧ Shows sn g S l d' s' (seen.set i (f b)) ∧
      Kept l n s' ∧ s'.agents.map Agent.isPacman = s.agents.map Agent.isPacman := by
  have hplaced := (step_placed hk.placed i a)
  obtain ⟨hp', hlay⟩ : Placed s' ∧ s'.layout = s.layout := by
    have := C52_placed hk.placed [(i, a)] (s' := s') (by simp only [playMoves, hs])
    exact ⟨this.1, step_layout hk.placed hs⟩
  obtain ⟨_, _, hcase⟩ := step_cases hk.placed hs
  rcases hcase with ⟨rfl, pac, rest, p, food', hst⟩ | ⟨hi, pac, pre, post, gh, pe, qe, e, ld, hst⟩
  · -- Pacman
    have hres := hst.result
    have hflags : s'.agents.map Agent.isPacman = s.agents.map Agent.isPacman := by
      rw [hres, hst.agents]
      simp only [pacResult, List.map_cons, ghostsAt_flags]
    obtain ⟨b, hb⟩ : ∃ b, b = ({ pac with conf := ⟨cellAt (nextCell p.1 p.2 a), if a = .stop then pac.conf.dir else a⟩ } : Agent) := ⟨_, rfl⟩
    have hget : s'.agents[0]? = some b := by rw [hres, hb]; rfl
    have hlen : 0 < n := by
      rw [← hk.length, hst.agents]; simp
    obtain ⟨prev, hprev⟩ : ∃ prev, seen[0]? = some prev := by
      have : seen.length = s.agents.length := by simpa using congrArg List.length hfl
      have : 0 < seen.length := by rw [this, hk.length]; exact hlen
      exact ⟨_, List.getElem?_eq_getElem this⟩
    have hpp : prev.isPacman = b.isPacman := by
      have h1 : (seen.map Agent.isPacman)[0]? = some prev.isPacman := by rw [List.getElem?_map, hprev]; rfl
      have h2 : (s'.agents.map Agent.isPacman)[0]? = some b.isPacman := by rw [List.getElem?_map, hget]; rfl
      rw [hfl, ← hflags, h2] at h1
      exact (Option.some.inj h1).symm
    have hfood := foodAfter_at hk.placed.foodShaped hst.food
    have hcaps : s'.capsules = s.capsules.erase (((nextCell p.1 p.2 a).1 : ℤ), ((nextCell p.1 p.2 a).2 : ℤ)) := by rw [hres]; rfl
    have hmemcap : ∀ q, q ∈ s.capsules → q ∈ l.capsules := by
      intro q hq
      rw [hk.capsules] at hq
      exact (List.mem_filter.1 hq).1
    have hnd2 : s.capsules.Nodup := by rw [hk.capsules]; exact hk.capsulesNodup.filter _
    have hcapmem : ∀ q, q ∈ s'.capsules ↔ q ∈ s.capsules ∧ q ≠ (((nextCell p.1 p.2 a).1 : ℤ), ((nextCell p.1 p.2 a).2 : ℤ)) := by
      intro q
      rw [hcaps, hnd2.mem_erase_iff, and_comm]
    have hcap : s'.capsules = l.capsules.filter fun p => decide (p ∈ s'.capsules) := by
      conv_lhs => rw [hcaps, hnd2.erase_eq_filter, hk.capsules, List.filter_filter]
      apply List.filter_congr
      intro q _
      have := hcapmem q
      rw [Bool.eq_iff_iff]
      simp only [Bool.and_eq_true, bne_iff_ne, decide_eq_true_eq, this]
      exact and_comm
    have hkept : Kept l n s' := by
      refine ⟨hp', by rw [hlay, hk.layout], ?_, hk.capsulesNodup, hcap, ?_, ?_⟩
      · intro x y hxy
        rw [hres] at hxy
        exact hk.food x y ((hfood x y).1 hxy).1
      · rw [flags_iff, hflags, ← flags_iff]; exact hk.flags
      · rw [← hk.length]
        simpa using congrArg List.length hflags
    have hbp : b.isPacman = true := by
      have h1 : (s.agents.map Agent.isPacman)[0]? = some b.isPacman := by rw [← hflags, List.getElem?_map, hget]; rfl
      exact (flags_iff _).1 hk.flags 0 _ h1
    have hfb : f b = b := hf2 b hbp
    obtain ⟨d', e1, e2⟩ := update_shows h slow (i := 0) (a := b) (by omega) hprev hpp (steady_cell (q := nextCell p.1 p.2 a) (by rw [hb]))
      (s' := { s' with agents := s'.agents.map f }) (by rw [hres]; rfl) (by
        show (s'.agents.map f)[0]? = _
        rw [List.getElem?_map, hget, Option.map_some, hfb])
      (by
        by_cases hf : s.FoodAt (nextCell p.1 p.2 a)
        · refine Or.inl ⟨(nextCell p.1 p.2 a).1, (nextCell p.1 p.2 a).2, ?_, hk.food _ _ hf, ?_⟩
          · rw [hres]; simp only [pacResult, if_pos hf]
          · intro x y; rw [hres]; exact hfood x y
        · refine Or.inr ⟨?_, ?_⟩
          · rw [hres]; simp only [pacResult, if_neg hf]
          · intro x y
            rw [hres]
            show food'.At x y true ↔ _
            rw [hst.food.2 hf])
      (by
        by_cases hc : s.CapsuleAt (nextCell p.1 p.2 a)
        · refine Or.inl ⟨_, ?_, hmemcap _ hc, hcapmem⟩
          rw [hres]; simp only [pacResult, if_pos hc]
        · refine Or.inr ⟨?_, ?_⟩
          · rw [hres]; simp only [pacResult, if_neg hc]
          · intro q
            rw [hcapmem]
            exact ⟨fun e => e.1, fun e => ⟨e, fun e2 => hc (by unfold GState.CapsuleAt; rw [← e2]; exact e)⟩⟩)
    exact ⟨d', b, e1, hget, hlen, by rw [hfb]; exact ⟨e2.ids, e2.grid, e2.agents, e2.canvas⟩, hkept, hflags⟩
  · -- a ghost
    have hres := hst.result
    obtain ⟨b, hb⟩ : ∃ b, b = (ghostMoved gh a).meet pac.conf.pos := ⟨_, rfl⟩
    have hbf : b.isPacman = gh.isPacman := by rw [hb, meet_flag]; rfl
    have hag : s'.agents = (pac :: pre) ++ b :: post := by rw [hres, hb]; rfl
    have hflags : s'.agents.map Agent.isPacman = s.agents.map Agent.isPacman := by
      rw [hag, hst.agents]
      simp only [List.map_append, List.map_cons, hbf]
    have hi1 : i = (pac :: pre).length := by rw [hst.index]; rfl
    have hget : s'.agents[i]? = some b := by
      rw [hag, hi1, List.getElem?_append_right (le_refl _), Nat.sub_self]; rfl
    have hget0 : s.agents[i]? = some gh := by
      rw [hst.agents, hi1, List.getElem?_append_right (le_refl _), Nat.sub_self]; rfl
    have hlen : i < n := by
      rw [← hk.length]; exact (List.getElem?_eq_some_iff.1 hget0).1
    obtain ⟨prev, hprev⟩ : ∃ prev, seen[i]? = some prev := by
      have : seen.length = s.agents.length := by simpa using congrArg List.length hfl
      have : i < seen.length := by rw [this, hk.length]; exact hlen
      exact ⟨_, List.getElem?_eq_getElem this⟩
    have hpp : prev.isPacman = b.isPacman := by
      have h1 : (seen.map Agent.isPacman)[i]? = some prev.isPacman := by rw [List.getElem?_map, hprev]; rfl
      have h2 : (s'.agents.map Agent.isPacman)[i]? = some b.isPacman := by rw [List.getElem?_map, hget]; rfl
      rw [hfl, ← hflags, h2] at h1
      exact (Option.some.inj h1).symm
    have hnp : b.isPacman = false := by
      rw [hbf, hk.flags i gh hget0]
      simp [hi]
    have hkept : Kept l n s' := by
      refine ⟨hp', by rw [hlay, hk.layout], ?_, hk.capsulesNodup, ?_, ?_, ?_⟩
      · intro x y hxy
        rw [hres] at hxy
        exact hk.food x y hxy
      · rw [hres]; exact hk.capsules
      · rw [flags_iff, hflags, ← flags_iff]; exact hk.flags
      · rw [← hk.length]
        simpa using congrArg List.length hflags
    obtain ⟨d', e1, e2⟩ := update_shows h slow (i := i) (a := f b) (by omega) hprev (by rw [hf1]; exact hpp) (fun hh => by rw [hf1, hnp] at hh; cases hh)
      (s' := { s' with agents := s'.agents.map f })
      (by rw [hres, hi1]; rfl) (by
        show (s'.agents.map f)[i]? = _
        rw [List.getElem?_map, hget, Option.map_some]) (Or.inr ⟨by rw [hres]; rfl, fun x y => by rw [hres]; rfl⟩)
      (Or.inr ⟨by rw [hres]; rfl, fun q => by rw [hres]; rfl⟩)
    exact ⟨d', b, e1, hget, hlen, ⟨e2.ids, e2.grid, e2.agents, e2.canvas⟩, hkept, hflags⟩

/-- **One move with its call of `update`.** -/
theorem step_shows {sn : ℚ → ℚ} {g : ℚ} {S : List Slot} {l : Layout} {n : ℕ} {d : Disp} {s s' : GState} {seen : List Agent} (hn : n ≤ 6)
    (hk : Kept l n s) (h : Shows sn g S l d s seen) (hfl : seen.map Agent.isPacman = s.agents.map Agent.isPacman) (slow : Bool) {i : ℕ} {a : Dir}
    (hs : generateSuccessor s i a = .ok s') :
    ∃ d' b, d.update sn slow s' = .ok d' ∧ s'.agents[i]? = some b ∧ i < n ∧ Shows sn g S l d' s' (seen.set i b) ∧ Kept l n s' ∧
      s'.agents.map Agent.isPacman = s.agents.map Agent.isPacman := by
  obtain ⟨d', b, h1, h2⟩ := step_shows_map hn (fun a => a) (fun _ => rfl) (fun _ _ => rfl) hk h hfl slow hs
  rw [List.map_id'] at h1
  exact ⟨d', b, h1, h2⟩

/-! ### What an agent's move leaves alone -/

theorem step_others {s s' : GState} (h : Placed s) {i : ℕ} (hi : i ≠ 0) {a : Dir} (hs : generateSuccessor s i a = .ok s') {j : ℕ} (hj : j ≠ i) :
    s'.agents[j]? = s.agents[j]? := by
  obtain ⟨_, _, hcase⟩ := step_cases h hs
  rcases hcase with ⟨h0, _⟩ | ⟨_, pac, pre, post, gh, pe, qe, e, ld, hst⟩
  · exact absurd h0 hi
  · have hi1 : i = (pac :: pre).length := by rw [hst.index]; rfl
    have hag : s'.agents = (pac :: pre) ++ (ghostMoved gh a).meet pac.conf.pos :: post := by rw [hst.result]; rfl
    rw [hag, hst.agents]
    by_cases hlt : j < (pac :: pre).length
    · rw [List.getElem?_append_left hlt, List.getElem?_append_left hlt]
    · rw [List.getElem?_append_right (by omega), List.getElem?_append_right (by omega)]
      obtain ⟨m, hm⟩ : ∃ m, j - (pac :: pre).length = m + 1 := ⟨j - (pac :: pre).length - 1, by omega⟩
      rw [hm]; rfl

theorem run_others {s s' : GState} (h : Placed s) {j : ℕ} (ms : List (ℕ × Dir)) (hms : ∀ m ∈ ms, m.1 ≠ 0 ∧ m.1 ≠ j) (hs : playMoves s ms = .ok s') :
    s'.agents[j]? = s.agents[j]? := by
  induction ms generalizing s with
  | nil => cases hs; rfl
  | cons m t ih =>
    unfold playMoves at hs
    cases h1 : generateSuccessor s m.1 m.2 with
    | error e => rw [h1] at hs; cases hs
    | ok s1 =>
      rw [h1] at hs
      have hp1 : Placed s1 := (C52_placed h [m] (s' := s1) (by simp only [playMoves, h1])).1
      rw [ih hp1 (fun m' hm' => hms m' (List.mem_cons_of_mem _ hm')) hs]
      exact step_others h (hms m List.mem_cons_self).1 h1 (Ne.symm (hms m List.mem_cons_self).2)

/-! ### Runs -/

theorem playShown_append {sn : ℚ → ℚ} {slow : Bool} (l m : List (ℕ × Dir)) : ∀ r : Disp × GState, playShown sn slow r (l ++ m) =
    match playShown sn slow r l with
    | .error e => .error e
    | .ok r' => playShown sn slow r' m := by
  induction l with
  | nil => intro r; rfl
  | cons a t ih =>
    intro ⟨d, s⟩
    simp only [List.cons_append, playShown]
    cases generateSuccessor s a.1 a.2 with
    | error e => rfl
    | ok s' =>
      simp only
      cases d.update sn slow s' with
      | error e => rfl
      | ok d' => exact ih (d', s')

theorem LastOwn.snoc_self {ms : List (ℕ × Dir)} (m : ℕ × Dir) : LastOwn (ms ++ [m]) m.1 (ms.length + 1) := by
  refine ⟨by simp, Or.inr ⟨m, by simp, rfl⟩, ?_⟩
  intro x hx
  rw [List.drop_eq_nil_of_le (by simp)] at hx
  simp at hx

theorem LastOwn.snoc_other {ms : List (ℕ × Dir)} {i k : ℕ} (h : LastOwn ms i k) {m : ℕ × Dir} (hm : m.1 ≠ i) : LastOwn (ms ++ [m]) i k := by
  obtain ⟨h1, h2, h3⟩ := h
  refine ⟨by simp; omega, ?_, ?_⟩
  · rcases h2 with h2 | ⟨m', h2, h4⟩
    · exact Or.inl h2
    · exact Or.inr ⟨m', by rw [List.getElem?_append_left (List.getElem?_eq_some_iff.1 h2).1]; exact h2, h4⟩
  · intro x hx
    rw [List.drop_append_of_le_length h1] at hx
    rcases List.mem_append.1 hx with hx | hx
    · exact h3 x hx
    · rw [List.mem_singleton.1 hx]; exact hm

theorem run_shows {sn : ℚ → ℚ} {g : ℚ} {s0 : GState} (h0 : Fresh s0) {S : List Slot} {d0 : Disp} (hd : Shows sn g S s0.layout d0 s0 s0.agents)
    (slow : Bool) (ms : List (ℕ × Dir)) : ∀ s, playMoves s0 ms = .ok s →
    ∃ d seen, playShown sn slow (d0, s0) ms = .ok (d, s) ∧ Shows sn g S s0.layout d s seen ∧ Kept s0.layout s0.agents.length s ∧
      seen.map Agent.isPacman = s.agents.map Agent.isPacman ∧
      ∀ (i : ℕ) (a : Agent), seen[i]? = some a → ∃ k, LastOwn ms i k ∧ ∃ s1, playMoves s0 (ms.take k) = .ok s1 ∧ s1.agents[i]? = some a := by
  induction ms using List.reverseRecOn with
  | nil =>
    intro s hs
    cases hs
    refine ⟨d0, s0.agents, rfl, hd, h0.kept, rfl, fun i a ha => ⟨0, ⟨by simp, Or.inl rfl, by simp⟩, s0, rfl, ha⟩⟩
  | append_singleton ms m ih =>
    intro s hs
    rw [playMoves_append] at hs
    cases h1 : playMoves s0 ms with
    | error e => rw [h1] at hs; cases hs
    | ok s1 =>
      rw [h1] at hs
      simp only [playMoves] at hs
      cases h2 : generateSuccessor s1 m.1 m.2 with
      | error e => rw [h2] at hs; cases hs
      | ok s2 =>
        rw [h2] at hs
        simp only [Except.ok.injEq] at hs
        subst hs
        obtain ⟨d, seen, e1, e2, e3, e4, e5⟩ := ih s1 h1
        obtain ⟨d', b, f1, f2, f3, f4, f5, f6⟩ := step_shows h0.few e3 e2 e4 slow h2
        have hseen : seen.length = s1.agents.length := by simpa using congrArg List.length e4
        refine ⟨d', seen.set m.1 b, ?_, f4, f5, ?_, ?_⟩
        · rw [playShown_append, e1]
          simp only [playShown, h2, f1]
        · rw [f6, ← e4, List.map_set]
          apply List.ext_getElem?
          intro k
          rw [List.getElem?_set]
          by_cases hk : m.1 = k
          · subst hk
            rw [if_pos rfl]
            have hlt : m.1 < (seen.map Agent.isPacman).length := by rw [List.length_map, hseen, e3.length]; exact f3
            rw [if_pos hlt]
            have : (s2.agents.map Agent.isPacman)[m.1]? = some b.isPacman := by rw [List.getElem?_map, f2]; rfl
            rw [f6, ← e4] at this
            rw [this]
          · rw [if_neg hk]
        · intro i a ha
          rw [List.getElem?_set] at ha
          by_cases hk : m.1 = i
          · subst hk
            rw [if_pos rfl, if_pos (by rw [hseen, e3.length]; exact f3)] at ha
            cases ha
            refine ⟨ms.length + 1, LastOwn.snoc_self m, s2, ?_, f2⟩
            rw [List.take_of_length_le (by simp)]
            exact playMoves_snoc h1 h2
          · rw [if_neg hk] at ha
            obtain ⟨k, hk1, s', hk2, hk3⟩ := e5 i a ha
            refine ⟨k, hk1.snoc_other hk, s', ?_, hk3⟩
            rw [List.take_append_of_le_length hk1.1]
            exact hk2

/-! ### From slots to the picture -/

theorem parts_picture {sn : ℚ → ℚ} (hsn : sn 0 = 0) {g : ℚ} {l : Layout} {s : GState} {seen : List Agent} (hlen : seen.length ≤ 6) {fl : List Agent}
    (t : List Agent) : ∀ i : ℕ, seen.drop i = t → (fl.drop i).map Agent.isPacman = t.map Agent.isPacman →
    (partSlots i (fl.drop i)).filterMap (shownFor sn g l s seen) = (t.zipIdx i).flatMap fun p => agentPicture g l.height p.1 p.2 := by
  induction t with
  | nil =>
    intro i _ hf
    have : fl.drop i = [] := by simpa using hf
    rw [this]; rfl
  | cons a t ih =>
    intro i hdrop hf
    have hi : seen[i]? = some a := by
      have := congrArg (fun m => m[0]?) hdrop
      simpa using this
    have hi6 : i < 6 := by have := (List.getElem?_eq_some_iff.1 hi).1; omega
    have hdrop' : seen.drop (i + 1) = t := by
      rw [← List.drop_drop, hdrop]; rfl
    cases hfd : fl.drop i with
    | nil => rw [hfd] at hf; simp at hf
    | cons b u =>
      have hu : fl.drop (i + 1) = u := by rw [← List.drop_drop, hfd]; rfl
      rw [hfd, List.map_cons, List.map_cons] at hf
      obtain ⟨hba, hut⟩ := List.cons.inj hf
      have hpc : partCount b = partCount a := by unfold partCount; rw [hba]
      rw [List.zipIdx_cons, List.flatMap_cons, show partSlots i (b :: u) = (List.range (partCount b)).map (Slot.part i) ++ partSlots (i + 1) u from rfl,
        List.filterMap_append, ← hu, ih (i + 1) hdrop' (by rw [hu]; exact hut)]
      congr 1
      rw [← fresh_picture hsn g l.height a hi6, hpc, ← fresh_length sn g l.height a hi6]
      have hm : (List.range (freshItems sn g l.height a i).length).map (fun k => shownFor sn g l s seen (Slot.part i k)) =
          (freshItems sn g l.height a i).map some := by
        apply List.ext_getElem?
        intro k
        simp only [List.getElem?_map]
        by_cases hk : k < (freshItems sn g l.height a i).length
        · rw [List.getElem?_range hk]
          simp only [Option.map_some, shownFor, hi]
          rw [List.getElem?_eq_getElem hk]
          rfl
        · rw [List.getElem?_eq_none (by simp; omega), List.getElem?_eq_none (by omega)]
          rfl
      have h2 : ((List.range (freshItems sn g l.height a i).length).map (Slot.part i)).filterMap (shownFor sn g l s seen) =
          ((List.range (freshItems sn g l.height a i).length).map (fun k => shownFor sn g l s seen (Slot.part i k))).filterMap id := by
        rw [List.filterMap_map, List.filterMap_map]; rfl
      rw [h2, hm, List.filterMap_map]
      simp

theorem shows_picture {sn : ℚ → ℚ} (hsn : sn 0 = 0) {g : ℚ} {s0 : GState} (h0 : Fresh s0) {walls : List Item} {d : Disp} {s : GState} {seen : List Agent}
    (h : Shows sn g (slots walls s0.layout s0.agents) s0.layout d s seen) (hk : Kept s0.layout s0.agents.length s)
    (hfl : seen.map Agent.isPacman = s.agents.map Agent.isPacman) : d.visible = picture g walls s seen := by
  obtain ⟨_, _, hpc, hfc, hcc, hbc, _, _⟩ := colours
  have hflags : s0.agents.map Agent.isPacman = seen.map Agent.isPacman := by
    rw [hfl]
    apply List.ext_getElem?
    intro i
    have hl1 : (s0.agents.map Agent.isPacman).length = (s.agents.map Agent.isPacman).length := by simp [hk.length]
    cases hx : (s0.agents.map Agent.isPacman)[i]? with
    | none =>
      rw [List.getElem?_eq_none_iff] at hx
      symm
      rw [List.getElem?_eq_none_iff]; omega
    | some b =>
      have hlt := (List.getElem?_eq_some_iff.1 hx).1
      obtain ⟨b', hb'⟩ : ∃ b', (s.agents.map Agent.isPacman)[i]? = some b' := ⟨_, List.getElem?_eq_getElem (by omega)⟩
      rw [hb', (flags_iff _).1 h0.flags i b hx, (flags_iff _).1 hk.flags i b' hb']
  have hlen : seen.length ≤ 6 := by
    have := congrArg List.length hflags
    simp at this
    have := h0.few
    omega
  unfold Disp.visible
  rw [h.canvas, List.filterMap_map]
  show (slots walls s0.layout s0.agents).filterMap (shownFor sn g s0.layout s seen) = _
  unfold slots picture
  rw [hk.layout]
  simp only [List.filterMap_append, List.filterMap_cons, List.filterMap_nil, List.cons_append, List.nil_append, shownFor]
  have hparts := parts_picture hsn (g := g) (l := s0.layout) (s := s) hlen (fl := s0.agents) seen 0 (List.drop_zero) (by rw [List.drop_zero]; exact hflags)
  rw [List.drop_zero] at hparts
  rw [hparts]
  congr 1
  · rw [hbc]
    simp only [polygonItem, List.flatMap_cons, List.flatMap_nil, List.cons_append, List.nil_append, Item.mk.injEq, true_and, and_true, List.cons.injEq]
    refine ⟨?_, ?_, ?_, ?_⟩ <;> ring
  congr 1
  · rw [hpc]
    simp only [textItem, Item.mk.injEq, true_and, and_true, List.cons.injEq, add_zero]
    unfold scoreStr scoreLine
    split <;> rfl
  congr 1
  congr 1
  · congr 1
    · rw [List.filterMap_map]
      have : ((shownFor sn g s0.layout s seen) ∘ fun p : Item × ℕ => Slot.wall p.1 p.2) = fun p => some p.1 := rfl
      rw [this, List.filterMap_eq_map', List.zipIdx_map_fst]
    · rw [List.filterMap_map]
      have hcells : (gridCells s0.layout.width s0.layout.height).filter (fun p => decide (s.food.At p.1 p.2 true)) =
          (dataCells 0 s0.layout.food.data).filter (fun p => decide (s.food.At p.1 p.2 true)) := by
        have hsh : s0.layout.food.Shaped := by rw [← h0.food]; exact h0.placed.foodShaped
        rw [dataCells_filter s0.layout.food.data s0.layout.food.height hsh.2 0, List.filter_filter, hsh.1, h0.width, h0.height, ← List.range_eq_range']
        apply List.filter_congr
        intro p _
        rw [Bool.eq_iff_iff]
        simp only [Bool.and_eq_true, decide_eq_true_eq, Nat.sub_zero]
        constructor
        · intro hh
          exact ⟨hh, (Grid.at_iff _ _ _ _).1 (hk.food _ _ hh)⟩
        · exact fun hh => hh.1
      rw [hcells]
      generalize dataCells 0 s0.layout.food.data = cells
      induction cells with
      | nil => rfl
      | cons p t ih =>
        rw [List.filterMap_cons, List.filter_cons]
        by_cases hp : s.food.At p.1 p.2 true
        · simp only [Function.comp, shownFor, hp, if_true, decide_true, List.map_cons]
          congr 1
          unfold foodItem
          rw [hfc, circle_disc]
          unfold foodSize
          rw [show (1 / 10 : ℚ) * g = g / 10 by ring]
          rfl
        · simp only [Function.comp, shownFor, hp, if_false, decide_false, Bool.false_eq_true]
          exact ih
  · rw [List.filterMap_map]
    conv_rhs => rw [hk.capsules]
    generalize s0.layout.capsules = caps
    induction caps with
    | nil => rfl
    | cons p t ih =>
      rw [List.filterMap_cons, List.filter_cons]
      by_cases hp : p ∈ s.capsules
      · simp only [Function.comp, shownFor, hp, if_true, decide_true, List.map_cons]
        congr 1
        unfold capsuleItem
        rw [hcc, circle_disc]
        unfold capsuleSize
        rw [show (1 / 4 : ℚ) * g = g / 4 by ring]
        rfl
      · simp only [Function.comp, shownFor, hp, if_false, decide_false, Bool.false_eq_true]
        exact ih

/-! ### The theorems -/

/-- **C71** The screen follows the game: from a fresh state, `initialize` succeeds, and for every sequence of moves the game allows, all calls of
`update` succeed and then exactly the picture of the state can be seen, where each agent is drawn as it was right after its own last move. -/
theorem C71_screen {sn : ℚ → ℚ} (hsn : sn 0 = 0) (g : ℚ) {s0 : GState} (h0 : Fresh s0) (slow : Bool) :
    ∃ walls d0, Disp.initialize sn g s0 = .ok d0 ∧ wallsFrom s0.layout.walls g s0.layout.height 0 s0.layout.walls.data = .ok walls ∧
      d0.visible = picture g walls s0 s0.agents ∧
      ∀ ms s, playMoves s0 ms = .ok s → ∃ d seen, playShown sn slow (d0, s0) ms = .ok (d, s) ∧ d.visible = picture g walls s seen ∧
        seen.length = s.agents.length ∧
        ∀ (i : ℕ) (a : Agent), seen[i]? = some a → ∃ k, LastOwn ms i k ∧ ∃ s1, playMoves s0 (ms.take k) = .ok s1 ∧ s1.agents[i]? = some a := by
  have hsh : s0.layout.food.Shaped := by rw [← h0.food]; exact h0.placed.foodShaped
  obtain ⟨walls, d0, hw, hi, hs⟩ := initialize_shows (sn := sn) (g := g) h0.placed.walls.shaped h0.food hsh h0.capsules h0.capsulesNodup h0.few h0.score
  refine ⟨walls, d0, hi, hw, shows_picture hsn h0 hs h0.kept rfl, ?_⟩
  intro ms s hrun
  obtain ⟨d, seen, e1, e2, e3, e4, e5⟩ := run_shows h0 hs slow ms s hrun
  exact ⟨d, seen, e1, shows_picture hsn h0 e2 e3 e4, by simpa using congrArg List.length e4, e5⟩

/-- An agent is as it was after its last own move if since then neither it nor Pacman moved. -/
theorem seen_current {s0 s s1 : GState} (h0 : Placed s0) {ms : List (ℕ × Dir)} (hs : playMoves s0 ms = .ok s) {i k : ℕ} (hk : LastOwn ms i k)
    (h1 : playMoves s0 (ms.take k) = .ok s1) (hp : ∀ m ∈ ms.drop k, m.1 ≠ 0) : s.agents[i]? = s1.agents[i]? := by
  rw [← List.take_append_drop k ms, playMoves_append, h1] at hs
  simp only at hs
  exact run_others (C52_placed h0 _ h1).1 _ (fun m hm => ⟨hp m hm, hk.2.2 m hm⟩) hs

/-- **C71** Pacman is always drawn as it is, and a ghost is drawn as it is unless Pacman moved after the ghost's last move. -/
theorem C71_current {sn : ℚ → ℚ} (hsn : sn 0 = 0) (g : ℚ) {s0 : GState} (h0 : Fresh s0) (slow : Bool) :
    ∃ walls d0, Disp.initialize sn g s0 = .ok d0 ∧ wallsFrom s0.layout.walls g s0.layout.height 0 s0.layout.walls.data = .ok walls ∧
      ∀ ms s, playMoves s0 ms = .ok s → ∃ d seen, playShown sn slow (d0, s0) ms = .ok (d, s) ∧
      d.visible = picture g walls s seen ∧ seen.length = s.agents.length ∧ seen[0]? = s.agents[0]? ∧
      ∀ i k, LastOwn ms i k → (∀ m ∈ ms.drop k, m.1 ≠ 0) → seen[i]? = s.agents[i]? := by
  obtain ⟨walls, d0, hi, hw, _, hrun⟩ := C71_screen hsn g h0 slow
  refine ⟨walls, d0, hi, hw, ?_⟩
  intro ms s hs
  obtain ⟨d, seen, e1, e2, e3, e4⟩ := hrun ms s hs
  have huniq : ∀ i k k', LastOwn ms i k → LastOwn ms i k' → k ≤ k' := by
    intro i k k' h1 h2
    by_contra hlt
    rcases h1.2.1 with h | ⟨m, hm, hmi⟩
    · omega
    · apply h2.2.2 m _ hmi
      rw [List.mem_iff_getElem?]
      refine ⟨k - 1 - k', ?_⟩
      rw [List.getElem?_drop, show k' + (k - 1 - k') = k - 1 by omega]
      exact hm
  have hgen : ∀ i, (∀ k, LastOwn ms i k → ∀ m ∈ ms.drop k, m.1 ≠ 0) → seen[i]? = s.agents[i]? := by
    intro i hp
    cases hx : seen[i]? with
    | none =>
      rw [List.getElem?_eq_none_iff] at hx
      symm
      rw [List.getElem?_eq_none_iff]; omega
    | some a =>
      obtain ⟨k, hk, s1, h1, h2⟩ := e4 i a hx
      rw [seen_current h0.placed hs hk h1 (hp k hk), h2]
  refine ⟨d, seen, e1, e2, e3, ?_, ?_⟩
  · exact hgen 0 fun k hk => hk.2.2
  · intro i k hk hp
    apply hgen
    intro k' hk'
    rw [le_antisymm (huniq i k' k hk' hk) (huniq i k k' hk hk')]
    exact hp

/-- **C71** Whenever all agents moved equally often in turn, and so whenever it is Pacman's turn, exactly the picture of the current state can be seen. -/
theorem C71_round {sn : ℚ → ℚ} (hsn : sn 0 = 0) (g : ℚ) {s0 : GState} (h0 : Fresh s0) (slow : Bool) :
    ∃ walls d0, Disp.initialize sn g s0 = .ok d0 ∧ wallsFrom s0.layout.walls g s0.layout.height 0 s0.layout.walls.data = .ok walls ∧
      ∀ ms s, playMoves s0 ms = .ok s → RoundRobin s0.agents.length ms →
      ms.length % s0.agents.length = 0 → ∃ d, playShown sn slow (d0, s0) ms = .ok (d, s) ∧ d.visible = picture g walls s s.agents := by
  obtain ⟨walls, d0, hi, hw, _, hrun⟩ := C71_screen hsn g h0 slow
  refine ⟨walls, d0, hi, hw, ?_⟩
  intro ms s hs hrr hmod
  obtain ⟨d, seen, e1, e2, e3, e4⟩ := hrun ms s hs
  refine ⟨d, e1, ?_⟩
  suffices hseen : seen = s.agents by rw [← hseen]; exact e2
  have hlen : s.agents.length = s0.agents.length := (C52_placed h0.placed ms hs).2.2
  apply List.ext_getElem?
  intro i
  cases hx : seen[i]? with
  | none =>
    rw [List.getElem?_eq_none_iff] at hx
    symm
    rw [List.getElem?_eq_none_iff]; omega
  | some a =>
    obtain ⟨k, hk, s1, h1, h2⟩ := e4 i a hx
    have hin : i < s0.agents.length := by
      have := (List.getElem?_eq_some_iff.1 hx).1
      omega
    rw [seen_current h0.placed hs hk h1 ?_, h2]
    intro m hm hm0
    obtain ⟨j, hj⟩ := List.mem_iff_getElem?.1 hm
    rw [List.getElem?_drop] at hj
    have hmj := hrr _ _ hj
    rw [hm0] at hmj
    have hjl := (List.getElem?_eq_some_iff.1 hj).1
    obtain ⟨q, hq⟩ : ∃ q, k + j = s0.agents.length * q := ⟨(k + j) / s0.agents.length, by
      have := Nat.div_add_mod (k + j) s0.agents.length
      omega⟩
    obtain ⟨r, hr⟩ : ∃ r, ms.length = s0.agents.length * r := ⟨ms.length / s0.agents.length, by
      have := Nat.div_add_mod ms.length s0.agents.length
      omega⟩
    have hqr : q < r := by
      rw [hq, hr] at hjl
      exact lt_of_mul_lt_mul_left hjl (Nat.zero_le _)
    have hbound : k + j + i < ms.length := by
      rw [hq, hr]
      calc s0.agents.length * q + i < s0.agents.length * q + s0.agents.length := by omega
        _ = s0.agents.length * (q + 1) := by ring
        _ ≤ s0.agents.length * r := Nat.mul_le_mul_left _ hqr
    have hget := List.getElem?_eq_getElem hbound
    have h3 := hrr _ _ hget
    have h4 : (k + j + i) % s0.agents.length = i := by
      rw [hq, Nat.mul_add_mod, Nat.mod_eq_of_lt hin]
    apply hk.2.2 ms[k + j + i] _ (by rw [h3, h4])
    rw [List.mem_iff_getElem?]
    refine ⟨j + i, ?_⟩
    rw [List.getElem?_drop, ← Nat.add_assoc]
    exact hget

/-! ### Texts -/

theorem placeAgents_flags (max : ℕ) (l : List (Bool × (ℤ × ℤ))) (h : ∀ p ∈ l, p.1 = false) : ∀ k, ∀ a ∈ placeAgents max k l, a.isPacman = false := by
  intro k a ha
  obtain ⟨b, p, hp, rfl⟩ := placeAgents_mem _ _ _ _ ha
  exact h _ hp

theorem agentKey_zero {c : Char} (h : agentKey c = some 0) : c = 'P' := by
  unfold agentKey at h
  split_ifs at h with h1 h2 h3
  · exact h1
  all_goals simp at h

/-- **C71** The start of a game on a bordered text with exactly one Pacman and at most five ghosts is fresh. -/
theorem C71_text {text : List (List Char)} {w : ℕ} (hb : TextBordered text w)
    (hP : ∃ x y, x < w ∧ y < text.length ∧ charAt text (x, y) = some 'P' ∧
      ∀ x' y', x' < w → y' < text.length → charAt text (x', y') = some 'P' → (x', y') = (x, y))
    {n : ℕ} (hn : n ≤ 5) : ∃ l, Layout.ofText text = .ok l ∧ Fresh (GState.init l n) := by
  obtain ⟨x, y, hx, hy, hc, huniq⟩ := hP
  obtain ⟨l, hl, hpl, _, _, hlen⟩ := C58_initial hb ⟨x, y, hx, hy, hc⟩ n
  obtain ⟨l', hl', hs⟩ := C58_parse hb.rect
  rw [hl] at hl'
  cases hl'
  refine ⟨l, hl, hpl, ?_, ?_, rfl, rfl, hs.capsulesNodup, rfl, ?_, ?_⟩
  · show l.food.width = l.width
    rw [hs.foodShaped.2.1, hs.size.1]
  · show l.food.height = l.height
    rw [hs.foodShaped.2.2, hs.size.2]
  all_goals obtain ⟨ags, hap, hnd, hsort, hmem, hng⟩ := hs.agents
  all_goals
    have h0 : (0, ((x : ℤ), (y : ℤ))) ∈ ags := (hmem 0 _).2 ⟨x, y, rfl, hx, hy, 'P', hc, by decide⟩
    have honly : ∀ p, (0, p) ∈ ags → p = ((x : ℤ), (y : ℤ)) := by
      intro p hp
      obtain ⟨x', y', rfl, hx', hy', c, hc', hk⟩ := (hmem 0 p).1 hp
      rw [agentKey_zero hk] at hc'
      have := huniq x' y' hx' hy' hc'
      simp only [Prod.mk.injEq] at this
      rw [this.1, this.2]
    obtain ⟨a, t, hat⟩ : ∃ a t, ags = a :: t := by
      cases ags with
      | nil => simp at h0
      | cons a t => exact ⟨a, t, rfl⟩
    have ha0 : a.1 = 0 := by
      rw [hat] at h0 hsort
      rcases List.mem_cons.1 h0 with h | h
      · rw [← h]
      · have := (List.pairwise_cons.1 hsort).1 _ h
        simp only at this
        omega
    have hrest : ∀ b ∈ t, b.1 ≠ 0 := by
      intro b hb0 hb1
      rw [hat] at hnd hmem honly
      have h1 : b = (0, ((x : ℤ), (y : ℤ))) := by
        obtain ⟨b1, b2⟩ := b
        simp only at hb1
        subst hb1
        rw [honly b2 (List.mem_cons_of_mem _ hb0)]
      have h2 : a = (0, ((x : ℤ), (y : ℤ))) := by
        obtain ⟨a1, a2⟩ := a
        simp only at ha0
        subst ha0
        rw [honly a2 List.mem_cons_self]
      apply (List.nodup_cons.1 hnd).1
      rw [h2, ← h1]; exact hb0
  · intro i ag hi
    have hinit : (GState.init l n).agents = placeAgents n 0 (ags.map fun p => (decide (p.1 = 0), p.2)) := by
      show placeAgents n 0 l.agentPositions = _
      rw [hap]
    rw [hinit, hat, List.map_cons] at hi
    unfold placeAgents at hi
    rw [ha0] at hi
    simp only [decide_true, if_true] at hi
    cases i with
    | zero => simp only [List.getElem?_cons_zero, Option.some.injEq] at hi; rw [← hi]; rfl
    | succ i =>
      rw [List.getElem?_cons_succ] at hi
      have := placeAgents_flags n (t.map fun p => (decide (p.1 = 0), p.2)) (by
        intro p hp
        obtain ⟨q, hq, rfl⟩ := List.mem_map.1 hp
        simp [hrest q hq]) 0 ag (List.mem_of_getElem? hi)
      rw [this]; simp
  · rw [hlen, hap]
    have : ((ags.map fun p : ℕ × (ℤ × ℤ) => (decide (p.1 = 0), p.2)).countP fun p => p.1) = 1 := by
      rw [hat, List.map_cons, List.countP_cons, ha0]
      have : ((t.map fun p : ℕ × (ℤ × ℤ) => (decide (p.1 = 0), p.2)).countP fun p => p.1) = 0 := by
        rw [List.countP_eq_zero]
        intro p hp
        obtain ⟨q, hq, rfl⟩ := List.mem_map.1 hp
        simp [hrest q hq]
      rw [this]; simp
    rw [this]
    omega

/-- **C71** The demo: whatever the agents choose, whenever it is Pacman's turn the screen shows the state of the game. -/
theorem C71_demo {sn : ℚ → ℚ} (hsn : sn 0 = 0) (g : ℚ) (slow : Bool) : ∃ l, Layout.ofText mediumClassic = .ok l ∧
    ∃ walls d0, Disp.initialize sn g (GState.init l 2) = .ok d0 ∧ wallsFrom l.walls g l.height 0 l.walls.data = .ok walls ∧ ∀ ms s, playMoves (GState.init l 2) ms = .ok s → RoundRobin 3 ms → ms.length % 3 = 0 →
      ∃ d, playShown sn slow (d0, GState.init l 2) ms = .ok (d, s) ∧ d.visible = picture g walls s s.agents := by
  obtain ⟨l, hl, hf⟩ := C71_text mediumClassic_bordered (n := 2) ⟨9, 1, by decide, by decide +kernel, by decide +kernel, by
    have : ∀ x < 20, ∀ y < mediumClassic.length, charAt mediumClassic (x, y) = some 'P' → (x, y) = (9, 1) := by decide +kernel
    exact fun x' y' hx hy h => this x' hx y' hy h⟩ (by omega)
  obtain ⟨l', hl', _, hlen, _⟩ := C58_demo
  rw [hl] at hl'
  cases hl'
  have := C71_round hsn g hf slow
  rw [hlen] at this
  exact ⟨l, hl, this⟩

/-! ### Limits -/

theorem drawAgents_many {sn : ℚ → ℚ} {g : ℚ} {h : ℕ} (t : List Agent) : ∀ (i : ℕ) (c : Canvas), i ≤ 6 → 6 < i + t.length →
    (∀ a ∈ t, a.scared = 0) → (∀ (j : ℕ) (a : Agent), t[j]? = some a → i + j = 6 → a.isPacman = false) → drawAgents sn g h i t c = .error .index := by
  induction t with
  | nil => intro i c h1 h2; simp at h2; omega
  | cons a t ih =>
    intro i c h1 h2 h3 h4
    unfold drawAgents
    by_cases hi : i = 6
    · subst hi
      have hp := h4 0 a rfl rfl
      have : agentItems sn g h a 6 = .error .index := by
        unfold agentItems ghostItems ghostColor
        rw [hp, h3 a List.mem_cons_self]
        rfl
      rw [this]
    · rw [agentItems_fresh (by omega)]
      simp only
      rw [ih (i + 1) _ (by omega) (by simp at h2; omega) (fun b hb => h3 b (List.mem_cons_of_mem _ hb))
        (fun j b hj hh => h4 (j + 1) b (by simpa using hj) (by omega))]

/-- **C71** With more than five ghosts the display raises `IndexError` at the start: there are only six colours, the first of which is never used. -/
theorem C71_many_ghosts {sn : ℚ → ℚ} {g : ℚ} {s : GState} (hw : s.layout.walls.Shaped) (hlen : 6 < s.agents.length)
    (h0 : ∀ a ∈ s.agents, a.scared = 0) (hf : ∀ (i : ℕ) (a : Agent), s.agents[i]? = some a → a.isPacman = decide (i = 0)) :
    Disp.initialize sn g s = .error .index := by
  obtain ⟨walls, hwalls⟩ := wallsFrom_ok hw g s.layout.height s.layout.walls.data 0
  unfold Disp.initialize
  simp only [hwalls, bind, Except.bind]
  rw [drawAgents_many s.agents 0 _ (by omega) (by omega) h0 (fun j a hj hh => by rw [hf j a hj]; simp; omega)]

/-! ### Cases -/

/-- A corridor: Pacman, a capsule, an empty cell and a ghost, with food behind it. -/
def stageLayout : Layout :=
  ⟨7, 3, ⟨7, 3, [[true, true, true], [true, false, true], [true, false, true], [true, false, true], [true, false, true], [true, false, true],
      [true, true, true]]⟩,
    ⟨7, 3, [[false, false, false], [false, false, false], [false, false, false], [false, false, false], [false, false, false], [false, true, false],
      [false, false, false]]⟩,
    [(2, 1)], [(true, (1, 1)), (false, (4, 1))], 1, ["%%%%%%%", "%Po G.%", "%%%%%%%"].map String.toList, 1⟩

/-- The start of a game in it. -/
def stage : GState := GState.init stageLayout 1

theorem stage_fresh : Fresh stage := by
  refine ⟨⟨⟨⟨rfl, by decide⟩, ?_⟩, ⟨rfl, by decide⟩, rfl, rfl, ?_, rfl⟩, rfl, rfl, rfl, rfl, by decide, rfl, ?_, by decide⟩
  · have : ∀ x < 7, ∀ y < 3, stage.layout.walls.At x y false → 0 < x ∧ x + 1 < 7 ∧ 0 < y ∧ y + 1 < 3 := by decide
    intro x y h
    have hs : stage.layout.walls.Shaped := ⟨rfl, by decide⟩
    obtain ⟨hx, hy⟩ := hs.lt_of_at h
    exact this x hx y hy h
  · refine ⟨⟨⟨toPos (1, 1), .stop⟩, ⟨toPos (1, 1), .stop⟩, true, 0⟩, [⟨⟨toPos (4, 1), .stop⟩, ⟨toPos (4, 1), .stop⟩, false, 0⟩], rfl, ?_, ?_⟩
    · exact ⟨(1, 1), by decide, by decide +kernel⟩
    · intro g hg
      rw [List.mem_singleton.1 hg]
      have hon : OnFree stage.layout.walls ⟨toPos (4, 1), .stop⟩ := ⟨(4, 1), by decide, by decide +kernel⟩
      exact ⟨hon, Or.inl hon, by decide⟩
  · intro i a h
    have hi := (List.getElem?_eq_some_iff.1 h).1
    have h2 : i < 2 := hi
    match i, h2, h with
    | 0, _, h => cases h; rfl
    | 1, _, h => cases h; rfl

/-- The hypotheses of `C71_many_ghosts` with one Pacman and six ghosts. -/
example : Disp.initialize (fun _ => 0) 30 { stage with agents := (stage.agents.take 1) ++ List.replicate 6 ⟨⟨(4, 1), .stop⟩, ⟨(4, 1), .stop⟩, false, 0⟩ } =
    .error .index :=
  C71_many_ghosts ⟨rfl, by decide⟩ (by decide) (by decide) (by
    intro i a h
    have hi : i < 7 := (List.getElem?_eq_some_iff.1 h).1
    match i, hi, h with
    | 0, _, h => cases h; rfl
    | 1, _, h => cases h; rfl
    | 2, _, h => cases h; rfl
    | 3, _, h => cases h; rfl
    | 4, _, h => cases h; rfl
    | 5, _, h => cases h; rfl
    | 6, _, h => cases h; rfl)

/-- The screen and the state after some moves; `none` if something is raised. -/
def screenAfter (ms : List (ℕ × Dir)) : Option (List Item × GState) :=
  match Disp.initialize (fun _ => 0) 30 stage with
  | .error _ => none
  | .ok d0 => match playShown (fun _ => 0) false (d0, stage) ms with
    | .error _ => none
    | .ok r => some (r.1.visible, r.2)

/-- **C71** Between the moves the screen can lag behind: when Pacman has eaten the capsule, the ghost is scared but still drawn blue, until its own move. -/
theorem C71_stale_colour :
    (screenAfter [(0, .east)]).map (fun r => (r.2.agents.map Agent.scared, (r.1.reverse.drop 4).head?.map fun i => String.ofList i.fill)) =
      some ([0, 40], some "#004ce5") ∧
    (screenAfter [(0, .east), (1, .west)]).map (fun r => (r.2.agents.map Agent.scared, (r.1.reverse.drop 4).head?.map fun i => String.ofList i.fill)) =
      some ([0, 39], some "#ffffff") := by decide +kernel

/-- **C71** A ghost that was eaten is back at its start, but still drawn, white, where it was eaten. -/
theorem C71_stale_place :
    (screenAfter [(0, .east), (1, .west), (0, .east)]).map (fun r => (r.2.agents.map fun a => (a.conf.pos, a.scared),
      decide (r.1.reverse.take 5 = (ghostPicture 30 3 ⟨⟨(4, 1), .stop⟩, ⟨(7 / 2, 1), .west⟩, false, 39⟩ 1).reverse))) =
      some ([((3, 1), 0), ((4, 1), 0)], true) := by decide +kernel

end Verif.Pac
