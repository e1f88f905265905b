import Verif.Model.PacDisplay
import Verif.Props.PacScore
import Mathlib.Tactic.Ring
import Mathlib.Tactic.Linarith
import Mathlib.Logic.Function.Basic

/-!
# Canvases as lists of slots

A canvas is `S.map r`, where `S` lists what each item stands for and `r` what is shown for it.
-/

namespace Verif.Pac

/-- What an item of the canvas stands for. -/
inductive Slot where
  | background
  | score
  | wall (it : Item) (k : ℕ)
  | food (p : ℕ × ℕ)
  | capsule (p : ℤ × ℤ)
  | part (i k : ℕ)
  deriving DecidableEq

variable {S : List Slot} {r : Slot → Option Item}

theorem set_slot (hS : S.Nodup) {id : ℕ} {σ : Slot} (h : S[id]? = some σ) (v : Option Item) :
    (S.map r).set id v = S.map (Function.update r σ v) := by
  apply List.ext_getElem?
  intro j
  rw [List.getElem?_set, List.getElem?_map, List.getElem?_map, List.length_map]
  obtain ⟨hid, hσ⟩ := List.getElem?_eq_some_iff.1 h
  by_cases hj : id = j
  · subst hj
    rw [if_pos rfl, if_pos hid, h]
    simp
  · rw [if_neg hj]
    cases hsj : S[j]? with
    | none => rfl
    | some τ =>
      have hne : τ ≠ σ := by
        rintro rfl
        obtain ⟨hjl, hτ⟩ := List.getElem?_eq_some_iff.1 hsj
        exact hj ((List.Nodup.getElem_inj_iff hS).1 (hσ.trans hτ.symm))
      simp [Function.update_of_ne hne]

theorem item_slot {id : ℕ} {σ : Slot} (h : S[id]? = some σ) : Canvas.item? (S.map r) id = r σ := by
  unfold Canvas.item?
  rw [List.getElem?_map, h]
  rfl

theorem delete_slot (hS : S.Nodup) {id : ℕ} {σ : Slot} (h : S[id]? = some σ) :
    Canvas.delete (S.map r) id = S.map (Function.update r σ none) := set_slot hS h none

theorem change_slot (hS : S.Nodup) {id : ℕ} {σ : Slot} (h : S[id]? = some σ) {it : Item} (hr : r σ = some it) (f : Item → Item) :
    Canvas.change (S.map r) id f = S.map (Function.update r σ (some (f it))) := by
  unfold Canvas.change
  rw [item_slot h, hr]
  exact set_slot hS h _

/-- What is shown after the parts of agent `i` were replaced. -/
def upd (r : Slot → Option Item) (i : ℕ) (its : List Item) : Slot → Option Item
  | .part j k => if j = i then its[k]? else r (.part j k)
  | σ => r σ

theorem upd_upd (r : Slot → Option Item) (i : ℕ) (its its' : List Item) : upd (upd r i its) i its' = upd r i its' := by
  funext σ
  cases σ <;> simp only [upd]
  split_ifs <;> rfl

theorem update_part (r : Slot → Option Item) (i k : ℕ) (its : List Item) (hk : k < its.length) (it : Item) :
    Function.update (upd r i its) (.part i k) (some it) = upd r i (its.set k it) := by
  funext σ
  by_cases hσ : σ = .part i k
  · subst hσ
    simp [upd, hk]
  · rw [Function.update_of_ne hσ]
    cases σ with
    | part j m =>
      by_cases hj : j = i
      · subst hj
        have : k ≠ m := fun h => hσ (by rw [h])
        simp [upd, List.getElem?_set, this]
      · simp [upd, hj]
    | _ => rfl

theorem upd_self (r : Slot → Option Item) (i : ℕ) (its : List Item) (h : ∀ k, r (.part i k) = its[k]?) : upd r i its = r := by
  funext σ
  cases σ with
  | part j k =>
    by_cases hj : j = i
    · subst hj; simp [upd, h]
    · simp [upd, hj]
  | _ => rfl

theorem change_part (hS : S.Nodup) {id i k : ℕ} (h : S[id]? = some (.part i k)) {its : List Item} {it : Item} (hit : its[k]? = some it) (f : Item → Item) :
    Canvas.change (S.map (upd r i its)) id f = S.map (upd r i (its.set k (f it))) := by
  rw [change_slot hS h (it := it) (by simp [upd, hit]), update_part]
  exact (List.getElem?_eq_some_iff.1 hit).1

/-! ### Circles and polygons -/

theorem shift_circle (p : ℚ × ℚ) (rad x y : ℚ) : shift x y true (circleBox p rad) = circleBox (p.1 + x, p.2 + y) rad := by
  simp only [circleBox, shift, List.cons.injEq, and_true]
  refine ⟨?_, ?_, ?_, ?_⟩ <;> ring

theorem shift_points (x y : ℚ) (l : List (ℚ × ℚ)) :
    shift x y true (l.flatMap fun p => [p.1, p.2]) = (l.map fun p => (p.1 + x, p.2 + y)).flatMap fun p => [p.1, p.2] := by
  induction l with
  | nil => rfl
  | cons a t ih => simp only [List.flatMap_cons, List.map_cons, List.cons_append, List.nil_append, shift, ih]

theorem moveBy_circle (hS : S.Nodup) {id i k : ℕ} (h : S[id]? = some (.part i k)) {its : List Item} {p : ℚ × ℚ} {rad : ℚ} {o f : Str} {e : ℚ × ℚ} {kd : Kind}
    (hit : its[k]? = some (circleItem p rad o f e kd)) (δ : ℚ × ℚ) :
    Canvas.moveBy (S.map (upd r i its)) id δ = S.map (upd r i (its.set k (circleItem (p.1 + δ.1, p.2 + δ.2) rad o f e kd))) := by
  unfold Canvas.moveBy
  rw [change_part hS h hit]
  congr 3
  simp only [circleItem, shift_circle]

theorem moveBy_polygon (hS : S.Nodup) {id i k : ℕ} (h : S[id]? = some (.part i k)) {its : List Item} {pts : List (ℚ × ℚ)} {o : Str}
    (hit : its[k]? = some (polygonItem pts o)) (δ : ℚ × ℚ) :
    Canvas.moveBy (S.map (upd r i its)) id δ = S.map (upd r i (its.set k (polygonItem (pts.map fun p => (p.1 + δ.1, p.2 + δ.2)) o))) := by
  unfold Canvas.moveBy
  rw [change_part hS h hit]
  congr 3
  simp only [polygonItem, shift_points]

theorem moveCircle_slot (hS : S.Nodup) {id i k : ℕ} (h : S[id]? = some (.part i k)) {its : List Item} {p : ℚ × ℚ} {rad : ℚ} {o f : Str} {e : ℚ × ℚ} {kd : Kind}
    (hit : its[k]? = some (circleItem p rad o f e kd)) (q : ℚ × ℚ) (e' : ℚ × ℚ) :
    Canvas.moveCircle (S.map (upd r i its)) id q rad e' = .ok (S.map (upd r i (its.set k (circleItem q rad o f e' kd)))) := by
  have hk := (List.getElem?_eq_some_iff.1 hit).1
  unfold Canvas.moveCircle
  rw [change_part hS h hit]
  unfold Canvas.moveTo
  rw [item_slot h]
  have hu : ∀ it : Item, upd r i (its.set k it) (.part i k) = some it := by
    intro it; simp [upd, hk]
  rw [hu]
  simp only [Option.map_some, circleItem]
  have hc : circleBox p rad = (p.1 - rad - 1) :: (p.2 - rad - 1) :: [p.1 + rad, p.2 + rad] := rfl
  rw [hc]
  simp only
  rw [← hc]
  rw [change_part hS h (it := { kind := kd, coords := circleBox p rad, outline := o, fill := f, start := e'.1, extent := wrapAngle e'.1 e'.2 - e'.1 })
    (by simp [hk])]
  congr 3
  rw [List.set_set]
  congr 1
  simp only [shift_circle, Item.mk.injEq, true_and, and_true]
  congr 1
  ext <;> simp

/-! ### Moving agents -/

theorem pacman_moved (hS : S.Nodup) {id i : ℕ} (h : S[id]? = some (.part i 0)) {p : ℚ × ℚ} {e : ℚ × ℚ} (sn : ℚ → ℚ) (d : Disp) (slow : Bool) (a prev : Agent) :
    animatePacman sn slow d a prev [id] (S.map (upd r i [circleItem p (pacmanScale * d.gridSize) pacmanColor pacmanColor e])) =
      .ok (S.map (upd r i [circleItem (toScreen d.gridSize d.height a.conf.pos) (pacmanScale * d.gridSize) pacmanColor pacmanColor
        (getEndpoints sn a.conf.dir a.conf.pos)])) := by
  have hone : ∀ (p : ℚ × ℚ) (e : ℚ × ℚ) (q : Pos) (dir : Dir),
      movePacman sn d q dir [id] (S.map (upd r i [circleItem p (pacmanScale * d.gridSize) pacmanColor pacmanColor e])) =
        .ok (S.map (upd r i [circleItem (toScreen d.gridSize d.height q) (pacmanScale * d.gridSize) pacmanColor pacmanColor (getEndpoints sn dir q)])) := by
    intro p e q dir
    show Canvas.moveCircle _ id _ _ _ = _
    rw [moveCircle_slot hS h (its := [_]) rfl]
    rfl
  unfold animatePacman
  cases slow with
  | false => simp only [Bool.false_eq_true, if_false]; rw [hone]
  | true =>
    simp only [if_true, List.foldlM_cons, List.foldlM_nil, hone, bind, Except.bind, pure, Except.pure]
    have : (a.conf.pos.1 * 4 / 4 + prev.conf.pos.1 * (4 - 4) / 4, a.conf.pos.2 * 4 / 4 + prev.conf.pos.2 * (4 - 4) / 4) = a.conf.pos := by
      ext <;> simp
    rw [this]

theorem ghost_moved (hS : S.Nodup) {i i0 i1 i2 i3 i4 : ℕ} (h0 : S[i0]? = some (.part i 0)) (h1 : S[i1]? = some (.part i 1)) (h2 : S[i2]? = some (.part i 2))
    (h3 : S[i3]? = some (.part i 3)) (h4 : S[i4]? = some (.part i 4)) (d : Disp) (a prev : Agent) {its its' : List Item}
    (hi : ghostItems d.gridSize d.height prev i = .ok its) (hi' : ghostItems d.gridSize d.height a i = .ok its') :
    moveGhost d a i prev [i0, i1, i2, i3, i4] (S.map (upd r i its)) = .ok (S.map (upd r i its')) := by
  unfold ghostItems at hi hi'
  cases hc : ghostColor prev i with
  | error e => rw [hc] at hi; cases hi
  | ok col =>
    cases hc' : ghostColor a i with
    | error e => rw [hc'] at hi'; cases hi'
    | ok col' =>
      rw [hc] at hi
      rw [hc'] at hi'
      simp only [Except.ok.injEq] at hi hi'
      subst hi
      subst hi'
      unfold moveGhost
      simp only [hc', bind, Except.bind, eyes, eyeColors, List.zipWith_cons_cons, List.zipWith_nil_left, List.foldl_cons, List.foldl_nil]
      rw [moveBy_polygon hS h0 rfl]
      simp only [List.set_cons_zero, List.set_cons_succ]
      rw [moveBy_circle hS h1 rfl]
      simp only [List.set_cons_zero, List.set_cons_succ]
      rw [moveBy_circle hS h2 rfl]
      simp only [List.set_cons_zero, List.set_cons_succ]
      rw [moveBy_circle hS h3 rfl]
      simp only [List.set_cons_zero, List.set_cons_succ]
      rw [moveBy_circle hS h4 rfl]
      simp only [List.set_cons_zero, List.set_cons_succ, List.getElem?_cons_zero]
      rw [change_part hS h0 rfl]
      simp only [List.set_cons_zero, List.length_cons, List.length_nil, Nat.reduceAdd, Nat.reduceSub, List.drop_succ_cons, List.drop_zero, moveEyes]
      rw [moveCircle_slot hS h1 rfl]
      simp only [List.set_cons_zero, List.set_cons_succ]
      rw [moveCircle_slot hS h2 rfl]
      simp only [List.set_cons_zero, List.set_cons_succ]
      rw [moveCircle_slot hS h3 rfl]
      simp only [List.set_cons_zero, List.set_cons_succ]
      rw [moveCircle_slot hS h4 rfl]
      simp only [List.set_cons_zero, List.set_cons_succ]
      congr 4
      simp only [polygonItem, Item.mk.injEq, true_and, and_true]
      rw [List.map_map]
      congr 1
      apply List.map_congr_left
      intro p _
      simp only [Function.comp]
      ext <;> simp only <;> ring

/-! ### One call of `update` -/

/-- The items of an agent as the display draws it from scratch; empty if it cannot be drawn. -/
def freshItems (sn : ℚ → ℚ) (g : ℚ) (h : ℕ) (a : Agent) (i : ℕ) : List Item := match agentItems sn g h a i with
  | .ok l => l
  | .error _ => []

/-- What has to be shown for each slot. -/
def shownFor (sn : ℚ → ℚ) (g : ℚ) (l : Layout) (s : GState) (seen : List Agent) : Slot → Option Item
  | .background => some (polygonItem [(0, 0), (0, 2 * g + (l.height - 1) * g + 35 - 1), (2 * g + (l.width - 1) * g - 1, 2 * g + (l.height - 1) * g + 35 - 1),
      (2 * g + (l.width - 1) * g - 1, 0)] backgroundColor)
  | .score => some (textItem (g + 0, (l.height + 1) * g + 0) pacmanColor (scoreStr s.score))
  | .wall it _ => some it
  | .food p => if s.food.At p.1 p.2 true then some (foodItem g l.height p) else none
  | .capsule p => if p ∈ s.capsules then some (capsuleItem g l.height p) else none
  | .part i k => match seen[i]? with
    | none => none
    | some a => (freshItems sn g l.height a i)[k]?

/-- The identifiers known to the display. -/
structure Ids (S : List Slot) (l : Layout) (d : Disp) : Prop where
  nodup : S.Nodup
  height : d.height = l.height
  score : S[d.scoreText]? = some .score
  food : ∀ x y, l.food.At x y true → ∃ col id, d.food[x]? = some col ∧ col[y]? = some (some id) ∧ S[id]? = some (.food (x, y))
  capsule : ∀ p ∈ l.capsules, ∃ id, d.capsules.get? p = some id ∧ S[id]? = some (.capsule p)
  parts : ∀ (i : ℕ) (a : Agent) (ids : List ℕ), d.agents[i]? = some (a, ids) →
    (a.isPacman = true → ∃ i0, ids = [i0] ∧ S[i0]? = some (.part i 0)) ∧
    (a.isPacman = false → ∃ i0 i1 i2 i3 i4, ids = [i0, i1, i2, i3, i4] ∧ S[i0]? = some (.part i 0) ∧ S[i1]? = some (.part i 1) ∧
      S[i2]? = some (.part i 2) ∧ S[i3]? = some (.part i 3) ∧ S[i4]? = some (.part i 4))

/-- The screen shows the state, with the agents as they were last seen. -/
structure Shows (sn : ℚ → ℚ) (g : ℚ) (S : List Slot) (l : Layout) (d : Disp) (s : GState) (seen : List Agent) : Prop where
  ids : Ids S l d
  grid : d.gridSize = g
  agents : d.agents.map Prod.fst = seen
  canvas : d.canvas = S.map (shownFor sn g l s seen)

/-- Pacman can be drawn at its place and direction with the mouth as at the start. -/
def Steady (sn : ℚ → ℚ) (a : Agent) : Prop := a.isPacman = true → getEndpoints sn a.conf.dir a.conf.pos = getEndpoints sn a.conf.dir (0, 0)

theorem agentItems_fresh {sn : ℚ → ℚ} {g : ℚ} {h : ℕ} {a : Agent} {i : ℕ} (hl : i < 6) : agentItems sn g h a i = .ok (freshItems sn g h a i) := by
  unfold freshItems
  cases hc : agentItems sn g h a i with
  | ok l => rfl
  | error e =>
    exfalso
    have hcol : ∃ c, ghostColor a i = .ok c := by
      unfold ghostColor
      split
      · exact ⟨_, rfl⟩
      · have : i < ghostColors.length := hl
        rw [List.getElem?_eq_getElem this]; exact ⟨_, rfl⟩
    obtain ⟨c, hcc⟩ := hcol
    unfold agentItems at hc
    split at hc
    · cases hc
    · unfold ghostItems at hc
      rw [hcc] at hc
      cases hc

theorem moveAgent_shows {sn : ℚ → ℚ} {g : ℚ} {S : List Slot} {l : Layout} {d : Disp} {s : GState} {seen : List Agent} (h : Shows sn g S l d s seen)
    (slow : Bool) {i : ℕ} (hi : i < 6) {prev a : Agent} (hp : seen[i]? = some prev) (hpac : prev.isPacman = a.isPacman) (hst : Steady sn a) :
    ∃ d', d.moveAgent sn slow i a = .ok d' ∧ Shows sn g S l d' s (seen.set i a) ∧ d'.scoreText = d.scoreText := by
  have hil : i < d.agents.length := by
    have := (List.getElem?_eq_some_iff.1 hp).1
    rw [← h.agents, List.length_map] at this
    exact this
  obtain ⟨ids, hd⟩ : ∃ ids, d.agents[i]? = some (prev, ids) := by
    rw [← h.agents, List.getElem?_map] at hp
    obtain ⟨⟨a', ids⟩, h1, h2⟩ := Option.map_eq_some_iff.1 hp
    simp only at h2
    subst h2
    exact ⟨ids, h1⟩
  have hgrid := h.grid
  subst hgrid
  have hheight := h.ids.height
  have hself : upd (shownFor sn d.gridSize l s seen) i (freshItems sn d.gridSize l.height prev i) = shownFor sn d.gridSize l s seen := by
    apply upd_self
    intro k
    simp only [shownFor, hp]
  have hnew : upd (shownFor sn d.gridSize l s seen) i (freshItems sn d.gridSize l.height a i) = shownFor sn d.gridSize l s (seen.set i a) := by
    funext σ
    cases σ with
    | part j k =>
      simp only [upd, shownFor, List.getElem?_set]
      by_cases hj : j = i
      · subst hj
        rw [if_pos rfl, if_pos rfl, if_pos (List.getElem?_eq_some_iff.1 hp).1]
      · rw [if_neg hj, if_neg (Ne.symm hj)]
    | _ => rfl
  have hfa := agentItems_fresh (sn := sn) (g := d.gridSize) (h := l.height) (a := a) hi
  have hfp := agentItems_fresh (sn := sn) (g := d.gridSize) (h := l.height) (a := prev) hi
  have hmove : (if a.isPacman = true then animatePacman sn slow d a prev ids d.canvas else moveGhost d a i prev ids d.canvas) =
      .ok (S.map (shownFor sn d.gridSize l s (seen.set i a))) := by
    rw [h.canvas, ← hself, ← hnew]
    cases hb : a.isPacman with
    | true =>
      rw [hb] at hpac
      obtain ⟨i0, rfl, h0⟩ := (h.ids.parts i prev ids hd).1 hpac
      rw [if_pos rfl]
      have e1 : freshItems sn d.gridSize l.height prev i = pacmanItems sn d.gridSize l.height prev := by
        unfold agentItems at hfp; rw [if_pos hpac] at hfp; exact (Except.ok.inj hfp).symm
      have e2 : freshItems sn d.gridSize l.height a i = pacmanItems sn d.gridSize l.height a := by
        unfold agentItems at hfa; rw [if_pos hb] at hfa; exact (Except.ok.inj hfa).symm
      rw [e1, e2]
      unfold pacmanItems
      rw [pacman_moved h.ids.nodup h0, hst hb, hheight]
    | false =>
      rw [hb] at hpac
      obtain ⟨i0, i1, i2, i3, i4, rfl, h0, h1, h2, h3, h4⟩ := (h.ids.parts i prev ids hd).2 hpac
      simp only [Bool.false_eq_true, if_false]
      unfold agentItems at hfp hfa
      rw [hpac] at hfp
      rw [hb] at hfa
      simp only [Bool.false_eq_true, if_false] at hfp hfa
      rw [← hheight] at hfp hfa ⊢
      exact ghost_moved h.ids.nodup h0 h1 h2 h3 h4 d a prev hfp hfa
  refine ⟨{ d with canvas := S.map (shownFor sn d.gridSize l s (seen.set i a)), agents := d.agents.set i (a, ids) }, ?_, ?_, rfl⟩
  · unfold Disp.moveAgent
    rw [hd]
    simp only
    rw [if_neg (by rw [hpac]; simp)]
    simp only [bind, Except.bind, hd]
    by_cases hb : a.isPacman = true
    · rw [if_pos hb] at hmove ⊢
      rw [hmove]
      rfl
    · rw [if_neg hb] at hmove ⊢
      rw [hmove]
      rfl
  · refine ⟨⟨h.ids.nodup, hheight, h.ids.score, h.ids.food, h.ids.capsule, ?_⟩, rfl, ?_, rfl⟩
    · intro j b ids' hj
      simp only [List.getElem?_set] at hj
      by_cases hij : i = j
      · subst hij
        rw [if_pos rfl, if_pos hil] at hj
        simp only [Option.some.injEq, Prod.mk.injEq] at hj
        obtain ⟨rfl, rfl⟩ := hj
        have := h.ids.parts i prev ids hd
        rw [hpac] at this
        exact this
      · rw [if_neg hij] at hj
        exact h.ids.parts j b ids' hj
    · simp only [List.map_set]
      rw [h.agents]

theorem update_shows {sn : ℚ → ℚ} {g : ℚ} {S : List Slot} {l : Layout} {d : Disp} {s s' : GState} {seen : List Agent} (h : Shows sn g S l d s seen)
    (slow : Bool) {i : ℕ} (hi : i < 6) {prev a : Agent} (hp : seen[i]? = some prev) (hpac : prev.isPacman = a.isPacman) (hst : Steady sn a)
    (hm : s'.agentMoved = some i) (ha : s'.agents[i]? = some a)
    (hf : (∃ x y : ℕ, s'.foodEaten = some ((x : ℤ), (y : ℤ)) ∧ l.food.At x y true ∧
        ∀ x' y', s'.food.At x' y' true ↔ s.food.At x' y' true ∧ (x', y') ≠ (x, y)) ∨
      (s'.foodEaten = none ∧ ∀ x' y', s'.food.At x' y' true ↔ s.food.At x' y' true))
    (hc : (∃ p, s'.capsuleEaten = some p ∧ p ∈ l.capsules ∧ ∀ p', p' ∈ s'.capsules ↔ p' ∈ s.capsules ∧ p' ≠ p) ∨
      (s'.capsuleEaten = none ∧ ∀ p', p' ∈ s'.capsules ↔ p' ∈ s.capsules)) :
    ∃ d', d.update sn slow s' = .ok d' ∧ Shows sn g S l d' s' (seen.set i a) := by
  obtain ⟨d1, e1, h1, _⟩ := moveAgent_shows h slow hi hp hpac hst
  -- food
  obtain ⟨d2, e2, h2⟩ : ∃ d2, (match s'.foodEaten with
        | none => Except.ok d1
        | some p => removeFood d1 p) = .ok d2 ∧ Shows sn g S l d2 { s with food := s'.food } (seen.set i a) := by
    rcases hf with ⟨x, y, he, hl, hat⟩ | ⟨he, hat⟩
    · obtain ⟨col, id, hc1, hc2, hs⟩ := h1.ids.food x y hl
      refine ⟨{ d1 with canvas := d1.canvas.delete id }, ?_, ⟨⟨h1.ids.nodup, h1.ids.height, h1.ids.score, h1.ids.food, h1.ids.capsule, h1.ids.parts⟩,
        h1.grid, h1.agents, ?_⟩⟩
      · rw [he]
        simp only [removeFood]
        rw [(pyGet_nat d1.food x col).2 hc1]
        simp only
        rw [(pyGet_nat col y (some id)).2 hc2]
      · show d1.canvas.delete id = _
        rw [h1.canvas, delete_slot h1.ids.nodup hs]
        congr 1
        funext σ
        by_cases hσ : σ = .food (x, y)
        · subst hσ
          rw [Function.update_self]
          simp only [shownFor]
          rw [if_neg]
          intro hh
          exact ((hat x y).1 hh).2 rfl
        · rw [Function.update_of_ne hσ]
          cases σ with
          | food p =>
            have hpne : (p.1, p.2) ≠ (x, y) := fun e => hσ (by rw [← e])
            have : s'.food.At p.1 p.2 true ↔ s.food.At p.1 p.2 true := by rw [hat]; exact ⟨fun e => e.1, fun e => ⟨e, hpne⟩⟩
            simp only [shownFor, this]
          | _ => rfl
    · refine ⟨d1, by rw [he], ⟨h1.ids, h1.grid, h1.agents, ?_⟩⟩
      rw [h1.canvas]
      congr 1
      funext σ
      cases σ with
      | food p => simp only [shownFor, hat]
      | _ => rfl
  -- capsule
  obtain ⟨d3, e3, h3⟩ : ∃ d3, (match s'.capsuleEaten with
        | none => Except.ok d2
        | some p => removeCapsule d2 p) = .ok d3 ∧ Shows sn g S l d3 { s with food := s'.food, capsules := s'.capsules } (seen.set i a) := by
    rcases hc with ⟨p, he, hl, hat⟩ | ⟨he, hat⟩
    · obtain ⟨id, hc1, hs⟩ := h2.ids.capsule p hl
      refine ⟨{ d2 with canvas := d2.canvas.delete id }, ?_, ⟨⟨h2.ids.nodup, h2.ids.height, h2.ids.score, h2.ids.food, h2.ids.capsule, h2.ids.parts⟩,
        h2.grid, h2.agents, ?_⟩⟩
      · rw [he]
        simp only [removeCapsule, hc1]
      · show d2.canvas.delete id = _
        rw [h2.canvas, delete_slot h2.ids.nodup hs]
        congr 1
        funext σ
        by_cases hσ : σ = .capsule p
        · subst hσ
          rw [Function.update_self]
          simp only [shownFor]
          rw [if_neg]
          intro hh
          exact ((hat p).1 hh).2 rfl
        · rw [Function.update_of_ne hσ]
          cases σ with
          | capsule p' =>
            have hpne : p' ≠ p := fun e => hσ (by rw [← e])
            have : p' ∈ s'.capsules ↔ p' ∈ s.capsules := by rw [hat]; exact ⟨fun e => e.1, fun e => ⟨e, hpne⟩⟩
            simp only [shownFor, this]
          | _ => rfl
    · refine ⟨d2, by rw [he], ⟨h2.ids, h2.grid, h2.agents, ?_⟩⟩
      rw [h2.canvas]
      congr 1
      funext σ
      cases σ with
      | capsule p => simp only [shownFor, hat]
      | _ => rfl
  -- score
  refine ⟨{ d3 with canvas := d3.canvas.change d3.scoreText fun it => { it with text := scoreStr s'.score } }, ?_,
    ⟨⟨h3.ids.nodup, h3.ids.height, h3.ids.score, h3.ids.food, h3.ids.capsule, h3.ids.parts⟩, h3.grid, h3.agents, ?_⟩⟩
  · unfold Disp.update
    rw [hm]
    simp only [ha, e1, bind, Except.bind]
    cases hfe : s'.foodEaten with
    | none =>
      rw [hfe] at e2
      cases e2
      cases hce : s'.capsuleEaten with
      | none => rw [hce] at e3; cases e3; rfl
      | some p => rw [hce] at e3; simp only at e3 ⊢; rw [e3]; rfl
    | some q =>
      rw [hfe] at e2
      simp only at e2 ⊢
      rw [e2]
      cases hce : s'.capsuleEaten with
      | none => rw [hce] at e3; cases e3; rfl
      | some p => rw [hce] at e3; simp only at e3 ⊢; rw [e3]; rfl
  · show d3.canvas.change d3.scoreText _ = _
    rw [h3.canvas, change_slot h3.ids.nodup h3.ids.score (it := textItem (g + 0, (l.height + 1) * g + 0) pacmanColor (scoreStr s.score)) rfl]
    congr 1
    funext σ
    by_cases hσ : σ = .score
    · subst hσ
      rw [Function.update_self]
      rfl
    · rw [Function.update_of_ne hσ]
      cases σ with
      | score => exact absurd rfl hσ
      | _ => rfl

end Verif.Pac
