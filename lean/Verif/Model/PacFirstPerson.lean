import Verif.Model.PacDisplay

/-!
# `FirstPersonPacmanGraphics` (graphicsDisplay.py 611-655)

The class overrides `initialize`, `getGhostColor` and `getPosition` of `PacmanGraphics`; the functions here are those of `PacmanGraphics` that call one of
the overridden methods. `lookAhead` (634-646) is never called and is not modelled.
-/

namespace Verif.Pac

/-- `FirstPersonPacmanGraphics.getPosition` (graphicsDisplay.py 651-655); `shown` is `showGhosts`. The case of an agent without a configuration
(`PacmanGraphics.getPosition`, 405-407) is not in the model, as in `Model/PacDisplay.lean`. -/
def fpPos (shown : Bool) (a : Agent) : Pos :=
  if !shown && !a.isPacman && decide (a.conf.pos.2 > 1) then (-1000, -1000) else a.conf.pos

/-- `FirstPersonPacmanGraphics.getGhostColor` (graphicsDisplay.py 648-649). -/
def fpGhostColor (i : ℕ) : Except DErr Str :=
  match ghostColors[i]? with
  | some c => .ok c
  | none => .error .index

/-- `drawPacman` (graphicsDisplay.py 267-284). -/
def fpPacmanItems (shown : Bool) (sn : ℚ → ℚ) (g : ℚ) (h : ℕ) (a : Agent) : List Item :=
  [circleItem (toScreen g h (fpPos shown a)) (pacmanScale * g) pacmanColor pacmanColor (getEndpoints sn a.conf.dir (0, 0))]

/-- `drawGhost` (graphicsDisplay.py 335-369). -/
def fpGhostItems (shown : Bool) (g : ℚ) (h : ℕ) (a : Agent) (i : ℕ) : Except DErr (List Item) :=
  let s := toScreen g h (fpPos shown a)
  match fpGhostColor i with
  | .error e => .error e
  | .ok col => .ok (polygonItem (ghostShape.map fun p => (p.1 * g * ghostSize + s.1, p.2 * g * ghostSize + s.2)) col ::
      List.zipWith (fun e c => circleItem e.1 e.2 c c) (eyes g s a.conf.dir) eyeColors)

/-- The items of an agent (graphicsDisplay.py 214-219). -/
def fpAgentItems (shown : Bool) (sn : ℚ → ℚ) (g : ℚ) (h : ℕ) (a : Agent) (i : ℕ) : Except DErr (List Item) :=
  if a.isPacman then .ok (fpPacmanItems shown sn g h a) else fpGhostItems shown g h a i

/-- Loop of `drawAgentObjects` (graphicsDisplay.py 211-220) from agent `i` on. -/
def fpDrawAgents (shown : Bool) (sn : ℚ → ℚ) (g : ℚ) (h : ℕ) : ℕ → List Agent → Canvas → Except DErr (Canvas × List (Agent × List ℕ))
  | _, [], c => .ok (c, [])
  | i, a :: t, c => match fpAgentItems shown sn g h a i with
    | .error e => .error e
    | .ok its =>
      let r := c.addAll its
      match fpDrawAgents shown sn g h (i + 1) t r.1 with
      | .error e => .error e
      | .ok r' => .ok (r'.1, (a, r.2) :: r'.2)

/-- `FirstPersonPacmanGraphics.initialize` (graphicsDisplay.py 617-632) with `startGraphics` (180-187), `drawStaticObjects` (204-209). -/
def fpInitialize (shown : Bool) (sn : ℚ → ℚ) (g : ℚ) (s : GState) : Except DErr Disp := do
  let l := s.layout
  let c := makeWindow g l.width l.height
  let (c, score) := infoPane g l.height c
  let walls ← wallsFrom l.walls g l.height 0 l.walls.data
  let (c, _) := c.addAll walls
  let (c, food) := drawFood g l.height 0 l.food.data c
  let (c, caps) := drawCapsules g l.height l.capsules c Dict.empty
  let (c, ags) ← fpDrawAgents shown sn g l.height 0 s.agents c
  return ⟨c, l.height, g, score, food, caps, ags⟩

/-- `animatePacman` (graphicsDisplay.py 309-327). -/
def fpAnimatePacman (shown : Bool) (sn : ℚ → ℚ) (slow : Bool) (d : Disp) (a prev : Agent) (image : List ℕ) (c : Canvas) : Except DErr Canvas :=
  if slow then
    [1, 2, 3, 4].foldlM (init := c) fun c (i : ℚ) =>
      movePacman sn d ((fpPos shown a).1 * i / 4 + (fpPos shown prev).1 * (4 - i) / 4, (fpPos shown a).2 * i / 4 + (fpPos shown prev).2 * (4 - i) / 4)
        a.conf.dir image c
  else movePacman sn d (fpPos shown a) a.conf.dir image c

/-- `moveGhost` (graphicsDisplay.py 388-403). It does not call `getGhostColor`, so the colour is that of `PacmanGraphics`. -/
def fpMoveGhost (shown : Bool) (d : Disp) (a : Agent) (i : ℕ) (prev : Agent) (parts : List ℕ) (c : Canvas) : Except DErr Canvas := do
  let o := toScreen d.gridSize d.height (fpPos shown prev)
  let n := toScreen d.gridSize d.height (fpPos shown a)
  let c := parts.foldl (fun c id => c.moveBy id (n.1 - o.1, n.2 - o.2)) c
  let color ← ghostColor a i
  match parts[0]? with
  | none => .error .index
  | some body =>
    let c := c.change body fun it => { it with fill := color, outline := color }
    moveEyes (eyes d.gridSize n a.conf.dir) (parts.drop (parts.length - 4)) c

/-- `swapImages` (graphicsDisplay.py 222-234). -/
def fpSwapImages (shown : Bool) (sn : ℚ → ℚ) (d : Disp) (i : ℕ) (a : Agent) (image : List ℕ) : Except DErr Disp :=
  let c := image.foldl Canvas.delete d.canvas
  match fpAgentItems shown sn d.gridSize d.height a i with
  | .error e => .error e
  | .ok its => let r := c.addAll its; .ok { d with canvas := r.1, agents := d.agents.set i (a, r.2) }

/-- The first part of `update` (graphicsDisplay.py 237-246). -/
def fpMoveAgent (shown : Bool) (sn : ℚ → ℚ) (slow : Bool) (d : Disp) (i : ℕ) (a : Agent) : Except DErr Disp := do
  match d.agents[i]? with
  | none => .error .index
  | some (p, im) =>
    let d ← if p.isPacman ≠ a.isPacman then fpSwapImages shown sn d i a im else .ok d
    match d.agents[i]? with
    | none => .error .index
    | some (prev, image) =>
      let c ← if a.isPacman then fpAnimatePacman shown sn slow d a prev image d.canvas else fpMoveGhost shown d a i prev image d.canvas
      return { d with canvas := c, agents := d.agents.set i (a, image) }

/-- `update` (graphicsDisplay.py 236-254). -/
def fpUpdate (shown : Bool) (sn : ℚ → ℚ) (slow : Bool) (d : Disp) (s : GState) : Except DErr Disp := do
  match s.agentMoved with
  | none => .error .type
  | some i => match s.agents[i]? with
    | none => .error .index
    | some a =>
      let d ← fpMoveAgent shown sn slow d i a
      let d ← match s.foodEaten with
        | none => .ok d
        | some p => removeFood d p
      let d ← match s.capsuleEaten with
        | none => .ok d
        | some p => removeCapsule d p
      return { d with canvas := d.canvas.change d.scoreText fun it => { it with text := scoreStr s.score } }

/-- The moves of a game, each followed by `self.display.update(self.state.data)` (game.py 688-702). -/
def fpPlayShown (shown : Bool) (sn : ℚ → ℚ) (slow : Bool) : Disp × GState → List (ℕ × Dir) → Except (PErr ⊕ DErr) (Disp × GState)
  | r, [] => .ok r
  | (d, s), m :: t => match generateSuccessor s m.1 m.2 with
    | .error e => .error (.inl e)
    | .ok s' => match fpUpdate shown sn slow d s' with
      | .error e => .error (.inr e)
      | .ok d' => fpPlayShown shown sn slow (d', s') t

end Verif.Pac
