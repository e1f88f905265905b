import Verif.Spec.PacWalls
import Verif.Props.PacDisplay

/-!
# C72: the drawing of the walls
-/

namespace Verif.Pac

/-! ### The program draws the specified outline -/

theorem wallColor_eq : wallColor = "#0033ff".toList := by decide +kernel

theorem isWall_spec {m : Grid} (hm : m.Shaped) (x y : ℤ) : isWall m x y = .ok (decide (m.Wall x y)) := by
  unfold isWall
  by_cases h1 : x < 0 ∨ y < 0
  · rw [if_pos h1]
    have : ¬ m.Wall x y := fun h => by
      have h2 := h.1
      have h3 := h.2.1
      omega
    rw [decide_eq_false this]
  · rw [if_neg h1]
    by_cases h2 : x ≥ m.width ∨ y ≥ m.height
    · rw [if_pos h2]
      have : ¬ m.Wall x y := fun h => by
        have := hm.lt_of_at h.2.2
        omega
      rw [decide_eq_false this]
    · rw [if_neg h2]
      obtain ⟨a, rfl⟩ : ∃ a : ℕ, x = a := ⟨x.toNat, by omega⟩
      obtain ⟨b, rfl⟩ : ∃ b : ℕ, y = b := ⟨y.toNat, by omega⟩
      obtain ⟨v, hv⟩ := hm.at_of_lt (x := a) (y := b) (by omega) (by omega)
      rw [(Grid.get_nat m a b v).2 hv]
      simp only [Except.ok.injEq]
      cases v with
      | true => symm; apply decide_eq_true; exact ⟨by omega, by omega, hv⟩
      | false =>
        symm; apply decide_eq_false
        intro h
        have := h.2.2.unique (by simpa using hv)
        simp at this

theorem around_spec {m : Grid} (hm : m.Shaped) (x y : ℤ) : around m x y = .ok
    ⟨decide (m.Wall (x - 1) y), decide (m.Wall (x + 1) y), decide (m.Wall x (y + 1)), decide (m.Wall x (y - 1)), decide (m.Wall (x - 1) (y + 1)),
      decide (m.Wall (x - 1) (y - 1)), decide (m.Wall (x + 1) (y + 1)), decide (m.Wall (x + 1) (y - 1))⟩ := by
  unfold around
  simp only [isWall_spec hm, bind, Except.bind]
  rfl

theorem arc_eq (p : ℚ × ℚ) (rad a : ℚ) : circleItem p rad wallColor wallColor (a, a + 91) .arc = wallArc p.1 p.2 rad a := by
  unfold circleItem wallArc wrapAngle circleBox
  rw [wallColor_eq, if_neg (by simp only; linarith)]
  simp

theorem line_eq (p q : ℚ × ℚ) : lineItem p q wallColor = wallLine p.1 p.2 q.1 q.2 := by
  unfold lineItem wallLine
  rw [wallColor_eq]

theorem arcs (p : ℚ × ℚ) (rad : ℚ) : circleItem p rad wallColor wallColor (0, 91) .arc = wallArc p.1 p.2 rad 0 ∧
    circleItem p rad wallColor wallColor (90, 181) .arc = wallArc p.1 p.2 rad 90 ∧ circleItem p rad wallColor wallColor (180, 271) .arc = wallArc p.1 p.2 rad 180 ∧
    circleItem p rad wallColor wallColor (270, 361) .arc = wallArc p.1 p.2 rad 270 := by
  have e0 := arc_eq p rad 0
  have e1 := arc_eq p rad 90
  have e2 := arc_eq p rad 180
  have e3 := arc_eq p rad 270
  norm_num at e0 e1 e2 e3
  exact ⟨e0, e1, e2, e3⟩

theorem wallArc_congr {x y rad a x' y' rad' : ℚ} (h1 : x = x') (h2 : y = y') (h3 : rad = rad') : wallArc x y rad a = wallArc x' y' rad' a := by
  rw [h1, h2, h3]

theorem wallLine_congr {x y z w x' y' z' w' : ℚ} (h1 : x = x') (h2 : y = y') (h3 : z = z') (h4 : w = w') : wallLine x y z w = wallLine x' y' z' w' := by
  rw [h1, h2, h3, h4]

theorem quadNE_eq (g : ℚ) (p : ℚ × ℚ) (a : Around) : quadNE g p a = cornerPicture g p .ne a.n a.e a.ne := by
  obtain ⟨w, e, n, s, nw, sw, ne, se⟩ := a
  unfold quadNE cornerPicture
  cases n <;> cases e <;> cases ne <;>
    simp only [line_eq, arcs, addPt, wallRadius, Corner.sx, Corner.sy, Corner.angle, Corner.opposite, Corner.over, Bool.not_true, Bool.not_false,
      Bool.and_true, Bool.and_false, Bool.true_and, Bool.false_and, if_true, if_false, Bool.false_eq_true, List.nil_append, List.append_nil] <;>
    repeat' first
      | rfl
      | apply congrArg₂ List.cons
      | apply wallArc_congr
      | apply wallLine_congr
      | (push_cast; ring)

theorem quadNW_eq (g : ℚ) (p : ℚ × ℚ) (a : Around) : quadNW g p a = cornerPicture g p .nw a.n a.w a.nw := by
  obtain ⟨w, e, n, s, nw, sw, ne, se⟩ := a
  unfold quadNW cornerPicture
  cases n <;> cases w <;> cases nw <;>
    simp only [line_eq, arcs, addPt, wallRadius, Corner.sx, Corner.sy, Corner.angle, Corner.opposite, Corner.over, Bool.not_true, Bool.not_false,
      Bool.and_true, Bool.and_false, Bool.true_and, Bool.false_and, if_true, if_false, Bool.false_eq_true, List.nil_append, List.append_nil] <;>
    repeat' first
      | rfl
      | apply congrArg₂ List.cons
      | apply wallArc_congr
      | apply wallLine_congr
      | (push_cast; ring)

theorem quadSE_eq (g : ℚ) (p : ℚ × ℚ) (a : Around) : quadSE g p a = cornerPicture g p .se a.s a.e a.se := by
  obtain ⟨w, e, n, s, nw, sw, ne, se⟩ := a
  unfold quadSE cornerPicture
  cases s <;> cases e <;> cases se <;>
    simp only [line_eq, arcs, addPt, wallRadius, Corner.sx, Corner.sy, Corner.angle, Corner.opposite, Corner.over, Bool.not_true, Bool.not_false,
      Bool.and_true, Bool.and_false, Bool.true_and, Bool.false_and, if_true, if_false, Bool.false_eq_true, List.nil_append, List.append_nil] <;>
    repeat' first
      | rfl
      | apply congrArg₂ List.cons
      | apply wallArc_congr
      | apply wallLine_congr
      | (push_cast; ring)

theorem quadSW_eq (g : ℚ) (p : ℚ × ℚ) (a : Around) : quadSW g p a = cornerPicture g p .sw a.s a.w a.sw := by
  obtain ⟨w, e, n, s, nw, sw, ne, se⟩ := a
  unfold quadSW cornerPicture
  cases s <;> cases w <;> cases sw <;>
    simp only [line_eq, arcs, addPt, wallRadius, Corner.sx, Corner.sy, Corner.angle, Corner.opposite, Corner.over, Bool.not_true, Bool.not_false,
      Bool.and_true, Bool.and_false, Bool.true_and, Bool.false_and, if_true, if_false, Bool.false_eq_true, List.nil_append, List.append_nil] <;>
    repeat' first
      | rfl
      | apply congrArg₂ List.cons
      | apply wallArc_congr
      | apply wallLine_congr
      | (push_cast; ring)

theorem cells_walls {m : Grid} (hm : m.Shaped) (g : ℚ) (h : ℕ) (x : ℕ) (col : List Bool) : ∀ y : ℕ,
    wallsColumn m g h x y col = .ok ((colCells x y col).flatMap (wallPicture g h m)) := by
  induction col with
  | nil => intro y; rfl
  | cons b t ih =>
    intro y
    unfold wallsColumn
    cases b with
    | false => simp only [ih (y + 1), bind, Except.bind, Bool.false_eq_true, if_false]; rfl
    | true =>
      simp only [ih (y + 1), bind, Except.bind, if_true, around_spec hm]
      have : wallItems g h ⟨decide (m.Wall (x - 1) y), decide (m.Wall (x + 1) y), decide (m.Wall x (y + 1)), decide (m.Wall x (y - 1)),
          decide (m.Wall (x - 1) (y + 1)), decide (m.Wall (x - 1) (y - 1)), decide (m.Wall (x + 1) (y + 1)), decide (m.Wall (x + 1) (y - 1))⟩ x y =
          wallPicture g h m (x, y) := by
        unfold wallItems wallPicture
        simp only [quadNE_eq, quadNW_eq, quadSE_eq, quadSW_eq, List.flatMap_cons, List.flatMap_nil, List.append_nil, List.append_assoc, cornerAt, Corner.sx,
          Corner.sy, sub_neg_eq_add, ← sub_eq_add_neg]
        rfl
      rw [this]
      rfl

theorem data_walls {m : Grid} (hm : m.Shaped) (g : ℚ) (h : ℕ) (data : List (List Bool)) : ∀ x : ℕ,
    wallsFrom m g h x data = .ok ((dataCells x data).flatMap (wallPicture g h m)) := by
  induction data with
  | nil => intro x; rfl
  | cons col t ih =>
    intro x
    unfold wallsFrom
    simp only [cells_walls hm, ih (x + 1), bind, Except.bind, dataCells, List.flatMap_append]
    rfl

/-- **C72** `drawWalls` draws the specified outline. -/
theorem C72_walls {m : Grid} (hm : m.Shaped) (g : ℚ) (h : ℕ) : wallsFrom m g h 0 m.data = .ok (mazePicture g h m) := by
  rw [data_walls hm, dataCells_filter m.data m.height hm.2]
  unfold mazePicture gridCells
  rw [hm.1, ← List.range_eq_range']
  congr 2
  apply List.filter_congr
  intro p _
  rw [Nat.sub_zero]
  exact decide_eq_decide.2 (m.at_iff p.1 p.2 true).symm

/-! ### Closed outlines -/

/-- The points where the outline passes from one corner to the next: to the side, up or down, and at the borders of the cell. -/
def portSide (g : ℚ) (c : ℚ × ℚ) (k : Corner) : ℚ × ℚ := (c.1 + k.sx * (3 / 20 * g), c.2)
def portVert (g : ℚ) (c : ℚ × ℚ) (k : Corner) : ℚ × ℚ := (c.1, c.2 + k.sy * (3 / 20 * g))
def portVertEdge (g : ℚ) (c : ℚ × ℚ) (k : Corner) : ℚ × ℚ := (c.1 + k.sx * (3 / 20 * g), c.2 + k.sy * (g / 2))
def portSideEdge (g : ℚ) (c : ℚ × ℚ) (k : Corner) : ℚ × ℚ := (c.1 + k.sx * (g / 2), c.2 + k.sy * (3 / 20 * g))

theorem close_of {δ : ℚ} {p q : ℚ × ℚ} (h1 : p.1 - q.1 ≤ δ) (h2 : q.1 - p.1 ≤ δ) (h3 : p.2 - q.2 ≤ δ) (h4 : q.2 - p.2 ≤ δ) : Close δ p q :=
  ⟨abs_le.2 ⟨by linarith, h1⟩, abs_le.2 ⟨by linarith, h3⟩⟩

theorem Close.trans {δ ε : ℚ} {p q r : ℚ × ℚ} (h1 : Close δ p q) (h2 : Close ε r q) : Close (δ + ε) p r := by
  obtain ⟨a, b⟩ := h1
  obtain ⟨c, d⟩ := h2
  rw [abs_le] at a b c d
  exact close_of (by linarith) (by linarith) (by linarith) (by linarith)

theorem line_ends (x y x' y' : ℚ) : (wallLine x y x' y').ends = [(x, y), (x', y')] := rfl

theorem arc_ends (x y rad : ℚ) : (wallArc x y rad 0).ends = [(x + rad, y - 1 / 2), (x - 1 / 2, y - rad - 1)] ∧
    (wallArc x y rad 90).ends = [(x - 1 / 2, y - rad - 1), (x - rad - 1, y - 1 / 2)] ∧
    (wallArc x y rad 180).ends = [(x - rad - 1, y - 1 / 2), (x - 1 / 2, y + rad)] ∧
    (wallArc x y rad 270).ends = [(x - 1 / 2, y + rad), (x + rad, y - 1 / 2)] := by
  unfold wallArc Item.ends axisPoint
  norm_num
  refine ⟨⟨?_, ?_⟩, ⟨?_, ?_⟩, ⟨?_, ?_⟩, ?_, ?_⟩ <;> ring

/-- Two different items of a list end near the point. -/
def Met (l : List Item) (it : Item) (e : ℚ × ℚ) : Prop := ∃ it' ∈ l, it' ≠ it ∧ ∃ e' ∈ it'.ends, Close 2 e e'

theorem arc_ne_line (x y rad a p q u w : ℚ) : wallArc x y rad a ≠ wallLine p q u w := fun h => by
  have := congrArg Item.kind h
  cases this

macro "close_tac" : tactic => `(tactic| (
  apply close_of <;>
    simp only [portSide, portVert, portVertEdge, portSideEdge, Corner.sx, Corner.sy, Corner.over, Int.cast_one, Int.cast_neg] <;> linarith))

/-- Every end in a corner is met by another item of the corner or is near a point of passage. -/
theorem corner_ends (g : ℚ) (c : ℚ × ℚ) (k : Corner) (v b d : Bool) : ∀ it ∈ cornerPicture g c k v b d, ∀ e ∈ it.ends,
    Met (cornerPicture g c k v b d) it e ∨ (b = false ∧ Close 1 e (portSide g c k)) ∨ (v = false ∧ Close 1 e (portVert g c k)) ∨
      (v = true ∧ (b = false ∨ d = false) ∧ Close 1 e (portVertEdge g c k)) ∨ (b = true ∧ (v = false ∨ d = false) ∧ Close 1 e (portSideEdge g c k)) := by
  by_cases hout : v = true ∧ b = true ∧ d = false
  · obtain ⟨rfl, rfl, rfl⟩ := hout
    intro it hit e he
    have hm : ∀ it' ∈ cornerPicture g c k true true false, it' ≠ it → ∀ e' ∈ it'.ends, Close 2 e e' → Met (cornerPicture g c k true true false) it e :=
      fun it' h1 h2 e' h3 h4 => ⟨it', h1, h2, e', h3, h4⟩
    cases k <;> simp only [cornerPicture, List.mem_cons, List.not_mem_nil, or_false, Corner.angle, Corner.opposite] at hit hm <;>
      rcases hit with rfl | rfl | rfl <;> simp only [line_ends, arc_ends, List.mem_cons, List.not_mem_nil, or_false] at he <;> rcases he with rfl | rfl <;>
      first
        | (refine Or.inr (Or.inr (Or.inr (Or.inl ⟨rfl, Or.inr rfl, ?_⟩))); close_tac)
        | (refine Or.inr (Or.inr (Or.inr (Or.inr ⟨rfl, Or.inr rfl, ?_⟩))); close_tac)
        | (refine Or.inl (hm _ (Or.inl rfl) (arc_ne_line _ _ _ _ _ _ _ _) _ (by simp only [arc_ends]; exact List.mem_cons_self) ?_); close_tac)
        | (refine Or.inl (hm _ (Or.inl rfl) (arc_ne_line _ _ _ _ _ _ _ _) _ (by simp only [arc_ends]; exact List.mem_cons_of_mem _ List.mem_cons_self) ?_); close_tac)
        | (refine Or.inl (hm _ (Or.inr (Or.inl rfl)) (arc_ne_line _ _ _ _ _ _ _ _).symm _ (by rw [line_ends]; exact List.mem_cons_self) ?_); close_tac)
        | (refine Or.inl (hm _ (Or.inr (Or.inr rfl)) (arc_ne_line _ _ _ _ _ _ _ _).symm _ (by rw [line_ends]; exact List.mem_cons_self) ?_); close_tac)
  · intro it hit e he
    cases k <;> cases v <;> cases b <;> cases d <;> first | exact absurd ⟨rfl, rfl, rfl⟩ hout | skip
    all_goals
      simp only [cornerPicture, List.mem_cons, List.not_mem_nil, or_false, Corner.angle] at hit
      try subst hit
      try simp only [line_ends, arc_ends, List.mem_cons, List.not_mem_nil, or_false] at he
      try rcases he with rfl | rfl
    all_goals
      first
        | (refine Or.inr (Or.inl ⟨rfl, ?_⟩); close_tac)
        | (refine Or.inr (Or.inr (Or.inl ⟨rfl, ?_⟩)); close_tac)
        | (refine Or.inr (Or.inr (Or.inr (Or.inl ⟨rfl, Or.inl rfl, ?_⟩))); close_tac)
        | (refine Or.inr (Or.inr (Or.inr (Or.inr ⟨rfl, Or.inl rfl, ?_⟩))); close_tac)

/-- Some item of the corner ends near the point. -/
def Reaches (l : List Item) (p : ℚ × ℚ) : Prop := ∃ it ∈ l, ∃ e ∈ it.ends, Close 1 e p

macro "reach_tac" : tactic => `(tactic| (
  simp only [cornerPicture, Corner.angle, Corner.opposite]
  first
    | (refine ⟨_, List.mem_cons_self, _, by simp only [line_ends, arc_ends]; exact List.mem_cons_self, ?_⟩; close_tac)
    | (refine ⟨_, List.mem_cons_self, _, by simp only [line_ends, arc_ends]; exact List.mem_cons_of_mem _ List.mem_cons_self, ?_⟩; close_tac)
    | (refine ⟨_, List.mem_cons_of_mem _ List.mem_cons_self, _, by simp only [line_ends]; exact List.mem_cons_of_mem _ List.mem_cons_self, ?_⟩; close_tac)
    | (refine ⟨_, List.mem_cons_of_mem _ (List.mem_cons_of_mem _ List.mem_cons_self), _, by simp only [line_ends]; exact List.mem_cons_of_mem _ List.mem_cons_self, ?_⟩
       close_tac)))

theorem reach_side (g : ℚ) (c : ℚ × ℚ) (k : Corner) (v d : Bool) : Reaches (cornerPicture g c k v false d) (portSide g c k) := by
  unfold Reaches
  cases k <;> cases v <;> reach_tac

theorem reach_vert (g : ℚ) (c : ℚ × ℚ) (k : Corner) (b d : Bool) : Reaches (cornerPicture g c k false b d) (portVert g c k) := by
  unfold Reaches
  cases k <;> cases b <;> reach_tac

theorem reach_vertEdge (g : ℚ) (c : ℚ × ℚ) (k : Corner) {b d : Bool} (h : b = false ∨ d = false) : Reaches (cornerPicture g c k true b d) (portVertEdge g c k) := by
  unfold Reaches
  cases k <;> cases b <;> cases d <;> first | (exfalso; simp at h; done) | reach_tac

theorem reach_sideEdge (g : ℚ) (c : ℚ × ℚ) (k : Corner) {v d : Bool} (h : v = false ∨ d = false) : Reaches (cornerPicture g c k v true d) (portSideEdge g c k) := by
  unfold Reaches
  cases k <;> cases v <;> cases d <;> first | (exfalso; simp at h; done) | reach_tac

/-- The middle between the ends of an item lies in its corner. -/
theorem corner_middle {g : ℚ} (hg : 20 ≤ g) (c : ℚ × ℚ) (k : Corner) (v b d : Bool) : ∀ it ∈ cornerPicture g c k v b d, ∃ e e' : ℚ × ℚ, it.ends = [e, e'] ∧
    0 < k.sx * (e.1 + e'.1 - 2 * c.1) ∧ k.sx * (e.1 + e'.1 - 2 * c.1) < g ∧ 0 < k.sy * (e.2 + e'.2 - 2 * c.2) ∧ k.sy * (e.2 + e'.2 - 2 * c.2) < g := by
  intro it hit
  cases k <;> cases v <;> cases b <;> cases d <;> simp only [cornerPicture, List.mem_cons, List.not_mem_nil, or_false, Corner.angle, Corner.opposite] at hit
  all_goals
    first
      | subst hit
      | rcases hit with rfl | rfl | rfl
  all_goals
    simp only [line_ends, arc_ends]
    refine ⟨_, _, rfl, ?_, ?_, ?_, ?_⟩ <;> simp only [Corner.sx, Corner.sy, Corner.over, Int.cast_one, Int.cast_neg] <;> linarith

/-- The corner above or below. -/
def Corner.flipV : Corner → Corner
  | .ne => .se
  | .se => .ne
  | .nw => .sw
  | .sw => .nw

/-- The corner beside. -/
def Corner.flipH : Corner → Corner
  | .ne => .nw
  | .nw => .ne
  | .se => .sw
  | .sw => .se

theorem flipV_signs (k : Corner) : k.flipV.sx = k.sx ∧ k.flipV.sy = -k.sy := by cases k <;> decide
theorem flipH_signs (k : Corner) : k.flipH.sx = -k.sx ∧ k.flipH.sy = k.sy := by cases k <;> decide
theorem sx_cases (k : Corner) : k.sx = 1 ∨ k.sx = -1 := by cases k <;> decide
theorem sy_cases (k : Corner) : k.sy = 1 ∨ k.sy = -1 := by cases k <;> decide

theorem Grid.Wall.nat {m : Grid} {x y : ℤ} (h : m.Wall x y) : ∃ a b : ℕ, x = a ∧ y = b ∧ m.At a b true :=
  ⟨x.toNat, y.toNat, by have := h.1; omega, by have := h.2.1; omega, h.2.2⟩

theorem wall_nat (m : Grid) (x y : ℕ) : m.Wall x y ↔ m.At x y true := by simp [Grid.Wall]

theorem mem_maze {m : Grid} (hm : m.Shaped) (g : ℚ) (h : ℕ) (it : Item) :
    it ∈ mazePicture g h m ↔ ∃ x y : ℕ, m.At x y true ∧ ∃ k, it ∈ cornerAt g h m k x y := by
  unfold mazePicture wallPicture gridCells
  simp only [List.mem_flatMap, List.mem_filter, List.mem_map, List.mem_range, decide_eq_true_eq]
  constructor
  · rintro ⟨p, ⟨_, hp⟩, k, _, hk⟩
    exact ⟨p.1, p.2, hp, k, hk⟩
  · rintro ⟨x, y, hp, k, hk⟩
    obtain ⟨hx, hy⟩ := hm.lt_of_at hp
    exact ⟨(x, y), ⟨⟨x, hx, y, hy, rfl⟩, hp⟩, k, by cases k <;> simp, hk⟩

/-- What a corner of a neighbouring cell reaches. -/
theorem met_of_reach {m : Grid} (hm : m.Shaped) {g : ℚ} {h : ℕ} {it : Item} {e p : ℚ × ℚ} (he : Close 1 e p) {x y : ℕ} (hw : m.At x y true) {k : Corner}
    (hr : Reaches (cornerAt g h m k x y) p) (hne : it ∉ cornerAt g h m k x y) : Met (mazePicture g h m) it e := by
  obtain ⟨it', h1, e', h2, h3⟩ := hr
  refine ⟨it', (mem_maze hm g h it').2 ⟨x, y, hw, k, h1⟩, fun hh => hne (hh ▸ h1), e', h2, ?_⟩
  have := he.trans h3
  norm_num at this
  exact this

/-- **C72** The outlines are closed: at each end of each line or arc of the drawing another line or arc ends, at most two pixels away. -/
theorem C72_closed {m : Grid} (hm : m.Shaped) {g : ℚ} (hg : 20 ≤ g) (h : ℕ) :
    ∀ it ∈ mazePicture g h m, ∀ e ∈ it.ends, ∃ it' ∈ mazePicture g h m, it' ≠ it ∧ ∃ e' ∈ it'.ends, Close 2 e e' := by
  intro it hit e he
  obtain ⟨x, y, hw, k, hk⟩ := (mem_maze hm g h it).1 hit
  have hw' : m.Wall x y := (wall_nat m x y).2 hw
  obtain ⟨u, u', hends, m1, m2, m3, m4⟩ := corner_middle hg _ _ _ _ _ it hk
  obtain ⟨vx, vy⟩ := flipV_signs k
  obtain ⟨wx, wy⟩ := flipH_signs k
  -- `it` is not in the corner above or below, nor in the one beside
  have far : ∀ (k' : Corner) (x' y' : ℕ), it ∈ cornerAt g h m k' x' y' →
      0 < k'.sx * (u.1 + u'.1 - 2 * (centre g h (cellAt (x', y'))).1) ∧ k'.sx * (u.1 + u'.1 - 2 * (centre g h (cellAt (x', y'))).1) < g ∧
      0 < k'.sy * (u.2 + u'.2 - 2 * (centre g h (cellAt (x', y'))).2) ∧ k'.sy * (u.2 + u'.2 - 2 * (centre g h (cellAt (x', y'))).2) < g := by
    intro k' x' y' hh
    obtain ⟨w, w', he', n1, n2, n3, n4⟩ := corner_middle hg _ _ _ _ _ it hh
    rw [hends] at he'
    simp only [List.cons.injEq, and_true] at he'
    obtain ⟨rfl, rfl⟩ := he'
    exact ⟨n1, n2, n3, n4⟩
  have back : (y : ℤ) - k.sy - k.flipV.sy = y := by rw [vy]; ring
  have back' : (x : ℤ) + k.sx + k.flipH.sx = x := by rw [wx]; ring
  rcases corner_ends _ _ _ _ _ _ it hk e he with hmet | ⟨hb, hc⟩ | ⟨hv, hc⟩ | ⟨hv, hbd, hc⟩ | ⟨hb, hvd, hc⟩
  · obtain ⟨it', h1, h2, h3⟩ := hmet
    exact ⟨it', (mem_maze hm g h it').2 ⟨x, y, hw, k, h1⟩, h2, h3⟩
  · refine met_of_reach hm hc hw (k := k.flipV) ?_ ?_
    · have : portSide g (centre g h (cellAt (x, y))) k = portSide g (centre g h (cellAt (x, y))) k.flipV := by unfold portSide; rw [vx]
      rw [this]
      unfold cornerAt
      rw [vx, hb]
      exact reach_side _ _ _ _ _
    · intro hh
      obtain ⟨_, _, n3, _⟩ := far _ _ _ hh
      rw [vy] at n3
      push_cast at n3
      linarith
  · refine met_of_reach hm hc hw (k := k.flipH) ?_ ?_
    · have : portVert g (centre g h (cellAt (x, y))) k = portVert g (centre g h (cellAt (x, y))) k.flipH := by unfold portVert; rw [wy]
      rw [this]
      unfold cornerAt
      rw [wy, hv]
      exact reach_vert _ _ _ _ _
    · intro hh
      obtain ⟨n3, _⟩ := far _ _ _ hh
      rw [wx] at n3
      push_cast at n3
      linarith
  · have hv' := of_decide_eq_true hv
    obtain ⟨x', y', hx', hy', hat⟩ := hv'.nat
    obtain rfl : x = x' := by exact_mod_cast hx'
    have hyq : ((y' : ℕ) : ℚ) = y - k.sy := by exact_mod_cast hy'.symm
    refine met_of_reach hm hc hat (k := k.flipV) ?_ ?_
    · have : portVertEdge g (centre g h (cellAt (x, y))) k = portVertEdge g (centre g h (cellAt (x, y'))) k.flipV := by
        unfold portVertEdge centre cellAt
        rw [vx, vy]
        simp only [Prod.mk.injEq, true_and]
        rw [hyq]
        push_cast
        ring
      rw [this]
      unfold cornerAt
      rw [vx, ← hy', back, decide_eq_true hw']
      exact reach_vertEdge _ _ _ hbd.symm
    · intro hh
      obtain ⟨_, _, n3, n4⟩ := far _ _ _ hh
      rw [vy] at n3 n4
      simp only [centre, cellAt] at n3 n4 m3 m4
      rw [hyq] at n3 n4
      push_cast at n3 n4
      rcases sy_cases k with hs | hs <;> rw [hs] at n3 n4 m3 m4 <;> push_cast at n3 n4 m3 m4 <;> linarith
  · have hb' := of_decide_eq_true hb
    obtain ⟨x', y', hx', hy', hat⟩ := hb'.nat
    obtain rfl : y = y' := by exact_mod_cast hy'
    have hxq : ((x' : ℕ) : ℚ) = x + k.sx := by exact_mod_cast hx'.symm
    refine met_of_reach hm hc hat (k := k.flipH) ?_ ?_
    · have : portSideEdge g (centre g h (cellAt (x, y))) k = portSideEdge g (centre g h (cellAt (x', y))) k.flipH := by
        unfold portSideEdge centre cellAt
        rw [wx, wy]
        simp only [Prod.mk.injEq, and_true]
        rw [hxq]
        push_cast
        ring
      rw [this]
      unfold cornerAt
      rw [wy, ← hx', back', decide_eq_true hw']
      exact reach_sideEdge _ _ _ hvd.symm
    · intro hh
      obtain ⟨n1, n2, _⟩ := far _ _ _ hh
      rw [wx] at n1 n2
      simp only [centre, cellAt] at n1 n2 m1 m2
      rw [hxq] at n1 n2
      push_cast at n1 n2
      rcases sx_cases k with hs | hs <;> rw [hs] at n1 n2 m1 m2 <;> push_cast at n1 n2 m1 m2 <;> linarith

/-- **C72** The outline passes between a wall and each neighbouring cell that is not one, at 0.15 cells from the centre of the wall (up to one pixel). -/
theorem C72_boundary {m : Grid} (hm : m.Shaped) (g : ℚ) (h : ℕ) {x y : ℕ} (hw : m.At x y true) (d : ℤ × ℤ) (hd : d ∈ [((1 : ℤ), (0 : ℤ)), (-1, 0), (0, 1), (0, -1)])
    (hf : ¬ m.Wall (x + d.1) (y + d.2)) : ∃ it ∈ mazePicture g h m, ∃ e ∈ it.ends,
      Close 1 e (((x : ℚ) + 1) * g + d.1 * (3 / 20 * g), (h - (y : ℚ)) * g - d.2 * (3 / 20 * g)) := by
  have key : ∀ k p, Reaches (cornerAt g h m k x y) p → ∃ it ∈ mazePicture g h m, ∃ e ∈ it.ends, Close 1 e p := by
    rintro k p ⟨it, h1, h2⟩
    exact ⟨it, (mem_maze hm g h it).2 ⟨x, y, hw, k, h1⟩, h2⟩
  simp only [List.mem_cons, List.not_mem_nil, or_false] at hd
  rcases hd with rfl | rfl | rfl | rfl
  · have := key .ne _ (by
      unfold cornerAt
      rw [show ((x : ℤ) + Corner.ne.sx) = x + 1 from rfl, decide_eq_false (p := m.Wall (x + 1) y) (by simpa using hf)]
      exact reach_side _ _ _ _ _)
    simpa [portSide, centre, cellAt, Corner.sx] using this
  · have := key .nw _ (by
      unfold cornerAt
      rw [show ((x : ℤ) + Corner.nw.sx) = x + -1 from rfl, decide_eq_false (p := m.Wall (x + -1) y) (by simpa using hf)]
      exact reach_side _ _ _ _ _)
    simpa [portSide, centre, cellAt, Corner.sx] using this
  · have := key .ne _ (by
      unfold cornerAt
      rw [show ((y : ℤ) - Corner.ne.sy) = y + 1 from rfl, decide_eq_false (p := m.Wall x (y + 1)) (by simpa using hf)]
      exact reach_vert _ _ _ _ _)
    simpa [portVert, centre, cellAt, Corner.sy, ← sub_eq_add_neg] using this
  · have := key .se _ (by
      unfold cornerAt
      rw [show ((y : ℤ) - Corner.se.sy) = y + -1 from rfl, decide_eq_false (p := m.Wall x (y + -1)) (by simpa using hf)]
      exact reach_vert _ _ _ _ _)
    simpa [portVert, centre, cellAt, Corner.sy] using this

/-- **C72** Nothing is drawn for a wall exactly if it is surrounded by walls on all eight sides. -/
theorem C72_inside (g : ℚ) (h : ℕ) (m : Grid) (x y : ℕ) : wallPicture g h m (x, y) = [] ↔
    ∀ dx dy : ℤ, |dx| ≤ 1 → |dy| ≤ 1 → (dx, dy) ≠ (0, 0) → m.Wall (x + dx) (y + dy) := by
  have hc : ∀ (c : ℚ × ℚ) (k : Corner) (v b d : Bool), cornerPicture g c k v b d = [] ↔ v = true ∧ b = true ∧ d = true := by
    intro c k v b d
    cases v <;> cases b <;> cases d <;> simp [cornerPicture]
  have : wallPicture g h m (x, y) = [] ↔ ∀ k : Corner, cornerAt g h m k x y = [] := by
    unfold wallPicture
    rw [List.flatMap_eq_nil_iff]
    exact ⟨fun hh k => hh k (by cases k <;> simp), fun hh k _ => hh k⟩
  rw [this]
  simp only [cornerAt, hc, decide_eq_true_eq]
  constructor
  · intro hh dx dy h1 h2 h3
    obtain ⟨a1, a2, a3⟩ := hh .ne
    obtain ⟨b1, b2, b3⟩ := hh .nw
    obtain ⟨c1, c2, c3⟩ := hh .se
    obtain ⟨d1, d2, d3⟩ := hh .sw
    rw [abs_le] at h1 h2
    have hx : dx = -1 ∨ dx = 0 ∨ dx = 1 := by omega
    have hy : dy = -1 ∨ dy = 0 ∨ dy = 1 := by omega
    rcases hx with rfl | rfl | rfl <;> rcases hy with rfl | rfl | rfl
    · simpa [Corner.sx, Corner.sy, ← sub_eq_add_neg] using d3
    · simpa [Corner.sx, Corner.sy, ← sub_eq_add_neg] using d2
    · simpa [Corner.sx, Corner.sy, ← sub_eq_add_neg] using b3
    · simpa [Corner.sx, Corner.sy, ← sub_eq_add_neg] using d1
    · exact absurd rfl h3
    · simpa [Corner.sx, Corner.sy, ← sub_eq_add_neg] using a1
    · simpa [Corner.sx, Corner.sy, ← sub_eq_add_neg] using c3
    · simpa [Corner.sx, Corner.sy, ← sub_eq_add_neg] using c2
    · simpa [Corner.sx, Corner.sy, ← sub_eq_add_neg] using a3
  · intro hh k
    have e1 := hh 0 (-k.sy) (by simp) (by cases k <;> simp [Corner.sy]) (by cases k <;> simp [Corner.sy])
    have e2 := hh k.sx 0 (by cases k <;> simp [Corner.sx]) (by simp) (by cases k <;> simp [Corner.sx])
    have e3 := hh k.sx (-k.sy) (by cases k <;> simp [Corner.sx]) (by cases k <;> simp [Corner.sy]) (by cases k <;> simp [Corner.sx])
    rw [add_zero] at e1 e2
    rw [← sub_eq_add_neg] at e1 e3
    exact ⟨e1, e2, e3⟩

/-! ### Distance from the free cells -/

theorem line_coords (x y x' y' : ℚ) : evens (wallLine x y x' y').coords = [x, x'] ∧ odds (wallLine x y x' y').coords = [y, y'] := ⟨rfl, rfl⟩

theorem arc_coords (x y rad a : ℚ) : evens (wallArc x y rad a).coords = [x - rad - 1, x + rad] ∧ odds (wallArc x y rad a).coords = [y - rad - 1, y + rad] :=
  ⟨rfl, rfl⟩

/-- The extent of the items of a corner, measured in its directions. -/
theorem corner_box {g : ℚ} (hg : 20 ≤ g) (c : ℚ × ℚ) (k : Corner) (v b d : Bool) : ∀ it ∈ cornerPicture g c k v b d,
    (∀ x ∈ evens it.coords, -(3 / 20 * g + 1) ≤ k.sx * (x - c.1) ∧ k.sx * (x - c.1) ≤ g / 2 + 1 ∧ (b = false → k.sx * (x - c.1) ≤ 3 / 20 * g + 1)) ∧
    (∀ y ∈ odds it.coords, -(3 / 20 * g + 1) ≤ k.sy * (y - c.2) ∧ k.sy * (y - c.2) ≤ g / 2 + 1 ∧ (v = false → k.sy * (y - c.2) ≤ 3 / 20 * g + 1)) ∧
    (d = false → (∀ x ∈ evens it.coords, k.sx * (x - c.1) ≤ 9 / 20 * g) ∨ ∀ y ∈ odds it.coords, k.sy * (y - c.2) ≤ 9 / 20 * g) := by
  intro it hit
  cases k <;> cases v <;> cases b <;> cases d <;> simp only [cornerPicture, List.mem_cons, List.not_mem_nil, or_false, Corner.angle, Corner.opposite] at hit
  all_goals
    first
      | subst hit
      | rcases hit with rfl | rfl | rfl
  all_goals
    refine ⟨?_, ?_, ?_⟩ <;>
      simp only [line_coords, arc_coords, List.mem_cons, List.not_mem_nil, or_false, forall_eq_or_imp, forall_eq, Corner.sx, Corner.sy, Corner.over,
        Int.cast_one, Int.cast_neg, Bool.true_eq_false, Bool.false_eq_true, IsEmpty.forall_iff, forall_const, and_true]
  all_goals
    first
      | (refine ⟨⟨?_, ?_, ?_⟩, ?_, ?_, ?_⟩ <;> linarith)
      | (refine ⟨⟨?_, ?_⟩, ?_, ?_⟩ <;> linarith)
      | (left; refine ⟨?_, ?_⟩ <;> linarith)
      | (right; refine ⟨?_, ?_⟩ <;> linarith)

/-- A rectangle beside a point in the direction `σ`, in which all of the item is nearer. -/
theorem aside_x {δ g : ℚ} {it : Item} {c : ℚ × ℚ} {σ dx : ℤ} (hσ : σ = 1 ∨ σ = -1) (y0 y1 : ℚ)
    (h : (∀ x ∈ evens it.coords, σ * (x - c.1) + δ ≤ (σ * dx : ℤ) * g - g / 2) ∨ ∀ x ∈ evens it.coords, (σ * dx : ℤ) * g + g / 2 + δ ≤ σ * (x - c.1)) :
    Aside δ it (c.1 + dx * g - g / 2) y0 (c.1 + dx * g + g / 2) y1 := by
  rcases hσ with rfl | rfl <;> rcases h with h | h
  · exact Or.inl fun x hx => by have := h x hx; push_cast at this; linarith
  · exact Or.inr (Or.inl fun x hx => by have := h x hx; push_cast at this; linarith)
  · exact Or.inr (Or.inl fun x hx => by have := h x hx; push_cast at this; linarith)
  · exact Or.inl fun x hx => by have := h x hx; push_cast at this; linarith

theorem aside_y {δ g : ℚ} {it : Item} {c : ℚ × ℚ} {σ dy : ℤ} (hσ : σ = 1 ∨ σ = -1) (x0 x1 : ℚ)
    (h : (∀ y ∈ odds it.coords, σ * (y - c.2) + δ ≤ (σ * dy : ℤ) * g - g / 2) ∨ ∀ y ∈ odds it.coords, (σ * dy : ℤ) * g + g / 2 + δ ≤ σ * (y - c.2)) :
    Aside δ it x0 (c.2 + dy * g - g / 2) x1 (c.2 + dy * g + g / 2) := by
  rcases hσ with rfl | rfl <;> rcases h with h | h
  · exact Or.inr (Or.inr (Or.inl fun x hx => by have := h x hx; push_cast at this; linarith))
  · exact Or.inr (Or.inr (Or.inr fun x hx => by have := h x hx; push_cast at this; linarith))
  · exact Or.inr (Or.inr (Or.inr fun x hx => by have := h x hx; push_cast at this; linarith))
  · exact Or.inr (Or.inr (Or.inl fun x hx => by have := h x hx; push_cast at this; linarith))

/-- The items of a corner keep away from the other cells if the flags are right. -/
theorem corner_aside {g : ℚ} (hg : 20 ≤ g) (c : ℚ × ℚ) (k : Corner) (v b d : Bool) {dx dy : ℤ} (hne : (dx, dy) ≠ (0, 0))
    (hv : dx = 0 → dy = k.sy → v = false) (hb : dx = k.sx → dy = 0 → b = false) (hd : dx = k.sx → dy = k.sy → d = false) :
    ∀ it ∈ cornerPicture g c k v b d, Aside (g / 20) it (c.1 + dx * g - g / 2) (c.2 + dy * g - g / 2) (c.1 + dx * g + g / 2) (c.2 + dy * g + g / 2) := by
  intro it hit
  obtain ⟨hx, hy, hdd⟩ := corner_box hg c k v b d it hit
  have hsx := sx_cases k
  have hsy := sy_cases k
  have low : ∀ n : ℤ, n ≤ -1 → (n : ℚ) * g ≤ -1 * g := fun n hn => by
    have : (n : ℚ) ≤ -1 := by exact_mod_cast hn
    exact mul_le_mul_of_nonneg_right this (by linarith)
  have high : ∀ n : ℤ, 2 ≤ n → 2 * g ≤ (n : ℚ) * g := fun n hn => by
    have : (2 : ℚ) ≤ n := by exact_mod_cast hn
    exact mul_le_mul_of_nonneg_right this (by linarith)
  by_cases h1 : k.sx * dx ≤ -1
  · have := low _ h1
    exact aside_x hsx _ _ (Or.inr fun x hxx => by have := (hx x hxx).1; linarith)
  by_cases h2 : k.sy * dy ≤ -1
  · have := low _ h2
    exact aside_y hsy _ _ (Or.inr fun x hxx => by have := (hy x hxx).1; linarith)
  by_cases h3 : 2 ≤ k.sx * dx
  · have := high _ h3
    exact aside_x hsx _ _ (Or.inl fun x hxx => by have := (hx x hxx).2.1; linarith)
  by_cases h4 : 2 ≤ k.sy * dy
  · have := high _ h4
    exact aside_y hsy _ _ (Or.inl fun x hxx => by have := (hy x hxx).2.1; linarith)
  have eqx : k.sx * dx = 0 ∧ dx = 0 ∨ k.sx * dx = 1 ∧ dx = k.sx := by rcases hsx with h | h <;> rw [h] at h1 h3 ⊢ <;> omega
  have eqy : k.sy * dy = 0 ∧ dy = 0 ∨ k.sy * dy = 1 ∧ dy = k.sy := by rcases hsy with h | h <;> rw [h] at h2 h4 ⊢ <;> omega
  rcases eqx with ⟨ex, ex'⟩ | ⟨ex, ex'⟩ <;> rcases eqy with ⟨ey, ey'⟩ | ⟨ey, ey'⟩
  · exact absurd (by rw [ex', ey']) hne
  · exact aside_y hsy _ _ (Or.inl fun x hxx => by
      have := (hy x hxx).2.2 (hv ex' ey')
      rw [ey]; push_cast; linarith)
  · exact aside_x hsx _ _ (Or.inl fun x hxx => by
      have := (hx x hxx).2.2 (hb ex' ey')
      rw [ex]; push_cast; linarith)
  · rcases hdd (hd ex' ey') with hh | hh
    · exact aside_x hsx _ _ (Or.inl fun x hxx => by
        have := hh x hxx
        rw [ex]; push_cast; linarith)
    · exact aside_y hsy _ _ (Or.inl fun x hxx => by
        have := hh x hxx
        rw [ey]; push_cast; linarith)

/-- **C72** The drawing of the walls stays at least 0.05 cells away from every cell that is not a wall (also outside of the maze). -/
theorem C72_clear {m : Grid} (hm : m.Shaped) {g : ℚ} (hg : 20 ≤ g) (h : ℕ) {x y : ℤ} (hf : ¬ m.Wall x y) : ∀ it ∈ mazePicture g h m,
    Aside (g / 20) it ((x + 1) * g - g / 2) ((h - y) * g - g / 2) ((x + 1) * g + g / 2) ((h - y) * g + g / 2) := by
  intro it hit
  obtain ⟨x', y', hw, k, hk⟩ := (mem_maze hm g h it).1 hit
  have hw' : m.Wall x' y' := (wall_nat m x' y').2 hw
  have := corner_aside hg _ _ _ _ _ (dx := x - x') (dy := y' - y) (by
      intro hh
      simp only [Prod.mk.injEq] at hh
      apply hf
      rw [show x = x' by omega, show y = y' by omega]
      exact hw')
    (by
      intro h1 h2
      apply decide_eq_false
      rw [show (x' : ℤ) = x by omega, ← h2, show (y' : ℤ) - (y' - y) = y by omega]
      exact hf)
    (by
      intro h1 h2
      apply decide_eq_false
      rw [← h1, show (y' : ℤ) = y by omega, show (x' : ℤ) + (x - x') = x by omega]
      exact hf)
    (by
      intro h1 h2
      apply decide_eq_false
      rw [← h1, ← h2, show (y' : ℤ) - (y' - y) = y by omega, show (x' : ℤ) + (x - x') = x by omega]
      exact hf) it hk
  simp only [centre, cellAt] at this
  push_cast at this
  rw [show ((x' : ℚ) + 1) * g + ((x : ℚ) - x') * g = (x + 1) * g by ring, show ((h : ℚ) - y') * g + ((y' : ℚ) - y) * g = (h - y) * g by ring] at this
  exact this

/-! ### Agents, food and capsules do not touch the walls -/

theorem apart_near {g : ℚ} (hg : 20 < g) {w it : Item} {X Y : ℚ} (hx : ∀ x ∈ evens it.coords, |x - X| ≤ g / 2 + 1) (hy : ∀ y ∈ odds it.coords, |y - Y| ≤ g / 2 + 1)
    (h : Aside (g / 20) w (X - g / 2) (Y - g / 2) (X + g / 2) (Y + g / 2)) : Apart w it := by
  rcases h with h | h | h | h
  · exact Or.inl fun x h1 x' h2 => by have := h x h1; have := (abs_le.1 (hx x' h2)).1; linarith
  · exact Or.inr (Or.inl fun x h1 x' h2 => by have := h x h1; have := (abs_le.1 (hx x' h2)).2; linarith)
  · exact Or.inr (Or.inr (Or.inl fun y h1 y' h2 => by have := h y h1; have := (abs_le.1 (hy y' h2)).1; linarith))
  · exact Or.inr (Or.inr (Or.inr fun y h1 y' h2 => by have := h y h1; have := (abs_le.1 (hy y' h2)).2; linarith))

/-- An item beside two neighbouring rectangles is beside one between them. -/
theorem aside_between_x {δ : ℚ} (hδ : 0 < δ) {it : Item} {a b c y0 y1 a' c' : ℚ} (h1 : Aside δ it a y0 b y1) (h2 : Aside δ it b y0 c y1) (ha : a ≤ a') (hc : c' ≤ c) :
    Aside δ it a' y0 c' y1 := by
  rcases h1 with h1 | h1 | h1 | h1
  · exact Or.inl fun x hx => by have := h1 x hx; linarith
  · rcases h2 with h2 | h2 | h2 | h2
    · refine Or.inl fun x hx => ?_
      have e1 := h1 x hx
      have e2 := h2 x hx
      linarith
    · exact Or.inr (Or.inl fun x hx => by have := h2 x hx; linarith)
    · exact Or.inr (Or.inr (Or.inl h2))
    · exact Or.inr (Or.inr (Or.inr h2))
  · exact Or.inr (Or.inr (Or.inl h1))
  · exact Or.inr (Or.inr (Or.inr h1))

theorem aside_between_y {δ : ℚ} (hδ : 0 < δ) {it : Item} {x0 x1 a b c a' c' : ℚ} (h1 : Aside δ it x0 a x1 b) (h2 : Aside δ it x0 b x1 c) (ha : a ≤ a') (hc : c' ≤ c) :
    Aside δ it x0 a' x1 c' := by
  rcases h1 with h1 | h1 | h1 | h1
  · exact Or.inl h1
  · exact Or.inr (Or.inl h1)
  · exact Or.inr (Or.inr (Or.inl fun x hx => by have := h1 x hx; linarith))
  · rcases h2 with h2 | h2 | h2 | h2
    · exact Or.inl h2
    · exact Or.inr (Or.inl h2)
    · refine Or.inr (Or.inr (Or.inl fun x hx => ?_))
      have e1 := h1 x hx
      have e2 := h2 x hx
      linarith
    · exact Or.inr (Or.inr (Or.inr fun x hx => by have := h2 x hx; linarith))

theorem Grid.Free.not_wall {m : Grid} {p : ℕ × ℕ} (h : m.Free p) : ¬ m.Wall p.1 p.2 := fun hw => by
  have := ((wall_nat m p.1 p.2).1 hw).unique h
  cases this

/-- The walls are beside every place of the game. -/
theorem aside_place {m : Grid} (hm : m.Shaped) {g : ℚ} (hg : 20 < g) (h : ℕ) {c : Config} (hp : OnFree m c ∨ Between m c) : ∀ w ∈ mazePicture g h m,
    Aside (g / 20) w ((centre g h c.pos).1 - g / 2) ((centre g h c.pos).2 - g / 2) ((centre g h c.pos).1 + g / 2) ((centre g h c.pos).2 + g / 2) := by
  intro w hw
  rcases hp with ⟨p, hf, hp⟩ | ⟨x, y, hf, ⟨hf', hp, _⟩ | ⟨hf', hp, _⟩⟩
  · rw [hp]
    have := C72_clear hm hg.le h hf.not_wall w hw
    simpa [centre, cellAt] using this
  · have e1 := C72_clear hm hg.le h hf.not_wall w hw
    have e2 := C72_clear hm hg.le h hf'.not_wall w hw
    rw [hp]
    simp only [centre]
    push_cast at e1 e2
    rw [show ((x : ℚ) + 1 + 1) * g - g / 2 = (x + 1) * g + g / 2 by ring] at e2
    exact aside_between_x (by linarith) e1 e2 (by linarith) (by linarith)
  · have e1 := C72_clear hm hg.le h hf.not_wall w hw
    have e2 := C72_clear hm hg.le h hf'.not_wall w hw
    rw [hp]
    simp only [centre]
    push_cast at e1 e2
    rw [show ((h : ℚ) - (y + 1)) * g + g / 2 = (h - y) * g - g / 2 by ring] at e2
    exact aside_between_y (by linarith) e2 e1 (by linarith) (by linarith)

theorem disc_near {g : ℚ} (c p : ℚ × ℚ) {rad : ℚ} {color : String} (h1 : |p.1 - c.1| + rad ≤ g / 2) (h2 : |p.2 - c.2| + rad ≤ g / 2) (hr : 0 ≤ rad) :
    (∀ x ∈ evens (disc p rad color).coords, |x - c.1| ≤ g / 2 + 1) ∧ ∀ y ∈ odds (disc p rad color).coords, |y - c.2| ≤ g / 2 + 1 := by
  have a1 := neg_abs_le (p.1 - c.1)
  have a2 := le_abs_self (p.1 - c.1)
  have b1 := neg_abs_le (p.2 - c.2)
  have b2 := le_abs_self (p.2 - c.2)
  simp only [disc, evens, odds, List.mem_cons, List.not_mem_nil, or_false, forall_eq_or_imp, forall_eq, abs_le]
  refine ⟨⟨⟨?_, ?_⟩, ?_, ?_⟩, ⟨?_, ?_⟩, ?_, ?_⟩ <;> linarith

/-- An agent is drawn within its cell (up to a pixel). -/
theorem agent_near {g : ℚ} (hg : 0 < g) (h : ℕ) (a : Agent) (i : ℕ) : ∀ it ∈ agentPicture g h a i,
    (∀ x ∈ evens it.coords, |x - (centre g h a.conf.pos).1| ≤ g / 2 + 1) ∧ ∀ y ∈ odds it.coords, |y - (centre g h a.conf.pos).2| ≤ g / 2 + 1 := by
  intro it hit
  unfold agentPicture at hit
  split at hit
  · rw [List.mem_singleton] at hit
    subst hit
    simp only [pacPicture, evens, odds, List.mem_cons, List.not_mem_nil, or_false, forall_eq_or_imp, forall_eq, abs_le]
    refine ⟨⟨⟨?_, ?_⟩, ?_, ?_⟩, ⟨?_, ?_⟩, ?_, ?_⟩ <;> linarith
  · simp only [ghostPicture, List.mem_cons, List.not_mem_nil, or_false] at hit
    rcases hit with rfl | rfl | rfl | rfl | rfl
    · simp only [bodyShape, List.flatMap_cons, List.flatMap_nil, List.cons_append, List.nil_append, evens, odds, List.mem_cons, List.not_mem_nil, or_false,
        forall_eq_or_imp, forall_eq, abs_le]
      refine ⟨?_, ?_⟩ <;> repeat' apply And.intro
      all_goals linarith
    all_goals
      cases hd : a.conf.dir <;> refine disc_near _ _ ?_ ?_ (by linarith) <;>
        simp only [Dir.vec, add_sub_cancel_left, sub_sub_cancel_left, abs_neg, abs_mul] <;> norm_num <;> (try rw [abs_of_pos hg]) <;> linarith

/-- **C72** In no state of the game the drawing of an agent touches the drawing of the walls. -/
theorem C72_agents {s : GState} (hs : Placed s) {g : ℚ} (hg : 20 < g) (h : ℕ) : ∀ a ∈ s.agents, ∀ i, ∀ it ∈ agentPicture g h a i,
    ∀ w ∈ mazePicture g h s.layout.walls, Apart w it := by
  intro a ha i it hit w hw
  have hp : OnFree s.layout.walls a.conf ∨ Between s.layout.walls a.conf := by
    obtain ⟨pac, rest, e, h1, h2⟩ := hs.agents
    rw [e] at ha
    rcases List.mem_cons.1 ha with rfl | ha
    · exact Or.inl h1
    · exact (h2 a ha).place.imp_right And.right
  obtain ⟨h1, h2⟩ := agent_near (by linarith) h a i it hit
  exact apart_near hg h1 h2 (aside_place hs.walls.shaped hg h hp w hw)

/-- **C72** A disc of at most one cell in a free cell does not touch the drawing of the walls. -/
theorem C72_disc {m : Grid} (hm : m.Shaped) {g : ℚ} (hg : 20 < g) (h : ℕ) {p : ℕ × ℕ} (hp : m.Free p) {rad : ℚ} (hr : 0 ≤ rad) (hr' : rad ≤ g / 2) (color : String) :
    ∀ w ∈ mazePicture g h m, Apart w (disc (centre g h (cellAt p)) rad color) := by
  intro w hw
  obtain ⟨h1, h2⟩ := disc_near (g := g) (color := color) (centre g h (cellAt p)) (centre g h (cellAt p)) (rad := rad) (by simpa using hr') (by simpa using hr') hr
  exact apart_near hg h1 h2 (aside_place hm hg h (c := ⟨cellAt p, .stop⟩) (Or.inl ⟨p, hp, rfl⟩) w hw)

/-- **C72** During the whole game the screen shows, in front of the background and the score, the outline of the walls and things that do not touch it. -/
theorem C72_screen {sn : ℚ → ℚ} (hsn : sn 0 = 0) {g : ℚ} (hg : 20 < g) {s0 : GState} (h0 : Fresh s0)
    (hfood : ∀ x y, s0.food.At x y true → s0.layout.walls.Free (x, y))
    (hcaps : ∀ p ∈ s0.capsules, ∃ q : ℕ × ℕ, s0.layout.walls.Free q ∧ p = ((q.1 : ℤ), (q.2 : ℤ))) (slow : Bool) :
    ∃ d0, Disp.initialize sn g s0 = .ok d0 ∧ ∀ ms s, playMoves s0 ms = .ok s → ∃ d front, playShown sn slow (d0, s0) ms = .ok (d, s) ∧
      d.visible.drop 2 = mazePicture g s0.layout.height s0.layout.walls ++ front ∧
      ∀ it ∈ front, ∀ w ∈ mazePicture g s0.layout.height s0.layout.walls, Apart w it := by
  have hm := h0.placed.walls.shaped
  obtain ⟨walls, d0, hi, hw, _, hrun⟩ := C71_screen hsn g h0 slow
  rw [C72_walls hm] at hw
  cases hw
  refine ⟨d0, hi, fun ms s hs => ?_⟩
  obtain ⟨d, seen, e1, e2, _, e4⟩ := hrun ms s hs
  obtain ⟨hp, hl, hk⟩ : Placed s ∧ s.layout = s0.layout ∧ Kept s0.layout s0.agents.length s := by
    have hsh : s0.layout.food.Shaped := by rw [← h0.food]; exact h0.placed.foodShaped
    obtain ⟨_, _, _, _, hs'⟩ := initialize_shows (sn := sn) (g := g) hm h0.food hsh h0.capsules h0.capsulesNodup h0.few h0.score
    obtain ⟨_, _, _, _, hk, _⟩ := run_shows h0 hs' slow ms s hs
    exact ⟨hk.placed, hk.layout, hk⟩
  refine ⟨d, ((gridCells s.layout.width s.layout.height).filter fun p => decide (s.food.At p.1 p.2 true)).map
      (fun p => disc (centre g s.layout.height (cellAt p)) (g / 10) "#ffffff") ++
    (s.capsules.map (fun p => disc (centre g s.layout.height (toPos p)) (g / 4) "#ffffff") ++
      seen.zipIdx.flatMap fun p => agentPicture g s.layout.height p.1 p.2), e1, ?_, ?_⟩
  · rw [e2]
    unfold picture
    simp only [List.drop_succ_cons, List.drop_zero, List.append_assoc]
    rfl
  · intro it hit w hww
    simp only [List.mem_append] at hit
    rcases hit with hit | hit | hit
    · obtain ⟨p, hp1, rfl⟩ := List.mem_map.1 hit
      have hat := of_decide_eq_true (List.mem_filter.1 hp1).2
      rw [hl]
      refine C72_disc hm hg _ (p := p) (hfood _ _ ?_) (by linarith) (by linarith) _ w hww
      rw [h0.food]
      exact hk.food _ _ hat
    · obtain ⟨p, hp1, rfl⟩ := List.mem_map.1 hit
      rw [hk.capsules] at hp1
      have := (List.mem_filter.1 hp1).1
      rw [← h0.capsules] at this
      obtain ⟨q, hq, rfl⟩ := hcaps p this
      rw [hl]
      exact C72_disc hm hg _ (p := q) hq (by linarith) (by linarith) _ w hww
    · obtain ⟨p, hp1, hp2⟩ := List.mem_flatMap.1 hit
      have hseen : seen[p.2]? = some p.1 := List.mem_zipIdx_iff_getElem?.1 hp1
      obtain ⟨k, _, s1, hs1, ha⟩ := e4 _ _ hseen
      obtain ⟨q1, q2, _⟩ := C52_placed h0.placed _ hs1
      rw [hl] at hp2
      have := C72_agents q1 hg s0.layout.height p.1 (List.mem_of_getElem? ha) p.2 it hp2 w
      rw [q2] at this
      exact this hww

/-- **C72** The demo (with its 30 pixels per cell). -/
theorem C72_demo {sn : ℚ → ℚ} (hsn : sn 0 = 0) (slow : Bool) : ∃ l, Layout.ofText mediumClassic = .ok l ∧ ∃ d0, Disp.initialize sn 30 (GState.init l 2) = .ok d0 ∧
    ∀ ms s, playMoves (GState.init l 2) ms = .ok s → ∃ d front, playShown sn slow (d0, GState.init l 2) ms = .ok (d, s) ∧
      d.visible.drop 2 = mazePicture 30 l.height l.walls ++ front ∧ ∀ it ∈ front, ∀ w ∈ mazePicture 30 l.height l.walls, Apart w it := by
  obtain ⟨l, hl, hf⟩ := C71_text mediumClassic_bordered (n := 2) ⟨9, 1, by decide, by decide +kernel, by decide +kernel, by
    have : ∀ x < 20, ∀ y < mediumClassic.length, charAt mediumClassic (x, y) = some 'P' → (x, y) = (9, 1) := by decide +kernel
    exact fun x' y' hx hy h => this x' hx y' hy h⟩ (by omega)
  obtain ⟨l', hl', hspec⟩ := C58_parse mediumClassic_bordered.rect
  rw [hl] at hl'
  cases hl'
  have free : ∀ x y c, x < 20 → y < mediumClassic.length → charAt mediumClassic (x, y) = some c → c ≠ '%' → l.walls.Free (x, y) := by
    intro x y c hx hy hc hne
    obtain ⟨h1, h2, h3⟩ := hspec.wallsShaped
    obtain ⟨b, hb⟩ := h1.at_of_lt (x := x) (y := y) (by rw [h2]; exact hx) (by rw [h3]; exact hy)
    cases b with
    | false => exact hb
    | true =>
      have := ((hspec.walls x y).1 hb).2.2
      rw [hc] at this
      exact absurd (Option.some.inj this) hne
  refine ⟨l, hl, C72_screen hsn (by norm_num) hf ?_ ?_ slow⟩
  · intro x y hat
    obtain ⟨h1, h2, h3⟩ := (hspec.food x y).1 hat
    exact free x y '.' h1 h2 h3 (by decide)
  · intro p hp
    obtain ⟨x, y, rfl, h1, h2, h3⟩ := (hspec.capsules p).1 hp
    exact ⟨(x, y), free x y 'o' h1 h2 h3 (by decide), rfl⟩

/-! ### Cases -/

/-- A wall with a bend: all kinds of corners occur, and the theorems have something to say about it. -/
def bend : Grid := ⟨3, 3, [[true, true, true], [true, true, true], [true, true, false]]⟩

example : bend.Shaped := ⟨rfl, by decide⟩

/-- The wall in the middle has an open corner in the north east; only this corner is drawn. -/
example : (wallPicture 30 3 bend (1, 1)).length = 3 ∧ (wallPicture 30 3 bend (0, 0)).length = 3 ∧ (mazePicture 30 3 bend).length = 22 := by decide +kernel

/-- The program does draw it. -/
example : (wallsFrom bend 30 3 0 bend.data).toOption.map List.length = some 22 := by decide +kernel

example : (mazePicture 30 3 bend).all (fun it => it.ends.length == 2) = true := by decide +kernel

end Verif.Pac
