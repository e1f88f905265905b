import Verif.Props.PacRegion
import Mathlib.Data.List.Sort
import Mathlib.Tactic.Tauto

set_option linter.unusedSectionVars false

/-!
# C58: layouts (`demo/layout.py`) and initial states (`demo/game.py` 487-507)
-/

namespace Verif.Pac

/-- The character of the text at a cell: rows are counted from below. -/
def charAt (text : List (List Char)) (p : ℕ × ℕ) : Option Char := (text[text.length - 1 - p.2]?).bind fun row => row[p.1]?

/-- The sort key of an agent character. -/
def agentKey (c : Char) : Option ℕ :=
  if c = 'P' then some 0 else if c = 'G' then some 1 else if c = '1' then some 1 else if c = '2' then some 2
  else if c = '3' then some 3 else if c = '4' then some 4 else none

/-- The agent at a cell. -/
def agentAt (text : List (List Char)) (p : ℕ × ℕ) : Option (ℕ × (ℤ × ℤ)) :=
  ((charAt text p).bind agentKey).map fun k => (k, ((p.1 : ℤ), (p.2 : ℤ)))

/-- The agent at a cell, if it is a ghost. -/
def isGhostAt (text : List (List Char)) (p : ℕ × ℕ) : Bool := match agentAt text p with
  | some (k, _) => decide (k ≠ 0)
  | none => false

/-- State of the scan after the cells of a list. -/
structure ScanInv (text : List (List Char)) (w h : ℕ) (done : List (ℕ × ℕ)) (s : Scan) : Prop where
  wallsShaped : s.walls.Shaped ∧ s.walls.width = w ∧ s.walls.height = h
  foodShaped : s.food.Shaped ∧ s.food.width = w ∧ s.food.height = h
  walls : ∀ x y, s.walls.At x y true ↔ (x, y) ∈ done ∧ charAt text (x, y) = some '%'
  food : ∀ x y, s.food.At x y true ↔ (x, y) ∈ done ∧ charAt text (x, y) = some '.'
  capsules : s.capsules = (done.filter fun p => charAt text p = some 'o').map fun p => ((p.1 : ℤ), (p.2 : ℤ))
  agents : s.agents = done.filterMap (agentAt text)
  ghosts : s.numGhosts = done.countP (isGhostAt text)

theorem scan_char_row {text : List (List Char)} {x y : ℕ} (hy : y < text.length) (hx : ∃ c, charAt text (x, y) = some c) :
    ∃ row c, pyGet text ((text.length : ℤ) - 1 - y) = .ok row ∧ pyGet row x = .ok c ∧ charAt text (x, y) = some c := by
  obtain ⟨c, hc⟩ := hx
  obtain ⟨row, hr, hrc⟩ := Option.bind_eq_some_iff.1 hc
  refine ⟨row, c, ?_, (pyGet_nat _ _ _).2 hrc, hc⟩
  have : (text.length : ℤ) - 1 - y = ((text.length - 1 - y : ℕ) : ℤ) := by omega
  rw [this, pyGet_nat]
  exact hr

theorem scan_step {text : List (List Char)} {w : ℕ} {done : List (ℕ × ℕ)} {s : Scan} (h : ScanInv text w text.length done s) {p : ℕ × ℕ}
    (hx : p.1 < w) (hy : p.2 < text.length) (hc : ∃ c, charAt text p = some c) (hnew : p ∉ done) :
    ∃ s', Scan.cell text text.length s p = .ok s' ∧ ScanInv text w text.length (done ++ [p]) s' := by
  obtain ⟨x, y⟩ := p
  obtain ⟨row, c, h1, h2, hc⟩ := scan_char_row hy hc
  unfold Scan.cell
  simp only [h1, h2]
  have hkey : agentAt text (x, y) = (agentKey c).map fun k => (k, ((x : ℤ), (y : ℤ))) := by
    unfold agentAt; rw [hc]; rfl
  have hmemd : ∀ u v : ℕ, (u, v) ∈ done ++ [(x, y)] ↔ (u, v) ∈ done ∨ (u = x ∧ v = y) := by
    intro u v; simp
  -- walls, food, capsules and agents are untouched unless the character says so
  have hwn : c ≠ '%' → ∀ u v, (s.walls.At u v true ↔ (u, v) ∈ done ++ [(x, y)] ∧ charAt text (u, v) = some '%') := by
    intro hne u v
    rw [h.walls, hmemd]
    constructor
    · rintro ⟨a, b⟩; exact ⟨Or.inl a, b⟩
    · rintro ⟨a | a, b⟩
      · exact ⟨a, b⟩
      · obtain ⟨rfl, rfl⟩ := a
        rw [hc] at b; cases b; exact absurd rfl hne
  have hfn : c ≠ '.' → ∀ u v, (s.food.At u v true ↔ (u, v) ∈ done ++ [(x, y)] ∧ charAt text (u, v) = some '.') := by
    intro hne u v
    rw [h.food, hmemd]
    constructor
    · rintro ⟨a, b⟩; exact ⟨Or.inl a, b⟩
    · rintro ⟨a | a, b⟩
      · exact ⟨a, b⟩
      · obtain ⟨rfl, rfl⟩ := a
        rw [hc] at b; cases b; exact absurd rfl hne
  have hcn : c ≠ 'o' → s.capsules = ((done ++ [(x, y)]).filter fun p => charAt text p = some 'o').map fun p => ((p.1 : ℤ), (p.2 : ℤ)) := by
    intro hne
    rw [h.capsules, List.filter_append, List.filter_cons_of_neg (by rw [hc]; simpa using hne)]
    simp
  have han : agentKey c = none → s.agents = (done ++ [(x, y)]).filterMap (agentAt text) ∧
      s.numGhosts = (done ++ [(x, y)]).countP (isGhostAt text) := by
    intro hk
    have hnone : agentAt text (x, y) = none := by rw [hkey, hk]; rfl
    constructor
    · rw [h.agents, List.filterMap_append, List.filterMap_cons_none hnone]; simp
    · rw [h.ghosts, List.countP_append, List.countP_singleton]
      simp [isGhostAt, hnone]
  have has : ∀ k, agentKey c = some k → s.agents ++ [(k, ((x : ℤ), (y : ℤ)))] = (done ++ [(x, y)]).filterMap (agentAt text) ∧
      s.numGhosts + (if k = 0 then 0 else 1) = (done ++ [(x, y)]).countP (isGhostAt text) := by
    intro k hk
    have hsome : agentAt text (x, y) = some (k, ((x : ℤ), (y : ℤ))) := by rw [hkey, hk]; rfl
    constructor
    · rw [h.agents, List.filterMap_append, List.filterMap_cons_some hsome]; simp
    · rw [h.ghosts, List.countP_append, List.countP_singleton]
      by_cases h0 : k = 0 <;> simp [isGhostAt, hsome, h0]
  unfold Scan.char
  by_cases e1 : c = '%'
  · rw [if_pos e1]
    obtain ⟨g', e, hs, hgw, hgh, hat⟩ := C51_put h.wallsShaped.1 (by rw [h.wallsShaped.2.1]; exact hx)
      (by rw [h.wallsShaped.2.2]; exact hy) true
    rw [e]
    have hk : agentKey c = none := by rw [e1]; decide
    refine ⟨_, rfl, ⟨hs, hgw.trans h.wallsShaped.2.1, hgh.trans h.wallsShaped.2.2⟩, h.foodShaped, ?_, hfn (by rw [e1]; decide),
      hcn (by rw [e1]; decide), (han hk).1, (han hk).2⟩
    intro u v
    show g'.At u v true ↔ _
    rw [hat, hmemd, h.walls]
    constructor
    · rintro (⟨rfl, rfl, _⟩ | ⟨_, a, b⟩)
      · exact ⟨Or.inr ⟨rfl, rfl⟩, by rw [hc, e1]⟩
      · exact ⟨Or.inl a, b⟩
    · rintro ⟨a, b⟩
      by_cases huv : u = x ∧ v = y
      · exact Or.inl ⟨huv.1, huv.2, rfl⟩
      · exact Or.inr ⟨huv, a.resolve_right huv, b⟩
  rw [if_neg e1]
  by_cases e2 : c = '.'
  · rw [if_pos e2]
    obtain ⟨g', e, hs, hgw, hgh, hat⟩ := C51_put h.foodShaped.1 (by rw [h.foodShaped.2.1]; exact hx)
      (by rw [h.foodShaped.2.2]; exact hy) true
    rw [e]
    have hk : agentKey c = none := by rw [e2]; decide
    refine ⟨_, rfl, h.wallsShaped, ⟨hs, hgw.trans h.foodShaped.2.1, hgh.trans h.foodShaped.2.2⟩, hwn e1, ?_,
      hcn (by rw [e2]; decide), (han hk).1, (han hk).2⟩
    intro u v
    show g'.At u v true ↔ _
    rw [hat, hmemd, h.food]
    constructor
    · rintro (⟨rfl, rfl, _⟩ | ⟨_, a, b⟩)
      · exact ⟨Or.inr ⟨rfl, rfl⟩, by rw [hc, e2]⟩
      · exact ⟨Or.inl a, b⟩
    · rintro ⟨a, b⟩
      by_cases huv : u = x ∧ v = y
      · exact Or.inl ⟨huv.1, huv.2, rfl⟩
      · exact Or.inr ⟨huv, a.resolve_right huv, b⟩
  rw [if_neg e2]
  by_cases e3 : c = 'o'
  · rw [if_pos e3]
    have hk : agentKey c = none := by rw [e3]; decide
    refine ⟨_, rfl, h.wallsShaped, h.foodShaped, hwn e1, hfn e2, ?_, (han hk).1, (han hk).2⟩
    show s.capsules ++ [((x : ℤ), (y : ℤ))] = _
    rw [h.capsules, List.filter_append, List.filter_cons_of_pos (by rw [hc, e3]; simp)]
    simp
  rw [if_neg e3]
  by_cases e4 : c = 'P'
  · rw [if_pos e4]
    have hk : agentKey c = some 0 := by rw [e4]; decide
    exact ⟨_, rfl, h.wallsShaped, h.foodShaped, hwn e1, hfn e2, hcn e3, (has 0 hk).1, (has 0 hk).2⟩
  rw [if_neg e4]
  by_cases e5 : c = 'G'
  · rw [if_pos e5]
    have hk : agentKey c = some 1 := by rw [e5]; decide
    exact ⟨_, rfl, h.wallsShaped, h.foodShaped, hwn e1, hfn e2, hcn e3, (has 1 hk).1, (has 1 hk).2⟩
  rw [if_neg e5]
  by_cases e6 : c = '1' ∨ c = '2' ∨ c = '3' ∨ c = '4'
  · rw [if_pos e6]
    rcases e6 with e | e | e | e
    · have hk : agentKey c = some 1 := by rw [e]; decide
      have ht : c.toNat - '0'.toNat = 1 := by rw [e]; decide
      exact ⟨_, rfl, h.wallsShaped, h.foodShaped, hwn e1, hfn e2, hcn e3, by rw [ht]; exact (has 1 hk).1, (has 1 hk).2⟩
    · have hk : agentKey c = some 2 := by rw [e]; decide
      have ht : c.toNat - '0'.toNat = 2 := by rw [e]; decide
      exact ⟨_, rfl, h.wallsShaped, h.foodShaped, hwn e1, hfn e2, hcn e3, by rw [ht]; exact (has 2 hk).1, (has 2 hk).2⟩
    · have hk : agentKey c = some 3 := by rw [e]; decide
      have ht : c.toNat - '0'.toNat = 3 := by rw [e]; decide
      exact ⟨_, rfl, h.wallsShaped, h.foodShaped, hwn e1, hfn e2, hcn e3, by rw [ht]; exact (has 3 hk).1, (has 3 hk).2⟩
    · have hk : agentKey c = some 4 := by rw [e]; decide
      have ht : c.toNat - '0'.toNat = 4 := by rw [e]; decide
      exact ⟨_, rfl, h.wallsShaped, h.foodShaped, hwn e1, hfn e2, hcn e3, by rw [ht]; exact (has 4 hk).1, (has 4 hk).2⟩
  · rw [if_neg e6]
    simp only [not_or] at e6
    have hk : agentKey c = none := by
      unfold agentKey
      rw [if_neg e4, if_neg e5, if_neg e6.1, if_neg e6.2.1, if_neg e6.2.2.1, if_neg e6.2.2.2]
    exact ⟨_, rfl, h.wallsShaped, h.foodShaped, hwn e1, hfn e2, hcn e3, (han hk).1, (han hk).2⟩

theorem scan_all {text : List (List Char)} {w : ℕ} (rest : List (ℕ × ℕ)) : ∀ (done : List (ℕ × ℕ)) (s : Scan),
    ScanInv text w text.length done s → (done ++ rest).Nodup →
    (∀ p ∈ rest, p.1 < w ∧ p.2 < text.length ∧ ∃ c, charAt text p = some c) →
    ∃ s', rest.foldlM (Scan.cell text text.length) s = .ok s' ∧ ScanInv text w text.length (done ++ rest) s' := by
  induction rest with
  | nil => intro done s h _ _; exact ⟨s, rfl, by simpa using h⟩
  | cons p t ih =>
    intro done s h hnd hok
    obtain ⟨h1, h2, h3⟩ := hok p List.mem_cons_self
    have hp : p ∉ done := by
      intro hp
      exact (List.disjoint_of_nodup_append hnd) hp List.mem_cons_self
    obtain ⟨s1, e1, hs1⟩ := scan_step h h1 h2 h3 hp
    obtain ⟨s2, e2, hs2⟩ := ih (done ++ [p]) s1 hs1 (by simpa using hnd) fun q hq => hok q (List.mem_cons_of_mem _ hq)
    refine ⟨s2, ?_, by simpa using hs2⟩
    rw [List.foldlM_cons, e1]
    exact e2

theorem mem_scanCells (w h : ℕ) (p : ℕ × ℕ) : p ∈ scanCells w h ↔ p.1 < w ∧ p.2 < h := by
  obtain ⟨x, y⟩ := p
  unfold scanCells
  simp only [List.mem_flatMap, List.mem_range, List.mem_map, Prod.mk.injEq]
  constructor
  · rintro ⟨b, hy, a, hx, rfl, rfl⟩; exact ⟨hx, hy⟩
  · rintro ⟨hx, hy⟩; exact ⟨y, hy, x, hx, rfl, rfl⟩

theorem nodup_scanCells (w h : ℕ) : (scanCells w h).Nodup := by
  unfold scanCells List.Nodup
  rw [List.pairwise_flatMap]
  constructor
  · intro y _
    rw [List.pairwise_map]
    exact List.pairwise_lt_range.imp fun h => by intro e; cases e; exact lt_irrefl _ h
  · refine List.pairwise_lt_range.imp ?_
    intro a b hab p hp q hq
    obtain ⟨_, _, rfl⟩ := List.mem_map.1 hp
    obtain ⟨_, _, rfl⟩ := List.mem_map.1 hq
    intro e; cases e; exact lt_irrefl _ hab

theorem agentLe_trans (a b c : ℕ × (ℤ × ℤ)) (h1 : agentLe a b = true) (h2 : agentLe b c = true) : agentLe a c = true := by
  obtain ⟨a1, a2, a3⟩ := a; obtain ⟨b1, b2, b3⟩ := b; obtain ⟨c1, c2, c3⟩ := c
  simp only [agentLe, Bool.or_eq_true, Bool.and_eq_true, decide_eq_true_eq] at *
  omega

theorem agentLe_total (a b : ℕ × (ℤ × ℤ)) : (agentLe a b || agentLe b a) = true := by
  obtain ⟨a1, a2, a3⟩ := a; obtain ⟨b1, b2, b3⟩ := b
  simp only [agentLe, Bool.or_eq_true, Bool.and_eq_true, decide_eq_true_eq]
  omega

/-- All rows have the length of the first. -/
def Rect (text : List (List Char)) (w : ℕ) : Prop := text ≠ [] ∧ ∀ row ∈ text, row.length = w

theorem rect_char {text : List (List Char)} {w : ℕ} (h : Rect text w) {p : ℕ × ℕ} :
    (∃ c, charAt text p = some c) ↔ p.1 < w ∧ (p.2 < text.length ∨ text.length - 1 - p.2 = 0) := by
  have hpos : 0 < text.length := List.length_pos_iff.2 h.1
  unfold charAt
  constructor
  · rintro ⟨c, hc⟩
    obtain ⟨row, hr, hrc⟩ := Option.bind_eq_some_iff.1 hc
    obtain ⟨hlt, hrow⟩ := List.getElem?_eq_some_iff.1 hr
    have := h.2 row (by rw [← hrow]; exact List.getElem_mem _)
    exact ⟨by rw [← this]; exact (List.getElem?_eq_some_iff.1 hrc).1, by omega⟩
  · rintro ⟨h1, _⟩
    have hlt : text.length - 1 - p.2 < text.length := by omega
    have hrow := h.2 _ (List.getElem_mem hlt)
    refine ⟨(text[text.length - 1 - p.2])[p.1], ?_⟩
    rw [List.getElem?_eq_getElem hlt]
    simp only [Option.bind_some]
    exact List.getElem?_eq_getElem (by rw [hrow]; exact h1)

/-- What a layout says about a text. -/
structure LayoutSpec (text : List (List Char)) (w : ℕ) (l : Layout) : Prop where
  size : l.width = w ∧ l.height = text.length
  source : l.text = text
  wallsShaped : l.walls.Shaped ∧ l.walls.width = w ∧ l.walls.height = text.length
  foodShaped : l.food.Shaped ∧ l.food.width = w ∧ l.food.height = text.length
  walls : ∀ x y, l.walls.At x y true ↔ x < w ∧ y < text.length ∧ charAt text (x, y) = some '%'
  food : ∀ x y, l.food.At x y true ↔ x < w ∧ y < text.length ∧ charAt text (x, y) = some '.'
  capsules : ∀ p, p ∈ l.capsules ↔ ∃ x y : ℕ, p = ((x : ℤ), (y : ℤ)) ∧ x < w ∧ y < text.length ∧ charAt text (x, y) = some 'o'
  capsulesNodup : l.capsules.Nodup
  agents : ∃ ags : List (ℕ × (ℤ × ℤ)), l.agentPositions = ags.map (fun p => (decide (p.1 = 0), p.2)) ∧ ags.Nodup ∧
    ags.Pairwise (fun a b => a.1 < b.1 ∨ (a.1 = b.1 ∧ (a.2.1 < b.2.1 ∨ (a.2.1 = b.2.1 ∧ a.2.2 ≤ b.2.2)))) ∧
    (∀ k p, (k, p) ∈ ags ↔ ∃ x y : ℕ, p = ((x : ℤ), (y : ℤ)) ∧ x < w ∧ y < text.length ∧ ∃ c, charAt text (x, y) = some c ∧ agentKey c = some k) ∧
    l.numGhosts = ags.countP fun p => p.1 ≠ 0
  totalFood : l.totalFood = l.food.count true

theorem agentAt_some {text : List (List Char)} {p : ℕ × ℕ} {k : ℕ} {q : ℤ × ℤ} :
    agentAt text p = some (k, q) ↔ q = ((p.1 : ℤ), (p.2 : ℤ)) ∧ ∃ c, charAt text p = some c ∧ agentKey c = some k := by
  unfold agentAt
  simp only [Option.map_eq_some_iff, Option.bind_eq_some_iff, Prod.mk.injEq]
  constructor
  · rintro ⟨k', ⟨c, hc, hk⟩, rfl, rfl⟩; exact ⟨rfl, c, hc, hk⟩
  · rintro ⟨rfl, c, hc, hk⟩; exact ⟨k, ⟨c, hc, hk⟩, rfl, rfl⟩

/-- **C58** A rectangular text is parsed without failure, and the layout says exactly what the text says: row `0` is the last line; walls,
food, capsules and agents are at their characters; agents are sorted by key, column, row; the number of ghosts and of food is right. -/
theorem C58_parse {text : List (List Char)} {w : ℕ} (h : Rect text w) : ∃ l, Layout.ofText text = .ok l ∧ LayoutSpec text w l := by
  obtain ⟨row, tl, rfl⟩ : ∃ r t, text = r :: t := by
    cases text with
    | nil => exact absurd rfl h.1
    | cons r t => exact ⟨r, t, rfl⟩
  have hw : row.length = w := h.2 row List.mem_cons_self
  have hinv0 : ScanInv (row :: tl) w (row :: tl).length [] ⟨Grid.new w (row :: tl).length false, Grid.new w (row :: tl).length false, [], [], 0⟩ := by
    refine ⟨⟨Grid.new_shaped _ _ _, rfl, rfl⟩, ⟨Grid.new_shaped _ _ _, rfl, rfl⟩, ?_, ?_, rfl, rfl, rfl⟩
    · intro x y; rw [Grid.new_at]; simp
    · intro x y; rw [Grid.new_at]; simp
  obtain ⟨s, hs, hi⟩ := scan_all (text := row :: tl) (w := w) (scanCells w (row :: tl).length) [] _ hinv0
    (by simpa using nodup_scanCells _ _)
    (by
      intro p hp
      obtain ⟨h1, h2⟩ := (mem_scanCells _ _ _).1 hp
      exact ⟨h1, h2, (rect_char h).2 ⟨h1, Or.inl h2⟩⟩)
  rw [List.nil_append] at hi
  obtain ⟨fl, hfl, _, _, _, hlen⟩ := C51_asList hi.foodShaped.1 true
  refine ⟨{ width := w, height := (row :: tl).length, walls := s.walls, food := s.food, capsules := s.capsules,
            agentPositions := (s.agents.mergeSort agentLe).map fun p => (decide (p.1 = 0), p.2),
            numGhosts := s.numGhosts, text := row :: tl, totalFood := fl.length }, ?_, ?_⟩
  rotate_left 1
  · have hcd : s.capsules.Nodup := by
      rw [hi.capsules]
      refine List.Nodup.map ?_ ((nodup_scanCells _ _).filter _)
      intro p q e
      simp only [Prod.mk.injEq, Nat.cast_inj] at e
      exact Prod.ext e.1 e.2
    refine ⟨⟨rfl, rfl⟩, rfl, hi.wallsShaped, hi.foodShaped, ?_, ?_, ?_, hcd, ?_, hlen⟩
    · intro x y; rw [hi.walls, mem_scanCells, and_assoc]
    · intro x y; rw [hi.food, mem_scanCells, and_assoc]
    · intro p
      rw [hi.capsules]
      simp only [List.mem_map, List.mem_filter, mem_scanCells, decide_eq_true_eq]
      constructor
      · rintro ⟨⟨x, y⟩, ⟨⟨h1, h2⟩, h3⟩, rfl⟩; exact ⟨x, y, rfl, h1, h2, h3⟩
      · rintro ⟨x, y, rfl, h1, h2, h3⟩; exact ⟨(x, y), ⟨⟨h1, h2⟩, h3⟩, rfl⟩
    · refine ⟨s.agents.mergeSort agentLe, rfl, ?_, ?_, ?_, ?_⟩
      · rw [(List.mergeSort_perm _ _).nodup_iff, hi.agents]
        refine List.Nodup.filterMap ?_ (nodup_scanCells _ _)
        rintro p q ⟨k, r⟩ hp hq
        have e1 := (agentAt_some.1 hp).1
        have e2 := (agentAt_some.1 hq).1
        rw [e1] at e2
        simp only [Prod.mk.injEq, Nat.cast_inj] at e2
        exact Prod.ext e2.1 e2.2
      · refine (List.pairwise_mergeSort agentLe_trans agentLe_total s.agents).imp ?_
        intro a b hab
        simpa [agentLe] using hab
      · intro k p
        rw [List.mem_mergeSort, hi.agents, List.mem_filterMap]
        constructor
        · rintro ⟨⟨x, y⟩, hm, ha⟩
          obtain ⟨h1, h2⟩ := (mem_scanCells _ _ _).1 hm
          obtain ⟨e, hc⟩ := agentAt_some.1 ha
          exact ⟨x, y, e, h1, h2, hc⟩
        · rintro ⟨x, y, e, h1, h2, hc⟩
          exact ⟨(x, y), (mem_scanCells _ _ _).2 ⟨h1, h2⟩, agentAt_some.2 ⟨e, hc⟩⟩
      · show s.numGhosts = _
        rw [(List.mergeSort_perm _ _).countP_eq, hi.ghosts, hi.agents, List.countP_filterMap]
        apply List.countP_congr
        intro p _
        unfold isGhostAt
        cases agentAt (row :: tl) p with
        | none => simp
        | some kp => obtain ⟨k, q⟩ := kp; simp
  · unfold Layout.ofText
    simp only [hw]
    rw [hs]
    simp only [hfl]

/-- **C58** `deepCopy` of a parsed layout is an equal layout. -/
theorem C58_deepCopy {text : List (List Char)} {l : Layout} (h : Layout.ofText text = .ok l) : l.deepCopy = .ok l := by
  have ht : l.text = text := by
    unfold Layout.ofText at h
    split at h
    · cases h
    · simp only at h
      split at h
      · cases h
      · split at h
        · cases h
        · cases h; rfl
  unfold Layout.deepCopy
  rw [ht, h]

theorem spec_agents_perm {text : List (List Char)} {w : ℕ} {l : Layout} (h : LayoutSpec text w l) :
    (l.agentPositions.countP fun p => p.1) = ((scanCells w text.length).filterMap (agentAt text)).countP (fun p => p.1 = 0) ∧
      l.numGhosts = ((scanCells w text.length).filterMap (agentAt text)).countP fun p => p.1 ≠ 0 := by
  obtain ⟨ags, hap, hnd, _, hmem, hng⟩ := h.agents
  have hnd' : ((scanCells w text.length).filterMap (agentAt text)).Nodup := by
    refine List.Nodup.filterMap ?_ (nodup_scanCells _ _)
    rintro p q ⟨k, r⟩ hp hq
    have e1 := (agentAt_some.1 hp).1
    have e2 := (agentAt_some.1 hq).1
    rw [e1] at e2
    simp only [Prod.mk.injEq, Nat.cast_inj] at e2
    exact Prod.ext e2.1 e2.2
  have hperm : ags.Perm ((scanCells w text.length).filterMap (agentAt text)) := by
    rw [List.perm_ext_iff_of_nodup hnd hnd']
    rintro ⟨k, p⟩
    rw [hmem, List.mem_filterMap]
    constructor
    · rintro ⟨x, y, e, h1, h2, hc⟩
      exact ⟨(x, y), (mem_scanCells _ _ _).2 ⟨h1, h2⟩, agentAt_some.2 ⟨e, hc⟩⟩
    · rintro ⟨⟨x, y⟩, hm, ha⟩
      obtain ⟨h1, h2⟩ := (mem_scanCells _ _ _).1 hm
      obtain ⟨e, hc⟩ := agentAt_some.1 ha
      exact ⟨x, y, e, h1, h2, hc⟩
  constructor
  · rw [hap, List.countP_map, ← hperm.countP_eq]
    rfl
  · rw [hng, hperm.countP_eq]

/-! ### Initial states -/

/-- The text is rectangular with walls all around. -/
structure TextBordered (text : List (List Char)) (w : ℕ) : Prop where
  rect : Rect text w
  border : ∀ x y, x < w → y < text.length → (x = 0 ∨ x + 1 = w ∨ y = 0 ∨ y + 1 = text.length) → charAt text (x, y) = some '%'

theorem spec_bordered {text : List (List Char)} {w : ℕ} {l : Layout} (hb : TextBordered text w) (h : LayoutSpec text w l) : l.walls.Bordered := by
  refine ⟨h.wallsShaped.1, ?_⟩
  intro x y hxy
  obtain ⟨h1, h2⟩ := h.wallsShaped.1.lt_of_at hxy
  rw [h.wallsShaped.2.1] at h1
  rw [h.wallsShaped.2.2] at h2
  rw [h.wallsShaped.2.1, h.wallsShaped.2.2]
  by_contra hc
  have hwall := (h.walls x y).2 ⟨h1, h2, hb.border x y h1 h2 (by omega)⟩
  cases hwall.unique hxy

theorem spec_free {text : List (List Char)} {w : ℕ} {l : Layout} (h : LayoutSpec text w l) {x y : ℕ} (hx : x < w) (hy : y < text.length) {c : Char}
    (hc : charAt text (x, y) = some c) (hne : c ≠ '%') : l.walls.Free (x, y) := by
  obtain ⟨b, hb⟩ := h.wallsShaped.1.at_of_lt (x := x) (y := y) (by rw [h.wallsShaped.2.1]; exact hx) (by rw [h.wallsShaped.2.2]; exact hy)
  cases b
  · exact hb
  · have := ((h.walls x y).1 hb).2.2
    rw [hc] at this
    cases this
    exact absurd rfl hne

theorem placeAgents_mem (max k : ℕ) (l : List (Bool × (ℤ × ℤ))) (g : Agent) (hg : g ∈ placeAgents max k l) :
    ∃ b p, (b, p) ∈ l ∧ g = ⟨⟨toPos p, .stop⟩, ⟨toPos p, .stop⟩, b, 0⟩ := by
  induction l generalizing k with
  | nil => simp [placeAgents] at hg
  | cons a t ih =>
    obtain ⟨pac, pos⟩ := a
    unfold placeAgents at hg
    cases pac with
    | true =>
      simp only [if_true] at hg
      rcases List.mem_cons.1 hg with h | h
      · exact ⟨true, pos, List.mem_cons_self, h⟩
      · obtain ⟨b, p, h1, h2⟩ := ih k h
        exact ⟨b, p, List.mem_cons_of_mem _ h1, h2⟩
    | false =>
      simp only [Bool.false_eq_true, if_false] at hg
      split at hg
      · obtain ⟨b, p, h1, h2⟩ := ih k hg
        exact ⟨b, p, List.mem_cons_of_mem _ h1, h2⟩
      · rcases List.mem_cons.1 hg with h | h
        · exact ⟨false, pos, List.mem_cons_self, h⟩
        · obtain ⟨b, p, h1, h2⟩ := ih (k + 1) h
          exact ⟨b, p, List.mem_cons_of_mem _ h1, h2⟩

theorem placeAgents_length (max k : ℕ) (l : List (Bool × (ℤ × ℤ))) (hk : k ≤ max) :
    (placeAgents max k l).length = (l.countP fun p => p.1) + min (max - k) (l.countP fun p => !p.1) := by
  induction l generalizing k with
  | nil => simp [placeAgents]
  | cons a t ih =>
    obtain ⟨pac, pos⟩ := a
    unfold placeAgents
    cases pac with
    | true =>
      simp only [if_true, List.length_cons, List.countP_cons, ih k hk]
      simp; omega
    | false =>
      simp only [Bool.false_eq_true, if_false, List.countP_cons, Bool.not_false, if_true]
      split
      · rename_i hkm
        rw [ih k hk]; omega
      · rw [List.length_cons, ih (k + 1) (by omega)]; omega

/-- **C58** The initial state of a bordered text with a Pacman: the first agent is Pacman; all agents stand still on their free start cells
with timer zero; there are all Pacmen and the first ghosts up to the given number. -/
theorem C58_initial {text : List (List Char)} {w : ℕ} (hb : TextBordered text w) (hP : ∃ x y, x < w ∧ y < text.length ∧ charAt text (x, y) = some 'P')
    (n : ℕ) : ∃ l, Layout.ofText text = .ok l ∧ Placed (GState.init l n) ∧
      (∃ pac rest, (GState.init l n).agents = pac :: rest ∧ pac.isPacman = true) ∧
      (∀ g ∈ (GState.init l n).agents, g.conf = g.start ∧ g.scared = 0) ∧
      (GState.init l n).agents.length = (l.agentPositions.countP fun p => p.1) + min n l.numGhosts := by
  obtain ⟨l, hl, hs⟩ := C58_parse hb.rect
  refine ⟨l, hl, ?_⟩
  obtain ⟨ags, hap, hnd, hsort, hmem, hng⟩ := hs.agents
  have hwb := spec_bordered hb hs
  have hon : ∀ g ∈ (GState.init l n).agents, OnFree l.walls g.start ∧ g.conf = g.start ∧ g.scared = 0 := by
    intro g hg
    obtain ⟨b, p, hp, rfl⟩ := placeAgents_mem _ _ _ _ hg
    rw [hap] at hp
    obtain ⟨⟨k, q⟩, hkq, he⟩ := List.mem_map.1 hp
    obtain ⟨rfl, rfl⟩ := Prod.mk.inj he
    obtain ⟨x, y, hxy, hx, hy, c, hc, hk⟩ := (hmem k q).1 hkq
    refine ⟨⟨(x, y), spec_free hs hx hy hc ?_, ?_⟩, rfl, rfl⟩
    · rintro rfl; rw [show agentKey '%' = none by decide] at hk; cases hk
    · show toPos q = _
      rw [hxy]; exact toPos_cell (x, y)
  -- the first agent
  obtain ⟨x, y, hx, hy, hc⟩ := hP
  have h0 : (0, ((x : ℤ), (y : ℤ))) ∈ ags := (hmem 0 _).2 ⟨x, y, rfl, hx, hy, 'P', hc, by decide⟩
  obtain ⟨a, t, hat⟩ : ∃ a t, ags = a :: t := by
    cases ags with
    | nil => simp at h0
    | cons a t => exact ⟨a, t, rfl⟩
  have ha0 : a.1 = 0 := by
    rw [hat] at h0 hsort
    rcases List.mem_cons.1 h0 with h | h
    · rw [← h]
    · have := (List.pairwise_cons.1 hsort).1 _ h
      simp only at this
      omega
  have hinit : (GState.init l n).agents = placeAgents n 0 (ags.map fun p => (decide (p.1 = 0), p.2)) := by
    show placeAgents n 0 l.agentPositions = _
    rw [hap]
  have hfirst : ∃ pac rest, (GState.init l n).agents = pac :: rest ∧ pac.isPacman = true := by
    rw [hinit, hat, List.map_cons]
    unfold placeAgents
    rw [ha0]
    simp only [decide_true, if_true]
    exact ⟨_, _, rfl, rfl⟩
  refine ⟨⟨hwb, hs.foodShaped.1, ?_, ?_, ?_, ?_⟩, hfirst, fun g hg => (hon g hg).2, ?_⟩
  · show l.food.width = l.walls.width
    rw [hs.foodShaped.2.1, hs.wallsShaped.2.1]
  · show l.food.height = l.walls.height
    rw [hs.foodShaped.2.2, hs.wallsShaped.2.2]
  · obtain ⟨pac, rest, hpr, _⟩ := hfirst
    refine ⟨pac, rest, hpr, ?_, ?_⟩
    · obtain ⟨h1, h2, _⟩ := hon pac (by rw [hpr]; exact List.mem_cons_self)
      show OnFree l.walls pac.conf
      rw [h2]; exact h1
    · intro g hg
      obtain ⟨h1, h2, h3⟩ := hon g (by rw [hpr]; exact List.mem_cons_of_mem _ hg)
      exact ⟨h1, Or.inl (by show OnFree l.walls g.conf; rw [h2]; exact h1), by rw [h3]; simp⟩
  · show ((placeAgents n 0 l.agentPositions).map fun _ => false).length = (placeAgents n 0 l.agentPositions).length
    simp
  · show (placeAgents n 0 l.agentPositions).length = _
    rw [placeAgents_length n 0 _ (Nat.zero_le _), Nat.sub_zero]
    congr 2
    rw [hng, hap, List.countP_map]
    apply List.countP_congr
    intro p _
    simp

/-! ### The layout of the demo -/

/-- `layouts/mediumClassic.lay`, the layout used by demo.py 34. -/
def mediumClassic : List (List Char) :=
  ["%%%%%%%%%%%%%%%%%%%%",
   "%o...%........%....%",
   "%.%%.%.%%%%%%.%.%%.%",
   "%.%..............%.%",
   "%.%.%%.%%  %%.%%.%.%",
   "%......%G  G%......%",
   "%.%.%%.%%%%%%.%%.%.%",
   "%.%..............%.%",
   "%.%%.%.%%%%%%.%.%%.%",
   "%....%...P....%...o%",
   "%%%%%%%%%%%%%%%%%%%%"].map String.toList

theorem mediumClassic_bordered : TextBordered mediumClassic 20 := by
  refine ⟨⟨by decide +kernel, by decide +kernel⟩, ?_⟩
  have : ∀ x < 20, ∀ y < mediumClassic.length, (x = 0 ∨ x + 1 = 20 ∨ y = 0 ∨ y + 1 = mediumClassic.length) →
      charAt mediumClassic (x, y) = some '%' := by decide +kernel
  exact fun x y hx hy h => this x hx y hy h

/-- **C58** The demo: its layout is bordered and has one Pacman and two ghosts, so that in every execution all agents stay at allowed places. -/
theorem C58_demo : ∃ l, Layout.ofText mediumClassic = .ok l ∧ Placed (GState.init l 2) ∧ (GState.init l 2).agents.length = 3 ∧
    ∀ ms s, playMoves (GState.init l 2) ms = .ok s → Placed s := by
  obtain ⟨l, h1, h2, _, _, hlen⟩ := C58_initial mediumClassic_bordered ⟨9, 1, by decide, by decide +kernel, by decide +kernel⟩ 2
  refine ⟨l, h1, h2, ?_, fun ms s hs => (C52_placed h2 ms hs).1⟩
  obtain ⟨l', h1', hs⟩ := C58_parse mediumClassic_bordered.rect
  rw [h1] at h1'
  cases h1'
  rw [hlen, (spec_agents_perm hs).1, (spec_agents_perm hs).2]
  decide +kernel

end Verif.Pac
