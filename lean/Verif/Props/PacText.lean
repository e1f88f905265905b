import Verif.Model.PacText
import Verif.Spec.PacText
import Verif.Props.PacLayout
import Verif.Props.PacDisplay
import Verif.Props.Text

/-!
# C73: the text of a state of the game
-/

namespace Verif.Pac

/-! ### Tables -/

/-- The columns of a function. -/
def table {A : Type} (w h : ℕ) (f : ℕ × ℕ → A) : List (List A) := (List.range w).map fun x => (List.range h).map fun y => f (x, y)

theorem table_get {A : Type} {w h : ℕ} (f : ℕ × ℕ → A) {x y : ℕ} (hx : x < w) (hy : y < h) : colGet (table w h f) x y = .ok (f (x, y)) := by
  unfold colGet
  have h1 : pyGet (table w h f) (x : ℤ) = .ok ((List.range h).map fun y => f (x, y)) := by
    rw [pyGet_nat]; simp [table, hx]
  rw [h1]
  simp only
  rw [pyGet_nat]
  simp [hy]

theorem table_put {A : Type} {w h : ℕ} (f : ℕ × ℕ → A) {x y : ℕ} (hx : x < w) (hy : y < h) (c : A) :
    colPut (table w h f) x y c = .ok (table w h (Function.update f (x, y) c)) := by
  unfold colPut
  have hl : (table w h f).length = w := by simp [table]
  rw [hl, pyIdx_nat, if_pos hx]
  have h1 : (table w h f)[x]? = some ((List.range h).map fun y => f (x, y)) := by simp [table, hx]
  simp only [h1, List.length_map, List.length_range]
  rw [pyIdx_nat, if_pos hy]
  simp only
  congr 1
  apply List.ext_getElem?
  intro i
  by_cases hi : i < w
  · rw [List.getElem?_set, hl]
    by_cases hxi : x = i
    · subst hxi
      simp only [if_true, hi]
      have : (table w h (Function.update f (x, y) c))[x]? = some ((List.range h).map fun y' => Function.update f (x, y) c (x, y')) := by
        simp [table, hi]
      rw [this]
      congr 1
      apply List.ext_getElem?
      intro j
      rw [List.getElem?_set]
      simp only [List.length_map, List.length_range, List.getElem?_map, List.getElem?_range']
      by_cases hj : j < h
      · by_cases hyj : y = j
        · subst hyj; simp [hy]
        · rw [if_neg hyj]
          have : ((x, j) : ℕ × ℕ) ≠ (x, y) := by intro e; exact hyj (Prod.ext_iff.1 e).2.symm
          simp [hj, Function.update_of_ne this]
      · have hyj : y ≠ j := by omega
        rw [if_neg hyj]
        simp [hj]
    · rw [if_neg hxi]
      have : ∀ j, ((i, j) : ℕ × ℕ) ≠ (x, y) := by intro j e; exact hxi (Prod.ext_iff.1 e).1.symm
      simp [table, hi, Function.update_of_ne (this _)]
  · rw [List.getElem?_eq_none (by simp [hl]; omega), List.getElem?_eq_none (by simp [table]; omega)]

theorem table_congr {A : Type} {w h : ℕ} {f g : ℕ × ℕ → A} (hfg : ∀ x y, x < w → y < h → f (x, y) = g (x, y)) : table w h f = table w h g := by
  unfold table
  apply List.map_congr_left
  intro x hx
  apply List.map_congr_left
  intro y hy
  exact hfg x y (List.mem_range.1 hx) (List.mem_range.1 hy)

theorem mapM_ok {A B : Type} (f : A → Except PErr B) (g : A → B) (l : List A) (h : ∀ a ∈ l, f a = .ok (g a)) : l.mapM f = .ok (l.map g) := by
  induction l with
  | nil => rfl
  | cons a t ih =>
    rw [List.mapM_cons, h a List.mem_cons_self, ih fun b hb => h b (List.mem_cons_of_mem _ hb)]
    rfl

theorem range_reverse_map {A : Type} (h : ℕ) (f : ℕ → A) : ((List.range h).map f).reverse = (List.range h).map fun y => f (h - 1 - y) := by
  apply List.ext_getElem
  · simp
  · intro i h1 h2
    simp at h1 h2 ⊢

theorem table_rows {A : Type} (first : A → Char) (w h : ℕ) (f : ℕ × ℕ → A) :
    gridRows first w h (table w h f) = .ok (pictureRows w h fun p => first (f p)) := by
  unfold gridRows
  rw [mapM_ok _ (fun y => (List.range w).map fun x => first (f (x, y)))]
  · simp only [Except.map, range_reverse_map]
    rfl
  · intro y hy
    apply mapM_ok
    intro x hx
    rw [table_get f (List.mem_range.1 hx) (List.mem_range.1 hy)]
    rfl

theorem joinLines_eq (rows : List Str) (hr : rows ≠ []) : joinLines rows ++ ['\n'] = (rows.map fun r => r ++ ['\n']).flatten := by
  induction rows with
  | nil => exact absurd rfl hr
  | cons a t ih =>
    cases t with
    | nil => simp [joinLines]
    | cons b u =>
      have := ih (by simp)
      simp only [joinLines, List.map_cons, List.flatten_cons, List.append_assoc, List.cons_append] at this ⊢
      rw [this]
      simp

theorem joinLines_asLines (rows : List Str) : joinLines rows = asLines rows := by
  unfold asLines
  by_cases h : rows = []
  · subst h; rfl
  · rw [← joinLines_eq rows h, List.dropLast_concat]

/-! ### Loops -/

theorem fill_foldl {food walls : Grid} {w h : ℕ} (hf : food.Shaped) (hw : walls.Shaped) (hfw : food.width = w) (hfh : food.height = h) (hww : walls.width = w)
    (hwh : walls.height = h) (l : List (ℕ × ℕ)) (hl : ∀ p ∈ l, p.1 < w ∧ p.2 < h) (f : ℕ × ℕ → Char) :
    ∃ f', l.foldlM (fillCell food walls) (table w h f) = .ok (table w h f') ∧
      ∀ p, f' p = if p ∈ l then (if food.At p.1 p.2 true then '.' else if walls.At p.1 p.2 true then '%' else ' ') else f p := by
  induction l generalizing f with
  | nil => exact ⟨f, rfl, fun p => by simp⟩
  | cons q t ih =>
    obtain ⟨hx, hy⟩ := hl q List.mem_cons_self
    obtain ⟨b1, hb1⟩ := hf.at_of_lt (x := q.1) (y := q.2) (by omega) (by omega)
    obtain ⟨b2, hb2⟩ := hw.at_of_lt (x := q.1) (y := q.2) (by omega) (by omega)
    have hstep : fillCell food walls (table w h f) q = .ok (table w h (Function.update f q (foodWallStr b1 b2))) := by
      unfold fillCell
      rw [(Grid.get_nat _ _ _ _).2 hb1]
      simp only
      rw [(Grid.get_nat _ _ _ _).2 hb2]
      exact table_put f hx hy _
    obtain ⟨f', h1, h2⟩ := ih (fun p hp => hl p (List.mem_cons_of_mem _ hp)) (Function.update f q (foodWallStr b1 b2))
    refine ⟨f', ?_, ?_⟩
    · rw [List.foldlM_cons, hstep]; exact h1
    · intro p
      rw [h2]
      by_cases hpt : p ∈ t
      · simp [hpt]
      · by_cases hpq : p = q
        · subst hpq
          have e1 : food.At p.1 p.2 true ↔ b1 = true := ⟨fun h => hb1.unique h, fun h => h ▸ hb1⟩
          have e2 : walls.At p.1 p.2 true ↔ b2 = true := ⟨fun h => hb2.unique h, fun h => h ▸ hb2⟩
          simp only [hpt, if_false, Function.update_self, List.mem_cons, true_or, if_true, e1, e2, foodWallStr]
        · simp [hpt, hpq, Function.update_of_ne hpq]

/-- The agent belongs to exactly one cell, which the program finds. -/
def StandsAt (a : Agent) (p : ℕ × ℕ) : Prop := nearestPoint a.conf.pos = ((p.1 : ℤ), (p.2 : ℤ)) ∧ ∀ q, Stands q a ↔ q = p

theorem glyph_eq (a : Agent) : glyph a = if a.isPacman then pacStr a.conf.dir else ghostStr a.conf.dir := by
  unfold glyph
  obtain ⟨_, ⟨_, d⟩, b, _⟩ := a
  cases b <;> cases d <;> rfl

theorem agents_foldl {w h : ℕ} (l : List Agent) (hl : ∀ a ∈ l, ∃ p, StandsAt a p ∧ p.1 < w ∧ p.2 < h) (f : ℕ × ℕ → Char) :
    ∃ f', l.foldlM putAgent (table w h f) = .ok (table w h f') ∧
      ∀ p, f' p = match l.reverse.find? fun a => decide (Stands p a) with
        | some a => glyph a
        | none => f p := by
  induction l generalizing f with
  | nil => exact ⟨f, rfl, fun p => rfl⟩
  | cons a t ih =>
    obtain ⟨q, ⟨hn, hu⟩, hx, hy⟩ := hl a List.mem_cons_self
    have hstep : putAgent (table w h f) a = .ok (table w h (Function.update f q (glyph a))) := by
      unfold putAgent
      rw [hn, ← glyph_eq]
      exact table_put f hx hy _
    obtain ⟨f', h1, h2⟩ := ih (fun p hp => hl p (List.mem_cons_of_mem _ hp)) (Function.update f q (glyph a))
    refine ⟨f', ?_, ?_⟩
    · rw [List.foldlM_cons, hstep]; exact h1
    · intro p
      rw [h2, List.reverse_cons, List.find?_append]
      cases hfd : t.reverse.find? fun a => decide (Stands p a) with
      | some b => rfl
      | none =>
        by_cases hpq : p = q
        · have : Stands p a := (hu p).2 hpq
          subst hpq
          simp [this]
        · have : ¬ Stands p a := fun hc => hpq ((hu p).1 hc)
          simp [this, Function.update_of_ne hpq]

theorem capsules_foldl {w h : ℕ} (l : List (ℤ × ℤ)) (hl : ∀ c ∈ l, ∃ x y : ℕ, c = ((x : ℤ), (y : ℤ)) ∧ x < w ∧ y < h) (f : ℕ × ℕ → Char) :
    ∃ f', l.foldlM putCapsule (table w h f) = .ok (table w h f') ∧ ∀ p, f' p = if ((p.1 : ℤ), (p.2 : ℤ)) ∈ l then 'o' else f p := by
  induction l generalizing f with
  | nil => exact ⟨f, rfl, fun p => by simp⟩
  | cons c t ih =>
    obtain ⟨x, y, rfl, hx, hy⟩ := hl c List.mem_cons_self
    have hstep : putCapsule (table w h f) ((x : ℤ), (y : ℤ)) = .ok (table w h (Function.update f (x, y) 'o')) := table_put f hx hy _
    obtain ⟨f', h1, h2⟩ := ih (fun p hp => hl p (List.mem_cons_of_mem _ hp)) (Function.update f (x, y) 'o')
    refine ⟨f', ?_, ?_⟩
    · rw [List.foldlM_cons, hstep]; exact h1
    · rintro ⟨u, v⟩
      rw [h2]
      by_cases hm : ((u : ℤ), (v : ℤ)) ∈ t
      · simp [hm]
      · by_cases he : u = x ∧ v = y
        · obtain ⟨rfl, rfl⟩ := he; simp [hm]
        · have hne : ((u, v) : ℕ × ℕ) ≠ (x, y) := by intro e; exact he (Prod.ext_iff.1 e)
          simp [hm, Function.update_of_ne hne, he]

/-! ### Places -/

theorem standsAt_of {a : Agent} {x y : ℕ} (h1 : (x : ℚ) - 1 / 2 ≤ a.conf.pos.1) (h2 : a.conf.pos.1 < x + 1 / 2) (h3 : (y : ℚ) - 1 / 2 ≤ a.conf.pos.2)
    (h4 : a.conf.pos.2 < y + 1 / 2) : StandsAt a (x, y) := by
  have key : ∀ (n : ℕ) (q : ℚ), (n : ℚ) - 1 / 2 ≤ q → q < n + 1 / 2 → pyInt (q + 1 / 2) = n ∧ ∀ m : ℕ, (m : ℚ) - 1 / 2 ≤ q → q < m + 1 / 2 → m = n := by
    intro n q ha hb
    have hn : (0 : ℚ) ≤ n := Nat.cast_nonneg n
    constructor
    · unfold pyInt
      rw [if_pos (by linarith), Int.floor_eq_iff]
      constructor
      · push_cast; linarith
      · push_cast; linarith
    · intro m hc hd
      have e1 : (m : ℚ) < n + 1 := by linarith
      have e2 : (n : ℚ) < m + 1 := by linarith
      have e1' : m < n + 1 := by exact_mod_cast e1
      have e2' : n < m + 1 := by exact_mod_cast e2
      omega
  obtain ⟨k1, k2⟩ := key x _ h1 h2
  obtain ⟨k3, k4⟩ := key y _ h3 h4
  refine ⟨?_, ?_⟩
  · unfold nearestPoint; rw [k1, k3]
  · rintro ⟨u, v⟩
    constructor
    · rintro ⟨a1, a2, a3, a4⟩; rw [k2 u a1 a2, k4 v a3 a4]
    · intro e; cases e; exact ⟨h1, h2, h3, h4⟩

theorem standsAt_cell {a : Agent} {p : ℕ × ℕ} (h : a.conf.pos = cellAt p) : StandsAt a p := by
  apply standsAt_of <;> rw [h] <;> simp only [cellAt] <;> linarith

theorem standsAt_ghost {walls : Grid} {a : Agent} (h : OnFree walls a.conf ∨ Between walls a.conf) : ∃ p, StandsAt a p ∧ walls.Free p := by
  rcases h with ⟨p, hp, e⟩ | ⟨x, y, hf, ⟨hf2, e, _⟩ | ⟨hf2, e, _⟩⟩
  · exact ⟨p, standsAt_cell e, hp⟩
  · refine ⟨(x + 1, y), ?_, hf2⟩
    apply standsAt_of <;> rw [e] <;> push_cast <;> linarith
  · refine ⟨(x, y + 1), ?_, hf2⟩
    apply standsAt_of <;> rw [e] <;> push_cast <;> linarith

theorem Placed.stands {s : GState} (h : Placed s) : ∀ a ∈ s.agents, ∃ p, StandsAt a p ∧ s.layout.walls.Free p := by
  obtain ⟨pac, rest, he, hp, hg⟩ := h.agents
  intro a ha
  rw [he, List.mem_cons] at ha
  rcases ha with rfl | ha
  · exact standsAt_ghost (Or.inl hp)
  · exact standsAt_ghost ((hg a ha).place.imp id And.right)

/-! ### The text of a state -/

/-- Sizes fit, and every agent and capsule is within the maze. -/
structure Printable (s : GState) : Prop where
  food : s.food.Shaped ∧ s.food.width = s.layout.width ∧ s.food.height = s.layout.height
  walls : s.layout.walls.Shaped ∧ s.layout.walls.width = s.layout.width ∧ s.layout.walls.height = s.layout.height
  agents : ∀ a ∈ s.agents, ∃ p, StandsAt a p ∧ p.1 < s.layout.width ∧ p.2 < s.layout.height
  capsules : ∀ c ∈ s.capsules, ∃ x y : ℕ, c = ((x : ℤ), (y : ℤ)) ∧ x < s.layout.width ∧ y < s.layout.height
  tall : 0 < s.layout.height

theorem pictureRows_congr {w h : ℕ} {f g : ℕ × ℕ → Char} (hfg : ∀ x y, x < w → y < h → f (x, y) = g (x, y)) : pictureRows w h f = pictureRows w h g := by
  unfold pictureRows
  apply List.map_congr_left
  intro y hy
  have := List.mem_range.1 hy
  apply List.map_congr_left
  intro x hx
  exact hfg x _ (List.mem_range.1 hx) (by omega)

theorem str_eq {s : GState} (hs : Printable s) : s.str = .ok (withScore (pictureRows s.layout.width s.layout.height (cellText s)) s.score) := by
  have h0 : List.replicate s.layout.width (List.replicate s.layout.height 'F') = table s.layout.width s.layout.height fun _ => 'F' := by
    simp [table]
  obtain ⟨f1, e1, g1⟩ := fill_foldl hs.food.1 hs.walls.1 hs.food.2.1 hs.food.2.2 hs.walls.2.1 hs.walls.2.2 (Grid.cells s.layout.width s.layout.height)
    (fun p hp => (mem_cells _ _ p).1 hp) fun _ => 'F'
  obtain ⟨f2, e2, g2⟩ := agents_foldl s.agents hs.agents f1
  obtain ⟨f3, e3, g3⟩ := capsules_foldl s.capsules hs.capsules f2
  have hrows : gridStr id s.layout.width s.layout.height (table s.layout.width s.layout.height f3) =
      .ok (joinLines (pictureRows s.layout.width s.layout.height (cellText s))) := by
    unfold gridStr
    rw [table_rows]
    simp only [Except.map, id]
    congr 2
    apply pictureRows_congr
    intro x y hx hy
    rw [g3, g2, g1, if_pos ((mem_cells _ _ _).2 ⟨hx, hy⟩)]
    rfl
  unfold GState.str
  simp only [h0, e1, e2, e3, hrows, bind, Except.bind, pure, Except.pure]
  congr 1
  have hne : pictureRows s.layout.width s.layout.height (cellText s) ≠ [] := by
    have := hs.tall
    intro hc
    have := congrArg List.length hc
    simp [pictureRows] at this
    omega
  unfold withScore
  rw [← joinLines_eq _ hne]
  simp [intStr]

/-! ### States of a game -/

/-- Sizes fit; food and capsules are on different free cells; Pacman is not on a capsule. -/
structure Neat (s : GState) : Prop where
  placed : Placed s
  width : s.layout.walls.width = s.layout.width
  height : s.layout.walls.height = s.layout.height
  food : ∀ x y, s.food.At x y true → s.layout.walls.Free (x, y)
  capsules : ∀ c ∈ s.capsules, ∃ x y : ℕ, c = ((x : ℤ), (y : ℤ)) ∧ s.layout.walls.Free (x, y)
  apart : ∀ x y : ℕ, s.food.At x y true → ((x : ℤ), (y : ℤ)) ∉ s.capsules
  nodup : s.capsules.Nodup
  pacman : ∀ pac rest, s.agents = pac :: rest → ∀ p : ℕ × ℕ, pac.conf.pos = cellAt p → ((p.1 : ℤ), (p.2 : ℤ)) ∉ s.capsules

theorem Neat.free_lt {s : GState} (h : Neat s) {p : ℕ × ℕ} (hf : s.layout.walls.Free p) : p.1 < s.layout.width ∧ p.2 < s.layout.height := by
  have := h.placed.walls.shaped.lt_of_at hf
  rw [h.width, h.height] at this
  exact this

theorem Neat.printable {s : GState} (h : Neat s) : Printable s := by
  refine ⟨⟨h.placed.foodShaped, by rw [h.placed.foodWidth, h.width], by rw [h.placed.foodHeight, h.height]⟩, ⟨h.placed.walls.shaped, h.width, h.height⟩, ?_, ?_, ?_⟩
  · intro a ha
    obtain ⟨p, hp, hf⟩ := h.placed.stands a ha
    exact ⟨p, hp, h.free_lt hf⟩
  · intro c hc
    obtain ⟨x, y, e, hf⟩ := h.capsules c hc
    exact ⟨x, y, e, h.free_lt hf⟩
  · obtain ⟨pac, rest, _, ⟨p, hp, _⟩, _⟩ := h.placed.agents
    exact Nat.lt_of_le_of_lt (Nat.zero_le _) (h.free_lt hp).2

theorem step_neat {s s' : GState} (h : Neat s) {i : ℕ} {a : Dir} (hs : generateSuccessor s i a = .ok s') : Neat s' := by
  have hp' : Placed s' := (C52_placed h.placed [(i, a)] (s' := s') (by simp only [playMoves, hs])).1
  have hlay : s'.layout = s.layout := step_layout h.placed hs
  obtain ⟨_, _, hcase⟩ := step_cases h.placed hs
  rcases hcase with ⟨rfl, pac, rest, p, food', hst⟩ | ⟨hi, pac, pre, post, gh, pe, qe, e, ld, hst⟩
  · have hres := hst.result
    have hfood := foodAfter_at h.placed.foodShaped hst.food
    have hcaps : ∀ c, c ∈ s'.capsules ↔ c ≠ (((nextCell p.1 p.2 a).1 : ℤ), ((nextCell p.1 p.2 a).2 : ℤ)) ∧ c ∈ s.capsules := by
      intro c; rw [hres]; exact h.nodup.mem_erase_iff
    have hf : ∀ x y, s'.food.At x y true → s.food.At x y true := by
      intro x y hxy; rw [hres] at hxy; exact ((hfood x y).1 hxy).1
    refine ⟨hp', by rw [hlay]; exact h.width, by rw [hlay]; exact h.height, ?_, ?_, ?_, ?_, ?_⟩
    · intro x y hxy; rw [hlay]; exact h.food x y (hf x y hxy)
    · intro c hc; rw [hlay]; exact h.capsules c ((hcaps c).1 hc).2
    · intro x y hxy hc; exact h.apart x y (hf x y hxy) ((hcaps _).1 hc).2
    · rw [hres]; exact h.nodup.erase _
    · intro pac1 rest1 hag q hq hc
      rw [hres] at hag
      obtain ⟨rfl, rfl⟩ := List.cons.inj hag
      have : nextCell p.1 p.2 a = q := cellAt_inj hq
      rw [this] at hcaps
      exact ((hcaps _).1 hc).1 rfl
  · have hres := hst.result
    have hc : s'.capsules = s.capsules := by rw [hres]; rfl
    have hf : s'.food = s.food := by rw [hres]; rfl
    refine ⟨hp', by rw [hlay]; exact h.width, by rw [hlay]; exact h.height, ?_, ?_, ?_, ?_, ?_⟩
    · rw [hlay, hf]; exact h.food
    · rw [hlay, hc]; exact h.capsules
    · rw [hf, hc]; exact h.apart
    · rw [hc]; exact h.nodup
    · intro pac1 rest1 hag
      rw [hc]
      rw [hres] at hag
      obtain ⟨rfl, _⟩ := List.cons.inj hag
      exact h.pacman pac _ hst.agents

theorem run_neat {s s' : GState} (h : Neat s) (ms : List (ℕ × Dir)) (hrun : playMoves s ms = .ok s') : Neat s' := by
  induction ms generalizing s with
  | nil => cases hrun; exact h
  | cons m t ih =>
    unfold playMoves at hrun
    cases hst : generateSuccessor s m.1 m.2 with
    | error e => rw [hst] at hrun; cases hrun
    | ok s1 => rw [hst] at hrun; exact ih (step_neat h hst) hrun

theorem start_neat {text : List (List Char)} {w : ℕ} (hb : TextBordered text w)
    (hP : ∃ x y, x < w ∧ y < text.length ∧ charAt text (x, y) = some 'P') (n : ℕ) {l : Layout} (hl : Layout.ofText text = .ok l) :
    Neat (GState.init l n) := by
  obtain ⟨l1, hl1, hpl, _, _, _⟩ := C58_initial hb hP n
  obtain ⟨l2, hl2, hs⟩ := C58_parse hb.rect
  rw [hl] at hl1 hl2
  cases hl1
  cases hl2
  refine ⟨hpl, ?_, ?_, ?_, ?_, ?_, hs.capsulesNodup, ?_⟩
  · exact hs.wallsShaped.2.1.trans hs.size.1.symm
  · exact hs.wallsShaped.2.2.trans hs.size.2.symm
  · intro x y hxy
    obtain ⟨h1, h2, h3⟩ := (hs.food x y).1 hxy
    exact spec_free hs h1 h2 h3 (by decide)
  · intro c hc
    obtain ⟨x, y, e, h1, h2, h3⟩ := (hs.capsules c).1 hc
    exact ⟨x, y, e, spec_free hs h1 h2 h3 (by decide)⟩
  · intro x y hxy hc
    obtain ⟨_, _, h3⟩ := (hs.food x y).1 hxy
    obtain ⟨x', y', e, _, _, h3'⟩ := (hs.capsules _).1 hc
    simp only [Prod.mk.injEq, Nat.cast_inj] at e
    obtain ⟨rfl, rfl⟩ := e
    rw [h3] at h3'
    cases h3'
  · intro pac rest hag p hp hc
    obtain ⟨x', y', e, _, _, h3'⟩ := (hs.capsules _).1 hc
    simp only [Prod.mk.injEq, Nat.cast_inj] at e
    obtain ⟨e1, e2⟩ := e
    have hm : pac ∈ placeAgents n 0 l.agentPositions := by
      have : (GState.init l n).agents = placeAgents n 0 l.agentPositions := rfl
      rw [← this, hag]; exact List.mem_cons_self
    obtain ⟨b, q, hq, rfl⟩ := placeAgents_mem _ _ _ _ hm
    obtain ⟨ags, hap, _, _, hmem, _⟩ := hs.agents
    rw [hap, List.mem_map] at hq
    obtain ⟨⟨k, q'⟩, hq, e⟩ := hq
    cases e
    obtain ⟨u, v, rfl, _, _, c, hch, hk⟩ := (hmem k _).1 hq
    have : (u, v) = p := cellAt_inj ((toPos_cell (u, v)).symm.trans hp)
    subst this
    simp only at e1 e2
    subst e1 e2
    rw [h3'] at hch
    cases hch
    have : agentKey 'o' = none := by decide
    rw [this] at hk
    cases hk

/-! ### Theorems -/

/-- **C73** In every state of every game printing succeeds: each cell of the maze has its character, the rows go from the top down, and a line with the score
follows. -/
theorem C73_text {text : List (List Char)} {w : ℕ} (hb : TextBordered text w) (hP : ∃ x y, x < w ∧ y < text.length ∧ charAt text (x, y) = some 'P') (n : ℕ) :
    ∃ l, Layout.ofText text = .ok l ∧ ∀ ms s, playMoves (GState.init l n) ms = .ok s →
      s.str = .ok (withScore (pictureRows w text.length (cellText s)) s.score) := by
  obtain ⟨l, hl, hs⟩ := C58_parse hb.rect
  refine ⟨l, hl, ?_⟩
  intro ms s hrun
  have h0 := start_neat hb hP n hl
  have hn := run_neat h0 ms hrun
  have hlay : s.layout = l := (C52_placed h0.placed ms hrun).2.1
  rw [str_eq hn.printable, hlay, hs.size.1, hs.size.2]

/-! ### The start -/

theorem charAt_picture {w h : ℕ} (f : ℕ × ℕ → Char) {x y : ℕ} (hx : x < w) (hy : y < h) : charAt (pictureRows w h f) (x, y) = some (f (x, y)) := by
  unfold charAt pictureRows
  have h1 : h - 1 - y < h := by omega
  have h2 : h - 1 - (h - 1 - y) = y := by omega
  simp [h1, hx, h2]

theorem picture_rect {w h : ℕ} (f : ℕ × ℕ → Char) (hh : 0 < h) : Rect (pictureRows w h f) w := by
  constructor
  · intro hc
    have := congrArg List.length hc
    simp [pictureRows] at this
    omega
  · intro row hr
    simp only [pictureRows, List.mem_map] at hr
    obtain ⟨y, _, rfl⟩ := hr
    simp

theorem picture_length (w h : ℕ) (f : ℕ × ℕ → Char) : (pictureRows w h f).length = h := by simp [pictureRows]

theorem picture_of_text {text : List (List Char)} {w : ℕ} (hr : Rect text w) {f : ℕ × ℕ → Char} {g : Char → Char}
    (h : ∀ x y c, x < w → y < text.length → charAt text (x, y) = some c → f (x, y) = g c) : pictureRows w text.length f = text.map (List.map g) := by
  apply List.ext_getElem
  · simp [pictureRows]
  · intro i h1 h2
    simp only [List.length_map] at h2
    have hw : (text[i]).length = w := hr.2 _ (List.getElem_mem h2)
    apply List.ext_getElem
    · simp [pictureRows, hw]
    · intro j h3 h4
      simp only [List.getElem_map, List.length_map] at h4
      simp only [pictureRows, List.getElem_map, List.getElem_range]
      refine h j _ _ (by omega) (by omega) ?_
      unfold charAt
      have : text.length - 1 - (text.length - 1 - i) = i := by omega
      simp only [this]
      rw [List.getElem?_eq_getElem h2]
      simp only [Option.bind_some]
      exact List.getElem?_eq_getElem _

theorem placeAgents_all (max : ℕ) (l : List (Bool × (ℤ × ℤ))) (k : ℕ) (hk : k + (l.countP fun p => !p.1) ≤ max) :
    placeAgents max k l = l.map fun p => ⟨⟨toPos p.2, .stop⟩, ⟨toPos p.2, .stop⟩, p.1, 0⟩ := by
  induction l generalizing k with
  | nil => rfl
  | cons a t ih =>
    obtain ⟨b, p⟩ := a
    unfold placeAgents
    cases b with
    | true =>
      simp only [if_true, List.map_cons]
      rw [ih k (by simpa using hk)]
    | false =>
      simp only [List.countP_cons, Bool.not_false, if_true] at hk
      simp only [Bool.false_eq_true, if_false, List.map_cons]
      rw [if_neg (by omega), ih (k + 1) (by omega)]

theorem init_printable {text : List (List Char)} {w : ℕ} (hr : Rect text w) {l : Layout} (hs : LayoutSpec text w l) (n : ℕ) : Printable (GState.init l n) := by
  obtain ⟨ags, hap, _, _, hmem, _⟩ := hs.agents
  refine ⟨⟨hs.foodShaped.1, hs.foodShaped.2.1.trans hs.size.1.symm, hs.foodShaped.2.2.trans hs.size.2.symm⟩,
    ⟨hs.wallsShaped.1, hs.wallsShaped.2.1.trans hs.size.1.symm, hs.wallsShaped.2.2.trans hs.size.2.symm⟩, ?_, ?_, ?_⟩
  · intro a ha
    obtain ⟨b, q, hq, rfl⟩ := placeAgents_mem _ _ _ _ ha
    rw [hap, List.mem_map] at hq
    obtain ⟨⟨k, q'⟩, hq, e⟩ := hq
    cases e
    obtain ⟨u, v, rfl, hu, hv, _⟩ := (hmem k _).1 hq
    refine ⟨(u, v), standsAt_cell (toPos_cell (u, v)), ?_⟩
    show u < l.width ∧ v < l.height
    rw [hs.size.1, hs.size.2]
    exact ⟨hu, hv⟩
  · intro c hc
    obtain ⟨x, y, e, h1, h2, _⟩ := (hs.capsules c).1 hc
    refine ⟨x, y, e, ?_⟩
    show x < l.width ∧ y < l.height
    rw [hs.size.1, hs.size.2]
    exact ⟨h1, h2⟩
  · show 0 < l.height
    rw [hs.size.2]
    exact List.length_pos_iff.2 hr.1

theorem agentKey_none {c : Char} (h : c ∈ ['%', '.', 'o']) : agentKey c = none := by
  simp only [List.mem_cons, List.not_mem_nil, or_false] at h
  rcases h with rfl | rfl | rfl <;> decide

theorem startChar_agent {c : Char} {k : ℕ} (h : agentKey c = some k) : startChar c = if k = 0 then '<' else 'G' := by
  unfold agentKey at h
  split_ifs at h with h1 h2 h3 h4 h5 h6 <;> cases h <;> subst c <;> decide

theorem startChar_other {c : Char} (h : agentKey c = none) (h2 : c ∉ ['%', '.', 'o']) : startChar c = ' ' := by
  unfold startChar
  rw [if_neg h2]
  unfold agentKey at h
  split_ifs at h
  simp_all

/-- **C73** The text of the initial state is the text of the layout: walls, food and capsules as they are, Pacman as `<`, all ghosts as `G`, and everything else as a
blank. This holds for all rectangular texts when all ghosts take part. -/
theorem C73_initial {text : List (List Char)} {w : ℕ} (hr : Rect text w) : ∃ l, Layout.ofText text = .ok l ∧ ∀ n, l.numGhosts ≤ n →
    (GState.init l n).str = .ok (withScore (text.map (List.map startChar)) 0) := by
  obtain ⟨l, hl, hs⟩ := C58_parse hr
  refine ⟨l, hl, ?_⟩
  intro n hn
  rw [str_eq (init_printable hr hs n)]
  show Except.ok (withScore (pictureRows l.width l.height _) 0) = _
  rw [hs.size.1, hs.size.2]
  congr 2
  apply picture_of_text hr
  intro x y c hx hy hc
  obtain ⟨ags, hap, _, _, hmem, hng⟩ := hs.agents
  have hall : (GState.init l n).agents = l.agentPositions.map fun p => ⟨⟨toPos p.2, .stop⟩, ⟨toPos p.2, .stop⟩, p.1, 0⟩ := by
    apply placeAgents_all
    rw [hap, List.countP_map]
    have : ags.countP ((fun p : Bool × (ℤ × ℤ) => !p.1) ∘ fun p : ℕ × (ℤ × ℤ) => (decide (p.1 = 0), p.2)) = ags.countP fun p => decide (p.1 ≠ 0) := by
      apply List.countP_congr
      rintro ⟨k, q⟩ _
      simp
    rw [this, zero_add, ← hng]
    exact hn
  -- the agents at the cell
  have hst : ∀ a ∈ (GState.init l n).agents, Stands (x, y) a → ∃ k, agentKey c = some k ∧ glyph a = if k = 0 then '<' else 'G' := by
    intro a ha hsa
    rw [hall, hap, List.map_map, List.mem_map] at ha
    obtain ⟨⟨k, q⟩, hq, rfl⟩ := ha
    obtain ⟨u, v, rfl, _, _, c', hc', hk⟩ := (hmem k q).1 hq
    have := ((standsAt_cell (p := (u, v)) (toPos_cell (u, v))).2 (x, y)).1 hsa
    cases this
    rw [hc] at hc'
    cases hc'
    refine ⟨k, hk, ?_⟩
    by_cases hk0 : k = 0 <;> simp [glyph, hk0]
  unfold cellText
  have hcap : ((x : ℤ), (y : ℤ)) ∈ (GState.init l n).capsules ↔ c = 'o' := by
    show ((x : ℤ), (y : ℤ)) ∈ l.capsules ↔ _
    rw [hs.capsules]
    constructor
    · rintro ⟨x', y', e, _, _, h3⟩
      simp only [Prod.mk.injEq, Nat.cast_inj] at e
      obtain ⟨rfl, rfl⟩ := e
      rw [hc] at h3
      cases h3
      rfl
    · rintro rfl; exact ⟨x, y, rfl, hx, hy, hc⟩
  have hfood : (GState.init l n).food.At x y true ↔ c = '.' := by
    show l.food.At x y true ↔ _
    rw [hs.food, hc]
    simp [hx, hy]
  have hwall : (GState.init l n).layout.walls.At x y true ↔ c = '%' := by
    show l.walls.At x y true ↔ _
    rw [hs.walls, hc]
    simp [hx, hy]
  simp only [hcap, hfood, hwall]
  cases hk : agentKey c with
  | some k =>
    have hno : c ≠ 'o' := by rintro rfl; rw [agentKey_none (by simp)] at hk; cases hk
    rw [if_neg hno, startChar_agent hk]
    obtain ⟨a, ha, hsa⟩ : ∃ a ∈ (GState.init l n).agents, Stands (x, y) a := by
      refine ⟨⟨⟨toPos ((x : ℤ), (y : ℤ)), .stop⟩, ⟨toPos ((x : ℤ), (y : ℤ)), .stop⟩, decide (k = 0), 0⟩, ?_, ?_⟩
      · rw [hall, hap, List.map_map, List.mem_map]
        exact ⟨(k, ((x : ℤ), (y : ℤ))), (hmem _ _).2 ⟨x, y, rfl, hx, hy, c, hc, hk⟩, rfl⟩
      · exact ((standsAt_cell (p := (x, y)) (toPos_cell (x, y))).2 (x, y)).2 rfl
    cases hfd : (GState.init l n).agents.reverse.find? fun a => decide (Stands (x, y) a) with
    | none =>
      have := List.find?_eq_none.1 hfd a (List.mem_reverse.2 ha)
      simp [hsa] at this
    | some b =>
      have h1 := List.mem_reverse.1 (List.mem_of_find?_eq_some hfd)
      have h2 : Stands (x, y) b := by simpa using List.find?_some hfd
      obtain ⟨k', e1, e2⟩ := hst b h1 h2
      rw [hk] at e1
      cases e1
      exact e2
  | none =>
    have hfd : (GState.init l n).agents.reverse.find? (fun a => decide (Stands (x, y) a)) = none := by
      rw [List.find?_eq_none]
      intro a ha hsa
      obtain ⟨k, e, _⟩ := hst a (List.mem_reverse.1 ha) (by simpa using hsa)
      rw [hk] at e
      cases e
    rw [hfd]
    simp only
    by_cases h3 : c ∈ ['%', '.', 'o']
    · simp only [List.mem_cons, List.not_mem_nil, or_false] at h3
      rcases h3 with rfl | rfl | rfl <;> decide
    · rw [startChar_other hk h3]
      simp only [List.mem_cons, List.not_mem_nil, or_false, not_or] at h3
      simp [h3.1, h3.2.1, h3.2.2]

/-! ### Reading the text -/

theorem cellText_find (s : GState) (p : ℕ × ℕ) :
    (∃ a ∈ s.agents, Stands p a ∧ s.agents.reverse.find? (fun a => decide (Stands p a)) = some a) ∨
      (∀ a ∈ s.agents, ¬ Stands p a) ∧ s.agents.reverse.find? (fun a => decide (Stands p a)) = none := by
  cases hfd : s.agents.reverse.find? fun a => decide (Stands p a) with
  | none =>
    refine Or.inr ⟨?_, rfl⟩
    intro a ha hsa
    have := List.find?_eq_none.1 hfd a (List.mem_reverse.2 ha)
    simp [hsa] at this
  | some b =>
    exact Or.inl ⟨b, List.mem_reverse.1 (List.mem_of_find?_eq_some hfd), by simpa using List.find?_some hfd, rfl⟩

theorem glyph_mem (a : Agent) : glyph a ∈ ['v', '^', '>', '<', 'G'] := by
  unfold glyph
  obtain ⟨_, ⟨_, d⟩, b, _⟩ := a
  cases b <;> cases d <;> simp

theorem glyph_ne (a : Agent) {c : Char} (h : c ∈ ['%', '.', 'o', ' ', 'P', '1', '2', '3', '4']) : glyph a ≠ c := by
  have : ∀ d ∈ ['v', '^', '>', '<', 'G'], ∀ c ∈ ['%', '.', 'o', ' ', 'P', '1', '2', '3', '4'], d ≠ c := by decide
  exact this _ (glyph_mem a) _ h

theorem glyph_ghost (a : Agent) : glyph a = 'G' ↔ a.isPacman = false := by
  unfold glyph
  obtain ⟨_, ⟨_, d⟩, b, _⟩ := a
  cases b <;> cases d <;> simp

theorem cellText_capsule (s : GState) (p : ℕ × ℕ) : cellText s p = 'o' ↔ ((p.1 : ℤ), (p.2 : ℤ)) ∈ s.capsules := by
  unfold cellText
  by_cases hc : ((p.1 : ℤ), (p.2 : ℤ)) ∈ s.capsules
  · simp [hc]
  · rw [if_neg hc]
    refine ⟨fun h => ?_, fun h => absurd h hc⟩
    rcases cellText_find s p with ⟨a, _, _, e⟩ | ⟨_, e⟩
    · rw [e] at h; exact absurd h (glyph_ne a (by simp))
    · rw [e] at h
      simp only at h
      split_ifs at h <;> exact absurd h (by decide)

theorem cellText_food {s : GState} (hn : Neat s) (p : ℕ × ℕ) : cellText s p = '.' ↔ s.food.At p.1 p.2 true ∧ ∀ a ∈ s.agents, ¬ Stands p a := by
  unfold cellText
  by_cases hc : ((p.1 : ℤ), (p.2 : ℤ)) ∈ s.capsules
  · rw [if_pos hc]
    refine ⟨fun h => absurd h (by decide), fun h => absurd hc (hn.apart _ _ h.1)⟩
  · rw [if_neg hc]
    rcases cellText_find s p with ⟨a, ha, hsa, e⟩ | ⟨hno, e⟩
    · rw [e]
      refine ⟨fun h => absurd h (glyph_ne a (by simp)), fun h => absurd hsa (h.2 a ha)⟩
    · rw [e]
      simp only
      constructor
      · intro h
        split_ifs at h with h1
        · exact ⟨h1, hno⟩
        all_goals exact absurd h (by decide)
      · intro h; rw [if_pos h.1]

theorem cellText_wall {s : GState} (hn : Neat s) (p : ℕ × ℕ) : cellText s p = '%' ↔ s.layout.walls.At p.1 p.2 true := by
  have hfree : s.layout.walls.Free p → ¬ s.layout.walls.At p.1 p.2 true := fun h1 h2 => by have := h1.unique h2; cases this
  unfold cellText
  by_cases hc : ((p.1 : ℤ), (p.2 : ℤ)) ∈ s.capsules
  · rw [if_pos hc]
    refine ⟨fun h => absurd h (by decide), fun h => ?_⟩
    obtain ⟨x, y, e, hf⟩ := hn.capsules _ hc
    simp only [Prod.mk.injEq, Nat.cast_inj] at e
    have : p = (x, y) := Prod.ext e.1 e.2
    subst this
    exact absurd h (hfree hf)
  · rw [if_neg hc]
    rcases cellText_find s p with ⟨a, ha, hsa, e⟩ | ⟨hno, e⟩
    · rw [e]
      refine ⟨fun h => absurd h (glyph_ne a (by simp)), fun h => ?_⟩
      obtain ⟨q, ⟨_, hq⟩, hf⟩ := hn.placed.stands a ha
      have := (hq p).1 hsa
      subst this
      exact absurd h (hfree hf)
    · rw [e]
      simp only
      constructor
      · intro h
        split_ifs at h with h1 h2
        · exact absurd h (by decide)
        · exact h2
        · exact absurd h (by decide)
      · intro h
        rw [if_neg, if_pos h]
        intro hf
        exact hfree (hn.food _ _ hf) h

theorem cellText_mem (s : GState) (p : ℕ × ℕ) : cellText s p ∈ ['v', '^', '>', '<', 'G', 'o', '.', '%', ' '] := by
  unfold cellText
  split
  · simp
  · split
    · rename_i a _
      have := glyph_mem a
      simp only [List.mem_cons, List.not_mem_nil, or_false] at this ⊢
      tauto
    · split_ifs <;> simp

theorem cellText_ghost (s : GState) (p : ℕ × ℕ) : cellText s p = 'G' ↔ ((p.1 : ℤ), (p.2 : ℤ)) ∉ s.capsules ∧
    ∃ a, s.agents.reverse.find? (fun a => decide (Stands p a)) = some a ∧ a.isPacman = false := by
  unfold cellText
  by_cases hc : ((p.1 : ℤ), (p.2 : ℤ)) ∈ s.capsules
  · rw [if_pos hc]
    exact ⟨fun h => absurd h (by decide), fun h => absurd hc h.1⟩
  · rw [if_neg hc]
    rcases cellText_find s p with ⟨a, _, _, e⟩ | ⟨_, e⟩
    · rw [e]
      simp only [glyph_ghost]
      exact ⟨fun h => ⟨hc, a, rfl, h⟩, by rintro ⟨_, b, eb, h⟩; cases eb; exact h⟩
    · rw [e]
      simp only
      constructor
      · intro h; split_ifs at h <;> exact absurd h (by decide)
      · rintro ⟨_, b, eb, _⟩; cases eb

theorem grid_ext {g h : Grid} (hg : g.Shaped) (hh : h.Shaped) (hw : g.width = h.width) (ht : g.height = h.height)
    (hat : ∀ x y, x < g.width → y < g.height → (g.At x y true ↔ h.At x y true)) : g = h := by
  have hd : g.data = h.data := by
    apply List.ext_getElem
    · rw [hg.1, hh.1, hw]
    · intro x h1 h2
      have e1 := hg.2 _ (List.getElem_mem h1)
      have e2 := hh.2 _ (List.getElem_mem h2)
      apply List.ext_getElem
      · rw [e1, e2, ht]
      · intro y h3 h4
        have := hat x y (by rw [← hg.1]; exact h1) (by rw [← e1]; exact h3)
        have a1 : g.At x y true ↔ (g.data[x])[y] = true := by
          rw [Grid.at_iff, List.getElem?_eq_getElem h1, Option.bind_some, List.getElem?_eq_getElem h3]; simp
        have a2 : h.At x y true ↔ (h.data[x])[y] = true := by
          rw [Grid.at_iff, List.getElem?_eq_getElem h2, Option.bind_some, List.getElem?_eq_getElem h4]; simp
        rw [a1, a2] at this
        exact Bool.eq_iff_iff.2 this
  cases g; cases h
  simp_all

/-- **C73** The printed rows can be read as a layout again. It has the same walls and capsules; it has the food of the state except under agents; it has ghosts exactly where
the last agent of a cell without a capsule is a ghost, and no Pacman. -/
theorem C73_read_back {s : GState} (hn : Neat s) : ∃ rows l', s.str = .ok (withScore rows s.score) ∧ Layout.ofText rows = .ok l' ∧
    l'.walls = s.layout.walls ∧ (∀ c, c ∈ l'.capsules ↔ c ∈ s.capsules) ∧
    (∀ x y, l'.food.At x y true ↔ s.food.At x y true ∧ ∀ a ∈ s.agents, ¬ Stands (x, y) a) ∧
    (∀ b c, (b, c) ∈ l'.agentPositions ↔ b = false ∧ ∃ x y : ℕ, c = ((x : ℤ), (y : ℤ)) ∧ c ∉ s.capsules ∧
      ∃ a, s.agents.reverse.find? (fun a => decide (Stands (x, y) a)) = some a ∧ a.isPacman = false) := by
  have hpr := hn.printable
  have hrect := picture_rect (w := s.layout.width) (cellText s) hpr.tall
  have hlen := picture_length s.layout.width s.layout.height (cellText s)
  obtain ⟨l', hl', hs⟩ := C58_parse hrect
  refine ⟨_, l', str_eq hpr, hl', ?_, ?_, ?_, ?_⟩
  · apply grid_ext hs.wallsShaped.1 hn.placed.walls.shaped
    · rw [hs.wallsShaped.2.1, hn.width]
    · rw [hs.wallsShaped.2.2, hlen, hn.height]
    · intro x y hx hy
      rw [hs.wallsShaped.2.1] at hx
      rw [hs.wallsShaped.2.2, hlen] at hy
      rw [hs.walls, hlen, charAt_picture _ hx hy, ← cellText_wall hn (x, y)]
      simp [hx, hy]
  · intro c
    rw [hs.capsules, hlen]
    constructor
    · rintro ⟨x, y, rfl, hx, hy, h⟩
      rw [charAt_picture _ hx hy] at h
      exact (cellText_capsule s (x, y)).1 (Option.some.inj h)
    · intro hc
      obtain ⟨x, y, rfl, hx, hy⟩ := hpr.capsules c hc
      exact ⟨x, y, rfl, hx, hy, by rw [charAt_picture _ hx hy, (cellText_capsule s (x, y)).2 hc]⟩
  · intro x y
    rw [hs.food, hlen, ← cellText_food hn (x, y)]
    constructor
    · rintro ⟨hx, hy, h⟩
      rw [charAt_picture _ hx hy] at h
      exact Option.some.inj h
    · intro h
      obtain ⟨hx, hy⟩ := hn.free_lt (hn.food x y ((cellText_food hn (x, y)).1 h).1)
      exact ⟨hx, hy, by rw [charAt_picture _ hx hy, h]⟩
  · obtain ⟨ags, hap, _, _, hmem, _⟩ := hs.agents
    have hkey : ∀ c ∈ ['v', '^', '>', '<', 'G', 'o', '.', '%', ' '], ∀ k, agentKey c = some k → k = 1 ∧ c = 'G' := by
      intro c hc k hk
      simp only [List.mem_cons, List.not_mem_nil, or_false] at hc
      rcases hc with rfl | rfl | rfl | rfl | rfl | rfl | rfl | rfl | rfl
      all_goals first
        | (have e : agentKey 'G' = some 1 := by decide
           rw [e] at hk; cases hk; exact ⟨rfl, rfl⟩)
        | (exfalso; revert hk; simp [agentKey])
    intro b c
    rw [hap, List.mem_map]
    constructor
    · rintro ⟨⟨k, q⟩, hq, e⟩
      cases e
      obtain ⟨x, y, rfl, hx, hy, ch, hch, hk⟩ := (hmem k _).1 hq
      rw [hlen] at hy
      rw [charAt_picture _ hx hy] at hch
      cases hch
      obtain ⟨rfl, hG⟩ := hkey _ (cellText_mem s (x, y)) _ hk
      obtain ⟨h1, h2⟩ := (cellText_ghost s (x, y)).1 hG
      exact ⟨by simp, x, y, rfl, h1, h2⟩
    · rintro ⟨rfl, x, y, rfl, h1, h2⟩
      obtain ⟨a, ea, hfa⟩ := h2
      have ha := List.mem_reverse.1 (List.mem_of_find?_eq_some ea)
      have hsa : Stands (x, y) a := by simpa using List.find?_some ea
      obtain ⟨q, ⟨_, hq⟩, hx, hy⟩ := hpr.agents a ha
      have := (hq (x, y)).1 hsa
      subst this
      refine ⟨(1, ((x : ℤ), (y : ℤ))), (hmem _ _).2 ⟨x, y, rfl, hx, by rw [hlen]; exact hy, 'G', ?_, by decide⟩, by simp⟩
      rw [charAt_picture _ hx hy, (cellText_ghost s (x, y)).2 ⟨h1, a, ea, hfa⟩]

/-- **C73** While the game goes on Pacman can be seen at its cell, unless a ghost hides it that stands, not scared, at its own start. -/
theorem C73_pacman {s : GState} (hn : Neat s) (hc : Clear s) {pac : Agent} {rest : List Agent} (hag : s.agents = pac :: rest) {p : ℕ × ℕ} (hp : pac.conf.pos = cellAt p) :
    cellText s p = glyph pac ∨ ∃ g ∈ rest, g.conf = g.start ∧ g.scared = 0 ∧ Stands p g ∧ cellText s p = glyph g := by
  have hcap := hn.pacman pac rest hag p hp
  have hpac : Stands p pac := ((standsAt_cell hp).2 p).2 rfl
  unfold cellText
  rw [if_neg hcap]
  rcases cellText_find s p with ⟨a, ha, hsa, e⟩ | ⟨hno, _⟩
  · rw [e]
    simp only
    rw [hag, List.reverse_cons, List.find?_append] at e
    cases hfd : rest.reverse.find? fun a => decide (Stands p a) with
    | none =>
      rw [hfd] at e
      simp only [Option.none_or, List.find?_cons, hpac, decide_true] at e
      cases e
      exact Or.inl rfl
    | some b =>
      rw [hfd] at e
      simp only [Option.some_or, Option.some.injEq] at e
      subst e
      have hb := List.mem_reverse.1 (List.mem_of_find?_eq_some hfd)
      obtain ⟨pac', rest', hag', _, hg⟩ := hn.placed.agents
      rw [hag] at hag'
      obtain ⟨rfl, rfl⟩ := List.cons.inj hag'
      have hnear : Near pac.conf.pos b := by
        unfold Near
        obtain ⟨s1, s2, s3, s4⟩ := hsa
        rw [hp]
        simp only [cellAt]
        rcases (hg b hb).place with ⟨q, _, hq⟩ | ⟨_, x, y, _, ⟨_, hq, _⟩ | ⟨_, hq, _⟩⟩
        · have : p = q := ((standsAt_cell hq).2 p).1 ⟨s1, s2, s3, s4⟩
          rw [hq, this]
          simp only [cellAt, sub_self, abs_zero]
          norm_num
        all_goals
          rw [hq] at s1 s2 s3 s4 ⊢
          simp only at s1 s2 s3 s4 ⊢
        · have h1 : (p.1 : ℚ) < x + 2 := by linarith
          have h2 : (x : ℚ) < p.1 := by linarith
          have h3 : (p.2 : ℚ) < y + 1 := by linarith
          have h4 : (y : ℚ) < p.2 + 1 := by linarith
          have h1' : p.1 < x + 2 := by exact_mod_cast h1
          have h2' : x < p.1 := by exact_mod_cast h2
          have h3' : p.2 < y + 1 := by exact_mod_cast h3
          have h4' : y < p.2 + 1 := by exact_mod_cast h4
          have e1 : (p.1 : ℚ) = x + 1 := by exact_mod_cast (show p.1 = x + 1 by omega)
          have e2 : (p.2 : ℚ) = y := by exact_mod_cast (show p.2 = y by omega)
          rw [e1, e2]
          rw [show (x : ℚ) + 1 / 2 - (x + 1) = -(1 / 2) by ring, sub_self, abs_neg, abs_zero, abs_of_pos (by norm_num)]
          norm_num
        · have h1 : (p.2 : ℚ) < y + 2 := by linarith
          have h2 : (y : ℚ) < p.2 := by linarith
          have h3 : (p.1 : ℚ) < x + 1 := by linarith
          have h4 : (x : ℚ) < p.1 + 1 := by linarith
          have h1' : p.2 < y + 2 := by exact_mod_cast h1
          have h2' : y < p.2 := by exact_mod_cast h2
          have h3' : p.1 < x + 1 := by exact_mod_cast h3
          have h4' : x < p.1 + 1 := by exact_mod_cast h4
          have e1 : (p.2 : ℚ) = y + 1 := by exact_mod_cast (show p.2 = y + 1 by omega)
          have e2 : (p.1 : ℚ) = x := by exact_mod_cast (show p.1 = x by omega)
          rw [e1, e2]
          rw [show (y : ℚ) + 1 / 2 - (y + 1) = -(1 / 2) by ring, sub_self, abs_neg, abs_zero, abs_of_pos (by norm_num : (0 : ℚ) < 1 / 2)]
          norm_num
      obtain ⟨e1, e2⟩ := hc pac rest hag b hb hnear
      exact Or.inr ⟨b, hb, e1, e2, hsa, rfl⟩
  · exact absurd hpac (hno pac (by rw [hag]; exact List.mem_cons_self))

theorem flatten_inj {w : ℕ} : ∀ {rows rows' : List Str} {u v : Str}, rows.length = rows'.length → (∀ r ∈ rows, r.length = w) → (∀ r ∈ rows', r.length = w) →
    (rows.map fun r => r ++ ['\n']).flatten ++ u = (rows'.map fun r => r ++ ['\n']).flatten ++ v → rows = rows' ∧ u = v
  | [], [], u, v, _, _, _, h => ⟨rfl, by simpa using h⟩
  | [], _ :: _, _, _, h, _, _, _ => by simp at h
  | _ :: _, [], _, _, h, _, _, _ => by simp at h
  | r :: t, r' :: t', u, v, hl, h1, h2, h => by
    simp only [List.map_cons, List.flatten_cons, List.append_assoc] at h
    have e1 := h1 r List.mem_cons_self
    have e2 := h2 r' List.mem_cons_self
    obtain ⟨a, b⟩ := List.append_inj h (by rw [e1, e2])
    simp only [List.cons_append, List.nil_append, List.cons.injEq, true_and] at b
    obtain ⟨c, d⟩ := flatten_inj (by simpa using hl) (fun r hr => h1 r (List.mem_cons_of_mem _ hr)) (fun r hr => h2 r (List.mem_cons_of_mem _ hr)) b
    exact ⟨by rw [a, c], d⟩

/-- **C73** Two states on mazes of one size have the same text iff they have the same score and the same characters in all cells. -/
theorem C73_same {s t : GState} (hs : Neat s) (ht : Neat t) (hw : s.layout.width = t.layout.width) (hh : s.layout.height = t.layout.height) :
    s.str = t.str ↔ s.score = t.score ∧ ∀ x y, x < s.layout.width → y < s.layout.height → cellText s (x, y) = cellText t (x, y) := by
  rw [str_eq hs.printable, str_eq ht.printable, Except.ok.injEq, ← hw, ← hh]
  constructor
  · intro h
    unfold withScore at h
    simp only [List.append_assoc] at h
    obtain ⟨h1, h2⟩ := flatten_inj (w := s.layout.width) (by rw [picture_length, picture_length])
      (picture_rect _ hs.printable.tall).2 (picture_rect _ hs.printable.tall).2 h
    refine ⟨?_, ?_⟩
    · have := List.append_cancel_left h2
      exact intStr_inj (List.append_cancel_right this)
    · intro x y hx hy
      have := congrArg (fun r => charAt r (x, y)) h1
      simp only [charAt_picture _ hx hy, Option.some.injEq] at this
      exact this
  · rintro ⟨h1, h2⟩
    rw [h1, pictureRows_congr h2]

/-- **C73** So the text tells the score, the walls, the capsules, and the food on cells without agents. -/
theorem C73_tells {s t : GState} (hs : Neat s) (ht : Neat t) (hw : s.layout.width = t.layout.width) (hh : s.layout.height = t.layout.height) (he : s.str = t.str) :
    s.score = t.score ∧ s.layout.walls = t.layout.walls ∧ (∀ c, c ∈ s.capsules ↔ c ∈ t.capsules) ∧
      ∀ x y, (∀ a ∈ s.agents ++ t.agents, ¬ Stands (x, y) a) → (s.food.At x y true ↔ t.food.At x y true) := by
  obtain ⟨h1, h2⟩ := (C73_same hs ht hw hh).1 he
  refine ⟨h1, ?_, ?_, ?_⟩
  · apply grid_ext hs.placed.walls.shaped ht.placed.walls.shaped
    · rw [hs.width, ht.width, hw]
    · rw [hs.height, ht.height, hh]
    · intro x y hx hy
      rw [← cellText_wall hs (x, y), ← cellText_wall ht (x, y), h2 x y (by rw [← hs.width]; exact hx) (by rw [← hs.height]; exact hy)]
  · intro c
    constructor
    · intro hc
      obtain ⟨x, y, rfl, hx, hy⟩ := hs.printable.capsules c hc
      rw [← cellText_capsule t (x, y), ← h2 x y hx hy]
      exact (cellText_capsule s (x, y)).2 hc
    · intro hc
      obtain ⟨x, y, rfl, hx, hy⟩ := ht.printable.capsules c hc
      rw [← cellText_capsule s (x, y), h2 x y (by rw [hw]; exact hx) (by rw [hh]; exact hy)]
      exact (cellText_capsule t (x, y)).2 hc
  · intro x y hno
    have a1 : s.food.At x y true ↔ cellText s (x, y) = '.' := by
      rw [cellText_food hs (x, y)]
      exact ⟨fun h => ⟨h, fun a ha => hno a (List.mem_append_left _ ha)⟩, And.left⟩
    have a2 : t.food.At x y true ↔ cellText t (x, y) = '.' := by
      rw [cellText_food ht (x, y)]
      exact ⟨fun h => ⟨h, fun a ha => hno a (List.mem_append_right _ ha)⟩, And.left⟩
    constructor
    · intro h
      obtain ⟨hx, hy⟩ := hs.free_lt (hs.food x y h)
      rw [a2, ← h2 x y hx hy]
      exact a1.1 h
    · intro h
      obtain ⟨hx, hy⟩ := ht.free_lt (ht.food x y h)
      rw [a1, h2 x y (by rw [hw]; exact hx) (by rw [hh]; exact hy)]
      exact a2.1 h

/-- **C73** A grid of booleans is printed with `T` and `F`, the top row first, and the text determines a grid of given size. -/
theorem C73_grid {g : Grid} (hg : g.Shaped) :
    g.str = .ok (asLines (pictureRows g.width g.height fun p => if g.At p.1 p.2 true then 'T' else 'F')) ∧
      ∀ h : Grid, h.Shaped → h.width = g.width → h.height = g.height → h.str = g.str → h = g := by
  have key : ∀ g : Grid, g.Shaped → g.str = .ok (asLines (pictureRows g.width g.height fun p => if g.At p.1 p.2 true then 'T' else 'F')) := by
    intro g hg
    have hd : g.data = table g.width g.height fun p => decide (g.At p.1 p.2 true) := by
      apply List.ext_getElem
      · simp [table, hg.1]
      · intro x h1 h2
        have e1 := hg.2 _ (List.getElem_mem h1)
        apply List.ext_getElem
        · simp [table, e1]
        · intro y h3 h4
          have a1 : g.At x y true ↔ (g.data[x])[y] = true := by
            rw [Grid.at_iff, List.getElem?_eq_getElem h1, Option.bind_some, List.getElem?_eq_getElem h3]; simp
          simp [table, a1]
    unfold Grid.str gridStr
    rw [hd, table_rows]
    simp only [Except.map, joinLines_asLines]
    congr 2
    apply pictureRows_congr
    intro x y hx hy
    unfold boolFirst
    simp
  refine ⟨key g hg, ?_⟩
  intro h hh hw ht he
  rw [key g hg, key h hh, hw, ht, Except.ok.injEq] at he
  by_cases h0 : g.height = 0
  · apply grid_ext hh hg hw ht
    intro x y _ hy
    omega
  · have hne : ∀ f, pictureRows g.width g.height f ≠ [] := fun f => (picture_rect f (Nat.pos_of_ne_zero h0)).1
    have he2 := congrArg (· ++ ['\n']) he
    simp only [← joinLines_asLines, joinLines_eq _ (hne _)] at he2
    obtain ⟨h1, _⟩ := flatten_inj (w := g.width) (u := []) (v := [])
      (rows := pictureRows g.width g.height fun p => if h.At p.1 p.2 true then 'T' else 'F')
      (rows' := pictureRows g.width g.height fun p => if g.At p.1 p.2 true then 'T' else 'F') (by rw [picture_length, picture_length])
      (picture_rect _ (Nat.pos_of_ne_zero h0)).2 (picture_rect _ (Nat.pos_of_ne_zero h0)).2 (by rw [he2])
    apply grid_ext hh hg hw ht
    intro x y hx hy
    rw [hw] at hx
    rw [ht] at hy
    have := congrArg (fun r => charAt r (x, y)) h1
    simp only [charAt_picture _ hx hy, Option.some.injEq] at this
    by_cases a : h.At x y true <;> by_cases b : g.At x y true <;> simp [a, b] at this ⊢

/-- **C73** A layout is printed as its text. -/
theorem C73_layout {text : List (List Char)} {l : Layout} (h : Layout.ofText text = .ok l) : l.str = asLines text := by
  unfold Layout.str
  rw [joinLines_asLines]
  congr 1
  unfold Layout.ofText at h
  split at h
  · cases h
  · simp only at h
    split at h
    · cases h
    · split at h
      · cases h
      · cases h; rfl

/-- **C73** All states of games on bordered texts with a Pacman are of the kind of the theorems above, and clear while they are open. -/
theorem C73_games {text : List (List Char)} {w : ℕ} (hb : TextBordered text w) (hP : ∃ x y, x < w ∧ y < text.length ∧ charAt text (x, y) = some 'P') (n : ℕ) :
    ∃ l, Layout.ofText text = .ok l ∧ ∀ ms s, playMoves (GState.init l n) ms = .ok s → Neat s ∧ s.layout = l ∧ (s.Open → Clear s) := by
  obtain ⟨l, hl, hs⟩ := C58_parse hb.rect
  refine ⟨l, hl, ?_⟩
  intro ms s hrun
  have h0 := start_neat hb hP n hl
  exact ⟨run_neat h0 ms hrun, (C52_placed h0.placed ms hrun).2.1, C54_initial hb hP n hl ms hrun⟩

/-- **C73** The demo: the text of its start is its layout with `<` for Pacman. -/
theorem C73_demo : ∃ l, Layout.ofText mediumClassic = .ok l ∧
    (GState.init l 2).str = .ok (withScore (mediumClassic.map (List.map startChar)) 0) ∧
    (∀ ms s, playMoves (GState.init l 2) ms = .ok s → s.str = .ok (withScore (pictureRows 20 11 (cellText s)) s.score)) ∧
    mediumClassic.map (List.map startChar) = mediumClassic.map (List.map fun c => if c = 'P' then '<' else c) := by
  obtain ⟨l, hl, hi⟩ := C73_initial mediumClassic_bordered.rect
  obtain ⟨l', hl', ht⟩ := C73_text mediumClassic_bordered ⟨9, 1, by decide, by decide +kernel, by decide +kernel⟩ 2
  rw [hl] at hl'
  cases hl'
  refine ⟨l, hl, hi 2 ?_, ?_, by decide +kernel⟩
  · obtain ⟨l', hl', hs⟩ := C58_parse mediumClassic_bordered.rect
    rw [hl] at hl'
    cases hl'
    rw [(spec_agents_perm hs).2]
    decide +kernel
  · have : mediumClassic.length = 11 := by decide
    rw [this] at ht
    exact ht

/-! ### Cases -/

/-- The text of the state after some moves; `none` if something is raised. -/
def textAfter (s : GState) (ms : List (ℕ × Dir)) : Option String :=
  match playMoves s ms with
  | .error _ => none
  | .ok s' => match s'.str with
    | .error _ => none
    | .ok t => some (String.ofList t)

example : textAfter stage [] = some "%%%%%%%\n%<o G.%\n%%%%%%%\nScore: 0\n" := by decide +kernel

/-- Pacman moves left, and shows `>` then. -/
example : textAfter stage [(0, .east), (0, .west)] = some "%%%%%%%\n%>  G.%\n%%%%%%%\nScore: -2\n" := by decide +kernel

theorem stage_neat : Neat stage := by
  refine ⟨stage_fresh.placed, rfl, rfl, ?_, ?_, ?_, by decide, ?_⟩
  · have : ∀ x < 7, ∀ y < 3, stage.food.At x y true → stage.layout.walls.Free (x, y) := by decide
    intro x y h
    obtain ⟨hx, hy⟩ := stage_fresh.placed.foodShaped.lt_of_at h
    exact this x hx y hy h
  · intro c hc
    rw [List.mem_singleton.1 (show c ∈ [((2 : ℤ), (1 : ℤ))] from hc)]
    exact ⟨2, 1, rfl, by decide⟩
  · intro x y h hc
    have e := List.mem_singleton.1 (show ((x : ℤ), (y : ℤ)) ∈ [((2 : ℤ), (1 : ℤ))] from hc)
    simp only [Prod.mk.injEq] at e
    obtain ⟨rfl, rfl⟩ : x = 2 ∧ y = 1 := by omega
    exact absurd h (by decide)
  · intro pac rest hag p hp hc
    have h1 : stage.agents.head? = some pac := by rw [hag]; rfl
    cases h1
    have : (1, 1) = p := cellAt_inj ((toPos_cell (1, 1)).symm.trans hp)
    subst this
    revert hc
    decide

/-- The hypotheses of `C73_read_back`, `C73_tells` and `C73_pacman`. -/
example : (∃ rows l', stage.str = .ok (withScore rows stage.score) ∧ Layout.ofText rows = .ok l' ∧ l'.walls = stage.layout.walls) ∧
    cellText stage (1, 1) = '<' := by
  refine ⟨?_, ?_⟩
  · obtain ⟨rows, l', h1, h2, h3, _⟩ := C73_read_back stage_neat
    exact ⟨rows, l', h1, h2, h3⟩
  · have hclear : Clear stage := by
      intro pac rest hag g hg _
      have h1 : stage.agents.tail = rest := by rw [hag]; rfl
      rw [← h1] at hg
      rw [List.mem_singleton.1 hg]
      exact ⟨rfl, rfl⟩
    rcases C73_pacman stage_neat hclear (pac := stage.agents.headD ⟨⟨(0, 0), .stop⟩, ⟨(0, 0), .stop⟩, true, 0⟩) (rest := stage.agents.tail) rfl (p := (1, 1))
      (toPos_cell (1, 1)) with h | ⟨g, hg, _, _, hs, _⟩
    · rw [h]; rfl
    · rw [List.mem_singleton.1 hg] at hs
      exact absurd hs (by decide +kernel)

/-- **C73** A ghost that comes to a capsule is not to be seen: the capsule is drawn over it, and the ghost is behind. Half-way it is drawn at the upper or right cell. -/
theorem C73_hidden_ghost : textAfter stage [(0, .stop), (1, .west), (0, .stop), (1, .west)] = some "%%%%%%%\n%<o  .%\n%%%%%%%\nScore: -2\n" ∧
    textAfter stage [(0, .east), (1, .west)] = some "%%%%%%%\n% < G.%\n%%%%%%%\nScore: -1\n" := by
  constructor <;> decide +kernel

/-- **C73** An open state in which a ghost hides Pacman. -/
theorem C73_hidden_pacman : textAfter (corridorState (2, 1) 5) [(0, .east), (1, .west)] = some "%%%%%\n% G.%\n%%%%%\nScore: 209\n" := by decide +kernel

/-- **C73** The text does not tell everything: ghosts hide food, and timers are not shown. -/
theorem C73_blind : (corridorState (3, 1) 0).str = (corridorState (3, 1) 5).str ∧
    (corridorState (3, 1) 0).str = { corridorState (3, 1) 0 with
      food := ⟨5, 3, [[false, false, false], [false, false, false], [false, true, false], [false, false, false], [false, false, false]]⟩ }.str := by
  constructor <;> decide +kernel

end Verif.Pac
