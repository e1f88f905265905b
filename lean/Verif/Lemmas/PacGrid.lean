import Verif.Model.PacGrid
import Mathlib.Algebra.BigOperators.Group.List.Basic
import Mathlib.Tactic.Linarith
import Mathlib.Tactic.Ring

set_option linter.unusedSectionVars false

/-!
# Lemmas on grids
-/

namespace Verif.Pac

theorem pyIdx_nat (n k : ℕ) : pyIdx n k = if k < n then some k else none := by
  unfold pyIdx
  rw [if_pos (Int.natCast_nonneg k)]
  by_cases h : k < n
  · rw [if_pos (by exact_mod_cast h), if_pos h, Int.toNat_natCast]
  · rw [if_neg (by exact_mod_cast h), if_neg h]

theorem pyGet_nat {A : Type} (l : List A) (k : ℕ) (a : A) : pyGet l k = .ok a ↔ l[k]? = some a := by
  unfold pyGet
  rw [pyIdx_nat]
  by_cases h : k < l.length
  · rw [if_pos h]
    simp only [List.getElem?_eq_getElem h, Except.ok.injEq, Option.some.injEq]
  · rw [if_neg h]
    rw [List.getElem?_eq_none (by omega)]
    simp

/-- The columns of a grid fit its width and height. -/
def Grid.Shaped (g : Grid) : Prop := g.data.length = g.width ∧ ∀ col ∈ g.data, col.length = g.height

/-- The content of a cell with natural coordinates. -/
def Grid.At (g : Grid) (x y : ℕ) (b : Bool) : Prop := ∃ col, g.data[x]? = some col ∧ col[y]? = some b

theorem Grid.At.unique {g : Grid} {x y : ℕ} {b c : Bool} (h1 : g.At x y b) (h2 : g.At x y c) : b = c := by
  obtain ⟨u, hu, hb⟩ := h1
  obtain ⟨v, hv, hc⟩ := h2
  rw [hu] at hv
  cases hv
  rw [hb] at hc
  cases hc
  rfl

theorem Grid.get_nat (g : Grid) (x y : ℕ) (b : Bool) : g.get x y = .ok b ↔ g.At x y b := by
  unfold Grid.get Grid.At
  cases h : pyGet g.data x with
  | error e =>
    constructor
    · intro h; cases h
    · rintro ⟨col, hc, _⟩
      rw [(pyGet_nat _ _ _).2 hc] at h
      cases h
  | ok col =>
    have := (pyGet_nat _ _ _).1 h
    simp only [pyGet_nat]
    constructor
    · intro hb; exact ⟨col, this, hb⟩
    · rintro ⟨c, hc, hb⟩
      rw [this] at hc; cases hc; exact hb

theorem Grid.Shaped.at_of_lt {g : Grid} (h : g.Shaped) {x y : ℕ} (hx : x < g.width) (hy : y < g.height) : ∃ b, g.At x y b := by
  have hx' : x < g.data.length := by rw [h.1]; exact hx
  have hy' : y < (g.data[x]).length := by rw [h.2 _ (List.getElem_mem _)]; exact hy
  exact ⟨_, _, List.getElem?_eq_getElem hx', List.getElem?_eq_getElem hy'⟩

theorem Grid.Shaped.lt_of_at {g : Grid} (h : g.Shaped) {x y : ℕ} {b : Bool} (hb : g.At x y b) : x < g.width ∧ y < g.height := by
  obtain ⟨col, h1, h2⟩ := hb
  obtain ⟨hx, hcol⟩ := List.getElem?_eq_some_iff.1 h1
  obtain ⟨hy, _⟩ := List.getElem?_eq_some_iff.1 h2
  refine ⟨by rw [← h.1]; exact hx, ?_⟩
  rw [← h.2 col (by rw [← hcol]; exact List.getElem_mem _)]; exact hy

theorem Grid.put_nat {g : Grid} (h : g.Shaped) {x y : ℕ} (hx : x < g.width) (hy : y < g.height) (b : Bool) :
    ∃ g', g.put x y b = .ok g' ∧ g'.Shaped ∧ g'.width = g.width ∧ g'.height = g.height ∧
      ∃ col, g.data[x]? = some col ∧ g'.data = g.data.set x (col.set y b) := by
  have hx' : x < g.data.length := by rw [h.1]; exact hx
  have hl : (g.data[x]).length = g.height := h.2 _ (List.getElem_mem _)
  refine ⟨{ g with data := g.data.set x ((g.data[x]).set y b) }, ?_, ⟨?_, ?_⟩, rfl, rfl, _, List.getElem?_eq_getElem hx', rfl⟩
  · unfold Grid.put
    rw [pyIdx_nat, if_pos hx']
    simp only [List.getElem?_eq_getElem hx', pyIdx_nat, hl, if_pos hy]
  · simpa using h.1
  · intro col hcol
    rcases List.mem_or_eq_of_mem_set hcol with h1 | h1
    · exact h.2 _ h1
    · rw [h1, List.length_set]; exact hl

theorem Grid.put_at {g g' : Grid} {x y : ℕ} {b : Bool} {col : List Bool} (hc : g.data[x]? = some col) (hy : y < col.length)
    (hd : g'.data = g.data.set x (col.set y b)) (u v : ℕ) (c : Bool) :
    g'.At u v c ↔ (u = x ∧ v = y ∧ c = b) ∨ (¬ (u = x ∧ v = y) ∧ g.At u v c) := by
  obtain ⟨hx, _⟩ := List.getElem?_eq_some_iff.1 hc
  unfold Grid.At
  rw [hd]
  by_cases hu : u = x
  · subst hu
    rw [List.getElem?_set_self hx]
    by_cases hv : v = y
    · subst hv
      simp only [Option.some.injEq, exists_eq_left', List.getElem?_set_self hy, true_and, not_true_eq_false, false_and, or_false]
      exact eq_comm
    · simp only [Option.some.injEq, exists_eq_left', hc, List.getElem?_set_ne (Ne.symm hv), hv, false_and, and_false, not_false_iff,
        true_and, false_or]
  · rw [List.getElem?_set_ne (Ne.symm hu)]
    simp [hu]

/-! ### Flat view -/

theorem flat_length (l : List (List Bool)) (h : ℕ) (hl : ∀ c ∈ l, c.length = h) : l.flatten.length = l.length * h := by
  induction l with
  | nil => simp
  | cons c t ih =>
    rw [List.flatten_cons, List.length_append, ih (fun d hd => hl d (List.mem_cons_of_mem _ hd)), hl c List.mem_cons_self, List.length_cons]
    ring

theorem flat_get (l : List (List Bool)) (h : ℕ) (hl : ∀ c ∈ l, c.length = h) (x y : ℕ) (hy : y < h) :
    l.flatten[x * h + y]? = (l[x]?).bind fun c => c[y]? := by
  induction l generalizing x with
  | nil => simp
  | cons c t ih =>
    have hc := hl c List.mem_cons_self
    rw [List.flatten_cons]
    cases x with
    | zero =>
      rw [List.getElem?_append_left (by omega)]
      simp
    | succ k =>
      rw [List.getElem?_append_right (by rw [hc]; nlinarith), hc, List.getElem?_cons_succ,
        ← ih (fun d hd => hl d (List.mem_cons_of_mem _ hd))]
      congr 1
      have : (k + 1) * h + y = h + (k * h + y) := by ring
      omega

theorem flat_set (l : List (List Bool)) (h : ℕ) (hl : ∀ c ∈ l, c.length = h) (x y : ℕ) (hy : y < h) (b : Bool) (col : List Bool)
    (hc : l[x]? = some col) : (l.set x (col.set y b)).flatten = l.flatten.set (x * h + y) b := by
  induction l generalizing x with
  | nil => simp at hc
  | cons c t ih =>
    have hc' := hl c List.mem_cons_self
    cases x with
    | zero =>
      simp only [List.getElem?_cons_zero, Option.some.injEq] at hc
      subst hc
      rw [List.set_cons_zero, List.flatten_cons, List.flatten_cons, List.set_append_left _ _ (by omega)]
      congr 2
      omega
    | succ k =>
      rw [List.getElem?_cons_succ] at hc
      rw [List.set_cons_succ, List.flatten_cons, List.flatten_cons, ih (fun d hd => hl d (List.mem_cons_of_mem _ hd)) k hc,
        List.set_append_right _ _ (by rw [hc']; nlinarith)]
      congr 2
      have : (k + 1) * h + y = h + (k * h + y) := by ring
      omega

theorem flat_inj (l m : List (List Bool)) (h : ℕ) (hl : ∀ c ∈ l, c.length = h) (hm : ∀ c ∈ m, c.length = h) (hn : l.length = m.length)
    (he : l.flatten = m.flatten) : l = m := by
  induction l generalizing m with
  | nil =>
    cases m with
    | nil => rfl
    | cons _ _ => simp at hn
  | cons c t ih =>
    cases m with
    | nil => simp at hn
    | cons d u =>
      rw [List.flatten_cons, List.flatten_cons] at he
      obtain ⟨h1, h2⟩ := List.append_inj he (by rw [hl c List.mem_cons_self, hm d List.mem_cons_self])
      rw [h1, ih u (fun e he => hl e (List.mem_cons_of_mem _ he)) (fun e he => hm e (List.mem_cons_of_mem _ he))
        (by simpa using hn) h2]

/-- The cells column by column. -/
def Grid.flat (g : Grid) : List Bool := g.data.flatten

theorem Grid.Shaped.flat_length {g : Grid} (h : g.Shaped) : g.flat.length = g.width * g.height := by
  unfold Grid.flat
  rw [Verif.Pac.flat_length _ _ h.2, h.1]

theorem cell_lt {w h i : ℕ} (hi : i < w * h) : i / h < w ∧ i % h < h ∧ (i / h) * h + i % h = i := by
  have hh : 0 < h := by
    rcases Nat.eq_zero_or_pos h with h0 | h0
    · subst h0; simp at hi
    · exact h0
  refine ⟨Nat.div_lt_of_lt_mul (by rw [Nat.mul_comm]; exact hi), Nat.mod_lt _ hh, ?_⟩
  rw [Nat.mul_comm]; exact Nat.div_add_mod i h

theorem Grid.Shaped.get_cell {g : Grid} (h : g.Shaped) {i : ℕ} (hi : i < g.width * g.height) (b : Bool) :
    g.get (g.cellPos i).1 (g.cellPos i).2 = .ok b ↔ g.flat[i]? = some b := by
  obtain ⟨h1, h2, h3⟩ := cell_lt hi
  unfold Grid.cellPos Grid.flat
  rw [Grid.get_nat, Grid.At]
  conv_rhs => rw [← h3, flat_get _ _ h.2 _ _ h2]
  simp [Option.bind_eq_some_iff]

theorem Grid.Shaped.put_cell {g : Grid} (h : g.Shaped) {i : ℕ} (hi : i < g.width * g.height) (b : Bool) :
    ∃ g', g.put (g.cellPos i).1 (g.cellPos i).2 b = .ok g' ∧ g'.Shaped ∧ g'.width = g.width ∧ g'.height = g.height ∧
      g'.flat = g.flat.set i b := by
  obtain ⟨h1, h2, h3⟩ := cell_lt hi
  obtain ⟨g', e, hs, hw, hh, col, hc, hd⟩ := Grid.put_nat h h1 h2 b
  refine ⟨g', e, hs, hw, hh, ?_⟩
  unfold Grid.flat
  rw [hd, flat_set _ _ h.2 _ _ h2 _ _ hc, h3]

theorem Grid.Shaped.eq_of_flat {g h : Grid} (hg : g.Shaped) (hh : h.Shaped) (hw : g.width = h.width) (hht : g.height = h.height)
    (he : g.flat = h.flat) : g = h := by
  have : g.data = h.data := flat_inj _ _ g.height hg.2 (by rw [hht]; exact hh.2) (by rw [hg.1, hh.1, hw]) he
  cases g; cases h
  simp_all

theorem Grid.new_shaped (w h : ℕ) (b : Bool) : (Grid.new w h b).Shaped := by
  refine ⟨by simp [Grid.new], ?_⟩
  intro col hc
  simp only [Grid.new] at hc
  rw [List.eq_of_mem_replicate hc]
  simp [Grid.new]

theorem Grid.new_at (w h : ℕ) (b : Bool) (x y : ℕ) (c : Bool) : (Grid.new w h b).At x y c ↔ x < w ∧ y < h ∧ c = b := by
  unfold Grid.At Grid.new
  simp only [List.getElem?_replicate]
  constructor
  · rintro ⟨col, h1, h2⟩
    split at h1
    · cases h1
      rw [List.getElem?_replicate] at h2
      split at h2
      · cases h2; exact ⟨by assumption, by assumption, rfl⟩
      · cases h2
    · cases h1
  · rintro ⟨h1, h2, rfl⟩
    refine ⟨List.replicate h c, by rw [if_pos h1], by rw [List.getElem?_replicate, if_pos h2]⟩

end Verif.Pac
