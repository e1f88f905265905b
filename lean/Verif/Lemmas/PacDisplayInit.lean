import Verif.Lemmas.PacDisplay

/-!
# `PacmanGraphics.initialize`: the slots of the canvas
-/

namespace Verif.Pac

theorem addAll_eq (its : List Item) : ∀ c : Canvas, c.addAll its = (c ++ its.map some, List.range' c.length its.length) := by
  induction its with
  | nil => intro c; simp [Canvas.addAll]
  | cons a t ih =>
    intro c
    simp only [Canvas.addAll, Canvas.add, ih, List.map_cons, List.append_assoc, List.cons_append, List.nil_append, List.length_append, List.length_cons,
      List.length_nil, Nat.zero_add, List.range'_succ]

/-! ### Food -/

/-- The cells of a column with food, from row `y` on. -/
def colCells (x : ℕ) : ℕ → List Bool → List (ℕ × ℕ)
  | _, [] => []
  | y, true :: t => (x, y) :: colCells x (y + 1) t
  | y, false :: t => colCells x (y + 1) t

/-- The cells with food, from column `x` on. -/
def dataCells : ℕ → List (List Bool) → List (ℕ × ℕ)
  | _, [] => []
  | x, col :: t => colCells x 0 col ++ dataCells (x + 1) t

theorem drawColumn_spec (g : ℚ) (h x : ℕ) (col : List Bool) : ∀ (y : ℕ) (c : Canvas),
    (drawColumn g h x y col c).1 = c ++ (colCells x y col).map (fun p => some (foodItem g h p)) ∧
    ∀ j : ℕ, col[j]? = some true → ∃ id, (drawColumn g h x y col c).2[j]? = some (some id) ∧ c.length ≤ id ∧
      (colCells x y col)[id - c.length]? = some (x, y + j) := by
  induction col with
  | nil => intro y c; exact ⟨by simp [drawColumn, colCells], by simp⟩
  | cons b t ih =>
    intro y c
    cases b with
    | true =>
      obtain ⟨h1, h2⟩ := ih (y + 1) (c ++ [some (foodItem g h (x, y))])
      refine ⟨?_, ?_⟩
      · simp only [drawColumn, Canvas.add, h1, colCells, List.map_cons, List.append_assoc, List.cons_append, List.nil_append]
      · intro j hj
        cases j with
        | zero =>
          refine ⟨c.length, ?_, le_refl _, ?_⟩
          · simp [drawColumn, Canvas.add]
          · simp [colCells]
        | succ j =>
          obtain ⟨id, hid, hle, hat⟩ := h2 j (by simpa using hj)
          rw [List.length_append, List.length_singleton] at hle hat
          refine ⟨id, ?_, by omega, ?_⟩
          · simpa [drawColumn, Canvas.add] using hid
          · obtain ⟨m, hm⟩ : ∃ m, id - c.length = m + 1 := ⟨id - c.length - 1, by omega⟩
            rw [hm, show colCells x y (true :: t) = (x, y) :: colCells x (y + 1) t from rfl, List.getElem?_cons_succ]
            rw [show id - (c.length + 1) = m by omega] at hat
            rw [hat, Nat.add_right_comm, Nat.add_assoc]
    | false =>
      obtain ⟨h1, h2⟩ := ih (y + 1) c
      refine ⟨?_, ?_⟩
      · simp only [drawColumn, h1, colCells]
      · intro j hj
        cases j with
        | zero => simp at hj
        | succ j =>
          obtain ⟨id, hid, hle, hat⟩ := h2 j (by simpa using hj)
          refine ⟨id, by simpa [drawColumn] using hid, hle, ?_⟩
          rw [show colCells x y (false :: t) = colCells x (y + 1) t from rfl, hat, Nat.add_right_comm, Nat.add_assoc]

theorem drawFood_spec (g : ℚ) (h : ℕ) (data : List (List Bool)) : ∀ (x : ℕ) (c : Canvas),
    (drawFood g h x data c).1 = c ++ (dataCells x data).map (fun p => some (foodItem g h p)) ∧
    ∀ (i j : ℕ) (col : List Bool), data[i]? = some col → col[j]? = some true → ∃ im id, (drawFood g h x data c).2[i]? = some im ∧
      im[j]? = some (some id) ∧ c.length ≤ id ∧ (dataCells x data)[id - c.length]? = some (x + i, j) := by
  induction data with
  | nil => intro x c; exact ⟨by simp [drawFood, dataCells], by simp⟩
  | cons col t ih =>
    intro x c
    obtain ⟨a1, a2⟩ := drawColumn_spec g h x col 0 c
    obtain ⟨b1, b2⟩ := ih (x + 1) (drawColumn g h x 0 col c).1
    refine ⟨?_, ?_⟩
    · show (drawFood g h (x + 1) t (drawColumn g h x 0 col c).1).1 = _
      rw [b1, a1]
      simp only [dataCells, List.map_append, List.append_assoc]
    · intro i j col' hi hj
      cases i with
      | zero =>
        rw [List.getElem?_cons_zero] at hi
        cases hi
        obtain ⟨id, hid, hle, hat⟩ := a2 j hj
        refine ⟨(drawColumn g h x 0 col c).2, id, by simp [drawFood], hid, hle, ?_⟩
        rw [show dataCells x (col :: t) = colCells x 0 col ++ dataCells (x + 1) t from rfl,
          List.getElem?_append_left (List.getElem?_eq_some_iff.1 hat).1, hat]
        simp
      | succ i =>
        rw [List.getElem?_cons_succ] at hi
        obtain ⟨im, id, him, hid, hle, hat⟩ := b2 i j col' hi hj
        rw [a1, List.length_append, List.length_map] at hle hat
        refine ⟨im, id, by simpa [drawFood] using him, hid, by omega, ?_⟩
        rw [show dataCells x (col :: t) = colCells x 0 col ++ dataCells (x + 1) t from rfl, List.getElem?_append_right (by omega)]
        rw [Nat.sub_sub, hat, Nat.add_right_comm, Nat.add_assoc]

theorem mem_colCells (x : ℕ) (col : List Bool) : ∀ (y : ℕ) (p : ℕ × ℕ), p ∈ colCells x y col → p.1 = x ∧ y ≤ p.2 := by
  induction col with
  | nil => intro y p hp; simp [colCells] at hp
  | cons b t ih =>
    intro y p hp
    cases b with
    | true =>
      rcases List.mem_cons.1 hp with h | h
      · subst h; exact ⟨rfl, le_refl _⟩
      · exact ⟨(ih _ _ h).1, by have := (ih _ _ h).2; omega⟩
    | false => exact ⟨(ih _ _ hp).1, by have := (ih _ _ hp).2; omega⟩

theorem nodup_colCells (x : ℕ) (col : List Bool) : ∀ y : ℕ, (colCells x y col).Nodup := by
  induction col with
  | nil => intro y; simp [colCells]
  | cons b t ih =>
    intro y
    cases b with
    | true =>
      refine List.nodup_cons.2 ⟨fun h => ?_, ih _⟩
      have := (mem_colCells x t _ _ h).2
      simp at this
    | false => exact ih _

theorem mem_dataCells (data : List (List Bool)) : ∀ (x : ℕ) (p : ℕ × ℕ), p ∈ dataCells x data → x ≤ p.1 := by
  induction data with
  | nil => intro x p hp; simp [dataCells] at hp
  | cons col t ih =>
    intro x p hp
    rcases List.mem_append.1 hp with h | h
    · exact (mem_colCells _ _ _ _ h).1.ge
    · have := ih _ _ h; omega

theorem nodup_dataCells (data : List (List Bool)) : ∀ x : ℕ, (dataCells x data).Nodup := by
  induction data with
  | nil => intro x; simp [dataCells]
  | cons col t ih =>
    intro x
    refine List.nodup_append'.2 ⟨nodup_colCells _ _ _, ih _, ?_⟩
    intro p h1 h2
    have := (mem_colCells _ _ _ _ h1).1
    have := mem_dataCells _ _ _ h2
    omega

theorem colCells_filter (x : ℕ) (col : List Bool) : ∀ y : ℕ,
    colCells x y col = ((List.range' y col.length).filter fun k => decide (col[k - y]? = some true)).map fun k => (x, k) := by
  induction col with
  | nil => intro y; simp [colCells]
  | cons b t ih =>
    intro y
    have ht : ((List.range' (y + 1) t.length).filter fun k => decide ((b :: t)[k - y]? = some true)) =
        (List.range' (y + 1) t.length).filter fun k => decide (t[k - (y + 1)]? = some true) := by
      apply List.filter_congr
      intro k hk
      have := (List.mem_range'_1.1 hk).1
      obtain ⟨m, rfl⟩ : ∃ m, k = y + 1 + m := ⟨k - (y + 1), by omega⟩
      rw [show y + 1 + m - y = m + 1 by omega, show y + 1 + m - (y + 1) = m by omega, List.getElem?_cons_succ]
    rw [List.length_cons, List.range'_succ, List.filter_cons, ht]
    cases b with
    | true => simp [colCells, ih]
    | false => simp [colCells, ih]

theorem dataCells_filter (data : List (List Bool)) (h : ℕ) (hd : ∀ c ∈ data, c.length = h) : ∀ x : ℕ,
    dataCells x data = ((List.range' x data.length).flatMap fun k => (List.range h).map fun y => (k, y)).filter fun p =>
      decide (((data[p.1 - x]?).bind fun c => c[p.2]?) = some true) := by
  induction data with
  | nil => intro x; simp [dataCells]
  | cons col t ih =>
    intro x
    rw [List.length_cons, List.range'_succ, List.flatMap_cons, List.filter_append]
    rw [show dataCells x (col :: t) = colCells x 0 col ++ dataCells (x + 1) t from rfl]
    congr 1
    · rw [colCells_filter, List.filter_map, hd col List.mem_cons_self, ← List.range_eq_range']
      congr 1
      apply List.filter_congr
      intro k _
      simp
    · rw [ih (fun c hc => hd c (List.mem_cons_of_mem _ hc))]
      apply List.filter_congr
      intro p hp
      obtain ⟨k, hk, hp2⟩ := List.mem_flatMap.1 hp
      obtain ⟨y, _, rfl⟩ := List.mem_map.1 hp2
      have := (List.mem_range'_1.1 hk).1
      obtain ⟨m, rfl⟩ : ∃ m, k = x + 1 + m := ⟨k - (x + 1), by omega⟩
      simp only
      rw [show x + 1 + m - x = m + 1 by omega, show x + 1 + m - (x + 1) = m by omega, List.getElem?_cons_succ]

/-! ### Capsules -/

theorem drawCapsules_spec (g : ℚ) (h : ℕ) (caps : List (ℤ × ℤ)) : ∀ (c : Canvas) (d : Dict (ℤ × ℤ) ℕ), caps.Nodup →
    (drawCapsules g h caps c d).1 = c ++ caps.map (fun p => some (capsuleItem g h p)) ∧
    (∀ p ∈ caps, ∃ id, (drawCapsules g h caps c d).2.get? p = some id ∧ c.length ≤ id ∧ caps[id - c.length]? = some p) ∧
    ∀ p, p ∉ caps → (drawCapsules g h caps c d).2.get? p = d.get? p := by
  induction caps with
  | nil => intro c d _; exact ⟨by simp [drawCapsules], by simp, fun p _ => rfl⟩
  | cons q t ih =>
    intro c d hnd
    obtain ⟨hq, hnd'⟩ := List.nodup_cons.1 hnd
    obtain ⟨h1, h2, h3⟩ := ih (c ++ [some (capsuleItem g h q)]) (d.set q c.length) hnd'
    refine ⟨?_, ?_, ?_⟩
    · simp only [drawCapsules, Canvas.add, h1, List.map_cons, List.append_assoc, List.cons_append, List.nil_append]
    · intro p hp
      by_cases hpq : p = q
      · subst hpq
        refine ⟨c.length, ?_, le_refl _, by simp⟩
        show (drawCapsules g h t (c ++ [some (capsuleItem g h p)]) (d.set p c.length)).2.get? p = _
        rw [h3 p hq, Dict.get?_set_self]
      · have hpt : p ∈ t := (List.mem_cons.1 hp).resolve_left hpq
        obtain ⟨id, hid, hle, hat⟩ := h2 p hpt
        rw [List.length_append, List.length_singleton] at hle hat
        refine ⟨id, hid, by omega, ?_⟩
        obtain ⟨m, hm⟩ : ∃ m, id - c.length = m + 1 := ⟨id - c.length - 1, by omega⟩
        rw [hm, List.getElem?_cons_succ]
        rw [show id - (c.length + 1) = m by omega] at hat
        exact hat
    · intro p hp
      have hpt : p ∉ t := fun h => hp (List.mem_cons_of_mem _ h)
      have hpq : q ≠ p := fun h => hp (by rw [h]; exact List.mem_cons_self)
      show (drawCapsules g h t (c ++ [some (capsuleItem g h q)]) (d.set q c.length)).2.get? p = _
      rw [h3 p hpt, Dict.get?_set_ne _ _ hpq]

/-! ### Agents -/

/-- How many items an agent has. -/
def partCount (a : Agent) : ℕ := if a.isPacman then 1 else 5

/-- The slots of the agents, from agent `i` on. -/
def partSlots : ℕ → List Agent → List Slot
  | _, [] => []
  | i, a :: t => (List.range (partCount a)).map (Slot.part i) ++ partSlots (i + 1) t

theorem fresh_length (sn : ℚ → ℚ) (g : ℚ) (h : ℕ) (a : Agent) {i : ℕ} (hi : i < 6) : (freshItems sn g h a i).length = partCount a := by
  have h1 := agentItems_fresh (sn := sn) (g := g) (h := h) (a := a) hi
  unfold agentItems at h1
  unfold partCount
  by_cases hb : a.isPacman = true
  · rw [if_pos hb] at h1 ⊢
    rw [← Except.ok.inj h1]; rfl
  · rw [if_neg hb] at h1 ⊢
    unfold ghostItems at h1
    cases hc : ghostColor a i with
    | error e => rw [hc] at h1; cases h1
    | ok col => rw [hc] at h1; rw [← Except.ok.inj h1]; rfl

theorem drawAgents_spec (sn : ℚ → ℚ) (g : ℚ) (l : Layout) (s : GState) (seen : List Agent) (hlen : seen.length ≤ 6) (t : List Agent) :
    ∀ (i : ℕ) (c : Canvas), seen.drop i = t → ∃ ags, drawAgents sn g l.height i t c = .ok (c ++ (partSlots i t).map (shownFor sn g l s seen), ags) ∧
      ags.map Prod.fst = t ∧
      ∀ j a ids, ags[j]? = some (a, ids) → ∃ base, ids = List.range' base (partCount a) ∧ c.length ≤ base ∧
        ∀ k < partCount a, (partSlots i t)[base + k - c.length]? = some (.part (i + j) k) := by
  induction t with
  | nil => intro i c _; exact ⟨[], by simp [drawAgents, partSlots], rfl, by simp⟩
  | cons a t ih =>
    intro i c hdrop
    have hi : seen[i]? = some a := by
      have := congrArg (fun m => m[0]?) hdrop
      simpa using this
    have hi6 : i < 6 := by have := (List.getElem?_eq_some_iff.1 hi).1; omega
    have hdrop' : seen.drop (i + 1) = t := by
      rw [← List.drop_drop, hdrop]; rfl
    have hf := agentItems_fresh (sn := sn) (g := g) (h := l.height) (a := a) hi6
    have hfl := fresh_length sn g l.height a hi6
    have hitems : ((List.range (partCount a)).map (Slot.part i)).map (shownFor sn g l s seen) = (freshItems sn g l.height a i).map some := by
      apply List.ext_getElem?
      intro k
      simp only [List.map_map, List.getElem?_map]
      by_cases hk : k < partCount a
      · rw [List.getElem?_range hk]
        simp only [Option.map_some, Function.comp, shownFor, hi]
        rw [List.getElem?_eq_getElem (by rw [hfl]; exact hk)]
        rfl
      · rw [List.getElem?_eq_none (by simp; omega), List.getElem?_eq_none (by rw [hfl]; omega)]
        rfl
    obtain ⟨ags, h1, h2, h3⟩ := ih (i + 1) (c ++ (freshItems sn g l.height a i).map some) hdrop'
    refine ⟨(a, List.range' c.length (partCount a)) :: ags, ?_, ?_, ?_⟩
    · unfold drawAgents
      rw [hf]
      simp only [addAll_eq]
      rw [h1]
      simp only [partSlots, List.map_append, hitems, List.append_assoc, hfl]
    · rw [List.map_cons, h2]
    · intro j b ids hj
      cases j with
      | zero =>
        rw [List.getElem?_cons_zero] at hj
        simp only [Option.some.injEq, Prod.mk.injEq] at hj
        obtain ⟨rfl, rfl⟩ := hj
        refine ⟨c.length, rfl, le_refl _, ?_⟩
        intro k hk
        rw [Nat.add_sub_cancel_left]
        rw [show partSlots i (a :: t) = (List.range (partCount a)).map (Slot.part i) ++ partSlots (i + 1) t from rfl,
          List.getElem?_append_left (by simpa using hk), List.getElem?_map, List.getElem?_range hk]
        rfl
      | succ j =>
        rw [List.getElem?_cons_succ] at hj
        obtain ⟨base, e1, e2, e3⟩ := h3 j b ids hj
        rw [List.length_append, List.length_map, hfl] at e2 e3
        refine ⟨base, e1, by omega, ?_⟩
        intro k hk
        rw [show partSlots i (a :: t) = (List.range (partCount a)).map (Slot.part i) ++ partSlots (i + 1) t from rfl,
          List.getElem?_append_right (by simp; omega), List.length_map, List.length_range, Nat.sub_sub, e3 k hk, Nat.add_right_comm, Nat.add_assoc]

theorem mem_partSlots (t : List Agent) : ∀ (i : ℕ) (σ : Slot), σ ∈ partSlots i t → ∃ j k, i ≤ j ∧ σ = .part j k := by
  induction t with
  | nil => intro i σ h; simp [partSlots] at h
  | cons a t ih =>
    intro i σ h
    rcases List.mem_append.1 h with h | h
    · obtain ⟨k, _, rfl⟩ := List.mem_map.1 h
      exact ⟨i, k, le_refl _, rfl⟩
    · obtain ⟨j, k, h1, h2⟩ := ih _ _ h
      exact ⟨j, k, by omega, h2⟩

theorem nodup_partSlots (t : List Agent) : ∀ i : ℕ, (partSlots i t).Nodup := by
  induction t with
  | nil => intro i; simp [partSlots]
  | cons a t ih =>
    intro i
    refine List.nodup_append'.2 ⟨?_, ih _, ?_⟩
    · exact List.Nodup.map (fun x y h => by cases h; rfl) List.nodup_range
    · intro σ h1 h2
      obtain ⟨k, _, rfl⟩ := List.mem_map.1 h1
      obtain ⟨j, k', h3, h4⟩ := mem_partSlots _ _ _ h2
      cases h4
      omega

/-! ### Walls -/

theorem isWall_ok {m : Grid} (hm : m.Shaped) (x y : ℤ) : ∃ b, isWall m x y = .ok b := by
  unfold isWall
  by_cases h1 : x < 0 ∨ y < 0
  · exact ⟨false, if_pos h1⟩
  · rw [if_neg h1]
    by_cases h2 : x ≥ m.width ∨ y ≥ m.height
    · exact ⟨false, if_pos h2⟩
    · rw [if_neg h2]
      obtain ⟨a, rfl⟩ : ∃ a : ℕ, x = a := ⟨x.toNat, by omega⟩
      obtain ⟨b, rfl⟩ : ∃ b : ℕ, y = b := ⟨y.toNat, by omega⟩
      obtain ⟨v, hv⟩ := hm.at_of_lt (x := a) (y := b) (by omega) (by omega)
      rw [(Grid.get_nat m a b v).2 hv]
      exact ⟨v, rfl⟩

theorem around_ok {m : Grid} (hm : m.Shaped) (x y : ℤ) : ∃ a, around m x y = .ok a := by
  unfold around
  obtain ⟨b1, e1⟩ := isWall_ok hm (x - 1) y
  obtain ⟨b2, e2⟩ := isWall_ok hm (x + 1) y
  obtain ⟨b3, e3⟩ := isWall_ok hm x (y + 1)
  obtain ⟨b4, e4⟩ := isWall_ok hm x (y - 1)
  obtain ⟨b5, e5⟩ := isWall_ok hm (x - 1) (y + 1)
  obtain ⟨b6, e6⟩ := isWall_ok hm (x - 1) (y - 1)
  obtain ⟨b7, e7⟩ := isWall_ok hm (x + 1) (y + 1)
  obtain ⟨b8, e8⟩ := isWall_ok hm (x + 1) (y - 1)
  simp only [e1, e2, e3, e4, e5, e6, e7, e8, bind, Except.bind]
  exact ⟨_, rfl⟩

theorem wallsColumn_ok {m : Grid} (hm : m.Shaped) (g : ℚ) (h x : ℕ) (col : List Bool) : ∀ y : ℕ, ∃ its, wallsColumn m g h x y col = .ok its := by
  induction col with
  | nil => intro y; exact ⟨[], rfl⟩
  | cons b t ih =>
    intro y
    obtain ⟨rest, hr⟩ := ih (y + 1)
    obtain ⟨a, ha⟩ := around_ok hm x y
    unfold wallsColumn
    cases b <;> simp only [ha, hr, bind, Except.bind, Bool.false_eq_true, if_false, if_true] <;> exact ⟨_, rfl⟩

theorem wallsFrom_ok {m : Grid} (hm : m.Shaped) (g : ℚ) (h : ℕ) (data : List (List Bool)) : ∀ x : ℕ, ∃ its, wallsFrom m g h x data = .ok its := by
  induction data with
  | nil => intro x; exact ⟨[], rfl⟩
  | cons col t ih =>
    intro x
    obtain ⟨rest, hr⟩ := ih (x + 1)
    obtain ⟨its, hi⟩ := wallsColumn_ok hm g h x col 0
    unfold wallsFrom
    simp only [hi, hr, bind, Except.bind]
    exact ⟨_, rfl⟩

/-! ### All slots -/

/-- The slots of the canvas in the order of creation. -/
def slots (walls : List Item) (l : Layout) (agents : List Agent) : List Slot :=
  [.background, .score] ++ (walls.zipIdx.map fun p => Slot.wall p.1 p.2) ++ (dataCells 0 l.food.data).map Slot.food ++ l.capsules.map Slot.capsule ++
    partSlots 0 agents

theorem nodup_slots (walls : List Item) (l : Layout) (hc : l.capsules.Nodup) (agents : List Agent) : (slots walls l agents).Nodup := by
  unfold slots
  have hw : (walls.zipIdx.map fun p => Slot.wall p.1 p.2).Nodup := by
    apply List.Nodup.map
    · intro p q h
      simp only [Slot.wall.injEq] at h
      exact Prod.ext h.1 h.2
    · apply List.Nodup.of_map Prod.snd
      rw [List.zipIdx_map_snd]
      exact List.nodup_range'
  refine List.nodup_append'.2 ⟨List.nodup_append'.2 ⟨List.nodup_append'.2 ⟨List.nodup_append'.2 ⟨by simp, hw, ?_⟩, ?_, ?_⟩, ?_, ?_⟩, nodup_partSlots _ _, ?_⟩
  · intro σ h1 h2
    obtain ⟨p, _, rfl⟩ := List.mem_map.1 h2
    simp at h1
  · exact List.Nodup.map (fun p q h => by cases h; rfl) (nodup_dataCells _ _)
  · intro σ h1 h2
    obtain ⟨p, _, rfl⟩ := List.mem_map.1 h2
    simp at h1
  · exact List.Nodup.map (fun p q h => by cases h; rfl) hc
  · intro σ h1 h2
    obtain ⟨p, _, rfl⟩ := List.mem_map.1 h2
    simp at h1
  · intro σ h1 h2
    obtain ⟨j, k, _, rfl⟩ := mem_partSlots _ _ _ h2
    simp at h1

/-- **The start.** `initialize` succeeds and shows the initial state. -/
theorem initialize_shows {sn : ℚ → ℚ} {g : ℚ} {s : GState} (hw : s.layout.walls.Shaped) (hf : s.food = s.layout.food) (hfs : s.layout.food.Shaped)
    (hc : s.capsules = s.layout.capsules) (hcn : s.layout.capsules.Nodup) (hlen : s.agents.length ≤ 6) (hsc : s.score = 0) :
    ∃ walls d, wallsFrom s.layout.walls g s.layout.height 0 s.layout.walls.data = .ok walls ∧ Disp.initialize sn g s = .ok d ∧
      Shows sn g (slots walls s.layout s.agents) s.layout d s s.agents := by
  obtain ⟨walls, hwalls⟩ := wallsFrom_ok hw g s.layout.height s.layout.walls.data 0
  refine ⟨walls, ?_⟩
  -- the canvas before each part
  obtain ⟨c0, hc0⟩ : ∃ c : Canvas, c = [Slot.background, .score].map (shownFor sn g s.layout s s.agents) := ⟨_, rfl⟩
  have hstart : (infoPane g s.layout.height (makeWindow g s.layout.width s.layout.height)) = (c0, 1) := by
    rw [hc0]
    unfold infoPane makeWindow Canvas.add
    simp only [List.nil_append, List.cons_append, List.map_cons, List.map_nil, shownFor, List.length_cons, List.length_nil, hsc]
    rfl
  obtain ⟨c1, hc1⟩ : ∃ c : Canvas, c = c0 ++ walls.map some := ⟨_, rfl⟩
  obtain ⟨f1, f2⟩ := drawFood_spec g s.layout.height s.layout.food.data 0 c1
  obtain ⟨c2, hc2⟩ : ∃ c : Canvas, c = (drawFood g s.layout.height 0 s.layout.food.data c1).1 := ⟨_, rfl⟩
  obtain ⟨k1, k2, _⟩ := drawCapsules_spec g s.layout.height s.layout.capsules c2 Dict.empty hcn
  obtain ⟨c3, hc3⟩ : ∃ c : Canvas, c = (drawCapsules g s.layout.height s.layout.capsules c2 Dict.empty).1 := ⟨_, rfl⟩
  obtain ⟨ags, a1, a2, a3⟩ := drawAgents_spec sn g s.layout s s.agents hlen s.agents 0 c3 (List.drop_zero)
  -- the slots
  obtain ⟨S1, hS1⟩ : ∃ S : List Slot, S = [Slot.background, .score] ++ walls.zipIdx.map fun p => Slot.wall p.1 p.2 := ⟨_, rfl⟩
  have e1 : c1 = S1.map (shownFor sn g s.layout s s.agents) := by
    rw [hc1, hc0, hS1, List.map_append]
    congr 1
    rw [List.map_map]
    apply List.ext_getElem?
    intro k
    rw [List.getElem?_map, List.getElem?_map, List.getElem?_zipIdx]
    cases walls[k]? <;> rfl
  have e2 : c2 = (S1 ++ (dataCells 0 s.layout.food.data).map Slot.food).map (shownFor sn g s.layout s s.agents) := by
    rw [hc2, f1, List.map_append, e1]
    congr 1
    rw [List.map_map]
    apply List.map_congr_left
    intro p hp
    have : s.food.At p.1 p.2 true := by
      rw [hf]
      rw [dataCells_filter s.layout.food.data s.layout.food.height hfs.2 0] at hp
      have := (List.mem_filter.1 hp).2
      rw [Grid.at_iff]
      simpa using this
    simp only [Function.comp, shownFor, if_pos this]
  have e3 : c3 = (S1 ++ (dataCells 0 s.layout.food.data).map Slot.food ++ s.layout.capsules.map Slot.capsule).map (shownFor sn g s.layout s s.agents) := by
    rw [hc3, k1, List.map_append, e2]
    congr 1
    rw [List.map_map]
    apply List.map_congr_left
    intro p hp
    have : p ∈ s.capsules := by rw [hc]; exact hp
    simp only [Function.comp, shownFor, if_pos this]
  have hslots : slots walls s.layout s.agents = S1 ++ (dataCells 0 s.layout.food.data).map Slot.food ++ s.layout.capsules.map Slot.capsule ++
      partSlots 0 s.agents := by
    unfold slots; rw [hS1]
  have l1 : c1.length = S1.length := by rw [e1, List.length_map]
  have l2 : c2.length = S1.length + (dataCells 0 s.layout.food.data).length := by rw [e2, List.length_map, List.length_append, List.length_map]
  have l3 : c3.length = S1.length + (dataCells 0 s.layout.food.data).length + s.layout.capsules.length := by
    rw [e3, List.length_map, List.length_append, List.length_append, List.length_map, List.length_map]
  refine ⟨⟨c3 ++ (partSlots 0 s.agents).map (shownFor sn g s.layout s s.agents), s.layout.height, g, 1,
    (drawFood g s.layout.height 0 s.layout.food.data c1).2, (drawCapsules g s.layout.height s.layout.capsules c2 Dict.empty).2, ags⟩, hwalls, ?_, ?_⟩
  · unfold Disp.initialize
    simp only [hstart, hwalls, bind, Except.bind, addAll_eq]
    rw [← hc1, ← hc2, ← hc3, a1]
    rfl
  · refine ⟨⟨nodup_slots _ _ hcn _, rfl, ?_, ?_, ?_, ?_⟩, rfl, a2, ?_⟩
    · show (slots walls s.layout s.agents)[1]? = _
      rfl
    · intro x y hat
      obtain ⟨col, hcol, hcy⟩ := hat
      obtain ⟨im, id, him, hid, hle, hcell⟩ := f2 x y col hcol hcy
      refine ⟨im, id, him, hid, ?_⟩
      have hlt := (List.getElem?_eq_some_iff.1 hcell).1
      rw [hslots, List.append_assoc, List.append_assoc, List.getElem?_append_right (by omega), List.getElem?_append_left (by simp; omega),
        List.getElem?_map, ← l1, hcell]
      simp
    · intro p hp
      obtain ⟨id, hid, hle, hcap⟩ := k2 p hp
      refine ⟨id, hid, ?_⟩
      have hlt := (List.getElem?_eq_some_iff.1 hcap).1
      rw [hslots, List.append_assoc, List.getElem?_append_right (by simp; omega), List.getElem?_append_left (by simp; omega),
        List.getElem?_map, List.length_append, List.length_map, ← l2, hcap]
      rfl
    · intro i a ids hi
      obtain ⟨base, rfl, hle, hk⟩ := a3 i a ids hi
      have hget : ∀ k < partCount a, (slots walls s.layout s.agents)[base + k]? = some (.part i k) := by
        intro k hkk
        have := hk k hkk
        rw [Nat.zero_add] at this
        rw [hslots, List.getElem?_append_right (by simp; omega)]
        simp only [List.length_append, List.length_map]
        rw [← l3, this]
      constructor
      · intro hb
        have hpc : partCount a = 1 := by unfold partCount; rw [if_pos hb]
        rw [hpc] at hget ⊢
        exact ⟨base, rfl, hget 0 (by omega)⟩
      · intro hb
        have hpc : partCount a = 5 := by unfold partCount; rw [hb]; rfl
        rw [hpc] at hget ⊢
        exact ⟨base, base + 1, base + 2, base + 3, base + 4, rfl, hget 0 (by omega), hget 1 (by omega), hget 2 (by omega), hget 3 (by omega),
          hget 4 (by omega)⟩
    · show c3 ++ _ = _
      rw [hslots, List.map_append, e3]

end Verif.Pac
