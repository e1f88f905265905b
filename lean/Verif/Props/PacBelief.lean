import Verif.Props.PacOverlay

/-! C87, continued: the colours of beliefs. -/

namespace Verif.Pac

/-- The colours of the ghosts with index 2 to 6, as red, green and blue bytes: the second to the sixth colour of the palette. -/
def ghostBytes : List (ℕ × ℕ × ℕ) := [(0x00, 0x4c, 0xe5), (0xf9, 0x68, 0x11), (0x19, 0xbf, 0xb2), (0xff, 0x99, 0x00), (0x66, 0x21, 0xe8)]

/-- A byte of a colour, dimmed by the power `p` of a weight, as a part of a colour. -/
def dimmed (p : ℚ) (c : ℕ) : ℚ := min 1 (fl (fl (fl (95 / 100) * (c / 256)) * p))

theorem ghostVecs_eq : ghostVecs = ghostBytes.map fun c => [(c.1 : ℚ) / 256, (c.2.1 : ℚ) / 256, (c.2.2 : ℚ) / 256] := by decide +kernel

theorem fl_zero' : fl 0 = 0 := by decide +kernel

theorem fl_one' : fl 1 = 1 := by decide +kernel

theorem dimmed_float (p : ℚ) (c : ℕ) : fl (dimmed p c) = dimmed p c ∧ dimmed p c ≤ 1 := by
  unfold dimmed
  refine ⟨?_, min_le_left _ _⟩
  rcases min_choice (1 : ℚ) (fl (fl (fl (95 / 100) * (c / 256)) * p)) with h | h <;> rw [h]
  · exact fl_one'
  · exact fl_of_isFloat (fl_isFloat _)

/-- The step of the loop over the weights. -/
def beliefAdd (pw : ℚ → ℚ) (color : List ℚ) (q : ℚ × List ℚ) : List ℚ :=
  (color.zip q.2).map fun p => min 1 (fl (p.1 + fl (fl (fl (95 / 100) * p.2) * pw q.1)))

theorem beliefAdd_zero (pw : ℚ → ℚ) (l : List (ℚ × List ℚ)) (r g b : ℚ) (hr : fl r = r ∧ r ≤ 1) (hg : fl g = g ∧ g ≤ 1) (hb : fl b = b ∧ b ≤ 1)
    (hl : ∀ q ∈ l, q.2.length = 3 ∧ pw q.1 = 0) : l.foldl (beliefAdd pw) [r, g, b] = [r, g, b] := by
  induction l with
  | nil => rfl
  | cons q l ih =>
    obtain ⟨h3, h0⟩ := hl q (by simp)
    rw [List.foldl_cons]
    have : beliefAdd pw [r, g, b] q = [r, g, b] := by
      obtain ⟨w, v⟩ := q
      match v, h3 with
      | [x, y, z], _ => simp [beliefAdd, h0, fl_zero', hr.1, hg.1, hb.1, hr.2, hg.2, hb.2]
    rw [this]
    exact ih fun q hq => hl q (by simp [hq])

theorem beliefColor_fold (pw : ℚ → ℚ) (ws : List ℚ) : beliefColor pw ws = match (ws.zip ghostVecs).foldl (beliefAdd pw) [0, 0, 0] with
    | [r, g, b] => formatColor r g b
    | _ => [] := rfl

theorem ghostVecs_three : ∀ v ∈ ghostVecs, v.length = 3 := by
  rw [ghostVecs_eq]
  intro v hv
  obtain ⟨c, -, rfl⟩ := List.mem_map.1 hv
  rfl

theorem zero_good : fl (0 : ℚ) = 0 ∧ (0 : ℚ) ≤ 1 := ⟨fl_zero', by norm_num⟩

/-- **C87.** The colour of a cell for some beliefs. If the powers of the first five weights are zero it is black. If only one of them is not,
it is the colour of the ghost with that place, the first colour of the palette being left out, dimmed by the power of the weight. Further
weights do not matter. -/
theorem C87_belief (pw : ℚ → ℚ) (ws : List ℚ) :
    ((∀ j w, j < 5 → ws[j]? = some w → pw w = 0) → beliefColor pw ws = "#000000".toList) ∧
    (∀ i w c, ws[i]? = some w → ghostBytes[i]? = some c → (∀ j v, j < 5 → j ≠ i → ws[j]? = some v → pw v = 0) →
      beliefColor pw ws = formatColor (dimmed (pw w) c.1) (dimmed (pw w) c.2.1) (dimmed (pw w) c.2.2)) ∧
    beliefColor pw ws = beliefColor pw (ws.take 5) := by
  have hlen : ghostVecs.length = 5 := by rw [ghostVecs_eq]; rfl
  have hget : ∀ (j : ℕ) (q : ℚ × List ℚ), (ws.zip ghostVecs)[j]? = some q → j < 5 ∧ ws[j]? = some q.1 ∧ q.2.length = 3 := by
    intro j q hq
    rw [List.getElem?_zip_eq_some] at hq
    have h5 := (List.getElem?_eq_some_iff.1 hq.2).1
    exact ⟨by omega, hq.1, ghostVecs_three _ (List.mem_of_getElem? hq.2)⟩
  refine ⟨fun h => ?_, fun i w c hi hc hz => ?_, ?_⟩
  · rw [beliefColor_fold, beliefAdd_zero pw _ 0 0 0 zero_good zero_good zero_good (by
      intro q hq
      obtain ⟨j, hj⟩ := List.mem_iff_getElem?.1 hq
      obtain ⟨h1, h2, h3⟩ := hget j q hj
      exact ⟨h3, h j _ h1 h2⟩)]
    have := beliefColor_nil pw
    rw [beliefColor_fold] at this
    exact this
  · have hgi : ghostVecs[i]? = some [(c.1 : ℚ) / 256, (c.2.1 : ℚ) / 256, (c.2.2 : ℚ) / 256] := by
      rw [ghostVecs_eq, List.getElem?_map, hc]; rfl
    have hzi : (ws.zip ghostVecs)[i]? = some (w, [(c.1 : ℚ) / 256, (c.2.1 : ℚ) / 256, (c.2.2 : ℚ) / 256]) := by
      rw [List.getElem?_zip_eq_some]; exact ⟨hi, hgi⟩
    obtain ⟨hilt, hie⟩ := List.getElem?_eq_some_iff.1 hzi
    have hsplit : ws.zip ghostVecs = (ws.zip ghostVecs).take i ++ (w, [(c.1 : ℚ) / 256, (c.2.1 : ℚ) / 256, (c.2.2 : ℚ) / 256]) :: (ws.zip ghostVecs).drop (i + 1) := by
      conv_lhs => rw [← List.take_append_drop i (ws.zip ghostVecs), List.drop_eq_getElem_cons hilt, hie]
    have hbefore : ∀ q ∈ (ws.zip ghostVecs).take i, q.2.length = 3 ∧ pw q.1 = 0 := by
      intro q hq
      obtain ⟨j, hj⟩ := List.mem_iff_getElem?.1 hq
      have hji : j < i := by
        have := (List.getElem?_eq_some_iff.1 hj).1
        rw [List.length_take] at this; omega
      rw [List.getElem?_take_of_lt hji] at hj
      obtain ⟨h1, h2, h3⟩ := hget j q hj
      exact ⟨h3, hz j _ h1 (by omega) h2⟩
    have hafter : ∀ q ∈ (ws.zip ghostVecs).drop (i + 1), q.2.length = 3 ∧ pw q.1 = 0 := by
      intro q hq
      obtain ⟨j, hj⟩ := List.mem_iff_getElem?.1 hq
      rw [List.getElem?_drop] at hj
      obtain ⟨h1, h2, h3⟩ := hget _ q hj
      exact ⟨h3, hz _ _ h1 (by omega) h2⟩
    rw [beliefColor_fold, hsplit, List.foldl_append, beliefAdd_zero pw _ 0 0 0 zero_good zero_good zero_good hbefore, List.foldl_cons]
    have hstep : beliefAdd pw [0, 0, 0] (w, [(c.1 : ℚ) / 256, (c.2.1 : ℚ) / 256, (c.2.2 : ℚ) / 256]) =
        [dimmed (pw w) c.1, dimmed (pw w) c.2.1, dimmed (pw w) c.2.2] := by
      have hd : ∀ k : ℕ, min 1 (fl (0 + fl (fl (fl (95 / 100) * ((k : ℚ) / 256)) * pw w))) = dimmed (pw w) k := by
        intro k
        unfold dimmed
        rw [zero_add, fl_of_isFloat (fl_isFloat _)]
      simp only [beliefAdd, List.zip_cons_cons, List.zip_nil_right, List.map_cons, List.map_nil, hd]
    rw [hstep, beliefAdd_zero pw _ _ _ _ (dimmed_float _ _) (dimmed_float _ _) (dimmed_float _ _) hafter]
  · rw [beliefColor_fold, beliefColor_fold]
    have : ws.zip ghostVecs = (ws.take 5).zip ghostVecs := by
      rw [← hlen]
      apply List.ext_getElem?
      intro j
      by_cases hj : j < ghostVecs.length
      · rw [List.zip_eq_zipWith, List.zip_eq_zipWith, List.getElem?_zipWith, List.getElem?_zipWith, List.getElem?_take_of_lt hj]
      · rw [List.getElem?_eq_none (by rw [List.length_zip]; omega), List.getElem?_eq_none (by rw [List.length_zip]; omega)]
    rw [this]

/-- Non-vacuity of `C87_belief`: certain of the second ghost, in orange. -/
theorem belief_demo : (∃ w c, [(0 : ℚ), 1, 0][1]? = some w ∧ ghostBytes[1]? = some c ∧ ∀ j v, j < 5 → j ≠ 1 → [(0 : ℚ), 1, 0][j]? = some v → id v = 0) ∧
    beliefColor id [0, 1, 0] = "#eb6210".toList := by
  refine ⟨⟨1, _, rfl, rfl, ?_⟩, by decide +kernel⟩
  intro j v hj hne h
  have : j = 0 ∨ j = 2 ∨ 3 ≤ j := by omega
  rcases this with rfl | rfl | h3
  · exact (Option.some.inj h).symm
  · exact (Option.some.inj h).symm
  · rw [List.getElem?_eq_none (by simpa using h3)] at h; cases h

end Verif.Pac
