import Verif.Model.PacIO

/-!
# Mouse clicks: C94
-/

namespace Verif.Pac

/-- No click is pending. -/
def noClicks : Clicks := ⟨none, none, none⟩

/-- The pending clicks after the clicks of a list, oldest first. -/
def pending (l : List (Button × (ℤ × ℤ))) : Clicks := l.foldl Clicks.click noClicks

/-- The order in which the kinds are asked for. -/
def Button.rank : Button → ℕ
  | .left => 0
  | .right => 1
  | .ctrlLeft => 2

/-- The position of the last click of a kind in a list. -/
def LastOf (l : List (Button × (ℤ × ℤ))) (b : Button) (p : ℤ × ℤ) : Prop :=
  ∃ l1 l2, l = l1 ++ (b, p) :: l2 ∧ ∀ e ∈ l2, e.1 ≠ b

/-- The field of a kind. -/
def Clicks.slot (c : Clicks) : Button → Option (ℤ × ℤ)
  | .left => c.left
  | .right => c.right
  | .ctrlLeft => c.ctrlLeft

theorem Clicks.ext_slot {c d : Clicks} (h : ∀ b, c.slot b = d.slot b) : c = d := by
  obtain ⟨c1, c2, c3⟩ := c
  obtain ⟨d1, d2, d3⟩ := d
  have h1 := h .left
  have h2 := h .right
  have h3 := h .ctrlLeft
  simp only [Clicks.slot] at h1 h2 h3
  rw [h1, h2, h3]

theorem Clicks.slot_click (c : Clicks) (e : Button × (ℤ × ℤ)) (b : Button) :
    (c.click e).slot b = if e.1 = b then some e.2 else c.slot b := by
  obtain ⟨k, p⟩ := e
  cases k <;> cases b <;> simp [Clicks.click, Clicks.slot]

theorem pending_snoc (l : List (Button × (ℤ × ℤ))) (e : Button × (ℤ × ℤ)) : pending (l ++ [e]) = (pending l).click e := by
  unfold pending
  rw [List.foldl_append]
  rfl

theorem slot_pending (l : List (Button × (ℤ × ℤ))) (b : Button) :
    (∀ p, (pending l).slot b = some p ↔ LastOf l b p) ∧ ((pending l).slot b = none ↔ ∀ e ∈ l, e.1 ≠ b) := by
  induction l using List.reverseRecOn with
  | nil =>
    refine ⟨fun p => ?_, ?_⟩
    · constructor
      · intro h
        cases b <;> simp [pending, noClicks, Clicks.slot] at h
      · rintro ⟨l1, l2, h, -⟩
        simp at h
    · cases b <;> simp [pending, noClicks, Clicks.slot]
  | append_singleton l e ih =>
    rw [pending_snoc, Clicks.slot_click]
    by_cases hb : e.1 = b
    · rw [if_pos hb]
      refine ⟨fun p => ?_, ?_⟩
      · constructor
        · intro h
          cases h
          exact ⟨l, [], by rw [← hb], by simp⟩
        · rintro ⟨l1, l2, h1, h2⟩
          cases l2 using List.reverseRecOn with
          | nil =>
            have := (List.append_inj' h1 rfl).2
            simp only [List.cons.injEq, and_true] at this
            rw [this]
          | append_singleton t x _ =>
            have h3 : l ++ [e] = (l1 ++ (b, p) :: t) ++ [x] := by rw [h1]; simp
            have := (List.append_inj' h3 rfl).2
            simp only [List.cons.injEq, and_true] at this
            exact absurd (this ▸ hb) (h2 x (by simp))
      · simp only [reduceCtorEq, false_iff]
        exact fun h => h e (by simp) hb
    · rw [if_neg hb]
      refine ⟨fun p => ?_, ?_⟩
      · rw [ih.1 p]
        constructor
        · rintro ⟨l1, l2, rfl, h2⟩
          refine ⟨l1, l2 ++ [e], by simp, ?_⟩
          intro x hx
          rcases List.mem_append.1 hx with h | h
          · exact h2 x h
          · rw [List.mem_singleton.1 h]; exact hb
        · rintro ⟨l1, l2, h1, h2⟩
          cases l2 using List.reverseRecOn with
          | nil =>
            have := (List.append_inj' h1 rfl).2
            simp only [List.cons.injEq, and_true] at this
            exact absurd (congrArg Prod.fst this) hb
          | append_singleton t x _ =>
            have h3 : l ++ [e] = (l1 ++ (b, p) :: t) ++ [x] := by rw [h1]; simp
            exact ⟨l1, t, (List.append_inj' h3 rfl).1, fun y hy => h2 y (by simp [hy])⟩
      · rw [ih.2]
        simp only [List.mem_append, List.mem_singleton]
        constructor
        · rintro h x (hx | rfl)
          · exact h x hx
          · exact hb
        · exact fun h x hx => h x (Or.inl hx)

theorem slot_pending_filter (l : List (Button × (ℤ × ℤ))) (b b' : Button) :
    (pending (l.filter fun e => e.1 ≠ b)).slot b' = if b' = b then none else (pending l).slot b' := by
  induction l using List.reverseRecOn with
  | nil => cases b' <;> simp [pending, noClicks, Clicks.slot]
  | append_singleton l e ih =>
    rw [List.filter_append, pending_snoc, Clicks.slot_click]
    by_cases hb : e.1 = b
    · rw [show [e].filter (fun e => decide (e.1 ≠ b)) = [] by simp [hb], List.append_nil, ih]
      by_cases hb' : b' = b
      · rw [if_pos hb', if_pos hb']
      · rw [if_neg hb', if_neg hb', if_neg (by rw [hb]; exact fun h => hb' h.symm)]
    · rw [show [e].filter (fun e => decide (e.1 ≠ b)) = [e] by simp [hb], pending_snoc, Clicks.slot_click, ih]
      by_cases hb' : b' = b
      · rw [if_pos hb', if_pos hb', if_neg (by rw [hb']; exact hb)]
      · rw [if_neg hb', if_neg hb']

/-- What one round reports: the last click of the first kind that has one; all clicks of this kind are forgotten. -/
theorem poll_pending (l : List (Button × (ℤ × ℤ))) :
    ((pending l).poll = none ↔ l = []) ∧
    ∀ p b c', (pending l).poll = some ((p, b), c') → LastOf l b p ∧ (∀ e ∈ l, b.rank ≤ e.1.rank) ∧ c' = pending (l.filter fun e => e.1 ≠ b) := by
  have hl := slot_pending l .left
  have hr := slot_pending l .right
  have hc := slot_pending l .ctrlLeft
  have hset : ∀ b c', (∀ b', c'.slot b' = if b' = b then none else (pending l).slot b') → c' = pending (l.filter fun e => e.1 ≠ b) := by
    intro b c' h
    apply Clicks.ext_slot
    intro b'
    rw [slot_pending_filter, h]
  unfold Clicks.poll
  cases h1 : (pending l).left with
  | some p =>
    have h1' : (pending l).slot .left = some p := h1
    refine ⟨by simp only [reduceCtorEq, false_iff]; rintro rfl; simp [pending, noClicks] at h1, ?_⟩
    intro q b c' h
    simp only [Option.some.injEq, Prod.mk.injEq] at h
    obtain ⟨⟨rfl, rfl⟩, rfl⟩ := h
    refine ⟨(hl.1 _).1 h1', fun e _ => Nat.zero_le _, hset _ _ fun b' => ?_⟩
    cases b' <;> simp [Clicks.slot]
  | none =>
    have h1' : (pending l).slot .left = none := h1
    have n1 := hl.2.1 h1'
    cases h2 : (pending l).right with
    | some p =>
      have h2' : (pending l).slot .right = some p := h2
      refine ⟨by simp only [reduceCtorEq, false_iff]; rintro rfl; simp [pending, noClicks] at h2, ?_⟩
      intro q b c' h
      simp only [Option.some.injEq, Prod.mk.injEq] at h
      obtain ⟨⟨rfl, rfl⟩, rfl⟩ := h
      refine ⟨(hr.1 _).1 h2', fun e he => ?_, hset _ _ fun b' => ?_⟩
      · have := n1 e he
        revert this
        cases e.1 <;> simp [Button.rank]
      · cases b' <;> simp [Clicks.slot, h1]
    | none =>
      have h2' : (pending l).slot .right = none := h2
      have n2 := hr.2.1 h2'
      cases h3 : (pending l).ctrlLeft with
      | some p =>
        have h3' : (pending l).slot .ctrlLeft = some p := h3
        refine ⟨by simp only [reduceCtorEq, false_iff]; rintro rfl; simp [pending, noClicks] at h3, ?_⟩
        intro q b c' h
        simp only [Option.some.injEq, Prod.mk.injEq] at h
        obtain ⟨⟨rfl, rfl⟩, rfl⟩ := h
        refine ⟨(hc.1 _).1 h3', fun e he => ?_, hset _ _ fun b' => ?_⟩
        · have h4 := n1 e he
          have h5 := n2 e he
          revert h4 h5
          cases e.1 <;> simp [Button.rank]
        · cases b' <;> simp [Clicks.slot, h1, h2]
      | none =>
        have h3' : (pending l).slot .ctrlLeft = none := h3
        have n3 := hc.2.1 h3'
        refine ⟨by
          simp only [true_iff]
          apply List.eq_nil_iff_forall_not_mem.2
          intro e he
          have h4 := n1 e he
          have h5 := n2 e he
          have h6 := n3 e he
          revert h4 h5 h6
          cases e.1 <;> simp, by simp⟩

theorem pending_foldl (l b : List (Button × (ℤ × ℤ))) : b.foldl Clicks.click (pending l) = pending (l ++ b) := by
  unfold pending
  rw [List.foldl_append]

/-- **C94** `wait_for_click` when the clicks `l` have come since the pending ones were reported: it waits as long as there is no click; it then reports the last click of the
first kind, in the order left, right, left with control, of which there is a click; clicks of this kind are forgotten and those of other kinds are kept. -/
theorem C94_wait (l : List (Button × (ℤ × ℤ))) (bs : List (List (Button × (ℤ × ℤ)))) :
    (waitForClick (pending l) bs = none ↔ l = [] ∧ ∀ b ∈ bs, b = []) ∧
    ∀ p b c' bs', waitForClick (pending l) bs = some ((p, b), c', bs') → ∃ ds, bs = ds ++ bs' ∧
      LastOf (l ++ ds.flatten) b p ∧ (∀ e ∈ l ++ ds.flatten, b.rank ≤ e.1.rank) ∧
      c' = pending ((l ++ ds.flatten).filter fun e => e.1 ≠ b) ∧
      (ds ≠ [] → l = [] ∧ ∀ d ∈ ds.dropLast, d = []) := by
  induction bs generalizing l with
  | nil =>
    obtain ⟨h1, h2⟩ := poll_pending l
    unfold waitForClick
    cases hp : (pending l).poll with
    | none =>
      have := h1.1 hp
      refine ⟨by simp [this], ?_⟩
      intro p b c' bs' h
      cases h
    | some x =>
      obtain ⟨⟨q, b0⟩, c0⟩ := x
      refine ⟨(by simp only [reduceCtorEq, false_iff]; rintro ⟨rfl, -⟩; rw [h1.2 rfl] at hp; cases hp), ?_⟩
      intro p b c' bs' h
      simp only [Option.some.injEq, Prod.mk.injEq] at h
      obtain ⟨⟨rfl, rfl⟩, rfl, rfl⟩ := h
      obtain ⟨h3, h4, h5⟩ := h2 _ _ _ hp
      exact ⟨[], by simp, by simpa using h3, by simpa using h4, by simpa using h5, by simp⟩
  | cons d t ih =>
    obtain ⟨h1, h2⟩ := poll_pending l
    unfold waitForClick
    cases hp : (pending l).poll with
    | none =>
      have hl := h1.1 hp
      subst hl
      simp only
      rw [pending_foldl, List.nil_append]
      obtain ⟨h3, h4⟩ := ih d
      refine ⟨by rw [h3]; simp, ?_⟩
      intro p b c' bs' h
      obtain ⟨ds, rfl, k1, k2, k3, k4⟩ := h4 p b c' bs' h
      refine ⟨d :: ds, rfl, by simpa using k1, by simpa using k2, by simpa using k3, fun _ => ⟨trivial, ?_⟩⟩
      intro x hx
      cases ds with
      | nil => simp at hx
      | cons y s =>
        obtain ⟨k5, k6⟩ := k4 (by simp)
        rw [List.dropLast_cons_of_ne_nil (by simp)] at hx
        rcases List.mem_cons.1 hx with rfl | hx
        · exact k5
        · exact k6 x hx
    | some x =>
      obtain ⟨⟨q, b0⟩, c0⟩ := x
      refine ⟨(by simp only [reduceCtorEq, false_iff]; rintro ⟨rfl, -⟩; rw [h1.2 rfl] at hp; cases hp), ?_⟩
      intro p b c' bs' h
      simp only [Option.some.injEq, Prod.mk.injEq] at h
      obtain ⟨⟨rfl, rfl⟩, rfl, rfl⟩ := h
      obtain ⟨h3, h4, h5⟩ := h2 _ _ _ hp
      exact ⟨[], by simp, by simpa using h3, by simpa using h4, by simpa using h5, by simp⟩

/-- The positions of the clicks of a kind. -/
def clicksOf (b : Button) (l : List (Button × (ℤ × ℤ))) : List (ℤ × ℤ) := (l.filter fun e => e.1 = b).map Prod.snd

theorem clicksOf_append (b : Button) (l m : List (Button × (ℤ × ℤ))) : clicksOf b (l ++ m) = clicksOf b l ++ clicksOf b m := by
  simp [clicksOf]

/-- The reports of a kind. -/
def reportsOf (b : Button) (l : List ((ℤ × ℤ) × Button)) : List (ℤ × ℤ) := (l.filter fun e => e.2 = b).map Prod.fst

/-- All clicks during some operations. -/
def MouseOp.clicks : MouseOp → List (Button × (ℤ × ℤ))
  | .pause b => b
  | .wait bs => bs.flatten

/-- **C94** Whatever a program does: the reported clicks of a kind are clicks of this kind, in their order and none of them twice. -/
theorem C94_once (l : List (Button × (ℤ × ℤ))) (ops : List MouseOp) (b : Button) :
    (reportsOf b (reportClicks (pending l) ops)).Sublist (clicksOf b (l ++ ops.flatMap MouseOp.clicks)) := by
  induction ops generalizing l with
  | nil => simp [reportClicks, reportsOf]
  | cons op t ih =>
    cases op with
    | pause d =>
      unfold reportClicks
      rw [pending_foldl]
      have := ih (l ++ d)
      simpa [MouseOp.clicks] using this
    | wait bs =>
      unfold reportClicks
      cases hw : waitForClick (pending l) bs with
      | none => simp [reportsOf]
      | some x =>
        obtain ⟨⟨p, k⟩, c', bs'⟩ := x
        obtain ⟨ds, rfl, ⟨l1, l2, h1, h2⟩, -, rfl, -⟩ := (C94_wait l bs).2 p k c' bs' hw
        simp only
        rw [pending_foldl]
        have h3 := ih (((l ++ ds.flatten).filter fun e => e.1 ≠ k) ++ bs'.flatten)
        rw [List.flatMap_cons, MouseOp.clicks, List.flatten_append, ← List.append_assoc, ← List.append_assoc]
        generalize l ++ ds.flatten = h at h1 h3 ⊢
        rw [List.append_assoc] at h3 ⊢
        generalize bs'.flatten ++ t.flatMap MouseOp.clicks = more at h3 ⊢
        generalize reportClicks (pending ((h.filter fun e => e.1 ≠ k) ++ bs'.flatten)) t = rs at h3 ⊢
        rw [clicksOf_append] at h3 ⊢
        by_cases hk : k = b
        · subst hk
          have h4 : clicksOf k (h.filter fun e => e.1 ≠ k) = [] := by
            unfold clicksOf
            rw [List.filter_filter]
            simp
          rw [h4, List.nil_append] at h3
          have h5 : reportsOf k ((p, k) :: rs) = p :: reportsOf k rs := by simp [reportsOf]
          rw [h5, ← List.singleton_append]
          apply List.Sublist.append _ h3
          rw [h1, clicksOf_append]
          refine List.Sublist.trans ?_ (List.sublist_append_right _ _)
          have : clicksOf k ((k, p) :: l2) = p :: clicksOf k l2 := by simp [clicksOf]
          rw [this]
          exact List.Sublist.cons_cons _ (List.nil_sublist _)
        · have h4 : clicksOf b (h.filter fun e => e.1 ≠ k) = clicksOf b h := by
            unfold clicksOf
            rw [List.filter_filter]
            congr 1
            apply List.filter_congr
            intro e _
            by_cases he : e.1 = b
            · simp [he, Ne.symm hk]
            · simp [he]
          have h5 : reportsOf b ((p, k) :: rs) = reportsOf b rs := by simp [reportsOf, hk]
          rw [h5]
          rw [h4] at h3
          exact h3

/-- **C94** Without clicks between the calls a right click is reported at the second call at the latest, one with control at the third: clicks of other kinds are not lost. -/
theorem C94_fair (l : List (Button × (ℤ × ℤ))) :
    (∀ b p, LastOf l b p → (p, b) ∈ reportClicks (pending l) (List.replicate (b.rank + 1) (.wait []))) := by
  have key : ∀ (c : Clicks) b p, c.slot b = some p → (p, b) ∈ reportClicks c (List.replicate (b.rank + 1) (.wait [])) := by
    rintro ⟨c1, c2, c3⟩ b p h
    cases b <;> simp only [Clicks.slot] at h <;> subst h
    · simp [reportClicks, waitForClick, Clicks.poll, Button.rank]
    · cases c1 <;> simp [reportClicks, waitForClick, Clicks.poll, Button.rank, List.replicate_succ]
    · cases c1 <;> cases c2 <;> simp [reportClicks, waitForClick, Clicks.poll, Button.rank, List.replicate_succ]
  exact fun b p h => key _ b p (((slot_pending l b).1 p).2 h)

/-- **C94, refuted** If there is a left click before every call, a right click is never reported. -/
theorem C94_starved (n : ℕ) (p q : ℤ × ℤ) :
    reportClicks (pending [(.right, q)]) (List.replicate n [.pause [(.left, p)], .wait []]).flatten = List.replicate n (p, .left) := by
  have : ∀ n, reportClicks ⟨none, some q, none⟩ (List.replicate n [.pause [(.left, p)], .wait []]).flatten = List.replicate n (p, .left) := by
    intro n
    induction n with
    | zero => rfl
    | succ n ih =>
      rw [List.replicate_succ, List.replicate_succ, List.flatten_cons, ← ih]
      rfl
  exact this n

/-- Three clicks in one pause: two left ones and a right one. The last left one is reported, then the right one; the first left one is lost. -/
theorem clicks_demo : reportClicks noClicks [.wait [[], [(.left, (1, 1)), (.right, (2, 2)), (.left, (3, 3))]], .wait []] =
    [((3, 3), .left), ((2, 2), .right)] := rfl

end Verif.Pac
