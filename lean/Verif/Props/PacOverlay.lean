import Verif.Lemmas.PacOverlay
import Verif.Lemmas.NpSum

/-!
# C87: the overlays of the display show what was asked for last, except that belief distributions are black

`C87_history`: after any calls of `drawExpandedCells`, `clearExpandedCells`, `updateDistributions`, `updateGhostDistances` and `setTeam`, the exceptions being caught, the screen
shows the background, then the squares of the overlays, then the score, the other items and the distances; and the exceptions are those of `OState.step`.
-/

namespace Verif.Pac

/-- The state of the display belongs to what was asked for. -/
structure OInv (pw : ℚ → ℚ) (g : ℚ) (w h : ℕ) (bg sc : Item) (rest : List Item) (s : OState) (o : Overlay) (mid tl txt live : List ℕ) : Prop where
  size : o.width = w ∧ o.height = h ∧ o.gridSize = g
  stack : o.stack = 0 :: (mid ++ 1 :: (tl ++ txt))
  nodup : o.stack.Nodup
  lt : ∀ id ∈ o.stack, id < o.canvas.length
  hbg : o.canvas.item? 0 = some bg
  hsc : o.canvas.item? 1 = some sc
  hrest : tl.map o.canvas.item? = rest.map some
  hlive : live.map o.canvas.item? = (cellsPicture g h s.cells).map some
  hexp : (o.expanded = none ∧ live = []) ∨ ∃ ids, o.expanded = some ids ∧ (live = ids ∨ live = [] ∧ ∀ id ∈ ids, id ∉ o.stack ∧ id < o.canvas.length)
  hmid : mid.Perm (live ++ (o.dist.getD []).flatten)
  hnone : s.belief = none → o.dist = none
  hsome : ∀ ws, s.belief = some ws → ∃ imgs, o.dist = some imgs ∧ Shaped w h imgs ∧ imgs.flatten.map o.canvas.item? = (beliefPicture pw g w h (some ws)).map some
  htxt : (s.texts = none ∧ o.distances = none ∧ txt = []) ∨ ∃ ts, s.texts = some ts ∧ o.distances = some txt ∧ txt.map o.canvas.item? = (textsPicture g w h ts).map some

variable {pw : ℚ → ℚ} {g : ℚ} {w h : ℕ} {bg sc : Item} {rest : List Item} {s : OState} {o : Overlay} {mid tl txt live : List ℕ}

theorem filterMap_items {c : Canvas} {l : List ℕ} {its : List Item} (h : l.map c.item? = its.map some) : l.filterMap c.item? = its := by
  have := congrArg (List.filterMap id) h
  simpa [List.filterMap_map] using this

theorem OInv.shown (H : OInv pw g w h bg sc rest s o mid tl txt live) :
    ∃ M, o.shown = bg :: (M ++ sc :: (rest ++ textsPicture g w h (s.texts.getD []))) ∧ M.Perm (cellsPicture g h s.cells ++ beliefPicture pw g w h s.belief) := by
  have ht : txt.filterMap o.canvas.item? = textsPicture g w h (s.texts.getD []) := by
    rcases H.htxt with ⟨h1, _, h3⟩ | ⟨ts, h1, _, h3⟩
    · rw [h1, h3]; rfl
    · rw [h1]; exact filterMap_items h3
  refine ⟨mid.filterMap o.canvas.item?, ?_, ?_⟩
  · rw [Overlay.shown, H.stack, List.filterMap_cons, H.hbg]
    simp only
    rw [List.filterMap_append, List.filterMap_cons, H.hsc]
    simp only
    rw [List.filterMap_append, ht, filterMap_items H.hrest]
  · refine (H.hmid.filterMap _).trans ?_
    rw [List.filterMap_append, filterMap_items H.hlive]
    refine List.Perm.append_left _ ?_
    cases hb : s.belief with
    | none => rw [H.hnone hb]; simp [beliefPicture]
    | some ws =>
      obtain ⟨imgs, h1, _, h3⟩ := H.hsome ws hb
      rw [h1, Option.getD_some, filterMap_items h3]

/-- Facts about the places of the identifiers. -/
theorem OInv.places (H : OInv pw g w h bg sc rest s o mid tl txt live) :
    (0 ∉ mid) ∧ 1 ∉ mid ∧ (∀ id ∈ mid, id ∉ tl ∧ id ∉ txt) ∧ mid.Nodup ∧ txt.Nodup ∧ 0 ∉ txt ∧ 1 ∉ txt ∧ (∀ id ∈ txt, id ∉ tl) ∧
      (∀ id ∈ live, id ∉ (o.dist.getD []).flatten) := by
  have hn := H.nodup
  rw [H.stack] at hn
  simp only [List.nodup_cons, List.nodup_append, List.mem_append, List.mem_cons, not_or] at hn
  obtain ⟨⟨h0, h01, h0t, h0x⟩, hm, ⟨⟨h1t, h1x⟩, ht, hx, htx⟩, hd⟩ := hn
  refine ⟨h0, fun h => hd 1 h 1 (Or.inl rfl) rfl, fun id hid => ⟨fun h => hd id hid id (Or.inr (Or.inl h)) rfl, fun h => hd id hid id (Or.inr (Or.inr h)) rfl⟩, hm, hx, h0x, h1x,
    fun id hid h => htx id h id hid rfl, fun id hid h => ?_⟩
  have := (H.hmid.nodup_iff.1 hm)
  rw [List.nodup_append] at this
  exact this.2.2 id hid id h rfl

theorem OInv.clear (H : OInv pw g w h bg sc rest s o mid tl txt live) :
    ∃ mid', OInv pw g w h bg sc rest { s with cells := [] } o.clearExpanded mid' tl txt [] := by
  rcases H.hexp with ⟨h1, h2⟩ | ⟨ids, h1, h2⟩
  · subst h2
    refine ⟨mid, ?_⟩
    simp only [Overlay.clearExpanded, h1]
    exact { H with hlive := rfl, hexp := Or.inl ⟨h1, rfl⟩ }
  · obtain ⟨p0, p1, pm, pn, px, p0x, p1x, pxt, pd⟩ := H.places
    have hlm : ∀ id ∈ live, id ∈ mid := fun id hid => H.hmid.mem_iff.2 (List.mem_append_left _ hid)
    have hdm : ∀ id ∈ (o.dist.getD []).flatten, id ∈ mid := fun id hid => H.hmid.mem_iff.2 (List.mem_append_right _ hid)
    have hms : ∀ id ∈ mid, id ∈ o.stack := fun id hid => by rw [H.stack]; simp [hid]
    have hout : ∀ id ∈ ids, id ≠ 0 ∧ id ≠ 1 ∧ id ∉ tl ∧ id ∉ txt ∧ id ∉ (o.dist.getD []).flatten ∧ id < o.canvas.length := by
      intro id hid
      rcases h2 with rfl | ⟨_, h2⟩
      · have := hlm id hid
        exact ⟨fun e => p0 (e ▸ this), fun e => p1 (e ▸ this), (pm id this).1, (pm id this).2, pd id hid, H.lt id (hms id this)⟩
      · obtain ⟨h3, h4⟩ := h2 id hid
        have h5 := h3
        rw [H.stack] at h5
        simp only [List.mem_cons, List.mem_append, not_or] at h5
        exact ⟨h5.1, h5.2.2.1, h5.2.2.2.1, h5.2.2.2.2, fun hd => h3 (hms id (hdm id hd)), h4⟩
    have hlids : ∀ id ∈ live, id ∈ ids := by
      intro id hid
      rcases h2 with rfl | ⟨h2, _⟩
      · exact hid
      · rw [h2] at hid; simp at hid
    obtain ⟨c, e1, e2, e3⟩ := removeAll ids o H.nodup
    have hkeep : ∀ j, j ∉ ids → c.item? j = o.canvas.item? j := fun j hj => by rw [e3, if_neg hj]
    have hmap : ∀ l : List ℕ, (∀ id ∈ ids, id ∉ l) → l.map c.item? = l.map o.canvas.item? := fun l hl =>
      List.map_congr_left fun j hj => hkeep j fun h => hl j h hj
    have hfilt : ∀ l : List ℕ, (∀ id ∈ ids, id ∉ l) → l.filter (· ∉ ids) = l := fun l hl =>
      List.filter_eq_self.2 fun j hj => by simpa using fun h => hl j h hj
    refine ⟨mid.filter (· ∉ ids), ?_⟩
    simp only [Overlay.clearExpanded, h1, e1]
    have hstack : o.stack.filter (· ∉ ids) = 0 :: (mid.filter (· ∉ ids) ++ 1 :: (tl ++ txt)) := by
      rw [H.stack, List.filter_cons_of_pos (by simpa using fun h => (hout 0 h).1 rfl), List.filter_append,
        List.filter_cons_of_pos (by simpa using fun h => (hout 1 h).2.1 rfl), List.filter_append, hfilt tl fun id h => (hout id h).2.2.1,
        hfilt txt fun id h => (hout id h).2.2.2.1]
    exact {
      size := H.size
      stack := hstack
      nodup := H.nodup.filter _
      lt := fun id hid => by rw [e2]; exact H.lt id (List.mem_filter.1 hid).1
      hbg := by rw [← H.hbg]; exact hkeep 0 fun h => (hout 0 h).1 rfl
      hsc := by rw [← H.hsc]; exact hkeep 1 fun h => (hout 1 h).2.1 rfl
      hrest := by rw [← H.hrest]; exact hmap tl fun id h => (hout id h).2.2.1
      hlive := rfl
      hexp := Or.inr ⟨ids, rfl, Or.inr ⟨rfl, fun id hid => ⟨by simp [hid], by rw [e2]; exact (hout id hid).2.2.2.2.2⟩⟩⟩
      hmid := by
        refine (H.hmid.filter _).trans ?_
        rw [List.filter_append, List.filter_eq_nil_iff.2 fun id hid => by simpa using hlids id hid, hfilt _ fun id h => (hout id h).2.2.2.2.1]
      hnone := H.hnone
      hsome := fun ws hws => by
        obtain ⟨imgs, i1, i2, i3⟩ := H.hsome ws hws
        refine ⟨imgs, i1, i2, ?_⟩
        rw [← i3]
        exact hmap _ fun id h => by have := (hout id h).2.2.2.2.1; rwa [i1] at this
      htxt := by
        have := hmap txt fun id h => (hout id h).2.2.2.1
        simp only [this]
        exact H.htxt }

/-- New items below the score keep the rest. -/
theorem OInv.insert (H : OInv pw g w h bg sc rest s o mid tl txt live) {o' : Overlay} {its : List Item} (I : Ins o o' (0 :: mid) (tl ++ txt) its) :
    o'.stack = 0 :: ((mid ++ List.range' o.canvas.length its.length) ++ 1 :: (tl ++ txt)) ∧ o'.stack.Nodup ∧ (∀ id ∈ o'.stack, id < o'.canvas.length) ∧
      (∀ id, id < o.canvas.length → o'.canvas.item? id = o.canvas.item? id) ∧ (List.range' o.canvas.length its.length).map o'.canvas.item? = its.map some := by
  have hs : o'.stack = 0 :: ((mid ++ List.range' o.canvas.length its.length) ++ 1 :: (tl ++ txt)) := by rw [I.stack]; simp
  have hp : o'.stack.Perm (o.stack ++ List.range' o.canvas.length its.length) := by
    rw [hs, H.stack, List.cons_append]
    refine List.Perm.cons _ ?_
    rw [List.append_assoc, List.append_assoc]
    exact List.Perm.append_left _ (List.perm_append_comm)
  refine ⟨hs, ?_, ?_, ?_, ?_⟩
  · rw [hp.nodup_iff, List.nodup_append]
    refine ⟨H.nodup, List.nodup_range' _, fun a ha b hb => ?_⟩
    have := H.lt a ha
    have := (List.mem_range'_1.1 hb).1
    omega
  · intro id hid
    rw [I.canvas, List.length_append, List.length_map]
    rcases List.mem_append.1 (hp.mem_iff.1 hid) with h | h
    · have := H.lt id h; omega
    · have := (List.mem_range'_1.1 h).2; omega
  · intro id hid
    rw [I.canvas, item_old hid]
  · rw [I.canvas, items_added]

theorem OInv.expand (H : OInv pw g w h bg sc rest s o mid tl txt live) (cells : List Pos) :
    ∃ o' mid' live', o.drawExpanded cells = .ok o' ∧ OInv pw g w h bg sc rest { s with cells := cells } o' mid' tl txt live' := by
  obtain ⟨m₁, H₁⟩ := H.clear
  have p := H₁.places
  have l0 := H₁.lt
  have s0 := H₁.stack
  set o₁ := o.clearExpanded
  have h1 : 1 ∉ (0 :: m₁) := by
    simp only [List.mem_cons, not_or]
    exact ⟨by omega, p.2.1⟩
  obtain ⟨o₂, e₂, i₂, x₂, d₂⟩ := drawCells_ins cells.length cells 0 { o₁ with expanded := some [] } (0 :: m₁) (tl ++ txt) [] (by simpa using s0) h1 l0 rfl
  have i₂' : Ins o₁ o₂ (0 :: m₁) (tl ++ txt) (cellsPicture g h cells) := by
    have : ((cells.zipIdx 0).map fun q => block o₁.gridSize o₁.height q.1 (cellColor cells.length q.2) (cellColor cells.length q.2)) = cellsPicture g h cells := by
      rw [H₁.size.2.1, H₁.size.2.2]; rfl
    rw [← this]
    exact ⟨i₂.canvas, i₂.stack, i₂.width, i₂.height, i₂.gridSize, i₂.distances⟩
  obtain ⟨q1, q2, q3, q4, q5⟩ := H₁.insert i₂'
  have hlen : (cellsPicture g h cells).length = cells.length := by simp [cellsPicture]
  have hmem : ∀ id ∈ o₁.stack, o₂.canvas.item? id = o₁.canvas.item? id := fun id hid => q4 id (l0 id hid)
  have hmap : ∀ l : List ℕ, (∀ id ∈ l, id ∈ o₁.stack) → l.map o₂.canvas.item? = l.map o₁.canvas.item? := fun l hl => List.map_congr_left fun j hj => hmem j (hl j hj)
  have hdm : ∀ id ∈ (o₁.dist.getD []).flatten, id ∈ o₁.stack := fun id hid => by
    rw [s0]; simp [H₁.hmid.mem_iff.2 (List.mem_append_right _ hid)]
  refine ⟨o₂, m₁ ++ List.range' o₁.canvas.length (cellsPicture g h cells).length, List.range' o₁.canvas.length (cellsPicture g h cells).length, e₂, ?_⟩
  exact {
    size := ⟨i₂'.width.trans H₁.size.1, i₂'.height.trans H₁.size.2.1, i₂'.gridSize.trans H₁.size.2.2⟩
    stack := q1
    nodup := q2
    lt := q3
    hbg := by rw [hmem 0 (by simp [s0])]; exact H₁.hbg
    hsc := by rw [hmem 1 (by simp [s0])]; exact H₁.hsc
    hrest := by rw [hmap tl fun id hid => by simp [s0, hid]]; exact H₁.hrest
    hlive := q5
    hexp := Or.inr ⟨_, x₂, Or.inl (by rw [hlen]; rfl)⟩
    hmid := by
      rw [show o₂.dist = o₁.dist from d₂]
      exact (List.perm_append_comm).trans (List.Perm.append_left _ (by simpa using H₁.hmid))
    hnone := fun hb => (show o₂.dist = o₁.dist from d₂).trans (H₁.hnone hb)
    hsome := fun ws hws => by
      obtain ⟨imgs, j1, j2, j3⟩ := H₁.hsome ws hws
      refine ⟨imgs, (show o₂.dist = o₁.dist from d₂).trans j1, j2, ?_⟩
      rw [hmap _ fun id hid => hdm id (by rw [j1]; exact hid)]
      exact j3
    htxt := by
      rw [hmap txt fun id hid => by simp [s0, hid], i₂'.distances]
      exact H₁.htxt }

/-- `drawDistributions` draws black blocks. -/
theorem OInv.draw (H : OInv pw g w h bg sc rest s o mid tl txt live) (hb : s.belief = none) :
    ∃ o' mid', o.drawDistributions = .ok o' ∧ OInv pw g w h bg sc rest { s with belief := some [] } o' mid' tl txt live := by
  have p := H.places
  have h1 : 1 ∉ (0 :: mid) := by
    simp only [List.mem_cons, not_or]
    exact ⟨by omega, p.2.1⟩
  obtain ⟨o₂, imgs, e₂, sh, fl, i₂, x₂⟩ := drawColumns_ins o.width 0 o (0 :: mid) (tl ++ txt) (by simpa using H.stack) h1 H.lt
  rw [H.size.1, H.size.2.1] at sh fl
  rw [H.size.1, H.size.2.1, H.size.2.2] at i₂
  have hpic : (((List.range' 0 w).product (List.range h)).map fun c => block g h ((c.1 : ℚ), (c.2 : ℚ)) "#000000".toList "#000000".toList) = beliefPicture pw g w h (some []) := by
    rw [← List.range_eq_range']
    simp only [beliefPicture, beliefColor_nil, ite_self]
    rfl
  rw [hpic] at i₂
  obtain ⟨q1, q2, q3, q4, q5⟩ := H.insert i₂
  have hlen : (beliefPicture pw g w h (some [])).length = w * h := by simp [beliefPicture, mazeCells, List.product, List.length_flatMap]
  rw [hlen] at q1 q5
  have hmem : ∀ id ∈ o.stack, o₂.canvas.item? id = o.canvas.item? id := fun id hid => q4 id (H.lt id hid)
  have hmap : ∀ l : List ℕ, (∀ id ∈ l, id ∈ o.stack) → l.map o₂.canvas.item? = l.map o.canvas.item? := fun l hl => List.map_congr_left fun j hj => hmem j (hl j hj)
  refine ⟨{ o₂ with dist := some imgs }, mid ++ List.range' o.canvas.length (w * h), ?_, ?_⟩
  · simp only [Overlay.drawDistributions, e₂, bind, Except.bind, pure, Except.pure]
  exact {
    size := ⟨i₂.width.trans H.size.1, i₂.height.trans H.size.2.1, i₂.gridSize.trans H.size.2.2⟩
    stack := q1
    nodup := q2
    lt := q3
    hbg := by show o₂.canvas.item? 0 = _; rw [hmem 0 (by simp [H.stack])]; exact H.hbg
    hsc := by show o₂.canvas.item? 1 = _; rw [hmem 1 (by simp [H.stack])]; exact H.hsc
    hrest := by show tl.map o₂.canvas.item? = _; rw [hmap tl fun id hid => by simp [H.stack, hid]]; exact H.hrest
    hlive := by
      show live.map o₂.canvas.item? = _
      rw [hmap live fun id hid => by rw [H.stack]; simp [H.hmid.mem_iff.2 (List.mem_append_left _ hid)]]
      exact H.hlive
    hexp := by
      rcases H.hexp with ⟨y1, y2⟩ | ⟨ids, y1, y2⟩
      · exact Or.inl ⟨x₂.trans y1, y2⟩
      · refine Or.inr ⟨ids, x₂.trans y1, y2.imp id fun y2 => ⟨y2.1, fun id hid => ?_⟩⟩
        obtain ⟨y3, y4⟩ := y2.2 id hid
        refine ⟨?_, ?_⟩
        · show id ∉ o₂.stack
          rw [q1]
          rw [H.stack] at y3
          simp only [List.mem_cons, List.mem_append, not_or, List.mem_range'_1] at y3 ⊢
          exact ⟨y3.1, ⟨y3.2.1, by omega⟩, y3.2.2⟩
        · show id < o₂.canvas.length
          rw [i₂.canvas, List.length_append]
          omega
    hmid := by
      have := H.hmid
      rw [H.hnone hb] at this
      simp only [Option.getD_none, List.flatten_nil, List.append_nil] at this
      simp only [Option.getD_some, fl]
      exact List.Perm.append_right _ this
    hnone := fun hb => by simp at hb
    hsome := fun ws hws => by
      obtain rfl : [] = ws := by simpa using hws
      exact ⟨imgs, rfl, sh, by rw [fl]; exact q5⟩
    htxt := by
      show _ ∨ ∃ ts, _ ∧ _ ∧ txt.map o₂.canvas.item? = _
      rw [hmap txt fun id hid => by simp [H.stack, hid]]
      rcases H.htxt with ⟨t1, t2, t3⟩ | ⟨ts, t1, t2, t3⟩
      · exact Or.inl ⟨t1, i₂.distances.trans t2, t3⟩
      · exact Or.inr ⟨ts, t1, i₂.distances.trans t2, t3⟩ }

/-- Items on the canvas change only at identifiers of the beliefs. -/
theorem OInv.recolour (H : OInv pw g w h bg sc rest s o mid tl txt live) {ws₀ ws : List ℚ} (hb : s.belief = some ws₀) {c : Canvas} (hl : c.length = o.canvas.length)
    (hk : ∀ j, j ∉ (o.dist.getD []).flatten → c.item? j = o.canvas.item? j)
    (hp : ∀ imgs, o.dist = some imgs → imgs.flatten.map c.item? = (beliefPicture pw g w h (some ws)).map some) :
    OInv pw g w h bg sc rest { s with belief := some ws } { o with canvas := c } mid tl txt live := by
  obtain ⟨p0, p1, pm, pn, px, p0x, p1x, pxt, pd⟩ := H.places
  have hdm : ∀ id ∈ (o.dist.getD []).flatten, id ∈ mid := fun id hid => H.hmid.mem_iff.2 (List.mem_append_right _ hid)
  have hmap : ∀ l : List ℕ, (∀ id ∈ l, id ∉ (o.dist.getD []).flatten) → l.map c.item? = l.map o.canvas.item? := fun l hl => List.map_congr_left fun j hj => hk j (hl j hj)
  exact {
    size := H.size
    stack := H.stack
    nodup := H.nodup
    lt := fun id hid => by show id < c.length; rw [hl]; exact H.lt id hid
    hbg := by rw [← H.hbg]; exact hk 0 fun h => p0 (hdm 0 h)
    hsc := by rw [← H.hsc]; exact hk 1 fun h => p1 (hdm 1 h)
    hrest := by rw [← H.hrest]; exact hmap tl fun id hid h => (pm id (hdm id h)).1 hid
    hlive := by rw [← H.hlive]; exact hmap live fun id hid h => pd id hid h
    hexp := by
      show _ ∨ ∃ ids, _ ∧ (_ ∨ _ ∧ ∀ id ∈ ids, _ ∧ id < c.length)
      rw [hl]
      exact H.hexp
    hmid := H.hmid
    hnone := fun hb => by simp at hb
    hsome := fun ws' hws => by
      obtain rfl : ws = ws' := by simpa using hws
      obtain ⟨imgs, j1, j2, _⟩ := H.hsome ws₀ hb
      exact ⟨imgs, j1, j2, hp imgs j1⟩
    htxt := by
      show _ ∨ ∃ ts, _ ∧ _ ∧ txt.map c.item? = _
      rw [hmap txt fun id hid h => (pm id (hdm id h)).2 hid]
      exact H.htxt }

theorem maze_zero (w h : ℕ) : mazeCells w h = [] ∨ ∃ t, mazeCells w h = (0, 0) :: t ∧ (0, 0) ∉ t := by
  have hn : (mazeCells w h).Nodup := List.Nodup.product List.nodup_range List.nodup_range
  cases w with
  | zero => left; simp [mazeCells, List.product]
  | succ w =>
    cases h with
    | zero => left; simp [mazeCells, List.product]
    | succ h =>
      right
      have : ∃ t, mazeCells (w + 1) (h + 1) = (0, 0) :: t := by
        simp [mazeCells, List.product, List.range_succ_eq_map]
      obtain ⟨t, ht⟩ := this
      exact ⟨t, ht, by rw [ht] at hn; exact (List.nodup_cons.1 hn).1⟩

theorem OInv.paint (H : OInv pw g w h bg sc rest s o mid tl txt live) {ws₀ : List ℚ} (hb : s.belief = some ws₀) (ds : List (ℕ × ℕ → ℚ)) :
    ∃ o', o.updateDistributions pw ds = .ok o' ∧ OInv pw g w h bg sc rest { s with belief := some (ds.map fun d => d (0, 0)) } o' mid tl txt live := by
  obtain ⟨imgs, j1, j2, j3⟩ := H.hsome ws₀ hb
  obtain ⟨cells, c1, c2, c3⟩ := beliefCells_shaped j2
  refine ⟨(cells.foldl (Overlay.beliefStep pw) (o, ds)).1, ?_, ?_⟩
  · simp only [Overlay.updateDistributions, j1, reduceCtorEq, if_false, Option.getD_some, c1, bind, Except.bind, pure, Except.pure]
  have hfn : imgs.flatten.Nodup := by
    have := H.hmid.nodup_iff.1 H.places.2.2.2.1
    rw [j1, Option.getD_some] at this
    exact (List.nodup_append.1 this).2.1
  cases cells with
  | nil =>
    have hm : mazeCells w h = [] := by simpa using c2.symm
    have hf : imgs.flatten = [] := by simpa using c3.symm
    have := H.recolour hb (ws := ds.map fun d => d (0, 0)) (c := o.canvas) rfl (fun _ _ => rfl) (fun imgs' hi => by
      obtain rfl : imgs = imgs' := by rw [j1] at hi; simpa using hi
      rw [hf]
      simp [beliefPicture, hm])
    exact this
  | cons q t =>
    obtain ⟨c, e1, e2, e3⟩ := belief_fold pw t (o.changeColor q.2 (beliefColor pw (ds.map fun d => d q.1)))
    have hfold : (List.foldl (Overlay.beliefStep pw) (o, ds) (q :: t)).1 = { o with canvas := c } := by
      rw [List.foldl_cons]
      show (t.foldl (Overlay.beliefStep pw) (o.changeColor q.2 (beliefColor pw (ds.map fun d => d q.1)), [])).1 = _
      rw [e1]
      rfl
    rw [hfold]
    rw [List.map_cons] at c2 c3
    obtain ⟨u, hu, hu0⟩ : ∃ u, mazeCells w h = (0, 0) :: u ∧ (0, 0) ∉ u := by
      rcases maze_zero w h with h0 | h0
      · rw [h0] at c2; simp at c2
      · exact h0
    rw [hu] at c2
    obtain ⟨hq, htu⟩ := List.cons.inj c2
    have hqt : q.2 ∉ t.map Prod.snd := by
      rw [← c3] at hfn
      exact (List.nodup_cons.1 hfn).1
    simp only [Overlay.changeColor, item_change] at e3
    refine H.recolour hb (e2.trans (change_length _ _ _)) ?_ ?_
    · intro j hj
      rw [j1, Option.getD_some, ← c3] at hj
      simp only [List.mem_cons, not_or] at hj
      rw [e3 j, if_neg hj.2, if_neg hj.1]
    · intro imgs' hi
      obtain rfl : imgs = imgs' := by rw [j1] at hi; simpa using hi
      rw [← c3] at j3 ⊢
      simp only [beliefPicture, hu, List.map_cons] at j3 ⊢
      obtain ⟨k1, k2⟩ := List.cons.inj j3
      congr 1
      · rw [e3, if_neg hqt, if_pos rfl, k1, hq]
        simp [block]
      · have hx : (t.map Prod.snd).map c.item? = (t.map Prod.snd).map fun j => (o.canvas.item? j).map fun it => { it with fill := "#000000".toList } := by
          refine List.map_congr_left fun j hj => ?_
          have hjq : j ≠ q.2 := fun e => hqt (e ▸ hj)
          rw [e3, if_pos hj, if_neg hjq]
        rw [hx]
        have hy : (t.map Prod.snd).map (fun j => (o.canvas.item? j).map fun it => { it with fill := "#000000".toList }) =
            ((t.map Prod.snd).map o.canvas.item?).map (Option.map fun it => { it with fill := "#000000".toList }) := by
          simp only [List.map_map, Function.comp_def]
        rw [hy, k2, List.map_map, List.map_map, List.map_map]
        refine List.map_congr_left fun cc hcc => ?_
        have hc0 : cc ≠ (0, 0) := fun e => hu0 (e ▸ hcc)
        simp only [Function.comp_apply, if_neg hc0, Option.map_some, block]

theorem OInv.beliefs (H : OInv pw g w h bg sc rest s o mid tl txt live) (ds : List (ℕ × ℕ → ℚ)) :
    ∃ o' mid', o.updateDistributions pw ds = .ok o' ∧ OInv pw g w h bg sc rest { s with belief := some (ds.map fun d => d (0, 0)) } o' mid' tl txt live := by
  cases hb : s.belief with
  | some ws₀ =>
    obtain ⟨o', e, H'⟩ := H.paint hb ds
    exact ⟨o', mid, e, H'⟩
  | none =>
    obtain ⟨o₁, m₁, e₁, H₁⟩ := H.draw hb
    obtain ⟨o', e, H'⟩ := H₁.paint rfl ds
    refine ⟨o', m₁, ?_, H'⟩
    rw [← e]
    obtain ⟨imgs, j1, _, _⟩ := H₁.hsome [] rfl
    simp only [Overlay.updateDistributions, H.hnone hb, if_true, e₁, bind, Except.bind, j1, reduceCtorEq, if_false]

theorem textsPicture_eq (g : ℚ) (w h : ℕ) (ts : List Str) : textsPicture g w h ts = ts.zipIdx.map fun q => aText g w h q.1 q.2 := rfl

theorem OInv.distances (H : OInv pw g w h bg sc rest s o mid tl txt live) (ds : List Str) (hne : ds ≠ []) :
    ∃ o' txt', o.updateDistances ds = (match (s.step (.distances ds)).2 with
      | none => .ok o'
      | some e => .error (e, o')) ∧ OInv pw g w h bg sc rest (s.step (.distances ds)).1 o' mid tl txt' live := by
  obtain ⟨p0, p1, pm, pn, px, p0x, p1x, pxt, pd⟩ := H.places
  have hstk : ∀ id, id ∈ o.stack ↔ id = 0 ∨ id ∈ mid ∨ id = 1 ∨ id ∈ tl ∨ id ∈ txt := fun id => by rw [H.stack]; simp
  have hlm : ∀ id ∈ live, id ∈ mid := fun id hid => H.hmid.mem_iff.2 (List.mem_append_left _ hid)
  have hdm : ∀ id ∈ (o.dist.getD []).flatten, id ∈ mid := fun id hid => H.hmid.mem_iff.2 (List.mem_append_right _ hid)
  rcases H.htxt with ⟨t1, t2, t3⟩ | ⟨ts, t1, t2, t3⟩
  · subst t3
    obtain ⟨o', e, r⟩ := initDistances_eq ds 0 { o with distances := some [] } [] rfl
    simp only [Nat.sub_zero] at e r
    have hstep : s.step (.distances ds) = ({ s with texts := some (ds.take 5) }, if ds.length ≤ 5 then none else some .index) := by
      simp only [OState.step, if_neg hne, t1]
    rw [← textsPicture_eq, H.size.1, H.size.2.1, H.size.2.2, List.nil_append] at r
    have hlen : (textsPicture g w h (ds.take 5)).length = (ds.take 5).length := by simp [textsPicture]
    refine ⟨o', List.range' o.canvas.length (ds.take 5).length, ?_, ?_⟩
    · rw [hstep]
      simp only [Overlay.updateDistances, if_neg hne, t2, e]
      by_cases hl : ds.length ≤ 5 <;> simp [hl]
    · rw [hstep]
      have hmem : ∀ id ∈ o.stack, o'.canvas.item? id = o.canvas.item? id := fun id hid => by
        rw [r]; exact item_old (H.lt id hid) _
      have hmap : ∀ l : List ℕ, (∀ id ∈ l, id ∈ o.stack) → l.map o'.canvas.item? = l.map o.canvas.item? := fun l hl => List.map_congr_left fun j hj => hmem j (hl j hj)
      have hst : o'.stack = o.stack ++ List.range' o.canvas.length (ds.take 5).length := by rw [r]
      have hcl : o'.canvas.length = o.canvas.length + (ds.take 5).length := by rw [r]; simp [hlen]
      have hds : o'.dist = o.dist := by rw [r]
      have hxp : o'.expanded = o.expanded := by rw [r]
      exact {
        size := by rw [r]; exact ⟨rfl, rfl, rfl⟩
        stack := by rw [hst, H.stack]; simp
        nodup := by
          rw [hst, List.nodup_append]
          refine ⟨H.nodup, List.nodup_range' _, fun a ha b hb => ?_⟩
          have := H.lt a ha
          have := (List.mem_range'_1.1 hb).1
          omega
        lt := fun id hid => by
          rw [hst] at hid
          rw [hcl]
          rcases List.mem_append.1 hid with h | h
          · have := H.lt id h; omega
          · have := (List.mem_range'_1.1 h).2; omega
        hbg := by rw [hmem 0 ((hstk 0).2 (Or.inl rfl))]; exact H.hbg
        hsc := by rw [hmem 1 ((hstk 1).2 (by simp))]; exact H.hsc
        hrest := by rw [hmap tl fun id hid => (hstk id).2 (by simp [hid])]; exact H.hrest
        hlive := by rw [hmap live fun id hid => (hstk id).2 (by simp [hlm id hid])]; exact H.hlive
        hexp := by
          rw [hxp, hst, hcl]
          rcases H.hexp with y | ⟨ids, y1, y2⟩
          · exact Or.inl y
          · refine Or.inr ⟨ids, y1, y2.imp id fun y2 => ⟨y2.1, fun id hid => ?_⟩⟩
            obtain ⟨y3, y4⟩ := y2.2 id hid
            simp only [List.mem_append, not_or, List.mem_range'_1]
            exact ⟨⟨y3, by omega⟩, by omega⟩
        hmid := by rw [hds]; exact H.hmid
        hnone := fun hb => hds.trans (H.hnone hb)
        hsome := fun ws hws => by
          obtain ⟨imgs, j1, j2, j3⟩ := H.hsome ws hws
          refine ⟨imgs, hds.trans j1, j2, ?_⟩
          rw [hmap _ fun id hid => (hstk id).2 (by simp [hdm id (by rw [j1]; exact hid)])]
          exact j3
        htxt := Or.inr ⟨_, rfl, by rw [r], by rw [r, ← hlen]; exact items_added _ _⟩ }
  · obtain ⟨c, e, l, hk, hi⟩ := changeDistances_eq txt px ds 0 o
    have hlen : txt.length = ts.length := by simpa [textsPicture] using congrArg List.length t3
    have hstep : s.step (.distances ds) = ({ s with texts := some (ds.take ts.length ++ ts.drop ds.length) }, if ds.length ≤ ts.length then none else some .index) := by
      simp only [OState.step, if_neg hne, t1]
    have hmap : ∀ l : List ℕ, (∀ id ∈ l, id ∉ txt) → l.map c.item? = l.map o.canvas.item? := fun l hl => List.map_congr_left fun j hj => hk j (hl j hj)
    refine ⟨{ o with canvas := c }, txt, ?_, ?_⟩
    · rw [hstep]
      simp only [Overlay.updateDistances, if_neg hne, t2, e, Nat.sub_zero, hlen]
      by_cases hl : ds.length ≤ ts.length <;> simp [hl]
    · rw [hstep]
      exact {
        size := H.size
        stack := H.stack
        nodup := H.nodup
        lt := fun id hid => by show id < c.length; rw [l]; exact H.lt id hid
        hbg := by rw [← H.hbg]; exact hk 0 p0x
        hsc := by rw [← H.hsc]; exact hk 1 p1x
        hrest := by rw [← H.hrest]; exact hmap tl fun id hid h => pxt id h hid
        hlive := by rw [← H.hlive]; exact hmap live fun id hid h => (pm id (hlm id hid)).2 h
        hexp := by
          show _ ∨ ∃ ids, _ ∧ (_ ∨ _ ∧ ∀ id ∈ ids, _ ∧ id < c.length)
          rw [l]
          exact H.hexp
        hmid := H.hmid
        hnone := H.hnone
        hsome := fun ws hws => by
          obtain ⟨imgs, j1, j2, j3⟩ := H.hsome ws hws
          refine ⟨imgs, j1, j2, ?_⟩
          show imgs.flatten.map c.item? = _
          rw [hmap _ fun id hid h => (pm id (hdm id (by rw [j1]; exact hid))).2 h]
          exact j3
        htxt := by
          refine Or.inr ⟨_, rfl, t2, ?_⟩
          show txt.map c.item? = _
          have hl2 : (ds.take ts.length ++ ts.drop ds.length).length = ts.length := by simp; omega
          apply List.ext_getElem
          · simp [textsPicture, hlen]; omega
          · intro k hk1 hk2
            have hkt : k < txt.length := by simpa using hk1
            have hks : k < ts.length := by omega
            have h3 := List.getElem_of_eq t3 (i := k) (by simpa using hkt)
            simp only [List.getElem_map, textsPicture_eq, List.getElem_zipIdx, Nat.zero_add] at h3 ⊢
            rw [hi k hkt]
            by_cases hkd : k < ds.length
            · rw [dif_pos ⟨Nat.zero_le _, by simpa using hkd⟩, h3]
              simp only [Option.map_some, aText, Nat.sub_zero]
              rw [List.getElem_append_left (by simp; omega), List.getElem_take]
            · rw [dif_neg (by simpa using hkd), h3]
              rw [List.getElem_append_right (by simp; omega)]
              have : ds.length + (k - (ds.take ts.length).length) = k := by simp; omega
              simp only [List.getElem_drop, this] }

theorem OInv.call (H : OInv pw g w h bg sc rest s o mid tl txt live) (c : OCmd) :
    (o.call pw c).2 = (s.step c).2 ∧ ∃ mid' txt' live', OInv pw g w h bg sc rest (s.step c).1 (o.call pw c).1 mid' tl txt' live' := by
  cases c with
  | expand cells =>
    obtain ⟨o', m, l, e, H'⟩ := H.expand cells
    simp only [Overlay.call, e]
    exact ⟨rfl, m, txt, l, H'⟩
  | clear =>
    obtain ⟨m, H'⟩ := H.clear
    exact ⟨rfl, m, txt, [], H'⟩
  | beliefs ds =>
    obtain ⟨o', m, e, H'⟩ := H.beliefs ds
    simp only [Overlay.call, e]
    exact ⟨rfl, m, txt, live, H'⟩
  | distances ds =>
    by_cases hne : ds = []
    · subst hne
      exact ⟨rfl, mid, txt, live, H⟩
    · obtain ⟨o', t, e, H'⟩ := H.distances ds hne
      simp only [Overlay.call, e]
      cases hx : (s.step (.distances ds)).2 with
      | none => exact ⟨rfl, mid, t, live, H'⟩
      | some er => exact ⟨rfl, mid, t, live, H'⟩
  | team b => exact ⟨rfl, mid, txt, live, H⟩

theorem OInv.calls (cs : List OCmd) : ∀ {s : OState} {o : Overlay} {mid txt live : List ℕ}, OInv pw g w h bg sc rest s o mid tl txt live →
    (o.calls pw cs).2 = (s.run cs).2 ∧ ∃ mid' txt' live', OInv pw g w h bg sc rest (s.run cs).1 (o.calls pw cs).1 mid' tl txt' live' := by
  induction cs with
  | nil => intro s o mid txt live H; exact ⟨rfl, mid, txt, live, H⟩
  | cons c t ih =>
    intro s o mid txt live H
    obtain ⟨h1, m, x, l, H1⟩ := H.call c
    obtain ⟨h2, r⟩ := ih H1
    refine ⟨?_, r⟩
    simp only [Overlay.calls, OState.run, h1, h2]

theorem Plain.inv (P : Plain o bg sc rest) (pw : ℚ → ℚ) : OInv pw o.gridSize o.width o.height bg sc rest {} o [] (List.range' 2 rest.length) [] [] := by
  have hlen : o.canvas.length = rest.length + 2 := by rw [P.items]; simp
  have hs : o.stack = 0 :: ([] ++ 1 :: (List.range' 2 rest.length ++ [])) := by
    rw [P.stack, hlen, List.range_eq_range', List.range'_succ, List.range'_succ]
    simp
  exact {
    size := ⟨rfl, rfl, rfl⟩
    stack := hs
    nodup := by rw [P.stack]; exact List.nodup_range
    lt := fun id hid => by rw [P.stack] at hid; exact List.mem_range.1 hid
    hbg := by rw [P.items]; rfl
    hsc := by rw [P.items]; rfl
    hrest := by
      have := items_added [some bg, some sc] rest
      rw [P.items]
      exact this
    hlive := rfl
    hexp := Or.inl ⟨P.attrs.1, rfl⟩
    hmid := by rw [P.attrs.2.1]; simp
    hnone := fun _ => P.attrs.2.1
    hsome := fun ws hws => by simp at hws
    htxt := Or.inl ⟨rfl, P.attrs.2.2, rfl⟩ }

/-- The screen and the exceptions after any calls. -/
theorem C87_history (P : Plain o bg sc rest) (pw : ℚ → ℚ) (cs : List OCmd) :
    (o.calls pw cs).2 = (OState.run {} cs).2 ∧
    ∃ M, (o.calls pw cs).1.shown = bg :: (M ++ sc :: (rest ++ textsPicture o.gridSize o.width o.height ((OState.run {} cs).1.texts.getD []))) ∧
      M.Perm (cellsPicture o.gridSize o.height (OState.run {} cs).1.cells ++ beliefPicture pw o.gridSize o.width o.height (OState.run {} cs).1.belief) := by
  obtain ⟨h1, m, x, l, H⟩ := (P.inv pw).calls cs
  exact ⟨h1, H.shown⟩

/-- The colours of the expanded cells: the green and blue parts are 63, the red part goes down from 191 and is never below 63. -/
theorem C87_colour {n : ℕ} (hn : n ≤ 2 ^ 53) : ∃ red : ℕ → ℤ, (∀ k < n, cellColor n k = '#' :: hex2 (red k) ++ "3f3f".toList ∧ 63 ≤ red k ∧ red k ≤ 191) ∧
    (∀ j k, j ≤ k → k < n → red k ≤ red j) ∧ (0 < n → red 0 = 191) := by
  have q1 : IsFloat (1 / 4) := ⟨1, -2, by norm_num, by norm_num, by norm_num⟩
  have q2 : IsFloat (1 / 2) := ⟨1, -1, by norm_num, by norm_num, by norm_num⟩
  have q3 : IsFloat (3 / 4) := ⟨3, -2, by norm_num, by norm_num, by norm_num⟩
  have q4 : IsFloat (255 / 4) := ⟨255, -2, by norm_num, by norm_num, by norm_num⟩
  have q5 : IsFloat (765 / 4) := ⟨765, -2, by norm_num, by norm_num, by norm_num⟩
  have f0 : ∀ k, fl (fl (fl (fl (((n : ℚ) - k) * 0) * (1 / 2)) / n) + 1 / 4) = 1 / 4 := by
    intro k
    rw [mul_zero, fl_zero, zero_mul, fl_zero, zero_div, fl_zero, zero_add, fl_of_isFloat q1]
  have hmid : ∀ k, k < n → fl (fl (((n : ℚ) - k) * 1) * (1 / 2)) = ((n : ℚ) - k) / 2 := by
    intro k hk
    have e1 : ((n : ℚ) - k) = (((n - k : ℕ) : ℤ) : ℚ) := by push_cast [hk.le]; ring
    have hle : |((n - k : ℕ) : ℤ)| ≤ 2 ^ 53 := by
      rw [abs_of_nonneg (by positivity)]
      have : n - k ≤ 2 ^ 53 := by omega
      exact_mod_cast this
    rw [mul_one, e1, fl_of_isFloat (isFloat_int hle)]
    have := isFloat_grid (d := 1) hle (by norm_num)
    have e2 : ((((n - k : ℕ) : ℤ) : ℚ)) * (1 / 2) = (((n - k : ℕ) : ℤ) : ℚ) * 2 ^ (-((1 : ℕ) : ℤ)) := by norm_num
    rw [e2, fl_of_isFloat this, ← e2]
    ring
  let F : ℕ → ℚ := fun k => fl (fl (((n : ℚ) - k) / 2 / n) + 1 / 4)
  have hF : ∀ k, k < n → 1 / 4 ≤ F k ∧ F k ≤ 3 / 4 := by
    intro k hk
    have hn0 : (0 : ℚ) < n := by exact_mod_cast (by omega : 0 < n)
    have hk' : (k : ℚ) ≤ n := by exact_mod_cast hk.le
    have hk0 : (0 : ℚ) ≤ k := by positivity
    have h1 : 0 ≤ fl (((n : ℚ) - k) / 2 / n) := fl_nonneg (div_nonneg (by linarith) hn0.le)
    have h2 : fl (((n : ℚ) - k) / 2 / n) ≤ 1 / 2 := fl_le q2 (by rw [div_le_iff₀ hn0]; linarith)
    exact ⟨le_fl q1 (by linarith), fl_le q3 (by linarith)⟩
  have hmono : ∀ j k, j ≤ k → k < n → F k ≤ F j := by
    intro j k hjk hk
    have hn0 : (0 : ℚ) < n := by exact_mod_cast (by omega : 0 < n)
    have hjk' : (j : ℚ) ≤ k := by exact_mod_cast hjk
    have : fl (((n : ℚ) - k) / 2 / n) ≤ fl (((n : ℚ) - j) / 2 / n) := fl_mono (by gcongr)
    exact fl_mono (by linarith)
  have hfloor : ∀ k, k < n → 255 / 4 ≤ fl (F k * 255) ∧ fl (F k * 255) ≤ 765 / 4 := fun k hk =>
    ⟨le_fl q4 (by have := (hF k hk).1; linarith), fl_le q5 (by have := (hF k hk).2; linarith)⟩
  have hpy : ∀ x : ℚ, 255 / 4 ≤ x → pyInt x = ⌊x⌋ := fun x hx => by rw [pyInt, if_pos (by linarith)]
  refine ⟨fun k => pyInt (fl (F k * 255)), ?_, ?_, ?_⟩
  · intro k hk
    obtain ⟨a, b⟩ := hfloor k hk
    refine ⟨?_, ?_, ?_⟩
    · have h4 : pyInt (fl (1 / 4 * 255)) = 63 := by
        rw [show (1 / 4 * 255 : ℚ) = 255 / 4 by norm_num, fl_of_isFloat q4, hpy _ le_rfl]
        norm_num [Int.floor_eq_iff]
      have h63 : hex2 63 ++ hex2 63 = "3f3f".toList := by decide
      simp only [cellColor, f0, hmid k hk, formatColor, h4]
      rw [← h63, ← List.append_assoc]
    · show 63 ≤ pyInt (fl (F k * 255))
      rw [hpy _ a]
      exact Int.le_floor.2 (by push_cast; linarith)
    · show pyInt (fl (F k * 255)) ≤ 191
      rw [hpy _ a]
      have : ⌊fl (F k * 255)⌋ < 192 := Int.floor_lt.2 (by push_cast; linarith)
      omega
  · intro j k hjk hk
    show pyInt (fl (F k * 255)) ≤ pyInt (fl (F j * 255))
    rw [hpy _ (hfloor k hk).1, hpy _ (hfloor j (by omega)).1]
    exact Int.floor_mono (fl_mono (by have := hmono j k hjk hk; linarith))
  · intro h0
    have hn0 : (n : ℚ) ≠ 0 := by exact_mod_cast h0.ne'
    have e1 : F 0 = 3 / 4 := by
      show fl (fl (((n : ℚ) - (0 : ℕ)) / 2 / n) + 1 / 4) = 3 / 4
      have : ((n : ℚ) - (0 : ℕ)) / 2 / n = 1 / 2 := by push_cast; field_simp; ring
      rw [this, fl_of_isFloat q2, show (1 / 2 + 1 / 4 : ℚ) = 3 / 4 by norm_num, fl_of_isFloat q3]
    show pyInt (fl (F 0 * 255)) = 191
    rw [e1, show (3 / 4 * 255 : ℚ) = 765 / 4 by norm_num, fl_of_isFloat q5, hpy _ (by norm_num)]
    norm_num [Int.floor_eq_iff]

/-- Items are only added. -/
def Grows (c c' : Canvas) : Prop := ∃ its : List Item, c' = c ++ its.map some

theorem Grows.refl (c : Canvas) : Grows c c := ⟨[], by simp⟩
theorem Grows.trans {a b c : Canvas} (h₁ : Grows a b) (h₂ : Grows b c) : Grows a c := by
  obtain ⟨x, rfl⟩ := h₁
  obtain ⟨y, rfl⟩ := h₂
  exact ⟨x ++ y, by simp⟩
theorem grows_add (c : Canvas) (it : Item) : Grows c (c.add it).1 := ⟨[it], rfl⟩
theorem grows_addAll (its : List Item) : ∀ c : Canvas, Grows c (c.addAll its).1 := by
  induction its with
  | nil => exact Grows.refl
  | cons a t ih => exact fun c => (grows_add c a).trans (ih _)
theorem grows_column (g : ℚ) (h x : ℕ) (l : List Bool) : ∀ (y : ℕ) (c : Canvas), Grows c (drawColumn g h x y l c).1 := by
  induction l with
  | nil => exact fun _ => Grows.refl
  | cons b t ih =>
    intro y c
    cases b with
    | false => exact ih _ _
    | true => exact (grows_add c _).trans (ih _ _)
theorem grows_food (g : ℚ) (h : ℕ) (l : List (List Bool)) : ∀ (x : ℕ) (c : Canvas), Grows c (drawFood g h x l c).1 := by
  induction l with
  | nil => exact fun _ => Grows.refl
  | cons b t ih => exact fun x c => (grows_column g h x b 0 c).trans (ih _ _)
theorem grows_capsules (g : ℚ) (h : ℕ) (l : List (ℤ × ℤ)) : ∀ (c : Canvas) (d : Dict (ℤ × ℤ) ℕ), Grows c (drawCapsules g h l c d).1 := by
  induction l with
  | nil => exact fun c _ => Grows.refl c
  | cons b t ih => exact fun c d => (grows_add c _).trans (ih _ _)
theorem grows_agents (sn : ℚ → ℚ) (g : ℚ) (h : ℕ) (l : List Agent) : ∀ (i : ℕ) (c : Canvas) {r}, drawAgents sn g h i l c = .ok r → Grows c r.1 := by
  induction l with
  | nil =>
    intro i c r hr
    simp only [drawAgents, Except.ok.injEq] at hr
    subst hr
    exact Grows.refl c
  | cons a t ih =>
    intro i c r hr
    simp only [drawAgents] at hr
    split at hr
    · simp at hr
    · split at hr
      · simp at hr
      · next r' hr' =>
        simp only [Except.ok.injEq] at hr
        subst hr
        have := (grows_addAll _ c).trans (ih _ _ hr')
        exact this

/-- The screen of a new display is plain. -/
theorem C87_start {sn : ℚ → ℚ} {g : ℚ} {s : GState} {d : Disp} (h : Disp.initialize sn g s = .ok d) :
    ∃ bg sc rest, Plain { canvas := d.canvas, stack := List.range d.canvas.length, width := s.layout.width, height := s.layout.height, gridSize := g } bg sc rest ∧
      sc = { kind := .text, coords := [g, (s.layout.height + 1) * g], outline := [], fill := "#ffff3d".toList, text := "SCORE:    0".toList } := by
  simp only [Disp.initialize, bind, Except.bind, pure, Except.pure] at h
  split at h
  · simp at h
  · next walls _ =>
    split at h
    · simp at h
    · next r hr =>
      simp only [Except.ok.injEq] at h
      have := ((grows_addAll _ _).trans ((grows_food _ _ _ _ _).trans (grows_capsules _ _ _ _ _))).trans (grows_agents _ _ _ _ _ _ hr)
      obtain ⟨its, hits⟩ := this
      subst h
      refine ⟨polygonItem [(0, 0), (0, 2 * g + (s.layout.height - 1) * g + 35 - 1), (2 * g + (s.layout.width - 1) * g - 1, 2 * g + (s.layout.height - 1) * g + 35 - 1),
          (2 * g + (s.layout.width - 1) * g - 1, 0)] backgroundColor,
        textItem (g + 0, (s.layout.height + 1) * g + 0) pacmanColor "SCORE:    0".toList, its, ⟨rfl, ?_, rfl, rfl, rfl⟩, ?_⟩
      · exact hits
      · simp [textItem, colours.2.2.1]

/-- The calls of `plain_case`. -/
def overlayCalls : List OCmd :=
  [.expand [(1, 1), (2, 1)], .distances ["3".toList, "5".toList], .beliefs [fun _ => 1], .expand [(1, 2)], .distances ["7".toList], .team true, .distances ["1".toList, "2".toList, "3".toList], .clear]

/-- The screen is plain before the first overlay, and a history of calls where the second ghost has an old distance, and two calls raise exceptions. -/
theorem plain_case (bg sc a : Item) :
    Plain { canvas := [some bg, some sc, some a], stack := [0, 1, 2], width := 3, height := 2, gridSize := 30 } bg sc [a] ∧
    (OState.run {} overlayCalls).2 = [none, none, none, none, none, some .type, some .index, none] ∧
    (OState.run {} overlayCalls).1.cells = [] ∧ (OState.run {} overlayCalls).1.texts = some ["1".toList, "2".toList] ∧
    (OState.run {} (overlayCalls.take 5)).1.texts = some ["7".toList, "5".toList] ∧ (OState.run {} (overlayCalls.take 5)).1.cells = [(1, 2)] :=
  ⟨⟨rfl, rfl, rfl, rfl, rfl⟩, rfl, rfl, rfl, rfl, rfl⟩

end Verif.Pac
