import Verif.Spec.PacOverlay
import Verif.Props.PacDisplay
import Mathlib.Data.List.Perm.Basic
import Mathlib.Data.List.Nodup
import Mathlib.Data.List.ProdSigma

/-!
# Lemmas on the overlays
-/

namespace Verif.Pac

variable {c : Canvas} {o : Overlay}

theorem item_new (c : Canvas) (it : Item) : Canvas.item? (c ++ [some it]) c.length = some it := by simp [Canvas.item?]

theorem item_old {id : ℕ} (h : id < c.length) (l : List (Option Item)) : Canvas.item? (c ++ l) id = c.item? id := by
  simp only [Canvas.item?]
  rw [List.getElem?_append_left h]

theorem items_added (c : Canvas) (its : List Item) : (List.range' c.length its.length).map (Canvas.item? (c ++ its.map some)) = its.map some := by
  apply List.ext_getElem?
  intro k
  by_cases hk : k < its.length
  · simp [Canvas.item?, hk, List.getElem?_append_right]
  · simp [hk]

theorem item_delete (c : Canvas) (id j : ℕ) : (c.delete id).item? j = if j = id then none else c.item? j := by
  simp only [Canvas.delete, Canvas.item?, List.getElem?_set]
  by_cases h : j = id
  · subst h
    by_cases hl : j < c.length <;> simp [hl]
  · simp [h, Ne.symm h]

theorem delete_length (c : Canvas) (id : ℕ) : (c.delete id).length = c.length := by simp [Canvas.delete]

theorem change_length (c : Canvas) (id : ℕ) (f : Item → Item) : (c.change id f).length = c.length := by
  simp only [Canvas.change]
  split <;> simp

theorem item_change (c : Canvas) (id : ℕ) (f : Item → Item) (j : ℕ) : (c.change id f).item? j = if j = id then (c.item? j).map f else c.item? j := by
  simp only [Canvas.change]
  cases hit : c.item? id with
  | none =>
    by_cases h : j = id
    · subst h
      rw [if_pos rfl, hit]
      rfl
    · rw [if_neg h]
  | some it =>
    have hl : id < c.length := by
      by_contra hl
      simp [Canvas.item?, List.getElem?_eq_none (not_lt.1 hl)] at hit
    by_cases h : j = id
    · subst h
      rw [if_pos rfl, hit]
      simp [Canvas.item?, hl]
    · rw [if_neg h]
      simp [Canvas.item?, List.getElem?_set, Ne.symm h]

/-! ## Drawing behind the score -/

/-- `o'` is `o` with new items just below the item 1. -/
structure Ins (o o' : Overlay) (pre post : List ℕ) (its : List Item) : Prop where
  canvas : o'.canvas = o.canvas ++ its.map some
  stack : o'.stack = pre ++ List.range' o.canvas.length its.length ++ 1 :: post
  width : o'.width = o.width
  height : o'.height = o.height
  gridSize : o'.gridSize = o.gridSize
  distances : o'.distances = o.distances

theorem Ins.trans {o₁ o₂ : Overlay} {pre post : List ℕ} {a b : List Item} (h₁ : Ins o o₁ pre post a)
    (h₂ : Ins o₁ o₂ (pre ++ List.range' o.canvas.length a.length) post b) : Ins o o₂ pre post (a ++ b) := by
  refine ⟨?_, ?_, h₂.width.trans h₁.width, h₂.height.trans h₁.height, h₂.gridSize.trans h₁.gridSize, h₂.distances.trans h₁.distances⟩
  · rw [h₂.canvas, h₁.canvas]
    simp
  · rw [h₂.stack, h₁.canvas]
    simp only [List.length_append, List.length_map]
    rw [← List.range'_append_1 (s := o.canvas.length) (m := a.length) (n := b.length)]
    simp

theorem createBehind_eq {pre post : List ℕ} (hs : o.stack = pre ++ 1 :: post) (h1 : 1 ∉ pre) (hlt : ∀ id ∈ o.stack, id < o.canvas.length) (it : Item) :
    o.createBehind it = .ok ({ o with canvas := o.canvas ++ [some it], stack := pre ++ [o.canvas.length] ++ 1 :: post }, o.canvas.length) := by
  have hn : o.canvas.length ∉ o.stack := fun h => lt_irrefl _ (hlt _ h)
  have he : (o.stack ++ [o.canvas.length]).erase o.canvas.length = o.stack := by
    rw [List.erase_append_right _ hn]
    simp
  have ht : o.stack.takeWhile (fun x => decide (x ≠ 1)) = pre := by
    rw [hs, List.takeWhile_append_of_pos (by intro x hx; have : x ≠ 1 := fun h => h1 (h ▸ hx); simpa using this)]
    simp
  have hd : o.stack.dropWhile (fun x => decide (x ≠ 1)) = 1 :: post := by
    rw [hs, List.dropWhile_append_of_pos (by intro x hx; have : x ≠ 1 := fun h => h1 (h ▸ hx); simpa using this)]
    simp
  have hm : 1 ∈ o.stack ++ [o.canvas.length] := by simp [hs]
  simp only [Overlay.createBehind, Overlay.create, lower, if_pos hm, he, ht, hd, bind, Except.bind, pure, Except.pure]
  simp

theorem createBehind_ins {pre post : List ℕ} (hs : o.stack = pre ++ 1 :: post) (h1 : 1 ∉ pre) (hlt : ∀ id ∈ o.stack, id < o.canvas.length) (it : Item) :
    ∃ o', o.createBehind it = .ok (o', o.canvas.length) ∧ Ins o o' pre post [it] ∧ o'.expanded = o.expanded ∧ o'.dist = o.dist ∧ o'.stack = (pre ++ [o.canvas.length]) ++ 1 :: post ∧
      1 ∉ pre ++ [o.canvas.length] ∧ (∀ id ∈ o'.stack, id < o'.canvas.length) := by
  refine ⟨_, createBehind_eq hs h1 hlt it, ⟨by simp, by simp, rfl, rfl, rfl, rfl⟩, rfl, rfl, rfl, ?_, ?_⟩
  · have := hlt 1 (by simp [hs])
    simp only [List.mem_append, List.mem_singleton, not_or]
    exact ⟨h1, by omega⟩
  · intro id hid
    simp only [List.mem_append, List.mem_singleton, List.length_append, List.length_singleton] at hid ⊢
    rcases hid with (h | h) | h
    · have := hlt id (by simp [hs, h]); omega
    · omega
    · have := hlt id (by rw [hs]; exact List.mem_append_right _ h); omega

theorem squareItem_block (g : ℚ) (h : ℕ) (p : Pos) (col : Str) : squareItem (toScreen g h p) (1 / 2 * g) col = block g h p col col := by
  simp only [squareItem, polygonItem, toScreen, block, List.flatMap_cons, List.flatMap_nil, List.append_nil, List.cons_append, List.nil_append]
  have : 1 / 2 * g = g / 2 := by ring
  rw [this]

theorem drawCells_ins (n : ℕ) (cells : List Pos) : ∀ (k : ℕ) (o : Overlay) (pre post ids : List ℕ), o.stack = pre ++ 1 :: post → 1 ∉ pre → (∀ id ∈ o.stack, id < o.canvas.length) →
    o.expanded = some ids → ∃ o', Overlay.drawCells n k cells o = .ok o' ∧
      Ins o o' pre post ((cells.zipIdx k).map fun q => block o.gridSize o.height q.1 (cellColor n q.2) (cellColor n q.2)) ∧
      o'.expanded = some (ids ++ List.range' o.canvas.length cells.length) ∧ o'.dist = o.dist := by
  induction cells with
  | nil =>
    intro k o pre post ids hs h1 hlt hx
    exact ⟨o, rfl, ⟨by simp, by simp [hs], rfl, rfl, rfl, rfl⟩, by simp [hx], rfl⟩
  | cons p t ih =>
    intro k o pre post ids hs h1 hlt hx
    obtain ⟨o₁, e₁, i₁, x₁, d₁, s₁, n₁, l₁⟩ := createBehind_ins hs h1 hlt (squareItem (toScreen o.gridSize o.height p) (1 / 2 * o.gridSize) (cellColor n k))
    obtain ⟨o₂, e₂, i₂, x₂, d₂⟩ := ih (k + 1) { o₁ with expanded := some (o₁.expanded.getD [] ++ [o.canvas.length]) } _ post (ids ++ [o.canvas.length]) s₁ n₁ l₁ (by simp [x₁, hx])
    refine ⟨o₂, ?_, ?_, ?_, d₂.trans d₁⟩
    · simp only [Overlay.drawCells, e₁, bind, Except.bind]
      exact e₂
    · have i₁' : Ins o { o₁ with expanded := some (o₁.expanded.getD [] ++ [o.canvas.length]) } pre post [block o.gridSize o.height p (cellColor n k) (cellColor n k)] := by
        rw [← squareItem_block]
        exact ⟨i₁.canvas, i₁.stack, i₁.width, i₁.height, i₁.gridSize, i₁.distances⟩
      have h2 := i₁'.trans i₂
      simp only [i₁.gridSize, i₁.height] at h2
      simpa using h2
    · rw [x₂]
      simp only [i₁.canvas, List.length_append, List.length_map, List.length_singleton, List.append_assoc]
      rw [List.length_cons, Nat.add_comm t.length 1, ← List.range'_append_1]
      simp

theorem drawColumn_ins (x m : ℕ) : ∀ (y : ℕ) (o : Overlay) (pre post : List ℕ), o.stack = pre ++ 1 :: post → 1 ∉ pre → (∀ id ∈ o.stack, id < o.canvas.length) →
    ∃ o', Overlay.drawColumn x m y o = .ok (o', List.range' o.canvas.length m) ∧
      Ins o o' pre post ((List.range' y m).map fun (y : ℕ) => block o.gridSize o.height ((x : ℚ), (y : ℚ)) "#000000".toList "#000000".toList) ∧
      o'.expanded = o.expanded ∧ 1 ∉ pre ++ List.range' o.canvas.length m ∧ (∀ id ∈ o'.stack, id < o'.canvas.length) := by
  induction m with
  | zero =>
    intro y o pre post hs h1 hlt
    exact ⟨o, rfl, ⟨by simp, by simp [hs], rfl, rfl, rfl, rfl⟩, rfl, by simpa using h1, hlt⟩
  | succ m ih =>
    intro y o pre post hs h1 hlt
    obtain ⟨o₁, e₁, i₁, x₁, d₁, s₁, n₁, l₁⟩ := createBehind_ins hs h1 hlt (squareItem (toScreen o.gridSize o.height ((x : ℚ), (y : ℚ))) (1 / 2 * o.gridSize) backgroundColor)
    obtain ⟨o₂, e₂, i₂, x₂, n₂, l₂⟩ := ih (y + 1) o₁ _ post s₁ n₁ l₁
    have hlen : o₁.canvas.length = o.canvas.length + 1 := by simp [i₁.canvas]
    refine ⟨o₂, ?_, ?_, x₂.trans x₁, ?_, l₂⟩
    · simp only [Overlay.drawColumn, e₁, bind, Except.bind, e₂, pure, Except.pure, hlen, List.range'_succ]
    · have hb : backgroundColor = "#000000".toList := by decide +kernel
      rw [squareItem_block, hb] at i₁
      have h2 := i₁.trans i₂
      simp only [i₁.gridSize, i₁.height] at h2
      rw [List.range'_succ]
      simpa using h2
    · rw [hlen] at n₂
      rw [List.range'_succ]
      simpa using n₂

/-- A grid of identifiers with `w` columns of length `h`. -/
def Shaped (w h : ℕ) (imgs : List (List ℕ)) : Prop := imgs.length = w ∧ ∀ col ∈ imgs, col.length = h

theorem drawColumns_ins (m : ℕ) : ∀ (x : ℕ) (o : Overlay) (pre post : List ℕ), o.stack = pre ++ 1 :: post → 1 ∉ pre → (∀ id ∈ o.stack, id < o.canvas.length) →
    ∃ o' imgs, Overlay.drawColumns m x o = .ok (o', imgs) ∧ Shaped m o.height imgs ∧ imgs.flatten = List.range' o.canvas.length (m * o.height) ∧
      Ins o o' pre post (((List.range' x m).product (List.range o.height)).map fun c => block o.gridSize o.height ((c.1 : ℚ), (c.2 : ℚ)) "#000000".toList "#000000".toList) ∧
      o'.expanded = o.expanded := by
  induction m with
  | zero =>
    intro x o pre post hs h1 hlt
    exact ⟨o, [], rfl, ⟨rfl, by simp⟩, by simp, ⟨by simp [List.product], by simp [hs, List.product], rfl, rfl, rfl, rfl⟩, rfl⟩
  | succ m ih =>
    intro x o pre post hs h1 hlt
    obtain ⟨o₁, e₁, i₁, x₁, n₁, l₁⟩ := drawColumn_ins x o.height 0 o pre post hs h1 hlt
    have s₁ := i₁.stack
    rw [List.length_map, List.length_range'] at s₁
    obtain ⟨o₂, imgs, e₂, sh, fl, i₂, x₂⟩ := ih (x + 1) o₁ _ post s₁ n₁ l₁
    have hlen : o₁.canvas.length = o.canvas.length + o.height := by simp [i₁.canvas]
    refine ⟨o₂, List.range' o.canvas.length o.height :: imgs, ?_, ⟨by simp [sh.1], ?_⟩, ?_, ?_, x₂.trans x₁⟩
    · simp only [Overlay.drawColumns, e₁, bind, Except.bind, e₂, pure, Except.pure]
    · intro col hc
      rcases List.mem_cons.1 hc with rfl | hc
      · simp
      · rw [← i₁.height]; exact sh.2 col hc
    · rw [List.flatten_cons, fl, hlen, i₁.height, Nat.succ_mul, Nat.add_comm (m * o.height), ← List.range'_append_1]
    · have i₂' := i₂
      rw [show pre ++ List.range' o.canvas.length o.height = pre ++ List.range' o.canvas.length ((List.range' 0 o.height).map fun (y : ℕ) => block o.gridSize o.height ((x : ℚ), (y : ℚ)) "#000000".toList "#000000".toList).length by simp] at i₂'
      have h2 := i₁.trans i₂'
      simp only [i₁.gridSize, i₁.height] at h2
      rw [List.range'_succ]
      simp only [List.product, List.flatMap_cons, List.map_append, List.map_map] at h2 ⊢
      rw [List.range_eq_range']
      rw [List.range_eq_range'] at h2
      exact h2

/-! ## Removing -/

theorem removeAll (ids : List ℕ) : ∀ (o : Overlay), o.stack.Nodup → ∃ c, ids.foldl Overlay.remove o = { o with canvas := c, stack := o.stack.filter (· ∉ ids) } ∧ c.length = o.canvas.length ∧
    ∀ j, c.item? j = if j ∈ ids then none else o.canvas.item? j := by
  induction ids with
  | nil =>
    intro o _
    exact ⟨o.canvas, by simp, rfl, by simp⟩
  | cons a t ih =>
    intro o hn
    obtain ⟨c, h1, h2, h3⟩ := ih (o.remove a) (hn.erase a)
    refine ⟨c, ?_, ?_, ?_⟩
    · rw [List.foldl_cons, h1]
      simp only [Overlay.remove]
      rw [hn.erase_eq_filter, List.filter_filter]
      congr 1
      apply List.filter_congr
      intro x _
      simp only [List.mem_cons, not_or, Bool.decide_and, bne_iff_ne]
      by_cases hxa : x = a <;> by_cases hxt : x ∈ t <;> simp [hxa, hxt]
    · rw [h2]; exact delete_length _ _
    · intro j
      rw [h3, Overlay.remove]
      simp only [item_delete, List.mem_cons]
      by_cases hxa : j = a <;> by_cases hxt : j ∈ t <;> simp [hxa, hxt]

/-! ## Colours of beliefs -/

theorem beliefColor_nil (pw : ℚ → ℚ) : beliefColor pw [] = "#000000".toList := by
  have : formatColor 0 0 0 = "#000000".toList := by decide +kernel
  simp only [beliefColor, List.zip_nil_left, List.foldl_nil]
  exact this

theorem belief_fold (pw : ℚ → ℚ) (cells : List ((ℕ × ℕ) × ℕ)) : ∀ o : Overlay, ∃ c, (cells.foldl (Overlay.beliefStep pw) (o, [])).1 = { o with canvas := c } ∧ c.length = o.canvas.length ∧
    ∀ j, c.item? j = if j ∈ cells.map Prod.snd then (o.canvas.item? j).map (fun it => { it with fill := "#000000".toList }) else o.canvas.item? j := by
  induction cells with
  | nil => intro o; exact ⟨o.canvas, rfl, rfl, by simp⟩
  | cons q t ih =>
    intro o
    obtain ⟨c, h1, h2, h3⟩ := ih (o.changeColor q.2 (beliefColor pw []))
    refine ⟨c, ?_, ?_, ?_⟩
    · rw [List.foldl_cons]
      show (t.foldl (Overlay.beliefStep pw) (o.changeColor q.2 (beliefColor pw []), [])).1 = _
      rw [h1]
      rfl
    · rw [h2]; exact change_length _ _ _
    · intro j
      rw [h3, Overlay.changeColor]
      simp only [item_change, List.map_cons, List.mem_cons, beliefColor_nil]
      by_cases hxa : j = q.2 <;> by_cases hxt : j ∈ t.map Prod.snd
      · subst hxa
        simp only [hxt, if_true, true_or, Option.map_map]
        rfl
      · subst hxa
        simp only [hxt, if_true, true_or, if_false]
      · simp only [hxa, hxt, if_true, or_true, if_false]
      · simp only [hxa, hxt, if_false, or_self]

theorem beliefCells_shaped {w h : ℕ} {imgs : List (List ℕ)} (hs : Shaped w h imgs) :
    ∃ cells, beliefCells imgs = .ok cells ∧ cells.map Prod.fst = mazeCells w h ∧ cells.map Prod.snd = imgs.flatten := by
  obtain ⟨rfl, hc⟩ := hs
  have hmap : ∀ l : List (ℕ × ℕ), (∀ c ∈ l, ∃ id, (imgs[c.1]?.bind (·[c.2]?)) = some id) →
      (l.mapM fun c => match imgs[c.1]?.bind (·[c.2]?) with
        | some id => (Except.ok (c, id) : Except OErr ((ℕ × ℕ) × ℕ))
        | none => .error .index) = .ok (l.map fun c => (c, ((imgs[c.1]?.bind (·[c.2]?)).getD 0))) := by
    intro l
    induction l with
    | nil => intro _; rfl
    | cons a t ih =>
      intro hl
      obtain ⟨id, hid⟩ := hl a (by simp)
      rw [List.mapM_cons, ih fun c hc => hl c (by simp [hc])]
      simp [hid, bind, Except.bind, pure, Except.pure]
  refine ⟨(mazeCells imgs.length h).map fun c => (c, ((imgs[c.1]?.bind (·[c.2]?)).getD 0)), ?_, ?_, ?_⟩
  · cases imgs with
    | nil => rfl
    | cons col rest =>
      simp only [beliefCells]
      rw [hc col (by simp)]
      refine hmap _ fun c hm => ?_
      obtain ⟨h1, h2⟩ := List.mem_product.1 hm
      rw [List.mem_range] at h1 h2
      have h3 := hc _ (List.getElem_mem h1)
      rw [List.getElem?_eq_getElem h1, Option.bind_some, List.getElem?_eq_getElem (by omega)]
      exact ⟨_, rfl⟩
  · simp [Function.comp_def]
  · rw [List.map_map, mazeCells]
    simp only [List.product, List.map_flatMap, List.map_map, Function.comp_def]
    have key : ∀ x ∈ List.range imgs.length, (List.range h).map (fun y => ((imgs[x]?.bind (·[y]?)).getD 0)) = (imgs[x]?).getD [] := by
      intro x hx
      rw [List.mem_range] at hx
      have h3 := hc _ (List.getElem_mem hx)
      rw [List.getElem?_eq_getElem hx]
      apply List.ext_getElem
      · simp [h3]
      · intro k hk hk'
        simp only [List.length_map, List.length_range] at hk
        simp [List.getElem?_eq_getElem (show k < imgs[x].length by omega)]
    rw [List.flatMap_def, List.map_congr_left key]
    congr 1
    apply List.ext_getElem
    · simp
    · intro k hk hk'
      simp [hk']

/-! ## Texts -/

theorem ghostColors_text (i : ℕ) : ghostColors[i + 1]? = (textColors[i]?).map String.toList := by
  rw [colours.1]
  show (palette.map String.toList)[i + 1]? = _
  simp only [palette, textColors, List.map_cons, List.getElem?_cons_succ, ← List.getElem?_map]

/-- The text `d` number `i`. -/
def aText (g : ℚ) (w h : ℕ) (d : Str) (i : ℕ) : Item :=
  { kind := .text, coords := [g + (⌊w * g / 2⌋ + ⌊w * g / 8⌋ * i : ℤ), (h + 1) * g], outline := [], fill := ((textColors[i]?).getD "").toList, text := d }

theorem initDistances_eq (ds : List Str) : ∀ (i : ℕ) (o : Overlay) (ids : List ℕ), o.distances = some ids → ∃ o',
    Overlay.initDistances i ds o = (if ds.length ≤ 5 - i then .ok o' else .error (.index, o')) ∧
    o' = { o with canvas := o.canvas ++ (((ds.take (5 - i)).zipIdx i).map fun q => aText o.gridSize o.width o.height q.1 q.2).map some,
                  stack := o.stack ++ List.range' o.canvas.length (ds.take (5 - i)).length, distances := some (ids ++ List.range' o.canvas.length (ds.take (5 - i)).length) } := by
  induction ds with
  | nil =>
    intro i o ids h
    refine ⟨o, by simp [Overlay.initDistances], ?_⟩
    cases o
    simp_all
  | cons d t ih =>
    intro i o ids h
    by_cases hi : i < 5
    · have hc : textColors[i]? = some (textColors[i]'(by simpa [textColors] using hi)) := List.getElem?_eq_getElem _
      obtain ⟨o₂, e₂, r₂⟩ := ih (i + 1) { (o.create (aText o.gridSize o.width o.height d i)).1 with distances := some (ids ++ [o.canvas.length]) } _ rfl
      have h5 : 5 - i = 5 - (i + 1) + 1 := by omega
      refine ⟨o₂, ?_, ?_⟩
      · have hle : ((d :: t).length ≤ 5 - i) = (t.length ≤ 5 - (i + 1)) := by
          rw [List.length_cons]
          exact propext ⟨by omega, by omega⟩
        simp only [hle]
        rw [← e₂]
        simp only [Overlay.initDistances, ghostColors_text, hc, Option.map_some]
        congr 1
        simp only [Overlay.create, h, Option.getD_some, aText, hc, textItem, add_zero]
      · rw [r₂, h5]
        simp only [Overlay.create, List.take_succ_cons, List.zipIdx_cons, List.map_cons, List.length_cons, List.length_append, List.length_nil, List.append_assoc]
        rw [List.range'_succ]
        simp
    · refine ⟨o, ?_, ?_⟩
      · have hz : 5 - i = 0 := by omega
        have hc : textColors[i]? = none := List.getElem?_eq_none (by simpa [textColors] using hi)
        simp [Overlay.initDistances, ghostColors_text, hc, hz]
      · have hz : 5 - i = 0 := by omega
        cases o
        simp_all

theorem changeDistances_eq (ids : List ℕ) (hn : ids.Nodup) (ds : List Str) : ∀ (i : ℕ) (o : Overlay), ∃ c,
    Overlay.changeDistances ids i ds o = (if ds.length ≤ ids.length - i then .ok { o with canvas := c } else .error (.index, { o with canvas := c })) ∧ c.length = o.canvas.length ∧
    (∀ j, j ∉ ids → c.item? j = o.canvas.item? j) ∧
    (∀ k (hk : k < ids.length), c.item? ids[k] = if h : i ≤ k ∧ k - i < ds.length then (o.canvas.item? ids[k]).map (fun it => { it with text := ds[k - i] }) else o.canvas.item? ids[k]) := by
  induction ds with
  | nil =>
    intro i o
    exact ⟨o.canvas, by simp [Overlay.changeDistances], rfl, fun _ _ => rfl, by simp⟩
  | cons d t ih =>
    intro i o
    by_cases hi : i < ids.length
    · obtain ⟨c, e, l, h1, h2⟩ := ih (i + 1) { o with canvas := o.canvas.change ids[i] fun it => { it with text := d } }
      refine ⟨c, ?_, ?_, ?_, ?_⟩
      · have hle : ((d :: t).length ≤ ids.length - i) = (t.length ≤ ids.length - (i + 1)) := by
          rw [List.length_cons]
          exact propext ⟨by omega, by omega⟩
        simp only [hle, Overlay.changeDistances, List.getElem?_eq_getElem hi]
        exact e
      · rw [l]; exact change_length _ _ _
      · intro j hj
        rw [h1 j hj]
        simp only [item_change]
        rw [if_neg]
        rintro rfl
        exact hj (List.getElem_mem hi)
      · intro k hk
        rw [h2 k hk]
        simp only [item_change]
        by_cases hki : k = i
        · subst hki
          simp
        · have hne : ids[k] ≠ ids[i] := fun h => hki ((List.Nodup.getElem_inj_iff hn).1 h)
          simp only [hne, if_false]
          by_cases hlt : k < i
          · rw [dif_neg (by omega), dif_neg (by omega)]
          · have e1 : k - i = (k - (i + 1)) + 1 := by omega
            by_cases hle : k - (i + 1) < t.length
            · rw [dif_pos ⟨by omega, hle⟩, dif_pos ⟨by omega, by simp; omega⟩]
              simp only [e1, List.getElem_cons_succ]
            · rw [dif_neg (by omega), dif_neg (by simp; omega)]
    · refine ⟨o.canvas, ?_, rfl, fun _ _ => rfl, ?_⟩
      · have hz : ids.length - i = 0 := by omega
        simp [Overlay.changeDistances, List.getElem?_eq_none (not_lt.1 hi), hz]
      · intro k hk
        rw [dif_neg (by omega)]

end Verif.Pac
