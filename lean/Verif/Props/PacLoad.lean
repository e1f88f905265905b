import Verif.Spec.PacLoad
import Verif.Props.PacText

/-!
# C74: the search for layouts
-/

namespace Verif.Pac

/-! ### Lines -/

theorem fileLines_row (r : Str) (hr : '\n' ∉ r) (t : Str) : fileLines (r ++ '\n' :: t) = r :: fileLines t := by
  induction r with
  | nil => simp [fileLines]
  | cons c r ih =>
    have hc : c ≠ '\n' := fun e => hr (by simp [e])
    have hr' : '\n' ∉ r := fun h => hr (List.mem_cons_of_mem _ h)
    rw [List.cons_append, fileLines, if_neg hc, ih hr']

theorem fileLines_last (r : Str) (hr : '\n' ∉ r) (hne : r ≠ []) : fileLines r = [r] := by
  induction r with
  | nil => exact absurd rfl hne
  | cons c r ih =>
    have hc : c ≠ '\n' := fun e => hr (by simp [e])
    have hr' : '\n' ∉ r := fun h => hr (List.mem_cons_of_mem _ h)
    rw [fileLines, if_neg hc]
    by_cases h0 : r = []
    · subst h0; rfl
    · rw [ih hr' h0]

theorem fileLines_full (rows : List Str) (h : ∀ r ∈ rows, '\n' ∉ r) : fileLines (rows.map fun r => r ++ ['\n']).flatten = rows := by
  induction rows with
  | nil => rfl
  | cons r t ih =>
    simp only [List.map_cons, List.flatten_cons, List.append_assoc, List.cons_append, List.nil_append]
    rw [fileLines_row r (h r List.mem_cons_self), ih fun r hr => h r (List.mem_cons_of_mem _ hr)]

/-- **C74** The lines of a file, whether or not a line end follows the last one. -/
theorem C74_lines {rows : List Str} (h : ∀ r ∈ rows, '\n' ∉ r) (hl : ∀ r, rows.getLast? = some r → r ≠ []) {content : Str} (hc : IsText rows content) :
    fileLines content = rows := by
  rcases hc with rfl | hc
  · exact fileLines_full rows h
  · rcases List.eq_nil_or_concat rows with rfl | ⟨pre, r, rfl⟩
    · simp at hc
    · rw [List.concat_eq_append] at hc h hl ⊢
      rw [List.map_append, List.flatten_append] at hc
      simp only [List.map_cons, List.map_nil, List.flatten_cons, List.flatten_nil, List.append_nil] at hc
      rw [← List.append_assoc] at hc
      have hc' := List.append_cancel_right hc
      subst hc'
      have h1 : ∀ r ∈ pre, '\n' ∉ r := fun r hr => h r (List.mem_append_left _ hr)
      have h2 : '\n' ∉ r := h r (by simp)
      have h3 : r ≠ [] := hl r (by simp)
      clear hc h hl
      induction pre with
      | nil => simpa using fileLines_last r h2 h3
      | cons q t ih =>
        simp only [List.map_cons, List.flatten_cons, List.append_assoc, List.cons_append, List.nil_append]
        rw [fileLines_row q (h1 q List.mem_cons_self)]
        have := ih fun r hr => h1 r (List.mem_cons_of_mem _ hr)
        rw [this]

theorem dropWhile_append_all {A : Type} (p : A → Bool) (a m : List A) (ha : ∀ c ∈ a, p c = true) (hm : ∀ c, m.head? = some c → p c = false) :
    (a ++ m).dropWhile p = m := by
  induction a with
  | nil =>
    cases m with
    | nil => rfl
    | cons c t => rw [List.nil_append, List.dropWhile_cons, hm c rfl]; rfl
  | cons c t ih =>
    rw [List.cons_append, List.dropWhile_cons, ha c List.mem_cons_self]
    exact ih fun d hd => ha d (List.mem_cons_of_mem _ hd)

theorem mem_takeWhile_true {p : Char → Bool} {l : Str} {c : Char} (h : c ∈ l.takeWhile p) : p c = true := by
  induction l with
  | nil => simp at h
  | cons a t ih =>
    rw [List.takeWhile_cons] at h
    split at h
    · rename_i ha
      rcases List.mem_cons.1 h with rfl | h
      · exact ha
      · exact ih h
    · simp at h

theorem pySpace_iff (c : Char) : pySpace c = true ↔ Blank c := by
  simp only [pySpace, Blank, blanks, decide_eq_true_eq, List.mem_cons, List.not_mem_nil, or_false]
  omega

theorem pySpace_false (c : Char) : pySpace c = false ↔ ¬ Blank c := by rw [← pySpace_iff, Bool.not_eq_true]

theorem strip_iff (l m : Str) (hm : m ≠ []) : pyStrip l = m ↔
    ∃ a b, l = a ++ m ++ b ∧ (∀ c ∈ a ++ b, pySpace c = true) ∧ (∀ c, m.head? = some c → pySpace c = false) ∧ ∀ c, m.getLast? = some c → pySpace c = false := by
  constructor
  · rintro rfl
    have h1 := List.takeWhile_append_dropWhile (p := pySpace) (l := l)
    have h2 := List.takeWhile_append_dropWhile (p := pySpace) (l := (l.dropWhile pySpace).reverse)
    obtain ⟨u, hu⟩ : ∃ u, u = l.dropWhile pySpace := ⟨_, rfl⟩
    obtain ⟨v, hv⟩ : ∃ v, v = u.reverse.dropWhile pySpace := ⟨_, rfl⟩
    have hstrip : pyStrip l = v.reverse := by unfold pyStrip; rw [← hu, ← hv]
    rw [← hu, ← hv] at h2
    have h3 := congrArg List.reverse h2
    rw [List.reverse_append, List.reverse_reverse] at h3
    have hhead : ∀ (w : Str) c, (w.dropWhile pySpace).head? = some c → pySpace c = false := by
      intro w c hc
      have := List.head?_dropWhile_not pySpace w
      rw [hc] at this
      simpa using this
    refine ⟨l.takeWhile pySpace, (u.reverse.takeWhile pySpace).reverse, ?_, ?_, ?_, ?_⟩
    · rw [hstrip, List.append_assoc, h3, hu]; exact h1.symm
    · intro c hc
      rcases List.mem_append.1 hc with hc | hc
      · exact mem_takeWhile_true hc
      · exact mem_takeWhile_true (List.mem_reverse.1 hc)
    · intro c hc
      rw [hstrip] at hc hm
      refine hhead l c ?_
      rw [← hu, ← h3, List.head?_append, hc]
      rfl
    · intro c hc
      rw [hstrip, List.getLast?_reverse] at hc
      rw [hv] at hc
      exact hhead _ c hc
  · rintro ⟨a, b, rfl, hs, h1, h2⟩
    unfold pyStrip
    rw [List.append_assoc, dropWhile_append_all pySpace a (m ++ b) (fun c hc => hs c (List.mem_append_left _ hc)), List.reverse_append,
      dropWhile_append_all pySpace b.reverse m.reverse, List.reverse_reverse]
    · intro c hc; exact hs c (List.mem_append_right _ (List.mem_reverse.1 hc))
    · intro c hc; rw [List.head?_reverse] at hc; exact h2 c hc
    · intro c hc
      cases m with
      | nil => exact absurd rfl hm
      | cons d t => exact h1 c hc

/-- **C74** `strip` removes exactly the white space at the ends. -/
theorem C74_strip (l m : Str) (hm : m ≠ []) : pyStrip l = m ↔
    ∃ a b, l = a ++ m ++ b ∧ (∀ c ∈ a ++ b, Blank c) ∧ (∀ c, m.head? = some c → ¬ Blank c) ∧ ∀ c, m.getLast? = some c → ¬ Blank c := by
  rw [strip_iff l m hm]
  simp only [pySpace_iff, pySpace_false]

theorem strip_tidy {r : Str} (h : Tidy r) : pyStrip r = r := by
  by_cases h0 : r = []
  · subst h0; rfl
  · exact (C74_strip r r h0).2 ⟨[], [], by simp, by simp, h.2.1, h.2.2⟩

/-! ### The search -/

theorem layoutNames_eq (name : Str) : layoutNames name = ("layouts/".toList ++ fileName name, fileName name) := by
  unfold layoutNames fileName
  by_cases h : ".lay".toList <:+ name
  · rw [if_pos (List.isSuffixOf_iff_suffix.2 h), if_pos h]
  · rw [if_neg (fun hc => h (List.isSuffixOf_iff_suffix.1 hc)), if_neg h, List.append_assoc]

theorem tryToLoad_none {fs : Files} {d : Folder} {n : Str} : tryToLoad fs d n = .ok none ↔ fs d n = .missing := by
  unfold tryToLoad
  constructor
  · intro h
    split at h
    · assumption
    · cases h
    · split at h <;> cases h
  · intro h; rw [h]

theorem places_succ (name : Str) (k : ℕ) (cwd : Folder) : places name (k + 1) cwd =
    (cwd, (layoutNames name).1) :: (cwd, (layoutNames name).2) :: places name k cwd.tail := by
  unfold places
  rw [layoutNames_eq, List.range_succ_eq_map, List.flatMap_cons, List.flatMap_map]
  simp only [List.drop_zero, List.cons_append, List.nil_append, List.drop_tail]

theorem search_eq (fs : Files) (name : Str) (k : ℕ) (cwd : Folder) :
    ((∀ p ∈ places name (k + 1) cwd, fs p.1 p.2 = .missing) → getLayoutFrom fs name k cwd = (cwd, .ok none)) ∧
    ∀ pre d n post, places name (k + 1) cwd = pre ++ (d, n) :: post → (∀ p ∈ pre, fs p.1 p.2 = .missing) → fs d n ≠ .missing →
      getLayoutFrom fs name k cwd = (match tryToLoad fs d n with
        | .error e => (d, .error e)
        | .ok r => (cwd, .ok r)) := by
  -- the first two places
  have here1 : ∀ k, fs cwd (layoutNames name).1 ≠ .missing → getLayoutFrom fs name k cwd = (match tryToLoad fs cwd (layoutNames name).1 with
        | .error e => (cwd, .error e)
        | .ok r => (cwd, .ok r)) := by
    intro k h
    have hne : tryToLoad fs cwd (layoutNames name).1 ≠ .ok none := fun hc => h (tryToLoad_none.1 hc)
    have : loadHere fs cwd name = tryToLoad fs cwd (layoutNames name).1 := by
      unfold loadHere
      split
      · rename_i e; exact absurd e hne
      · rfl
    unfold getLayoutFrom
    rw [this]
    cases hr : tryToLoad fs cwd (layoutNames name).1 with
    | error e => rfl
    | ok r => cases r with
      | none => exact absurd hr hne
      | some l => rfl
  have here2 : ∀ k, fs cwd (layoutNames name).1 = .missing → fs cwd (layoutNames name).2 ≠ .missing →
      getLayoutFrom fs name k cwd = (match tryToLoad fs cwd (layoutNames name).2 with
        | .error e => (cwd, .error e)
        | .ok r => (cwd, .ok r)) := by
    intro k h1 h
    have hne : tryToLoad fs cwd (layoutNames name).2 ≠ .ok none := fun hc => h (tryToLoad_none.1 hc)
    have : loadHere fs cwd name = tryToLoad fs cwd (layoutNames name).2 := by
      unfold loadHere
      rw [tryToLoad_none.2 h1]
    unfold getLayoutFrom
    rw [this]
    cases hr : tryToLoad fs cwd (layoutNames name).2 with
    | error e => rfl
    | ok r => cases r with
      | none => exact absurd hr hne
      | some l => rfl
  have hboth : fs cwd (layoutNames name).1 = .missing → fs cwd (layoutNames name).2 = .missing → loadHere fs cwd name = .ok none := by
    intro h1 h2
    unfold loadHere
    rw [tryToLoad_none.2 h1]
    exact tryToLoad_none.2 h2
  have split3 : ∀ (pre post : List (Folder × Str)) (d : Folder) (n : Str), places name (k + 1) cwd = pre ++ (d, n) :: post →
      (pre = [] ∧ d = cwd ∧ n = (layoutNames name).1) ∨ (pre = [(cwd, (layoutNames name).1)] ∧ d = cwd ∧ n = (layoutNames name).2) ∨
      ∃ q, pre = (cwd, (layoutNames name).1) :: (cwd, (layoutNames name).2) :: q ∧ places name k cwd.tail = q ++ (d, n) :: post := by
    intro pre post d n h
    rw [places_succ] at h
    match pre, h with
    | [], h => simp only [List.nil_append, List.cons.injEq, Prod.mk.injEq] at h; exact Or.inl ⟨rfl, h.1.1.symm, h.1.2.symm⟩
    | [a], h =>
      simp only [List.cons_append, List.nil_append, List.cons.injEq, Prod.mk.injEq] at h
      exact Or.inr (Or.inl ⟨by rw [← h.1], h.2.1.1.symm, h.2.1.2.symm⟩)
    | a :: b :: q, h =>
      simp only [List.cons_append, List.cons.injEq] at h
      exact Or.inr (Or.inr ⟨q, by rw [← h.1, ← h.2.1], h.2.2⟩)
  cases k with
  | zero =>
    refine ⟨?_, ?_⟩
    · intro h
      rw [places_succ] at h
      unfold getLayoutFrom
      rw [hboth (h _ List.mem_cons_self) (h _ (List.mem_cons_of_mem _ List.mem_cons_self))]
    · intro pre d n post h hpre hne
      rcases split3 pre post d n h with ⟨_, rfl, rfl⟩ | ⟨rfl, rfl, rfl⟩ | ⟨q, _, hq⟩
      · exact here1 0 hne
      · exact here2 0 (hpre _ List.mem_cons_self) hne
      · simp [places] at hq
  | succ k =>
    obtain ⟨ih1, ih2⟩ := search_eq fs name k cwd.tail
    refine ⟨?_, ?_⟩
    · intro h
      rw [places_succ] at h
      unfold getLayoutFrom
      rw [hboth (h _ List.mem_cons_self) (h _ (List.mem_cons_of_mem _ List.mem_cons_self))]
      dsimp only
      rw [ih1 fun p hp => h p (List.mem_cons_of_mem _ (List.mem_cons_of_mem _ hp))]
    · intro pre d n post h hpre hne
      rcases split3 pre post d n h with ⟨_, rfl, rfl⟩ | ⟨rfl, rfl, rfl⟩ | ⟨q, rfl, hq⟩
      · exact here1 _ hne
      · exact here2 _ (hpre _ List.mem_cons_self) hne
      · unfold getLayoutFrom
        rw [hboth (hpre _ List.mem_cons_self) (hpre _ (List.mem_cons_of_mem _ List.mem_cons_self))]
        dsimp only
        rw [ih2 q d n post hq (fun p hp => hpre p (List.mem_cons_of_mem _ (List.mem_cons_of_mem _ hp))) hne]
        cases tryToLoad fs d n with
        | error e => rfl
        | ok r => rfl
termination_by k

/-- **C74** If no place has the layout, the result is `None` and the current directory is as before. -/
theorem C74_missing {fs : Files} {cwd : Folder} {name : Str} {back : ℤ}
    (h : ∀ p ∈ places name ((back + 1).toNat + 1) cwd, fs p.1 p.2 = .missing) : getLayout fs cwd name back = (cwd, .ok none) :=
  (search_eq fs name _ cwd).1 h

/-- **C74** The first existing place decides. A file that can be parsed gives its layout, and the current directory is as before. If the file cannot be parsed or the name is
that of a directory, an exception is raised, and the program is left in the directory of that place. -/
theorem C74_first {fs : Files} {cwd : Folder} {name : Str} {back : ℤ} {pre post : List (Folder × Str)} {d : Folder} {n : Str}
    (h : places name ((back + 1).toNat + 1) cwd = pre ++ (d, n) :: post) (hpre : ∀ p ∈ pre, fs p.1 p.2 = .missing) :
    (∀ content l, fs d n = .file content → Layout.ofText ((fileLines content).map pyStrip) = .ok l → getLayout fs cwd name back = (cwd, .ok (some l))) ∧
    (∀ content e, fs d n = .file content → Layout.ofText ((fileLines content).map pyStrip) = .error e → getLayout fs cwd name back = (d, .error (.parse e))) ∧
    (fs d n = .folder → getLayout fs cwd name back = (d, .error .isFolder)) := by
  have key := fun hne => (search_eq fs name _ cwd).2 pre d n post h hpre hne
  refine ⟨?_, ?_, ?_⟩
  · intro content l hf hl
    unfold getLayout
    rw [key (by rw [hf]; simp)]
    simp only [tryToLoad, hf, hl]
  · intro content l hf hl
    unfold getLayout
    rw [key (by rw [hf]; simp)]
    simp only [tryToLoad, hf, hl]
  · intro hf
    unfold getLayout
    rw [key (by rw [hf]; simp)]
    simp only [tryToLoad, hf]

/-- **C74** Only an exception can leave the program in another directory. -/
theorem C74_cwd (fs : Files) (cwd : Folder) (name : Str) (back : ℤ) {r : Option Layout} (h : (getLayout fs cwd name back).2 = .ok r) :
    (getLayout fs cwd name back).1 = cwd := by
  unfold getLayout at h ⊢
  by_cases hall : ∀ p ∈ places name ((back + 1).toNat + 1) cwd, fs p.1 p.2 = .missing
  · rw [(search_eq fs name _ cwd).1 hall]
  · have : ∃ pre d n post, places name ((back + 1).toNat + 1) cwd = pre ++ (d, n) :: post ∧ (∀ p ∈ pre, fs p.1 p.2 = .missing) ∧ fs d n ≠ .missing := by
      generalize places name ((back + 1).toNat + 1) cwd = l at hall
      induction l with
      | nil => exact absurd (by simp) hall
      | cons a t ih =>
        by_cases ha : fs a.1 a.2 = .missing
        · obtain ⟨pre, d, n, post, e, h1, h2⟩ := ih (fun hc => hall (by
            intro p hp
            rcases List.mem_cons.1 hp with rfl | hp
            · exact ha
            · exact hc p hp))
          refine ⟨a :: pre, d, n, post, by rw [e]; rfl, ?_, h2⟩
          intro p hp
          rcases List.mem_cons.1 hp with rfl | hp
          · exact ha
          · exact h1 p hp
        · exact ⟨[], a.1, a.2, t, rfl, by simp, ha⟩
    obtain ⟨pre, d, n, post, e, h1, h2⟩ := this
    rw [(search_eq fs name _ cwd).2 pre d n post e h1 h2] at h ⊢
    cases ht : tryToLoad fs d n with
    | error e => rw [ht] at h; cases h
    | ok r => rfl

/-! ### Texts that are not rectangular -/

theorem foldlM_congr {A S E : Type} {f g : S → A → Except E S} : ∀ (l : List A) (s : S), (∀ a ∈ l, ∀ s, f s a = g s a) → l.foldlM f s = l.foldlM g s
  | [], _, _ => rfl
  | a :: t, s, h => by
    simp only [List.foldlM_cons]
    rw [h a List.mem_cons_self s]
    cases g s a with
    | error e => rfl
    | ok s' => exact foldlM_congr t s' fun b hb => h b (List.mem_cons_of_mem _ hb)

theorem foldlM_error {A S E : Type} {f : S → A → Except E S} {e : E} (he : ∀ s a e', f s a = .error e' → e' = e) :
    ∀ (l : List A) (s : S) (a : A), a ∈ l → (∀ s, ∃ e', f s a = .error e') → l.foldlM f s = .error e
  | [], _, _, h, _ => by simp at h
  | b :: t, s, a, h, hf => by
    simp only [List.foldlM_cons]
    cases hb : f s b with
    | error e' => rw [he _ _ _ hb]; rfl
    | ok s' =>
      rcases List.mem_cons.1 h with rfl | h
      · obtain ⟨e', h'⟩ := hf s
        rw [hb] at h'; cases h'
      · exact foldlM_error he t s' a h hf

theorem pyGet_error {A : Type} {l : List A} {i : ℤ} {e : PErr} (h : pyGet l i = .error e) : e = .index := by
  unfold pyGet at h
  split at h
  · cases h; rfl
  · split at h
    · cases h
    · cases h; rfl

theorem put_error {g : Grid} {x y : ℤ} {b : Bool} {e : PErr} (h : g.put x y b = .error e) : e = .index := by
  unfold Grid.put at h
  split at h
  · cases h; rfl
  · split at h
    · cases h; rfl
    · split at h
      · cases h; rfl
      · cases h

theorem cell_error {text : List (List Char)} {h : ℕ} {s : Scan} {p : ℕ × ℕ} {e : PErr} (he : Scan.cell text h s p = .error e) : e = .index := by
  unfold Scan.cell at he
  split at he
  · rename_i h'; cases he; exact pyGet_error h'
  · split at he
    · rename_i h'; cases he; exact pyGet_error h'
    · unfold Scan.char at he
      split at he
      · cases hp : s.walls.put p.1 p.2 true with
        | error e' => rw [hp] at he; cases he; exact put_error hp
        | ok g => rw [hp] at he; cases he
      · split at he
        · cases hp : s.food.put p.1 p.2 true with
          | error e' => rw [hp] at he; cases he; exact put_error hp
          | ok g => rw [hp] at he; cases he
        · repeat (split at he; · cases he)
          cases he

theorem pyGet_row {text : List (List Char)} {y : ℕ} (hy : y < text.length) : pyGet text ((text.length : ℤ) - 1 - y) = .ok text[text.length - 1 - y] := by
  have : ((text.length : ℤ) - 1 - y) = ((text.length - 1 - y : ℕ) : ℤ) := by omega
  rw [this]
  exact (pyGet_nat _ _ _).2 (List.getElem?_eq_getElem _)

theorem pyGet_take (row : List Char) {w x : ℕ} (hx : x < w) : pyGet (row.take w) x = pyGet row x := by
  unfold pyGet
  rw [pyIdx_nat, pyIdx_nat, List.length_take]
  by_cases h : x < row.length
  · rw [if_pos h, if_pos (by omega)]
    simp only [List.getElem?_take, if_pos hx]
  · rw [if_neg h, if_neg (by omega)]

theorem cell_take (text : List (List Char)) {w : ℕ} (s : Scan) {p : ℕ × ℕ} (hp : p ∈ scanCells w text.length) :
    Scan.cell (text.map (List.take w)) text.length s p = Scan.cell text text.length s p := by
  obtain ⟨h1, h2⟩ := (mem_scanCells _ _ _).1 hp
  unfold Scan.cell
  have e := pyGet_row (text := text.map (List.take w)) (y := p.2) (by simpa using h2)
  simp only [List.length_map, List.getElem_map] at e
  rw [e, pyGet_row h2]
  dsimp only
  rw [pyGet_take _ h1]

/-- **C74** A text is refused exactly if it has no lines or a line that is shorter than the first one, always with an index error. -/
theorem C74_refused (text : List (List Char)) (e : PErr) :
    Layout.ofText text = .error e ↔ e = .index ∧ (text = [] ∨ ∃ row ∈ text, row.length < (text.headD []).length) := by
  cases text with
  | nil => simp [Layout.ofText, eq_comm]
  | cons r t =>
    simp only [List.headD_cons, reduceCtorEq, false_or]
    by_cases hs : ∃ row ∈ r :: t, row.length < r.length
    · have : Layout.ofText (r :: t) = .error .index := by
        obtain ⟨row, hrow, hlt⟩ := hs
        obtain ⟨i, hi, rfl⟩ := List.getElem_of_mem hrow
        unfold Layout.ofText
        dsimp only
        rw [foldlM_error (e := .index) (fun s a e' h => cell_error h) _ _ ((r :: t)[i].length, (r :: t).length - 1 - i)
          ((mem_scanCells _ _ _).2 ⟨hlt, by omega⟩) ?_]
        intro s
        refine ⟨.index, ?_⟩
        unfold Scan.cell
        have e1 := pyGet_row (text := r :: t) (y := (r :: t).length - 1 - i) (by omega)
        rw [e1]
        dsimp only
        have e2 : (r :: t).length - 1 - ((r :: t).length - 1 - i) = i := by omega
        simp only [e2]
        cases hg : pyGet (r :: t)[i] (((r :: t)[i].length : ℕ) : ℤ) with
        | error e' => rw [pyGet_error hg]
        | ok c =>
          have := (pyGet_nat _ _ _).1 hg
          simp at this
      rw [this]
      constructor
      · intro h; cases h; exact ⟨rfl, hs⟩
      · rintro ⟨rfl, _⟩; rfl
    · have hrect : Rect ((r :: t).map (List.take r.length)) r.length := by
        refine ⟨by simp, ?_⟩
        intro row hrow
        obtain ⟨q, hq, rfl⟩ := List.mem_map.1 hrow
        rw [List.length_take]
        have : ¬ q.length < r.length := fun h => hs ⟨q, hq, h⟩
        omega
      obtain ⟨l, hl, _⟩ := C58_parse hrect
      obtain ⟨l', hl'⟩ : ∃ l', Layout.ofText (r :: t) = .ok l' := by
        unfold Layout.ofText at hl ⊢
        simp only [List.map_cons, List.take_length, List.length_cons, List.length_map] at hl ⊢
        rw [foldlM_congr (g := Scan.cell (r :: t) (t.length + 1)) _ _ ?_] at hl
        · split at hl
          · cases hl
          · split at hl
            · cases hl
            · exact ⟨_, rfl⟩
        · intro p hp s
          have := cell_take (r :: t) (w := r.length) s hp
          simpa using this
      rw [hl']
      constructor
      · intro h; cases h
      · rintro ⟨_, h⟩; exact absurd h hs

/-- **C74** What follows after the length of the first line does not matter in the other lines, except that it is kept as text. -/
theorem C74_cut (text : List (List Char)) {l : Layout} (h : Layout.ofText (text.map (List.take (text.headD []).length)) = .ok l) :
    Layout.ofText text = .ok { l with text := text } := by
  cases text with
  | nil => simp [Layout.ofText] at h
  | cons r t =>
    unfold Layout.ofText at h ⊢
    simp only [List.headD_cons, List.map_cons, List.take_length, List.length_cons, List.length_map] at h ⊢
    rw [foldlM_congr (g := Scan.cell (r :: t) (t.length + 1)) _ _ ?_] at h
    · split at h
      · cases h
      · split at h
        · cases h
        · cases h; rfl
    · intro p hp s
      have := cell_take (r :: t) (w := r.length) s hp
      simpa using this

/-! ### Saved layouts -/

theorem map_strip_tidy {rows : List Str} (h : ∀ r ∈ rows, Tidy r) : rows.map pyStrip = rows := by
  conv_rhs => rw [← List.map_id rows]
  exact List.map_congr_left fun r hr => strip_tidy (h r hr)

/-- **C74** A layout that is printed to a file, with or without a line end at the end, is found again by its name, as an equal layout: if its lines are tidy, the last
one is not empty, and nothing is found before. -/
theorem C74_roundtrip {text : List Str} {l : Layout} (hl : Layout.ofText text = .ok l) (ht : ∀ r ∈ text, Tidy r) (hlast : ∀ r, text.getLast? = some r → r ≠ [])
    {fs : Files} {cwd : Folder} {name : Str} {back : ℤ} {pre post : List (Folder × Str)} {d : Folder} {n : Str}
    (h : places name ((back + 1).toNat + 1) cwd = pre ++ (d, n) :: post) (hpre : ∀ p ∈ pre, fs p.1 p.2 = .missing)
    (hf : fs d n = .file l.str ∨ fs d n = .file (l.str ++ ['\n'])) : getLayout fs cwd name back = (cwd, .ok (some l)) := by
  have hne : text ≠ [] := by rintro rfl; simp [Layout.ofText] at hl
  have hne2 : (text.map fun r => r ++ ['\n']).flatten ≠ [] := by
    cases text with
    | nil => exact absurd rfl hne
    | cons r t => simp
  have hend : asLines text ++ ['\n'] = (text.map fun r => r ++ ['\n']).flatten := by
    unfold asLines
    conv_rhs => rw [← List.dropLast_append_getLast hne2]
    congr 2
    rcases List.eq_nil_or_concat text with rfl | ⟨a, r, rfl⟩
    · exact absurd rfl hne
    · simp
  have hstr := C73_layout hl
  have key : ∀ content, IsText text content → Layout.ofText ((fileLines content).map pyStrip) = .ok l := by
    intro content hc
    rw [C74_lines (fun r hr => (ht r hr).1) hlast hc, map_strip_tidy ht, hl]
  rcases hf with hf | hf
  · exact (C74_first h hpre).1 _ l hf (key _ (Or.inr (by rw [hstr, hend])))
  · exact (C74_first h hpre).1 _ l hf (key _ (Or.inl (by rw [hstr, hend])))

theorem mediumClassic_tidy : ∀ r ∈ mediumClassic, Tidy r := by
  have : ∀ r ∈ mediumClassic, '\n' ∉ r ∧ r.head? = some '%' ∧ r.getLast? = some '%' := by decide +kernel
  intro r hr
  obtain ⟨h1, h2, h3⟩ := this r hr
  refine ⟨h1, ?_, ?_⟩
  · intro c hc; rw [h2] at hc; cases hc; unfold Blank; decide
  · intro c hc; rw [h3] at hc; cases hc; unfold Blank; decide

/-- **C74** The demo (demo.py 34): started in the folder with `layouts/mediumClassic.lay`, the layout of **C58** is loaded. -/
theorem C74_demo {fs : Files} {cwd : Folder}
    (hf : fs cwd "layouts/mediumClassic.lay".toList = .file (mediumClassic.map fun r => r ++ ['\n']).flatten) :
    ∃ l, Layout.ofText mediumClassic = .ok l ∧ getLayout fs cwd "mediumClassic".toList = (cwd, .ok (some l)) := by
  obtain ⟨l, hl, _⟩ := C58_demo
  refine ⟨l, hl, ?_⟩
  have hp : places "mediumClassic".toList (((2 : ℤ) + 1).toNat + 1) cwd = [] ++ (cwd, "layouts/mediumClassic.lay".toList) ::
      ((cwd, "mediumClassic.lay".toList) :: places "mediumClassic".toList 3 cwd.tail) := by
    have h3 : (((2 : ℤ) + 1).toNat + 1) = 3 + 1 := by decide
    have hn : layoutNames "mediumClassic".toList = ("layouts/mediumClassic.lay".toList, "mediumClassic.lay".toList) := by decide
    rw [h3, places_succ, hn]
    rfl
  refine (C74_first hp (by simp)).1 _ l hf ?_
  rw [C74_lines (fun r hr => (mediumClassic_tidy r hr).1) ?_ (Or.inl rfl), map_strip_tidy mediumClassic_tidy, hl]
  have : ∀ r ∈ mediumClassic.getLast?, r ≠ [] := by decide +kernel
  exact fun r hr => this r hr

/-! ### Examples -/

/-- A disk with one file, two folders above the directory of the program. -/
def disk (content : Str) : Files := fun d n => if d = ["a".toList] ∧ n = "layouts/x.lay".toList then .file content else .missing

/-- The program is in `/a/b/c`. -/
def inside : Folder := ["c".toList, "b".toList, "a".toList]

example : places "x".toList 4 inside =
    [(["c".toList, "b".toList, "a".toList], "layouts/x.lay".toList), (["c".toList, "b".toList, "a".toList], "x.lay".toList),
     (["b".toList, "a".toList], "layouts/x.lay".toList), (["b".toList, "a".toList], "x.lay".toList),
     (["a".toList], "layouts/x.lay".toList), (["a".toList], "x.lay".toList), ([], "layouts/x.lay".toList), ([], "x.lay".toList)] := by decide

theorem inside_places : places "x".toList (((2 : ℤ) + 1).toNat + 1) inside =
    [(inside, "layouts/x.lay".toList), (inside, "x.lay".toList), (inside.tail, "layouts/x.lay".toList), (inside.tail, "x.lay".toList)] ++
      (["a".toList], "layouts/x.lay".toList) :: [(["a".toList], "x.lay".toList), ([], "layouts/x.lay".toList), ([], "x.lay".toList)] := by decide

theorem inside_before (content : Str) : ∀ p ∈ [(inside, "layouts/x.lay".toList), (inside, "x.lay".toList), (inside.tail, "layouts/x.lay".toList), (inside.tail, "x.lay".toList)],
    disk content p.1 p.2 = .missing := by
  intro p hp
  unfold disk
  rw [if_neg]
  have : ∀ p ∈ [(inside, "layouts/x.lay".toList), (inside, "x.lay".toList), (inside.tail, "layouts/x.lay".toList), (inside.tail, "x.lay".toList)],
    ¬ (p.1 = ["a".toList] ∧ p.2 = "layouts/x.lay".toList) := by decide
  exact this p hp

/-- **C74** A file with an empty line at its end cannot be loaded, and afterwards the program is in another directory than before. -/
theorem C74_left : getLayout (disk "%%\n%%\n\n".toList) inside "x".toList = (["a".toList], .error (.parse .index)) := by
  refine (C74_first inside_places (inside_before _)).2.1 _ _ (if_pos ⟨rfl, rfl⟩) ?_
  have : (fileLines "%%\n%%\n\n".toList).map pyStrip = ["%%".toList, "%%".toList, []] := by decide
  rw [this, C74_refused]
  exact ⟨rfl, Or.inr ⟨[], by decide, by decide⟩⟩

/-- **C74** White space at the ends of lines is lost: here the second line becomes too short. -/
theorem C74_outer : getLayout (disk "%%%\n%% \n".toList) inside "x".toList = (["a".toList], .error (.parse .index)) := by
  refine (C74_first inside_places (inside_before _)).2.1 _ _ (if_pos ⟨rfl, rfl⟩) ?_
  have : (fileLines "%%%\n%% \n".toList).map pyStrip = ["%%%".toList, "%%".toList] := by decide
  rw [this, C74_refused]
  exact ⟨rfl, Or.inr ⟨"%%".toList, by decide, by decide⟩⟩

/-- The saved layout of `C74_roundtrip` and the missing one of `C74_missing` exist. -/
example : ∃ l, Layout.ofText mediumClassic = .ok l ∧ getLayout (disk l.str) inside "x".toList = (inside, .ok (some l)) ∧
    getLayout (disk l.str) inside "y".toList = (inside, .ok none) ∧ getLayout (disk l.str) inside "x".toList 0 = (inside, .ok none) := by
  obtain ⟨l, hl, _⟩ := C58_demo
  refine ⟨l, hl, ?_, ?_, ?_⟩
  · have : ∀ r ∈ mediumClassic.getLast?, r ≠ [] := by decide +kernel
    exact C74_roundtrip hl mediumClassic_tidy (fun r hr => this r hr) inside_places (inside_before _) (Or.inl (if_pos ⟨rfl, rfl⟩))
  · refine C74_missing fun p hp => if_neg ?_
    have : ∀ p ∈ places "y".toList (((2 : ℤ) + 1).toNat + 1) inside, ¬ (p.1 = ["a".toList] ∧ p.2 = "layouts/x.lay".toList) := by decide
    exact this p hp
  · refine C74_missing fun p hp => if_neg ?_
    have : ∀ p ∈ places "x".toList (((0 : ℤ) + 1).toNat + 1) inside, ¬ (p.1 = ["a".toList] ∧ p.2 = "layouts/x.lay".toList) := by decide
    exact this p hp

/-- A long line is cut: the third column of the second line is not looked at. -/
example : ∃ l, Layout.ofText ["%P".toList, "%.%".toList] = .ok l ∧ l.width = 2 ∧ l.text = ["%P".toList, "%.%".toList] := by
  obtain ⟨l, hl, hs⟩ := C58_parse (text := ["%P".toList, "%.".toList]) (w := 2) ⟨by simp, by decide⟩
  exact ⟨_, C74_cut ["%P".toList, "%.%".toList] (l := l) hl, hs.size.1, rfl⟩

end Verif.Pac
