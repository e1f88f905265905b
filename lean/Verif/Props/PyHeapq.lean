import Verif.Model.PyHeapq
import Verif.Props.PacQueue
import Mathlib.Logic.Function.Iterate

/-!
# C78: the algorithms of `heapq` are correct, and the priority queue of the demo with them
-/

namespace Verif.PyHeapq

variable {A : Type} {lt : A → A → Bool}

/-- The parent of a position. -/
def par (i : ℕ) : ℕ := (i - 1) / 2

/-- Nothing is smaller than its parent, for parents from position `s` on. -/
def HeapFrom (lt : A → A → Bool) (s : ℕ) (h : List A) : Prop :=
  ∀ i, 0 < i → s ≤ par i → ∀ a b, h[par i]? = some a → h[i]? = some b → lt b a = false

/-- `<` as on tuples of numbers: a strict weak order. -/
structure StrictWeak (lt : A → A → Bool) : Prop where
  asymm : ∀ a b, lt a b = true → lt b a = false
  trans : ∀ a b c, lt b a = false → lt c b = false → lt c a = false

/-- `pos` is in the subtree of `s`. -/
def Desc (s pos : ℕ) : Prop := ∃ k, par^[k] pos = s

theorem par_le (i : ℕ) : par i ≤ i := by unfold par; omega

theorem par_lt {i : ℕ} (h : 0 < i) : par i < i := by unfold par; omega

theorem desc_zero (n : ℕ) : Desc 0 n := by
  induction n using Nat.strong_induction_on with
  | _ n ih =>
    rcases Nat.eq_zero_or_pos n with rfl | h
    · exact ⟨0, rfl⟩
    · obtain ⟨k, hk⟩ := ih _ (par_lt h)
      exact ⟨k + 1, by rw [Function.iterate_succ_apply]; exact hk⟩

theorem Desc.le {s n : ℕ} (h : Desc s n) : s ≤ n := by
  obtain ⟨k, rfl⟩ := h
  induction k generalizing n with
  | zero => exact le_refl _
  | succ k ih => rw [Function.iterate_succ_apply]; exact (ih (n := par n)).trans (par_le n)

theorem Desc.par {s n : ℕ} (h : Desc s n) (hn : s < n) : Desc s (par n) := by
  obtain ⟨k, hk⟩ := h
  cases k with
  | zero => simp only [Function.iterate_zero, id] at hk; omega
  | succ k => exact ⟨k, by rw [← hk, Function.iterate_succ_apply]⟩

theorem Desc.child {s n c : ℕ} (h : Desc s n) (hc : PyHeapq.par c = n) : Desc s c := by
  obtain ⟨k, hk⟩ := h
  exact ⟨k + 1, by rw [Function.iterate_succ_apply, hc, hk]⟩

theorem getD_some {l : List A} {i : ℕ} (h : i < l.length) (d : A) : l[i]? = some (l.getD i d) := by
  rw [List.getD_eq_getElem?_getD, List.getElem?_eq_getElem h]; rfl

theorem get_set {l : List A} {p : ℕ} {x : A} (hp : p < l.length) (i : ℕ) : (l.set p x)[i]? = if i = p then some x else l[i]? := by
  rw [List.getElem?_set]
  by_cases h : i = p
  · subst h; simp [hp]
  · rw [if_neg (fun e => h e.symm), if_neg h]

/-- What holds at the start of each round of the loop of `_siftdown`. -/
structure Down (lt : A → A → Bool) (s : ℕ) (g : List A) (pos : ℕ) : Prop where
  desc : Desc s pos
  inRange : pos < g.length
  others : ∀ i, 0 < i → s ≤ par i → i ≠ pos → ∀ a b, g[par i]? = some a → g[i]? = some b → lt b a = false
  below : s < pos → ∀ c, 0 < c → par c = pos → ∀ a b, g[par pos]? = some a → g[c]? = some b → lt b a = false

theorem swap_perm {h : List A} {pos p : ℕ} {x y : A} (hpos : pos < h.length) (hy : h[p]? = some y) (hne : p ≠ pos) :
    ((h.set pos y).set p x).Perm (h.set pos x) := by
  obtain ⟨hp, rfl⟩ := List.getElem?_eq_some_iff.1 hy
  have hs := List.set_set_perm (as := h.set pos x) (i := pos) (j := p) (by simpa using hpos) (by simpa using hp)
  rw [List.getElem_set_ne (fun e => hne e.symm), List.getElem_set_self, List.set_set] at hs
  exact hs

theorem siftdownLoop_spec (hlt : StrictWeak lt) (x : A) (s : ℕ) (pos : ℕ) : ∀ h : List A, Down lt s (h.set pos x) pos →
    HeapFrom lt s ((siftdownLoop lt x s h pos).1.set (siftdownLoop lt x s h pos).2 x) ∧
    ((siftdownLoop lt x s h pos).1.set (siftdownLoop lt x s h pos).2 x).Perm (h.set pos x) := by
  induction pos using Nat.strong_induction_on with
  | _ pos ih =>
    intro h hd
    have hpos : pos < h.length := by simpa using hd.inRange
    rw [siftdownLoop]
    by_cases hs : s < pos
    · rw [dif_pos hs]
      have hp0 : 0 < pos := by omega
      have hpl : par pos < pos := par_lt hp0
      have hplen : par pos < h.length := by omega
      have hy := getD_some hplen x
      rw [show (pos - 1) / 2 = par pos from rfl]
      generalize h.getD (par pos) x = y at hy
      simp only []
      have hg : ∀ i, (h.set pos x)[i]? = if i = pos then some x else h[i]? := get_set hpos
      by_cases hxy : lt x y = true
      · rw [if_pos hxy]
        have hg2 : ∀ i, ((h.set pos y).set (par pos) x)[i]? = if i = par pos then some x else if i = pos then some y else h[i]? := by
          intro i
          rw [get_set (by simpa using hplen), get_set hpos]
        have hsp : s ≤ par pos := (hd.desc.par hs).le
        have key := ih (par pos) hpl (h.set pos y) ⟨hd.desc.par hs, by simpa using hplen, ?_, ?_⟩
        · exact ⟨key.1, key.2.trans (swap_perm hpos hy (by omega))⟩
        · intro i hi hsi hne a b ha hb
          rw [hg2] at ha hb
          rw [if_neg hne] at hb
          by_cases hip : i = pos
          · subst hip
            rw [if_pos rfl] at ha hb
            cases ha; cases hb
            exact hlt.asymm _ _ hxy
          · rw [if_neg hip] at hb
            have hb' : (h.set pos x)[i]? = some b := by rw [hg, if_neg hip, hb]
            by_cases hpi : par i = par pos
            · rw [if_pos hpi] at ha
              cases ha
              have h1 : lt b y = false := hd.others i hi hsi hip y b (by rw [hg, if_neg (by omega), hpi, hy]) hb'
              exact hlt.trans _ _ _ (hlt.asymm _ _ hxy) h1
            · rw [if_neg hpi] at ha
              by_cases hpp : par i = pos
              · rw [if_pos hpp] at ha
                cases ha
                exact hd.below hs i hi hpp y b (by rw [hg, if_neg (by omega), hy]) hb'
              · rw [if_neg hpp] at ha
                exact hd.others i hi hsi hip a b (by rw [hg, if_neg hpp, ha]) hb'
        · intro hsp' c hc hcp a b ha hb
          have h0 : 0 < par pos := by omega
          have hppl : par (par pos) < par pos := par_lt h0
          have hspp : s ≤ par (par pos) := ((hd.desc.par hs).par hsp').le
          rw [hg2, if_neg (by omega), if_neg (by omega)] at ha
          have ha' : (h.set pos x)[par (par pos)]? = some a := by rw [hg, if_neg (by omega), ha]
          have hy' : (h.set pos x)[par pos]? = some y := by rw [hg, if_neg (by omega), hy]
          have h1 : lt y a = false := hd.others (par pos) h0 hspp (by omega) a y ha' hy'
          have hcl := par_lt hc
          rw [hg2, if_neg (by omega)] at hb
          by_cases hcpos : c = pos
          · rw [if_pos hcpos] at hb
            cases hb
            exact h1
          · rw [if_neg hcpos] at hb
            have h2 : lt b y = false := hd.others c hc (by omega) hcpos y b (by rw [hcp, hy']) (by rw [hg, if_neg hcpos, hb])
            exact hlt.trans _ _ _ h1 h2
      · rw [if_neg hxy]
        refine ⟨?_, List.Perm.refl _⟩
        intro i hi hsi a b ha hb
        by_cases hip : i = pos
        · subst hip
          simp only [] at ha hb
          rw [hg, if_neg (by omega), hy] at ha
          rw [hg, if_pos rfl] at hb
          cases ha; cases hb
          simpa using hxy
        · exact hd.others i hi hsi hip a b ha hb
    · rw [dif_neg hs]
      refine ⟨?_, List.Perm.refl _⟩
      intro i hi hsi a b ha hb
      refine hd.others i hi hsi ?_ a b ha hb
      rintro rfl
      have := par_lt hi
      omega

/-- What holds at the start of each round of the loop of `_siftup`; the element at `pos` does not matter. -/
structure Up (lt : A → A → Bool) (s : ℕ) (h : List A) (pos : ℕ) : Prop where
  desc : Desc s pos
  inRange : pos < h.length
  others : ∀ i, 0 < i → s ≤ par i → i ≠ pos → par i ≠ pos → ∀ a b, h[par i]? = some a → h[i]? = some b → lt b a = false
  below : s < pos → ∀ c, 0 < c → par c = pos → ∀ a b, h[par pos]? = some a → h[c]? = some b → lt b a = false

theorem siftupLoop_spec (hlt : StrictWeak lt) (x : A) (s : ℕ) (n : ℕ) : ∀ (pos : ℕ) (h : List A), h.length - pos = n → Up lt s h pos →
    Down lt s ((siftupLoop lt x h pos).1.set (siftupLoop lt x h pos).2 x) (siftupLoop lt x h pos).2 ∧
    ((siftupLoop lt x h pos).1.set (siftupLoop lt x h pos).2 x).Perm (h.set pos x) := by
  induction n using Nat.strong_induction_on with
  | _ n ih =>
    intro pos h hn hu
    rw [siftupLoop]
    have hpos := hu.inRange
    by_cases hc : 2 * pos + 1 < h.length
    · rw [dif_pos hc]
      simp only []
      generalize hch : (if 2 * pos + 2 < h.length ∧ ¬ lt (h.getD (2 * pos + 1) x) (h.getD (2 * pos + 2) x) = true then 2 * pos + 2 else 2 * pos + 1) = child
      have hcp : par child = pos := by unfold par; split at hch <;> omega
      have hc0 : 0 < child := by split at hch <;> omega
      have hcl : child < h.length := by split at hch <;> omega
      have hpc : pos < child := by rw [← hcp]; exact par_lt hc0
      have hy := getD_some hcl x
      have hsel : ∀ c, 0 < c → par c = pos → ∀ b, h[c]? = some b → lt b (h.getD child x) = false := by
        intro c hc0 hcp b hb
        have hcb : c < h.length := by
          by_contra hh
          rw [List.getElem?_eq_none (by omega)] at hb
          cases hb
        have hcc : c = 2 * pos + 1 ∨ c = 2 * pos + 2 := by unfold par at hcp; omega
        have hbb : b = h.getD c x := by rw [getD_some hcb x] at hb; exact (Option.some.inj hb).symm
        subst hbb
        have irr : ∀ a, lt a a = false := fun a => by
          by_contra hh
          have := hlt.asymm a a (by simpa using hh)
          exact hh this
        split at hch
        · rename_i hcond
          subst hch
          rcases hcc with rfl | rfl
          · simpa using hcond.2
          · exact irr _
        · rename_i hcond
          subst hch
          rcases hcc with rfl | rfl
          · exact irr _
          · have : lt (h.getD (2 * pos + 1) x) (h.getD (2 * pos + 2) x) = true := by
              by_contra hh
              exact hcond ⟨hcb, hh⟩
            exact hlt.asymm _ _ this
      generalize h.getD child x = y at hy hsel
      have hg : ∀ i, (h.set pos y)[i]? = if i = pos then some y else h[i]? := get_set hpos
      have hsp : s ≤ pos := hu.desc.le
      have key := ih (h.length - child) (by omega) child (h.set pos y) (by simp) ⟨hu.desc.child hcp, by simpa using hcl, ?_, ?_⟩
      · exact ⟨key.1, key.2.trans (by exact swap_perm hpos hy (by omega))⟩
      · intro i hi hsi hne hpne a b ha hb
        rw [hg] at ha hb
        by_cases hip : i = pos
        · subst hip
          rw [if_pos rfl] at hb
          have := par_lt hi
          rw [if_neg (by omega)] at ha
          cases hb
          exact hu.below (by omega) child hc0 hcp a y ha hy
        · rw [if_neg hip] at hb
          by_cases hpi : par i = pos
          · rw [if_pos hpi] at ha
            cases ha
            exact hsel i hi hpi b hb
          · rw [if_neg hpi] at ha
            exact hu.others i hi hsi hip hpi a b ha hb
      · intro _ c hc0' hcc a b ha hb
        rw [hg, hcp, if_pos rfl] at ha
        cases ha
        have := par_lt hc0'
        rw [hg, if_neg (by omega)] at hb
        exact hu.others c hc0' (by omega) (by omega) (by omega) y b (by rw [hcc, hy]) hb
    · rw [dif_neg hc]
      have hg : ∀ i, (h.set pos x)[i]? = if i = pos then some x else h[i]? := get_set hpos
      have hout : ∀ c, 0 < c → par c = pos → ∀ b, (h.set pos x)[c]? ≠ some b := by
        intro c hc0 hcp b hb
        have := par_lt hc0
        rw [hg, if_neg (by omega), List.getElem?_eq_none (by unfold par at hcp; omega)] at hb
        cases hb
      refine ⟨⟨hu.desc, by simpa using hpos, ?_, ?_⟩, List.Perm.refl _⟩
      · intro i hi hsi hne a b ha hb
        by_cases hpi : par i = pos
        · exact absurd hb (hout i hi hpi b)
        · simp only [] at ha hb hne
          rw [hg, if_neg hpi] at ha
          rw [hg, if_neg hne] at hb
          exact hu.others i hi hsi hne hpi a b ha hb
      · intro _ c hc0 hcp a b _ hb
        exact absurd hb (hout c hc0 hcp b)

theorem siftdown_spec (hlt : StrictWeak lt) {x : A} {s pos : ℕ} {h : List A} (hx : h[pos]? = some x) (hd : Down lt s h pos) :
    HeapFrom lt s (siftdown lt x h s pos) ∧ (siftdown lt x h s pos).Perm h := by
  have he : h.set pos x = h := by
    obtain ⟨hp, rfl⟩ := List.getElem?_eq_some_iff.1 hx
    exact List.set_getElem_self hp
  have := siftdownLoop_spec hlt x s pos h (by rw [he]; exact hd)
  rw [he] at this
  exact this

/-- `_siftup` repairs the heap at one position. -/
theorem siftup_spec (hlt : StrictWeak lt) {x : A} {s : ℕ} {h : List A} (hx : h[s]? = some x) (hh : HeapFrom lt (s + 1) h) :
    HeapFrom lt s (siftup lt x h s) ∧ (siftup lt x h s).Perm h := by
  obtain ⟨hp, hv⟩ := List.getElem?_eq_some_iff.1 hx
  have he : h.set s x = h := by rw [← hv]; exact List.set_getElem_self hp
  obtain ⟨hd, hperm⟩ := siftupLoop_spec hlt x s _ s h rfl ⟨⟨0, rfl⟩, hp, fun i hi hsi _ hpi a b ha hb => hh i hi (by omega) a b ha hb, fun hs => absurd hs (lt_irrefl _)⟩
  rw [he] at hperm
  obtain ⟨h1, h2⟩ := siftdown_spec hlt (x := x) (by rw [get_set (by simpa using hd.inRange), if_pos rfl]) hd
  exact ⟨h1, h2.trans hperm⟩

/-- The first element of a heap is not greater than any. -/
theorem HeapFrom.root (hlt : StrictWeak lt) {h : List A} (hh : HeapFrom lt 0 h) {r : A} (hr : h[0]? = some r) (i : ℕ) : ∀ b, h[i]? = some b → lt b r = false := by
  induction i using Nat.strong_induction_on with
  | _ i ih =>
    intro b hb
    rcases Nat.eq_zero_or_pos i with rfl | hi
    · rw [hr] at hb
      cases hb
      by_contra hc
      exact hc (hlt.asymm _ _ (by simpa using hc))
    · have hl := par_lt hi
      obtain ⟨hlen, -⟩ := List.getElem?_eq_some_iff.1 hb
      have ha : h[par i]? = some h[par i] := List.getElem?_eq_getElem (by omega)
      exact hlt.trans _ _ _ (ih _ hl _ ha) (hh i hi (Nat.zero_le _) _ b ha hb)

/-- **C78.** `heappush` keeps a heap and adds the item. -/
theorem C78_heappush (hlt : StrictWeak lt) {h : List A} (hh : HeapFrom lt 0 h) (x : A) :
    HeapFrom lt 0 (heappush lt h x) ∧ (heappush lt h x).Perm (x :: h) := by
  have hd : Down lt 0 (h ++ [x]) h.length := by
    refine ⟨desc_zero _, by simp, ?_, ?_⟩
    · intro i hi _ hne a b ha hb
      obtain ⟨hl, -⟩ := List.getElem?_eq_some_iff.1 hb
      simp only [List.length_append, List.length_singleton] at hl
      have := par_lt hi
      rw [List.getElem?_append_left (by omega)] at ha hb
      exact hh i hi (Nat.zero_le _) a b ha hb
    · intro _ c hc hcp a b _ hb
      have := par_lt hc
      rw [List.getElem?_eq_none (by simp; omega)] at hb
      cases hb
  obtain ⟨h1, h2⟩ := siftdown_spec hlt (x := x) (by simp) hd
  exact ⟨h1, h2.trans (List.perm_append_singleton x h)⟩

/-- **C78.** `heappop` raises `IndexError` exactly for the empty list; from a heap it removes an element that is not greater than any, and leaves a heap. -/
theorem C78_heappop (hlt : StrictWeak lt) {h : List A} (hh : HeapFrom lt 0 h) :
    (heappop lt h = none ↔ h = []) ∧
    ∀ m t, heappop lt h = some (m, t) → h.Perm (m :: t) ∧ (∀ x ∈ h, lt x m = false) ∧ HeapFrom lt 0 t := by
  rcases List.eq_nil_or_concat h with rfl | ⟨l, last, rfl⟩
  · simp [heappop]
  · simp only [List.concat_eq_append] at hh ⊢
    unfold heappop
    simp only [List.getLast?_append, List.getLast?_singleton, Option.some_or, List.dropLast_concat]
    cases l with
    | nil =>
      refine ⟨by simp, ?_⟩
      intro m t he
      cases he
      refine ⟨List.Perm.refl _, ?_, fun i _ _ a b ha => by simp at ha⟩
      intro x hx
      obtain ⟨i, hi⟩ := List.mem_iff_getElem?.1 hx
      exact hh.root hlt rfl i x hi
    | cons r l =>
      refine ⟨by simp, ?_⟩
      intro m t he
      simp only [Option.some.injEq, Prod.mk.injEq] at he
      obtain ⟨rfl, rfl⟩ := he
      have h1 : HeapFrom lt 1 (last :: l) := by
        intro i hi hsi a b ha hb
        obtain ⟨hl, -⟩ := List.getElem?_eq_some_iff.1 hb
        simp only [List.length_cons] at hl
        have := par_lt hi
        have conv : ∀ k, 0 < k → k < l.length + 1 → (last :: l)[k]? = (r :: l ++ [last])[k]? := by
          intro k hk hkl
          rw [List.getElem?_append_left (by simpa using hkl)]
          obtain ⟨k, rfl⟩ := Nat.exists_eq_succ_of_ne_zero hk.ne'
          rfl
        rw [conv _ (by omega) (by omega)] at ha hb
        exact hh i hi (Nat.zero_le _) a b ha hb
      obtain ⟨h2, h3⟩ := siftup_spec hlt (x := last) (s := 0) rfl h1
      refine ⟨?_, ?_, h2⟩
      · refine List.Perm.trans ?_ (h3.symm.cons r)
        exact (List.perm_append_singleton last l).cons r
      · intro x hx
        obtain ⟨i, hi⟩ := List.mem_iff_getElem?.1 hx
        exact hh.root hlt rfl i x hi

theorem heapify_loop (hlt : StrictWeak lt) (n : ℕ) : ∀ h : List A, n ≤ h.length → HeapFrom lt n h →
    HeapFrom lt 0 ((List.range n).reverse.foldl (siftupAt lt) h) ∧ ((List.range n).reverse.foldl (siftupAt lt) h).Perm h := by
  induction n with
  | zero => exact fun h _ hh => ⟨hh, List.Perm.refl _⟩
  | succ n ih =>
    intro h hn hh
    rw [List.range_succ, List.reverse_append, List.reverse_singleton, List.singleton_append, List.foldl_cons]
    have hx : h[n]? = some h[n] := List.getElem?_eq_getElem (by omega)
    have he : siftupAt lt h n = siftup lt h[n] h n := by unfold siftupAt; rw [hx]
    obtain ⟨h1, h2⟩ := siftup_spec hlt hx hh
    rw [he]
    obtain ⟨h3, h4⟩ := ih _ (by rw [h2.length_eq]; omega) h1
    exact ⟨h3, h4.trans h2⟩

/-- **C78.** `heapify` rearranges any list to a heap. -/
theorem C78_heapify (hlt : StrictWeak lt) (h : List A) : HeapFrom lt 0 (heapify lt h) ∧ (heapify lt h).Perm h := by
  refine heapify_loop hlt _ h (Nat.div_le_self _ _) ?_
  intro i hi hsi a b _ hb
  obtain ⟨hl, -⟩ := List.getElem?_eq_some_iff.1 hb
  unfold par at hsi
  omega

/-- A strict weak order, and what the functions do with it. -/
example : StrictWeak (fun a b : ℕ => decide (a < b)) ∧ heapify (fun a b : ℕ => decide (a < b)) [5, 4, 3, 2, 1] = [1, 2, 3, 5, 4] ∧
    heappush (fun a b : ℕ => decide (a < b)) [1, 2, 3, 5, 4] 0 = [0, 2, 1, 5, 4, 3] ∧
    heappop (fun a b : ℕ => decide (a < b)) [0, 2, 1, 5, 4, 3] = some (0, [1, 2, 3, 5, 4]) := by
  refine ⟨⟨?_, ?_⟩, by decide +kernel, by decide +kernel, by decide +kernel⟩
  · intro a b; simp; omega
  · intro a b c; simp; omega

end Verif.PyHeapq

namespace Verif.Pac

open PyHeapq

theorem ltB_false {I : Type} (a b : Entry I) : a.ltB b = false ↔ b.le a := by
  unfold Entry.ltB Entry.le
  rw [decide_eq_false_iff_not, not_or, not_and, not_lt]
  constructor
  · rintro ⟨h1, h2⟩
    rcases h1.lt_or_eq with h | h
    · exact Or.inl h
    · exact Or.inr ⟨h, not_lt.1 (h2 h.symm)⟩
  · rintro (h | ⟨h, h'⟩)
    · exact ⟨h.le, fun e => absurd e h.ne'⟩
    · exact ⟨h.le, fun _ => not_lt.2 h'⟩

theorem ltB_strictWeak {I : Type} : StrictWeak (Entry.ltB (I := I)) where
  asymm a b h := by
    rw [ltB_false]
    unfold Entry.ltB at h
    unfold Entry.le
    rcases of_decide_eq_true h with h | ⟨h, h'⟩
    · exact Or.inl h
    · exact Or.inr ⟨h, h'.le⟩
  trans a b c h1 h2 := by
    rw [ltB_false] at *
    rcases h1 with h1 | ⟨h1, h1'⟩ <;> rcases h2 with h2 | ⟨h2, h2'⟩
    · exact Or.inl (h1.trans h2)
    · exact Or.inl (h2 ▸ h1)
    · exact Or.inl (h1 ▸ h2)
    · exact Or.inr ⟨h1.trans h2, h1'.trans h2'⟩

/-- The functions of CPython keep the contract that C56 asks for. -/
def cpythonHeapq (I : Type) : Heapq I where
  IsHeap := HeapFrom Entry.ltB 0
  push := heappush Entry.ltB
  pop := heappop Entry.ltB
  heapify := heapify Entry.ltB
  heap_nil := fun i _ _ a b ha => by simp at ha
  heap_push := fun _ e hl => C78_heappush ltB_strictWeak hl e
  heap_heapify := C78_heapify ltB_strictWeak
  pop_nil := rfl
  heap_pop := fun l hl hne => by
    obtain ⟨h1, h2⟩ := C78_heappop ltB_strictWeak hl
    cases hp : heappop Entry.ltB l with
    | none => exact absurd (h1.1 hp) hne
    | some r =>
      obtain ⟨h3, h4, h5⟩ := h2 r.1 r.2 hp
      exact ⟨r.1, r.2, rfl, h3, fun x hx => (ltB_false _ _).1 (h4 x hx), h5⟩

/-- **C78.** The priority queue with the functions of CPython: every run from the empty queue that does not raise is a run of the specification, and the entries of
the heap always have different counts, so that comparing two of them never looks at the items. Filling and emptying is a stable sort. -/
theorem C78_priority_queue {I : Type} [DecidableEq I] :
    (∀ (ops : List (QOp I)) q out, PQ.run (cpythonHeapq I) PQ.empty ops = .ok (q, out) →
      (∃ l, SpecRun [] ops l out) ∧ (q.heap.map Entry.count).Nodup ∧ HeapFrom Entry.ltB 0 q.heap) ∧
    (∀ w : List (ℚ × I), ∃ q, PQ.run (cpythonHeapq I) PQ.empty (w.map (fun e => QOp.push e.2 e.1) ++ List.replicate w.length .pop) =
      .ok (q, (w.insertionSort byPri).map Prod.snd)) := by
  refine ⟨?_, fun w => ?_⟩
  · intro ops q out hrun
    obtain ⟨l, h1, h2⟩ := C56_run (cpythonHeapq I) ops (repr_empty _) hrun
    obtain ⟨es, hp, hc, -, -⟩ := h2.entries
    refine ⟨⟨l, h1⟩, ?_, h2.heap⟩
    rw [← (hp.map Entry.count).nodup_iff, List.Nodup, List.pairwise_map]
    exact hc.imp fun h => h.ne
  · obtain ⟨q, h, -⟩ := C56_heapsort (cpythonHeapq I) w
    exact ⟨q, h⟩

example : popped (PQ.run (cpythonHeapq String) PQ.empty [.push "a" 2, .push "b" 1, .push "c" 2, .update "c" 1, .pop, .pop, .pop]) = some ["b", "c", "a"] := by
  decide +kernel

end Verif.Pac
