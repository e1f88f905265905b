import Verif.Model.SubGraphs
import Verif.Lemmas.Odometer
import Mathlib.Algebra.BigOperators.Intervals
import Mathlib.Data.Fintype.Pi
import Mathlib.Data.Fintype.Option

/-!
# Enumeration of all labelled graphs (C50)
-/

set_option linter.unusedSectionVars false

namespace Verif

/-! ### The pairs -/

theorem subPair_foldl (a : ℕ) (l : List ℕ) : ∀ (acc : List (ℕ × ℕ)), (∀ p ∈ acc, p.1 < p.2) →
    (∀ b ∈ l, b < a → (b, a) ∈ acc) → l.foldl (subPair a) acc = acc ++ (l.filter (a < ·)).map (fun b => (a, b)) := by
  induction l with
  | nil => intro acc _ _; simp
  | cons b t ih =>
    intro acc h1 h2
    rw [List.foldl_cons]
    rcases lt_trichotomy a b with h | h | h
    · have hs : subPair a acc b = acc ++ [(a, b)] := by
        unfold subPair
        rw [if_pos ⟨by omega, fun hm => by have := h1 _ hm; simp only at this; omega⟩]
      rw [hs, ih]
      · simp [h]
      · intro p hp
        rcases List.mem_append.1 hp with hp | hp
        · exact h1 p hp
        · simp only [List.mem_singleton] at hp; subst hp; exact h
      · intro c hc hlt
        exact List.mem_append_left _ (h2 c (by simp [hc]) hlt)
    · subst h
      have hs : subPair a acc a = acc := by unfold subPair; simp
      rw [hs, ih acc h1 (fun c hc hlt => h2 c (by simp [hc]) hlt)]
      simp
    · have hs : subPair a acc b = acc := by
        unfold subPair
        rw [if_neg]
        intro hh; exact hh.2 (h2 b (by simp) h)
      rw [hs, ih acc h1 (fun c hc hlt => h2 c (by simp [hc]) hlt)]
      simp [show ¬ a < b by omega]

/-- Closed form of `edges`. -/
theorem subPairs_eq (n : ℕ) : subPairs n = (subIds n).flatMap fun a => ((subIds n).filter (a < ·)).map fun b => (a, b) := by
  have key : ∀ (post pre : List ℕ), pre ++ post = subIds n →
      post.foldl (fun edges n1 => (subIds n).foldl (subPair n1) edges)
        (pre.flatMap fun a => ((subIds n).filter (a < ·)).map fun b => (a, b)) =
      (subIds n).flatMap fun a => ((subIds n).filter (a < ·)).map fun b => (a, b) := by
    intro post
    induction post with
    | nil => intro pre h; rw [List.append_nil] at h; rw [h]; rfl
    | cons a post ih =>
      intro pre h
      rw [List.foldl_cons, subPair_foldl]
      · have := ih (pre ++ [a]) (by simpa using h)
        simpa using this
      · intro p hp
        simp only [List.mem_flatMap, List.mem_map, List.mem_filter, decide_eq_true_eq] at hp
        obtain ⟨x, _, y, ⟨_, hy⟩, rfl⟩ := hp
        exact hy
      · intro b hb hlt
        simp only [List.mem_flatMap, List.mem_map, List.mem_filter, decide_eq_true_eq]
        refine ⟨b, ?_, a, ⟨?_, hlt⟩, rfl⟩
        · rw [← h] at hb
          rcases List.mem_append.1 hb with hb | hb
          · exact hb
          · have hp : (pre ++ a :: post).Pairwise (· < ·) := by rw [h]; exact List.pairwise_lt_range'
            rw [List.pairwise_append] at hp
            have := hp.2.1
            rw [List.pairwise_cons] at this
            rcases List.mem_cons.1 hb with rfl | hb
            · omega
            · have := this.1 b hb; omega
        · rw [← h]; simp
  exact key (subIds n) [] rfl

theorem mem_subIds (n a : ℕ) : a ∈ subIds n ↔ 1 ≤ a ∧ a ≤ n := by
  unfold subIds; rw [List.mem_range'_1]; omega

theorem mem_subPairs (n : ℕ) (p : ℕ × ℕ) : p ∈ subPairs n ↔ 1 ≤ p.1 ∧ p.1 < p.2 ∧ p.2 ≤ n := by
  rw [subPairs_eq]
  simp only [List.mem_flatMap, List.mem_map, List.mem_filter, decide_eq_true_eq, mem_subIds]
  constructor
  · rintro ⟨a, ha, b, hb, rfl⟩; exact ⟨ha.1, hb.2, hb.1.2⟩
  · rintro ⟨h1, h2, h3⟩; exact ⟨p.1, ⟨h1, by omega⟩, p.2, ⟨⟨by omega, h3⟩, h2⟩, rfl⟩

theorem nodup_subPairs (n : ℕ) : (subPairs n).Nodup := by
  rw [subPairs_eq]
  have hid : (subIds n).Nodup := List.nodup_range'
  rw [List.nodup_flatMap]
  refine ⟨fun a _ => (hid.filter _).map (fun x y h => by simpa using h), ?_⟩
  refine hid.imp ?_
  intro a b hab p hp hp'
  simp only [List.mem_map] at hp hp'
  obtain ⟨x, _, rfl⟩ := hp
  obtain ⟨y, _, h⟩ := hp'
  exact hab (by simpa using (congrArg Prod.fst h).symm)

theorem length_subPairs (n : ℕ) : (subPairs n).length = n * (n - 1) / 2 := by
  rw [subPairs_eq, List.length_flatMap]
  have h1 : ∀ a ∈ subIds n, (((subIds n).filter (a < ·)).map fun b => (a, b)).length = n - a := by
    intro a ha
    rw [mem_subIds] at ha
    rw [List.length_map]
    have : subIds n = List.range' 1 a ++ List.range' (1 + a) (n - a) := by
      unfold subIds
      have := List.range'_append (s := 1) (m := a) (n := n - a) (step := 1)
      rw [one_mul] at this
      rw [this]; congr 1; omega
    rw [this, List.filter_append, List.length_append]
    rw [List.filter_eq_nil_iff.2, List.filter_eq_self.2]
    · simp
    · intro b hb; rw [List.mem_range'_1] at hb; simp; omega
    · intro b hb; rw [List.mem_range'_1] at hb; simp; omega
  rw [List.map_congr_left h1]
  unfold subIds
  rw [List.range'_eq_map_range, List.map_map]
  have h2 : ((List.range n).map ((fun a => n - a) ∘ fun x => 1 + x)).sum = ∑ i ∈ Finset.range n, (n - 1 - i) := by
    rw [← List.sum_toFinset _ List.nodup_range, List.toFinset_range]
    apply Finset.sum_congr rfl
    intro i _; simp; omega
  rw [h2, Finset.sum_range_reflect (fun i => i) n, Finset.sum_range_id]

/-! ### The index vectors -/

theorem subLoop_eq (r : ℕ) (n : ℕ) (hn : n ≠ 0) : ∀ (fuel : ℕ) (l : List ℤ), l.length = n →
    subLoop r fuel l = odoLoop r fuel l := by
  intro fuel
  induction fuel with
  | zero => intro l _; rfl
  | succ fuel ih =>
    intro l hl
    unfold subLoop odoLoop
    have : (l.map fun i => decide (i < (r : ℤ) - 1)).toFinset ≠ {false} ∧ l.length ≠ 0 ↔
        (l.map fun i => decide (i < (r : ℤ) - 1)).toFinset ≠ {false} := by
      constructor
      · exact fun h => h.1
      · exact fun h => ⟨h, by omega⟩
    simp only [this]
    split
    · have hlen : ∀ (l l' : List ℤ), odoStep r l = .ok l' → l'.length = l.length := by
        intro l
        induction l with
        | nil => intro l' h; simp [odoStep] at h
        | cons a t iht =>
          intro l' h
          unfold odoStep at h
          split at h
          · split at h
            · simp at h
            · rename_i t' ht
              simp only [Except.ok.injEq] at h
              rw [← h, List.length_cons, List.length_cons, iht _ ht]
          · simp only [Except.ok.injEq] at h
            rw [← h, List.length_cons, List.length_cons]
      cases hs : odoStep r l with
      | error e => rfl
      | ok l' => simp only; rw [ih l' (by rw [hlen l l' hs, hl])]; rfl
    · rfl

theorem odoLoop_length (r : Nat) (n : Nat) : ∀ (fuel : Nat) (l : List ℤ) (L : List (List ℤ)), IsIndex r n l →
    odoLoop r fuel l = .ok L → L.length + odoVal r l + 1 = (r + 1) ^ n := by
  intro fuel
  induction fuel with
  | zero => intro l L hl h; simp [odoLoop] at h
  | succ fuel ih =>
    intro l L hl h
    unfold odoLoop at h
    by_cases hc : ∃ a ∈ l, a < (r : ℤ) - 1
    · rw [if_pos ((odoCond_iff _ _).2 hc)] at h
      obtain ⟨l', h1, h2, h3⟩ := odoStep_ok r n l hl hc
      rw [h1] at h
      simp only at h
      cases h4 : odoLoop r fuel l' with
      | error e => rw [h4] at h; simp at h
      | ok L' =>
        rw [h4] at h
        simp only [Except.ok.injEq] at h
        have := ih l' L' h2 h4
        rw [← h, List.length_cons]; omega
    · rw [if_neg (fun h => hc ((odoCond_iff _ _).1 h))] at h
      simp only [Except.ok.injEq] at h
      push Not at hc
      have hmax := odoVal_max r n l hl (fun a ha => by have := hc a ha; omega)
      rw [← h]; simp; omega

/-- A way to choose edges: every pair `a < b ≤ n` gets no edge or an edge of one of the types; at least one pair gets one. -/
structure Labelling (n : ℕ) (f : ℕ × ℕ → Option String) : Prop where
  pairs : ∀ p t, f p = some t → 1 ≤ p.1 ∧ p.1 < p.2 ∧ p.2 ≤ n ∧ (t = "AB" ∨ t = "BA")
  some_edge : ∃ p t, f p = some t

/-- The edges of the `i`-th graph of the network are those of the labelling. -/
def GraphAt (net : SubNet) (i : ℕ) (f : ℕ × ℕ → Option String) : Prop :=
  ∀ a b t, ((a, i), (b, i), t) ∈ net.edges ↔ f (a, b) = some t

/-- Index of a choice. -/
def subCode : Option String → ℤ
  | none => -1
  | some t => if t = "AB" then 0 else 1

/-- Index vector of a labelling. -/
def subVec (n : ℕ) (f : ℕ × ℕ → Option String) : List ℤ := (subPairs n).map fun e => subCode (f e)

/-- The chosen edges as a value. -/
def subPick (edges : List (ℕ × ℕ)) (index : List ℤ) : List ((ℕ × ℕ) × String) :=
  ((edges.zip index).filter fun p => decide (p.2 ≥ 0)).map fun p => (p.1, subTypes.getD p.2.toNat "")

theorem subVec_isIndex (n : ℕ) (f : ℕ × ℕ → Option String) : IsIndex 2 (subPairs n).length (subVec n f) := by
  refine ⟨by simp [subVec], ?_⟩
  intro a ha
  simp only [subVec, List.mem_map] at ha
  obtain ⟨e, _, rfl⟩ := ha
  unfold subCode
  split
  · omega
  · split <;> omega

theorem zip_map_self {A B : Type} (l : List A) (g : A → B) : l.zip (l.map g) = l.map fun a => (a, g a) := by
  induction l with
  | nil => rfl
  | cons a t ih => simp [ih]

theorem mem_subPick (n : ℕ) (f : ℕ × ℕ → Option String) (hf : Labelling n f) (e : ℕ × ℕ) (t : String) :
    (e, t) ∈ subPick (subPairs n) (subVec n f) ↔ f e = some t := by
  unfold subPick subVec
  rw [zip_map_self]
  simp only [List.mem_map, List.mem_filter, decide_eq_true_eq]
  constructor
  · rintro ⟨p, ⟨⟨e', _, rfl⟩, hp⟩, heq⟩
    simp only [Prod.mk.injEq] at heq
    obtain ⟨rfl, rfl⟩ := heq
    cases hfe : f e' with
    | none => simp [hfe, subCode] at hp
    | some t =>
      rcases (hf.pairs _ _ hfe).2.2.2 with rfl | rfl <;> simp [subCode, subTypes]
  · intro h
    obtain ⟨h1, h2, h3, h4⟩ := hf.pairs _ _ h
    refine ⟨(e, subCode (f e)), ⟨⟨e, (mem_subPairs n e).2 ⟨h1, h2, h3⟩, rfl⟩, ?_⟩, ?_⟩
    · rcases h4 with rfl | rfl <;> simp [h, subCode]
    · rcases h4 with rfl | rfl <;> simp [h, subCode, subTypes]

theorem subVec_pos (n : ℕ) (f : ℕ × ℕ → Option String) (hf : Labelling n f) : ∃ a ∈ subVec n f, 0 ≤ a := by
  obtain ⟨p, t, h⟩ := hf.some_edge
  obtain ⟨h1, h2, h3, h4⟩ := hf.pairs _ _ h
  refine ⟨subCode (f p), List.mem_map.2 ⟨p, (mem_subPairs n p).2 ⟨h1, h2, h3⟩, rfl⟩, ?_⟩
  rw [h]; unfold subCode; simp only; split <;> omega

/-- Every visited index vector is the one of a labelling. -/
theorem subVec_surj (n : ℕ) (idx : List ℤ) (h : IsIndex 2 (subPairs n).length idx) (hp : ∃ a ∈ idx, 0 ≤ a) :
    ∃ f, Labelling n f ∧ subVec n f = idx := by
  let g : ℕ × ℕ → ℤ := fun e => idx.getD ((subPairs n).idxOf e) (-1)
  have hg : idx = (subPairs n).map g := by
    apply List.ext_getElem
    · simp [h.1]
    · intro i h1 h2
      have h3 : i < (subPairs n).length := by rw [← h.1]; exact h1
      simp only [List.getElem_map, g]
      rw [(nodup_subPairs n).idxOf_getElem i h3, List.getD_eq_getElem?_getD, List.getElem?_eq_getElem h1]
      rfl
  have hb : ∀ e ∈ subPairs n, -1 ≤ g e ∧ g e < 2 := by
    intro e he
    exact h.2 _ (by rw [hg]; exact List.mem_map.2 ⟨e, he, rfl⟩)
  let f : ℕ × ℕ → Option String := fun e =>
    if e ∈ subPairs n then (if g e = 0 then some "AB" else if g e = 1 then some "BA" else none) else none
  have hcode : ∀ e ∈ subPairs n, subCode (f e) = g e := by
    intro e he
    have := hb e he
    simp only [f, if_pos he]
    by_cases h0 : g e = 0
    · simp [h0, subCode]
    · by_cases h1 : g e = 1
      · simp [h1, subCode]
      · rw [if_neg h0, if_neg h1]; simp only [subCode]; omega
  have hlab : Labelling n f := by
    refine ⟨?_, ?_⟩
    · intro p t hpt
      simp only [f] at hpt
      split at hpt
      · rename_i hm
        obtain ⟨h1, h2, h3⟩ := (mem_subPairs n p).1 hm
        refine ⟨h1, h2, h3, ?_⟩
        split at hpt
        · left; simpa using hpt.symm
        · split at hpt
          · right; simpa using hpt.symm
          · simp at hpt
      · simp at hpt
    · obtain ⟨a, ha, h0⟩ := hp
      rw [hg] at ha
      obtain ⟨e, he, rfl⟩ := List.mem_map.1 ha
      have := hb e he
      refine ⟨e, ?_⟩
      simp only [f, if_pos he]
      by_cases h0 : g e = 0
      · exact ⟨"AB", by simp [h0]⟩
      · exact ⟨"BA", by simp [show g e = 1 by omega]⟩
  refine ⟨f, hlab, ?_⟩
  rw [hg]
  exact List.map_congr_left hcode

theorem subVec_inj (n : ℕ) (f g : ℕ × ℕ → Option String) (hf : Labelling n f) (hg : Labelling n g)
    (h : subVec n f = subVec n g) : f = g := by
  funext e
  apply Option.ext
  intro t
  rw [← mem_subPick n f hf, ← mem_subPick n g hg, h]

theorem subChosen_ok (n : ℕ) (idx : List ℤ) (h : IsIndex 2 (subPairs n).length idx) :
    subChosen (subPairs n) idx = .ok (subPick (subPairs n) idx) := by
  unfold subChosen subPick
  apply mapM_ok
  intro p hp
  simp only [List.mem_filter, decide_eq_true_eq] at hp
  have := h.2 p.2 (List.of_mem_zip hp.1).2
  have h2 : p.2 = 0 ∨ p.2 = 1 := by omega
  unfold subType
  rcases h2 with h2 | h2 <;> rw [h2] <;> rfl

theorem subAdd_foldlM (o : Order ℕ) (n : ℕ) : ∀ (l : List (List ℤ × ℕ)) (net : SubNet),
    (∀ p ∈ l, IsIndex 2 (subPairs n).length p.1) →
    l.foldlM (subAdd o (subPairs n)) net = .ok
      ⟨net.nodes ++ l.flatMap (fun p => (o.run (subEnds (subPairs n) p.1).toFinset).map fun nid => (nid, p.2)),
       net.edges ++ l.flatMap (fun p => (subPick (subPairs n) p.1).map fun e => ((e.1.1, p.2), (e.1.2, p.2), e.2))⟩ := by
  intro l
  induction l with
  | nil => intro net _; simp; rfl
  | cons p t ih =>
    intro net h
    rw [List.foldlM_cons]
    have : subAdd o (subPairs n) net p = .ok
        ⟨net.nodes ++ (o.run (subEnds (subPairs n) p.1).toFinset).map (fun nid => (nid, p.2)),
         net.edges ++ (subPick (subPairs n) p.1).map fun e => ((e.1.1, p.2), (e.1.2, p.2), e.2)⟩ := by
      unfold subAdd; rw [subChosen_ok n p.1 (h p (by simp))]
    rw [this]
    show t.foldlM _ _ = _
    rw [ih _ (fun q hq => h q (by simp [hq]))]
    simp [List.append_assoc]

theorem mem_subEnds (edges : List (ℕ × ℕ)) (idx : List ℤ) (a : ℕ) :
    a ∈ subEnds edges idx ↔ ∃ e t, (e, t) ∈ subPick edges idx ∧ (a = e.1 ∨ a = e.2) := by
  unfold subEnds subPick
  simp only [List.mem_flatMap, List.mem_map, List.mem_cons, List.not_mem_nil, or_false]
  constructor
  · rintro ⟨p, hp, h⟩; exact ⟨p.1, _, ⟨p, hp, rfl⟩, h⟩
  · rintro ⟨e, t, ⟨p, hp, heq⟩, h⟩
    simp only [Prod.mk.injEq] at heq
    exact ⟨p, hp, by rw [heq.1]; exact h⟩

/-- What is assumed of the power of floats: it is exact where the exact power is a float below `2 ^ 1023`; otherwise it is some float there; where the exact power is
`2 ^ 1024` or more `OverflowError` is raised. -/
structure PowSpec (pw : ℕ → Option ℚ) : Prop where
  exact : ∀ k, (3 : ℚ) ^ k < 2 ^ 1023 → IsFloat (3 ^ k) → pw k = some (3 ^ k)
  some : ∀ k, (3 : ℚ) ^ k < 2 ^ 1023 → ∃ p, pw k = some p ∧ IsFloat p
  over : ∀ k, (2 : ℚ) ^ 1024 ≤ 3 ^ k → pw k = none

/-- C50: for one node (or none) the function raises: unlike `generate_all_possible_outcomes` it does not test whether there are
edges at all. -/
theorem C50_no_pairs (pw : ℕ → Option ℚ) (o : Order ℕ) (n : ℕ) (h : n ≤ 1) : makeAllSubGraphs pw o n = .error (.py .indexError) := by
  have : n = 0 ∨ n = 1 := by omega
  rcases this with rfl | rfl <;> rfl

/-- The indices of all graphs, and what becomes of the assertions. -/
theorem subIndices_eq (pw : ℕ → Option ℚ) (n : ℕ) (hn : 2 ≤ n) : ∃ L, L.length + 1 = 3 ^ (n * (n - 1) / 2) ∧ L.Nodup ∧
    (∀ m, m ∈ L ↔ IsIndex 2 (subPairs n).length m ∧ ∃ a ∈ m, 0 ≤ a) ∧
    subIndices pw n = match pw (n * (n - 1) / 2) with
      | none => .error .overflow
      | some p => if ((3 ^ (n * (n - 1) / 2) + n : ℕ) : ℚ) ≠ fl (p + n) then .error (.py .assertion) else .ok L := by
  obtain ⟨L, hL1, hL2, hL3⟩ := odometer 2 (subPairs n).length
  have hlen := length_subPairs n
  have hpos : (subPairs n).length ≠ 0 := by
    intro h0
    have : ((1, 2) : ℕ × ℕ) ∈ subPairs n := (mem_subPairs n _).2 ⟨by simp, by simp, hn⟩
    rw [List.length_eq_zero_iff.1 h0] at this; simp at this
  have hcard : L.length + 1 = 3 ^ (n * (n - 1) / 2) := by
    have := odoLoop_length 2 _ _ _ L (odoVal_start 2 _).1 hL1
    rw [(odoVal_start 2 _).2, hlen] at this; omega
  have hloop : subLoop (subTypes.length : ℕ) ((subTypes.length + 1) ^ (subPairs n).length)
      (List.replicate (subPairs n).length (-1)) = .ok L := by
    rw [subLoop_eq subTypes.length _ hpos _ _ (by simp)]; exact hL1
  refine ⟨L, hcard, hL2, hL3, ?_⟩
  have hsum : L.length + (subIds n).length + 1 = 3 ^ (n * (n - 1) / 2) + n := by
    rw [← hcard]
    simp [subIds]; omega
  unfold subIndices
  simp only
  rw [if_neg (by rw [List.toFinset_card_of_nodup (nodup_subPairs n)]; simp), hloop]
  simp only
  rw [hsum]
  cases pw (n * (n - 1) / 2) with
  | none => rfl
  | some p =>
    simp only
    rw [if_neg (by rw [List.toFinset_card_of_nodup hL2]; simp)]

/-- The sum is no multiple of four. -/
theorem sub_not_four (n : ℕ) : ¬ 4 ∣ 3 ^ (n * (n - 1) / 2) + n := by
  have h3 : ∀ k, 3 ^ (2 * k) % 4 = 1 := by
    intro k
    rw [pow_mul, Nat.pow_mod]
    simp
  have h3' : ∀ k, 3 ^ (2 * k + 1) % 4 = 3 := by
    intro k
    rw [pow_succ, Nat.mul_mod, h3]
  have hodd : ∀ k, 3 ^ k % 2 = 1 := by
    intro k
    rw [Nat.pow_mod]
    simp
  have : n % 2 = 0 ∨ n % 4 = 1 ∨ n % 4 = 3 := by omega
  rcases this with h | h | h
  · have := hodd (n * (n - 1) / 2)
    omega
  · obtain ⟨m, rfl⟩ : ∃ m, n = 4 * m + 1 := ⟨n / 4, by omega⟩
    have : (4 * m + 1) * (4 * m + 1 - 1) / 2 = 2 * ((4 * m + 1) * m) := by
      rw [Nat.add_sub_cancel]
      exact Nat.div_eq_of_eq_mul_left (by omega) (by ring)
    rw [this]
    have := h3 ((4 * m + 1) * m)
    omega
  · obtain ⟨m, rfl⟩ : ∃ m, n = 4 * m + 3 := ⟨n / 4, by omega⟩
    have : (4 * m + 3) * (4 * m + 3 - 1) / 2 = 2 * (4 * m ^ 2 + 5 * m + 1) + 1 := by
      rw [show 4 * m + 3 - 1 = 4 * m + 2 by omega]
      exact Nat.div_eq_of_eq_mul_left (by omega) (by ring)
    rw [this]
    have := h3' (4 * m ^ 2 + 5 * m + 1)
    omega

/-- A whole number from `2 ^ 54` on that is a float is a multiple of four. -/
theorem isFloat_four {N : ℕ} (h : IsFloat (N : ℚ)) (hN : 2 ^ 54 ≤ N) : 4 ∣ N := by
  obtain ⟨m, e, hm, -, hx⟩ := h
  have he : 2 ≤ e := by
    by_contra hlt
    have h1 : (N : ℚ) < 2 ^ 54 := by
      rw [hx]
      calc (m : ℚ) * 2 ^ e ≤ |(m : ℚ)| * 2 ^ e := by gcongr; exact le_abs_self _
        _ < 2 ^ 53 * 2 ^ e := by
          gcongr
          exact_mod_cast hm
        _ ≤ 2 ^ 53 * 2 ^ (1 : ℤ) := by
          gcongr
          · norm_num
          · omega
        _ = 2 ^ 54 := by norm_num
    have h2 : N < 2 ^ 54 := by exact_mod_cast h1
    omega
  obtain ⟨j, rfl⟩ : ∃ j : ℕ, e = j + 2 := ⟨(e - 2).toNat, by omega⟩
  have h3 : (N : ℤ) = m * 2 ^ j * 4 := by
    have : (N : ℚ) = ((m * 2 ^ j * 4 : ℤ) : ℚ) := by
      rw [hx]
      push_cast
      rw [zpow_add₀ (by norm_num)]
      norm_num
      ring
    exact_mod_cast this
  have h4 : (4 : ℤ) ∣ N := ⟨m * 2 ^ j, by rw [h3]; ring⟩
  exact_mod_cast h4

/-- C50: for nine nodes or more the function does not return, whatever the power of floats gives: the number of graphs is odd or twice an odd number, so that it is not a
float and the counting assertion fails, unless the power overflows. With the assumptions on the power it is the assertion up to 36 nodes and `OverflowError` above. -/
theorem C50_too_many (pw : ℕ → Option ℚ) (o : Order ℕ) (n : ℕ) (hn : 9 ≤ n) :
    (makeAllSubGraphs pw o n = .error (.py .assertion) ∨ makeAllSubGraphs pw o n = .error .overflow) ∧
    (PowSpec pw → (n ≤ 36 → makeAllSubGraphs pw o n = .error (.py .assertion)) ∧ (37 ≤ n → makeAllSubGraphs pw o n = .error .overflow)) := by
  obtain ⟨L, -, -, -, h⟩ := subIndices_eq pw n (by omega)
  have hk : 36 ≤ n * (n - 1) / 2 := by
    have : 9 * 8 ≤ n * (n - 1) := Nat.mul_le_mul hn (by omega)
    omega
  have hbig : 2 ^ 54 ≤ 3 ^ (n * (n - 1) / 2) + n := by
    have : 3 ^ 36 ≤ 3 ^ (n * (n - 1) / 2) := Nat.pow_le_pow_right (by omega) hk
    have : (2 : ℕ) ^ 54 ≤ 3 ^ 36 := by norm_num
    omega
  have hne : ∀ p : ℚ, ((3 ^ (n * (n - 1) / 2) + n : ℕ) : ℚ) ≠ fl (p + n) := by
    intro p heq
    refine sub_not_four n (isFloat_four ?_ hbig)
    rw [heq]
    exact fl_isFloat _
  have hs : ∀ p, pw (n * (n - 1) / 2) = some p → makeAllSubGraphs pw o n = .error (.py .assertion) := by
    intro p hp
    unfold makeAllSubGraphs
    rw [h, hp]
    simp only
    rw [if_pos (hne p)]
  have hno : pw (n * (n - 1) / 2) = none → makeAllSubGraphs pw o n = .error .overflow := by
    intro hp
    unfold makeAllSubGraphs
    rw [h, hp]
  refine ⟨?_, fun hpw => ⟨fun h36 => ?_, fun h37 => hno (hpw.over _ ?_)⟩⟩
  · cases hp : pw (n * (n - 1) / 2) with
    | none => exact Or.inr (hno hp)
    | some p => exact Or.inl (hs p hp)
  · have hk' : n * (n - 1) / 2 ≤ 630 := by
      have : n * (n - 1) ≤ 36 * 35 := Nat.mul_le_mul h36 (by omega)
      omega
    have : (3 : ℚ) ^ (n * (n - 1) / 2) < 2 ^ 1023 :=
      lt_of_le_of_lt (pow_le_pow_right₀ (by norm_num) hk') (by exact_mod_cast (by decide +kernel : 3 ^ 630 < 2 ^ 1023))
    obtain ⟨p, hp, -⟩ := hpw.some _ this
    exact hs p hp
  · have hk' : 666 ≤ n * (n - 1) / 2 := by
      have : 37 * 36 ≤ n * (n - 1) := Nat.mul_le_mul h37 (by omega)
      omega
    exact le_trans (by exact_mod_cast (by decide +kernel : 2 ^ 1024 ≤ 3 ^ 666)) (pow_le_pow_right₀ (by norm_num : (1 : ℚ) ≤ 3) hk')

/-- C50: for two to eight nodes the function returns, so both counting assertions hold, and the network consists of the single nodes
and of every graph with at least one edge between the nodes, each exactly once. -/
theorem C50_all_graphs (pw : ℕ → Option ℚ) (hpw : PowSpec pw) (o : Order ℕ) (n : ℕ) (hn : 2 ≤ n) (hn8 : n ≤ 8) : ∃ net, makeAllSubGraphs pw o n = .ok net ∧
    (∀ a, (a, 0) ∈ net.nodes ↔ 1 ≤ a ∧ a ≤ n) ∧
    (∀ e ∈ net.edges, e.1.2 = e.2.1.2 ∧ 1 ≤ e.1.2 ∧ e.1.2 < 3 ^ (n * (n - 1) / 2)) ∧
    (∀ i, 1 ≤ i → i < 3 ^ (n * (n - 1) / 2) → ∃ f, Labelling n f ∧ GraphAt net i f) ∧
    (∀ f, Labelling n f → ∃ i, 1 ≤ i ∧ i < 3 ^ (n * (n - 1) / 2) ∧ GraphAt net i f ∧
      ∀ j, 1 ≤ j → j < 3 ^ (n * (n - 1) / 2) → GraphAt net j f → j = i) ∧
    (∀ a i, 1 ≤ i → ((a, i) ∈ net.nodes ↔ ∃ e ∈ net.edges, (a, i) = e.1 ∨ (a, i) = e.2.1)) ∧
    net.nodes.Nodup := by
  obtain ⟨L, hcard, hL2, hL3, hidxs⟩ := subIndices_eq pw n hn
  have hidx : ∀ p ∈ L.zipIdx 1, IsIndex 2 (subPairs n).length p.1 := by
    intro p hp
    have : p.1 ∈ L := (List.fst_mem_of_mem_zipIdx hp)
    exact ((hL3 _).1 this).1
  have hrun : makeAllSubGraphs pw o n = .ok
      ⟨(subIds n).map (fun nid => (nid, 0)) ++
        (L.zipIdx 1).flatMap (fun p => (o.run (subEnds (subPairs n) p.1).toFinset).map fun nid => (nid, p.2)),
       [] ++ (L.zipIdx 1).flatMap (fun p => (subPick (subPairs n) p.1).map fun e => ((e.1.1, p.2), (e.1.2, p.2), e.2))⟩ := by
    unfold makeAllSubGraphs
    have hk : n * (n - 1) / 2 ≤ 28 := by
      have : n * (n - 1) ≤ 8 * 7 := Nat.mul_le_mul hn8 (by omega)
      omega
    have h3 : (3 : ℕ) ^ (n * (n - 1) / 2) ≤ 3 ^ 28 := Nat.pow_le_pow_right (by omega) hk
    have hf : ∀ m : ℕ, m ≤ 3 ^ 28 + 8 → IsFloat (m : ℚ) := by
      intro m hm
      have := isFloat_int (k := m) (by rw [abs_of_nonneg (by positivity)]; have : (3 : ℕ) ^ 28 + 8 ≤ 2 ^ 53 := by norm_num
                                       exact_mod_cast hm.trans this)
      exact_mod_cast this
    have hp : pw (n * (n - 1) / 2) = some (3 ^ (n * (n - 1) / 2)) := by
      refine hpw.exact _ ?_ ?_
      · exact lt_of_le_of_lt (pow_le_pow_right₀ (by norm_num) hk) (by exact_mod_cast (by decide +kernel : 3 ^ 28 < 2 ^ 1023))
      · exact_mod_cast hf (3 ^ (n * (n - 1) / 2)) (by omega)
    rw [hidxs, hp]
    simp only
    rw [if_neg]
    · simp only
      rw [subAdd_foldlM o n _ _ hidx]
    rw [not_not]
    have := fl_of_isFloat (hf (3 ^ (n * (n - 1) / 2) + n) (by omega))
    push_cast at this ⊢
    exact this.symm
  refine ⟨_, hrun, ?_⟩
  clear hrun
  rw [List.nil_append]
  have hedge : ∀ a i b j t, ((a, i), (b, j), t) ∈ (L.zipIdx 1).flatMap (fun p => (subPick (subPairs n) p.1).map fun e =>
      (((e.1.1, p.2), (e.1.2, p.2), e.2) : (ℕ × ℕ) × (ℕ × ℕ) × String)) ↔
      i = j ∧ 1 ≤ i ∧ ∃ idx, L[i - 1]? = some idx ∧ ((a, b), t) ∈ subPick (subPairs n) idx := by
    intro a i b j t
    simp only [List.mem_flatMap, List.mem_map, Prod.mk.injEq, Prod.exists]
    constructor
    · rintro ⟨idx, k, hk, x, y, u, hm, ⟨rfl, rfl⟩, ⟨rfl, rfl⟩, rfl⟩
      rw [List.mk_mem_zipIdx_iff_le_and_getElem?_sub] at hk
      exact ⟨rfl, hk.1, idx, hk.2, hm⟩
    · rintro ⟨rfl, h1, idx, h2, h3⟩
      exact ⟨idx, i, List.mk_mem_zipIdx_iff_le_and_getElem?_sub.2 ⟨h1, h2⟩, a, b, t, h3, ⟨rfl, rfl⟩, ⟨rfl, rfl⟩, rfl⟩
  have hgraph : ∀ i f, 1 ≤ i → Labelling n f → L[i - 1]? = some (subVec n f) → ∀ a b t, ((a, i), (b, i), t) ∈
      (L.zipIdx 1).flatMap (fun p => (subPick (subPairs n) p.1).map fun e =>
      (((e.1.1, p.2), (e.1.2, p.2), e.2) : (ℕ × ℕ) × (ℕ × ℕ) × String)) ↔ f (a, b) = some t := by
    intro i f hi hf h a b t
    rw [hedge]
    simp only [true_and, h, Option.some.injEq, exists_eq_left', hi, mem_subPick n f hf]
  have hsome : ∀ i, 1 ≤ i → i < 3 ^ (n * (n - 1) / 2) → ∃ f, Labelling n f ∧ L[i - 1]? = some (subVec n f) := by
    intro i h1 h2
    have h3 : i - 1 < L.length := by omega
    obtain ⟨h4, h5⟩ := (hL3 _).1 (List.getElem_mem h3)
    obtain ⟨f, hf, hv⟩ := subVec_surj n _ h4 h5
    exact ⟨f, hf, by rw [hv]; exact List.getElem?_eq_getElem h3⟩
  refine ⟨?_, ?_, ?_, ?_, ?_, ?_⟩
  · intro a
    simp only [List.mem_append, List.mem_map, Prod.mk.injEq, and_true, exists_eq_right, mem_subIds, List.mem_flatMap, Prod.exists]
    constructor
    · rintro (h | ⟨idx, k, hk, x, _, rfl, rfl⟩)
      · exact h
      · rw [List.mk_mem_zipIdx_iff_le_and_getElem?_sub] at hk; omega
    · exact Or.inl
  · rintro ⟨⟨a, i⟩, ⟨b, j⟩, t⟩ he
    obtain ⟨h1, h2, idx, h3, _⟩ := (hedge _ _ _ _ _).1 he
    have := (List.getElem?_eq_some_iff.1 h3).1
    exact ⟨h1, h2, by simp only; omega⟩
  · intro i h1 h2
    obtain ⟨f, hf, h⟩ := hsome i h1 h2
    exact ⟨f, hf, hgraph i f h1 hf h⟩
  · intro f hf
    have hm := (hL3 _).2 ⟨subVec_isIndex n f, subVec_pos n f hf⟩
    obtain ⟨i, hi, he⟩ := List.getElem_of_mem hm
    refine ⟨i + 1, by omega, by omega, hgraph (i + 1) f (by omega) hf (by simp [List.getElem?_eq_getElem hi, he]), ?_⟩
    intro j h1 h2 hj
    obtain ⟨g, hg, h⟩ := hsome j h1 h2
    have hfg : g = f := by
      funext e
      apply Option.ext
      intro t
      rw [← hgraph j g h1 hg h e.1 e.2 t, hj e.1 e.2 t]
    rw [hfg] at h
    obtain ⟨h3, h4⟩ := List.getElem?_eq_some_iff.1 h
    have := (hL2.getElem_inj_iff (hi := h3) (hj := hi)).1 (h4.trans he.symm)
    omega
  · intro a i hi
    simp only [List.mem_append, List.mem_map, List.mem_flatMap, Prod.exists, Prod.mk.injEq, o.mem, List.mem_toFinset]
    constructor
    · rintro (⟨x, _, rfl, rfl⟩ | ⟨idx, k, hk, x, hx, rfl, rfl⟩)
      · omega
      · obtain ⟨e, t, he, hor⟩ := (mem_subEnds _ _ _).1 hx
        exact ⟨e.1, k, e.2, k, t, ⟨idx, k, hk, e.1, e.2, t, he, ⟨rfl, rfl⟩, ⟨rfl, rfl⟩, rfl⟩, by
          rcases hor with h | h
          · exact Or.inl ⟨h, rfl⟩
          · exact Or.inr ⟨h, rfl⟩⟩
    · rintro ⟨x, k, y, l, t, ⟨idx, m, hm, x', y', t', he, ⟨rfl, rfl⟩, ⟨rfl, rfl⟩, rfl⟩, hor⟩
      right
      rcases hor with ⟨rfl, rfl⟩ | ⟨rfl, rfl⟩
      · exact ⟨idx, i, hm, a, (mem_subEnds _ _ _).2 ⟨_, _, he, Or.inl rfl⟩, rfl, rfl⟩
      · exact ⟨idx, i, hm, a, (mem_subEnds _ _ _).2 ⟨_, _, he, Or.inr rfl⟩, rfl, rfl⟩
  · rw [List.nodup_append]
    refine ⟨?_, ?_, ?_⟩
    · exact (List.nodup_range' : (subIds n).Nodup).map (fun x y h => by simpa using h)
    · rw [List.nodup_flatMap]
      refine ⟨fun p _ => (o.nodup _).map (fun x y h => by simpa using h), ?_⟩
      have hnd : ((L.zipIdx 1).map Prod.snd).Nodup := by
        rw [List.zipIdx_map_snd]; exact List.nodup_range'
      rw [List.nodup_iff_pairwise_ne, List.pairwise_map] at hnd
      refine hnd.imp ?_
      intro p q hpq x hx hy
      simp only [List.mem_map] at hx hy
      obtain ⟨_, _, rfl⟩ := hx
      obtain ⟨_, _, h⟩ := hy
      exact hpq (congrArg Prod.snd h).symm
    · intro x hx y hy hxy
      simp only [List.mem_map, List.mem_flatMap, Prod.exists] at hx hy
      obtain ⟨_, _, rfl⟩ := hx
      obtain ⟨idx, k, hk, z, _, rfl⟩ := hy
      rw [List.mk_mem_zipIdx_iff_le_and_getElem?_sub] at hk
      simp only [Prod.mk.injEq] at hxy
      omega

/-- Non-vacuity: a labelling of three nodes with two edges. -/
example : Labelling 3 fun p => if p = (1, 2) then some "AB" else if p = (2, 3) then some "BA" else none := by
  refine ⟨?_, ⟨(1, 2), "AB", rfl⟩⟩
  intro p t h
  split at h
  · rename_i hp; subst hp; simp at h; simp [← h]
  · split at h
    · rename_i hp; subst hp; simp at h; simp [← h]
    · simp at h

/-- Non-vacuity: powers rounded to the nearest float meet the assumptions. -/
example : PowSpec fun k => if (3 : ℚ) ^ k < 2 ^ 1024 then some (fl (3 ^ k)) else none := by
  have h : ∀ k, (3 : ℚ) ^ k < 2 ^ 1023 → (3 : ℚ) ^ k < 2 ^ 1024 := fun k hk => hk.trans (pow_lt_pow_right₀ (by norm_num) (by norm_num))
  refine ⟨fun k hk hf => ?_, fun k hk => ?_, fun k hk => ?_⟩
  · rw [if_pos (h k hk), fl_of_isFloat hf]
  · rw [if_pos (h k hk)]
    exact ⟨_, rfl, fl_isFloat _⟩
  · rw [if_neg (not_lt.2 hk)]

end Verif
