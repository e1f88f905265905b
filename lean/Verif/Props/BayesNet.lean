import Verif.Model.Bayes
import Verif.Lemmas.Star
import Verif.Props.Text

/-!
# The relation graph of a Bayesian network (C59)
-/

set_option linter.unusedSectionVars false

namespace Verif.Bayes

/-! ### Specification -/

/-- The position of an assignment among all assignments of the variables in lexicographic order (mixed radix). -/
def rowIndex (a : Str → ℕ) : List (Str × ℕ) → ℕ
  | [] => 0
  | (v, _) :: t => a v * (t.map Prod.snd).prod + rowIndex a t

/-- Number of values of a variable. -/
def cardOf (cfg : Config) (v : Str) : ℕ := ((cfg.get? v).map Cpd.card).getD 0

/-- Parents of a variable. -/
def parentsOf (cfg : Config) (v : Str) : List Str := ((cfg.get? v).map Cpd.parents).getD []

/-- A variable and its parents. -/
def family (cfg : Config) (v : Str) : Finset Str := insert v (parentsOf cfg v).toFinset

/-- The indices of the values of a variable. -/
def domOf (cfg : Config) (v : Str) : Finset ℕ := Finset.range (cardOf cfg v)

/-- `P(v = a v | parents = a)` as written in the table. -/
def prob (cfg : Config) (v : Str) (a : Str → ℕ) : ℚ :=
  match cfg.get? v with
  | none => 0
  | some c => (((c.rows[a v]?).getD [])[rowIndex a (c.parents.zip c.pCards)]?).getD 0

/-- The table of a variable fits: different declared parents with their numbers of values, one row for each value and one column for each
assignment of the parents. -/
structure Fits (cfg : Config) (v : Str) (c : Cpd) : Prop where
  card : 0 < c.card
  nodup : c.parents.Nodup
  self : v ∉ c.parents
  decl : ∀ p ∈ c.parents, p ∈ cfg.keys
  pCards : c.pCards = c.parents.map (cardOf cfg)
  rows : c.rows.length = c.card
  row : ∀ r ∈ c.rows, r.length = c.pCards.prod

/-- A network whose tables fit, in which no two variables are parents of each other, and in which no name of a family is part of the text of
a value of another member of the family. -/
structure Net (cfg : Config) : Prop where
  ne : cfg.entries ≠ []
  fits : ∀ v c, cfg.get? v = some c → Fits cfg v c
  two : ∀ v, ∀ p ∈ parentsOf cfg v, v ∉ parentsOf cfg p
  names : ∀ v ∈ cfg.keys, ∀ u ∈ family cfg v, ∀ w ∈ family cfg v, ∀ j < cardOf cfg w, u <:+: valName w j → u = w

/-! ### Names of values -/

theorem valName_inj {v w : Str} {j k : ℕ} (h : valName v j = valName w k) : v = w ∧ j = k := by
  unfold valName at h
  simp only [List.append_assoc, List.singleton_append] at h
  have hp : ∀ m : ℕ, '(' ∉ Nat.toDigits 10 m ++ [')'] := by
    intro m hm
    rcases List.mem_append.1 hm with hm | hm
    · exact absurd (Nat.isDigit_of_mem_toDigits (by omega) (by omega) hm) (by decide)
    · exact absurd hm (by decide)
  obtain ⟨h1, h2⟩ := split_at_last (hp j) (hp k) h
  exact ⟨h1, toDigits_ten_inj (List.append_cancel_right h2)⟩

theorem infix_valName (v : Str) (j : ℕ) : v <:+: valName v j :=
  ⟨[], ['('] ++ Nat.toDigits 10 j ++ [')'], by simp [valName]⟩

/-! ### `_value_combination` -/

theorem flat_length {α : Type} (c n : ℕ) (f : ℕ → List α) (hf : ∀ j < c, (f j).length = n) : ((List.range c).flatMap f).length = c * n := by
  induction c with
  | zero => simp
  | succ c ih =>
    rw [List.range_succ, List.flatMap_append, List.length_append, ih fun j hj => hf j (by omega)]
    simp [hf c (by omega)]; ring

theorem flat_get {α : Type} (c n : ℕ) (f : ℕ → List α) (hf : ∀ j < c, (f j).length = n) (j i : ℕ) (hj : j < c) (hi : i < n) :
    ((List.range c).flatMap f)[j * n + i]? = (f j)[i]? := by
  induction c with
  | zero => omega
  | succ c ih =>
    rw [List.range_succ, List.flatMap_append]
    have hl := flat_length c n f fun j hj => hf j (by omega)
    by_cases hjc : j < c
    · have : j * n + i < c * n := by
        calc j * n + i < j * n + n := by omega
          _ = (j + 1) * n := by ring
          _ ≤ c * n := Nat.mul_le_mul_right _ (by omega)
      rw [List.getElem?_append_left (by rw [hl]; exact this)]
      exact ih (fun j hj => hf j (by omega)) hjc
    · have : j = c := by omega
      subst this
      rw [List.getElem?_append_right (by rw [hl]; omega), hl]
      simp

/-- The list of the names of the values under an assignment. -/
def asgNames (a : Str → ℕ) (l : List (Str × ℕ)) : List Str := l.map fun p => valName p.1 (a p.1)

theorem combos_length : ∀ (l : List (Str × ℕ)), l ≠ [] → (combos l).length = (l.map Prod.snd).prod
  | [], h => absurd rfl h
  | [(v, c)], _ => by simp [combos]
  | (v, c) :: w :: t, _ => by
    rw [combos, flat_length c ((w :: t).map Prod.snd).prod _ (fun j _ => by rw [List.length_map, combos_length (w :: t) (by simp)])]
    simp

theorem rowIndex_lt (a : Str → ℕ) : ∀ (l : List (Str × ℕ)), (∀ p ∈ l, a p.1 < p.2) → rowIndex a l < (l.map Prod.snd).prod
  | [], _ => by simp [rowIndex]
  | (v, c) :: t, h => by
    have h1 := rowIndex_lt a t fun p hp => h p (by simp [hp])
    have h2 : a v < c := h (v, c) (by simp)
    simp only [rowIndex, List.map_cons, List.prod_cons]
    calc a v * (t.map Prod.snd).prod + rowIndex a t < a v * (t.map Prod.snd).prod + (t.map Prod.snd).prod := by omega
      _ = (a v + 1) * (t.map Prod.snd).prod := by ring
      _ ≤ c * (t.map Prod.snd).prod := Nat.mul_le_mul_right _ (by omega)

theorem combos_get (a : Str → ℕ) : ∀ (l : List (Str × ℕ)), l ≠ [] → (∀ p ∈ l, a p.1 < p.2) →
    (combos l)[rowIndex a l]? = some (asgNames a l)
  | [], h, _ => absurd rfl h
  | [(v, c)], _, h => by
    have : a v < c := h (v, c) (by simp)
    simp [combos, rowIndex, asgNames, this]
  | (v, c) :: w :: t, _, h => by
    have h2 : a v < c := h (v, c) (by simp)
    have h3 : ∀ p ∈ w :: t, a p.1 < p.2 := fun p hp => h p (List.mem_cons_of_mem _ hp)
    rw [combos]
    show (List.flatMap _ _)[a v * ((w :: t).map Prod.snd).prod + rowIndex a (w :: t)]? = _
    rw [flat_get c ((w :: t).map Prod.snd).prod _ (fun j _ => by rw [List.length_map, combos_length (w :: t) (by simp)]) _ _ h2
      (rowIndex_lt a _ h3), List.getElem?_map, combos_get a (w :: t) (by simp) h3]
    rfl

theorem rowIndex_congr {a b : Str → ℕ} : ∀ {l : List (Str × ℕ)}, (∀ p ∈ l, a p.1 = b p.1) → rowIndex a l = rowIndex b l
  | [], _ => rfl
  | (v, c) :: t, h => by
    simp only [rowIndex]
    have h0 : a v = b v := h (v, c) (by simp)
    rw [h0, rowIndex_congr fun p hp => h p (List.mem_cons_of_mem _ hp)]

theorem rowIndex_surj : ∀ (l : List (Str × ℕ)), (l.map Prod.fst).Nodup → ∀ k < (l.map Prod.snd).prod,
    ∃ a : Str → ℕ, (∀ p ∈ l, a p.1 < p.2) ∧ rowIndex a l = k
  | [], _, k, hk => ⟨fun _ => 0, by simp, by simp at hk; simp [rowIndex, hk]⟩
  | (v, c) :: t, hnd, k, hk => by
    simp only [List.map_cons, List.nodup_cons, List.prod_cons] at hnd hk
    have hpos : 0 < (t.map Prod.snd).prod := Nat.pos_of_ne_zero fun h => by simp [h] at hk
    obtain ⟨a, h1, h2⟩ := rowIndex_surj t hnd.2 (k % (t.map Prod.snd).prod) (Nat.mod_lt _ hpos)
    have hne : ∀ p ∈ t, p.1 ≠ v := fun p hp e => hnd.1 (List.mem_map.2 ⟨p, hp, e⟩)
    refine ⟨Function.update a v (k / (t.map Prod.snd).prod), ?_, ?_⟩
    · intro p hp
      rcases List.mem_cons.1 hp with rfl | hp
      · simp only [Function.update_self]
        exact Nat.div_lt_of_lt_mul (by rw [mul_comm]; exact hk)
      · rw [Function.update_of_ne (hne p hp)]; exact h1 p hp
    · simp only [rowIndex, Function.update_self]
      rw [rowIndex_congr (b := a) fun p hp => Function.update_of_ne (hne p hp) _ _, h2]
      exact Nat.div_add_mod' _ _

/-- **C59.** `_value_combination` lists the combinations of values exactly and in lexicographic order: their number is the product of the
cardinalities, and the assignment `a` is at the position of `a` in mixed radix notation; every position is the one of an assignment. For no
variables it raises. -/
theorem C59_value_combination (l : List (Str × ℕ)) :
    (l = [] → valueCombination l = .error .indexError) ∧
    (l ≠ [] → ∃ cs, valueCombination l = .ok cs ∧ cs.length = (l.map Prod.snd).prod ∧
      (∀ a : Str → ℕ, (∀ p ∈ l, a p.1 < p.2) → cs[rowIndex a l]? = some (asgNames a l)) ∧
      ((l.map Prod.fst).Nodup → ∀ k < cs.length, ∃ a : Str → ℕ, (∀ p ∈ l, a p.1 < p.2) ∧ rowIndex a l = k)) := by
  refine ⟨fun h => by rw [h]; rfl, fun h => ⟨combos l, by unfold valueCombination; rw [if_neg h], combos_length l h, fun a ha => combos_get a l h ha, ?_⟩⟩
  intro hnd k hk
  rw [combos_length l h] at hk
  exact rowIndex_surj l hnd k hk

/-! ### `_value_map_from_cpd` -/

theorem get?_foldl_set {K A : Type} [DecidableEq K] (l : List (K × A)) (hf : ∀ p ∈ l, ∀ q ∈ l, p.1 = q.1 → p.2 = q.2) (d : Dict K A) (k : K) (x : A) :
    (l.foldl (fun d p => d.set p.1 p.2) d).get? k = some x ↔ (k, x) ∈ l ∨ ((∀ p ∈ l, p.1 ≠ k) ∧ d.get? k = some x) := by
  induction l using List.reverseRecOn with
  | nil => simp
  | append_singleton l p ih =>
    rw [List.foldl_append, List.foldl_cons, List.foldl_nil, Dict.get?_set]
    have hf' : ∀ p ∈ l, ∀ q ∈ l, p.1 = q.1 → p.2 = q.2 := fun p hp q hq => hf p (by simp [hp]) q (by simp [hq])
    by_cases h : p.1 = k
    · rw [if_pos h]
      subst h
      constructor
      · intro e; left
        have : p.2 = x := by simpa using e
        simp [← this]
      · rintro (h | ⟨h, -⟩)
        · have := hf p (by simp) _ h rfl
          simp only at this
          rw [this]
        · exact absurd rfl (h p (by simp))
    · rw [if_neg h, ih hf']
      constructor
      · rintro (h1 | ⟨h1, h2⟩)
        · left; simp [h1]
        · right
          refine ⟨fun q hq => ?_, h2⟩
          rcases List.mem_append.1 hq with hq | hq
          · exact h1 q hq
          · rw [List.mem_singleton.1 hq]; exact h
      · rintro (h1 | ⟨h1, h2⟩)
        · left
          rcases List.mem_append.1 h1 with h1 | h1
          · exact h1
          · exact absurd (by rw [← List.mem_singleton.1 h1]) h
        · right
          exact ⟨fun q hq => h1 q (by simp [hq]), h2⟩

/-- The names of the values of a set of variables. -/
def nameSet (S : Finset Str) (a : Str → ℕ) : Finset Str := S.image fun w => valName w (a w)

theorem nameSet_inj {S : Finset Str} {a b : Str → ℕ} (h : nameSet S a = nameSet S b) : ∀ w ∈ S, a w = b w := by
  intro w hw
  have : valName w (a w) ∈ nameSet S b := by rw [← h]; exact Finset.mem_image_of_mem _ hw
  obtain ⟨u, -, hu⟩ := Finset.mem_image.1 this
  obtain ⟨h1, h2⟩ := valName_inj hu
  rw [← h2, h1]

theorem cardOf_of {cfg : Config} {v : Str} {c : Cpd} (h : cfg.get? v = some c) : cardOf cfg v = c.card := by simp [cardOf, h]

theorem parentsOf_of {cfg : Config} {v : Str} {c : Cpd} (h : cfg.get? v = some c) : parentsOf cfg v = c.parents := by simp [parentsOf, h]

theorem family_of {cfg : Config} {v : Str} {c : Cpd} (h : cfg.get? v = some c) : family cfg v = insert v c.parents.toFinset := by
  rw [family, parentsOf_of h]

theorem zip_map_cards {cfg : Config} {v : Str} {c : Cpd} (h : Fits cfg v c) : c.parents.zip c.pCards = c.parents.map fun p => (p, cardOf cfg p) := by
  rw [h.pCards]
  induction c.parents with
  | nil => rfl
  | cons p t ih => simp [ih]

theorem prob_local {cfg : Config} (v : Str) (h : ∀ c, cfg.get? v = some c → Fits cfg v c) {a b : Str → ℕ} (hab : ∀ w ∈ family cfg v, a w = b w) :
    prob cfg v a = prob cfg v b := by
  unfold prob
  cases hv : cfg.get? v with
  | none => rfl
  | some c =>
    rw [family_of hv] at hab
    simp only
    rw [hab v (Finset.mem_insert_self _ _), rowIndex_congr (b := b)]
    intro p hp
    rw [zip_map_cards (h c hv)] at hp
    obtain ⟨q, hq, rfl⟩ := List.mem_map.1 hp
    exact hab q (Finset.mem_insert_of_mem (List.mem_toFinset.2 hq))

/-- The items set in one round. -/
def rowItems (v : Str) (c : Cpd) (i : ℕ) : List (Finset Str × ℚ) :=
  if c.parents ≠ [] then
    (((combos (c.parents.zip c.pCards)).map fun vs => valName v i :: vs).zip ((c.rows[i]?).getD [])).map fun p => (p.1.toFinset, p.2)
  else [({valName v i}, ((c.rows[i]?).getD []).headD 0)]

theorem valueMapRow_eq {cfg : Config} {v : Str} {c : Cpd} (h : Fits cfg v c) (d : Dict (Finset Str) ℚ) (i : ℕ) (hi : i < c.card) :
    valueMapRow v c d i = .ok ((rowItems v c i).foldl (fun d p => d.set p.1 p.2) d) := by
  obtain ⟨row, hrow⟩ : ∃ row, c.rows[i]? = some row := ⟨_, List.getElem?_eq_getElem (by rw [h.rows]; exact hi)⟩
  have hlen := h.row row (List.mem_of_getElem? hrow)
  unfold valueMapRow rowItems
  by_cases hp : c.parents = []
  · have hpc : c.pCards = [] := by rw [h.pCards, hp]; rfl
    rw [if_neg (by simp [hp]), if_neg (by simp [hp]), hrow]
    rw [hpc] at hlen
    simp only [List.prod_nil] at hlen
    obtain ⟨q, hq⟩ := List.length_eq_one_iff.1 hlen
    simp [hq]
  · have hpc : c.pCards ≠ [] := by rw [h.pCards]; simpa using hp
    have hz : c.parents.zip c.pCards ≠ [] := by rw [zip_map_cards h]; simpa using hp
    rw [if_pos ⟨hp, hpc⟩, if_pos hp, hrow]
    simp only [valueCombination, if_neg hz, Option.getD_some, List.foldl_map]

theorem mem_zip_iff {A B : Type} (l : List A) (r : List B) (x : A) (y : B) : (x, y) ∈ l.zip r ↔ ∃ k : ℕ, l[k]? = some x ∧ r[k]? = some y := by
  rw [List.mem_iff_getElem?]
  simp only [List.getElem?_zip_eq_some]

theorem mem_rowItems {cfg : Config} {v : Str} {c : Cpd} (hv : cfg.get? v = some c) (h : Fits cfg v c) (i : ℕ) (hi : i < c.card) (key : Finset Str)
    (q : ℚ) : (key, q) ∈ rowItems v c i ↔
      ∃ a, InDom (domOf cfg) (family cfg v) a ∧ a v = i ∧ key = nameSet (family cfg v) a ∧ q = prob cfg v a := by
  obtain ⟨row, hrow⟩ : ∃ row, c.rows[i]? = some row := ⟨_, List.getElem?_eq_getElem (by rw [h.rows]; exact hi)⟩
  have hlen := h.row row (List.mem_of_getElem? hrow)
  have hself : v ∉ c.parents.toFinset := by simpa using h.self
  unfold rowItems
  rw [family_of hv]
  by_cases hp : c.parents = []
  · rw [if_neg (by simp [hp]), hrow]
    have hpc : c.pCards = [] := by rw [h.pCards, hp]; rfl
    rw [hpc] at hlen
    simp only [List.prod_nil] at hlen
    obtain ⟨x, hx⟩ := List.length_eq_one_iff.1 hlen
    have hprob : ∀ a : Str → ℕ, a v = i → prob cfg v a = x := by
      intro a ha
      unfold prob
      rw [hv]
      simp [ha, hrow, hx, hp, rowIndex]
    simp only [hx, hp, List.mem_singleton, Prod.mk.injEq, List.toFinset_nil, insert_empty_eq, Option.getD_some, List.headD_cons]
    constructor
    · rintro ⟨rfl, rfl⟩
      refine ⟨fun _ => i, ?_, rfl, ?_, (hprob _ rfl).symm⟩
      · intro w hw; rw [Finset.mem_singleton.1 hw, domOf, Finset.mem_range, cardOf_of hv]; exact hi
      · simp [nameSet]
    · rintro ⟨a, -, ha, rfl, rfl⟩
      exact ⟨by simp [nameSet, ha], hprob a ha⟩
  · have hz : c.parents.zip c.pCards ≠ [] := by rw [zip_map_cards h]; simpa using hp
    rw [if_pos hp, hrow]
    simp only [Option.getD_some, List.mem_map, Prod.mk.injEq, Prod.exists]
    have hnd : ((c.parents.zip c.pCards).map Prod.fst).Nodup := by
      rw [zip_map_cards h, List.map_map]; simpa [Function.comp_def] using h.nodup
    have hprod : ((c.parents.zip c.pCards).map Prod.snd).prod = c.pCards.prod := by
      rw [zip_map_cards h, List.map_map, h.pCards]; rfl
    have hdomz : ∀ a : Str → ℕ, (∀ p ∈ c.parents.zip c.pCards, a p.1 < p.2) ↔ ∀ p ∈ c.parents, a p < cardOf cfg p := by
      intro a
      rw [zip_map_cards h]
      simp only [List.mem_map, forall_exists_index, and_imp, forall_apply_eq_imp_iff₂]
    have hnames : ∀ a : Str → ℕ, a v = i → (valName v i :: asgNames a (c.parents.zip c.pCards)).toFinset = nameSet (insert v c.parents.toFinset) a := by
      intro a ha
      rw [zip_map_cards h]
      simp only [asgNames, List.map_map, List.toFinset_cons, nameSet, Finset.image_insert, ha]
      congr 1
      ext x
      simp [List.mem_map]
    have hprob : ∀ a : Str → ℕ, a v = i → prob cfg v a = (row[rowIndex a (c.parents.zip c.pCards)]?).getD 0 := by
      intro a ha
      unfold prob
      rw [hv]
      simp [ha, hrow]
    have hin : ∀ a : Str → ℕ, a v = i → ((∀ p ∈ c.parents, a p < cardOf cfg p) ↔ InDom (domOf cfg) (insert v c.parents.toFinset) a) := by
      intro a ha
      unfold InDom
      simp only [Finset.mem_insert, List.mem_toFinset, domOf, Finset.mem_range]
      constructor
      · rintro h1 w (rfl | hw)
        · rw [ha, cardOf_of hv]; exact hi
        · exact h1 w hw
      · intro h1 p hp; exact h1 p (Or.inr hp)
    constructor
    · rintro ⟨ns, x, hm, rfl, rfl⟩
      obtain ⟨k, hk1, hk2⟩ := (mem_zip_iff _ _ _ _).1 hm
      rw [List.getElem?_map] at hk1
      have hkl : k < (combos (c.parents.zip c.pCards)).length := by
        by_contra hge
        rw [List.getElem?_eq_none (by omega)] at hk1
        simp at hk1
      rw [combos_length _ hz] at hkl
      obtain ⟨a, ha1, ha2⟩ := rowIndex_surj _ hnd k hkl
      have hne : ∀ p ∈ c.parents.zip c.pCards, p.1 ≠ v := by
        intro p hp e
        rw [zip_map_cards h] at hp
        obtain ⟨r, hr, rfl⟩ := List.mem_map.1 hp
        exact h.self (e ▸ hr)
      have hb1 : ∀ p ∈ c.parents.zip c.pCards, Function.update a v i p.1 < p.2 := by
        intro p hp; rw [Function.update_of_ne (hne p hp)]; exact ha1 p hp
      have hb2 : rowIndex (Function.update a v i) (c.parents.zip c.pCards) = k := by
        rw [rowIndex_congr (b := a) fun p hp => Function.update_of_ne (hne p hp) _ _, ha2]
      have hbv : Function.update a v i v = i := Function.update_self _ _ _
      rw [← hb2, combos_get _ _ hz hb1] at hk1
      refine ⟨Function.update a v i, (hin _ hbv).1 ((hdomz _).1 hb1), hbv, ?_, ?_⟩
      · rw [← hnames _ hbv, ← Option.some_inj.1 hk1]
      · rw [hprob _ hbv, hb2, hk2]; rfl
    · rintro ⟨a, ha, hav, rfl, rfl⟩
      have hd := (hdomz a).2 ((hin a hav).2 ha)
      have hlt : rowIndex a (c.parents.zip c.pCards) < row.length := by
        rw [hlen, ← hprod]; exact rowIndex_lt a _ hd
      refine ⟨valName v i :: asgNames a (c.parents.zip c.pCards), _, (mem_zip_iff _ _ _ _).2 ⟨rowIndex a (c.parents.zip c.pCards), ?_,
        List.getElem?_eq_getElem hlt⟩, hnames a hav, ?_⟩
      · rw [List.getElem?_map, combos_get a _ hz hd]; rfl
      · rw [hprob a hav, List.getElem?_eq_getElem hlt]; rfl

theorem foldlM_ok_of {A B : Type} (f : B → A → Py B) (g : B → A → B) : ∀ (l : List A) (b : B), (∀ b, ∀ x ∈ l, f b x = .ok (g b x)) →
    l.foldlM f b = .ok (l.foldl g b)
  | [], _, _ => rfl
  | x :: t, b, h => by
    rw [List.foldlM_cons, h b x (by simp)]
    exact foldlM_ok_of f g t _ fun b x hx => h b x (by simp [hx])

/-- **C59.** `_value_map_from_cpd` gives exactly one entry for each assignment of the family, the probability written in the table. -/
theorem C59_value_map {cfg : Config} {v : Str} {c : Cpd} (hv : cfg.get? v = some c) (h : Fits cfg v c) :
    ∃ d, valueMap v c = .ok d ∧ ∀ key q, d.get? key = some q ↔
      ∃ a, InDom (domOf cfg) (family cfg v) a ∧ key = nameSet (family cfg v) a ∧ q = prob cfg v a := by
  refine ⟨((List.range c.card).flatMap (rowItems v c)).foldl (fun d p => d.set p.1 p.2) Dict.empty, ?_, ?_⟩
  · unfold valueMap
    rw [foldlM_ok_of _ (fun d i => (rowItems v c i).foldl (fun d p => d.set p.1 p.2) d) _ _
      (fun d i hi => valueMapRow_eq h d i (List.mem_range.1 hi)), List.foldl_flatMap]
  · have hm : ∀ key q, (key, q) ∈ (List.range c.card).flatMap (rowItems v c) ↔
        ∃ a, InDom (domOf cfg) (family cfg v) a ∧ key = nameSet (family cfg v) a ∧ q = prob cfg v a := by
      intro key q
      simp only [List.mem_flatMap, List.mem_range]
      constructor
      · rintro ⟨i, hi, hm⟩
        obtain ⟨a, h1, -, h3⟩ := (mem_rowItems hv h i hi key q).1 hm
        exact ⟨a, h1, h3⟩
      · rintro ⟨a, h1, h3⟩
        have hlt : a v < c.card := by
          have := h1 v (Finset.mem_insert_self _ _)
          rwa [domOf, Finset.mem_range, cardOf_of hv] at this
        exact ⟨a v, hlt, (mem_rowItems hv h (a v) hlt key q).2 ⟨a, h1, rfl, h3⟩⟩
    intro key q
    rw [get?_foldl_set, hm]
    · simp
    · rintro ⟨k1, q1⟩ h1 ⟨k2, q2⟩ h2 e
      obtain ⟨a, -, rfl, rfl⟩ := (hm _ _).1 h1
      obtain ⟨b, -, rfl, rfl⟩ := (hm _ _).1 h2
      exact prob_local v (fun c' hc' => by rw [hv] at hc'; cases hc'; exact h) (nameSet_inj e)

end Verif.Bayes
