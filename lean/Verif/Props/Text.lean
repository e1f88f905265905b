import Verif.Model.Text
import Verif.Lemmas.Builder
import Verif.Props.SampleSet
import Verif.Props.Builder
import Verif.Spec.Counts

/-!
# Textual forms (C46)
-/

set_option linter.unusedSectionVars false

namespace Verif

section
variable {V X R : Type} [DecidableEq V] [DecidableEq X] [DecidableEq R]

/-! ### Sorting and joining -/

theorem sortStr_perm {l l' : List Str} (h : l.Perm l') : sortStr l = sortStr l' :=
  (((List.perm_insertionSort _ l).trans h).trans (List.perm_insertionSort _ l').symm).eq_of_pairwise'
    (List.pairwise_insertionSort _ _) (List.pairwise_insertionSort _ _)

theorem perm_sortStr (l : List Str) : (sortStr l).Perm l := List.perm_insertionSort _ l

theorem mapM_perm {α β : Type} (f : α → Py β) {l l' : List α} (h : l.Perm l') :
    (∃ r r', l.mapM f = .ok r ∧ l'.mapM f = .ok r' ∧ r.Perm r') ∨ (∃ x ∈ l, ∃ e, f x = .error e) := by
  by_cases hx : ∃ x ∈ l, ∃ e, f x = .error e
  · exact Or.inr hx
  · left
    have hok : ∀ x ∈ l, ∃ y, f x = .ok y := by
      intro x hxl
      cases hf : f x with
      | ok y => exact ⟨y, rfl⟩
      | error e => exact absurd ⟨x, hxl, e, hf⟩ hx
    have : ∃ g : α → Option β, ∀ x ∈ l, ∃ y, f x = .ok y ∧ g x = some y := by
      refine ⟨fun x => match f x with | .ok y => some y | .error _ => none, fun x hxl => ?_⟩
      obtain ⟨y, hy⟩ := hok x hxl
      exact ⟨y, hy, by simp [hy]⟩
    obtain ⟨g, hg⟩ := this
    have hl : ∀ m : List α, (∀ x ∈ m, x ∈ l) → m.mapM f = .ok (m.filterMap g) := by
      intro m
      induction m with
      | nil => intro _; rfl
      | cons x t ih =>
        intro hm
        obtain ⟨y, h1, h2⟩ := hg x (hm x (by simp))
        rw [List.mapM_cons, h1, ih fun z hz => hm z (by simp [hz])]
        simp [h2, bind, Except.bind, pure, Except.pure]
    exact ⟨_, _, hl l fun _ h => h, hl l' fun x hx => h.mem_iff.2 hx, h.filterMap _⟩

/-- Splitting at the first occurrence of a character. -/
theorem split_at {c : Char} {a a' b b' : Str} (h : c ∉ a) (h' : c ∉ a') (e : a ++ c :: b = a' ++ c :: b') : a = a' ∧ b = b' := by
  induction a generalizing a' with
  | nil =>
    cases a' with
    | nil => simpa using e
    | cons d t => simp at e; simp [e.1] at h'
  | cons d t ih =>
    cases a' with
    | nil => simp at e; simp [e.1] at h
    | cons d' t' =>
      simp only [List.cons_append, List.cons.injEq] at e
      obtain ⟨h1, h2⟩ := ih (by simp at h; exact h.2) (by simp at h'; exact h'.2) e.2
      exact ⟨by rw [e.1, h1], h2⟩

/-- Joining texts without the separator character can be undone. -/
theorem joinStr_inj {c : Char} {sep : Str} {l l' : List Str} (hl : l ≠ []) (hl' : l' ≠ []) (h : ∀ s ∈ l, c ∉ s)
    (h' : ∀ s ∈ l', c ∉ s) (e : joinStr (c :: sep) l = joinStr (c :: sep) l') : l = l' := by
  have hmem : ∀ a b t, c ∈ joinStr (c :: sep) (a :: b :: t) := by intro a b t; simp [joinStr]
  induction l generalizing l' with
  | nil => exact absurd rfl hl
  | cons a t ih =>
    cases l' with
    | nil => exact absurd rfl hl'
    | cons a' t' =>
      cases t with
      | nil =>
        cases t' with
        | nil => simpa [joinStr] using e
        | cons b' t' =>
          have := hmem a' b' t'
          rw [← e] at this
          exact absurd this (h a (by simp))
      | cons b t =>
        cases t' with
        | nil =>
          have := hmem a b t
          rw [e] at this
          exact absurd this (h' a' (by simp))
        | cons b' t' =>
          simp only [joinStr, List.append_assoc, List.cons_append] at e
          obtain ⟨e1, e2⟩ := split_at (h a (by simp)) (h' a' (by simp)) e
          have e3 := List.append_cancel_left e2
          rw [e1, ih (by simp) (by simp) (fun s hs => h s (by simp [hs])) (fun s hs => h' s (by simp [hs])) e3]

/-! ### Specification -/

/-- The texts can be told apart inside the textual forms. -/
structure Texts.Clean (t : Texts V X R) : Prop where
  varInj : Function.Injective t.var
  valInj : Function.Injective t.val
  relInj : Function.Injective t.rel
  var : ∀ v, ∀ c ∈ ['_', ')', ';', '}', '-'], c ∉ t.var v
  val : ∀ x, ∀ c ∈ [')', ';'], c ∉ t.val x
  rel : ∀ r, ∀ c ∈ ['}', ';', '['], c ∉ t.rel r

/-! ### Node ids -/

/-- **C46.** `string_id` tells nodes apart when no variable text contains the separator. -/
theorem C46_string_id_injective (t : Texts V X R) (hv : Function.Injective t.var) (hx : Function.Injective t.val)
    (hs : ∀ v, '_' ∉ t.var v) (n m : Node V X) (h : n.stringId t = m.stringId t) : n = m := by
  obtain ⟨h1, h2⟩ := split_at (hs _) (hs _) h
  cases n; cases m
  simp only [Node.mk.injEq]
  exact ⟨hv h1, hx h2⟩

/-- **C46.** In general it does not: variable `a_b` with value `c` and variable `a` with value `b_c`. -/
theorem C46_string_id_collision : ∃ (t : Texts Str Str Str) (n m : Node Str Str), Function.Injective t.var ∧
    Function.Injective t.val ∧ n ≠ m ∧ n.stringId t = m.stringId t :=
  ⟨⟨id, id, id⟩, ⟨['a', '_', 'b'], ['c']⟩, ⟨['a'], ['b', '_', 'c']⟩, fun _ _ h => h, fun _ _ h => h, by decide, by decide⟩

/-! ### Edges -/

/-- **C46.** The text of an edge does not depend on the order of the endpoints, and exists when there are two endpoints. -/
theorem C46_edge_repr (t : Texts V X R) (o o' : Order (Node V X)) (e : Edge V X R) :
    e.repr t o = e.repr t o' ∧ ((∃ s, e.repr t o = .ok s) ↔ 2 ≤ e.endpoints.card) ∧
    (∀ er, e.repr t o = .error er → er = .indexError) := by
  have hp : sortStr ((o.run e.endpoints).map (Node.repr t)) = sortStr ((o'.run e.endpoints).map (Node.repr t)) :=
    sortStr_perm ((o.perm _ o').map _)
  have hlen : (sortStr ((o.run e.endpoints).map (Node.repr t))).length = e.endpoints.card := by
    rw [(perm_sortStr _).length_eq, List.length_map, o.length_run]
  refine ⟨?_, ?_, ?_⟩
  · unfold Edge.repr; rw [hp]
  · unfold Edge.repr
    match hs : sortStr ((o.run e.endpoints).map (Node.repr t)), hlen with
    | [], hlen => simp [← hlen]
    | [a], hlen => simp [← hlen]
    | a :: b :: r, hlen => simp at hlen ⊢; omega
  · intro er
    unfold Edge.repr
    split
    · intro h; simp at h
    · intro h; simpa using h.symm

/-- The text of an edge between two nodes. -/
theorem edge_repr_pair (t : Texts V X R) (o : Order (Node V X)) (e : Edge V X R) (h : e.endpoints.card = 2) :
    ∃ n m, n ≠ m ∧ e.endpoints = {n, m} ∧
      e.repr t o = .ok (n.repr t ++ ['-', '-', '{'] ++ e.relation.repr t ++ ['}', '-', '-'] ++ m.repr t) := by
  have hl : (o.run e.endpoints).length = 2 := by rw [o.length_run, h]
  have hnd := o.nodup e.endpoints
  have hmem := o.mem e.endpoints
  match hr : o.run e.endpoints, hl with
  | [n, m], _ =>
    rw [hr] at hnd hmem
    have hne : n ≠ m := by simpa using hnd
    have hE : e.endpoints = {n, m} := by ext z; rw [← hmem]; simp
    unfold Edge.repr
    rw [hr]
    simp only [List.map_cons, List.map_nil]
    have hs : sortStr [n.repr t, m.repr t] = [n.repr t, m.repr t] ∨ sortStr [n.repr t, m.repr t] = [m.repr t, n.repr t] := by
      by_cases h : n.repr t ≤ m.repr t <;> simp [sortStr, List.orderedInsert, h]
    rcases hs with hs | hs
    · exact ⟨n, m, hne, hE, by rw [hs]⟩
    · exact ⟨m, n, hne.symm, by rw [hE, Finset.pair_comm], by rw [hs]⟩

theorem goodEdge_card {e : Edge V X R} (h : GoodEdge e) : e.endpoints.card = 2 := by
  obtain ⟨a, b, hab, he⟩ := h
  rw [he, Finset.card_pair]
  rintro rfl
  exact hab rfl

theorem rel_repr_inj (t : Texts V X R) (h : t.Clean) (r r' : Rel V R) (e : r.repr t = r'.repr t) : r = r' := by
  cases r with
  | plain r =>
    cases r' with
    | plain r' => exact congrArg _ (h.relInj e)
    | directed a b r' =>
      have : '[' ∈ t.rel r := by
        have e' : t.rel r = _ := e
        rw [e']; simp [Rel.repr]
      exact absurd this (h.rel r '[' (by simp))
  | directed a b r =>
    cases r' with
    | plain r' =>
      have : '[' ∈ t.rel r' := by
        have e' : _ = t.rel r' := e
        rw [← e']; simp [Rel.repr]
      exact absurd this (h.rel r' '[' (by simp))
    | directed a' b' r' =>
      simp only [Rel.repr, List.append_assoc, List.cons_append, List.nil_append] at e
      obtain ⟨e1, e2⟩ := split_at (h.rel r '[' (by simp)) (h.rel r' '[' (by simp)) e
      obtain ⟨e3, e4⟩ := split_at (h.var a '-' (by simp)) (h.var a' '-' (by simp)) e2
      have e5 := List.append_cancel_right (List.cons.inj e4).2
      rw [h.relInj e1, h.varInj e3, h.varInj e5]

theorem rel_repr_clean (t : Texts V X R) (h : t.Clean) (r : Rel V R) : '}' ∉ r.repr t ∧ ';' ∉ r.repr t := by
  cases r with
  | plain r => exact ⟨h.rel r _ (by simp), h.rel r _ (by simp)⟩
  | directed a b r =>
    have h1 := h.rel r '}' (by simp)
    have h2 := h.rel r ';' (by simp)
    have h3 := h.var a '}' (by simp)
    have h4 := h.var a ';' (by simp)
    have h5 := h.var b '}' (by simp)
    have h6 := h.var b ';' (by simp)
    simp [Rel.repr, h1, h2, h3, h4, h5, h6]

theorem stringId_clean (t : Texts V X R) (h : t.Clean) (n : Node V X) : ')' ∉ n.stringId t ∧ ';' ∉ n.stringId t := by
  have h1 := h.var n.var ')' (by simp)
  have h2 := h.var n.var ';' (by simp)
  have h3 := h.val n.val ')' (by simp)
  have h4 := h.val n.val ';' (by simp)
  simp [Node.stringId, h1, h2, h3, h4]

theorem stringId_inj (t : Texts V X R) (h : t.Clean) {n m : Node V X} (e : n.stringId t = m.stringId t) : n = m :=
  C46_string_id_injective t h.varInj h.valInj (fun v => h.var v _ (by simp)) n m e

/-- **C46.** The text of an edge determines the edge, when the parts can be told apart. -/
theorem C46_edge_repr_injective (t : Texts V X R) (ht : t.Clean) (o : Order (Node V X)) (e f : Edge V X R)
    (he : e.endpoints.card = 2) (hf : f.endpoints.card = 2) (h : e.repr t o = f.repr t o) : e = f := by
  obtain ⟨n, m, -, e1, e2⟩ := edge_repr_pair t o e he
  obtain ⟨n', m', -, f1, f2⟩ := edge_repr_pair t o f hf
  rw [e2, f2] at h
  have h := Except.ok.inj h
  simp only [Node.repr, List.append_assoc, List.cons_append, List.nil_append, List.cons.injEq, true_and] at h
  obtain ⟨h1, h2⟩ := split_at (stringId_clean t ht n).1 (stringId_clean t ht n').1 h
  simp only [List.cons.injEq, true_and] at h2
  obtain ⟨h3, h4⟩ := split_at (rel_repr_clean t ht _).1 (rel_repr_clean t ht _).1 h2
  simp only [List.cons.injEq, true_and] at h4
  have h5 := List.append_cancel_right h4
  apply Edge.ext
  · rw [e1, f1, stringId_inj t ht h1, stringId_inj t ht h5]
  · exact rel_repr_inj t ht _ _ h3

/-! ### Samples -/

/-- The texts of the edges, in whatever order. -/
theorem edge_reprs (t : Texts V X R) (oN : Order (Node V X)) (es : Finset (Edge V X R))
    (h : ∀ e ∈ es, e.endpoints.card = 2) : ∃ f : Edge V X R → Str, (∀ e ∈ es, ∀ oN', e.repr t oN' = .ok (f e)) ∧
      ∀ (oN' : Order (Node V X)) (oE' : Order (Edge V X R)), (oE'.run es).mapM (Edge.repr t oN') = .ok ((oE'.run es).map f) := by
  have h1 : ∀ e, ∃ s, e ∈ es → ∀ oN', Edge.repr t oN' e = .ok s := by
    intro e
    by_cases he : e ∈ es
    · obtain ⟨n, m, -, -, e2⟩ := edge_repr_pair t oN e (h e he)
      exact ⟨_, fun _ oN' => by rw [(C46_edge_repr t oN' oN e).1, e2]⟩
    · exact ⟨[], fun h => absurd h he⟩
  choose f hf using h1
  exact ⟨f, fun e he oN' => hf e he oN', fun oN' oE' => mapM_ok _ _ _ fun e he => hf e ((oE'.mem _ _).1 he) oN'⟩

/-- **C46.** `text_view` of a well formed sample returns, and does not depend on any order. -/
theorem C46_text_view (t : Texts V X R) (g : SampleGraph V X R) (hg : WellFormed g) :
    ∃ s, ∀ oN oE, g.textView t oN oE = .ok s := by
  by_cases he : g.edges = ∅
  · have hc := hg.card_le_one he
    by_cases hn : g.nodes = ∅
    · exact ⟨['{', '}'], fun oN oE => by simp [SampleGraph.textView, he, hn]⟩
    · obtain ⟨n, hn⟩ := Finset.card_eq_one.1 (by have := Finset.card_ne_zero.2 (Finset.nonempty_iff_ne_empty.2 hn); omega :
        g.nodes.card = 1)
      exact ⟨'{' :: n.repr t ++ ['}'], fun oN oE => by simp [SampleGraph.textView, he, hn]⟩
  · obtain ⟨f, -, hf⟩ := edge_reprs t default g.edges fun e he => goodEdge_card (hg.good e he)
    refine ⟨'{' :: joinStr [';', ' '] (sortStr ((g.edges.toList).map f)) ++ ['}'], fun oN oE => ?_⟩
    unfold SampleGraph.textView
    rw [if_pos he, hf, sortStr_perm ((oE.perm_toList g.edges).map f).symm]
    rfl

/-- **C46.** Without a given name, the name is the text view; a given non-empty name is kept. -/
theorem C46_name (t : Texts V X R) (oN oN' : Order (Node V X)) (oE oE' : Order (Edge V X R)) (g : SampleGraph V X R)
    (hg : WellFormed g) : g.nameOf t oN oE none = g.textView t oN' oE' ∧ g.nameOf t oN oE (some []) = g.textView t oN' oE' ∧
      ∀ c s, g.nameOf t oN oE (some (c :: s)) = .ok (c :: s) := by
  have key : g.nameOf t oN oE none = g.textView t oN' oE' := by
    obtain ⟨s, hs⟩ := C46_text_view t g hg
    rw [hs oN' oE', ← hs oN oE]
    unfold SampleGraph.nameOf SampleGraph.textView
    by_cases he : g.edges = ∅
    · have hc := hg.card_le_one he
      by_cases hn : g.nodes = ∅
      · simp [he, hn, sortStr, joinStr]
      · obtain ⟨n, hn⟩ := Finset.card_eq_one.1 (by have := Finset.card_ne_zero.2 (Finset.nonempty_iff_ne_empty.2 hn); omega :
          g.nodes.card = 1)
        simp [he, hn, sortStr, joinStr]
    · simp only [ne_eq, he, not_false_eq_true, if_true]
  exact ⟨key, key, fun c s => rfl⟩

theorem edge_repr_clean (t : Texts V X R) (ht : t.Clean) (o : Order (Node V X)) (e : Edge V X R) (he : e.endpoints.card = 2)
    (s : Str) (h : e.repr t o = .ok s) : ';' ∉ s ∧ ∃ (n : Node V X) (u : Str), s = '(' :: n.stringId t ++ ')' :: '-' :: u := by
  obtain ⟨n, m, -, -, e2⟩ := edge_repr_pair t o e he
  rw [h] at e2
  have e2 := Except.ok.inj e2
  constructor
  · have h1 := (stringId_clean t ht n).2
    have h2 := (stringId_clean t ht m).2
    have h3 := (rel_repr_clean t ht e.relation).2
    rw [e2]
    simp [Node.repr, h1, h2, h3]
  · refine ⟨n, '-' :: '{' :: (e.relation.repr t ++ '}' :: '-' :: '-' :: m.repr t), ?_⟩
    rw [e2]
    simp only [Node.repr, List.append_assoc, List.cons_append, List.nil_append]

theorem joinStr_head (sep a : Str) (l : List Str) : ∃ u, joinStr sep (a :: l) = a ++ u := by
  cases l with
  | nil => exact ⟨[], by simp [joinStr]⟩
  | cons b t => exact ⟨_, by rw [joinStr, List.append_assoc]⟩

/-- **C46.** The text view determines a well formed sample, when the parts can be told apart. -/
theorem C46_text_view_injective (t : Texts V X R) (ht : t.Clean) (oN : Order (Node V X)) (oE : Order (Edge V X R))
    (g h : SampleGraph V X R) (hg : WellFormed g) (hh : WellFormed h) (e : g.textView t oN oE = h.textView t oN oE) : g = h := by
  -- the text of a sample with edges, and of one without
  have hedges : ∀ k : SampleGraph V X R, WellFormed k → k.edges ≠ ∅ → ∃ l : List Str, l ≠ [] ∧
      (∀ s, s ∈ l ↔ ∃ e ∈ k.edges, e.repr t oN = .ok s) ∧ k.textView t oN oE = .ok ('{' :: joinStr [';', ' '] l ++ ['}']) := by
    intro k hk hne
    obtain ⟨f, hf1, hf⟩ := edge_reprs t oN k.edges fun e he => goodEdge_card (hk.good e he)
    refine ⟨sortStr ((oE.run k.edges).map f), ?_, ?_, ?_⟩
    · intro h0
      have := (perm_sortStr ((oE.run k.edges).map f)).length_eq
      rw [h0, List.length_map, oE.length_run] at this
      exact hne (Finset.card_eq_zero.1 this.symm)
    · intro s
      rw [(perm_sortStr _).mem_iff, List.mem_map]
      constructor
      · rintro ⟨e, he, rfl⟩
        have he := (oE.mem _ _).1 he
        exact ⟨e, he, hf1 e he oN⟩
      · rintro ⟨e, he, hs⟩
        rw [hf1 e he oN] at hs
        exact ⟨e, (oE.mem _ _).2 he, Except.ok.inj hs⟩
    · unfold SampleGraph.textView
      rw [if_pos hne, hf]
      rfl
  have hsingle : ∀ k : SampleGraph V X R, WellFormed k → k.edges = ∅ →
      (k.nodes = ∅ ∧ k.textView t oN oE = .ok ['{', '}']) ∨
      ∃ n, k.nodes = {n} ∧ k.textView t oN oE = .ok ('{' :: n.repr t ++ ['}']) := by
    intro k hk he
    have hc := hk.card_le_one he
    by_cases hn : k.nodes = ∅
    · exact Or.inl ⟨hn, by simp [SampleGraph.textView, he, hn]⟩
    · obtain ⟨n, hn⟩ := Finset.card_eq_one.1 (by have := Finset.card_ne_zero.2 (Finset.nonempty_iff_ne_empty.2 hn); omega :
        k.nodes.card = 1)
      exact Or.inr ⟨n, hn, by simp [SampleGraph.textView, he, hn]⟩
  have hstart : ∀ k : SampleGraph V X R, WellFormed k → ∀ l : List Str, l ≠ [] → (∀ s, s ∈ l → ∃ e ∈ k.edges, e.repr t oN = .ok s) →
      ∃ (n : Node V X) (u : Str), joinStr [';', ' '] l = '(' :: n.stringId t ++ ')' :: '-' :: u := by
    intro k hk l hl hm
    cases l with
    | nil => exact absurd rfl hl
    | cons a r =>
      obtain ⟨u, hu⟩ := joinStr_head [';', ' '] a r
      obtain ⟨e, he, hs⟩ := hm a (by simp)
      obtain ⟨n, w, hw⟩ := (edge_repr_clean t ht oN e (goodEdge_card (hk.good e he)) a hs).2
      exact ⟨n, w ++ u, by rw [hu, hw]; simp⟩
  have hmixed : ∀ k k' : SampleGraph V X R, WellFormed k → WellFormed k' → k.edges ≠ ∅ → k'.edges = ∅ →
      k.textView t oN oE ≠ k'.textView t oN oE := by
    intro k k' hk hk' hne he' heq
    obtain ⟨l, l1, l2, l3⟩ := hedges k hk hne
    obtain ⟨n, u, hu⟩ := hstart k hk l l1 fun s hs => (l2 s).1 hs
    rw [l3, hu] at heq
    rcases hsingle k' hk' he' with ⟨-, h2⟩ | ⟨m, -, h2⟩
    · rw [h2] at heq
      have := Except.ok.inj heq
      simp at this
    · rw [h2] at heq
      have h3 := Except.ok.inj heq
      simp only [Node.repr, List.append_assoc, List.cons_append, List.nil_append, List.cons.injEq, true_and] at h3
      have h4 := (split_at (stringId_clean t ht n).1 (stringId_clean t ht m).1 h3).2
      simp at h4
  by_cases hge : g.edges = ∅
  · by_cases hhe : h.edges = ∅
    · apply SampleGraph.ext _ (by rw [hge, hhe])
      rcases hsingle g hg hge with ⟨g1, g2⟩ | ⟨n, g1, g2⟩ <;> rcases hsingle h hh hhe with ⟨h1, h2⟩ | ⟨m, h1, h2⟩
      · rw [g1, h1]
      · rw [g2, h2] at e
        have := Except.ok.inj e
        simp [Node.repr] at this
      · rw [g2, h2] at e
        have := Except.ok.inj e
        simp [Node.repr] at this
      · rw [g2, h2] at e
        have h3 := Except.ok.inj e
        simp only [Node.repr, List.append_assoc, List.cons_append, List.nil_append, List.cons.injEq, true_and] at h3
        have h4 := (split_at (stringId_clean t ht n).1 (stringId_clean t ht m).1 h3).1
        rw [g1, h1, stringId_inj t ht h4]
    · exact absurd e.symm (hmixed h g hh hg hhe hge)
  · by_cases hhe : h.edges = ∅
    · exact absurd e (hmixed g h hg hh hge hhe)
    · obtain ⟨l, l1, l2, l3⟩ := hedges g hg hge
      obtain ⟨l', m1, m2, m3⟩ := hedges h hh hhe
      rw [l3, m3] at e
      have e := Except.ok.inj e
      simp only [List.cons_append, List.cons.injEq, true_and] at e
      have e := List.append_cancel_right e
      have hl : l = l' := by
        refine joinStr_inj (c := ';') (sep := [' ']) l1 m1 ?_ ?_ e
        · intro s hs
          obtain ⟨a, ha, hs⟩ := (l2 s).1 hs
          exact (edge_repr_clean t ht oN a (goodEdge_card (hg.good a ha)) s hs).1
        · intro s hs
          obtain ⟨a, ha, hs⟩ := (m2 s).1 hs
          exact (edge_repr_clean t ht oN a (goodEdge_card (hh.good a ha)) s hs).1
      subst hl
      have hsub : ∀ k k' : SampleGraph V X R, WellFormed k → WellFormed k' →
          (∀ s, (∃ e ∈ k.edges, e.repr t oN = .ok s) → ∃ e ∈ k'.edges, e.repr t oN = .ok s) → k.edges ⊆ k'.edges := by
        intro k k' hk hk' hs a ha
        obtain ⟨f, hf1, -⟩ := edge_reprs t oN k.edges fun e he => goodEdge_card (hk.good e he)
        obtain ⟨b, hb, hbs⟩ := hs (f a) ⟨a, ha, hf1 a ha oN⟩
        have := C46_edge_repr_injective t ht oN a b (goodEdge_card (hk.good a ha)) (goodEdge_card (hk'.good b hb))
          (by rw [hbs, hf1 a ha oN])
        rw [this]; exact hb
      have hE : g.edges = h.edges := Finset.Subset.antisymm
        (hsub g h hg hh fun s hs => (m2 s).1 ((l2 s).2 hs)) (hsub h g hh hg fun s hs => (l2 s).1 ((m2 s).2 hs))
      exact SampleGraph.ext (by rw [hg.nodes_eq hge, hh.nodes_eq hhe, hE]) hE

/-! ### Sample sets -/

/-- **C46.** The text of a sample set does not depend on the order of its dictionary, and neither does `print_samples`. -/
theorem C46_sample_set (nm : SampleGraph V X R → Str) (a b : Samples V X R) (h : a.pyEq b = true) :
    a.repr nm = b.repr nm ∧ ∀ sep oI oI', a.print sep nm oI = b.print sep nm oI' := by
  have hget := (Samples.pyEq_iff a b).1 h
  have hp : a.samples.entries.Perm b.samples.entries := by
    rw [List.perm_ext_iff_of_nodup (a.samples.nodup.of_map _) (b.samples.nodup.of_map _)]
    rintro ⟨g, c⟩
    rw [Dict.mem_entries, Dict.mem_entries, hget]
  constructor
  · unfold Samples.repr
    rw [sortStr_perm (hp.map _)]
  · intro sep oI oI'
    unfold Samples.print
    have : a.items = b.items := by
      ext p; rw [Samples.mem_items, Samples.mem_items, hget]
    rw [this, sortStr_perm ((oI.perm _ oI').map _)]

theorem intStr_ofNat (n : ℕ) : intStr (Int.ofNat n) = Nat.toDigits 10 n := by
  unfold intStr
  show (Nat.repr n).toList = _
  exact Nat.toList_repr

theorem intStr_negSucc (n : ℕ) : intStr (Int.negSucc n) = '-' :: Nat.toDigits 10 (n + 1) := by
  unfold intStr
  show ("-" ++ Nat.repr (n + 1)).toList = _
  simp [Nat.toList_repr]

/-- `str` of an integer consists of digits and a sign. -/
theorem intStr_chars (c : ℤ) {x : Char} (hx : x ∈ intStr c) : x = '-' ∨ x.isDigit = true := by
  cases c with
  | ofNat n => rw [intStr_ofNat] at hx; exact Or.inr (Nat.isDigit_of_mem_toDigits (by omega) (by omega) hx)
  | negSucc n =>
    rw [intStr_negSucc] at hx
    rcases List.mem_cons.1 hx with h | h
    · exact Or.inl h
    · exact Or.inr (Nat.isDigit_of_mem_toDigits (by omega) (by omega) h)

theorem toDigits_ten_inj {n m : ℕ} (h : Nat.toDigits 10 n = Nat.toDigits 10 m) : n = m := by
  have := congrArg (Nat.ofDigitChars 10 · 0) h
  simpa [Nat.ofDigitChars_ten_toDigits] using this

theorem minus_notMem_toDigits (n : ℕ) : '-' ∉ Nat.toDigits 10 n := fun h =>
  absurd (Nat.isDigit_of_mem_toDigits (by omega) (by omega) h) (by decide)

theorem intStr_inj {c d : ℤ} (h : intStr c = intStr d) : c = d := by
  cases c with
  | ofNat n =>
    cases d with
    | ofNat m => rw [intStr_ofNat, intStr_ofNat] at h; rw [toDigits_ten_inj h]
    | negSucc m =>
      rw [intStr_ofNat, intStr_negSucc] at h
      exact absurd (h ▸ List.mem_cons_self) (minus_notMem_toDigits n)
  | negSucc n =>
    cases d with
    | ofNat m =>
      rw [intStr_ofNat, intStr_negSucc] at h
      exact absurd (h ▸ List.mem_cons_self) (minus_notMem_toDigits m)
    | negSucc m =>
      rw [intStr_negSucc, intStr_negSucc] at h
      have := toDigits_ten_inj (List.cons.inj h).2
      rw [show n = m by omega]

/-- Splitting at the last occurrence of a character. -/
theorem split_at_last {c : Char} {a a' b b' : Str} (h : c ∉ b) (h' : c ∉ b') (e : a ++ c :: b = a' ++ c :: b') : a = a' ∧ b = b' := by
  have e' := congrArg List.reverse e
  simp only [List.reverse_append, List.reverse_cons, List.append_assoc, List.singleton_append] at e'
  obtain ⟨h1, h2⟩ := split_at (by simpa using h) (by simpa using h') e'
  exact ⟨List.reverse_injective h2, List.reverse_injective h1⟩

/-- A text put together from one line per entry determines the entries. -/
theorem lines_determine {α : Type} (line : α → Str) {c : Char} {sep : Str} {l l' : List α}
    (hinj : ∀ p ∈ l ++ l', ∀ q ∈ l ++ l', line p = line q → p = q) (hc : ∀ p ∈ l ++ l', c ∉ line p) (hl : l ≠ []) (hl' : l' ≠ []) (h : joinStr (c :: sep) (sortStr (l.map line)) = joinStr (c :: sep) (sortStr (l'.map line)))
    (p : α) : p ∈ l ↔ p ∈ l' := by
  have hne : ∀ m : List α, m ≠ [] → sortStr (m.map line) ≠ [] := by
    intro m hm h0
    have := (perm_sortStr (m.map line)).length_eq
    rw [h0] at this
    exact hm (List.length_eq_zero_iff.1 (by simpa using this.symm))
  have hcl : ∀ m : List α, (∀ q ∈ m, q ∈ l ++ l') → ∀ s ∈ sortStr (m.map line), c ∉ s := by
    intro m hm s hs
    obtain ⟨q, hq, rfl⟩ := List.mem_map.1 ((perm_sortStr _).mem_iff.1 hs)
    exact hc q (hm q hq)
  have := joinStr_inj (hne l hl) (hne l' hl') (hcl l fun q hq => List.mem_append_left _ hq) (hcl l' fun q hq => List.mem_append_right _ hq) h
  have hp : (l.map line).Perm (l'.map line) := (perm_sortStr _).symm.trans (this ▸ perm_sortStr _)
  constructor
  · intro hm
    obtain ⟨q, hq, e⟩ := List.mem_map.1 (hp.mem_iff.1 (List.mem_map.2 ⟨p, hm, rfl⟩))
    rw [← hinj q (List.mem_append_right _ hq) p (List.mem_append_left _ hm) e]; exact hq
  · intro hm
    obtain ⟨q, hq, e⟩ := List.mem_map.1 (hp.mem_iff.2 (List.mem_map.2 ⟨p, hm, rfl⟩))
    rw [← hinj q (List.mem_append_left _ hq) p (List.mem_append_right _ hm) e]; exact hq

/-- The samples of both sets can be told apart by their names, and no name contains `c`. -/
def NamesClear (nm : SampleGraph V X R → Str) (c : Char) (a b : Samples V X R) : Prop :=
  (∀ g g', a.Occurs g ∨ b.Occurs g → a.Occurs g' ∨ b.Occurs g' → nm g = nm g' → g = g') ∧ ∀ g, a.Occurs g ∨ b.Occurs g → c ∉ nm g

/-- **C46.** `print_samples` shows every outcome with its count: when names of samples are different and contain no line break, two sample
sets that are not empty print alike only if they are equal. The separator is any text that starts with neither a digit, a sign nor a
parenthesis. -/
theorem C46_print_determines (nm : SampleGraph V X R → Str) (c : Char) (sep : Str)
    (hc : c.isDigit = false ∧ c ≠ '-' ∧ c ≠ '(' ∧ c ≠ ')') (a b : Samples V X R) (hnm : NamesClear nm c a b) (ha : a.samples.entries ≠ [])
    (hb : b.samples.entries ≠ []) (oI oI' : Order (SampleGraph V X R × ℤ)) :
    a.print (c :: sep) nm oI = b.print (c :: sep) nm oI' ↔ a.pyEq b = true := by
  refine ⟨fun h => ?_, fun h => (C46_sample_set nm a b h).2 _ _ _⟩
  have hne : ∀ (s : Samples V X R) (o : Order (SampleGraph V X R × ℤ)), s.samples.entries ≠ [] → o.run s.items ≠ [] := by
    intro s o hs h0
    obtain ⟨p, hp⟩ := List.exists_mem_of_ne_nil _ hs
    have : p ∈ o.run s.items := by rw [o.mem, Samples.mem_items]; exact (Dict.mem_entries _ _ _).1 hp
    rw [h0] at this; exact absurd this (by simp)
  have hocc : ∀ p, p ∈ oI.run a.items ++ oI'.run b.items → a.Occurs p.1 ∨ b.Occurs p.1 := by
    intro p hp
    rcases List.mem_append.1 hp with hp | hp
    · rw [oI.mem, Samples.mem_items] at hp; exact Or.inl ⟨_, hp⟩
    · rw [oI'.mem, Samples.mem_items] at hp; exact Or.inr ⟨_, hp⟩
  have hmem := lines_determine (fun p : SampleGraph V X R × ℤ => nm p.1 ++ ['('] ++ intStr p.2 ++ [')'])
    (by
      rintro ⟨g, n⟩ hg ⟨g', n'⟩ hg' e
      simp only [List.append_assoc, List.singleton_append] at e
      have hp : ∀ m : ℤ, '(' ∉ intStr m ++ [')'] := by
        intro m hm
        rcases List.mem_append.1 hm with hm | hm
        · rcases intStr_chars m hm with h | h
          · exact absurd h (by decide)
          · exact absurd h (by decide)
        · exact absurd hm (by decide)
      obtain ⟨e1, e2⟩ := split_at_last (hp n) (hp n') e
      exact Prod.ext (hnm.1 _ _ (hocc _ hg) (hocc _ hg') e1) (intStr_inj (List.append_cancel_right e2)))
    (c := c) (sep := sep)
    (by
      rintro ⟨g, n⟩ hg h
      simp only [List.mem_append, List.mem_singleton] at h
      rcases h with ((h | h) | h) | h
      · exact hnm.2 g (hocc _ hg) h
      · exact hc.2.2.1 h
      · rcases intStr_chars n h with h | h
        · exact hc.2.1 h
        · rw [hc.1] at h; cases h
      · exact hc.2.2.2 h)
    (hne a oI ha) (hne b oI' hb) h
  rw [Samples.pyEq_iff]
  intro g
  apply Option.ext
  intro n
  have := hmem (g, n)
  rw [oI.mem, oI'.mem, Samples.mem_items, Samples.mem_items] at this
  exact this

/-- **C46.** The same for the text of a sample set: two sets that are not empty have the same `repr` only if they are equal. -/
theorem C46_repr_determines (nm : SampleGraph V X R → Str) (a b : Samples V X R) (hnm : NamesClear nm '\n' a b) (ha : a.samples.entries ≠ []) (hb : b.samples.entries ≠ []) :
    a.repr nm = b.repr nm ↔ a.pyEq b = true := by
  refine ⟨fun h => ?_, fun h => (C46_sample_set nm a b h).1⟩
  unfold Samples.repr at h
  have hocc : ∀ p, p ∈ a.samples.entries ++ b.samples.entries → a.Occurs p.1 ∨ b.Occurs p.1 := by
    intro p hp
    rcases List.mem_append.1 hp with hp | hp
    · exact Or.inl ⟨_, (Dict.mem_entries _ _ _).1 hp⟩
    · exact Or.inr ⟨_, (Dict.mem_entries _ _ _).1 hp⟩
  have hmem := lines_determine (fun p : SampleGraph V X R × ℤ => [' ', ' ', ' ', ' '] ++ nm p.1 ++ [':', ' '] ++ intStr p.2)
    (by
      rintro ⟨g, n⟩ hg ⟨g', n'⟩ hg' e
      have e : ([' ', ' ', ' ', ' '] ++ nm g) ++ ':' :: (' ' :: intStr n) = ([' ', ' ', ' ', ' '] ++ nm g') ++ ':' :: (' ' :: intStr n') := by
        simpa using e
      have hp : ∀ m : ℤ, ':' ∉ ' ' :: intStr m := by
        intro m hm
        rcases List.mem_cons.1 hm with hm | hm
        · exact absurd hm (by decide)
        · rcases intStr_chars m hm with h | h
          · exact absurd h (by decide)
          · exact absurd h (by decide)
      obtain ⟨e1, e2⟩ := split_at_last (hp n) (hp n') e
      exact Prod.ext (hnm.1 _ _ (hocc _ hg) (hocc _ hg') (List.append_cancel_left e1)) (intStr_inj (List.cons.inj e2).2))
    (c := '\n') (sep := [])
    (by
      rintro ⟨g, n⟩ hg h
      simp only [List.mem_append] at h
      rcases h with ((h | h) | h) | h
      · exact absurd h (by decide)
      · exact hnm.2 g (hocc _ hg) h
      · exact absurd h (by decide)
      · rcases intStr_chars n h with h | h
        · exact absurd h (by decide)
        · exact absurd h (by decide))
    ha hb (List.append_cancel_left (List.append_cancel_right h))
  rw [Samples.pyEq_iff]
  intro g
  apply Option.ext
  intro n
  rw [← Dict.mem_entries, ← Dict.mem_entries]
  exact hmem (g, n)

/-- **C46.** Two equal sample sets can have different texts: names are not part of equality. -/
theorem C46_names_matter (t : Texts V X R) (n : Node V X) (oN : Order (Node V X)) (oE : Order (Edge V X R)) :
    ∃ (a : Samples V X R) (nm nm' : SampleGraph V X R → Str),
      (∀ g, a.Occurs g → (g.nameOf t oN oE none = .ok (nm g)) ∧ ∃ s, g.nameOf t oN oE (some s) = .ok (nm' g)) ∧
      a.pyEq a = true ∧ a.repr nm ≠ a.repr nm' := by
  let g : SampleGraph V X R := ⟨{n}, ∅⟩
  have h0 : g.nameOf t oN oE none = .ok ('{' :: n.repr t ++ ['}']) := by simp [g, SampleGraph.nameOf, sortStr, joinStr]
  refine ⟨⟨0, Dict.ofList [(g, 1)]⟩, fun _ => '{' :: n.repr t ++ ['}'], fun _ => ['O'], ?_, ?_, ?_⟩
  · rintro k ⟨c, hc⟩
    have : k = g := by
      rw [← Dict.mem_entries] at hc
      simp [Dict.ofList, Dict.set, Dict.empty, assocSet] at hc
      exact hc.1
    rw [this]
    exact ⟨h0, ['O'], rfl⟩
  · rw [Samples.pyEq_iff]; intro; rfl
  · simp [Samples.repr, Dict.ofList, Dict.set, Dict.empty, assocSet, sortStr, joinStr, Node.repr]

/-! ### Names of samples built from another sample -/

/-- **C46.** `SampleGraph.builder()` hands its name on, so whatever relation is added and built afterwards carries the name of the
original sample. -/
theorem C46_builder_name (t : Texts V X R) (s : Schema V X R) (oN : Order (Node V X)) (oE oE' : Order (Edge V X R))
    (p q : NamedSample V X R) (hp : p.name ≠ []) (ops : List (Finset (V × X) × Rel V R))
    (h : (ops.foldl (fun b o => (b.addRelation s o.1 o.2).1) (p.builder oE')).build t oN oE = .ok q) : q.name = p.name := by
  have hn : ∀ b : NamedBuilder V X R, (ops.foldl (fun b o => (b.addRelation s o.1 o.2).1) b).name = b.name := by
    clear h
    induction ops with
    | nil => intro b; rfl
    | cons o r ih => intro b; rw [List.foldl_cons, ih]; rfl
  have h1 := hn (p.builder oE')
  generalize ops.foldl (fun b o => (b.addRelation s o.1 o.2).1) (p.builder oE') = b at h h1
  unfold NamedBuilder.build at h
  have h1 : b.name = some p.name := h1
  rw [h1] at h
  cases hb : b.builder.build with
  | error e => rw [hb] at h; simp [bind, Except.bind] at h
  | ok g =>
    rw [hb] at h
    cases hpn : p.name with
    | nil => exact absurd hpn hp
    | cons c r =>
      rw [hpn] at h
      have := Except.ok.inj h
      rw [← this]

/-- **C46.** So whenever relations are added to the builder of a sample and the result is another sample, its name is not its text. -/
theorem C46_stale_name (t : Texts V X R) (ht : t.Clean) (s : Schema V X R) (oN : Order (Node V X)) (oE oE' : Order (Edge V X R))
    (p q : NamedSample V X R) (hp : WellFormed p.sample.graph) (hq : WellFormed q.sample.graph)
    (hn : p.sample.graph.nameOf t oN oE none = .ok p.name) (ops : List (Finset (V × X) × Rel V R))
    (h : (ops.foldl (fun b o => (b.addRelation s o.1 o.2).1) (p.builder oE')).build t oN oE = .ok q)
    (hne : q.sample.graph ≠ p.sample.graph) : q.sample.graph.textView t oN oE ≠ .ok q.name := by
  have h1 := (C46_name t oN oN oE oE p.sample.graph hp).1
  rw [hn] at h1
  have hpn : p.name ≠ [] := by
    intro h0
    rw [h0] at h1
    unfold SampleGraph.textView at h1
    split at h1
    · cases hm : (oE.run p.sample.graph.edges).mapM (Edge.repr t oN) with
      | error e => rw [hm] at h1; simp [bind, Except.bind] at h1
      | ok l => rw [hm] at h1; simp [bind, Except.bind, pure, Except.pure] at h1
    · split at h1 <;> simp at h1
  rw [C46_builder_name t s oN oE oE' p q hpn ops h, h1]
  exact fun e => hne (C46_text_view_injective t ht oN oE _ _ hq hp e)

end

/-! ### Non-vacuity -/

/-- Texts of numbers: as many letters. -/
def unaryTexts : Texts ℕ ℕ ℕ := ⟨fun n => List.replicate n 'a', fun n => List.replicate n 'b', fun n => List.replicate n 'r'⟩

theorem unaryTexts_clean : unaryTexts.Clean := by
  have h : ∀ c : Char, Function.Injective fun n : ℕ => List.replicate n c := by
    intro c n m h
    have := congrArg List.length h
    simpa using this
  refine ⟨h _, h _, h _, ?_, ?_, ?_⟩ <;> intro n c hc hm <;> rw [List.eq_of_mem_replicate hm] at hc <;> revert hc <;> decide

/-- Non-vacuity of `C46_text_view`, `C46_text_view_injective`, `C46_edge_repr_injective`, `C46_string_id_injective`. -/
example : unaryTexts.Clean ∧ WellFormed (oneEdge ⟨0, 1⟩ ⟨1, 1⟩) ∧ WellFormed (oneEdge ⟨0, 1⟩ ⟨1, 2⟩) ∧
    oneEdge ⟨0, 1⟩ ⟨1, 1⟩ ≠ oneEdge ⟨0, 1⟩ ⟨1, 2⟩ :=
  ⟨unaryTexts_clean, oneEdge_wf _ _ (by decide), oneEdge_wf _ _ (by decide), by decide⟩

/-- Non-vacuity of `C46_builder_name` and `C46_stale_name`: the single node `0_1`, extended with an edge to `1_1`. -/
example (oN : Order (Node ℕ ℕ)) (oE oE' : Order (Edge ℕ ℕ ℕ)) :
    ∃ (s : Schema ℕ ℕ ℕ) (p q : NamedSample ℕ ℕ ℕ) (ops : List (Finset (ℕ × ℕ) × Rel ℕ ℕ)),
      WellFormed p.sample.graph ∧ WellFormed q.sample.graph ∧ q.sample.graph ≠ p.sample.graph ∧
      p.sample.graph.nameOf unaryTexts oN oE none = .ok p.name ∧
      (ops.foldl (fun b o => (b.addRelation s o.1 o.2).1) (p.builder oE')).build unaryTexts oN oE = .ok q := by
  let g : SampleGraph ℕ ℕ ℕ := ⟨{⟨0, 1⟩}, ∅⟩
  have hg : WellFormed g := ⟨by simp [g], by simp [g], by simp [g, OnePerPair], by
    intro a ha b hb
    simp [g] at ha hb
    rw [ha, hb]⟩
  have hn : g.nameOf unaryTexts oN oE none = .ok ('{' :: (⟨0, 1⟩ : Node ℕ ℕ).repr unaryTexts ++ ['}']) := by
    simp [g, SampleGraph.nameOf, sortStr, joinStr]
  refine ⟨⟨Dict.ofList [(0, {1}), (1, {1})], {0}⟩, ⟨⟨0, g⟩, '{' :: (⟨0, 1⟩ : Node ℕ ℕ).repr unaryTexts ++ ['}']⟩,
    ⟨⟨0, oneEdge ⟨0, 1⟩ ⟨1, 1⟩⟩, '{' :: (⟨0, 1⟩ : Node ℕ ℕ).repr unaryTexts ++ ['}']⟩, [({(0, 1), (1, 1)}, .plain 0)],
    hg, oneEdge_wf _ _ (by decide), ?_, hn, ?_⟩
  · intro h
    have := congrArg SampleGraph.edges h
    simp [g, oneEdge] at this
  · have h0 : Builder.ofSets oE' 0 g.nodes g.edges = (⟨0, {⟨0, 1⟩}, ∅, Dict.empty⟩ : Builder ℕ ℕ ℕ) := by
      simp [Builder.ofSets, g]; rfl
    have hb : (Builder.addRelation ⟨Dict.ofList [(0, {1}), (1, {1})], {0}⟩ (⟨0, {⟨0, 1⟩}, ∅, Dict.empty⟩ : Builder ℕ ℕ ℕ)
        {(0, 1), (1, 1)} (.plain 0)).1.build = .ok ⟨0, oneEdge ⟨0, 1⟩ ⟨1, 1⟩⟩ := by
      have h1 : (Builder.addRelation ⟨Dict.ofList [(0, {1}), (1, {1})], {0}⟩ (⟨0, {⟨0, 1⟩}, ∅, Dict.empty⟩ : Builder ℕ ℕ ℕ)
        {(0, 1), (1, 1)} (.plain 0)).1.nodes = {⟨0, 1⟩, ⟨1, 1⟩} := by decide +kernel
      have h2 : (Builder.addRelation ⟨Dict.ofList [(0, {1}), (1, {1})], {0}⟩ (⟨0, {⟨0, 1⟩}, ∅, Dict.empty⟩ : Builder ℕ ℕ ℕ)
        {(0, 1), (1, 1)} (.plain 0)).1.edges = {⟨{⟨0, 1⟩, ⟨1, 1⟩}, .plain 0⟩} := by decide +kernel
      have h3 : (Builder.addRelation ⟨Dict.ofList [(0, {1}), (1, {1})], {0}⟩ (⟨0, {⟨0, 1⟩}, ∅, Dict.empty⟩ : Builder ℕ ℕ ℕ)
        {(0, 1), (1, 1)} (.plain 0)).1.prov = 0 := by decide +kernel
      unfold Builder.build
      rw [h1, h2, h3]
      rfl
    simp only [List.foldl_cons, List.foldl_nil, NamedBuilder.addRelation, NamedSample.builder, NamedBuilder.build]
    rw [h0, hb]
    rfl

/-- Non-vacuity of `C46_print_determines` and `C46_repr_determines`: two sets with the same samples and different counts. -/
example : ∃ (nm : SampleGraph ℕ ℕ ℕ → Str) (a b : Samples ℕ ℕ ℕ), NamesClear nm '\n' a b ∧ a.samples.entries ≠ [] ∧ b.samples.entries ≠ [] ∧
    a.pyEq b = false ∧ ∀ oI oI', a.print ['\n'] nm oI ≠ b.print ['\n'] nm oI' := by
  let g : SampleGraph ℕ ℕ ℕ := ⟨{⟨0, 1⟩}, ∅⟩
  let k : SampleGraph ℕ ℕ ℕ := ⟨{⟨0, 2⟩}, ∅⟩
  let nm : SampleGraph ℕ ℕ ℕ → Str := fun x => if x = g then ['a'] else ['b']
  let a : Samples ℕ ℕ ℕ := ⟨0, Dict.ofList [(g, 1), (k, 2)]⟩
  let b : Samples ℕ ℕ ℕ := ⟨0, Dict.ofList [(g, 1), (k, 3)]⟩
  have hgk : g ≠ k := by decide
  have hoc : ∀ x, a.Occurs x ∨ b.Occurs x → x = g ∨ x = k := by
    have e1 : a.samples.keys = [g, k] := by decide +kernel
    have e2 : b.samples.keys = [g, k] := by decide +kernel
    rintro x (⟨c, h⟩ | ⟨c, h⟩)
    · have := (Dict.mem_keys _ _).2 ⟨c, h⟩
      rw [e1] at this; simpa using this
    · have := (Dict.mem_keys _ _).2 ⟨c, h⟩
      rw [e2] at this; simpa using this
  have hc : NamesClear nm '\n' a b := by
    constructor
    · intro x y hx hy e
      rcases hoc x hx with rfl | rfl <;> rcases hoc y hy with rfl | rfl
      · rfl
      · simp [nm, hgk.symm] at e
      · simp [nm, hgk.symm] at e
      · rfl
    · intro x _
      simp only [nm]
      split <;> decide
  have ha : a.samples.entries ≠ [] := by decide +kernel
  have hb : b.samples.entries ≠ [] := by decide +kernel
  have hne : a.pyEq b = false := by decide +kernel
  refine ⟨nm, a, b, hc, ha, hb, hne, fun oI oI' h => ?_⟩
  rw [(C46_print_determines nm '\n' [] (by decide) a b hc ha hb oI oI').1 h] at hne
  cases hne

end Verif
