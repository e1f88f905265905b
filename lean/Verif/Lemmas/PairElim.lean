import Verif.Lemmas.TwoFactors
import Mathlib.Combinatorics.SimpleGraph.Acyclic

/-!
# Elimination on pairs of variables: an order that fails, and trees
-/

namespace Verif

variable {V : Type} [DecidableEq V]

theorem elimOk_branch {T Q : Finset V} {v b : V} (hb : b ∈ T) (hvQ : v ∈ Q) (hbQ : b ∉ Q) {L : List (Finset V)} {U : Finset V} (hU : U ∈ L) (hvU : v ∈ U)
    (hbU : b ∈ U) {c : V} (hcU : c ∈ U) (hcv : c ≠ v) (hcb : c ≠ b) (h1 : ({v, b} : Finset V) ∈ L) (h2 : Q ∈ L) (rest : List V) :
    elimOk T (v :: rest) L = false := by
  have hne : U ≠ {v, b} := by
    rintro rfl
    simp only [Finset.mem_insert, Finset.mem_singleton] at hcU
    rcases hcU with h | h
    · exact hcv h
    · exact hcb h
  unfold elimOk
  dsimp only
  rw [Bool.and_eq_false_iff]
  left
  rw [decide_eq_false_iff_not]
  intro h
  refine h b hb ⟨?_, ?_⟩
  · rw [List.countP_eq_length_filter]
    have : [U, {v, b}].Subperm ((L.filter (v ∈ ·)).filter (b ∈ ·)) := by
      refine List.subperm_of_subset (by simp [hne]) ?_
      intro s hs
      simp only [List.mem_cons, List.not_mem_nil, or_false] at hs
      rcases hs with rfl | rfl
      · simp [hU, hvU, hbU]
      · simp [h1]
    simpa using this.length_le
  · refine lt_of_le_of_ne List.countP_le_length fun he => ?_
    rw [List.countP_eq_length] at he
    have := he Q (by simp [h2, hvQ])
    simp only [decide_eq_true_eq] at this
    exact hbQ this

/-- Eliminating the inner variables of a cycle first and then a variable of it that has a further pair fails. -/
theorem elimOk_cycle {T Q : Finset V} {v b : V} (hb : b ∈ T) (hvQ : v ∈ Q) (hbQ : b ∉ Q) (rest : List V) (cs : List V) : ∀ (c : V) (L : List (Finset V))
    (S : Finset V), S ∈ L → v ∈ S → c ∈ S → List.IsChain (fun p q => ({p, q} : Finset V) ∈ L) (c :: cs ++ [b]) → ({v, b} : Finset V) ∈ L →
    Q ∈ L → (c :: cs).Nodup → v ∉ c :: cs → b ∉ c :: cs → (∀ z ∈ c :: cs, z ∉ Q) → elimOk T (c :: cs ++ v :: rest) L = false := by
  induction cs with
  | nil =>
    intro c L S hS hvS hcS hch h1 h2 hn hv hbn hx
    simp only [List.mem_singleton, forall_eq] at hv hbn hx
    simp only [List.cons_append, List.nil_append, List.isChain_cons_cons, List.isChain_singleton, and_true] at hch
    have hstep : elimOk T (v :: rest) ((L.filter (c ∈ ·)).foldr (· ∪ ·) ∅ :: L.filter (c ∉ ·)) = false := by
      refine elimOk_branch hb hvQ hbQ (U := (L.filter (c ∈ ·)).foldr (· ∪ ·) ∅) List.mem_cons_self ?_ ?_ (c := c) ?_ (Ne.symm hv) (Ne.symm hbn) ?_ ?_ rest
      · rw [mem_unionL]; exact ⟨S, by simp [hS, hcS], hvS⟩
      · rw [mem_unionL]; exact ⟨{c, b}, by simp [hch], by simp⟩
      · rw [mem_unionL]; exact ⟨S, by simp [hS, hcS], hcS⟩
      · refine List.mem_cons_of_mem _ ?_
        simp [h1, Ne.symm hv, Ne.symm hbn]
      · refine List.mem_cons_of_mem _ ?_
        simp [h2, hx]
    show elimOk T (c :: v :: rest) L = false
    rw [elimOk]
    rw [hstep, Bool.and_false]
  | cons d cs ih =>
    intro c L S hS hvS hcS hch h1 h2 hn hv hbn hx
    simp only [List.mem_cons, not_or, forall_eq_or_imp] at hv hbn hx
    simp only [List.cons_append, List.isChain_cons_cons] at hch
    have hstep : elimOk T (d :: cs ++ v :: rest) ((L.filter (c ∈ ·)).foldr (· ∪ ·) ∅ :: L.filter (c ∉ ·)) = false := by
      refine ih d _ ((L.filter (c ∈ ·)).foldr (· ∪ ·) ∅) List.mem_cons_self ?_ ?_ ?_ ?_ ?_ (List.nodup_cons.1 hn).2 (by simp [hv]) (by simp [hbn]) (by simpa using hx.2)
      · rw [mem_unionL]; exact ⟨S, by simp [hS, hcS], hvS⟩
      · rw [mem_unionL]; exact ⟨{c, d}, by simp [hch.1], by simp⟩
      · have hc' : c ∉ d :: cs ++ [b] := by
          have := (List.nodup_cons.1 hn).1
          simp only [List.mem_cons, not_or] at this
          simp [this, Ne.symm hbn.1]
        have hch2 := hch.2
        refine (List.isChain_iff_getElem.2 ?_)
        intro i hi
        have := List.isChain_iff_getElem.1 hch2 i hi
        refine List.mem_cons_of_mem _ ?_
        rw [List.mem_filter]
        refine ⟨this, ?_⟩
        simp only [Finset.mem_insert, Finset.mem_singleton, not_or, decide_eq_true_eq]
        refine ⟨?_, ?_⟩
        · intro he; exact hc' (he ▸ List.getElem_mem _)
        · intro he; exact hc' (he ▸ List.getElem_mem _)
      · refine List.mem_cons_of_mem _ ?_
        simp [h1, Ne.symm hv.1, Ne.symm hbn.1]
      · refine List.mem_cons_of_mem _ ?_
        simp [h2, hx.1]
    show elimOk T (c :: (d :: cs ++ v :: rest)) L = false
    rw [elimOk]
    rw [hstep, Bool.and_false]

/-- The graph of the pairs of a list. -/
def pairGraph (L : List (Finset V)) : SimpleGraph V where
  Adj a b := a ≠ b ∧ ({a, b} : Finset V) ∈ L
  symm := ⟨fun a b h => ⟨h.1.symm, by rw [Finset.pair_comm]; exact h.2⟩⟩
  loopless := ⟨fun a h => h.1 rfl⟩

/-- A cycle at a vertex as a list: it leads from one neighbour to another, without the vertex. -/
theorem cycle_list {G : SimpleGraph V} {v : V} (c : G.Walk v v) (hc : c.IsCycle) :
    ∃ l : List V, 2 ≤ l.length ∧ l.Nodup ∧ v ∉ l ∧ List.IsChain G.Adj l ∧ (∀ a ∈ l.head?, G.Adj v a) ∧ (∀ b ∈ l.getLast?, G.Adj v b) ∧
      ∀ u, u ∈ c.support ↔ u = v ∨ u ∈ l := by
  cases c with
  | nil => exact absurd rfl hc.ne_nil
  | cons h q =>
    rename_i a
    obtain ⟨hp, he⟩ := (SimpleGraph.Walk.cons_isCycle_iff q h).1 hc
    have hsup : q.support = q.support.dropLast ++ [v] := by
      conv_lhs => rw [← List.dropLast_append_getLast (SimpleGraph.Walk.support_ne_nil q)]
      rw [SimpleGraph.Walk.getLast_support]
    have hnd := hp.support_nodup
    have hch := q.isChain_adj_support
    rw [hsup] at hnd hch
    have hnd' := List.nodup_append.1 hnd
    refine ⟨q.support.dropLast, ?_, hnd'.1, ?_, (List.isChain_append.1 hch).1, ?_, ?_, ?_⟩
    · cases q with
      | nil => exact absurd rfl h.ne
      | cons h' r =>
        cases r with
        | nil => exact absurd (by simp [SimpleGraph.Walk.edges_cons, Sym2.eq_swap]) he
        | cons h'' r => simp [SimpleGraph.Walk.support_cons]
    · intro hv
      exact hnd'.2.2 v hv v (by simp) rfl
    · intro x hx
      cases q with
      | nil => exact absurd rfl h.ne
      | cons h' r =>
        cases r with
        | nil =>
          simp only [SimpleGraph.Walk.support_cons, SimpleGraph.Walk.support_nil] at hx
          cases hx
          exact h
        | cons h'' r =>
          simp only [SimpleGraph.Walk.support_cons] at hx
          cases hx
          exact h
    · intro b hb
      have := (List.isChain_append.1 hch).2.2 b hb v (by simp)
      exact this.symm
    · intro u
      have hm : u ∈ q.support ↔ u ∈ q.support.dropLast ∨ u = v := by
        refine ⟨fun hu => ?_, fun hu => ?_⟩
        · rw [hsup, List.mem_append, List.mem_singleton] at hu
          exact hu
        · rw [hsup, List.mem_append, List.mem_singleton]
          exact hu
      rw [SimpleGraph.Walk.support_cons, List.mem_cons, hm]
      tauto

/-- In a connected graph that has a cycle and a vertex with three neighbours there is a cycle through a vertex that has a neighbour besides, which is not on the cycle
when it is suitably shortened. -/
theorem exists_branched_cycle {L : List (Finset V)} (hpair : ∀ s ∈ L, ∃ a b, s = {a, b}) (hconn : ConnectedL L) (hcyc : ¬ (pairGraph L).IsAcyclic)
    (h3 : ∃ v a b c, ({v, a} : Finset V) ∈ L ∧ ({v, b} : Finset V) ∈ L ∧ ({v, c} : Finset V) ∈ L ∧ a ≠ b ∧ a ≠ c ∧ b ≠ c) :
    ∃ v b x c cs, ({v, c} : Finset V) ∈ L ∧ List.IsChain (fun p q => ({p, q} : Finset V) ∈ L) (c :: cs ++ [b]) ∧ ({v, b} : Finset V) ∈ L ∧
      ({v, x} : Finset V) ∈ L ∧ (c :: cs ++ [b]).Nodup ∧ v ∉ c :: cs ++ [b] ∧ x ∉ c :: cs ++ [b] := by
  set G := pairGraph L with hG
  -- a cycle through a vertex with three neighbours
  have key : ∃ v, ∃ l : List V, 2 ≤ l.length ∧ l.Nodup ∧ v ∉ l ∧ List.IsChain G.Adj l ∧ (∀ a ∈ l.head?, G.Adj v a) ∧ (∀ b ∈ l.getLast?, G.Adj v b) ∧
      ∃ a b c, ({v, a} : Finset V) ∈ L ∧ ({v, b} : Finset V) ∈ L ∧ ({v, c} : Finset V) ∈ L ∧ a ≠ b ∧ a ≠ c ∧ b ≠ c := by
    unfold SimpleGraph.IsAcyclic at hcyc
    push Not at hcyc
    obtain ⟨v₀, w, hw⟩ := hcyc
    have hrot : ∀ u ∈ w.support, ∃ l : List V, 2 ≤ l.length ∧ l.Nodup ∧ u ∉ l ∧ List.IsChain G.Adj l ∧ (∀ a ∈ l.head?, G.Adj u a) ∧
        (∀ b ∈ l.getLast?, G.Adj u b) ∧ ∀ z, z ∈ w.support ↔ z = u ∨ z ∈ l := by
      intro u hu
      obtain ⟨l, h1, h2, h4, h5, h6, h7, h8⟩ := cycle_list (w.rotate u hu) ((SimpleGraph.Walk.isCycle_rotate hu).2 hw)
      exact ⟨l, h1, h2, h4, h5, h6, h7, fun z => by rw [← h8, SimpleGraph.Walk.mem_support_rotate_iff]⟩
    by_contra hno
    push Not at hno
    -- all neighbours of vertices of the cycle are on the cycle
    have hclosed : ∀ u ∈ w.support, ∀ z, G.Adj u z → z ∈ w.support := by
      intro u hu z hz
      obtain ⟨l, h1, h2, h4, h5, h6, h7, h8⟩ := hrot u hu
      by_contra hzn
      rw [h8] at hzn
      push Not at hzn
      match l, h1 with
      | a :: b :: t, _ =>
        have ha : G.Adj u a := h6 a rfl
        have hlast : (a :: b :: t).getLast (by simp) ∈ b :: t := by
          rw [List.getLast_cons (by simp)]; exact List.getLast_mem _
        have hb := h7 ((a :: b :: t).getLast (by simp)) (by rw [List.getLast?_eq_getLast_of_ne_nil (by simp)]; rfl)
        generalize (a :: b :: t).getLast (by simp) = e at hlast hb
        have hae : a ≠ e := by rintro rfl; exact (List.nodup_cons.1 h2).1 hlast
        have haz : a ≠ z := by rintro rfl; exact hzn.2 List.mem_cons_self
        have hez : e ≠ z := by rintro rfl; exact hzn.2 (List.mem_cons_of_mem _ hlast)
        exact hez (hno u (a :: b :: t) (by simp) h2 h4 h5 h6 h7 a e z ha.2 hb.2 hz.2 hae haz)
    have hall := hconn w.support.toFinset ?_ ?_
    · obtain ⟨v, a, b, c, ha, hb, hc, hab, hac, hbc⟩ := h3
      have hv : v ∈ w.support := by
        have := hall _ ha
        have := this (Finset.mem_insert_self v {a})
        simpa using this
      obtain ⟨l, h1, h2, h4, h5, h6, h7, _⟩ := hrot v hv
      exact hbc (hno v l h1 h2 h4 h5 h6 h7 a b c ha hb hc hab hac)
    · intro s hs
      obtain ⟨a, b, rfl⟩ := hpair s hs
      have hadj : ∀ {z}, a = b → z ∈ ({a, b} : Finset V) → z = a := by
        rintro z rfl hz
        simpa using hz
      by_cases ha : a ∈ w.support
      · left
        intro z hz
        rw [List.mem_toFinset]
        by_cases hab : a = b
        · rw [hadj hab hz]; exact ha
        simp only [Finset.mem_insert, Finset.mem_singleton] at hz
        rcases hz with rfl | rfl
        · exact ha
        · exact hclosed a ha _ ⟨hab, hs⟩
      · right
        rw [Finset.disjoint_left]
        intro z hz hzs
        rw [List.mem_toFinset] at hzs
        by_cases hab : a = b
        · rw [hadj hab hz] at hzs; exact ha hzs
        simp only [Finset.mem_insert, Finset.mem_singleton] at hz
        rcases hz with rfl | rfl
        · exact ha hzs
        · exact ha (hclosed _ hzs _ (SimpleGraph.Adj.symm ⟨hab, hs⟩))
    · obtain ⟨l, h1, h2, h4, h5, h6, h7, h8⟩ := hrot v₀ w.start_mem_support
      match l, h1 with
      | a :: t, _ =>
        have ha : G.Adj v₀ a := h6 a rfl
        refine ⟨{v₀, a}, ha.2, ?_⟩
        intro z hz
        simp only [Finset.mem_insert, Finset.mem_singleton] at hz
        rw [List.mem_toFinset, h8]
        rcases hz with rfl | rfl
        · left; rfl
        · right; exact List.mem_cons_self
  obtain ⟨v, l, h1, h2, h4, h5, h6, h7, y₁, y₂, y₃, a1, a2, a3, n12, n13, n23⟩ := key
  -- a prefix of the list that ends at a neighbour and leaves out another one
  have hpre : ∃ m x, m <+: l ∧ 2 ≤ m.length ∧ (∀ b ∈ m.getLast?, G.Adj v b) ∧ ({v, x} : Finset V) ∈ L ∧ x ∉ m := by
    by_cases hx : ∃ x, ({v, x} : Finset V) ∈ L ∧ x ∉ l
    · obtain ⟨x, hx1, hx2⟩ := hx
      exact ⟨l, x, List.prefix_rfl, h1, h7, hx1, hx2⟩
    · push Not at hx
      -- the third neighbour is inside
      match l, h1 with
      | a :: b :: t, _ =>
        have hlast : ∃ e, (a :: b :: t).getLast? = some e := ⟨_, List.getLast?_eq_getLast_of_ne_nil (by simp)⟩
        obtain ⟨e, he⟩ := hlast
        have hnb : ∃ y, ({v, y} : Finset V) ∈ L ∧ y ≠ a ∧ y ≠ e := by
          by_cases c1 : y₁ = a ∨ y₁ = e
          · by_cases c2 : y₂ = a ∨ y₂ = e
            · refine ⟨y₃, a3, ?_, ?_⟩
              · rintro rfl; rcases c1 with c1 | c1 <;> rcases c2 with c2 | c2 <;> simp_all
              · rintro rfl; rcases c1 with c1 | c1 <;> rcases c2 with c2 | c2 <;> simp_all
            · push Not at c2; exact ⟨y₂, a2, c2⟩
          · push Not at c1; exact ⟨y₁, a1, c1⟩
        obtain ⟨y, hy, hya, hye⟩ := hnb
        have hyv : v ≠ y := by rintro rfl; exact h4 (hx v hy)
        obtain ⟨l₁, l₂, hl⟩ := List.append_of_mem (hx y hy)
        have hl2 : l₂ ≠ [] := by
          rintro rfl
          rw [hl] at he
          simp at he
          exact hye he
        have hl1 : l₁ ≠ [] := by
          rintro rfl
          simp at hl
          exact hya hl.1.symm
        have heq : a :: b :: t = (l₁ ++ [y]) ++ l₂ := by rw [hl]; simp
        refine ⟨l₁ ++ [y], e, ⟨l₂, heq.symm⟩, ?_, ?_, (h7 e he).2, ?_⟩
        · have := List.length_pos_of_ne_nil hl1
          simp; omega
        · intro z hz; simp at hz; rw [← hz]; exact ⟨hyv, hy⟩
        · intro hem
          rw [heq] at h2 he
          have hd := (List.nodup_append.1 h2).2.2
          rw [List.getLast?_append_of_ne_nil _ hl2] at he
          exact hd e hem e (List.mem_of_getLast? he) rfl
  obtain ⟨m, x, ⟨m', hm⟩, hm2, hmlast, hvx, hxm⟩ := hpre
  subst hm
  match m, hm2 with
  | c :: d :: t, _ =>
    have hne : d :: t ≠ [] := by simp
    have hsplit : c :: d :: t = c :: (d :: t).dropLast ++ [(d :: t).getLast hne] := by
      rw [List.cons_append, List.dropLast_append_getLast]
    have hch := (List.isChain_append.1 h5).1
    have hnd := (List.nodup_append.1 h2).1
    have hvn : v ∉ c :: d :: t := fun h => h4 (List.mem_append_left _ h)
    have hlast := hmlast ((d :: t).getLast hne) (by rw [List.getLast?_eq_getLast_of_ne_nil (by simp)]; simp)
    have hc : G.Adj v c := h6 c rfl
    rw [hsplit] at hch hnd hvn hxm
    exact ⟨v, _, x, c, _, hc.2, hch.imp fun _ _ h => h.2, hlast.2, hvx, hnd, hvn, hxm⟩

/-- The pair of an edge. -/
def edgePair (W : Finset V) (e : Sym2 W) : Finset V := (e.map Subtype.val).toFinset

theorem edgePair_mk {W : Finset V} (a b : W) : edgePair W s(a, b) = {a.1, b.1} := by
  unfold edgePair
  rw [Sym2.map_mk]
  ext z
  simp [Sym2.mem_toFinset]

/-- The graph of the pairs on the variables. -/
def pairGraphOn (L : List (Finset V)) : SimpleGraph (unionL L) := (pairGraph L).comap Subtype.val

theorem sizeL_pairs {L : List (Finset V)} (hpair : ∀ s ∈ L, ∃ a b, s = {a, b}) : sizeL L = L.length + (L.filter (·.card = 2)).length := by
  induction L with
  | nil => rfl
  | cons s t ih =>
    obtain ⟨a, b, rfl⟩ := hpair s List.mem_cons_self
    have := ih fun s hs => hpair s (List.mem_cons_of_mem _ hs)
    simp only [sizeL, List.map_cons, List.sum_cons, List.length_cons] at this ⊢
    rw [this]
    by_cases hab : a = b
    · subst hab
      rw [List.filter_cons_of_neg (by simp)]
      simp only [Finset.mem_singleton, Finset.insert_eq_of_mem, Finset.card_singleton]
      omega
    · rw [List.filter_cons_of_pos (by simpa using Finset.card_pair hab), Finset.card_pair hab, List.length_cons]
      omega

theorem pair_of_card {s : Finset V} {a b : V} (h : s = {a, b}) (hs : s.card = 2) : a ≠ b := by
  rintro rfl
  simp [h] at hs

/-- An acyclic graph has fewer edges than vertices, in all parts. -/
theorem forest_of_acyclic {L : List (Finset V)} (hpair : ∀ s ∈ L, ∃ a b, s = {a, b}) (hnd : L.Nodup) (hac : (pairGraph L).IsAcyclic) : ForestL L := by
  classical
  intro A hA hne
  have hsub : ∀ s ∈ A, s ∈ L := fun s hs => Multiset.mem_of_le hA hs
  have hAnd : A.Nodup := Multiset.coe_nodup.1 (Multiset.nodup_of_le hA (Multiset.coe_nodup.2 hnd))
  have hApair : ∀ s ∈ A, ∃ a b, s = {a, b} := fun s hs => hpair s (hsub s hs)
  have hH : (pairGraphOn A).IsAcyclic := by
    have hle : pairGraph A ≤ pairGraph L := fun a b h => ⟨h.1, hsub _ h.2⟩
    have h1 : (pairGraph A).IsAcyclic := hac.anti hle
    exact h1.of_comap ⟨Subtype.val, Subtype.val_injective⟩
  have hnonempty : Nonempty (unionL A) := by
    obtain ⟨s, hs⟩ := List.exists_mem_of_ne_nil _ hne
    obtain ⟨a, b, rfl⟩ := hApair s hs
    exact ⟨⟨a, (mem_unionL _ _).2 ⟨_, hs, by simp⟩⟩⟩
  obtain ⟨F, hF1, _, hF2⟩ := SimpleGraph.connected_top.exists_isTree_le_of_le_of_isAcyclic (H := pairGraphOn A) le_top hH
  have hcard := hF2.card_edgeFinset
  have hle : (A.filter (·.card = 2)).toFinset.card ≤ F.edgeFinset.card := by
    refine (Finset.card_le_card (t := F.edgeFinset.image (edgePair (unionL A))) ?_).trans Finset.card_image_le
    intro s hs
    rw [List.mem_toFinset, List.mem_filter, decide_eq_true_eq] at hs
    obtain ⟨hs, hs2⟩ := hs
    obtain ⟨a, b, rfl⟩ := hApair s hs
    have hab := pair_of_card rfl hs2
    rw [Finset.mem_image]
    refine ⟨s(⟨a, (mem_unionL _ _).2 ⟨_, hs, by simp⟩⟩, ⟨b, (mem_unionL _ _).2 ⟨_, hs, by simp⟩⟩), ?_, edgePair_mk _ _⟩
    rw [SimpleGraph.mem_edgeFinset, SimpleGraph.mem_edgeSet]
    exact hF1 ⟨hab, hs⟩
  rw [List.toFinset_card_of_nodup (hAnd.filter _)] at hle
  rw [Fintype.card_coe] at hcard
  rw [sizeL_pairs hApair]
  omega

/-- A connected graph has at most one vertex more than edges. -/
theorem card_of_connected {L : List (Finset V)} (hpair : ∀ s ∈ L, ∃ a b, s = {a, b}) (hconn : ConnectedL L) (hne : L ≠ []) :
    (unionL L).card ≤ (L.filter (·.card = 2)).length + 1 := by
  classical
  obtain ⟨s₀, hs₀⟩ := List.exists_mem_of_ne_nil _ hne
  obtain ⟨a₀, b₀, rfl⟩ := hpair s₀ hs₀
  have hc : (pairGraphOn L).Connected := by
    let v₀ : unionL L := ⟨a₀, (mem_unionL _ _).2 ⟨_, hs₀, by simp⟩⟩
    let P : Finset V := (Finset.univ.filter fun z : unionL L => (pairGraphOn L).Reachable v₀ z).image Subtype.val
    have hP : ∀ z (hz : z ∈ unionL L), z ∈ P ↔ (pairGraphOn L).Reachable v₀ ⟨z, hz⟩ := by
      intro z hz
      simp only [P, Finset.mem_image, Finset.mem_filter, Finset.mem_univ, true_and, Subtype.exists, exists_and_right, exists_eq_right]
      exact ⟨fun ⟨_, h⟩ => h, fun h => ⟨hz, h⟩⟩
    have hall := hconn P ?_ ?_
    · have hr : ∀ z : unionL L, (pairGraphOn L).Reachable v₀ z := by
        intro z
        obtain ⟨s, hs, hz⟩ := (mem_unionL _ _).1 z.2
        exact (hP z.1 z.2).1 (hall s hs hz)
      exact { preconnected := fun x y => (hr x).symm.trans (hr y), nonempty := ⟨v₀⟩ }
    · intro s hs
      obtain ⟨a, b, rfl⟩ := hpair s hs
      have ha : a ∈ unionL L := (mem_unionL _ _).2 ⟨_, hs, by simp⟩
      have hb : b ∈ unionL L := (mem_unionL _ _).2 ⟨_, hs, by simp⟩
      have hadj : (pairGraphOn L).Reachable ⟨a, ha⟩ ⟨b, hb⟩ := by
        by_cases hab : a = b
        · subst hab; exact SimpleGraph.Reachable.refl _
        · exact SimpleGraph.Adj.reachable (G := pairGraphOn L) ⟨hab, hs⟩
      by_cases hr : (pairGraphOn L).Reachable v₀ ⟨a, ha⟩
      · left
        intro z hz
        simp only [Finset.mem_insert, Finset.mem_singleton] at hz
        rcases hz with rfl | rfl
        · exact (hP _ ha).2 hr
        · exact (hP _ hb).2 (hr.trans hadj)
      · right
        rw [Finset.disjoint_left]
        intro z hz hzP
        simp only [Finset.mem_insert, Finset.mem_singleton] at hz
        rcases hz with rfl | rfl
        · exact hr ((hP _ ha).1 hzP)
        · exact hr (((hP _ hb).1 hzP).trans hadj.symm)
    · refine ⟨_, hs₀, ?_⟩
      have ha : a₀ ∈ unionL L := (mem_unionL _ _).2 ⟨_, hs₀, by simp⟩
      have hb : b₀ ∈ unionL L := (mem_unionL _ _).2 ⟨_, hs₀, by simp⟩
      have hadj : (pairGraphOn L).Reachable v₀ ⟨b₀, hb⟩ := by
        by_cases hab : a₀ = b₀
        · subst hab; exact SimpleGraph.Reachable.refl _
        · exact SimpleGraph.Adj.reachable (G := pairGraphOn L) ⟨hab, hs₀⟩
      intro z hz
      simp only [Finset.mem_insert, Finset.mem_singleton] at hz
      rcases hz with rfl | rfl
      · exact (hP _ ha).2 (SimpleGraph.Reachable.refl _)
      · exact (hP _ hb).2 hadj
  have hcard := hc.card_vert_le_card_edgeSet_add_one
  have hle : Nat.card (pairGraphOn L).edgeSet ≤ (L.filter (·.card = 2)).length := by
    rw [Nat.card_eq_fintype_card, ← SimpleGraph.edgeFinset_card]
    refine (Finset.card_le_card_of_injOn (edgePair (unionL L)) (t := (L.filter (·.card = 2)).toFinset) ?_ ?_).trans (List.toFinset_card_le _)
    · intro e he
      rw [Finset.mem_coe, SimpleGraph.mem_edgeFinset] at he
      induction e with
      | h a b =>
        rw [SimpleGraph.mem_edgeSet] at he
        rw [edgePair_mk, Finset.mem_coe, List.mem_toFinset, List.mem_filter, decide_eq_true_eq]
        exact ⟨he.2, Finset.card_pair he.1⟩
    · intro e _ e' _ h
      induction e with
      | h a b =>
        induction e' with
        | h a' b' =>
          rw [edgePair_mk, edgePair_mk] at h
          have h1 : a.1 ∈ ({a'.1, b'.1} : Finset V) := h ▸ Finset.mem_insert_self _ _
          have h2 : b.1 ∈ ({a'.1, b'.1} : Finset V) := h ▸ (by simp)
          have h3 : a'.1 ∈ ({a.1, b.1} : Finset V) := h.symm ▸ Finset.mem_insert_self _ _
          have h4 : b'.1 ∈ ({a.1, b.1} : Finset V) := h.symm ▸ (by simp)
          simp only [Finset.mem_insert, Finset.mem_singleton, ← Subtype.ext_iff] at h1 h2 h3 h4
          rw [Sym2.eq_iff]
          rcases h1 with h1 | h1 <;> rcases h2 with h2 | h2 <;> rcases h3 with h3 | h3 <;> rcases h4 with h4 | h4 <;>
            subst_vars <;> first | exact Or.inl ⟨rfl, rfl⟩ | exact Or.inr ⟨rfl, rfl⟩
  rw [Nat.card_eq_fintype_card, Fintype.card_coe] at hcard
  omega

end Verif
