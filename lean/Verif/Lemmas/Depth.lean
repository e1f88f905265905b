import Verif.Model.Depth
import Verif.Lemmas.Belt
import Verif.Lemmas.Connected
import Verif.Lemmas.GroupExact
import Verif.Lemmas.Builder

/-! Helper lemmas on the number of nested calls. -/

set_option linter.unusedSectionVars false

namespace Verif

/-! ### `external_nodes` -/

section external
variable {V X R : Type} [DecidableEq V] [DecidableEq X] [DecidableEq R]
namespace SampleGraph

theorem belt_keys (oN : Order (Node V X)) (oE : Order (Edge V X R)) (g : SampleGraph V X R)
    (hg : ∀ e ∈ g.edges, GoodEdge e) (f : Option (Finset (Rel V R))) (C : Finset (Node V X)) (hC : C ≠ ∅) :
    ∃ acc, g.beltNodes oN oE C f = .ok acc ∧ ∀ n, n ∈ acc.keys ↔ DistIs g.edges f C n 1 := by
  obtain ⟨acc, ha, hacc⟩ := g.beltNodes_spec oN oE hg C hC f
  refine ⟨acc, ha, fun n => ?_⟩
  rw [Dict.mem_keys]
  constructor
  · rintro ⟨es, hes⟩; exact ((beltOf_iff _ _ _ _ _).1 ((hacc n es).1 hes)).1
  · intro h
    classical
    refine ⟨g.edges.filter fun e => Allowed f e.relation ∧ n ∈ e.endpoints ∧ ∃ m ∈ e.endpoints, DistIs g.edges f C m 0, ?_⟩
    rw [hacc, beltOf_iff]
    exact ⟨h, fun e => by rw [Finset.mem_filter]⟩

theorem DistIs.down {E : Finset (Edge V X R)} {f : Option (Finset (Rel V R))} {C : Finset (Node V X)} {n : Node V X} {k : ℕ}
    (h : DistIs E f C n (k + 1)) : ∃ m, DistIs E f C m 1 := by
  induction k generalizing n with
  | zero => exact ⟨n, h⟩
  | succ k ih => obtain ⟨m, hm, -⟩ := h.pred; exact ih hm

theorem externalNodesFuel_error (oN : Order (Node V X)) (oE : Order (Edge V X R)) (g : SampleGraph V X R)
    (hg : ∀ e ∈ g.edges, GoodEdge e) (f : Option (Finset (Rel V R))) :
    ∀ (d : ℕ) (C : Finset (Node V X)), C ≠ ∅ → (∃ n, DistIs g.edges f C n d) → g.externalNodesFuel oN oE f d C = .error .fuel := by
  intro d
  induction d with
  | zero => intro C _ _; rfl
  | succ d ih =>
    rintro C hC ⟨n, hn⟩
    obtain ⟨acc, ha, hkeys⟩ := g.belt_keys oN oE hg f C hC
    obtain ⟨m, hm⟩ := DistIs.down hn
    have hmk := (hkeys m).2 hm
    have he : acc.entries ≠ [] := by
      intro h
      simp [Dict.keys, h] at hmk
    unfold externalNodesFuel
    rw [ha]
    simp only
    rw [if_pos he]
    have hD : ∀ n, n ∈ C ∪ acc.keys.toFinset ↔ n ∈ C ∨ DistIs g.edges f C n 1 := by
      intro n; rw [Finset.mem_union, List.mem_toFinset, hkeys]
    rw [ih (C ∪ acc.keys.toFinset) (fun h => hC (Finset.union_eq_empty.1 h).1) ?_]
    cases d with
    | zero => exact ⟨m, (DistIs.zero_iff m).2 ((hD m).2 (Or.inr hm))⟩
    | succ d => exact ⟨n, (distIs_extend _ hD n d).2 hn⟩

theorem externalNodesFuel_ok (oN : Order (Node V X)) (oE : Order (Edge V X R)) (g : SampleGraph V X R)
    (hg : ∀ e ∈ g.edges, GoodEdge e) (f : Option (Finset (Rel V R))) :
    ∀ (d : ℕ) (C : Finset (Node V X)), C ≠ ∅ → (¬ ∃ n, DistIs g.edges f C n d) → ∀ r, (∃ k, g.externalNodesFuel oN oE f k C = .ok r) →
      g.externalNodesFuel oN oE f d C = .ok r := by
  intro d
  induction d with
  | zero =>
    intro C hC h
    obtain ⟨n, hn⟩ := Finset.nonempty_iff_ne_empty.2 hC
    exact absurd ⟨n, (DistIs.zero_iff n).2 hn⟩ h
  | succ d ih =>
    rintro C hC hno r ⟨k, hk⟩
    cases k with
    | zero => cases hk
    | succ k =>
      obtain ⟨acc, ha, hkeys⟩ := g.belt_keys oN oE hg f C hC
      unfold externalNodesFuel at hk ⊢
      rw [ha] at hk ⊢
      simp only at hk ⊢
      by_cases he : acc.entries = []
      · rw [if_neg (by simpa using he)] at hk ⊢
        exact hk
      · rw [if_pos he] at hk ⊢
        have hD : ∀ n, n ∈ C ∪ acc.keys.toFinset ↔ n ∈ C ∨ DistIs g.edges f C n 1 := by
          intro n; rw [Finset.mem_union, List.mem_toFinset, hkeys]
        cases hr : g.externalNodesFuel oN oE f k (C ∪ acc.keys.toFinset) with
        | error e => rw [hr] at hk; cases hk
        | ok rest =>
          rw [hr] at hk
          rw [ih (C ∪ acc.keys.toFinset) (fun h => hC (Finset.union_eq_empty.1 h).1) ?_ rest ⟨k, hr⟩]
          · exact hk
          · rintro ⟨n, hn⟩
            cases d with
            | zero =>
              obtain ⟨p, hp⟩ := List.exists_mem_of_ne_nil _ he
              exact hno ⟨p.1, (hkeys p.1).1 (List.mem_map_of_mem hp)⟩
            | succ d => exact hno ⟨n, (distIs_extend _ hD n d).1 hn⟩

end SampleGraph
end external

/-! ### `trace` -/

section trace
variable {N : Type} [DecidableEq N]

/-- A walk of `k` steps. -/
def StepsTo (r : N → N → Prop) : ℕ → N → N → Prop
  | 0, a, b => a = b
  | k + 1, a, b => ∃ c, r a c ∧ StepsTo r k c b

theorem traceD_fold_eq (adj : N → List N) (d : ℕ) (U : Finset N)
    (hU : ∀ n ∈ U, ∀ k ∈ adj n, k ∈ U)
    (ih : ∀ n t, n ∈ U → t ⊆ U → (U \ t).card < d → traceD adj d n t = some (trace adj d n t))
    (l : List N) (t : Finset N) (hl : ∀ k ∈ l, k ∈ U) (htU : t ⊆ U) (ht : (U \ t).card < d) :
    l.foldlM (fun t m => traceD adj d m t) t = some (l.foldl (fun t m => trace adj d m t) t) := by
  induction l generalizing t with
  | nil => rfl
  | cons x l ihl =>
    rw [List.foldlM_cons, ih x t (hl x (by simp)) htU ht, List.foldl_cons]
    obtain ⟨h1, h2⟩ := trace_spec adj U hU d x t (hl x (by simp)) htU ht
    exact ihl _ (fun k hk => hl k (by simp [hk])) h1
      (lt_of_le_of_lt (Finset.card_le_card (Finset.sdiff_subset_sdiff (fun _ h => h) h2.sub)) ht)

theorem card_sdiff_insert {U t : Finset N} {n : N} (hn : n ∈ U) (h : n ∉ t) : (U \ insert n t).card + 1 = (U \ t).card := by
  have : U \ insert n t = (U \ t).erase n := by
    ext x; simp only [Finset.mem_sdiff, Finset.mem_insert, Finset.mem_erase]; tauto
  rw [this]
  exact Finset.card_erase_add_one (Finset.mem_sdiff.2 ⟨hn, h⟩)

theorem traceD_eq (adj : N → List N) (U : Finset N) (hU : ∀ n ∈ U, ∀ k ∈ adj n, k ∈ U) (d : ℕ) :
    ∀ n t, n ∈ U → t ⊆ U → (U \ t).card < d → traceD adj d n t = some (trace adj d n t) := by
  induction d with
  | zero => intro n t _ _ h; omega
  | succ d ih =>
    intro n t hn htU hc
    unfold traceD trace
    split
    · rfl
    · rename_i h
      have := card_sdiff_insert hn h
      exact traceD_fold_eq adj d U hU ih (adj n) _ (hU n hn) (Finset.insert_subset hn htU) (by omega)

/-- When the limit is not reached, a larger limit gives the same. -/
theorem traceD_mono (adj : N → List N) (d : ℕ) : ∀ n t r, traceD adj d n t = some r → traceD adj (d + 1) n t = some r := by
  induction d with
  | zero => intro n t r h; cases h
  | succ d ih =>
    intro n t r h
    unfold traceD at h ⊢
    split at h
    · rename_i hn; rw [if_pos hn]; exact h
    · rename_i hn
      rw [if_neg hn]
      have : ∀ (l : List N) t, l.foldlM (fun t m => traceD adj d m t) t = some r → l.foldlM (fun t m => traceD adj (d + 1) m t) t = some r := by
        intro l
        induction l with
        | nil => intro t h; exact h
        | cons x l ihl =>
          intro t h
          rw [List.foldlM_cons] at h ⊢
          cases hx : traceD adj d x t with
          | none => rw [hx] at h; cases h
          | some t' =>
            rw [hx] at h
            rw [ih x t t' hx]
            exact ihl t' h
      exact this _ _ h

/-- What was visited within the limit is at most `d - 2` steps away. -/
theorem traceD_near (adj : N → List N) (U : Finset N) (hU : ∀ n ∈ U, ∀ k ∈ adj n, k ∈ U) (hne : ∀ n ∈ U, adj n ≠ []) (d : ℕ) :
    ∀ n t r, n ∈ U → traceD adj d n t = some r → ∀ m ∈ r, m ∈ t ∨ ∃ k, k + 2 ≤ d ∧ StepsTo (fun a b => b ∈ adj a) k n m := by
  induction d with
  | zero => intro n t r _ h; cases h
  | succ d ih =>
    intro n t r hn h m hm
    unfold traceD at h
    split at h
    · cases h; exact Or.inl hm
    · rename_i hnt
      have key : ∀ (l : List N) t, (∀ k ∈ l, k ∈ adj n) → l.foldlM (fun t m => traceD adj d m t) t = some r →
          (l ≠ [] → 1 ≤ d) ∧ ∀ m ∈ r, m ∈ t ∨ ∃ k, k + 2 ≤ d + 1 ∧ StepsTo (fun a b => b ∈ adj a) k n m := by
        intro l
        induction l with
        | nil => intro t _ h; cases h; exact ⟨by simp, fun m hm => Or.inl hm⟩
        | cons x l ihl =>
          intro t hl h
          rw [List.foldlM_cons] at h
          cases hx : traceD adj d x t with
          | none => rw [hx] at h; cases h
          | some t' =>
            rw [hx] at h
            have hxn := hl x (by simp)
            refine ⟨fun _ => ?_, fun m hm => ?_⟩
            · cases d with
              | zero => cases hx
              | succ d => omega
            · rcases (ihl t' (fun k hk => hl k (by simp [hk])) h).2 m hm with h1 | h1
              · rcases ih x t t' (hU n hn x hxn) hx m h1 with h2 | ⟨k, hk, hs⟩
                · exact Or.inl h2
                · exact Or.inr ⟨k + 1, by omega, x, hxn, hs⟩
              · exact Or.inr h1
      obtain ⟨k1, k2⟩ := key (adj n) _ (fun _ h => h) h
      have := k1 (hne n hn)
      rcases k2 m hm with h1 | h1
      · rcases Finset.mem_insert.1 h1 with rfl | h1
        · exact Or.inr ⟨0, by omega, rfl⟩
        · exact Or.inl h1
      · exact Or.inr h1

/-- When any two nodes are linked the calls nest as deep as there are nodes left. -/
theorem traceD_complete (adj : N → List N) (U : Finset N) (hadj : ∀ n ∈ U, ∀ m, m ∈ adj n ↔ m ∈ U ∧ m ≠ n) (h2 : 2 ≤ U.card) (d : ℕ) :
    ∀ n t, n ∈ U → n ∉ t → d ≤ (U \ t).card → traceD adj d n t = none := by
  induction d with
  | zero => intro n t _ _ _; rfl
  | succ d ih =>
    intro n t hn hnt hc
    unfold traceD
    rw [if_neg hnt]
    have hcard := card_sdiff_insert hn hnt
    have key : ∀ l : List N, (∀ k ∈ l, k ∈ adj n) → (∃ k ∈ l, d = 0 ∨ k ∉ insert n t) →
        l.foldlM (fun t m => traceD adj d m t) (insert n t) = none := by
      intro l
      induction l with
      | nil => rintro _ ⟨k, hk, -⟩; cases hk
      | cons x l ihl =>
        rintro hl ⟨k, hk, hkk⟩
        rw [List.foldlM_cons]
        cases d with
        | zero => rfl
        | succ d =>
          by_cases hx : x ∈ insert n t
          · have : traceD adj (d + 1) x (insert n t) = some (insert n t) := by unfold traceD; rw [if_pos hx]
            rw [this]
            refine ihl (fun k hk => hl k (by simp [hk])) ?_
            rcases hkk with h | h
            · omega
            · rcases List.mem_cons.1 hk with rfl | hk
              · exact absurd hx h
              · exact ⟨k, hk, Or.inr h⟩
          · rw [ih x _ (((hadj n hn x).1 (hl x (by simp))).1) hx (by omega)]; rfl
    refine key _ (fun _ h => h) ?_
    cases d with
    | zero =>
      obtain ⟨m, hm, hmn⟩ := Finset.exists_mem_ne (by omega : 1 < U.card) n
      exact ⟨m, (hadj n hn m).2 ⟨hm, hmn⟩, Or.inl rfl⟩
    | succ d =>
      have : (U \ insert n t).Nonempty := by rw [← Finset.card_pos]; omega
      obtain ⟨m, hm⟩ := this
      rw [Finset.mem_sdiff] at hm
      exact ⟨m, (hadj n hn m).2 ⟨hm.1, fun h => hm.2 (by simp [h])⟩, Or.inr hm.2⟩

end trace

/-- The table made by `is_edges_connected`. -/
theorem tracing_facts {V X R : Type} [DecidableEq V] [DecidableEq X] (oE : Order (RawEdge V X R)) (oN : Order (V × X)) (edges : Finset (RawEdge V X R))
    (hne : edges.Nonempty) (h2 : ∀ e ∈ edges, e.1.card = 2) :
    ∃ m start rest, tracingMap ((oE.run edges).map fun e => oN.run e.1) Dict.empty = .ok m ∧ m.keys = start :: rest ∧
      (∀ x, x ∈ m.keys ↔ ∃ e ∈ edges, x ∈ e.1) ∧
      ∀ x y, y ∈ oN.run ((m.get? x).getD ∅) ↔ x ≠ y ∧ Linked Prod.fst edges x y := by
  obtain ⟨m, hm, hk, hg⟩ := tracingMap_ok ((oE.run edges).map fun e => oN.run e.1) Dict.empty (by
    intro l hl
    obtain ⟨e, he, rfl⟩ := List.mem_map.1 hl
    rw [oN.length_run]
    exact h2 e ((oE.mem _ _).1 he))
  have hk' : ∀ x, x ∈ m.keys ↔ ∃ e ∈ edges, x ∈ e.1 := by
    intro x; rw [hk]
    constructor
    · rintro (h | ⟨l, hl, hx⟩)
      · simp at h
      · obtain ⟨e, he, rfl⟩ := List.mem_map.1 hl
        exact ⟨e, (oE.mem _ _).1 he, (oN.mem _ _).1 hx⟩
    · rintro ⟨e, he, hx⟩
      exact Or.inr ⟨_, List.mem_map_of_mem ((oE.mem _ _).2 he), (oN.mem _ _).2 hx⟩
  have hg' : ∀ x y, y ∈ oN.run ((m.get? x).getD ∅) ↔ x ≠ y ∧ Linked Prod.fst edges x y := by
    intro x y
    rw [oN.mem, hg]
    constructor
    · rintro (h | ⟨l, hl, hxy⟩)
      · simp at h
      · obtain ⟨e, he, rfl⟩ := List.mem_map.1 hl
        have hnd := oN.nodup e.1
        refine ⟨?_, e, (oE.mem _ _).1 he, (oN.mem _ _).1 ?_, (oN.mem _ _).1 ?_⟩
        · rcases hxy with h | h <;> rw [h] at hnd <;> simp at hnd <;> tauto
        · rcases hxy with h | h <;> simp [h]
        · rcases hxy with h | h <;> simp [h]
    · rintro ⟨hne, e, he, hx, hy⟩
      refine Or.inr ⟨_, List.mem_map_of_mem ((oE.mem _ _).2 he), ?_⟩
      obtain ⟨a, b, hab⟩ := List.length_eq_two.1 ((oN.length_run e.1).trans (h2 e he))
      have hx' := (oN.mem _ _).2 hx
      have hy' := (oN.mem _ _).2 hy
      rw [hab] at hx' hy' ⊢
      simp only [List.mem_cons, List.not_mem_nil, or_false] at hx' hy'
      rcases hx' with rfl | rfl <;> rcases hy' with rfl | rfl <;> simp_all
  cases hks : m.keys with
  | nil =>
    exfalso
    obtain ⟨e, he⟩ := hne
    have : e.1.Nonempty := by rw [← Finset.card_pos, h2 e he]; omega
    obtain ⟨x, hx⟩ := this
    have := (hk' x).2 ⟨e, he, hx⟩
    rw [hks] at this; simp at this
  | cons start rest => exact ⟨m, start, rest, hm, hks, hks ▸ hk', hg'⟩

/-! ### `group` -/

section group
variable {V X R : Type} [DecidableEq V] [DecidableEq X] [DecidableEq R]
namespace Samples

theorem groupMerge_keys_card {acc : Dict (GKey V) (Dict (SampleGraph V X R) ℤ)} {ka kb : GKey V} (ha : ka ∈ acc.keys)
    (hb : kb ∈ acc.keys) (hne : ka ≠ kb) : acc.keys.length ≤ (groupMerge acc ka kb).keys.length + 2 ∧
      ((ka ∪ kb ∉ acc.keys ∨ ka ∪ kb = ka ∨ ka ∪ kb = kb) → acc.keys.length = (groupMerge acc ka kb).keys.length + 1) := by
  rw [← List.toFinset_card_of_nodup (groupMerge acc ka kb).nodup_keys, ← List.toFinset_card_of_nodup acc.nodup_keys]
  have h1 : (groupMerge acc ka kb).keys.toFinset = insert (ka ∪ kb) ((acc.keys.toFinset.erase ka).erase kb) := by
    ext k
    rw [List.mem_toFinset, Finset.mem_insert, Finset.mem_erase, Finset.mem_erase, List.mem_toFinset]
    constructor
    · intro hk
      rcases mem_keys_groupMerge hk with h | ⟨h1, h2, h3⟩
      · exact Or.inl h
      · exact Or.inr ⟨h3, h2, h1⟩
    · rintro (rfl | ⟨h1, h2, h3⟩)
      · exact (Dict.mem_keys _ _).2 ⟨_, by rw [groupMerge_get, if_pos rfl]⟩
      · rw [Dict.mem_keys] at h3 ⊢
        obtain ⟨m, hm⟩ := h3
        rw [groupMerge_get, if_neg (Ne.symm h1), if_neg (Ne.symm h2)]
        split
        · exact ⟨_, rfl⟩
        · exact ⟨m, hm⟩
  have h3 : kb ∈ acc.keys.toFinset.erase ka := by simp [Ne.symm hne, hb]
  have h4 : ka ∈ acc.keys.toFinset := by simp [ha]
  have h5 := Finset.card_erase_add_one h3
  have h6 := Finset.card_erase_add_one h4
  rw [h1]
  constructor
  · have := Finset.card_le_card (Finset.subset_insert (ka ∪ kb) ((acc.keys.toFinset.erase ka).erase kb))
    omega
  · intro h
    rw [Finset.card_insert_of_notMem]
    · omega
    · rw [Finset.mem_erase, Finset.mem_erase, List.mem_toFinset]
      rintro ⟨c1, c2, c3⟩
      rcases h with h | h | h
      · exact h c3
      · exact c2 h
      · exact c1 h

/-- The loop merges a number `m` of pairs that does not depend on the limit. -/
theorem groupLoop_depth : ∀ (n : ℕ) (acc : Dict (GKey V) (Dict (SampleGraph V X R) ℤ)), acc.keys.length ≤ n → ∃ m acc',
    (∀ d ≤ m, groupLoop d acc = .error .fuel) ∧ (∀ d, m < d → groupLoop d acc = .ok acc') ∧ m + acc'.keys.length ≤ acc.keys.length ∧
    acc.keys.length ≤ 2 * m + acc'.keys.length ∧ ∀ K, SepKeys K → Blocks K acc.keys → m + acc'.keys.length = acc.keys.length := by
  intro n
  induction n with
  | zero =>
    intro acc hn
    have hk : acc.keys = [] := List.length_eq_zero_iff.1 (by omega)
    have hf : groupFind acc.keys = none := by rw [hk]; rfl
    refine ⟨0, acc, fun d hd => ?_, fun d hd => ?_, by omega, by omega, fun _ _ _ => by omega⟩
    · have : d = 0 := by omega
      subst this; rfl
    · obtain ⟨d, rfl⟩ : ∃ e, d = e + 1 := ⟨d - 1, by omega⟩
      unfold groupLoop; rw [hf]
  | succ n ih =>
    intro acc hn
    cases hf : groupFind acc.keys with
    | none =>
      refine ⟨0, acc, fun d hd => ?_, fun d hd => ?_, by omega, by omega, fun _ _ _ => by omega⟩
      · have : d = 0 := by omega
        subst this; rfl
      · obtain ⟨d, rfl⟩ : ∃ e, d = e + 1 := ⟨d - 1, by omega⟩
        unfold groupLoop; rw [hf]
    | some p =>
      obtain ⟨ka, kb⟩ := p
      obtain ⟨ha, hb, hne, hd⟩ := groupFind_some hf
      have hlt := groupMerge_length ha hb hne
      obtain ⟨c1, c2⟩ := groupMerge_keys_card ha hb hne
      obtain ⟨m, acc', h1, h2, h3, h4, h5⟩ := ih (groupMerge acc ka kb) (by omega)
      refine ⟨m + 1, acc', fun d hd => ?_, fun d hd => ?_, by omega, by omega, fun K hK hB => ?_⟩
      · cases d with
        | zero => rfl
        | succ d => unfold groupLoop; rw [hf]; exact h1 d (by omega)
      · obtain ⟨d, rfl⟩ : ∃ e, d = e + 1 := ⟨d - 1, by omega⟩
        unfold groupLoop; rw [hf]; exact h2 d (by omega)
      · obtain ⟨b1, b2⟩ := blocks_step hK acc ka kb hB ha hb hne hd
        have := h5 K hK b1
        have := c2 b2
        omega

end Samples
end group

end Verif
