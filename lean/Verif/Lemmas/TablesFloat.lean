import Verif.Lemmas.Tables
import Verif.Props.FloatProb

/-!
# Marginals of a table, with rounding
-/

set_option linter.unusedSectionVars false

namespace Verif.Tables

variable {V X R : Type} [DecidableEq V] [DecidableEq X] [DecidableEq R] {dom : V → Finset ℕ} {val : V → ℕ → X} {S : Finset V}
  {pairs : Unit → Finset (Finset V)} {G : Unit → (V → ℕ) → SampleGraph V X R} {φ : Unit → (V → ℕ) → ℤ}

/-- The marginals are the exact ones, rounded. -/
theorem marginalsFl {sp : Space V X R} (h : Tables sp.outcomes dom val ({()} : Finset Unit) (fun _ => S) pairs G φ)
    (hpos : ∀ a, InDom dom S a → 0 < φ () a) (ver : PyVer) (u : X) (oI : Order (SampleGraph V X R × ℤ)) (oV : Order V) (oN : Order (Node V X))
    (hlen : ∑ a ∈ assigns dom S, φ () a ≤ 2 ^ 1022) (hcard : ∀ v ∈ S, (dom v).card ≤ maxItems ver) {e : Dict V (Dict X ℚ)}
    (he : sp.marginals u oI oV oN none false = .ok e) :
    sp.marginalsFl ver u oI oV oN none false = .ok (e.mapVals fun m => m.mapVals fl) := by
  have hP : Positive sp.outcomes := by
    intro g c hc
    obtain ⟨⟨⟩, -, a, ha, -, rfl⟩ := (h.get g c).1 hc
    exact hpos a ha
  have hsv : ∀ g, sp.outcomes.Occurs g → SingleValued g.nodes := fun g hg => (h.good g hg).2.2
  have hl : sp.outcomes.length ≤ 2 ^ 1022 := by rw [length_eq_sum, h.sum_items]; exact hlen
  have hn : ∀ v, ValuesOf sp v (maxItems ver) := by
    intro v s hs
    by_cases hv : v ∈ S
    · refine (Finset.card_le_card (t := (dom v).image (val v)) fun x hx => ?_).trans (Finset.card_image_le.trans (hcard v hv))
      obtain ⟨-, j, hj, rfl⟩ := h.occursValue.1 (hs x hx)
      exact Finset.mem_image_of_mem _ hj
    · rw [Finset.card_eq_zero.2 (Finset.eq_empty_of_forall_notMem fun x hx => ?_)]
      · exact Nat.zero_le _
      obtain ⟨⟨-, -, hv'⟩, -⟩ := h.occursValue.1 (hs x hx)
      exact hv hv'
  obtain ⟨d, e', d1, d2, d3, -⟩ := C64_marginals ver sp u oI oV oN none hP hsv hl hn
  rw [he] at d2
  cases d2
  rw [d1, d3]

end Verif.Tables
