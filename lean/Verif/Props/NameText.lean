import Verif.Props.Describe

/-! C68, continued: names in the texts of builders. -/

namespace Verif

/-- **C68.** In the text of a builder a missing name cannot be told from the name `None`; all other names can be told apart. -/
theorem C68_name_text (a b : Option Str) : optText a = optText b ↔
    a = b ∨ (a = none ∧ b = some ['N', 'o', 'n', 'e']) ∨ (a = some ['N', 'o', 'n', 'e'] ∧ b = none) := by
  have h : ("None".toList : Str) = ['N', 'o', 'n', 'e'] := by decide
  cases a with
  | none => cases b with
    | none => simp
    | some s => simp only [optText, h]; simp [eq_comm]
  | some r => cases b with
    | none => simp only [optText, h]; simp
    | some s => simp [optText]

/-- **C68.** The text of a new relation graph builder without a name, for any declarations. -/
theorem C68_new_builder_text {V X R : Type} [DecidableEq V] [DecidableEq X] [DecidableEq R] (b : NamedRG V X R) (hn : b.name = none)
    (hb : b.builder.outcomes.items = ∅) : b.repr = "RelationGraphBuilder(name = None, len(outcomes) = 0)".toList := by
  have hl : b.builder.outcomes.length = 0 := by rw [length_eq_sum, hb]; rfl
  unfold NamedRG.repr
  rw [hn, hl]
  decide

end Verif
