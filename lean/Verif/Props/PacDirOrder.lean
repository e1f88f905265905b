import Verif.Model.PacUtil
import Mathlib.Data.List.Lex
import Mathlib.Data.Char

/-!
# C57: the order of directions (`demo/game.py` 49-54)
-/

namespace Verif.Pac

/-- The constants of the class `Directions`. -/
def Dir.text : Dir → List Char
  | .north => ['N', 'o', 'r', 't', 'h']
  | .south => ['S', 'o', 'u', 't', 'h']
  | .east => ['E', 'a', 's', 't']
  | .west => ['W', 'e', 's', 't']
  | .stop => ['S', 't', 'o', 'p']

/-- **C57** The order in which `sample` sorts directions is the alphabetical order of their names. -/
theorem C57_direction_order (a b : Dir) : Dir.le a b = true ↔ a.text ≤ b.text := by
  cases a <;> cases b <;> decide

end Verif.Pac
