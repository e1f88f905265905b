import Verif.Model.PacLoad
import Verif.Spec.PacText

/-!
# Specification of the search for layouts
-/

namespace Verif.Pac

/-- The name of the file of a layout. -/
def fileName (name : Str) : Str := if ".lay".toList <:+ name then name else name ++ ".lay".toList

/-- The places where a layout is looked for, in order: in each of the first directories on the way to the root, first in the folder `layouts`. -/
def places (name : Str) (levels : ℕ) (cwd : Folder) : List (Folder × Str) :=
  (List.range levels).flatMap fun j => [(cwd.drop j, "layouts/".toList ++ fileName name), (cwd.drop j, fileName name)]

/-- The code points of the characters that Python counts as white space: tab, line feed, line tab, form feed, carriage return, the four separators of ASCII, space, next line, no-break space,
and those of Unicode. -/
def blanks : List ℕ :=
  [9, 10, 11, 12, 13, 28, 29, 30, 31, 32, 133, 160, 5760, 8192, 8193, 8194, 8195, 8196, 8197, 8198, 8199, 8200, 8201, 8202, 8232, 8233, 8239, 8287, 12288]

/-- A white space character. -/
def Blank (c : Char) : Prop := c.toNat ∈ blanks

/-- Text without line ends inside and without white space at its ends. -/
def Tidy (row : Str) : Prop := '\n' ∉ row ∧ (∀ c, row.head? = some c → ¬ Blank c) ∧ ∀ c, row.getLast? = some c → ¬ Blank c

/-- The text of a file with the given lines, with or without a line end after the last one. -/
def IsText (rows : List Str) (content : Str) : Prop :=
  content = (rows.map fun r => r ++ ['\n']).flatten ∨ content ++ ['\n'] = (rows.map fun r => r ++ ['\n']).flatten

end Verif.Pac
