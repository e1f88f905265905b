import Verif.Model.PacGame
import Verif.Model.Text

/-!
# Model of the search for layouts (`demo/layout.py` 132-150)

Directories are absolute and given by their names from the innermost outwards. What a relative name means in a directory is given by a function: nothing,
a directory, or a file with its text. The text is that of Python's text mode: decoded, and with line ends translated to `'\n'`. Changing to the parent directory
and back always succeeds.
-/

namespace Verif.Pac

/-- What is found under a name (layout.py 147). -/
inductive DirEntry where
  | missing
  | folder
  | file (content : Str)

/-- The directories, innermost name first (layout.py 140-143). -/
abbrev Folder := List Str

/-- The files: what a relative name means in a directory (layout.py 147-149). -/
abbrev Files := Folder → Str → DirEntry

/-- Exceptions when loading: those of the parser, or `IsADirectoryError` of `open` (layout.py 148-149). -/
inductive LoadErr where
  | parse (e : PErr)
  | isFolder
  deriving DecidableEq

/-- Lines of a text file without their line ends, as the loop `for line in f` gives them (layout.py 149): the text after the last line end is a line only if it
is not empty. -/
def fileLines : Str → List Str
  | [] => []
  | c :: t =>
    if c = '\n' then [] :: fileLines t
    else match fileLines t with
      | [] => [[c]]
      | l :: ls => (c :: l) :: ls

/-- White space in the sense of `str.strip` (layout.py 149). -/
def pySpace (c : Char) : Bool :=
  let n := c.toNat
  decide ((9 ≤ n ∧ n ≤ 13) ∨ (28 ≤ n ∧ n ≤ 32) ∨ n = 133 ∨ n = 160 ∨ n = 5760 ∨ (8192 ≤ n ∧ n ≤ 8202) ∨ n = 8232 ∨ n = 8233 ∨ n = 8239 ∨ n = 8287 ∨ n = 12288)

/-- `line.strip()` (layout.py 149). -/
def pyStrip (l : Str) : Str := ((l.dropWhile pySpace).reverse.dropWhile pySpace).reverse

/-- `tryToLoad` (layout.py 146-150). The line end at the end of each line is white space, so that it does not matter that `fileLines` leaves it out. -/
def tryToLoad (fs : Files) (cwd : Folder) (name : Str) : Except LoadErr (Option Layout) :=
  match fs cwd name with
  | .missing => .ok none
  | .folder => .error .isFolder
  | .file content => match Layout.ofText ((fileLines content).map pyStrip) with
    | .error e => .error (.parse e)
    | .ok l => .ok (some l)

/-- The two names that are tried (layout.py 133-138). -/
def layoutNames (name : Str) : Str × Str :=
  if ".lay".toList.isSuffixOf name then ("layouts/".toList ++ name, name) else ("layouts/".toList ++ name ++ ".lay".toList, name ++ ".lay".toList)

/-- The first part of `getLayout` (layout.py 133-138). -/
def loadHere (fs : Files) (cwd : Folder) (name : Str) : Except LoadErr (Option Layout) :=
  match tryToLoad fs cwd (layoutNames name).1 with
  | .ok none => tryToLoad fs cwd (layoutNames name).2
  | r => r

/-- `getLayout` (layout.py 132-144) when the test `back >= 0` succeeds `k` more times; with the current directory afterwards. `os.chdir('..')` in the root stays there. -/
def getLayoutFrom (fs : Files) (name : Str) : ℕ → Folder → Folder × Except LoadErr (Option Layout)
  | k, cwd => match loadHere fs cwd name with
    | .ok none => match k with
      | 0 => (cwd, .ok none)
      | k + 1 => match getLayoutFrom fs name k cwd.tail with
        | (cwd', .error e) => (cwd', .error e)
        | (_, .ok r) => (cwd, .ok r)
    | r => (cwd, r)

/-- `getLayout(name, back)` (layout.py 132-144). -/
def getLayout (fs : Files) (cwd : Folder) (name : Str) (back : ℤ := 2) : Folder × Except LoadErr (Option Layout) :=
  getLayoutFrom fs name (back + 1).toNat cwd

end Verif.Pac
