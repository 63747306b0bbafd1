/-!
Where a path leads. A place in the file system is the list of the names from the root; symbolic links are left out.
-/
namespace Verif.Spec

/-- One step: an empty name and "." stay, ".." goes to the folder above (the root is above itself). -/
def pathStep (place : List (List Char)) (name : List Char) : List (List Char) :=
  if name = [] ∨ name = ['.'] then place else if name = ['.', '.'] then place.dropLast else place ++ [name]

/-- The place a path names for a process working in `cwd`. -/
def locate (cwd : List (List Char)) (p : List Char) : List (List Char) :=
  (p.splitOn '/').foldl pathStep (if p.head? = some '/' then [] else cwd)

/-- A proper file name. -/
def FileName (n : List Char) : Prop := n ≠ [] ∧ '/' ∉ n ∧ n ≠ ['.'] ∧ n ≠ ['.', '.']

/-- A path to a file: its last component is a proper name. -/
def FilePath (p : List Char) : Prop := ∃ dir file, FileName file ∧ (p = file ∨ p = dir ++ '/' :: file)

end Verif.Spec
