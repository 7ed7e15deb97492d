import Verif.Model.AList

/-!
# The third AList format

The numbers of columns and rows, the degrees of the columns, then the list of the rows of each column, counted from 0.
-/

namespace Verif.AList

/-- A file of the third format, for a matrix given by its number of rows and the lists of its columns. -/
def thirdFile (R : Nat) (cols : List (List Nat)) : File :=
  [.words [.num cols.length, .num R], .words (cols.map fun c => Word.num c.length)] ++
    cols.map fun c => Line.words (c.map fun (r : Nat) => Word.num r)

end Verif.AList
