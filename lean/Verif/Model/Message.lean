import Verif.Model.ErrorPosition

/-!
# Model of the text of an error (`patsy/origin.py`, `patsy/__init__.py`)

Texts are lists of characters.
-/

namespace Patsy.Located

open Patsy.Infix

/-- `Origin.relevant_code` (origin.py:74-77). -/
def relevantCode (code : List Char) (o : Origin) : List Char := (code.take o.stop).drop o.start

/-- `Origin.caretize` (origin.py:93-110). -/
def caretize (code : List Char) (o : Origin) (indent : Nat) : List Char :=
  List.replicate indent ' ' ++ code ++ ['\n'] ++ List.replicate indent ' ' ++ List.replicate o.start ' ' ++
    List.replicate (o.stop - o.start) '^'

/-- `PatsyError.__str__` (__init__.py:53-57). -/
def errorText (message : List Char) (code : List Char) : Option Origin → List Char
  | none => message
  | some o => message ++ ['\n'] ++ caretize code o 4

end Patsy.Located
