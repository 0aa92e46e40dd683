/-! # Model of `uniqueify_list` (`patsy/util.py`) -/

namespace Patsy.Util

variable {α : Type}

/-- The loop of `uniqueify_list` (util.py:343-350) with the current set `seen`.
`eqv` is Python's `==` of the elements (a hash set of Python objects decides
membership by equality). -/
def uniqueifyGo (eqv : α → α → Bool) : List α → List α → List α
  | _, [] => []
  | seen, x :: xs =>
    if seen.any (fun y => eqv y x) then uniqueifyGo eqv seen xs
    else x :: uniqueifyGo eqv (x :: seen) xs

/-- `uniqueify_list` (util.py:343-350). -/
def uniqueify (eqv : α → α → Bool) (l : List α) : List α := uniqueifyGo eqv [] l

end Patsy.Util
