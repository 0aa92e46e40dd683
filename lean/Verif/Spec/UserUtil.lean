/-!
# What a balanced design is

Independent of `Verif/Model/UserUtil.lean`.
-/

namespace Patsy.Spec

/-- The entry of a table in column `n`, row `r`. -/
def cell (data : List (String × List String)) (n : String) (r : Nat) : Option String :=
  (data.lookup n).bind fun column => column[r]?

/-- Row `r` shows, for each factor of the list, the level numbered by `g`: the name followed by the number. -/
def rowShows (data : List (String × List String)) (factors : List String) (g : String → Nat) (r : Nat) : Bool :=
  factors.all fun n => cell data n r == some (n ++ toString (g n))

/-- In how many of the first `N` rows the combination of levels `g` occurs. -/
def occurrences (data : List (String × List String)) (factors : List String) (N : Nat) (g : String → Nat) : Nat :=
  (List.range N).countP (rowShows data factors g)

end Patsy.Spec
