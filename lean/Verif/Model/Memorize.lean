import Mathlib.Data.List.Perm.Basic
import Verif.Model.Err

/-!
# Model of `_factors_memorize` (`patsy/build.py`)

The calls that the function makes are recorded in a trace.  Exceptions raised by the called
methods are not modelled.
-/

namespace Patsy.Memorize

variable {F D : Type}

/-- A call made by `_factors_memorize`: `factor.memorize_passes_needed(state, eval_env)`,
`data_iter_maker()`, `factor.memorize_chunk(state, which_pass, data)` or
`factor.memorize_finish(state, which_pass)`. -/
inductive Event (F D : Type) where
  | needed (f : F)
  | iterate
  | chunk (f : F) (pass : Nat) (data : D)
  | finish (f : F) (pass : Nat)
  deriving DecidableEq, Repr

/-- The inner loops over the data (build.py:404-407) in pass `pass`.  `visit pass i s` is the order
in which the set `s` is traversed for chunk number `i` of the pass (the order of a Python
`set` is not specified). -/
def chunkEvents (visit : Nat → Nat → List F → List F) (pass : Nat) (needed : List F) :
    Nat → List D → List (Event F D)
  | _, [] => []
  | i, d :: ds =>
    (visit pass i needed).map (fun f => Event.chunk f pass d) ++
      chunkEvents visit pass needed (i + 1) ds

/-- The `while` loop (build.py:403-412).  `chunks p` are the data objects that the call of
`data_iter_maker` in pass `p` yields; `passes` is the dictionary `passes_needed`.  The loop
need not terminate for arbitrary start values, hence the `fuel`; the result is `none` if it
does not suffice. -/
def memorizeLoop (visit : Nat → Nat → List F → List F) (passes : F → Int) (chunks : Nat → List D) :
    Nat → Nat → List F → Option (List (Event F D))
  | _, _, [] => some []
  | 0, _, _ :: _ => none
  | fuel + 1, pass, f :: fs =>
    let needed := f :: fs
    let here := Event.iterate :: chunkEvents visit pass needed 0 (chunks pass) ++
      (visit pass (chunks pass).length needed).map fun g => Event.finish g pass
    (memorizeLoop visit passes chunks fuel (pass + 1)
      (needed.filter fun g => decide ((pass : Int) ≠ passes g - 1))).map (here ++ ·)

/-- `_factors_memorize` (build.py:386-413).  `factors` lists the set of factors in the order
of its traversal (389-395). -/
def factorsMemorize (visit : Nat → Nat → List F → List F) (passes : F → Int) (chunks : Nat → List D)
    (fuel : Nat) (factors : List F) : Option (List (Event F D)) :=
  (memorizeLoop visit passes chunks fuel 0 (factors.filter fun f => decide (0 < passes f))).map
    (factors.map Event.needed ++ ·)

end Patsy.Memorize
