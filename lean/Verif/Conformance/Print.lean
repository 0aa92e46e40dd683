import Verif.Model.Print

/-!
# patsy's own tests of the printing of columns

`test__format_float_column` (design_info.py:1088-1101).  These are tests of the model, not proofs of properties.
-/

namespace Patsy.Conformance

open Patsy.Print

example : formatColumn 3 [.fin 1, .fin (21234 / 10000), .fin (21239 / 10000), .nan] =
    ["1.000".toList, "2.123".toList, "2.124".toList, "nan".toList] := by decide +kernel

example : formatColumn 3 [.fin 1, .fin 2, .fin 3, .nan] = ["1".toList, "2".toList, "3".toList, "nan".toList] := by
  decide +kernel

example : formatColumn 3 [.fin (10001 / 10000), .fin 2, .fin 3, .nan] = ["1".toList, "2".toList, "3".toList, "nan".toList] := by
  decide +kernel

example : formatColumn 4 [.fin (10001 / 10000), .fin 2, .fin 3, .nan] =
    ["1.0001".toList, "2.0000".toList, "3.0000".toList, "nan".toList] := by decide +kernel

end Patsy.Conformance
