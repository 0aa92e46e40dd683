import Verif.Model.Infix

/-! # The operator table of the formula language (`patsy/parse_formula.py`) -/

namespace Patsy.Formula

open Patsy.Infix

/-- `_default_ops` (parse_formula.py:125-137). -/
def defaultOps : List (Operator String) :=
  [⟨"~", 1, -100⟩, ⟨"~", 2, -100⟩, ⟨"+", 2, 100⟩, ⟨"-", 2, 100⟩, ⟨"*", 2, 200⟩, ⟨"/", 2, 200⟩,
   ⟨":", 2, 300⟩, ⟨"**", 2, 500⟩, ⟨"+", 1, 100⟩, ⟨"-", 1, 100⟩]

/-- `_atomic_token_types` (parse_formula.py:24). -/
def atomicTokenTypes : List String := ["PYTHON_EXPR", "ZERO", "ONE", "NUMBER"]

end Patsy.Formula
