"""Turn the tables of formula tests in /repo (parse_formula.py, desc.py) into Lean examples.

Only the tables are read; patsy is not imported.  Python's own tokenizer stands for the parameter `raw` of the model.
"""

from lean import q, raw, table

def formula(code):
    return raw("~ 1" if not code.strip() else code)      # parse_formula.py:141-142

def tree(e):
    if isinstance(e, str):
        return ".leaf %s" % q(e)
    return ".node %s [%s]" % (q(e[0]), ", ".join(tree(x) for x in e[1:]))

def terms(intercept, l):
    l = ([()] if intercept else []) + l
    return "[" + ", ".join("[" + ", ".join(q(f) for f in ([t] if isinstance(t, str) else t)) + "]" for t in l) + "]"

def marked(desc):
    start = desc.index("<")
    end = desc.index(">") - 1
    return desc.replace("<", "").replace(">", ""), start, end

out = ['''import Verif.Model.EvalPosition

/-!
# The formulas of patsy's own tests

Generated by `/verif/conformance/formula.py` from the tables of tests in `/repo/patsy/parse_formula.py` and `/repo/patsy/desc.py`,
with the tokens that Python's tokenizer gives.  These are tests of the model, not proofs of properties.
-/

namespace Patsy.Conformance

open Patsy.Tokens Patsy.Infix Patsy.Desc Patsy.Located

/-- The trees of the tables. -/
inductive Expected where
  | leaf (s : String)
  | node (op : String) (args : List Expected)

mutual
/-- `_compare_trees` (parse_formula.py:189-197). -/
def sameTree : Node String (Option String) → Expected → Bool
  | .atom t _, .leaf s => t.extra == some s
  | .unary t a _, .node op [x] => t.kind == .sym op && sameTree a x
  | .binary t a b _, .node op [x, y] => t.kind == .sym op && sameTree a x && sameTree b y
  | _, _ => false
end

/-- `float(text)` succeeds. -/
def isNumber (s : String) : Bool := s ∈ ["0", "1", "2", "3", "10", "1.0", "1.5"]

def toInt (s : String) : Option Int :=
  if s = "0" then some 0 else if s = "1" then some 1 else if s = "2" then some 2 else if s = "3" then some 3 else none

def parsesTo (fin : RawEnd) (raw : List PyTok) (e : Expected) : Bool :=
  match parseFormula isNumber fin raw with
  | .ok t => sameTree t e
  | .error _ => false

def meansTo (fin : RawEnd) (raw : List PyTok) (lhs rhs : List (List String)) : Bool :=
  match parseFormula isNumber fin raw with
  | .ok t =>
    match fromTree (F := String) .ok toInt t with
    | .ok m => m.lhs.map (·.factors) == lhs && m.rhs.map (·.factors) == rhs
    | .error _ => false
  | .error _ => false

/-- `_parsing_error_test` (parse_formula.py:251-275). -/
def wrongAt {α : Type} (n start stop : Nat) : Except LErr α → Bool
  | .error (.patsyError, some o) => (o.start == 0 || o.start == start) && (o.stop == stop || o.stop == n)
  | _ => false

def parseWrongAt (fin : RawEnd) (raw : List PyTok) (n start stop : Nat) : Bool :=
  wrongAt n start stop (parseFormulaAt isNumber fin ⟨0, n⟩ raw)

def meaningWrongAt (fin : RawEnd) (raw : List PyTok) (n start stop : Nat) : Bool :=
  wrongAt n start stop (fromFormulaAt (F := String) isNumber .ok toInt fin ⟨0, n⟩ raw)
''']

P, D = "/repo/patsy/parse_formula.py", "/repo/patsy/desc.py"
t, a, b = table(P, "_parser_tests")
out.append("\n/-! ### `_parser_tests` (parse_formula.py:%d-%d) -/\n" % (a, b))
for code, e in t.items():
    c, r, fin = formula(code)
    out.append("/-- %s -/\nexample : parsesTo %s\n    %s\n    (%s) = true := by decide +kernel\n" % (q(code), fin, r, tree(e)))
t, a, b = table(P, "_parser_error_tests")
out.append("\n/-! ### `_parser_error_tests` (parse_formula.py:%d-%d) -/\n" % (a, b))
for d in t:
    code, s, e = marked(d)
    c, r, fin = formula(code)
    assert c == code
    out.append("/-- %s -/\nexample : parseWrongAt %s\n    %s %d %d %d = true := by decide +kernel\n" % (q(d), fin, r, len(code), s, e))
t, a, b = table(D, "_eval_tests")
out.append("\n/-! ### `_eval_tests` (desc.py:%d-%d) -/\n" % (a, b))
for code, e in t.items():
    if len(e) == 2:
        e = (False, []) + e
    c, r, fin = formula(code)
    out.append("/-- %s -/\nexample : meansTo %s\n    %s\n    %s %s = true := by decide +kernel\n" % (q(code), fin, r, terms(e[0], e[1]), terms(e[2], e[3])))
t, a, b = table(D, "_eval_error_tests")
out.append("\n/-! ### `_eval_error_tests` (desc.py:%d-%d) -/\n" % (a, b))
for d in t:
    code, s, e = marked(d)
    c, r, fin = formula(code)
    assert c == code
    out.append("/-- %s -/\nexample : meaningWrongAt %s\n    %s %d %d %d = true := by decide +kernel\n" % (q(d), fin, r, len(code), s, e))
out.append("end Patsy.Conformance\n")
open("/verif/lean/Verif/Conformance/Formula.lean", "w").write("\n".join(out))
