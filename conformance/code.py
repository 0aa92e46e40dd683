"""Turn patsy's tests about Python code (tokens.py, eval.py, redundancy.py) into Lean examples.  patsy is not imported."""
import ast
import io, tokenize
from lean import q, KIND

def toks(code):
    return "[" + ", ".join("(.%s, %s)" % (KIND[t.type], q(t.string)) for t in tokenize.generate_tokens(io.StringIO(code).readline)) + "]"

def words(code):
    return "[" + ", ".join("(.%s, %s)" % (KIND[t.type], q(t.string)) for t in tokenize.generate_tokens(io.StringIO(code).readline)
                          if t.type not in (tokenize.NEWLINE, tokenize.ENDMARKER)) + "]"

def function(path, name):
    for node in ast.parse(open(path).read()).body:
        if isinstance(node, ast.FunctionDef) and node.name == name:
            return node

out = ['''import Verif.Model.EvalFactor
import Verif.Model.Redundancy

/-!
# Patsy's own tests about code and redundancy

Generated by `/verif/conformance/code.py` from `/repo/patsy/tokens.py`, `eval.py` and `redundancy.py`, with the tokens that Python's
tokenizer gives.  These are tests of the model, not proofs of properties.
-/

namespace Patsy.Conformance

open Patsy.Tokens Patsy.EvalFactor Patsy.Redundancy
''']
f = function("/repo/patsy/tokens.py", "test_pretty_untokenize_and_normalize_token_spacing")
out.append("/-! ### `%s` (tokens.py:%d-%d) -/\n" % (f.name, f.lineno, f.end_lineno))
for a in f.body:
    t = a.test
    given, expected = ast.literal_eval(t.left.args[0]), ast.literal_eval(t.comparators[0])
    out.append("example : okIs (prettyUntokenize %s)\n    %s = true := by decide +kernel\n" % (toks(given), q(expected)))
f = function("/repo/patsy/eval.py", "test_capture_obj_method_calls")
out.append("/-! ### `%s` (eval.py:%d-%d) -/\n" % (f.name, f.lineno, f.end_lineno))
out.append('''/-- `capture_obj_method_calls` returns text, the model tokens. -/
def captured (obj : String) (code : List Tok) : Except Err (List (String × String)) := do
  (← captureCalls obj false code).mapM fun c => do pure (c.1, ← prettyUntokenize c.2)
''')
for a in f.body:
    t = a.test
    obj, code = map(ast.literal_eval, t.left.args)
    exp = ast.literal_eval(t.comparators[0])
    out.append("example : okIs (captured %s %s)\n    [%s] = true := by decide +kernel\n" % (q(obj), words(code), ", ".join("(%s, %s)" % (q(x), q(y)) for x, y in exp)))
f = function("/repo/patsy/eval.py", "test_EvalFactor_memorize_passes_needed")
out.append("/-! ### `%s` (eval.py:%d-%d) -/\n" % (f.name, f.lineno, f.end_lineno))
consts = {ast.unparse(a.test.left): ast.literal_eval(a.test.comparators[0]) for a in f.body
          if isinstance(a, ast.Assert) and "set(" not in ast.unparse(a)}
tr, ev, mem = consts["state['transforms']"], consts["state['eval_code']"], consts["state['memorize_code']"]
code = next(ast.literal_eval(a.value.args[0]) for a in f.body if isinstance(a, ast.Assign) and ast.unparse(a.targets[0]) == "e")
out.append('''def memo : Except Err Memo := memorizePassesNeeded (fun s => decide (s ∈ ["foo", "bar", "quux"]))
    %s

example : okIs (memo.map (·.transforms)) [%s] = true := by decide +kernel

example : okIs (memo >>= fun m => prettyUntokenize m.evalCode)
    %s = true := by decide +kernel

example : okIs (memo >>= fun m => m.memorizeCode.mapM fun c => do pure (c.1, ← prettyUntokenize c.2))
    [%s] = true := by decide +kernel

example : okIs (memo.map (·.passBins)) [["_patsy_stobj0__foo__", "_patsy_stobj2__foo__", "_patsy_stobj3__quux__"],
    ["_patsy_stobj1__bar__"]] = true := by decide +kernel
''' % (words(code), ", ".join(map(q, tr)), q(ev), ",\n      ".join("(%s, %s)" % (q(a), q(b)) for a, b in mem.items())))
out.append('''/-! ### `test__Subterm` (redundancy.py:131-143) -/

/-- `_expand_test_abbrevs` (redundancy.py:120-128). -/
def sub (l : List (String × Bool)) : Subterm String := (l.map fun p => (⟨p.2, p.1⟩ : EFactor String)).toFinset

example : [sub [("a", false), ("b", false), ("c", false)], sub [], sub [("c", false), ("d", false)], sub [("a", true)],
    sub [("a", false), ("b", true)]].all (fun bad => !canAbsorb (sub [("a", false), ("b", false)]) bad) = true := by decide +kernel

example : canAbsorb (sub [("a", false), ("b", false)]) (sub [("a", false)]) = true := by decide +kernel

example : okIs (absorb (sub [("a", false), ("b", false)]) (sub [("a", false)])) (sub [("a", false), ("b", true)]) = true := by
  decide +kernel

/-! ### `test__subsets_sorted` (redundancy.py:173-185) -/

example : subsetsSorted [1, 2] = [[], [1], [2], [1, 2]] := by decide +kernel

example : subsetsSorted [1, 2, 3] = [[], [1], [2], [3], [1, 2], [1, 3], [2, 3], [1, 2, 3]] := by decide +kernel

example : (subsetsSorted [0, 1, 2, 3, 4]).length = 2 ^ 5 := by decide +kernel

/-! ### `test__simplify_subterms` (redundancy.py:206-218) -/
''')
f = function("/repo/patsy/redundancy.py", "test__simplify_subterms")
sub = lambda s: "sub [" + ", ".join("(%s, %s)" % (q(x[:-1]), "true" if x[-1] == "+" else "false") for x in s) + "]"
for a in f.body:
    if isinstance(a, ast.Expr):
        g, e = map(ast.literal_eval, a.value.args)
        out.append("example : okIs (simplify [%s]) [%s] = true := by decide +kernel\n" % (", ".join(map(sub, g)), ", ".join(map(sub, e))))
out.append('''/-! ### `test_pick_contrasts_for_term` (redundancy.py:262-280) -/

/-- The codings of several terms, one after the other. -/
def picks (l : List (List String)) : Except Err (List (List (Subterm String))) := codeTerms id (fun f => f == "x") l []

example : okIs (picks [[], ["a", "x"], ["a", "b"], ["c", "d"]])
    [[sub []], [sub [("a", false)]], [sub [("a", true), ("b", false)]], [sub [("d", false)], sub [("c", false), ("d", true)]]] = true := by
  decide +kernel

example : okIs (picks [[], ["a", "x"], ["a", "b"], ["d", "c"]])
    [[sub []], [sub [("a", false)]], [sub [("a", true), ("b", false)]], [sub [("c", false)], sub [("c", true), ("d", false)]]] = true := by
  decide +kernel

end Patsy.Conformance
''')
open("/verif/lean/Verif/Conformance/Code.lean", "w").write("\n".join(out))
