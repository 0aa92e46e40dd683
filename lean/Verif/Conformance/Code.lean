import Verif.Model.EvalFactor
import Verif.Model.Redundancy

/-!
# Patsy's own tests about code and redundancy

Generated by `/verif/conformance/code.py` from `/repo/patsy/tokens.py`, `eval.py` and `redundancy.py`, with the tokens that Python's
tokenizer gives.  These are tests of the model, not proofs of properties.
-/

namespace Patsy.Conformance

open Patsy.Tokens Patsy.EvalFactor Patsy.Redundancy

/-! ### `test_pretty_untokenize_and_normalize_token_spacing` (tokens.py:182-203) -/

example : okIs (prettyUntokenize [(.number, "1"), (.op, "+"), (.number, "1"), (.newline, ""), (.endmarker, "")])
    "1 + 1" = true := by decide +kernel

example : okIs (prettyUntokenize [(.number, "1"), (.op, "+"), (.number, "1"), (.newline, ""), (.endmarker, "")])
    "1 + 1" = true := by decide +kernel

example : okIs (prettyUntokenize [(.number, "1"), (.op, "*"), (.op, "("), (.number, "2"), (.op, "+"), (.number, "3"), (.op, "**"), (.number, "2"), (.op, ")"), (.newline, ""), (.endmarker, "")])
    "1 * (2 + 3 ** 2)" = true := by decide +kernel

example : okIs (prettyUntokenize [(.name, "a"), (.name, "and"), (.name, "b"), (.newline, ""), (.endmarker, "")])
    "a and b" = true := by decide +kernel

example : okIs (prettyUntokenize [(.name, "foo"), (.op, "("), (.name, "a"), (.op, "="), (.name, "bar"), (.op, "."), (.name, "baz"), (.op, "["), (.number, "1"), (.op, ":"), (.op, "]"), (.op, ")"), (.newline, ""), (.endmarker, "")])
    "foo(a=bar.baz[1:])" = true := by decide +kernel

example : okIs (prettyUntokenize [(.op, "{"), (.string, "\"hi\""), (.op, ":"), (.name, "foo"), (.op, "["), (.op, ":"), (.op, "]"), (.op, "}"), (.newline, ""), (.endmarker, "")])
    "{\"hi\": foo[:]}" = true := by decide +kernel

example : okIs (prettyUntokenize [(.string, "'a'"), (.string, "\"b\""), (.string, "'c'"), (.newline, ""), (.endmarker, "")])
    "'a' \"b\" 'c'" = true := by decide +kernel

example : okIs (prettyUntokenize [(.string, "\"\"\"a\"\"\""), (.name, "is"), (.number, "1"), (.name, "or"), (.number, "2"), (.op, "=="), (.number, "3"), (.newline, ""), (.endmarker, "")])
    "\"\"\"a\"\"\" is 1 or 2 == 3" = true := by decide +kernel

example : okIs (prettyUntokenize [(.name, "foo"), (.op, "("), (.op, "*"), (.name, "args"), (.op, ")"), (.newline, ""), (.endmarker, "")])
    "foo(*args)" = true := by decide +kernel

example : okIs (prettyUntokenize [(.name, "foo"), (.op, "("), (.name, "a"), (.op, "*"), (.name, "args"), (.op, ")"), (.newline, ""), (.endmarker, "")])
    "foo(a * args)" = true := by decide +kernel

example : okIs (prettyUntokenize [(.name, "foo"), (.op, "("), (.op, "**"), (.name, "args"), (.op, ")"), (.newline, ""), (.endmarker, "")])
    "foo(**args)" = true := by decide +kernel

example : okIs (prettyUntokenize [(.name, "foo"), (.op, "("), (.name, "a"), (.op, "**"), (.name, "args"), (.op, ")"), (.newline, ""), (.endmarker, "")])
    "foo(a ** args)" = true := by decide +kernel

example : okIs (prettyUntokenize [(.name, "foo"), (.op, "("), (.number, "1"), (.op, ","), (.op, "*"), (.name, "args"), (.op, ")"), (.newline, ""), (.endmarker, "")])
    "foo(1, *args)" = true := by decide +kernel

example : okIs (prettyUntokenize [(.name, "foo"), (.op, "("), (.number, "1"), (.op, ","), (.name, "a"), (.op, "*"), (.name, "args"), (.op, ")"), (.newline, ""), (.endmarker, "")])
    "foo(1, a * args)" = true := by decide +kernel

example : okIs (prettyUntokenize [(.name, "foo"), (.op, "("), (.number, "1"), (.op, ","), (.op, "**"), (.name, "args"), (.op, ")"), (.newline, ""), (.endmarker, "")])
    "foo(1, **args)" = true := by decide +kernel

example : okIs (prettyUntokenize [(.name, "foo"), (.op, "("), (.number, "1"), (.op, ","), (.name, "a"), (.op, "**"), (.name, "args"), (.op, ")"), (.newline, ""), (.endmarker, "")])
    "foo(1, a ** args)" = true := by decide +kernel

example : okIs (prettyUntokenize [(.name, "a"), (.op, "="), (.name, "foo"), (.op, "("), (.name, "b"), (.op, "="), (.number, "1"), (.op, ")"), (.newline, ""), (.endmarker, "")])
    "a = foo(b=1)" = true := by decide +kernel

example : okIs (prettyUntokenize [(.name, "foo"), (.op, "("), (.op, "+"), (.number, "10"), (.op, ","), (.name, "bar"), (.op, "="), (.op, "-"), (.number, "1"), (.op, ")"), (.newline, ""), (.endmarker, "")])
    "foo(+10, bar=-1)" = true := by decide +kernel

example : okIs (prettyUntokenize [(.number, "1"), (.op, "+"), (.op, "+"), (.number, "10"), (.op, "+"), (.op, "-"), (.number, "1"), (.op, "-"), (.number, "5"), (.newline, ""), (.endmarker, "")])
    "1 + +10 + -1 - 5" = true := by decide +kernel

/-! ### `test_capture_obj_method_calls` (eval.py:840-853) -/

/-- `capture_obj_method_calls` returns text, the model tokens. -/
def captured (obj : String) (code : List Tok) : Except Err (List (String × String)) := do
  (← captureCalls obj false code).mapM fun c => do pure (c.1, ← prettyUntokenize c.2)

example : okIs (captured "foo" [(.name, "a"), (.op, "+"), (.name, "foo"), (.op, "."), (.name, "baz"), (.op, "("), (.name, "bar"), (.op, ")"), (.op, "+"), (.name, "b"), (.op, "."), (.name, "c"), (.op, "("), (.name, "d"), (.op, ")")])
    [("foo.baz", "foo.baz(bar)")] = true := by decide +kernel

example : okIs (captured "b" [(.name, "a"), (.op, "+"), (.name, "foo"), (.op, "."), (.name, "baz"), (.op, "("), (.name, "bar"), (.op, ")"), (.op, "+"), (.name, "b"), (.op, "."), (.name, "c"), (.op, "("), (.name, "d"), (.op, ")")])
    [("b.c", "b.c(d)")] = true := by decide +kernel

example : okIs (captured "foo" [(.name, "foo"), (.op, "."), (.name, "bar"), (.op, "("), (.name, "foo"), (.op, "."), (.name, "baz"), (.op, "("), (.name, "quux"), (.op, ")"), (.op, ")")])
    [("foo.bar", "foo.bar(foo.baz(quux))"), ("foo.baz", "foo.baz(quux)")] = true := by decide +kernel

example : okIs (captured "bar" [(.name, "foo"), (.op, "["), (.name, "bar"), (.op, "."), (.name, "baz"), (.op, "("), (.name, "x"), (.op, "("), (.name, "z"), (.op, "["), (.name, "asdf"), (.op, "]"), (.op, ")"), (.op, ")"), (.op, "**"), (.number, "2"), (.op, "]")])
    [("bar.baz", "bar.baz(x(z[asdf]))")] = true := by decide +kernel

/-! ### `test_EvalFactor_memorize_passes_needed` (eval.py:617-657) -/

def memo : Except Err Memo := memorizePassesNeeded (fun s => decide (s ∈ ["foo", "bar", "quux"]))
    [(.name, "foo"), (.op, "("), (.name, "x"), (.op, ")"), (.op, "+"), (.name, "bar"), (.op, "("), (.name, "foo"), (.op, "("), (.name, "y"), (.op, ")"), (.op, ")"), (.op, "+"), (.name, "quux"), (.op, "("), (.name, "z"), (.op, ","), (.name, "w"), (.op, ")")]

example : okIs (memo.map (·.transforms)) ["_patsy_stobj0__foo__", "_patsy_stobj1__bar__", "_patsy_stobj2__foo__", "_patsy_stobj3__quux__"] = true := by decide +kernel

example : okIs (memo >>= fun m => prettyUntokenize m.evalCode)
    "_patsy_stobj0__foo__.transform(x) + _patsy_stobj1__bar__.transform(_patsy_stobj2__foo__.transform(y)) + _patsy_stobj3__quux__.transform(z, w)" = true := by decide +kernel

example : okIs (memo >>= fun m => m.memorizeCode.mapM fun c => do pure (c.1, ← prettyUntokenize c.2))
    [("_patsy_stobj0__foo__", "_patsy_stobj0__foo__.memorize_chunk(x)"),
      ("_patsy_stobj1__bar__", "_patsy_stobj1__bar__.memorize_chunk(_patsy_stobj2__foo__.transform(y))"),
      ("_patsy_stobj2__foo__", "_patsy_stobj2__foo__.memorize_chunk(y)"),
      ("_patsy_stobj3__quux__", "_patsy_stobj3__quux__.memorize_chunk(z, w)")] = true := by decide +kernel

example : okIs (memo.map (·.passBins)) [["_patsy_stobj0__foo__", "_patsy_stobj2__foo__", "_patsy_stobj3__quux__"],
    ["_patsy_stobj1__bar__"]] = true := by decide +kernel

/-! ### `test__Subterm` (redundancy.py:131-143) -/

/-- `_expand_test_abbrevs` (redundancy.py:120-128). -/
def sub (l : List (String × Bool)) : Subterm String := (l.map fun p => (⟨p.2, p.1⟩ : EFactor String)).toFinset

example : [sub [("a", false), ("b", false), ("c", false)], sub [], sub [("c", false), ("d", false)], sub [("a", true)],
    sub [("a", false), ("b", true)]].all (fun bad => !canAbsorb (sub [("a", false), ("b", false)]) bad) = true := by decide +kernel

example : canAbsorb (sub [("a", false), ("b", false)]) (sub [("a", false)]) = true := by decide +kernel

example : okIs (absorb (sub [("a", false), ("b", false)]) (sub [("a", false)])) (sub [("a", false), ("b", true)]) = true := by
  decide +kernel

/-! ### `test__subsets_sorted` (redundancy.py:173-185) -/

example : subsetsSorted [1, 2] = [[], [1], [2], [1, 2]] := by decide +kernel

example : subsetsSorted [1, 2, 3] = [[], [1], [2], [3], [1, 2], [1, 3], [2, 3], [1, 2, 3]] := by decide +kernel

example : (subsetsSorted [0, 1, 2, 3, 4]).length = 2 ^ 5 := by decide +kernel

/-! ### `test__simplify_subterms` (redundancy.py:206-218) -/

example : okIs (simplify [sub [("a", false)]]) [sub [("a", false)]] = true := by decide +kernel

example : okIs (simplify [sub [], sub [("a", false)]]) [sub [("a", true)]] = true := by decide +kernel

example : okIs (simplify [sub [], sub [("a", false)], sub [("b", false)], sub [("a", false), ("b", false)]]) [sub [("a", true), ("b", true)]] = true := by decide +kernel

example : okIs (simplify [sub [], sub [("a", false)], sub [("a", false), ("b", false)]]) [sub [("a", true)], sub [("a", false), ("b", false)]] = true := by decide +kernel

example : okIs (simplify [sub [("a", false)], sub [("b", false)], sub [("a", false), ("b", false)]]) [sub [("b", false)], sub [("a", false), ("b", true)]] = true := by decide +kernel

/-! ### `test_pick_contrasts_for_term` (redundancy.py:262-280) -/

/-- The codings of several terms, one after the other. -/
def picks (l : List (List String)) : Except Err (List (List (Subterm String))) := codeTerms id (fun f => f == "x") l []

example : okIs (picks [[], ["a", "x"], ["a", "b"], ["c", "d"]])
    [[sub []], [sub [("a", false)]], [sub [("a", true), ("b", false)]], [sub [("d", false)], sub [("c", false), ("d", true)]]] = true := by
  decide +kernel

example : okIs (picks [[], ["a", "x"], ["a", "b"], ["d", "c"]])
    [[sub []], [sub [("a", false)]], [sub [("a", true), ("b", false)]], [sub [("c", false)], sub [("c", true), ("d", false)]]] = true := by
  decide +kernel

end Patsy.Conformance
