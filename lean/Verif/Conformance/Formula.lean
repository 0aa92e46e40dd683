import Verif.Model.EvalPosition

/-!
# The formulas of patsy's own tests

Generated by `/verif/conformance/formula.py` from the tables of tests in `/repo/patsy/parse_formula.py` and `/repo/patsy/desc.py`,
with the tokens that Python's tokenizer gives.  These are tests of the model, not proofs of properties.
-/

namespace Patsy.Conformance

open Patsy.Tokens Patsy.Infix Patsy.Desc Patsy.Located

/-- The trees of the tables. -/
inductive Expected where
  | leaf (s : String)
  | node (op : String) (args : List Expected)

mutual
/-- `_compare_trees` (parse_formula.py:189-197). -/
def sameTree : Node String (Option String) → Expected → Bool
  | .atom t _, .leaf s => t.extra == some s
  | .unary t a _, .node op [x] => t.kind == .sym op && sameTree a x
  | .binary t a b _, .node op [x, y] => t.kind == .sym op && sameTree a x && sameTree b y
  | _, _ => false
end

/-- `float(text)` succeeds. -/
def isNumber (s : String) : Bool := s ∈ ["0", "1", "2", "3", "10", "1.0", "1.5"]

def toInt (s : String) : Option Int :=
  if s = "0" then some 0 else if s = "1" then some 1 else if s = "2" then some 2 else if s = "3" then some 3 else none

def parsesTo (fin : RawEnd) (raw : List PyTok) (e : Expected) : Bool :=
  match parseFormula isNumber fin raw with
  | .ok t => sameTree t e
  | .error _ => false

def meansTo (fin : RawEnd) (raw : List PyTok) (lhs rhs : List (List String)) : Bool :=
  match parseFormula isNumber fin raw with
  | .ok t =>
    match fromTree (F := String) .ok toInt t with
    | .ok m => m.lhs.map (·.factors) == lhs && m.rhs.map (·.factors) == rhs
    | .error _ => false
  | .error _ => false

/-- `_parsing_error_test` (parse_formula.py:251-275). -/
def wrongAt {α : Type} (n start stop : Nat) : Except LErr α → Bool
  | .error (.patsyError, some o) => (o.start == 0 || o.start == start) && (o.stop == stop || o.stop == n)
  | _ => false

def parseWrongAt (fin : RawEnd) (raw : List PyTok) (n start stop : Nat) : Bool :=
  wrongAt n start stop (parseFormulaAt isNumber fin ⟨0, n⟩ raw)

def meaningWrongAt (fin : RawEnd) (raw : List PyTok) (n start stop : Nat) : Bool :=
  wrongAt n start stop (fromFormulaAt (F := String) isNumber .ok toInt fin ⟨0, n⟩ raw)


/-! ### `_parser_tests` (parse_formula.py:160-186) -/

/-- "" -/
example : parsesTo .exhausted
    [⟨.op, "~", ⟨0, 1⟩⟩, ⟨.number, "1", ⟨2, 3⟩⟩, ⟨.newline, "", ⟨3, 4⟩⟩, ⟨.endmarker, "", ⟨0, 0⟩⟩]
    (.node "~" [.leaf "1"]) = true := by decide +kernel

/-- " " -/
example : parsesTo .exhausted
    [⟨.op, "~", ⟨0, 1⟩⟩, ⟨.number, "1", ⟨2, 3⟩⟩, ⟨.newline, "", ⟨3, 4⟩⟩, ⟨.endmarker, "", ⟨0, 0⟩⟩]
    (.node "~" [.leaf "1"]) = true := by decide +kernel

/-- " \n " -/
example : parsesTo .exhausted
    [⟨.op, "~", ⟨0, 1⟩⟩, ⟨.number, "1", ⟨2, 3⟩⟩, ⟨.newline, "", ⟨3, 4⟩⟩, ⟨.endmarker, "", ⟨0, 0⟩⟩]
    (.node "~" [.leaf "1"]) = true := by decide +kernel

/-- "1" -/
example : parsesTo .exhausted
    [⟨.number, "1", ⟨0, 1⟩⟩, ⟨.newline, "", ⟨1, 2⟩⟩, ⟨.endmarker, "", ⟨0, 0⟩⟩]
    (.node "~" [.leaf "1"]) = true := by decide +kernel

/-- "a" -/
example : parsesTo .exhausted
    [⟨.name, "a", ⟨0, 1⟩⟩, ⟨.newline, "", ⟨1, 2⟩⟩, ⟨.endmarker, "", ⟨0, 0⟩⟩]
    (.node "~" [.leaf "a"]) = true := by decide +kernel

/-- "a ~ b" -/
example : parsesTo .exhausted
    [⟨.name, "a", ⟨0, 1⟩⟩, ⟨.op, "~", ⟨2, 3⟩⟩, ⟨.name, "b", ⟨4, 5⟩⟩, ⟨.newline, "", ⟨5, 6⟩⟩, ⟨.endmarker, "", ⟨0, 0⟩⟩]
    (.node "~" [.leaf "a", .leaf "b"]) = true := by decide +kernel

/-- "(a ~ b)" -/
example : parsesTo .exhausted
    [⟨.op, "(", ⟨0, 1⟩⟩, ⟨.name, "a", ⟨1, 2⟩⟩, ⟨.op, "~", ⟨3, 4⟩⟩, ⟨.name, "b", ⟨5, 6⟩⟩, ⟨.op, ")", ⟨6, 7⟩⟩, ⟨.newline, "", ⟨7, 8⟩⟩, ⟨.endmarker, "", ⟨0, 0⟩⟩]
    (.node "~" [.leaf "a", .leaf "b"]) = true := by decide +kernel

/-- "a ~ ((((b))))" -/
example : parsesTo .exhausted
    [⟨.name, "a", ⟨0, 1⟩⟩, ⟨.op, "~", ⟨2, 3⟩⟩, ⟨.op, "(", ⟨4, 5⟩⟩, ⟨.op, "(", ⟨5, 6⟩⟩, ⟨.op, "(", ⟨6, 7⟩⟩, ⟨.op, "(", ⟨7, 8⟩⟩, ⟨.name, "b", ⟨8, 9⟩⟩, ⟨.op, ")", ⟨9, 10⟩⟩, ⟨.op, ")", ⟨10, 11⟩⟩, ⟨.op, ")", ⟨11, 12⟩⟩, ⟨.op, ")", ⟨12, 13⟩⟩, ⟨.newline, "", ⟨13, 14⟩⟩, ⟨.endmarker, "", ⟨0, 0⟩⟩]
    (.node "~" [.leaf "a", .leaf "b"]) = true := by decide +kernel

/-- "a ~ ((((+b))))" -/
example : parsesTo .exhausted
    [⟨.name, "a", ⟨0, 1⟩⟩, ⟨.op, "~", ⟨2, 3⟩⟩, ⟨.op, "(", ⟨4, 5⟩⟩, ⟨.op, "(", ⟨5, 6⟩⟩, ⟨.op, "(", ⟨6, 7⟩⟩, ⟨.op, "(", ⟨7, 8⟩⟩, ⟨.op, "+", ⟨8, 9⟩⟩, ⟨.name, "b", ⟨9, 10⟩⟩, ⟨.op, ")", ⟨10, 11⟩⟩, ⟨.op, ")", ⟨11, 12⟩⟩, ⟨.op, ")", ⟨12, 13⟩⟩, ⟨.op, ")", ⟨13, 14⟩⟩, ⟨.newline, "", ⟨14, 15⟩⟩, ⟨.endmarker, "", ⟨0, 0⟩⟩]
    (.node "~" [.leaf "a", .node "+" [.leaf "b"]]) = true := by decide +kernel

/-- "a + b + c" -/
example : parsesTo .exhausted
    [⟨.name, "a", ⟨0, 1⟩⟩, ⟨.op, "+", ⟨2, 3⟩⟩, ⟨.name, "b", ⟨4, 5⟩⟩, ⟨.op, "+", ⟨6, 7⟩⟩, ⟨.name, "c", ⟨8, 9⟩⟩, ⟨.newline, "", ⟨9, 10⟩⟩, ⟨.endmarker, "", ⟨0, 0⟩⟩]
    (.node "~" [.node "+" [.node "+" [.leaf "a", .leaf "b"], .leaf "c"]]) = true := by decide +kernel

/-- "a + (b ~ c) + d" -/
example : parsesTo .exhausted
    [⟨.name, "a", ⟨0, 1⟩⟩, ⟨.op, "+", ⟨2, 3⟩⟩, ⟨.op, "(", ⟨4, 5⟩⟩, ⟨.name, "b", ⟨5, 6⟩⟩, ⟨.op, "~", ⟨7, 8⟩⟩, ⟨.name, "c", ⟨9, 10⟩⟩, ⟨.op, ")", ⟨10, 11⟩⟩, ⟨.op, "+", ⟨12, 13⟩⟩, ⟨.name, "d", ⟨14, 15⟩⟩, ⟨.newline, "", ⟨15, 16⟩⟩, ⟨.endmarker, "", ⟨0, 0⟩⟩]
    (.node "~" [.node "+" [.node "+" [.leaf "a", .node "~" [.leaf "b", .leaf "c"]], .leaf "d"]]) = true := by decide +kernel

/-- "a + np.log(a, base=10)" -/
example : parsesTo .exhausted
    [⟨.name, "a", ⟨0, 1⟩⟩, ⟨.op, "+", ⟨2, 3⟩⟩, ⟨.name, "np", ⟨4, 6⟩⟩, ⟨.op, ".", ⟨6, 7⟩⟩, ⟨.name, "log", ⟨7, 10⟩⟩, ⟨.op, "(", ⟨10, 11⟩⟩, ⟨.name, "a", ⟨11, 12⟩⟩, ⟨.op, ",", ⟨12, 13⟩⟩, ⟨.name, "base", ⟨14, 18⟩⟩, ⟨.op, "=", ⟨18, 19⟩⟩, ⟨.number, "10", ⟨19, 21⟩⟩, ⟨.op, ")", ⟨21, 22⟩⟩, ⟨.newline, "", ⟨22, 23⟩⟩, ⟨.endmarker, "", ⟨0, 0⟩⟩]
    (.node "~" [.node "+" [.leaf "a", .leaf "np.log(a, base=10)"]]) = true := by decide +kernel

/-- "a + np . log(a , base = 10)" -/
example : parsesTo .exhausted
    [⟨.name, "a", ⟨0, 1⟩⟩, ⟨.op, "+", ⟨2, 3⟩⟩, ⟨.name, "np", ⟨4, 6⟩⟩, ⟨.op, ".", ⟨7, 8⟩⟩, ⟨.name, "log", ⟨9, 12⟩⟩, ⟨.op, "(", ⟨12, 13⟩⟩, ⟨.name, "a", ⟨13, 14⟩⟩, ⟨.op, ",", ⟨15, 16⟩⟩, ⟨.name, "base", ⟨17, 21⟩⟩, ⟨.op, "=", ⟨22, 23⟩⟩, ⟨.number, "10", ⟨24, 26⟩⟩, ⟨.op, ")", ⟨26, 27⟩⟩, ⟨.newline, "", ⟨27, 28⟩⟩, ⟨.endmarker, "", ⟨0, 0⟩⟩]
    (.node "~" [.node "+" [.leaf "a", .leaf "np.log(a, base=10)"]]) = true := by decide +kernel

/-- "a + b ~ c * d" -/
example : parsesTo .exhausted
    [⟨.name, "a", ⟨0, 1⟩⟩, ⟨.op, "+", ⟨2, 3⟩⟩, ⟨.name, "b", ⟨4, 5⟩⟩, ⟨.op, "~", ⟨6, 7⟩⟩, ⟨.name, "c", ⟨8, 9⟩⟩, ⟨.op, "*", ⟨10, 11⟩⟩, ⟨.name, "d", ⟨12, 13⟩⟩, ⟨.newline, "", ⟨13, 14⟩⟩, ⟨.endmarker, "", ⟨0, 0⟩⟩]
    (.node "~" [.node "+" [.leaf "a", .leaf "b"], .node "*" [.leaf "c", .leaf "d"]]) = true := by decide +kernel

/-- "a + b * c" -/
example : parsesTo .exhausted
    [⟨.name, "a", ⟨0, 1⟩⟩, ⟨.op, "+", ⟨2, 3⟩⟩, ⟨.name, "b", ⟨4, 5⟩⟩, ⟨.op, "*", ⟨6, 7⟩⟩, ⟨.name, "c", ⟨8, 9⟩⟩, ⟨.newline, "", ⟨9, 10⟩⟩, ⟨.endmarker, "", ⟨0, 0⟩⟩]
    (.node "~" [.node "+" [.leaf "a", .node "*" [.leaf "b", .leaf "c"]]]) = true := by decide +kernel

/-- "-a**2" -/
example : parsesTo .exhausted
    [⟨.op, "-", ⟨0, 1⟩⟩, ⟨.name, "a", ⟨1, 2⟩⟩, ⟨.op, "**", ⟨2, 4⟩⟩, ⟨.number, "2", ⟨4, 5⟩⟩, ⟨.newline, "", ⟨5, 6⟩⟩, ⟨.endmarker, "", ⟨0, 0⟩⟩]
    (.node "~" [.node "-" [.node "**" [.leaf "a", .leaf "2"]]]) = true := by decide +kernel

/-- "-a:b" -/
example : parsesTo .exhausted
    [⟨.op, "-", ⟨0, 1⟩⟩, ⟨.name, "a", ⟨1, 2⟩⟩, ⟨.op, ":", ⟨2, 3⟩⟩, ⟨.name, "b", ⟨3, 4⟩⟩, ⟨.newline, "", ⟨4, 5⟩⟩, ⟨.endmarker, "", ⟨0, 0⟩⟩]
    (.node "~" [.node "-" [.node ":" [.leaf "a", .leaf "b"]]]) = true := by decide +kernel

/-- "a + b:c" -/
example : parsesTo .exhausted
    [⟨.name, "a", ⟨0, 1⟩⟩, ⟨.op, "+", ⟨2, 3⟩⟩, ⟨.name, "b", ⟨4, 5⟩⟩, ⟨.op, ":", ⟨5, 6⟩⟩, ⟨.name, "c", ⟨6, 7⟩⟩, ⟨.newline, "", ⟨7, 8⟩⟩, ⟨.endmarker, "", ⟨0, 0⟩⟩]
    (.node "~" [.node "+" [.leaf "a", .node ":" [.leaf "b", .leaf "c"]]]) = true := by decide +kernel

/-- "(a + b):c" -/
example : parsesTo .exhausted
    [⟨.op, "(", ⟨0, 1⟩⟩, ⟨.name, "a", ⟨1, 2⟩⟩, ⟨.op, "+", ⟨3, 4⟩⟩, ⟨.name, "b", ⟨5, 6⟩⟩, ⟨.op, ")", ⟨6, 7⟩⟩, ⟨.op, ":", ⟨7, 8⟩⟩, ⟨.name, "c", ⟨8, 9⟩⟩, ⟨.newline, "", ⟨9, 10⟩⟩, ⟨.endmarker, "", ⟨0, 0⟩⟩]
    (.node "~" [.node ":" [.node "+" [.leaf "a", .leaf "b"], .leaf "c"]]) = true := by decide +kernel

/-- "a*b:c" -/
example : parsesTo .exhausted
    [⟨.name, "a", ⟨0, 1⟩⟩, ⟨.op, "*", ⟨1, 2⟩⟩, ⟨.name, "b", ⟨2, 3⟩⟩, ⟨.op, ":", ⟨3, 4⟩⟩, ⟨.name, "c", ⟨4, 5⟩⟩, ⟨.newline, "", ⟨5, 6⟩⟩, ⟨.endmarker, "", ⟨0, 0⟩⟩]
    (.node "~" [.node "*" [.leaf "a", .node ":" [.leaf "b", .leaf "c"]]]) = true := by decide +kernel

/-- "a+b / c" -/
example : parsesTo .exhausted
    [⟨.name, "a", ⟨0, 1⟩⟩, ⟨.op, "+", ⟨1, 2⟩⟩, ⟨.name, "b", ⟨2, 3⟩⟩, ⟨.op, "/", ⟨4, 5⟩⟩, ⟨.name, "c", ⟨6, 7⟩⟩, ⟨.newline, "", ⟨7, 8⟩⟩, ⟨.endmarker, "", ⟨0, 0⟩⟩]
    (.node "~" [.node "+" [.leaf "a", .node "/" [.leaf "b", .leaf "c"]]]) = true := by decide +kernel

/-- "~ a" -/
example : parsesTo .exhausted
    [⟨.op, "~", ⟨0, 1⟩⟩, ⟨.name, "a", ⟨2, 3⟩⟩, ⟨.newline, "", ⟨3, 4⟩⟩, ⟨.endmarker, "", ⟨0, 0⟩⟩]
    (.node "~" [.leaf "a"]) = true := by decide +kernel

/-- "-1" -/
example : parsesTo .exhausted
    [⟨.op, "-", ⟨0, 1⟩⟩, ⟨.number, "1", ⟨1, 2⟩⟩, ⟨.newline, "", ⟨2, 3⟩⟩, ⟨.endmarker, "", ⟨0, 0⟩⟩]
    (.node "~" [.node "-" [.leaf "1"]]) = true := by decide +kernel


/-! ### `_parser_error_tests` (parse_formula.py:224-246) -/

/-- "a <+>" -/
example : parseWrongAt .exhausted
    [⟨.name, "a", ⟨0, 1⟩⟩, ⟨.op, "+", ⟨2, 3⟩⟩, ⟨.newline, "", ⟨3, 4⟩⟩, ⟨.endmarker, "", ⟨0, 0⟩⟩] 3 2 3 = true := by decide +kernel

/-- "a + <(>" -/
example : parseWrongAt .multiLine
    [⟨.name, "a", ⟨0, 1⟩⟩, ⟨.op, "+", ⟨2, 3⟩⟩, ⟨.op, "(", ⟨4, 5⟩⟩] 5 4 5 = true := by decide +kernel

/-- "a + b <# asdf>" -/
example : parseWrongAt .exhausted
    [⟨.name, "a", ⟨0, 1⟩⟩, ⟨.op, "+", ⟨2, 3⟩⟩, ⟨.name, "b", ⟨4, 5⟩⟩, ⟨.comment, "# asdf", ⟨6, 12⟩⟩, ⟨.newline, "", ⟨12, 13⟩⟩, ⟨.endmarker, "", ⟨0, 0⟩⟩] 12 6 12 = true := by decide +kernel

/-- "<)>" -/
example : parseWrongAt .multiLine
    [⟨.op, ")", ⟨0, 1⟩⟩] 1 0 1 = true := by decide +kernel

/-- "a + <)>" -/
example : parseWrongAt .multiLine
    [⟨.name, "a", ⟨0, 1⟩⟩, ⟨.op, "+", ⟨2, 3⟩⟩, ⟨.op, ")", ⟨4, 5⟩⟩] 5 4 5 = true := by decide +kernel

/-- "<*> a" -/
example : parseWrongAt .exhausted
    [⟨.op, "*", ⟨0, 1⟩⟩, ⟨.name, "a", ⟨2, 3⟩⟩, ⟨.newline, "", ⟨3, 4⟩⟩, ⟨.endmarker, "", ⟨0, 0⟩⟩] 3 0 1 = true := by decide +kernel

/-- "a + <*>" -/
example : parseWrongAt .exhausted
    [⟨.name, "a", ⟨0, 1⟩⟩, ⟨.op, "+", ⟨2, 3⟩⟩, ⟨.op, "*", ⟨4, 5⟩⟩, ⟨.newline, "", ⟨5, 6⟩⟩, ⟨.endmarker, "", ⟨0, 0⟩⟩] 5 4 5 = true := by decide +kernel

/-- "a + <foo[bar>" -/
example : parseWrongAt .multiLine
    [⟨.name, "a", ⟨0, 1⟩⟩, ⟨.op, "+", ⟨2, 3⟩⟩, ⟨.name, "foo", ⟨4, 7⟩⟩, ⟨.op, "[", ⟨7, 8⟩⟩, ⟨.name, "bar", ⟨8, 11⟩⟩] 11 4 11 = true := by decide +kernel

/-- "a + <foo{bar>" -/
example : parseWrongAt .multiLine
    [⟨.name, "a", ⟨0, 1⟩⟩, ⟨.op, "+", ⟨2, 3⟩⟩, ⟨.name, "foo", ⟨4, 7⟩⟩, ⟨.op, "{", ⟨7, 8⟩⟩, ⟨.name, "bar", ⟨8, 11⟩⟩] 11 4 11 = true := by decide +kernel

/-- "a + <foo(bar>" -/
example : parseWrongAt .multiLine
    [⟨.name, "a", ⟨0, 1⟩⟩, ⟨.op, "+", ⟨2, 3⟩⟩, ⟨.name, "foo", ⟨4, 7⟩⟩, ⟨.op, "(", ⟨7, 8⟩⟩, ⟨.name, "bar", ⟨8, 11⟩⟩] 11 4 11 = true := by decide +kernel

/-- "a + <[bar>" -/
example : parseWrongAt .multiLine
    [⟨.name, "a", ⟨0, 1⟩⟩, ⟨.op, "+", ⟨2, 3⟩⟩, ⟨.op, "[", ⟨4, 5⟩⟩, ⟨.name, "bar", ⟨5, 8⟩⟩] 8 4 8 = true := by decide +kernel

/-- "a + <{bar>" -/
example : parseWrongAt .multiLine
    [⟨.name, "a", ⟨0, 1⟩⟩, ⟨.op, "+", ⟨2, 3⟩⟩, ⟨.op, "{", ⟨4, 5⟩⟩, ⟨.name, "bar", ⟨5, 8⟩⟩] 8 4 8 = true := by decide +kernel

/-- "a + <{bar[]>" -/
example : parseWrongAt .multiLine
    [⟨.name, "a", ⟨0, 1⟩⟩, ⟨.op, "+", ⟨2, 3⟩⟩, ⟨.op, "{", ⟨4, 5⟩⟩, ⟨.name, "bar", ⟨5, 8⟩⟩, ⟨.op, "[", ⟨8, 9⟩⟩, ⟨.op, "]", ⟨9, 10⟩⟩] 10 4 10 = true := by decide +kernel

/-- "a + foo<]>bar" -/
example : parseWrongAt .multiLine
    [⟨.name, "a", ⟨0, 1⟩⟩, ⟨.op, "+", ⟨2, 3⟩⟩, ⟨.name, "foo", ⟨4, 7⟩⟩, ⟨.op, "]", ⟨7, 8⟩⟩, ⟨.name, "bar", ⟨8, 11⟩⟩] 11 7 8 = true := by decide +kernel

/-- "a + foo[]<]>bar" -/
example : parseWrongAt .multiLine
    [⟨.name, "a", ⟨0, 1⟩⟩, ⟨.op, "+", ⟨2, 3⟩⟩, ⟨.name, "foo", ⟨4, 7⟩⟩, ⟨.op, "[", ⟨7, 8⟩⟩, ⟨.op, "]", ⟨8, 9⟩⟩, ⟨.op, "]", ⟨9, 10⟩⟩, ⟨.name, "bar", ⟨10, 13⟩⟩] 13 9 10 = true := by decide +kernel

/-- "a + foo{}<}>bar" -/
example : parseWrongAt .multiLine
    [⟨.name, "a", ⟨0, 1⟩⟩, ⟨.op, "+", ⟨2, 3⟩⟩, ⟨.name, "foo", ⟨4, 7⟩⟩, ⟨.op, "{", ⟨7, 8⟩⟩, ⟨.op, "}", ⟨8, 9⟩⟩, ⟨.op, "}", ⟨9, 10⟩⟩, ⟨.name, "bar", ⟨10, 13⟩⟩] 13 9 10 = true := by decide +kernel

/-- "a + foo<)>bar" -/
example : parseWrongAt .multiLine
    [⟨.name, "a", ⟨0, 1⟩⟩, ⟨.op, "+", ⟨2, 3⟩⟩, ⟨.name, "foo", ⟨4, 7⟩⟩, ⟨.op, ")", ⟨7, 8⟩⟩, ⟨.name, "bar", ⟨8, 11⟩⟩] 11 7 8 = true := by decide +kernel

/-- "a + b<)>" -/
example : parseWrongAt .multiLine
    [⟨.name, "a", ⟨0, 1⟩⟩, ⟨.op, "+", ⟨2, 3⟩⟩, ⟨.name, "b", ⟨4, 5⟩⟩, ⟨.op, ")", ⟨5, 6⟩⟩] 6 5 6 = true := by decide +kernel

/-- "(a) <.>" -/
example : parseWrongAt .exhausted
    [⟨.op, "(", ⟨0, 1⟩⟩, ⟨.name, "a", ⟨1, 2⟩⟩, ⟨.op, ")", ⟨2, 3⟩⟩, ⟨.op, ".", ⟨4, 5⟩⟩, ⟨.newline, "", ⟨5, 6⟩⟩, ⟨.endmarker, "", ⟨0, 0⟩⟩] 5 4 5 = true := by decide +kernel

/-- "<(>a + b" -/
example : parseWrongAt .multiLine
    [⟨.op, "(", ⟨0, 1⟩⟩, ⟨.name, "a", ⟨1, 2⟩⟩, ⟨.op, "+", ⟨3, 4⟩⟩, ⟨.name, "b", ⟨5, 6⟩⟩] 6 0 1 = true := by decide +kernel

/-- "a +< >'foo" -/
example : parseWrongAt .exhausted
    [⟨.name, "a", ⟨0, 1⟩⟩, ⟨.op, "+", ⟨2, 3⟩⟩, ⟨.errortoken, " ", ⟨3, 4⟩⟩, ⟨.errortoken, "'", ⟨4, 5⟩⟩, ⟨.name, "foo", ⟨5, 8⟩⟩, ⟨.newline, "", ⟨8, 9⟩⟩, ⟨.endmarker, "", ⟨0, 0⟩⟩] 8 3 4 = true := by decide +kernel


/-! ### `_eval_tests` (desc.py:461-581) -/

/-- "" -/
example : meansTo .exhausted
    [⟨.op, "~", ⟨0, 1⟩⟩, ⟨.number, "1", ⟨2, 3⟩⟩, ⟨.newline, "", ⟨3, 4⟩⟩, ⟨.endmarker, "", ⟨0, 0⟩⟩]
    [] [[]] = true := by decide +kernel

/-- " " -/
example : meansTo .exhausted
    [⟨.op, "~", ⟨0, 1⟩⟩, ⟨.number, "1", ⟨2, 3⟩⟩, ⟨.newline, "", ⟨3, 4⟩⟩, ⟨.endmarker, "", ⟨0, 0⟩⟩]
    [] [[]] = true := by decide +kernel

/-- " \n " -/
example : meansTo .exhausted
    [⟨.op, "~", ⟨0, 1⟩⟩, ⟨.number, "1", ⟨2, 3⟩⟩, ⟨.newline, "", ⟨3, 4⟩⟩, ⟨.endmarker, "", ⟨0, 0⟩⟩]
    [] [[]] = true := by decide +kernel

/-- "a" -/
example : meansTo .exhausted
    [⟨.name, "a", ⟨0, 1⟩⟩, ⟨.newline, "", ⟨1, 2⟩⟩, ⟨.endmarker, "", ⟨0, 0⟩⟩]
    [] [[], ["a"]] = true := by decide +kernel

/-- "1" -/
example : meansTo .exhausted
    [⟨.number, "1", ⟨0, 1⟩⟩, ⟨.newline, "", ⟨1, 2⟩⟩, ⟨.endmarker, "", ⟨0, 0⟩⟩]
    [] [[]] = true := by decide +kernel

/-- "0" -/
example : meansTo .exhausted
    [⟨.number, "0", ⟨0, 1⟩⟩, ⟨.newline, "", ⟨1, 2⟩⟩, ⟨.endmarker, "", ⟨0, 0⟩⟩]
    [] [] = true := by decide +kernel

/-- "- 1" -/
example : meansTo .exhausted
    [⟨.op, "-", ⟨0, 1⟩⟩, ⟨.number, "1", ⟨2, 3⟩⟩, ⟨.newline, "", ⟨3, 4⟩⟩, ⟨.endmarker, "", ⟨0, 0⟩⟩]
    [] [] = true := by decide +kernel

/-- "- 0" -/
example : meansTo .exhausted
    [⟨.op, "-", ⟨0, 1⟩⟩, ⟨.number, "0", ⟨2, 3⟩⟩, ⟨.newline, "", ⟨3, 4⟩⟩, ⟨.endmarker, "", ⟨0, 0⟩⟩]
    [] [[]] = true := by decide +kernel

/-- "+ 1" -/
example : meansTo .exhausted
    [⟨.op, "+", ⟨0, 1⟩⟩, ⟨.number, "1", ⟨2, 3⟩⟩, ⟨.newline, "", ⟨3, 4⟩⟩, ⟨.endmarker, "", ⟨0, 0⟩⟩]
    [] [[]] = true := by decide +kernel

/-- "+ 0" -/
example : meansTo .exhausted
    [⟨.op, "+", ⟨0, 1⟩⟩, ⟨.number, "0", ⟨2, 3⟩⟩, ⟨.newline, "", ⟨3, 4⟩⟩, ⟨.endmarker, "", ⟨0, 0⟩⟩]
    [] [] = true := by decide +kernel

/-- "0 + 1" -/
example : meansTo .exhausted
    [⟨.number, "0", ⟨0, 1⟩⟩, ⟨.op, "+", ⟨2, 3⟩⟩, ⟨.number, "1", ⟨4, 5⟩⟩, ⟨.newline, "", ⟨5, 6⟩⟩, ⟨.endmarker, "", ⟨0, 0⟩⟩]
    [] [[]] = true := by decide +kernel

/-- "1 + 0" -/
example : meansTo .exhausted
    [⟨.number, "1", ⟨0, 1⟩⟩, ⟨.op, "+", ⟨2, 3⟩⟩, ⟨.number, "0", ⟨4, 5⟩⟩, ⟨.newline, "", ⟨5, 6⟩⟩, ⟨.endmarker, "", ⟨0, 0⟩⟩]
    [] [] = true := by decide +kernel

/-- "1 - 0" -/
example : meansTo .exhausted
    [⟨.number, "1", ⟨0, 1⟩⟩, ⟨.op, "-", ⟨2, 3⟩⟩, ⟨.number, "0", ⟨4, 5⟩⟩, ⟨.newline, "", ⟨5, 6⟩⟩, ⟨.endmarker, "", ⟨0, 0⟩⟩]
    [] [[]] = true := by decide +kernel

/-- "0 - 1" -/
example : meansTo .exhausted
    [⟨.number, "0", ⟨0, 1⟩⟩, ⟨.op, "-", ⟨2, 3⟩⟩, ⟨.number, "1", ⟨4, 5⟩⟩, ⟨.newline, "", ⟨5, 6⟩⟩, ⟨.endmarker, "", ⟨0, 0⟩⟩]
    [] [] = true := by decide +kernel

/-- "1 + a" -/
example : meansTo .exhausted
    [⟨.number, "1", ⟨0, 1⟩⟩, ⟨.op, "+", ⟨2, 3⟩⟩, ⟨.name, "a", ⟨4, 5⟩⟩, ⟨.newline, "", ⟨5, 6⟩⟩, ⟨.endmarker, "", ⟨0, 0⟩⟩]
    [] [[], ["a"]] = true := by decide +kernel

/-- "0 + a" -/
example : meansTo .exhausted
    [⟨.number, "0", ⟨0, 1⟩⟩, ⟨.op, "+", ⟨2, 3⟩⟩, ⟨.name, "a", ⟨4, 5⟩⟩, ⟨.newline, "", ⟨5, 6⟩⟩, ⟨.endmarker, "", ⟨0, 0⟩⟩]
    [] [["a"]] = true := by decide +kernel

/-- "a - 1" -/
example : meansTo .exhausted
    [⟨.name, "a", ⟨0, 1⟩⟩, ⟨.op, "-", ⟨2, 3⟩⟩, ⟨.number, "1", ⟨4, 5⟩⟩, ⟨.newline, "", ⟨5, 6⟩⟩, ⟨.endmarker, "", ⟨0, 0⟩⟩]
    [] [["a"]] = true := by decide +kernel

/-- "a - 0" -/
example : meansTo .exhausted
    [⟨.name, "a", ⟨0, 1⟩⟩, ⟨.op, "-", ⟨2, 3⟩⟩, ⟨.number, "0", ⟨4, 5⟩⟩, ⟨.newline, "", ⟨5, 6⟩⟩, ⟨.endmarker, "", ⟨0, 0⟩⟩]
    [] [[], ["a"]] = true := by decide +kernel

/-- "1 - a" -/
example : meansTo .exhausted
    [⟨.number, "1", ⟨0, 1⟩⟩, ⟨.op, "-", ⟨2, 3⟩⟩, ⟨.name, "a", ⟨4, 5⟩⟩, ⟨.newline, "", ⟨5, 6⟩⟩, ⟨.endmarker, "", ⟨0, 0⟩⟩]
    [] [[]] = true := by decide +kernel

/-- "a + b" -/
example : meansTo .exhausted
    [⟨.name, "a", ⟨0, 1⟩⟩, ⟨.op, "+", ⟨2, 3⟩⟩, ⟨.name, "b", ⟨4, 5⟩⟩, ⟨.newline, "", ⟨5, 6⟩⟩, ⟨.endmarker, "", ⟨0, 0⟩⟩]
    [] [[], ["a"], ["b"]] = true := by decide +kernel

/-- "(a + b)" -/
example : meansTo .exhausted
    [⟨.op, "(", ⟨0, 1⟩⟩, ⟨.name, "a", ⟨1, 2⟩⟩, ⟨.op, "+", ⟨3, 4⟩⟩, ⟨.name, "b", ⟨5, 6⟩⟩, ⟨.op, ")", ⟨6, 7⟩⟩, ⟨.newline, "", ⟨7, 8⟩⟩, ⟨.endmarker, "", ⟨0, 0⟩⟩]
    [] [[], ["a"], ["b"]] = true := by decide +kernel

/-- "a + ((((b))))" -/
example : meansTo .exhausted
    [⟨.name, "a", ⟨0, 1⟩⟩, ⟨.op, "+", ⟨2, 3⟩⟩, ⟨.op, "(", ⟨4, 5⟩⟩, ⟨.op, "(", ⟨5, 6⟩⟩, ⟨.op, "(", ⟨6, 7⟩⟩, ⟨.op, "(", ⟨7, 8⟩⟩, ⟨.name, "b", ⟨8, 9⟩⟩, ⟨.op, ")", ⟨9, 10⟩⟩, ⟨.op, ")", ⟨10, 11⟩⟩, ⟨.op, ")", ⟨11, 12⟩⟩, ⟨.op, ")", ⟨12, 13⟩⟩, ⟨.newline, "", ⟨13, 14⟩⟩, ⟨.endmarker, "", ⟨0, 0⟩⟩]
    [] [[], ["a"], ["b"]] = true := by decide +kernel

/-- "a + ((((+b))))" -/
example : meansTo .exhausted
    [⟨.name, "a", ⟨0, 1⟩⟩, ⟨.op, "+", ⟨2, 3⟩⟩, ⟨.op, "(", ⟨4, 5⟩⟩, ⟨.op, "(", ⟨5, 6⟩⟩, ⟨.op, "(", ⟨6, 7⟩⟩, ⟨.op, "(", ⟨7, 8⟩⟩, ⟨.op, "+", ⟨8, 9⟩⟩, ⟨.name, "b", ⟨9, 10⟩⟩, ⟨.op, ")", ⟨10, 11⟩⟩, ⟨.op, ")", ⟨11, 12⟩⟩, ⟨.op, ")", ⟨12, 13⟩⟩, ⟨.op, ")", ⟨13, 14⟩⟩, ⟨.newline, "", ⟨14, 15⟩⟩, ⟨.endmarker, "", ⟨0, 0⟩⟩]
    [] [[], ["a"], ["b"]] = true := by decide +kernel

/-- "a + ((((b - a))))" -/
example : meansTo .exhausted
    [⟨.name, "a", ⟨0, 1⟩⟩, ⟨.op, "+", ⟨2, 3⟩⟩, ⟨.op, "(", ⟨4, 5⟩⟩, ⟨.op, "(", ⟨5, 6⟩⟩, ⟨.op, "(", ⟨6, 7⟩⟩, ⟨.op, "(", ⟨7, 8⟩⟩, ⟨.name, "b", ⟨8, 9⟩⟩, ⟨.op, "-", ⟨10, 11⟩⟩, ⟨.name, "a", ⟨12, 13⟩⟩, ⟨.op, ")", ⟨13, 14⟩⟩, ⟨.op, ")", ⟨14, 15⟩⟩, ⟨.op, ")", ⟨15, 16⟩⟩, ⟨.op, ")", ⟨16, 17⟩⟩, ⟨.newline, "", ⟨17, 18⟩⟩, ⟨.endmarker, "", ⟨0, 0⟩⟩]
    [] [[], ["a"], ["b"]] = true := by decide +kernel

/-- "a + a + a" -/
example : meansTo .exhausted
    [⟨.name, "a", ⟨0, 1⟩⟩, ⟨.op, "+", ⟨2, 3⟩⟩, ⟨.name, "a", ⟨4, 5⟩⟩, ⟨.op, "+", ⟨6, 7⟩⟩, ⟨.name, "a", ⟨8, 9⟩⟩, ⟨.newline, "", ⟨9, 10⟩⟩, ⟨.endmarker, "", ⟨0, 0⟩⟩]
    [] [[], ["a"]] = true := by decide +kernel

/-- "a + (b - a)" -/
example : meansTo .exhausted
    [⟨.name, "a", ⟨0, 1⟩⟩, ⟨.op, "+", ⟨2, 3⟩⟩, ⟨.op, "(", ⟨4, 5⟩⟩, ⟨.name, "b", ⟨5, 6⟩⟩, ⟨.op, "-", ⟨7, 8⟩⟩, ⟨.name, "a", ⟨9, 10⟩⟩, ⟨.op, ")", ⟨10, 11⟩⟩, ⟨.newline, "", ⟨11, 12⟩⟩, ⟨.endmarker, "", ⟨0, 0⟩⟩]
    [] [[], ["a"], ["b"]] = true := by decide +kernel

/-- "a + np.log(a, base=10)" -/
example : meansTo .exhausted
    [⟨.name, "a", ⟨0, 1⟩⟩, ⟨.op, "+", ⟨2, 3⟩⟩, ⟨.name, "np", ⟨4, 6⟩⟩, ⟨.op, ".", ⟨6, 7⟩⟩, ⟨.name, "log", ⟨7, 10⟩⟩, ⟨.op, "(", ⟨10, 11⟩⟩, ⟨.name, "a", ⟨11, 12⟩⟩, ⟨.op, ",", ⟨12, 13⟩⟩, ⟨.name, "base", ⟨14, 18⟩⟩, ⟨.op, "=", ⟨18, 19⟩⟩, ⟨.number, "10", ⟨19, 21⟩⟩, ⟨.op, ")", ⟨21, 22⟩⟩, ⟨.newline, "", ⟨22, 23⟩⟩, ⟨.endmarker, "", ⟨0, 0⟩⟩]
    [] [[], ["a"], ["np.log(a, base=10)"]] = true := by decide +kernel

/-- "a + np.log(a, base=10) - np . log(a , base = 10)" -/
example : meansTo .exhausted
    [⟨.name, "a", ⟨0, 1⟩⟩, ⟨.op, "+", ⟨2, 3⟩⟩, ⟨.name, "np", ⟨4, 6⟩⟩, ⟨.op, ".", ⟨6, 7⟩⟩, ⟨.name, "log", ⟨7, 10⟩⟩, ⟨.op, "(", ⟨10, 11⟩⟩, ⟨.name, "a", ⟨11, 12⟩⟩, ⟨.op, ",", ⟨12, 13⟩⟩, ⟨.name, "base", ⟨14, 18⟩⟩, ⟨.op, "=", ⟨18, 19⟩⟩, ⟨.number, "10", ⟨19, 21⟩⟩, ⟨.op, ")", ⟨21, 22⟩⟩, ⟨.op, "-", ⟨23, 24⟩⟩, ⟨.name, "np", ⟨25, 27⟩⟩, ⟨.op, ".", ⟨28, 29⟩⟩, ⟨.name, "log", ⟨30, 33⟩⟩, ⟨.op, "(", ⟨33, 34⟩⟩, ⟨.name, "a", ⟨34, 35⟩⟩, ⟨.op, ",", ⟨36, 37⟩⟩, ⟨.name, "base", ⟨38, 42⟩⟩, ⟨.op, "=", ⟨43, 44⟩⟩, ⟨.number, "10", ⟨45, 47⟩⟩, ⟨.op, ")", ⟨47, 48⟩⟩, ⟨.newline, "", ⟨48, 49⟩⟩, ⟨.endmarker, "", ⟨0, 0⟩⟩]
    [] [[], ["a"]] = true := by decide +kernel

/-- "a + (I(b) + c)" -/
example : meansTo .exhausted
    [⟨.name, "a", ⟨0, 1⟩⟩, ⟨.op, "+", ⟨2, 3⟩⟩, ⟨.op, "(", ⟨4, 5⟩⟩, ⟨.name, "I", ⟨5, 6⟩⟩, ⟨.op, "(", ⟨6, 7⟩⟩, ⟨.name, "b", ⟨7, 8⟩⟩, ⟨.op, ")", ⟨8, 9⟩⟩, ⟨.op, "+", ⟨10, 11⟩⟩, ⟨.name, "c", ⟨12, 13⟩⟩, ⟨.op, ")", ⟨13, 14⟩⟩, ⟨.newline, "", ⟨14, 15⟩⟩, ⟨.endmarker, "", ⟨0, 0⟩⟩]
    [] [[], ["a"], ["I(b)"], ["c"]] = true := by decide +kernel

/-- "a + I(b + c)" -/
example : meansTo .exhausted
    [⟨.name, "a", ⟨0, 1⟩⟩, ⟨.op, "+", ⟨2, 3⟩⟩, ⟨.name, "I", ⟨4, 5⟩⟩, ⟨.op, "(", ⟨5, 6⟩⟩, ⟨.name, "b", ⟨6, 7⟩⟩, ⟨.op, "+", ⟨8, 9⟩⟩, ⟨.name, "c", ⟨10, 11⟩⟩, ⟨.op, ")", ⟨11, 12⟩⟩, ⟨.newline, "", ⟨12, 13⟩⟩, ⟨.endmarker, "", ⟨0, 0⟩⟩]
    [] [[], ["a"], ["I(b + c)"]] = true := by decide +kernel

/-- "a:b" -/
example : meansTo .exhausted
    [⟨.name, "a", ⟨0, 1⟩⟩, ⟨.op, ":", ⟨1, 2⟩⟩, ⟨.name, "b", ⟨2, 3⟩⟩, ⟨.newline, "", ⟨3, 4⟩⟩, ⟨.endmarker, "", ⟨0, 0⟩⟩]
    [] [[], ["a", "b"]] = true := by decide +kernel

/-- "a:b:a" -/
example : meansTo .exhausted
    [⟨.name, "a", ⟨0, 1⟩⟩, ⟨.op, ":", ⟨1, 2⟩⟩, ⟨.name, "b", ⟨2, 3⟩⟩, ⟨.op, ":", ⟨3, 4⟩⟩, ⟨.name, "a", ⟨4, 5⟩⟩, ⟨.newline, "", ⟨5, 6⟩⟩, ⟨.endmarker, "", ⟨0, 0⟩⟩]
    [] [[], ["a", "b"]] = true := by decide +kernel

/-- "a:(b + c)" -/
example : meansTo .exhausted
    [⟨.name, "a", ⟨0, 1⟩⟩, ⟨.op, ":", ⟨1, 2⟩⟩, ⟨.op, "(", ⟨2, 3⟩⟩, ⟨.name, "b", ⟨3, 4⟩⟩, ⟨.op, "+", ⟨5, 6⟩⟩, ⟨.name, "c", ⟨7, 8⟩⟩, ⟨.op, ")", ⟨8, 9⟩⟩, ⟨.newline, "", ⟨9, 10⟩⟩, ⟨.endmarker, "", ⟨0, 0⟩⟩]
    [] [[], ["a", "b"], ["a", "c"]] = true := by decide +kernel

/-- "(a + b):c" -/
example : meansTo .exhausted
    [⟨.op, "(", ⟨0, 1⟩⟩, ⟨.name, "a", ⟨1, 2⟩⟩, ⟨.op, "+", ⟨3, 4⟩⟩, ⟨.name, "b", ⟨5, 6⟩⟩, ⟨.op, ")", ⟨6, 7⟩⟩, ⟨.op, ":", ⟨7, 8⟩⟩, ⟨.name, "c", ⟨8, 9⟩⟩, ⟨.newline, "", ⟨9, 10⟩⟩, ⟨.endmarker, "", ⟨0, 0⟩⟩]
    [] [[], ["a", "c"], ["b", "c"]] = true := by decide +kernel

/-- "a:(b - c)" -/
example : meansTo .exhausted
    [⟨.name, "a", ⟨0, 1⟩⟩, ⟨.op, ":", ⟨1, 2⟩⟩, ⟨.op, "(", ⟨2, 3⟩⟩, ⟨.name, "b", ⟨3, 4⟩⟩, ⟨.op, "-", ⟨5, 6⟩⟩, ⟨.name, "c", ⟨7, 8⟩⟩, ⟨.op, ")", ⟨8, 9⟩⟩, ⟨.newline, "", ⟨9, 10⟩⟩, ⟨.endmarker, "", ⟨0, 0⟩⟩]
    [] [[], ["a", "b"]] = true := by decide +kernel

/-- "c + a:c + a:(b - c)" -/
example : meansTo .exhausted
    [⟨.name, "c", ⟨0, 1⟩⟩, ⟨.op, "+", ⟨2, 3⟩⟩, ⟨.name, "a", ⟨4, 5⟩⟩, ⟨.op, ":", ⟨5, 6⟩⟩, ⟨.name, "c", ⟨6, 7⟩⟩, ⟨.op, "+", ⟨8, 9⟩⟩, ⟨.name, "a", ⟨10, 11⟩⟩, ⟨.op, ":", ⟨11, 12⟩⟩, ⟨.op, "(", ⟨12, 13⟩⟩, ⟨.name, "b", ⟨13, 14⟩⟩, ⟨.op, "-", ⟨15, 16⟩⟩, ⟨.name, "c", ⟨17, 18⟩⟩, ⟨.op, ")", ⟨18, 19⟩⟩, ⟨.newline, "", ⟨19, 20⟩⟩, ⟨.endmarker, "", ⟨0, 0⟩⟩]
    [] [[], ["c"], ["a", "c"], ["a", "b"]] = true := by decide +kernel

/-- "(a - b):c" -/
example : meansTo .exhausted
    [⟨.op, "(", ⟨0, 1⟩⟩, ⟨.name, "a", ⟨1, 2⟩⟩, ⟨.op, "-", ⟨3, 4⟩⟩, ⟨.name, "b", ⟨5, 6⟩⟩, ⟨.op, ")", ⟨6, 7⟩⟩, ⟨.op, ":", ⟨7, 8⟩⟩, ⟨.name, "c", ⟨8, 9⟩⟩, ⟨.newline, "", ⟨9, 10⟩⟩, ⟨.endmarker, "", ⟨0, 0⟩⟩]
    [] [[], ["a", "c"]] = true := by decide +kernel

/-- "b + b:c + (a - b):c" -/
example : meansTo .exhausted
    [⟨.name, "b", ⟨0, 1⟩⟩, ⟨.op, "+", ⟨2, 3⟩⟩, ⟨.name, "b", ⟨4, 5⟩⟩, ⟨.op, ":", ⟨5, 6⟩⟩, ⟨.name, "c", ⟨6, 7⟩⟩, ⟨.op, "+", ⟨8, 9⟩⟩, ⟨.op, "(", ⟨10, 11⟩⟩, ⟨.name, "a", ⟨11, 12⟩⟩, ⟨.op, "-", ⟨13, 14⟩⟩, ⟨.name, "b", ⟨15, 16⟩⟩, ⟨.op, ")", ⟨16, 17⟩⟩, ⟨.op, ":", ⟨17, 18⟩⟩, ⟨.name, "c", ⟨18, 19⟩⟩, ⟨.newline, "", ⟨19, 20⟩⟩, ⟨.endmarker, "", ⟨0, 0⟩⟩]
    [] [[], ["b"], ["b", "c"], ["a", "c"]] = true := by decide +kernel

/-- "a:b - a:b" -/
example : meansTo .exhausted
    [⟨.name, "a", ⟨0, 1⟩⟩, ⟨.op, ":", ⟨1, 2⟩⟩, ⟨.name, "b", ⟨2, 3⟩⟩, ⟨.op, "-", ⟨4, 5⟩⟩, ⟨.name, "a", ⟨6, 7⟩⟩, ⟨.op, ":", ⟨7, 8⟩⟩, ⟨.name, "b", ⟨8, 9⟩⟩, ⟨.newline, "", ⟨9, 10⟩⟩, ⟨.endmarker, "", ⟨0, 0⟩⟩]
    [] [[]] = true := by decide +kernel

/-- "a:b - b:a" -/
example : meansTo .exhausted
    [⟨.name, "a", ⟨0, 1⟩⟩, ⟨.op, ":", ⟨1, 2⟩⟩, ⟨.name, "b", ⟨2, 3⟩⟩, ⟨.op, "-", ⟨4, 5⟩⟩, ⟨.name, "b", ⟨6, 7⟩⟩, ⟨.op, ":", ⟨7, 8⟩⟩, ⟨.name, "a", ⟨8, 9⟩⟩, ⟨.newline, "", ⟨9, 10⟩⟩, ⟨.endmarker, "", ⟨0, 0⟩⟩]
    [] [[]] = true := by decide +kernel

/-- "1 - (a + b)" -/
example : meansTo .exhausted
    [⟨.number, "1", ⟨0, 1⟩⟩, ⟨.op, "-", ⟨2, 3⟩⟩, ⟨.op, "(", ⟨4, 5⟩⟩, ⟨.name, "a", ⟨5, 6⟩⟩, ⟨.op, "+", ⟨7, 8⟩⟩, ⟨.name, "b", ⟨9, 10⟩⟩, ⟨.op, ")", ⟨10, 11⟩⟩, ⟨.newline, "", ⟨11, 12⟩⟩, ⟨.endmarker, "", ⟨0, 0⟩⟩]
    [] [[]] = true := by decide +kernel

/-- "a + b - (a + b)" -/
example : meansTo .exhausted
    [⟨.name, "a", ⟨0, 1⟩⟩, ⟨.op, "+", ⟨2, 3⟩⟩, ⟨.name, "b", ⟨4, 5⟩⟩, ⟨.op, "-", ⟨6, 7⟩⟩, ⟨.op, "(", ⟨8, 9⟩⟩, ⟨.name, "a", ⟨9, 10⟩⟩, ⟨.op, "+", ⟨11, 12⟩⟩, ⟨.name, "b", ⟨13, 14⟩⟩, ⟨.op, ")", ⟨14, 15⟩⟩, ⟨.newline, "", ⟨15, 16⟩⟩, ⟨.endmarker, "", ⟨0, 0⟩⟩]
    [] [[]] = true := by decide +kernel

/-- "a * b" -/
example : meansTo .exhausted
    [⟨.name, "a", ⟨0, 1⟩⟩, ⟨.op, "*", ⟨2, 3⟩⟩, ⟨.name, "b", ⟨4, 5⟩⟩, ⟨.newline, "", ⟨5, 6⟩⟩, ⟨.endmarker, "", ⟨0, 0⟩⟩]
    [] [[], ["a"], ["b"], ["a", "b"]] = true := by decide +kernel

/-- "a * b * a" -/
example : meansTo .exhausted
    [⟨.name, "a", ⟨0, 1⟩⟩, ⟨.op, "*", ⟨2, 3⟩⟩, ⟨.name, "b", ⟨4, 5⟩⟩, ⟨.op, "*", ⟨6, 7⟩⟩, ⟨.name, "a", ⟨8, 9⟩⟩, ⟨.newline, "", ⟨9, 10⟩⟩, ⟨.endmarker, "", ⟨0, 0⟩⟩]
    [] [[], ["a"], ["b"], ["a", "b"]] = true := by decide +kernel

/-- "a * (b + c)" -/
example : meansTo .exhausted
    [⟨.name, "a", ⟨0, 1⟩⟩, ⟨.op, "*", ⟨2, 3⟩⟩, ⟨.op, "(", ⟨4, 5⟩⟩, ⟨.name, "b", ⟨5, 6⟩⟩, ⟨.op, "+", ⟨7, 8⟩⟩, ⟨.name, "c", ⟨9, 10⟩⟩, ⟨.op, ")", ⟨10, 11⟩⟩, ⟨.newline, "", ⟨11, 12⟩⟩, ⟨.endmarker, "", ⟨0, 0⟩⟩]
    [] [[], ["a"], ["b"], ["c"], ["a", "b"], ["a", "c"]] = true := by decide +kernel

/-- "(a + b) * c" -/
example : meansTo .exhausted
    [⟨.op, "(", ⟨0, 1⟩⟩, ⟨.name, "a", ⟨1, 2⟩⟩, ⟨.op, "+", ⟨3, 4⟩⟩, ⟨.name, "b", ⟨5, 6⟩⟩, ⟨.op, ")", ⟨6, 7⟩⟩, ⟨.op, "*", ⟨8, 9⟩⟩, ⟨.name, "c", ⟨10, 11⟩⟩, ⟨.newline, "", ⟨11, 12⟩⟩, ⟨.endmarker, "", ⟨0, 0⟩⟩]
    [] [[], ["a"], ["b"], ["c"], ["a", "c"], ["b", "c"]] = true := by decide +kernel

/-- "a * (b - c)" -/
example : meansTo .exhausted
    [⟨.name, "a", ⟨0, 1⟩⟩, ⟨.op, "*", ⟨2, 3⟩⟩, ⟨.op, "(", ⟨4, 5⟩⟩, ⟨.name, "b", ⟨5, 6⟩⟩, ⟨.op, "-", ⟨7, 8⟩⟩, ⟨.name, "c", ⟨9, 10⟩⟩, ⟨.op, ")", ⟨10, 11⟩⟩, ⟨.newline, "", ⟨11, 12⟩⟩, ⟨.endmarker, "", ⟨0, 0⟩⟩]
    [] [[], ["a"], ["b"], ["a", "b"]] = true := by decide +kernel

/-- "c + a:c + a * (b - c)" -/
example : meansTo .exhausted
    [⟨.name, "c", ⟨0, 1⟩⟩, ⟨.op, "+", ⟨2, 3⟩⟩, ⟨.name, "a", ⟨4, 5⟩⟩, ⟨.op, ":", ⟨5, 6⟩⟩, ⟨.name, "c", ⟨6, 7⟩⟩, ⟨.op, "+", ⟨8, 9⟩⟩, ⟨.name, "a", ⟨10, 11⟩⟩, ⟨.op, "*", ⟨12, 13⟩⟩, ⟨.op, "(", ⟨14, 15⟩⟩, ⟨.name, "b", ⟨15, 16⟩⟩, ⟨.op, "-", ⟨17, 18⟩⟩, ⟨.name, "c", ⟨19, 20⟩⟩, ⟨.op, ")", ⟨20, 21⟩⟩, ⟨.newline, "", ⟨21, 22⟩⟩, ⟨.endmarker, "", ⟨0, 0⟩⟩]
    [] [[], ["c"], ["a", "c"], ["a"], ["b"], ["a", "b"]] = true := by decide +kernel

/-- "(a - b) * c" -/
example : meansTo .exhausted
    [⟨.op, "(", ⟨0, 1⟩⟩, ⟨.name, "a", ⟨1, 2⟩⟩, ⟨.op, "-", ⟨3, 4⟩⟩, ⟨.name, "b", ⟨5, 6⟩⟩, ⟨.op, ")", ⟨6, 7⟩⟩, ⟨.op, "*", ⟨8, 9⟩⟩, ⟨.name, "c", ⟨10, 11⟩⟩, ⟨.newline, "", ⟨11, 12⟩⟩, ⟨.endmarker, "", ⟨0, 0⟩⟩]
    [] [[], ["a"], ["c"], ["a", "c"]] = true := by decide +kernel

/-- "b + b:c + (a - b) * c" -/
example : meansTo .exhausted
    [⟨.name, "b", ⟨0, 1⟩⟩, ⟨.op, "+", ⟨2, 3⟩⟩, ⟨.name, "b", ⟨4, 5⟩⟩, ⟨.op, ":", ⟨5, 6⟩⟩, ⟨.name, "c", ⟨6, 7⟩⟩, ⟨.op, "+", ⟨8, 9⟩⟩, ⟨.op, "(", ⟨10, 11⟩⟩, ⟨.name, "a", ⟨11, 12⟩⟩, ⟨.op, "-", ⟨13, 14⟩⟩, ⟨.name, "b", ⟨15, 16⟩⟩, ⟨.op, ")", ⟨16, 17⟩⟩, ⟨.op, "*", ⟨18, 19⟩⟩, ⟨.name, "c", ⟨20, 21⟩⟩, ⟨.newline, "", ⟨21, 22⟩⟩, ⟨.endmarker, "", ⟨0, 0⟩⟩]
    [] [[], ["b"], ["b", "c"], ["a"], ["c"], ["a", "c"]] = true := by decide +kernel

/-- "a/b" -/
example : meansTo .exhausted
    [⟨.name, "a", ⟨0, 1⟩⟩, ⟨.op, "/", ⟨1, 2⟩⟩, ⟨.name, "b", ⟨2, 3⟩⟩, ⟨.newline, "", ⟨3, 4⟩⟩, ⟨.endmarker, "", ⟨0, 0⟩⟩]
    [] [[], ["a"], ["a", "b"]] = true := by decide +kernel

/-- "(a + b)/c" -/
example : meansTo .exhausted
    [⟨.op, "(", ⟨0, 1⟩⟩, ⟨.name, "a", ⟨1, 2⟩⟩, ⟨.op, "+", ⟨3, 4⟩⟩, ⟨.name, "b", ⟨5, 6⟩⟩, ⟨.op, ")", ⟨6, 7⟩⟩, ⟨.op, "/", ⟨7, 8⟩⟩, ⟨.name, "c", ⟨8, 9⟩⟩, ⟨.newline, "", ⟨9, 10⟩⟩, ⟨.endmarker, "", ⟨0, 0⟩⟩]
    [] [[], ["a"], ["b"], ["a", "b", "c"]] = true := by decide +kernel

/-- "b + b:c + (a - b)/c" -/
example : meansTo .exhausted
    [⟨.name, "b", ⟨0, 1⟩⟩, ⟨.op, "+", ⟨2, 3⟩⟩, ⟨.name, "b", ⟨4, 5⟩⟩, ⟨.op, ":", ⟨5, 6⟩⟩, ⟨.name, "c", ⟨6, 7⟩⟩, ⟨.op, "+", ⟨8, 9⟩⟩, ⟨.op, "(", ⟨10, 11⟩⟩, ⟨.name, "a", ⟨11, 12⟩⟩, ⟨.op, "-", ⟨13, 14⟩⟩, ⟨.name, "b", ⟨15, 16⟩⟩, ⟨.op, ")", ⟨16, 17⟩⟩, ⟨.op, "/", ⟨17, 18⟩⟩, ⟨.name, "c", ⟨18, 19⟩⟩, ⟨.newline, "", ⟨19, 20⟩⟩, ⟨.endmarker, "", ⟨0, 0⟩⟩]
    [] [[], ["b"], ["b", "c"], ["a"], ["a", "c"]] = true := by decide +kernel

/-- "a/(b + c)" -/
example : meansTo .exhausted
    [⟨.name, "a", ⟨0, 1⟩⟩, ⟨.op, "/", ⟨1, 2⟩⟩, ⟨.op, "(", ⟨2, 3⟩⟩, ⟨.name, "b", ⟨3, 4⟩⟩, ⟨.op, "+", ⟨5, 6⟩⟩, ⟨.name, "c", ⟨7, 8⟩⟩, ⟨.op, ")", ⟨8, 9⟩⟩, ⟨.newline, "", ⟨9, 10⟩⟩, ⟨.endmarker, "", ⟨0, 0⟩⟩]
    [] [[], ["a"], ["a", "b"], ["a", "c"]] = true := by decide +kernel

/-- "a ** 2" -/
example : meansTo .exhausted
    [⟨.name, "a", ⟨0, 1⟩⟩, ⟨.op, "**", ⟨2, 4⟩⟩, ⟨.number, "2", ⟨5, 6⟩⟩, ⟨.newline, "", ⟨6, 7⟩⟩, ⟨.endmarker, "", ⟨0, 0⟩⟩]
    [] [[], ["a"]] = true := by decide +kernel

/-- "(a + b + c + d) ** 2" -/
example : meansTo .exhausted
    [⟨.op, "(", ⟨0, 1⟩⟩, ⟨.name, "a", ⟨1, 2⟩⟩, ⟨.op, "+", ⟨3, 4⟩⟩, ⟨.name, "b", ⟨5, 6⟩⟩, ⟨.op, "+", ⟨7, 8⟩⟩, ⟨.name, "c", ⟨9, 10⟩⟩, ⟨.op, "+", ⟨11, 12⟩⟩, ⟨.name, "d", ⟨13, 14⟩⟩, ⟨.op, ")", ⟨14, 15⟩⟩, ⟨.op, "**", ⟨16, 18⟩⟩, ⟨.number, "2", ⟨19, 20⟩⟩, ⟨.newline, "", ⟨20, 21⟩⟩, ⟨.endmarker, "", ⟨0, 0⟩⟩]
    [] [[], ["a"], ["b"], ["c"], ["d"], ["a", "b"], ["a", "c"], ["a", "d"], ["b", "c"], ["b", "d"], ["c", "d"]] = true := by decide +kernel

/-- "(a + b + c + d) ** 3" -/
example : meansTo .exhausted
    [⟨.op, "(", ⟨0, 1⟩⟩, ⟨.name, "a", ⟨1, 2⟩⟩, ⟨.op, "+", ⟨3, 4⟩⟩, ⟨.name, "b", ⟨5, 6⟩⟩, ⟨.op, "+", ⟨7, 8⟩⟩, ⟨.name, "c", ⟨9, 10⟩⟩, ⟨.op, "+", ⟨11, 12⟩⟩, ⟨.name, "d", ⟨13, 14⟩⟩, ⟨.op, ")", ⟨14, 15⟩⟩, ⟨.op, "**", ⟨16, 18⟩⟩, ⟨.number, "3", ⟨19, 20⟩⟩, ⟨.newline, "", ⟨20, 21⟩⟩, ⟨.endmarker, "", ⟨0, 0⟩⟩]
    [] [[], ["a"], ["b"], ["c"], ["d"], ["a", "b"], ["a", "c"], ["a", "d"], ["b", "c"], ["b", "d"], ["c", "d"], ["a", "b", "c"], ["a", "b", "d"], ["a", "c", "d"], ["b", "c", "d"]] = true := by decide +kernel

/-- "a + +a" -/
example : meansTo .exhausted
    [⟨.name, "a", ⟨0, 1⟩⟩, ⟨.op, "+", ⟨2, 3⟩⟩, ⟨.op, "+", ⟨4, 5⟩⟩, ⟨.name, "a", ⟨5, 6⟩⟩, ⟨.newline, "", ⟨6, 7⟩⟩, ⟨.endmarker, "", ⟨0, 0⟩⟩]
    [] [[], ["a"]] = true := by decide +kernel

/-- "~ a + b" -/
example : meansTo .exhausted
    [⟨.op, "~", ⟨0, 1⟩⟩, ⟨.name, "a", ⟨2, 3⟩⟩, ⟨.op, "+", ⟨4, 5⟩⟩, ⟨.name, "b", ⟨6, 7⟩⟩, ⟨.newline, "", ⟨7, 8⟩⟩, ⟨.endmarker, "", ⟨0, 0⟩⟩]
    [] [[], ["a"], ["b"]] = true := by decide +kernel

/-- "~ a*b" -/
example : meansTo .exhausted
    [⟨.op, "~", ⟨0, 1⟩⟩, ⟨.name, "a", ⟨2, 3⟩⟩, ⟨.op, "*", ⟨3, 4⟩⟩, ⟨.name, "b", ⟨4, 5⟩⟩, ⟨.newline, "", ⟨5, 6⟩⟩, ⟨.endmarker, "", ⟨0, 0⟩⟩]
    [] [[], ["a"], ["b"], ["a", "b"]] = true := by decide +kernel

/-- "~ a*b + 0" -/
example : meansTo .exhausted
    [⟨.op, "~", ⟨0, 1⟩⟩, ⟨.name, "a", ⟨2, 3⟩⟩, ⟨.op, "*", ⟨3, 4⟩⟩, ⟨.name, "b", ⟨4, 5⟩⟩, ⟨.op, "+", ⟨6, 7⟩⟩, ⟨.number, "0", ⟨8, 9⟩⟩, ⟨.newline, "", ⟨9, 10⟩⟩, ⟨.endmarker, "", ⟨0, 0⟩⟩]
    [] [["a"], ["b"], ["a", "b"]] = true := by decide +kernel

/-- "~ -1" -/
example : meansTo .exhausted
    [⟨.op, "~", ⟨0, 1⟩⟩, ⟨.op, "-", ⟨2, 3⟩⟩, ⟨.number, "1", ⟨3, 4⟩⟩, ⟨.newline, "", ⟨4, 5⟩⟩, ⟨.endmarker, "", ⟨0, 0⟩⟩]
    [] [] = true := by decide +kernel

/-- "0 ~ a + b" -/
example : meansTo .exhausted
    [⟨.number, "0", ⟨0, 1⟩⟩, ⟨.op, "~", ⟨2, 3⟩⟩, ⟨.name, "a", ⟨4, 5⟩⟩, ⟨.op, "+", ⟨6, 7⟩⟩, ⟨.name, "b", ⟨8, 9⟩⟩, ⟨.newline, "", ⟨9, 10⟩⟩, ⟨.endmarker, "", ⟨0, 0⟩⟩]
    [] [[], ["a"], ["b"]] = true := by decide +kernel

/-- "1 ~ a + b" -/
example : meansTo .exhausted
    [⟨.number, "1", ⟨0, 1⟩⟩, ⟨.op, "~", ⟨2, 3⟩⟩, ⟨.name, "a", ⟨4, 5⟩⟩, ⟨.op, "+", ⟨6, 7⟩⟩, ⟨.name, "b", ⟨8, 9⟩⟩, ⟨.newline, "", ⟨9, 10⟩⟩, ⟨.endmarker, "", ⟨0, 0⟩⟩]
    [[]] [[], ["a"], ["b"]] = true := by decide +kernel

/-- "y ~ a + b" -/
example : meansTo .exhausted
    [⟨.name, "y", ⟨0, 1⟩⟩, ⟨.op, "~", ⟨2, 3⟩⟩, ⟨.name, "a", ⟨4, 5⟩⟩, ⟨.op, "+", ⟨6, 7⟩⟩, ⟨.name, "b", ⟨8, 9⟩⟩, ⟨.newline, "", ⟨9, 10⟩⟩, ⟨.endmarker, "", ⟨0, 0⟩⟩]
    [["y"]] [[], ["a"], ["b"]] = true := by decide +kernel

/-- "0 + y ~ a + b" -/
example : meansTo .exhausted
    [⟨.number, "0", ⟨0, 1⟩⟩, ⟨.op, "+", ⟨2, 3⟩⟩, ⟨.name, "y", ⟨4, 5⟩⟩, ⟨.op, "~", ⟨6, 7⟩⟩, ⟨.name, "a", ⟨8, 9⟩⟩, ⟨.op, "+", ⟨10, 11⟩⟩, ⟨.name, "b", ⟨12, 13⟩⟩, ⟨.newline, "", ⟨13, 14⟩⟩, ⟨.endmarker, "", ⟨0, 0⟩⟩]
    [["y"]] [[], ["a"], ["b"]] = true := by decide +kernel

/-- "0 + y * z ~ a + b" -/
example : meansTo .exhausted
    [⟨.number, "0", ⟨0, 1⟩⟩, ⟨.op, "+", ⟨2, 3⟩⟩, ⟨.name, "y", ⟨4, 5⟩⟩, ⟨.op, "*", ⟨6, 7⟩⟩, ⟨.name, "z", ⟨8, 9⟩⟩, ⟨.op, "~", ⟨10, 11⟩⟩, ⟨.name, "a", ⟨12, 13⟩⟩, ⟨.op, "+", ⟨14, 15⟩⟩, ⟨.name, "b", ⟨16, 17⟩⟩, ⟨.newline, "", ⟨17, 18⟩⟩, ⟨.endmarker, "", ⟨0, 0⟩⟩]
    [["y"], ["z"], ["y", "z"]] [[], ["a"], ["b"]] = true := by decide +kernel

/-- "-1 ~ 1" -/
example : meansTo .exhausted
    [⟨.op, "-", ⟨0, 1⟩⟩, ⟨.number, "1", ⟨1, 2⟩⟩, ⟨.op, "~", ⟨3, 4⟩⟩, ⟨.number, "1", ⟨5, 6⟩⟩, ⟨.newline, "", ⟨6, 7⟩⟩, ⟨.endmarker, "", ⟨0, 0⟩⟩]
    [] [[]] = true := by decide +kernel

/-- "1 + y ~ a + b" -/
example : meansTo .exhausted
    [⟨.number, "1", ⟨0, 1⟩⟩, ⟨.op, "+", ⟨2, 3⟩⟩, ⟨.name, "y", ⟨4, 5⟩⟩, ⟨.op, "~", ⟨6, 7⟩⟩, ⟨.name, "a", ⟨8, 9⟩⟩, ⟨.op, "+", ⟨10, 11⟩⟩, ⟨.name, "b", ⟨12, 13⟩⟩, ⟨.newline, "", ⟨13, 14⟩⟩, ⟨.endmarker, "", ⟨0, 0⟩⟩]
    [[], ["y"]] [[], ["a"], ["b"]] = true := by decide +kernel

/-- "a + b * c" -/
example : meansTo .exhausted
    [⟨.name, "a", ⟨0, 1⟩⟩, ⟨.op, "+", ⟨2, 3⟩⟩, ⟨.name, "b", ⟨4, 5⟩⟩, ⟨.op, "*", ⟨6, 7⟩⟩, ⟨.name, "c", ⟨8, 9⟩⟩, ⟨.newline, "", ⟨9, 10⟩⟩, ⟨.endmarker, "", ⟨0, 0⟩⟩]
    [] [[], ["a"], ["b"], ["c"], ["b", "c"]] = true := by decide +kernel

/-- "a * b + c" -/
example : meansTo .exhausted
    [⟨.name, "a", ⟨0, 1⟩⟩, ⟨.op, "*", ⟨2, 3⟩⟩, ⟨.name, "b", ⟨4, 5⟩⟩, ⟨.op, "+", ⟨6, 7⟩⟩, ⟨.name, "c", ⟨8, 9⟩⟩, ⟨.newline, "", ⟨9, 10⟩⟩, ⟨.endmarker, "", ⟨0, 0⟩⟩]
    [] [[], ["a"], ["b"], ["a", "b"], ["c"]] = true := by decide +kernel

/-- "a * b - a" -/
example : meansTo .exhausted
    [⟨.name, "a", ⟨0, 1⟩⟩, ⟨.op, "*", ⟨2, 3⟩⟩, ⟨.name, "b", ⟨4, 5⟩⟩, ⟨.op, "-", ⟨6, 7⟩⟩, ⟨.name, "a", ⟨8, 9⟩⟩, ⟨.newline, "", ⟨9, 10⟩⟩, ⟨.endmarker, "", ⟨0, 0⟩⟩]
    [] [[], ["b"], ["a", "b"]] = true := by decide +kernel

/-- "a + b / c" -/
example : meansTo .exhausted
    [⟨.name, "a", ⟨0, 1⟩⟩, ⟨.op, "+", ⟨2, 3⟩⟩, ⟨.name, "b", ⟨4, 5⟩⟩, ⟨.op, "/", ⟨6, 7⟩⟩, ⟨.name, "c", ⟨8, 9⟩⟩, ⟨.newline, "", ⟨9, 10⟩⟩, ⟨.endmarker, "", ⟨0, 0⟩⟩]
    [] [[], ["a"], ["b"], ["b", "c"]] = true := by decide +kernel

/-- "a / b + c" -/
example : meansTo .exhausted
    [⟨.name, "a", ⟨0, 1⟩⟩, ⟨.op, "/", ⟨2, 3⟩⟩, ⟨.name, "b", ⟨4, 5⟩⟩, ⟨.op, "+", ⟨6, 7⟩⟩, ⟨.name, "c", ⟨8, 9⟩⟩, ⟨.newline, "", ⟨9, 10⟩⟩, ⟨.endmarker, "", ⟨0, 0⟩⟩]
    [] [[], ["a"], ["a", "b"], ["c"]] = true := by decide +kernel

/-- "a*b:c" -/
example : meansTo .exhausted
    [⟨.name, "a", ⟨0, 1⟩⟩, ⟨.op, "*", ⟨1, 2⟩⟩, ⟨.name, "b", ⟨2, 3⟩⟩, ⟨.op, ":", ⟨3, 4⟩⟩, ⟨.name, "c", ⟨4, 5⟩⟩, ⟨.newline, "", ⟨5, 6⟩⟩, ⟨.endmarker, "", ⟨0, 0⟩⟩]
    [] [[], ["a"], ["b", "c"], ["a", "b", "c"]] = true := by decide +kernel

/-- "a:b*c" -/
example : meansTo .exhausted
    [⟨.name, "a", ⟨0, 1⟩⟩, ⟨.op, ":", ⟨1, 2⟩⟩, ⟨.name, "b", ⟨2, 3⟩⟩, ⟨.op, "*", ⟨3, 4⟩⟩, ⟨.name, "c", ⟨4, 5⟩⟩, ⟨.newline, "", ⟨5, 6⟩⟩, ⟨.endmarker, "", ⟨0, 0⟩⟩]
    [] [[], ["a", "b"], ["c"], ["a", "b", "c"]] = true := by decide +kernel

/-- "~ 1 + 1 + 0 + 1" -/
example : meansTo .exhausted
    [⟨.op, "~", ⟨0, 1⟩⟩, ⟨.number, "1", ⟨2, 3⟩⟩, ⟨.op, "+", ⟨4, 5⟩⟩, ⟨.number, "1", ⟨6, 7⟩⟩, ⟨.op, "+", ⟨8, 9⟩⟩, ⟨.number, "0", ⟨10, 11⟩⟩, ⟨.op, "+", ⟨12, 13⟩⟩, ⟨.number, "1", ⟨14, 15⟩⟩, ⟨.newline, "", ⟨15, 16⟩⟩, ⟨.endmarker, "", ⟨0, 0⟩⟩]
    [] [[]] = true := by decide +kernel

/-- "~ 0 + 1 + 0" -/
example : meansTo .exhausted
    [⟨.op, "~", ⟨0, 1⟩⟩, ⟨.number, "0", ⟨2, 3⟩⟩, ⟨.op, "+", ⟨4, 5⟩⟩, ⟨.number, "1", ⟨6, 7⟩⟩, ⟨.op, "+", ⟨8, 9⟩⟩, ⟨.number, "0", ⟨10, 11⟩⟩, ⟨.newline, "", ⟨11, 12⟩⟩, ⟨.endmarker, "", ⟨0, 0⟩⟩]
    [] [] = true := by decide +kernel

/-- "~ 0 - 1 - 1 + 0 + 1" -/
example : meansTo .exhausted
    [⟨.op, "~", ⟨0, 1⟩⟩, ⟨.number, "0", ⟨2, 3⟩⟩, ⟨.op, "-", ⟨4, 5⟩⟩, ⟨.number, "1", ⟨6, 7⟩⟩, ⟨.op, "-", ⟨8, 9⟩⟩, ⟨.number, "1", ⟨10, 11⟩⟩, ⟨.op, "+", ⟨12, 13⟩⟩, ⟨.number, "0", ⟨14, 15⟩⟩, ⟨.op, "+", ⟨16, 17⟩⟩, ⟨.number, "1", ⟨18, 19⟩⟩, ⟨.newline, "", ⟨19, 20⟩⟩, ⟨.endmarker, "", ⟨0, 0⟩⟩]
    [] [[]] = true := by decide +kernel

/-- "~ 1 - 1" -/
example : meansTo .exhausted
    [⟨.op, "~", ⟨0, 1⟩⟩, ⟨.number, "1", ⟨2, 3⟩⟩, ⟨.op, "-", ⟨4, 5⟩⟩, ⟨.number, "1", ⟨6, 7⟩⟩, ⟨.newline, "", ⟨7, 8⟩⟩, ⟨.endmarker, "", ⟨0, 0⟩⟩]
    [] [] = true := by decide +kernel

/-- "~ 0 + a + 1" -/
example : meansTo .exhausted
    [⟨.op, "~", ⟨0, 1⟩⟩, ⟨.number, "0", ⟨2, 3⟩⟩, ⟨.op, "+", ⟨4, 5⟩⟩, ⟨.name, "a", ⟨6, 7⟩⟩, ⟨.op, "+", ⟨8, 9⟩⟩, ⟨.number, "1", ⟨10, 11⟩⟩, ⟨.newline, "", ⟨11, 12⟩⟩, ⟨.endmarker, "", ⟨0, 0⟩⟩]
    [] [[], ["a"]] = true := by decide +kernel

/-- "~ 1 + (a + 0)" -/
example : meansTo .exhausted
    [⟨.op, "~", ⟨0, 1⟩⟩, ⟨.number, "1", ⟨2, 3⟩⟩, ⟨.op, "+", ⟨4, 5⟩⟩, ⟨.op, "(", ⟨6, 7⟩⟩, ⟨.name, "a", ⟨7, 8⟩⟩, ⟨.op, "+", ⟨9, 10⟩⟩, ⟨.number, "0", ⟨11, 12⟩⟩, ⟨.op, ")", ⟨12, 13⟩⟩, ⟨.newline, "", ⟨13, 14⟩⟩, ⟨.endmarker, "", ⟨0, 0⟩⟩]
    [] [[], ["a"]] = true := by decide +kernel

/-- "~ 0 + (a + 1)" -/
example : meansTo .exhausted
    [⟨.op, "~", ⟨0, 1⟩⟩, ⟨.number, "0", ⟨2, 3⟩⟩, ⟨.op, "+", ⟨4, 5⟩⟩, ⟨.op, "(", ⟨6, 7⟩⟩, ⟨.name, "a", ⟨7, 8⟩⟩, ⟨.op, "+", ⟨9, 10⟩⟩, ⟨.number, "1", ⟨11, 12⟩⟩, ⟨.op, ")", ⟨12, 13⟩⟩, ⟨.newline, "", ⟨13, 14⟩⟩, ⟨.endmarker, "", ⟨0, 0⟩⟩]
    [] [[], ["a"]] = true := by decide +kernel

/-- "~ 1 - (a + 1)" -/
example : meansTo .exhausted
    [⟨.op, "~", ⟨0, 1⟩⟩, ⟨.number, "1", ⟨2, 3⟩⟩, ⟨.op, "-", ⟨4, 5⟩⟩, ⟨.op, "(", ⟨6, 7⟩⟩, ⟨.name, "a", ⟨7, 8⟩⟩, ⟨.op, "+", ⟨9, 10⟩⟩, ⟨.number, "1", ⟨11, 12⟩⟩, ⟨.op, ")", ⟨12, 13⟩⟩, ⟨.newline, "", ⟨13, 14⟩⟩, ⟨.endmarker, "", ⟨0, 0⟩⟩]
    [] [] = true := by decide +kernel


/-! ### `_eval_error_tests` (desc.py:584-623) -/

/-- "a <+>" -/
example : meaningWrongAt .exhausted
    [⟨.name, "a", ⟨0, 1⟩⟩, ⟨.op, "+", ⟨2, 3⟩⟩, ⟨.newline, "", ⟨3, 4⟩⟩, ⟨.endmarker, "", ⟨0, 0⟩⟩] 3 2 3 = true := by decide +kernel

/-- "a + <(>" -/
example : meaningWrongAt .multiLine
    [⟨.name, "a", ⟨0, 1⟩⟩, ⟨.op, "+", ⟨2, 3⟩⟩, ⟨.op, "(", ⟨4, 5⟩⟩] 5 4 5 = true := by decide +kernel

/-- "b + <(-a)>" -/
example : meaningWrongAt .exhausted
    [⟨.name, "b", ⟨0, 1⟩⟩, ⟨.op, "+", ⟨2, 3⟩⟩, ⟨.op, "(", ⟨4, 5⟩⟩, ⟨.op, "-", ⟨5, 6⟩⟩, ⟨.name, "a", ⟨6, 7⟩⟩, ⟨.op, ")", ⟨7, 8⟩⟩, ⟨.newline, "", ⟨8, 9⟩⟩, ⟨.endmarker, "", ⟨0, 0⟩⟩] 8 4 8 = true := by decide +kernel

/-- "a:<1>" -/
example : meaningWrongAt .exhausted
    [⟨.name, "a", ⟨0, 1⟩⟩, ⟨.op, ":", ⟨1, 2⟩⟩, ⟨.number, "1", ⟨2, 3⟩⟩, ⟨.newline, "", ⟨3, 4⟩⟩, ⟨.endmarker, "", ⟨0, 0⟩⟩] 3 2 3 = true := by decide +kernel

/-- "(a + <1>)*b" -/
example : meaningWrongAt .exhausted
    [⟨.op, "(", ⟨0, 1⟩⟩, ⟨.name, "a", ⟨1, 2⟩⟩, ⟨.op, "+", ⟨3, 4⟩⟩, ⟨.number, "1", ⟨5, 6⟩⟩, ⟨.op, ")", ⟨6, 7⟩⟩, ⟨.op, "*", ⟨7, 8⟩⟩, ⟨.name, "b", ⟨8, 9⟩⟩, ⟨.newline, "", ⟨9, 10⟩⟩, ⟨.endmarker, "", ⟨0, 0⟩⟩] 9 5 6 = true := by decide +kernel

/-- "a + <2>" -/
example : meaningWrongAt .exhausted
    [⟨.name, "a", ⟨0, 1⟩⟩, ⟨.op, "+", ⟨2, 3⟩⟩, ⟨.number, "2", ⟨4, 5⟩⟩, ⟨.newline, "", ⟨5, 6⟩⟩, ⟨.endmarker, "", ⟨0, 0⟩⟩] 5 4 5 = true := by decide +kernel

/-- "a + <1.0>" -/
example : meaningWrongAt .exhausted
    [⟨.name, "a", ⟨0, 1⟩⟩, ⟨.op, "+", ⟨2, 3⟩⟩, ⟨.number, "1.0", ⟨4, 7⟩⟩, ⟨.newline, "", ⟨7, 8⟩⟩, ⟨.endmarker, "", ⟨0, 0⟩⟩] 7 4 7 = true := by decide +kernel

/-- "a ** <b>" -/
example : meaningWrongAt .exhausted
    [⟨.name, "a", ⟨0, 1⟩⟩, ⟨.op, "**", ⟨2, 4⟩⟩, ⟨.name, "b", ⟨5, 6⟩⟩, ⟨.newline, "", ⟨6, 7⟩⟩, ⟨.endmarker, "", ⟨0, 0⟩⟩] 6 5 6 = true := by decide +kernel

/-- "a ** <(1 + 1)>" -/
example : meaningWrongAt .exhausted
    [⟨.name, "a", ⟨0, 1⟩⟩, ⟨.op, "**", ⟨2, 4⟩⟩, ⟨.op, "(", ⟨5, 6⟩⟩, ⟨.number, "1", ⟨6, 7⟩⟩, ⟨.op, "+", ⟨8, 9⟩⟩, ⟨.number, "1", ⟨10, 11⟩⟩, ⟨.op, ")", ⟨11, 12⟩⟩, ⟨.newline, "", ⟨12, 13⟩⟩, ⟨.endmarker, "", ⟨0, 0⟩⟩] 12 5 12 = true := by decide +kernel

/-- "a ** <1.5>" -/
example : meaningWrongAt .exhausted
    [⟨.name, "a", ⟨0, 1⟩⟩, ⟨.op, "**", ⟨2, 4⟩⟩, ⟨.number, "1.5", ⟨5, 8⟩⟩, ⟨.newline, "", ⟨8, 9⟩⟩, ⟨.endmarker, "", ⟨0, 0⟩⟩] 8 5 8 = true := by decide +kernel

/-- "a + b <# asdf>" -/
example : meaningWrongAt .exhausted
    [⟨.name, "a", ⟨0, 1⟩⟩, ⟨.op, "+", ⟨2, 3⟩⟩, ⟨.name, "b", ⟨4, 5⟩⟩, ⟨.comment, "# asdf", ⟨6, 12⟩⟩, ⟨.newline, "", ⟨12, 13⟩⟩, ⟨.endmarker, "", ⟨0, 0⟩⟩] 12 6 12 = true := by decide +kernel

/-- "<)>" -/
example : meaningWrongAt .multiLine
    [⟨.op, ")", ⟨0, 1⟩⟩] 1 0 1 = true := by decide +kernel

/-- "a + <)>" -/
example : meaningWrongAt .multiLine
    [⟨.name, "a", ⟨0, 1⟩⟩, ⟨.op, "+", ⟨2, 3⟩⟩, ⟨.op, ")", ⟨4, 5⟩⟩] 5 4 5 = true := by decide +kernel

/-- "<*> a" -/
example : meaningWrongAt .exhausted
    [⟨.op, "*", ⟨0, 1⟩⟩, ⟨.name, "a", ⟨2, 3⟩⟩, ⟨.newline, "", ⟨3, 4⟩⟩, ⟨.endmarker, "", ⟨0, 0⟩⟩] 3 0 1 = true := by decide +kernel

/-- "a + <*>" -/
example : meaningWrongAt .exhausted
    [⟨.name, "a", ⟨0, 1⟩⟩, ⟨.op, "+", ⟨2, 3⟩⟩, ⟨.op, "*", ⟨4, 5⟩⟩, ⟨.newline, "", ⟨5, 6⟩⟩, ⟨.endmarker, "", ⟨0, 0⟩⟩] 5 4 5 = true := by decide +kernel

/-- "a + <foo[bar>" -/
example : meaningWrongAt .multiLine
    [⟨.name, "a", ⟨0, 1⟩⟩, ⟨.op, "+", ⟨2, 3⟩⟩, ⟨.name, "foo", ⟨4, 7⟩⟩, ⟨.op, "[", ⟨7, 8⟩⟩, ⟨.name, "bar", ⟨8, 11⟩⟩] 11 4 11 = true := by decide +kernel

/-- "a + <foo{bar>" -/
example : meaningWrongAt .multiLine
    [⟨.name, "a", ⟨0, 1⟩⟩, ⟨.op, "+", ⟨2, 3⟩⟩, ⟨.name, "foo", ⟨4, 7⟩⟩, ⟨.op, "{", ⟨7, 8⟩⟩, ⟨.name, "bar", ⟨8, 11⟩⟩] 11 4 11 = true := by decide +kernel

/-- "a + <foo(bar>" -/
example : meaningWrongAt .multiLine
    [⟨.name, "a", ⟨0, 1⟩⟩, ⟨.op, "+", ⟨2, 3⟩⟩, ⟨.name, "foo", ⟨4, 7⟩⟩, ⟨.op, "(", ⟨7, 8⟩⟩, ⟨.name, "bar", ⟨8, 11⟩⟩] 11 4 11 = true := by decide +kernel

/-- "a + <[bar>" -/
example : meaningWrongAt .multiLine
    [⟨.name, "a", ⟨0, 1⟩⟩, ⟨.op, "+", ⟨2, 3⟩⟩, ⟨.op, "[", ⟨4, 5⟩⟩, ⟨.name, "bar", ⟨5, 8⟩⟩] 8 4 8 = true := by decide +kernel

/-- "a + <{bar>" -/
example : meaningWrongAt .multiLine
    [⟨.name, "a", ⟨0, 1⟩⟩, ⟨.op, "+", ⟨2, 3⟩⟩, ⟨.op, "{", ⟨4, 5⟩⟩, ⟨.name, "bar", ⟨5, 8⟩⟩] 8 4 8 = true := by decide +kernel

/-- "a + <{bar[]>" -/
example : meaningWrongAt .multiLine
    [⟨.name, "a", ⟨0, 1⟩⟩, ⟨.op, "+", ⟨2, 3⟩⟩, ⟨.op, "{", ⟨4, 5⟩⟩, ⟨.name, "bar", ⟨5, 8⟩⟩, ⟨.op, "[", ⟨8, 9⟩⟩, ⟨.op, "]", ⟨9, 10⟩⟩] 10 4 10 = true := by decide +kernel

/-- "a + foo<]>bar" -/
example : meaningWrongAt .multiLine
    [⟨.name, "a", ⟨0, 1⟩⟩, ⟨.op, "+", ⟨2, 3⟩⟩, ⟨.name, "foo", ⟨4, 7⟩⟩, ⟨.op, "]", ⟨7, 8⟩⟩, ⟨.name, "bar", ⟨8, 11⟩⟩] 11 7 8 = true := by decide +kernel

/-- "a + foo[]<]>bar" -/
example : meaningWrongAt .multiLine
    [⟨.name, "a", ⟨0, 1⟩⟩, ⟨.op, "+", ⟨2, 3⟩⟩, ⟨.name, "foo", ⟨4, 7⟩⟩, ⟨.op, "[", ⟨7, 8⟩⟩, ⟨.op, "]", ⟨8, 9⟩⟩, ⟨.op, "]", ⟨9, 10⟩⟩, ⟨.name, "bar", ⟨10, 13⟩⟩] 13 9 10 = true := by decide +kernel

/-- "a + foo{}<}>bar" -/
example : meaningWrongAt .multiLine
    [⟨.name, "a", ⟨0, 1⟩⟩, ⟨.op, "+", ⟨2, 3⟩⟩, ⟨.name, "foo", ⟨4, 7⟩⟩, ⟨.op, "{", ⟨7, 8⟩⟩, ⟨.op, "}", ⟨8, 9⟩⟩, ⟨.op, "}", ⟨9, 10⟩⟩, ⟨.name, "bar", ⟨10, 13⟩⟩] 13 9 10 = true := by decide +kernel

/-- "a + foo<)>bar" -/
example : meaningWrongAt .multiLine
    [⟨.name, "a", ⟨0, 1⟩⟩, ⟨.op, "+", ⟨2, 3⟩⟩, ⟨.name, "foo", ⟨4, 7⟩⟩, ⟨.op, ")", ⟨7, 8⟩⟩, ⟨.name, "bar", ⟨8, 11⟩⟩] 11 7 8 = true := by decide +kernel

/-- "a + b<)>" -/
example : meaningWrongAt .multiLine
    [⟨.name, "a", ⟨0, 1⟩⟩, ⟨.op, "+", ⟨2, 3⟩⟩, ⟨.name, "b", ⟨4, 5⟩⟩, ⟨.op, ")", ⟨5, 6⟩⟩] 6 5 6 = true := by decide +kernel

/-- "(a) <.>" -/
example : meaningWrongAt .exhausted
    [⟨.op, "(", ⟨0, 1⟩⟩, ⟨.name, "a", ⟨1, 2⟩⟩, ⟨.op, ")", ⟨2, 3⟩⟩, ⟨.op, ".", ⟨4, 5⟩⟩, ⟨.newline, "", ⟨5, 6⟩⟩, ⟨.endmarker, "", ⟨0, 0⟩⟩] 5 4 5 = true := by decide +kernel

/-- "<(>a + b" -/
example : meaningWrongAt .multiLine
    [⟨.op, "(", ⟨0, 1⟩⟩, ⟨.name, "a", ⟨1, 2⟩⟩, ⟨.op, "+", ⟨3, 4⟩⟩, ⟨.name, "b", ⟨5, 6⟩⟩] 6 0 1 = true := by decide +kernel

/-- "<y ~ a> ~ b" -/
example : meaningWrongAt .exhausted
    [⟨.name, "y", ⟨0, 1⟩⟩, ⟨.op, "~", ⟨2, 3⟩⟩, ⟨.name, "a", ⟨4, 5⟩⟩, ⟨.op, "~", ⟨6, 7⟩⟩, ⟨.name, "b", ⟨8, 9⟩⟩, ⟨.newline, "", ⟨9, 10⟩⟩, ⟨.endmarker, "", ⟨0, 0⟩⟩] 9 0 5 = true := by decide +kernel

/-- "y ~ <(a ~ b)>" -/
example : meaningWrongAt .exhausted
    [⟨.name, "y", ⟨0, 1⟩⟩, ⟨.op, "~", ⟨2, 3⟩⟩, ⟨.op, "(", ⟨4, 5⟩⟩, ⟨.name, "a", ⟨5, 6⟩⟩, ⟨.op, "~", ⟨7, 8⟩⟩, ⟨.name, "b", ⟨9, 10⟩⟩, ⟨.op, ")", ⟨10, 11⟩⟩, ⟨.newline, "", ⟨11, 12⟩⟩, ⟨.endmarker, "", ⟨0, 0⟩⟩] 11 4 11 = true := by decide +kernel

/-- "<~ a> ~ b" -/
example : meaningWrongAt .exhausted
    [⟨.op, "~", ⟨0, 1⟩⟩, ⟨.name, "a", ⟨2, 3⟩⟩, ⟨.op, "~", ⟨4, 5⟩⟩, ⟨.name, "b", ⟨6, 7⟩⟩, ⟨.newline, "", ⟨7, 8⟩⟩, ⟨.endmarker, "", ⟨0, 0⟩⟩] 7 0 3 = true := by decide +kernel

/-- "~ <(a ~ b)>" -/
example : meaningWrongAt .exhausted
    [⟨.op, "~", ⟨0, 1⟩⟩, ⟨.op, "(", ⟨2, 3⟩⟩, ⟨.name, "a", ⟨3, 4⟩⟩, ⟨.op, "~", ⟨5, 6⟩⟩, ⟨.name, "b", ⟨7, 8⟩⟩, ⟨.op, ")", ⟨8, 9⟩⟩, ⟨.newline, "", ⟨9, 10⟩⟩, ⟨.endmarker, "", ⟨0, 0⟩⟩] 9 2 9 = true := by decide +kernel

/-- "1 + <-(a + b)>" -/
example : meaningWrongAt .exhausted
    [⟨.number, "1", ⟨0, 1⟩⟩, ⟨.op, "+", ⟨2, 3⟩⟩, ⟨.op, "-", ⟨4, 5⟩⟩, ⟨.op, "(", ⟨5, 6⟩⟩, ⟨.name, "a", ⟨6, 7⟩⟩, ⟨.op, "+", ⟨8, 9⟩⟩, ⟨.name, "b", ⟨10, 11⟩⟩, ⟨.op, ")", ⟨11, 12⟩⟩, ⟨.newline, "", ⟨12, 13⟩⟩, ⟨.endmarker, "", ⟨0, 0⟩⟩] 12 4 12 = true := by decide +kernel

/-- "<- a>" -/
example : meaningWrongAt .exhausted
    [⟨.op, "-", ⟨0, 1⟩⟩, ⟨.name, "a", ⟨2, 3⟩⟩, ⟨.newline, "", ⟨3, 4⟩⟩, ⟨.endmarker, "", ⟨0, 0⟩⟩] 3 0 3 = true := by decide +kernel

/-- "a + <-a**2>" -/
example : meaningWrongAt .exhausted
    [⟨.name, "a", ⟨0, 1⟩⟩, ⟨.op, "+", ⟨2, 3⟩⟩, ⟨.op, "-", ⟨4, 5⟩⟩, ⟨.name, "a", ⟨5, 6⟩⟩, ⟨.op, "**", ⟨6, 8⟩⟩, ⟨.number, "2", ⟨8, 9⟩⟩, ⟨.newline, "", ⟨9, 10⟩⟩, ⟨.endmarker, "", ⟨0, 0⟩⟩] 9 4 9 = true := by decide +kernel

end Patsy.Conformance
