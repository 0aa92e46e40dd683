"""Turn end-to-end tests of /repo/patsy/test_highlevel.py and /repo/patsy/test_build.py into Lean examples.

The calls of the helper functions `t`, `t_terms` and `make_matrix` with literal arguments are read from the text of the tests;
the data are transcribed here.  Python's own tokenizer stands for the parameter `tokens` of the model.
"""
import ast

from lean import q, raw

H, B = "/repo/patsy/test_highlevel.py", "/repo/patsy/test_build.py"

def functions(path):
    return {n.name: n for n in ast.parse(open(path).read()).body if isinstance(n, ast.FunctionDef)}

def calls(f, name):
    for n in ast.walk(f):
        if isinstance(n, ast.Call) and isinstance(n.func, ast.Name) and n.func.id == name:
            yield n

def number(e):
    """The literal numbers of the tests, which may be products."""
    return eval(compile(ast.Expression(e), "", "eval"), {"__builtins__": {}})

def columns(rows):
    return "[" + ", ".join("[" + ", ".join(str(x) for x in col) + "]" for col in zip(*rows)) + "]"

def strings(l):
    return "[" + ", ".join(q(s) for s in l) + "]"

out = ['''import Verif.Model.Program
import Verif.Model.Builtins
import Verif.Model.UserUtil

/-!
# End-to-end tests of patsy

Generated by `/verif/conformance/highlevel.py` from `/repo/patsy/test_highlevel.py` and `/repo/patsy/test_build.py`, with the tokens that
Python's tokenizer gives.  The calls of `C` and of other ordinary functions are part of the transcribed data.  These are tests of the
model, not proofs of properties.
-/

namespace Patsy.Conformance.HighLevel

open Patsy.Tokens Patsy.Build Patsy.Cat Patsy.EvalFactor Patsy.Program Patsy.Desc

/-- `_obj_to_readable_str` and `<` on the levels that occur in the tests. -/
def readable : PyVal → String
  | .int i => toString i
  | .str s => s
  | .bool b => if b then "True" else "False"
  | _ => ""

def before : PyVal → PyVal → Bool
  | .int i, .int j => i ≤ j
  | .int _, .str _ => true
  | .str _, .int _ => false
  | .str s, .str t => s ≤ t
  | _, _ => true

abbrev Env := List (String × Seen ℚ)

/-- Arrays of numbers with one and two dimensions, other arrays, and `C(...)`. -/
def nums (l : List ℚ) : Seen ℚ := ⟨.raw (.array .number 1 1 (l.map .float)), l.map fun x => [x], none⟩
def mat (n : Nat) (l : List (List ℚ)) : Seen ℚ := ⟨.raw (.array .number 2 n []), l, none⟩
def bools (l : List Bool) : Seen ℚ := ⟨.raw (.array .boolDtype 1 1 (l.map .npBool)), [], none⟩
def strs (l : List String) : Seen ℚ := ⟨.raw (.array .other 1 1 (l.map .str)), [], none⟩
def ints (l : List Int) : Seen ℚ := ⟨.raw (.array .number 1 1 (l.map .int)), l.map fun x => [(x : ℚ)], none⟩
def categorical (cats : List String) (codes : List Int) : Seen ℚ := ⟨.raw (.pandas (cats.map .str) codes), [], none⟩
def C (s : Seen ℚ) (contrast : Option (Contrast.Spec ℚ) := none) (levels : Option (List PyVal) := none) : Seen ℚ :=
  { s with value := mkC s.value contrast levels }

def treatment (reference : Option PyVal) : Contrast.Spec ℚ :=
  .coding (Contrast.dummyCode readable) (Contrast.treatment readable reference)
def helmert : Contrast.Spec ℚ := .coding (Contrast.helmertWith readable) (Contrast.helmertWithout readable)
def sum (omitted : Option PyVal) : Contrast.Spec ℚ :=
  .coding (Contrast.sumWith readable omitted) (Contrast.sumWithout readable omitted)

def balanced (factors : List (String × Int)) : Env := (UserUtil.balanced factors 1).map fun c => (c.1, strs c.2)

def lookup (d : Env) (s : String) : Except Err (Seen ℚ) :=
  match dictGet d s with
  | some v => .ok v
  | none => .error .nameError

/-- The text of an expression without blanks. -/
def text : Skel → String
  | .nil => ""
  | .tok t rest => t.2 ++ text rest
  | .group b body rest => b.opening ++ text body ++ b.closing ++ text rest
  | .hole rest => "?" ++ text rest

def python : Python Env (Seen ℚ) (Unit × List (State.Row Unit ℚ)) where
  expr s d vs :=
    match s, vs with
    | .hole .nil, [v] => .ok v
    | s, _ => lookup d (text s)
  args s d _ := (lookup d (text s)).map fun v => ((), v.rows.map fun r _ => r.headD 0)

def center : Class (State.Center Unit ℚ) (Unit × List (State.Row Unit ℚ)) (Seen ℚ) where
  init := centerClass.init
  chunk := centerClass.chunk
  finish := centerClass.finish
  transform s a := (centerClass.transform s a).map fun rows => nums (rows.map fun r => r ())

def interp (tokens : String → List PyTok) : Interp Env (Seen ℚ) (Unit × List (State.Row Unit ℚ)) (State.Center Unit ℚ) ℚ
    (Redundancy.Subterm String) where
  tokens := tokens
  isNumber s := s ∈ ["0", "1"]
  toInt s := if s = "0" then some 0 else if s = "1" then some 1 else none
  python := python
  stateful s := s = "center"
  classOf _ := center
  visitNames := id
  visitFactors _ _ := id
  visit := List.reverse
  order l := l.insertionSort fun a b => before a b = true
  hash := id
  default := treatment none
  na := {}
  see := id

def isnan (_ : ℚ) : Bool := false

/-- `check_result` (test_highlevel.py:32-63) for a right-hand side. -/
def check (d : Env) (cols : List (List ℚ)) (names : List String) : Except Err (Table String Env ℚ) → Bool
  | .ok r =>
    r.info.columnNames == names && r.mat.cols == cols &&
      match buildDesignMatrices isnan {} false none [r.info] d with
      | .ok b => b.mats == [r.mat]
      | .error _ => false
  | .error _ => false

/-- `t` (test_highlevel.py:80-170) for a formula without left-hand side. -/
def t (tokens : String → List PyTok) (fin : RawEnd) (raw : List PyTok) (d : Env) (cols : List (List ℚ)) (names : List String) : Bool :=
  check d cols names ((interp tokens).dmatrix isnan none d .matrix fin raw) &&
  check d cols names ((interp tokens).dmatrix isnan none d .dataframe fin raw) &&
  failsWith ((interp tokens).dmatrices isnan none d .matrix fin raw) .patsyError &&
  match incrDbuilder ((interp tokens).setting [d]) [d] (.text ((interp tokens).fromFormula fin raw)) with
  | .ok di =>
    di.columnNames == names &&
      match buildDesignMatrices isnan {} false none [di] d with
      | .ok b => b.mats.map (·.cols) == [cols]
      | .error _ => false
  | .error _ => false

/-- `t_terms` (test_highlevel.py:760-762). -/
def terms (tokens : String → List PyTok) (fin : RawEnd) (raw : List PyTok) (d : Env) (names : List String) : Bool :=
  match (interp tokens).dmatrix isnan none d .matrix fin raw with
  | .ok r => match r.info.coding with
    | some c => c.termCodings.map (fun p => termName id p.1) == names
    | none => false
  | .error _ => false

/-- `make_matrix` (test_build.py:58-73), without the rank. -/
def make (d : Env) (rank : Nat) (entries : List (List String)) (names : Option (List String)) (cols : Option (List (List ℚ))) : Bool :=
  match designMatrixBuilders { (interp fun _ => []).setting [d] with memorize := fun _ => .ok fun f d => lookup d f } [d]
      [entries.map fun l => Term.mk l.dedup] with
  | .ok [di] =>
    match buildDesignMatrices isnan {} false none [di] d with
    | .ok b =>
      (match b.mats with | [m] => m.cols.length == rank && cols.all (· == m.cols) | _ => false) &&
        names.all (· == di.columnNames)
    | .error _ => false
  | _ => false
''']

# the variables of the test functions
BAL2 = 'balanced [("a", 2), ("b", 2)]'
DATA = {
    "test_data_types": '''[("a", ints [1, 2, 3]), ("b", nums [1, 2, 3]), ("c", nums [1, 2, 3]), ("d", bools [true, false, true]),
  ("e", strs ["foo", "bar", "baz"]), ("f", C (ints [1, 2, 3])), ("g", C (strs ["foo", "bar", "baz"]))]''',
    "test_categorical": BAL2 + ''' ++
  let a := strs ["a1", "a1", "a2", "a2"]
  [("C(a)", C a), ("C(a,levels=['a2','a1'])", C a none (some [.str "a2", .str "a1"])),
    ("C(a,Treatment(reference=-1))", C a (some (treatment (some (.int (-1))))))]''',
    "test_categorical'": '''let a := C (strs ["a1", "a1", "a2", "a2"]) (some (.callable helmert))
  [("a", a), ("C(a,Treatment)", C a (some (.callable (treatment none))))]''',
    "test_builtins": '''[("x", nums [1, 2, 3]), ("y", nums [4, 5, 6]), ("I(x+y)", nums [1, 2, 3, 4, 5, 6]),
  ("Q('a b c')", nums [10, 20, 30])]''',
    "test_multicolumn": '[("a", strs ["a1", "a2"]), ("X", mat 2 [[1, 2], [3, 4]]), ("Y", mat 2 [[1, 3], [2, 4]])]',
    "test_term_order": BAL2 + ' ++ [("x1", nums [0, 1 / 3, 2 / 3, 1]), ("x2", nums [0, 1 / 9, 4 / 9, 1])]',
}
names = {}

def tokens_of(codes):
    """The raw tokens of the factors."""
    return "fun s => " + " ".join("if s = %s then %s else" % (q(c), raw(c)[1]) for c in sorted(codes)) + " []"

def pieces(formula):
    """All substrings of the formula that might be asked for: the codes of factors, before and after normalization."""
    import io, tokenize
    code = formula.replace("\n", " ").strip()
    ts = [t for t in tokenize.generate_tokens(io.StringIO(code).readline) if t.string]
    res = set()
    for i, a in enumerate(ts):
        for b in ts[i:]:
            res.add(code[a.start[1]:b.end[1]])
    keep = set()
    for c in res:
        try:
            ast.parse(c, mode="eval")
        except SyntaxError:
            continue
        if c[0] in "0123456789([-+~'\"":
            continue
        top = ast.parse(c, mode="eval").body
        if isinstance(top, (ast.BinOp, ast.Compare, ast.Tuple, ast.Constant, ast.List)):
            continue
        keep.add(c)
    return keep

fs = functions(H)
for key, env in DATA.items():
    base = key.rstrip("'")
    f = fs[base]
    name = key[5:].replace("'", "2") + "_data"
    out.append("\n/-! ### `%s` (test_highlevel.py:%d-%d) -/\n" % (base, f.lineno, f.end_lineno))
    out.append("def %s : Env :=\n  %s\n" % (name, env))
    for call in calls(f, "t"):
        formula = ast.literal_eval(call.args[0])
        if "h" in formula.split():
            continue                # a tuple as a level
        second = base == "test_categorical" and formula in ("a", "C(a, Treatment)")
        if second != key.endswith("'"):
            continue
        rows, cols = number(call.args[4]), ast.literal_eval(call.args[5])
        c, r, fin = raw(formula)
        out.append("/-- %s -/\nexample : t (%s)\n    %s\n    %s\n    %s %s %s = true := by\n  decide +kernel\n" % (
            q(formula), tokens_of(pieces(formula)), fin, r, name, columns(rows), strings(cols)))
    for call in calls(f, "t_terms"):
        formula, order = ast.literal_eval(call.args[0]), ast.literal_eval(call.args[1])
        c, r, fin = raw(formula)
        out.append("/-- %s -/\nexample : terms (%s)\n    %s\n    %s\n    %s %s = true := by\n  decide +kernel\n" % (
            q(formula), tokens_of(pieces(formula)), fin, r, name, strings(order)))

# test_build.py
LIN8 = "[" + ", ".join("%d / 7" % i for i in range(8)) + "]"
BUILD = {"test_simple": DATA["test_term_order"], "test_R_bugs": 'balanced [("a", 2), ("b", 2), ("c", 2)] ++ [("x", nums %s)]' % LIN8}
CONTRAST = {"C(values)": "C values", "C(values, s)": "C values (some (sum none))", "C(values, Sum(omit=0))": "C values (some (sum (some (.int 0))))",
            "C(values, [[7, 12], [2, 13], [8, -1]])": "C values (some (.array 2 2 [[7, 12], [2, 13], [8, -1]]))",
            "C(values, ContrastMatrix([[7, 12], [2, 13], [8, -1]], ['[foo]', '[bar]']))":
                'C values (some (.matrix ⟨[[7, 12], [2, 13], [8, -1]], 2, ["[foo]", "[bar]"]⟩))'}
fs = functions(B)

def expected(stmts, i, call):
    """The rows in the `assert np.allclose(m, rows)` that follows the call."""
    for s in stmts[i + 1:i + 2]:
        if isinstance(s, ast.Assert) and ast.unparse(s.test).startswith("np.allclose(m, ["):
            try:
                return ast.literal_eval(s.test.args[1])
            except ValueError:
                return None

def blocks(stmts):
    yield stmts
    for s in stmts:
        if isinstance(s, ast.For):
            yield from blocks(s.body)

def opt(x, show):
    return "none" if x is None else "(some %s)" % show(x)

for key in ("test_simple", "test_R_bugs", "test_contrast"):
    f = fs[key]
    out.append("\n/-! ### `%s` (test_build.py:%d-%d) -/\n" % (key, f.lineno, f.end_lineno))
    name = key[5:] + "_data"
    if key in BUILD:
        out.append("def %s : Env :=\n  %s\n" % (name, BUILD[key]))
    else:
        out.append('def values : Seen ℚ := strs ["a1", "a3", "a1", "a2"]\n')
    for stmts in blocks(f.body):
        for i, s in enumerate(stmts):
            if isinstance(s, (ast.Expr, ast.Assign)) and isinstance(s.value, ast.Call) and getattr(s.value.func, "id", "") == "make_matrix":
                call = s.value
                env = name if key in BUILD else '[("a", %s)]' % CONTRAST[ast.unparse(call.args[0].values[0])]
                entries = ast.literal_eval(call.args[2])
                ns = ast.literal_eval(call.keywords[0].value) if call.keywords else None
                rows = expected(stmts, i, call)
                for e in ([env, env.replace("sum none", ".callable (sum none)")] if "sum none" in env else [env]):
                    out.append("example : make (%s) %d [%s] %s %s = true := by\n  decide +kernel" % (
                        e, call.args[1].value, ", ".join(strings(x) for x in entries), opt(ns, strings), opt(rows, columns)))
out.append("\nend Patsy.Conformance.HighLevel\n")
open("/verif/lean/Verif/Conformance/HighLevel.lean", "w").write("\n".join(out))
