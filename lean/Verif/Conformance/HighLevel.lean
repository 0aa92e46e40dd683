import Verif.Model.Program
import Verif.Model.Builtins
import Verif.Model.UserUtil

/-!
# End-to-end tests of patsy

Generated by `/verif/conformance/highlevel.py` from `/repo/patsy/test_highlevel.py` and `/repo/patsy/test_build.py`, with the tokens that
Python's tokenizer gives.  The calls of `C` and of other ordinary functions are part of the transcribed data.  These are tests of the
model, not proofs of properties.
-/

namespace Patsy.Conformance.HighLevel

open Patsy.Tokens Patsy.Build Patsy.Cat Patsy.EvalFactor Patsy.Program Patsy.Desc

/-- `_obj_to_readable_str` and `<` on the levels that occur in the tests. -/
def readable : PyVal → String
  | .int i => toString i
  | .str s => s
  | .bool b => if b then "True" else "False"
  | _ => ""

def before : PyVal → PyVal → Bool
  | .int i, .int j => i ≤ j
  | .int _, .str _ => true
  | .str _, .int _ => false
  | .str s, .str t => s ≤ t
  | _, _ => true

abbrev Env := List (String × Seen ℚ)

/-- Arrays of numbers with one and two dimensions, other arrays, and `C(...)`. -/
def nums (l : List ℚ) : Seen ℚ := ⟨.raw (.array .number 1 1 (l.map .float)), l.map fun x => [x], none⟩
def mat (n : Nat) (l : List (List ℚ)) : Seen ℚ := ⟨.raw (.array .number 2 n []), l, none⟩
def bools (l : List Bool) : Seen ℚ := ⟨.raw (.array .boolDtype 1 1 (l.map .npBool)), [], none⟩
def strs (l : List String) : Seen ℚ := ⟨.raw (.array .other 1 1 (l.map .str)), [], none⟩
def ints (l : List Int) : Seen ℚ := ⟨.raw (.array .number 1 1 (l.map .int)), l.map fun x => [(x : ℚ)], none⟩
def categorical (cats : List String) (codes : List Int) : Seen ℚ := ⟨.raw (.pandas (cats.map .str) codes), [], none⟩
def C (s : Seen ℚ) (contrast : Option (Contrast.Spec ℚ) := none) (levels : Option (List PyVal) := none) : Seen ℚ :=
  { s with value := mkC s.value contrast levels }

def treatment (reference : Option PyVal) : Contrast.Spec ℚ :=
  .coding (Contrast.dummyCode readable) (Contrast.treatment readable reference)
def helmert : Contrast.Spec ℚ := .coding (Contrast.helmertWith readable) (Contrast.helmertWithout readable)
def sum (omitted : Option PyVal) : Contrast.Spec ℚ :=
  .coding (Contrast.sumWith readable omitted) (Contrast.sumWithout readable omitted)

def balanced (factors : List (String × Int)) : Env := (UserUtil.balanced factors 1).map fun c => (c.1, strs c.2)

def lookup (d : Env) (s : String) : Except Err (Seen ℚ) :=
  match dictGet d s with
  | some v => .ok v
  | none => .error .nameError

/-- The text of an expression without blanks. -/
def text : Skel → String
  | .nil => ""
  | .tok t rest => t.2 ++ text rest
  | .group b body rest => b.opening ++ text body ++ b.closing ++ text rest
  | .hole rest => "?" ++ text rest

def python : Python Env (Seen ℚ) (Unit × List (State.Row Unit ℚ)) where
  expr s d vs :=
    match s, vs with
    | .hole .nil, [v] => .ok v
    | s, _ => lookup d (text s)
  args s d _ := (lookup d (text s)).map fun v => ((), v.rows.map fun r _ => r.headD 0)

def center : Class (State.Center Unit ℚ) (Unit × List (State.Row Unit ℚ)) (Seen ℚ) where
  init := centerClass.init
  chunk := centerClass.chunk
  finish := centerClass.finish
  transform s a := (centerClass.transform s a).map fun rows => nums (rows.map fun r => r ())

def interp (tokens : String → List PyTok) : Interp Env (Seen ℚ) (Unit × List (State.Row Unit ℚ)) (State.Center Unit ℚ) ℚ
    (Redundancy.Subterm String) where
  tokens := tokens
  isNumber s := s ∈ ["0", "1"]
  toInt s := if s = "0" then some 0 else if s = "1" then some 1 else none
  python := python
  stateful s := s = "center"
  classOf _ := center
  visitNames := id
  visitFactors _ _ := id
  visit := List.reverse
  order l := l.insertionSort fun a b => before a b = true
  hash := id
  default := treatment none
  na := {}
  see := id

def isnan (_ : ℚ) : Bool := false

/-- `check_result` (test_highlevel.py:32-63) for a right-hand side. -/
def check (d : Env) (cols : List (List ℚ)) (names : List String) : Except Err (Table String Env ℚ) → Bool
  | .ok r =>
    r.info.columnNames == names && r.mat.cols == cols &&
      match buildDesignMatrices isnan {} false none [r.info] d with
      | .ok b => b.mats == [r.mat]
      | .error _ => false
  | .error _ => false

/-- `t` (test_highlevel.py:80-170) for a formula without left-hand side. -/
def t (tokens : String → List PyTok) (fin : RawEnd) (raw : List PyTok) (d : Env) (cols : List (List ℚ)) (names : List String) : Bool :=
  check d cols names ((interp tokens).dmatrix isnan none d .matrix fin raw) &&
  check d cols names ((interp tokens).dmatrix isnan none d .dataframe fin raw) &&
  failsWith ((interp tokens).dmatrices isnan none d .matrix fin raw) .patsyError &&
  match incrDbuilder ((interp tokens).setting [d]) [d] (.text ((interp tokens).fromFormula fin raw)) with
  | .ok di =>
    di.columnNames == names &&
      match buildDesignMatrices isnan {} false none [di] d with
      | .ok b => b.mats.map (·.cols) == [cols]
      | .error _ => false
  | .error _ => false

/-- `t_terms` (test_highlevel.py:760-762). -/
def terms (tokens : String → List PyTok) (fin : RawEnd) (raw : List PyTok) (d : Env) (names : List String) : Bool :=
  match (interp tokens).dmatrix isnan none d .matrix fin raw with
  | .ok r => match r.info.coding with
    | some c => c.termCodings.map (fun p => termName id p.1) == names
    | none => false
  | .error _ => false

/-- `make_matrix` (test_build.py:58-73), without the rank. -/
def make (d : Env) (rank : Nat) (entries : List (List String)) (names : Option (List String)) (cols : Option (List (List ℚ))) : Bool :=
  match designMatrixBuilders { (interp fun _ => []).setting [d] with memorize := fun _ => .ok fun f d => lookup d f } [d]
      [entries.map fun l => Term.mk l.dedup] with
  | .ok [di] =>
    match buildDesignMatrices isnan {} false none [di] d with
    | .ok b =>
      (match b.mats with | [m] => m.cols.length == rank && cols.all (· == m.cols) | _ => false) &&
        names.all (· == di.columnNames)
    | .error _ => false
  | _ => false


/-! ### `test_data_types` (test_highlevel.py:561-608) -/

def data_types_data : Env :=
  [("a", ints [1, 2, 3]), ("b", nums [1, 2, 3]), ("c", nums [1, 2, 3]), ("d", bools [true, false, true]),
  ("e", strs ["foo", "bar", "baz"]), ("f", C (ints [1, 2, 3])), ("g", C (strs ["foo", "bar", "baz"]))]

/-- "~ 0 + a" -/
example : t (fun s => if s = "a" then [⟨.name, "a", ⟨0, 1⟩⟩, ⟨.newline, "", ⟨1, 2⟩⟩, ⟨.endmarker, "", ⟨0, 0⟩⟩] else [])
    .exhausted
    [⟨.op, "~", ⟨0, 1⟩⟩, ⟨.number, "0", ⟨2, 3⟩⟩, ⟨.op, "+", ⟨4, 5⟩⟩, ⟨.name, "a", ⟨6, 7⟩⟩, ⟨.newline, "", ⟨7, 8⟩⟩, ⟨.endmarker, "", ⟨0, 0⟩⟩]
    data_types_data [[1, 2, 3]] ["a"] = true := by
  decide +kernel

/-- "~ 0 + b" -/
example : t (fun s => if s = "b" then [⟨.name, "b", ⟨0, 1⟩⟩, ⟨.newline, "", ⟨1, 2⟩⟩, ⟨.endmarker, "", ⟨0, 0⟩⟩] else [])
    .exhausted
    [⟨.op, "~", ⟨0, 1⟩⟩, ⟨.number, "0", ⟨2, 3⟩⟩, ⟨.op, "+", ⟨4, 5⟩⟩, ⟨.name, "b", ⟨6, 7⟩⟩, ⟨.newline, "", ⟨7, 8⟩⟩, ⟨.endmarker, "", ⟨0, 0⟩⟩]
    data_types_data [[1, 2, 3]] ["b"] = true := by
  decide +kernel

/-- "~ 0 + c" -/
example : t (fun s => if s = "c" then [⟨.name, "c", ⟨0, 1⟩⟩, ⟨.newline, "", ⟨1, 2⟩⟩, ⟨.endmarker, "", ⟨0, 0⟩⟩] else [])
    .exhausted
    [⟨.op, "~", ⟨0, 1⟩⟩, ⟨.number, "0", ⟨2, 3⟩⟩, ⟨.op, "+", ⟨4, 5⟩⟩, ⟨.name, "c", ⟨6, 7⟩⟩, ⟨.newline, "", ⟨7, 8⟩⟩, ⟨.endmarker, "", ⟨0, 0⟩⟩]
    data_types_data [[1, 2, 3]] ["c"] = true := by
  decide +kernel

/-- "~ 0 + d" -/
example : t (fun s => if s = "d" then [⟨.name, "d", ⟨0, 1⟩⟩, ⟨.newline, "", ⟨1, 2⟩⟩, ⟨.endmarker, "", ⟨0, 0⟩⟩] else [])
    .exhausted
    [⟨.op, "~", ⟨0, 1⟩⟩, ⟨.number, "0", ⟨2, 3⟩⟩, ⟨.op, "+", ⟨4, 5⟩⟩, ⟨.name, "d", ⟨6, 7⟩⟩, ⟨.newline, "", ⟨7, 8⟩⟩, ⟨.endmarker, "", ⟨0, 0⟩⟩]
    data_types_data [[0, 1, 0], [1, 0, 1]] ["d[False]", "d[True]"] = true := by
  decide +kernel

/-- "~ 0 + e" -/
example : t (fun s => if s = "e" then [⟨.name, "e", ⟨0, 1⟩⟩, ⟨.newline, "", ⟨1, 2⟩⟩, ⟨.endmarker, "", ⟨0, 0⟩⟩] else [])
    .exhausted
    [⟨.op, "~", ⟨0, 1⟩⟩, ⟨.number, "0", ⟨2, 3⟩⟩, ⟨.op, "+", ⟨4, 5⟩⟩, ⟨.name, "e", ⟨6, 7⟩⟩, ⟨.newline, "", ⟨7, 8⟩⟩, ⟨.endmarker, "", ⟨0, 0⟩⟩]
    data_types_data [[0, 1, 0], [0, 0, 1], [1, 0, 0]] ["e[bar]", "e[baz]", "e[foo]"] = true := by
  decide +kernel

/-- "~ 0 + f" -/
example : t (fun s => if s = "f" then [⟨.name, "f", ⟨0, 1⟩⟩, ⟨.newline, "", ⟨1, 2⟩⟩, ⟨.endmarker, "", ⟨0, 0⟩⟩] else [])
    .exhausted
    [⟨.op, "~", ⟨0, 1⟩⟩, ⟨.number, "0", ⟨2, 3⟩⟩, ⟨.op, "+", ⟨4, 5⟩⟩, ⟨.name, "f", ⟨6, 7⟩⟩, ⟨.newline, "", ⟨7, 8⟩⟩, ⟨.endmarker, "", ⟨0, 0⟩⟩]
    data_types_data [[1, 0, 0], [0, 1, 0], [0, 0, 1]] ["f[1]", "f[2]", "f[3]"] = true := by
  decide +kernel

/-- "~ 0 + g" -/
example : t (fun s => if s = "g" then [⟨.name, "g", ⟨0, 1⟩⟩, ⟨.newline, "", ⟨1, 2⟩⟩, ⟨.endmarker, "", ⟨0, 0⟩⟩] else [])
    .exhausted
    [⟨.op, "~", ⟨0, 1⟩⟩, ⟨.number, "0", ⟨2, 3⟩⟩, ⟨.op, "+", ⟨4, 5⟩⟩, ⟨.name, "g", ⟨6, 7⟩⟩, ⟨.newline, "", ⟨7, 8⟩⟩, ⟨.endmarker, "", ⟨0, 0⟩⟩]
    data_types_data [[0, 1, 0], [0, 0, 1], [1, 0, 0]] ["g[bar]", "g[baz]", "g[foo]"] = true := by
  decide +kernel


/-! ### `test_categorical` (test_highlevel.py:611-678) -/

def categorical_data : Env :=
  balanced [("a", 2), ("b", 2)] ++
  let a := strs ["a1", "a1", "a2", "a2"]
  [("C(a)", C a), ("C(a,levels=['a2','a1'])", C a none (some [.str "a2", .str "a1"])),
    ("C(a,Treatment(reference=-1))", C a (some (treatment (some (.int (-1))))))]

/-- "~ C(a)" -/
example : t (fun s => if s = "C" then [⟨.name, "C", ⟨0, 1⟩⟩, ⟨.newline, "", ⟨1, 2⟩⟩, ⟨.endmarker, "", ⟨0, 0⟩⟩] else if s = "C(a)" then [⟨.name, "C", ⟨0, 1⟩⟩, ⟨.op, "(", ⟨1, 2⟩⟩, ⟨.name, "a", ⟨2, 3⟩⟩, ⟨.op, ")", ⟨3, 4⟩⟩, ⟨.newline, "", ⟨4, 5⟩⟩, ⟨.endmarker, "", ⟨0, 0⟩⟩] else if s = "a" then [⟨.name, "a", ⟨0, 1⟩⟩, ⟨.newline, "", ⟨1, 2⟩⟩, ⟨.endmarker, "", ⟨0, 0⟩⟩] else [])
    .exhausted
    [⟨.op, "~", ⟨0, 1⟩⟩, ⟨.name, "C", ⟨2, 3⟩⟩, ⟨.op, "(", ⟨3, 4⟩⟩, ⟨.name, "a", ⟨4, 5⟩⟩, ⟨.op, ")", ⟨5, 6⟩⟩, ⟨.newline, "", ⟨6, 7⟩⟩, ⟨.endmarker, "", ⟨0, 0⟩⟩]
    categorical_data [[1, 1, 1, 1], [0, 0, 1, 1]] ["Intercept", "C(a)[T.a2]"] = true := by
  decide +kernel

/-- "~ C(a, levels=['a2', 'a1'])" -/
example : t (fun s => if s = "C" then [⟨.name, "C", ⟨0, 1⟩⟩, ⟨.newline, "", ⟨1, 2⟩⟩, ⟨.endmarker, "", ⟨0, 0⟩⟩] else if s = "C(a, levels=['a2', 'a1'])" then [⟨.name, "C", ⟨0, 1⟩⟩, ⟨.op, "(", ⟨1, 2⟩⟩, ⟨.name, "a", ⟨2, 3⟩⟩, ⟨.op, ",", ⟨3, 4⟩⟩, ⟨.name, "levels", ⟨5, 11⟩⟩, ⟨.op, "=", ⟨11, 12⟩⟩, ⟨.op, "[", ⟨12, 13⟩⟩, ⟨.string, "'a2'", ⟨13, 17⟩⟩, ⟨.op, ",", ⟨17, 18⟩⟩, ⟨.string, "'a1'", ⟨19, 23⟩⟩, ⟨.op, "]", ⟨23, 24⟩⟩, ⟨.op, ")", ⟨24, 25⟩⟩, ⟨.newline, "", ⟨25, 26⟩⟩, ⟨.endmarker, "", ⟨0, 0⟩⟩] else if s = "a" then [⟨.name, "a", ⟨0, 1⟩⟩, ⟨.newline, "", ⟨1, 2⟩⟩, ⟨.endmarker, "", ⟨0, 0⟩⟩] else if s = "levels" then [⟨.name, "levels", ⟨0, 6⟩⟩, ⟨.newline, "", ⟨6, 7⟩⟩, ⟨.endmarker, "", ⟨0, 0⟩⟩] else [])
    .exhausted
    [⟨.op, "~", ⟨0, 1⟩⟩, ⟨.name, "C", ⟨2, 3⟩⟩, ⟨.op, "(", ⟨3, 4⟩⟩, ⟨.name, "a", ⟨4, 5⟩⟩, ⟨.op, ",", ⟨5, 6⟩⟩, ⟨.name, "levels", ⟨7, 13⟩⟩, ⟨.op, "=", ⟨13, 14⟩⟩, ⟨.op, "[", ⟨14, 15⟩⟩, ⟨.string, "'a2'", ⟨15, 19⟩⟩, ⟨.op, ",", ⟨19, 20⟩⟩, ⟨.string, "'a1'", ⟨21, 25⟩⟩, ⟨.op, "]", ⟨25, 26⟩⟩, ⟨.op, ")", ⟨26, 27⟩⟩, ⟨.newline, "", ⟨27, 28⟩⟩, ⟨.endmarker, "", ⟨0, 0⟩⟩]
    categorical_data [[1, 1, 1, 1], [1, 1, 0, 0]] ["Intercept", "C(a, levels=['a2', 'a1'])[T.a1]"] = true := by
  decide +kernel

/-- "~ C(a, Treatment(reference=-1))" -/
example : t (fun s => if s = "C" then [⟨.name, "C", ⟨0, 1⟩⟩, ⟨.newline, "", ⟨1, 2⟩⟩, ⟨.endmarker, "", ⟨0, 0⟩⟩] else if s = "C(a, Treatment(reference=-1))" then [⟨.name, "C", ⟨0, 1⟩⟩, ⟨.op, "(", ⟨1, 2⟩⟩, ⟨.name, "a", ⟨2, 3⟩⟩, ⟨.op, ",", ⟨3, 4⟩⟩, ⟨.name, "Treatment", ⟨5, 14⟩⟩, ⟨.op, "(", ⟨14, 15⟩⟩, ⟨.name, "reference", ⟨15, 24⟩⟩, ⟨.op, "=", ⟨24, 25⟩⟩, ⟨.op, "-", ⟨25, 26⟩⟩, ⟨.number, "1", ⟨26, 27⟩⟩, ⟨.op, ")", ⟨27, 28⟩⟩, ⟨.op, ")", ⟨28, 29⟩⟩, ⟨.newline, "", ⟨29, 30⟩⟩, ⟨.endmarker, "", ⟨0, 0⟩⟩] else if s = "Treatment" then [⟨.name, "Treatment", ⟨0, 9⟩⟩, ⟨.newline, "", ⟨9, 10⟩⟩, ⟨.endmarker, "", ⟨0, 0⟩⟩] else if s = "Treatment(reference=-1)" then [⟨.name, "Treatment", ⟨0, 9⟩⟩, ⟨.op, "(", ⟨9, 10⟩⟩, ⟨.name, "reference", ⟨10, 19⟩⟩, ⟨.op, "=", ⟨19, 20⟩⟩, ⟨.op, "-", ⟨20, 21⟩⟩, ⟨.number, "1", ⟨21, 22⟩⟩, ⟨.op, ")", ⟨22, 23⟩⟩, ⟨.newline, "", ⟨23, 24⟩⟩, ⟨.endmarker, "", ⟨0, 0⟩⟩] else if s = "a" then [⟨.name, "a", ⟨0, 1⟩⟩, ⟨.newline, "", ⟨1, 2⟩⟩, ⟨.endmarker, "", ⟨0, 0⟩⟩] else if s = "reference" then [⟨.name, "reference", ⟨0, 9⟩⟩, ⟨.newline, "", ⟨9, 10⟩⟩, ⟨.endmarker, "", ⟨0, 0⟩⟩] else [])
    .exhausted
    [⟨.op, "~", ⟨0, 1⟩⟩, ⟨.name, "C", ⟨2, 3⟩⟩, ⟨.op, "(", ⟨3, 4⟩⟩, ⟨.name, "a", ⟨4, 5⟩⟩, ⟨.op, ",", ⟨5, 6⟩⟩, ⟨.name, "Treatment", ⟨7, 16⟩⟩, ⟨.op, "(", ⟨16, 17⟩⟩, ⟨.name, "reference", ⟨17, 26⟩⟩, ⟨.op, "=", ⟨26, 27⟩⟩, ⟨.op, "-", ⟨27, 28⟩⟩, ⟨.number, "1", ⟨28, 29⟩⟩, ⟨.op, ")", ⟨29, 30⟩⟩, ⟨.op, ")", ⟨30, 31⟩⟩, ⟨.newline, "", ⟨31, 32⟩⟩, ⟨.endmarker, "", ⟨0, 0⟩⟩]
    categorical_data [[1, 1, 1, 1], [1, 1, 0, 0]] ["Intercept", "C(a, Treatment(reference=-1))[T.a1]"] = true := by
  decide +kernel

/-- "a*b" -/
example : t (fun s => if s = "a" then [⟨.name, "a", ⟨0, 1⟩⟩, ⟨.newline, "", ⟨1, 2⟩⟩, ⟨.endmarker, "", ⟨0, 0⟩⟩] else if s = "b" then [⟨.name, "b", ⟨0, 1⟩⟩, ⟨.newline, "", ⟨1, 2⟩⟩, ⟨.endmarker, "", ⟨0, 0⟩⟩] else [])
    .exhausted
    [⟨.name, "a", ⟨0, 1⟩⟩, ⟨.op, "*", ⟨1, 2⟩⟩, ⟨.name, "b", ⟨2, 3⟩⟩, ⟨.newline, "", ⟨3, 4⟩⟩, ⟨.endmarker, "", ⟨0, 0⟩⟩]
    categorical_data [[1, 1, 1, 1], [0, 0, 1, 1], [0, 1, 0, 1], [0, 0, 0, 1]] ["Intercept", "a[T.a2]", "b[T.b2]", "a[T.a2]:b[T.b2]"] = true := by
  decide +kernel

/-- "0 + a:b" -/
example : t (fun s => if s = "a" then [⟨.name, "a", ⟨0, 1⟩⟩, ⟨.newline, "", ⟨1, 2⟩⟩, ⟨.endmarker, "", ⟨0, 0⟩⟩] else if s = "b" then [⟨.name, "b", ⟨0, 1⟩⟩, ⟨.newline, "", ⟨1, 2⟩⟩, ⟨.endmarker, "", ⟨0, 0⟩⟩] else [])
    .exhausted
    [⟨.number, "0", ⟨0, 1⟩⟩, ⟨.op, "+", ⟨2, 3⟩⟩, ⟨.name, "a", ⟨4, 5⟩⟩, ⟨.op, ":", ⟨5, 6⟩⟩, ⟨.name, "b", ⟨6, 7⟩⟩, ⟨.newline, "", ⟨7, 8⟩⟩, ⟨.endmarker, "", ⟨0, 0⟩⟩]
    categorical_data [[1, 0, 0, 0], [0, 0, 1, 0], [0, 1, 0, 0], [0, 0, 0, 1]] ["a[a1]:b[b1]", "a[a2]:b[b1]", "a[a1]:b[b2]", "a[a2]:b[b2]"] = true := by
  decide +kernel

/-- "1 + a + a:b" -/
example : t (fun s => if s = "a" then [⟨.name, "a", ⟨0, 1⟩⟩, ⟨.newline, "", ⟨1, 2⟩⟩, ⟨.endmarker, "", ⟨0, 0⟩⟩] else if s = "b" then [⟨.name, "b", ⟨0, 1⟩⟩, ⟨.newline, "", ⟨1, 2⟩⟩, ⟨.endmarker, "", ⟨0, 0⟩⟩] else [])
    .exhausted
    [⟨.number, "1", ⟨0, 1⟩⟩, ⟨.op, "+", ⟨2, 3⟩⟩, ⟨.name, "a", ⟨4, 5⟩⟩, ⟨.op, "+", ⟨6, 7⟩⟩, ⟨.name, "a", ⟨8, 9⟩⟩, ⟨.op, ":", ⟨9, 10⟩⟩, ⟨.name, "b", ⟨10, 11⟩⟩, ⟨.newline, "", ⟨11, 12⟩⟩, ⟨.endmarker, "", ⟨0, 0⟩⟩]
    categorical_data [[1, 1, 1, 1], [0, 0, 1, 1], [0, 1, 0, 0], [0, 0, 0, 1]] ["Intercept", "a[T.a2]", "a[a1]:b[T.b2]", "a[a2]:b[T.b2]"] = true := by
  decide +kernel


/-! ### `test_categorical` (test_highlevel.py:611-678) -/

def categorical2_data : Env :=
  let a := C (strs ["a1", "a1", "a2", "a2"]) (some (.callable helmert))
  [("a", a), ("C(a,Treatment)", C a (some (.callable (treatment none))))]

/-- "a" -/
example : t (fun s => if s = "a" then [⟨.name, "a", ⟨0, 1⟩⟩, ⟨.newline, "", ⟨1, 2⟩⟩, ⟨.endmarker, "", ⟨0, 0⟩⟩] else [])
    .exhausted
    [⟨.name, "a", ⟨0, 1⟩⟩, ⟨.newline, "", ⟨1, 2⟩⟩, ⟨.endmarker, "", ⟨0, 0⟩⟩]
    categorical2_data [[1, 1, 1, 1], [-1, -1, 1, 1]] ["Intercept", "a[H.a2]"] = true := by
  decide +kernel

/-- "C(a, Treatment)" -/
example : t (fun s => if s = "C" then [⟨.name, "C", ⟨0, 1⟩⟩, ⟨.newline, "", ⟨1, 2⟩⟩, ⟨.endmarker, "", ⟨0, 0⟩⟩] else if s = "C(a, Treatment)" then [⟨.name, "C", ⟨0, 1⟩⟩, ⟨.op, "(", ⟨1, 2⟩⟩, ⟨.name, "a", ⟨2, 3⟩⟩, ⟨.op, ",", ⟨3, 4⟩⟩, ⟨.name, "Treatment", ⟨5, 14⟩⟩, ⟨.op, ")", ⟨14, 15⟩⟩, ⟨.newline, "", ⟨15, 16⟩⟩, ⟨.endmarker, "", ⟨0, 0⟩⟩] else if s = "Treatment" then [⟨.name, "Treatment", ⟨0, 9⟩⟩, ⟨.newline, "", ⟨9, 10⟩⟩, ⟨.endmarker, "", ⟨0, 0⟩⟩] else if s = "a" then [⟨.name, "a", ⟨0, 1⟩⟩, ⟨.newline, "", ⟨1, 2⟩⟩, ⟨.endmarker, "", ⟨0, 0⟩⟩] else [])
    .exhausted
    [⟨.name, "C", ⟨0, 1⟩⟩, ⟨.op, "(", ⟨1, 2⟩⟩, ⟨.name, "a", ⟨2, 3⟩⟩, ⟨.op, ",", ⟨3, 4⟩⟩, ⟨.name, "Treatment", ⟨5, 14⟩⟩, ⟨.op, ")", ⟨14, 15⟩⟩, ⟨.newline, "", ⟨15, 16⟩⟩, ⟨.endmarker, "", ⟨0, 0⟩⟩]
    categorical2_data [[1, 1, 1, 1], [0, 0, 1, 1]] ["Intercept", "C(a, Treatment)[T.a2]"] = true := by
  decide +kernel

/-- "a" -/
example : t (fun s => if s = "a" then [⟨.name, "a", ⟨0, 1⟩⟩, ⟨.newline, "", ⟨1, 2⟩⟩, ⟨.endmarker, "", ⟨0, 0⟩⟩] else [])
    .exhausted
    [⟨.name, "a", ⟨0, 1⟩⟩, ⟨.newline, "", ⟨1, 2⟩⟩, ⟨.endmarker, "", ⟨0, 0⟩⟩]
    categorical2_data [[1, 1, 1, 1], [-1, -1, 1, 1]] ["Intercept", "a[H.a2]"] = true := by
  decide +kernel


/-! ### `test_builtins` (test_highlevel.py:681-692) -/

def builtins_data : Env :=
  [("x", nums [1, 2, 3]), ("y", nums [4, 5, 6]), ("I(x+y)", nums [1, 2, 3, 4, 5, 6]),
  ("Q('a b c')", nums [10, 20, 30])]

/-- "0 + I(x + y)" -/
example : t (fun s => if s = "I" then [⟨.name, "I", ⟨0, 1⟩⟩, ⟨.newline, "", ⟨1, 2⟩⟩, ⟨.endmarker, "", ⟨0, 0⟩⟩] else if s = "I(x + y)" then [⟨.name, "I", ⟨0, 1⟩⟩, ⟨.op, "(", ⟨1, 2⟩⟩, ⟨.name, "x", ⟨2, 3⟩⟩, ⟨.op, "+", ⟨4, 5⟩⟩, ⟨.name, "y", ⟨6, 7⟩⟩, ⟨.op, ")", ⟨7, 8⟩⟩, ⟨.newline, "", ⟨8, 9⟩⟩, ⟨.endmarker, "", ⟨0, 0⟩⟩] else if s = "x" then [⟨.name, "x", ⟨0, 1⟩⟩, ⟨.newline, "", ⟨1, 2⟩⟩, ⟨.endmarker, "", ⟨0, 0⟩⟩] else if s = "y" then [⟨.name, "y", ⟨0, 1⟩⟩, ⟨.newline, "", ⟨1, 2⟩⟩, ⟨.endmarker, "", ⟨0, 0⟩⟩] else [])
    .exhausted
    [⟨.number, "0", ⟨0, 1⟩⟩, ⟨.op, "+", ⟨2, 3⟩⟩, ⟨.name, "I", ⟨4, 5⟩⟩, ⟨.op, "(", ⟨5, 6⟩⟩, ⟨.name, "x", ⟨6, 7⟩⟩, ⟨.op, "+", ⟨8, 9⟩⟩, ⟨.name, "y", ⟨10, 11⟩⟩, ⟨.op, ")", ⟨11, 12⟩⟩, ⟨.newline, "", ⟨12, 13⟩⟩, ⟨.endmarker, "", ⟨0, 0⟩⟩]
    builtins_data [[1, 2, 3, 4, 5, 6]] ["I(x + y)"] = true := by
  decide +kernel

/-- "Q('a b c')" -/
example : t (fun s => if s = "Q" then [⟨.name, "Q", ⟨0, 1⟩⟩, ⟨.newline, "", ⟨1, 2⟩⟩, ⟨.endmarker, "", ⟨0, 0⟩⟩] else if s = "Q('a b c')" then [⟨.name, "Q", ⟨0, 1⟩⟩, ⟨.op, "(", ⟨1, 2⟩⟩, ⟨.string, "'a b c'", ⟨2, 9⟩⟩, ⟨.op, ")", ⟨9, 10⟩⟩, ⟨.newline, "", ⟨10, 11⟩⟩, ⟨.endmarker, "", ⟨0, 0⟩⟩] else [])
    .exhausted
    [⟨.name, "Q", ⟨0, 1⟩⟩, ⟨.op, "(", ⟨1, 2⟩⟩, ⟨.string, "'a b c'", ⟨2, 9⟩⟩, ⟨.op, ")", ⟨9, 10⟩⟩, ⟨.newline, "", ⟨10, 11⟩⟩, ⟨.endmarker, "", ⟨0, 0⟩⟩]
    builtins_data [[1, 1, 1], [10, 20, 30]] ["Intercept", "Q('a b c')"] = true := by
  decide +kernel

/-- "center(x)" -/
example : t (fun s => if s = "center" then [⟨.name, "center", ⟨0, 6⟩⟩, ⟨.newline, "", ⟨6, 7⟩⟩, ⟨.endmarker, "", ⟨0, 0⟩⟩] else if s = "center(x)" then [⟨.name, "center", ⟨0, 6⟩⟩, ⟨.op, "(", ⟨6, 7⟩⟩, ⟨.name, "x", ⟨7, 8⟩⟩, ⟨.op, ")", ⟨8, 9⟩⟩, ⟨.newline, "", ⟨9, 10⟩⟩, ⟨.endmarker, "", ⟨0, 0⟩⟩] else if s = "x" then [⟨.name, "x", ⟨0, 1⟩⟩, ⟨.newline, "", ⟨1, 2⟩⟩, ⟨.endmarker, "", ⟨0, 0⟩⟩] else [])
    .exhausted
    [⟨.name, "center", ⟨0, 6⟩⟩, ⟨.op, "(", ⟨6, 7⟩⟩, ⟨.name, "x", ⟨7, 8⟩⟩, ⟨.op, ")", ⟨8, 9⟩⟩, ⟨.newline, "", ⟨9, 10⟩⟩, ⟨.endmarker, "", ⟨0, 0⟩⟩]
    builtins_data [[1, 1, 1], [-1, 0, 1]] ["Intercept", "center(x)"] = true := by
  decide +kernel


/-! ### `test_multicolumn` (test_highlevel.py:787-829) -/

def multicolumn_data : Env :=
  [("a", strs ["a1", "a2"]), ("X", mat 2 [[1, 2], [3, 4]]), ("Y", mat 2 [[1, 3], [2, 4]])]

/-- "X*Y" -/
example : t (fun s => if s = "X" then [⟨.name, "X", ⟨0, 1⟩⟩, ⟨.newline, "", ⟨1, 2⟩⟩, ⟨.endmarker, "", ⟨0, 0⟩⟩] else if s = "Y" then [⟨.name, "Y", ⟨0, 1⟩⟩, ⟨.newline, "", ⟨1, 2⟩⟩, ⟨.endmarker, "", ⟨0, 0⟩⟩] else [])
    .exhausted
    [⟨.name, "X", ⟨0, 1⟩⟩, ⟨.op, "*", ⟨1, 2⟩⟩, ⟨.name, "Y", ⟨2, 3⟩⟩, ⟨.newline, "", ⟨3, 4⟩⟩, ⟨.endmarker, "", ⟨0, 0⟩⟩]
    multicolumn_data [[1, 1], [1, 3], [2, 4], [1, 2], [3, 4], [1, 6], [2, 8], [3, 12], [6, 16]] ["Intercept", "X[0]", "X[1]", "Y[0]", "Y[1]", "X[0]:Y[0]", "X[1]:Y[0]", "X[0]:Y[1]", "X[1]:Y[1]"] = true := by
  decide +kernel

/-- "a:X + Y" -/
example : t (fun s => if s = "X" then [⟨.name, "X", ⟨0, 1⟩⟩, ⟨.newline, "", ⟨1, 2⟩⟩, ⟨.endmarker, "", ⟨0, 0⟩⟩] else if s = "Y" then [⟨.name, "Y", ⟨0, 1⟩⟩, ⟨.newline, "", ⟨1, 2⟩⟩, ⟨.endmarker, "", ⟨0, 0⟩⟩] else if s = "a" then [⟨.name, "a", ⟨0, 1⟩⟩, ⟨.newline, "", ⟨1, 2⟩⟩, ⟨.endmarker, "", ⟨0, 0⟩⟩] else [])
    .exhausted
    [⟨.name, "a", ⟨0, 1⟩⟩, ⟨.op, ":", ⟨1, 2⟩⟩, ⟨.name, "X", ⟨2, 3⟩⟩, ⟨.op, "+", ⟨4, 5⟩⟩, ⟨.name, "Y", ⟨6, 7⟩⟩, ⟨.newline, "", ⟨7, 8⟩⟩, ⟨.endmarker, "", ⟨0, 0⟩⟩]
    multicolumn_data [[1, 1], [1, 0], [0, 3], [2, 0], [0, 4], [1, 2], [3, 4]] ["Intercept", "a[a1]:X[0]", "a[a2]:X[0]", "a[a1]:X[1]", "a[a2]:X[1]", "Y[0]", "Y[1]"] = true := by
  decide +kernel


/-! ### `test_term_order` (test_highlevel.py:755-772) -/

def term_order_data : Env :=
  balanced [("a", 2), ("b", 2)] ++ [("x1", nums [0, 1 / 3, 2 / 3, 1]), ("x2", nums [0, 1 / 9, 4 / 9, 1])]

/-- "a + b + x1 + x2" -/
example : terms (fun s => if s = "a" then [⟨.name, "a", ⟨0, 1⟩⟩, ⟨.newline, "", ⟨1, 2⟩⟩, ⟨.endmarker, "", ⟨0, 0⟩⟩] else if s = "b" then [⟨.name, "b", ⟨0, 1⟩⟩, ⟨.newline, "", ⟨1, 2⟩⟩, ⟨.endmarker, "", ⟨0, 0⟩⟩] else if s = "x1" then [⟨.name, "x1", ⟨0, 2⟩⟩, ⟨.newline, "", ⟨2, 3⟩⟩, ⟨.endmarker, "", ⟨0, 0⟩⟩] else if s = "x2" then [⟨.name, "x2", ⟨0, 2⟩⟩, ⟨.newline, "", ⟨2, 3⟩⟩, ⟨.endmarker, "", ⟨0, 0⟩⟩] else [])
    .exhausted
    [⟨.name, "a", ⟨0, 1⟩⟩, ⟨.op, "+", ⟨2, 3⟩⟩, ⟨.name, "b", ⟨4, 5⟩⟩, ⟨.op, "+", ⟨6, 7⟩⟩, ⟨.name, "x1", ⟨8, 10⟩⟩, ⟨.op, "+", ⟨11, 12⟩⟩, ⟨.name, "x2", ⟨13, 15⟩⟩, ⟨.newline, "", ⟨15, 16⟩⟩, ⟨.endmarker, "", ⟨0, 0⟩⟩]
    term_order_data ["Intercept", "a", "b", "x1", "x2"] = true := by
  decide +kernel

/-- "b + a + x2 + x1" -/
example : terms (fun s => if s = "a" then [⟨.name, "a", ⟨0, 1⟩⟩, ⟨.newline, "", ⟨1, 2⟩⟩, ⟨.endmarker, "", ⟨0, 0⟩⟩] else if s = "b" then [⟨.name, "b", ⟨0, 1⟩⟩, ⟨.newline, "", ⟨1, 2⟩⟩, ⟨.endmarker, "", ⟨0, 0⟩⟩] else if s = "x1" then [⟨.name, "x1", ⟨0, 2⟩⟩, ⟨.newline, "", ⟨2, 3⟩⟩, ⟨.endmarker, "", ⟨0, 0⟩⟩] else if s = "x2" then [⟨.name, "x2", ⟨0, 2⟩⟩, ⟨.newline, "", ⟨2, 3⟩⟩, ⟨.endmarker, "", ⟨0, 0⟩⟩] else [])
    .exhausted
    [⟨.name, "b", ⟨0, 1⟩⟩, ⟨.op, "+", ⟨2, 3⟩⟩, ⟨.name, "a", ⟨4, 5⟩⟩, ⟨.op, "+", ⟨6, 7⟩⟩, ⟨.name, "x2", ⟨8, 10⟩⟩, ⟨.op, "+", ⟨11, 12⟩⟩, ⟨.name, "x1", ⟨13, 15⟩⟩, ⟨.newline, "", ⟨15, 16⟩⟩, ⟨.endmarker, "", ⟨0, 0⟩⟩]
    term_order_data ["Intercept", "b", "a", "x2", "x1"] = true := by
  decide +kernel

/-- "0 + x1 + a + x2 + b + 1" -/
example : terms (fun s => if s = "a" then [⟨.name, "a", ⟨0, 1⟩⟩, ⟨.newline, "", ⟨1, 2⟩⟩, ⟨.endmarker, "", ⟨0, 0⟩⟩] else if s = "b" then [⟨.name, "b", ⟨0, 1⟩⟩, ⟨.newline, "", ⟨1, 2⟩⟩, ⟨.endmarker, "", ⟨0, 0⟩⟩] else if s = "x1" then [⟨.name, "x1", ⟨0, 2⟩⟩, ⟨.newline, "", ⟨2, 3⟩⟩, ⟨.endmarker, "", ⟨0, 0⟩⟩] else if s = "x2" then [⟨.name, "x2", ⟨0, 2⟩⟩, ⟨.newline, "", ⟨2, 3⟩⟩, ⟨.endmarker, "", ⟨0, 0⟩⟩] else [])
    .exhausted
    [⟨.number, "0", ⟨0, 1⟩⟩, ⟨.op, "+", ⟨2, 3⟩⟩, ⟨.name, "x1", ⟨4, 6⟩⟩, ⟨.op, "+", ⟨7, 8⟩⟩, ⟨.name, "a", ⟨9, 10⟩⟩, ⟨.op, "+", ⟨11, 12⟩⟩, ⟨.name, "x2", ⟨13, 15⟩⟩, ⟨.op, "+", ⟨16, 17⟩⟩, ⟨.name, "b", ⟨18, 19⟩⟩, ⟨.op, "+", ⟨20, 21⟩⟩, ⟨.number, "1", ⟨22, 23⟩⟩, ⟨.newline, "", ⟨23, 24⟩⟩, ⟨.endmarker, "", ⟨0, 0⟩⟩]
    term_order_data ["Intercept", "a", "b", "x1", "x2"] = true := by
  decide +kernel

/-- "0 + a:b + a + b + 1" -/
example : terms (fun s => if s = "a" then [⟨.name, "a", ⟨0, 1⟩⟩, ⟨.newline, "", ⟨1, 2⟩⟩, ⟨.endmarker, "", ⟨0, 0⟩⟩] else if s = "b" then [⟨.name, "b", ⟨0, 1⟩⟩, ⟨.newline, "", ⟨1, 2⟩⟩, ⟨.endmarker, "", ⟨0, 0⟩⟩] else [])
    .exhausted
    [⟨.number, "0", ⟨0, 1⟩⟩, ⟨.op, "+", ⟨2, 3⟩⟩, ⟨.name, "a", ⟨4, 5⟩⟩, ⟨.op, ":", ⟨5, 6⟩⟩, ⟨.name, "b", ⟨6, 7⟩⟩, ⟨.op, "+", ⟨8, 9⟩⟩, ⟨.name, "a", ⟨10, 11⟩⟩, ⟨.op, "+", ⟨12, 13⟩⟩, ⟨.name, "b", ⟨14, 15⟩⟩, ⟨.op, "+", ⟨16, 17⟩⟩, ⟨.number, "1", ⟨18, 19⟩⟩, ⟨.newline, "", ⟨19, 20⟩⟩, ⟨.endmarker, "", ⟨0, 0⟩⟩]
    term_order_data ["Intercept", "a", "b", "a:b"] = true := by
  decide +kernel

/-- "a + a:x1 + x2 + x1 + b" -/
example : terms (fun s => if s = "a" then [⟨.name, "a", ⟨0, 1⟩⟩, ⟨.newline, "", ⟨1, 2⟩⟩, ⟨.endmarker, "", ⟨0, 0⟩⟩] else if s = "b" then [⟨.name, "b", ⟨0, 1⟩⟩, ⟨.newline, "", ⟨1, 2⟩⟩, ⟨.endmarker, "", ⟨0, 0⟩⟩] else if s = "x1" then [⟨.name, "x1", ⟨0, 2⟩⟩, ⟨.newline, "", ⟨2, 3⟩⟩, ⟨.endmarker, "", ⟨0, 0⟩⟩] else if s = "x2" then [⟨.name, "x2", ⟨0, 2⟩⟩, ⟨.newline, "", ⟨2, 3⟩⟩, ⟨.endmarker, "", ⟨0, 0⟩⟩] else [])
    .exhausted
    [⟨.name, "a", ⟨0, 1⟩⟩, ⟨.op, "+", ⟨2, 3⟩⟩, ⟨.name, "a", ⟨4, 5⟩⟩, ⟨.op, ":", ⟨5, 6⟩⟩, ⟨.name, "x1", ⟨6, 8⟩⟩, ⟨.op, "+", ⟨9, 10⟩⟩, ⟨.name, "x2", ⟨11, 13⟩⟩, ⟨.op, "+", ⟨14, 15⟩⟩, ⟨.name, "x1", ⟨16, 18⟩⟩, ⟨.op, "+", ⟨19, 20⟩⟩, ⟨.name, "b", ⟨21, 22⟩⟩, ⟨.newline, "", ⟨22, 23⟩⟩, ⟨.endmarker, "", ⟨0, 0⟩⟩]
    term_order_data ["Intercept", "a", "b", "x1", "a:x1", "x2"] = true := by
  decide +kernel

/-- "0 + a:x1:x2 + a + x2:x1:b + x2 + x1 + a:x1 + x1:x2 + x1:a:x2:a:b" -/
example : terms (fun s => if s = "a" then [⟨.name, "a", ⟨0, 1⟩⟩, ⟨.newline, "", ⟨1, 2⟩⟩, ⟨.endmarker, "", ⟨0, 0⟩⟩] else if s = "b" then [⟨.name, "b", ⟨0, 1⟩⟩, ⟨.newline, "", ⟨1, 2⟩⟩, ⟨.endmarker, "", ⟨0, 0⟩⟩] else if s = "x1" then [⟨.name, "x1", ⟨0, 2⟩⟩, ⟨.newline, "", ⟨2, 3⟩⟩, ⟨.endmarker, "", ⟨0, 0⟩⟩] else if s = "x2" then [⟨.name, "x2", ⟨0, 2⟩⟩, ⟨.newline, "", ⟨2, 3⟩⟩, ⟨.endmarker, "", ⟨0, 0⟩⟩] else [])
    .exhausted
    [⟨.number, "0", ⟨0, 1⟩⟩, ⟨.op, "+", ⟨2, 3⟩⟩, ⟨.name, "a", ⟨4, 5⟩⟩, ⟨.op, ":", ⟨5, 6⟩⟩, ⟨.name, "x1", ⟨6, 8⟩⟩, ⟨.op, ":", ⟨8, 9⟩⟩, ⟨.name, "x2", ⟨9, 11⟩⟩, ⟨.op, "+", ⟨12, 13⟩⟩, ⟨.name, "a", ⟨14, 15⟩⟩, ⟨.op, "+", ⟨16, 17⟩⟩, ⟨.name, "x2", ⟨18, 20⟩⟩, ⟨.op, ":", ⟨20, 21⟩⟩, ⟨.name, "x1", ⟨21, 23⟩⟩, ⟨.op, ":", ⟨23, 24⟩⟩, ⟨.name, "b", ⟨24, 25⟩⟩, ⟨.op, "+", ⟨26, 27⟩⟩, ⟨.name, "x2", ⟨28, 30⟩⟩, ⟨.op, "+", ⟨31, 32⟩⟩, ⟨.name, "x1", ⟨33, 35⟩⟩, ⟨.op, "+", ⟨36, 37⟩⟩, ⟨.name, "a", ⟨38, 39⟩⟩, ⟨.op, ":", ⟨39, 40⟩⟩, ⟨.name, "x1", ⟨40, 42⟩⟩, ⟨.op, "+", ⟨43, 44⟩⟩, ⟨.name, "x1", ⟨45, 47⟩⟩, ⟨.op, ":", ⟨47, 48⟩⟩, ⟨.name, "x2", ⟨48, 50⟩⟩, ⟨.op, "+", ⟨51, 52⟩⟩, ⟨.name, "x1", ⟨53, 55⟩⟩, ⟨.op, ":", ⟨55, 56⟩⟩, ⟨.name, "a", ⟨56, 57⟩⟩, ⟨.op, ":", ⟨57, 58⟩⟩, ⟨.name, "x2", ⟨58, 60⟩⟩, ⟨.op, ":", ⟨60, 61⟩⟩, ⟨.name, "a", ⟨61, 62⟩⟩, ⟨.op, ":", ⟨62, 63⟩⟩, ⟨.name, "b", ⟨63, 64⟩⟩, ⟨.newline, "", ⟨64, 65⟩⟩, ⟨.endmarker, "", ⟨0, 0⟩⟩]
    term_order_data ["a", "x1:x2", "a:x1:x2", "x2:x1:b", "x1:a:x2:b", "x2", "x1", "a:x1"] = true := by
  decide +kernel


/-! ### `test_simple` (test_build.py:75-129) -/

def simple_data : Env :=
  balanced [("a", 2), ("b", 2)] ++ [("x1", nums [0, 1 / 3, 2 / 3, 1]), ("x2", nums [0, 1 / 9, 4 / 9, 1])]

example : make (simple_data) 2 [["a"]] (some ["a[a1]", "a[a2]"]) (some [[1, 1, 0, 0], [0, 0, 1, 1]]) = true := by
  decide +kernel
example : make (simple_data) 2 [[], ["a"]] (some ["Intercept", "a[T.a2]"]) (some [[1, 1, 1, 1], [0, 0, 1, 1]]) = true := by
  decide +kernel
example : make (simple_data) 4 [["a", "b"]] (some ["a[a1]:b[b1]", "a[a2]:b[b1]", "a[a1]:b[b2]", "a[a2]:b[b2]"]) (some [[1, 0, 0, 0], [0, 0, 1, 0], [0, 1, 0, 0], [0, 0, 0, 1]]) = true := by
  decide +kernel
example : make (simple_data) 4 [[], ["a"], ["b"], ["a", "b"]] (some ["Intercept", "a[T.a2]", "b[T.b2]", "a[T.a2]:b[T.b2]"]) (some [[1, 1, 1, 1], [0, 0, 1, 1], [0, 1, 0, 1], [0, 0, 0, 1]]) = true := by
  decide +kernel
example : make (simple_data) 4 [[], ["b"], ["a"], ["b", "a"]] (some ["Intercept", "b[T.b2]", "a[T.a2]", "b[T.b2]:a[T.a2]"]) (some [[1, 1, 1, 1], [0, 1, 0, 1], [0, 0, 1, 1], [0, 0, 0, 1]]) = true := by
  decide +kernel
example : make (simple_data) 4 [["a"], ["x1"], ["a", "x1"]] (some ["a[a1]", "a[a2]", "x1", "a[T.a2]:x1"]) none = true := by
  decide +kernel
example : make (simple_data) 3 [["x1"], ["x2"], ["x2", "x1"]] (some ["x1", "x2", "x2:x1"]) none = true := by
  decide +kernel

/-! ### `test_R_bugs` (test_build.py:132-148) -/

def R_bugs_data : Env :=
  balanced [("a", 2), ("b", 2), ("c", 2)] ++ [("x", nums [0 / 7, 1 / 7, 2 / 7, 3 / 7, 4 / 7, 5 / 7, 6 / 7, 7 / 7])]

example : make (R_bugs_data) 4 [[], ["a", "b"]] none none = true := by
  decide +kernel
example : make (R_bugs_data) 6 [["a", "x"], ["a", "b"]] none none = true := by
  decide +kernel
example : make (R_bugs_data) 6 [["a", "c"], ["a", "b"]] none none = true := by
  decide +kernel

/-! ### `test_contrast` (test_build.py:661-740) -/

def values : Seen ℚ := strs ["a1", "a3", "a1", "a2"]

example : make ([("a", C values)]) 3 [["a"]] (some ["a[a1]", "a[a2]", "a[a3]"]) (some [[1, 0, 1, 0], [0, 0, 0, 1], [0, 1, 0, 0]]) = true := by
  decide +kernel
example : make ([("a", C values (some (sum (some (.int 0)))))]) 3 [["a"]] (some ["a[mean]", "a[S.a2]", "a[S.a3]"]) (some [[1, 1, 1, 1], [-1, 0, -1, 1], [-1, 1, -1, 0]]) = true := by
  decide +kernel
example : make ([("a", C values)]) 3 [[], ["a"]] (some ["Intercept", "a[T.a2]", "a[T.a3]"]) (some [[1, 1, 1, 1], [0, 0, 0, 1], [0, 1, 0, 0]]) = true := by
  decide +kernel
example : make ([("a", C values (some (sum (some (.int 0)))))]) 3 [[], ["a"]] (some ["Intercept", "a[S.a2]", "a[S.a3]"]) (some [[1, 1, 1, 1], [-1, 0, -1, 1], [-1, 1, -1, 0]]) = true := by
  decide +kernel
example : make ([("a", C values (some (.array 2 2 [[7, 12], [2, 13], [8, -1]])))]) 2 [["a"]] (some ["a[custom0]", "a[custom1]"]) (some [[7, 8, 7, 2], [12, -1, 12, 13]]) = true := by
  decide +kernel
example : make ([("a", C values (some (.matrix ⟨[[7, 12], [2, 13], [8, -1]], 2, ["[foo]", "[bar]"]⟩)))]) 2 [["a"]] (some ["a[foo]", "a[bar]"]) (some [[7, 8, 7, 2], [12, -1, 12, 13]]) = true := by
  decide +kernel
example : make ([("a", C values (some (sum none)))]) 3 [["a"]] (some ["a[mean]", "a[S.a1]", "a[S.a2]"]) (some [[1, 1, 1, 1], [1, -1, 1, 0], [0, -1, 0, 1]]) = true := by
  decide +kernel
example : make ([("a", C values (some (.callable (sum none))))]) 3 [["a"]] (some ["a[mean]", "a[S.a1]", "a[S.a2]"]) (some [[1, 1, 1, 1], [1, -1, 1, 0], [0, -1, 0, 1]]) = true := by
  decide +kernel
example : make ([("a", C values (some (sum none)))]) 3 [[], ["a"]] (some ["Intercept", "a[S.a1]", "a[S.a2]"]) (some [[1, 1, 1, 1], [1, -1, 1, 0], [0, -1, 0, 1]]) = true := by
  decide +kernel
example : make ([("a", C values (some (.callable (sum none))))]) 3 [[], ["a"]] (some ["Intercept", "a[S.a1]", "a[S.a2]"]) (some [[1, 1, 1, 1], [1, -1, 1, 0], [0, -1, 0, 1]]) = true := by
  decide +kernel

end Patsy.Conformance.HighLevel
