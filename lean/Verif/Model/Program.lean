import Verif.Model.HighLevel
import Verif.Model.FactorMemorize

/-!
# From the text of a formula to the matrices: the models put together

The parts are those of the other files; here `dmatrix` and `dmatrices` for a formula given as text are composed of them.
-/

namespace Patsy.Program

open Patsy.Tokens Patsy.Desc Patsy.EvalFactor Patsy.Build Patsy.Cat

/-- What Python and the environment contribute.  `tokens` are the raw tokens that `tokenize` yields for a text, `isNumber`
and `toInt` are the number parsers, `python` evaluates expressions, `stateful` and `classOf` tell the stateful transforms in
the environment; `visitNames`, `visitFactors`, `visit` and `order` are orders in which Python goes through sets, `hash` is
that of frozensets; `see` is what patsy sees of a value. -/
structure Interp (D V A S K H : Type) where
  tokens : String → List PyTok
  isNumber : String → Bool
  toInt : String → Option Int
  python : Python D V A
  stateful : String → Bool
  classOf : String → Class S A V
  visitNames : List String → List String
  visitFactors : Nat → Nat → List String → List String
  visit : List String → List String
  order : List PyVal → List PyVal
  hash : Redundancy.Subterm String → H
  default : Contrast.Spec K
  na : NAAction
  see : V → Seen K

variable {D V A S K H : Type}

/-- `EvalFactor.__init__` (eval.py:456-480): a factor is determined by its code (eval.py:488-495). -/
def Interp.mkFactor (I : Interp D V A S K H) (code : String) : Except Err String := normalizeTokenSpacing (I.tokens code)

/-- The tokens of the code of a factor, as `python_tokenize` returns them to `annotated_tokens` (eval.py:726-738).  If that
fails, so does `ast_names` before (eval.py:504), which is not modelled. -/
def Interp.code (I : Interp D V A S K H) (f : String) : List Tok :=
  match pythonTokenize .exhausted (I.tokens f) with
  | .ok ts => ts.map fun t => (t.type, t.str)
  | .error _ => []

/-- `ModelDesc.from_formula` (desc.py:164-179) for a text with the given raw tokens. -/
def Interp.fromFormula (I : Interp D V A S K H) (fin : RawEnd) (raw : List PyTok) : Except Err (ModelDesc String) := do
  let tree ← parseFormula I.isNumber fin raw
  fromTree I.mkFactor I.toInt tree

/-- `design_matrix_builders` (build.py:693-796) works with `EvalFactor`s, which are memorised on the given chunks; their
names are their codes (eval.py:482-483). -/
def Interp.setting (I : Interp D V A S K H) (chunks : List D) : Setting String D K H where
  name := id
  hash := I.hash
  visit := I.visit
  order := I.order
  default := I.default
  na := I.na
  memorize fs := (memorizeFactors I.python I.stateful I.classOf I.visitNames I.visitFactors I.code chunks fs).map
    fun states f d => (evalMemorized I.python I.classOf states f d).map I.see

/-- `dmatrices` (highlevel.py:316-322) for a text with the given raw tokens. -/
def Interp.dmatrices [DecidableEq H] [Mul K] [One K] (I : Interp D V A S K H) (isnan : K → Bool)
    (dataIndex : Option (List Build.Label)) (data : D) (rt : ReturnType) (fin : RawEnd) (raw : List PyTok) :
    Except Err (Table String D K × Table String D K) :=
  Build.dmatrices (I.setting [data]) isnan dataIndex data rt (.text (I.fromFormula fin raw))

/-- `dmatrix` (highlevel.py:293-301) for a text with the given raw tokens. -/
def Interp.dmatrix [DecidableEq H] [Mul K] [One K] (I : Interp D V A S K H) (isnan : K → Bool)
    (dataIndex : Option (List Build.Label)) (data : D) (rt : ReturnType) (fin : RawEnd) (raw : List PyTok) :
    Except Err (Table String D K) :=
  Build.dmatrix (I.setting [data]) isnan dataIndex data rt (.text (I.fromFormula fin raw))

end Patsy.Program
