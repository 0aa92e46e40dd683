import Verif.Model.Program
import Verif.Spec.Levels
import Verif.Spec.Meaning
import Verif.Spec.Outcome
import Verif.Spec.Transforms
import Verif.Props.ParseFormula
import Verif.Props.EvalFactor

/-!
# What the text of a formula stands for, down to the matrices (specification for C59)
-/

namespace Patsy.Program

open Patsy.Tokens Patsy.Desc Patsy.EvalFactor Patsy.Build Patsy.Cat Patsy.Spec Patsy.Calls Patsy.Props Patsy.Formula

variable {D V A S K H : Type}

/-! ### The Python code in a formula -/

/-- Type and text of Python tokens. -/
def plainTokens (ts : List PyTok) : List EvalFactor.Tok := ts.map fun t => (t.type, t.str)

/-- `e` are the tokens of a Python expression that stands in the formula, and `text` is its text with normalised blanks. -/
def Embedded (fin : RawEnd) (raw e : List PyTok) (text : String) : Prop :=
  ∃ body pre post, RawBody fin raw body ∧ (∀ t ∈ body, Allowed t) ∧
    (body.filter fun t => ¬ LineEnd t) = pre ++ e ++ post ∧ IsExpr (defaultOps.map (·.tokenType)) e ∧
    prettyUntokenize (plainTokens e) = .ok text

/-- Python reads `text` as the tokens `e`, wherever they stood before. -/
def Reads (tokens : String → List PyTok) (text : String) (e : List PyTok) : Prop :=
  ∃ e' ends last, tokens text = e' ++ ends ++ [last] ∧ plainTokens e' = plainTokens e ∧
    (∀ t ∈ ends, t.type = .newline ∧ t.str = "") ∧ last.type = .endmarker

/-- The text of the formula is fine: printing the tokens of its Python expressions and reading them again changes nothing,
their brackets are nested, and they do not use names that patsy reserves. -/
def FineText (I : Interp D V A S K H) (fin : RawEnd) (raw : List PyTok) : Prop :=
  ∀ e text, Embedded fin raw e text → Reads I.tokens text e ∧ BracketsNested [] (plainTokens e) ∧
    ∀ c : Code, c.WF → c.render = plainTokens e → NoReserved I.stateful c

/-! ### What is assumed about Python, NumPy and pandas -/

/-- Sets are gone through once, hashes tell sets of factors apart, pandas objects have as many labels as values and codes
that belong to their categories. -/
structure Sane (I : Interp D V A S K H) : Prop where
  names : ∀ l, (I.visitNames l).Perm l
  factors : ∀ p i l, (I.visitFactors p i l).Perm l
  visits : ∀ l, (I.visit l).Perm l
  order : ∀ l, (I.order l).Perm l
  hash : Function.Injective I.hash
  fits : ∀ v, SeenFits (I.see v)
  codes : ∀ v cats codes, (I.see v).value = .raw (.pandas cats codes) → ∀ c ∈ codes, -1 ≤ c ∧ c < cats.length

/-- Moreover arrays are rectangular, and contrasts come from the constructor of `ContrastMatrix`. -/
structure Real (I : Interp D V A S K H) : Prop extends Sane I where
  rows : ∀ v, SeenRows (I.see v)
  default : RealContrast I.default
  contrasts : ∀ v c, contrastOf (I.see v).value = some c → RealContrast c

/-! ### The values of factors -/

/-- The expression that the code of a factor is. -/
def Interp.expression (I : Interp D V A S K H) (f : String) : Expr String :=
  readSource I.stateful false ((readTokens (I.code f)).getD .nil)

/-- The value of a factor: that of its code in ordinary Python, where stateful transforms are ordinary functions. -/
def Interp.value (I : Interp D V A S K H) (data : D) (f : String) : Except Err (Seen K) :=
  (plainValue I.python I.classOf (I.expression f) data).map I.see

/-- The type that a factor with a given value has. -/
inductive TypeShown {Cn : Type} (na : NAAction) : CatValue Cn → FactorType Cn → Prop
  | vector {ndim ncols vals} : ndim ≤ 1 → TypeShown na (.raw (.array .number ndim ncols vals)) (.numerical 1)
  | matrix {ncols vals} : TypeShown na (.raw (.array .number 2 ncols vals)) (.numerical ncols)
  | declared {r c levels} : TypeShown na (.box r c (some levels)) (.categorical levels c)
  | pandas {cats codes} : TypeShown na (.raw (.pandas cats codes)) (.categorical cats none)
  | pandasC {cats codes c} : TypeShown na (.box (.pandas cats codes) c none) (.categorical cats c)
  | bools {ndim ncols vals} :
      TypeShown na (.raw (.array .boolDtype ndim ncols vals)) (.categorical [.bool false, .bool true] none)
  | boolsC {ndim ncols vals c} :
      TypeShown na (.box (.array .boolDtype ndim ncols vals) c none) (.categorical [.bool false, .bool true] c)
  | values {ndim ncols vals levels} : ndim ≤ 1 →
      ((∀ v ∈ vals, Good na v) → (∀ i, PyVal.nan i ∈ vals → na.nan = true) → AreLevels na vals levels) →
      TypeShown na (.raw (.array .other ndim ncols vals)) (.categorical levels none)
  | valuesC {kind ndim ncols vals levels c} : kind ≠ .boolDtype → ndim ≤ 1 →
      ((∀ v ∈ vals, Good na v) → (∀ i, PyVal.nan i ∈ vals → na.nan = true) → AreLevels na vals levels) →
      TypeShown na (.box (.array kind ndim ncols vals) c none) (.categorical levels c)

/-- Every factor has a value, and its type is the one that the value shows. -/
def Typed (I : Interp D V A S K H) (data : D) (m : ModelDesc String) (types : Types String K) : Prop :=
  ∀ f ∈ allFactors [m.lhs, m.rhs], ∃ s T, I.value data f = .ok s ∧ typeOf types f = some T ∧ TypeShown I.na s.value T

/-! ### The whole -/

/-- What the text of a formula stands for: its model, the types of the factors, and the number of rows of the data. -/
structure StandsFor (I : Interp D V A S K H) (dataIndex : Option (List Build.Label)) (data : D) (fin : RawEnd)
    (raw : List PyTok) (m : ModelDesc String) (types : Types String K) (n : Nat) : Prop where
  /-- The formula is grammatical and means the sets of terms of the model; the factors are the Python expressions in it. -/
  meaning : ∃ (c : Cst String (Option String)) (tree : FTree), FormulaTokens I.isNumber fin raw c.flatten ∧
    c.WF (Infix.mkTable defaultOps atomicTokenTypes) ∧ astOf tree = c.toAst ∧
    FormulaMeans (F := String) .ok I.toInt tree (termSets m.lhs) (termSets m.rhs)
  /-- No term occurs twice, and no factor twice in a term. -/
  normal : Normal m.lhs ∧ Normal m.rhs
  /-- The code of a factor are the tokens of an expression in the formula. -/
  code : ∀ f ∈ allFactors [m.lhs, m.rhs], ∃ e, Embedded fin raw e f ∧ I.code f = plainTokens e
  /-- Every factor has a value, and its type is the one that the value shows. -/
  typed : Typed I data m types
  /-- All factors have `n` rows. -/
  rows : RowCount I.na types (I.value data) (allFactors [m.lhs, m.rhs]) dataIndex n

/-- The rows of the data in which no factor is missing. -/
def completeRows (I : Interp D V A S K H) (isnan : K → Bool) (data : D) (m : ModelDesc String) (types : Types String K)
    (n : Nat) : List (String → Option (Cell K)) :=
  keptCells I.na isnan types (I.value data) (allFactors [m.lhs, m.rhs]) n

/-- The matrix has a row for every complete row, its columns span the functions that the terms describe, and they are
linearly independent if the data are rich enough. -/
def IsMatrixOf [Field K] (I : Interp D V A S K H) (isnan : K → Bool) (data : D) (m : ModelDesc String)
    (types : Types String K) (n : Nat) (ts : List (Term String)) (mat : Mat K) : Prop :=
  mat.nrows = (completeRows I isnan data m types n).length ∧
    (GoodCodings I.default types ts →
      Submodule.span K (Set.range (columnVectors (completeRows I isnan data m types n).length mat.cols)) =
        Submodule.span K (⋃ u ∈ ts, termFunctions types.1 (completeRows I isnan data m types n) u) ∧
      (Rich types.1 ts (levelCount types) (completeRows I isnan data m types n) →
        LinearIndependent K (columnVectors (completeRows I isnan data m types n).length mat.cols)))

/-! ### What may go wrong -/

/-- The ways in which the matrices of a grammatical formula may fail other than with a `PatsyError`. -/
inductive OtherError (I : Interp D V A S K H) (data : D) (m : ModelDesc String) (e : Err) : Prop
  /-- `memorize_finish` of a stateful transform that a factor calls fails. -/
  | finish {f c k g args s} : f ∈ allFactors [m.lhs, m.rhs] → Code.render c = I.code f → IsCall I.stateful c k g args →
      (I.classOf g).finish s = .error e → OtherError I data m e
  /-- Categorical data contain an integer that does not fit into a float. -/
  | huge {f s} : f ∈ allFactors [m.lhs, m.rhs] → I.value data f = .ok s → HasHugeInt s.value → e = .overflowError →
      OtherError I data m e
  /-- A contrast cannot be computed. -/
  | contrast {types f levels c full} : Typed I data m types → f ∈ allFactors [m.lhs, m.rhs] →
      typeOf types f = some (.categorical levels c) →
      Contrast.codeContrastMatrix full levels (c.getD .none) I.default = .error e → OtherError I data m e
  /-- A contrast matrix does not have a row for each level. -/
  | rows {types f levels c full cm} : Typed I data m types → f ∈ allFactors [m.lhs, m.rhs] →
      typeOf types f = some (.categorical levels c) →
      Contrast.codeContrastMatrix full levels (c.getD .none) I.default = .ok cm → cm.matrix.length ≠ levels.length →
      e = .valueError → OtherError I data m e
  /-- The names of columns or terms of a side are ambiguous. -/
  | names {types tl} : Typed I data m types → tl = m.lhs ∨ tl = m.rhs →
      ¬ Readable id types.1 (coderOf I.default types.2) (tl.flatMap (·.factors)) →
      e = .valueError ∨ e = .assertionError → OtherError I data m e
  /-- A value of a categorical factor is of one of the two kinds that `Unusable` tells. -/
  | unusable {types f levels c s} : Typed I data m types → f ∈ allFactors [m.lhs, m.rhs] →
      typeOf types f = some (.categorical levels c) → I.value data f = .ok s → Unusable levels s.value e →
      OtherError I data m e

end Patsy.Program
