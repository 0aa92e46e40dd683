import Verif.Spec.Fit
import Verif.Spec.Names

/-!
# What may go wrong when designs and matrices are made (specification for C58)
-/

namespace Patsy.Spec

open Patsy.Build Patsy.Desc Patsy.Cat

variable {F D K : Type} [DecidableEq F]

/-! ### The world -/

/-- A contrast matrix as it comes out of the constructor of `ContrastMatrix`: all rows of the array have the same length,
and there is a suffix for every column. -/
structure RealMatrix (cm : ContrastMatrix K) : Prop where
  rows : ∀ r ∈ cm.matrix, r.length = cm.ncols
  suffixes : cm.suffixes.length = cm.ncols

/-- A contrast all of whose matrices are such. -/
def RealContrast : Contrast.Spec K → Prop
  | .coding w wo => ∀ levels cm, (w levels = .ok cm ∨ wo levels = .ok cm) → RealMatrix cm
  | .matrix m => RealMatrix m
  | .array _ ncols rows => ∀ r ∈ rows, r.length = ncols
  | .callable r => RealContrast r
  | .none => True

/-- The contrast that a user attached to a value with `C`. -/
def contrastOf : CatValue (Contrast.Spec K) → Option (Contrast.Spec K)
  | .box _ c _ => c
  | .raw _ => none

/-- The rows of an array of numbers have as many entries as the array has columns. -/
def SeenRows (s : Seen K) : Prop :=
  ∀ ndim ncols vals, s.value = .raw (.array .number ndim ncols vals) →
    ∀ r ∈ s.rows, r.length = if ndim = 2 then ncols else 1

/-- What is assumed about NumPy, pandas and Python: pandas objects have as many labels as values and codes that belong to
their categories, arrays are rectangular, a set is gone through once. -/
structure RealWorld {H : Type} (P : Setting F D K H) : Prop extends World P where
  codes : CodesFit P
  rows : ∀ fs eval, P.memorize fs = .ok eval → ∀ f d s, eval f d = .ok s → SeenRows s
  default : RealContrast P.default
  contrasts : ∀ fs eval, P.memorize fs = .ok eval → ∀ f d s, eval f d = .ok s → ∀ c, contrastOf s.value = some c →
    RealContrast c

/-! ### What may go wrong -/

/-- The scalars that a value consists of. -/
def elements {Cn : Type} : CatValue Cn → List PyVal
  | .raw (.pandas cats codes) => pandasValues cats codes
  | .raw (.array _ _ _ vals) => vals
  | .box (.pandas cats codes) _ _ => pandasValues cats codes
  | .box (.array _ _ _ vals) _ _ => vals

/-- An array of boolean dtype. -/
def IsBoolArray {Cn : Type} : CatValue Cn → Prop
  | .raw (.array .boolDtype _ _ _) => True
  | .box (.array .boolDtype _ _ _) _ _ => True
  | _ => False

/-- The value contains an integer that is too large for a float. -/
def HasHugeInt {Cn : Type} (v : CatValue Cn) : Prop := ∃ i : Int, PyVal.int i ∈ elements v ∧ 2 ^ 1024 - 2 ^ 970 ≤ i.natAbs

/-- The levels do not contain both truth values (or `0` and `1`). -/
def LacksBools (levels : List PyVal) : Prop := ∃ b : Bool, ∀ l ∈ levels, l.key ≠ (PyVal.bool b).key

/-- The reasons for which a value cannot be used.  Apart from two cases they are reported as `PatsyError`s. -/
inductive Unusable {Cn : Type} (levels : List PyVal) (v : CatValue Cn) : Err → Prop
  | refused : Unusable levels v .patsyError
  | huge : HasHugeInt v → Unusable levels v .overflowError
  | bools : IsBoolArray v → LacksBools levels → Unusable levels v .keyError

/-- What `design_matrix_builders` learns from the chunks: how the factors of the terms evaluate and what types they have. -/
def LearnedFrom {H : Type} (P : Setting F D K H) (chunks : List D) (tls : List (List (Term F)))
    (eval : F → D → Except Err (Seen K)) (types : Types F K) : Prop :=
  P.memorize (P.visit (allFactors tls)) = .ok eval ∧
    examineTypes P.na P.order P.visit (fun f d => do pure (← eval f d).value) chunks (P.visit (allFactors tls)) = .ok types

/-- The contrast matrix of a factor with these levels. -/
abbrev codedWith {H : Type} (P : Setting F D K H) (levels : List PyVal) (c : Option (Contrast.Spec K)) (full : Bool) :
    Except Err (ContrastMatrix K) :=
  Contrast.codeContrastMatrix full levels (c.getD .none) P.default

/-- All the ways in which `design_matrix_builders` may fail.  The errors other than `PatsyError` are those of the user's
own code (memorisation, evaluation, contrasts), and four kinds of errors that patsy might have reported in a better way. -/
inductive BuildersFail {H : Type} (P : Setting F D K H) (chunks : List D) (tls : List (List (Term F))) (e : Err) : Prop
  /-- A stateful transform fails while it looks at the data. -/
  | memorize : P.memorize (P.visit (allFactors tls)) = .error e → BuildersFail P chunks tls e
  /-- A factor cannot be evaluated. -/
  | evaluate {eval f d} : P.memorize (P.visit (allFactors tls)) = .ok eval → f ∈ allFactors tls → d ∈ chunks →
      eval f d = .error e → BuildersFail P chunks tls e
  /-- A value is refused. -/
  | refused {eval f d s} : P.memorize (P.visit (allFactors tls)) = .ok eval → f ∈ allFactors tls → d ∈ chunks →
      eval f d = .ok s → e = .patsyError → BuildersFail P chunks tls e
  /-- Categorical data contain an integer that does not fit into a float. -/
  | huge {eval f d s} : P.memorize (P.visit (allFactors tls)) = .ok eval → f ∈ allFactors tls → d ∈ chunks →
      eval f d = .ok s → HasHugeInt s.value → e = .overflowError → BuildersFail P chunks tls e
  /-- There are no data. -/
  | noData {f} : chunks = [] → f ∈ allFactors tls → e = .assertionError → BuildersFail P chunks tls e
  /-- A contrast cannot be computed. -/
  | contrast {eval types f levels c full} : LearnedFrom P chunks tls eval types → f ∈ allFactors tls →
      typeOf types f = some (.categorical levels c) → codedWith P levels c full = .error e → BuildersFail P chunks tls e
  /-- A contrast matrix does not have a row for each level. -/
  | rows {eval types f levels c full cm} : LearnedFrom P chunks tls eval types → f ∈ allFactors tls →
      typeOf types f = some (.categorical levels c) → codedWith P levels c full = .ok cm →
      cm.matrix.length ≠ levels.length → e = .valueError → BuildersFail P chunks tls e
  /-- The names of columns or terms of a design are ambiguous. -/
  | names {eval types tl} : LearnedFrom P chunks tls eval types → tl ∈ tls →
      ¬ Readable P.name types.1 (coderOf P.default types.2) (tl.flatMap (·.factors)) →
      e = .valueError ∨ e = .assertionError → BuildersFail P chunks tls e

/-- The ways in which the matrices of the terms cannot be computed from the data other than with a `PatsyError`: a factor
cannot be evaluated, or a value for a categorical factor is of one of the two kinds that `Unusable` tells. -/
inductive BuildFail {H : Type} (P : Setting F D K H) (chunks : List D) (tls : List (List (Term F))) (data : D) (e : Err) : Prop
  | refused : e = .patsyError → BuildFail P chunks tls data e
  | evaluate {eval f} : P.memorize (P.visit (allFactors tls)) = .ok eval → f ∈ allFactors tls → eval f data = .error e →
      BuildFail P chunks tls data e
  | unusable {eval types f levels c s} : LearnedFrom P chunks tls eval types → f ∈ allFactors tls →
      typeOf types f = some (.categorical levels c) → eval f data = .ok s → Unusable levels s.value e →
      BuildFail P chunks tls data e

end Patsy.Spec
