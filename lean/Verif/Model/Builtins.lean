import Verif.Model.FactorMemorize
import Verif.Model.State
import Verif.Model.SplineTransform

/-!
# The stateful transforms of patsy as classes

The argument list of a call is the pair of the other arguments (such as `df=...`) and the data; the data are a list of rows.
-/

namespace Patsy.EvalFactor

open Patsy.State Patsy.SplineTransform

variable {ι K : Type} [Field K]

/-- `Center` (state.py:92-133). -/
def centerClass : Class (Center ι K) (Unit × List (Row ι K)) (List (Row ι K)) where
  init := Center.init
  chunk s a := .ok (s.memorizeChunk a.2)
  finish s := .ok s.memorizeFinish
  transform s a := s.transform a.2

/-- The arguments `center`, `rescale`, `ddof`. -/
structure StandardizeArgs (K : Type) where
  center : Bool
  rescale : Bool
  ddof : K

/-- `Standardize` (state.py:142-194). -/
def standardizeClass (sqrt : K → K) : Class (Standardize ι K) (StandardizeArgs K × List (Row ι K)) (List (Row ι K)) where
  init := Standardize.init
  chunk s a := .ok (s.memorizeChunk a.2)
  finish s := .ok s.memorizeFinish
  transform s a := s.transform sqrt a.1.center a.1.rescale a.1.ddof a.2

/-- The attributes of the spline classes: `self._tmp` until `memorize_finish` deletes it, and then what is remembered. -/
inductive Collecting (A S : Type) where
  | collecting (t : Tmp A)
  | done (s : S)

/-- A class that collects its data (`CubicRegressionSpline`, mgcv_cubic_splines.py:555-718, and `BS`, splines.py:85-281). -/
def collectClass {A S Y : Type} (fin : A → List ℝ → Except Err S) (tr : S → A → List ℝ → Except Err (List Y)) :
    Class (Collecting A S) (A × List ℝ) (List Y) where
  init := .collecting Tmp.init
  chunk s a := match s with
    | .collecting t => .ok (.collecting (t.memorizeChunk a.1 a.2))
    | .done _ => .error .attributeError
  finish s := match s with
    | .collecting t => (t.finish fin).map .done
    | .done _ => .error .attributeError
  transform s a := match s with
    | .collecting _ => .error .attributeError
    | .done s => tr s a.1 a.2

/-- `CR` (mgcv_cubic_splines.py:721-750) and `CC` (753-781). -/
noncomputable def crClass (qr : QR) (cyclic : Bool) : Class (Collecting CrArgs CrState) (CrArgs × List ℝ) (List (List ℝ)) :=
  collectClass (crFinish cyclic) fun s _ x => crTransform qr cyclic s x

/-- `BS` (splines.py:85-281). -/
noncomputable def bsClass (splev : Splev) : Class (Collecting BsArgs BsState) (BsArgs × List ℝ) (List (List ℝ)) :=
  collectClass bsFinish fun s args x => bsTransform splev s args.includeIntercept x

/-- The attributes of `TE`: `self._tmp` until `memorize_finish` deletes it, and `self._constraints`
(mgcv_cubic_splines.py:948-950). -/
structure TeState where
  tmp : Option TeTmp
  cons : Option Cons

/-- `TE` (mgcv_cubic_splines.py:910-1001); the argument list is the pair of `constraints` and the matrices. -/
noncomputable def teClass (qr : QR) : Class TeState (Constraints × List (Tensor.Arr ℝ)) (List (List ℝ)) where
  init := ⟨some TeTmp.init, none⟩
  chunk s a := match s.tmp with
    | some t => do
      let t' ← teMemorizeChunk t a.1 a.2
      pure ⟨some t', s.cons⟩
    | none => .error .attributeError
  finish s := match s.tmp with
    | some t => do
      let c ← teFinish t
      pure ⟨none, c⟩
    | none => .error .attributeError
  transform s a := teTransform qr s.cons a.2

end Patsy.EvalFactor
