import Verif.Model.HighLevel
import Verif.Spec.Build

/-! # Specification: what a formula-like object contains -/

namespace Patsy.Spec

open Patsy.Build Patsy.Desc Patsy.Cat

variable {F D K : Type} [DecidableEq F]

/-- The number of values of a categorical factor. -/
def rawLength : Raw → Nat
  | .pandas _ codes => codes.length
  | .array _ _ _ vals => vals.length

/-- The number of values of a categorical factor. -/
def valueLength {Cn : Type} : CatValue Cn → Nat
  | .raw r => rawLength r
  | .box r _ _ => rawLength r

/-- A pandas object has as many labels as values. -/
def SeenFits (s : Seen K) : Prop :=
  ∀ l, s.index = some l → valueLength s.value = l.length ∧
    ((∃ ndim ncols vals, s.value = .raw (.array .number ndim ncols vals)) → s.rows.length = l.length)

/-- What is assumed about the world: Python goes through every element of a set once, and pandas objects have as many
labels as values. -/
structure World {H : Type} (P : Setting F D K H) : Prop where
  visits : ∀ l, (P.visit l).Perm l
  fits : ∀ fs eval, P.memorize fs = .ok eval → ∀ f d s, eval f d = .ok s → SeenFits s

/-- The description that a formula-like stands for, if it stands for one. -/
def modelOf : FormulaLike F D K → Option (ModelDesc F)
  | .provider (.ok (some m)) => some m
  | .text (.ok m) => some m
  | .desc m => some m
  | _ => none

/-- A formula-like that can come about: the factors of a term are distinct, given designs come from the constructor and
consist of objects with an identity, pandas objects have as many labels as rows. -/
def Sound (data : D) : FormulaLike F D K → Prop
  | .design d => ∃ c, IsDesign d c ∧ SameIdentity (factorsOf [c]) ∧ (∀ ty, IndexFits ty (factorsOf [c]) data)
  | .designs l r => ∃ cl cr, IsDesign l cl ∧ IsDesign r cr ∧ SameIdentity (factorsOf [cl, cr]) ∧
      (∀ ty, IndexFits ty (factorsOf [cl, cr]) data)
  | .pair l r => (∀ a, l = some a → ∀ p, a.pandas = some p → p.index.length = a.mat.nrows) ∧
      ∀ p, r.pandas = some p → p.index.length = r.mat.nrows
  | .array a => ∀ p, a.pandas = some p → p.index.length = a.mat.nrows
  | f => ∀ m, modelOf f = some m → ∀ t ∈ m.lhs ++ m.rhs, t.factors.Nodup

/-- There is nothing on the left-hand side. -/
def NoOutcome : FormulaLike F D K → Prop
  | .design _ => True
  | .array _ => True
  | .pair l _ => l = none
  | .designs l _ => l.columnNames = []
  | .tuple _ => False
  | f => ∀ m, modelOf f = some m → m.lhs = []

/-- A factor of the given type has at least one column when it is coded with full rank. -/
def HasColumns (default : Contrast.Spec K) : FactorType (Contrast.Spec K) → Prop
  | .numerical n => 0 < n
  | .categorical levels c =>
    ∀ cm, Contrast.codeContrastMatrix true levels (c.getD .none) default = .ok cm → 0 < cm.ncols

end Patsy.Spec
