import Verif.Spec.Reorder

/-!
# Data from which rows have been removed (specification for C80)

`ks` lists the numbers of the rows that are left.
-/

namespace Patsy.Spec

open Patsy.Build Patsy.Desc Patsy.Cat

variable {F D K B : Type} [DecidableEq F]

/-- `l'` has the entries of `l` at the rows that are left. -/
def Picked (n : Nat) (ks : List Nat) (l l' : List B) : Prop :=
  l.length = n ∧ l'.map some = ks.map fun r => l[r]?

/-- The labels of the rows that are left. -/
def PickedLabels (n : Nat) (ks : List Nat) : Option (List Build.Label) → Option (List Build.Label) → Prop
  | none, none => True
  | some l, some l' => Picked n ks l l'
  | _, _ => False

/-- The values in the rows that are left; a `pandas.Categorical` keeps its categories. -/
def PickedRaw (n : Nat) (ks : List Nat) : Raw → Raw → Prop
  | .pandas cats codes, .pandas cats' codes' => cats' = cats ∧ Picked n ks codes codes'
  | .array kind ndim ncols vals, .array kind' ndim' ncols' vals' =>
    kind' = kind ∧ ndim' = ndim ∧ ncols' = ncols ∧ (ndim ≤ 1 → Picked n ks vals vals')
  | _, _ => False

/-- The same for values in a box. -/
def PickedValue {Cn : Type} (n : Nat) (ks : List Nat) : CatValue Cn → CatValue Cn → Prop
  | .raw r, .raw r' => PickedRaw n ks r r'
  | .box r c l, .box r' c' l' => PickedRaw n ks r r' ∧ c' = c ∧ l' = l
  | _, _ => False

/-- The value of a factor on all the data and on the rows that are left. -/
structure PickedSeen (n : Nat) (ks : List Nat) (s s' : Seen K) : Prop where
  value : PickedValue n ks s.value s'.value
  rows : (∃ ndim ncols vals, s.value = .raw (.array .number ndim ncols vals)) → Picked n ks s.rows s'.rows
  index : PickedLabels n ks s.index s'.index

/-- No level is lost: each value from which a level is found out, unless it is missing, still occurs. -/
def LevelsLeft {Cn : Type} (na : NAAction) (v v' : CatValue Cn) : Prop :=
  ∀ w ∈ sniffed v, isCategoricalNA na w = .ok false → w ∈ withBools (sniffed v')

/-- The two settings are the same except for the data that they memorise, and for what is to be done about missing values:
afterwards the factors evaluate alike; on the data `data'` they have the values that they have on `data`, in the rows that are
left; and no level of a factor is lost. -/
structure Thinned {H : Type} (n : Nat) (ks : List Nat) (P P' : Setting F D K H) (data data' : D) (fs : List F) : Prop where
  same : P'.name = P.name ∧ P'.hash = P.hash ∧ P'.visit = P.visit ∧ P'.order = P.order ∧ P'.default = P.default
  missing : P'.na.types = P.na.types
  memorize : ∀ eval, P.memorize fs = .ok eval → ∃ eval', P'.memorize fs = .ok eval' ∧ ∀ f ∈ fs, eval' f = eval f
  values : ∀ eval, P.memorize fs = .ok eval → ∀ f ∈ fs, ∀ s, eval f data = .ok s →
    ∃ s', eval f data' = .ok s' ∧ PickedSeen n ks s s' ∧ LevelsLeft P.na s.value s'.value ∧ Plain P.na s.value

/-- Two results with the same design and the same matrix.  The rows have the same labels if there are any (`indexed`);
otherwise they have the numbers that they have in the respective data. -/
structure SameComplete {F : Type} (n : Nat) (ks : List Nat) (kept : Nat → Bool) (indexed : Prop) (frame : Bool)
    (t t' : Table F D K) : Prop where
  info : t'.info = t.info
  mat : t'.mat = t.mat
  none : frame = false → t.index = none ∧ t'.index = none
  labels : frame = true → indexed → t'.index = t.index
  numbers : frame = true → ¬ indexed → t.index = some (((List.range n).filter kept).map Build.Label.row) ∧
    t'.index = some (((List.range ks.length).filter fun q => (ks[q]?).any kept).map Build.Label.row)

/-- A factor of a formula given as text, on all the data and on the rows that are left: its stateful calls remember the same
states, its code has the same values in the rows that are left, and no level is lost. -/
structure ThinnedFactor {V A S H : Type} (I : Program.Interp D V A S K H) (n : Nat) (ks : List Nat) (data data' : D) (f : String) :
    Prop where
  states : ∀ σ, Remembers I.python I.classOf [data] (I.expression f) σ →
    Remembers I.python I.classOf [data'] (I.expression f) σ
  values : ∀ s, I.value data f = .ok s → ∃ s', I.value data' f = .ok s' ∧ PickedSeen n ks s s' ∧
    LevelsLeft I.na s.value s'.value ∧ Plain I.na s.value

end Patsy.Spec
