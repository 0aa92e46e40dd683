import Verif.Spec.Program

/-!
# The same data with the rows in another order (specification for C65)
-/

namespace Patsy.Spec

open Patsy.Build Patsy.Desc Patsy.Cat Patsy.EvalFactor

variable {F D V A S K B : Type} [DecidableEq F]

/-- `σ` says where the rows come from: row `q` of the new data is row `σ q` of the old data, and every row occurs once. -/
def Rearranges (n : Nat) (σ : Nat → Nat) : Prop := ((List.range n).map σ).Perm (List.range n)

/-- The list of the new data for a list of the old data. -/
def Moved (n : Nat) (σ : Nat → Nat) (l l' : List B) : Prop :=
  l.length = n ∧ l'.length = n ∧ ∀ q, q < n → l'[q]? = l[σ q]?

/-- Labels move with their rows. -/
def MovedLabels (n : Nat) (σ : Nat → Nat) : Option (List Build.Label) → Option (List Build.Label) → Prop
  | none, none => True
  | some l, some l' => Moved n σ l l'
  | _, _ => False

/-- The values move, what they are does not change. -/
def MovedRaw (n : Nat) (σ : Nat → Nat) : Raw → Raw → Prop
  | .pandas cats codes, .pandas cats' codes' => cats' = cats ∧ Moved n σ codes codes'
  | .array kind ndim ncols vals, .array kind' ndim' ncols' vals' =>
    kind' = kind ∧ ndim' = ndim ∧ ncols' = ncols ∧ (ndim ≤ 1 → Moved n σ vals vals')
  | _, _ => False

/-- The same for values in a box. -/
def MovedValue {Cn : Type} (n : Nat) (σ : Nat → Nat) : CatValue Cn → CatValue Cn → Prop
  | .raw r, .raw r' => MovedRaw n σ r r'
  | .box r c l, .box r' c' l' => MovedRaw n σ r r' ∧ c' = c ∧ l' = l
  | _, _ => False

/-- The value of a factor on the old and on the new data. -/
structure MovedSeen (n : Nat) (σ : Nat → Nat) (s s' : Seen K) : Prop where
  value : MovedValue n σ s.value s'.value
  rows : (∃ ndim ncols vals, s.value = .raw (.array .number ndim ncols vals)) → Moved n σ s.rows s'.rows
  index : MovedLabels n σ s.index s'.index

/-- The values from which levels are found out. -/
def sniffed {Cn : Type} : CatValue Cn → List PyVal
  | .raw (.array .number _ _ _) => []
  | .raw (.array _ _ _ vals) => vals
  | .box (.array _ _ _ vals) _ none => vals
  | _ => []

/-- `True` and `False` come together. -/
def withBools (vals : List PyVal) : List PyVal :=
  if PyVal.bool true ∈ vals ∨ PyVal.bool false ∈ vals then .bool true :: .bool false :: vals else vals

/-- No different objects that are equal (such as `1` and `True`), and NaN counts as missing. -/
def Plain {Cn : Type} (na : NAAction) (v : CatValue Cn) : Prop :=
  (∀ i, PyVal.nan i ∈ sniffed v → na.nan = true) ∧
    ∀ a ∈ withBools (sniffed v), ∀ b ∈ withBools (sniffed v), a.key = b.key → a = b

/-! ### The matrices -/

/-- Is row `r` kept: is none of the factors missing in it? -/
def keeps (na : NAAction) (isnan : K → Bool) (types : Types F K) (ev : F → Except Err (Seen K)) (fs : List F) (r : Nat) : Bool :=
  fs.all fun f => (factorCell na types ev r f).all fun c => !cellMissing na isnan c

/-- `l` has an entry for each of the rows `old`, `l'` for each of the rows `new`, and what they have in common is the same. -/
def SameRows (old new : List Nat) (l l' : List B) : Prop :=
  l.length = old.length ∧ l'.length = new.length ∧
    ∀ i j r : Nat, old[i]? = some r → new[j]? = some r → l'[j]? = l[i]?

/-- Two matrices with the same rows in another order: `old` and `new` are the numbers (in the old data) of their rows. -/
structure SameMat (old new : List Nat) (m m' : Mat K) : Prop where
  nrows : m.nrows = old.length
  nrows' : m'.nrows = new.length
  columns : List.Forall₂ (SameRows old new) m.cols m'.cols

/-- Two results with the same rows in another order: the same design, the same numbers, and the labels of the rows if there
are any (`indexed`); otherwise the labels are the numbers of the rows, in the new data those of the new rows. -/
structure SameTables {F : Type} (n : Nat) (σ : Nat → Nat) (kept : Nat → Bool) (indexed : Prop) (frame : Bool) (t t' : Table F D K) :
    Prop where
  info : t'.info = t.info
  mat : SameMat ((List.range n).filter kept) (((List.range n).map σ).filter kept) t.mat t'.mat
  none : frame = false → t.index = none ∧ t'.index = none
  labels : frame = true → indexed → ∃ l l', t.index = some l ∧ t'.index = some l' ∧
    SameRows ((List.range n).filter kept) (((List.range n).map σ).filter kept) l l'
  numbers : frame = true → ¬ indexed → t.index = some (((List.range n).filter kept).map Build.Label.row) ∧
    t'.index = some (((List.range n).filter fun q => kept (σ q)).map Build.Label.row)

/-! ### Two settings -/

/-- The two settings are the same except for the data that they memorise: afterwards the factors evaluate alike, and on the
data `data'` they have the values that they have on `data`, in the other order. -/
structure Shuffled {H : Type} (n : Nat) (σ : Nat → Nat) (P P' : Setting F D K H) (data data' : D) (fs : List F) : Prop where
  same : P'.name = P.name ∧ P'.hash = P.hash ∧ P'.visit = P.visit ∧ P'.order = P.order ∧ P'.default = P.default ∧ P'.na = P.na
  memorize : ∀ eval, P.memorize fs = .ok eval → ∃ eval', P'.memorize fs = .ok eval' ∧ ∀ f ∈ fs, eval' f = eval f
  values : ∀ eval, P.memorize fs = .ok eval → ∀ f ∈ fs, ∀ s, eval f data = .ok s →
    ∃ s', eval f data' = .ok s' ∧ MovedSeen n σ s s' ∧ Plain P.na s.value

/-- Do the data or the values of the factors come with labels? -/
def Indexed (dataIndex : Option (List Build.Label)) (fs : List F) (ev : F → Except Err (Seen K)) : Prop :=
  dataIndex ≠ none ∨ ∃ f ∈ fs, ∃ s, ev f = .ok s ∧ s.index ≠ none

/-! ### Python -/

/-- When data, values and argument lists are the same up to the order of the rows. -/
structure Shuffle (D V A : Type) where
  data : D → D → Prop
  value : V → V → Prop
  args : A → A → Prop

/-- Outside of the calls, the expression does not care about the order of the rows. -/
def RowCode (P : Python D V A) (R : Shuffle D V A) (e : Expr String) : Prop :=
  (∀ d d' vs vs' v, R.data d d' → List.Forall₂ R.value vs vs' → P.expr e.skel d vs = .ok v →
    ∃ v', R.value v v' ∧ P.expr e.skel d' vs' = .ok v') ∧
  ∀ p ∈ sites e, ∀ d d' vs vs' a, R.data d d' → List.Forall₂ R.value vs vs' → P.args p.2.skel d vs = .ok a →
    ∃ a', R.args a a' ∧ P.args p.2.skel d' vs' = .ok a'

/-- A class of stateful transforms that does not care about the order of the rows. -/
def OrderFree (R : Shuffle D V A) (c : Class S A V) : Prop :=
  ∀ a a', R.args a a' →
    (∀ s v, c.transform s a = .ok v → ∃ v', R.value v v' ∧ c.transform s a' = .ok v') ∧
    ∀ s, remember c [a] = .ok s → remember c [a'] = .ok s

/-- A factor whose code does not care about the order of the rows, with its value on `data`. -/
structure Unordered {H : Type} (I : Program.Interp D V A S K H) (R : Shuffle D V A) (data : D) (f : String) : Prop where
  code : RowCode I.python R (I.expression f)
  classes : ∀ p ∈ sites (I.expression f), OrderFree R (I.classOf p.1)
  plain : ∀ s, I.value data f = .ok s → Plain I.na s.value

end Patsy.Spec
