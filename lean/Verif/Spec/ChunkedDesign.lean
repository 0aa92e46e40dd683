import Verif.Spec.Reorder

/-!
# Designs from data that come in chunks (specification for C66)
-/

namespace Patsy.Spec

open Patsy.Build Patsy.Desc Patsy.Cat Patsy.EvalFactor

variable {F D V A S K : Type} [DecidableEq F]

/-- The labels of the chunks put together. -/
def JoinedLabels (parts : List (Option (List Build.Label))) : Option (List Build.Label) → Prop
  | none => ∀ p ∈ parts, p = none
  | some l => ∃ ls : List (List Build.Label), parts = ls.map some ∧ l = ls.flatten

/-- The values of the chunks put together: all of the same kind, with an entry for each row. -/
def JoinedRaw (parts : List Raw) : Raw → Prop
  | .pandas cats codes => ∃ cs : List (List Int), parts = cs.map (.pandas cats) ∧ codes = cs.flatten
  | .array kind ndim ncols vals => 1 ≤ ndim ∧ ∃ vs : List (List PyVal), parts = vs.map (.array kind ndim ncols) ∧
    (ndim = 1 → vals = vs.flatten)

/-- The same for values in a box. -/
def JoinedValue {Cn : Type} (parts : List (CatValue Cn)) : CatValue Cn → Prop
  | .raw r => ∃ rs : List Raw, parts = rs.map .raw ∧ JoinedRaw rs r
  | .box r c l => ∃ rs : List Raw, parts = rs.map (.box · c l) ∧ JoinedRaw rs r

/-- The value of a factor on the chunks and on the whole data. -/
structure JoinedSeen (parts : List (Seen K)) (w : Seen K) : Prop where
  value : JoinedValue (parts.map (·.value)) w.value
  rows : (∃ ndim ncols vals, w.value = .raw (.array .number ndim ncols vals)) → w.rows = (parts.map (·.rows)).flatten
  index : JoinedLabels (parts.map (·.index)) w.index

/-- Truth values (or 0 and 1) are not mixed with other levels. -/
def Unmixed {Cn : Type} (na : NAAction) (v : CatValue Cn) : Prop :=
  (∀ a ∈ sniffed v, a.key = some (.num 0) ∨ a.key = some (.num 1) ∨ Missing na a) ∨
    ¬ ((∃ a ∈ withBools (sniffed v), a.key = some (.num 0)) ∧ ∃ a ∈ withBools (sniffed v), a.key = some (.num 1))

/-- Two settings that are the same except for the data that they memorise, chunks for the first and the whole data for the
second: afterwards the factors evaluate alike, and where they have values on all chunks, they have the values put together
on the whole data. -/
structure Chunked {H : Type} (P P' : Setting F D K H) (chunks : List D) (whole : D) (fs : List F) : Prop where
  same : P'.name = P.name ∧ P'.hash = P.hash ∧ P'.visit = P.visit ∧ P'.order = P.order ∧ P'.default = P.default ∧ P'.na = P.na
  memorize : ∀ eval, P.memorize fs = .ok eval → ∃ eval', P'.memorize fs = .ok eval' ∧ ∀ f ∈ fs, eval' f = eval f
  values : ∀ eval, P.memorize fs = .ok eval → ∀ f ∈ fs, ∀ ss, chunks.mapM (eval f) = .ok ss →
    ∃ w, eval f whole = .ok w ∧ JoinedSeen ss w ∧ Unmixed P.na w.value

/-- The matrices of the chunks, one above the other. -/
structure Stacked (parts : List (Mat K)) (m : Mat K) : Prop where
  nrows : m.nrows = (parts.map (·.nrows)).sum
  ncols : ∀ p ∈ parts, p.cols.length = m.cols.length
  columns : ∀ (j : Nat) c, m.cols[j]? = some c →
    ∃ cs : List (List K), parts.map (fun p => p.cols[j]?) = cs.map some ∧ c = cs.flatten

/-- One of the chunks: the data, their labels, what is built from them. -/
structure Part (D K : Type) where
  data : D
  index : Option (List Build.Label)
  built : Built K

/-- A result for the whole data, and the `j`-th of the matrices built from the chunks: the matrices one above the other and,
if there are labels (`indexed`), the labels one after the other. -/
structure StackedTable (frame : Bool) (indexed : Prop) (parts : List (Part D K)) (j : Nat) (t : Table F D K) : Prop where
  mat : ∃ ms : List (Mat K), parts.map (fun p => p.built.mats[j]?) = ms.map some ∧ Stacked ms t.mat
  none : frame = false → t.index = none
  labels : frame = true → indexed → ∃ ls : List (List Build.Label), parts.map (·.built.index) = ls.map some ∧ t.index = some ls.flatten

/-- A factor whose code does not care about chunks, with its value on the whole data. -/
structure Chunkable {n : Nat} {H : Type} (I : Program.Interp D V A S K H) (J : Joins n D V A) (whole : D) (f : String) : Prop where
  code : RowwiseCode I.python J (I.expression f)
  classes : ∀ p ∈ sites (I.expression f), ChunkFree J (I.classOf p.1)
  unmixed : ∀ s, I.value whole f = .ok s → Unmixed I.na s.value

end Patsy.Spec
