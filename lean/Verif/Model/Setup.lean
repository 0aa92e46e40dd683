import Mathlib.Data.List.Sort
import Verif.Model.Columns
import Verif.Model.Redundancy

/-!
# Model of `_make_subterm_infos` and the last part of `design_matrix_builders`
(`patsy/build.py`)

Parameters: `nums` is the dictionary `num_column_counts`; `coder f full` is
`code_contrast_matrix(full, levels, contrast, default=Treatment)` for the levels and the
contrast that `cat_levels_contrasts` has for the factor `f`; `hash` is the hash of a
`_Subterm` (see `Model/Redundancy.lean`).
-/

namespace Patsy.Build

open Patsy.Desc Patsy.Redundancy

variable {F D K : Type} [DecidableEq F]

/-- `factor in num_column_counts`. -/
def isNumeric (nums : List (F × Nat)) (f : F) : Bool := (dictGet nums f).isSome

/-- The `frozenset` of the numerical factors of a term (build.py:633-637). -/
def bucketOf (nums : List (F × Nat)) (t : Term F) : Finset F :=
  (t.factors.filter (isNumeric nums)).toFinset

/-- One round of the loop that fills the buckets (build.py:632-640): `bucket_ordering` and
`term_buckets`. -/
def bucketStep (nums : List (F × Nat)) (s : List (Finset F) × List (Finset F × List (Term F)))
    (t : Term F) : List (Finset F) × List (Finset F × List (Term F)) :=
  let b := bucketOf nums t
  (if (dictGet s.2 b).isSome then s.1 else s.1 ++ [b],
   dictSet (fun a b => decide (a = b)) s.2 b ((dictGet s.2 b).getD [] ++ [t]))

/-- The loop (build.py:630-640). -/
def buckets (nums : List (F × Nat)) (terms : List (Term F)) :
    List (Finset F) × List (Finset F × List (Term F)) :=
  terms.foldl (bucketStep nums) ([], [])

/-- The bucket without numerical factors is moved to the front (build.py:643-645). -/
def moveEmptyFirst (order : List (Finset F)) (bs : List (Finset F × List (Term F))) :
    List (Finset F) :=
  if (dictGet bs ∅).isSome then ∅ :: order.erase ∅ else order

/-- `bucket_terms.sort(key=lambda t: len(t.factors))` (build.py:653); both sorts are
stable. -/
def sortByDegree (ts : List (Term F)) : List (Term F) :=
  ts.insertionSort fun s t => s.factors.length ≤ t.factors.length

/-- The loop over the factors of a term for one coding (build.py:663-684):
`subterm_factors`, `contrast_matrices`, `subterm_columns`.  The factors of a term are
distinct, so the dictionary assignments append. -/
def subtermLoop (nums : List (F × Nat)) (coder : F → Bool → Except Err (ContrastMatrix K))
    (coding : Subterm F) : List F → Except Err (List F × List (F × ContrastMatrix K) × Nat)
  | [] => .ok ([], [], 1)
  | f :: fs =>
    match dictGet nums f with
    | some n => do
      let r ← subtermLoop nums coder coding fs
      .ok (f :: r.1, r.2.1, n * r.2.2)
    | none =>
      match codingLookup coding f with
      | some full => do
        let cm ← coder f full
        let r ← subtermLoop nums coder coding fs
        .ok (f :: r.1, (f, cm) :: r.2.1, cm.ncols * r.2.2)
      | none => subtermLoop nums coder coding fs

/-- One `SubtermInfo` (build.py:663-687). -/
def makeSubterm (nums : List (F × Nat)) (coder : F → Bool → Except Err (ContrastMatrix K))
    (t : Term F) (coding : Subterm F) : Except Err (SubtermInfo F K) := do
  let r ← subtermLoop nums coder coding t.factors
  SubtermInfo.make r.1 r.2.1 r.2.2

/-- The loop over the terms of one bucket (build.py:655-688): the assignments to
`term_to_subterm_infos`, in order. -/
def codeBucket {H : Type} [DecidableEq H] (hash : Subterm F → H) (nums : List (F × Nat))
    (coder : F → Bool → Except Err (ContrastMatrix K)) :
    List (Term F) → List H → Except Err (List (Term F × List (SubtermInfo F K)))
  | [], _ => .ok []
  | t :: ts, used => do
    let c ← pickContrasts hash (isNumeric nums) t.factors used
    let sts ← c.1.mapM (makeSubterm nums coder t)
    let rest ← codeBucket hash nums coder ts c.2
    .ok ((t, sts) :: rest)

/-- `l == m` for lists of `Term`s. -/
def sameTerms : List (Term F) → List (Term F) → Bool
  | [], [] => true
  | s :: l, t :: m => Term.eqv s t && sameTerms l m
  | _, _ => false

/-- `_make_subterm_infos` (build.py:627-690). -/
def makeSubtermInfos {H : Type} [DecidableEq H] (hash : Subterm F → H) (nums : List (F × Nat))
    (coder : F → Bool → Except Err (ContrastMatrix K)) (terms : List (Term F)) :
    Except Err (List (Term F × List (SubtermInfo F K))) := do
  let bs := buckets nums terms
  let order := moveEmptyFirst bs.1 bs.2
  let assigned ← order.mapM fun b => codeBucket hash nums coder
    (sortByDegree ((dictGet bs.2 b).getD [])) []
  let newTermOrder := order.flatMap fun b => sortByDegree ((dictGet bs.2 b).getD [])
  let infos := dictOf Term.eqv assigned.flatten
  if sameTerms newTermOrder (infos.map Prod.fst) then .ok infos else .error .assertionError

/-- The `factor_infos` of one design (build.py:780-783): `this_design_factor_infos`. -/
def designFactors (fis : List (F × FactorInfo F D K)) (terms : List (Term F)) :
    Except Err (List (F × FactorInfo F D K)) :=
  (terms.flatMap (·.factors)).foldlM (fun acc f => do
    let fi ← match dictGet fis f with
      | some fi => Except.ok fi
      | none => .error .keyError
    .ok (dictSet (fun a b => decide (a = b)) acc f fi)) []

/-- The loop body of `design_matrix_builders` (build.py:774-795) for one list of terms. -/
def makeDesign {H : Type} [DecidableEq H] (name : F → String) (hash : Subterm F → H)
    (nums : List (F × Nat)) (coder : F → Bool → Except Err (ContrastMatrix K))
    (fis : List (F × FactorInfo F D K)) (terms : List (Term F)) :
    Except Err (DesignInfo F D K) := do
  let infos ← makeSubtermInfos hash nums coder terms
  if (infos.all fun p => terms.any (Term.eqv p.1)) && (terms.all fun t => infos.any fun p => Term.eqv p.1 t)
  then do
    let own ← designFactors fis terms
    let names ← (infos.flatMap (·.2)).mapM (subtermColumnNames name fis)
    DesignInfo.make name names.flatten (some ⟨own, infos⟩)
  else .error .assertionError

end Patsy.Build
