import Mathlib.Data.Finset.Basic
import Mathlib.Data.Finset.Image
import Mathlib.Data.Finset.Card
import Mathlib.Data.List.Sort
import Verif.Model.Err

/-!
# Model of `patsy/redundancy.py`

Factors are values of an arbitrary type `F` with decidable equality.  Python
`frozenset`s of expanded factors are `Finset`s.
-/

namespace Patsy.Redundancy

universe u

/-- `_ExpandedFactor` (redundancy.py:48-78): a factor annotated with whether it
is coded full rank. -/
structure EFactor (F : Type u) where
  includesIntercept : Bool
  factor : F
  deriving DecidableEq, Repr

/-- `_Subterm` (redundancy.py:81-114); `efactors` is the frozenset of line 85.
The class carries nothing else. -/
abbrev Subterm (F : Type u) := Finset (EFactor F)

variable {F : Type u} [DecidableEq F]

/-- `_Subterm.can_absorb` (redundancy.py:87-91).
The Python integer difference `len(self) - len(other) == 1` is written
additively because `Nat` subtraction truncates. -/
def canAbsorb (self other : Subterm F) : Bool :=
  decide (self.card = other.card + 1) && decide (other ⊆ self)

/-- `_Subterm.absorb` (redundancy.py:93-100).  Both assertions are explicit.
`list(diff)[0]` is only evaluated when `diff` has exactly one element, so
"that element" is rendered by quantifying over / mapping over `diff`. -/
def absorb (self other : Subterm F) : Except Err (Subterm F) :=
  let diff := self \ other
  if diff.card = 1 then
    if ∀ e ∈ diff, e.includesIntercept = false then
      .ok (other ∪ diff.image (fun e => ⟨true, e.factor⟩))
    else .error .assertionError
  else .error .assertionError

/-- `list(enumerate(...))` starting at index `i`. -/
def enumFrom {α : Type u} : Nat → List α → List (Nat × α)
  | _, [] => []
  | i, x :: xs => (i, x) :: enumFrom (i + 1) xs

/-- Python's `<=` on tuples of `(idx, obj)` entries.  Indices are distinct, so
two entries with equal index are the same entry and `obj` is never compared. -/
def tupleLe {α : Type u} : List (Nat × α) → List (Nat × α) → Bool
  | [], _ => true
  | _ :: _, [] => false
  | a :: s, b :: t => if a.1 = b.1 then tupleLe s t else decide (a.1 < b.1)

/-- Lines 159-170 of `_subsets_sorted`: the two stable sorts and stripping of the
indices. `List.insertionSort` is a stable sort, like Python's. -/
def sortStrip {α : Type u} (l : List (List (Nat × α))) : List (List α) :=
  ((l.insertionSort (fun s t => tupleLe s t = true)).insertionSort
      (fun s t => s.length ≤ t.length)).map (·.map Prod.snd)

/-- `_subsets_sorted` (redundancy.py:149-170) together with its inner `helper`
(150-157).  `helper` calls `_subsets_sorted` on the tail of the enumerated
sequence, i.e. at the type of pairs; the recursion is on the length `n` of the
sequence, which is passed explicitly. -/
def subsetsSortedN : (n : Nat) → {α : Type u} → List α → List (List α)
  | 0, _, _ => sortStrip [[]]
  | n + 1, _, l =>
    match enumFrom 0 l with
    | [] => sortStrip [[]]
    | obj :: seq =>
      sortStrip ((subsetsSortedN n seq).flatMap fun subset => [subset, obj :: subset])

/-- `_subsets_sorted` (redundancy.py:149-170). -/
def subsetsSorted {α : Type u} (l : List α) : List (List α) :=
  subsetsSortedN l.length l

/-- The inner loop of `_simplify_one_subterm` (redundancy.py:192-197) over the
subterms to the right of `short`.  `some rest'` means `return True` with the
list after `short_i` replaced by `rest'` (and `short` popped). -/
def absorbInto (short : Subterm F) : List (Subterm F) → Except Err (Option (List (Subterm F)))
  | [] => .ok none
  | long :: rest =>
    if canAbsorb long short then
      match absorb long short with
      | .ok new => .ok (some (new :: rest))
      | .error e => .error e
    else
      match absorbInto short rest with
      | .ok (some rest') => .ok (some (long :: rest'))
      | .ok none => .ok none
      | .error e => .error e

/-- `_simplify_one_subterm` (redundancy.py:188-198).  The Python function mutates
its argument and returns a Boolean; here `some l'` is "True, list is now `l'`"
and `none` is "False, list unchanged". -/
def simplifyOne : List (Subterm F) → Except Err (Option (List (Subterm F)))
  | [] => .ok none
  | short :: rest =>
    match absorbInto short rest with
    | .error e => .error e
    | .ok (some rest') => .ok (some rest')
    | .ok none =>
      match simplifyOne rest with
      | .ok (some rest') => .ok (some (short :: rest'))
      | .ok none => .ok none
      | .error e => .error e

theorem absorbInto_length {short : Subterm F} {l l' : List (Subterm F)}
    (h : absorbInto short l = .ok (some l')) : l'.length = l.length := by
  induction l generalizing l' with
  | nil => simp [absorbInto] at h
  | cons long rest ih =>
    simp only [absorbInto] at h
    split at h
    · split at h <;> simp_all
      subst h; simp
    · split at h <;> simp_all
      subst h; simpa using ih

theorem simplifyOne_length {l l' : List (Subterm F)}
    (h : simplifyOne l = .ok (some l')) : l'.length + 1 = l.length := by
  induction l generalizing l' with
  | nil => simp [simplifyOne] at h
  | cons short rest ih =>
    simp only [simplifyOne] at h
    split at h
    · simp at h
    · rename_i r hr
      simp only [Except.ok.injEq, Option.some.injEq] at h
      subst h
      simp [absorbInto_length hr]
    · split at h
      · rename_i r hr
        simp only [Except.ok.injEq, Option.some.injEq] at h
        subst h
        simp [ih hr]
      · simp at h
      · simp at h

/-- `_simplify_subterms` (redundancy.py:201-203).  Lean accepts the definition
because every successful round shortens the list: this is the termination
argument of the Python `while` loop. -/
def simplify (l : List (Subterm F)) : Except Err (List (Subterm F)) :=
  match _h : simplifyOne l with
  | .error e => .error e
  | .ok none => .ok l
  | .ok (some l') => simplify l'
termination_by l.length
decreasing_by
  have := simplifyOne_length _h
  omega

/-- The `_Subterm` built for one subset (redundancy.py:248). -/
def mkSubterm (subset : List F) : Subterm F :=
  (subset.map fun f => (⟨false, f⟩ : EFactor F)).toFinset

/-- `pick_contrasts_for_term` (redundancy.py:241-259).

`_Subterm.__eq__` (line 105-106) compares `self.efactors` with itself and hence
is always true between subterms, so `subterm not in used_subterms` (line 249) is
decided by the hash alone: `hash` is an arbitrary function and the used set is
the list of hashes recorded so far.  `isNum` is membership in `numeric_factors`.
The resulting dictionaries (253-258) are returned as the sets of expanded factors
they are built from; `codingLookup` is the dictionary access. -/
def pickContrasts {H : Type u} [DecidableEq H] (hash : Subterm F → H)
    (isNum : F → Bool) (term : List F) (used : List H) :
    Except Err (List (Subterm F) × List H) :=
  let categorical := term.filter (fun f => !isNum f)
  let subterms := ((subsetsSorted categorical).map mkSubterm).filter
    (fun s => decide (hash s ∉ used))
  let used' := used ++ subterms.map hash
  match simplify subterms with
  | .ok codings => .ok (codings, used')
  | .error e => .error e

/-- Access to the dictionary built in redundancy.py:255-257: `none` if the factor
is not a key. -/
def codingLookup (c : Subterm F) (f : F) : Option Bool :=
  if ⟨true, f⟩ ∈ c then some true
  else if ⟨false, f⟩ ∈ c then some false
  else none

/-- The loop over the terms of one bucket (build.py:655-660): `used_subterms`
starts empty and is threaded through the calls. -/
def codeTerms {H : Type u} [DecidableEq H] (hash : Subterm F → H)
    (isNum : F → Bool) : List (List F) → List H → Except Err (List (List (Subterm F)))
  | [], _ => .ok []
  | t :: ts, used =>
    match pickContrasts hash isNum t used with
    | .error e => .error e
    | .ok (c, used') =>
      match codeTerms hash isNum ts used' with
      | .error e => .error e
      | .ok cs => .ok (c :: cs)

end Patsy.Redundancy
