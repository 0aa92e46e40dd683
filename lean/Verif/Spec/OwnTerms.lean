import Verif.Model.HighLevel
import Verif.Model.DesignTerms
import Verif.Model.Describe

/-!
# Specification: a design made again, and what the text of a design says (C67, C68)
-/

namespace Patsy.Spec

open Patsy.Build Patsy.Desc

variable {F D K H : Type} [DecidableEq F]

/-- The order in which Python goes through a set of factors does not matter: every factor is visited, and what is memorised about
a factor does not depend on the order. -/
structure SetOrderFree (used : F → Prop) (P : Setting F D K H) : Prop where
  visits : ∀ l, (P.visit l).Perm l
  memorize : ∀ fs gs, (∀ f ∈ fs, used f) → fs.Nodup → gs.Perm fs → ∀ eval, P.memorize fs = .ok eval →
    ∃ eval', P.memorize gs = .ok eval' ∧ ∀ f ∈ fs, eval' f = eval f

/-- The two designs have the same columns, for the same terms. -/
structure SameColumns (d d' : DesignInfo F D K) : Prop where
  columns : d'.columnIndexes = d.columnIndexes
  terms : d'.termSlices = d.termSlices
  termNames : d'.termNameSlices = d.termNameSlices

/-- The tokens of a sum of terms: `1` for the intercept, `a:b` for an interaction. -/
def sumToks (name : F → String) (ts : List (Term F)) : List (Infix.Tok String (Option String)) :=
  joinToks (tk "+" none) (ts.map (termToks name))

/-- The tokens of the formula `l ~ r`; without a left-hand side `r` alone. -/
def formulaToks (name : F → String) (l r : List (Term F)) : List (Infix.Tok String (Option String)) :=
  if l = [] then sumToks name r else sumToks name l ++ tk "~" none :: sumToks name r

/-- What a token of such a formula looks like in `describe()`. -/
def spelling (t : Infix.Tok String (Option String)) : String :=
  if t.kind = .sym "+" then " + " else if t.kind = .sym ":" then ":" else t.extra.getD ""

/-- The terms together with the intercept. -/
def withIntercept (ts : List (Term F)) : List (Term F) :=
  if ts.any (fun t => t.factors.isEmpty) then ts else ⟨[]⟩ :: ts

end Patsy.Spec
