import Verif.Model.Program

/-!
# Two settings that differ only in what should not matter (specification for C62)

What should not matter: how factors are represented and named (`φ`), the orders in which Python goes through sets of factors and
of levels, and the hash function.
-/

namespace Patsy.Spec

open Patsy.Build Patsy.Desc Patsy.Redundancy Patsy.Program

variable {F G D K H H' : Type} [DecidableEq F] [DecidableEq G]

/-- Rename an expanded factor. -/
def renameFactor (φ : F → G) (e : EFactor F) : EFactor G := ⟨e.includesIntercept, φ e.factor⟩

/-- Rename the factors of a set of expanded factors. -/
def renameSet (φ : F → G) (s : Subterm F) : Subterm G := Finset.image (renameFactor φ) s

/-- Rename the factors of a term. -/
def renameTerm (φ : F → G) (t : Term F) : Term G := ⟨t.factors.map φ⟩

/-- Rename the factors of a model. -/
def renameModel (φ : F → G) (m : ModelDesc F) : ModelDesc G := ⟨m.lhs.map (renameTerm φ), m.rhs.map (renameTerm φ)⟩

/-- The two hash functions agree about which sets have the same hash (for example because there are no collisions). -/
def HashAlike (φ : F → G) (hash : Subterm F → H) (hash' : Subterm G → H') : Prop :=
  ∀ s t, hash s = hash t ↔ hash' (renameSet φ s) = hash' (renameSet φ t)

/-- The two settings differ only in what should not matter: different factors stay different, corresponding factors have the same
values after memorisation, and sets are gone through in any order.  The order of the levels may only differ if NaN counts as
missing, since patsy cannot sort NaNs.  Only the values of the factors that are `used` are compared. -/
structure Alike (used : F → Prop) (φ : F → G) (P : Setting F D K H) (Q : Setting G D K H') : Prop where
  distinct : Function.Injective φ
  visits : ∀ l, (P.visit l).Perm l
  visits' : ∀ l, (Q.visit l).Perm l
  hash : HashAlike φ P.hash Q.hash
  order : P.order = Q.order ∨ (P.na.nan = true ∧ (∀ l, (P.order l).Perm l) ∧ ∀ l, (Q.order l).Perm l)
  default : Q.default = P.default
  na : Q.na = P.na
  values : ∀ fs gs, (∀ f ∈ fs, used f) → fs.Nodup → gs.Perm (fs.map φ) → ∀ eval eval', P.memorize fs = .ok eval → Q.memorize gs = .ok eval' →
    ∀ f ∈ fs, eval' (φ f) = eval f

/-- Memorisation succeeds in both settings or in none of them. -/
def MemoriseAlike (used : F → Prop) (φ : F → G) (P : Setting F D K H) (Q : Setting G D K H') : Prop :=
  ∀ fs gs, (∀ f ∈ fs, used f) → fs.Nodup → gs.Perm (fs.map φ) → ((∃ eval, P.memorize fs = .ok eval) ↔ ∃ eval', Q.memorize gs = .ok eval')

/-- Corresponding factors have the same names. -/
def NamedAlike (φ : F → G) (P : Setting F D K H) (Q : Setting G D K H') : Prop := ∀ f, Q.name (φ f) = P.name f

/-- The two results are the same for their user: the numbers, the labels of the rows, which columns belong to which terms. -/
structure TableAlike (φ : F → G) (t : Table F D K) (t' : Table G D K) : Prop where
  mat : t'.mat = t.mat
  index : t'.index = t.index
  width : t'.info.columnNames.length = t.info.columnNames.length
  terms : t'.info.termSlices = t.info.termSlices.map (List.map (Prod.map (renameTerm φ) id))

/-- The two results are the same. -/
structure SameTable {F : Type} (t t' : Table F D K) : Prop where
  mat : t'.mat = t.mat
  index : t'.index = t.index
  columns : t'.info.columnIndexes = t.info.columnIndexes
  terms : t'.info.termSlices = t.info.termSlices
  termNames : t'.info.termNameSlices = t.info.termNameSlices

/-- Two runs of Python on the same program: only the hash functions and the orders in which sets are gone through differ. -/
structure SameProgram {V A S : Type} (I : Interp D V A S K H) (J : Interp D V A S K H') : Prop where
  tokens : J.tokens = I.tokens
  isNumber : J.isNumber = I.isNumber
  toInt : J.toInt = I.toInt
  python : J.python = I.python
  stateful : J.stateful = I.stateful
  classOf : J.classOf = I.classOf
  default : J.default = I.default
  na : J.na = I.na
  see : J.see = I.see

end Patsy.Spec
