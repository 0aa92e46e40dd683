/-!
# Python exceptions as values

Every model function that can fail returns `Except Err`.  The kinds of failure
that the properties talk about are kept apart: `patsyError` is the documented
error type of the library (`/repo/patsy/__init__.py:30-70`), everything else is
what a user would call a crash.  The payload of a `PatsyError` (message, origin)
is not modelled except where a definition says so.
-/

namespace Patsy

/-- Failure kinds.  `patsyError` models `PatsyError` (patsy/__init__.py:30-70);
the others are the Python built-in exceptions of the same name. -/
inductive Err where
  | patsyError
  | assertionError
  | indexError
  | keyError
  | valueError
  | typeError
  | nameError
  | zeroDivisionError
  | overflowError
  | attributeError
  | notImplementedError
  deriving DecidableEq, Repr

/-- Test whether a computation succeeded with a given value; used in the examples
(the derived equality test of `Except` does not always evaluate in the kernel). -/
def okIs {α : Type _} [DecidableEq α] (x : Except Err α) (b : α) : Bool :=
  match x with
  | .ok a => decide (a = b)
  | .error _ => false

theorem eq_ok_of_okIs {α : Type _} [DecidableEq α] {x : Except Err α} {b : α}
    (h : okIs x b = true) : x = .ok b := by
  cases x with
  | error e => simp [okIs] at h
  | ok a => simp [okIs] at h; rw [h]

/-- Test whether a computation failed with a given error; used in the examples. -/
def failsWith {A : Type} (x : Except Err A) (e : Err) : Bool :=
  match x with
  | .ok _ => false
  | .error e' => decide (e' = e)

theorem eq_of_failsWith {A : Type} {x : Except Err A} {e : Err} (h : failsWith x e = true) : x = .error e := by
  cases x with
  | ok a => cases h
  | error e' => simp only [failsWith, decide_eq_true_eq] at h; rw [h]

/-- Did the computation succeed? -/
def isOk {α : Type _} (x : Except Err α) : Bool :=
  match x with
  | .ok _ => true
  | .error _ => false

/-- The value of a successful computation; used in the examples. -/
def getOk {α : Type _} (x : Except Err α) (h : isOk x = true) : α :=
  match x, h with
  | .ok a, _ => a

theorem getOk_eq {α : Type _} {x : Except Err α} (h : isOk x = true) : x = .ok (getOk x h) := by
  cases x with
  | error e => simp [isOk] at h
  | ok a => rfl

end Patsy
