import Verif.Model.EvalPosition
import Verif.Spec.EvalPosition
import Verif.Props.Meaning

/-! # Positions of evaluation errors: the evaluator with positions -/

set_option linter.unusedSectionVars false

namespace Patsy.Props

open Patsy.Infix Patsy.Desc Patsy.Spec Patsy.Util Patsy.Located

variable {F : Type} [DecidableEq F] {mkFactor : String → Except Err F} {toInt : String → Option Int}

/-- The exception without its position. -/
abbrev forget {α : Type} (x : Except LErr α) : Except Err α := x.mapError Prod.fst

theorem forget_ok {α : Type} (a : α) : forget (.ok a : Except LErr α) = .ok a := rfl

theorem forget_pure {α : Type} (a : α) : forget (pure a : Except LErr α) = pure a := rfl

theorem forget_error {α : Type} (e : LErr) : forget (.error e : Except LErr α) = .error e.1 := rfl

theorem forget_bind {α β : Type} (x : Except LErr α) (f : α → Except LErr β) :
    forget (x >>= f) = forget x >>= fun a => forget (f a) := by
  cases x <;> rfl

theorem forget_nowhere {α : Type} (x : Except Err α) : forget (nowhere x) = x := by
  cases x <;> rfl

theorem forget_ite {α : Type} (p : Prop) [Decidable p] (x y : Except LErr α) :
    forget (if p then x else y) = if p then forget x else forget y := by
  split <;> rfl

theorem forget_check (e : IExpr F) : forget (checkAt e) = checkInteractable e := by
  simp only [checkAt, checkInteractable, forget_ite]; rfl

theorem forget_interaction (l r : IExpr F) : forget (interactionAt l r) = interaction l r := by
  simp only [interactionAt, interaction, forget_bind, forget_check, forget_nowhere]

theorem forget_powerLoop (l : IExpr F) (n : Nat) (big : IExpr F) (all : List (Term F)) :
    forget (powerLoopAt l n big all) = powerLoop l n big all := by
  induction n generalizing big all with
  | zero => rfl
  | succ n ih => simp only [powerLoopAt, powerLoop, forget_bind, forget_interaction, ih]

theorem forget_power (l : IExpr F) (p : Int) (o : Origin) : forget (evalPowerAt l p o) = evalPower l p := by
  simp only [evalPowerAt, evalPower, forget_bind, forget_check, forget_ite, forget_powerLoop, forget_nowhere]; rfl

theorem forget_prod (l r : IExpr F) : forget (evalProdAt l r) = evalProd l r := by
  simp only [evalProdAt, evalProd, forget_bind, forget_interaction, forget_nowhere]

theorem forget_div (l r : IExpr F) : forget (evalDivAt l r) = evalDiv l r := by
  simp only [evalDivAt, evalDiv, forget_bind, forget_check, forget_interaction, forget_nowhere]

theorem forget_require (o : Origin) (x : Except LErr (Val F)) : forget (requireAt o x) = requireExpr (forget x) := by
  rcases x with e | (e | d) <;> rfl

theorem forget_eval (n : FTree) : forget (evalAt mkFactor toInt n) = eval mkFactor toInt n := by
  induction n with
  | atom t o =>
    rw [evalAt, eval]
    split
    case h_4 =>
      split <;> simp only [forget_bind, forget_nowhere, forget_pure, forget_error, *]
    all_goals simp only [forget_bind, forget_nowhere, forget_pure, forget_error, *]
  | unary t a o ih =>
    rw [evalAt, eval]
    split <;> simp only [forget_bind, forget_nowhere, forget_pure, forget_error, forget_ite, forget_require, *]
  | binary t a b o iha ihb =>
    rw [evalAt, eval]
    split <;> simp only [forget_bind, forget_nowhere, forget_pure, forget_error, forget_ite, forget_require,
      forget_prod, forget_div, forget_interaction, forget_power, *]

theorem forget_eq_ok {α : Type} {x : Except LErr α} {a : α} : forget x = .ok a ↔ x = .ok a := by
  cases x <;> simp [Except.mapError]

theorem evalAt_ok {n : FTree} {v : Val F} : evalAt mkFactor toInt n = .ok v ↔ eval mkFactor toInt n = .ok v := by
  rw [← forget_eval, forget_eq_ok]

/-- The tree as an operand. -/
def operandAt (mkFactor : String → Except Err F) (toInt : String → Option Int) (n : FTree) : Except LErr (IExpr F) :=
  requireAt n.origin (evalAt mkFactor toInt n)

theorem operandAt_ok {n : FTree} {e : IExpr F} :
    operandAt mkFactor toInt n = .ok e ↔ eval mkFactor toInt n = .ok (.expr e) := by
  rw [← forget_eq_ok, operandAt, forget_require, forget_eval, requireExpr_ok]

theorem means_operand {n : FTree} {m : Meaning F} (h : Means mkFactor toInt n m) :
    ∃ e, operandAt mkFactor toInt n = .ok e ∧ meaningOf e = m := by
  obtain ⟨e, he, hm⟩ := means_eval h
  exact ⟨e, operandAt_ok.mpr he, hm⟩

theorem operand_means {n : FTree} {e : IExpr F} (h : operandAt mkFactor toInt n = .ok e) :
    Means mkFactor toInt n (meaningOf e) := eval_means n e (operandAt_ok.mp h)

theorem operand_good {n : FTree} {e : IExpr F} (h : operandAt mkFactor toInt n = .ok e) : Good e :=
  (eval_spec mkFactor toInt n).1 e (operandAt_ok.mp h)

theorem bindL_ok {α β : Type} {x : Except LErr α} {f : α → Except LErr β} {b : β} :
    (x >>= f) = .ok b ↔ ∃ a, x = .ok a ∧ f a = .ok b := by
  cases x <;> simp [bind, Except.bind]

theorem bindL_err {α β : Type} {x : Except LErr α} {f : α → Except LErr β} {e : LErr} :
    (x >>= f) = .error e ↔ x = .error e ∨ ∃ a, x = .ok a ∧ f a = .error e := by
  cases x <;> simp [bind, Except.bind]

/-- Where an evaluated expression asks for the intercept. -/
def OriginIs (e : IExpr F) (o : Origin) : Prop := e.intercept = true ∧ e.interceptOrigin = some o

theorem originIs_of {i r : Bool} {q : Option Origin} {ts : List (Term F)} {e : IExpr F} (h : IExpr.of i q r ts = .ok e)
    (o : Origin) : OriginIs e o ↔ i = true ∧ q = some o := by
  obtain ⟨_, _, rfl⟩ := IExpr.of_ok.mp h
  rfl

theorem originIs_not {e : IExpr F} (h : e.intercept = false) (o : Origin) : ¬ OriginIs e o := by
  rintro ⟨h', _⟩; rw [h] at h'; simp at h'

theorem origin_exists {n : FTree} {e : IExpr F} (h : operandAt mkFactor toInt n = .ok e) (hi : e.intercept = true) :
    ∃ o, OriginIs e o := by
  have := (operand_good h).origin hi
  cases ho : e.interceptOrigin with
  | none => exact absurd ho this
  | some o => exact ⟨o, hi, ho⟩

theorem checkAt_ok {e : IExpr F} {u : Unit} : checkAt e = .ok u ↔ e.intercept = false := by
  rw [← forget_eq_ok, forget_check, checkInteractable_ok]

theorem checkAt_err {e : IExpr F} {x : LErr} : checkAt e = .error x ↔ e.intercept = true ∧ x = (.patsyError, e.interceptOrigin) := by
  unfold checkAt
  cases e.intercept <;> simp [eq_comm]

theorem nowhere_ok {α : Type} {x : Except Err α} {a : α} : nowhere x = .ok a ↔ x = .ok a := by
  cases x <;> simp [nowhere]

theorem nowhere_err {α : Type} {x : Except Err α} {e : LErr} : nowhere x = .error e ↔ x = .error e.1 ∧ e.2 = none := by
  cases x with
  | ok a => simp [nowhere]
  | error a => obtain ⟨b, c⟩ := e; simp [nowhere, eq_comm]

theorem of_noerr {r : Bool} {q : Option Origin} {ts : List (Term F)} {x : Err} : IExpr.of false q r ts ≠ .error x := by
  simp [IExpr.of]

theorem interactionAt_err {l r : IExpr F} {x : LErr} : interactionAt l r = .error x ↔
    (l.intercept = true ∧ x = (.patsyError, l.interceptOrigin)) ∨
      (l.intercept = false ∧ r.intercept = true ∧ x = (.patsyError, r.interceptOrigin)) := by
  simp only [interactionAt, bindL_err, checkAt_err, checkAt_ok, nowhere_err, of_noerr]
  simp

theorem prodAt_err {l r : IExpr F} {x : LErr} : evalProdAt l r = .error x ↔
    (l.intercept = true ∧ x = (.patsyError, l.interceptOrigin)) ∨
      (l.intercept = false ∧ r.intercept = true ∧ x = (.patsyError, r.interceptOrigin)) := by
  simp only [evalProdAt, bindL_err, interactionAt_err, nowhere_err, of_noerr]
  simp

theorem divAt_err {l r : IExpr F} {x : LErr} : evalDivAt l r = .error x ↔
    (l.intercept = true ∧ x = (.patsyError, l.interceptOrigin)) ∨
      (l.intercept = false ∧ r.intercept = true ∧ x = (.patsyError, r.interceptOrigin)) := by
  simp only [evalDivAt, bindL_err, interactionAt_err, nowhere_err, of_noerr, checkAt_err, checkAt_ok, nowhere_ok, IExpr.of_ok]
  simp

theorem powerAt_err {l : IExpr F} (hl : Good l) {p : Int} {o : Origin} {x : LErr} : evalPowerAt l p o = .error x ↔
    (l.intercept = true ∧ x = (.patsyError, l.interceptOrigin)) ∨
      (l.intercept = false ∧ p < 1 ∧ x = (.patsyError, some o)) := by
  by_cases hi : l.intercept = true
  · simp [evalPowerAt, checkAt, hi, bind, Except.bind, eq_comm]
  · have hi : l.intercept = false := by simpa using hi
    by_cases hp : p < 1
    · simp [evalPowerAt, checkAt, hi, hp, bind, Except.bind, eq_comm]
    · have hno : ∀ y, evalPowerAt l p o ≠ .error y := by
        intro y hy
        rcases evalPower_cases hl p with h | ⟨_, _, _, e, _, h, _⟩
        · obtain ⟨n, rfl⟩ : ∃ n : ℕ, p = n := ⟨p.toNat, by omega⟩
          obtain ⟨e, he, _⟩ := evalPower_meaning hl hi (n := n) (by omega)
          rw [he] at h; simp at h
        · rw [← forget_power l p o, hy] at h; simp [Except.mapError] at h
      simp [hi, hp, hno]

theorem asks_iff (n : FTree) : ∀ e o, eval mkFactor toInt n = .ok (.expr e) →
    (OriginIs e o ↔ AsksAt mkFactor toInt n o) := by
  induction n with
  | atom t q =>
    intro e o h
    have hm := eval_means _ _ h
    rw [eval] at h
    split at h
    · rename_i hk
      simp only [bind_ok, pure_ok, Val.expr.injEq] at h
      obtain ⟨e', h1, rfl⟩ := h
      rw [originIs_of h1]
      constructor
      · simp
      · intro ha; cases ha with | one hk' => rw [hk] at hk'; simp at hk'
    · rename_i hk
      simp only [bind_ok, pure_ok, Val.expr.injEq] at h
      obtain ⟨e', h1, rfl⟩ := h
      rw [originIs_of h1]
      constructor
      · rintro ⟨_, ho⟩; cases ho; exact .one hk
      · intro ha; cases ha with | one hk' => simp
    · simp at h
    · rename_i hk
      split at h
      · simp only [bind_ok, pure_ok, Val.expr.injEq] at h
        obtain ⟨_, _, e', h1, rfl⟩ := h
        rw [originIs_of h1]
        constructor
        · simp
        · intro ha; cases ha with | one hk' => rw [hk] at hk'; simp at hk'
      · simp at h
    · simp at h
  | unary t a q ih =>
    intro e o h
    rw [eval] at h
    split at h
    · simp only [bind_ok, pure_ok] at h
      obtain ⟨_, _, _, _, h⟩ := h; simp at h
    · rename_i hk
      simp only [bind_ok, pure_ok, requireExpr_ok, Val.expr.injEq] at h
      obtain ⟨e', h1, rfl⟩ := h
      rw [ih _ o h1]
      constructor
      · exact .pos hk
      · intro ha
        cases ha with
        | pos _ h => exact h
        | negZero hk' => rw [hk] at hk'; simp at hk'
    · rename_i hk
      split at h
      · rename_i hz
        simp only [bind_ok, pure_ok, Val.expr.injEq] at h
        obtain ⟨e', h1, rfl⟩ := h
        rw [originIs_of h1]
        constructor
        · rintro ⟨_, ho⟩; cases ho; exact .negZero hk (nodeType_iff.mp hz)
        · intro ha
          cases ha with
          | pos hk' => rw [hk] at hk'; simp at hk'
          | negZero _ _ => simp
      · rename_i hz
        split at h
        · simp only [bind_ok, pure_ok, Val.expr.injEq] at h
          obtain ⟨e', h1, rfl⟩ := h
          rw [originIs_of h1]
          constructor
          · simp
          · intro ha
            cases ha with
            | pos hk' => rw [hk] at hk'; simp at hk'
            | negZero _ h => exact absurd (nodeType_iff.mpr h) hz
        · simp at h
    · simp at h
  | binary t a b q iha ihb =>
    intro e o h
    have no : e.intercept = false → t.kind ≠ .sym "+" → t.kind ≠ .sym "-" →
        (OriginIs e o ↔ AsksAt mkFactor toInt (.binary t a b q) o) := by
      intro hi h1 h2
      refine iff_of_false (originIs_not hi o) ?_
      intro ha
      cases ha with
      | plusRight hk => exact h1 hk
      | plusLeft hk => exact h1 hk
      | minusZero hk => exact h2 hk
      | minusLeft hk => exact h2 hk
    rw [eval] at h
    split at h
    · simp only [bind_ok, pure_ok] at h
      obtain ⟨_, _, _, _, h⟩ := h; simp at h
    · rename_i hk
      simp only [bind_ok, requireExpr_ok] at h
      obtain ⟨l, hl, h⟩ := h
      split at h
      · rename_i hz
        simp only [bind_ok, pure_ok, Val.expr.injEq] at h
        obtain ⟨e', h1, rfl⟩ := h
        rw [originIs_of h1]
        constructor
        · simp
        · intro ha
          cases ha with
          | plusRight _ h => exact absurd (nodeType_iff.mp hz) h
          | plusLeft _ h => exact absurd (nodeType_iff.mp hz) h
          | minusZero hk' => rw [hk] at hk'; simp at hk'
          | minusLeft hk' => rw [hk] at hk'; simp at hk'
      · rename_i hz
        have hz := mt nodeType_iff.mpr hz
        simp only [bind_ok, pure_ok, requireExpr_ok, Val.expr.injEq] at h
        obtain ⟨r, hr, e', h1, rfl⟩ := h
        unfold evalPlus at h1
        split at h1
        · rename_i hi
          have hro : OriginIs e' o ↔ OriginIs r o := by rw [originIs_of h1]; simp [OriginIs, hi]
          rw [hro, ihb r o hr]
          constructor
          · exact .plusRight hk hz
          · intro ha
            cases ha with
            | plusRight _ _ h => exact h
            | plusLeft _ _ hm hin =>
              rw [means_unique hm (eval_means _ _ hr), interactable_iff, hi] at hin
              simp at hin
            | minusZero hk' => rw [hk] at hk'; simp at hk'
            | minusLeft hk' => rw [hk] at hk'; simp at hk'
        · rename_i hi
          have hi : r.intercept = false := by simpa using hi
          have hlo : OriginIs e' o ↔ OriginIs l o := by rw [originIs_of h1]; rfl
          rw [hlo, iha l o hl]
          constructor
          · exact .plusLeft hk hz (eval_means _ _ hr) (interactable_iff.mpr hi)
          · intro ha
            cases ha with
            | plusRight _ _ h => exact absurd ((ihb r o hr).mpr h) (originIs_not hi o)
            | plusLeft _ _ _ _ h => exact h
            | minusZero hk' => rw [hk] at hk'; simp at hk'
            | minusLeft hk' => rw [hk] at hk'; simp at hk'
    · rename_i hk
      simp only [bind_ok, requireExpr_ok] at h
      obtain ⟨l, hl, h⟩ := h
      split at h
      · rename_i hz
        simp only [bind_ok, pure_ok, Val.expr.injEq] at h
        obtain ⟨e', h1, rfl⟩ := h
        rw [originIs_of h1]
        constructor
        · rintro ⟨_, ho⟩; cases ho; exact .minusZero hk (nodeType_iff.mp hz)
        · intro ha
          cases ha with
          | plusRight hk' => rw [hk] at hk'; simp at hk'
          | plusLeft hk' => rw [hk] at hk'; simp at hk'
          | minusZero _ _ => simp
          | minusLeft _ h => exact absurd (nodeType_iff.mp hz) h
      · rename_i hz
        have hz := mt nodeType_iff.mpr hz
        split at h
        · rename_i hw
          simp only [bind_ok, pure_ok, Val.expr.injEq] at h
          obtain ⟨e', h1, rfl⟩ := h
          rw [originIs_of h1]
          constructor
          · simp
          · intro ha
            cases ha with
            | plusRight hk' => rw [hk] at hk'; simp at hk'
            | plusLeft hk' => rw [hk] at hk'; simp at hk'
            | minusZero _ h => exact absurd h hz
            | minusLeft _ _ h => exact absurd (nodeType_iff.mp hw) h
        · rename_i hw
          have hw := mt nodeType_iff.mpr hw
          simp only [bind_ok, pure_ok, requireExpr_ok, Val.expr.injEq] at h
          obtain ⟨r, hr, e', h1, rfl⟩ := h
          unfold evalMinus at h1
          simp only at h1
          split at h1
          · rename_i hi
            rw [originIs_of h1]
            constructor
            · simp
            · intro ha
              cases ha with
              | plusRight hk' => rw [hk] at hk'; simp at hk'
              | plusLeft hk' => rw [hk] at hk'; simp at hk'
              | minusZero _ h => exact absurd h hz
              | minusLeft _ _ _ hm hin =>
                rw [means_unique hm (eval_means _ _ hr), interactable_iff, hi] at hin
                simp at hin
          · rename_i hi
            have hi : r.intercept = false := by simpa using hi
            have hlo : OriginIs e' o ↔ OriginIs l o := by rw [originIs_of h1]; rfl
            rw [hlo, iha l o hl]
            constructor
            · exact .minusLeft hk hz hw (eval_means _ _ hr) (interactable_iff.mpr hi)
            · intro ha
              cases ha with
              | plusRight hk' => rw [hk] at hk'; simp at hk'
              | plusLeft hk' => rw [hk] at hk'; simp at hk'
              | minusZero _ h => exact absurd h hz
              | minusLeft _ _ _ _ _ h => exact h
    · rename_i hk
      simp only [bind_ok, pure_ok, requireExpr_ok, Val.expr.injEq] at h
      obtain ⟨l, _, r, _, e', h1, rfl⟩ := h
      obtain ⟨_, _, rfl⟩ := evalProd_ok.mp h1
      exact no rfl (by simp [hk]) (by simp [hk])
    · rename_i hk
      simp only [bind_ok, pure_ok, requireExpr_ok, Val.expr.injEq] at h
      obtain ⟨l, _, r, _, e', h1, rfl⟩ := h
      obtain ⟨_, _, rfl⟩ := evalDiv_ok.mp h1
      exact no rfl (by simp [hk]) (by simp [hk])
    · rename_i hk
      simp only [bind_ok, pure_ok, requireExpr_ok, Val.expr.injEq] at h
      obtain ⟨l, _, r, _, e', h1, rfl⟩ := h
      obtain ⟨_, _, rfl⟩ := interaction_ok.mp h1
      exact no rfl (by simp [hk]) (by simp [hk])
    · rename_i hk
      simp only [bind_ok, pure_ok, requireExpr_ok, Val.expr.injEq] at h
      obtain ⟨l, hl, e', h1, rfl⟩ := h
      rcases evalPower_cases ((eval_spec mkFactor toInt a).1 l hl) (exponent toInt b) with h | ⟨_, _, _, e2, _, h, rfl, _⟩
      · rw [h] at h1; simp at h1
      · rw [h] at h1; simp only [Except.ok.injEq] at h1; subst h1
        exact no rfl (by simp [hk]) (by simp [hk])
    · simp at h

end Patsy.Props
