import Verif.Spec.ConstraintPosition
import Verif.Model.ConstraintPosition
import Verif.Props.Constraint
import Verif.Lemmas.ErrorPosition

/-! # Lemmas about errors in linear constraints -/

namespace Patsy.Constraint

open Patsy.Infix Patsy.Spec Patsy.Props
open Patsy.Located (LErr nowhere)
open Patsy.Desc (bind_ok pure_ok)

set_option linter.unusedSectionVars false

variable {K : Type} [Field K] [DecidableEq K]

/-! ### Forgetting positions -/

/-- The exception without its position. -/
def erase {α : Type} : Except LErr α → Except Err α
  | .ok a => .ok a
  | .error e => .error e.1

theorem erase_bind {α β : Type} (x : Except LErr α) (f : α → Except LErr β) :
    erase (x >>= f) = erase x >>= fun a => erase (f a) := by cases x <;> rfl

@[simp] theorem erase_locate {α : Type} (o : Origin) (x : Except Err α) : erase (locate o x) = x := by cases x <;> rfl

@[simp] theorem erase_nowhere {α : Type} (x : Except Err α) : erase (nowhere x) = x := by cases x <;> rfl

@[simp] theorem erase_pure {α : Type} (a : α) : erase (pure a : Except LErr α) = pure a := rfl

@[simp] theorem erase_ok {α : Type} (a : α) : erase (.ok a : Except LErr α) = .ok a := rfl

theorem eq_ok_of_erase {α : Type} {x : Except LErr α} {a : α} (h : erase x = .ok a) : x = .ok a := by
  cases x with
  | ok b => simpa [erase] using h
  | error e => simp [erase] at h

/-! ### The evaluator in terms of what is wanted -/

/-- `self.eval(tree)` (constraint.py:358-375). -/
def numAt (names : List Name) (num : Name → K) (n : Node Sym Name) : Except LErr (Lin K) := do
  let v ← evalAt names num n
  locate n.origin (toLin v)

/-- The constraint of an argument that is an equation. -/
def chainAt (names : List Name) (num : Name → K) (n : Node Sym Name) : Except LErr (List (LinCon K)) :=
  if isEq (astOf n) = true then do
    let c ← evalConstraintAt names num n
    pure [c]
  else .ok []

variable {names : List Name} {num : Name → K}

theorem evalAt_unary (t : Tok Sym Name) (a : Node Sym Name) (o : Origin) :
    evalAt names num (.unary t a o) = numAt names num a >>= fun x => nowhere (evalUnary t x) := by
  simp only [evalAt, numAt]
  cases evalAt names num a <;> rfl

theorem evalAt_arith {t : Tok Sym Name} (l r : Node Sym Name) (o : Origin) (h1 : t.kind ≠ .sym .eq)
    (h2 : t.kind ≠ .sym .comma) :
    evalAt names num (.binary t l r o) = numAt names num l >>= fun a => numAt names num r >>= fun b =>
      locate (arithOrigin t o r.origin) (evalArith t a b) := by
  rw [evalAt.eq_def]
  simp only [h1, h2, if_false, numAt]
  cases evalAt names num l with
  | error e => rfl
  | ok v =>
    simp only [bind, Except.bind]
    cases locate l.origin (toLin v) with
    | error e => rfl
    | ok a =>
      simp only
      cases evalAt names num r <;> rfl

theorem evalAt_comma {t : Tok Sym Name} (l r : Node Sym Name) (o : Origin) (h : t.kind = .sym .comma) :
    evalAt names num (.binary t l r o) = evalConstraintAt names num l >>= fun a => evalConstraintAt names num r >>= fun b =>
      nowhere (combine [a, b]) >>= fun c => pure (.con c) := by
  have h1 : t.kind ≠ .sym .eq := by simp [h]
  rw [evalAt.eq_def]
  simp only [h1, h, if_false, if_true, evalConstraintAt, evalCommaAt]
  cases evalAt names num l with
  | error e => simp [bind, Except.bind]
  | ok v =>
    simp only [bind, Except.bind]
    cases locate l.origin (toCon names v) with
    | error e => simp
    | ok a =>
      simp only
      cases evalAt names num r <;> simp

/-- The inner argument on the left with its position. -/
def innerLAt (names : List Name) (num : Name → K) : Node Sym Name → Option (Origin × Except LErr (Val K))
  | .binary tl _ lr _ => if tl.kind = .sym .eq then some (lr.origin, evalAt names num lr) else none
  | _ => none

/-- The inner argument on the right with its position. -/
def innerRAt (names : List Name) (num : Name → K) : Node Sym Name → Option (Origin × Except LErr (Val K))
  | .binary tr rl _ _ => if tr.kind = .sym .eq then some (rl.origin, evalAt names num rl) else none
  | _ => none

theorem innerLAt_getD (n : Node Sym Name) :
    (innerLAt names num n).getD (n.origin, evalAt names num n) = ((rightSide n).origin, evalAt names num (rightSide n)) := by
  cases n with
  | atom t o => rfl
  | unary t a o => rfl
  | binary t l r o => by_cases ht : t.kind = .sym .eq <;> simp [innerLAt, rightSide, ht]

theorem innerRAt_getD (n : Node Sym Name) :
    (innerRAt names num n).getD (n.origin, evalAt names num n) = ((leftSide n).origin, evalAt names num (leftSide n)) := by
  cases n with
  | atom t o => rfl
  | unary t a o => rfl
  | binary t l r o => by_cases ht : t.kind = .sym .eq <;> simp [innerRAt, leftSide, ht]

theorem nestedL (n : Node Sym Name) :
    nestedAt names (innerLAt names num n) (n.origin, evalAt names num n) = chainAt names num n := by
  cases n with
  | atom t o => rfl
  | unary t a o => rfl
  | binary t l r o =>
    by_cases ht : t.kind = .sym .eq
    · simp only [innerLAt, ht, if_true, nestedAt, chainAt, astOf, isEq, decide_true, evalConstraintAt]
      cases evalAt names num (.binary t l r o) <;> rfl
    · simp [innerLAt, ht, nestedAt, chainAt, astOf, isEq]

theorem nestedR (n : Node Sym Name) :
    nestedAt names (innerRAt names num n) (n.origin, evalAt names num n) = chainAt names num n := by
  cases n with
  | atom t o => rfl
  | unary t a o => rfl
  | binary t l r o =>
    by_cases ht : t.kind = .sym .eq
    · simp only [innerRAt, ht, if_true, nestedAt, chainAt, astOf, isEq, decide_true, evalConstraintAt]
      cases evalAt names num (.binary t l r o) <;> rfl
    · simp [innerRAt, ht, nestedAt, chainAt, astOf, isEq]

theorem evalAt_eq {t : Tok Sym Name} (l r : Node Sym Name) (o : Origin) (h : t.kind = .sym .eq) :
    evalAt names num (.binary t l r o) = chainAt names num l >>= fun cl => chainAt names num r >>= fun cr =>
      numAt names num (rightSide l) >>= fun a => numAt names num (leftSide r) >>= fun b =>
        if (List.zipWith (· - ·) a.coefs b.coefs).all (fun c => decide (c = 0)) then .error (.patsyError, some o)
        else nowhere (LinCon.make names (.vec (List.zipWith (· - ·) a.coefs b.coefs)) (some (.scalar (-a.const + b.const)))) >>=
          fun c => nowhere (combine (cl ++ cr ++ [c])) >>= fun res => pure (.con res) := by
  have h0 : evalAt names num (.binary t l r o) = evalEqAt names o (innerLAt names num l) (innerRAt names num r)
      (l.origin, evalAt names num l) (r.origin, evalAt names num r) := by
    rw [evalAt.eq_def]
    simp only [h, if_true]
    cases l <;> cases r <;> rfl
  rw [h0]
  simp only [evalEqAt, nestedL, nestedR, innerLAt_getD, innerRAt_getD, numAt]
  cases chainAt names num l with
  | error e => rfl
  | ok cl =>
    cases chainAt names num r with
    | error e => rfl
    | ok cr =>
      simp only [bind, Except.bind]
      cases evalAt names num (rightSide l) with
      | error e => rfl
      | ok v =>
        simp only
        cases locate (rightSide l).origin (toLin v) with
        | error e => rfl
        | ok a =>
          simp only
          cases evalAt names num (leftSide r) <;> rfl

/-! ### Agreement -/

theorem astOf_rightSide (n : Node Sym Name) : astOf (rightSide n) = afterEq (astOf n) := by
  cases n with
  | atom t o => rfl
  | unary t a o => rfl
  | binary t l r o => by_cases ht : t.kind = .sym .eq <;> simp [rightSide, astOf, afterEq, ht]

theorem astOf_leftSide (n : Node Sym Name) : astOf (leftSide n) = beforeEq (astOf n) := by
  cases n with
  | atom t o => rfl
  | unary t a o => rfl
  | binary t l r o => by_cases ht : t.kind = .sym .eq <;> simp [leftSide, astOf, beforeEq, ht]

theorem erase_inner (n : Node Sym Name) (h : ∀ m, sizeOf m < sizeOf n → erase (evalAt names num m) = eval names num m) :
    (innerLAt names num n).map (fun p => erase p.2) = innerL names num n ∧
      (innerRAt names num n).map (fun p => erase p.2) = innerR names num n := by
  cases n with
  | atom t o => exact ⟨rfl, rfl⟩
  | unary t a o => exact ⟨rfl, rfl⟩
  | binary t l r o =>
    by_cases ht : t.kind = .sym .eq
    · simp only [innerLAt, innerL, innerRAt, innerR, ht, if_true, Option.map_some, Option.some.injEq]
      refine ⟨h r ?_, h l ?_⟩ <;> simp <;> omega
    · simp [innerLAt, innerL, innerRAt, innerR, ht]

theorem erase_nested (i : Option (Origin × Except LErr (Val K))) (p : Origin × Except LErr (Val K)) :
    erase (nestedAt names i p) = nested names (i.map fun p => erase p.2) (erase p.2) := by
  cases i with
  | none => rfl
  | some x => simp only [nestedAt, nested, Option.map_some, erase_bind, erase_locate, erase_pure]

theorem erase_getD (i : Option (Origin × Except LErr (Val K))) (p : Origin × Except LErr (Val K)) :
    erase (i.getD p).2 = (i.map fun p => erase p.2).getD (erase p.2) := by
  cases i <;> rfl

theorem erase_evalAt (n : Node Sym Name) : erase (evalAt names num n) = eval names num n := by
  match n with
  | .atom t o => simp [evalAt, eval]
  | .unary t a o =>
    have := erase_evalAt a
    simp [evalAt, eval, erase_bind, this]
  | .binary t l r o =>
    have hl := erase_evalAt l
    have hr := erase_evalAt r
    by_cases h : t.kind = .sym .eq
    · have h0 : evalAt names num (.binary t l r o) = evalEqAt names o (innerLAt names num l) (innerRAt names num r)
          (l.origin, evalAt names num l) (r.origin, evalAt names num r) := by
        rw [evalAt.eq_def]
        simp only [h, if_true]
        cases l <;> cases r <;> rfl
      rw [h0, eval_eq names num h]
      have il := (erase_inner (names := names) (num := num) l fun m hm => erase_evalAt m).1
      have ir := (erase_inner (names := names) (num := num) r fun m hm => erase_evalAt m).2
      simp only [evalEqAt, evalEq, erase_bind, erase_nested, erase_getD, il, ir, hl, hr, erase_locate]
      refine bind_congr fun cl => bind_congr fun cr => bind_congr fun lv => bind_congr fun a => bind_congr fun rv =>
        bind_congr fun b => ?_
      split
      · rfl
      · simp only [erase_bind, erase_nowhere, erase_pure]
    · rw [eval_not_eq names num h]
      by_cases hc : t.kind = .sym .comma
      · rw [evalAt.eq_def]
        simp only [if_neg h, if_pos hc, evalCommaAt, evalComma, erase_bind, hl, hr, erase_locate, erase_nowhere, erase_pure]
      · rw [evalAt.eq_def]
        simp only [h, hc, if_false, erase_bind, hl, hr, erase_locate]
termination_by sizeOf n
decreasing_by all_goals (simp_wf; first | omega | (simp at *; omega))

theorem erase_con (n : Node Sym Name) : erase (evalConstraintAt names num n) = evalConstraint names num n := by
  simp [evalConstraintAt, evalConstraint, erase_bind, erase_evalAt]

theorem erase_num (n : Node Sym Name) : erase (numAt names num n) = eval names num n >>= toLin := by
  simp [numAt, erase_bind, erase_evalAt]

theorem num_means {n : Node Sym Name} {l : Lin K} (h : numAt names num n = .ok l) : Means names num (astOf n) (.lin l) := by
  have h1 := erase_num (names := names) (num := num) n
  rw [h, erase_ok, eq_comm, bind_ok] at h1
  obtain ⟨v, hv, hl⟩ := h1
  rw [toLin_ok] at hl
  subst hl
  exact (eval_means names num n).1 _ hv

theorem num_of_linear (hn : names.Nodup) {n : Node Sym Name} (h : Linear names num (astOf n)) :
    ∃ l, numAt names num n = .ok l := by
  obtain ⟨l, hl⟩ := eval_linear hn n h
  refine ⟨l, eq_ok_of_erase ?_⟩
  rw [erase_num, hl]
  rfl

theorem con_iff (hn : names.Nodup) {n : Node Sym Name} :
    (∃ c, evalConstraintAt names num n = .ok c) ↔ Proper names num (astOf n) := by
  rw [← eval_proper hn, ← erase_con]
  constructor
  · rintro ⟨c, h⟩
    exact ⟨c, by rw [h]; rfl⟩
  · rintro ⟨c, h⟩
    exact ⟨c, eq_ok_of_erase h⟩

theorem con_good {n : Node Sym Name} {c : LinCon K} (h : evalConstraintAt names num n = .ok c) : Good names c := by
  have h1 := erase_con (names := names) (num := num) n
  rw [h, erase_ok, eq_comm, evalConstraint, bind_ok] at h1
  obtain ⟨v, hv, hc⟩ := h1
  exact (means_toCon ((eval_means names num n).1 _ hv) hc).1

theorem chain_iff (hn : names.Nodup) {n : Node Sym Name} :
    (∃ cs, chainAt names num n = .ok cs) ↔ (isEq (astOf n) = true → Proper names num (astOf n)) := by
  unfold chainAt
  split
  · rename_i h
    simp only [h, forall_const, ← con_iff hn]
    cases evalConstraintAt names num n <;> simp [bind, Except.bind, pure, Except.pure]
  · rename_i h
    simp [h]

theorem chain_good {n : Node Sym Name} {cs : List (LinCon K)} (h : chainAt names num n = .ok cs) : ∀ c ∈ cs, Good names c := by
  unfold chainAt at h
  split at h
  · cases hc : evalConstraintAt names num n with
    | error e => simp [hc, bind, Except.bind] at h
    | ok c =>
      simp only [hc, bind, Except.bind, pure, Except.pure, Except.ok.injEq] at h
      subst h
      simpa using con_good hc
  · simp only [Except.ok.injEq] at h
    subst h
    simp

/-- The variables cancel exactly if all differences of coefficients are zero. -/
theorem cancel_iff (hn : names.Nodup) {el er : Ast Sym Name} {a b : Lin K} (ha : Means names num el (.lin a))
    (hb : Means names num er (.lin b)) :
    (∃ k, ∀ ρ x y, value ρ num el = some x → value ρ num er = some y → x - y = k) ↔
      (List.zipWith (· - ·) a.coefs b.coefs).all (fun c => decide (c = 0)) = true := by
  have hlen : (List.zipWith (· - ·) a.coefs b.coefs).length = names.length := by simp [ha.1, hb.1]
  simp only [List.all_eq_true, decide_eq_true_eq]
  constructor
  · rintro ⟨k, hk⟩
    apply all_zero_of_const hn hlen (k := k - a.const + b.const)
    intro ρ
    rw [dot_sub (by rw [ha.1, hb.1]), ← hk ρ _ _ (ha.2.2.2.1 ρ) (hb.2.2.2.1 ρ)]
    ring
  · intro h
    refine ⟨a.const - b.const, fun ρ x y hx hy => ?_⟩
    rw [ha.2.2.2.1 ρ, Option.some.injEq] at hx
    rw [hb.2.2.2.1 ρ, Option.some.injEq] at hy
    have := dot_sub (a := a.coefs) (b := b.coefs) (by rw [ha.1, hb.1]) (names.map ρ)
    rw [dot_zero h] at this
    rw [← hx, ← hy]
    have : dot a.coefs (names.map ρ) = dot b.coefs (names.map ρ) := (sub_eq_zero.mp this.symm)
    rw [this]
    ring

/-! ### Faults -/

theorem bind_errorAt {α β : Type} {x : Except LErr α} {f : α → Except LErr β} {e : LErr} :
    (x >>= f) = .error e ↔ x = .error e ∨ ∃ a, x = .ok a ∧ f a = .error e := by
  cases x <;> simp [bind, Except.bind]

theorem bind_okAt {α β : Type} {x : Except LErr α} {f : α → Except LErr β} {b : β} :
    (x >>= f) = .ok b ↔ ∃ a, x = .ok a ∧ f a = .ok b := by
  cases x <;> simp [bind, Except.bind]

theorem locate_error {α : Type} {o : Origin} {x : Except Err α} {e : LErr} (h : locate o x = .error e) :
    ∃ k, x = .error k ∧ e = (k, if k = .patsyError then some o else none) := by
  cases x with
  | ok a => simp [locate] at h
  | error k => exact ⟨k, rfl, by simpa [locate, eq_comm] using h⟩

theorem nowhere_error {α : Type} {x : Except Err α} {e : LErr} (h : nowhere x = .error e) : x = .error e.1 := by
  cases x with
  | ok a => simp [nowhere] at h
  | error k =>
    simp only [nowhere, Except.error.injEq] at h
    rw [← h]

theorem locate_ok {α : Type} {o : Origin} {x : Except Err α} {a : α} : locate o x = .ok a ↔ x = .ok a := by
  cases x <;> simp [locate]

/-- What an error says: a fault at its position, or a division by zero. -/
def Outcome (F : Origin → Prop) (x : LErr) : Prop := (∃ p, x = (.patsyError, some p) ∧ F p) ∨ x = (.zeroDivisionError, none)

theorem Outcome.imp {F G : Origin → Prop} {x : LErr} (h : Outcome F x) (hi : ∀ p, F p → G p) : Outcome G x :=
  Or.imp (fun ⟨p, h1, h2⟩ => ⟨p, h1, hi p h2⟩) id h

theorem num_fault (hn : names.Nodup) {n : Node Sym Name}
    (ih : ∀ x, evalAt names num n = .error x → Outcome (fun p => ∀ w, Fault names num w n p) x) {x : LErr}
    (h : numAt names num n = .error x) : Outcome (Fault names num .number n) x := by
  rw [numAt, bind_errorAt] at h
  rcases h with h | ⟨v, hv, h⟩
  · exact (ih x h).imp fun p hp => hp _
  · obtain ⟨k, hk, rfl⟩ := locate_error h
    cases v with
    | lin l => simp [toLin] at hk
    | con c =>
      simp only [toLin, Except.error.injEq] at hk
      subst hk
      have he : eval names num n = .ok (.con c) := by rw [← erase_evalAt, hv]; rfl
      refine Or.inl ⟨_, rfl, .notNumber ((eval_means names num n).1 _ he).2.1 ((con_iff hn).1 ⟨c, ?_⟩)⟩
      rw [evalConstraintAt, hv]
      rfl

theorem con_fault {n : Node Sym Name}
    (ih : ∀ x, evalAt names num n = .error x → Outcome (fun p => ∀ w, Fault names num w n p) x) {x : LErr}
    (h : evalConstraintAt names num n = .error x) : Outcome (Fault names num .constraint n) x := by
  rw [evalConstraintAt, bind_errorAt] at h
  rcases h with h | ⟨v, hv, h⟩
  · exact (ih x h).imp fun p hp => hp _
  · obtain ⟨k, hk, rfl⟩ := locate_error h
    cases v with
    | con c => simp [toCon] at hk
    | lin l =>
      have he : eval names num n = .ok (.lin l) := by rw [← erase_evalAt, hv]; rfl
      have hm := (eval_means names num n).1 _ he
      rw [toCon] at hk
      split at hk
      · rename_i hc
        simp only [Except.error.injEq] at hk
        subst hk
        exact Or.inl ⟨_, rfl, .constant hm.2.2.2.2 (const_of_isConstant hm hc)⟩
      · rw [make_vec hm.1] at hk
        simp at hk

theorem chain_fault {n : Node Sym Name}
    (ih : ∀ x, evalAt names num n = .error x → Outcome (fun p => ∀ w, Fault names num w n p) x) {x : LErr}
    (h : chainAt names num n = .error x) : isEq (astOf n) = true ∧ Outcome (Fault names num .constraint n) x := by
  unfold chainAt at h
  split at h
  · rename_i he
    rw [bind_errorAt] at h
    rcases h with h | ⟨c, _, h⟩
    · exact ⟨he, con_fault ih h⟩
    · simp [pure, Except.pure] at h
  · simp at h

theorem known_rightSide {n : Node Sym Name} (h : Known names (astOf n)) : Known names (astOf (rightSide n)) := by
  cases n with
  | atom t o => exact h
  | unary t a o => exact h
  | binary t l r o =>
    by_cases ht : t.kind = .sym .eq
    · simpa [rightSide, ht] using h.2.2
    · simpa [rightSide, ht] using h

theorem known_leftSide {n : Node Sym Name} (h : Known names (astOf n)) : Known names (astOf (leftSide n)) := by
  cases n with
  | atom t o => exact h
  | unary t a o => exact h
  | binary t l r o =>
    by_cases ht : t.kind = .sym .eq
    · simpa [leftSide, ht] using h.2.1
    · simpa [leftSide, ht] using h

theorem sizeOf_rightSide (n : Node Sym Name) : sizeOf (rightSide n) ≤ sizeOf n := by
  cases n with
  | atom t o => exact le_rfl
  | unary t a o => exact le_rfl
  | binary t l r o => by_cases ht : t.kind = .sym .eq <;> simp [rightSide, ht]; omega

theorem sizeOf_leftSide (n : Node Sym Name) : sizeOf (leftSide n) ≤ sizeOf n := by
  cases n with
  | atom t o => exact le_rfl
  | unary t a o => exact le_rfl
  | binary t l r o => by_cases ht : t.kind = .sym .eq <;> simp [leftSide, ht]; omega

theorem evalArith_fault (hn : names.Nodup) {t : Tok Sym Name} {l r : Node Sym Name} {o : Origin} {a b : Lin K} {x : LErr}
    (ht : ∃ o ∈ [Sym.comma, .eq, .plus, .minus, .times, .div], t.kind = .sym o) (h1 : t.kind ≠ .sym .eq)
    (h2 : t.kind ≠ .sym .comma) (ha : numAt names num l = .ok a) (hb : numAt names num r = .ok b)
    (h : locate (arithOrigin t o r.origin) (evalArith t a b) = .error x) :
    Outcome (fun p => ∀ w, Fault names num w (.binary t l r o) p) x := by
  have ma := num_means ha
  have mb := num_means hb
  obtain ⟨k, hk, rfl⟩ := locate_error h
  obtain ⟨s, ho, ht⟩ := ht
  simp only [List.mem_cons, List.not_mem_nil, or_false] at ho
  rcases ho with rfl | rfl | rfl | rfl | rfl | rfl
  · exact absurd ht h2
  · exact absurd ht h1
  · simp [evalArith, ht] at hk
  · simp [evalArith, ht] at hk
  · simp only [evalArith, ht] at hk
    split at hk
    · simp at hk
    · split at hk
      · simp at hk
      · rename_i ca cb
        simp only [Except.error.injEq] at hk
        subst hk
        refine Or.inl ⟨_, rfl, fun w => ?_⟩
        simp only [arithOrigin, ht, Kind.sym.injEq, reduceCtorEq, if_false]
        exact .product ht ma.2.2.2.2 mb.2.2.2.2 (fun hc => ca (isConstant_of_const hn ma hc))
          fun hc => cb (isConstant_of_const hn mb hc)
  · simp only [evalArith, ht] at hk
    split at hk
    · split at hk
      · simp only [Except.error.injEq] at hk
        subst hk
        exact Or.inr rfl
      · simp at hk
    · rename_i cb
      simp only [Except.error.injEq] at hk
      subst hk
      refine Or.inl ⟨_, rfl, fun w => ?_⟩
      simp only [arithOrigin, ht, if_true]
      exact .quotient ht ma.2.2.2.2 mb.2.2.2.2 fun hc => cb (isConstant_of_const hn mb hc)

/-- The evaluation of an equation ends well unless the variables cancel. -/
theorem equation_ok {l r : Node Sym Name} {cl cr : List (LinCon K)} {a b : Lin K} (hcl : chainAt names num l = .ok cl)
    (hcr : chainAt names num r = .ok cr) (ha : numAt names num (rightSide l) = .ok a)
    (hb : numAt names num (leftSide r) = .ok b) :
    ∃ d, (nowhere (LinCon.make names (.vec (List.zipWith (· - ·) a.coefs b.coefs)) (some (.scalar (-a.const + b.const)))) >>=
          fun c => nowhere (combine (cl ++ cr ++ [c])) >>= fun res => (pure (.con res) : Except LErr (Val K))) = .ok (.con d) := by
  have ma := num_means ha
  have mb := num_means hb
  have hlen : (List.zipWith (· - ·) a.coefs b.coefs).length = names.length := by simp [ma.1, mb.1]
  obtain ⟨d, hd, -⟩ := combine_good (names := names)
    (cs := cl ++ cr ++ [⟨names, [List.zipWith (· - ·) a.coefs b.coefs], [-a.const + b.const]⟩]) (by simp) (by
      intro c hc
      simp only [List.mem_append, List.mem_singleton] at hc
      rcases hc with (hc | hc) | rfl
      · exact chain_good hcl c hc
      · exact chain_good hcr c hc
      · exact good_vec hlen _)
  refine ⟨d, ?_⟩
  rw [make_vec hlen]
  simp only [nowhere, bind, Except.bind]
  rw [hd]
  rfl

theorem error_fault (hn : names.Nodup) (n : Node Sym Name) (hk : Known names (astOf n)) (x : LErr)
    (h : evalAt names num n = .error x) : Outcome (fun p => ∀ w, Fault names num w n p) x := by
  match n with
  | .atom t o =>
    have := nowhere_error h
    rcases hk with hk | ⟨hk, hm⟩
    · simp [evalAtom, hk] at this
    · simp [evalAtom, hk, hm] at this
  | .unary t a o =>
    rw [evalAt_unary, bind_errorAt] at h
    rcases h with h | ⟨y, _, h⟩
    · exact (num_fault hn (fun x hx => error_fault hn a hk.2 x hx) h).imp fun p hp w => .sign hp
    · have := nowhere_error h
      rcases hk.1 with ht | ht <;> simp [evalUnary, ht] at this
  | .binary t l r o =>
    obtain ⟨ht, hkl, hkr⟩ := hk
    by_cases h1 : t.kind = .sym .eq
    · rw [evalAt_eq l r o h1] at h
      simp only [bind_errorAt] at h
      rcases h with h | ⟨cl, hcl, h | ⟨cr, hcr, h | ⟨a, ha, h | ⟨b, hb, h⟩⟩⟩⟩
      · obtain ⟨he, hf⟩ := chain_fault (fun x hx => error_fault hn l hkl x hx) h
        exact hf.imp fun p hp w => .chainLeft h1 he hp
      · obtain ⟨he, hf⟩ := chain_fault (fun x hx => error_fault hn r hkr x hx) h
        exact hf.imp fun p hp w => .chainRight h1 ((chain_iff hn).1 ⟨_, hcl⟩) he hp
      · exact (num_fault hn (fun x hx => error_fault hn (rightSide l) (known_rightSide hkl) x hx) h).imp fun p hp w =>
          .sideLeft h1 ((chain_iff hn).1 ⟨_, hcl⟩) ((chain_iff hn).1 ⟨_, hcr⟩) hp
      · exact (num_fault hn (fun x hx => error_fault hn (leftSide r) (known_leftSide hkr) x hx) h).imp fun p hp w =>
          .sideRight h1 ((chain_iff hn).1 ⟨_, hcl⟩) ((chain_iff hn).1 ⟨_, hcr⟩) (num_means ha).2.2.2.2 hp
      · split at h
        · rename_i hall
          simp only [Except.error.injEq] at h
          subst h
          exact Or.inl ⟨o, rfl, fun w => .cancel h1 ((chain_iff hn).1 ⟨_, hcl⟩) ((chain_iff hn).1 ⟨_, hcr⟩)
            (num_means ha).2.2.2.2 (num_means hb).2.2.2.2 ((cancel_iff hn (num_means ha) (num_means hb)).2 hall)⟩
        · obtain ⟨d, hd⟩ := equation_ok hcl hcr ha hb
          rw [hd] at h
          simp at h
    · by_cases h2 : t.kind = .sym .comma
      · rw [evalAt_comma l r o h2] at h
        simp only [bind_errorAt] at h
        rcases h with h | ⟨a, ha, h | ⟨b, hb, h | ⟨c, hc, h⟩⟩⟩
        · exact (con_fault (fun x hx => error_fault hn l hkl x hx) h).imp fun p hp w => .before h2 hp
        · exact (con_fault (fun x hx => error_fault hn r hkr x hx) h).imp fun p hp w => .after h2 ((con_iff hn).1 ⟨_, ha⟩) hp
        · obtain ⟨d, hd, -⟩ := combine_good (names := names) (cs := [a, b]) (by simp) (by simp [con_good ha, con_good hb])
          have := nowhere_error h
          rw [hd] at this
          simp at this
        · simp [pure, Except.pure] at h
      · rw [evalAt_arith l r o h1 h2] at h
        simp only [bind_errorAt] at h
        rcases h with h | ⟨a, ha, h | ⟨b, hb, h⟩⟩
        · exact (num_fault hn (fun x hx => error_fault hn l hkl x hx) h).imp fun p hp w => .left h1 h2 hp
        · exact (num_fault hn (fun x hx => error_fault hn r hkr x hx) h).imp fun p hp w => .right h1 h2 (num_means ha).2.2.2.2 hp
        · exact evalArith_fault hn ht h1 h2 ha hb h
termination_by sizeOf n
decreasing_by
  all_goals simp_wf
  all_goals first
    | omega
    | (have := sizeOf_rightSide l; omega)
    | (have := sizeOf_leftSide r; omega)

/-! ### Faults are found -/

/-- The outcome of a faulty expression in its place. -/
def Fails (names : List Name) (num : Name → K) (n : Node Sym Name) (p : Origin) : Want → Prop
  | .number => numAt names num n = .error (.patsyError, some p)
  | .constraint => evalConstraintAt names num n = .error (.patsyError, some p)

theorem fails_of_eval {n : Node Sym Name} {p : Origin} (h : evalAt names num n = .error (.patsyError, some p)) (w : Want) :
    Fails names num n p w := by
  cases w
  · simp only [Fails, numAt, h]; rfl
  · simp only [Fails, evalConstraintAt, h]; rfl

theorem fault_fails (hn : names.Nodup) {w : Want} {n : Node Sym Name} {p : Origin} (h : Fault names num w n p) :
    Fails names num n p w := by
  induction h with
  | sign h ih =>
    refine fails_of_eval ?_ _
    rw [evalAt_unary, show numAt names num _ = _ from ih]
    rfl
  | left h1 h2 h ih =>
    refine fails_of_eval ?_ _
    rw [evalAt_arith _ _ _ h1 h2, show numAt names num _ = _ from ih]
    rfl
  | right h1 h2 hl h ih =>
    refine fails_of_eval ?_ _
    obtain ⟨a, ha⟩ := num_of_linear hn hl
    rw [evalAt_arith _ _ _ h1 h2, ha, show numAt names num _ = _ from ih]
    rfl
  | @product w t l r o ht hl hr cl cr =>
    refine fails_of_eval ?_ _
    obtain ⟨a, ha⟩ := num_of_linear hn hl
    obtain ⟨b, hb⟩ := num_of_linear hn hr
    rw [evalAt_arith _ _ _ (by simp [ht]) (by simp [ht]), ha, hb]
    have c1 : a.isConstant = false := by
      by_contra hc
      exact cl (const_of_isConstant (num_means ha) (by simpa using hc))
    have c2 : b.isConstant = false := by
      by_contra hc
      exact cr (const_of_isConstant (num_means hb) (by simpa using hc))
    simp [bind, Except.bind, evalArith, ht, c1, c2, locate, arithOrigin]
  | @quotient w t l r o ht hl hr cr =>
    refine fails_of_eval ?_ _
    obtain ⟨a, ha⟩ := num_of_linear hn hl
    obtain ⟨b, hb⟩ := num_of_linear hn hr
    rw [evalAt_arith _ _ _ (by simp [ht]) (by simp [ht]), ha, hb]
    have c2 : b.isConstant = false := by
      by_contra hc
      exact cr (const_of_isConstant (num_means hb) (by simpa using hc))
    simp [bind, Except.bind, evalArith, ht, c2, locate, arithOrigin]
  | before ht h ih =>
    refine fails_of_eval ?_ _
    rw [evalAt_comma _ _ _ ht, show evalConstraintAt names num _ = _ from ih]
    rfl
  | after ht hl h ih =>
    refine fails_of_eval ?_ _
    obtain ⟨a, ha⟩ := (con_iff hn).2 hl
    rw [evalAt_comma _ _ _ ht, ha, show evalConstraintAt names num _ = _ from ih]
    rfl
  | chainLeft ht hl h ih =>
    refine fails_of_eval ?_ _
    rw [evalAt_eq _ _ _ ht, chainAt, if_pos hl, show evalConstraintAt names num _ = _ from ih]
    rfl
  | @chainRight w t l r o p ht hl hr h ih =>
    refine fails_of_eval ?_ _
    obtain ⟨cl, hcl⟩ := (chain_iff hn).2 hl
    rw [evalAt_eq _ _ _ ht, hcl]
    have : chainAt names num r = .error (.patsyError, some p) := by
      rw [chainAt, if_pos hr, show evalConstraintAt names num _ = _ from ih]
      rfl
    rw [this]
    rfl
  | sideLeft ht hl hr h ih =>
    refine fails_of_eval ?_ _
    obtain ⟨cl, hcl⟩ := (chain_iff hn).2 hl
    obtain ⟨cr, hcr⟩ := (chain_iff hn).2 hr
    rw [evalAt_eq _ _ _ ht, hcl, hcr, show numAt names num _ = _ from ih]
    rfl
  | sideRight ht hl hr hs h ih =>
    refine fails_of_eval ?_ _
    obtain ⟨cl, hcl⟩ := (chain_iff hn).2 hl
    obtain ⟨cr, hcr⟩ := (chain_iff hn).2 hr
    obtain ⟨a, ha⟩ := num_of_linear hn hs
    rw [evalAt_eq _ _ _ ht, hcl, hcr, ha, show numAt names num _ = _ from ih]
    rfl
  | cancel ht hl hr hs hs' hc =>
    refine fails_of_eval ?_ _
    obtain ⟨cl, hcl⟩ := (chain_iff hn).2 hl
    obtain ⟨cr, hcr⟩ := (chain_iff hn).2 hr
    obtain ⟨a, ha⟩ := num_of_linear hn hs
    obtain ⟨b, hb⟩ := num_of_linear hn hs'
    rw [evalAt_eq _ _ _ ht, hcl, hcr, ha, hb]
    have := (cancel_iff hn (num_means ha) (num_means hb)).1 hc
    simp only [bind, Except.bind]
    rw [if_pos this]
  | @notNumber n h1 h =>
    obtain ⟨c, hc⟩ := (con_iff hn).2 h
    rw [evalConstraintAt, bind_okAt] at hc
    obtain ⟨v, hv, hc⟩ := hc
    have he : eval names num n = .ok v := by rw [← erase_evalAt, hv]; rfl
    have hm := (eval_means names num n).1 _ he
    cases v with
    | lin l =>
      obtain ⟨-, m1, m2, -⟩ := hm
      simp [m1, m2] at h1
    | con d =>
      simp only [Fails, numAt, hv]
      rfl
  | @constant n h hc =>
    obtain ⟨a, ha⟩ := num_of_linear hn h
    have hm := num_means ha
    rw [numAt, bind_okAt] at ha
    obtain ⟨v, hv, hl⟩ := ha
    rw [locate_ok, toLin_ok] at hl
    subst hl
    simp only [Fails, evalConstraintAt, hv, bind, Except.bind, toCon]
    rw [if_pos (isConstant_of_const hn hm hc)]
    rfl

end Patsy.Constraint
