import Verif.Lemmas.EvalPosition
import Verif.Lemmas.Program
import Verif.Props.ErrorPosition

/-!
# C61: errors in the meaning of a formula point at the right place
-/

set_option linter.unusedSectionVars false

namespace Patsy.Props

open Patsy.Infix Patsy.Tokens Patsy.Formula Patsy.Desc Patsy.Spec Patsy.Util Patsy.Located
open Patsy.Program (Embedded hasExpr_embedded)

variable {F : Type} [DecidableEq F] {mkFactor : String → Except Err F} {toInt : String → Option Int}

section

variable {t : Tok String (Option String)} {a b : FTree} {o : Origin}

theorem require_bind {α : Type} (o : Origin) (x : Except LErr α) (f : α → Except LErr (Val F)) :
    requireAt o (x >>= f) = x >>= fun a => requireAt o (f a) := by
  cases x <;> rfl

theorem require_expr (o : Origin) (e : IExpr F) : requireAt o (pure (.expr e)) = pure e := rfl

theorem operandAt_pos (hk : t.kind = .sym "+") :
    operandAt mkFactor toInt (.unary t a o) = operandAt mkFactor toInt a := by
  simp only [operandAt, evalAt, hk, require_bind, require_expr, bind_pure]

theorem operandAt_tilde (hk : t.kind = .sym "~") :
    operandAt mkFactor toInt (.unary t a o) = operandAt mkFactor toInt a >>= fun _ => .error (.patsyError, some o) := by
  simp only [operandAt, evalAt, hk, require_bind]
  rfl

theorem operandAt_tilde₂ (hk : t.kind = .sym "~") :
    operandAt mkFactor toInt (.binary t a b o) =
      operandAt mkFactor toInt a >>= fun _ => operandAt mkFactor toInt b >>= fun _ => .error (.patsyError, some o) := by
  simp only [operandAt, evalAt, hk, require_bind]
  rfl

theorem operandAt_plus (hk : t.kind = .sym "+") (hb : ¬ IsLit "ZERO" b) :
    operandAt mkFactor toInt (.binary t a b o) =
      operandAt mkFactor toInt a >>= fun l => operandAt mkFactor toInt b >>= fun r => nowhere (evalPlus l r) := by
  simp only [operandAt, evalAt, hk, require_bind, mt nodeType_iff.mp hb, if_false, require_expr, bind_pure]

theorem operandAt_plusZero (hk : t.kind = .sym "+") (hb : IsLit "ZERO" b) :
    operandAt mkFactor toInt (.binary t a b o) =
      operandAt mkFactor toInt a >>= fun l => nowhere (IExpr.of false none true l.terms) := by
  simp only [operandAt, evalAt, hk, require_bind, nodeType_iff.mpr hb, if_true, require_expr, bind_pure]

theorem operandAt_minus (hk : t.kind = .sym "-") (hb : ¬ IsLit "ZERO" b) (hb' : ¬ IsLit "ONE" b) :
    operandAt mkFactor toInt (.binary t a b o) =
      operandAt mkFactor toInt a >>= fun l => operandAt mkFactor toInt b >>= fun r => nowhere (evalMinus l r) := by
  simp only [operandAt, evalAt, hk, require_bind, mt nodeType_iff.mp hb, mt nodeType_iff.mp hb', if_false, require_expr, bind_pure]

theorem operandAt_minusLit (hk : t.kind = .sym "-") (hb : IsLit "ZERO" b ∨ IsLit "ONE" b) :
    ∃ i q r, (i = true → q ≠ none) ∧ (i = true → r = false) ∧ operandAt mkFactor toInt (.binary t a b o) =
      operandAt mkFactor toInt a >>= fun l => nowhere (IExpr.of i q r l.terms) := by
  by_cases hz : IsLit "ZERO" b
  · refine ⟨true, some b.origin, false, by simp, by simp, ?_⟩
    simp only [operandAt, evalAt, hk, require_bind, nodeType_iff.mpr hz, if_true, require_expr, bind_pure]
  · have ho := hb.resolve_left hz
    refine ⟨false, none, true, by simp, by simp, ?_⟩
    have hne : ¬ (some "ONE" = some "ZERO") := by decide
    simp only [operandAt, evalAt, hk, require_bind, nodeType_iff.mpr ho, hne, if_true, if_false, require_expr, bind_pure]

theorem operandAt_colon (hk : t.kind = .sym ":") :
    operandAt mkFactor toInt (.binary t a b o) =
      operandAt mkFactor toInt a >>= fun l => operandAt mkFactor toInt b >>= fun r => interactionAt l r := by
  simp only [operandAt, evalAt, hk, require_bind, require_expr, bind_pure]

theorem operandAt_star (hk : t.kind = .sym "*") :
    operandAt mkFactor toInt (.binary t a b o) =
      operandAt mkFactor toInt a >>= fun l => operandAt mkFactor toInt b >>= fun r => evalProdAt l r := by
  simp only [operandAt, evalAt, hk, require_bind, require_expr, bind_pure]

theorem operandAt_slash (hk : t.kind = .sym "/") :
    operandAt mkFactor toInt (.binary t a b o) =
      operandAt mkFactor toInt a >>= fun l => operandAt mkFactor toInt b >>= fun r => evalDivAt l r := by
  simp only [operandAt, evalAt, hk, require_bind, require_expr, bind_pure]

theorem operandAt_power (hk : t.kind = .sym "**") :
    operandAt mkFactor toInt (.binary t a b o) =
      operandAt mkFactor toInt a >>= fun l => evalPowerAt l (exponent toInt b) b.origin := by
  simp only [operandAt, evalAt, hk, require_bind, require_expr, bind_pure]

/-- `:`, `*` and `/` complain about the same operands at the same place. -/
theorem operandAt_mult (hk : t.kind ∈ [.sym ":", .sym "*", .sym "/"]) :
    ∃ f : IExpr F → IExpr F → Except LErr (IExpr F), operandAt mkFactor toInt (.binary t a b o) =
      (operandAt mkFactor toInt a >>= fun l => operandAt mkFactor toInt b >>= fun r => f l r) ∧
      ∀ l r x, f l r = .error x ↔ (l.intercept = true ∧ x = (.patsyError, l.interceptOrigin)) ∨
        (l.intercept = false ∧ r.intercept = true ∧ x = (.patsyError, r.interceptOrigin)) := by
  simp only [List.mem_cons, List.not_mem_nil, or_false] at hk
  rcases hk with hk | hk | hk
  · exact ⟨_, operandAt_colon hk, fun _ _ _ => interactionAt_err⟩
  · exact ⟨_, operandAt_star hk, fun _ _ _ => prodAt_err⟩
  · exact ⟨_, operandAt_slash hk, fun _ _ _ => divAt_err⟩

end

theorem asks_operand {n : FTree} {e : IExpr F} (h : operandAt mkFactor toInt n = .ok e) (o : Origin) :
    (e.intercept = true ∧ e.interceptOrigin = some o) ↔ AsksAt mkFactor toInt n o :=
  asks_iff n e o (operandAt_ok.mp h)

theorem exponent_lt {b : FTree} : exponent toInt b < 1 ↔ ∀ n, ¬ IsExponent toInt b n := by
  constructor
  · intro h n hn
    have h1 := hn.2.choose_spec.2.2
    have := (exponent_iff (toInt := toInt) h1).mpr hn
    omega
  · intro h
    by_contra hc
    obtain ⟨n, hn⟩ : ∃ n : ℕ, exponent toInt b = n := ⟨(exponent toInt b).toNat, by omega⟩
    exact h n ((exponent_iff (by omega)).mp hn)

theorem wrong_error {n : FTree} {p : Origin} (h : Wrong mkFactor toInt n p) :
    operandAt mkFactor toInt n = .error (.patsyError, some p) := by
  induction h with
  | number hk => simp [operandAt, evalAt, hk, requireAt]
  | sign hk h1 h2 => simp [operandAt, evalAt, hk, mt nodeType_iff.mp h1, mt nodeType_iff.mp h2, requireAt]
  | tilde hk ha =>
    obtain ⟨l, hl, _⟩ := means_operand ha
    rw [operandAt_tilde hk, hl]; rfl
  | tilde₂ hk ha hb =>
    obtain ⟨l, hl, _⟩ := means_operand ha
    obtain ⟨r, hr, _⟩ := means_operand hb
    rw [operandAt_tilde₂ hk, hl, hr]; rfl
  | interceptLeft hk ha hb hp =>
    obtain ⟨l, hl, _⟩ := means_operand ha
    obtain ⟨r, hr, _⟩ := means_operand hb
    obtain ⟨f, hf, he⟩ := operandAt_mult (F := F) hk
    obtain ⟨h1, h2⟩ := (asks_operand hl _).mpr hp
    rw [hf, hl, hr]
    exact (he l r _).mpr (.inl ⟨h1, by rw [h2]⟩)
  | interceptRight hk ha hi hb hp =>
    obtain ⟨l, hl, rfl⟩ := means_operand ha
    obtain ⟨r, hr, _⟩ := means_operand hb
    obtain ⟨f, hf, he⟩ := operandAt_mult (F := F) hk
    obtain ⟨h1, h2⟩ := (asks_operand hr _).mpr hp
    rw [hf, hl, hr]
    exact (he l r _).mpr (.inr ⟨interactable_iff.mp hi, h1, by rw [h2]⟩)
  | interceptPower hk ha hp =>
    obtain ⟨l, hl, _⟩ := means_operand ha
    obtain ⟨h1, h2⟩ := (asks_operand hl _).mpr hp
    rw [operandAt_power hk, hl]
    exact (powerAt_err (operand_good hl)).mpr (.inl ⟨h1, by rw [h2]⟩)
  | exponent hk ha hi hn =>
    obtain ⟨l, hl, rfl⟩ := means_operand ha
    rw [operandAt_power hk, hl]
    exact (powerAt_err (operand_good hl)).mpr (.inr ⟨interactable_iff.mp hi, exponent_lt.mpr hn, rfl⟩)
  | operand hk _ ih =>
    simp only [List.mem_cons, List.not_mem_nil, or_false] at hk
    rcases hk with hk | hk
    · rw [operandAt_pos hk, ih]
    · rw [operandAt_tilde hk, ih]; rfl
  | @left t a b o p hk _ ih =>
    simp only [List.mem_cons, List.not_mem_nil, or_false] at hk
    rcases hk with hk | hk | hk | hk | hk | hk | hk
    · rw [operandAt_tilde₂ hk, ih]; rfl
    · by_cases hz : IsLit "ZERO" b
      · rw [operandAt_plusZero hk hz, ih]; rfl
      · rw [operandAt_plus hk hz, ih]; rfl
    · by_cases hz : IsLit "ZERO" b ∨ IsLit "ONE" b
      · obtain ⟨_, _, _, _, _, he⟩ := operandAt_minusLit (mkFactor := mkFactor) (toInt := toInt) (a := a) (o := o) hk hz
        rw [he, ih]; rfl
      · rw [operandAt_minus hk (fun h => hz (.inl h)) (fun h => hz (.inr h)), ih]; rfl
    · rw [operandAt_star hk, ih]; rfl
    · rw [operandAt_slash hk, ih]; rfl
    · rw [operandAt_colon hk, ih]; rfl
    · rw [operandAt_power hk, ih]; rfl
  | @right t a b o l p hk h1 h2 ha _ ih =>
    obtain ⟨l, hl, _⟩ := means_operand ha
    simp only [List.mem_cons, List.not_mem_nil, or_false] at hk h1
    rcases hk with hk | hk | hk | hk | hk | hk
    · rw [operandAt_tilde₂ hk, hl, ih]; rfl
    · rw [operandAt_plus hk (h1 (.inl hk)), hl, ih]; rfl
    · rw [operandAt_minus hk (h1 (.inr hk)) (h2 hk), hl, ih]; rfl
    · rw [operandAt_star hk, hl, ih]; rfl
    · rw [operandAt_slash hk, hl, ih]; rfl
    · rw [operandAt_colon hk, hl, ih]; rfl

/-- Every embedded expression makes a factor. -/
def CodeFine (mkFactor : String → Except Err F) (n : FTree) : Prop :=
  ∀ c, HasExpr n c → ∃ s f, c = some s ∧ mkFactor s = .ok f

theorem error_wrong {n : FTree} (hn : Formulaic n) (hc : CodeFine mkFactor n) {x : LErr}
    (h : operandAt mkFactor toInt n = .error x) : ∃ p, x = (.patsyError, some p) ∧ Wrong mkFactor toInt n p := by
  induction hn generalizing x with
  | @atom t o hk =>
    simp only [List.mem_cons, List.not_mem_nil, or_false] at hk
    rcases hk with hk | hk | hk | hk
    · simp [operandAt, evalAt, hk, IExpr.of, nowhere, requireAt, bind, Except.bind, pure, Except.pure] at h
    · simp [operandAt, evalAt, hk, IExpr.of, nowhere, requireAt, bind, Except.bind, pure, Except.pure] at h
    · simp [operandAt, evalAt, hk, requireAt] at h
      exact ⟨o, h.symm, .number hk⟩
    · obtain ⟨s, f, hs, hf⟩ := hc t.extra ⟨hk, rfl⟩
      simp [operandAt, evalAt, hk, hs, hf, IExpr.of, nowhere, requireAt, bind, Except.bind, pure, Except.pure] at h
  | @unary t a o hk _ ih =>
    have hca : CodeFine mkFactor a := hc
    simp only [List.mem_cons, List.not_mem_nil, or_false] at hk
    rcases hk with hk | hk | hk
    · rw [operandAt_tilde hk, bindL_err] at h
      rcases h with h | ⟨l, hl, h⟩
      · obtain ⟨p, hp, hw⟩ := ih hca h
        exact ⟨p, hp, .operand (by simp [hk]) hw⟩
      · simp only [Except.error.injEq] at h
        exact ⟨o, h.symm, .tilde hk (operand_means hl)⟩
    · rw [operandAt_pos hk] at h
      obtain ⟨p, hp, hw⟩ := ih hca h
      exact ⟨p, hp, .operand (by simp [hk]) hw⟩
    · by_cases hz : IsLit "ZERO" a
      · simp [operandAt, evalAt, hk, nodeType_iff.mpr hz, IExpr.of, nowhere, requireAt, bind, Except.bind, pure, Except.pure] at h
      · by_cases hw : IsLit "ONE" a
        · simp [operandAt, evalAt, hk, nodeType_iff.mpr hw, IExpr.of, nowhere, requireAt, bind, Except.bind, pure, Except.pure] at h
        · simp [operandAt, evalAt, hk, mt nodeType_iff.mp hz, mt nodeType_iff.mp hw, requireAt] at h
          exact ⟨o, h.symm, .sign hk hz hw⟩
  | @binary t a b o hk _ _ iha ihb =>
    have hca : CodeFine mkFactor a := fun c h => hc c (.inl h)
    have hcb : CodeFine mkFactor b := fun c h => hc c (.inr h)
    have left : operandAt mkFactor toInt a = .error x → ∃ p, x = (.patsyError, some p) ∧
        Wrong mkFactor toInt (.binary t a b o) p := fun h =>
      let ⟨p, hp, hw⟩ := iha hca h
      ⟨p, hp, .left hk hw⟩
    have mult : t.kind ∈ [.sym ":", .sym "*", .sym "/"] → ∃ p, x = (.patsyError, some p) ∧
        Wrong mkFactor toInt (.binary t a b o) p := by
      intro hm
      have hm' := hm
      simp only [List.mem_cons, List.not_mem_nil, or_false] at hm'
      obtain ⟨f, hf, he⟩ := operandAt_mult (F := F) (mkFactor := mkFactor) (toInt := toInt) (a := a) (b := b) (o := o) hm
      rw [hf, bindL_err] at h
      rcases h with h | ⟨l, hl, h⟩
      · exact left h
      rw [bindL_err] at h
      rcases h with h | ⟨r, hr, h⟩
      · obtain ⟨p, hp, hw⟩ := ihb hcb h
        refine ⟨p, hp, .right ?_ ?_ ?_ (operand_means hl) hw⟩ <;> rcases hm' with q | q | q <;> simp [q]
      · rcases (he l r x).mp h with ⟨hi, hx⟩ | ⟨hi, hj, hx⟩
        · obtain ⟨p, h1, h2⟩ := origin_exists hl hi
          exact ⟨p, by rw [hx, h2], .interceptLeft hm (operand_means hl) (operand_means hr) ((asks_operand hl p).mp ⟨h1, h2⟩)⟩
        · obtain ⟨p, h1, h2⟩ := origin_exists hr hj
          exact ⟨p, by rw [hx, h2], .interceptRight hm (operand_means hl) (interactable_iff.mpr hi) (operand_means hr)
            ((asks_operand hr p).mp ⟨h1, h2⟩)⟩
    have hk' := hk
    simp only [List.mem_cons, List.not_mem_nil, or_false] at hk'
    rcases hk' with q | q | q | q | q | q | q
    · rw [operandAt_tilde₂ q, bindL_err] at h
      rcases h with h | ⟨l, hl, h⟩
      · exact left h
      rw [bindL_err] at h
      rcases h with h | ⟨r, hr, h⟩
      · obtain ⟨p, hp, hw⟩ := ihb hcb h
        exact ⟨p, hp, .right (by simp [q]) (by simp [q]) (by simp [q]) (operand_means hl) hw⟩
      · simp only [Except.error.injEq] at h
        exact ⟨o, h.symm, .tilde₂ q (operand_means hl) (operand_means hr)⟩
    · by_cases hz : IsLit "ZERO" b
      · rw [operandAt_plusZero q hz, bindL_err] at h
        rcases h with h | ⟨l, hl, h⟩
        · exact left h
        · exact absurd (nowhere_err.mp h).1 of_noerr
      · rw [operandAt_plus q hz, bindL_err] at h
        rcases h with h | ⟨l, hl, h⟩
        · exact left h
        rw [bindL_err] at h
        rcases h with h | ⟨r, hr, h⟩
        · obtain ⟨p, hp, hw⟩ := ihb hcb h
          exact ⟨p, hp, .right (by simp [q]) (fun _ => hz) (by simp [q]) (operand_means hl) hw⟩
        · obtain ⟨e, he, _⟩ := evalPlus_cases (operand_good hl) (operand_good hr)
          rw [nowhere_err, he] at h; simp at h
    · by_cases hz : IsLit "ZERO" b ∨ IsLit "ONE" b
      · obtain ⟨_, _, _, h1, h2, he⟩ := operandAt_minusLit (mkFactor := mkFactor) (toInt := toInt) (a := a) (o := o) q hz
        rw [he, bindL_err] at h
        rcases h with h | ⟨l, hl, h⟩
        · exact left h
        · rw [nowhere_err, simple_ok h1 h2] at h; simp at h
      · have z1 : ¬ IsLit "ZERO" b := fun h => hz (.inl h)
        have z2 : ¬ IsLit "ONE" b := fun h => hz (.inr h)
        rw [operandAt_minus q z1 z2, bindL_err] at h
        rcases h with h | ⟨l, hl, h⟩
        · exact left h
        rw [bindL_err] at h
        rcases h with h | ⟨r, hr, h⟩
        · obtain ⟨p, hp, hw⟩ := ihb hcb h
          exact ⟨p, hp, .right (by simp [q]) (fun _ => z1) (fun _ => z2) (operand_means hl) hw⟩
        · obtain ⟨e, he, _⟩ := evalMinus_cases (r := r) (operand_good hl)
          rw [nowhere_err, he] at h; simp at h
    · exact mult (by simp [q])
    · exact mult (by simp [q])
    · exact mult (by simp [q])
    · rw [operandAt_power q, bindL_err] at h
      rcases h with h | ⟨l, hl, h⟩
      · exact left h
      rcases (powerAt_err (operand_good hl)).mp h with ⟨hi, hx⟩ | ⟨hi, hp, hx⟩
      · obtain ⟨p, h1, h2⟩ := origin_exists hl hi
        exact ⟨p, by rw [hx, h2], .interceptPower q (operand_means hl) ((asks_operand hl p).mp ⟨h1, h2⟩)⟩
      · exact ⟨_, hx, .exponent q (operand_means hl) (interactable_iff.mpr hi) (exponent_lt.mp hp)⟩

theorem operand_iff {n : FTree} (hn : Formulaic n) (hc : CodeFine mkFactor n) (x : LErr) :
    operandAt mkFactor toInt n = .error x ↔ ∃ p, x = (.patsyError, some p) ∧ Wrong mkFactor toInt n p := by
  constructor
  · exact error_wrong hn hc
  · rintro ⟨p, rfl, hw⟩; exact wrong_error hw

theorem fromTreeAt_unary {t : Tok String (Option String)} {a : FTree} {o : Origin} (hk : t.kind = .sym "~") (x : LErr) :
    fromTreeAt mkFactor toInt (.unary t a o) = .error x ↔ operandAt mkFactor toInt a = .error x := by
  have : evalAt mkFactor toInt (.unary t a o) = operandAt mkFactor toInt a >>= fun r =>
      nowhere (IExpr.of false none true []) >>= fun l => pure (.desc (tildeDesc l r)) := by
    simp only [evalAt, hk, operandAt]
  rw [fromTreeAt, this]
  cases operandAt mkFactor toInt a <;> simp [IExpr.of, nowhere, bind, Except.bind, pure, Except.pure]

theorem fromTreeAt_binary {t : Tok String (Option String)} {a b : FTree} {o : Origin} (hk : t.kind = .sym "~") (x : LErr) :
    fromTreeAt mkFactor toInt (.binary t a b o) = .error x ↔ operandAt mkFactor toInt a = .error x ∨
      ∃ l, operandAt mkFactor toInt a = .ok l ∧ operandAt mkFactor toInt b = .error x := by
  have : evalAt mkFactor toInt (.binary t a b o) = operandAt mkFactor toInt a >>= fun l =>
      operandAt mkFactor toInt b >>= fun r => pure (.desc (tildeDesc l r)) := by
    simp only [evalAt, hk, operandAt]
  rw [fromTreeAt, this]
  cases operandAt mkFactor toInt a <;> cases operandAt mkFactor toInt b <;> simp [bind, Except.bind, pure, Except.pure]

/-- **C61** (agreement).  The evaluator with positions is the evaluator of C08, C09 and C53. -/
theorem located_evaluation (n : FTree) :
    fromTree mkFactor toInt n = (fromTreeAt mkFactor toInt n).mapError Prod.fst := by
  have h := forget_eval (mkFactor := mkFactor) (toInt := toInt) n
  unfold fromTree fromTreeAt
  rw [← h]
  rcases evalAt mkFactor toInt n with e | (e | d) <;> rfl

/-- **C61**.  For every parse tree of a formula whose embedded expressions make factors: evaluation fails exactly if some part of
the formula is to blame (`FormulaWrong`), and then with a `PatsyError` at the position of that part. -/
theorem evaluation_error_position (n : FTree) (hn : Formulaic n) (hc : CodeFine mkFactor n) (x : LErr) :
    fromTreeAt mkFactor toInt (wrapRoot n) = .error x ↔
      ∃ p, x = (.patsyError, some p) ∧ FormulaWrong mkFactor toInt n p := by
  by_cases hk : n.token.kind = .sym "~"
  · have hw : wrapRoot n = n := if_pos (nodeType_iff.mpr hk)
    rw [hw]
    cases hn with
    | atom h => simp only [Node.token] at hk; simp [hk] at h
    | @unary t a o h ha =>
      have hk : t.kind = .sym "~" := hk
      rw [fromTreeAt_unary hk, operand_iff ha hc]
      constructor
      · rintro ⟨p, hp, h⟩; exact ⟨p, hp, .tilde hk h⟩
      · rintro ⟨p, hp, h⟩
        cases h with
        | bare h => exact absurd hk h
        | tilde _ h => exact ⟨p, hp, h⟩
    | @binary t a b o h ha hb =>
      have hca : CodeFine mkFactor a := fun c h => hc c (.inl h)
      have hcb : CodeFine mkFactor b := fun c h => hc c (.inr h)
      have hk : t.kind = .sym "~" := hk
      rw [fromTreeAt_binary hk, operand_iff ha hca, operand_iff hb hcb]
      constructor
      · rintro (⟨p, hp, h⟩ | ⟨l, hl, p, hp, h⟩)
        · exact ⟨p, hp, .left hk h⟩
        · exact ⟨p, hp, .right hk (operand_means hl) h⟩
      · rintro ⟨p, hp, h⟩
        cases h with
        | bare h => exact absurd hk h
        | left _ h => exact .inl ⟨p, hp, h⟩
        | right _ ha' h =>
          obtain ⟨l, hl, _⟩ := means_operand ha'
          exact .inr ⟨l, hl, p, hp, h⟩
  · have hw : wrapRoot n = .unary ⟨.sym "~", n.origin, none⟩ n n.origin := if_neg (mt nodeType_iff.mp hk)
    rw [hw, fromTreeAt_unary rfl, operand_iff hn hc]
    constructor
    · rintro ⟨p, hp, h⟩; exact ⟨p, hp, .bare hk h⟩
    · rintro ⟨p, hp, h⟩
      cases h with
      | bare _ h => exact ⟨p, hp, h⟩
      | tilde h => exact absurd h hk
      | left h => exact absurd h hk
      | right h => exact absurd h hk

/-- **C61** (one culprit).  A formula has a meaning, or exactly one part of it is to blame. -/
theorem one_culprit (n : FTree) (hn : Formulaic n) (hc : CodeFine mkFactor n) :
    ((∃ L R, FormulaMeans mkFactor toInt n L R) ∧ ∀ p, ¬ FormulaWrong mkFactor toInt n p) ∨
    ((¬ ∃ L R, FormulaMeans mkFactor toInt n L R) ∧ ∃! p, FormulaWrong mkFactor toInt n p) := by
  have hpos := evaluation_error_position (mkFactor := mkFactor) (toInt := toInt) n hn hc
  have hag := located_evaluation (mkFactor := mkFactor) (toInt := toInt) (wrapRoot n)
  cases h : fromTreeAt mkFactor toInt (wrapRoot n) with
  | ok d =>
    rw [h] at hag
    refine .inl ⟨⟨_, _, (formula_semantics n _ _).mpr ⟨d, hag, rfl, rfl⟩⟩, fun p hp => ?_⟩
    have := (hpos (.patsyError, some p)).mpr ⟨p, rfl, hp⟩
    rw [h] at this; simp at this
  | error x =>
    rw [h] at hag
    refine .inr ⟨?_, ?_⟩
    · rintro ⟨L, R, hm⟩
      obtain ⟨d, hd, _⟩ := (formula_semantics n L R).mp hm
      rw [hag] at hd; simp [Except.mapError] at hd
    · obtain ⟨p, rfl, hp⟩ := (hpos x).mp h
      refine ⟨p, hp, fun q hq => ?_⟩
      have := (hpos (.patsyError, some q)).mpr ⟨q, rfl, hq⟩
      rw [h] at this
      simpa using this.symm

theorem formulaic_of_grammar {c : Cst String (Option String)} (hc : c.WF ftable) {n : FTree} (hn : astOf n = c.toAst) :
    Formulaic n := by
  induction c generalizing n with
  | atom t =>
    cases n with
    | atom t' o =>
      cases hn
      obtain ⟨s, hk, _, hs⟩ := hc
      simp [mkTable, atomicTokenTypes] at hs
      refine .atom ?_
      rcases hs with rfl | rfl | rfl | rfl <;> simp [hk]
    | unary t' a o => cases hn
    | binary t' a b o => cases hn
  | paren l c r ih => exact ih hc.2.2 hn
  | un t p c ih =>
    cases n with
    | atom t' o => cases hn
    | unary t' a o =>
      simp only [astOf, Cst.toAst, Ast.un.injEq] at hn
      obtain ⟨rfl, hn⟩ := hn
      obtain ⟨⟨s, hk, hs⟩, hc, _⟩ := hc
      refine .unary ?_ (ih hc hn)
      rw [hk]
      by_contra hno
      simp at hno
      simp [mkTable, lookupOp, defaultOps, hno, eq_comm] at hs
    | binary t' a b o => cases hn
  | bin l t p r ih1 ih2 =>
    cases n with
    | atom t' o => cases hn
    | unary t' a o => cases hn
    | binary t' a b o =>
      simp only [astOf, Cst.toAst, Ast.bin.injEq] at hn
      obtain ⟨rfl, hl, hr⟩ := hn
      obtain ⟨⟨s, hk, hs⟩, hc1, hc2, _⟩ := hc
      refine .binary ?_ (ih1 hc1 hl) (ih2 hc2 hr)
      rw [hk]
      by_contra hno
      simp at hno
      simp [mkTable, lookupOp, defaultOps, hno, eq_comm] at hs

/-- **C61** (texts).  Whatever goes wrong between the text of a formula and its model is reported by a `PatsyError` with a position:
that of the syntax error (C57), or that of the part to blame in the tree of the grammar, where every part has the position of
exactly the text it was made from (`Cst.locate`). -/
theorem formula_error_position (isNumber : String → Bool) (fin : RawEnd) (whole : Origin) (raw : List PyTok)
    (h : FromPython fin raw) (hin : InOrder raw) (hne : ¬ Props.Reads fin raw [] .finished)
    (hcode : ∀ e s, Embedded fin raw e s → ∃ f, mkFactor s = .ok f) (x : LErr)
    (hx : fromFormulaAt isNumber mkFactor toInt fin whole raw = .error x) :
    ∃ p, x = (.patsyError, some p) ∧
      ((∃ ts stop, Props.Reads fin raw ts stop ∧ Blames isNumber whole ts stop p) ∨
        ∃ c : Cst String (Option String), FormulaTokens isNumber fin raw c.flatten ∧ c.WF ftable ∧
          FormulaWrong mkFactor toInt c.locate p) := by
  rw [fromFormulaAt, bindL_err] at hx
  rcases hx with hx | ⟨m, hm, hx⟩
  · obtain ⟨ts, stop, p, h1, h2, h3⟩ := syntax_error_position isNumber fin whole raw h hne x hx
    exact ⟨p, h2, .inl ⟨ts, stop, h1, h3⟩⟩
  · have hm' : parseFormula isNumber fin raw = .ok m := by
      rw [located_agrees isNumber fin whole raw h, hm]; rfl
    obtain ⟨toks, n, h1, h2, rfl⟩ := (parseFormula_ok _ _ _ _).1 hm'
    obtain ⟨ts, h3, h4⟩ := (formulaTokens_iff _ _ _ _).1 h1
    obtain ⟨body, hb, _, hts⟩ := (python_tokenize_iff _ _ _).1 h3
    have hsub : ts.Sublist raw := by
      rw [hts]
      refine List.filter_sublist.trans ?_
      rcases hb with ⟨e, rest, rfl, _⟩ | ⟨rfl, _⟩
      · exact List.sublist_append_left _ _
      · exact List.Sublist.refl _
    have hin' : InOrder ts := ⟨fun t ht => hin.1 t (hsub.subset ht), hin.2.sublist hsub⟩
    have hinc := tokenize_increasing _ _ _ _ hin' h4
    obtain ⟨c, hc, rfl, rfl, _⟩ := parse_positions _ _ _ _ hinc h2
    obtain ⟨c', hc', hf', ha'⟩ := (parse_iff_grammar _ _ defaultOps_ok c.flatten _).1 ⟨_, h2, rfl⟩
    have hform : Formulaic c.locate := formulaic_of_grammar hc' ha'.symm
    have hfine : CodeFine mkFactor c.locate := by
      intro s hs
      rw [← hf'] at h1
      obtain ⟨s', e, rfl, he⟩ := hasExpr_embedded h1 ha'.symm hs
      obtain ⟨f, hf⟩ := hcode e s' he
      exact ⟨s', f, rfl, hf⟩
    obtain ⟨p, hp, hw⟩ := (evaluation_error_position _ hform hfine x).1 hx
    exact ⟨p, hp, .inr ⟨c, h1, hc, hw⟩⟩

/-! ### Concrete cases, with the positions of patsy's own tests (desc.py:584-623) -/

/-- The position in the error, for a formula whose tokens stand at 0, 2, 4, ... -/
def culprit (ts : List (PyType × String)) : Option (Err × Option Origin) :=
  match fromFormulaAt (fun s => decide (s = "2")) (.ok : String → Except Err String)
      (fun s => if s = "1" then some 1 else if s = "2" then some 2 else none) .exhausted ⟨0, 99⟩ (withEnd ts) with
  | .ok _ => none
  | .error e => some e

/-- `a:1`: the `1`. -/
example : culprit [(.name, "a"), (.op, ":"), (.number, "1")] = some (.patsyError, some ⟨4, 5⟩) := by decide +kernel

/-- `(a + 1)*b`: the `1`. -/
example : culprit [(.op, "("), (.name, "a"), (.op, "+"), (.number, "1"), (.op, ")"), (.op, "*"), (.name, "b")] =
    some (.patsyError, some ⟨6, 7⟩) := by decide +kernel

/-- `(1 + a + 1 + b)/c`: the second `1`. -/
example : culprit [(.op, "("), (.number, "1"), (.op, "+"), (.name, "a"), (.op, "+"), (.number, "1"), (.op, "+"), (.name, "b"),
    (.op, ")"), (.op, "/"), (.name, "c")] = some (.patsyError, some ⟨10, 11⟩) := by decide +kernel

/-- `a + 2`: the `2`. -/
example : culprit [(.name, "a"), (.op, "+"), (.number, "2")] = some (.patsyError, some ⟨4, 5⟩) := by decide +kernel

/-- `a ** (1 + 1)`: all of `(1 + 1)`. -/
example : culprit [(.name, "a"), (.op, "**"), (.op, "("), (.number, "1"), (.op, "+"), (.number, "1"), (.op, ")")] =
    some (.patsyError, some ⟨4, 13⟩) := by decide +kernel

/-- `y ~ (a ~ b)`: all of `(a ~ b)`. -/
example : culprit [(.name, "y"), (.op, "~"), (.op, "("), (.name, "a"), (.op, "~"), (.name, "b"), (.op, ")")] =
    some (.patsyError, some ⟨4, 13⟩) := by decide +kernel

/-- `y ~ a ~ b`: the first `y ~ a`. -/
example : culprit [(.name, "y"), (.op, "~"), (.name, "a"), (.op, "~"), (.name, "b")] =
    some (.patsyError, some ⟨0, 5⟩) := by decide +kernel

/-- `1 + -(a + b)`: all of `-(a + b)`. -/
example : culprit [(.number, "1"), (.op, "+"), (.op, "-"), (.op, "("), (.name, "a"), (.op, "+"), (.name, "b"), (.op, ")")] =
    some (.patsyError, some ⟨4, 15⟩) := by decide +kernel

/-- `(a + b)**2 + (a - 0)`: nothing is wrong. -/
example : culprit [(.op, "("), (.name, "a"), (.op, "+"), (.name, "b"), (.op, ")"), (.op, "**"), (.number, "2"), (.op, "+"),
    (.op, "("), (.name, "a"), (.op, "-"), (.number, "0"), (.op, ")")] = none := by decide +kernel

theorem withEnd_inOrder (ts : List (PyType × String)) (h : ts.length ≤ 45) : InOrder (withEnd ts) := by
  constructor
  · intro t ht
    simp only [withEnd, List.mem_append, List.mem_map, List.mem_cons, List.not_mem_nil, or_false] at ht
    rcases ht with ⟨p, _, rfl⟩ | rfl | rfl <;> simp [exPy]
  · unfold withEnd
    rw [List.pairwise_append]
    refine ⟨?_, by simp [exPy], ?_⟩
    · rw [List.pairwise_map, List.pairwise_iff_getElem]
      intro i j hi hj hij
      simp [exPy]; omega
    · intro a ha b hb
      obtain ⟨p, hp, rfl⟩ := List.mem_map.1 ha
      have := List.snd_lt_of_mem_zipIdx hp
      simp only [List.mem_cons, List.not_mem_nil, or_false] at hb
      rcases hb with rfl | rfl <;> simp [exPy] <;> omega

/-- The tree of `a:(b + 1)`, with positions. -/
def exWrong : FTree :=
  .binary ⟨.sym ":", ⟨2, 3⟩, none⟩ (.atom ⟨.sym "PYTHON_EXPR", ⟨0, 1⟩, some "a"⟩ ⟨0, 1⟩)
    (.binary ⟨.sym "+", ⟨8, 9⟩, none⟩ (.atom ⟨.sym "PYTHON_EXPR", ⟨6, 7⟩, some "b"⟩ ⟨6, 7⟩)
      (.atom ⟨.sym "ONE", ⟨10, 11⟩, some "1"⟩ ⟨10, 11⟩) ⟨4, 13⟩) ⟨0, 13⟩

/-- The hypotheses of the theorems about trees are met, and the `1` is to blame. -/
example : Formulaic exWrong ∧ CodeFine (.ok : String → Except Err String) exWrong ∧
    FormulaWrong (.ok : String → Except Err String) (fun _ => none) exWrong ⟨10, 11⟩ := by
  have hb : Means (.ok : String → Except Err String) (fun _ => none)
      (.binary ⟨.sym "+", ⟨8, 9⟩, none⟩ (.atom ⟨.sym "PYTHON_EXPR", ⟨6, 7⟩, some "b"⟩ ⟨6, 7⟩)
        (.atom ⟨.sym "ONE", ⟨10, 11⟩, some "1"⟩ ⟨10, 11⟩) ⟨4, 13⟩) _ :=
    .plus rfl (.code rfl rfl rfl) (.one rfl) (by simp [IsLit, Node.token])
  refine ⟨.binary (by simp) (.atom (by simp)) (.binary (by simp) (.atom (by simp)) (.atom (by simp))), ?_, ?_⟩
  · intro c hc
    simp only [exWrong, HasExpr, Kind.sym.injEq] at hc
    rcases hc with ⟨_, rfl⟩ | ⟨_, rfl⟩ | ⟨h, _⟩
    · exact ⟨_, _, rfl, rfl⟩
    · exact ⟨_, _, rfl, rfl⟩
    · simp at h
  · refine .bare (by simp [exWrong, Node.token]) (.interceptRight (by simp) (.code rfl rfl rfl) ?_ hb ?_)
    · simp [Meaning.Interactable, Meaning.factor]
    · exact .plusRight rfl (by simp [IsLit, Node.token]) (.one rfl)

/-- The hypotheses about texts are met by `a:1`. -/
example : FromPython .exhausted (withEnd [(.name, "a"), (.op, ":"), (.number, "1")]) ∧
    InOrder (withEnd [(.name, "a"), (.op, ":"), (.number, "1")]) :=
  ⟨withEnd_python _ (by decide), withEnd_inOrder _ (by decide)⟩

end Patsy.Props
