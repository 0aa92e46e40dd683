import Verif.Lemmas.Desc
import Verif.Spec.Desc

/-! # C08, C09, C11: evaluating formulas -/

set_option linter.unusedSectionVars false

namespace Patsy.Props

open Patsy.Infix Patsy.Desc Patsy.Spec Patsy.Util

variable {F : Type} [DecidableEq F] (mkFactor : String → Except Err F) (toInt : String → Option Int)

/-- Parse trees. -/
abbrev Tree := Node String (Option String)

theorem eqv_iff_same {s t : Term F} : Term.eqv s t = true ↔ SameTerm s t := Term.eqv_iff

theorem intercept_factors : (INTERCEPT : Term F).factors = [] := rfl

theorem not_same_intercept {t : Term F} (h : t.factors ≠ []) : ¬ SameTerm INTERCEPT t := by
  intro hs
  cases hf : t.factors with
  | nil => exact h hf
  | cons f fs => have := (hs f).mpr (by simp [hf]); simp [intercept_factors] at this

theorem side_eq {ts : List (Term F)} (b : Bool) (hd : ts.Pairwise fun s t => Term.eqv s t = false)
    (hn : ∀ t ∈ ts, t.factors ≠ []) :
    uniqueify Term.eqv (maybeAddIntercept b ts) = maybeAddIntercept b ts := by
  apply uniqueify_eq_self
  cases b with
  | false => exact hd
  | true =>
    refine List.Pairwise.cons ?_ hd
    intro t ht
    have := not_same_intercept (hn t ht)
    rw [← eqv_iff_same] at this
    simpa using this

theorem side_normal {ts : List (Term F)} (b : Bool) (hd : ts.Pairwise fun s t => Term.eqv s t = false)
    (hn : ∀ t ∈ ts, t.factors ≠ []) (hu : ∀ t ∈ ts, t.factors.Nodup) :
    Normal (maybeAddIntercept b ts) := by
  have key : ∀ l : List (Term F), (l.Pairwise fun s t => Term.eqv s t = false) →
      l.Pairwise fun s t => ¬ SameTerm s t := by
    intro l h
    refine h.imp ?_
    intro s t h1 h2
    rw [eqv_iff_same.mpr h2] at h1; simp at h1
  cases b with
  | false =>
    refine ⟨key _ hd, hu, ?_⟩
    intro a t c h he
    have : t ∈ ts := by
      have h' : ts = a ++ t :: c := h
      rw [h']; simp
    exact absurd he (hn t this)
  | true =>
    refine ⟨List.Pairwise.cons (fun t ht => not_same_intercept (hn t ht)) (key _ hd), ?_, ?_⟩
    · intro t ht
      rcases List.mem_cons.mp ht with rfl | ht
      · simp [intercept_factors]
      · exact hu t ht
    · intro a t c h he
      cases a with
      | nil => rfl
      | cons x a =>
        have h' : INTERCEPT :: ts = x :: (a ++ t :: c) := h
        have : t ∈ ts := by rw [(List.cons.inj h').2]; simp
        exact absurd he (hn t this)

theorem eval_desc {n : Tree} {d : ModelDesc F} (h : eval mkFactor toInt n = .ok (.desc d)) :
    ∃ l r : IExpr F, Good l ∧ Good r ∧ d = tildeDesc l r := by
  cases n with
  | atom t o =>
    rw [eval] at h
    split at h
    · simp [bind, Except.bind, pure, Except.pure, IExpr.of] at h
    · simp [bind, Except.bind, pure, Except.pure, IExpr.of] at h
    · simp at h
    · split at h
      · simp only [bind_ok, pure_ok] at h
        obtain ⟨_, _, _, _, h⟩ := h; simp at h
      · simp at h
    · simp at h
  | unary t a o =>
    rw [eval] at h
    split at h
    · simp only [bind_ok, pure_ok, requireExpr_ok] at h
      obtain ⟨r, hr, l, hl, h⟩ := h
      simp only [Val.desc.injEq] at h
      exact ⟨l, r, good_of hl .nil, (eval_spec mkFactor toInt a).1 r hr, h.symm⟩
    · simp only [bind_ok, pure_ok] at h
      obtain ⟨_, _, h⟩ := h; simp at h
    · split at h
      · simp [bind, Except.bind, pure, Except.pure, IExpr.of] at h
      · split at h
        · simp [bind, Except.bind, pure, Except.pure, IExpr.of] at h
        · simp at h
    · simp at h
  | binary t a b o =>
    rw [eval] at h
    split at h
    · simp only [bind_ok, pure_ok, requireExpr_ok] at h
      obtain ⟨l, hl, r, hr, h⟩ := h
      simp only [Val.desc.injEq] at h
      exact ⟨l, r, (eval_spec mkFactor toInt a).1 l hl, (eval_spec mkFactor toInt b).1 r hr, h.symm⟩
    · simp only [bind_ok] at h
      obtain ⟨_, _, h⟩ := h
      split at h
      · simp [bind, Except.bind, pure, Except.pure, IExpr.of] at h
      · simp only [bind_ok, pure_ok] at h
        obtain ⟨_, _, _, _, h⟩ := h; simp at h
    · simp only [bind_ok] at h
      obtain ⟨_, _, h⟩ := h
      split at h
      · simp [bind, Except.bind, pure, Except.pure, IExpr.of] at h
      · split at h
        · simp [bind, Except.bind, pure, Except.pure, IExpr.of] at h
        · simp only [bind_ok, pure_ok] at h
          obtain ⟨_, _, _, _, h⟩ := h; simp at h
    · simp only [bind_ok, pure_ok] at h
      obtain ⟨_, _, _, _, _, _, h⟩ := h; simp at h
    · simp only [bind_ok, pure_ok] at h
      obtain ⟨_, _, _, _, _, _, h⟩ := h; simp at h
    · simp only [bind_ok, pure_ok] at h
      obtain ⟨_, _, _, _, _, _, h⟩ := h; simp at h
    · simp only [bind_ok, pure_ok] at h
      obtain ⟨_, _, _, _, h⟩ := h; simp at h
    · simp at h

theorem tildeDesc_eq {l r : IExpr F} (hl : Good l) (hr : Good r) :
    tildeDesc l r = ⟨maybeAddIntercept l.intercept l.terms, maybeAddIntercept (!r.interceptRemoved) r.terms⟩ := by
  simp only [tildeDesc, ModelDesc.of]
  rw [side_eq _ hl.distinct hl.nonempty, side_eq _ hr.distinct hr.nonempty]

/-- **C08**.  Whatever parse tree is evaluated, both sides of the resulting model are
normalised: no term twice, no factor twice in a term, and no empty term except one
intercept at the front. -/
theorem eval_normal (n : Tree) (d : ModelDesc F) (h : fromTree mkFactor toInt n = .ok d) :
    Normal d.lhs ∧ Normal d.rhs := by
  unfold fromTree at h
  split at h
  · rename_i d' hd
    simp only [Except.ok.injEq] at h; subst h
    obtain ⟨l, r, hl, hr, rfl⟩ := eval_desc mkFactor toInt hd
    rw [tildeDesc_eq hl hr]
    exact ⟨side_normal _ hl.distinct hl.nonempty hl.nodup, side_normal _ hr.distinct hr.nonempty hr.nodup⟩
  · simp at h
  · simp at h

/-- **C08** (no internal assertion fails).  Evaluating the tree of a formula yields a
model, a `PatsyError`, a `TypeError` (only possible for an expression token without
code, which the tokenizer never makes), or an error of the factor constructor for an
expression of the formula.  In particular none of the assertions in the evaluator can fail. -/
theorem eval_total (n : Tree) :
    (∃ d, fromTree mkFactor toInt (wrapRoot n) = .ok d) ∨
    fromTree mkFactor toInt (wrapRoot n) = .error .patsyError ∨
    (fromTree mkFactor toInt (wrapRoot n) = .error .typeError ∧ HasExpr n none) ∨
    ∃ code err, HasExpr n (some code) ∧ mkFactor code = .error err ∧ fromTree mkFactor toInt (wrapRoot n) = .error err := by
  have hwrap : ∀ c, HasExpr (wrapRoot n) c → HasExpr n c := by
    intro c hc
    unfold wrapRoot at hc
    split at hc <;> exact hc
  cases h : eval mkFactor toInt (wrapRoot n) with
  | error err =>
    have hf : fromTree mkFactor toInt (wrapRoot n) = .error err := by simp [fromTree, h]
    rcases (eval_spec mkFactor toInt _).2 err h with rfl | ⟨rfl, hx⟩ | ⟨code, hx, hc⟩
    · exact Or.inr (Or.inl hf)
    · exact Or.inr (Or.inr (Or.inl ⟨hf, hwrap _ hx⟩))
    · exact Or.inr (Or.inr (Or.inr ⟨code, err, hwrap _ hx, hc, hf⟩))
  | ok v =>
    cases v with
    | desc d => exact Or.inl ⟨d, by simp [fromTree, h]⟩
    | expr e =>
      exfalso
      have hk : (wrapRoot n).token.kind = .sym "~" := by
        unfold wrapRoot
        split
        · rename_i hn
          unfold nodeType at hn
          split at hn
          · rename_i hs; simp only [Option.some.injEq] at hn; rw [hs, hn]
          · simp at hn
        · rfl
      generalize wrapRoot n = m at h hk
      cases m with
      | atom t o => simp only [Node.token] at hk; simp [eval, hk] at h
      | unary t a o =>
        simp only [Node.token] at hk
        simp only [eval, hk, bind_ok, pure_ok] at h
        obtain ⟨_, _, _, _, h⟩ := h; simp at h
      | binary t a b o =>
        simp only [Node.token] at hk
        simp only [eval, hk, bind_ok, pure_ok] at h
        obtain ⟨_, _, _, _, h⟩ := h; simp at h

/-! ### C09 -/

/-- Two operand expressions and a binary operator between them. -/
def op (s : String) (a b : Tree) : Tree := .binary ⟨.sym s, ⟨0, 0⟩, none⟩ a b ⟨0, 0⟩

theorem hasTerm_iff_covers {ts : List (Term F)} {t : Term F} :
    Covers Term.eqv ts t ↔ HasTerm ts (· ∈ t.factors) := by
  simp only [Covers, HasTerm, eqv_iff_same, SameTerm]

theorem hasTerm_uniqueify {ts : List (Term F)} {S : F → Prop} :
    HasTerm (uniqueify Term.eqv ts) S ↔ HasTerm ts S := by
  constructor
  · rintro ⟨t, ht, h⟩; exact ⟨t, (uniqueify_sublist _).subset ht, h⟩
  · rintro ⟨t, ht, h⟩
    obtain ⟨u, hu, e⟩ := (covers_uniqueify eqvT).mpr ⟨t, ht, eqvT.refl t⟩
    exact ⟨u, hu, fun f => (Term.eqv_iff.mp e f).trans (h f)⟩

theorem hasTerm_append {a b : List (Term F)} {S : F → Prop} :
    HasTerm (a ++ b) S ↔ HasTerm a S ∨ HasTerm b S := by
  simp only [HasTerm, List.mem_append]
  constructor
  · rintro ⟨t, h | h, e⟩
    · exact Or.inl ⟨t, h, e⟩
    · exact Or.inr ⟨t, h, e⟩
  · rintro (⟨t, h, e⟩ | ⟨t, h, e⟩)
    · exact ⟨t, Or.inl h, e⟩
    · exact ⟨t, Or.inr h, e⟩

theorem hasTerm_products {a b : List (Term F)} {S : F → Prop} :
    HasTerm (products a b) S ↔
      ∃ t u, t ∈ a ∧ u ∈ b ∧ ∀ f, S f ↔ (f ∈ t.factors ∨ f ∈ u.factors) := by
  simp only [HasTerm, products, List.mem_flatMap, List.mem_map]
  constructor
  · rintro ⟨_, ⟨t, ht, u, hu, rfl⟩, h⟩
    exact ⟨t, u, ht, hu, fun f => by rw [← h f, Term.mem_of]; simp⟩
  · rintro ⟨t, u, ht, hu, h⟩
    exact ⟨_, ⟨t, ht, u, hu, rfl⟩, fun f => by rw [Term.mem_of, h f]; simp⟩

/-- **C09** (`+`).  Adding a right operand other than the literal `0`: the terms are the
union, an intercept on either side is kept, and the implicit intercept stays removed iff
the left operand removed it and the right one does not ask for it. -/
theorem plus_union (a b : Tree) (l r : IExpr F) (ha : eval mkFactor toInt a = .ok (.expr l))
    (hb : eval mkFactor toInt b = .ok (.expr r)) (h0 : nodeType b ≠ some "ZERO") :
    ∃ e, eval mkFactor toInt (op "+" a b) = .ok (.expr e) ∧
      (∀ S, HasTerm e.terms S ↔ HasTerm l.terms S ∨ HasTerm r.terms S) ∧
      (e.intercept = true ↔ l.intercept = true ∨ r.intercept = true) ∧
      (e.interceptRemoved = true ↔ l.interceptRemoved = true ∧ r.intercept = false) := by
  have gl := (eval_spec mkFactor toInt a).1 l ha
  have gr := (eval_spec mkFactor toInt b).1 r hb
  obtain ⟨e, h1, _, h3, h4, h5⟩ := evalPlus_cases gl gr
  refine ⟨e, ?_, ?_, ?_, ?_⟩
  · simp [op, eval, ha, hb, requireExpr, h0, h1, bind, Except.bind, pure, Except.pure]
  · intro S; rw [h3, hasTerm_uniqueify, hasTerm_append]
  · rw [h4]; cases l.intercept <;> cases r.intercept <;> simp
  · rw [h5]; cases l.interceptRemoved <;> cases r.intercept <;> simp

/-- **C09** (`-`).  Subtracting anything but the literals `0` and `1`: the terms are the
set difference, in their old order; the intercept, explicit or implicit, goes iff the
right operand has an explicit one. -/
theorem minus_difference (a b : Tree) (l r : IExpr F) (ha : eval mkFactor toInt a = .ok (.expr l))
    (hb : eval mkFactor toInt b = .ok (.expr r)) (h0 : nodeType b ≠ some "ZERO")
    (h1 : nodeType b ≠ some "ONE") :
    ∃ e, eval mkFactor toInt (op "-" a b) = .ok (.expr e) ∧
      (∀ S, HasTerm e.terms S ↔ HasTerm l.terms S ∧ ¬ HasTerm r.terms S) ∧
      e.terms.Sublist l.terms ∧
      (e.intercept = true ↔ l.intercept = true ∧ r.intercept = false) ∧
      (e.interceptRemoved = true ↔ l.interceptRemoved = true ∨ r.intercept = true) := by
  have gl := (eval_spec mkFactor toInt a).1 l ha
  obtain ⟨e, k1, _, k3, k4, k5⟩ := evalMinus_cases (r := r) gl
  refine ⟨e, ?_, ?_, ?_, ?_, ?_⟩
  · simp [op, eval, ha, hb, requireExpr, h0, h1, k1, bind, Except.bind, pure, Except.pure]
  · intro S
    rw [k3]
    simp only [HasTerm, List.mem_filter, Bool.not_eq_true', List.any_eq_false, eqv_iff_same, SameTerm]
    constructor
    · rintro ⟨t, ⟨ht, hn⟩, hS⟩
      refine ⟨⟨t, ht, hS⟩, ?_⟩
      rintro ⟨u, hu, hSu⟩
      exact hn u hu (fun f => (hSu f).trans (hS f).symm)
    · rintro ⟨⟨t, ht, hS⟩, hn⟩
      refine ⟨t, ⟨ht, ?_⟩, hS⟩
      intro u hu hs
      exact hn ⟨u, hu, fun f => (hs f).trans (hS f)⟩
  · rw [k3]; exact List.filter_sublist
  · rw [k4]; cases l.intercept <;> cases r.intercept <;> simp
  · rw [k5]; cases l.interceptRemoved <;> cases r.intercept <;> simp

/-- **C09** (what the flags mean).  In the model of `a ~ b` the left side has exactly the
terms of `a`, plus an intercept iff `a` has an explicit one; the right side has exactly
the terms of `b`, plus an intercept unless `b` removed it. -/
theorem tilde_sides (a b : Tree) (l r : IExpr F) (ha : eval mkFactor toInt a = .ok (.expr l))
    (hb : eval mkFactor toInt b = .ok (.expr r)) :
    ∃ d, fromTree mkFactor toInt (op "~" a b) = .ok d ∧
      d.lhs = (if l.intercept then [⟨[]⟩] else []) ++ l.terms ∧
      d.rhs = (if r.interceptRemoved then [] else [⟨[]⟩]) ++ r.terms := by
  have h := tildeDesc_eq ((eval_spec mkFactor toInt a).1 l ha) ((eval_spec mkFactor toInt b).1 r hb)
  refine ⟨tildeDesc l r, ?_, ?_, ?_⟩
  · simp [fromTree, op, eval, ha, hb, requireExpr, bind, Except.bind, pure, Except.pure]
  · rw [h]; cases l.intercept <;> simp [maybeAddIntercept, INTERCEPT, Term.of, uniqueify, uniqueifyGo]
  · rw [h]; cases r.interceptRemoved <;> simp [maybeAddIntercept, INTERCEPT, Term.of, uniqueify, uniqueifyGo]

/-- **C09** (`:`).  The interaction consists of all unions of a term of the left with a
term of the right operand. -/
theorem interact_pairs (a b : Tree) (l r : IExpr F) (ha : eval mkFactor toInt a = .ok (.expr l))
    (hb : eval mkFactor toInt b = .ok (.expr r)) (hl : l.intercept = false) (hr : r.intercept = false) :
    ∃ e, eval mkFactor toInt (op ":" a b) = .ok (.expr e) ∧ e.intercept = false ∧
      ∀ S, HasTerm e.terms S ↔
        ∃ t u, t ∈ l.terms ∧ u ∈ r.terms ∧ ∀ f, S f ↔ (f ∈ t.factors ∨ f ∈ u.factors) := by
  have h1 := interaction_ok.mpr ⟨hl, hr, rfl⟩
  refine ⟨_, by simp [op, eval, ha, hb, requireExpr, h1, bind, Except.bind, pure, Except.pure]; rfl, rfl, ?_⟩
  intro S
  rw [hasTerm_uniqueify, hasTerm_products]

/-- **C09** (`*`).  `a * b` is, as a list, the same as `a + b + a:b`. -/
theorem prod_expands (a b : Tree) (l r : IExpr F) (ha : eval mkFactor toInt a = .ok (.expr l))
    (hb : eval mkFactor toInt b = .ok (.expr r)) (hl : l.intercept = false) (hr : r.intercept = false)
    (h0 : nodeType b ≠ some "ZERO") :
    ∃ e e', eval mkFactor toInt (op "*" a b) = .ok (.expr e) ∧
      eval mkFactor toInt (op "+" (op "+" a b) (op ":" a b)) = .ok (.expr e') ∧
      e.terms = e'.terms ∧ e.intercept = false ∧ e'.intercept = false := by
  have gl := (eval_spec mkFactor toInt a).1 l ha
  have gr := (eval_spec mkFactor toInt b).1 r hb
  have hp := evalProd_ok.mpr ⟨hl, hr, rfl⟩
  have hi := interaction_ok.mpr ⟨hl, hr, rfl⟩
  have gi := good_interaction gr hi
  obtain ⟨p, p1, p2, p3, p4, _⟩ := evalPlus_cases gl gr
  obtain ⟨q, q1, q2, q3, q4, _⟩ := evalPlus_cases p2 gi
  refine ⟨_, q, by simp [op, eval, ha, hb, requireExpr, hp, bind, Except.bind, pure, Except.pure]; rfl, ?_, ?_, rfl, ?_⟩
  · have e1 : eval mkFactor toInt (op "+" a b) = .ok (.expr p) := by
      simp [op, eval, ha, hb, requireExpr, h0, p1, bind, Except.bind, pure, Except.pure]
    have e2 : eval mkFactor toInt (op ":" a b) =
        .ok (.expr ⟨false, none, false, uniqueify Term.eqv (products l.terms r.terms)⟩) := by
      simp [op, eval, ha, hb, requireExpr, hi, bind, Except.bind, pure, Except.pure]
    have e3 : nodeType (op ":" a b) ≠ some "ZERO" := by simp [op, nodeType, Node.token]
    generalize op "+" a b = x at *
    generalize op ":" a b = y at *
    simp [op, eval, e1, e2, requireExpr, e3, q1, bind, Except.bind, pure, Except.pure]
  · rw [q3, p3]
    show uniqueify Term.eqv (l.terms ++ (r.terms ++ products l.terms r.terms)) = _
    rw [← List.append_assoc]
    exact ((uniqueify_append_left (eqvT (F := F)) _ _).trans (uniqueify_append_right (eqvT (F := F)) _ _)).symm
  · rw [q4, p4, hl, hr]; rfl

/-- **C09** (`/`).  `a / b` has the terms of `a` and, for every term of `b`, its union
with all factors of `a`. -/
theorem div_nests (a b : Tree) (l r : IExpr F) (ha : eval mkFactor toInt a = .ok (.expr l))
    (hb : eval mkFactor toInt b = .ok (.expr r)) (hl : l.intercept = false) (hr : r.intercept = false) :
    ∃ e, eval mkFactor toInt (op "/" a b) = .ok (.expr e) ∧ e.intercept = false ∧
      ∀ S, HasTerm e.terms S ↔ HasTerm l.terms S ∨
        ∃ u ∈ r.terms, ∀ f, S f ↔ ((∃ t ∈ l.terms, f ∈ t.factors) ∨ f ∈ u.factors) := by
  have hd := evalDiv_ok.mpr ⟨hl, hr, rfl⟩
  refine ⟨_, by simp [op, eval, ha, hb, requireExpr, hd, bind, Except.bind, pure, Except.pure]; rfl, rfl, ?_⟩
  intro S
  rw [hasTerm_uniqueify, hasTerm_append, hasTerm_products]
  simp only [List.mem_singleton]
  constructor
  · rintro (h | ⟨_, u, rfl, hu, h⟩)
    · exact Or.inl h
    · exact Or.inr ⟨u, hu, fun f => by rw [h f, Term.mem_of, List.mem_flatMap]⟩
  · rintro (h | ⟨u, hu, h⟩)
    · exact Or.inl h
    · exact Or.inr ⟨_, u, rfl, hu, fun f => by rw [h f, Term.mem_of, List.mem_flatMap]⟩

/-- **C09** (intercepts do not interact).  If an operand of `:`, `*` or `/`, or the base of
`**`, has an intercept, the result is a `PatsyError`. -/
theorem intercept_cannot_interact (a b : Tree) (l r : IExpr F)
    (ha : eval mkFactor toInt a = .ok (.expr l)) (hb : eval mkFactor toInt b = .ok (.expr r))
    (h : l.intercept = true ∨ r.intercept = true) :
    eval mkFactor toInt (op ":" a b) = .error .patsyError ∧
    eval mkFactor toInt (op "*" a b) = .error .patsyError ∧
    eval mkFactor toInt (op "/" a b) = .error .patsyError ∧
    (l.intercept = true → eval mkFactor toInt (op "**" a b) = .error .patsyError) := by
  have hi : interaction l r = .error .patsyError := by
    cases hx : interaction l r with
    | error e => rw [interaction_err hx]
    | ok e => obtain ⟨h1, h2, _⟩ := interaction_ok.mp hx; rcases h with h | h <;> simp_all
  have hp : evalProd l r = .error .patsyError := by
    cases hx : evalProd l r with
    | error e => rw [evalProd_err hx]
    | ok e => obtain ⟨h1, h2, _⟩ := evalProd_ok.mp hx; rcases h with h | h <;> simp_all
  have hd : evalDiv l r = .error .patsyError := by
    cases hx : evalDiv l r with
    | error e => rw [evalDiv_err hx]
    | ok e => obtain ⟨h1, h2, _⟩ := evalDiv_ok.mp hx; rcases h with h | h <;> simp_all
  refine ⟨?_, ?_, ?_, ?_⟩
  · simp [op, eval, ha, hb, requireExpr, hi, bind, Except.bind]
  · simp [op, eval, ha, hb, requireExpr, hp, bind, Except.bind]
  · simp [op, eval, ha, hb, requireExpr, hd, bind, Except.bind]
  · intro hl
    simp [op, eval, ha, requireExpr, evalPower, checkInteractable, hl, bind, Except.bind]

/-! ### C11 -/

/-- Literals. -/
def lit (s text : String) : Tree := .atom ⟨.sym s, ⟨0, 0⟩, some text⟩ ⟨0, 0⟩

/-- Append one summand. -/
def addItem (n : Tree) : Item → Tree
  | .add m => op "+" n m
  | .sub m => op "-" n m
  | .one => op "+" n (lit "ONE" "1")
  | .zero => op "+" n (lit "ZERO" "0")
  | .minusOne => op "-" n (lit "ONE" "1")
  | .minusZero => op "-" n (lit "ZERO" "0")

/-- The left-associated sum. -/
def flatSum (n : Tree) (is : List Item) : Tree := is.foldl addItem n

/-- `m` evaluates, and says nothing about the intercept. -/
def Silent (m : Tree) : Prop := nodeType m ≠ some "ZERO" ∧ nodeType m ≠ some "ONE" ∧
  ∃ e : IExpr F, eval mkFactor toInt m = .ok (.expr e) ∧ e.intercept = false ∧ e.interceptRemoved = false

/-- Operands inside an item are silent. -/
def ItemOk : Item → Prop
  | .add m => Silent mkFactor toInt m
  | .sub m => Silent mkFactor toInt m
  | _ => True

/-- What an evaluated expression says about the intercept. -/
def said (e : IExpr F) : Option Bool :=
  if e.intercept then some true else if e.interceptRemoved then some false else none

theorem addItem_eval {n : Tree} {e : IExpr F} (h : eval mkFactor toInt n = .ok (.expr e)) {i : Item}
    (hi : ItemOk mkFactor toInt i) :
    ∃ e', eval mkFactor toInt (addItem n i) = .ok (.expr e') ∧
      said e' = (match i.says with | some b => some b | none => said e) := by
  have g := (eval_spec mkFactor toInt n).1 e h
  cases i with
  | add m =>
    obtain ⟨h0, _, r, hr, r1, r2⟩ := hi
    obtain ⟨e', k1, _, _, k4, k5⟩ := evalPlus_cases g ((eval_spec mkFactor toInt m).1 r hr)
    refine ⟨e', by simp [addItem, op, eval, h, hr, requireExpr, h0, k1, bind, Except.bind, pure, Except.pure], ?_⟩
    simp [said, k4, k5, r1, Item.says]
  | sub m =>
    obtain ⟨h0, h1, r, hr, r1, r2⟩ := hi
    obtain ⟨e', k1, _, _, k4, k5⟩ := evalMinus_cases (r := r) g
    refine ⟨e', by simp [addItem, op, eval, h, hr, requireExpr, h0, h1, k1, bind, Except.bind, pure, Except.pure], ?_⟩
    simp [said, k4, k5, r1, Item.says]
  | one =>
    have hone : eval mkFactor toInt (lit "ONE" "1") = .ok (.expr ⟨true, some ⟨0, 0⟩, false, []⟩) := by
      simp [lit, eval, IExpr.of, bind, Except.bind, pure, Except.pure, uniqueify, uniqueifyGo]
    obtain ⟨e', k1, _, _, k4, k5⟩ := evalPlus_cases g ((eval_spec mkFactor toInt _).1 _ hone)
    refine ⟨e', ?_, ?_⟩
    · have : nodeType (lit "ONE" "1") ≠ some "ZERO" := by decide
      simp [addItem, op, eval, h, hone, requireExpr, this, k1, bind, Except.bind, pure, Except.pure]
    · simp [said, k4, Item.says]
  | zero =>
    refine ⟨⟨false, none, true, uniqueify Term.eqv e.terms⟩, ?_, ?_⟩
    · have : nodeType (lit "ZERO" "0") = some "ZERO" := rfl
      simp [addItem, op, eval, h, requireExpr, this, IExpr.of, bind, Except.bind, pure, Except.pure]
    · simp [said, Item.says]
  | minusOne =>
    refine ⟨⟨false, none, true, uniqueify Term.eqv e.terms⟩, ?_, ?_⟩
    · have : nodeType (lit "ONE" "1") = some "ONE" := rfl
      simp [addItem, op, eval, h, requireExpr, this, IExpr.of, bind, Except.bind, pure, Except.pure]
    · simp [said, Item.says]
  | minusZero =>
    refine ⟨⟨true, some ⟨0, 0⟩, false, uniqueify Term.eqv e.terms⟩, ?_, ?_⟩
    · have : nodeType (lit "ZERO" "0") = some "ZERO" := rfl
      simp [addItem, op, eval, h, requireExpr, this, IExpr.of, bind, Except.bind, pure, Except.pure]
      rfl
    · simp [said, Item.says]

theorem flatSum_eval (is : List Item) (his : ∀ i ∈ is, ItemOk mkFactor toInt i) {n : Tree} {e : IExpr F}
    (h : eval mkFactor toInt n = .ok (.expr e)) :
    ∃ e', eval mkFactor toInt (flatSum n is) = .ok (.expr e') ∧ said e' = lastSaid (said e) is := by
  induction is generalizing n e with
  | nil => exact ⟨e, h, rfl⟩
  | cons i is ih =>
    obtain ⟨e1, h1, s1⟩ := addItem_eval mkFactor toInt h (his i (by simp))
    obtain ⟨e2, h2, s2⟩ := ih (fun j hj => his j (by simp [hj])) h1
    refine ⟨e2, h2, ?_⟩
    rw [s2, s1]; rfl

/-- Ways a flat sum may begin, and what the beginning says about the intercept. -/
inductive Start : Tree → Option Bool → Prop where
  | silent (m : Tree) : Silent mkFactor toInt m → Start m none
  | one : Start (lit "ONE" "1") (some true)
  | zero : Start (lit "ZERO" "0") (some false)
  | minusOne : Start (.unary ⟨.sym "-", ⟨0, 0⟩, none⟩ (lit "ONE" "1") ⟨0, 0⟩) (some false)
  | minusZero : Start (.unary ⟨.sym "-", ⟨0, 0⟩, none⟩ (lit "ZERO" "0") ⟨0, 0⟩) (some true)

/-- **C11**.  A formula `~ x₀ ± x₁ ± … ± xₙ` whose summands are `0`, `1` or expressions
that say nothing about the intercept always evaluates, and its right-hand side contains
the intercept iff nothing is said about it or the last thing said is in its favour; if
it is there, it is the first term, and it is nowhere else. -/
theorem flatSum_intercept (n : Tree) (d0 : Option Bool) (hs : Start mkFactor toInt n d0)
    (is : List Item) (his : ∀ i ∈ is, ItemOk mkFactor toInt i) :
    ∃ d, fromTree mkFactor toInt (.unary ⟨.sym "~", ⟨0, 0⟩, none⟩ (flatSum n is) ⟨0, 0⟩) = .ok d ∧
      d.lhs = [] ∧
      (HasTerm d.rhs (fun _ => False) ↔ lastSaid d0 is ≠ some false) ∧
      (HasTerm d.rhs (fun _ => False) → ∃ rest, d.rhs = ⟨[]⟩ :: rest ∧ ∀ t ∈ rest, t.factors ≠ []) := by
  have hn : ∃ e : IExpr F, eval mkFactor toInt n = .ok (.expr e) ∧ said e = d0 := by
    cases hs with
    | silent _ h =>
      obtain ⟨_, _, e, h1, h2, h3⟩ := h
      exact ⟨e, h1, by simp [said, h2, h3]⟩
    | one => exact ⟨⟨true, some ⟨0, 0⟩, false, []⟩, by
        simp [lit, eval, IExpr.of, bind, Except.bind, pure, Except.pure, uniqueify, uniqueifyGo], rfl⟩
    | zero => exact ⟨⟨false, none, true, []⟩, by
        simp [lit, eval, IExpr.of, bind, Except.bind, pure, Except.pure, uniqueify, uniqueifyGo], rfl⟩
    | minusOne => exact ⟨⟨false, none, true, []⟩, by
        simp [lit, eval, nodeType, Node.token, IExpr.of, bind, Except.bind, pure, Except.pure, uniqueify, uniqueifyGo], rfl⟩
    | minusZero => exact ⟨⟨true, some ⟨0, 0⟩, false, []⟩, by
        simp [lit, eval, nodeType, Node.token, IExpr.of, bind, Except.bind, pure, Except.pure, uniqueify, uniqueifyGo], rfl⟩
  obtain ⟨e, he, se⟩ := hn
  obtain ⟨r, hr, sr⟩ := flatSum_eval mkFactor toInt is his he
  have gr := (eval_spec mkFactor toInt _).1 r hr
  have gl : Good (⟨false, none, true, []⟩ : IExpr F) :=
    good_of (simple_ok (ts := []) (by simp) (by simp)) .nil
  have hd : fromTree mkFactor toInt (.unary ⟨.sym "~", ⟨0, 0⟩, none⟩ (flatSum n is) ⟨0, 0⟩) =
      .ok ⟨[], maybeAddIntercept (!r.interceptRemoved) r.terms⟩ := by
    have := tildeDesc_eq gl gr
    simp only [maybeAddIntercept] at this
    simp [fromTree, eval, hr, requireExpr, IExpr.of, uniqueify, uniqueifyGo, bind, Except.bind, pure, Except.pure]
    simpa [maybeAddIntercept, uniqueify, uniqueifyGo] using this
  have key : (!r.interceptRemoved) = true ↔ lastSaid d0 is ≠ some false := by
    rw [← se, ← sr, said]
    have := gr.removed
    cases h1 : r.intercept <;> cases h2 : r.interceptRemoved <;> simp_all
  refine ⟨_, hd, rfl, ?_, ?_⟩
  · rw [← key]
    cases hb : (!r.interceptRemoved) with
    | true => simp [maybeAddIntercept, HasTerm, INTERCEPT, Term.of, uniqueify, uniqueifyGo]
    | false =>
      simp only [maybeAddIntercept, HasTerm, Bool.false_eq_true, if_false, iff_false, not_exists, not_and]
      intro t ht h
      apply gr.nonempty t ht
      cases hf : t.factors with
      | nil => rfl
      | cons f fs => have := h f; simp [hf] at this
  · intro h
    cases hb : (!r.interceptRemoved) with
    | true => exact ⟨r.terms, by simp [maybeAddIntercept, INTERCEPT, Term.of, uniqueify, uniqueifyGo], gr.nonempty⟩
    | false =>
      exfalso
      simp only [hb, maybeAddIntercept, Bool.false_eq_true, if_false] at h
      obtain ⟨t, ht, h⟩ := h
      apply gr.nonempty t ht
      cases hf : t.factors with
      | nil => rfl
      | cons f fs => have := h f; simp [hf] at this

/-! ### Concrete cases

Factors are their own names; `v s` is the variable `s`. -/

section Examples

/-- A variable. -/
def v (s : String) : Tree := .atom ⟨.sym "PYTHON_EXPR", ⟨0, 0⟩, some s⟩ ⟨0, 0⟩

/-- `~ n` -/
def tilde (n : Tree) : Tree := .unary ⟨.sym "~", ⟨0, 0⟩, none⟩ n ⟨0, 0⟩

/-- The factor constructor of the examples. -/
def mkEx (s : String) : Except Err String := .ok s

/-- `int` of the examples. -/
def intEx (s : String) : Option Int := if s = "2" then some 2 else if s = "3" then some 3 else none

/-- Hypotheses of C09 and C11: a variable evaluates and is silent. -/
theorem silent_v (s : String) : Silent mkEx intEx (v s) :=
  ⟨by simp [v, nodeType, Node.token], by simp [v, nodeType, Node.token],
    ⟨false, none, false, [⟨[s]⟩]⟩,
    by simp [v, eval, mkEx, IExpr.of, Term.of, uniqueify, uniqueifyGo, bind, Except.bind, pure, Except.pure],
    rfl, rfl⟩

/-- C08, C09: `~ (a + b) * c - a:c` -/
example : fromTree mkEx intEx (tilde (op "-" (op "*" (op "+" (v "a") (v "b")) (v "c")) (op ":" (v "c") (v "a")))) =
    .ok ⟨[], [⟨[]⟩, ⟨["a"]⟩, ⟨["b"]⟩, ⟨["c"]⟩, ⟨["b", "c"]⟩]⟩ :=
  eq_ok_of_okIs (by decide +kernel)

/-- C09: `~ (a + b) / c` nests under all factors of the left operand. -/
example : fromTree mkEx intEx (tilde (op "/" (op "+" (v "a") (v "b")) (v "c"))) =
    .ok ⟨[], [⟨[]⟩, ⟨["a"]⟩, ⟨["b"]⟩, ⟨["a", "b", "c"]⟩]⟩ :=
  eq_ok_of_okIs (by decide +kernel)

/-- C09: an intercept cannot interact: `~ (1 + a):b`. -/
example : fromTree mkEx intEx (tilde (op ":" (op "+" (lit "ONE" "1") (v "a")) (v "b"))) =
    .error .patsyError := rfl

/-- C11: `~ 0 + a - 0 + b - 1` says "against" last, `~ a - 1 + b + 1` in favour. -/
example : Start mkEx intEx (lit "ZERO" "0") (some false) ∧
    (∀ i ∈ [Item.add (v "a"), .minusZero, .add (v "b"), .minusOne], ItemOk mkEx intEx i) ∧
    lastSaid (some false) [Item.add (v "a"), .minusZero, .add (v "b"), .minusOne] = some false := by
  refine ⟨.zero, ?_, rfl⟩
  intro i hi
  simp only [List.mem_cons, List.not_mem_nil, or_false] at hi
  rcases hi with rfl | rfl | rfl | rfl
  · exact silent_v "a"
  · trivial
  · exact silent_v "b"
  · trivial

example : fromTree mkEx intEx (tilde (flatSum (v "a") [.minusOne, .add (v "b"), .one])) =
    .ok ⟨[], [⟨[]⟩, ⟨["a"]⟩, ⟨["b"]⟩]⟩ := eq_ok_of_okIs (by decide +kernel)

end Examples

/-! ### Where the code disagrees with its documentation -/

/-- **C11** (disagreement).  doc/formulas.rst:308-319 says that `x + -1` is equivalent to
`x - 1`; in the code the former has an intercept and the latter has none. -/
theorem plus_minus_one_keeps_intercept :
    fromTree mkEx intEx (tilde (op "+" (v "x") (.unary ⟨.sym "-", ⟨0, 0⟩, none⟩ (lit "ONE" "1") ⟨0, 0⟩))) =
      .ok ⟨[], [⟨[]⟩, ⟨["x"]⟩]⟩ ∧
    fromTree mkEx intEx (tilde (op "-" (v "x") (lit "ONE" "1"))) = .ok ⟨[], [⟨["x"]⟩]⟩ :=
  ⟨eq_ok_of_okIs (by decide +kernel), eq_ok_of_okIs (by decide +kernel)⟩

/-- **C11** (disagreement).  doc/formulas.rst:279 says a formula is treated exactly as if
`1 +` stood in front of its right-hand side; this is false for `-1 + x`: alone it has no
intercept, behind `1 +` it has one. -/
theorem invisible_one_is_visible :
    fromTree mkEx intEx (tilde (op "+" (.unary ⟨.sym "-", ⟨0, 0⟩, none⟩ (lit "ONE" "1") ⟨0, 0⟩) (v "x"))) =
      .ok ⟨[], [⟨["x"]⟩]⟩ ∧
    fromTree mkEx intEx (tilde (op "+" (op "+" (lit "ONE" "1")
      (.unary ⟨.sym "-", ⟨0, 0⟩, none⟩ (lit "ONE" "1") ⟨0, 0⟩)) (v "x"))) =
      .ok ⟨[], [⟨[]⟩, ⟨["x"]⟩]⟩ :=
  ⟨eq_ok_of_okIs (by decide +kernel), eq_ok_of_okIs (by decide +kernel)⟩

/-- **C11** (disagreement).  doc/R-comparison.rst:66-72 says that `y ~ (b - 1)`, unlike
`y ~ b - 1`, has an intercept.  The tokens of the former are parsed and evaluated to a
model without intercept. -/
theorem parenthesised_anti_intercept :
    ∃ n, infixParse [⟨.sym "PYTHON_EXPR", ⟨0, 1⟩, some "y"⟩, ⟨.sym "~", ⟨2, 3⟩, none⟩,
        ⟨.lparen, ⟨4, 5⟩, none⟩, ⟨.sym "PYTHON_EXPR", ⟨5, 6⟩, some "b"⟩, ⟨.sym "-", ⟨7, 8⟩, none⟩,
        ⟨.sym "ONE", ⟨9, 10⟩, some "1"⟩, ⟨.rparen, ⟨10, 11⟩, none⟩]
        Patsy.Formula.defaultOps Patsy.Formula.atomicTokenTypes = .ok n ∧
      fromTree mkEx intEx (wrapRoot n) = .ok ⟨[⟨["y"]⟩], [⟨["b"]⟩]⟩ :=
  ⟨.binary ⟨.sym "~", ⟨2, 3⟩, none⟩ (.atom ⟨.sym "PYTHON_EXPR", ⟨0, 1⟩, some "y"⟩ ⟨0, 1⟩)
    (.binary ⟨.sym "-", ⟨7, 8⟩, none⟩ (.atom ⟨.sym "PYTHON_EXPR", ⟨5, 6⟩, some "b"⟩ ⟨5, 6⟩)
      (.atom ⟨.sym "ONE", ⟨9, 10⟩, some "1"⟩ ⟨9, 10⟩) ⟨4, 11⟩) ⟨0, 11⟩,
    eq_ok_of_okIs (by decide +kernel), eq_ok_of_okIs (by decide +kernel)⟩

end Patsy.Props
