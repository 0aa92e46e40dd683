import Verif.Lemmas.Meaning

/-! # C53: formulas mean what the manual says, as a whole

`formula_semantics`: for every parse tree, however deeply nested, the evaluator succeeds
exactly when the tree has a meaning in the set-based semantics of `Verif.Spec.Meaning`,
and then the two sides of the model consist of exactly the terms of that meaning.  The
algebraic laws of the manual follow, for arbitrary subexpressions. -/

set_option linter.unusedSectionVars false

namespace Patsy.Props

open Patsy.Infix Patsy.Desc Patsy.Spec Patsy.Util

variable {F : Type} [DecidableEq F] {mkFactor : String → Except Err F} {toInt : String → Option Int}

/-- **C53** (expressions).  The evaluator returns an expression iff the tree has a
meaning, and then the expression has exactly the terms and the request about the
intercept which the meaning prescribes. -/
theorem expression_semantics (n : FTree) (m : Meaning F) :
    Means mkFactor toInt n m ↔
      ∃ e, eval mkFactor toInt n = .ok (.expr e) ∧ termSets e.terms = m.terms ∧ said e = m.vote := by
  constructor
  · intro h
    obtain ⟨e, he, rfl⟩ := means_eval h
    exact ⟨e, he, rfl, rfl⟩
  · rintro ⟨e, he, h1, h2⟩
    have := eval_means n e he
    rwa [show meaningOf e = m from Meaning.ext h1 h2] at this

/-- **C53** (unambiguous).  No expression has two meanings. -/
theorem means_unique {n : FTree} {m m' : Meaning F} (h : Means mkFactor toInt n m)
    (h' : Means mkFactor toInt n m') : m = m' := by
  obtain ⟨e, he, rfl⟩ := means_eval h
  obtain ⟨e', he', rfl⟩ := means_eval h'
  rw [he] at he'; simp only [Except.ok.injEq, Val.expr.injEq] at he'; rw [he']

theorem termSets_intercept (b : Bool) (ts : List (Term F)) :
    termSets (maybeAddIntercept b ts) = {S | S ∈ termSets ts ∨ (S = ∅ ∧ b = true)} := by
  ext S
  cases b with
  | false => simp [maybeAddIntercept]
  | true =>
    have : fset (INTERCEPT : Term F) = ∅ := by ext f; simp [fset, intercept_factors]
    simp only [maybeAddIntercept, if_true, Set.mem_ofPred_eq, and_true]
    rw [mem_termSets', List.exists_mem_cons_iff, this, ← mem_termSets', or_comm, eq_comm]

theorem termSets_left {l : IExpr F} :
    termSets (maybeAddIntercept l.intercept l.terms) = (meaningOf l).left := by
  rw [termSets_intercept]
  unfold Meaning.left
  ext S
  simp only [Set.mem_ofPred_eq]
  rw [show (meaningOf l).vote = said l from rfl, said_true]; rfl

theorem termSets_right {r : IExpr F} (g : Good r) :
    termSets (maybeAddIntercept (!r.interceptRemoved) r.terms) = (meaningOf r).right := by
  rw [termSets_intercept]
  unfold Meaning.right
  ext S
  simp only [Set.mem_ofPred_eq]
  rw [show (meaningOf r).vote = said r from rfl, Ne, said_false g]; simp; rfl

theorem empty_left : (Meaning.left (Meaning.only false : Meaning F)) = ∅ := by
  ext S; simp [Meaning.left, Meaning.only]

/-- **C53**.  For every parse tree `n` and all sets of terms `L` and `R`: the formula means
`L ~ R` iff `ModelDesc.from_formula` returns a model whose left hand side consists of
exactly the terms in `L` and whose right hand side of exactly those in `R`.  (By
`eval_normal` no term occurs twice.)  In particular a formula without a meaning is
rejected. -/
theorem formula_semantics (n : FTree) (L R : Set (Set F)) :
    FormulaMeans mkFactor toInt n L R ↔
      ∃ d, fromTree mkFactor toInt (wrapRoot n) = .ok d ∧ termSets d.lhs = L ∧ termSets d.rhs = R := by
  have key : ∀ (l r : IExpr F), Good l → Good r →
      termSets (tildeDesc l r).lhs = (meaningOf l).left ∧ termSets (tildeDesc l r).rhs = (meaningOf r).right := by
    intro l r hl hr
    rw [tildeDesc_eq hl hr]
    exact ⟨termSets_left, termSets_right hr⟩
  have hz : Good (⟨false, none, true, []⟩ : IExpr F) :=
    good_of (i := false) (o := none) (r := true) (ts := []) (simple_ok (by simp) (by simp)) .nil
  have hzm : (meaningOf (⟨false, none, true, []⟩ : IExpr F)).left = ∅ := by
    have h : meaningOf (⟨false, none, true, []⟩ : IExpr F) = .only false :=
      only_meaning (F := F) (i := false) (o := none) (r := true) rfl false rfl rfl
    rw [h]; exact empty_left
  have hof : IExpr.of false none true ([] : List (Term F)) = .ok ⟨false, none, true, []⟩ := rfl
  have unaryEval : ∀ (t : Tok String (Option String)) (a : FTree) (o : Origin) (e : IExpr F), t.kind = .sym "~" →
      eval mkFactor toInt a = .ok (.expr e) →
      fromTree mkFactor toInt (.unary t a o) = .ok (tildeDesc ⟨false, none, true, []⟩ e) := by
    intro t a o e hk he
    simp [fromTree, eval, hk, he, requireExpr, hof, bind, Except.bind, pure, Except.pure]
  have unaryInv : ∀ (t : Tok String (Option String)) (a : FTree) (o : Origin) (d : ModelDesc F), t.kind = .sym "~" →
      fromTree mkFactor toInt (.unary t a o) = .ok d →
      ∃ e, eval mkFactor toInt a = .ok (.expr e) ∧ d = tildeDesc ⟨false, none, true, []⟩ e := by
    intro t a o d hk h
    cases hx : requireExpr (eval mkFactor toInt a) with
    | error x => simp [fromTree, eval, hk, hx, bind, Except.bind] at h
    | ok e =>
      simp [fromTree, eval, hk, hx, hof, bind, Except.bind, pure, Except.pure] at h
      exact ⟨e, requireExpr_ok.mp hx, h.symm⟩
  constructor
  · intro h
    cases h with
    | @both t a b o l r hk ha hb =>
      obtain ⟨x, hx, rfl⟩ := means_eval ha
      obtain ⟨y, hy, rfl⟩ := means_eval hb
      have hw : wrapRoot (.binary t a b o) = .binary t a b o :=
        if_pos (nodeType_iff.mpr (show IsLit "~" (.binary t a b o) from hk))
      rw [hw]
      refine ⟨tildeDesc x y, ?_, key x y ((eval_spec mkFactor toInt a).1 x hx) ((eval_spec mkFactor toInt b).1 y hy)⟩
      simp [fromTree, eval, hk, hx, hy, requireExpr, bind, Except.bind, pure, Except.pure]
    | @tilde t b o r hk hb =>
      obtain ⟨y, hy, rfl⟩ := means_eval hb
      have hw : wrapRoot (.unary t b o) = .unary t b o :=
        if_pos (nodeType_iff.mpr (show IsLit "~" (.unary t b o) from hk))
      rw [hw]
      have k := key _ y hz ((eval_spec mkFactor toInt b).1 y hy)
      exact ⟨_, unaryEval t b o y hk hy, k.1.trans hzm, k.2⟩
    | @bare _ r hk hb =>
      obtain ⟨y, hy, rfl⟩ := means_eval hb
      have hw : wrapRoot n = .unary ⟨.sym "~", n.origin, none⟩ n n.origin :=
        if_neg (fun h => hk (nodeType_iff.mp h))
      rw [hw]
      have k := key _ y hz ((eval_spec mkFactor toInt n).1 y hy)
      exact ⟨_, unaryEval _ n _ y rfl hy, k.1.trans hzm, k.2⟩
  · rintro ⟨d, hd, rfl, rfl⟩
    by_cases hn : n.token.kind = .sym "~"
    · have hw : wrapRoot n = n := if_pos (nodeType_iff.mpr hn)
      rw [hw] at hd
      cases n with
      | atom t o =>
        simp only [Node.token] at hn
        simp [fromTree, eval, hn] at hd
      | unary t a o =>
        simp only [Node.token] at hn
        obtain ⟨e, he, rfl⟩ := unaryInv t a o d hn hd
        have k := key _ e hz ((eval_spec mkFactor toInt a).1 e he)
        rw [k.1, k.2, hzm]
        exact .tilde hn (eval_means a e he)
      | binary t a b o =>
        simp only [Node.token] at hn
        cases hx : requireExpr (eval mkFactor toInt a) with
        | error x => simp [fromTree, eval, hn, hx, bind, Except.bind] at hd
        | ok x =>
          cases hy : requireExpr (eval mkFactor toInt b) with
          | error y => simp [fromTree, eval, hn, hx, hy, bind, Except.bind] at hd
          | ok y =>
            simp [fromTree, eval, hn, hx, hy, bind, Except.bind, pure, Except.pure] at hd
            subst hd
            rw [requireExpr_ok] at hx hy
            have k := key _ _ ((eval_spec mkFactor toInt a).1 x hx) ((eval_spec mkFactor toInt b).1 y hy)
            rw [k.1, k.2]
            exact .both hn (eval_means a x hx) (eval_means b y hy)
    · have hw : wrapRoot n = .unary ⟨.sym "~", n.origin, none⟩ n n.origin :=
        if_neg (fun h => hn (nodeType_iff.mp h))
      rw [hw] at hd
      obtain ⟨e, he, rfl⟩ := unaryInv _ _ _ d rfl hd
      have k := key _ e hz ((eval_spec mkFactor toInt n).1 e he)
      rw [k.1, k.2, hzm]
      exact .bare hn (eval_means n e he)

end Patsy.Props
