import Verif.Model.Describe
import Verif.Props.Desc
import Verif.Props.Infix

/-! # C12: `describe` round-trips -/

set_option linter.unusedSectionVars false

namespace Patsy.Props

open Patsy.Infix Patsy.Desc Patsy.Spec Patsy.Util Patsy.Formula

variable {F : Type} [DecidableEq F] (mkFactor : String → Except Err F) (toInt : String → Option Int)
  (name : F → String)

abbrev FCst := Cst String (Option String)

/-- The table of the formula language. -/
abbrev tbl := mkTable defaultOps atomicTokenTypes

/-- Concrete tree of `f:g:…`. -/
def colonC (f : F) (fs : List F) : FCst :=
  fs.foldl (fun c g => .bin c (tk ":" none) 300 (.atom (tk "PYTHON_EXPR" (some (name g)))))
    (.atom (tk "PYTHON_EXPR" (some (name f))))

/-- Concrete tree of `c + d + …`. -/
def sumC (c : FCst) (cs : List FCst) : FCst := cs.foldl (fun c d => .bin c (tk "+" none) 100 d) c

theorem wf_atom (s : String) (e : Option String) (h1 : tbl.unary s = none) (h2 : tbl.atomic s = true) :
    (Cst.atom (tk s e)).WF tbl := ⟨s, rfl, h1, h2⟩

theorem wf_colonC (f : F) (fs : List F) :
    (colonC name f fs).WF tbl ∧ (∀ q ∈ (colonC name f fs).rightEdge, (300 : Int) ≤ q) ∧
    (∀ q ∈ (colonC name f fs).leftEdge, (300 : Int) ≤ q) ∧
    (colonC name f fs).flatten =
      joinToks (tk ":" none) ((f :: fs).map fun g => [tk "PYTHON_EXPR" (some (name g))]) := by
  suffices h : ∀ (fs : List F) (c : FCst), c.WF tbl → (∀ q ∈ c.rightEdge, (300 : Int) ≤ q) →
      (∀ q ∈ c.leftEdge, (300 : Int) ≤ q) →
      let c' := fs.foldl (fun c g => .bin c (tk ":" none) 300 (.atom (tk "PYTHON_EXPR" (some (name g))))) c
      c'.WF tbl ∧ (∀ q ∈ c'.rightEdge, (300 : Int) ≤ q) ∧ (∀ q ∈ c'.leftEdge, (300 : Int) ≤ q) ∧
      c'.flatten = c.flatten ++ fs.flatMap fun g => [tk ":" none, tk "PYTHON_EXPR" (some (name g))] by
    obtain ⟨h1, h2, h3, h4⟩ := h fs (.atom (tk "PYTHON_EXPR" (some (name f))))
      (wf_atom _ _ (by decide +kernel) (by decide +kernel)) (by simp [Cst.rightEdge]) (by simp [Cst.leftEdge])
    refine ⟨h1, h2, h3, ?_⟩
    have h4' : (colonC name f fs).flatten = _ := h4
    rw [h4']
    simp [joinToks, Cst.flatten, List.flatMap_map]
  intro fs
  induction fs with
  | nil => intro c h1 h2 h3; exact ⟨h1, h2, h3, by simp⟩
  | cons g fs ih =>
    intro c h1 h2 h3
    obtain ⟨k1, k2, k3, k4⟩ := ih (.bin c (tk ":" none) 300 (.atom (tk "PYTHON_EXPR" (some (name g)))))
      ⟨⟨":", rfl, by decide +kernel⟩, h1, wf_atom _ _ (by decide +kernel) (by decide +kernel), h2, by simp [Cst.leftEdge]⟩
      (by simp [Cst.rightEdge]) (by simpa [Cst.leftEdge] using h3)
    refine ⟨k1, k2, k3, ?_⟩
    simp only [List.foldl_cons]
    rw [k4]
    simp [Cst.flatten]

/-- An operand of a sum. -/
def Summand (c : FCst) : Prop :=
  c.WF tbl ∧ (∀ q ∈ c.rightEdge, (100 : Int) ≤ q) ∧ (∀ q ∈ c.leftEdge, (100 : Int) < q)

theorem wf_sumC (c : FCst) (cs : List FCst) (hc : Summand c) (hcs : ∀ d ∈ cs, Summand d) :
    (sumC c cs).WF tbl ∧ (∀ q ∈ (sumC c cs).rightEdge, (100 : Int) ≤ q) ∧
    (∀ q ∈ (sumC c cs).leftEdge, (100 : Int) ≤ q) ∧
    (sumC c cs).flatten = joinToks (tk "+" none) ((c :: cs).map Cst.flatten) := by
  suffices h : ∀ (cs : List FCst) (c : FCst), (∀ d ∈ cs, Summand d) → c.WF tbl →
      (∀ q ∈ c.rightEdge, (100 : Int) ≤ q) → (∀ q ∈ c.leftEdge, (100 : Int) ≤ q) →
      (sumC c cs).WF tbl ∧ (∀ q ∈ (sumC c cs).rightEdge, (100 : Int) ≤ q) ∧
      (∀ q ∈ (sumC c cs).leftEdge, (100 : Int) ≤ q) ∧
      (sumC c cs).flatten = c.flatten ++ cs.flatMap fun d => tk "+" none :: d.flatten by
    obtain ⟨h1, h2, h3, h4⟩ := h cs c hcs hc.1 hc.2.1 (fun q hq => by have := hc.2.2 q hq; omega)
    exact ⟨h1, h2, h3, by rw [h4]; simp [joinToks, List.flatMap_map]⟩
  intro cs
  induction cs with
  | nil => intro c _ h1 h2 h3; exact ⟨h1, h2, h3, by simp [sumC]⟩
  | cons d cs ih =>
    intro c hds h1 h2 h3
    have hd := hds d (by simp)
    obtain ⟨k1, k2, k3, k4⟩ := ih (.bin c (tk "+" none) 100 d) (fun x hx => hds x (by simp [hx]))
      ⟨⟨"+", rfl, by decide +kernel⟩, h1, hd.1, h2, hd.2.2⟩
      (by
        intro q hq
        simp only [Cst.rightEdge, List.mem_cons] at hq
        rcases hq with rfl | hq
        · omega
        · exact hd.2.1 q hq)
      (by
        intro q hq
        simp only [Cst.leftEdge, List.mem_cons] at hq
        rcases hq with rfl | hq
        · omega
        · exact h3 q hq)
    refine ⟨k1, k2, k3, ?_⟩
    rw [show sumC c (d :: cs) = sumC (.bin c (tk "+" none) 100 d) cs from rfl, k4]
    simp [Cst.flatten]

/-! ### Evaluation of these trees -/

/-- What an expression evaluates to, up to the origin of the intercept. -/
def Evals (n : Tree) (i r : Bool) (ts : List (Term F)) : Prop :=
  ∃ e : IExpr F, eval mkFactor toInt n = .ok (.expr e) ∧ e.intercept = i ∧ e.interceptRemoved = r ∧ e.terms = ts

theorem evals_var {f : F} (hf : mkFactor (name f) = .ok f) (o : Origin) :
    Evals mkFactor toInt (.atom (tk "PYTHON_EXPR" (some (name f))) o) false false [(⟨[f]⟩ : Term F)] :=
  ⟨⟨false, none, false, [⟨[f]⟩]⟩,
    by simp [tk, eval, hf, IExpr.of, Term.of, uniqueify, uniqueifyGo, bind, Except.bind, pure, Except.pure],
    rfl, rfl, rfl⟩

theorem evals_colonC {f : F} {fs : List F} (hf : ∀ g ∈ f :: fs, mkFactor (name g) = .ok g)
    (hn : (f :: fs).Nodup) :
    Evals mkFactor toInt (toNode (colonC name f fs)) false false [(⟨f :: fs⟩ : Term F)] := by
  suffices h : ∀ (fs pre : List F) (c : FCst), (∀ g ∈ fs, mkFactor (name g) = .ok g) → (pre ++ fs).Nodup →
      Evals mkFactor toInt (toNode c) false false [(⟨pre⟩ : Term F)] →
      Evals mkFactor toInt (toNode (fs.foldl
        (fun c g => .bin c (tk ":" none) 300 (.atom (tk "PYTHON_EXPR" (some (name g))))) c))
        false false [(⟨pre ++ fs⟩ : Term F)] by
    exact h fs [f] _ (fun g hg => hf g (by simp [hg])) hn (evals_var mkFactor toInt name (hf f (by simp)) _)
  intro fs
  induction fs with
  | nil => intro pre c _ _ h; simpa using h
  | cons g fs ih =>
    intro pre c hg hn h
    rw [List.foldl_cons]
    have hn' : ((pre ++ [g]) ++ fs).Nodup := by simpa using hn
    have := ih (pre ++ [g]) (.bin c (tk ":" none) 300 (.atom (tk "PYTHON_EXPR" (some (name g)))))
      (fun x hx => hg x (by simp [hx])) hn' ?_
    · simpa using this
    · obtain ⟨e, h1, h2, h3, h4⟩ := h
      obtain ⟨r, r1, r2, r3, r4⟩ := evals_var mkFactor toInt name (hg g (by simp)) ⟨0, 0⟩
      have hi := interaction_ok.mpr ⟨h2, r2, rfl⟩
      refine ⟨⟨false, none, false, uniqueify Term.eqv (products e.terms r.terms)⟩, ?_, rfl, rfl, ?_⟩
      · have hx : ∀ x y : Tree, eval mkFactor toInt x = .ok (.expr e) → eval mkFactor toInt y = .ok (.expr r) →
            ∀ o, eval mkFactor toInt (.binary (tk ":" none) x y o) =
              .ok (.expr ⟨false, none, false, uniqueify Term.eqv (products e.terms r.terms)⟩) := by
          intro x y hx hy o
          simp [eval, tk, hx, hy, requireExpr, bind, Except.bind, hi, pure, Except.pure]
        exact hx _ _ h1 r1 _
      · show uniqueify Term.eqv (products e.terms r.terms) = _
        rw [h4, r4]
        have hu : Term.of (pre ++ [g]) = ⟨pre ++ [g]⟩ := by
          simp only [Term.of]
          rw [uniqueify_eq_self]
          have := (List.nodup_append.mp hn').1
          refine List.Pairwise.imp ?_ this
          intro a b h; simpa using h
        simp [products, hu, uniqueify, uniqueifyGo]

/-- The concrete tree of a term. -/
def termC (t : Term F) : FCst :=
  match t.factors with
  | [] => .atom (tk "ONE" (some "1"))
  | f :: fs => colonC name f fs

theorem eqv_intercept {t : Term F} : Term.eqv t INTERCEPT = true ↔ t.factors = [] := by
  rw [Term.eqv_iff]
  constructor
  · intro h
    cases hf : t.factors with
    | nil => rfl
    | cons f fs => have := (h f).mp (by simp [hf]); simp [intercept_factors] at this
  · intro h f; simp [h, intercept_factors]

theorem flatten_termC (t : Term F) : (termC name t).flatten = termToks name t := by
  unfold termC termToks
  split
  · rename_i h; rw [if_pos (eqv_intercept.mpr h)]; rfl
  · rename_i f fs h
    rw [if_neg (by rw [eqv_intercept, h]; simp), (wf_colonC name f fs).2.2.2, h]

theorem summand_termC (t : Term F) : Summand (termC name t) := by
  unfold termC
  split
  · exact ⟨wf_atom _ _ (by decide +kernel) (by decide +kernel), by simp [Cst.rightEdge], by simp [Cst.leftEdge]⟩
  · obtain ⟨h1, h2, h3, _⟩ := wf_colonC name ‹F› ‹List F›
    exact ⟨h1, fun q hq => by have := h2 q hq; omega, fun q hq => by have := h3 q hq; omega⟩

theorem toNode_termC_type (t : Term F) (ht : t.factors ≠ []) :
    nodeType (toNode (termC name t)) ≠ some "ZERO" := by
  unfold termC
  split
  · exact absurd ‹_› ht
  · rename_i f fs _
    have : ∀ (fs : List F) (c : FCst), nodeType (toNode c) ≠ some "ZERO" → nodeType (toNode (fs.foldl
        (fun c g => .bin c (tk ":" none) 300 (.atom (tk "PYTHON_EXPR" (some (name g))))) c)) ≠ some "ZERO" := by
      intro fs
      induction fs with
      | nil => intro c h; exact h
      | cons g fs ih => intro c _; exact ih _ (by simp [toNode, nodeType, Node.token, tk])
    exact this fs _ (by simp [toNode, nodeType, Node.token, tk])

theorem evals_termC {t : Term F} (ht : t.factors ≠ []) (hf : ∀ g ∈ t.factors, mkFactor (name g) = .ok g)
    (hn : t.factors.Nodup) : Evals mkFactor toInt (toNode (termC name t)) false false [t] := by
  unfold termC
  split
  · exact absurd ‹_› ht
  · rename_i f fs h
    have := evals_colonC mkFactor toInt name (f := f) (fs := fs) (by rw [← h]; exact hf) (by rw [← h]; exact hn)
    rw [← h] at this
    exact this

/-- A sum of terms behind something that evaluates. -/
theorem evals_sumC (ts : List (Term F)) :
    ∀ (c : FCst) (i r : Bool) (pre : List (Term F)),
      Evals mkFactor toInt (toNode c) i r pre →
      (∀ t ∈ ts, t.factors ≠ [] ∧ t.factors.Nodup ∧ ∀ g ∈ t.factors, mkFactor (name g) = .ok g) →
      ((pre ++ ts).Pairwise fun s t => Term.eqv s t = false) →
      Evals mkFactor toInt (toNode (sumC c (ts.map (termC name)))) i r (pre ++ ts) := by
  induction ts with
  | nil => intro c i r pre h _ _; simpa [sumC] using h
  | cons t ts ih =>
    intro c i r pre h ht hd
    have hd' : ((pre ++ [t]) ++ ts).Pairwise fun s t => Term.eqv s t = false := by simpa using hd
    have key : Evals mkFactor toInt (toNode (.bin c (tk "+" none) 100 (termC name t))) i r (pre ++ [t]) := by
      obtain ⟨t1, t2, t3⟩ := ht t (by simp)
      obtain ⟨e, h1, h2, h3, h4⟩ := h
      obtain ⟨s, s1, s2, s3, s4⟩ := evals_termC mkFactor toInt name t1 t3 t2
      obtain ⟨x, x1, _, x3, x4, x5⟩ := evalPlus_cases ((eval_spec mkFactor toInt _).1 e h1) ((eval_spec mkFactor toInt _).1 s s1)
      refine ⟨x, ?_, ?_, ?_, ?_⟩
      · have h0 := toNode_termC_type name t t1
        simp only [toNode, eval, tk]
        rw [h1, s1]
        simp [requireExpr, bind, Except.bind, pure, Except.pure, h0, x1]
      · rw [x4, s2, h2]; simp
      · rw [x5, s2, h3]; simp
      · rw [x3, h4, s4]
        exact uniqueify_eq_self (List.pairwise_append.mp hd').1
    have := ih _ i r (pre ++ [t]) key (fun u hu => ht u (by simp [hu])) hd'
    simpa [sumC] using this

/-! ### Sides of a model -/

/-- Hypotheses on a side: normalised, and `EvalFactor(name)` gives the factor back. -/
def SideOk (ts : List (Term F)) : Prop :=
  Normal ts ∧ ∀ t ∈ ts, ∀ g ∈ t.factors, mkFactor (name g) = .ok g

theorem normal_split {ts : List (Term F)} (h : Normal ts) :
    ∃ rest, (ts = rest ∨ ts = ⟨[]⟩ :: rest) ∧ (∀ t ∈ rest, t.factors ≠ [] ∧ t.factors.Nodup) ∧
      rest.Pairwise fun s t => Term.eqv s t = false := by
  have hp : ∀ l : List (Term F), (l.Pairwise fun s t => ¬ SameTerm s t) →
      l.Pairwise fun s t => Term.eqv s t = false := fun l hl => hl.imp fun {s t} hst => by
    rw [← eqv_iff_same] at hst; simpa using hst
  cases ts with
  | nil => exact ⟨[], Or.inl rfl, by simp, by simp⟩
  | cons t ts =>
    have htl : ∀ u ∈ ts, u.factors ≠ [] := by
      intro u hu he
      obtain ⟨a, b, rfl⟩ := List.append_of_mem hu
      have := h.emptyFirst (t :: a) u b (by simp) he
      simp at this
    by_cases ht : t.factors = []
    · refine ⟨ts, Or.inr ?_, fun u hu => ⟨htl u hu, h.nodup u (by simp [hu])⟩,
        (List.pairwise_cons.mp (hp _ h.distinct)).2⟩
      cases t; simp only at ht; subst ht; rfl
    · refine ⟨t :: ts, Or.inl rfl, ?_, hp _ h.distinct⟩
      intro u hu
      refine ⟨?_, h.nodup u hu⟩
      rcases List.mem_cons.mp hu with rfl | hu
      · exact ht
      · exact htl u hu

theorem evals_one (o : Origin) : Evals mkFactor toInt (.atom (tk "ONE" (some "1")) o) true false ([] : List (Term F)) :=
  ⟨⟨true, some o, false, []⟩, by
    simp [tk, eval, IExpr.of, bind, Except.bind, pure, Except.pure, uniqueify, uniqueifyGo], rfl, rfl, rfl⟩

theorem evals_zero (o : Origin) : Evals mkFactor toInt (.atom (tk "ZERO" (some "0")) o) false true ([] : List (Term F)) :=
  ⟨⟨false, none, true, []⟩, by
    simp [tk, eval, IExpr.of, bind, Except.bind, pure, Except.pure, uniqueify, uniqueifyGo], rfl, rfl, rfl⟩

theorem summand_one : Summand (Cst.atom (tk "ONE" (some "1"))) :=
  ⟨wf_atom _ _ (by decide +kernel) (by decide +kernel), by simp [Cst.rightEdge], by simp [Cst.leftEdge]⟩

theorem summand_zero : Summand (Cst.atom (tk "ZERO" (some "0"))) :=
  ⟨wf_atom _ _ (by decide +kernel) (by decide +kernel), by simp [Cst.rightEdge], by simp [Cst.leftEdge]⟩

theorem map_flatten_termC (ts : List (Term F)) :
    (ts.map (termC name)).map Cst.flatten = ts.map (termToks name) := by
  simp [List.map_map, Function.comp_def, flatten_termC]

/-- A sum starting with an arbitrary summand, with everything the proof needs. -/
theorem side_sum {c : FCst} {i r : Bool} (hc : Summand c) (he : Evals mkFactor toInt (toNode c) i r ([] : List (Term F)))
    {rest : List (Term F)} (h1 : ∀ t ∈ rest, t.factors ≠ [] ∧ t.factors.Nodup)
    (h2 : rest.Pairwise fun s t => Term.eqv s t = false)
    (h3 : ∀ t ∈ rest, ∀ g ∈ t.factors, mkFactor (name g) = .ok g) :
    ∃ c' : FCst, c'.WF tbl ∧ (∀ q ∈ c'.rightEdge, (100 : Int) ≤ q) ∧ (∀ q ∈ c'.leftEdge, (100 : Int) ≤ q) ∧
      c'.flatten = joinToks (tk "+" none) (c.flatten :: rest.map (termToks name)) ∧
      Evals mkFactor toInt (toNode c') i r rest := by
  obtain ⟨k1, k2, k3, k4⟩ := wf_sumC c (rest.map (termC name)) hc (by
    intro d hd; obtain ⟨t, _, rfl⟩ := List.mem_map.mp hd; exact summand_termC name t)
  refine ⟨_, k1, k2, k3, ?_, ?_⟩
  · rw [k4, List.map_cons, map_flatten_termC]
  · simpa using evals_sumC mkFactor toInt name rest c i r [] he
      (fun t ht => ⟨(h1 t ht).1, (h1 t ht).2, h3 t ht⟩) (by simpa using h2)

/-- The same for a sum that starts with a term. -/
theorem side_sum' {t : Term F} {rest : List (Term F)}
    (h1 : ∀ u ∈ t :: rest, u.factors ≠ [] ∧ u.factors.Nodup)
    (h2 : (t :: rest).Pairwise fun s t => Term.eqv s t = false)
    (h3 : ∀ u ∈ t :: rest, ∀ g ∈ u.factors, mkFactor (name g) = .ok g) :
    ∃ c' : FCst, c'.WF tbl ∧ (∀ q ∈ c'.rightEdge, (100 : Int) ≤ q) ∧ (∀ q ∈ c'.leftEdge, (100 : Int) ≤ q) ∧
      c'.flatten = joinToks (tk "+" none) ((t :: rest).map (termToks name)) ∧
      Evals mkFactor toInt (toNode c') false false (t :: rest) := by
  obtain ⟨k1, k2, k3, k4⟩ := wf_sumC (termC name t) (rest.map (termC name)) (summand_termC name t) (by
    intro d hd; obtain ⟨t, _, rfl⟩ := List.mem_map.mp hd; exact summand_termC name t)
  refine ⟨_, k1, k2, k3, ?_, ?_⟩
  · rw [k4, ← List.map_cons, map_flatten_termC]
  · have ht := h1 t (by simp)
    simpa using evals_sumC mkFactor toInt name rest (termC name t) false false [t]
      (evals_termC mkFactor toInt name ht.1 (h3 t (by simp)) ht.2)
      (fun u hu => ⟨(h1 u (by simp [hu])).1, (h1 u (by simp [hu])).2, h3 u (by simp [hu])⟩) (by simpa using h2)

theorem lhs_side {ts : List (Term F)} (h : SideOk mkFactor name ts) (hne : ts ≠ []) :
    ∃ (c : FCst) (e : IExpr F), c.WF tbl ∧ (∀ q ∈ c.rightEdge, (100 : Int) ≤ q) ∧
      c.flatten = joinToks (tk "+" none) (ts.map (termToks name)) ∧
      eval mkFactor toInt (toNode c) = .ok (.expr e) ∧
      (if e.intercept then [⟨[]⟩] else []) ++ e.terms = ts := by
  obtain ⟨rest, hr, h1, h2⟩ := normal_split h.1
  rcases hr with rfl | rfl
  · cases ts with
    | nil => exact absurd rfl hne
    | cons t ts =>
      obtain ⟨c, c1, c2, _, c4, e, e1, e2, e3, e4⟩ := side_sum' mkFactor toInt name h1 h2 h.2
      exact ⟨c, e, c1, c2, c4, e1, by rw [e2, e4]; simp⟩
  · obtain ⟨c, c1, c2, _, c4, e, e1, e2, e3, e4⟩ := side_sum mkFactor toInt name summand_one
      (evals_one mkFactor toInt _) h1 h2 (fun t ht => h.2 t (by simp [ht]))
    refine ⟨c, e, c1, c2, ?_, e1, by rw [e2, e4]; simp⟩
    rw [c4, List.map_cons]
    have : termToks name (⟨[]⟩ : Term F) = [tk "ONE" (some "1")] := by
      rw [termToks, if_pos (eqv_intercept.mpr rfl)]
    rw [this]; rfl

theorem filter_nonempty {rest : List (Term F)} (h1 : ∀ t ∈ rest, t.factors ≠ []) :
    (rest.filter fun t => !Term.eqv t INTERCEPT) = rest ∧ rest.any (fun t => Term.eqv t INTERCEPT) = false := by
  have hb : ∀ t ∈ rest, Term.eqv t INTERCEPT = false := by
    intro t ht
    cases hb : Term.eqv t INTERCEPT with
    | false => rfl
    | true => exact absurd (eqv_intercept.mp hb) (h1 t ht)
  constructor
  · rw [List.filter_eq_self]; intro t ht; simp [hb t ht]
  · rw [List.any_eq_false]; intro t ht; simp [hb t ht]

theorem rhs_side {ts : List (Term F)} (h : SideOk mkFactor name ts) :
    ∃ (c : FCst) (e : IExpr F), c.WF tbl ∧ (∀ q ∈ c.leftEdge, (100 : Int) ≤ q) ∧
      c.flatten = describeRhs name ts ∧
      eval mkFactor toInt (toNode c) = .ok (.expr e) ∧
      (if e.interceptRemoved then [] else [⟨[]⟩]) ++ e.terms = ts := by
  obtain ⟨rest, hr, h1, h2⟩ := normal_split h.1
  obtain ⟨f1, f2⟩ := filter_nonempty (fun t ht => (h1 t ht).1)
  rcases hr with rfl | rfl
  · obtain ⟨c, c1, _, c3, c4, e, e1, e2, e3, e4⟩ := side_sum mkFactor toInt name summand_zero
      (evals_zero mkFactor toInt _) h1 h2 h.2
    refine ⟨c, e, c1, c3, ?_, e1, by rw [e3, e4]; simp⟩
    rw [c4, describeRhs, if_neg, f1, f2]
    · simp [Cst.flatten]
    · rintro ⟨hl, ha⟩
      match ts, hl with
      | [t], _ =>
        have := eqv_intercept.mp (by simpa using ha)
        exact (h1 t (by simp)).1 this
  · have hi : Term.eqv (⟨[]⟩ : Term F) INTERCEPT = true := eqv_intercept.mpr rfl
    cases rest with
    | nil =>
      obtain ⟨e, e1, e2, e3, e4⟩ := evals_one (F := F) mkFactor toInt ⟨0, 0⟩
      refine ⟨.atom (tk "ONE" (some "1")), e, summand_one.1, by simp [Cst.leftEdge], ?_, e1, by rw [e3, e4]; simp⟩
      rw [describeRhs, if_pos ⟨rfl, by simp [hi]⟩]; rfl
    | cons t rest =>
      obtain ⟨c, c1, _, c3, c4, e, e1, e2, e3, e4⟩ := side_sum' mkFactor toInt name h1 h2
        (fun u hu => h.2 u (List.mem_cons_of_mem _ hu))
      refine ⟨c, e, c1, c3, ?_, e1, by rw [e3, e4]; simp⟩
      rw [c4, describeRhs, if_neg (by simp)]
      have ha : (((⟨[]⟩ : Term F) :: t :: rest).any fun t => Term.eqv t INTERCEPT) = true := by simp [hi]
      have hfil : (((⟨[]⟩ : Term F) :: t :: rest).filter fun t => !Term.eqv t INTERCEPT) = t :: rest := by
        rw [List.filter_cons_of_neg (by simp [hi]), f1]
      rw [ha, hfil]; simp

/-- **C12**.  If both sides of a model are normalised (as they are for every model that
comes from a formula, C08) and `EvalFactor(name)` gives every factor back, then the
tokens of `describe()` are parsed, and evaluate to exactly the same model. -/
theorem describe_roundtrip (d : ModelDesc F) (hl : SideOk mkFactor name d.lhs)
    (hr : SideOk mkFactor name d.rhs) :
    ∃ n, infixParse (describe name d) defaultOps atomicTokenTypes = .ok n ∧
      fromTree mkFactor toInt (wrapRoot n) = .ok d := by
  have htb := tableOk_of_checkOps defaultOps_ok atomicTokenTypes
  have parse : ∀ c : FCst, c.WF tbl → infixParse c.flatten defaultOps atomicTokenTypes = .ok (toNode c) := by
    intro c hc
    unfold infixParse
    rw [defaultOps_ok]
    exact parseWith_complete htb c hc
  obtain ⟨c, r, c1, c2, c3, c4, c5⟩ := rhs_side mkFactor toInt name hr
  cases hd : d.lhs with
  | nil =>
    refine ⟨toNode (.un (tk "~" none) (-100) c), ?_, ?_⟩
    · rw [← parse]
      · simp [describe, hd, joinToks, Cst.flatten, c3]
      · exact ⟨⟨"~", rfl, by decide +kernel⟩, c1, fun q hq => by have := c2 q hq; omega⟩
    · have hw : wrapRoot (toNode (.un (tk "~" none) (-100) c)) = toNode (.un (tk "~" none) (-100) c) := by
        rw [wrapRoot, if_pos (by rfl)]
      have gr := (eval_spec mkFactor toInt _).1 r c4
      have gl : Good (⟨false, none, true, []⟩ : IExpr F) :=
        good_of (simple_ok (ts := []) (by simp) (by simp)) .nil
      have ht := tildeDesc_eq gl gr
      have hof : IExpr.of false none true ([] : List (Term F)) = .ok ⟨false, none, true, []⟩ := rfl
      rw [hw]
      simp only [fromTree, toNode, eval, tk]
      rw [c4, hof]
      simp only [requireExpr, bind, Except.bind, pure, Except.pure, ht, Except.ok.injEq]
      have hdr : d.rhs = maybeAddIntercept (!r.interceptRemoved) r.terms := by
        rw [← c5]; cases r.interceptRemoved <;> simp [maybeAddIntercept, INTERCEPT, Term.of, uniqueify, uniqueifyGo]
      cases d
      simp only at hd hdr
      rw [hd, hdr]
      simp [maybeAddIntercept]
  | cons t ts =>
    obtain ⟨b, l, b1, b2, b3, b4, b5⟩ := lhs_side mkFactor toInt name hl (by simp [hd])
    refine ⟨toNode (.bin b (tk "~" none) (-100) c), ?_, ?_⟩
    · rw [← parse]
      · simp [describe, Cst.flatten, c3, b3]
      · exact ⟨⟨"~", rfl, by decide +kernel⟩, b1, c1, fun q hq => by have := b2 q hq; omega,
          fun q hq => by have := c2 q hq; omega⟩
    · have hw : wrapRoot (toNode (.bin b (tk "~" none) (-100) c)) = toNode (.bin b (tk "~" none) (-100) c) := by
        rw [wrapRoot, if_pos (by rfl)]
      have ht := tildeDesc_eq ((eval_spec mkFactor toInt _).1 l b4) ((eval_spec mkFactor toInt _).1 r c4)
      rw [hw]
      simp only [fromTree, toNode, eval, tk]
      rw [b4, c4]
      simp only [requireExpr, bind, Except.bind, pure, Except.pure, ht, Except.ok.injEq]
      have hdr : d.rhs = maybeAddIntercept (!r.interceptRemoved) r.terms := by
        rw [← c5]; cases r.interceptRemoved <;> simp [maybeAddIntercept, INTERCEPT, Term.of, uniqueify, uniqueifyGo]
      have hdl : d.lhs = maybeAddIntercept l.intercept l.terms := by
        rw [← b5]; cases l.intercept <;> simp [maybeAddIntercept, INTERCEPT, Term.of, uniqueify, uniqueifyGo]
      cases d
      simp only at hdl hdr
      rw [hdl, hdr]

/-! ### Where factors come from -/

/-- All factors were made by the factor constructor. -/
def Made (ts : List (Term F)) : Prop := ∀ t ∈ ts, ∀ f ∈ t.factors, ∃ code, mkFactor code = .ok f

theorem made_uniqueify {ts : List (Term F)} (h : Made mkFactor ts) : Made mkFactor (uniqueify Term.eqv ts) :=
  fun t ht => h t ((uniqueify_sublist _).subset ht)

theorem made_append {a b : List (Term F)} (ha : Made mkFactor a) (hb : Made mkFactor b) :
    Made mkFactor (a ++ b) := fun t ht => (List.mem_append.mp ht).elim (ha t) (hb t)

theorem made_products {a b : List (Term F)} (ha : Made mkFactor a) (hb : Made mkFactor b) :
    Made mkFactor (products a b) := by
  intro t ht f hf
  simp only [products, List.mem_flatMap, List.mem_map] at ht
  obtain ⟨l, hl, r, hr, rfl⟩ := ht
  rw [Term.mem_of, List.mem_append] at hf
  exact hf.elim (ha l hl f) (hb r hr f)

theorem made_powerLoop {left : IExpr F} (hl : Made mkFactor left.terms) (n : Nat) :
    ∀ (big : IExpr F) (all r : List (Term F)), Made mkFactor big.terms → Made mkFactor all →
      powerLoop left n big all = .ok r → Made mkFactor r := by
  induction n with
  | zero => intro big all r _ ha h; simp only [powerLoop, Except.ok.injEq] at h; subst h; exact ha
  | succ n ih =>
    intro big all r hb ha h
    simp only [powerLoop, bind_ok, interaction_ok] at h
    obtain ⟨b', ⟨_, _, rfl⟩, h⟩ := h
    have hm := made_uniqueify mkFactor (made_products mkFactor hl hb)
    exact ih _ _ _ hm (made_append mkFactor ha hm) h

theorem eval_made (n : Tree) (e : IExpr F) (h : eval mkFactor toInt n = .ok (.expr e)) :
    Made mkFactor e.terms := by
  have nil : Made mkFactor ([] : List (Term F)) := by intro t ht; simp at ht
  induction n generalizing e with
  | atom t o =>
    rw [eval] at h
    split at h
    · simp only [bind_ok, pure_ok, IExpr.of_ok, Val.expr.injEq] at h
      obtain ⟨_, ⟨_, _, rfl⟩, rfl⟩ := h; exact nil
    · simp only [bind_ok, pure_ok, IExpr.of_ok, Val.expr.injEq] at h
      obtain ⟨_, ⟨_, _, rfl⟩, rfl⟩ := h; exact nil
    · simp at h
    · split at h
      · rename_i code _
        simp only [bind_ok, pure_ok, IExpr.of_ok, Val.expr.injEq] at h
        obtain ⟨f, hf, _, ⟨_, _, rfl⟩, rfl⟩ := h
        refine made_uniqueify mkFactor ?_
        intro t ht g hg
        simp only [List.mem_singleton] at ht; subst ht
        rw [Term.mem_of, List.mem_singleton] at hg; subst hg
        exact ⟨code, hf⟩
      · simp at h
    · simp at h
  | unary t a o ih =>
    rw [eval] at h
    split at h
    · simp only [bind_ok, pure_ok] at h
      obtain ⟨_, _, _, _, h⟩ := h; simp at h
    · simp only [bind_ok, pure_ok, requireExpr_ok, Val.expr.injEq] at h
      obtain ⟨_, h, rfl⟩ := h; exact ih _ h
    · split at h
      · simp only [bind_ok, pure_ok, IExpr.of_ok, Val.expr.injEq] at h
        obtain ⟨_, ⟨_, _, rfl⟩, rfl⟩ := h; exact nil
      · split at h
        · simp only [bind_ok, pure_ok, IExpr.of_ok, Val.expr.injEq] at h
          obtain ⟨_, ⟨_, _, rfl⟩, rfl⟩ := h; exact nil
        · simp at h
    · simp at h
  | binary t a b o iha ihb =>
    rw [eval] at h
    split at h
    · simp only [bind_ok, pure_ok] at h
      obtain ⟨_, _, _, _, h⟩ := h; simp at h
    · simp only [bind_ok, requireExpr_ok] at h
      obtain ⟨l, hl, h⟩ := h
      split at h
      · simp only [bind_ok, pure_ok, IExpr.of_ok, Val.expr.injEq] at h
        obtain ⟨_, ⟨_, _, rfl⟩, rfl⟩ := h; exact made_uniqueify mkFactor (iha _ hl)
      · simp only [bind_ok, pure_ok, requireExpr_ok, Val.expr.injEq] at h
        obtain ⟨r, hr, x, hx, rfl⟩ := h
        obtain ⟨y, y1, _, y3, _⟩ := evalPlus_cases ((eval_spec mkFactor toInt _).1 l hl) ((eval_spec mkFactor toInt _).1 r hr)
        rw [y1] at hx; simp only [Except.ok.injEq] at hx; subst hx
        rw [y3]; exact made_uniqueify mkFactor (made_append mkFactor (iha _ hl) (ihb _ hr))
    · simp only [bind_ok, requireExpr_ok] at h
      obtain ⟨l, hl, h⟩ := h
      split at h
      · simp only [bind_ok, pure_ok, IExpr.of_ok, Val.expr.injEq] at h
        obtain ⟨_, ⟨_, _, rfl⟩, rfl⟩ := h; exact made_uniqueify mkFactor (iha _ hl)
      · split at h
        · simp only [bind_ok, pure_ok, IExpr.of_ok, Val.expr.injEq] at h
          obtain ⟨_, ⟨_, _, rfl⟩, rfl⟩ := h; exact made_uniqueify mkFactor (iha _ hl)
        · simp only [bind_ok, pure_ok, requireExpr_ok, Val.expr.injEq] at h
          obtain ⟨r, hr, x, hx, rfl⟩ := h
          obtain ⟨y, y1, _, y3, _⟩ := evalMinus_cases (r := r) ((eval_spec mkFactor toInt _).1 l hl)
          rw [y1] at hx; simp only [Except.ok.injEq] at hx; subst hx
          rw [y3]; exact fun t ht => iha _ hl t (List.mem_filter.mp ht).1
    · simp only [bind_ok, pure_ok, requireExpr_ok, evalProd_ok, Val.expr.injEq] at h
      obtain ⟨l, hl, r, hr, _, ⟨_, _, rfl⟩, rfl⟩ := h
      exact made_uniqueify mkFactor (made_append mkFactor (made_append mkFactor (iha _ hl) (ihb _ hr))
        (made_products mkFactor (iha _ hl) (ihb _ hr)))
    · simp only [bind_ok, pure_ok, requireExpr_ok, evalDiv_ok, Val.expr.injEq] at h
      obtain ⟨l, hl, r, hr, _, ⟨_, _, rfl⟩, rfl⟩ := h
      refine made_uniqueify mkFactor (made_append mkFactor (iha _ hl) (made_products mkFactor ?_ (ihb _ hr)))
      intro t ht f hf
      simp only [List.mem_singleton] at ht; subst ht
      rw [Term.mem_of, List.mem_flatMap] at hf
      obtain ⟨u, hu, hf⟩ := hf
      exact iha _ hl u hu f hf
    · simp only [bind_ok, pure_ok, requireExpr_ok, interaction_ok, Val.expr.injEq] at h
      obtain ⟨l, hl, r, hr, _, ⟨_, _, rfl⟩, rfl⟩ := h
      exact made_uniqueify mkFactor (made_products mkFactor (iha _ hl) (ihb _ hr))
    · simp only [bind_ok, pure_ok, requireExpr_ok, Val.expr.injEq] at h
      obtain ⟨l, hl, x, hx, rfl⟩ := h
      rcases evalPower_cases ((eval_spec mkFactor toInt _).1 l hl) (exponent toInt b) with h' | ⟨_, _, all, y, h1, h2, rfl, _⟩
      · rw [h'] at hx; simp at hx
      · rw [h2] at hx; simp only [Except.ok.injEq] at hx; subst hx
        exact made_uniqueify mkFactor (made_powerLoop mkFactor (iha _ hl) _ _ _ _ (iha _ hl) (iha _ hl) h1)
    · simp at h

theorem fromTree_made (n : Tree) (d : ModelDesc F) (h : fromTree mkFactor toInt n = .ok d) :
    Made mkFactor d.lhs ∧ Made mkFactor d.rhs := by
  have add : ∀ (b : Bool) (ts : List (Term F)), Made mkFactor ts →
      Made mkFactor (uniqueify Term.eqv (maybeAddIntercept b ts)) := by
    intro b ts hts
    refine made_uniqueify mkFactor ?_
    cases b with
    | false => exact hts
    | true =>
      intro t ht f hf
      rcases List.mem_cons.mp ht with rfl | ht
      · simp [intercept_factors] at hf
      · exact hts t ht f hf
  unfold fromTree at h
  split at h
  · rename_i d' hd
    simp only [Except.ok.injEq] at h; subst h
    cases n with
    | atom t o =>
      exfalso
      rw [eval] at hd
      split at hd
      · simp [bind, Except.bind, pure, Except.pure, IExpr.of] at hd
      · simp [bind, Except.bind, pure, Except.pure, IExpr.of] at hd
      · simp at hd
      · split at hd
        · simp only [bind_ok, pure_ok] at hd
          obtain ⟨_, _, _, _, hd⟩ := hd; simp at hd
        · simp at hd
      · simp at hd
    | unary t a o =>
      rw [eval] at hd
      split at hd
      · simp only [bind_ok, pure_ok, requireExpr_ok, IExpr.of_ok, Val.desc.injEq] at hd
        obtain ⟨r, hr, _, ⟨_, _, rfl⟩, rfl⟩ := hd
        exact ⟨add _ _ (made_uniqueify mkFactor (by intro t ht; simp at ht)), add _ _ (eval_made mkFactor toInt a r hr)⟩
      · simp only [bind_ok, pure_ok] at hd
        obtain ⟨_, _, hd⟩ := hd; simp at hd
      · split at hd
        · simp [bind, Except.bind, pure, Except.pure, IExpr.of] at hd
        · split at hd
          · simp [bind, Except.bind, pure, Except.pure, IExpr.of] at hd
          · simp at hd
      · simp at hd
    | binary t a b o =>
      rw [eval] at hd
      split at hd
      · simp only [bind_ok, pure_ok, requireExpr_ok, Val.desc.injEq] at hd
        obtain ⟨l, hl, r, hr, rfl⟩ := hd
        exact ⟨add _ _ (eval_made mkFactor toInt a l hl), add _ _ (eval_made mkFactor toInt b r hr)⟩
      all_goals exfalso
      · simp only [bind_ok] at hd
        obtain ⟨_, _, hd⟩ := hd
        split at hd
        · simp [bind, Except.bind, pure, Except.pure, IExpr.of] at hd
        · simp only [bind_ok, pure_ok] at hd
          obtain ⟨_, _, _, _, hd⟩ := hd; simp at hd
      · simp only [bind_ok] at hd
        obtain ⟨_, _, hd⟩ := hd
        split at hd
        · simp [bind, Except.bind, pure, Except.pure, IExpr.of] at hd
        · split at hd
          · simp [bind, Except.bind, pure, Except.pure, IExpr.of] at hd
          · simp only [bind_ok, pure_ok] at hd
            obtain ⟨_, _, _, _, hd⟩ := hd; simp at hd
      · simp only [bind_ok, pure_ok] at hd
        obtain ⟨_, _, _, _, _, _, hd⟩ := hd; simp at hd
      · simp only [bind_ok, pure_ok] at hd
        obtain ⟨_, _, _, _, _, _, hd⟩ := hd; simp at hd
      · simp only [bind_ok, pure_ok] at hd
        obtain ⟨_, _, _, _, _, _, hd⟩ := hd; simp at hd
      · simp only [bind_ok, pure_ok] at hd
        obtain ⟨_, _, _, _, hd⟩ := hd; simp at hd
      · simp at hd
  · simp at h
  · simp at h

/-- **C12** (for formulas).  If factors are determined by their names — constructing a
factor from the name of a constructed factor gives it back — then for every model that a
parse tree evaluates to, the tokens of `describe()` parse and evaluate to the same
model. -/
theorem describe_roundtrip_formula (hname : ∀ code f, mkFactor code = .ok f → mkFactor (name f) = .ok f)
    (n : Tree) (d : ModelDesc F) (h : fromTree mkFactor toInt n = .ok d) :
    ∃ m, infixParse (describe name d) defaultOps atomicTokenTypes = .ok m ∧
      fromTree mkFactor toInt (wrapRoot m) = .ok d := by
  obtain ⟨n1, n2⟩ := eval_normal mkFactor toInt n d h
  obtain ⟨m1, m2⟩ := fromTree_made mkFactor toInt n d h
  refine describe_roundtrip mkFactor toInt name d ⟨n1, ?_⟩ ⟨n2, ?_⟩
  · intro t ht g hg; obtain ⟨c, hc⟩ := m1 t ht g hg; exact hname c g hc
  · intro t ht g hg; obtain ⟨c, hc⟩ := m2 t ht g hg; exact hname c g hc

/-- The hypothesis on names holds in the examples, where a factor is its own name ... -/
example : ∀ code f, mkEx code = .ok f → mkEx (id f) = .ok f := fun _ _ _ => rfl

/-- ... and `describe` prints, for example, `y ~ 0 + a + a:b`. -/
example : describe id (⟨[⟨["y"]⟩], [⟨["a"]⟩, ⟨["a", "b"]⟩]⟩ : ModelDesc String) =
    [tk "PYTHON_EXPR" (some "y"), tk "~" none, tk "ZERO" (some "0"), tk "+" none,
      tk "PYTHON_EXPR" (some "a"), tk "+" none, tk "PYTHON_EXPR" (some "a"), tk ":" none,
      tk "PYTHON_EXPR" (some "b")] := by decide +kernel

end Patsy.Props
