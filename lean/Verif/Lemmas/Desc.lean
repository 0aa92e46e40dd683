import Verif.Spec.Desc
import Verif.Lemmas.Util

/-! Helper lemmas for the formula evaluator. -/

set_option linter.unusedSectionVars false

namespace Patsy.Desc

open Patsy.Infix Patsy.Util

variable {F : Type} [DecidableEq F]

theorem bind_ok {α β : Type} {x : Except Err α} {f : α → Except Err β} {b : β} :
    (x >>= f) = .ok b ↔ ∃ a, x = .ok a ∧ f a = .ok b := by
  cases x <;> simp [bind, Except.bind]

theorem bind_err {α β : Type} {x : Except Err α} {f : α → Except Err β} {e : Err} :
    (x >>= f) = .error e ↔ x = .error e ∨ ∃ a, x = .ok a ∧ f a = .error e := by
  cases x <;> simp [bind, Except.bind]

theorem pure_ok {α : Type} {a b : α} : (pure a : Except Err α) = .ok b ↔ a = b := by
  simp [pure, Except.pure]

theorem pure_err {α : Type} {a : α} {e : Err} : (pure a : Except Err α) = .error e ↔ False := by
  simp [pure, Except.pure]

theorem requireExpr_ok {x : Except Err (Val F)} {e : IExpr F} :
    requireExpr x = .ok e ↔ x = .ok (.expr e) := by
  cases x with
  | error e => simp [requireExpr]
  | ok v => cases v <;> simp [requireExpr]

theorem requireExpr_err {x : Except Err (Val F)} {e : Err} (h : requireExpr x = .error e) :
    e = .patsyError ∨ x = .error e := by
  cases x with
  | error e => right; simpa [requireExpr] using h
  | ok v => cases v <;> simp [requireExpr] at h; left; exact h.symm

/-! ### Terms -/

theorem eqF : IsEqv (fun a b : F => decide (a = b)) :=
  ⟨by simp, fun a b h => by simpa using (by simpa using h : a = b).symm, by simp⟩

theorem Term.mem_of {l : List F} {f : F} : f ∈ (Term.of l).factors ↔ f ∈ l := by
  have := covers_uniqueify eqF (l := l) (x := f)
  simpa [Covers, Term.of] using this

theorem Term.nodup_of (l : List F) : (Term.of l).factors.Nodup := by
  have := uniqueify_pairwise (eqv := fun a b : F => decide (a = b)) l
  unfold List.Nodup
  refine List.Pairwise.imp ?_ this
  intro a b h; simpa using h

theorem Term.eqv_iff {s t : Term F} : Term.eqv s t = true ↔ ∀ f, f ∈ s.factors ↔ f ∈ t.factors := by
  simp only [Term.eqv, Bool.and_eq_true, List.all_eq_true, decide_eq_true_eq]
  constructor
  · rintro ⟨h1, h2⟩ f; exact ⟨h1 f, h2 f⟩
  · intro h; exact ⟨fun f => (h f).mp, fun f => (h f).mpr⟩

theorem eqvT : IsEqv (Term.eqv (F := F)) := by
  refine ⟨?_, ?_, ?_⟩
  · intro a; rw [Term.eqv_iff]; simp
  · intro a b; simp only [Term.eqv_iff]; intro h f; exact (h f).symm
  · intro a b c; simp only [Term.eqv_iff]; intro h1 h2 f; exact (h1 f).trans (h2 f)

theorem Term.of_append_of_left (a b : List F) : Term.of ((Term.of a).factors ++ b) = Term.of (a ++ b) := by
  simp only [Term.of, uniqueify_append_left eqF]

theorem Term.of_append_of_right (a b : List F) : Term.of (a ++ (Term.of b).factors) = Term.of (a ++ b) := by
  simp only [Term.of, uniqueify_append_right eqF]

/-! ### Intermediate expressions -/

theorem IExpr.of_ok {i r : Bool} {o : Option Origin} {ts : List (Term F)} {e : IExpr F} :
    IExpr.of i o r ts = .ok e ↔
      (i = true → o ≠ none) ∧ (i = true → r = false) ∧ e = ⟨i, o, r, uniqueify Term.eqv ts⟩ := by
  unfold IExpr.of
  by_cases h1 : i = true ∧ o = none
  · simp [h1]
  · by_cases h2 : i = true ∧ r = true
    · simp [h1, h2]
    · rw [if_neg h1, if_neg h2]
      simp only [Except.ok.injEq]
      constructor
      · rintro rfl
        refine ⟨fun hi ho => h1 ⟨hi, ho⟩, fun hi => ?_, rfl⟩
        cases r
        · rfl
        · exact absurd ⟨hi, rfl⟩ h2
      · rintro ⟨_, _, rfl⟩; rfl

/-- Facts that hold of every intermediate expression. -/
structure Good (e : IExpr F) : Prop where
  origin : e.intercept = true → e.interceptOrigin ≠ none
  removed : e.intercept = true → e.interceptRemoved = false
  distinct : e.terms.Pairwise fun s t => Term.eqv s t = false
  nodup : ∀ t ∈ e.terms, t.factors.Nodup
  nonempty : ∀ t ∈ e.terms, t.factors ≠ []

/-- Terms that may be put into an expression. -/
def TermsOk (ts : List (Term F)) : Prop := ∀ t ∈ ts, t.factors.Nodup ∧ t.factors ≠ []

theorem Good.termsOk {e : IExpr F} (h : Good e) : TermsOk e.terms :=
  fun t ht => ⟨h.nodup t ht, h.nonempty t ht⟩

theorem good_of {i r : Bool} {o : Option Origin} {ts : List (Term F)} {e : IExpr F}
    (h : IExpr.of i o r ts = .ok e) (ht : TermsOk ts) : Good e := by
  obtain ⟨h1, h2, rfl⟩ := IExpr.of_ok.mp h
  refine ⟨h1, h2, uniqueify_pairwise _, ?_, ?_⟩
  · intro t hm; exact (ht t ((uniqueify_sublist _).subset hm)).1
  · intro t hm; exact (ht t ((uniqueify_sublist _).subset hm)).2

theorem TermsOk.append {a b : List (Term F)} (ha : TermsOk a) (hb : TermsOk b) : TermsOk (a ++ b) := by
  intro t ht
  rcases List.mem_append.mp ht with h | h
  · exact ha t h
  · exact hb t h

theorem TermsOk.products {a b : List (Term F)} (hb : TermsOk b) : TermsOk (products a b) := by
  intro t ht
  simp only [Desc.products, List.mem_flatMap, List.mem_map] at ht
  obtain ⟨l, _, r, hr, rfl⟩ := ht
  refine ⟨Term.nodup_of _, ?_⟩
  intro h
  have := (hb r hr).2
  cases hf : r.factors with
  | nil => exact this hf
  | cons x xs =>
    have : x ∈ (Term.of (l.factors ++ r.factors)).factors := by rw [Term.mem_of, hf]; simp
    rw [h] at this; simp at this

theorem TermsOk.nil : TermsOk ([] : List (Term F)) := by intro t ht; simp at ht

theorem checkInteractable_ok {e : IExpr F} {u : Unit} :
    checkInteractable e = .ok u ↔ e.intercept = false := by
  unfold checkInteractable
  cases e.intercept <;> simp

theorem interaction_ok {l r e : IExpr F} : interaction l r = .ok e ↔
    l.intercept = false ∧ r.intercept = false ∧
      e = ⟨false, none, false, uniqueify Term.eqv (products l.terms r.terms)⟩ := by
  unfold interaction
  simp only [bind_ok, checkInteractable_ok, IExpr.of_ok]
  simp

theorem checkInteractable_err {e : IExpr F} {err : Err} (h : checkInteractable e = .error err) :
    err = .patsyError := by
  unfold checkInteractable at h
  split at h <;> simp at h
  exact h.symm

theorem interaction_err {l r : IExpr F} {err : Err} (h : interaction l r = .error err) :
    err = .patsyError := by
  unfold interaction at h
  simp only [bind_err] at h
  rcases h with h | ⟨_, _, h | ⟨_, _, h⟩⟩
  · exact checkInteractable_err h
  · exact checkInteractable_err h
  · simp [IExpr.of] at h

theorem good_interaction {l r e : IExpr F} (hr : Good r) (h : interaction l r = .ok e) : Good e := by
  obtain ⟨_, _, rfl⟩ := interaction_ok.mp h
  refine good_of (i := false) (o := none) (r := false) (ts := products l.terms r.terms) ?_
    (TermsOk.products hr.termsOk)
  simp [IExpr.of]

theorem powerLoop_ok {left : IExpr F} (hl : Good left) (n : Nat) {big : IExpr F} (hb : Good big)
    (hbi : big.intercept = false) (hli : left.intercept = false) {all : List (Term F)} (ha : TermsOk all) :
    ∃ r, powerLoop left n big all = .ok r ∧ TermsOk r := by
  induction n generalizing big all with
  | zero => exact ⟨all, rfl, ha⟩
  | succ n ih =>
    have hi : interaction left big = .ok ⟨false, none, false, uniqueify Term.eqv (products left.terms big.terms)⟩ :=
      interaction_ok.mpr ⟨hli, hbi, rfl⟩
    have hg := good_interaction hb hi
    obtain ⟨r, h1, h2⟩ := ih hg rfl (ha.append hg.termsOk)
    refine ⟨r, ?_, h2⟩
    rw [powerLoop, hi]
    exact h1

theorem evalPower_cases {l : IExpr F} (hl : Good l) (p : Int) :
    evalPower l p = .error .patsyError ∨
      (l.intercept = false ∧ 1 ≤ p ∧ ∃ all e, powerLoop l (min l.terms.length p.toNat - 1) l l.terms = .ok all ∧
        evalPower l p = .ok e ∧ e = ⟨false, none, false, uniqueify Term.eqv all⟩ ∧ Good e) := by
  by_cases hi : l.intercept = true
  · left; simp [evalPower, checkInteractable, hi, bind, Except.bind]
  · have hi : l.intercept = false := by simpa using hi
    by_cases hp : p < 1
    · left; simp [evalPower, checkInteractable, hi, hp, bind, Except.bind]
    · right
      obtain ⟨all, h1, h2⟩ := powerLoop_ok hl (min l.terms.length p.toNat - 1) hl hi hi hl.termsOk
      refine ⟨hi, by omega, all, _, h1, ?_, rfl, good_of (IExpr.of_ok.mpr ⟨by simp, by simp, rfl⟩) h2⟩
      simp [evalPower, checkInteractable, hi, hp, bind, Except.bind, h1, IExpr.of]

theorem evalPlus_cases {l r : IExpr F} (hl : Good l) (hr : Good r) :
    ∃ e, evalPlus l r = .ok e ∧ Good e ∧
      e.terms = uniqueify Term.eqv (l.terms ++ r.terms) ∧
      e.intercept = (r.intercept || l.intercept) ∧
      e.interceptRemoved = (!r.intercept && l.interceptRemoved) := by
  unfold evalPlus
  cases hri : r.intercept with
  | true =>
    have h : IExpr.of true r.interceptOrigin false (l.terms ++ r.terms) =
        .ok ⟨true, r.interceptOrigin, false, uniqueify Term.eqv (l.terms ++ r.terms)⟩ :=
      IExpr.of_ok.mpr ⟨fun _ => hr.origin hri, by simp, rfl⟩
    exact ⟨_, by simpa using h, good_of h (hl.termsOk.append hr.termsOk), rfl, rfl, rfl⟩
  | false =>
    have h : IExpr.of l.intercept l.interceptOrigin l.interceptRemoved (l.terms ++ r.terms) =
        .ok ⟨l.intercept, l.interceptOrigin, l.interceptRemoved, uniqueify Term.eqv (l.terms ++ r.terms)⟩ :=
      IExpr.of_ok.mpr ⟨hl.origin, hl.removed, rfl⟩
    exact ⟨_, by simpa using h, good_of h (hl.termsOk.append hr.termsOk), rfl, by simp, by simp⟩

theorem evalMinus_cases {l r : IExpr F} (hl : Good l) :
    ∃ e, evalMinus l r = .ok e ∧ Good e ∧
      e.terms = (l.terms.filter fun t => !(r.terms.any fun u => Term.eqv u t)) ∧
      e.intercept = (!r.intercept && l.intercept) ∧
      e.interceptRemoved = (r.intercept || l.interceptRemoved) := by
  unfold evalMinus
  have hu : uniqueify Term.eqv (l.terms.filter fun t => !(r.terms.any fun u => Term.eqv u t)) =
      (l.terms.filter fun t => !(r.terms.any fun u => Term.eqv u t)) :=
    uniqueify_eq_self (hl.distinct.filter _)
  have hok : TermsOk (l.terms.filter fun t => !(r.terms.any fun u => Term.eqv u t)) :=
    fun t ht => hl.termsOk t (List.mem_filter.mp ht).1
  cases hri : r.intercept with
  | true =>
    have h : IExpr.of false none true (l.terms.filter fun t => !(r.terms.any fun u => Term.eqv u t)) =
        .ok ⟨false, none, true, _⟩ := IExpr.of_ok.mpr ⟨by simp, by simp, rfl⟩
    exact ⟨_, by simpa using h, good_of h hok, hu, rfl, rfl⟩
  | false =>
    have h : IExpr.of l.intercept l.interceptOrigin l.interceptRemoved
        (l.terms.filter fun t => !(r.terms.any fun u => Term.eqv u t)) =
        .ok ⟨l.intercept, l.interceptOrigin, l.interceptRemoved, _⟩ :=
      IExpr.of_ok.mpr ⟨hl.origin, hl.removed, rfl⟩
    exact ⟨_, by simpa using h, good_of h hok, hu, by simp, by simp⟩

theorem evalProd_ok {l r e : IExpr F} : evalProd l r = .ok e ↔
    l.intercept = false ∧ r.intercept = false ∧
      e = ⟨false, none, false, uniqueify Term.eqv (l.terms ++ r.terms ++ products l.terms r.terms)⟩ := by
  unfold evalProd
  simp only [bind_ok, interaction_ok, IExpr.of_ok]
  constructor
  · rintro ⟨i, ⟨h1, h2, rfl⟩, _, _, rfl⟩
    exact ⟨h1, h2, by rw [uniqueify_append_right eqvT]⟩
  · rintro ⟨h1, h2, rfl⟩
    exact ⟨_, ⟨h1, h2, rfl⟩, by simp, by simp, by rw [uniqueify_append_right eqvT]⟩

theorem evalDiv_ok {l r e : IExpr F} : evalDiv l r = .ok e ↔
    l.intercept = false ∧ r.intercept = false ∧
      e = ⟨false, none, false, uniqueify Term.eqv
        (l.terms ++ products [Term.of (l.terms.flatMap (·.factors))] r.terms)⟩ := by
  have h1 : uniqueify Term.eqv [Term.of (l.terms.flatMap (·.factors))] = [Term.of (l.terms.flatMap (·.factors))] :=
    uniqueify_eq_self (by simp)
  unfold evalDiv
  simp only [bind_ok, interaction_ok, IExpr.of_ok, checkInteractable_ok]
  constructor
  · rintro ⟨_, h1', c, ⟨_, _, rfl⟩, i, ⟨_, h2, rfl⟩, _, _, rfl⟩
    exact ⟨h1', h2, by rw [uniqueify_append_right eqvT, h1]⟩
  · rintro ⟨h1', h2, rfl⟩
    refine ⟨(), h1', _, ⟨by simp, by simp, rfl⟩, _, ⟨rfl, h2, rfl⟩, by simp, by simp, ?_⟩
    rw [uniqueify_append_right eqvT, h1]

theorem evalProd_err {l r : IExpr F} {err : Err} (h : evalProd l r = .error err) : err = .patsyError := by
  unfold evalProd at h
  simp only [bind_err] at h
  rcases h with h | ⟨_, _, h⟩
  · exact interaction_err h
  · simp [IExpr.of] at h

theorem evalDiv_err {l r : IExpr F} {err : Err} (h : evalDiv l r = .error err) : err = .patsyError := by
  unfold evalDiv at h
  simp only [bind_err] at h
  rcases h with h | ⟨_, _, h | ⟨_, _, h | ⟨_, _, h⟩⟩⟩
  · exact checkInteractable_err h
  · simp [IExpr.of] at h
  · exact interaction_err h
  · simp [IExpr.of] at h

variable (mkFactor : String → Except Err F) (toInt : String → Option Int)

theorem simple_ok {i r : Bool} {o : Option Origin} {ts : List (Term F)}
    (h1 : i = true → o ≠ none) (h2 : i = true → r = false) :
    IExpr.of i o r ts = .ok ⟨i, o, r, uniqueify Term.eqv ts⟩ := IExpr.of_ok.mpr ⟨h1, h2, rfl⟩

/-- Errors evaluation may raise. -/
def AllowedErr (n : Node String (Option String)) (err : Err) : Prop :=
  err = .patsyError ∨ (err = .typeError ∧ Spec.HasExpr n none) ∨
    ∃ code, Spec.HasExpr n (some code) ∧ mkFactor code = .error err

theorem AllowedErr.lift {mkFactor : String → Except Err F} {n m : Node String (Option String)} {err : Err}
    (h : AllowedErr mkFactor n err) (hs : ∀ c, Spec.HasExpr n c → Spec.HasExpr m c) : AllowedErr mkFactor m err := by
  rcases h with h | ⟨h, h'⟩ | ⟨c, h, h'⟩
  · exact .inl h
  · exact .inr (.inl ⟨h, hs _ h'⟩)
  · exact .inr (.inr ⟨c, hs _ h, h'⟩)

/-- The main invariant of the evaluator. -/
theorem eval_spec (n : Node String (Option String)) :
    (∀ e, eval mkFactor toInt n = .ok (.expr e) → Good e) ∧
    (∀ err, eval mkFactor toInt n = .error err → AllowedErr mkFactor n err) := by
  induction n with
  | atom t o =>
    rw [eval]
    split
    · refine ⟨?_, ?_⟩
      · intro e h
        simp only [bind_ok, pure_ok] at h
        obtain ⟨e', h1, h2⟩ := h
        simp only [Val.expr.injEq] at h2; subst h2
        exact good_of h1 .nil
      · intro err h
        simp [bind, Except.bind, pure, Except.pure, IExpr.of] at h
    · refine ⟨?_, ?_⟩
      · intro e h
        simp only [bind_ok, pure_ok] at h
        obtain ⟨e', h1, h2⟩ := h
        simp only [Val.expr.injEq] at h2; subst h2
        exact good_of h1 .nil
      · intro err h
        simp [bind, Except.bind, pure, Except.pure, IExpr.of] at h
    · refine ⟨by simp, ?_⟩
      intro err h; simp at h; exact Or.inl h.symm
    · rename_i hk
      split
      · rename_i code hcode
        refine ⟨?_, ?_⟩
        · intro e h
          simp only [bind_ok, pure_ok] at h
          obtain ⟨f, _, e', h1, h2⟩ := h
          simp only [Val.expr.injEq] at h2; subst h2
          refine good_of h1 ?_
          intro t ht
          simp only [List.mem_singleton] at ht
          subst ht
          refine ⟨Term.nodup_of _, ?_⟩
          intro hh
          have : f ∈ (Term.of [f]).factors := Term.mem_of.mpr (by simp)
          rw [hh] at this; simp at this
        · intro err h
          simp only [bind_err, pure_err] at h
          rcases h with h | ⟨f, _, h⟩
          · exact Or.inr (Or.inr ⟨code, ⟨hk, hcode⟩, h⟩)
          · simp [IExpr.of] at h
      · rename_i hcode
        refine ⟨by simp, ?_⟩
        intro err h; simp at h; exact Or.inr (Or.inl ⟨h.symm, hk, hcode⟩)
    · refine ⟨by simp, ?_⟩
      intro err h; simp at h; exact Or.inl h.symm
  | unary t a o ih =>
    obtain ⟨ih1, ih2⟩ := ih
    have hreq : ∀ err, requireExpr (eval mkFactor toInt a) = .error err → AllowedErr mkFactor (.unary t a o) err := by
      intro err h
      rcases requireExpr_err h with h | h
      · exact Or.inl h
      · exact (ih2 err h).lift fun _ h => h
    rw [eval]
    split
    · refine ⟨?_, ?_⟩
      · intro e h
        simp only [bind_ok, pure_ok] at h
        obtain ⟨_, _, _, _, h⟩ := h
        simp at h
      · intro err h
        simp only [bind_err, pure_err] at h
        rcases h with h | ⟨_, _, h⟩
        · exact hreq err h
        · simp [IExpr.of] at h
    · refine ⟨?_, ?_⟩
      · intro e h
        simp only [bind_ok, pure_ok, requireExpr_ok] at h
        obtain ⟨e', h1, h2⟩ := h
        simp only [Val.expr.injEq] at h2; subst h2
        exact ih1 e' h1
      · intro err h
        simp only [bind_err, pure_err] at h
        rcases h with h | ⟨_, _, h⟩
        · exact hreq err h
        · exact h.elim
    · split
      · refine ⟨?_, ?_⟩
        · intro e h
          simp only [bind_ok, pure_ok] at h
          obtain ⟨e', h1, h2⟩ := h
          simp only [Val.expr.injEq] at h2; subst h2
          exact good_of h1 .nil
        · intro err h
          simp [bind, Except.bind, pure, Except.pure, IExpr.of] at h
      · split
        · refine ⟨?_, ?_⟩
          · intro e h
            simp only [bind_ok, pure_ok] at h
            obtain ⟨e', h1, h2⟩ := h
            simp only [Val.expr.injEq] at h2; subst h2
            exact good_of h1 .nil
          · intro err h
            simp [bind, Except.bind, pure, Except.pure, IExpr.of] at h
        · refine ⟨by simp, ?_⟩
          intro err h; simp at h; exact Or.inl h.symm
    · refine ⟨by simp, ?_⟩
      intro err h; simp at h; exact Or.inl h.symm
  | binary t a b o iha ihb =>
    obtain ⟨ia1, ia2⟩ := iha
    obtain ⟨ib1, ib2⟩ := ihb
    have hreqa : ∀ err, requireExpr (eval mkFactor toInt a) = .error err → AllowedErr mkFactor (.binary t a b o) err := by
      intro err h
      rcases requireExpr_err h with h | h
      · exact Or.inl h
      · exact (ia2 err h).lift fun _ h => .inl h
    have hreqb : ∀ err, requireExpr (eval mkFactor toInt b) = .error err → AllowedErr mkFactor (.binary t a b o) err := by
      intro err h
      rcases requireExpr_err h with h | h
      · exact Or.inl h
      · exact (ib2 err h).lift fun _ h => .inr h
    rw [eval]
    split
    · -- ~
      refine ⟨?_, ?_⟩
      · intro e h
        simp only [bind_ok, pure_ok] at h
        obtain ⟨_, _, _, _, h⟩ := h
        simp at h
      · intro err h
        simp only [bind_err, pure_err] at h
        rcases h with h | ⟨_, _, h | ⟨_, _, h⟩⟩
        · exact hreqa err h
        · exact hreqb err h
        · exact h.elim
    · -- +
      refine ⟨?_, ?_⟩
      · intro e h
        simp only [bind_ok, requireExpr_ok] at h
        obtain ⟨l, hl, h⟩ := h
        have gl := ia1 l hl
        split at h
        · simp only [bind_ok, pure_ok] at h
          obtain ⟨e', h1, h2⟩ := h
          simp only [Val.expr.injEq] at h2; subst h2
          exact good_of h1 gl.termsOk
        · simp only [bind_ok, pure_ok, requireExpr_ok] at h
          obtain ⟨r, hr, e', h1, h2⟩ := h
          simp only [Val.expr.injEq] at h2; subst h2
          obtain ⟨e'', k1, k2, _⟩ := evalPlus_cases gl (ib1 r hr)
          rw [k1] at h1; simp only [Except.ok.injEq] at h1; subst h1; exact k2
      · intro err h
        simp only [bind_err] at h
        rcases h with h | ⟨l, hl, h⟩
        · exact hreqa err h
        · have gl := ia1 l (requireExpr_ok.mp hl)
          split at h
          · simp [bind, Except.bind, pure, Except.pure, IExpr.of] at h
          · simp only [bind_err, pure_err] at h
            rcases h with h | ⟨r, hr, h | ⟨_, _, h⟩⟩
            · exact hreqb err h
            · obtain ⟨e'', k1, k2, _⟩ := evalPlus_cases gl (ib1 r (requireExpr_ok.mp hr))
              rw [k1] at h; simp at h
            · exact h.elim
    · -- -
      refine ⟨?_, ?_⟩
      · intro e h
        simp only [bind_ok, requireExpr_ok] at h
        obtain ⟨l, hl, h⟩ := h
        have gl := ia1 l hl
        split at h
        · simp only [bind_ok, pure_ok] at h
          obtain ⟨e', h1, h2⟩ := h
          simp only [Val.expr.injEq] at h2; subst h2
          exact good_of h1 gl.termsOk
        · split at h
          · simp only [bind_ok, pure_ok] at h
            obtain ⟨e', h1, h2⟩ := h
            simp only [Val.expr.injEq] at h2; subst h2
            exact good_of h1 gl.termsOk
          · simp only [bind_ok, pure_ok, requireExpr_ok] at h
            obtain ⟨r, hr, e', h1, h2⟩ := h
            simp only [Val.expr.injEq] at h2; subst h2
            obtain ⟨e'', k1, k2, _⟩ := evalMinus_cases (r := r) gl
            rw [k1] at h1; simp only [Except.ok.injEq] at h1; subst h1; exact k2
      · intro err h
        simp only [bind_err] at h
        rcases h with h | ⟨l, hl, h⟩
        · exact hreqa err h
        · have gl := ia1 l (requireExpr_ok.mp hl)
          split at h
          · simp [bind, Except.bind, pure, Except.pure, IExpr.of] at h
          · split at h
            · simp [bind, Except.bind, pure, Except.pure, IExpr.of] at h
            · simp only [bind_err, pure_err] at h
              rcases h with h | ⟨r, hr, h | ⟨_, _, h⟩⟩
              · exact hreqb err h
              · obtain ⟨e'', k1, k2, _⟩ := evalMinus_cases (r := r) gl
                rw [k1] at h; simp at h
              · exact h.elim
    · -- *
      refine ⟨?_, ?_⟩
      · intro e h
        simp only [bind_ok, pure_ok, requireExpr_ok] at h
        obtain ⟨l, hl, r, hr, e', h1, h2⟩ := h
        simp only [Val.expr.injEq] at h2; subst h2
        obtain ⟨_, _, rfl⟩ := evalProd_ok.mp h1
        refine good_of (simple_ok (by simp) (by simp)) ?_
        exact ((ia1 l hl).termsOk.append (ib1 r hr).termsOk).append (TermsOk.products (ib1 r hr).termsOk)
      · intro err h
        simp only [bind_err, pure_err] at h
        rcases h with h | ⟨_, _, h | ⟨_, _, h | ⟨_, _, h⟩⟩⟩
        · exact hreqa err h
        · exact hreqb err h
        · exact Or.inl (evalProd_err h)
        · exact h.elim
    · -- /
      refine ⟨?_, ?_⟩
      · intro e h
        simp only [bind_ok, pure_ok, requireExpr_ok] at h
        obtain ⟨l, hl, r, hr, e', h1, h2⟩ := h
        simp only [Val.expr.injEq] at h2; subst h2
        obtain ⟨_, _, rfl⟩ := evalDiv_ok.mp h1
        refine good_of (simple_ok (by simp) (by simp)) ?_
        exact (ia1 l hl).termsOk.append (TermsOk.products (ib1 r hr).termsOk)
      · intro err h
        simp only [bind_err, pure_err] at h
        rcases h with h | ⟨_, _, h | ⟨_, _, h | ⟨_, _, h⟩⟩⟩
        · exact hreqa err h
        · exact hreqb err h
        · exact Or.inl (evalDiv_err h)
        · exact h.elim
    · -- :
      refine ⟨?_, ?_⟩
      · intro e h
        simp only [bind_ok, pure_ok, requireExpr_ok] at h
        obtain ⟨l, hl, r, hr, e', h1, h2⟩ := h
        simp only [Val.expr.injEq] at h2; subst h2
        exact good_interaction (ib1 r hr) h1
      · intro err h
        simp only [bind_err, pure_err] at h
        rcases h with h | ⟨_, _, h | ⟨_, _, h | ⟨_, _, h⟩⟩⟩
        · exact hreqa err h
        · exact hreqb err h
        · exact Or.inl (interaction_err h)
        · exact h.elim
    · -- **
      refine ⟨?_, ?_⟩
      · intro e h
        simp only [bind_ok, pure_ok, requireExpr_ok] at h
        obtain ⟨l, hl, e', h1, h2⟩ := h
        simp only [Val.expr.injEq] at h2; subst h2
        rcases evalPower_cases (ia1 l hl) (exponent toInt b) with h | ⟨_, _, _, e'', _, h, _, hg⟩
        · rw [h] at h1; simp at h1
        · rw [h] at h1; simp only [Except.ok.injEq] at h1; subst h1; exact hg
      · intro err h
        simp only [bind_err, pure_err] at h
        rcases h with h | ⟨l, hl, h | ⟨_, _, h⟩⟩
        · exact hreqa err h
        · rcases evalPower_cases (ia1 l (requireExpr_ok.mp hl)) (exponent toInt b) with h' | ⟨_, _, _, e'', _, h', _, hg⟩
          · rw [h'] at h; simp at h; exact Or.inl h.symm
          · rw [h'] at h; simp at h
        · exact h.elim
    · refine ⟨by simp, ?_⟩
      intro err h; simp at h; exact Or.inl h.symm

end Patsy.Desc
