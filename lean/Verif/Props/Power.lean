import Verif.Props.Desc

/-! # C10: the power operator -/

set_option linter.unusedSectionVars false

namespace Patsy.Props

open Patsy.Infix Patsy.Desc Patsy.Spec Patsy.Util

variable {F : Type} [DecidableEq F] (mkFactor : String → Except Err F) (toInt : String → Option Int)

/-- `a * a * … * a` with `n + 1` factors, associated to the left as the parser does. -/
def times (a : Tree) : Nat → Tree
  | 0 => a
  | n + 1 => op "*" (times a n) a

/-- `P S k`: the interactions of `k + 1` terms, without removal of duplicates. -/
def P (S : List (Term F)) : Nat → List (Term F)
  | 0 => S
  | k + 1 => products S (P S k)

/-- `P S 0 ++ … ++ P S n`. -/
def upTo (S : List (Term F)) : Nat → List (Term F)
  | 0 => P S 0
  | n + 1 => upTo S n ++ P S (n + 1)

theorem products_assoc (A B C : List (Term F)) :
    products (products A B) C = products A (products B C) := by
  simp only [products, List.flatMap_assoc, List.flatMap_map, List.map_flatMap, List.map_map]
  congr 1; funext a; congr 1; funext b
  apply List.map_congr_left
  intro c _
  simp only [Function.comp]
  rw [Term.of_append_of_left, Term.of_append_of_right, List.append_assoc]

theorem products_P (S : List (Term F)) (k : Nat) : products (P S k) S = P S (k + 1) := by
  induction k with
  | zero => rfl
  | succ k ih => rw [P, products_assoc, ih]; rfl

theorem products_append_left (A B C : List (Term F)) :
    products (A ++ B) C = products A C ++ products B C := by
  simp [products]

theorem eqv_of_append {a a' b b' : Term F} (h1 : Term.eqv a a' = true) (h2 : Term.eqv b b' = true) :
    Term.eqv (Term.of (a.factors ++ b.factors)) (Term.of (a'.factors ++ b'.factors)) = true := by
  rw [Term.eqv_iff] at *
  intro f
  rw [Term.mem_of, Term.mem_of, List.mem_append, List.mem_append, h1 f, h2 f]

theorem red_products_left {A A' : List (Term F)} (h : Red Term.eqv [] A A') (C seen : List (Term F)) :
    Red Term.eqv seen (products A C) (products A' C) := by
  refine Red.flatMap eqvT ?_ h seen ?_
  · intro x y hxy b hb
    simp only [List.mem_map] at hb
    obtain ⟨c, hc, rfl⟩ := hb
    exact ⟨_, List.mem_map.mpr ⟨c, hc, rfl⟩, eqv_of_append hxy (eqvT.refl c)⟩
  · rintro x ⟨y, hy, _⟩; simp at hy

theorem red_products_right (A : List (Term F)) {C C' : List (Term F)} (h : Red Term.eqv [] C C')
    (seen : List (Term F)) : Red Term.eqv seen (products A C) (products A C') := by
  induction A generalizing seen with
  | nil => exact .nil _
  | cons a A ih =>
    simp only [products, List.flatMap_cons]
    refine Red.append ?_ (ih _) eqvT
    refine Red.map eqvT (fun x y hxy => eqv_of_append (eqvT.refl a) hxy) h seen ?_
    rintro x ⟨y, hy, _⟩; simp at hy

theorem uniq_products (A C : List (Term F)) :
    uniqueify Term.eqv (products (uniqueify Term.eqv A) C) = uniqueify Term.eqv (products A C) :=
  ((red_products_left (red_uniqueify [] A) C []).uniqueify_eq eqvT).symm

theorem uniq_products_right (A C : List (Term F)) :
    uniqueify Term.eqv (products A (uniqueify Term.eqv C)) = uniqueify Term.eqv (products A C) :=
  ((red_products_right A (red_uniqueify [] C) []).uniqueify_eq eqvT).symm

/-! ### The loop of the code -/

theorem powerLoop_terms {left : IExpr F} (hl : left.intercept = false) (n : Nat) :
    ∀ (k : Nat) (big : IExpr F) (all : List (Term F)), big.intercept = false →
      uniqueify Term.eqv big.terms = uniqueify Term.eqv (P left.terms k) →
      uniqueify Term.eqv all = uniqueify Term.eqv (upTo left.terms k) →
      ∃ r, powerLoop left n big all = .ok r ∧
        uniqueify Term.eqv r = uniqueify Term.eqv (upTo left.terms (k + n)) := by
  induction n with
  | zero => intro k big all _ _ h; exact ⟨all, rfl, h⟩
  | succ n ih =>
    intro k big all hb h1 h2
    have hi := interaction_ok.mpr ⟨hl, hb, rfl⟩
    have hP : uniqueify Term.eqv (products left.terms big.terms) = uniqueify Term.eqv (P left.terms (k + 1)) := by
      rw [← uniq_products_right, h1, uniq_products_right]; rfl
    obtain ⟨r, r1, r2⟩ := ih (k + 1) ⟨false, none, false, uniqueify Term.eqv (products left.terms big.terms)⟩
      (all ++ uniqueify Term.eqv (products left.terms big.terms)) rfl
      (by show uniqueify Term.eqv (uniqueify Term.eqv _) = _; rw [uniqueify_idem eqvT, hP])
      (by
        rw [uniqueify_append_right eqvT, ← uniqueify_append_left eqvT, h2, uniqueify_append_left eqvT,
          ← uniqueify_append_right eqvT, hP, uniqueify_append_right eqvT]
        rfl)
    refine ⟨r, ?_, ?_⟩
    · rw [powerLoop, hi]; exact r1
    · rw [r2]; congr 2; omega

/-! ### The cut-off -/

theorem mem_P {S : List (Term F)} {k : Nat} {t : Term F} (h : t ∈ P S k) :
    ∃ l : List (Term F), l.length = k + 1 ∧ (∀ s ∈ l, s ∈ S) ∧
      ∀ f, f ∈ t.factors ↔ ∃ s ∈ l, f ∈ s.factors := by
  induction k generalizing t with
  | zero => exact ⟨[t], rfl, by simpa [P] using h, by simp⟩
  | succ k ih =>
    simp only [P, products, List.mem_flatMap, List.mem_map] at h
    obtain ⟨s, hs, u, hu, rfl⟩ := h
    obtain ⟨l, h1, h2, h3⟩ := ih hu
    refine ⟨s :: l, by simp [h1], ?_, ?_⟩
    · intro x hx
      rcases List.mem_cons.mp hx with rfl | hx
      · exact hs
      · exact h2 x hx
    · intro f; rw [Term.mem_of, List.mem_append, h3 f]; simp

theorem covers_P {S : List (Term F)} {k : Nat} (l : List (Term F)) (h1 : l.length = k + 1)
    (h2 : ∀ s ∈ l, s ∈ S) {t : Term F} (h3 : ∀ f, f ∈ t.factors ↔ ∃ s ∈ l, f ∈ s.factors) :
    Covers Term.eqv (P S k) t := by
  induction k generalizing l t with
  | zero =>
    match l, h1 with
    | [s], _ =>
      refine ⟨s, h2 s (by simp), ?_⟩
      rw [Term.eqv_iff]; intro f; rw [h3 f]; simp
  | succ k ih =>
    match l, h1 with
    | s :: l, h1 =>
      obtain ⟨u, hu, he⟩ := ih (t := ⟨l.flatMap (·.factors)⟩) l (by simpa using h1)
        (fun x hx => h2 x (by simp [hx])) (by intro f; simp)
      refine ⟨Term.of (s.factors ++ u.factors), ?_, ?_⟩
      · simp only [P, products, List.mem_flatMap, List.mem_map]
        exact ⟨s, h2 s (by simp), u, hu, rfl⟩
      · rw [Term.eqv_iff] at *
        intro f
        rw [Term.mem_of, List.mem_append, he f, h3 f]; simp

/-- Pigeonhole: a long list over a short one repeats itself. -/
theorem repeats {α : Type} [DecidableEq α] {l S : List α} (hs : ∀ x ∈ l, x ∈ S)
    (hl : S.length < l.length) : ∃ a x b, l = a ++ x :: b ∧ x ∈ b := by
  have hn : ¬ l.Nodup := fun h => by
    have := h.length_le_of_subset (fun x hx => hs x hx); omega
  clear hs hl
  induction l with
  | nil => simp at hn
  | cons x l ih =>
    by_cases hx : x ∈ l
    · exact ⟨[], x, l, rfl, hx⟩
    · obtain ⟨a, y, b, rfl, hy⟩ := ih (fun h => hn (List.nodup_cons.mpr ⟨hx, h⟩))
      exact ⟨x :: a, y, b, rfl, hy⟩

theorem P_covered {S : List (Term F)} {k : Nat} (hk : S.length ≤ k + 1) {t : Term F}
    (ht : t ∈ P S (k + 1)) : Covers Term.eqv (P S k) t := by
  obtain ⟨l, h1, h2, h3⟩ := mem_P ht
  obtain ⟨a, x, b, rfl, hx⟩ := repeats h2 (by omega)
  refine covers_P (a ++ b) (by simp at h1 ⊢; omega) (fun s hs => h2 s ?_) (fun f => ?_)
  · rcases List.mem_append.mp hs with h | h <;> simp [h]
  · rw [h3 f]
    constructor
    · rintro ⟨s, hs, hf⟩
      rcases List.mem_append.mp hs with h | h
      · exact ⟨s, by simp [h], hf⟩
      · rcases List.mem_cons.mp h with rfl | h
        · exact ⟨s, by simp [hx], hf⟩
        · exact ⟨s, by simp [h], hf⟩
    · rintro ⟨s, hs, hf⟩
      rcases List.mem_append.mp hs with h | h <;> exact ⟨s, by simp [h], hf⟩

theorem P_sub_upTo (S : List (Term F)) (n : Nat) {t : Term F} (h : t ∈ P S n) : t ∈ upTo S n := by
  cases n with
  | zero => exact h
  | succ n => simp [upTo, h]

theorem upTo_stable (S : List (Term F)) (n d : Nat) (hn : S.length ≤ n + 1) :
    uniqueify Term.eqv (upTo S (n + d)) = uniqueify Term.eqv (upTo S n) := by
  induction d with
  | zero => rfl
  | succ d ih =>
    rw [← ih, ← Nat.add_assoc, upTo]
    have hr : Red Term.eqv [] (upTo S (n + d) ++ P S (n + d + 1)) (upTo S (n + d) ++ []) := by
      refine (Red.refl [] _).append (Red.drop_all ?_) eqvT
      intro t ht
      have := P_covered (k := n + d) (by omega) ht
      exact this.mono (fun x hx => by simp [P_sub_upTo S _ hx])
    rw [hr.uniqueify_eq eqvT, List.append_nil]

/-! ### The product -/

theorem S_sub_upTo (S : List (Term F)) (n : Nat) {t : Term F} (h : t ∈ S) : t ∈ upTo S n := by
  induction n with
  | zero => exact h
  | succ n ih => simp [upTo, ih]

theorem products_upTo_sub (S : List (Term F)) (m : Nat) :
    ∀ t ∈ products (upTo S m) S, t ∈ upTo S (m + 1) := by
  induction m with
  | zero => intro t ht; rw [upTo, products_P] at ht; simp [upTo, ht]
  | succ m ihm =>
    intro t ht
    rw [upTo, products_append_left, products_P, List.mem_append] at ht
    rw [upTo, List.mem_append]
    rcases ht with h | h
    · exact Or.inl (ihm t h)
    · exact Or.inr h

/-- Everything but the last block of the product repeats what is already there. -/
theorem red_prod_upTo (S : List (Term F)) (n : Nat) :
    Red Term.eqv (upTo S n) (S ++ products (upTo S n) S) ([] ++ P S (n + 1)) := by
  have h1 : Red Term.eqv (upTo S n) S [] :=
    Red.drop_all fun t ht => ⟨t, S_sub_upTo S n ht, eqvT.refl t⟩
  refine h1.append ?_ eqvT
  cases n with
  | zero => rw [upTo, products_P]; exact .refl _ _
  | succ n =>
    have h2 : products (upTo S (n + 1)) S = products (upTo S n) S ++ P S (n + 1 + 1) := by
      rw [upTo, products_append_left, products_P]
    rw [h2]
    exact Red.append (a' := []) (Red.drop_all fun t ht =>
      ⟨t, List.mem_append.mpr (Or.inr (products_upTo_sub S n t ht)), eqvT.refl t⟩) (.refl _ _) eqvT

theorem prod_upTo (S : List (Term F)) (n : Nat) :
    uniqueify Term.eqv (upTo S n ++ S ++ products (upTo S n) S) = uniqueify Term.eqv (upTo S (n + 1)) := by
  rw [List.append_assoc]
  have hr : Red Term.eqv [] (upTo S n ++ (S ++ products (upTo S n) S)) (upTo S n ++ ([] ++ P S (n + 1))) :=
    (Red.refl [] _).append ((red_prod_upTo S n).mono fun x hx => by simpa using hx) eqvT
  rw [hr.uniqueify_eq eqvT, upTo, List.nil_append]

theorem times_terms {a : Tree} {e : IExpr F} (ha : eval mkFactor toInt a = .ok (.expr e))
    (hi : e.intercept = false) (n : Nat) :
    ∃ r, eval mkFactor toInt (times a n) = .ok (.expr r) ∧ r.intercept = false ∧
      r.terms = uniqueify Term.eqv (upTo e.terms n) := by
  induction n with
  | zero =>
    exact ⟨e, ha, hi, (uniqueify_eq_self ((eval_spec mkFactor toInt a).1 e ha).distinct).symm⟩
  | succ n ih =>
    obtain ⟨r, h1, h2, h3⟩ := ih
    have hp := evalProd_ok.mpr ⟨h2, hi, rfl⟩
    refine ⟨⟨false, none, false, uniqueify Term.eqv (r.terms ++ e.terms ++ products r.terms e.terms)⟩,
      ?_, rfl, ?_⟩
    · simp [times, op, eval, h1, ha, requireExpr, hp, bind, Except.bind, pure, Except.pure]
    · show uniqueify Term.eqv (r.terms ++ e.terms ++ products r.terms e.terms) = _
      rw [h3, ← uniqueify_append_right eqvT, uniq_products, uniqueify_append_right eqvT, List.append_assoc,
        uniqueify_append_left eqvT, ← List.append_assoc, prod_upTo]

/-- **C10**.  For every expression `a` without intercept and every literal exponent
`n + 1 ≥ 1`, `a ** (n + 1)` and the `(n + 1)`-fold product `a * a * … * a` evaluate to
expressions with literally the same list of terms (same order, same order of the factors
inside), however large `n` is: the cut-off of the exponent at the number of terms is
unobservable. -/
theorem power_is_product (a b : Tree) (e : IExpr F) (n : Nat) (ha : eval mkFactor toInt a = .ok (.expr e))
    (hi : e.intercept = false) (hb : exponent toInt b = n + 1) :
    ∃ r r', eval mkFactor toInt (op "**" a b) = .ok (.expr r) ∧
      eval mkFactor toInt (times a n) = .ok (.expr r') ∧
      r.terms = r'.terms ∧ r.intercept = false ∧ r'.intercept = false := by
  obtain ⟨r', t1, t2, t3⟩ := times_terms mkFactor toInt ha hi n
  rcases evalPower_cases ((eval_spec mkFactor toInt a).1 e ha) (exponent toInt b) with h | ⟨_, _, all, r, h1, h2, rfl, _⟩
  · exfalso
    rw [hb] at h
    obtain ⟨x, hx, _⟩ := powerLoop_terms hi (min e.terms.length (n + 1) - 1) 0 e e.terms hi rfl rfl
    have hlt : ¬ ((n : Int) + 1 < 1) := by omega
    simp [evalPower, checkInteractable, hi, hlt, bind, Except.bind, hx, IExpr.of] at h
  · refine ⟨_, r', by simp [op, eval, ha, requireExpr, h2, bind, Except.bind, pure, Except.pure]; rfl, t1, ?_, rfl, t2⟩
    rw [t3]
    show uniqueify Term.eqv all = _
    obtain ⟨x, hx, hx2⟩ := powerLoop_terms hi (min e.terms.length (exponent toInt b).toNat - 1) 0 e e.terms hi rfl rfl
    rw [h1] at hx
    simp only [Except.ok.injEq] at hx
    subst hx
    rw [hx2, hb]
    have ht : ((n : Int) + 1).toNat = n + 1 := by omega
    rw [ht, Nat.zero_add]
    by_cases hc : n + 1 ≤ e.terms.length
    · rw [Nat.min_eq_right hc]; rfl
    · rw [Nat.min_eq_left (by omega)]
      obtain ⟨d, hd⟩ : ∃ d, n = (e.terms.length - 1) + d := ⟨n - (e.terms.length - 1), by omega⟩
      rw [hd, upTo_stable e.terms (e.terms.length - 1) d (by omega)]

/-- **C10** (illegal exponents).  Anything but a literal positive integer is a
`PatsyError`. -/
theorem power_illegal (a b : Tree) (e : IExpr F) (ha : eval mkFactor toInt a = .ok (.expr e))
    (hb : exponent toInt b < 1) : eval mkFactor toInt (op "**" a b) = .error .patsyError := by
  have : evalPower e (exponent toInt b) = .error .patsyError := by
    cases hi : e.intercept <;> simp [evalPower, checkInteractable, hi, hb, bind, Except.bind]
  simp [op, eval, ha, requireExpr, this, bind, Except.bind]

/-- `(a + b) ** 3` meets the hypotheses (the exponent exceeds the number of terms) ... -/
example : exponent intEx (lit "NUMBER" "3") = (2 : Nat) + 1 := by decide

/-- ... and is `a + b + a:b`, like `(a + b) * (a + b) * (a + b)`. -/
example : fromTree mkEx intEx (tilde (op "**" (op "+" (v "a") (v "b")) (lit "NUMBER" "3"))) =
      .ok ⟨[], [⟨[]⟩, ⟨["a"]⟩, ⟨["b"]⟩, ⟨["a", "b"]⟩]⟩ ∧
    fromTree mkEx intEx (tilde (times (op "+" (v "a") (v "b")) 2)) =
      .ok ⟨[], [⟨[]⟩, ⟨["a"]⟩, ⟨["b"]⟩, ⟨["a", "b"]⟩]⟩ :=
  ⟨eq_ok_of_okIs (by decide +kernel), eq_ok_of_okIs (by decide +kernel)⟩

end Patsy.Props
