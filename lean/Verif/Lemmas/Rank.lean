import Mathlib.Algebra.Algebra.Operations
import Mathlib.Algebra.Group.Pointwise.Set.BigOperators
import Mathlib.Algebra.BigOperators.Ring.Finset
import Mathlib.Algebra.BigOperators.Pi
import Mathlib.LinearAlgebra.LinearIndependent.Lemmas
import Verif.Props.Contrasts
import Verif.Spec.Rank

/-!
# Products of contrast columns: linear independence and span
-/

namespace Patsy.Rank

open Patsy.Build Patsy.Contrast

variable {F K : Type} [DecidableEq F] [Field K]

/-- How a categorical factor takes part in a column. -/
inductive Kind where
  | absent
  | reduced (j : Nat)
  | full (j : Nat)
  deriving Inhabited

/-- The contribution of a factor with the reduced coding `R` and the full coding `C`. -/
def Kind.vec (R C : ContrastMatrix K) : Kind → Nat → K
  | .absent, _ => 1
  | .reduced j, x => entry R.matrix x j
  | .full j, x => entry C.matrix x j

/-- The column exists in a coding of `n` levels. -/
def Kind.Fits (n : Nat) : Kind → Prop
  | .absent => True
  | .reduced j => j < n - 1
  | .full j => j < n

/-- The two contributions belong to different basis vectors. -/
def Kind.Apart : Kind → Kind → Prop
  | .absent, .reduced _ => True
  | .reduced _, .absent => True
  | .reduced i, .reduced j => i ≠ j
  | .full i, .full j => i ≠ j
  | _, _ => False

theorem Kind.Apart.symm {a b : Kind} (h : a.Apart b) : b.Apart a := by
  cases a <;> cases b <;> simp_all [Kind.Apart]
  · exact fun h' => h h'.symm
  · exact fun h' => h h'.symm

theorem isReduced_pos {c : ContrastMatrix K} {n : Nat} {A : (Nat → K) → K} {B : (Nat → K) → Nat → K}
    (h : IsReduced c n A B) : 0 < n := by
  rcases Nat.eq_zero_or_pos n with rfl | hn
  · have := ((h.meaning (fun _ => 0) (A (fun _ => 0) + 1) (B fun _ => 0)).mp (by simp)).1
    simp at this
  · exact hn

theorem isUnit_dual {n : Nat} {M : Nat → Nat → K} (h : IsUnit (Matrix.of fun i j : Fin n => M i j)) :
    ∃ q : Nat → Nat → K, ∀ i < n, ∀ j < n, ∑ x ∈ Finset.range n, q i x * M x j = if i = j then 1 else 0 := by
  let N := (Matrix.of fun i j : Fin n => M i j)⁻¹
  refine ⟨fun i x => if hi : i < n then if hx : x < n then N ⟨i, hi⟩ ⟨x, hx⟩ else 0 else 0, ?_⟩
  intro i hi j hj
  have := congrFun (congrFun (Matrix.nonsing_inv_mul _ ((Matrix.isUnit_iff_isUnit_det _).mp h)) ⟨i, hi⟩) ⟨j, hj⟩
  rw [Matrix.mul_apply, Matrix.one_apply] at this
  simp only [Fin.mk.injEq] at this
  rw [← this, Finset.sum_range]
  refine Finset.sum_congr rfl fun x _ => ?_
  simp [hi, N]

/-- A functional that tells a contribution apart from the others. -/
theorem exists_dual {R C : ContrastMatrix K} {n : Nat} (hR : ∃ A B, IsReduced R n A B) (hC : ∃ B, IsFull C n B)
    {a : Kind} (ha : a.Fits n) :
    ∃ w : Nat → K, ∑ x ∈ Finset.range n, w x * a.vec R C x = 1 ∧
      ∀ b : Kind, b.Fits n → a.Apart b → ∑ x ∈ Finset.range n, w x * b.vec R C x = 0 := by
  obtain ⟨A, B, hR⟩ := hR
  obtain ⟨B', hC⟩ := hC
  have hn := isReduced_pos hR
  obtain ⟨q, hq⟩ := isUnit_dual (M := fun i j => if j = 0 then 1 else entry R.matrix i (j - 1)) (Props.reduced_isUnit hn hR)
  obtain ⟨p, hp⟩ := isUnit_dual (M := fun i j => entry C.matrix i j) (Props.full_isUnit hC)
  cases a with
  | absent =>
    refine ⟨q 0, by simpa [Kind.vec] using hq 0 hn 0 hn, ?_⟩
    intro b hb hab
    cases b with
    | absent => exact hab.elim
    | reduced j =>
      have hj : j < n - 1 := hb
      simpa [Kind.vec] using hq 0 hn (j + 1) (by omega)
    | full j => exact hab.elim
  | reduced i =>
    have hi : i < n - 1 := ha
    refine ⟨q (i + 1), by simpa [Kind.vec] using hq (i + 1) (by omega) (i + 1) (by omega), ?_⟩
    intro b hb hab
    cases b with
    | absent => simpa [Kind.vec] using hq (i + 1) (by omega) 0 hn
    | reduced j =>
      have hj : j < n - 1 := hb
      have hij : i ≠ j := hab
      simpa [Kind.vec, hij] using hq (i + 1) (by omega) (j + 1) (by omega)
    | full j => exact hab.elim
  | full i =>
    have hi : i < n := ha
    refine ⟨p i, by simpa [Kind.vec] using hp i hi i hi, ?_⟩
    intro b hb hab
    cases b with
    | absent => exact hab.elim
    | reduced j => exact hab.elim
    | full j =>
      have hj : j < n := hb
      have hij : i ≠ j := hab
      simpa [Kind.vec, hij] using hp i hi j hj

/-- The codings of the factors `A` with `n` levels each are bases. -/
def Bases (A : Finset F) (n : F → Nat) (R C : F → ContrastMatrix K) : Prop :=
  ∀ f ∈ A, (∃ a b, IsReduced (R f) (n f) a b) ∧ ∃ b, IsFull (C f) (n f) b

/-- Products of contributions that are pairwise apart in some factor are linearly independent. -/
theorem products_independent {A : Finset F} {n : F → Nat} {R C : F → ContrastMatrix K} (hb : Bases A n R C)
    {I : Type} (s : Finset I) (κ : I → F → Kind) (hfit : ∀ i ∈ s, ∀ f ∈ A, (κ i f).Fits (n f))
    (hapart : ∀ i ∈ s, ∀ j ∈ s, i ≠ j → ∃ f ∈ A, (κ i f).Apart (κ j f)) {c : I → K}
    (hsum : ∀ g : F → Nat, (∀ f ∈ A, g f < n f) →
      ∑ i ∈ s, c i * ∏ f ∈ A, (κ i f).vec (R f) (C f) (g f) = 0) : ∀ i ∈ s, c i = 0 := by
  classical
  intro i hi
  choose! w hw using fun f (hf : f ∈ A) => exists_dual (hb f hf).1 (hb f hf).2 (hfit i hi f hf)
  have hpair : ∀ j, ∑ p ∈ A.pi (fun f => Finset.range (n f)),
      (∏ f ∈ A.attach, w f.1 (p f.1 f.2)) * (∏ f ∈ A.attach, (κ j f.1).vec (R f.1) (C f.1) (p f.1 f.2)) =
      ∏ f ∈ A, ∑ x ∈ Finset.range (n f), w f x * (κ j f).vec (R f) (C f) x := by
    intro j
    rw [Finset.prod_sum]
    refine Finset.sum_congr rfl fun p _ => ?_
    rw [← Finset.prod_mul_distrib]
  have hzero : ∑ j ∈ s, c j * ∏ f ∈ A, ∑ x ∈ Finset.range (n f), w f x * (κ j f).vec (R f) (C f) x = 0 := by
    simp only [← hpair, Finset.mul_sum]
    rw [Finset.sum_comm]
    refine Finset.sum_eq_zero fun p hp => ?_
    let g : F → Nat := fun f => if hf : f ∈ A then p f hf else 0
    have hg : ∀ f ∈ A, g f < n f := by
      intro f hf
      have := Finset.mem_pi.mp hp f hf
      simpa [g, hf] using this
    have h1 := hsum g hg
    have h2 : ∀ j, ∏ f ∈ A.attach, (κ j f.1).vec (R f.1) (C f.1) (p f.1 f.2) =
        ∏ f ∈ A, (κ j f).vec (R f) (C f) (g f) := by
      intro j
      rw [← Finset.prod_attach A]
      refine Finset.prod_congr rfl fun f _ => ?_
      simp [g, f.2]
    simp only [h2]
    have h3 : ∀ j, c j * ((∏ f ∈ A.attach, w f.1 (p f.1 f.2)) * ∏ f ∈ A, (κ j f).vec (R f) (C f) (g f)) =
        (∏ f ∈ A.attach, w f.1 (p f.1 f.2)) * (c j * ∏ f ∈ A, (κ j f).vec (R f) (C f) (g f)) := by
      intro j; ring
    simp only [h3]
    rw [← Finset.mul_sum, h1, mul_zero]
  rw [Finset.sum_eq_single i] at hzero
  · rw [Finset.prod_eq_one fun f hf => (hw f hf).1, mul_one] at hzero
    exact hzero
  · intro j hj hji
    obtain ⟨f, hf, hap⟩ := hapart i hi j hj (Ne.symm hji)
    rw [Finset.prod_eq_zero hf ((hw f hf).2 _ (hfit j hj f hf) hap), mul_zero]
  · intro h; exact absurd hi h

/-- A product of elements of spans is in the span of the products. -/
theorem prod_mem_span {I : Type} {s : Finset F} {u : F → I → K} {V : F → Set (I → K)}
    (h : ∀ f ∈ s, u f ∈ Submodule.span K (V f)) :
    ∏ f ∈ s, u f ∈ Submodule.span K {w | ∃ v : F → I → K, (∀ f ∈ s, v f ∈ V f) ∧ w = ∏ f ∈ s, v f} := by
  classical
  have h1 : ∏ f ∈ s, u f ∈ ∏ f ∈ s, Submodule.span K (V f) := by
    clear * - h
    induction s using Finset.induction_on with
    | empty => simpa using ⟨1, map_one _⟩
    | insert f s hf ih =>
      rw [Finset.prod_insert hf, Finset.prod_insert hf]
      exact Submodule.mul_mem_mul (h f (Finset.mem_insert_self ..)) (ih fun g hg => h g (Finset.mem_insert_of_mem hg))
  rw [Submodule.prod_span] at h1
  refine Submodule.span_mono ?_ h1
  intro w hw
  obtain ⟨v, hv, rfl⟩ := (Set.mem_finsetProd _ _ _).mp hw
  exact ⟨v, fun f hf => hv hf, rfl⟩

/-- A function of the levels of some factors is in the span of the products of functions of one level each. -/
theorem function_mem_span {I : Type} [Fintype I] {s : Finset F} {lev : I → F → Nat} {φ : I → K}
    (hφ : ∀ i i', (∀ f ∈ s, lev i f = lev i' f) → φ i = φ i') {V : F → Set (I → K)}
    (h : ∀ f ∈ s, ∀ x, (fun i => if lev i f = x then (1 : K) else 0) ∈ Submodule.span K (V f)) :
    φ ∈ Submodule.span K {w | ∃ v : F → I → K, (∀ f ∈ s, v f ∈ V f) ∧ w = ∏ f ∈ s, v f} := by
  classical
  let key : I → F → Nat := fun i f => if f ∈ s then lev i f else 0
  have hkey : ∀ i i', (∀ f ∈ s, lev i f = key i' f) → key i = key i' := by
    intro i i' h
    funext f
    by_cases hf : f ∈ s
    · simp only [key, hf, if_true]
      rw [h f hf]
      simp [key, hf]
    · simp [key, hf]
  have hφ' : ∀ i i', key i = key i' → φ i = φ i' := by
    intro i i' h
    refine hφ i i' fun f hf => ?_
    have := congrFun h f
    simpa [key, hf] using this
  let a : (F → Nat) → K := fun x => if hx : ∃ i, key i = x then φ hx.choose else 0
  have ha : ∀ i, a (key i) = φ i := by
    intro i
    have hx : ∃ i', key i' = key i := ⟨i, rfl⟩
    simp only [a, hx, dif_pos]
    exact hφ' _ _ hx.choose_spec
  have heq : φ = ∑ x ∈ Finset.univ.image key, a x • ∏ f ∈ s, fun i => if lev i f = x f then (1 : K) else 0 := by
    funext i
    rw [Finset.sum_apply, Finset.sum_eq_single (key i)]
    · rw [Pi.smul_apply, Finset.prod_apply, Finset.prod_eq_one, ha, smul_eq_mul, mul_one]
      intro f hf
      simp [key, hf]
    · intro x hx hne
      obtain ⟨i', _, rfl⟩ := Finset.mem_image.mp hx
      have : ¬ ∀ f ∈ s, lev i f = key i' f := fun hall => hne (hkey i i' hall).symm
      push Not at this
      obtain ⟨f, hf, hne⟩ := this
      rw [Pi.smul_apply, Finset.prod_apply, Finset.prod_eq_zero hf (by simp [hne]), smul_zero]
    · intro hx
      exact absurd (Finset.mem_image_of_mem key (Finset.mem_univ i)) hx
  rw [heq]
  refine Submodule.sum_mem _ fun x _ => Submodule.smul_mem _ _ ?_
  exact prod_mem_span fun f hf => h f hf (x f)

end Patsy.Rank
