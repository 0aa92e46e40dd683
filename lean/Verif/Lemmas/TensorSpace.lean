import Verif.Spec.TensorSpace
import Mathlib.Data.Fin.Tuple.Basic
import Mathlib.Algebra.BigOperators.Fin
import Mathlib.Tactic.Ring
import Mathlib.Tactic.FieldSimp
import Mathlib.Tactic.Linarith
import Mathlib.Tactic.LinearCombination

/-! # Functions of several variables that lie in given spaces in each of them -/

namespace Patsy.TensorSpace

open Patsy.Spec
open Finset (range)

/-! ### Combinations -/

theorem combine_nil (γ : Nat → ℝ) : combine [] γ = 0 := by simp [combine]

theorem combine_cons (a : ℝ) (l : List ℝ) (γ : Nat → ℝ) : combine (a :: l) γ = a * γ 0 + combine l fun k => γ (k + 1) := by
  simp only [combine, List.length_cons, Finset.sum_range_succ', List.getD_cons_succ, List.getD_cons_zero]
  ring

theorem combine_append (l l' : List ℝ) (γ : Nat → ℝ) :
    combine (l ++ l') γ = combine l γ + combine l' fun k => γ (l.length + k) := by
  induction l generalizing γ with
  | nil => simp [combine_nil]
  | cons a l ih =>
    rw [List.cons_append, combine_cons, combine_cons, ih]
    simp only [List.length_cons]
    have : (fun k => γ (l.length + k + 1)) = fun k => γ (l.length + 1 + k) := by funext k; congr 1; omega
    rw [this]
    ring

theorem combine_map_mul (a : ℝ) (l : List ℝ) (γ : Nat → ℝ) : combine (l.map (a * ·)) γ = a * combine l γ := by
  induction l generalizing γ with
  | nil => simp [combine_nil]
  | cons b l ih => rw [List.map_cons, combine_cons, combine_cons, ih]; ring

theorem combine_congr {l : List ℝ} {γ γ' : Nat → ℝ} (h : ∀ k < l.length, γ k = γ' k) : combine l γ = combine l γ' :=
  Finset.sum_congr rfl fun k hk => by rw [h k (Finset.mem_range.1 hk)]

theorem combine_mul_right (l : List ℝ) (γ : Nat → ℝ) (a : ℝ) : combine l (fun k => γ k * a) = combine l γ * a := by
  simp only [combine, Finset.sum_mul]
  exact Finset.sum_congr rfl fun k _ => by ring

theorem combine_sum {ι : Type} (s : Finset ι) (l : List ℝ) (γ : ι → Nat → ℝ) :
    combine l (fun k => ∑ i ∈ s, γ i k) = ∑ i ∈ s, combine l (γ i) := by
  simp only [combine, Finset.mul_sum]
  rw [Finset.sum_comm]

theorem combine_add_mul (l : List ℝ) (γ δ : Nat → ℝ) (a : ℝ) :
    combine l (fun k => γ k * a + δ k) = combine l γ * a + combine l δ := by
  simp only [combine, Finset.sum_mul, ← Finset.sum_add_distrib]
  exact Finset.sum_congr rfl fun k _ => by ring

theorem combine_comm (l l' : List ℝ) (γ : Nat → Nat → ℝ) :
    combine l (fun i => combine l' fun j => γ i j) = combine l' fun j => combine l fun i => γ i j := by
  simp only [combine, Finset.mul_sum]
  rw [Finset.sum_comm]
  exact Finset.sum_congr rfl fun _ _ => Finset.sum_congr rfl fun _ _ => by ring

/-- The products of the entries of two rows. -/
def times (r s : List ℝ) : List ℝ := r.flatMap fun a => s.map (a * ·)

theorem combine_times (r s : List ℝ) (γ : Nat → ℝ) :
    combine (times r s) γ = combine r fun i => combine s fun j => γ (i * s.length + j) := by
  induction r generalizing γ with
  | nil => simp [times, combine_nil]
  | cons a r ih =>
    have ih := ih (fun k => γ (s.length + k))
    rw [times] at ih ⊢
    rw [List.flatMap_cons, combine_append, combine_map_mul, combine_cons, List.length_map, ih]
    congr 1
    · simp
    · congr 1
      funext i
      congr 1
      funext j
      congr 1
      ring

theorem times_length (r s : List ℝ) : (times r s).length = r.length * s.length := by
  induction r with
  | nil => simp [times]
  | cons a r ih =>
    rw [times] at ih ⊢
    rw [List.flatMap_cons, List.length_append, ih, List.length_map, List.length_cons]
    ring

/-- The products of entries, one of each row; the last row varies fastest. -/
def kronRow : List (List ℝ) → List ℝ
  | [] => [1]
  | r :: rs => times r (kronRow rs)

theorem kronRow_length (rs : List (List ℝ)) : (kronRow rs).length = (rs.map List.length).prod := by
  induction rs with
  | nil => rfl
  | cons r rs ih => rw [kronRow, times_length, ih, List.map_cons, List.prod_cons]

theorem spanned_times {X Y : Type} {b : X → List ℝ} {c : Y → List ℝ} {m : Nat} (hc : ∀ y, (c y).length = m)
    (H : X → Y → ℝ) :
    Spanned (fun p : X × Y => times (b p.1) (c p.2)) (fun p => H p.1 p.2) ↔
      ∃ Γ : Nat → Nat → ℝ, ∀ x y, H x y = combine (b x) fun i => combine (c y) fun j => Γ i j := by
  constructor
  · rintro ⟨γ, hγ⟩
    refine ⟨fun i j => γ (i * m + j), fun x y => ?_⟩
    have := hγ (x, y)
    simp only at this
    rw [this, combine_times, hc]
  · rintro ⟨Γ, hΓ⟩
    refine ⟨fun t => Γ (t / m) (t % m), fun p => ?_⟩
    show H p.1 p.2 = combine (times (b p.1) (c p.2)) _
    rw [hΓ, combine_times]
    congr 1
    funext i
    refine combine_congr fun j hj => ?_
    rw [hc] at hj ⊢
    rw [Nat.add_comm, Nat.add_mul_div_right _ _ (by omega), Nat.div_eq_of_lt hj, Nat.add_mul_mod_self_right,
      Nat.mod_eq_of_lt hj, Nat.zero_add]

/-! ### Spaces of functions -/

theorem spanned_add {X : Type} {b : X → List ℝ} {f g : X → ℝ} (hf : Spanned b f) (hg : Spanned b g) :
    Spanned b fun x => f x + g x := by
  obtain ⟨γ, hγ⟩ := hf
  obtain ⟨δ, hδ⟩ := hg
  refine ⟨fun k => γ k + δ k, fun x => ?_⟩
  simp only [hγ, hδ, combine, ← Finset.sum_add_distrib]
  exact Finset.sum_congr rfl fun _ _ => by ring

theorem spanned_mul {X : Type} {b : X → List ℝ} {f : X → ℝ} (hf : Spanned b f) (a : ℝ) : Spanned b fun x => a * f x := by
  obtain ⟨γ, hγ⟩ := hf
  refine ⟨fun k => γ k * a, fun x => ?_⟩
  show a * f x = _
  rw [hγ, combine_mul_right, mul_comm]

theorem spanned_sum {X ι : Type} {b : X → List ℝ} (s : Finset ι) {f : ι → X → ℝ} (hf : ∀ i ∈ s, Spanned b (f i)) :
    Spanned b fun x => ∑ i ∈ s, f i x := by
  classical
  induction s using Finset.induction_on with
  | empty => exact ⟨fun _ => 0, fun x => by simp [combine]⟩
  | insert a s ha ih =>
    simp only [Finset.sum_insert ha]
    exact spanned_add (hf a (by simp)) (ih fun i hi => hf i (by simp [hi]))

/-- The sum of the values at the points of `L`, each with its function. -/
def interp {X : Type} (L : List (X × (X → ℝ))) (f : X → ℝ) (x : X) : ℝ := (L.map fun q => f q.1 * q.2 x).sum

theorem interp_add {X : Type} (L : List (X × (X → ℝ))) (f g : X → ℝ) (c : ℝ) (x : X) :
    interp L (fun z => f z + g z * c) x = interp L f x + interp L g x * c := by
  induction L with
  | nil => simp [interp]
  | cons q L ih =>
    simp only [interp, List.map_cons, List.sum_cons] at ih ⊢
    rw [ih]
    ring

theorem interp_shift {X : Type} (L : List (X × (X → ℝ))) (f : X → ℝ) (x₀ x : X) (e : X → ℝ) :
    interp (L.map fun q => (q.1, fun z => q.2 z - q.2 x₀ * e z)) f x = interp L f x - interp L f x₀ * e x := by
  induction L with
  | nil => simp [interp]
  | cons q L ih =>
    simp only [interp, List.map_cons, List.sum_cons, List.map_map] at ih ⊢
    rw [ih]
    ring

/-- The functions that are combinations of `g 0`, …, `g (n - 1)`. -/
def Gen {X : Type} (g : Nat → X → ℝ) (n : Nat) (f : X → ℝ) : Prop :=
  ∃ γ : Nat → ℝ, ∀ x, f x = ∑ j ∈ range n, g j x * γ j

theorem Gen.add {X : Type} {g : Nat → X → ℝ} {n : Nat} {f h : X → ℝ} (hf : Gen g n f) (hh : Gen g n h) (c : ℝ) :
    Gen g n fun x => f x + h x * c := by
  obtain ⟨γ, hγ⟩ := hf
  obtain ⟨δ, hδ⟩ := hh
  refine ⟨fun k => γ k + δ k * c, fun x => ?_⟩
  simp only [hγ, hδ, Finset.sum_mul, ← Finset.sum_add_distrib]
  exact Finset.sum_congr rfl fun _ _ => by ring

theorem Gen.succ {X : Type} {g : Nat → X → ℝ} {n : Nat} {f : X → ℝ} (hf : Gen g n f) : Gen g (n + 1) f := by
  obtain ⟨γ, hγ⟩ := hf
  refine ⟨fun k => if k < n then γ k else 0, fun x => ?_⟩
  rw [hγ, Finset.sum_range_succ]
  simp only [lt_irrefl, if_false, mul_zero, add_zero]
  exact Finset.sum_congr rfl fun k hk => by rw [if_pos (Finset.mem_range.1 hk)]

theorem Gen.last {X : Type} (g : Nat → X → ℝ) (n : Nat) : Gen g (n + 1) (g n) := by
  refine ⟨fun k => if k = n then 1 else 0, fun x => ?_⟩
  rw [Finset.sum_range_succ, Finset.sum_eq_zero]
  · simp
  · intro k hk
    have := Finset.mem_range.1 hk
    have hk' : ¬ k = n := by omega
    simp only [hk', if_false, mul_zero]

theorem Gen.interp {X : Type} {g : Nat → X → ℝ} {n : Nat} (L : List (X × (X → ℝ))) (hL : ∀ q ∈ L, Gen g n q.2)
    (f : X → ℝ) : Gen g n (interp L f) := by
  induction L with
  | nil => exact ⟨fun _ => 0, fun x => by simp [TensorSpace.interp]⟩
  | cons q L ih =>
    have := (ih fun q' hq' => hL q' (List.mem_cons_of_mem _ hq')).add (hL q (List.mem_cons_self ..)) (f q.1)
    refine cast ?_ this
    congr 1
    funext x
    simp only [TensorSpace.interp, List.map_cons, List.sum_cons]
    ring

/-- A space of functions with finitely many generators is determined by finitely many points: there are points, each with
a function of the space, such that every `f` of the space is the sum of these functions, multiplied by the values of `f`
at their points. -/
theorem interpolate {X : Type} (g : Nat → X → ℝ) (n : Nat) :
    ∃ L : List (X × (X → ℝ)), (∀ q ∈ L, Gen g n q.2) ∧ ∀ f, Gen g n f → ∀ x, f x = interp L f x := by
  induction n with
  | zero =>
    refine ⟨[], by simp, fun f hf x => ?_⟩
    obtain ⟨γ, hγ⟩ := hf
    rw [hγ]
    simp [interp]
  | succ n ih =>
    obtain ⟨L, hL, hrep⟩ := ih
    have split : ∀ f, Gen g (n + 1) f → ∃ f₀ c, Gen g n f₀ ∧ f = fun x => f₀ x + g n x * c := by
      rintro f ⟨γ, hγ⟩
      refine ⟨fun x => ∑ j ∈ range n, g j x * γ j, γ n, ⟨γ, fun _ => rfl⟩, ?_⟩
      funext x
      rw [hγ, Finset.sum_range_succ]
    by_cases h0 : ∀ x, g n x = interp L (g n) x
    · refine ⟨L, fun q hq => (hL q hq).succ, fun f hf x => ?_⟩
      obtain ⟨f₀, c, hf₀, rfl⟩ := split f hf
      rw [interp_add, ← hrep f₀ hf₀, ← h0]
    · obtain ⟨x₀, hx₀⟩ := not_forall.1 h0
      have hne : g n x₀ - interp L (g n) x₀ ≠ 0 := sub_ne_zero.2 hx₀
      let e : X → ℝ := fun x => (g n x - interp L (g n) x) / (g n x₀ - interp L (g n) x₀)
      have he : Gen g (n + 1) e := by
        have h1 : Gen g (n + 1) fun x => g n x + interp L (g n) x * (-1) :=
          (Gen.last g n).add (Gen.interp L hL (g n)).succ (-1)
        have h2 : Gen g (n + 1) fun _ => (0 : ℝ) := ⟨fun _ => 0, fun x => by simp⟩
        refine cast ?_ (h2.add h1 (g n x₀ - interp L (g n) x₀)⁻¹)
        congr 1
        funext x
        simp only [e]
        ring
      refine ⟨(x₀, e) :: L.map fun q => (q.1, fun z => q.2 z - q.2 x₀ * e z), ?_, fun f hf x => ?_⟩
      · intro q hq
        rcases List.mem_cons.1 hq with rfl | hq
        · exact he
        · obtain ⟨q', hq', rfl⟩ := List.mem_map.1 hq
          refine cast ?_ ((hL q' hq').succ.add he (-(q'.2 x₀)))
          congr 1
          funext z
          ring
      · obtain ⟨f₀, c, hf₀, rfl⟩ := split f hf
        have hcons : ∀ F : X → ℝ, interp ((x₀, e) :: L.map fun q => (q.1, fun z => q.2 z - q.2 x₀ * e z)) F x
            = F x₀ * e x + (interp L F x - interp L F x₀ * e x) := by
          intro F
          rw [← interp_shift]
          simp only [interp, List.map_cons, List.sum_cons]
        have hee : e x * (g n x₀ - interp L (g n) x₀) = g n x - interp L (g n) x := div_mul_cancel₀ _ hne
        rw [interp_add, hcons, hcons, ← hrep f₀ hf₀, ← hrep f₀ hf₀]
        show f₀ x + g n x * c = _
        linear_combination c * (-hee)

theorem gen_iff {X : Type} {b : X → List ℝ} {n : Nat} (hb : ∀ x, (b x).length = n) (f : X → ℝ) :
    Spanned b f ↔ Gen (fun j x => (b x).getD j 0) n f := by
  simp only [Spanned, Gen, combine, hb]

/-- The functions of a space of rows, two variables: `H` is a combination of products exactly if it is in the first space
as a function of the first variable and in the second as a function of the second. -/
theorem times_space {X Y : Type} {b : X → List ℝ} {c : Y → List ℝ} {n m : Nat} (hb : ∀ x, (b x).length = n)
    (hc : ∀ y, (c y).length = m) (H : X → Y → ℝ) :
    Spanned (fun p : X × Y => times (b p.1) (c p.2)) (fun p => H p.1 p.2) ↔
      (∀ y, Spanned b fun x => H x y) ∧ ∀ x, Spanned c (H x) := by
  rw [spanned_times hc]
  constructor
  · rintro ⟨Γ, hΓ⟩
    exact ⟨fun y => ⟨_, fun x => hΓ x y⟩, fun x => ⟨_, fun y => by rw [hΓ, combine_comm]⟩⟩
  · rintro ⟨h1, h2⟩
    obtain ⟨L, hL, hrep⟩ := interpolate (fun j x => (b x).getD j 0) n
    have key : ∀ x y, H x y = interp L (fun x => H x y) x := fun x y => hrep _ ((gen_iff hb _).1 (h1 y)) x
    have main : ∀ M : List (X × (X → ℝ)), (∀ q ∈ M, Gen (fun j x => (b x).getD j 0) n q.2) →
        ∃ Γ : Nat → Nat → ℝ, ∀ x y, interp M (fun x => H x y) x = combine (b x) fun i => combine (c y) fun j => Γ i j := by
      intro M hM
      induction M with
      | nil => exact ⟨fun _ _ => 0, fun x y => by simp [interp, combine]⟩
      | cons q M ih =>
        obtain ⟨Γ, hΓ⟩ := ih fun q' hq' => hM q' (List.mem_cons_of_mem _ hq')
        obtain ⟨α, hα⟩ := (gen_iff hb _).2 (hM q (List.mem_cons_self ..))
        obtain ⟨β, hβ⟩ := h2 q.1
        refine ⟨fun i j => β j * α i + Γ i j, fun x y => ?_⟩
        have : interp (q :: M) (fun x => H x y) x = H q.1 y * q.2 x + interp M (fun x => H x y) x := by
          simp only [interp, List.map_cons, List.sum_cons]
        rw [this, hΓ, hα, hβ]
        have e1 : ∀ i, combine (c y) (fun j => β j * α i + Γ i j) = α i * combine (c y) β + combine (c y) (Γ i) := by
          intro i
          simp only [combine, Finset.mul_sum, ← Finset.sum_add_distrib]
          exact Finset.sum_congr rfl fun _ _ => by ring
        simp only [e1]
        rw [combine_add_mul, mul_comm]
    obtain ⟨Γ, hΓ⟩ := main L hL
    exact ⟨Γ, fun x y => by rw [key x y, hΓ]⟩

theorem prod_rows {k : Nat} {X : Fin k → Type} {b : (i : Fin k) → X i → List ℝ} {n : Fin k → Nat}
    (hb : ∀ i x, (b i x).length = n i) (p : ∀ i, X i) :
    (kronRow (List.ofFn fun i => b i (p i))).length = (List.ofFn n).prod := by
  rw [kronRow_length, List.map_ofFn]
  congr 2
  funext i
  exact hb i _

/-- The combinations of the products of the entries of rows, one of each variable, are exactly the functions that are, in
each variable separately, a combination of the entries of its rows. -/
theorem kron_space {k : Nat} {X : Fin k → Type} {b : (i : Fin k) → X i → List ℝ} {n : Fin k → Nat}
    (hb : ∀ i x, (b i x).length = n i) (F : (∀ i, X i) → ℝ) :
    Spanned (fun p : ∀ i, X i => kronRow (List.ofFn fun i => b i (p i))) F ↔ Separately (fun i => Spanned (b i)) F := by
  induction k with
  | zero =>
    refine ⟨fun _ i => i.elim0, fun _ => ⟨fun _ => F fun i => i.elim0, fun p => ?_⟩⟩
    have : p = fun i => i.elim0 := funext fun i => i.elim0
    rw [this]
    simp [kronRow, combine]
  | succ k ih =>
    let c : (∀ i : Fin k, X i.succ) → List ℝ := fun p => kronRow (List.ofFn fun i => b i.succ (p i))
    have hc : ∀ p, (c p).length = (List.ofFn fun i : Fin k => n i.succ).prod :=
      prod_rows (b := fun i => b i.succ) fun i x => hb i.succ x
    have step := times_space (b := b 0) (c := c) (hb 0) hc fun x p => F (Fin.cons x p)
    have e0 : Spanned (fun p : ∀ i, X i => kronRow (List.ofFn fun i => b i (p i))) F ↔
        Spanned (fun q : X 0 × (∀ i : Fin k, X i.succ) => times (b 0 q.1) (c q.2)) (fun q => F (Fin.cons q.1 q.2)) := by
      have erow : ∀ (x : X 0) (q : ∀ i : Fin k, X i.succ),
          kronRow (List.ofFn fun i => b i ((Fin.cons x q : ∀ i, X i) i)) = times (b 0 x) (c q) := by
        intro x q
        rw [List.ofFn_succ]
        simp only [kronRow, Fin.cons_zero, Fin.cons_succ, c]
      constructor
      · rintro ⟨γ, hγ⟩
        refine ⟨γ, fun q => ?_⟩
        show F (Fin.cons q.1 q.2) = combine (times (b 0 q.1) (c q.2)) γ
        rw [← erow]
        exact hγ _
      · rintro ⟨γ, hγ⟩
        refine ⟨γ, fun p => ?_⟩
        have := hγ (p 0, fun i => p i.succ)
        simp only at this
        rw [← erow] at this
        have ep : (Fin.cons (p 0) fun i => p i.succ : ∀ i, X i) = p := Fin.cons_self_tail p
        rwa [ep] at this
    rw [e0, step]
    have e2 : ∀ x, Spanned c (fun q => F (Fin.cons x q)) ↔
        Separately (fun i : Fin k => Spanned (b i.succ)) fun q => F (Fin.cons x q) := fun x =>
      ih (b := fun i => b i.succ) (fun i y => hb i.succ y) _
    simp only [e2]
    constructor
    · rintro ⟨h1, h2⟩ i p
      have ep : (Fin.cons (p 0) fun i => p i.succ : ∀ i, X i) = p := Fin.cons_self_tail p
      refine Fin.cases ?_ (fun i => ?_) i
      · have := h1 fun i => p i.succ
        refine cast ?_ this
        congr 1
        funext x
        rw [← ep, Fin.update_cons_zero]
        rfl
      · have := h2 (p 0) i fun i => p i.succ
        refine cast ?_ this
        congr 1
        funext x
        conv_rhs => rw [← ep, ← Fin.cons_update]
    · intro h
      refine ⟨fun q => ?_, fun x i q => ?_⟩
      · by_cases hX : Nonempty (X 0)
        · obtain ⟨x₀⟩ := hX
          have := h 0 (Fin.cons x₀ q)
          refine cast ?_ this
          congr 1
          funext x
          rw [Fin.update_cons_zero]
        · exact ⟨fun _ => 0, fun x => absurd ⟨x⟩ hX⟩
      · have := h i.succ (Fin.cons x q)
        refine cast ?_ this
        congr 1
        funext y
        show _ = F (Fin.cons x (Function.update q i y))
        rw [Fin.cons_update]

end Patsy.TensorSpace
