import Verif.Model.Tensor
import Verif.Lemmas.Desc
import Mathlib.Algebra.Order.Ring.Nat
import Mathlib.Data.List.Forall2
import Mathlib.Tactic.Ring
import Mathlib.Tactic.Linarith

/-! # C30: the row-wise tensor product -/

namespace Patsy.Spec

variable {K : Type} [Mul K]

/-- The columns of the row-wise tensor product of matrices: one column for every choice of a column from each
matrix, the choice from the last matrix varying fastest; each is the product of the chosen columns, entry by
entry. -/
def kronColumns : List (List (List K)) → List (List K)
  | [] => []
  | [A] => A
  | A :: B :: Ms => A.flatMap fun a => (kronColumns (B :: Ms)).map fun b => List.zipWith (· * ·) a b

end Patsy.Spec

namespace Patsy.Props

open Patsy.Tensor Patsy.Spec
open Patsy.Desc (bind_ok pure_ok)

variable {K : Type}

theorem pyIndex_nonneg {n k : Nat} (h : k < n) : pyIndex n (k : Int) = some k := by
  rw [pyIndex, if_pos (by omega), if_pos (by omega), Int.toNat_natCast]

theorem pyIndex_neg {n k : Nat} (h1 : 0 < k) (h2 : k ≤ n) : pyIndex n (-(k : Int)) = some (n - k) := by
  rw [pyIndex, if_neg (by omega), if_pos (by omega)]
  congr 1
  omega

theorem getCol_neg {A B : List (List K)} (c : List K) : getCol (A ++ c :: B) (-((B.length + 1 : Nat) : Int)) = .ok c := by
  have e : (A ++ c :: B).length - (B.length + 1) = A.length := by simp
  rw [getCol, pyIndex_neg (by omega) (by simp), e]
  simp

theorem setCol_neg {A B : List (List K)} (c d : List K) :
    setCol (A ++ c :: B) (-((B.length + 1 : Nat) : Int)) d = .ok (A ++ d :: B) := by
  have e : (A ++ c :: B).length - (B.length + 1) = A.length := by simp
  rw [setCol, pyIndex_neg (by omega) (by simp), e]
  simp

theorem negRange_succ (n : Nat) : negRange (n + 1) = -((n + 1 : Nat) : Int) :: negRange n := by
  rw [negRange, List.range_succ_eq_map, List.map_cons, negRange]
  rw [List.map_map]
  congr 1
  apply List.map_congr_left
  intro i _
  simp only [Function.comp]
  omega

theorem prod_pos_nat {l : List Nat} (h : ∀ a ∈ l, 0 < a) : 0 < l.prod := by
  induction l with
  | nil => simp
  | cons a l ih =>
    rw [List.prod_cons]
    exact Nat.mul_pos (h a List.mem_cons_self) (ih fun b hb => h b (List.mem_cons_of_mem _ hb))

variable [CommRing K]

theorem zipWith_mul_comm (a b : List K) : List.zipWith (· * ·) a b = List.zipWith (· * ·) b a := by
  rw [List.zipWith_comm]
  congr 1
  funext x y
  exact mul_comm _ _

/-- A block that is written before the source. -/
theorem innerLoop_block (x : List K) (S S0 : List (List K)) (A B C : List (List K)) (hB : B.length = S.length) :
    innerLoop x (negRange S.length) (-((B.length + C.length + S0.length + S.length : Nat) : Int))
      (A ++ B ++ C ++ S0 ++ S) =
      .ok (A ++ S.map (fun b => List.zipWith (· * ·) x b) ++ C ++ S0 ++ S, -((C.length + S0.length + S.length : Nat) : Int)) := by
  induction S generalizing A B S0 C with
  | nil =>
    have : B = [] := List.length_eq_zero_iff.mp hB
    subst this
    simp [negRange, innerLoop]
  | cons s S ih =>
    cases B with
    | nil => simp at hB
    | cons b B =>
      have e1 : (A ++ b :: B ++ C ++ S0 ++ s :: S) = ((A ++ b :: B ++ C ++ S0) ++ s :: S) := by simp
      have e2 : (A ++ b :: B ++ C ++ S0 ++ s :: S) = (A ++ b :: (B ++ C ++ S0 ++ s :: S)) := by simp
      have e3 : ((b :: B).length + C.length + S0.length + (s :: S).length : Nat) =
          (B ++ C ++ S0 ++ s :: S).length + 1 := by
        simp
        omega
      rw [List.length_cons (as := S), negRange_succ, innerLoop]
      have g : getCol (A ++ b :: B ++ C ++ S0 ++ s :: S) (-((S.length + 1 : Nat) : Int)) = .ok s := by
        rw [e1]
        exact getCol_neg s
      have st : setCol (A ++ b :: B ++ C ++ S0 ++ s :: S)
          (-(((b :: B).length + C.length + S0.length + (s :: S).length : Nat) : Int)) (List.zipWith (· * ·) s x) =
          .ok (A ++ List.zipWith (· * ·) s x :: (B ++ C ++ S0 ++ s :: S)) := by
        rw [e2, e3]
        exact setCol_neg _ _
      simp only [bind, Except.bind, g]
      rw [show (((b :: B).length + C.length + S0.length + (S.length + 1) : Nat)) =
        (b :: B).length + C.length + S0.length + (s :: S).length from rfl, st]
      simp only
      have ih' := ih (S0 ++ [s]) (A ++ [List.zipWith (· * ·) s x]) B C (by simpa using hB)
      have e4 : (-(((b :: B).length + C.length + S0.length + (s :: S).length : Nat) : Int) + 1) =
          -((B.length + C.length + (S0 ++ [s]).length + S.length : Nat) : Int) := by
        simp
        omega
      rw [e4]
      have e5 : A ++ List.zipWith (· * ·) s x :: (B ++ C ++ S0 ++ s :: S) =
          A ++ [List.zipWith (· * ·) s x] ++ B ++ C ++ (S0 ++ [s]) ++ S := by simp
      rw [e5, ih', zipWith_mul_comm s x]
      simp
      omega

/-- The last block is written over the source. -/
theorem innerLoop_last (x : List K) (S A : List (List K)) :
    innerLoop x (negRange S.length) (-((S.length : Nat) : Int)) (A ++ S) =
      .ok (A ++ S.map (fun b => List.zipWith (· * ·) x b), 0) := by
  induction S generalizing A with
  | nil => simp [negRange, innerLoop]
  | cons s S ih =>
    rw [List.length_cons, negRange_succ, innerLoop]
    simp only [bind, Except.bind]
    rw [getCol_neg s]
    simp only
    rw [setCol_neg s]
    simp only
    have e4 : (-((S.length + 1 : Nat) : Int) + 1) = -((S.length : Nat) : Int) := by omega
    have e5 : A ++ List.zipWith (· * ·) s x :: S = A ++ [List.zipWith (· * ·) s x] ++ S := by simp
    rw [e4, e5, ih, zipWith_mul_comm s x]
    simp

/-- One matrix. -/
theorem middleLoop_eq (S : List (List K)) (cols : List (List K)) (hc : cols ≠ []) (A B : List (List K))
    (hB : B.length = S.length * (cols.length - 1)) :
    middleLoop S.length cols (-((S.length * cols.length : Nat) : Int)) (A ++ B ++ S) =
      .ok (A ++ cols.flatMap fun x => S.map fun b => List.zipWith (· * ·) x b) := by
  induction cols generalizing A B with
  | nil => simp at hc
  | cons x cols ih =>
    cases cols with
    | nil =>
      have : B = [] := by
        apply List.length_eq_zero_iff.mp
        simpa using hB
      subst this
      rw [middleLoop]
      simp only [bind, Except.bind, List.length_cons, List.length_nil, Nat.zero_add, Nat.mul_one, List.append_nil]
      rw [innerLoop_last]
      simp [middleLoop]
    | cons y cols =>
      have hlen : B.length = S.length + S.length * cols.length := by
        rw [hB]
        simp only [List.length_cons, Nat.add_sub_cancel]
        ring
      rw [middleLoop]
      have e : B = B.take S.length ++ B.drop S.length := (List.take_append_drop _ _).symm
      have hb := innerLoop_block x S [] A (B.take S.length) (B.drop S.length) (by simp [hlen])
      have e1 : A ++ B.take S.length ++ B.drop S.length ++ [] ++ S = A ++ B ++ S := by simp
      have e2 : ((B.take S.length).length + (B.drop S.length).length + ([] : List (List K)).length + S.length : Nat) =
          S.length * (x :: y :: cols).length := by
        simp [hlen]
        ring
      rw [e1, e2] at hb
      simp only [bind, Except.bind]
      rw [hb]
      simp only
      have e3 : ((B.drop S.length).length + ([] : List (List K)).length + S.length : Nat) =
          S.length * (y :: cols).length := by
        simp [hlen]
        ring
      rw [e3]
      have ih' := ih (by simp) (A ++ S.map fun b => List.zipWith (· * ·) x b) (B.drop S.length) (by
        simp [hlen])
      have e4 : A ++ S.map (fun b => List.zipWith (· * ·) x b) ++ B.drop S.length ++ [] ++ S =
          (A ++ S.map fun b => List.zipWith (· * ·) x b) ++ B.drop S.length ++ S := by simp
      rw [e4, ih']
      simp

theorem kronColumns_cons (A : List (List K)) {Ms : List (List (List K))} (h : Ms ≠ []) :
    kronColumns (A :: Ms) = A.flatMap fun a => (kronColumns Ms).map fun b => List.zipWith (· * ·) a b := by
  cases Ms with
  | nil => simp at h
  | cons B Ms => rfl

theorem kronColumns_length (Ms : List (List (List K))) (h : Ms ≠ []) :
    (kronColumns Ms).length = (Ms.map (·.length)).prod := by
  induction Ms with
  | nil => simp at h
  | cons A Ms ih =>
    cases Ms with
    | nil => simp [kronColumns]
    | cons B Ms =>
      rw [kronColumns_cons A (by simp), List.length_flatMap]
      simp only [List.length_map]
      rw [ih (by simp)]
      simp [List.map_const']

theorem outerLoop_eq (rev : List (Arr K)) (Ms : List (List (List K))) (hM : Ms ≠ []) (A : List (List K))
    (hpos : ∀ dm ∈ rev, dm.cols ≠ []) (hpos' : 0 < (kronColumns Ms).length)
    (hA : A.length + (kronColumns Ms).length = (kronColumns Ms).length * (rev.map (·.cols.length)).prod) :
    outerLoop rev (kronColumns Ms).length (A ++ kronColumns Ms) = .ok (kronColumns ((rev.map (·.cols)).reverse ++ Ms)) := by
  induction rev generalizing Ms A with
  | nil =>
    have : A = [] := by
      apply List.length_eq_zero_iff.mp
      simp at hA
      exact hA ▸ rfl
    subst this
    simp [outerLoop]
  | cons dm rev ih =>
    have hc := hpos dm List.mem_cons_self
    have hcl : 0 < dm.cols.length := List.length_pos_iff.mpr hc
    rw [outerLoop]
    have hprod : 0 < (rev.map (·.cols.length)).prod := by
      apply prod_pos_nat
      intro a ha
      obtain ⟨d, hd, rfl⟩ := List.mem_map.mp ha
      exact List.length_pos_iff.mpr (hpos d (List.mem_cons_of_mem _ hd))
    rw [List.map_cons, List.prod_cons] at hA
    -- the last part of `A` has the size of the blocks that come before the source
    have hk : (kronColumns Ms).length * (dm.cols.length - 1) ≤ A.length := by
      have h1 : (kronColumns Ms).length * dm.cols.length ≤
          (kronColumns Ms).length * (dm.cols.length * (rev.map (·.cols.length)).prod) :=
        Nat.mul_le_mul_left _ (Nat.le_mul_of_pos_right _ hprod)
      have h2 : (kronColumns Ms).length * (dm.cols.length - 1) = (kronColumns Ms).length * dm.cols.length -
          (kronColumns Ms).length := by
        rw [Nat.mul_sub, Nat.mul_one]
      omega
    have e : A = A.take (A.length - (kronColumns Ms).length * (dm.cols.length - 1)) ++
        A.drop (A.length - (kronColumns Ms).length * (dm.cols.length - 1)) := (List.take_append_drop _ _).symm
    have hm := middleLoop_eq (kronColumns Ms) dm.cols hc
      (A.take (A.length - (kronColumns Ms).length * (dm.cols.length - 1)))
      (A.drop (A.length - (kronColumns Ms).length * (dm.cols.length - 1))) (by
        rw [List.length_drop]
        omega)
    rw [← e] at hm
    simp only [bind, Except.bind]
    rw [hm]
    simp only
    have hkr : kronColumns (dm.cols :: Ms) =
        dm.cols.flatMap fun x => (kronColumns Ms).map fun b => List.zipWith (· * ·) x b := kronColumns_cons _ hM
    have hkl : (kronColumns (dm.cols :: Ms)).length = (kronColumns Ms).length * dm.cols.length := by
      rw [kronColumns_length _ (by simp), kronColumns_length _ hM, List.map_cons, List.prod_cons, mul_comm]
    have ih' := ih (dm.cols :: Ms) (by simp) (A.take (A.length - (kronColumns Ms).length * (dm.cols.length - 1)))
      (fun d hd => hpos d (List.mem_cons_of_mem _ hd)) (by rw [hkl]; exact Nat.mul_pos hpos' hcl) (by
        rw [hkl, List.length_take, Nat.min_eq_left (Nat.sub_le _ _), mul_assoc, ← hA]
        have h2 : (kronColumns Ms).length * (dm.cols.length - 1) = (kronColumns Ms).length * dm.cols.length -
            (kronColumns Ms).length := by
          rw [Nat.mul_sub, Nat.mul_one]
        have h3 : (kronColumns Ms).length ≤ (kronColumns Ms).length * dm.cols.length :=
          Nat.le_mul_of_pos_right _ hcl
        omega)
    rw [hkl, hkr] at ih'
    rw [ih']
    simp

/-- C30: the tensor product of matrices with the same number of rows, each with at least one column, computed in
place, is the row-wise Kronecker product. -/
theorem row_tensor_product (dms : List (Arr K)) (hne : dms ≠ []) (hdim : ∀ dm ∈ dms, dm.ndim = 2)
    (hrows : ∀ dm ∈ dms, ∀ dm' ∈ dms, dm.nrows = dm'.nrows) (hpos : ∀ dm ∈ dms, dm.cols ≠ []) :
    rowTensorProduct dms = .ok (kronColumns (dms.map (·.cols))) := by
  obtain ⟨d, ds, rfl⟩ := List.exists_cons_of_ne_nil hne
  rw [rowTensorProduct]
  rw [if_neg (by simp only [List.any_eq_true, decide_eq_true_eq, not_exists, not_and, not_not]; exact hdim),
    if_neg (by
      simp only [List.any_eq_true, decide_eq_true_eq, not_exists, not_and, not_not]
      exact fun dm hdm => hrows dm hdm d List.mem_cons_self)]
  have hsplit : d :: ds = (d :: ds).dropLast ++ [(d :: ds).getLast (by simp)] :=
    (List.dropLast_append_getLast (by simp)).symm
  generalize hl : (d :: ds).getLast (by simp) = last at *
  generalize hi : (d :: ds).dropLast = init at *
  rw [hsplit] at hpos ⊢
  have hlast : last.cols ≠ [] := hpos last (by simp)
  have hinit : ∀ dm ∈ init.reverse, dm.cols ≠ [] := fun dm hdm => hpos dm (by simpa using Or.inl hdm)
  have hN : ((init ++ [last]).map fun dm => dm.cols.length).foldl (· * ·) 1 =
      last.cols.length * (init.reverse.map (·.cols.length)).prod := by
    rw [← List.prod_eq_foldl, List.map_append, List.prod_append, List.map_reverse, List.prod_reverse]
    simp [mul_comm]
  have hprod : 0 < (init.reverse.map (·.cols.length)).prod := by
    apply prod_pos_nat
    intro a ha
    obtain ⟨d, hd, rfl⟩ := List.mem_map.mp ha
    exact List.length_pos_iff.mpr (hinit d hd)
  have hle : last.cols.length ≤ last.cols.length * (init.reverse.map (·.cols.length)).prod :=
    Nat.le_mul_of_pos_right _ hprod
  simp only [hN, fillLast, if_pos hle]
  simp only [bind, Except.bind]
  have := outerLoop_eq init.reverse [last.cols] (by simp)
    (List.replicate (last.cols.length * (init.reverse.map (·.cols.length)).prod - last.cols.length)
      (List.replicate d.nrows 0)) hinit (by simpa [kronColumns] using List.length_pos_iff.mpr hlast) (by
        simp only [kronColumns, List.length_replicate]
        omega)
  simp only [kronColumns] at this
  rw [this]
  simp

/-- The entry of a column of the product: the column of the combination `(i, j)` is at position `i * n + j`. -/
theorem kron_entry (A : List (List K)) {Ms : List (List (List K))} (h : Ms ≠ []) (i j : Nat) (a b : List K)
    (hi : A[i]? = some a) (hj : (kronColumns Ms)[j]? = some b) :
    (kronColumns (A :: Ms))[i * (kronColumns Ms).length + j]? = some (List.zipWith (· * ·) a b) := by
  rw [kronColumns_cons A h]
  induction A generalizing i with
  | nil => simp at hi
  | cons c A ih =>
    rw [List.flatMap_cons]
    have hjl := (List.getElem?_eq_some_iff.mp hj).1
    cases i with
    | zero =>
      obtain rfl : c = a := by simpa using hi
      rw [Nat.zero_mul, Nat.zero_add, List.getElem?_append_left (by simpa using hjl), List.getElem?_map, hj]
      rfl
    | succ i =>
      rw [List.getElem?_append_right (by rw [List.length_map, Nat.succ_mul]; omega), List.length_map]
      have : (i + 1) * (kronColumns Ms).length + j - (kronColumns Ms).length = i * (kronColumns Ms).length + j := by
        rw [Nat.succ_mul]
        omega
      rw [this]
      exact ih i (by simpa using hi)

example : rowTensorProduct [(⟨2, 2, [[1, 1], [2, 2]]⟩ : Arr Int), ⟨2, 2, [[1, 4], [2, 5], [3, 6]]⟩] =
    .ok [[1, 4], [2, 5], [3, 6], [2, 8], [4, 10], [6, 12]] := by
  rw [row_tensor_product _ (by simp) (by simp) (by simp) (by simp)]
  rfl

/-- Rejected arguments. -/
theorem row_tensor_product_rejects (dms : List (Arr K))
    (h : dms = [] ∨ (∃ dm ∈ dms, dm.ndim ≠ 2) ∨ ∃ dm ∈ dms, ∃ dm' ∈ dms, dm.nrows ≠ dm'.nrows) :
    rowTensorProduct dms = .error .valueError := by
  cases dms with
  | nil => rfl
  | cons d ds =>
    rw [rowTensorProduct]
    split
    · rfl
    · rename_i h1
      split
      · rfl
      · rename_i h2
        simp only [List.any_eq_true, decide_eq_true_eq, not_exists, not_and, not_not] at h1 h2
        rcases h with h | ⟨dm, hm, h⟩ | ⟨dm, hm, dm', hm', h⟩
        · simp at h
        · exact absurd (h1 dm hm) h
        · exact absurd ((h2 dm hm).trans (h2 dm' hm').symm) h

/-- Matrices without columns can crash the function. -/
theorem row_tensor_product_empty_crashes :
    rowTensorProduct [(⟨2, 1, []⟩ : Arr Int), ⟨2, 1, [[1], [2]]⟩, ⟨2, 1, [[3]]⟩] = .error .indexError := by
  decide +kernel

end Patsy.Props
