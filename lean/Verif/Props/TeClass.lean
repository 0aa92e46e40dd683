import Verif.Props.SplineConstraints
import Verif.Props.ReorderText

/-!
# C55, C65 and C66 for `te`
-/

set_option linter.unusedSectionVars false

namespace Patsy.Spec

open Patsy.SplineTransform

variable {D : Type}

/-- Matrices of many chunks, one above the other. -/
def stackAll : List (List (Tensor.Arr ℝ)) → List (Tensor.Arr ℝ)
  | [] => []
  | x :: xs => xs.foldl stackTables x

/-- The arguments of `te` on chunks and on the whole data: in each chunk matrices with the same number of rows, the same
numbers of columns everywhere, and on the whole data the matrices one above the other. -/
structure JoinedTables {n : Nat} (a : Fin n → List (Tensor.Arr ℝ)) (b : List (Tensor.Arr ℝ)) : Prop where
  tables : ∀ i, ∃ m, Tables (a i) m
  shape : ∀ i j, SameShape (a i) (a j)
  whole : b = stackAll (List.ofFn a)

/-- Chunks for `te`. -/
def teJoins {n : Nat} (data : (Fin n → D) → D → Prop) :
    Joins n D (List (List ℝ)) (Constraints × List (Tensor.Arr ℝ)) where
  data := data
  value v w := w = (List.ofFn v).flatten
  args a b := (∀ i, (a i).1 = b.1) ∧ JoinedTables (fun i => (a i).2) b.2

/-- Matrices with the same rows in another order. -/
def MovedTable (n : Nat) (σ : Nat → Nat) (a a' : Tensor.Arr ℝ) : Prop :=
  a'.ndim = 2 ∧ a'.nrows = n ∧ List.Forall₂ (Moved n σ) a.cols a'.cols

/-- The rows for `te` in another order. -/
def teShuffle (n : Nat) (σ : Nat → Nat) (data : D → D → Prop) :
    Shuffle D (List (List ℝ)) (Constraints × List (Tensor.Arr ℝ)) where
  data := data
  value := Moved n σ
  args a a' := a'.1 = a.1 ∧ Tables a.2 n ∧ List.Forall₂ (MovedTable n σ) a.2 a'.2

end Patsy.Spec

namespace Patsy.Props

open Patsy.EvalFactor Patsy.Spec Patsy.Calls Patsy.Tokens Patsy.Memorize Patsy.Passes Patsy.SplineTransform

variable {D : Type} {n : Nat} {σ : Nat → Nat}

theorem sameShape_symm {x y : List (Tensor.Arr ℝ)} (h : SameShape x y) : SameShape y x := by
  induction h with
  | nil => exact .nil
  | cons h _ ih => exact .cons h.symm ih

theorem sameShape_stack {x y z : List (Tensor.Arr ℝ)} (h : SameShape x y) (h' : SameShape x z) :
    SameShape (stackTables x y) z := by
  induction h generalizing z with
  | nil => cases h'; exact .nil
  | cons h _ ih =>
    cases h' with
    | cons h1 h2 =>
      refine .cons ?_ (ih h2)
      simp [← h, h1]

/-- One chunk after the other is like all of them as one. -/
theorem te_stack (k : Constraints) {x : List (Tensor.Arr ℝ)} {xs : List (List (Tensor.Arr ℝ))} (hx : ∃ m, Tables x m)
    (hxs : ∀ y ∈ xs, (∃ m, Tables y m) ∧ SameShape x y) (t : TeTmp) :
    (x :: xs).foldlM (fun t args => teMemorizeChunk t k args) t = teMemorizeChunk t k (stackAll (x :: xs)) := by
  induction xs generalizing x with
  | nil => simp [stackAll]
  | cons y ys ih =>
    obtain ⟨m, hm⟩ := hx
    obtain ⟨⟨m', hm'⟩, hs⟩ := hxs y (by simp)
    have := ih (x := stackTables x y) ⟨_, (stack_tables hm hm' hs).1⟩ fun z hz =>
      ⟨(hxs z (by simp [hz])).1, sameShape_stack hs (hxs z (by simp [hz])).2⟩
    simp only [stackAll, List.foldl_cons, List.foldlM_cons] at this ⊢
    rw [← this, ← te_merge hm hm' hs k t, bind_assoc]

theorem rowsOf_stack {A B : List (List ℝ)} (hA : ∀ c ∈ A, c.length = n) (hB : ∀ c ∈ B, c.length = m) (h : A.length = B.length) :
    rowsOf (n + m) (List.zipWith (· ++ ·) A B) = rowsOf n A ++ rowsOf m B := by
  rw [rowsOf, rowsOf, rowsOf, List.range_add, List.map_append, List.map_map]
  congr 1
  · refine List.map_congr_left fun i hi => ?_
    have hi := List.mem_range.mp hi
    induction A generalizing B with
    | nil => cases B with
      | nil => rfl
      | cons => simp at h
    | cons a A ih =>
      cases B with
      | nil => simp at h
      | cons b B =>
        simp only [List.zipWith_cons_cons, List.map_cons]
        rw [ih (fun c hc => hA c (by simp [hc])) (fun c hc => hB c (by simp [hc])) (by simpa using h)]
        rw [List.getD_append _ _ _ _ (by rw [hA a (by simp)]; exact hi)]
  · refine List.map_congr_left fun i hi => ?_
    simp only [Function.comp]
    have hi := List.mem_range.mp hi
    induction A generalizing B with
    | nil => cases B with
      | nil => rfl
      | cons => simp at h
    | cons a A ih =>
      cases B with
      | nil => simp at h
      | cons b B =>
        simp only [List.zipWith_cons_cons, List.map_cons]
        rw [ih (fun c hc => hA c (by simp [hc])) (fun c hc => hB c (by simp [hc])) (by simpa using h)]
        rw [List.getD_append_right _ _ _ _ (by rw [hA a (by simp)]; omega), hA a (by simp)]
        simp

theorem stack_product {x y : List (Tensor.Arr ℝ)} {m m' : Nat} (hx : Tables x m) (hy : Tables y m') (hs : SameShape x y) :
    kronColumns ((stackTables x y).map (·.cols)) =
      List.zipWith (· ++ ·) (kronColumns (x.map (·.cols))) (kronColumns (y.map (·.cols))) ∧
    (kronColumns (x.map (·.cols))).length = (kronColumns (y.map (·.cols))).length := by
  have hs' : List.Forall₂ (fun A B : List (List ℝ) => A.length = B.length) (x.map (·.cols)) (y.map (·.cols)) := by
    rw [List.forall₂_map_left_iff, List.forall₂_map_right_iff]
    exact hs
  constructor
  · rw [(stack_tables hx hy hs).2]
    exact kron_stack (n := m) hs' (by
      intro A hA a ha
      obtain ⟨arr, harr, rfl⟩ := List.mem_map.mp hA
      exact (hx.2 arr harr).2.2.2 a ha)
  · rw [kronColumns_length _ (by simpa using hx.1), kronColumns_length _ (by simpa using hy.1)]
    congr 1
    generalize x.map (·.cols) = X at hs' ⊢
    generalize y.map (·.cols) = Y at hs' ⊢
    clear hs hx hy
    induction hs' with
    | nil => rfl
    | cons hA _ ih => rw [List.map_cons, List.map_cons, hA, ih]

theorem teTransform_tables {qr : QR} {c : Option Cons} {x : List (Tensor.Arr ℝ)} {m : Nat} (hx : Tables x m) :
    teTransform qr c x = (rowsOf m (kronColumns (x.map (·.cols)))).mapM (absorbAny qr c) := by
  obtain ⟨p1, p2, _⟩ := tables_product hx
  simp only [teTransform, p1, p2, bind, Except.bind]

theorem teTransform_stack {qr : QR} {c : Option Cons} {x : List (Tensor.Arr ℝ)} {xs : List (List (Tensor.Arr ℝ))}
    (hx : ∃ m, Tables x m) (hxs : ∀ y ∈ xs, (∃ m, Tables y m) ∧ SameShape x y) {v : List (List ℝ)} {vs : List (List (List ℝ))}
    (hv : teTransform qr c x = .ok v) (hvs : List.Forall₂ (fun y w => teTransform qr c y = .ok w) xs vs) :
    teTransform qr c (stackAll (x :: xs)) = .ok (v :: vs).flatten := by
  induction hvs generalizing x v with
  | nil => simpa [stackAll] using hv
  | @cons y w ys ws hw hws ih =>
    obtain ⟨m, hm⟩ := hx
    obtain ⟨⟨m', hm'⟩, hs⟩ := hxs y (by simp)
    have hst := (stack_tables hm hm' hs).1
    have := ih (x := stackTables x y) (v := v ++ w) ⟨_, hst⟩ (fun z hz =>
      ⟨(hxs z (by simp [hz])).1, sameShape_stack hs (hxs z (by simp [hz])).2⟩) (by
        obtain ⟨h1, h2⟩ := stack_product hm hm' hs
        rw [teTransform_tables hm] at hv
        rw [teTransform_tables hm'] at hw
        rw [teTransform_tables hst, h1, rowsOf_stack (tables_product hm).2.2 (tables_product hm').2.2 h2]
        rw [Build.mapM_ok] at hv hw ⊢
        exact List.rel_append hv hw)
    simpa [stackAll] using this

theorem te_fold (qr : QR) (as : List (Constraints × List (Tensor.Arr ℝ))) {k : Constraints} (h : ∀ a ∈ as, a.1 = k) (t : TeTmp)
    (c : Option Cons) : as.foldlM (teClass qr).chunk ⟨some t, c⟩ =
      ((as.map Prod.snd).foldlM (fun t args => teMemorizeChunk t k args) t).map fun t => ⟨some t, c⟩ := by
  induction as generalizing t with
  | nil => rfl
  | cons a as ih =>
    rw [List.map_cons, List.foldlM_cons, List.foldlM_cons]
    simp only [teClass] at ih ⊢
    rw [h a (by simp)]
    cases teMemorizeChunk t k a.2 with
    | error e => rfl
    | ok t' => exact ih (fun b hb => h b (by simp [hb])) t'

theorem te_remember (qr : QR) (as : List (Constraints × List (Tensor.Arr ℝ))) {k : Constraints} (h : ∀ a ∈ as, a.1 = k) :
    remember (teClass qr) as = (teMemorize k (as.map Prod.snd)).map fun c => ⟨none, c⟩ := by
  rw [remember, teMemorize]
  have := te_fold qr as h TeTmp.init none
  simp only [teClass] at this ⊢
  rw [this]
  cases (as.map Prod.snd).foldlM (fun t args => teMemorizeChunk t k args) TeTmp.init with
  | error e => rfl
  | ok t =>
    show (do let c ← teFinish t; pure _ : Except Err TeState) = (teFinish t).map _
    cases teFinish t <;> rfl

/-- **C55**: `te` does not mind the chunks. -/
theorem te_chunkFree (qr : QR) (data : (Fin (n + 1) → D) → D → Prop) : ChunkFree (teJoins data) (teClass qr) := by
  rintro a ⟨k, b⟩ ⟨hk, hj⟩
  simp only at hk hj
  obtain ⟨h1, h2, rfl⟩ := hj
  have hxs : ∀ y ∈ List.ofFn (fun i : Fin n => (a i.succ).2), (∃ m, Tables y m) ∧ SameShape (a 0).2 y := by
    intro y hy
    obtain ⟨i, rfl⟩ := List.mem_ofFn.mp hy
    exact ⟨h1 _, h2 _ _⟩
  refine ⟨fun s v h => ⟨_, rfl, ?_⟩, fun s h => ?_⟩
  · simp only [teClass] at h ⊢
    rw [List.ofFn_succ, List.ofFn_succ]
    refine teTransform_stack (h1 0) hxs (h 0) ?_
    rw [List.forall₂_iff_get]
    refine ⟨by simp, fun i hi hi' => ?_⟩
    simp only [List.get_eq_getElem, List.getElem_ofFn]
    exact h _
  · rw [te_remember qr _ (k := k) (by rw [List.forall_mem_ofFn_iff]; exact hk)] at h
    rw [te_remember qr _ (k := k) (by simp), ← h]
    simp only [List.map_ofFn, List.map_cons, List.map_nil, teMemorize]
    congr 2
    have := te_stack k (h1 0) hxs TeTmp.init
    rw [List.ofFn_succ]
    simp only [Function.comp_def]
    rw [List.ofFn_succ (f := fun x => (a x).2), this]
    simp

/-! ### The order of the rows -/

theorem moved_mul {a a' b b' : List ℝ} (ha : Moved n σ a a') (hb : Moved n σ b b') :
    Moved n σ (List.zipWith (· * ·) a b) (List.zipWith (· * ·) a' b') := by
  refine ⟨by simp [ha.1, hb.1], by simp [ha.2.1, hb.2.1], fun q hq => ?_⟩
  rw [List.getElem?_zipWith, List.getElem?_zipWith, ha.2.2 q hq, hb.2.2 q hq]

theorem kron_moved {Ms Ms' : List (List (List ℝ))} (h : List.Forall₂ (List.Forall₂ (Moved n σ)) Ms Ms') :
    List.Forall₂ (Moved n σ) (kronColumns Ms) (kronColumns Ms') := by
  induction h with
  | nil => exact .nil
  | @cons A A' Ms Ms' hA hM ih =>
    cases hM with
    | nil => exact hA
    | @cons B B' Ns Ns' h1 h2 =>
      rw [kronColumns_cons A (Ms := B :: Ns) (by simp), kronColumns_cons A' (Ms := B' :: Ns') (by simp)]
      generalize kronColumns (B :: Ns) = X at ih ⊢
      generalize kronColumns (B' :: Ns') = Y at ih ⊢
      induction hA with
      | nil => exact .nil
      | cons ha _ ihA =>
        rw [List.flatMap_cons, List.flatMap_cons]
        refine List.rel_append ?_ ihA
        rw [List.forall₂_map_left_iff, List.forall₂_map_right_iff]
        exact ih.imp fun _ _ h => moved_mul ha h

theorem moved_tables {x x' : List (Tensor.Arr ℝ)} (hx : Tables x n) (h : List.Forall₂ (MovedTable n σ) x x') :
    Tables x' n ∧ List.Forall₂ (List.Forall₂ (Moved n σ)) (x.map (·.cols)) (x'.map (·.cols)) := by
  refine ⟨⟨?_, fun a' ha' => ?_⟩, ?_⟩
  · rintro rfl
    cases h
    exact hx.1 rfl
  · obtain ⟨a, ha, h1, h2, h3⟩ := Build.exists_mem_of_forall₂' h ha'
    refine ⟨h1, h2, ?_, fun c hc => ?_⟩
    · intro h0
      rw [h0] at h3
      exact (hx.2 a ha).2.2.1 (by simpa using h3)
    · obtain ⟨b, _, hb⟩ := Build.exists_mem_of_forall₂' h3 hc
      exact hb.2.1
  · rw [List.forall₂_map_left_iff, List.forall₂_map_right_iff]
    exact h.imp fun _ _ h => h.2.2

theorem rowsOf_moved (hσ : Rearranges n σ) {T T' : List (List ℝ)} (h : List.Forall₂ (Moved n σ) T T') :
    Moved n σ (rowsOf n T) (rowsOf n T') := by
  refine ⟨by simp [rowsOf], by simp [rowsOf], fun q hq => ?_⟩
  have hlt : σ q < n := by
    have : σ q ∈ (List.range n).map σ := List.mem_map.mpr ⟨q, List.mem_range.mpr hq, rfl⟩
    exact List.mem_range.mp (hσ.mem_iff.mp this)
  simp only [rowsOf, List.getElem?_map, List.getElem?_range hq, List.getElem?_range hlt, Option.map_some, Option.some.injEq]
  induction h with
  | nil => rfl
  | cons h _ ih =>
    rw [List.map_cons, List.map_cons, ih, List.getD_eq_getElem?_getD, List.getD_eq_getElem?_getD, h.2.2 q hq]

/-- **C65**: `te` does not care about the order of the rows. -/
theorem te_orderFree (qr : QR) (hσ : Rearranges n σ) (data : D → D → Prop) : OrderFree (teShuffle n σ data) (teClass qr) := by
  rintro ⟨k, x⟩ ⟨k', x'⟩ ⟨hk, hx, h⟩
  simp only at hk hx h
  subst hk
  obtain ⟨hx', hcols⟩ := moved_tables hx h
  have hkron := kron_moved hcols
  refine ⟨fun s v hv => ?_, fun s hs => ?_⟩
  · simp only [teClass] at hv ⊢
    rw [teTransform_tables hx] at hv
    rw [teTransform_tables hx']
    obtain ⟨v', h1, h2⟩ := moved_mapM hσ (rowsOf_moved hσ hkron) hv
    exact ⟨v', h2, h1⟩
  · rw [te_remember qr _ (k := k') (by simp)] at hs ⊢
    rw [← hs]
    obtain ⟨p1, p2, _⟩ := tables_product hx
    obtain ⟨q1, q2, _⟩ := tables_product hx'
    have hsum : (kronColumns (x'.map (·.cols))).map List.sum = (kronColumns (x.map (·.cols))).map List.sum := by
      generalize kronColumns (x.map (·.cols)) = X at hkron ⊢
      generalize kronColumns (x'.map (·.cols)) = Y at hkron ⊢
      induction hkron with
      | nil => rfl
      | cons h _ ih => rw [List.map_cons, List.map_cons, ih, (moved_perm hσ h).sum_eq]
    simp only [List.map_cons, List.map_nil, teMemorize, List.foldlM_cons, List.foldlM_nil, teMemorizeChunk, p1, q1, p2, q2, bind,
      Except.bind, hsum]

/-! ### Examples -/

/-- Example for `te_chunkFree`: two chunks with two rows and one row. -/
example : JoinedTables ![sampleTables, sampleTables'] (stackTables sampleTables sampleTables') ∧
    stackTables sampleTables sampleTables' = [⟨2, 3, [[1, 2, 9], [3, 4, 10]]⟩, ⟨2, 3, [[5, 6, 11], [7, 8, 12]]⟩] := by
  obtain ⟨h1, h2, h3⟩ := sampleTables_ok
  refine ⟨⟨?_, ?_, rfl⟩, rfl⟩
  · intro i
    fin_cases i
    · exact ⟨2, h1⟩
    · exact ⟨1, h2⟩
  · intro i j
    fin_cases i <;> fin_cases j
    · exact List.forall₂_same.mpr fun _ _ => rfl
    · exact h3
    · exact sameShape_symm h3
    · exact List.forall₂_same.mpr fun _ _ => rfl

/-- Example for `te_orderFree`: two rows are exchanged. -/
example : Rearranges 2 (1 - ·) ∧ Tables sampleTables 2 ∧ List.Forall₂ (MovedTable 2 (1 - ·)) sampleTables
    [⟨2, 2, [[2, 1], [4, 3]]⟩, ⟨2, 2, [[6, 5], [8, 7]]⟩] := by
  refine ⟨by unfold Rearranges; decide, sampleTables_ok.1, ?_⟩
  simp only [sampleTables, MovedTable, List.forall₂_cons, List.forall₂_nil_right_iff, and_true, Moved]
  repeat' constructor
  all_goals
    intro q hq
    interval_cases q <;> rfl

end Patsy.Props
