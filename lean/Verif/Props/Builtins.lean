import Verif.Model.Builtins
import Verif.Props.State
import Verif.Lemmas.SplineTransform
import Verif.Props.Transforms

/-!
# C55 for the stateful transforms of patsy
-/

set_option linter.unusedSectionVars false

namespace Patsy.Props

open Patsy.EvalFactor Patsy.Spec Patsy.Calls Patsy.Tokens Patsy.Memorize Patsy.Passes Patsy.State Patsy.SplineTransform

variable {D V A S F X Y W : Type} {n : Nat}

/-- Chunks of rows are put together one after the other; the other arguments are the same for all chunks. -/
def rowJoins (data : (Fin n → D) → D → Prop) : Joins n D (List Y) (W × List X) where
  data := data
  value v w := w = (List.ofFn v).flatten
  args a b := (∀ i, (a i).1 = b.1) ∧ b.2 = (List.ofFn fun i => (a i).2).flatten

theorem map_flatten_ofFn (g : X → Y) (x : Fin n → List X) :
    (List.ofFn x).flatten.map g = (List.ofFn fun i => (x i).map g).flatten := by
  rw [List.map_flatten, List.map_ofFn]
  rfl

theorem mapM_flatten_ofFn {g : X → Except Err Y} {x : Fin n → List X} {v : Fin n → List Y}
    (h : ∀ i, (x i).mapM g = .ok (v i)) : (List.ofFn x).flatten.mapM g = .ok (List.ofFn v).flatten := by
  rw [Build.mapM_ok]
  induction n with
  | zero => simp
  | succ n ih =>
    simp only [List.ofFn_succ, List.flatten_cons]
    exact List.rel_append (Build.mapM_ok.mp (h 0)) (ih fun i => h i.succ)

section

variable {ι K : Type} [Field K]

theorem foldlM_ok {B : Type} (g : B → A → B) (as : List A) (s : B) :
    as.foldlM (fun s a => (.ok (g s a) : Except Err B)) s = .ok (as.foldl g s) := by
  induction as generalizing s with
  | nil => rfl
  | cons a as ih => rw [List.foldlM_cons, List.foldl_cons, ← ih]; rfl

theorem foldl_args {B : Type} (g : B → List X → B) (a : Fin n → W × List X) (s : B) :
    (List.ofFn a).foldl (fun s a => g s a.2) s = (List.ofFn fun i => (a i).2).foldl g s := by
  rw [← List.foldl_map (f := Prod.snd) (g := g), List.map_ofFn]
  rfl

theorem center_remember (as : List (Unit × List (Row ι K))) :
    remember centerClass as = .ok (centerT.memorized (as.map Prod.snd)) := by
  rw [remember]
  show (as.foldlM (fun s a => (.ok (Center.memorizeChunk s a.2) : Except Err _)) Center.init >>= _) = _
  rw [foldlM_ok, ← List.foldl_map (f := Prod.snd) (g := Center.memorizeChunk)]
  rfl

theorem standardize_remember (sqrt : K → K) (as : List (StandardizeArgs K × List (Row ι K))) (c r : Bool) (ddof : K) :
    remember (standardizeClass sqrt) as = .ok ((standardizeT sqrt c r ddof).memorized (as.map Prod.snd)) := by
  rw [remember]
  show (as.foldlM (fun s a => (.ok (Standardize.memorizeChunk s a.2) : Except Err _)) Standardize.init >>= _) = _
  rw [foldlM_ok, ← List.foldl_map (f := Prod.snd) (g := Standardize.memorizeChunk)]
  rfl

theorem center_flatten {xs : List (List (Row ι K))} (h : xs ≠ []) : xs.foldl Center.memorizeChunk Center.init =
    [xs.flatten].foldl Center.memorizeChunk Center.init := by
  obtain ⟨h1, h2, _⟩ := center_memorized xs (Center.init : Center ι K)
  obtain ⟨h1', h2', _⟩ := center_memorized [xs.flatten] (Center.init : Center ι K)
  have e1 := h2 h
  have e2 := h2' (by simp)
  simp only [List.flatten_cons, List.flatten_nil, List.append_nil] at h1' e2
  cases hx : xs.foldl Center.memorizeChunk Center.init with
  | mk s c =>
    cases hy : [xs.flatten].foldl Center.memorizeChunk (Center.init : Center ι K) with
    | mk s' c' =>
      rw [hx] at h1 e1
      rw [hy] at h1' e2
      simp only at h1 e1 h1' e2
      rw [h1, h1', e1, e2]

theorem standardize_flatten {xs : List (List (Row ι K))} (h : xs ≠ []) :
    ∀ s : Standardize ι K, xs.foldl Standardize.memorizeChunk s = [xs.flatten].foldl Standardize.memorizeChunk s := by
  cases xs with
  | nil => exact absurd rfl h
  | cons x xs =>
    clear h
    induction xs generalizing x with
    | nil => intro s; simp
    | cons y ys ih =>
      intro s
      have := ih (x ++ y) s
      rw [List.foldl_cons, List.foldl_cons]
      rw [List.foldl_cons] at this
      have e : (s.memorizeChunk x).memorizeChunk y = s.memorizeChunk (x ++ y) := by
        simp [Standardize.memorizeChunk, List.foldl_append]
      rw [e, this]
      simp

/-- **C55**: `center` does not mind the chunks. -/
theorem center_chunkFree (data : (Fin (n + 1) → D) → D → Prop) : ChunkFree (rowJoins data) (centerClass (ι := ι) (K := K)) := by
  rintro a ⟨⟨⟩, x⟩ ⟨_, hx⟩
  simp only at hx
  subst hx
  refine ⟨fun s v h => ⟨_, rfl, ?_⟩, fun s h => ?_⟩
  · cases hs : s.sum with
    | none =>
      have := h 0
      simp [centerClass, Center.transform, hs] at this
    | some t =>
      simp only [centerClass, Center.transform, hs] at h ⊢
      rw [map_flatten_ofFn]
      congr 3
      funext i
      exact Except.ok.inj (h i)
  · rw [center_remember] at h ⊢
    rw [← h]
    simp only [Transform.memorized, centerT, List.map_cons, List.map_nil, List.map_ofFn]
    rw [center_flatten (by simp), center_flatten (xs := List.ofFn _) (by simp)]
    simp only [List.flatten_cons, List.flatten_nil, List.append_nil]
    rfl

/-- **C55**: neither do `standardize` and `scale`. -/
theorem standardize_chunkFree (sqrt : K → K) (data : (Fin (n + 1) → D) → D → Prop) :
    ChunkFree (rowJoins data) (standardizeClass (ι := ι) sqrt) := by
  rintro a ⟨kw, x⟩ ⟨hkw, hx⟩
  simp only at hkw hx
  subst hx
  refine ⟨fun s v h => ⟨_, rfl, ?_⟩, fun s h => ?_⟩
  · simp only [standardizeClass, Standardize.transform, hkw] at h ⊢
    cases hs : s.mean with
    | none =>
      simp only [hs] at h ⊢
      split at h
      · exact absurd (h 0) (by simp)
      · rename_i hc
        rw [if_neg hc]
        congr 3
        funext i
        exact Except.ok.inj (h i)
    | some m =>
      cases hs' : s.m2 with
      | none =>
        simp only [hs, hs'] at h ⊢
        split at h
        · exact absurd (h 0) (by simp)
        · rename_i hc
          rw [if_neg hc]
          congr 3
          funext i
          exact Except.ok.inj (h i)
      | some m2 =>
        simp only [hs, hs', Except.ok.injEq] at h ⊢
        rw [show v = _ from funext fun i => (h i).symm]
        cases kw.center <;> cases kw.rescale <;> simp [Function.comp_def]
  · rw [standardize_remember sqrt _ true true 0] at h ⊢
    rw [← h]
    simp only [Transform.memorized, standardizeT, List.map_cons, List.map_nil, List.map_ofFn]
    rw [standardize_flatten (by simp), standardize_flatten (xs := List.ofFn _) (by simp)]
    simp only [List.flatten_cons, List.flatten_nil, List.append_nil]
    rfl

end

theorem collect_remember {Z : Type} (fin : A → List ℝ → Except Err S) (tr : S → A → List ℝ → Except Err (List Z))
    (a : Fin (n + 1) → A × List ℝ) {kw : A} (h : ∀ i, (a i).1 = kw) :
    remember (collectClass fin tr) (List.ofFn a) = (fin kw (List.ofFn fun i => (a i).2).flatten).map .done := by
  have key : ∀ (as : List (A × List ℝ)) (t : Tmp A), (∀ x ∈ as, x.1 = kw) →
      as.foldlM (collectClass fin tr).chunk (.collecting t) =
        .ok (.collecting ⟨if as = [] then t.args else some kw, t.xs ++ as.map Prod.snd⟩) := by
    intro as
    induction as with
    | nil => intro t _; simp; rfl
    | cons x as ih =>
      intro t hx
      rw [List.foldlM_cons]
      show as.foldlM _ (Collecting.collecting (t.memorizeChunk x.1 x.2)) = _
      rw [ih _ fun y hy => hx y (List.mem_cons_of_mem _ hy)]
      simp [Tmp.memorizeChunk, hx x List.mem_cons_self]
  rw [remember]
  show ((List.ofFn a).foldlM _ (Collecting.collecting Tmp.init) >>= _) = _
  rw [key _ _ (by rw [List.forall_mem_ofFn_iff]; exact h)]
  show Except.map _ (Tmp.finish fin _) = _
  simp [Tmp.finish, Tmp.init, List.map_ofFn, Function.comp_def]

/-- A class that collects its data does not mind the chunks if it transforms row by row. -/
theorem collect_chunkFree {Z : Type} (fin : A → List ℝ → Except Err S) (tr : S → A → List ℝ → Except Err (List Z))
    (htr : ∀ s kw (x : Fin (n + 1) → List ℝ) v, (∀ i, tr s kw (x i) = .ok (v i)) →
      tr s kw (List.ofFn x).flatten = .ok (List.ofFn v).flatten)
    (data : (Fin (n + 1) → D) → D → Prop) : ChunkFree (rowJoins data) (collectClass fin tr) := by
  rintro a ⟨kw, x⟩ ⟨hkw, hx⟩
  simp only at hkw hx
  subst hx
  refine ⟨fun s v h => ⟨_, rfl, ?_⟩, fun s h => ?_⟩
  · cases s with
    | collecting t => exact absurd (h 0) (by simp [collectClass])
    | done s =>
      simp only [collectClass, hkw] at h ⊢
      exact htr s kw _ v h
  · rw [collect_remember fin tr a hkw] at h
    generalize (List.ofFn fun i => (a i).2).flatten = x at h ⊢
    have := collect_remember (n := 0) fin tr (fun _ => (kw, x)) (fun _ => rfl)
    simp only [List.ofFn_succ, List.ofFn_zero, List.flatten_cons, List.flatten_nil, List.append_nil] at this
    rw [this, h]

/-- **C55**: neither do `cr` and `cc`. -/
theorem cr_chunkFree (qr : QR) (cyclic : Bool) (data : (Fin (n + 1) → D) → D → Prop) :
    ChunkFree (rowJoins data) (crClass qr cyclic) :=
  collect_chunkFree _ _ (fun _ _ _ _ h => mapM_flatten_ofFn h) data

theorem evalBasis_ok {splev : Splev} {x knots : List ℝ} {degree : Nat} {v : List (List ℝ)} :
    evalBasis splev x knots degree = .ok v ↔ x ≠ [] ∧ knots ≠ [] ∧
      (∀ y ∈ x, (∃ k ∈ knots, k ≤ y) ∧ ∃ k ∈ knots, y ≤ k) ∧ v = x.map (basisRow splev (sorted knots) degree) := by
  by_cases hx : x = []
  · subst hx
    simp [evalBasis, bound, bind, Except.bind]
  by_cases hk : knots = []
  · subst hk
    constructor
    · intro h
      cases hm : x.min? with
      | none => simp [evalBasis, bound, bind, Except.bind, hm] at h
      | some a =>
        cases hm' : x.max? with
        | none => simp [evalBasis, bound, bind, Except.bind, hm, hm'] at h
        | some b => simp [evalBasis, bound, bind, Except.bind, hm, hm', sorted] at h
    · rintro ⟨_, h, _⟩
      exact absurd rfl h
  obtain ⟨l, hl, hl'⟩ := knots.toFinset.exists_min_image id (by simpa [List.toFinset_nonempty_iff] using hk)
  obtain ⟨u, hu, hu'⟩ := knots.toFinset.exists_max_image id (by simpa [List.toFinset_nonempty_iff] using hk)
  simp only [List.mem_toFinset, id] at hl hl' hu hu'
  rw [evalBasis_eq splev hl hu (fun k h => ⟨hl' k h, hu' k h⟩) degree hx]
  have hiff : (∀ v ∈ x, l ≤ v ∧ v ≤ u) ↔ ∀ y ∈ x, (∃ k ∈ knots, k ≤ y) ∧ ∃ k ∈ knots, y ≤ k := by
    refine forall₂_congr fun y _ => and_congr ⟨fun h => ⟨l, hl, h⟩, ?_⟩ ⟨fun h => ⟨u, hu, h⟩, ?_⟩
    · rintro ⟨k, h1, h2⟩; exact le_trans (hl' k h1) h2
    · rintro ⟨k, h1, h2⟩; exact le_trans h2 (hu' k h1)
  by_cases hc : ∀ v ∈ x, l ≤ v ∧ v ≤ u
  · rw [if_pos hc, Except.ok.injEq]
    exact ⟨fun h => ⟨hx, hk, hiff.mp hc, h.symm⟩, fun h => h.2.2.2.symm⟩
  · rw [if_neg hc]
    exact ⟨fun h => (by cases h), fun h => absurd (hiff.mpr h.2.2.1) hc⟩

/-- **C55**: neither does `bs`. -/
theorem bs_chunkFree (splev : Splev) (data : (Fin (n + 1) → D) → D → Prop) :
    ChunkFree (rowJoins data) (bsClass splev) := by
  apply collect_chunkFree
  intro s kw x v h
  simp only [bsTransform, bind_eq_ok, pure_eq_ok] at h ⊢
  choose u hu hv using h
  refine ⟨(List.ofFn u).flatten, ?_, ?_⟩
  · simp only [evalBasis_ok] at hu ⊢
    refine ⟨?_, (hu 0).2.1, ?_, ?_⟩
    · intro h0
      rw [List.flatten_eq_nil_iff] at h0
      exact (hu 0).1 (h0 _ (by simp [List.mem_ofFn]))
    · intro y hy
      rw [List.mem_flatten] at hy
      obtain ⟨l, hl, hy⟩ := hy
      rw [List.mem_ofFn] at hl
      obtain ⟨i, rfl⟩ := hl
      exact (hu i).2.2.1 y hy
    · rw [map_flatten_ofFn]
      congr 2
      funext i
      exact (hu i).2.2.2
  · rw [show v = _ from funext fun i => (hv i).symm]
    cases kw.includeIntercept <;> simp [Function.comp_def]

/-! ### What the calls compute on other data -/

section

variable {ι K : Type} [Field K]

/-- **C55**: a call `center(...)` anywhere in a formula subtracts, on any data, the column means of its own arguments on
the data of the memorisation. -/
theorem center_in_formula {P : Python D (List (Row ι K)) (Unit × List (Row ι K))}
    {classOf : String → Class (Center ι K) (Unit × List (Row ι K)) (List (Row ι K))} (hc : classOf "center" = centerClass)
    {chunks : List D} {e : Expr String} {σ : Nat → Center ι K} (h : Remembers P classOf chunks e σ) {k : Nat}
    {body : Expr (Nat × String)} (hs : ((k, "center"), body) ∈ sites (number 0 e)) :
    ∃ as, chunks.mapM (fun d => P.arguments (stateCall classOf σ) d body) = .ok as ∧
      ((as.map Prod.snd).flatten ≠ [] → ∀ a, stateCall classOf σ (k, "center") a =
        .ok (a.2.map fun r i => r i - mean (column i (as.map Prod.snd).flatten))) := by
  obtain ⟨as, h1, h2⟩ := h k _ body hs
  refine ⟨as, h1, fun hne a => ?_⟩
  rw [hc, center_remember] at h2
  rw [stateCall, hc, ← Except.ok.inj h2]
  exact center_batch hne a.2

/-- **C55**: a call `standardize(...)` anywhere in a formula uses, on any data, the column means and variances of its own
arguments on the data of the memorisation; the other arguments are those of the moment. -/
theorem standardize_in_formula [CharZero K] {sqrt : K → K} {P : Python D (List (Row ι K)) (StandardizeArgs K × List (Row ι K))}
    {classOf : String → Class (Standardize ι K) (StandardizeArgs K × List (Row ι K)) (List (Row ι K))} {f : String}
    (hc : classOf f = standardizeClass sqrt)
    {chunks : List D} {e : Expr String} {σ : Nat → Standardize ι K} (h : Remembers P classOf chunks e σ) {k : Nat}
    {body : Expr (Nat × String)} (hs : ((k, f), body) ∈ sites (number 0 e)) :
    ∃ as, chunks.mapM (fun d => P.arguments (stateCall classOf σ) d body) = .ok as ∧
      ((as.map Prod.snd).flatten ≠ [] → ∀ a, stateCall classOf σ (k, f) a =
        .ok (a.2.map fun r i =>
          (r i - if a.1.center then mean (column i (as.map Prod.snd).flatten) else 0) /
            if a.1.rescale then sqrt (variance a.1.ddof (column i (as.map Prod.snd).flatten)) else 1)) := by
  obtain ⟨as, h1, h2⟩ := h k _ body hs
  refine ⟨as, h1, fun hne a => ?_⟩
  rw [hc, standardize_remember sqrt _ a.1.center a.1.rescale a.1.ddof] at h2
  rw [stateCall, hc, ← Except.ok.inj h2]
  exact standardize_batch hne sqrt a.1.center a.1.rescale a.1.ddof a.2

end

/-! ### Example: `center(x + center(x))` -/

section

/-- Numbers. -/
abbrev Col := List (Row Unit ℚ)

/-- Enough of Python for the example: the variable `x`, a call, and the sum of both. -/
def samplePython : Python Col Col (Unit × Col) where
  expr s d vs := sum s d vs
  args s d vs := (sum s d vs).map fun v => ((), v)
where
  sum : Skel → Col → List Col → Except Err Col
    | .tok (.name, "x") .nil, d, [] => .ok d
    | .hole .nil, _, [v] => .ok v
    | .tok (.name, "x") (.tok (.op, "+") (.hole .nil)), d, [v] =>
      if d.length = v.length then .ok (List.zipWith (· + ·) d v) else .error .valueError
    | _, _, _ => .error .nameError

/-- `center(x + center(x))`. -/
def nestedCode : Code :=
  .tok (.name, "center") (.group .paren (.tok (.name, "x") (.tok (.op, "+") (.tok (.name, "center")
    (.group .paren (.tok (.name, "x") .nil) .nil)))) .nil)

/-- `x`. -/
def plainCode : Code := .tok (.name, "x") .nil

def onlyCenter (s : String) : Bool := s == "center"

def sampleTree : Bool → Code := fun b => if b then nestedCode else plainCode

def colOf (l : List ℚ) : Col := l.map fun q _ => q

def sampleStates : Except Err (List (Bool × FactorState (Center Unit ℚ))) :=
  memorizeFactors samplePython onlyCenter (fun _ => centerClass) id (fun _ _ => id) (fun b => (sampleTree b).render)
    [colOf [1, 2], colOf [3, 6]] [true, false]

theorem sample_good : GoodCode onlyCenter (fun b => (sampleTree b).render) [true, false] sampleTree := by
  have h : ∀ c : Code, (∀ s ∈ c.names false, s.length < 12) → NoReserved onlyCenter c := by
    intro c hc k f args _ h
    have hl := objName_long k f
    have := hc _ h
    omega
  intro f _
  refine ⟨rfl, ?_, h _ ?_⟩
  · cases f <;> simp [sampleTree, nestedCode, plainCode, Code.WF, bracketStrings]
  · cases f <;> decide +kernel

theorem sample_ok : isOk sampleStates = true := by decide +kernel

/-- Data are lists of rows as well. -/
def colJoins : Joins 2 Col Col (Unit × Col) := rowJoins fun d w => w = (List.ofFn d).flatten

theorem glued_length {j : (Fin n → V) → V → Prop} {vs : Fin n → List V} {l : List V} (h : Glued j vs l) (i : Fin n) :
    (vs i).length = l.length := by
  induction h with
  | nil => rfl
  | cons _ _ ih => simp [ih]

/-- The sample Python works row by row. -/
theorem sample_sum {s : Skel} {d : Fin 2 → Col} {vs : Fin 2 → List Col} {l : List Col} {v : Fin 2 → Col}
    (hg : Glued colJoins.value vs l) (h : ∀ i, samplePython.sum s (d i) (vs i) = .ok (v i)) :
    samplePython.sum s (List.ofFn d).flatten l = .ok (List.ofFn v).flatten := by
  have h0 := h 0
  have h1 := h 1
  cases hg with
  | nil =>
    unfold samplePython.sum at h0
    split at h0
    · have h2 := Except.ok.inj h0
      have : d 1 = v 1 := Except.ok.inj h1
      simp [samplePython.sum, List.ofFn_succ, this, h2]
    · rename_i he; cases he
    · rename_i he; cases he
    · cases h0
  | @cons vs' l' w' v' hv ht =>
    have hlen := fun i => glued_length ht i
    simp only [colJoins, rowJoins] at hv
    subst hv
    unfold samplePython.sum at h0
    split at h0
    · rename_i he; cases he
    · rename_i he
      obtain ⟨rfl, he2⟩ := List.cons.inj he
      have hl : l' = [] := List.eq_nil_of_length_eq_zero (by rw [← hlen 0, he2]; rfl)
      have he3 : vs' 1 = [] := List.eq_nil_of_length_eq_zero (by rw [hlen 1, hl]; rfl)
      have h2 := Except.ok.inj h0
      simp only [he3] at h1
      have : w' 1 = v 1 := Except.ok.inj h1
      rw [hl]
      simp [samplePython.sum, List.ofFn_succ, this, h2]
    · rename_i he
      obtain ⟨rfl, he2⟩ := List.cons.inj he
      have hl : l' = [] := List.eq_nil_of_length_eq_zero (by rw [← hlen 0, he2]; rfl)
      have he3 : vs' 1 = [] := List.eq_nil_of_length_eq_zero (by rw [hlen 1, hl]; rfl)
      simp only [he3, samplePython.sum] at h1
      split at h0
      · split at h1
        · rename_i hd0 hd1
          have h0 := Except.ok.inj h0
          have h1 := Except.ok.inj h1
          rw [hl]
          simp only [samplePython.sum, List.ofFn_succ, List.ofFn_zero, List.flatten_cons, List.flatten_nil, List.append_nil]
          rw [if_pos (by simp; omega), List.zipWith_append hd0, ← h0, show v (Fin.succ 0) = _ from h1.symm]
          rfl
        · cases h1
      · cases h0
    · cases h0

theorem sample_rowwise (e : Expr String) : RowwiseCode samplePython colJoins e := by
  constructor
  · rintro d whole vs l v rfl hg h
    exact ⟨_, rfl, sample_sum hg h⟩
  · rintro p - d whole vs l a rfl hg h
    have : ∃ v : Fin 2 → Col, ∀ i, samplePython.sum p.2.skel (d i) (vs i) = .ok (v i) ∧ a i = ((), v i) := by
      have : ∀ i, ∃ w, samplePython.sum p.2.skel (d i) (vs i) = .ok w ∧ a i = ((), w) := by
        intro i
        have := h i
        simp only [samplePython] at this
        cases hc : samplePython.sum p.2.skel (d i) (vs i) with
        | error e => rw [hc] at this; cases this
        | ok w => rw [hc] at this; exact ⟨w, rfl, (Except.ok.inj this).symm⟩
      choose v hv using this
      exact ⟨v, hv⟩
    obtain ⟨v, hv⟩ := this
    refine ⟨((), (List.ofFn v).flatten), ⟨fun _ => rfl, ?_⟩, ?_⟩
    · show (List.ofFn v).flatten = _
      congr 2
      funext i
      rw [(hv i).2]
    · simp only [samplePython]
      rw [sample_sum hg fun i => (hv i).1]
      rfl

/-- Example: the hypotheses of `chunked_values` are met by `center(x + center(x))` and `x` on two chunks.  The values on
the chunks and on the whole data. -/
example : ∃ states, sampleStates = .ok states ∧
    evalMemorized samplePython (fun _ => centerClass) states true (colOf [1, 2, 3, 6]) =
      wrapExc (plainValue samplePython (fun _ => centerClass) (readSource onlyCenter false nestedCode) (colOf [1, 2, 3, 6])) ∧
    evalMemorized samplePython (fun _ => centerClass) states true (colOf [1, 2]) = .ok (colOf [-4, -2]) ∧
    evalMemorized samplePython (fun _ => centerClass) states true (colOf [3, 6]) = .ok (colOf [0, 6]) ∧
    evalMemorized samplePython (fun _ => centerClass) states true (colOf [1, 2, 3, 6]) = .ok (colOf [-4, -2, 0, 6]) ∧
    evalMemorized samplePython (fun _ => centerClass) states true (colOf [10]) = .ok (colOf [14]) := by
  refine ⟨getOk sampleStates sample_ok, getOk_eq _, ?_, ?_, ?_, ?_, ?_⟩
  · exact (chunked_values (J := colJoins) (classOf := fun _ => centerClass) (d := ![colOf [1, 2], colOf [3, 6]]) sample_good (fun _ => .refl _) (fun _ _ _ => .refl _)
      (by decide) rfl (getOk_eq sample_ok) (by decide) (sample_rowwise _) (fun _ _ => center_chunkFree (n := 1) _)).1
  all_goals exact eq_ok_of_okIs (by decide +kernel)

/-- Example for `memorize_errors`: arguments that cannot be evaluated, which is a `PatsyError`, and a class that fails to
finish, whose error is passed on. -/
example : GoodCode onlyCenter (fun b => (sampleTree b).render) [true, false] sampleTree ∧
    memorizeFactors { samplePython with args := fun _ _ _ => .error .nameError } onlyCenter (fun _ => centerClass) id
      (fun _ _ => id) (fun b => (sampleTree b).render) [colOf [1, 2], colOf [3, 6]] [true, false] = .error .patsyError ∧
    memorizeFactors samplePython onlyCenter
      (fun _ => { (centerClass : Class (Center Unit ℚ) _ _) with finish := fun _ => .error .zeroDivisionError }) id
      (fun _ _ => id) (fun b => (sampleTree b).render) [colOf [1, 2], colOf [3, 6]] [true, false] =
        .error .zeroDivisionError :=
  ⟨sample_good, eq_of_failsWith (by decide +kernel), eq_of_failsWith (by decide +kernel)⟩

/-- Example for `memorized_states`: the states of the two calls of `center(x + center(x))`.  The inner call remembers the sum
12 of four numbers, the outer one the sum of `x + (x - 3)`. -/
example : Remembers samplePython (fun _ => centerClass) [colOf [1, 2], colOf [3, 6]] (readSource onlyCenter false nestedCode)
    (fun k => if k = 0 then ⟨some fun _ => 12, 4⟩ else ⟨some fun _ => 12, 4⟩) := by
  intro k f body hs
  have : sites (number 0 (readSource onlyCenter false nestedCode)) =
      [((0, "center"), .tok (.name, "x") (.tok (.op, "+") (.call (1, "center") (.tok (.name, "x") .nil) .nil))),
       ((1, "center"), .tok (.name, "x") .nil)] := by decide +kernel
  rw [this] at hs
  simp only [List.mem_cons, Prod.mk.injEq, List.not_mem_nil, or_false] at hs
  rcases hs with ⟨⟨rfl, rfl⟩, rfl⟩ | ⟨⟨rfl, rfl⟩, rfl⟩
  · refine ⟨[((), colOf [-1, 1]), ((), colOf [3, 9])], eq_ok_of_okIs (by decide +kernel), ?_⟩
    rw [center_remember]
    simp only [Transform.memorized, centerT, Center.memorizeFinish, Center.memorizeChunk, Center.init, colOf, List.map_cons,
      List.map_nil, List.foldl_cons, List.foldl_nil, List.sum_cons, List.sum_nil, List.length_cons, List.length_nil, if_true]
    congr 3
    funext i
    simp
    norm_num
  · refine ⟨[((), colOf [1, 2]), ((), colOf [3, 6])], eq_ok_of_okIs (by decide +kernel), ?_⟩
    rw [center_remember]
    simp only [Transform.memorized, centerT, Center.memorizeFinish, Center.memorizeChunk, Center.init, colOf, List.map_cons,
      List.map_nil, List.foldl_cons, List.foldl_nil, List.sum_cons, List.sum_nil, List.length_cons, List.length_nil]
    congr 3
    funext i
    simp
    norm_num

def trainStates (factors : List Bool) : Except Err (List (Bool × FactorState (Center Unit ℚ))) :=
  memorizeFactors samplePython onlyCenter (fun _ => centerClass) id (fun _ _ => id) (fun b => (sampleTree b).render)
    [colOf [1, 2, 3]] factors

theorem train_ok : isOk (trainStates [true, false]) = true := by decide +kernel

theorem train_alone_ok : isOk (trainStates [true]) = true := by decide +kernel

/-- Example for `training_values` and `memorized_alike`: the factor `center(x + center(x))` on its training data, together
with the factor `x`; and on other data, memorised with and without the factor `x`. -/
example : ∃ states alone, trainStates [true, false] = .ok states ∧ trainStates [true] = .ok alone ∧
    evalMemorized samplePython (fun _ => centerClass) states true (colOf [1, 2, 3]) =
      wrapExc (plainValue samplePython (fun _ => centerClass) (readSource onlyCenter false nestedCode) (colOf [1, 2, 3])) ∧
    plainValue samplePython (fun _ => centerClass) (readSource onlyCenter false nestedCode) (colOf [1, 2, 3]) =
      .ok (colOf [-2, 0, 2]) ∧
    evalMemorized samplePython (fun _ => centerClass) states true (colOf [7]) =
      evalMemorized samplePython (fun _ => centerClass) alone true (colOf [7]) := by
  refine ⟨_, _, getOk_eq train_ok, getOk_eq train_alone_ok, ?_, eq_ok_of_okIs (by decide +kernel), ?_⟩
  · exact (training_values (classOf := fun _ => centerClass) sample_good (fun _ => .refl _) (fun _ _ _ => .refl _) (by decide) _).1
      _ (getOk_eq train_ok) true (by decide)
  · exact memorized_alike (classOf := fun _ => centerClass) sample_good (fun f hf => sample_good f (by
        have : f = true := by simpa using hf
        simp [this])) (fun _ => .refl _) (fun _ => .refl _) (fun _ _ _ => .refl _) (fun _ _ _ => .refl _) (by decide) (by decide)
      [colOf [1, 2, 3]] (getOk_eq train_ok) (getOk_eq train_alone_ok) true (by decide) (by decide) _

end

end Patsy.Props
