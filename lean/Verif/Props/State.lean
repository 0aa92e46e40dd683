import Mathlib.Algebra.BigOperators.Group.List.Lemmas
import Mathlib.Algebra.CharZero.Defs
import Mathlib.Data.Fin.VecNotation
import Mathlib.Analysis.Real.Sqrt
import Mathlib.Tactic.FieldSimp
import Mathlib.Tactic.FinCases
import Mathlib.Tactic.NormNum
import Mathlib.Tactic.Ring
import Mathlib.Tactic.LinearCombination
import Verif.Model.State

/-!
# Property C23: incremental centring and standardising equal the batch definitions
-/

set_option linter.unusedSectionVars false

namespace Patsy.Props

open Patsy.State

variable {ι K : Type} [Field K]

/-! ### Specification -/

/-- The column of an array. -/
def column (i : ι) (data : List (Row ι K)) : List K := data.map fun r => r i

/-- The mean of a list of numbers. -/
def mean (l : List K) : K := l.sum / (l.length : K)

/-- The variance with delta degrees of freedom `ddof`. -/
def variance (ddof : K) (l : List K) : K :=
  (l.map fun x => (x - mean l) ^ 2).sum / ((l.length : K) - ddof)

/-! ### Helper lemmas -/

theorem column_sum (i : ι) (data : List (Row ι K)) : data.sum i = (column i data).sum := by
  induction data with
  | nil => rfl
  | cons r l ih => simp [column, List.sum_cons] at ih ⊢; rw [ih]

theorem column_append (i : ι) (a b : List (Row ι K)) : column i (a ++ b) = column i a ++ column i b := by
  simp [column]

theorem center_memorized (chunks : List (List (Row ι K))) (s : Center ι K) :
    (chunks.foldl Center.memorizeChunk s).count = s.count + chunks.flatten.length ∧
    (chunks ≠ [] → (chunks.foldl Center.memorizeChunk s).sum = some (s.sum.getD 0 + chunks.flatten.sum)) ∧
    (chunks = [] → (chunks.foldl Center.memorizeChunk s).sum = s.sum) := by
  induction chunks generalizing s with
  | nil => simp
  | cons c cs ih =>
    obtain ⟨h1, h2, h3⟩ := ih (s.memorizeChunk c)
    refine ⟨?_, fun _ => ?_, by simp⟩
    · rw [List.foldl_cons, h1]
      simp [Center.memorizeChunk, Nat.add_assoc]
    · rw [List.foldl_cons]
      have hs : (s.memorizeChunk c).sum = some (s.sum.getD 0 + c.sum) := by
        cases h : s.sum <;> simp [Center.memorizeChunk, h]
      by_cases hc : cs = []
      · rw [h3 hc, hs, hc]; simp
      · rw [h2 hc, hs]
        simp [add_assoc]

/-- **C23**, `center`.  After any chunks that contain at least one row in total, `center`
subtracts from each row the column means of all the memorised rows. -/
theorem center_batch {chunks : List (List (Row ι K))} (h : chunks.flatten ≠ []) (x : List (Row ι K)) :
    centerT.transform (centerT.memorized chunks) x =
      .ok (x.map fun r i => r i - mean (column i chunks.flatten)) := by
  have hne : chunks ≠ [] := by rintro rfl; exact h rfl
  obtain ⟨h1, h2, _⟩ := center_memorized chunks (Center.init : Center ι K)
  have h2 := h2 hne
  simp only [centerT, Transform.memorized, Center.memorizeFinish, Center.transform]
  rw [h2, h1]
  generalize chunks.flatten = data
  simp only [Center.init, Option.getD_none, Nat.zero_add, zero_add]
  congr 1
  apply List.map_congr_left
  intro r _
  funext i
  simp [mean, column_sum, column]

/-- The state of the online algorithm. -/
def onlineState [CharZero K] (s : Nat × Row ι K × Row ι K) (data : List (Row ι K)) : Prop :=
  s.1 = data.length ∧
  (∀ i, s.2.1 i * (data.length : K) = (column i data).sum) ∧
  (∀ i, s.2.2 i + s.2.1 i ^ 2 * (data.length : K) = ((column i data).map fun x => x ^ 2).sum) ∧
  (data = [] → s.2.1 = 0 ∧ s.2.2 = 0)

theorem online_step [CharZero K] {s : Nat × Row ι K × Row ι K} {data : List (Row ι K)}
    (h : onlineState s data) (x : Row ι K) : onlineState (Standardize.step s x) (data ++ [x]) := by
  obtain ⟨n, mean, m2⟩ := s
  obtain ⟨h1, h2, h3, h4⟩ := h
  simp only at h1 h2 h3 h4
  subst h1
  have hn : ((data.length : K) + 1) ≠ 0 := by
    have := Nat.cast_ne_zero (R := K).mpr (Nat.succ_ne_zero data.length)
    simpa using this
  refine ⟨by simp [Standardize.step], ?_, ?_, by simp⟩
  · intro i
    have := h2 i
    rw [column_append]
    simp only [Standardize.step, column, List.map_cons, List.map_nil, List.sum_append,
      List.sum_cons, List.sum_nil, List.length_append, List.length_cons, List.length_nil, Pi.add_apply,
      Pi.sub_apply] at this ⊢
    rw [← this]
    push_cast
    field_simp
    ring
  · intro i
    have e2 := h2 i
    have e3 := h3 i
    rw [column_append]
    simp only [Standardize.step, column, List.map_cons, List.map_nil, List.map_append,
      List.sum_append, List.sum_cons, List.sum_nil, List.length_append, List.length_cons, List.length_nil,
      Pi.add_apply, Pi.sub_apply, Pi.mul_apply] at e2 e3 ⊢
    rw [← e3]
    push_cast
    field_simp
    ring

theorem online_foldl [CharZero K] (rows : List (Row ι K)) : ∀ {s : Nat × Row ι K × Row ι K}
    {data : List (Row ι K)}, onlineState s data →
    onlineState (rows.foldl Standardize.step s) (data ++ rows) := by
  induction rows with
  | nil => intro s data h; simpa using h
  | cons x rows ih =>
    intro s data h
    have := ih (online_step h x)
    simpa using this

theorem standardize_memorized [CharZero K] (chunks : List (List (Row ι K))) :
    ∀ {s : Standardize ι K} {data : List (Row ι K)},
    onlineState (s.n, s.mean.getD 0, s.m2.getD 0) data →
    let t := chunks.foldl Standardize.memorizeChunk s
    onlineState (t.n, t.mean.getD 0, t.m2.getD 0) (data ++ chunks.flatten) ∧
    (chunks ≠ [] → t.mean.isSome ∧ t.m2.isSome) := by
  induction chunks with
  | nil => intro s data h; simpa using h
  | cons c cs ih =>
    intro s data h
    have h1 : onlineState ((s.memorizeChunk c).n, (s.memorizeChunk c).mean.getD 0,
        (s.memorizeChunk c).m2.getD 0) (data ++ c) := by
      simpa [Standardize.memorizeChunk] using online_foldl c h
    obtain ⟨h2, h3⟩ := ih h1
    refine ⟨by simpa using h2, fun _ => ?_⟩
    by_cases hc : cs = []
    · subst hc; simp [Standardize.memorizeChunk]
    · exact h3 hc

theorem sum_sq_dev (l : List K) (m : K) :
    (l.map fun x => (x - m) ^ 2).sum = (l.map fun x => x ^ 2).sum - 2 * m * l.sum + m ^ 2 * (l.length : K) := by
  induction l with
  | nil => simp
  | cons x l ih =>
    simp only [List.map_cons, List.sum_cons, List.length_cons, ih]
    push_cast
    ring

/-- **C23**, `standardize`.  After any chunks that contain at least one row in total,
`standardize` subtracts the column means of all the memorised rows (if `center`) and divides
by the square root of the column variances with the requested `ddof` (if `rescale`). -/
theorem standardize_batch [CharZero K] {chunks : List (List (Row ι K))} (h : chunks.flatten ≠ [])
    (sqrt : K → K) (center rescale : Bool) (ddof : K) (x : List (Row ι K)) :
    (standardizeT sqrt center rescale ddof).transform
        ((standardizeT sqrt center rescale ddof).memorized chunks) x =
      .ok (x.map fun r i =>
        (r i - if center then mean (column i chunks.flatten) else 0) /
          if rescale then sqrt (variance ddof (column i chunks.flatten)) else 1) := by
  have hne : chunks ≠ [] := by rintro rfl; exact h rfl
  have h0 : onlineState ((Standardize.init : Standardize ι K).n, (Standardize.init : Standardize ι K).mean.getD 0,
      (Standardize.init : Standardize ι K).m2.getD 0) [] := by
    refine ⟨rfl, fun i => ?_, fun i => ?_, fun _ => ⟨rfl, rfl⟩⟩
    · simp [column]
    · simp [column, Standardize.init]
  obtain ⟨⟨h1, h2, h3, _⟩, h4⟩ := standardize_memorized chunks h0
  obtain ⟨h5, h6⟩ := h4 hne
  rw [Option.isSome_iff_exists] at h5 h6
  obtain ⟨mu, h5⟩ := h5
  obtain ⟨m2, h6⟩ := h6
  simp only [h5, h6, Option.getD_some, List.nil_append] at h1 h2 h3
  simp only [standardizeT, Transform.memorized, Standardize.memorizeFinish, Standardize.transform, h5, h6, h1]
  generalize chunks.flatten = data at *
  have hlen : (data.length : K) ≠ 0 := by
    rw [Nat.cast_ne_zero]
    simpa using h
  have hmean : ∀ i, mu i = mean (column i data) := by
    intro i
    rw [mean, ← h2 i]
    simp only [column, List.length_map]
    field_simp
  have hvar : ∀ i, m2 i / ((data.length : K) - ddof) = variance ddof (column i data) := by
    intro i
    have e : (column i data).length = data.length := by simp [column]
    rw [variance, sum_sq_dev, ← h3 i, ← hmean i, ← h2 i, e]
    congr 1
    ring
  simp only [hvar]
  congr 1
  cases center <;> cases rescale <;> simp [hmean, sub_eq_add_neg, Function.comp_def]
  · intro r _
    funext i
    simp [hmean]

/-- **C23**, independence.  Two ways of splitting the same rows into chunks, in any order, give
the same transformation of any data. -/
theorem center_chunks_irrelevant {chunks chunks' : List (List (Row ι K))} (h : chunks.flatten ≠ [])
    (hp : chunks.flatten.Perm chunks'.flatten) (x : List (Row ι K)) :
    centerT.transform (centerT.memorized chunks) x = centerT.transform (centerT.memorized chunks') x := by
  have h' : chunks'.flatten ≠ [] := fun e => h (by rw [e] at hp; exact hp.eq_nil)
  rw [center_batch h, center_batch h']
  have : ∀ i, mean (column i chunks.flatten) = mean (column i chunks'.flatten) := by
    intro i
    have hq : (column i chunks.flatten).Perm (column i chunks'.flatten) := hp.map _
    rw [mean, mean, hq.sum_eq, hq.length_eq]
  simp only [this]

theorem mean_perm {l l' : List K} (h : l.Perm l') : mean l = mean l' := by
  rw [mean, mean, h.sum_eq, h.length_eq]

theorem variance_perm {l l' : List K} (h : l.Perm l') (d : K) : variance d l = variance d l' := by
  rw [variance, variance, mean_perm h, h.length_eq, (h.map _).sum_eq]

theorem standardize_chunks_irrelevant [CharZero K] {chunks chunks' : List (List (Row ι K))}
    (h : chunks.flatten ≠ []) (hp : chunks.flatten.Perm chunks'.flatten) (sqrt : K → K)
    (center rescale : Bool) (ddof : K) (x : List (Row ι K)) :
    (standardizeT sqrt center rescale ddof).transform
        ((standardizeT sqrt center rescale ddof).memorized chunks) x =
      (standardizeT sqrt center rescale ddof).transform
        ((standardizeT sqrt center rescale ddof).memorized chunks') x := by
  have h' : chunks'.flatten ≠ [] := fun e => h (by rw [e] at hp; exact hp.eq_nil)
  rw [standardize_batch h, standardize_batch h']
  have h1 : ∀ i, mean (column i chunks.flatten) = mean (column i chunks'.flatten) :=
    fun i => mean_perm (hp.map _)
  have h2 : ∀ i, variance ddof (column i chunks.flatten) = variance ddof (column i chunks'.flatten) :=
    fun i => variance_perm (hp.map _) _
  simp only [h1, h2]

/-- **C23**, plain calls.  Called as an ordinary function (outside a formula) a stateful
transform memorises its argument as a single chunk. -/
theorem center_call {x : List (Row ι K)} (h : x ≠ []) :
    centerT.call x = .ok (x.map fun r i => r i - mean (column i x)) := by
  have := center_batch (chunks := [x]) (by simpa using h) x
  simpa [Transform.call, Transform.memorized] using this

theorem standardize_call [CharZero K] {x : List (Row ι K)} (h : x ≠ []) (sqrt : K → K)
    (center rescale : Bool) (ddof : K) :
    (standardizeT sqrt center rescale ddof).call x =
      .ok (x.map fun r i => (r i - if center then mean (column i x) else 0) /
          if rescale then sqrt (variance ddof (column i x)) else 1) := by
  have := standardize_batch (chunks := [x]) (by simpa using h) sqrt center rescale ddof x
  simpa [Transform.call, Transform.memorized] using this

theorem mean_affine [CharZero K] {l : List K} (h : l ≠ []) (a b : K) :
    mean (l.map fun x => (x - a) / b) = (mean l - a) / b := by
  have hlen : (l.length : K) ≠ 0 := by rw [Nat.cast_ne_zero]; simpa using h
  have hs : ∀ l : List K, (l.map fun x => (x - a) / b).sum = (l.sum - a * (l.length : K)) / b := by
    intro l
    induction l with
    | nil => simp
    | cons x l ih =>
      simp only [List.map_cons, List.sum_cons, List.length_cons, ih]
      push_cast
      ring
  rw [mean, mean, hs, List.length_map]
  rw [div_div, mul_comm b, ← div_div, sub_div, mul_div_cancel_right₀ _ hlen]

theorem variance_affine [CharZero K] {l : List K} (h : l ≠ []) (a b d : K) :
    variance d (l.map fun x => (x - a) / b) = variance d l / b ^ 2 := by
  rw [variance, mean_affine h, variance, List.length_map, List.map_map]
  have : ((fun x => (x - (mean l - a) / b) ^ 2) ∘ fun x => (x - a) / b) =
      fun x => (x - mean l) ^ 2 / b ^ 2 := by
    funext x
    simp only [Function.comp]
    rw [← sub_div, div_pow]
    congr 1
    ring
  rw [this]
  have hs : ∀ l' : List K, (l'.map fun x => (x - mean l) ^ 2 / b ^ 2).sum =
      (l'.map fun x => (x - mean l) ^ 2).sum / b ^ 2 := by
    intro l'
    induction l' with
    | nil => simp
    | cons x l' ih => simp only [List.map_cons, List.sum_cons, ih]; ring
  rw [hs, div_right_comm]

/-- **C23**, what the user wants.  The memorised data, standardised, have mean `0` and variance
`1` in every column that is not constant (real numbers, real square root). -/
theorem standardized_moments {chunks : List (List (Row ι ℝ))} (h : chunks.flatten ≠ []) (ddof : ℝ) :
    ∃ y, (standardizeT Real.sqrt true true ddof).transform
        ((standardizeT Real.sqrt true true ddof).memorized chunks) chunks.flatten = .ok y ∧
      y.length = chunks.flatten.length ∧
      ∀ i, mean (column i y) = 0 ∧
        (0 < variance ddof (column i chunks.flatten) → variance ddof (column i y) = 1) := by
  refine ⟨_, standardize_batch h _ _ _ _ _, List.length_map .., fun i => ?_⟩
  generalize chunks.flatten = data at *
  have hne : column i data ≠ [] := by simpa [column] using h
  have hcol : column i (data.map fun r i => (r i - if (true : Bool) = true then mean (column i data) else 0) /
      if (true : Bool) = true then Real.sqrt (variance ddof (column i data)) else 1) =
      (column i data).map fun x => (x - mean (column i data)) / Real.sqrt (variance ddof (column i data)) := by
    simp [column, Function.comp_def]
  rw [hcol, mean_affine hne, variance_affine hne, sub_self, zero_div]
  refine ⟨rfl, fun hv => ?_⟩
  rw [Real.sq_sqrt hv.le, div_self hv.ne']

/-- Without any memorised chunk the transforms cannot be applied. -/
theorem no_data_error (x : List (Row ι K)) :
    centerT.transform (centerT.memorized []) x = .error .typeError := rfl

/-- Example: two chunks and two columns. -/
example : ([[![1, 10], ![2, 20]], [], [![6, 60]]] : List (List (Row (Fin 2) ℚ))).flatten ≠ [] := by simp

example : centerT.transform (centerT.memorized
    ([[![1, 10], ![2, 20]], [], [![6, 60]]] : List (List (Row (Fin 2) ℚ)))) [![0, 0], ![3, 5]] =
    .ok [![-3, -30], ![0, -25]] := by
  rw [center_batch (by simp)]
  congr 1
  simp only [List.map_cons, List.map_nil, List.cons.injEq, and_true]
  constructor <;> (funext i; fin_cases i <;> norm_num [mean, column])

example : (standardizeT (fun x : ℚ => if x = 14 / 3 then 2 else 20) true true 0).transform
    ((standardizeT (fun x : ℚ => if x = 14 / 3 then 2 else 20) true true 0).memorized
      ([[![1, 10], ![2, 20]], [], [![6, 60]]] : List (List (Row (Fin 2) ℚ)))) [![0, 0], ![3, 5]] =
    .ok [![-3 / 2, -30 / 20], ![0, -25 / 20]] := by
  rw [standardize_batch (by simp)]
  congr 1
  simp only [List.map_cons, List.map_nil, List.cons.injEq, and_true]
  constructor <;> (funext i; fin_cases i <;> norm_num [mean, variance, column])

/-- Example: a column with positive variance. -/
example : 0 < variance 1 (column 0 ([![1, 10], ![2, 20], ![6, 60]] : List (Row (Fin 2) ℚ))) := by
  decide +kernel

end Patsy.Props
