import Verif.Lemmas.TensorSpace
import Verif.Props.SplineConstraints

/-! # C56: the functions that `te` produces -/

namespace Patsy.Props

open Patsy.SplineTransform Patsy.Spec Patsy.CubicSpline Patsy.TensorSpace
open Patsy.Desc (bind_ok pure_ok)
open Finset (range)

/-! ### The rows of the tensor product -/

theorem zipWith_getD {a b : List ℝ} {i : Nat} (ha : i < a.length) (hb : i < b.length) :
    (List.zipWith (· * ·) a b).getD i 0 = a.getD i 0 * b.getD i 0 := by
  rw [List.getD_eq_getElem _ _ (by simp [ha, hb]), List.getD_eq_getElem _ _ ha, List.getD_eq_getElem _ _ hb]
  simp

/-- A row of the product consists of the products of the entries of the rows. -/
theorem kron_row {n i : Nat} (hi : i < n) {Ms : List (List (List ℝ))} (hne : Ms ≠ [])
    (h : ∀ A ∈ Ms, ∀ a ∈ A, a.length = n) :
    (kronColumns Ms).map (fun c => c.getD i 0) = kronRow (Ms.map fun A => A.map fun c => c.getD i 0) := by
  induction Ms with
  | nil => exact absurd rfl hne
  | cons A Ms ih =>
    cases Ms with
    | nil => simp [kronColumns, kronRow, times]
    | cons B Ms =>
      have ih' := ih (by simp) fun A hA => h A (List.mem_cons_of_mem _ hA)
      have hlen := kron_column_length (Ms := B :: Ms) fun A hA => h A (List.mem_cons_of_mem _ hA)
      rw [kronColumns_cons A (by simp), List.map_cons, kronRow, ← ih', times, List.map_flatMap, List.flatMap_map]
      refine List.flatMap_congr fun a ha => ?_
      rw [List.map_map, List.map_map]
      refine List.map_congr_left fun b hb => ?_
      simp only [Function.comp]
      rw [zipWith_getD (by rw [h A List.mem_cons_self a ha]; exact hi) (by rw [hlen b hb]; exact hi)]

variable {k : Nat} {X : Fin k → Type} {b : (i : Fin k) → X i → List ℝ} {n : Fin k → Nat}

theorem tablesOf_tables (hk : k ≠ 0) (hn : ∀ i, n i ≠ 0) (ps : List (∀ i, X i)) : Tables (tablesOf b n ps) ps.length := by
  refine ⟨?_, ?_⟩
  · intro h
    have := congrArg List.length h
    simp [tablesOf] at this
    exact hk this
  · intro a ha
    obtain ⟨i, rfl⟩ := (List.mem_ofFn' _ _).1 ha
    refine ⟨rfl, rfl, ?_, ?_⟩
    · simpa using hn i
    · intro c hc
      obtain ⟨j, -, rfl⟩ := List.mem_map.1 hc
      simp

/-- The rows of the products of the columns. -/
def productRow (b : (i : Fin k) → X i → List ℝ) (p : ∀ i, X i) : List ℝ := kronRow (List.ofFn fun i => b i (p i))

theorem tables_rows (hk : k ≠ 0) (hb : ∀ i x, (b i x).length = n i) (hn : ∀ i, n i ≠ 0) (ps : List (∀ i, X i)) :
    rowsOf ps.length (kronColumns ((tablesOf b n ps).map (·.cols))) = ps.map (productRow b) := by
  have ht := tablesOf_tables (b := b) hk hn ps
  apply List.ext_getElem
  · simp [rowsOf]
  · intro i h1 h2
    have hi : i < ps.length := by simpa using h2
    simp only [rowsOf, List.getElem_map, List.getElem_range]
    rw [kron_row hi (by simpa using ht.1)]
    · simp only [tablesOf, List.map_ofFn, productRow]
      congr 2
      funext j
      simp only [Function.comp, List.map_map]
      apply List.ext_getElem
      · simp [hb]
      · intro l h3 h4
        simp only [List.length_map, List.length_range] at h3
        simp [List.getD_eq_getElem?_getD, List.getElem?_eq_getElem hi, List.getElem?_eq_getElem h4]
    · intro A hA a ha
      obtain ⟨arr, harr, rfl⟩ := List.mem_map.mp hA
      exact (ht.2 arr harr).2.2.2 a ha

/-- `te` of data, before constraints are absorbed. -/
theorem te_rows (hk : k ≠ 0) (hb : ∀ i x, (b i x).length = n i) (hn : ∀ i, n i ≠ 0) (qr : QR) (c : Option Cons)
    (ps : List (∀ i, X i)) :
    teTransform qr c (tablesOf b n ps) = (ps.map (productRow b)).mapM (absorbAny qr c) := by
  obtain ⟨p1, p2, -⟩ := tables_product (tablesOf_tables (b := b) hk hn ps)
  simp only [teTransform, p1, p2, bind, Except.bind, tables_rows hk hb hn ps]

theorem te_rows_none (hk : k ≠ 0) (hb : ∀ i x, (b i x).length = n i) (hn : ∀ i, n i ≠ 0) (qr : QR)
    (ps : List (∀ i, X i)) : teTransform qr none (tablesOf b n ps) = .ok (ps.map (productRow b)) := by
  rw [te_rows hk hb hn, Patsy.Build.mapM_ok]
  exact List.forall₂_same.mpr fun _ _ => rfl

/-- The coefficients `γ` give `F` from the columns of `te`, on all data. -/
def Produces (qr : QR) (c : Option Cons) (b : (i : Fin k) → X i → List ℝ) (n : Fin k → Nat) (F : (∀ i, X i) → ℝ)
    (γ : Nat → ℝ) : Prop :=
  ∀ ps : List (∀ i, X i), ∃ rows, teTransform qr c (tablesOf b n ps) = .ok rows ∧
    ps.map F = rows.map fun row => combine row γ

/-- Without constraints, `te` produces exactly the functions that are, in each variable separately, a combination of the
columns of its argument. -/
theorem te_space (hk : k ≠ 0) (hb : ∀ i x, (b i x).length = n i) (hn : ∀ i, n i ≠ 0) (qr : QR) (ts : List (∀ i, X i))
    (F : (∀ i, X i) → ℝ) :
    (∃ c γ, teMemorize .none [tablesOf b n ts] = .ok c ∧ Produces qr c b n F γ) ↔
      Separately (fun i => Spanned (b i)) F := by
  rw [← kron_space hb]
  have hmem : teMemorize .none [tablesOf b n ts] = .ok none := by
    simp [teMemorize, teMemorizeChunk, teFinish, TeTmp.init, bind, Except.bind, pure, Except.pure]
  rw [hmem]
  constructor
  · rintro ⟨c, γ, hc, h⟩
    obtain rfl := Except.ok.inj hc
    refine ⟨γ, fun p => ?_⟩
    obtain ⟨rows, h1, h2⟩ := h [p]
    rw [te_rows_none hk hb hn] at h1
    rw [← Except.ok.inj h1] at h2
    simpa [productRow] using h2
  · rintro ⟨γ, hγ⟩
    refine ⟨none, γ, rfl, fun ps => ⟨_, te_rows_none hk hb hn qr ps, ?_⟩⟩
    rw [List.map_map]
    exact List.map_congr_left fun p _ => hγ p

/-- Two arguments with the columns `1` and `x`. -/
def lineRows (_ : Fin 2) (x : ℝ) : List ℝ := [1, x]

theorem lineRows_spanned (i : Fin 2) (f : ℝ → ℝ) : Spanned (lineRows i) f ↔ ∃ a c, ∀ x, f x = a + c * x := by
  constructor
  · rintro ⟨γ, hγ⟩
    exact ⟨γ 0, γ 1, fun x => by rw [hγ]; simp [lineRows, combine, Finset.sum_range_succ, mul_comm]⟩
  · rintro ⟨a, c, h⟩
    exact ⟨fun j => if j = 0 then a else c, fun x => by rw [h]; simp [lineRows, combine, Finset.sum_range_succ, mul_comm]⟩

/-- `te` of two lines: `x * y + 2` is produced, `x * x` is not. -/
example (qr : QR) (ts : List (Fin 2 → ℝ)) :
    (∃ c γ, teMemorize .none [tablesOf lineRows (fun _ => 2) ts] = .ok c ∧
      Produces qr c lineRows (fun _ => 2) (fun p => p 0 * p 1 + 2) γ) ∧
    ¬ ∃ c γ, teMemorize .none [tablesOf lineRows (fun _ => 2) ts] = .ok c ∧
      Produces qr c lineRows (fun _ => 2) (fun p => p 0 * p 0) γ := by
  have hb : ∀ i x, (lineRows i x).length = 2 := fun _ _ => rfl
  constructor
  · refine (te_space (b := lineRows) (by decide) hb (fun _ => by decide) qr ts _).2 fun i p => (lineRows_spanned i _).2 ?_
    fin_cases i
    · exact ⟨2, p 1, fun x => by simp; ring⟩
    · exact ⟨2, p 0, fun x => by simp; ring⟩
  · intro h
    have := (te_space (b := lineRows) (by decide) hb (fun _ => by decide) qr ts _).1 h 0 fun _ => 0
    obtain ⟨a, c, h⟩ := (lineRows_spanned 0 _).1 this
    simp only [Function.update_self] at h
    have h0 := h 0
    have h1 := h 1
    have h2 := h 2
    linarith

/-- What `te` remembers with `constraints='center'`. -/
theorem te_center_memory (hk : k ≠ 0) (hb : ∀ i x, (b i x).length = n i) (hn : ∀ i, n i ≠ 0) (ts : List (∀ i, X i)) :
    ∃ c, teMemorize .center [tablesOf b n ts] = .ok (some c) ∧ c.rows = 1 ∧ (∀ p, (productRow b p).length = c.cols) ∧
      ∀ β : Nat → ℝ, ∑ j ∈ range c.cols, c.entry 0 j * β j =
        (ts.map fun p => combine (productRow b p) β).sum / ts.length := by
  have ht := tablesOf_tables (b := b) hk hn ts
  obtain ⟨p1, p2, p3⟩ := tables_product ht
  have hrows := tables_rows hk hb hn ts
  have hTl : (kronColumns ((tablesOf b n ts).map (·.cols))).length = (List.ofFn n).prod := by
    rw [kronColumns_length _ (by simpa using ht.1), tablesOf, List.map_ofFn, List.map_ofFn]
    congr 2
    funext i
    simp
  generalize hT : kronColumns ((tablesOf b n ts).map (·.cols)) = T at p1 p3 hrows hTl
  refine ⟨⟨1, T.length, fun _ j => (T.map List.sum).getD j 0 / (ts.length : ℝ)⟩, ?_, rfl, ?_, ?_⟩
  · simp only [teMemorize, List.foldlM_cons, List.foldlM_nil, teMemorizeChunk, TeTmp.init, Option.getD_none, p1, addSum,
      bind, Except.bind, pure, Except.pure, p2]
    rw [if_neg (by simp)]
    simp only [teFinish]
    have e : List.zipWith (· + ·) (List.replicate (T.map List.sum).length 0) (T.map List.sum) = T.map List.sum := by
      apply List.ext_getElem <;> simp
    rw [e]
    simp
  · intro p
    rw [productRow, prod_rows hb, hTl]
  · intro β
    have hlen : ∀ r ∈ ts.map (productRow b), r.length = T.length := by
      intro r hr
      obtain ⟨p, -, rfl⟩ := List.mem_map.1 hr
      rw [productRow, prod_rows hb, hTl]
    have := meanRow_combine hlen β
    rw [List.map_map, List.length_map] at this
    refine Eq.trans (Finset.sum_congr rfl fun j hj => ?_) this
    have hj' : j < T.length := Finset.mem_range.1 hj
    congr 1
    rw [meanRow, List.length_map, ← hrows]
    show (T.map List.sum).getD j 0 / (ts.length : ℝ) = _
    congr 1
    rw [List.getD_eq_getElem _ _ (by simpa using hj'), List.getElem_map]
    congr 1
    apply List.ext_getElem
    · simp [rowsOf, p3 _ (List.getElem_mem hj')]
    · intro i h1 h2
      simp only [rowsOf, List.length_map, List.length_range] at h2
      simp only [rowsOf, List.getElem_map, List.getElem_range]
      rw [List.getD_eq_getElem _ _ (by simpa using hj'), List.getElem_map, List.getD_eq_getElem _ _ h1]

/-- With `constraints='center'`, `te` produces exactly those of these functions whose sum over the training data is zero,
provided that this is a condition at all: that one of the functions has another sum. -/
theorem te_center_space (hk : k ≠ 0) (hb : ∀ i x, (b i x).length = n i) (hn : ∀ i, n i ≠ 0) {qr : QR}
    (hq : ∀ c, IsQR qr c) {ts : List (∀ i, X i)}
    (hG : ∃ G, Separately (fun i => Spanned (b i)) G ∧ (ts.map G).sum ≠ 0) (F : (∀ i, X i) → ℝ) :
    (∃ c γ, teMemorize .center [tablesOf b n ts] = .ok c ∧ Produces qr c b n F γ) ↔
      Separately (fun i => Spanned (b i)) F ∧ (ts.map F).sum = 0 := by
  obtain ⟨c, hmem, hc1, hcols, hmean⟩ := te_center_memory hk hb hn ts
  have hts : (ts.length : ℝ) ≠ 0 := by
    obtain ⟨G, -, hG⟩ := hG
    intro h
    have : ts = [] := List.length_eq_zero_iff.mp (by exact_mod_cast h)
    simp [this] at hG
  have hsat : ∀ β, Satisfies c β ↔ (ts.map fun p => combine (productRow b p) β).sum = 0 := by
    intro β
    constructor
    · intro h
      have := h 0 (by omega)
      rw [hmean, div_eq_zero_iff] at this
      exact this.resolve_right hts
    · intro h a ha
      obtain rfl : a = 0 := by omega
      rw [hmean, h, zero_div]
  have hind : Independent c := by
    intro w hw a ha
    obtain rfl : a = 0 := by omega
    by_contra hw0
    obtain ⟨G, hG, hG0⟩ := hG
    obtain ⟨β, hβ⟩ := (kron_space hb G).2 hG
    apply hG0
    have e : (fun p => combine (productRow b p) β) = G := funext fun p => (hβ p).symm
    rw [← e, ← hsat]
    intro a ha
    obtain rfl : a = 0 := by omega
    refine Finset.sum_eq_zero fun j hj => ?_
    have := hw j (Finset.mem_range.1 hj)
    rw [hc1, Finset.sum_range_one] at this
    rw [(mul_eq_zero.1 this).resolve_left hw0, zero_mul]
  have habs : ∀ p, ∃ out, absorb qr c (productRow b p) = .ok out := by
    intro p
    rw [absorb, if_neg (not_not.2 (hcols p))]
    exact ⟨_, rfl⟩
  choose out hout using habs
  have hte : ∀ ps : List (∀ i, X i), teTransform qr (some c) (tablesOf b n ps) = .ok (ps.map out) := by
    intro ps
    rw [te_rows hk hb hn, Patsy.Build.mapM_ok, List.forall₂_map_left_iff, List.forall₂_map_right_iff]
    exact List.forall₂_same.mpr fun p _ => hout p
  rw [hmem]
  constructor
  · rintro ⟨c', γ, hc', h⟩
    obtain rfl := Except.ok.inj hc'
    have hF : ∀ p, F p = combine (productRow b p) (Patsy.SplineTransform.lift qr c γ) := by
      intro p
      obtain ⟨rows, h1, h2⟩ := h [p]
      rw [hte] at h1
      rw [← Except.ok.inj h1] at h2
      simp only [List.map_cons, List.map_nil, List.cons.injEq, and_true] at h2
      rw [h2, absorb_combine (hout p)]
    refine ⟨(kron_space hb F).1 ⟨_, hF⟩, ?_⟩
    have e : F = fun p => combine (productRow b p) (Patsy.SplineTransform.lift qr c γ) := funext hF
    rw [e, ← hsat]
    exact lift_satisfies (hq c) γ
  · rintro ⟨hF, h0⟩
    obtain ⟨β, hβ⟩ := (kron_space hb F).2 hF
    have e : F = fun p => combine (productRow b p) β := funext hβ
    rw [e, ← hsat] at h0
    obtain ⟨γ, hγ⟩ := absorbed_constraints_complete_partial (hq c) hind h0
    refine ⟨some c, γ, rfl, fun ps => ⟨_, hte ps, ?_⟩⟩
    rw [List.map_map]
    refine List.map_congr_left fun p _ => ?_
    rw [Function.comp, hγ _ _ (hout p)]
    exact hβ p

/-- `te` of two lines, centered at two points: `x - y` has mean zero. -/
example : ∃ qr : QR, ∃ c γ, teMemorize .center [tablesOf lineRows (fun _ => 2) [fun _ => 1, fun _ => 3]] = .ok c ∧
    Produces qr c lineRows (fun _ => 2) (fun p => p 0 - p 1) γ := by
  obtain ⟨qr, hqr⟩ := exists_qr
  refine ⟨qr, (te_center_space (b := lineRows) (by decide) (fun _ _ => rfl) (fun _ => by decide) hqr
    ⟨fun _ => 1, fun i p => (lineRows_spanned i _).2 ⟨1, 0, fun x => by ring⟩, by norm_num⟩ _).2 ⟨fun i p => ?_, by norm_num⟩⟩
  refine (lineRows_spanned i _).2 ?_
  fin_cases i
  · exact ⟨-p 1, 1, fun x => by simp; ring⟩
  · exact ⟨p 0, -1, fun x => by simp; ring⟩

/-- One argument with the column `x`. -/
def identityRow (_ : Fin 1) (x : ℝ) : List ℝ := [x]

/-- If every function of the tensor product has mean zero over the training data, then centering loses functions: `te` of
a column `x` whose mean is zero has no columns at all. -/
theorem te_center_loses_columns (qr : QR) :
    ∃ (ts : List (Fin 1 → ℝ)) (F : (Fin 1 → ℝ) → ℝ), Separately (fun i => Spanned (identityRow i)) F ∧ (ts.map F).sum = 0 ∧
      ¬ ∃ c γ, teMemorize .center [tablesOf identityRow (fun _ => 1) ts] = .ok c ∧
        Produces qr c identityRow (fun _ => 1) F γ := by
  refine ⟨[fun _ => 1, fun _ => -1], fun p => p 0, ?_, by norm_num, ?_⟩
  · intro i p
    obtain rfl : i = 0 := Subsingleton.elim _ _
    exact ⟨fun _ => 1, fun x => by simp [identityRow, combine]⟩
  · rintro ⟨c, γ, hc, h⟩
    have hb : ∀ i x, (identityRow i x).length = 1 := fun _ _ => rfl
    obtain ⟨c', hc', h1, h2, -⟩ := te_center_memory (b := identityRow) (by decide) hb (fun _ => by decide)
      [fun _ => 1, fun _ => -1]
    rw [hc] at hc'
    obtain rfl := Except.ok.inj hc'
    obtain ⟨rows, h3, h4⟩ := h [fun _ => 1]
    rw [te_rows (by decide) hb (fun _ => by decide), Patsy.Build.mapM_ok] at h3
    have hcols : c'.cols = 1 := by rw [← h2 fun _ => 1]; rfl
    cases h3 with
    | cons ha hrest =>
      rename_i out outs
      have hl := absorbAny_length ha
      rw [h2, hcols, consRows, h1] at hl
      have : out = [] := List.length_eq_zero_iff.mp hl
      simp [this, combine] at h4

/-! ### Splines -/

/-- The splines of an argument `cr(...)` or `cc(...)`: natural or cyclic splines with the knots of this argument. -/
def IsSpline (cyclic : Bool) (knots : List ℝ) (f : ℝ → ℝ) : Prop :=
  if cyclic then IsCyclicSpline knots.length (fun i => knots.getD i 0) f
  else IsNaturalSpline knots.length (fun i => knots.getD i 0) f

theorem isSpline_const (cyclic : Bool) (knots : List ℝ) (a : ℝ) : IsSpline cyclic knots fun _ => a := by
  cases cyclic with
  | true =>
    simp only [IsSpline, if_true]
    exact ⟨by fun_prop, fun _ => rfl, fun j _ => ⟨a, 0, 0, 0, fun x _ _ => by ring⟩⟩
  | false =>
    simp only [IsSpline, Bool.false_eq_true, if_false]
    exact ⟨by fun_prop, fun j _ => ⟨a, 0, 0, 0, fun x _ _ => by ring⟩, ⟨a, 0, fun x _ => by ring⟩,
      ⟨a, 0, fun x _ => by ring⟩⟩

/-- The functions of one argument `cr(x, ...)` or `cc(x, ...)`, with or without centering. -/
theorem marginal_space {qr : QR} (hq : ∀ c, IsQR qr c) {cyclic : Bool} {args : CrArgs} {x : List ℝ} (hx : x ≠ [])
    {s : CrState} (h : crFinish cyclic args x = .ok s) (hcen : args.constraints = .none ∨ args.constraints = .center)
    (hlen : (if cyclic then 4 else 3) ≤ s.knots.length) {b : ℝ → List ℝ} (hb : ∀ y, crRow qr cyclic s y = .ok (b y))
    (f : ℝ → ℝ) :
    Spanned b f ↔ IsSpline cyclic s.knots f ∧ (args.constraints = .center → (x.map f).sum = 0) := by
  have e : Spanned b f ↔ ∃ γ : Nat → ℝ, ∀ y, ∃ row, crRow qr cyclic s y = .ok row ∧ f y = combine row γ := by
    refine exists_congr fun γ => forall_congr' fun y => ?_
    constructor
    · intro h
      exact ⟨_, hb y, h⟩
    · rintro ⟨row, h1, h2⟩
      rw [hb] at h1
      rw [h2, Except.ok.inj h1]
  rw [e]
  rcases hcen with hc | hc
  · obtain ⟨nc, m, h1, h2, h3, h4⟩ := crFinish_ok h
    obtain ⟨k1, k2, -⟩ := knots_accepted h3
    rw [hc] at h4
    have hnone : s.constraints = none := (Except.ok.inj h4).symm
    have hrow : ∀ y, crRow qr cyclic s y = freeRow cyclic s.knots y := by
      intro y
      rw [crRow, hnone]
      cases freeRow cyclic s.knots y <;> rfl
    simp only [hrow, hc, reduceCtorEq, false_implies, and_true]
    constructor
    · rintro ⟨γ, hγ⟩
      exact ((free_space k1 hlen f γ).1 hγ).1
    · intro hs
      exact ⟨fun k => f (s.knots.getD k 0), (free_space k1 hlen f _).2 ⟨hs, fun _ _ => rfl⟩⟩
  · rw [cr_center_space hq hx h hc hlen]
    simp only [hc, true_implies, IsSpline]

/-- The arguments `cr(x, ...)` and `cc(x, ...)` of `te` after memorizing: natural splines have at least three knots,
cyclic splines at least four; `b i` are the rows. -/
structure Marginals (qr : QR) (cyclic : Fin k → Bool) (args : Fin k → CrArgs) (x : Fin k → List ℝ) (s : Fin k → CrState)
    (b : Fin k → ℝ → List ℝ) : Prop where
  data : ∀ i, x i ≠ []
  memorized : ∀ i, crFinish (cyclic i) (args i) (x i) = .ok (s i)
  centered : ∀ i, (args i).constraints = .none ∨ (args i).constraints = .center
  knots : ∀ i, (if cyclic i then 4 else 3) ≤ (s i).knots.length
  rows : ∀ i y, crRow qr (cyclic i) (s i) y = .ok (b i y)

/-- The numbers of columns of the arguments. -/
def widths (cyclic : Fin k → Bool) (args : Fin k → CrArgs) (s : Fin k → CrState) (i : Fin k) : Nat :=
  (if cyclic i then (s i).knots.length - 1 else (s i).knots.length) -
    match (args i).constraints with | .center => 1 | _ => 0

theorem marginals_width {qr : QR} {cyclic : Fin k → Bool} {args : Fin k → CrArgs} {x : Fin k → List ℝ}
    {s : Fin k → CrState} {b : Fin k → ℝ → List ℝ} (h : Marginals qr cyclic args x s b) (i : Fin k) :
    (∀ y, (b i y).length = widths cyclic args s i) ∧ widths cyclic args s i ≠ 0 := by
  have hrows : ∀ y, (b i y).length = widths cyclic args s i := by
    intro y
    rw [crRow_length (h.memorized i) (h.rows i y), dfBefore, widths]
    congr 1
    obtain ⟨nc, m, h1, h2, h3, h4⟩ := crFinish_ok (h.memorized i)
    have hr := (finishConstraints_rows h4 h1).1
    rcases h.centered i with hc | hc
    · rw [hc] at h1
      obtain rfl := Except.ok.inj h1
      simp only [hc]
      exact_mod_cast hr
    · rw [hc] at h1
      obtain rfl := Except.ok.inj h1
      simp only [hc]
      exact_mod_cast hr
  refine ⟨hrows, ?_⟩
  have hk := h.knots i
  rw [widths]
  cases hcy : cyclic i <;> rw [hcy] at hk <;> simp only [Bool.false_eq_true, if_false, if_true] at hk ⊢ <;>
    rcases h.centered i with hc | hc <;> simp only [hc] <;> omega

/-- `te(cr(x), cc(y), ...)` produces exactly the functions that are, in each variable separately, natural or cyclic
splines with the knots of this argument (and have mean zero over the training data of this argument, if it is centered). -/
theorem te_splines (hk : k ≠ 0) {qr : QR} (hq : ∀ c, IsQR qr c) {cyclic : Fin k → Bool} {args : Fin k → CrArgs}
    {x : Fin k → List ℝ} {s : Fin k → CrState} {b : Fin k → ℝ → List ℝ} (h : Marginals qr cyclic args x s b)
    (ts : List (Fin k → ℝ)) (F : (Fin k → ℝ) → ℝ) :
    (∃ c γ, teMemorize .none [tablesOf b (widths cyclic args s) ts] = .ok c ∧
      Produces qr c b (widths cyclic args s) F γ) ↔
      ∀ i p, IsSpline (cyclic i) (s i).knots (fun y => F (Function.update p i y)) ∧
        ((args i).constraints = .center → ((x i).map fun y => F (Function.update p i y)).sum = 0) := by
  rw [te_space hk (fun i => (marginals_width h i).1) (fun i => (marginals_width h i).2) qr ts F]
  exact forall_congr' fun i => forall_congr' fun p =>
    marginal_space hq (h.data i) (h.memorized i) (h.centered i) (h.knots i) (h.rows i) _

/-- `te(cr(x), cc(y), ..., constraints='center')` with arguments that are not centered produces exactly the functions
that are, in each variable separately, natural or cyclic splines with the knots of this argument, and have mean zero over
the training data. -/
theorem te_center_splines (hk : k ≠ 0) {qr : QR} (hq : ∀ c, IsQR qr c) {cyclic : Fin k → Bool} {args : Fin k → CrArgs}
    {x : Fin k → List ℝ} {s : Fin k → CrState} {b : Fin k → ℝ → List ℝ} (h : Marginals qr cyclic args x s b)
    (hfree : ∀ i, (args i).constraints = .none) {ts : List (Fin k → ℝ)} (hts : ts ≠ []) (F : (Fin k → ℝ) → ℝ) :
    (∃ c γ, teMemorize .center [tablesOf b (widths cyclic args s) ts] = .ok c ∧
      Produces qr c b (widths cyclic args s) F γ) ↔
      (∀ i p, IsSpline (cyclic i) (s i).knots fun y => F (Function.update p i y)) ∧ (ts.map F).sum = 0 := by
  have hm : ∀ i f, Spanned (b i) f ↔ IsSpline (cyclic i) (s i).knots f := by
    intro i f
    rw [marginal_space hq (h.data i) (h.memorized i) (h.centered i) (h.knots i) (h.rows i) f, hfree i]
    simp
  rw [te_center_space hk (fun i => (marginals_width h i).1) (fun i => (marginals_width h i).2) hq]
  · exact and_congr_left fun _ => forall_congr' fun i => forall_congr' fun p => hm i _
  · refine ⟨fun _ => 1, fun i p => (hm i _).2 (isSpline_const _ _ 1), ?_⟩
    simpa using hts

/-- `te(cr(x, df=3), cc(y, df=3), constraints='center')`, with two training points: `x - 2` is produced. -/
example : ∃ (qr : QR) (s : Fin 2 → CrState) (b : Fin 2 → ℝ → List ℝ),
    (∀ i, crFinish (decide (i = 1)) ⟨some 3, none, none, none, .none⟩ sampleData = .ok (s i)) ∧
    ∃ c γ, teMemorize .center [tablesOf b (widths (fun i => decide (i = 1)) (fun _ => ⟨some 3, none, none, none, .none⟩) s)
      [![1, 2], ![3, 3]]] = .ok c ∧
      Produces qr c b (widths (fun i => decide (i = 1)) (fun _ => ⟨some 3, none, none, none, .none⟩) s) (fun p => p 0 - 2) γ := by
  obtain ⟨qr, hqr⟩ := exists_qr
  have hs : ∀ i : Fin 2, ∃ s, crFinish (decide (i = 1)) ⟨some 3, none, none, none, .none⟩ sampleData = .ok s ∧
      ∀ y, ∃ row, crRow qr (decide (i = 1)) s y = .ok row := fun i =>
    (cr_accepts qr (decide (i = 1)) false 3 sampleData_lower sampleData_upper).mpr
      ⟨by norm_num, by norm_num, by norm_num, sampleData_room _⟩
  choose s hs hrow using hs
  choose b hb using hrow
  have hM : Marginals qr (fun i => decide (i = 1)) (fun _ => ⟨some 3, none, none, none, .none⟩) (fun _ => sampleData) s b := by
    refine ⟨fun _ => by simp [sampleData], hs, fun _ => Or.inl rfl, fun i => ?_, hb⟩
    obtain ⟨nc, n, h1, h2, h3, h4⟩ := crFinish_ok (hs i)
    obtain ⟨-, rfl⟩ := countInner_ok h2
    obtain rfl : 0 = nc := Except.ok.inj h1
    have hlen := (knots_accepted h3).2.2.1 _ rfl
    by_cases hi : i = 1 <;> simp [hi] at hlen ⊢ <;> omega
  refine ⟨qr, s, b, hs, (te_center_splines (by decide) hqr hM (fun _ => rfl) (by simp) _).2 ⟨fun i p => ?_, by norm_num⟩⟩
  fin_cases i
  · have e : (fun y => Function.update p 0 y 0 - 2) = fun y : ℝ => y - 2 := funext fun y => by rw [Function.update_self]
    show IsNaturalSpline _ _ fun y => Function.update p 0 y 0 - 2
    rw [e]
    exact ⟨by fun_prop, fun j _ => ⟨-2, 1, 0, 0, fun x _ _ => by ring⟩, ⟨-2, 1, fun x _ => by ring⟩,
      ⟨-2, 1, fun x _ => by ring⟩⟩
  · exact isSpline_const _ _ (p 0 - 2)

end Patsy.Props
