import Verif.Lemmas.SplineTransform

/-! # C33: the number of columns of splines -/

namespace Patsy.Props

open Patsy.SplineTransform Patsy.Spec Patsy.CubicSpline
open Patsy.Desc (bind_ok pure_ok)

/-! ### Knots -/

/-- Knots that are computed are the ends of the range and the evenly spaced quantiles of the distinct data within the
range.  They are increasing, and exactly as many as requested; otherwise a `ValueError` is raised, which happens only if
the range is empty, a negative number is requested, or the data leave no room. -/
theorem spline_knots_computed (x : List ℝ) (n : Int) {lower upper : Option ℝ} {l u : ℝ} (hl : LowerEnd lower x l)
    (hu : UpperEnd upper x u) :
    (0 ≤ n ∧ l < u ∧ RoomFor n x l u →
      ∃ data knots, getAllSortedKnots x (some n) none lower upper = .ok knots ∧
        data.Pairwise (· < ·) ∧ (∀ v, v ∈ data ↔ v ∈ x ∧ l ≤ v ∧ v ≤ u) ∧
        knots.Pairwise (· < ·) ∧ (knots.length : Int) = n + 2 ∧ knots[0]? = some l ∧ knots.getLast? = some u ∧
        ∀ i : Nat, (i : Int) < n → knots[i + 1]? = some (quantile data (((i : ℝ) + 1) / ((n : ℝ) + 1)))) ∧
    (¬ (0 ≤ n ∧ l < u ∧ RoomFor n x l u) → getAllSortedKnots x (some n) none lower upper = .error .valueError) := by
  rw [RoomFor, knots_computed x n (bound_lower.mpr hl) (bound_upper.mpr hu)]
  constructor
  · intro h
    rw [if_pos h]
    obtain ⟨m, rfl⟩ : ∃ m : Nat, n = m := ⟨n.toNat, (Int.toNat_of_nonneg h.1).symm⟩
    have hk := knots_computed x m (bound_lower.mpr hl) (bound_upper.mpr hu)
    rw [if_pos h] at hk
    obtain ⟨k1, -⟩ := knots_accepted hk
    refine ⟨inRange x l u, _, rfl, unique_lt _, fun v => mem_inRange, k1, ?_, rfl, ?_, ?_⟩
    · simp [length_fractions]
      omega
    · rw [← List.cons_append, List.getLast?_concat]
    · intro i hi
      have hi' : i < m := by omega
      rw [List.getElem?_cons_succ, List.getElem?_append_left (by simpa [length_fractions] using hi'), List.getElem?_map]
      simp [fractions, hi']
  · intro h
    rw [if_neg h]

/-- Data for the examples. -/
def sampleData : List ℝ := [3, 1, 2, 2]

theorem sampleData_lower : LowerEnd none sampleData 1 := by
  right
  refine ⟨rfl, by simp [sampleData], ?_⟩
  intro v hv
  simp only [sampleData, List.mem_cons, List.not_mem_nil, or_false] at hv
  rcases hv with rfl | rfl | rfl | rfl <;> norm_num

theorem sampleData_upper : UpperEnd none sampleData 3 := by
  right
  refine ⟨rfl, by simp [sampleData], ?_⟩
  intro v hv
  simp only [sampleData, List.mem_cons, List.not_mem_nil, or_false] at hv
  rcases hv with rfl | rfl | rfl | rfl <;> norm_num

theorem sampleData_room (n : Int) : RoomFor n sampleData 1 3 :=
  Or.inr (Or.inl ⟨1, by simp [sampleData], 2, by simp [sampleData], by norm_num, by norm_num, by norm_num⟩)

example : ∃ knots, getAllSortedKnots sampleData (some 4) none none none = .ok knots ∧ knots.length = 6 := by
  obtain ⟨_, knots, h, _, _, _, h1, _⟩ := (spline_knots_computed sampleData 4 sampleData_lower sampleData_upper).1
    ⟨by norm_num, by norm_num, sampleData_room 4⟩
  exact ⟨knots, h, by omega⟩

/-- Knots that are given are used without duplicates, together with the ends of the range.  They are accepted exactly if
the range is not empty, they lie strictly within it, and their number without duplicates is as requested. -/
theorem spline_knots_given (x ks : List ℝ) (n : Option Int) {lower upper : Option ℝ} {l u : ℝ} (hl : LowerEnd lower x l)
    (hu : UpperEnd upper x u) :
    ((∀ m, n = some m → m = ks.toFinset.card) ∧ l < u ∧ (∀ k ∈ ks, l < k ∧ k < u) →
      ∃ knots, getAllSortedKnots x n (some ks) lower upper = .ok knots ∧ knots.Pairwise (· < ·) ∧
        knots.length = ks.toFinset.card + 2 ∧ knots.head? = some l ∧ knots.getLast? = some u ∧
        ∀ v, v ∈ knots ↔ v = l ∨ v ∈ ks ∨ v = u) ∧
    (¬ ((∀ m, n = some m → m = ks.toFinset.card) ∧ l < u ∧ ∀ k ∈ ks, l < k ∧ k < u) →
      getAllSortedKnots x n (some ks) lower upper = .error .valueError) := by
  have hc : (unique ks).length = ks.toFinset.card := by simp [unique]
  rw [← hc, knots_given x ks n (bound_lower.mpr hl) (bound_upper.mpr hu)]
  constructor
  · intro h
    rw [if_pos h]
    refine ⟨_, rfl, knots_sorted h.2.1 (unique_lt ks) fun k hk => h.2.2 k (mem_unique.mp hk), by simp, rfl, ?_, ?_⟩
    · rw [← List.cons_append, List.getLast?_concat]
    · intro v
      simp [mem_unique]
  · intro h
    rw [if_neg h]

example : ∃ knots, getAllSortedKnots sampleData none (some [5 / 2, 2, 2]) none none = .ok knots ∧ knots.length = 4 := by
  obtain ⟨knots, h, _, h1, _⟩ := (spline_knots_given sampleData [5 / 2, 2, 2] none sampleData_lower sampleData_upper).1
    ⟨by simp, by norm_num, by norm_num⟩
  refine ⟨knots, h, ?_⟩
  rw [h1]
  norm_num

/-! ### Natural and cyclic cubic regression splines -/

/-- Whenever `cr` or `cc` with `df=d` is accepted, every row has `d` columns, for any kind of constraints. -/
theorem cr_columns {qr : QR} {cyclic : Bool} {args : CrArgs} {x : List ℝ} {s : CrState} {d : Int}
    (h : crFinish cyclic args x = .ok s) (hd : args.df = some d) {y : List ℝ} {rows : List (List ℝ)}
    (ht : crTransform qr cyclic s y = .ok rows) : rows.length = y.length ∧ ∀ row ∈ rows, (row.length : Int) = d := by
  rw [crTransform, Patsy.Build.mapM_ok] at ht
  refine ⟨ht.length_eq.symm, fun row hrow => ?_⟩
  obtain ⟨i, hi, rfl⟩ := List.getElem_of_mem hrow
  have hr := ht.get (i := i) (by rw [ht.length_eq]; exact hi) hi
  obtain ⟨nc, n, h1, h2, h3, h4⟩ := crFinish_ok h
  obtain ⟨-, k2, k3, -⟩ := knots_accepted h3
  have hl := crRow_length h hr
  simp only [List.get_eq_getElem] at hl
  obtain ⟨hc, -⟩ := finishConstraints_rows h4 h1
  rw [hd] at h2
  obtain ⟨hmin, rfl⟩ := countInner_ok h2
  have hk := k3 _ rfl
  rw [hl]
  cases cyclic <;> simp only [dfBefore, Bool.false_eq_true, if_true, if_false] at hk ⊢ <;> omega

/-- Without `df`, the number of columns is the number of distinct inner knots plus two (plus one for `cc`), minus the
number of constraints. -/
theorem cr_columns_of_knots {qr : QR} {cyclic : Bool} {args : CrArgs} {x : List ℝ} {s : CrState} {ks : List ℝ} {nc : Nat}
    (h : crFinish cyclic args x = .ok s) (hk : args.knots = some ks) (hn : countConstraints args.constraints = .ok (nc : Int))
    {y : List ℝ} {rows : List (List ℝ)} (ht : crTransform qr cyclic s y = .ok rows) :
    rows.length = y.length ∧
      ∀ row ∈ rows, row.length = ks.toFinset.card + (if cyclic then 1 else 2) - nc := by
  rw [crTransform, Patsy.Build.mapM_ok] at ht
  refine ⟨ht.length_eq.symm, fun row hrow => ?_⟩
  obtain ⟨i, hi, rfl⟩ := List.getElem_of_mem hrow
  have hr := ht.get (i := i) (by rw [ht.length_eq]; exact hi) hi
  obtain ⟨nc', n, h1, h2, h3, h4⟩ := crFinish_ok h
  obtain ⟨-, k2, -, k3, -⟩ := knots_accepted h3
  have hl := crRow_length h hr
  simp only [List.get_eq_getElem] at hl
  obtain ⟨hc, -⟩ := finishConstraints_rows h4 h1
  rw [hn] at h1
  obtain rfl := Except.ok.inj h1
  have := k3 ks hk
  rw [hl]
  cases cyclic <;> simp only [dfBefore, if_true, Bool.false_eq_true, if_false] <;> omega

/-- `cr` and `cc` with `df=d` and computed knots work, for all arguments, exactly if `d` is at least one (natural
splines: at least three columns before centering), the range is not empty, and the data leave room for the knots. -/
theorem cr_accepts (qr : QR) (cyclic center : Bool) (d : Int) {x : List ℝ} {lower upper : Option ℝ} {l u : ℝ}
    (hl : LowerEnd lower x l) (hu : UpperEnd upper x u) :
    (∃ s, crFinish cyclic ⟨some d, none, lower, upper, if center then .center else .none⟩ x = .ok s ∧
      ∀ y, ∃ row, crRow qr cyclic s y = .ok row) ↔
    1 ≤ d ∧ (cyclic = true ∨ 3 ≤ d + if center then 1 else 0) ∧ l < u ∧
      RoomFor (d - 2 + (if center then 1 else 0) + if cyclic then 1 else 0) x l u := by
  obtain ⟨good, bad⟩ := spline_knots_computed x (d - 2 + (if center then 1 else 0) + if cyclic then 1 else 0) hl hu
  have hcount : countConstraints (if center then Constraints.center else .none) = .ok (if center then 1 else 0) := by
    cases center <;> rfl
  constructor
  · rintro ⟨s, h, hrow⟩
    have h3 := (crRow_ok_iff h 0).mp (hrow 0)
    obtain ⟨nc, n, c1, c2, c3, c4⟩ := crFinish_ok h
    simp only at c1 c2 c3 c4
    rw [hcount] at c1
    obtain rfl := Except.ok.inj c1
    obtain ⟨hd, rfl⟩ := countInner_ok c2
    obtain ⟨-, -, k3, -⟩ := knots_accepted c3
    have hk := k3 _ rfl
    by_cases hg : 0 ≤ d - 2 + (if center = true then 1 else 0) + (if cyclic = true then 1 else 0) ∧ l < u ∧
        RoomFor (d - 2 + (if center = true then 1 else 0) + if cyclic = true then 1 else 0) x l u
    · refine ⟨hd, ?_, hg.2⟩
      rcases h3 with h3 | h3
      · exact Or.inl h3
      · cases cyclic with
        | true => exact Or.inl rfl
        | false =>
          right
          simp only [Bool.false_eq_true, if_false] at hk
          omega
    · rw [bad hg] at c3
      cases c3
  · rintro ⟨hd, h3, hlu, hroom⟩
    have hn : 0 ≤ d - 2 + (if center = true then 1 else 0) + (if cyclic = true then (1 : Int) else 0) := by
      cases cyclic with
      | true => simp only [if_true]; split <;> omega
      | false =>
        simp only [Bool.false_eq_true, false_or] at h3
        simp only [Bool.false_eq_true, if_false]
        omega
    obtain ⟨data, knots, hk, -, -, k1, k2, -⟩ := good ⟨hn, hlu, hroom⟩
    have hin : countInner cyclic (if center then 1 else 0) (some d) =
        .ok (some (d - 2 + (if center = true then 1 else 0) + if cyclic = true then 1 else 0)) := by
      rw [countInner, if_neg]
      cases cyclic <;> cases center <;> simp at h3 ⊢ <;> omega
    have hfree : cyclic = true ∨ 3 ≤ knots.length := by
      rcases h3 with h3 | h3
      · exact Or.inl h3
      · cases cyclic with
        | true => exact Or.inl rfl
        | false =>
          right
          simp only [Bool.false_eq_true, if_false] at k2
          omega
    have h2k : 2 ≤ knots.length := by omega
    have hfin : ∃ c, finishConstraints cyclic knots x (if center then .center else .none) = .ok c := by
      cases center with
      | false => exact ⟨none, rfl⟩
      | true =>
        obtain ⟨rows, hrows⟩ : ∃ rows, x.mapM (freeRow cyclic knots) = .ok rows := by
          have : ∀ v : ℝ, ∃ row, freeRow cyclic knots v = .ok row := fun v => (freeRow_ok_iff k1 h2k v).mpr hfree
          choose f hf using this
          refine ⟨x.map f, Patsy.Build.mapM_ok.mpr ?_⟩
          rw [List.forall₂_map_right_iff]
          exact List.forall₂_same.mpr fun v _ => hf v
        exact ⟨some ⟨1, dfBefore cyclic knots, fun _ j => meanRow rows j⟩, by
          simp [finishConstraints, hrows, bind, Except.bind, pure, Except.pure]⟩
    obtain ⟨c, hc⟩ := hfin
    have hs : crFinish cyclic ⟨some d, none, lower, upper, if center then .center else .none⟩ x = .ok ⟨knots, c⟩ := by
      simp only [crFinish, Option.isNone_some, Bool.false_and, Bool.false_eq_true, if_false, hcount, hin, hk, hc, bind,
        Except.bind, pure, Except.pure]
    exact ⟨⟨knots, c⟩, hs, fun y => (crRow_ok_iff hs y).mpr hfree⟩

/-- `cr(x, df=4, constraints='center')`. -/
example (qr : QR) : ∃ s, crFinish false ⟨some 4, none, none, none, .center⟩ sampleData = .ok s ∧
    ∃ row, crRow qr false s (5 / 2) = .ok row ∧ row.length = 4 := by
  obtain ⟨s, h, h'⟩ := (cr_accepts qr false true 4 sampleData_lower sampleData_upper).mpr
    ⟨by norm_num, by norm_num, by norm_num, sampleData_room _⟩
  obtain ⟨row, hrow⟩ := h' (5 / 2)
  refine ⟨s, h, row, hrow, ?_⟩
  have := (cr_columns (qr := qr) (y := [5 / 2]) (rows := [row]) h rfl (by
    simp [crTransform, hrow, bind, Except.bind, pure, Except.pure])).2 row (by simp)
  exact_mod_cast this

/-- `cc(x, knots=[2, 2.5, 2])`. -/
example (qr : QR) : ∃ s, crFinish true ⟨none, some [2, 5 / 2, 2], none, none, .none⟩ sampleData = .ok s ∧
    ∃ row, crRow qr true s 7 = .ok row ∧ row.length = 3 := by
  obtain ⟨knots, hk, k1, k2, -⟩ := (spline_knots_given sampleData [2, 5 / 2, 2] none sampleData_lower sampleData_upper).1
    ⟨by simp, by norm_num, by norm_num⟩
  have hs : crFinish true ⟨none, some [2, 5 / 2, 2], none, none, .none⟩ sampleData = .ok ⟨knots, none⟩ := by
    simp [crFinish, countConstraints, countInner, hk, finishConstraints, bind, Except.bind, pure, Except.pure]
  obtain ⟨row, hrow⟩ := (crRow_ok_iff (qr := qr) hs 7).mpr (Or.inl rfl)
  refine ⟨_, hs, row, hrow, ?_⟩
  have := (cr_columns_of_knots (qr := qr) (y := [7]) (rows := [row]) (nc := 0) hs rfl rfl (by
    simp [crTransform, hrow, bind, Except.bind, pure, Except.pure])).2 row (by simp)
  rw [this]
  norm_num

/-- `cr` with two columns is accepted although it cannot be evaluated anywhere. -/
theorem cr_two_columns_crash (qr : QR) {x : List ℝ} {lower upper : Option ℝ} {l u : ℝ}
    (hl : LowerEnd lower x l) (hu : UpperEnd upper x u) (hlu : l < u) :
    ∃ s, crFinish false ⟨some 2, none, lower, upper, .none⟩ x = .ok s ∧ ∀ y, crRow qr false s y = .error .valueError := by
  obtain ⟨_, knots, hk, _, _, k1, k2, -⟩ := (spline_knots_computed x 0 hl hu).1 ⟨le_rfl, hlu, Or.inl rfl⟩
  refine ⟨⟨knots, none⟩, ?_, fun y => ?_⟩
  · simp [crFinish, countConstraints, countInner, hk, finishConstraints, bind, Except.bind, pure, Except.pure]
  · have : knots.length = 2 := by omega
    rw [crRow, freeRow_two (ks := CrState.knots ⟨knots, none⟩) this]
    rfl

example (qr : QR) : ∃ s, crFinish false ⟨some 2, none, none, none, .none⟩ sampleData = .ok s ∧
    ∀ y, crRow qr false s y = .error .valueError :=
  cr_two_columns_crash qr sampleData_lower sampleData_upper (by norm_num)

/-! ### B-splines -/

/-- `bs` with `df=d` delivers `d` columns, with and without intercept and for every degree. -/
theorem bs_columns {splev : Splev} {args : BsArgs} {x : List ℝ} {s : BsState} {d : Int} (h : bsFinish args x = .ok s)
    (hd : args.df = some d) {y : List ℝ} {rows : List (List ℝ)}
    (ht : bsTransform splev s args.includeIntercept y = .ok rows) :
    rows.length = y.length ∧ ∀ row ∈ rows, (row.length : Int) = d := by
  obtain ⟨hdeg, inner, l, u, hi, hl, hu, hlu, hb, rfl⟩ := bsFinish_ok h
  obtain ⟨p, hp⟩ : ∃ p : Nat, args.degree = p := ⟨args.degree.toNat, (Int.toNat_of_nonneg hdeg).symm⟩
  rw [hp, Int.toNat_natCast] at ht
  obtain ⟨m1, m2, m3, m4⟩ := mem_bsKnots (p := p) hb hlu
  have hlen : (inner.length : Int) = d - (p + 1) + if args.includeIntercept then 0 else 1 := by
    rw [bsInner_ok hd hi, hp]
  have hy : y ≠ [] := by
    rintro rfl
    simp [bsTransform, evalBasis, bound, bind, Except.bind] at ht
  rw [bsTransform, evalBasis_eq splev m2 m3 m4 p hy, sorted_sorted] at ht
  split at ht
  · simp only [bind, Except.bind, pure_ok] at ht
    cases hint : args.includeIntercept with
    | true =>
      rw [hint] at ht hlen
      simp only [if_true] at ht hlen
      subst ht
      refine ⟨by simp, fun row hrow => ?_⟩
      obtain ⟨v, -, rfl⟩ := List.mem_map.mp hrow
      simp only [basisRow, List.length_map, List.length_range, m1]
      omega
    | false =>
      rw [hint] at ht hlen
      simp only [Bool.false_eq_true, if_false] at ht hlen
      subst ht
      refine ⟨by simp, fun row hrow => ?_⟩
      rw [List.map_map] at hrow
      obtain ⟨v, -, rfl⟩ := List.mem_map.mp hrow
      simp only [Function.comp, basisRow, List.length_drop, List.length_map, List.length_range, m1]
      omega
  · cases ht

/-- Without `df`, `bs` delivers as many columns as there are knots, plus the degree, plus one for the intercept. -/
theorem bs_columns_of_knots {splev : Splev} {args : BsArgs} {x : List ℝ} {s : BsState} {ks : List ℝ}
    (h : bsFinish args x = .ok s) (hd : args.df = none) (hk : args.knots = some ks) {y : List ℝ} {rows : List (List ℝ)}
    (ht : bsTransform splev s args.includeIntercept y = .ok rows) :
    rows.length = y.length ∧
      ∀ row ∈ rows, (row.length : Int) = ks.length + args.degree + if args.includeIntercept then 1 else 0 := by
  obtain ⟨hdeg, inner, l, u, hi, hl, hu, hlu, hb, hs⟩ := bsFinish_ok h
  obtain rfl : inner = ks := by simpa [bsInner, hd, hk] using hi.symm
  let args' : BsArgs := { args with df := some (inner.length + args.degree + if args.includeIntercept then 1 else 0) }
  have h' : bsFinish args' x = .ok s := by
    rw [hs]
    refine bsFinish_of (args := args') hdeg ?_ hl hu hlu hb
    simp only [bsInner, args', hk]
    rw [if_neg (by split <;> omega), if_neg (by split <;> omega)]
  exact bs_columns (args := args') h' rfl ht

/-- `bs` can be evaluated exactly at points between the ends of the range; a point outside raises
`NotImplementedError`. -/
theorem bs_range {splev : Splev} {args : BsArgs} {x : List ℝ} {s : BsState} (h : bsFinish args x = .ok s) {l u : ℝ}
    (hl : LowerEnd args.lower x l) (hu : UpperEnd args.upper x u) (intercept : Bool) {y : List ℝ} (hy : y ≠ []) :
    ((∀ v ∈ y, l ≤ v ∧ v ≤ u) → ∃ rows, bsTransform splev s intercept y = .ok rows) ∧
    (¬ (∀ v ∈ y, l ≤ v ∧ v ≤ u) → bsTransform splev s intercept y = .error .notImplementedError) := by
  obtain ⟨hdeg, inner, l', u', hi, hl', hu', hlu, hb, rfl⟩ := bsFinish_ok h
  obtain rfl := bound_unique (bound_lower.mpr hl) (bound_lower.mpr hl')
  obtain rfl := bound_unique (bound_upper.mpr hu) (bound_upper.mpr hu')
  obtain ⟨m1, m2, m3, m4⟩ := mem_bsKnots (p := args.degree.toNat) hb hlu
  rw [bsTransform, evalBasis_eq splev m2 m3 m4 _ hy]
  constructor
  · intro hall
    rw [if_pos hall]
    exact ⟨_, rfl⟩
  · intro hall
    rw [if_neg hall]
    rfl

/-- If neither knots nor bounds are given, `bs` accepts every `df` that is at least the degree (plus one with an
intercept), and can be evaluated at the data. -/
theorem bs_accepts {x : List ℝ} (hx : x ≠ []) (splev : Splev) (p : Nat) (d : Int) (intercept : Bool) :
    (p + (if intercept then 1 else 0) ≤ d →
      ∃ s rows, bsFinish ⟨some d, none, p, intercept, none, none⟩ x = .ok s ∧ bsTransform splev s intercept x = .ok rows) ∧
    (d < p + (if intercept then 1 else 0) →
      bsFinish ⟨some d, none, p, intercept, none, none⟩ x = .error .valueError) := by
  constructor
  · intro hd
    obtain ⟨l, hl⟩ : ∃ a, x.min? = some a := by
      cases h : x.min? with
      | none => exact absurd (List.min?_eq_none_iff.mp h) hx
      | some a => exact ⟨a, rfl⟩
    obtain ⟨u, hu⟩ : ∃ b, x.max? = some b := by
      cases h : x.max? with
      | none => exact absurd (List.max?_eq_none_iff.mp h) hx
      | some a => exact ⟨a, rfl⟩
    have hl' : LowerEnd none x l := Or.inr ⟨rfl, List.min?_eq_some_iff.mp hl⟩
    have hu' : UpperEnd none x u := Or.inr ⟨rfl, List.max?_eq_some_iff.mp hu⟩
    have hall : ∀ v ∈ x, l ≤ v ∧ v ≤ u := fun v hv =>
      ⟨(List.min?_eq_some_iff.mp hl).2 v hv, (List.max?_eq_some_iff.mp hu).2 v hv⟩
    obtain ⟨v, hv⟩ := List.exists_mem_of_ne_nil x hx
    let args : BsArgs := ⟨some d, none, p, intercept, none, none⟩
    have hi : bsInner args x =
        .ok ((fractions (d - (p + 1) + if intercept then 0 else 1).toNat).map (quantile x)) := by
      simp only [bsInner, args]
      rw [if_neg (by cases intercept <;> simp at hd ⊢ <;> omega), if_neg fun h => hx h.2]
    have hf := bsFinish_of (args := args) (x := x) (l := l) (u := u) (by simp [args]) hi hl' hu'
      ((hall v hv).1.trans (hall v hv).2) (by
        intro k hk
        obtain ⟨t, ht, rfl⟩ := List.mem_map.mp hk
        exact quantile_within hx hall (fractions_mem ht).1.le (fractions_mem ht).2.le)
    obtain ⟨rows, hr⟩ := (bs_range (splev := splev) hf hl' hu' intercept hx).1 hall
    exact ⟨_, rows, hf, hr⟩
  · intro hd
    simp only [bsFinish, bsInner]
    rw [if_neg (by simp), if_pos (by cases intercept <;> simp at hd ⊢ <;> omega)]
    rfl

/-- `bs(x, df=6, degree=3)`. -/
example (splev : Splev) : ∃ s rows, bsFinish ⟨some 6, none, 3, false, none, none⟩ sampleData = .ok s ∧
    bsTransform splev s false sampleData = .ok rows ∧ rows.length = 4 ∧ ∀ row ∈ rows, (row.length : Int) = 6 := by
  obtain ⟨s, rows, h1, h2⟩ := (bs_accepts (x := sampleData) (by simp [sampleData]) splev 3 6 false).1 (by norm_num)
  exact ⟨s, rows, h1, h2, bs_columns h1 rfl h2⟩

/-- `bs(x, knots=[2, 2, 5/2], include_intercept=True)`, at a point in the range and at a point outside. -/
example (splev : Splev) : ∃ s rows, bsFinish ⟨none, some [2, 2, 5 / 2], 3, true, none, none⟩ sampleData = .ok s ∧
    bsTransform splev s true [3 / 2] = .ok rows ∧ (∀ row ∈ rows, (row.length : Int) = 7) ∧
    bsTransform splev s true [3 / 2, 4] = .error .notImplementedError := by
  have h := bsFinish_of (args := ⟨none, some [2, 2, 5 / 2], 3, true, none, none⟩) (x := sampleData) (by norm_num) rfl
    sampleData_lower sampleData_upper (by norm_num) (by norm_num)
  obtain ⟨rows, hr⟩ := (bs_range (splev := splev) h sampleData_lower sampleData_upper true (y := [3 / 2]) (by simp)).1
    (by norm_num)
  refine ⟨_, rows, h, hr, ?_, ?_⟩
  · intro row hrow
    rw [(bs_columns_of_knots h rfl rfl hr).2 row hrow]
    norm_num
  · exact (bs_range (splev := splev) h sampleData_lower sampleData_upper true (by simp)).2 (by norm_num)

end Patsy.Props
