import Verif.Lemmas.Splev

/-! # The space of the splines with given knots -/

namespace Patsy.BSpline

open Polynomial Finset Patsy.Spec

/-- Polynomials fit at a point as far as their derivatives agree. -/
theorem dvd_iff_derivative {τ : ℝ} {k m : ℕ} {p q : ℝ[X]} : (X - C τ) ^ (k + 1 - m) ∣ q - p ↔
    ∀ r, r + m ≤ k → (derivative^[r] p).eval τ = (derivative^[r] q).eval τ := by
  rw [dvd_iff_taylor]
  have h : ∀ r, (taylor τ (q - p)).coeff r = 0 ↔ (derivative^[r] p).eval τ = (derivative^[r] q).eval τ := by
    intro r
    have hd : ∀ f : ℝ[X], (derivative^[r] f).eval τ = (r.factorial : ℝ) * (taylor τ f).coeff r := by
      intro f
      rw [taylor_coeff, ← factorial_smul_hasseDeriv]
      simp
    rw [hd, hd, map_sub, coeff_sub]
    have : (r.factorial : ℝ) ≠ 0 := by exact_mod_cast r.factorial_ne_zero
    constructor
    · intro h
      rw [sub_eq_zero.mp h]
    · intro h
      rw [mul_left_cancel₀ this h, sub_self]
  constructor
  · exact fun h' r hr => (h r).mp (h' r (by omega))
  · exact fun h' r hr => (h r).mpr (h' r (by omega))

/-- The knots of a spline: `k + 1` times the lower end, the sorted inner knots, and the upper end from number `n` on. -/
structure Knots (t : ℕ → ℝ) (k n : ℕ) (lo hi : ℝ) (inner : List ℝ) : Prop where
  mono : Monotone t
  lower : ∀ i, i ≤ k → t i = lo
  upper : ∀ i, n ≤ i → t i = hi
  inside : ∀ i, k < i → i < n → lo < t i ∧ t i < hi ∧ t i ∈ inner
  index : ∀ a ∈ inner, ∃ i, k < i ∧ i < n ∧ t i = a
  many : k < n
  range : lo < hi
  count : ∀ a m, k ≤ a → a + m < n → t a < t (a + 1) → t (a + m) < t (a + m + 1) → 0 < m →
    (∀ j, a < j → j ≤ a + m → t j = t (a + 1)) → inner.count (t (a + 1)) = m

variable {t : ℕ → ℝ} {k n : ℕ} {lo hi : ℝ} {inner : List ℝ}

/-- The knots in a list. -/
theorem count_of {S : List ℝ} {τ : ℝ} {a m : ℕ} (ham : a + m ≤ S.length) (h1 : ∀ j (h : j < S.length), j < a → S[j] ≠ τ)
    (h2 : ∀ j (h : j < S.length), a ≤ j → j < a + m → S[j] = τ) (h3 : ∀ j (h : j < S.length), a + m ≤ j → S[j] ≠ τ) :
    S.count τ = m := by
  have hS : S = S.take a ++ ((S.drop a).take m ++ S.drop (a + m)) := by
    conv_lhs => rw [← List.take_append_drop a S]
    congr 1
    conv_lhs => rw [← List.take_append_drop m (S.drop a)]
    rw [List.drop_drop]
  rw [hS, List.count_append, List.count_append]
  have c1 : (S.take a).count τ = 0 := by
    rw [List.count_eq_zero]
    intro h
    obtain ⟨j, hj, he⟩ := List.mem_iff_getElem.mp h
    rw [List.length_take] at hj
    rw [List.getElem_take] at he
    exact h1 j (by omega) (by omega) he
  have c2 : ((S.drop a).take m).count τ = m := by
    have hlen : ((S.drop a).take m).length = m := by
      rw [List.length_take, List.length_drop]
      omega
    conv_rhs => rw [← hlen]
    rw [List.count_eq_length]
    intro b hb
    obtain ⟨j, hj, he⟩ := List.mem_iff_getElem.mp hb
    rw [hlen] at hj
    rw [List.getElem_take, List.getElem_drop] at he
    rw [← he]
    exact (h2 _ (by omega) (by omega) (by omega)).symm
  have c3 : (S.drop (a + m)).count τ = 0 := by
    rw [List.count_eq_zero]
    intro h
    obtain ⟨j, hj, he⟩ := List.mem_iff_getElem.mp h
    rw [List.getElem_drop] at he
    rw [List.length_drop] at hj
    exact h3 _ (by omega) (by omega) he
  omega

theorem Knots.of_list {S : List ℝ} (hS : S.Pairwise (· ≤ ·)) (hperm : S.Perm inner) (hlt : lo < hi)
    (hin : ∀ a ∈ inner, lo < a ∧ a < hi) (hn : n = k + 1 + S.length)
    (ht : ∀ i, t i = if i ≤ k then lo else S.getD (i - (k + 1)) hi) : Knots t k n lo hi inner := by
  have hlow : ∀ i, i ≤ k → t i = lo := fun i hi => by rw [ht, if_pos hi]
  have hup : ∀ i, n ≤ i → t i = hi := by
    intro i hi
    rw [ht, if_neg (by omega), List.getD_eq_getElem?_getD, List.getElem?_eq_none (by omega)]
    rfl
  have hmid : ∀ i (h1 : k < i) (h2 : i < n), t i = S[i - (k + 1)] := by
    intro i h1 h2
    rw [ht, if_neg (by omega), List.getD_eq_getElem?_getD, List.getElem?_eq_getElem (by omega)]
    rfl
  have hins : ∀ i, k < i → i < n → lo < t i ∧ t i < hi ∧ t i ∈ inner := by
    intro i h1 h2
    have : t i ∈ inner := by
      rw [hmid i h1 h2]
      exact hperm.subset (List.getElem_mem _)
    exact ⟨(hin _ this).1, (hin _ this).2, this⟩
  have hmono : Monotone t := by
    refine monotone_nat_of_le_succ fun i => ?_
    by_cases h1 : i < k
    · rw [hlow i (by omega), hlow (i + 1) (by omega)]
    · by_cases h2 : n ≤ i
      · rw [hup i h2, hup (i + 1) (by omega)]
      · by_cases h3 : n ≤ i + 1
        · rw [hup (i + 1) h3]
          by_cases h4 : i ≤ k
          · rw [hlow i h4]; exact hlt.le
          · exact (hins i (by omega) (by omega)).2.1.le
        · by_cases h4 : i ≤ k
          · rw [hlow i h4]
            exact (hins (i + 1) (by omega) (by omega)).1.le
          · rw [hmid i (by omega) (by omega), hmid (i + 1) (by omega) (by omega)]
            exact List.pairwise_iff_getElem.mp hS _ _ _ _ (by omega)
  refine ⟨hmono, hlow, hup, hins, ?_, by omega, hlt, ?_⟩
  · intro a ha
    obtain ⟨j, hj, he⟩ := List.mem_iff_getElem.mp (hperm.symm.subset ha)
    refine ⟨k + 1 + j, by omega, by omega, ?_⟩
    rw [hmid _ (by omega) (by omega)]
    simpa using he
  · intro a m hka ham h1 h2 hm0 hτ
    rw [← hperm.count_eq]
    refine count_of (a := a - k) (by omega) ?_ ?_ ?_
    · intro j hj hja
      have := hmid (j + (k + 1)) (by omega) (by omega)
      simp only [Nat.add_sub_cancel] at this
      rw [← this]
      exact ((hmono (show j + (k + 1) ≤ a by omega)).trans_lt h1).ne
    · intro j hj hja hjm
      have := hmid (j + (k + 1)) (by omega) (by omega)
      simp only [Nat.add_sub_cancel] at this
      rw [← this]
      exact hτ _ (by omega) (by omega)
    · intro j hj hja
      have := hmid (j + (k + 1)) (by omega) (by omega)
      simp only [Nat.add_sub_cancel] at this
      rw [← this, ← hτ (a + m) (by omega) le_rfl]
      exact (h2.trans_le (hmono (by omega))).ne'

/-- Every point of the range is in an interval. -/
theorem locate (hkn : k < n) (hlast : t (n - 1) < t n) {x : ℝ} (h1 : t k ≤ x) (h2 : x ≤ t n) :
    ∃ l, k ≤ l ∧ l < n ∧ t l < t (l + 1) ∧ t l ≤ x ∧ (x < t (l + 1) ∨ x = t (l + 1) ∧ l + 1 = n) := by
  classical
  set l := Nat.findGreatest (fun l => t l ≤ x) (n - 1) with hl
  have hkl : k ≤ l := Nat.le_findGreatest (by omega) h1
  have hln : l ≤ n - 1 := Nat.findGreatest_le _
  have htl : t l ≤ x := Nat.findGreatest_spec (P := fun l => t l ≤ x) (m := k) (by omega) h1
  refine ⟨l, hkl, by omega, ?_⟩
  by_cases hend : l + 1 = n
  · rw [hend]
    rw [show n - 1 = l by omega] at hlast
    refine ⟨hlast, htl, ?_⟩
    rcases h2.lt_or_eq with h | h
    · exact Or.inl h
    · exact Or.inr ⟨h, rfl⟩
  · have hnext : x < t (l + 1) := by
      have := Nat.findGreatest_is_greatest (P := fun l => t l ≤ x) (n := n - 1) (k := l + 1) (by omega) (by omega)
      exact not_le.mp this
    exact ⟨htl.trans_lt hnext, htl, Or.inl hnext⟩

/-- The combination of the B-splines on one interval. -/
theorem eval_sum {l : ℕ} (h2 : l < n) (c : ℕ → ℝ) (x : ℝ) : ∑ i ∈ Finset.range n, c i * deBoor t l x k i =
    (∑ i ∈ Finset.range (l + 1), C (c i) * bpoly t l k i).eval x := by
  rw [eval_finsetSum, show n = (l + 1) + (n - (l + 1)) by omega, sum_range_add]
  rw [sum_eq_zero (s := Finset.range (n - (l + 1))), add_zero]
  · refine sum_congr rfl fun i _ => ?_
    rw [Patsy.Splev.deBoor_eq, eval_mul, eval_C]
  · intro i _
    rw [Patsy.Splev.deBoor_zero (by omega), mul_zero]

/-- The B-splines are nonnegative and add up to one. -/
theorem partition (hm : Monotone t) {x : ℝ} {l : ℕ} (h1 : k ≤ l) (h2 : l < n) (h3 : t l < t (l + 1)) (h4 : t l ≤ x)
    (h5 : x ≤ t (l + 1)) : (∀ i, 0 ≤ deBoor t l x k i) ∧ ∑ i ∈ Finset.range n, deBoor t l x k i = 1 := by
  constructor
  · intro i
    rw [Patsy.Splev.deBoor_eq]
    exact bpoly_nonneg hm h4 h5 k i
  · have := eval_sum (k := k) (t := t) h2 (fun _ => 1) x
    simp only [one_mul, C_1, bpoly_sum hm h3 h1, eval_one] at this
    exact this

namespace Knots

variable (K : Knots t k n lo hi inner)
include K

/-- Every point of the range is in an interval. -/
theorem location {x : ℝ} (h1 : lo ≤ x) (h2 : x ≤ hi) :
    ∃ l, k ≤ l ∧ l < n ∧ t l < t (l + 1) ∧ t l ≤ x ∧ (x < t (l + 1) ∨ x = t (l + 1) ∧ l + 1 = n) := by
  have hkn := K.many
  refine locate hkn ?_ (by rw [K.lower k le_rfl]; exact h1) (by rw [K.upper n le_rfl]; exact h2)
  rw [K.upper n le_rfl]
  by_cases h : n - 1 ≤ k
  · rw [K.lower _ h]; exact K.range
  · exact (K.inside _ (by omega) (by omega)).2.1

theorem adjacent {l : ℕ} (h1 : k ≤ l) (h2 : l < n) (h3 : t l < t (l + 1)) : Adjacent lo hi inner (t l) (t (l + 1)) := by
  refine ⟨?_, ?_, h3, ?_⟩
  · by_cases h : l ≤ k
    · rw [K.lower l h]; exact List.mem_cons_self
    · exact List.mem_cons_of_mem _ (K.inside l (by omega) h2).2.2
  · by_cases h : n ≤ l + 1
    · rw [K.upper _ h]; exact List.mem_cons_self
    · exact List.mem_cons_of_mem _ (K.inside (l + 1) (by omega) (by omega)).2.2
  · rintro c hc ⟨hc1, hc2⟩
    obtain ⟨i, -, -, rfl⟩ := K.index c hc
    rcases Nat.lt_or_ge l i with h | h
    · exact absurd (K.mono (show l + 1 ≤ i by omega)) (not_le.mpr hc2)
    · exact absurd (K.mono h) (not_le.mpr hc1)

theorem of_adjacent {a b : ℝ} (h : Adjacent lo hi inner a b) : ∃ l, k ≤ l ∧ l < n ∧ t l = a ∧ t (l + 1) = b := by
  classical
  obtain ⟨ha, hb, hab, hno⟩ := h
  have hkn := K.many
  obtain ⟨i, hi1, hi2, rfl⟩ : ∃ i, k ≤ i ∧ i < n ∧ t i = a := by
    rcases List.mem_cons.mp ha with rfl | ha
    · exact ⟨k, le_rfl, K.many, K.lower k le_rfl⟩
    · obtain ⟨i, h1, h2, h3⟩ := K.index a ha
      exact ⟨i, h1.le, h2, h3⟩
  obtain ⟨j, hj1, hj2, rfl⟩ : ∃ j, k < j ∧ j ≤ n ∧ t j = b := by
    rcases List.mem_cons.mp hb with rfl | hb
    · exact ⟨n, K.many, le_rfl, K.upper n le_rfl⟩
    · obtain ⟨i, h1, h2, h3⟩ := K.index b hb
      exact ⟨i, h1, h2.le, h3⟩
  set l := Nat.findGreatest (fun l => t l ≤ t i) n with hl
  have hil : i ≤ l := Nat.le_findGreatest hi2.le le_rfl
  have htl : t l ≤ t i := Nat.findGreatest_spec (P := fun l => t l ≤ t i) (m := i) hi2.le le_rfl
  have hlj : l < j := by
    by_contra hno'
    exact absurd ((K.mono (show j ≤ l by omega)).trans htl) (not_le.mpr hab)
  have heq : t l = t i := le_antisymm htl (K.mono hil)
  have hnext : t i < t (l + 1) := by
    have := Nat.findGreatest_is_greatest (P := fun l => t l ≤ t i) (n := n) (k := l + 1) (by omega) (by omega)
    exact not_le.mp this
  refine ⟨l, by omega, by omega, heq, ?_⟩
  have hle : t (l + 1) ≤ t j := K.mono (by omega)
  by_cases hlast : l + 1 = n
  · obtain rfl : j = l + 1 := by omega
    rfl
  · have hmem := (K.inside (l + 1) (by omega) (by omega)).2.2
    by_contra hne
    exact hno _ hmem ⟨hnext, lt_of_le_of_ne hle hne⟩

omit K in
theorem left_unique (hm : Monotone t) {l l' : ℕ} (h : t l = t l') (h1 : t l < t (l + 1)) (h2 : t l' < t (l' + 1)) : l = l' := by
  rcases Nat.lt_trichotomy l l' with h' | h' | h'
  · have := hm (show l + 1 ≤ l' by omega)
    linarith
  · exact h'
  · have := hm (show l' + 1 ≤ l by omega)
    linarith

/-- The splines are the combinations of the B-splines. -/
theorem isSpline_iff {f : ℝ → ℝ} : IsSpline k lo hi inner f ↔ ∃ c : ℕ → ℝ, ∀ x l, k ≤ l → l < n → t l < t (l + 1) → t l ≤ x →
    (x < t (l + 1) ∨ x = t (l + 1) ∧ l + 1 = n) → f x = ∑ i ∈ Finset.range n, c i * deBoor t l x k i := by
  classical
  constructor
  · rintro ⟨p, hdeg, hval, hder⟩
    obtain ⟨c, hc⟩ := smooth_combination K.mono (k := k) (n := n) (fun l => p (t l)) (fun l => hdeg _) (by
      intro a m hka han h1 h2 hm0 hτ
      have had1 := K.adjacent hka (by omega) h1
      have had2 := K.adjacent (by omega) han h2
      have hτm := hτ (a + m) (by omega) le_rfl
      rw [hτm] at had2 ⊢
      rw [dvd_iff_derivative]
      intro r hr
      exact hder _ _ _ had1 had2 r (by rw [K.count a m hka han h1 h2 hm0 hτ]; exact hr))
    refine ⟨c, fun x l h1 h2 h3 h4 h5 => ?_⟩
    rw [eval_sum h2, ← hc l h1 h2 h3]
    refine hval _ _ (K.adjacent h1 h2 h3) x h4 (h5.imp id fun h => ⟨h.1, ?_⟩)
    exact K.upper _ (by omega)
  · rintro ⟨c, hc⟩
    let P : ℕ → ℝ[X] := fun l => ∑ i ∈ Finset.range (l + 1), C (c i) * bpoly t l k i
    let p : ℝ → ℝ[X] := fun a => if h : ∃ l, k ≤ l ∧ l < n ∧ t l = a ∧ t l < t (l + 1) then P h.choose else 0
    have hp : ∀ l, k ≤ l → l < n → t l < t (l + 1) → p (t l) = P l := by
      intro l h1 h2 h3
      have hex : ∃ l', k ≤ l' ∧ l' < n ∧ t l' = t l ∧ t l' < t (l' + 1) := ⟨l, h1, h2, rfl, h3⟩
      simp only [p]
      rw [dif_pos hex]
      obtain ⟨-, -, g3, g4⟩ := hex.choose_spec
      rw [left_unique K.mono g3 g4 h3]
    refine ⟨p, ?_, ?_, ?_⟩
    · intro a
      simp only [p]
      split
      · exact natDegree_sum_le_of_forall_le _ _ fun i _ => (natDegree_C_mul_le _ _).trans (bpoly_degree k i)
      · simp
    · intro a b hab x hax hxb
      obtain ⟨l, h1, h2, rfl, rfl⟩ := K.of_adjacent hab
      rw [hp l h1 h2 hab.2.2.1, hc x l h1 h2 hab.2.2.1 hax ?_, eval_sum h2]
      rcases hxb with h | ⟨h, h'⟩
      · exact Or.inl h
      · refine Or.inr ⟨h, ?_⟩
        by_contra hne
        exact absurd h' (K.inside (l + 1) (by omega) (by omega)).2.1.ne
    · intro a b d hab hbd
      obtain ⟨l, h1, h2, rfl, rfl⟩ := K.of_adjacent hab
      obtain ⟨l', h1', h2', h3', rfl⟩ := K.of_adjacent hbd
      have hll : l < l' := by
        by_contra hno
        have := K.mono (show l' ≤ l by omega)
        have := hab.2.2.1
        linarith
      obtain ⟨m, rfl⟩ := Nat.exists_eq_add_of_lt hll
      have hlt' : t (l + m + 1) < t (l + m + 1 + 1) := by rw [h3']; exact hbd.2.2.1
      have hτ : ∀ j, l < j → j ≤ l + (m + 1) → t j = t (l + 1) := fun j hj1 hj2 =>
        le_antisymm ((K.mono hj2).trans h3'.le) (K.mono hj1)
      have hcount := K.count l (m + 1) h1 h2' hab.2.2.1 hlt' (by omega) hτ
      rw [hcount, ← dvd_iff_derivative, ← h3', hp _ h1' h2' hlt', hp l h1 h2 hab.2.2.1, h3']
      exact combination_smooth K.mono h1 hab.2.2.1 hlt' hτ c

/-- The first B-spline is one at the lower end, the others are zero. -/
theorem at_lower {l : ℕ} (h1 : k ≤ l) (h2 : l < n) (h3 : t l < t (l + 1)) (h4 : t l ≤ lo) (i : ℕ) :
    deBoor t l lo k i = if i = 0 then 1 else 0 := by
  have hlk : l = k := by
    have h : t l = lo := le_antisymm h4 (by rw [← K.lower 0 (by omega)]; exact K.mono (by omega))
    by_contra hne
    exact absurd h (K.inside l (by omega) h2).1.ne'
  subst hlk
  have hpos : ∀ i, i ≠ 0 → deBoor t l lo l i = 0 := by
    intro i hi
    rw [Patsy.Splev.deBoor_eq]
    obtain ⟨q, hq⟩ := bpoly_dvd (l := l) (a := 0) (τ := lo) (k := l) (fun j _ hj => K.lower j hj) (Nat.pos_of_ne_zero hi)
    rw [hq, eval_mul, eval_pow]
    simp [hi]
  split
  · rename_i h
    subst h
    have hsum := congrArg (fun p => eval lo p) (bpoly_sum K.mono h3 h1)
    simp only [eval_finsetSum, eval_one, ← Patsy.Splev.deBoor_eq] at hsum
    rw [sum_eq_single 0 (fun i _ hi => hpos i hi) (fun h => absurd (mem_range.mpr (by omega)) h)] at hsum
    exact hsum
  · rename_i h
    exact hpos i h

/-- If no knot is repeated more than `k + 1` times, every B-spline has an interval. -/
theorem knots_distinct (hmult : ∀ a ∈ inner, inner.count a ≤ k + 1) {i : ℕ} (hi : i < n) : t i < t (i + k + 1) := by
  classical
  refine lt_of_le_of_ne (K.mono (by omega)) fun heq => ?_
  have hkn := K.many
  by_cases h1 : i ≤ k
  · by_cases h2 : n ≤ i + k + 1
    · rw [K.lower i h1, K.upper _ h2] at heq
      exact absurd heq K.range.ne
    · rw [K.lower i h1] at heq
      exact absurd heq (K.inside _ (by omega) (by omega)).1.ne
  · obtain ⟨g1, g2, g3⟩ := K.inside i (by omega) hi
    have hn : i + k + 1 < n := by
      by_contra hno
      rw [K.upper (i + k + 1) (by omega)] at heq
      exact absurd heq g2.ne
    -- the last knot before, and the last knot of the run
    have hk : t k < t i := by rw [K.lower k le_rfl]; exact g1
    set a := Nat.findGreatest (fun l => t l < t i) n with ha
    have hka : k ≤ a := Nat.le_findGreatest (by omega) hk
    have hta : t a < t i := Nat.findGreatest_spec (P := fun l => t l < t i) (m := k) (by omega) hk
    have hai : a < i := by
      by_contra hno
      exact absurd (K.mono (show i ≤ a by omega)) (not_le.mpr hta)
    have ha1 : t i ≤ t (a + 1) := not_lt.mp
      (Nat.findGreatest_is_greatest (P := fun l => t l < t i) (n := n) (k := a + 1) (by omega) (by omega))
    have ha2 : t (a + 1) = t i := le_antisymm (K.mono (by omega)) ha1
    set b := Nat.findGreatest (fun l => t l ≤ t i) n with hb
    have hib : i + k + 1 ≤ b := Nat.le_findGreatest hn.le heq.ge
    have htb : t b ≤ t i := Nat.findGreatest_spec (P := fun l => t l ≤ t i) (m := i) hi.le le_rfl
    have hbn : b < n := by
      by_contra hno
      rw [K.upper b (by omega)] at htb
      exact absurd g2 (not_lt.mpr htb)
    have hb1 : t i < t (b + 1) := not_le.mp
      (Nat.findGreatest_is_greatest (P := fun l => t l ≤ t i) (n := n) (k := b + 1) (by omega) (by omega))
    have hab : a + (b - a) = b := by omega
    have := K.count a (b - a) hka (by omega) (by rw [ha2]; exact hta) (by rw [hab]; exact htb.trans_lt hb1) (by omega) (by
      intro j hj1 hj2
      rw [ha2]
      exact le_antisymm ((K.mono (by omega)).trans htb) (ha2 ▸ K.mono hj1))
    rw [ha2] at this
    have h3 := hmult _ g3
    omega

/-- If no knot is repeated more than `k + 1` times, the coefficients of a spline are unique. -/
theorem coefficients_zero (hmult : ∀ a ∈ inner, inner.count a ≤ k + 1) {c : ℕ → ℝ}
    (h : ∀ x l, k ≤ l → l < n → t l < t (l + 1) → t l ≤ x → x < t (l + 1) →
      ∑ i ∈ Finset.range n, c i * deBoor t l x k i = 0) {i : ℕ} (hi : i < n) : c i = 0 := by
  obtain ⟨l, hil, hli, hlt⟩ : ∃ l, i ≤ l ∧ l ≤ i + k ∧ t l < t (l + 1) := by
    by_contra hno
    push Not at hno
    have hle : ∀ s, s ≤ k + 1 → t (i + s) ≤ t i := by
      intro s
      induction s with
      | zero => intro _; exact le_rfl
      | succ s ih => exact fun hs => (hno (i + s) (by omega) (by omega)).trans (ih (by omega))
    exact absurd (K.knots_distinct hmult hi) (not_lt.mpr (hle (k + 1) le_rfl))
  have hkl : k ≤ l := by
    by_contra hno
    rw [K.lower l (by omega), K.lower (l + 1) (by omega)] at hlt
    exact absurd hlt (lt_irrefl _)
  have hln : l < n := by
    by_contra hno
    rw [K.upper l (by omega), K.upper (l + 1) (by omega)] at hlt
    exact absurd hlt (lt_irrefl _)
  refine pieces_independent K.mono hlt hkl ?_ hli hil
  refine eq_zero_of_infinite_isRoot _ ((Set.Ico_infinite hlt).mono fun x hx => ?_)
  have := h x l hkl hln hlt hx.1 hx.2
  rwa [eval_sum hln] at this

end Knots

end Patsy.BSpline
