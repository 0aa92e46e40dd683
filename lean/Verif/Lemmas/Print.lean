import Verif.Spec.Print
import Mathlib.Tactic.Ring
import Mathlib.Tactic.Linarith
import Mathlib.Tactic.FieldSimp
import Mathlib.Tactic.NormNum
import Mathlib.Tactic.Push
import Mathlib.Tactic.IntervalCases
import Mathlib.Algebra.Order.Field.Basic

/-!
# Lemmas on the printing of design matrices
-/

namespace Patsy.Print

open Patsy.Spec.Print

/-! ### Numerals -/

theorem whole_numeral (n : ℕ) : whole (numeral n) = n := Nat.ofDigitChars_ten_toDigits

theorem isDigits_numeral (n : ℕ) : IsDigits (numeral n) := fun _ hc =>
  Nat.isDigit_of_mem_toDigits (by decide) (by decide) hc

theorem numeral_ne_nil (n : ℕ) : numeral n ≠ [] := Nat.toDigits_ne_nil

theorem digitChar_zero {n : ℕ} (hn : n < 10) : n.digitChar = '0' ↔ n = 0 := by
  constructor
  · intro h
    have := Nat.toNat_digitChar_sub_48_of_lt_ten hn
    rw [h] at this
    simpa using this.symm
  · rintro rfl
    rfl

theorem numeral_head (n : ℕ) (h : (numeral n).head? = some '0') : numeral n = ['0'] := by
  induction n using Nat.strongRecOn with
  | ind n ih =>
    rcases Nat.lt_or_ge n 10 with h10 | h10
    · rw [numeral, Nat.toDigits_of_lt_base h10] at h ⊢
      simp only [List.head?_cons, Option.some.injEq] at h
      rw [h]
    · exfalso
      rw [numeral, Nat.toDigits_of_base_le (by decide) h10, List.head?_append_of_ne_nil _ Nat.toDigits_ne_nil] at h
      have h1 := ih (n / 10) (by omega) h
      have h2 := whole_numeral (n / 10)
      rw [h1] at h2
      change 0 = n / 10 at h2
      omega

theorem isDigit_digitChar {n : ℕ} (hn : n < 10) : n.digitChar.isDigit = true := by
  interval_cases n <;> rfl

theorem length_lastDigits (p m : ℕ) : (lastDigits p m).length = p := by
  induction p generalizing m with
  | zero => rfl
  | succ p ih => simp [lastDigits, ih]

theorem isDigits_lastDigits (p m : ℕ) : IsDigits (lastDigits p m) := by
  induction p generalizing m with
  | zero => intro c hc; cases hc
  | succ p ih =>
    intro c hc
    rw [lastDigits, List.mem_append, List.mem_singleton] at hc
    rcases hc with hc | rfl
    · exact ih _ c hc
    · exact isDigit_digitChar (Nat.mod_lt _ (by decide))

theorem whole_append_digit (s : List Char) {n : ℕ} (hn : n < 10) : whole (s ++ [n.digitChar]) = 10 * whole s + n := by
  simp only [whole, List.foldl_append, List.foldl_cons, List.foldl_nil]
  rw [Nat.toNat_digitChar_sub_48_of_lt_ten hn]

theorem whole_lastDigits (p m : ℕ) : whole (lastDigits p m) = m % 10 ^ p := by
  induction p generalizing m with
  | zero => simp [lastDigits, whole, Nat.mod_one]
  | succ p ih =>
    rw [lastDigits, whole_append_digit _ (Nat.mod_lt _ (by decide)), ih, pow_succ, mul_comm (10 ^ p) 10, Nat.mod_mul]
    ring

/-! ### Rounding -/

theorem round_spec (a b : ℕ) (hb : 0 < b) :
    |(a : ℚ) / b - roundHalfEven a b| ≤ 1 / 2 ∧ (|(a : ℚ) / b - roundHalfEven a b| = 1 / 2 → Even (roundHalfEven a b)) := by
  have hb' : (0 : ℚ) < b := by exact_mod_cast hb
  have hr : a % b < b := Nat.mod_lt _ hb
  have hq : (a : ℚ) / b = (a / b : ℕ) + ((a % b : ℕ) : ℚ) / b := by
    rw [eq_comm, ← sub_eq_zero]
    field_simp
    have : (a : ℚ) = ((b * (a / b) + a % b : ℕ) : ℚ) := by rw [Nat.div_add_mod]
    rw [this]
    push_cast
    ring
  set f := a / b
  set r := a % b
  have hr0 : (0 : ℚ) ≤ (r : ℚ) / b := by positivity
  unfold roundHalfEven
  rw [hq]
  split_ifs with h1 h2
  · have h3 : (r : ℚ) / b < 1 / 2 := by
      rw [div_lt_div_iff₀ hb' (by norm_num)]
      exact_mod_cast (by omega : r * 2 < 1 * b)
    rw [show ((f : ℚ) + (r : ℚ) / b - f) = (r : ℚ) / b by ring, abs_of_nonneg hr0]
    exact ⟨le_of_lt h3, fun h => absurd h (ne_of_lt h3)⟩
  · have h3 : 1 / 2 < (r : ℚ) / b := by
      rw [div_lt_div_iff₀ (by norm_num) hb']
      exact_mod_cast (by omega : 1 * b < r * 2)
    have h4 : (r : ℚ) / b < 1 := by
      rw [div_lt_one hb']
      exact_mod_cast hr
    have h5 : ((f : ℚ) + (r : ℚ) / b - ((f + 1 : ℕ) : ℚ)) = -(1 - (r : ℚ) / b) := by push_cast; ring
    rw [h5, abs_neg, abs_of_nonneg (by linarith)]
    exact ⟨by linarith, fun h => absurd h (by intro h; linarith)⟩
  · have h3 : (r : ℚ) / b = 1 / 2 := by
      rw [div_eq_div_iff (ne_of_gt hb') (by norm_num)]
      exact_mod_cast (by omega : r * 2 = 1 * b)
    rw [h3]
    have he : f % 2 = 0 ∨ f % 2 = 1 := by omega
    rcases he with he | he
    · rw [he]
      refine ⟨?_, fun _ => ?_⟩
      · rw [show ((f : ℚ) + 1 / 2 - ((f + 0 : ℕ) : ℚ)) = 1 / 2 by push_cast; ring]
        norm_num
      · rw [Nat.add_zero, Nat.even_iff]
        exact he
    · rw [he]
      refine ⟨?_, fun _ => ?_⟩
      · rw [show ((f : ℚ) + 1 / 2 - ((f + 1 : ℕ) : ℚ)) = -(1 / 2) by push_cast; ring]
        norm_num
      · rw [Nat.even_iff]
        omega

/-- The number that is printed, times `10^p`, without its sign. -/
def scaled (p : ℕ) : Num → Option ℕ
  | .fin q => some (roundHalfEven (q.num.natAbs * 10 ^ p) q.den)
  | .negZero => some 0
  | _ => none

theorem rounded_scaled {p : ℕ} {x : Num} {q : ℚ} {m : ℕ} (hx : value x = some q) (hm : scaled p x = some m) :
    Rounded p q ((if negative x then -1 else 1) * ((m : ℚ) / 10 ^ p)) := by
  cases x with
  | inf neg => cases hx
  | nan => cases hx
  | negZero =>
    simp only [value, Option.some.injEq] at hx
    simp only [scaled, Option.some.injEq] at hm
    subst hx hm
    refine ⟨0, by simp, ?_, fun _ => by simp⟩
    simp
    positivity
  | fin q' =>
    simp only [value, Option.some.injEq] at hx
    simp only [scaled, Option.some.injEq] at hm
    subst hx
    have hd : (0 : ℚ) < q'.den := by exact_mod_cast q'.den_pos
    have hp : (0 : ℚ) < 10 ^ p := by positivity
    obtain ⟨h1, h2⟩ := round_spec (q'.num.natAbs * 10 ^ p) q'.den q'.den_pos
    rw [hm] at h1 h2
    have ha : ((q'.num.natAbs * 10 ^ p : ℕ) : ℚ) / q'.den = |q'| * 10 ^ p := by
      have : |q'| = (q'.num.natAbs : ℚ) / q'.den := by
        rw [Nat.cast_natAbs, Int.cast_abs]
        conv_lhs => rw [← Rat.num_div_den q']
        rw [abs_div, abs_of_pos hd]
      rw [this]
      push_cast
      ring
    rw [ha] at h1 h2
    have key : |q' - (if negative (.fin q') then -1 else 1) * ((m : ℚ) / 10 ^ p)| = |(|q'| * 10 ^ p - m)| / 10 ^ p := by
      by_cases hn : q' < 0
      · simp only [negative, hn, decide_true, if_true, abs_of_neg hn]
        rw [← abs_of_pos hp, ← abs_div, abs_of_pos hp, ← abs_neg]
        congr 1
        field_simp
        ring
      · simp only [negative, hn, decide_false, abs_of_nonneg (not_lt.1 hn)]
        rw [← abs_of_pos hp, ← abs_div, abs_of_pos hp]
        congr 1
        simp only [Bool.false_eq_true, if_false]
        field_simp
    refine ⟨(if negative (.fin q') then -1 else 1) * (m : ℤ), ?_, ?_, fun h => ?_⟩
    · push_cast
      split_ifs <;> ring
    · rw [key]
      exact div_le_div_of_nonneg_right h1 hp.le
    · rw [key] at h
      have h3 : |(|q'| * 10 ^ p - m)| = 1 / 2 := by
        rw [div_eq_div_iff hp.ne' hp.ne'] at h
        exact mul_right_cancel₀ hp.ne' h
      have h4 : Even (m : ℤ) := by exact_mod_cast h2 h3
      exact h4.mul_left _

/-! ### Stripping zeros -/

/-- A string before stripping, with `d` digits after the point; without a number it is not looked at. -/
def unstripped (d : ℕ) (e : List Char × Option ℕ) : Bool × List Char :=
  match e.2 with
  | none => (false, e.1)
  | some m => (true, e.1 ++ '.' :: lastDigits d m)

/-- A string after stripping. -/
def after (d : ℕ) (e : List Char × Option ℕ) : List Char :=
  match e.2 with
  | none => e.1
  | some m => e.1 ++ if d = 0 then [] else '.' :: lastDigits d m

/-- One zero less. -/
def shorten (t : ℕ) (e : List Char × Option ℕ) : List Char × Option ℕ := (e.1, e.2.map (· / 10 ^ t))

theorem endsWith_append (c : Char) (a b : List Char) (hb : b ≠ []) : endsWith c (a ++ b) = endsWith c b := by
  simp only [endsWith]
  rw [List.getLast?_append_of_ne_nil _ hb]

theorem endsWith_zero (a : List Char) (d m : ℕ) : endsWith '0' (a ++ '.' :: lastDigits (d + 1) m) = decide (m % 10 = 0) := by
  rw [endsWith_append _ _ _ (by simp), lastDigits, ← List.cons_append, endsWith_append _ _ _ (by simp)]
  have := digitChar_zero (Nat.mod_lt m (by decide : 10 > 0))
  by_cases h : m % 10 = 0
  · simp [endsWith, h]
  · have h' : ¬ (m % 10).digitChar = '0' := fun h' => h (this.1 h')
    simp [endsWith, h, h']

theorem endsWith_point (a : List Char) (d m : ℕ) : endsWith '.' (a ++ '.' :: lastDigits (d + 1) m) = false := by
  rw [endsWith_append _ _ _ (by simp), lastDigits, ← List.cons_append, endsWith_append _ _ _ (by simp)]
  have h : m % 10 < 10 := Nat.mod_lt _ (by decide)
  generalize m % 10 = n at h
  interval_cases n <;> rfl

theorem dropLast_before (a : List Char) (d m : ℕ) :
    (a ++ '.' :: lastDigits (d + 1) m).dropLast = a ++ '.' :: lastDigits d (m / 10) := by
  rw [lastDigits, ← List.cons_append, ← List.append_assoc, List.dropLast_concat]

/-- Only strings with a number count. -/
theorem all_before (c : Char) (d : ℕ) (es : List (List Char × Option ℕ)) :
    ((es.map (unstripped d)).all fun e => !e.1 || endsWith c e.2) = true ↔
      ∀ e ∈ es, ∀ m, e.2 = some m → endsWith c (e.1 ++ '.' :: lastDigits d m) = true := by
  simp only [List.all_map, List.all_eq_true, Function.comp]
  refine forall₂_congr fun e _ => ?_
  rcases e with ⟨s, _ | m⟩ <;> simp [unstripped]

theorem strip_loop (d : ℕ) (es : List (List Char × Option ℕ)) (fuel : ℕ) (hf : d + 4 ≤ fuel)
    (hs : ∃ e ∈ es, ∃ m, e.2 = some m) (hp : ∀ e ∈ es, ∀ m, e.2 = some m → endsWith '.' e.1 = false) :
    ∃ t d', t + d' = d ∧ (stripLoop fuel '0' (es.map (unstripped d))).map (·.2) = es.map (fun e => after d' (shorten t e)) ∧
      (∀ e ∈ es, ∀ m, e.2 = some m → 10 ^ t ∣ m) ∧ (d' ≠ 0 → ∃ e ∈ es, ∃ m, e.2 = some m ∧ m / 10 ^ t % 10 ≠ 0) := by
  induction d generalizing es fuel with
  | zero =>
    obtain ⟨fuel, rfl⟩ : ∃ f, fuel = f + 3 := ⟨fuel - 3, by omega⟩
    obtain ⟨e0, he0, m0, hm0⟩ := hs
    refine ⟨0, 0, rfl, ?_, fun _ _ m _ => by simp, fun h => absurd rfl h⟩
    have h1 : ¬ ((es.map (unstripped 0)).all fun e => !e.1 || endsWith '0' e.2) = true := by
      rw [all_before]
      intro h
      have := h e0 he0 m0 hm0
      rw [endsWith_append _ _ _ (by simp)] at this
      simp [lastDigits, endsWith] at this
    have h2 : ((es.map (unstripped 0)).all fun e => !e.1 || endsWith '.' e.2) = true := by
      rw [all_before]
      intro e _ m _
      rw [endsWith_append _ _ _ (by simp)]
      rfl
    have h3 : ((es.map (unstripped 0)).map fun e => if e.1 then (true, e.2.dropLast) else e) =
        es.map fun e => (e.2.isSome, e.1) := by
      rw [List.map_map]
      refine List.map_congr_left fun e _ => ?_
      rcases e with ⟨s, _ | m⟩
      · rfl
      · simp [unstripped, lastDigits]
    have h4 : ¬ ((es.map fun e => ((e.2.isSome, e.1) : Bool × List Char)).all fun e => !e.1 || endsWith '.' e.2) = true := by
      intro h
      rw [List.all_map, List.all_eq_true] at h
      have := h e0 he0
      simp [hm0, hp e0 he0 m0 hm0] at this
    rw [stripLoop, if_neg h1, if_pos rfl, stripLoop, if_pos h2, h3, stripLoop, if_neg h4, if_neg (by decide), List.map_map]
    refine List.map_congr_left fun e _ => ?_
    rcases e with ⟨s, _ | m⟩ <;> simp [after, shorten]
  | succ d ih =>
    obtain ⟨fuel, rfl⟩ : ∃ f, fuel = f + 2 := ⟨fuel - 2, by omega⟩
    rw [stripLoop]
    by_cases hz : ∀ e ∈ es, ∀ m, e.2 = some m → m % 10 = 0
    · rw [if_pos ((all_before _ _ _).2 fun e he m hm => by rw [endsWith_zero]; exact decide_eq_true (hz e he m hm))]
      have h3 : ((es.map (unstripped (d + 1))).map fun e => if e.1 then (true, e.2.dropLast) else e) =
          (es.map (shorten 1)).map (unstripped d) := by
        rw [List.map_map, List.map_map]
        refine List.map_congr_left fun e _ => ?_
        rcases e with ⟨s, _ | m⟩
        · rfl
        · simp only [Function.comp, unstripped, shorten, Option.map_some, if_true, dropLast_before, pow_one]
      rw [h3]
      obtain ⟨t, d', h4, h5, h6, h7⟩ := ih (es.map (shorten 1)) (fuel + 1) (by omega)
        (by
          obtain ⟨e, he, m, hm⟩ := hs
          exact ⟨_, List.mem_map_of_mem he, m / 10 ^ 1, by simp only [shorten, hm, Option.map_some]⟩)
        (by
          intro e he m hm
          obtain ⟨e', he', rfl⟩ := List.mem_map.1 he
          simp only [shorten, Option.map_eq_some_iff] at hm
          obtain ⟨m', hm', _⟩ := hm
          exact hp e' he' m' hm')
      refine ⟨t + 1, d', by omega, ?_, ?_, ?_⟩
      · rw [h5, List.map_map]
        refine List.map_congr_left fun e _ => ?_
        rcases e with ⟨s, _ | m⟩
        · rfl
        · simp only [Function.comp, shorten, Option.map_some, pow_one, Nat.div_div_eq_div_mul]
          rw [pow_succ, mul_comm]
      · intro e he m hm
        have h8 := h6 (shorten 1 e) (List.mem_map_of_mem he) (m / 10) (by simp [shorten, hm])
        obtain ⟨c, hc⟩ := h8
        refine ⟨c, ?_⟩
        have := hz e he m hm
        rw [pow_succ, mul_comm (10 ^ t) 10, mul_assoc, ← hc]
        omega
      · intro h
        obtain ⟨e, he, m, hm, h8⟩ := h7 h
        obtain ⟨e', he', rfl⟩ := List.mem_map.1 he
        simp only [shorten, Option.map_eq_some_iff, pow_one] at hm
        obtain ⟨m', hm', rfl⟩ := hm
        refine ⟨e', he', m', hm', ?_⟩
        rw [Nat.div_div_eq_div_mul] at h8
        rw [pow_succ, mul_comm]
        exact h8
    · rw [if_neg (by
        rw [all_before]
        intro h
        refine hz fun e he m hm => ?_
        have := h e he m hm
        rw [endsWith_zero] at this
        exact of_decide_eq_true this), if_pos rfl, stripLoop, if_neg (by
          rw [all_before]
          intro h
          obtain ⟨e, he, m, hm⟩ := hs
          have := h e he m hm
          rw [endsWith_point] at this
          exact absurd this (by decide)), if_neg (by decide)]
      push Not at hz
      obtain ⟨e, he, m, hm, hm'⟩ := hz
      refine ⟨0, d + 1, by omega, ?_, fun _ _ m _ => by simp, fun _ => ⟨e, he, m, hm, by simpa using hm'⟩⟩
      rw [List.map_map]
      refine List.map_congr_left fun e _ => ?_
      rcases e with ⟨s, _ | m⟩ <;> simp [after, unstripped, shorten]

/-! ### A column -/

/-- The sign of a number and the digits before the point, and the digits with `p` decimals. -/
def entry (p : ℕ) (x : Num) : List Char × Option ℕ :=
  match scaled p x with
  | none => (formatF p x, none)
  | some m => ((if negative x then ['-'] else []) ++ numeral (m / 10 ^ p), some m)

theorem simple_point {a b : List Char} (neg : Bool) (ha : IsDigits a) (hb : IsDigits b) :
    simple ((if neg then ['-'] else []) ++ a ++ '.' :: b) = true := by
  have hd : ∀ c : Char, c.isDigit = true →
      c ∈ ['+', '-', '0', '1', '2', '3', '4', '5', '6', '7', '8', '9', '.'] := by
    intro c hc
    simp only [Char.isDigit, Bool.and_eq_true, decide_eq_true_eq] at hc
    obtain ⟨h1, h2⟩ := hc
    have h3 : c.toNat < 58 := by
      have : c.val.toNat ≤ '9'.val.toNat := h2
      simp only [Char.toNat]
      exact Nat.lt_succ_of_le this
    have h4 : 48 ≤ c.toNat := h1
    have h5 : c = Char.ofNat c.toNat := (Char.ofNat_toNat c).symm
    rw [h5]
    generalize c.toNat = n at h3 h4
    interval_cases n <;> decide
  simp only [simple, Bool.and_eq_true, List.all_eq_true, decide_eq_true_eq]
  refine ⟨fun c hc => ?_, by simp⟩
  simp only [List.mem_append, List.mem_cons] at hc
  rcases hc with (hc | hc) | rfl | hc
  · cases neg
    · cases hc
    · simp only [if_true, List.mem_singleton] at hc
      subst hc
      decide
  · exact hd c (ha c hc)
  · decide
  · exact hd c (hb c hc)

theorem formatF_scaled {p : ℕ} {x : Num} {m : ℕ} (h : scaled p x = some m) :
    formatF p x = (if negative x then ['-'] else []) ++ fixed p m := by
  cases x with
  | fin q =>
    simp only [scaled, Option.some.injEq] at h
    simp only [formatF, negative, h, decide_eq_true_eq]
  | negZero =>
    simp only [scaled, Option.some.injEq] at h
    subst h
    rfl
  | inf neg => cases h
  | nan => cases h

theorem masked_entry {p : ℕ} (hp : p ≠ 0) (x : Num) : (simple (formatF p x), formatF p x) = unstripped p (entry p x) := by
  cases h : scaled p x with
  | none =>
    simp only [entry, h, unstripped, Prod.mk.injEq, and_true]
    cases x with
    | fin q => cases h
    | negZero => cases h
    | inf neg =>
      cases neg
      · change simple ['i', 'n', 'f'] = false
        decide
      · change simple ['-', 'i', 'n', 'f'] = false
        decide
    | nan =>
      change simple ['n', 'a', 'n'] = false
      decide
  | some m =>
    rw [formatF_scaled h]
    simp only [entry, h, unstripped, fixed, if_neg hp]
    rw [← List.append_assoc, simple_point _ (isDigits_numeral _) (isDigits_lastDigits _ _)]

theorem simple_zero (x : Num) : simple (formatF 0 x) = false := by
  have h : ∀ m, '.' ∉ fixed 0 m := by
    intro m hm
    simp only [fixed, if_true, List.append_nil] at hm
    exact absurd (isDigits_numeral _ _ hm) (by decide)
  cases x with
  | fin q =>
    have h' : '.' ∉ formatF 0 (.fin q) := by
      intro hm
      simp only [formatF, List.mem_append] at hm
      rcases hm with hm | hm
      · split_ifs at hm
        · simp at hm
        · cases hm
      · exact h _ hm
    simp only [simple, h', decide_false, Bool.and_false]
  | negZero => decide
  | inf neg => cases neg <;> decide
  | nan => decide

theorem scaled_isSome (p : ℕ) (x : Num) : (∃ m, scaled p x = some m) ↔ ∃ q, value x = some q := by
  cases x <;> simp [scaled, value]

theorem endsWith_point_numeral (s : List Char) (n : ℕ) : endsWith '.' (s ++ numeral n) = false := by
  rw [endsWith_append _ _ _ (numeral_ne_nil n)]
  simp only [endsWith]
  cases h : (numeral n).getLast? with
  | none => rfl
  | some c =>
    have h1 := isDigits_numeral n c (List.mem_of_getLast? h)
    by_contra hc
    have h2 : c = '.' := by simpa using hc
    rw [h2] at h1
    exact absurd h1 (by decide)

/-- `d'` digits after the point are enough if the other `t` are zeros. -/
theorem decimal_after {p t d' : ℕ} (h : t + d' = p) {m : ℕ} (hm : 10 ^ t ∣ m) (neg : Bool) :
    Decimal d' (after d' ((if neg then ['-'] else []) ++ numeral (m / 10 ^ p), some (m / 10 ^ t))) neg
      ((if neg then -1 else 1) * ((m : ℚ) / 10 ^ p)) := by
  obtain ⟨c, rfl⟩ := hm
  have ht : 0 < 10 ^ t := by positivity
  have ht' : (10 ^ t : ℚ) ≠ 0 := by positivity
  have h1 : 10 ^ t * c / 10 ^ p = c / 10 ^ d' := by
    rw [← h, pow_add, Nat.mul_div_mul_left _ _ ht]
  have h2 : 10 ^ t * c / 10 ^ t = c := Nat.mul_div_cancel_left _ ht
  have h3 : ((10 ^ t * c : ℕ) : ℚ) / 10 ^ p = (c : ℚ) / 10 ^ d' := by
    rw [← h, pow_add]
    push_cast
    rw [mul_div_mul_left _ _ ht']
  rw [h1, h2, h3]
  by_cases hd : d' = 0
  · subst hd
    have := Decimal.whole (d := 0) rfl (isDigits_numeral c) (numeral_ne_nil c) (numeral_head c) neg
    rw [whole_numeral] at this
    simpa [after] using this
  · have := Decimal.point (length_lastDigits d' c) hd (isDigits_numeral (c / 10 ^ d')) (numeral_ne_nil _) (numeral_head _)
      (isDigits_lastDigits d' c) neg
    rw [whole_numeral, whole_lastDigits] at this
    have hc : (c : ℚ) / 10 ^ d' = ((c / 10 ^ d' : ℕ) : ℚ) + ((c % 10 ^ d' : ℕ) : ℚ) / 10 ^ d' := by
      have h10 : (10 ^ d' : ℚ) ≠ 0 := by positivity
      rw [eq_comm, ← sub_eq_zero]
      field_simp
      have h5 : (c : ℚ) = ((10 ^ d' * (c / 10 ^ d') + c % 10 ^ d' : ℕ) : ℚ) := by rw [Nat.div_add_mod]
      conv_lhs => rw [h5]
      push_cast
      ring
    rw [hc]
    simpa only [after, if_neg hd] using this

theorem zip_self_map {α β : Type} (l : List α) (f : α → β) {e : α × β} (he : e ∈ l.zip (l.map f)) : e.1 ∈ l ∧ e.2 = f e.1 := by
  rw [List.zip_map_right, List.mem_map] at he
  obtain ⟨⟨a, b⟩, h, rfl⟩ := he
  have h1 := List.of_mem_zip h
  have h2 : a = b := by
    rw [List.mem_iff_getElem?] at h
    obtain ⟨i, hi⟩ := h
    rw [List.getElem?_zip_eq_some] at hi
    exact Option.some.inj (hi.1.symm.trans hi.2)
  subst h2
  exact ⟨h1.1, rfl⟩

end Patsy.Print
