import Verif.Lemmas.Print
import Verif.Props.DesignInfo
import Mathlib.Data.List.GetD

/-!
# C64: what is printed for a design matrix
-/

namespace Patsy.Props

open Patsy.Desc Patsy.Build Patsy.Print Patsy.Spec.Print

/-! ### A column of numbers -/

/-- **C64**, numbers.  `_format_float_column` prints every finite number of a column rounded to `p` decimals, half to even, with
the least number of decimals that shows all of them; the others by their names. -/
theorem column_shown (p : ℕ) (xs : List Num) : ∃ d, Shown p d xs (formatColumn p xs) := by
  by_cases hany : ∃ x ∈ xs, ∃ m, scaled p x = some m
  · by_cases hp : p = 0
    · -- no point, nothing to strip
      subst hp
      have h0 : formatColumn 0 xs = xs.map (formatF 0) := by
        simp only [formatColumn]
        rw [if_neg]
        simp only [List.map_map, List.any_map, List.any_eq_true, Function.comp, simple_zero]
        rintro ⟨_, _, h⟩
        cases h
      refine ⟨0, ?_, le_refl 0, ?_, ?_, fun d' h => absurd h (Nat.not_lt_zero _)⟩
      · rw [h0, List.length_map]
      · intro e he q hq
        rw [h0] at he
        obtain ⟨_, h2⟩ := zip_self_map _ _ he
        obtain ⟨m, hm⟩ := (scaled_isSome 0 e.1).2 ⟨q, hq⟩
        refine ⟨_, rounded_scaled hq hm, ?_⟩
        have := decimal_after (p := 0) (t := 0) (d' := 0) rfl (m := m) (by simp) (negative e.1)
        rw [h2, formatF_scaled hm]
        simpa [after, fixed] using this
      · intro e he hq
        rw [h0] at he
        obtain ⟨_, h2⟩ := zip_self_map _ _ he
        rw [h2]
        rcases e with ⟨x, s⟩
        cases x with
        | fin q => cases hq
        | negZero => cases hq
        | inf neg => cases neg <;> rfl
        | nan => rfl
    · have hmask : (xs.map (formatF p)).map (fun s => (simple s, s)) = (xs.map (entry p)).map (unstripped p) := by
        rw [List.map_map, List.map_map]
        exact List.map_congr_left fun x _ => masked_entry hp x
      obtain ⟨x0, hx0, m0, hm0⟩ := hany
      have he0 : (entry p x0).2 = some m0 := by simp only [entry, hm0]
      have hent : ∀ e ∈ xs.map (entry p), ∀ m, e.2 = some m → ∃ x ∈ xs, e = entry p x ∧ scaled p x = some m := by
        intro e he m hm
        obtain ⟨x, hx, rfl⟩ := List.mem_map.1 he
        refine ⟨x, hx, rfl, ?_⟩
        cases hs : scaled p x with
        | none => simp [entry, hs] at hm
        | some m' => simpa [entry, hs] using hm
      obtain ⟨t, d', h1, h2, h3, h4⟩ := strip_loop p (xs.map (entry p)) (p + 4) (le_refl _)
        ⟨_, List.mem_map_of_mem hx0, m0, he0⟩ (by
          intro e he m hm
          obtain ⟨x, _, rfl, hs⟩ := hent e he m hm
          simp only [entry, hs]
          exact endsWith_point_numeral _ _)
      have h0 : formatColumn p xs = xs.map fun x => after d' (shorten t (entry p x)) := by
        simp only [formatColumn]
        rw [if_pos, hmask, h2, List.map_map]
        · rfl
        · rw [hmask, List.any_eq_true]
          refine ⟨_, List.mem_map_of_mem (List.mem_map_of_mem hx0), ?_⟩
          simp [unstripped, he0]
      refine ⟨d', ?_, by omega, ?_, ?_, ?_⟩
      · rw [h0, List.length_map]
      · intro e he q hq
        rw [h0] at he
        obtain ⟨hx, h5⟩ := zip_self_map _ _ he
        obtain ⟨m, hm⟩ := (scaled_isSome p e.1).2 ⟨q, hq⟩
        refine ⟨_, rounded_scaled hq hm, ?_⟩
        have := decimal_after h1 (h3 (entry p e.1) (List.mem_map_of_mem hx) m (by simp [entry, hm])) (negative e.1)
        rw [h5]
        simpa [entry, hm, shorten] using this
      · intro e he hq
        rw [h0] at he
        obtain ⟨hx, h5⟩ := zip_self_map _ _ he
        rw [h5]
        rcases e with ⟨x, s⟩
        cases x with
        | fin q => cases hq
        | negZero => cases hq
        | inf neg => cases neg <;> rfl
        | nan => rfl
      · intro d'' hd
        obtain ⟨e, he, m, hm, h5⟩ := h4 (by omega)
        obtain ⟨x, hx, _, hs⟩ := hent e he m hm
        obtain ⟨q, hq⟩ := (scaled_isSome p x).1 ⟨m, hs⟩
        refine ⟨x, hx, q, _, hq, rounded_scaled hq hs, ?_⟩
        rintro ⟨k, hk⟩
        refine h5 ?_
        -- `m` would be a multiple of `10^(t + 1)`
        obtain ⟨r, hr⟩ : ∃ r, p = d'' + (t + 1 + r) := ⟨p - d'' - t - 1, by omega⟩
        have h10 : (10 ^ d'' : ℚ) ≠ 0 := by positivity
        have hmk : (m : ℤ) = (if negative x then -1 else 1) * k * 10 ^ (t + 1 + r) := by
          have hq' : (m : ℚ) = (if negative x then -1 else 1) * k * 10 ^ (t + 1 + r) := by
            rw [← hk, hr, pow_add _ d'']
            have h10' : (10 ^ (t + 1 + r) : ℚ) ≠ 0 := by positivity
            split_ifs <;> field_simp
          have : ((m : ℤ) : ℚ) = (((if negative x then -1 else 1) * k * 10 ^ (t + 1 + r) : ℤ) : ℚ) := by
            push_cast
            rw [hq']
          exact_mod_cast this
        have hdvd : (10 ^ (t + 1) : ℤ) ∣ m := by
          rw [hmk, pow_add _ (t + 1)]
          exact ⟨(if negative x then -1 else 1) * k * 10 ^ r, by ring⟩
        have hdvd' : 10 ^ (t + 1) ∣ m := by exact_mod_cast hdvd
        obtain ⟨c, rfl⟩ := hdvd'
        rw [pow_succ, mul_assoc, Nat.mul_div_cancel_left _ (by positivity), Nat.mul_mod_right]
  · -- no finite number
    have hnone : ∀ x ∈ xs, value x = none := by
      intro x hx
      by_contra h
      obtain ⟨q, hq⟩ := Option.ne_none_iff_exists'.1 h
      exact hany ⟨x, hx, (scaled_isSome p x).2 ⟨q, hq⟩⟩
    have hsim : ∀ x ∈ xs, simple (formatF p x) = false := by
      intro x hx
      have := hnone x hx
      cases x with
      | fin q => cases this
      | negZero => cases this
      | inf neg =>
        cases neg
        · change simple ['i', 'n', 'f'] = false
          decide
        · change simple ['-', 'i', 'n', 'f'] = false
          decide
      | nan =>
        change simple ['n', 'a', 'n'] = false
        decide
    have h0 : formatColumn p xs = xs.map (formatF p) := by
      simp only [formatColumn]
      rw [if_neg]
      simp only [List.map_map, List.any_map, List.any_eq_true, Function.comp]
      rintro ⟨x, hx, h⟩
      rw [hsim x hx] at h
      cases h
    refine ⟨0, ?_, Nat.zero_le _, ?_, ?_, fun d' h => absurd h (Nat.not_lt_zero _)⟩
    · rw [h0, List.length_map]
    · intro e he q hq
      rw [h0] at he
      obtain ⟨hx, _⟩ := zip_self_map _ _ he
      rw [hnone _ hx] at hq
      cases hq
    · intro e he hq
      rw [h0] at he
      obtain ⟨_, h2⟩ := zip_self_map _ _ he
      rw [h2]
      rcases e with ⟨x, s⟩
      cases x with
      | fin q => cases hq
      | negZero => cases hq
      | inf neg => cases neg <;> rfl
      | nan => rfl

/-- A number has one rounding. -/
theorem rounded_unique {p : ℕ} {x v w : ℚ} (hv : Rounded p x v) (hw : Rounded p x w) : v = w := by
  obtain ⟨m, rfl, h1, h2⟩ := hv
  obtain ⟨n, rfl, h3, h4⟩ := hw
  have hp : (0 : ℚ) < 10 ^ p := by positivity
  -- in units of `10^-p`
  have scale : ∀ k : ℤ, |x - k / 10 ^ p| = |x * 10 ^ p - k| / 10 ^ p := by
    intro k
    rw [← abs_of_pos hp, ← abs_div, abs_of_pos hp]
    congr 1
    field_simp
  rw [scale] at h1 h2 h3 h4
  have cancel : ∀ a b : ℚ, a / 10 ^ p = b / 10 ^ p ↔ a = b := fun a b => by
    rw [div_eq_div_iff hp.ne' hp.ne']
    exact mul_left_inj' hp.ne'
  rw [div_le_div_iff_of_pos_right hp] at h1 h3
  rw [cancel] at h2 h4
  generalize x * 10 ^ p = y at *
  rw [cancel]
  obtain ⟨a1, a2⟩ := abs_le.1 h1
  obtain ⟨a3, a4⟩ := abs_le.1 h3
  have hmn : m - n ≤ 1 := by
    have : ((m - n : ℤ) : ℚ) ≤ 1 := by push_cast; linarith
    exact_mod_cast this
  have hnm : n - m ≤ 1 := by
    have : ((n - m : ℤ) : ℚ) ≤ 1 := by push_cast; linarith
    exact_mod_cast this
  have hcases : m = n ∨ m = n + 1 ∨ n = m + 1 := by omega
  rcases hcases with h | h | h
  · rw [h]
  · exfalso
    subst h
    push_cast at a1 a2 h2
    have hy : y = n + 1 / 2 := by linarith
    have e1 := h4 (by rw [hy, show ((n : ℚ) + 1 / 2 - n) = 1 / 2 by ring]; norm_num)
    have e2 := h2 (by rw [hy, show ((n : ℚ) + 1 / 2 - (n + 1)) = -(1 / 2) by ring]; norm_num)
    rw [Int.even_iff] at e1 e2
    omega
  · exfalso
    subst h
    push_cast at a3 a4 h4
    have hy : y = m + 1 / 2 := by linarith
    have e1 := h2 (by rw [hy, show ((m : ℚ) + 1 / 2 - m) = 1 / 2 by ring]; norm_num)
    have e2 := h4 (by rw [hy, show ((m : ℚ) + 1 / 2 - (m + 1)) = -(1 / 2) by ring]; norm_num)
    rw [Int.even_iff] at e1 e2
    omega

/-- A decimal number can be read in one way. -/
theorem decimal_unique {d d' : ℕ} {s : List Char} {neg neg' : Bool} {v v' : ℚ} (h : Decimal d s neg v)
    (h' : Decimal d' s neg' v') : d = d' ∧ neg = neg' ∧ v = v' := by
  -- the sign
  have hsign : ∀ {ip ip' r r' : List Char} {a b : Bool}, IsDigits ip → ip ≠ [] → IsDigits ip' → ip' ≠ [] →
      (if a then ['-'] else []) ++ (ip ++ r) = (if b then ['-'] else []) ++ (ip' ++ r') → a = b ∧ ip ++ r = ip' ++ r' := by
    intro ip ip' r r' a b h1 h2 h3 h4 h
    have hd : ∀ {ip : List Char} {r : List Char}, IsDigits ip → ip ≠ [] → ∀ t, ip ++ r ≠ '-' :: t := by
      intro ip r h1 h2 t ht
      cases ip with
      | nil => exact h2 rfl
      | cons c ip =>
        rw [List.cons_append] at ht
        have := h1 c (by simp)
        rw [(List.cons.inj ht).1] at this
        exact absurd this (by decide)
    cases a <;> cases b
    · exact ⟨rfl, h⟩
    · exact absurd h (hd h1 h2 _)
    · exact absurd h.symm (hd h3 h4 _)
    · exact ⟨rfl, (List.cons.inj h).2⟩
  have hpoint : ∀ {ip ip' fp fp' : List Char}, IsDigits ip → IsDigits ip' → ip ++ '.' :: fp = ip' ++ '.' :: fp' →
      ip = ip' ∧ fp = fp' := by
    intro ip
    induction ip with
    | nil =>
      intro ip' fp fp' _ h2 h
      cases ip' with
      | nil => exact ⟨rfl, (List.cons.inj h).2⟩
      | cons c ip' =>
        have := h2 c (by simp)
        rw [← (List.cons.inj h).1] at this
        exact absurd this (by decide)
    | cons c ip ih =>
      intro ip' fp fp' h1 h2 h
      cases ip' with
      | nil =>
        have := h1 c (by simp)
        rw [(List.cons.inj h).1] at this
        exact absurd this (by decide)
      | cons c' ip' =>
        obtain ⟨h3, h4⟩ := List.cons.inj h
        obtain ⟨h5, h6⟩ := ih (fun x hx => h1 x (List.mem_cons_of_mem _ hx)) (fun x hx => h2 x (List.mem_cons_of_mem _ hx)) h4
        exact ⟨by rw [h3, h5], h6⟩
  have hno : ∀ {ip ip' fp : List Char}, IsDigits ip → ip = ip' ++ '.' :: fp → False := by
    intro ip ip' fp h1 h
    have := h1 '.' (by rw [h]; simp)
    exact absurd this (by decide)
  generalize hs : s = s' at h'
  cases h with
  | whole hd h1 h2 h3 neg =>
    cases h' with
    | whole hd' h1' h2' h3' neg' =>
      obtain ⟨ha, hb⟩ := hsign (r := []) (r' := []) h1 h2 h1' h2' (by simpa using hs)
      simp only [List.append_nil] at hb
      exact ⟨by rw [hd, hd'], ha, by rw [ha, hb]⟩
    | point hd' h0' h1' h2' h3' h4' neg' =>
      obtain ⟨_, hb⟩ := hsign (r := []) h1 h2 h1' h2' (by simpa using hs)
      rw [List.append_nil] at hb
      exact (hno h1 hb).elim
  | point hd h0 h1 h2 h3 h4 neg =>
    cases h' with
    | whole hd' h1' h2' h3' neg' =>
      obtain ⟨_, hb⟩ := hsign (r' := []) h1 h2 h1' h2' (by simpa using hs)
      rw [List.append_nil] at hb
      exact (hno h1' hb.symm).elim
    | point hd' h0' h1' h2' h3' h4' neg' =>
      obtain ⟨ha, hb⟩ := hsign h1 h2 h1' h2' (by simpa using hs)
      obtain ⟨hc, he⟩ := hpoint h1 h1' hb
      have hdd : d = d' := by rw [← hd, ← hd', he]
      exact ⟨hdd, ha, by rw [ha, hc, he, hdd]⟩

/-- Numbers with a point, one of which needs two decimals, and others. -/
theorem column_sample :
    formatColumn 5 [.fin (1 / 3), .fin (-10), .nan] = ["0.33333".toList, "-10.00000".toList, "nan".toList] ∧
    formatColumn 5 [.fin (5 / 4), .fin 10, .inf true, .fin (1 / 1000000)] =
      ["1.25".toList, "10.00".toList, "-inf".toList, "0.00".toList] ∧
    formatColumn 5 [.fin 100, .fin (-20), .negZero, .fin (-1 / 1000000)] =
      ["100".toList, "-20".toList, "-0".toList, "-0".toList] ∧
    formatColumn 1 [.fin (1 / 4), .fin (3 / 4)] = ["0.2".toList, "0.8".toList] := by
  decide +kernel

/-! ### The table -/

/-- The ends of the columns after the first one, which ends at `pos`. -/
def laterEnds : ℕ → List ℕ → List ℕ
  | _, [] => []
  | pos, w :: ws => (pos + 2 + w) :: laterEnds (pos + 2 + w) ws

/-- The ends of the columns. -/
def endsOf : List ℕ → List ℕ
  | [] => []
  | w :: ws => w :: laterEnds w ws

/-- The width of a line with these columns. -/
def lineWidth : List ℕ → ℕ
  | [] => 0
  | [w] => w
  | w :: ws => w + 2 + lineWidth ws

theorem lineWidth_cons (w : ℕ) (ws : List ℕ) : lineWidth (w :: ws) = w + (ws.map (2 + ·)).sum := by
  induction ws generalizing w with
  | nil => rfl
  | cons v ws ih =>
    rw [lineWidth, ih, List.map_cons, List.sum_cons]
    · omega
    · simp

theorem joinCells_cons (c : List Char) (cs : List (List Char)) :
    joinCells (c :: cs) = c ++ cs.flatMap fun c => [' ', ' '] ++ c := by
  induction cs generalizing c with
  | nil => simp [joinCells]
  | cons d cs ih =>
    rw [joinCells, ih, List.flatMap_cons]
    · simp
    · simp

theorem later_laid {ws : List ℕ} {row : List (List Char)} (h : List.Forall₂ (fun c w => c.length ≤ w) row ws) (pos : ℕ) :
    Laid 2 pos (laterEnds pos ws) row ((List.zipWith rjust ws row).flatMap fun c => [' ', ' '] ++ c) ∧
      ((List.zipWith rjust ws row).flatMap fun c => [' ', ' '] ++ c).length = (ws.map (2 + ·)).sum := by
  induction h generalizing pos with
  | nil => exact ⟨.nil, rfl⟩
  | @cons c w row ws hc h ih =>
    obtain ⟨h1, h2⟩ := ih (pos + 2 + w)
    constructor
    · have := Laid.cons (gap := 2) (pos := pos) (n := 2 + (w - c.length)) (cell := c) (by omega)
        (by omega : pos + (2 + (w - c.length)) + c.length = pos + 2 + w) h1
      rw [List.replicate_add] at this
      simpa [laterEnds, rjust, List.replicate] using this
    · simp only [List.zipWith_cons_cons, List.flatMap_cons, List.length_append, h2, List.map_cons, List.sum_cons, rjust,
        List.length_replicate, List.length_cons, List.length_nil]
      omega

theorem line_laid {ws : List ℕ} {row : List (List Char)} (h : List.Forall₂ (fun c w => c.length ≤ w) row ws) :
    Laid 0 0 (endsOf ws) row (joinCells (List.zipWith rjust ws row)) ∧
      (joinCells (List.zipWith rjust ws row)).length = lineWidth ws := by
  cases h with
  | nil => exact ⟨.nil, rfl⟩
  | @cons c w row ws hc h =>
    obtain ⟨h1, h2⟩ := later_laid h w
    rw [List.zipWith_cons_cons, joinCells_cons]
    constructor
    · exact Laid.cons (Nat.zero_le _) (by omega) h1
    · rw [List.length_append, h2, lineWidth_cons, rjust, List.length_append, List.length_replicate]
      omega

theorem foldl_max (l : List ℕ) (a : ℕ) : l.foldl max a = max a (l.foldr max 0) := by
  induction l generalizing a with
  | nil => simp
  | cons b l ih => rw [List.foldl_cons, ih, List.foldr_cons, max_assoc]

theorem maxWidth_eq (col : List (List Char)) : maxWidth col = columnWidth col := by
  rw [maxWidth, foldl_max, Nat.zero_max, List.foldr_map]
  rfl

theorem le_columnWidth {cells : List (List Char)} {c : List Char} (h : c ∈ cells) : c.length ≤ columnWidth cells := by
  induction cells with
  | nil => cases h
  | cons d cells ih =>
    rw [columnWidth, List.foldr_cons]
    rcases List.mem_cons.1 h with rfl | h
    · exact le_max_left _ _
    · exact le_trans (ih h) (le_max_right _ _)

theorem lineWidth_columnWidths (names : List (List Char)) (cols : List (List (List Char))) :
    lineWidth (columnWidths names cols) = tableWidth (List.zipWith List.cons names cols) := by
  induction names generalizing cols with
  | nil => cases cols <;> rfl
  | cons n names ih =>
    cases cols with
    | nil => rfl
    | cons c cols =>
      have hc : max n.length (maxWidth c) = columnWidth (n :: c) := by rw [maxWidth_eq]; rfl
      cases hn : names with
      | nil => simpa [columnWidths, lineWidth, tableWidth] using hc
      | cons n' names' =>
        cases hc' : cols with
        | nil => simpa [columnWidths, lineWidth, tableWidth] using hc
        | cons c' cols' =>
          have := ih (c' :: cols')
          rw [hn] at this
          simp only [columnWidths, List.map_cons, List.zipWith_cons_cons] at this ⊢
          rw [lineWidth, tableWidth, this, hc]
          · simp
          · simp

theorem totalWidth_eq (w : ℕ) (ws : List ℕ) : totalWidth (w :: ws) = 2 + (lineWidth (w :: ws) : ℤ) := by
  have h : (ws.map (2 + ·)).sum = 2 * ws.length + ws.sum := by
    induction ws with
    | nil => rfl
    | cons v ws ih =>
      simp only [List.map_cons, List.sum_cons, List.length_cons]
      omega
  rw [totalWidth, lineWidth_cons, List.length_cons, List.sum_cons, h]
  omega

theorem totalWidth_mono {ws vs : List ℕ} (h : List.Forall₂ (· ≤ ·) ws vs) : totalWidth ws ≤ totalWidth vs := by
  have h1 := h.length_eq
  have h2 : ws.sum ≤ vs.sum := by
    clear h1
    induction h with
    | nil => exact le_refl _
    | cons h _ ih => simp only [List.sum_cons]; omega
  simp only [totalWidth, h1]
  omega

theorem columnWidths_ge (names : List (List Char)) (cols : List (List (List Char))) (h : cols.length = names.length) :
    List.Forall₂ (· ≤ ·) (names.map List.length) (columnWidths names cols) := by
  induction names generalizing cols with
  | nil => cases cols with | nil => exact .nil | cons => cases h
  | cons n names ih =>
    cases cols with
    | nil => cases h
    | cons c cols => exact .cons (le_max_left _ _) (ih cols (by simpa using h))

/-- The numbers are printed if the table fits. -/
theorem printNumbers_iff (names : List (List Char)) (rows : List (List Num)) :
    printNumbers names rows = true ↔
      tableWidth (List.zipWith List.cons names (formattedCols names.length rows)) + 2 < 78 := by
  have hlen : (formattedCols names.length rows).length = names.length := by simp [formattedCols]
  rw [← lineWidth_columnWidths]
  have hmono := totalWidth_mono (columnWidths_ge names _ hlen)
  simp only [printNumbers]
  cases hn : columnWidths names (formattedCols names.length rows) with
  | nil =>
    have h0 : names = [] := by
      have := congrArg List.length hn
      simp only [columnWidths, List.length_zipWith, List.length_map, hlen, List.length_nil, Nat.min_self] at this
      exact List.length_eq_zero_iff.1 this
    subst h0
    simp [totalWidth, lineWidth]
  | cons w ws =>
    rw [hn, totalWidth_eq] at hmono
    rw [totalWidth_eq]
    split_ifs with h
    · rw [decide_eq_true_eq]
      omega
    · simp only [false_iff]
      omega

theorem zipAll_eq {A : Type} (a : A) (N : ℕ) : ∀ (cols : List (List A)), cols ≠ [] → (∀ c ∈ cols, c.length = N) →
    zipAll cols = (List.range N).map fun i => cols.map fun c => c.getD i a
  | [], h, _ => absurd rfl h
  | [c], _, hN => by
    have := hN c (by simp)
    subst this
    apply List.ext_getElem
    · simp [zipAll]
    · intro i h1 h2
      simp only [zipAll, List.length_map] at h1
      simp [zipAll, List.getElem?_eq_getElem h1]
  | c :: c' :: cs, _, hN => by
    have ih := zipAll_eq a N (c' :: cs) (by simp) (fun x hx => hN x (List.mem_cons_of_mem _ hx))
    have hc := hN c (by simp)
    rw [zipAll, ih]
    · apply List.ext_getElem
      · simp [hc]
      · intro i h1 h2
        have : i < c.length := by simpa [hc] using h2
        simp [List.getElem?_eq_getElem this]
    · simp

theorem columnWidth_cons (n : List Char) (col : List (List Char)) : columnWidth (n :: col) = max n.length (columnWidth col) := rfl

theorem names_fit (names : List (List Char)) (cols : List (List (List Char))) (h : cols.length = names.length) :
    List.Forall₂ (fun c w => c.length ≤ w) names (columnWidths names cols) := by
  have := columnWidths_ge names cols h
  rwa [List.forall₂_map_left_iff] at this

theorem cells_fit (names : List (List Char)) (cols : List (List (List Char))) (h : cols.length = names.length) (i : ℕ)
    (hi : ∀ c ∈ cols, i < c.length) :
    List.Forall₂ (fun c w => c.length ≤ w) (cols.map fun c => c.getD i []) (columnWidths names cols) := by
  induction names generalizing cols with
  | nil => cases cols with | nil => exact .nil | cons => cases h
  | cons n names ih =>
    cases cols with
    | nil => cases h
    | cons c cols =>
      refine .cons ?_ (ih cols (by simpa using h) fun c hc => hi c (List.mem_cons_of_mem _ hc))
      have h1 := hi c (by simp)
      refine le_trans ?_ (le_max_right _ _)
      rw [maxWidth_eq]
      refine le_columnWidth ?_
      change c.getD i [] ∈ c
      rw [List.getD_eq_getElem _ _ h1]
      exact List.getElem_mem h1

theorem forall₂_map_self {A B : Type} {R : A → B → Prop} (l : List A) (f : A → B) (h : ∀ a ∈ l, R a (f a)) :
    List.Forall₂ R l (l.map f) := by
  induction l with
  | nil => exact .nil
  | cons a l ih => exact .cons (h a (by simp)) (ih fun x hx => h x (List.mem_cons_of_mem _ hx))

theorem table_laid (names : List (List Char)) (cols : List (List (List Char))) (h : cols.length = names.length)
    (body : List (List (List Char))) (hb : zipAll cols = body)
    (hfit : ∀ row ∈ body, List.Forall₂ (fun c w => c.length ≤ w) row (columnWidths names cols)) :
    Table (tableWidth (List.zipWith List.cons names cols)) (endsOf (columnWidths names cols)) (names :: body)
      (tableText names cols) := by
  refine ⟨(names :: body).map fun row => joinCells (List.zipWith rjust (columnWidths names cols) row), ?_, ?_⟩
  · refine forall₂_map_self _ _ fun row hrow => ?_
    rw [← lineWidth_columnWidths]
    rcases List.mem_cons.1 hrow with rfl | hrow
    · exact line_laid (names_fit _ cols h)
    · exact line_laid (hfit row hrow)
  · rw [tableText, hb, List.flatMap_map]

/-! ### The terms -/

theorem numeral_eq (n : ℕ) : numeral n = (toString n).toList := by
  rw [numeral, Nat.toString_eq_repr, Nat.toList_repr]

/-- The separator stands before each term that does not begin with the first column. -/
theorem termsText_layout (reprStr : String → List Char) (l : List (String × ℕ)) (start : ℕ) (h : start ≠ 0) :
    termsText reprStr (layout start l) = (termItems reprStr start l).flatMap fun t => ", ".toList ++ t := by
  induction l generalizing start with
  | nil => rfl
  | cons e l ih =>
    obtain ⟨name, n⟩ := e
    have := ih (start + n) (by omega)
    rw [termsText] at this
    rw [layout, termsText, List.flatMap_cons, this, termItems, List.flatMap_cons, if_pos h]
    congr 1
    have h1 : ((start + n : ℕ) : ℤ) - start = 1 ↔ n = 1 := by omega
    simp only [h1, numeral_eq, List.append_assoc]
    split_ifs <;> rfl

theorem intercalate_cons {A : Type} (sep : List A) (a : List A) (l : List (List A)) :
    List.intercalate sep (a :: l) = a ++ l.flatMap fun t => sep ++ t := by
  induction l generalizing a with
  | nil => simp [List.intercalate]
  | cons b l ih =>
    have := ih b
    simp only [List.intercalate] at this ⊢
    rw [List.intersperse_cons_cons, List.flatten_cons, List.flatten_cons, this, List.flatMap_cons]
    simp

/-- **C64**, terms.  In every design whose first term has a column, the terms are listed with their columns, separated by
commas. -/
theorem terms_shown {F D K : Type} [DecidableEq F] {name : F → String} {names : List String} {c : Coding F D K}
    {d : DesignInfo F D K} (h : DesignInfo.make name names (some c) = .ok d) (reprStr : String → List Char)
    (h1 : ∀ p, c.termCodings.head? = some p → width p ≠ 0) :
    termsText reprStr d.termNameSlices =
      List.intercalate ", ".toList (termItems reprStr 0 (c.termCodings.map fun p => (termName name p.1, width p))) := by
  obtain ⟨_, _, _, _, _, g6, _⟩ := make_good.mp h
  rw [g6]
  change termsText reprStr (layout 0 (c.termCodings.map fun p => (termName name p.1, width p))) = _
  cases hc : c.termCodings with
  | nil => rfl
  | cons p l =>
    have hp : width p ≠ 0 := h1 p (by rw [hc]; rfl)
    have := termsText_layout reprStr (l.map fun p => (termName name p.1, width p)) (0 + width p) (by omega)
    rw [List.map_cons, layout, termsText, List.flatMap_cons, termItems, intercalate_cons, ← this, if_neg (by simp)]
    have h2 : ((width p : ℕ) : ℤ) - (0 : ℕ) = 1 ↔ width p = 1 := by omega
    have e1 : " (".toList = [' ', '('] := rfl
    have e2 : ")".toList = [')'] := rfl
    have e3 : ":".toList = [':'] := rfl
    rw [termsText]
    simp only [h2, numeral_eq, List.append_assoc, List.nil_append, Nat.zero_add, e1, e2, e3]

/-! ### All of it -/

theorem nl : "\n".toList = ['\n'] := rfl

theorem close : ")".toList = [')'] := rfl

theorem opening : "[".toList = ['['] := rfl

/-- The cells of the first 30 rows: for each row those of all columns; none if there are no columns. -/
def IsBody (k n : ℕ) (ss : List (List (List Char))) (body : List (List (List Char))) : Prop :=
  body.length = (if k = 0 then 0 else min 30 n) ∧
    ∀ i (hi : i < body.length), body[i].length = k ∧ ∀ j, j < k → body[i][j]? = (ss.getD j [])[i]?

/-- **C64**.  The text of a design matrix with `n` rows and `k` columns: a title with the shape; if a table with the names and the
first 30 rows is less than 76 characters wide, then this table, in which all numbers are rounded to 5 decimals and the columns
are aligned to the right, and the number of omitted rows, if any; otherwise only the names; then the terms, and a
note if some numbers were not shown. -/
theorem matrix_shown {F D K : Type} (reprStr : String → List Char) (reprNames : List String → List Char) (d : DesignInfo F D K)
    (rows : List (List Num)) :
    ∃ ss : List (List (List Char)), ss.length = d.columnNames.length ∧
      (∀ j, j < d.columnNames.length →
        ∃ p, Shown 5 p ((rows.take 30).map fun r => r.getD j .nan) (ss.getD j [])) ∧
      (tableWidth (List.zipWith List.cons (d.columnNames.map String.toList) ss) < 76 →
        ∃ ends body table, IsBody d.columnNames.length rows.length ss body ∧
          Table (tableWidth (List.zipWith List.cons (d.columnNames.map String.toList) ss)) ends
            (d.columnNames.map String.toList :: body) table ∧
          reprMatrix reprStr reprNames d rows =
            title rows.length d.columnNames.length ++ table ++
            (if 30 < rows.length then omitted (rows.length - 30) else []) ++
            "Terms:".toList ++ "\n".toList ++ termsText reprStr d.termNameSlices ++ if 30 < rows.length then note else []) ∧
      (76 ≤ tableWidth (List.zipWith List.cons (d.columnNames.map String.toList) ss) →
        reprMatrix reprStr reprNames d rows =
          title rows.length d.columnNames.length ++ "Columns:".toList ++ "\n".toList ++ reprNames d.columnNames ++ "\n".toList ++
          "Terms:".toList ++ "\n".toList ++ termsText reprStr d.termNameSlices ++ note) := by
  set names := d.columnNames.map String.toList with hnames
  have hk : names.length = d.columnNames.length := by rw [hnames, List.length_map]
  have hlen : (formattedCols names.length rows).length = names.length := by simp [formattedCols]
  have hcol : ∀ j, j < names.length →
      (formattedCols names.length rows).getD j [] = formatColumn 5 ((rows.take 30).map fun r => r.getD j .nan) := by
    intro j hj
    rw [List.getD_eq_getElem _ _ (by rw [hlen]; exact hj)]
    simp [formattedCols]
  refine ⟨formattedCols names.length rows, by rw [hlen, hk], fun j hj => ?_, fun hw => ?_, fun hw => ?_⟩
  · rw [← hk] at hj
    rw [hcol j hj]
    exact column_shown 5 _
  · have hp : printNumbers names rows = true := (printNumbers_iff names rows).2 (by omega)
    have hN : ∀ c ∈ formattedCols names.length rows, c.length = min 30 rows.length := by
      intro c hc
      obtain ⟨j, _, rfl⟩ := List.mem_map.1 hc
      obtain ⟨_, hs⟩ := column_shown 5 ((rows.take 30).map fun r => r.getD j .nan)
      rw [hs.length, List.length_map, List.length_take]
    refine ⟨endsOf (columnWidths names (formattedCols names.length rows)), zipAll (formattedCols names.length rows),
      tableText names (formattedCols names.length rows), ?_, ?_, ?_⟩
    · by_cases h0 : names.length = 0
      · have hnil : formattedCols names.length rows = [] := List.length_eq_zero_iff.1 (by rw [hlen, h0])
        rw [hnil, ← hk]
        simp [IsBody, zipAll, h0]
      · rw [zipAll_eq [] (min 30 rows.length) _ (by intro h; rw [h] at hlen; exact h0 hlen.symm) hN, ← hk]
        refine ⟨by simp [h0], fun i hi => ?_⟩
        have hi' : i < min 30 rows.length := by simpa using hi
        refine ⟨by simp [hlen], fun j hj => ?_⟩
        have hj' : j < (formattedCols names.length rows).length := by rw [hlen]; exact hj
        have hi2 : i < ((formattedCols names.length rows)[j]).length := by
          rw [hN _ (List.getElem_mem hj')]
          exact hi'
        rw [List.getD_eq_getElem _ _ hj']
        simp only [List.getElem_map, List.getElem_range, List.getElem?_map, List.getElem?_eq_getElem hj', Option.map_some]
        rw [List.getD_eq_getElem _ _ hi2, List.getElem?_eq_getElem hi2]
    · refine table_laid names _ hlen _ rfl fun row hrow => ?_
      by_cases h0 : names.length = 0
      · have hnil : formattedCols names.length rows = [] := List.length_eq_zero_iff.1 (by rw [hlen, h0])
        rw [hnil] at hrow
        cases hrow
      · rw [zipAll_eq [] (min 30 rows.length) _ (by intro h; rw [h] at hlen; exact h0 hlen.symm) hN] at hrow
        obtain ⟨i, hi, rfl⟩ := List.mem_map.1 hrow
        exact cells_fit names _ hlen i fun c hc => by rw [hN c hc]; exact List.mem_range.1 hi
    · have hor : (true = false ∨ 30 < rows.length) = (30 < rows.length) := by simp
      unfold reprMatrix title omitted note
      generalize "DesignMatrix with shape (".toList = s1
      generalize "(to view full data, use np.asarray(this_obj))".toList = s2
      generalize "Columns:".toList = s3
      generalize "Terms:".toList = s4
      generalize " rows omitted]".toList = s5
      generalize ", ".toList = s6
      simp only [← hnames, hp, if_true, numeral_eq, hk, nl, close, opening, hor, List.append_assoc]
  · have hp : printNumbers names rows = false := by
      rw [← Bool.not_eq_true, printNumbers_iff]
      omega
    unfold reprMatrix title note
    generalize "DesignMatrix with shape (".toList = s1
    generalize "(to view full data, use np.asarray(this_obj))".toList = s2
    generalize "Columns:".toList = s3
    generalize "Terms:".toList = s4
    generalize " rows omitted]".toList = s5
    generalize ", ".toList = s6
    simp only [← hnames, hp, numeral_eq, hk, nl, close, true_or, if_true, Bool.false_eq_true, if_false, List.append_assoc]

/-! ### Concrete cases -/

namespace PrintSample

open Patsy.Sample (Data fiX)

/-- `repr` of a string without special characters. -/
def reprStr (s : String) : List Char := '\'' :: s.toList ++ ['\'']

/-- `repr` of a list of such strings. -/
def reprNames (l : List String) : List Char := '[' :: List.intercalate ", ".toList (l.map reprStr) ++ [']']

/-- Three rows of the sample design. -/
def rows : List (List Num) :=
  [[.fin 1, .fin 0, .fin 0, .fin (5 / 2), .fin 0, .fin 0], [.fin 1, .fin 1, .fin 0, .fin 0, .fin (-1 / 3), .negZero],
    [.fin 1, .fin 0, .fin 1, .fin 0, .fin 0, .nan]]

/-- A matrix without columns as the first variable, `e + x`. -/
def fiE : FactorInfo String Data Int := ⟨7, "e", .numerical 0, fun _ d => .ok (.num 0 (d.map fun _ => []), none)⟩

def emptyFirst : Coding String Data Int :=
  ⟨[("e", fiE), ("x", fiX)], [(⟨["e"]⟩, [⟨["e"], [], 0⟩]), (⟨["x"]⟩, [⟨["x"], [], 1⟩])]⟩

def emptyFirstDesign : DesignInfo String Data Int :=
  getOk (DesignInfo.make id ["x"] (some emptyFirst)) (by decide +kernel)

/-- A long name. -/
def wideDesign : DesignInfo String Data Int :=
  getOk (DesignInfo.make id ["xxxxxxxxxxxxxxxxxxxxxxxxxxxxxxxxxxxxxxxxxxxxxxxxxxxxxxxxxxxxxxxxxxxxxxxxxxxxxxxx"] none) (by decide +kernel)

end PrintSample

open PrintSample in
/-- A small matrix, one with rows left out, and one that is too wide. -/
theorem matrix_sample :
    reprMatrix reprStr reprNames Sample.rightDesign rows =
      ("DesignMatrix with shape (3, 6)\n" ++
       "Intercept  a[T.a2]  a[T.a3]  a[a1]:x   a[a2]:x  a[a3]:x\n" ++
       "        1        0        0      2.5   0.00000        0\n" ++
       "        1        1        0      0.0  -0.33333       -0\n" ++
       "        1        0        1      0.0   0.00000      nan\n" ++
       "Terms:\n'Intercept' (column 0), 'a' (columns 1:3), 'a:x' (columns 3:6)").toList ∧
    (reprMatrix reprStr reprNames Sample.leftDesign (List.replicate 32 [.fin 12])).drop 121 =
      ("\n12\n[2 rows omitted]\nTerms:\n'y' (column 0)\n(to view full data, use np.asarray(this_obj))").toList ∧
    (reprMatrix reprStr reprNames wideDesign [[.fin 1]]).take 43 =
      "DesignMatrix with shape (1, 1)\nColumns:\n['x".toList := by
  decide +kernel

open PrintSample in
/-- The hypothesis of `terms_shown` is needed: after a first term without columns the separator is missing. -/
theorem empty_first_term :
    termsText reprStr emptyFirstDesign.termNameSlices = "'e' (columns 0:0)'x' (column 0)".toList := by
  decide +kernel

open PrintSample in
/-- The sample design meets the hypotheses of `terms_shown`. -/
example : termsText reprStr Sample.rightDesign.termNameSlices = List.intercalate ", ".toList
    (termItems reprStr 0 (Sample.right.termCodings.map fun p => (termName id p.1, width p))) :=
  terms_shown (name := id) (getOk_eq _) reprStr (by
    intro p hp
    simp only [Sample.right, List.head?_cons, Option.some.injEq] at hp
    subst hp
    decide)

end Patsy.Props
