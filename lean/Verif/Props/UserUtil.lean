import Verif.Lemmas.UserUtil
import Verif.Lemmas.Desc
import Mathlib.Algebra.BigOperators.Ring.List
import Mathlib.Tactic.IntervalCases
import Mathlib.Tactic.FinCases

/-!
# C34: balanced designs and demo data
-/

namespace Patsy.Props

open Patsy Patsy.UserUtil Patsy.Spec
open Patsy.Desc (bind_ok pure_ok)

/-- Every combination of levels of a balanced design occurs exactly `repeat` times. -/
theorem balanced_counts (factors : List (String × Int)) (repeats : Int) (hd : (factors.map Prod.fst).Nodup)
    (hpos : ∀ nc ∈ factors, 1 ≤ nc.2) (g : String → Nat)
    (hg : ∀ nc ∈ factors, 1 ≤ g nc.1 ∧ (g nc.1 : Int) ≤ nc.2) :
    occurrences (balanced factors repeats) (factors.map Prod.fst)
      (repeats.toNat * (factors.map fun nc => nc.2.toNat).prod) g = repeats.toNat := by
  rw [occurrences, ← gridRows_length factors hd]
  have h1 : (List.range (repeats.toNat * (gridRows factors).length)).countP
        (rowShows (balanced factors repeats) (factors.map Prod.fst) g)
      = (List.range (repeats.toNat * (gridRows factors).length)).countP (fun r =>
        (fun r : Nat => (gridRows factors)[r]?
          == some ((sortNames (factors.map Prod.fst)).map fun n => levelName n (g n)))
            (r % (gridRows factors).length)) := by
    refine List.countP_congr fun r hr => ?_
    rw [rowShows_iff hd hpos repeats g r (List.mem_range.mp hr)]
  rw [h1, count_mod (fun r : Nat => (gridRows factors)[r]?
    == some ((sortNames (factors.map Prod.fst)).map fun n => levelName n (g n))), count_positions, List.count_eq_one_of_mem _ (grid_mem_of_levels hd hg), Nat.mul_one]
  refine nodup_prodRec fun l hl => ?_
  obtain ⟨n, _, rfl⟩ := List.mem_map.mp hl
  exact nodup_levelsOf factors n

example : occurrences (balanced [("b", 3), ("a", 2)] 2) ["b", "a"] 12 (fun n => if n = "a" then 2 else 3) = 2 :=
  balanced_counts [("b", 3), ("a", 2)] 2 (by decide) (by decide) _ (by decide)

/-- A balanced design has one column for each factor, all of them of the same length, the number of combinations of
levels times `repeat`. -/
theorem balanced_shape (factors : List (String × Int)) (repeats : Int) (hd : (factors.map Prod.fst).Nodup)
    (hpos : ∀ nc ∈ factors, 1 ≤ nc.2) :
    ((balanced factors repeats).map Prod.fst).Perm (factors.map Prod.fst) ∧
      ∀ column ∈ balanced factors repeats,
        column.2.length = repeats.toNat * (factors.map fun nc => nc.2.toNat).prod := by
  refine ⟨by rw [balanced_names hd hpos]; exact sortNames_perm _, ?_⟩
  intro column hc
  rw [balanced_eq hd hpos] at hc
  obtain ⟨nv, hnv, rfl⟩ := List.mem_map.mp hc
  have := (List.of_mem_zip hnv).2
  simp only [List.mem_map, List.mem_range] at this
  obtain ⟨i, hi, h⟩ := this
  simp only [List.length_flatten, List.map_replicate, List.sum_replicate, nsmul_eq_mul, Nat.cast_id]
  rw [← h, filterMap_column_length (gridRows_width factors) hi, gridRows_length factors hd]

example : (balanced [("b", 3), ("a", 2)] 2).map Prod.fst = ["a", "b"] ∧
    (balanced [("b", 3), ("a", 2)] 2).map (fun c => c.2.length) = [12, 12] := by decide +kernel

/-- Every row of a balanced design is a combination of levels. -/
theorem balanced_rows (factors : List (String × Int)) (repeats : Int) (hd : (factors.map Prod.fst).Nodup)
    (hpos : ∀ nc ∈ factors, 1 ≤ nc.2) (r : Nat)
    (hr : r < repeats.toNat * (factors.map fun nc => nc.2.toNat).prod) :
    ∃ g : String → Nat, (∀ nc ∈ factors, 1 ≤ g nc.1 ∧ (g nc.1 : Int) ≤ nc.2) ∧
      rowShows (balanced factors repeats) (factors.map Prod.fst) g r = true := by
  rw [← gridRows_length factors hd] at hr
  have hP : r % (gridRows factors).length < (gridRows factors).length :=
    Nat.mod_lt _ (Nat.pos_of_ne_zero fun h => by simp [h] at hr)
  obtain ⟨g, hg, h⟩ := grid_levels_of_mem hd (List.getElem_mem hP)
  refine ⟨g, hg, ?_⟩
  rw [rowShows_iff hd hpos repeats g r hr, beq_iff_eq, List.getElem?_eq_getElem hP, h]

example : 7 < (2 : Int).toNat * ([("b", (3 : Int)), ("a", 2)].map fun nc => nc.2.toNat).prod := by decide

/-- The last factor in alphabetical order varies fastest: the example of the documentation. -/
theorem balanced_documented :
    balanced [("b", 3), ("a", 2)] 1
      = [("a", ["a1", "a1", "a1", "a2", "a2", "a2"]), ("b", ["b1", "b2", "b3", "b1", "b2", "b3"])] := by
  decide +kernel

/-- With a factor that has no levels, or no factors at all, the result has no columns. -/
theorem balanced_no_rows (factors : List (String × Int)) (repeats : Int)
    (h : factors = [] ∨ ∃ nc ∈ factors, nc.2 ≤ 0 ∧ (factors.map Prod.fst).Nodup) : balanced factors repeats = [] := by
  rcases h with rfl | ⟨nc, hnc, hz, hd⟩
  · simp [balanced, sortNames]
  · have : gridRows factors = [] := by
      rw [← List.length_eq_zero_iff, gridRows_length factors hd, List.prod_eq_zero_iff]
      exact List.mem_map.mpr ⟨nc, hnc, by omega⟩
    rw [balanced]
    simp only [product_eq]
    rw [show prodRec _ = gridRows factors from rfl, this]
    simp [zipStar, shortest]

example : balanced [("a", 2), ("b", 0)] 1 = [] :=
  balanced_no_rows _ _ (Or.inr ⟨("b", 0), by simp, by simp, by decide⟩)

/-- The name starts with a letter from `lo` through `hi`. -/
def StartsIn (lo hi : Char) (name : String) : Prop := ∃ c rest, name.toList = c :: rest ∧ lo ≤ c ∧ c ≤ hi

/-- The columns of strings. -/
def stringColumns {R : Type} (data : List (String × Column R)) : List (String × List String) :=
  data.filterMap fun nc => match nc.2 with | .cat v => some (nc.1, v) | .num _ => none

theorem char_of_nat_range (c lo hi : Char) (h : lo ≤ c ∧ c ≤ hi) (l : List Char)
    (hl : ∀ n : Nat, lo.toNat ≤ n → n ≤ hi.toNat → Char.ofNat n ∈ l) : c ∈ l := by
  rw [← Char.ofNat_toNat c]
  exact hl _ h.1 h.2

theorem cat_letters (c : Char) : "abcdefghijklmn".toList.contains c = true ↔ 'a' ≤ c ∧ c ≤ 'n' := by
  rw [List.contains_iff_mem]
  constructor
  · intro h
    have : ∀ c ∈ "abcdefghijklmn".toList, 'a' ≤ c ∧ c ≤ 'n' := by decide
    exact this c h
  · intro h
    refine char_of_nat_range c 'a' 'n' h _ ?_
    intro n h1 h2
    have h1 : 97 ≤ n := h1
    have h2 : n ≤ 110 := h2
    interval_cases n <;> decide

theorem num_letters (c : Char) : "pqrstuvwxyz".toList.contains c = true ↔ 'p' ≤ c ∧ c ≤ 'z' := by
  rw [List.contains_iff_mem]
  constructor
  · intro h
    have : ∀ c ∈ "pqrstuvwxyz".toList, 'p' ≤ c ∧ c ≤ 'z' := by decide
    exact this c h
  · intro h
    refine char_of_nat_range c 'p' 'z' h _ ?_
    intro n h1 h2
    have h1 : 112 ≤ n := h1
    have h2 : n ≤ 122 := h2
    interval_cases n <;> decide

theorem classify_ok {names : List String} {r : List String × List String} (h : classify names = .ok r) :
    (∀ n ∈ names, StartsIn 'a' 'n' n ∨ StartsIn 'p' 'z' n) ∧ r.1.Nodup ∧ r.2.Nodup ∧
      (∀ n, n ∈ r.1 ↔ n ∈ names ∧ StartsIn 'a' 'n' n) ∧ (∀ n, n ∈ r.2 ↔ n ∈ names ∧ StartsIn 'p' 'z' n) := by
  induction names generalizing r with
  | nil => cases h; simp
  | cons name names ih =>
    rw [classify] at h
    cases hname : name.toList with
    | nil => simp [hname] at h
    | cons c rest =>
      simp only [hname] at h
      have hexcl : ¬ (('a' ≤ c ∧ c ≤ 'n') ∧ ('p' ≤ c ∧ c ≤ 'z')) := by
        rintro ⟨⟨_, h1⟩, ⟨h2, _⟩⟩
        exact absurd (Char.le_trans h2 h1) (by decide)
      have hsa : ∀ lo hi, StartsIn lo hi name ↔ lo ≤ c ∧ c ≤ hi := by
        intro lo hi
        constructor
        · rintro ⟨c', rest', h1, h2⟩
          rw [hname] at h1
          cases h1
          exact h2
        · intro h
          exact ⟨c, rest, hname, h⟩
      by_cases hc : "abcdefghijklmn".toList.contains c = true
      · rw [if_pos hc] at h
        simp only [bind_ok, pure_ok] at h
        obtain ⟨s, hs, rfl⟩ := h
        obtain ⟨h0, h1, h2, h3, h4⟩ := ih hs
        have hca := (hsa 'a' 'n').mpr ((cat_letters c).mp hc)
        have hcn : ¬ StartsIn 'p' 'z' name := fun hh => hexcl ⟨(cat_letters c).mp hc, (hsa _ _).mp hh⟩
        refine ⟨?_, ?_, h2, ?_, ?_⟩
        · intro n hn
          rcases List.mem_cons.mp hn with rfl | hn
          · exact Or.inl hca
          · exact h0 n hn
        · split
          · exact h1
          · rename_i hmem
            rw [List.contains_iff_mem] at hmem
            exact List.nodup_cons.mpr ⟨hmem, h1⟩
        · intro n
          have : n ∈ (if s.1.contains name then s.1 else name :: s.1) ↔ n = name ∨ n ∈ s.1 := by
            split
            · rename_i hmem
              rw [List.contains_iff_mem] at hmem
              constructor
              · exact Or.inr
              · rintro (rfl | h)
                · exact hmem
                · exact h
            · simp
          simp only [this, h3, List.mem_cons]
          constructor
          · rintro (rfl | ⟨h, h'⟩)
            · exact ⟨Or.inl rfl, hca⟩
            · exact ⟨Or.inr h, h'⟩
          · rintro ⟨rfl | h, h'⟩
            · exact Or.inl rfl
            · exact Or.inr ⟨h, h'⟩
        · intro n
          simp only [h4, List.mem_cons]
          constructor
          · rintro ⟨h, h'⟩; exact ⟨Or.inr h, h'⟩
          · rintro ⟨rfl | h, h'⟩
            · exact absurd h' hcn
            · exact ⟨h, h'⟩
      · rw [if_neg hc] at h
        by_cases hp : "pqrstuvwxyz".toList.contains c = true
        · rw [if_pos hp] at h
          simp only [bind_ok, pure_ok] at h
          obtain ⟨s, hs, rfl⟩ := h
          obtain ⟨h0, h1, h2, h3, h4⟩ := ih hs
          have hca := (hsa 'p' 'z').mpr ((num_letters c).mp hp)
          have hcn : ¬ StartsIn 'a' 'n' name := fun hh => hexcl ⟨(hsa _ _).mp hh, (num_letters c).mp hp⟩
          refine ⟨?_, h1, ?_, ?_, ?_⟩
          · intro n hn
            rcases List.mem_cons.mp hn with rfl | hn
            · exact Or.inr hca
            · exact h0 n hn
          · split
            · exact h2
            · rename_i hmem
              rw [List.contains_iff_mem] at hmem
              exact List.nodup_cons.mpr ⟨hmem, h2⟩
          · intro n
            simp only [h3, List.mem_cons]
            constructor
            · rintro ⟨h, h'⟩; exact ⟨Or.inr h, h'⟩
            · rintro ⟨rfl | h, h'⟩
              · exact absurd h' hcn
              · exact ⟨h, h'⟩
          · intro n
            have : n ∈ (if s.2.contains name then s.2 else name :: s.2) ↔ n = name ∨ n ∈ s.2 := by
              split
              · rename_i hmem
                rw [List.contains_iff_mem] at hmem
                constructor
                · exact Or.inr
                · rintro (rfl | h)
                  · exact hmem
                  · exact h
              · simp
            simp only [this, h4, List.mem_cons]
            constructor
            · rintro (rfl | ⟨h, h'⟩)
              · exact ⟨Or.inl rfl, hca⟩
              · exact ⟨Or.inr h, h'⟩
            · rintro ⟨rfl | h, h'⟩
              · exact Or.inl rfl
              · exact Or.inr ⟨h, h'⟩
        · rw [if_neg hp] at h
          cases h

theorem classify_isOk {names : List String} (h : ∀ n ∈ names, StartsIn 'a' 'n' n ∨ StartsIn 'p' 'z' n) :
    ∃ r, classify names = .ok r := by
  induction names with
  | nil => exact ⟨_, rfl⟩
  | cons name names ih =>
    obtain ⟨r, hr⟩ := ih fun n hn => h n (by simp [hn])
    rw [classify]
    rcases h name (by simp) with ⟨c, rest, hname, hc⟩ | ⟨c, rest, hname, hc⟩
    · simp only [hname]
      rw [if_pos ((cat_letters c).mpr hc), hr]
      exact ⟨_, rfl⟩
    · simp only [hname]
      have : ¬ ("abcdefghijklmn".toList.contains c = true) := by
        rw [cat_letters]
        rintro ⟨_, h1⟩
        exact absurd (Char.le_trans hc.1 h1) (by decide)
      rw [if_neg this, if_pos ((num_letters c).mpr hc), hr]
      exact ⟨_, rfl⟩

theorem repeats_bounds {minRows size : Int} (hs : 1 ≤ size) {k : Int} (h : repeatsFor minRows size = .ok k) :
    minRows ≤ k * size ∧ k * size < minRows + size := by
  rw [repeatsFor, if_neg (by omega)] at h
  cases h
  have hq : (0 : ℚ) < (size : ℚ) := by exact_mod_cast hs
  constructor
  · have := Int.le_ceil ((minRows : ℚ) / (size : ℚ))
    rw [div_le_iff₀ hq] at this
    exact_mod_cast this
  · have := Int.ceil_lt_add_one ((minRows : ℚ) / (size : ℚ))
    have h2 : ((⌈(minRows : ℚ) / (size : ℚ)⌉ : ℤ) : ℚ) * size < (minRows / size + 1) * size :=
      mul_lt_mul_of_pos_right this hq
    rw [add_mul, div_mul_cancel₀ _ hq.ne', one_mul] at h2
    exact_mod_cast h2

/-- Demo data: `demo_data(*names, nlevels=…, min_rows=…)` succeeds exactly for names that start with the letters "a"
through "n" or "p" through "z". -/
theorem demo_data_succeeds {R : Type} (normal : Nat → Nat → List R) (names : List String) (nlevels minRows : Int)
    (hl : 1 ≤ nlevels) (hm : 0 ≤ minRows) :
    (∃ data, demoData normal names nlevels minRows = .ok data)
      ↔ ∀ n ∈ names, StartsIn 'a' 'n' n ∨ StartsIn 'p' 'z' n := by
  constructor
  · rintro ⟨data, h⟩
    simp only [demoData, bind_ok] at h
    obtain ⟨r, hr, _⟩ := h
    exact (classify_ok hr).1
  · intro h
    obtain ⟨r, hr⟩ := classify_isOk h
    have hsize : 1 ≤ (r.1.map fun _ => nlevels).prod := by
      rw [List.map_const', List.prod_replicate]
      exact one_le_pow₀ hl
    have hrep : repeatsFor minRows (r.1.map fun _ => nlevels).prod
        = .ok ⌈(minRows : ℚ) / (((r.1.map fun _ => nlevels).prod : Int) : ℚ)⌉ := by
      rw [repeatsFor, if_neg (by omega)]
    have hb := (repeats_bounds hsize hrep).1
    simp only [demoData, hr, bind, Except.bind, hrep]
    rw [numerical, if_neg (by omega)]
    exact ⟨_, rfl⟩

example : ∀ n ∈ ["a", "b", "x"], StartsIn 'a' 'n' n ∨ StartsIn 'p' 'z' n := by
  intro n hn
  fin_cases hn
  · exact Or.inl ⟨'a', [], by decide, by decide, by decide⟩
  · exact Or.inl ⟨'b', [], by decide, by decide, by decide⟩
  · exact Or.inr ⟨'x', [], by decide, by decide, by decide⟩

/-- Demo data has a column for each name, and all of them have the same number of rows.  It is at least the number
asked for, and less than one replicate of the categorical design above it.  Every combination of levels of the
variables starting with "a" through "n" occurs equally often. -/
theorem demo_data_balanced {R : Type} (normal : Nat → Nat → List R) (hnormal : ∀ k size, (normal k size).length = size)
    (names : List String) (nlevels minRows : Int) (hl : 1 ≤ nlevels) (hm : 0 ≤ minRows)
    (data : List (String × Column R)) (h : demoData normal names nlevels minRows = .ok data) :
    ∃ (cats : List String) (k : Nat), cats.Nodup ∧ (∀ n, n ∈ cats ↔ n ∈ names ∧ StartsIn 'a' 'n' n) ∧
      (∀ n, n ∈ data.map Prod.fst ↔ n ∈ names) ∧
      (∀ column ∈ data, column.2.length = k * nlevels.toNat ^ cats.length) ∧
      minRows ≤ k * nlevels ^ cats.length ∧ k * nlevels ^ cats.length < minRows + nlevels ^ cats.length ∧
      (∀ n, n ∈ (stringColumns data).map Prod.fst ↔ n ∈ cats) ∧
      ∀ g : String → Nat, (∀ n ∈ cats, 1 ≤ g n ∧ (g n : Int) ≤ nlevels) →
        occurrences (stringColumns data) cats (k * nlevels.toNat ^ cats.length) g = k := by
  simp only [demoData, bind_ok, pure_ok] at h
  obtain ⟨r, hr, k, hk, nums, hnums, rfl⟩ := h
  obtain ⟨h0, h1, h2, h3, h4⟩ := classify_ok hr
  have hsize : (r.1.map fun _ => nlevels).prod = nlevels ^ r.1.length := by
    rw [List.map_const', List.prod_replicate]
  have hpos : 1 ≤ nlevels ^ r.1.length := one_le_pow₀ hl
  rw [hsize] at hk hnums
  obtain ⟨hb1, hb2⟩ := repeats_bounds hpos hk
  have hk0 : 0 ≤ k := by
    by_contra hneg
    have : k * nlevels ^ r.1.length < 0 := mul_neg_of_neg_of_pos (by omega) (by omega)
    omega
  have hkn : ((k.toNat : Nat) : Int) = k := Int.toNat_of_nonneg hk0
  have hfst : (r.1.map fun n => (n, nlevels)).map Prod.fst = r.1 := by
    rw [List.map_map]; simp [Function.comp_def]
  have hd : ((r.1.map fun n => (n, nlevels)).map Prod.fst).Nodup := by rw [hfst]; exact h1
  have hp : ∀ nc ∈ r.1.map fun n => (n, nlevels), 1 ≤ nc.2 := by
    intro nc hnc
    obtain ⟨n, _, rfl⟩ := List.mem_map.mp hnc
    exact hl
  have hprod : ((r.1.map fun n => (n, nlevels)).map fun nc => nc.2.toNat).prod = nlevels.toNat ^ r.1.length := by
    rw [List.map_map, show ((fun nc : String × Int => nc.2.toNat) ∘ fun n => (n, nlevels)) = fun _ => nlevels.toNat
      from rfl, List.map_const', List.prod_replicate]
  obtain ⟨hs1, hs2⟩ := balanced_shape _ k hd hp
  rw [hfst] at hs1
  rw [hprod] at hs2
  rw [numerical] at hnums
  split at hnums
  · cases hnums
  cases hnums
  have hstr : stringColumns ((balanced (r.1.map fun n => (n, nlevels)) k).map (fun nv => (nv.1, Column.cat nv.2)) ++
      (sortNames r.2).zipIdx.map fun ni => (ni.1, Column.num (normal ni.2 (k * nlevels ^ r.1.length).toNat)))
      = balanced (r.1.map fun n => (n, nlevels)) k := by
    rw [stringColumns, List.filterMap_append, List.filterMap_map, List.filterMap_map]
    simp
  refine ⟨r.1, k.toNat, h1, h3, ?_, ?_, ?_, ?_, ?_, ?_⟩
  · intro n
    rw [List.map_append, List.mem_append, List.map_map, List.map_map]
    rw [show (Prod.fst ∘ fun nv : String × List String => (nv.1, (Column.cat nv.2 : Column R))) = Prod.fst from rfl,
      show (Prod.fst ∘ fun ni : String × Nat => (ni.1, Column.num (normal ni.2 (k * nlevels ^ r.1.length).toNat)))
        = Prod.fst from rfl, List.zipIdx_map_fst, hs1.mem_iff, (sortNames_perm _).mem_iff, h3, h4]
    constructor
    · rintro (⟨h, _⟩ | ⟨h, _⟩) <;> exact h
    · intro h
      rcases h0 n h with h' | h'
      · exact Or.inl ⟨h, h'⟩
      · exact Or.inr ⟨h, h'⟩
  · intro column hc
    rcases List.mem_append.mp hc with hc | hc
    · obtain ⟨nv, hnv, rfl⟩ := List.mem_map.mp hc
      exact hs2 nv hnv
    · obtain ⟨ni, _, rfl⟩ := List.mem_map.mp hc
      simp only [Column.length, hnormal]
      rw [Int.toNat_mul hk0 (by omega), Int.toNat_pow_of_nonneg (by omega)]
  · rw [hkn]; exact hb1
  · rw [hkn]; exact hb2
  · intro n
    rw [hstr, hs1.mem_iff]
  · intro g hg
    rw [hstr]
    have := balanced_counts (r.1.map fun n => (n, nlevels)) k hd hp g (by
      intro nc hnc
      obtain ⟨n, hn, rfl⟩ := List.mem_map.mp hnc
      exact hg n hn)
    rwa [hfst, hprod] at this

/-- The documented example, with all drawn numbers zero. -/
example : (getOk (demoData (fun _ s => List.replicate s (0 : Int)) ["a", "b", "x"] 2 5) (by decide +kernel)).map
    (fun c => (c.1, c.2.length)) = [("a", 8), ("b", 8), ("x", 8)] := by decide +kernel

/-- Names starting with "n" are categorical, although the documentation says "a" through "m". -/
theorem demo_data_n : StartsIn 'a' 'n' "n" ∧ ¬ StartsIn 'a' 'm' "n" ∧
    ∃ data, demoData (fun _ s => List.replicate s (0 : Int)) ["n"] 2 2 = .ok data ∧
      stringColumns data = [("n", ["n1", "n2"])] := by
  refine ⟨⟨'n', [], by decide, by decide, by decide⟩, ?_, getOk (demoData (fun _ s => List.replicate s (0 : Int)) ["n"] 2 2) (by decide +kernel), getOk_eq _, by decide +kernel⟩
  rintro ⟨c, rest, h, _, h2⟩
  have : c = 'n' := by
    have : "n".toList = ['n'] := by decide
    rw [this] at h
    simpa using (List.cons.inj h).1.symm
  subst this
  exact absurd h2 (by decide)

/-- A categorical variable without levels is an error that is not a `PatsyError`. -/
theorem demo_data_no_levels {R : Type} (normal : Nat → Nat → List R) :
    demoData normal ["a"] 0 5 = .error .overflowError := by
  have h : classify ["a"] = .ok (["a"], []) := eq_ok_of_okIs (by decide +kernel)
  simp [demoData, h, bind, Except.bind, repeatsFor]

end Patsy.Props
