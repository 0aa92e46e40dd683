import Verif.Model.UserUtil
import Verif.Spec.UserUtil
import Mathlib.Data.List.Nodup
import Mathlib.Data.List.Lookmap
import Mathlib.Algebra.BigOperators.Group.List.Basic
import Mathlib.Tactic.Ring
import Std.Data.String.ToNat

/-! Lemmas about `balanced`: products of lists, transposition, repetition and counting. -/

namespace Patsy.UserUtil

open Patsy.Spec

/-- The product of lists by recursion. -/
def prodRec {A : Type} : List (List A) → List (List A)
  | [] => [[]]
  | l :: ls => l.flatMap fun a => (prodRec ls).map (a :: ·)

theorem product_foldl {A : Type} (pools acc : List (List A)) :
    pools.foldl (fun result pool => result.flatMap fun x => pool.map fun y => x ++ [y]) acc
      = acc.flatMap fun x => (prodRec pools).map (x ++ ·) := by
  induction pools generalizing acc with
  | nil => simp [prodRec]
  | cons l ls ih =>
    rw [List.foldl_cons, ih, List.flatMap_assoc]
    congr 1
    funext x
    simp [prodRec, List.flatMap_map, List.map_flatMap, Function.comp_def]

theorem product_eq {A : Type} (pools : List (List A)) : product pools = prodRec pools := by
  rw [product, product_foldl]
  simp

theorem mem_prodRec {A : Type} {pools : List (List A)} {c : List A} :
    c ∈ prodRec pools ↔ List.Forall₂ (· ∈ ·) c pools := by
  induction pools generalizing c with
  | nil => simp [prodRec]
  | cons l ls ih =>
    cases c with
    | nil => simp [prodRec]
    | cons a c => simp [prodRec, ih]

theorem nodup_prodRec {A : Type} {pools : List (List A)} (h : ∀ l ∈ pools, l.Nodup) : (prodRec pools).Nodup := by
  induction pools with
  | nil => simp [prodRec]
  | cons l ls ih =>
    have hl := h l (by simp)
    have ih := ih fun m hm => h m (by simp [hm])
    rw [prodRec, List.nodup_flatMap]
    refine ⟨fun a _ => ih.map fun x y hxy => by simpa using hxy, ?_⟩
    refine hl.imp ?_
    intro a b hab x hx hy
    simp only [List.mem_map] at hx hy
    obtain ⟨u, _, rfl⟩ := hx
    obtain ⟨v, _, hv⟩ := hy
    simp at hv
    exact hab hv.1.symm

theorem length_prodRec {A : Type} (pools : List (List A)) : (prodRec pools).length = (pools.map List.length).prod := by
  induction pools with
  | nil => simp [prodRec]
  | cons l ls ih => simp [prodRec, List.length_flatMap, ih]

theorem shortest_eq {A : Type} {rows : List (List A)} {n : Nat} (hne : rows ≠ []) (h : ∀ r ∈ rows, r.length = n) :
    shortest rows = n := by
  cases rows with
  | nil => exact absurd rfl hne
  | cons r rs =>
    have key : ∀ (rs : List (List A)) (m : Nat), m = n → (∀ r ∈ rs, r.length = n) →
        rs.foldl (fun n r => min n r.length) m = n := by
      intro rs
      induction rs with
      | nil => intro m hm _; simpa using hm
      | cons a as ih =>
        intro m hm ha
        rw [List.foldl_cons]
        exact ih _ (by rw [hm, ha a (by simp)]; simp) fun r hr => ha r (by simp [hr])
    exact key rs _ (h r (by simp)) fun r' hr' => h r' (by simp [hr'])

theorem filterMap_column_length {A : Type} {rows : List (List A)} {n i : Nat} (h : ∀ r ∈ rows, r.length = n)
    (hi : i < n) : (rows.filterMap fun r => r[i]?).length = rows.length := by
  induction rows with
  | nil => rfl
  | cons r rs ih =>
    have hr := List.getElem?_eq_getElem (l := r) (i := i) (by rw [h r (by simp)]; exact hi)
    rw [List.filterMap_cons, hr]
    simp [ih fun r hr => h r (by simp [hr])]

theorem filterMap_column_get {A : Type} {rows : List (List A)} {n i : Nat} (h : ∀ r ∈ rows, r.length = n)
    (hi : i < n) (j : Nat) : (rows.filterMap fun r => r[i]?)[j]? = (rows[j]?).bind fun r => r[i]? := by
  induction rows generalizing j with
  | nil => simp
  | cons r rs ih =>
    have hr := List.getElem?_eq_getElem (l := r) (i := i) (by rw [h r (by simp)]; exact hi)
    rw [List.filterMap_cons, hr]
    cases j with
    | zero => simp
    | succ j => simpa using ih (fun r hr => h r (by simp [hr])) j

theorem repeat_get {A : Type} (v : List A) (k r : Nat) (hr : r < k * v.length) :
    (List.replicate k v).flatten[r]? = v[r % v.length]? := by
  induction k generalizing r with
  | zero => simp at hr
  | succ k ih =>
    rw [List.replicate_succ, List.flatten_cons, List.getElem?_append]
    split
    · rename_i h
      rw [Nat.mod_eq_of_lt h]
    · rename_i h
      rw [ih _ (by rw [Nat.succ_mul] at hr; omega), ← Nat.mod_eq_sub_mod (by omega)]

theorem count_mod (q : Nat → Bool) (P k : Nat) :
    (List.range (k * P)).countP (fun r => q (r % P)) = k * (List.range P).countP q := by
  induction k with
  | zero => simp
  | succ k ih =>
    rw [Nat.succ_mul, List.range_add, List.countP_append, ih, Nat.succ_mul, List.countP_map]
    congr 1
    refine List.countP_congr fun x hx => ?_
    rw [List.mem_range] at hx
    simp [Nat.add_mod, Nat.mod_eq_of_lt hx]

theorem count_positions {A : Type} [BEq A] [LawfulBEq A] (rows : List A) (c : A) :
    (List.range rows.length).countP (fun r => rows[r]? == some c) = rows.count c := by
  induction rows with
  | nil => rfl
  | cons a as ih =>
    rw [List.length_cons, List.range_succ_eq_map, List.countP_cons, List.countP_map, List.count_cons]
    have : ((fun r : Nat => (a :: as)[r]? == some c) ∘ Nat.succ) = fun r : Nat => as[r]? == some c := by
      funext r; simp
    rw [this, ih]
    rfl

theorem lookup_zip {A : Type} (f : A → A) (names : List String) (values : List A) (hd : names.Nodup)
    (hl : names.length = values.length) (i : Nat) (hi : i < names.length) :
    ((names.zip values).map fun nv => (nv.1, f nv.2)).lookup names[i] = (values[i]?).map f := by
  induction names generalizing values i with
  | nil => simp at hi
  | cons n ns ih =>
    cases values with
    | nil => simp at hl
    | cons v vs =>
      cases i with
      | zero => simp
      | succ i =>
        have hne : (ns[i]'(by simpa using hi) == n) = false := by
          rw [beq_eq_false_iff_ne]
          intro h
          exact (List.nodup_cons.mp hd).1 (h ▸ List.getElem_mem _)
        simp only [List.zip_cons_cons, List.map_cons, List.getElem_cons_succ, List.lookup_cons, hne,
          List.getElem?_cons_succ]
        exact ih vs (List.nodup_cons.mp hd).2 (by simpa using hl) i (by simpa using hi)

theorem sortNames_perm (names : List String) : (sortNames names).Perm names := List.perm_insertionSort _ _

theorem lookup_of_mem {A : Type} {l : List (String × A)} (hd : (l.map Prod.fst).Nodup) {n : String} {a : A}
    (h : (n, a) ∈ l) : l.lookup n = some a := by
  induction l with
  | nil => simp at h
  | cons x xs ih =>
    obtain ⟨m, b⟩ := x
    simp only [List.map_cons, List.nodup_cons] at hd
    rw [List.lookup_cons]
    rcases List.mem_cons.mp h with h | h'
    · cases h; simp
    · have : (n == m) = false := by
        rw [beq_eq_false_iff_ne]
        rintro rfl
        exact hd.1 (List.mem_map_of_mem (f := Prod.fst) h')
      rw [this]
      exact ih hd.2 h'

theorem levelName_inj {n : String} {i j : Nat} : levelName n i = levelName n j ↔ i = j := by
  rw [levelName, levelName, String.append_right_inj]
  exact Nat.repr_inj

theorem nodup_levelsOf (factors : List (String × Int)) (n : String) : (levelsOf factors n).Nodup := by
  refine List.Nodup.map_on ?_ List.nodup_range
  intro i _ j _ h
  have := levelName_inj.mp h
  omega

theorem mem_levelsOf {factors : List (String × Int)} {n s : String} :
    s ∈ levelsOf factors n ↔ ∃ j : Nat, 1 ≤ j ∧ (j : Int) ≤ (factors.lookup n).getD 0 ∧ s = levelName n j := by
  simp only [levelsOf, List.mem_map, List.mem_range]
  constructor
  · rintro ⟨i, hi, rfl⟩
    exact ⟨i + 1, by omega, by omega, rfl⟩
  · rintro ⟨j, h1, h2, rfl⟩
    exact ⟨j - 1, by omega, by rw [Nat.sub_add_cancel h1]⟩

/-- The rows of one replicate. -/
def gridRows (factors : List (String × Int)) : List (List String) :=
  prodRec ((sortNames (factors.map Prod.fst)).map (levelsOf factors))

theorem gridRows_width (factors : List (String × Int)) :
    ∀ r ∈ gridRows factors, r.length = (sortNames (factors.map Prod.fst)).length := by
  intro r hr
  have := (mem_prodRec.mp hr).length_eq
  simpa using this

theorem gridRows_length (factors : List (String × Int)) (hd : (factors.map Prod.fst).Nodup) :
    (gridRows factors).length = (factors.map fun nc => nc.2.toNat).prod := by
  rw [gridRows, length_prodRec, List.map_map]
  have h1 := (((sortNames_perm (factors.map Prod.fst)).map (List.length ∘ levelsOf factors))).prod_eq
  rw [h1, List.map_map]
  congr 1
  refine List.map_congr_left fun nc hnc => ?_
  simp only [Function.comp, levelsOf, List.length_map, List.length_range]
  rw [lookup_of_mem hd (a := nc.2) hnc]
  rfl

theorem grid_mem_of_levels {factors : List (String × Int)} (hd : (factors.map Prod.fst).Nodup) {g : String → Nat}
    (hg : ∀ nc ∈ factors, 1 ≤ g nc.1 ∧ (g nc.1 : Int) ≤ nc.2) :
    (sortNames (factors.map Prod.fst)).map (fun n => levelName n (g n)) ∈ gridRows factors := by
  rw [gridRows, mem_prodRec, List.forall₂_map_left_iff, List.forall₂_map_right_iff, List.forall₂_same]
  intro n hn
  have hn := (sortNames_perm _).mem_iff.mp hn
  obtain ⟨nc, hnc, rfl⟩ := List.mem_map.mp hn
  refine mem_levelsOf.mpr ⟨g nc.1, (hg nc hnc).1, ?_, rfl⟩
  rw [lookup_of_mem hd (a := nc.2) hnc]
  exact (hg nc hnc).2

theorem grid_ne_nil {factors : List (String × Int)} (hd : (factors.map Prod.fst).Nodup)
    (hpos : ∀ nc ∈ factors, 1 ≤ nc.2) : gridRows factors ≠ [] := by
  intro h
  have := grid_mem_of_levels hd (g := fun _ => 1) (fun nc hnc => ⟨le_refl _, by simpa using hpos nc hnc⟩)
  rw [h] at this
  simp at this

theorem grid_levels_of_mem {factors : List (String × Int)} (hd : (factors.map Prod.fst).Nodup) {c : List String}
    (hc : c ∈ gridRows factors) :
    ∃ g : String → Nat, (∀ nc ∈ factors, 1 ≤ g nc.1 ∧ (g nc.1 : Int) ≤ nc.2) ∧
      c = (sortNames (factors.map Prod.fst)).map (fun n => levelName n (g n)) := by
  rw [gridRows, mem_prodRec, List.forall₂_map_right_iff] at hc
  have hnd : (sortNames (factors.map Prod.fst)).Nodup := (sortNames_perm _).nodup_iff.mpr hd
  have key : ∀ (names c : List String), names.Nodup → List.Forall₂ (fun a n => a ∈ levelsOf factors n) c names →
      ∃ g : String → Nat, (∀ n ∈ names, 1 ≤ g n ∧ (g n : Int) ≤ (factors.lookup n).getD 0) ∧
        c = names.map (fun n => levelName n (g n)) := by
    intro names c hnd hc
    induction hc with
    | nil => exact ⟨fun _ => 0, by simp, rfl⟩
    | @cons a n c names ha _ ih =>
      obtain ⟨hn, hnd⟩ := List.nodup_cons.mp hnd
      obtain ⟨g, hg, rfl⟩ := ih hnd
      obtain ⟨j, h1, h2, rfl⟩ := mem_levelsOf.mp ha
      refine ⟨fun m => if m = n then j else g m, ?_, ?_⟩
      · intro m hm
        rcases List.mem_cons.mp hm with rfl | hm
        · simp [h1, h2]
        · have : m ≠ n := fun h => hn (h ▸ hm)
          simpa [this] using hg m hm
      · simp only [List.map_cons, if_true, List.cons.injEq, true_and]
        refine List.map_congr_left fun m hm => ?_
        have : m ≠ n := fun h => hn (h ▸ hm)
        simp [this]
  obtain ⟨g, hg, h⟩ := key _ c hnd hc
  refine ⟨g, ?_, h⟩
  intro nc hnc
  have := hg nc.1 ((sortNames_perm _).mem_iff.mpr (List.mem_map_of_mem (f := Prod.fst) hnc))
  rwa [lookup_of_mem hd (a := nc.2) hnc] at this

theorem values_eq {factors : List (String × Int)} (hd : (factors.map Prod.fst).Nodup)
    (hpos : ∀ nc ∈ factors, 1 ≤ nc.2) :
    zipStar (gridRows factors) = (List.range (sortNames (factors.map Prod.fst)).length).map
      fun (i : Nat) => (gridRows factors).filterMap fun r => r[i]? := by
  rw [zipStar, shortest_eq (grid_ne_nil hd hpos) (gridRows_width factors)]

theorem balanced_eq {factors : List (String × Int)} (hd : (factors.map Prod.fst).Nodup)
    (hpos : ∀ nc ∈ factors, 1 ≤ nc.2) (k : Int) :
    balanced factors k = ((sortNames (factors.map Prod.fst)).zip
      ((List.range (sortNames (factors.map Prod.fst)).length).map
      fun (i : Nat) => (gridRows factors).filterMap fun r => r[i]?)).map
        fun nv => (nv.1, (List.replicate k.toNat nv.2).flatten) := by
  rw [balanced]
  simp only [product_eq]
  rw [← values_eq hd hpos, gridRows]

theorem balanced_names {factors : List (String × Int)} (hd : (factors.map Prod.fst).Nodup)
    (hpos : ∀ nc ∈ factors, 1 ≤ nc.2) (k : Int) :
    (balanced factors k).map Prod.fst = sortNames (factors.map Prod.fst) := by
  rw [balanced_eq hd hpos, List.map_map]
  have : (Prod.fst ∘ fun nv : String × List String => (nv.1, (List.replicate k.toNat nv.2).flatten)) = Prod.fst := rfl
  rw [this, List.map_fst_zip (by simp)]

theorem balanced_cell {factors : List (String × Int)} (hd : (factors.map Prod.fst).Nodup)
    (hpos : ∀ nc ∈ factors, 1 ≤ nc.2) (k : Int) (i : Nat) (hi : i < (sortNames (factors.map Prod.fst)).length) (r : Nat)
    (hr : r < k.toNat * (gridRows factors).length) :
    cell (balanced factors k) (sortNames (factors.map Prod.fst))[i] r
      = ((gridRows factors)[r % (gridRows factors).length]?).bind fun row => row[i]? := by
  have hnd : (sortNames (factors.map Prod.fst)).Nodup := (sortNames_perm _).nodup_iff.mpr hd
  rw [cell, balanced_eq hd hpos, lookup_zip (fun v => (List.replicate k.toNat v).flatten) _ _ hnd (by simp) i hi]
  rw [List.getElem?_map, List.getElem?_range hi]
  simp only [Option.map_some, Option.bind_some]
  rw [repeat_get _ _ _ (by rwa [filterMap_column_length (gridRows_width factors) hi]),
    filterMap_column_length (gridRows_width factors) hi, filterMap_column_get (gridRows_width factors) hi]

theorem rowShows_iff {factors : List (String × Int)} (hd : (factors.map Prod.fst).Nodup)
    (hpos : ∀ nc ∈ factors, 1 ≤ nc.2) (k : Int) (g : String → Nat) (r : Nat)
    (hr : r < k.toNat * (gridRows factors).length) :
    rowShows (balanced factors k) (factors.map Prod.fst) g r
      = ((gridRows factors)[r % (gridRows factors).length]?
          == some ((sortNames (factors.map Prod.fst)).map fun n => levelName n (g n))) := by
  have hP : r % (gridRows factors).length < (gridRows factors).length :=
    Nat.mod_lt _ (Nat.pos_of_ne_zero fun h => by simp [h] at hr)
  have hrow := List.getElem?_eq_getElem hP
  have hw := gridRows_width factors _ (List.getElem_mem hP)
  rw [Bool.eq_iff_iff, rowShows, List.all_eq_true, beq_iff_eq, hrow, Option.some.injEq]
  constructor
  · intro h
    refine List.ext_getElem (by simpa using hw) fun i h1 h2 => ?_
    rw [List.getElem_map]
    have hi : i < (sortNames (factors.map Prod.fst)).length := by simpa using h2
    have := h _ ((sortNames_perm _).mem_iff.mp (List.getElem_mem hi))
    rw [balanced_cell hd hpos k i hi r hr, hrow] at this
    simp only [Option.bind_some, beq_iff_eq] at this
    rw [List.getElem?_eq_getElem h1, Option.some.injEq] at this
    exact this
  · intro h n hn
    obtain ⟨i, hi, rfl⟩ := List.getElem_of_mem ((sortNames_perm _).mem_iff.mpr hn)
    rw [balanced_cell hd hpos k i hi r hr, hrow, beq_iff_eq]
    simp only [Option.bind_some]
    rw [h, List.getElem?_map, List.getElem?_eq_getElem hi]
    rfl

end Patsy.UserUtil
