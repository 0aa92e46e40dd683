import Mathlib.Data.List.Nodup
import Mathlib.Data.List.Perm.Basic
import Verif.Lemmas.Columns
import Verif.Spec.Levels

/-!
# Lemmas about categorical data
-/

set_option linter.unusedSectionVars false

namespace Patsy.Cat

open Patsy.Build (NAAction mapM_ok)

/-! ### Missing values -/

instance decMissing (na : NAAction) : (v : PyVal) → Decidable (Missing na v)
  | .nan _ => inferInstanceAs (Decidable (na.nan = true))
  | .none => inferInstanceAs (Decidable (na.none = true))
  | .bool _ => .isFalse id
  | .npBool _ => .isFalse id
  | .int _ => .isFalse id
  | .float _ => .isFalse id
  | .str _ => .isFalse id
  | .unhashable _ => .isFalse id

theorem huge_cast : ((2 ^ 1024 - 2 ^ 970 : Nat) : Int) = 2 ^ 1024 - 2 ^ 970 := by decide +kernel

theorem intOverflows_false {i : Int} : intOverflows i = false ↔ Ordinary (.int i) := by
  rw [intOverflows, Ordinary, ← huge_cast]
  generalize (2 ^ 1024 - 2 ^ 970 : Nat) = n
  simp only [decide_eq_false_iff_not]
  omega

theorem isCategoricalNA_ok {na : NAAction} {v : PyVal} (h : Ordinary v) :
    isCategoricalNA na v = .ok (decide (Missing na v)) := by
  cases v
  case int i =>
    rw [← intOverflows_false] at h
    cases hn : na.nan <;> cases hm : na.none <;>
      simp only [isCategoricalNA, scalarIsNan, Missing, h, hn, hm, bind, Except.bind] <;> rfl
  all_goals
    simp only [Ordinary] at h
    cases hn : na.nan <;> cases hm : na.none <;>
      simp only [isCategoricalNA, scalarIsNan, Missing, h, hn, hm, bind, Except.bind] <;> rfl

/-! ### Sets -/

/-- `set.add` for a hashable element. -/
def addKey (set : List PyVal) (v : PyVal) : List PyVal :=
  if set.any (fun w => decide (w.key = v.key)) then set else set ++ [v]

/-- Either of `True` and `False` stands for both. -/
def expand : PyVal → List PyVal
  | .bool _ => [.bool true, .bool false]
  | v => [v]

/-- What a value contributes to the set of levels. -/
def contribution (na : NAAction) (v : PyVal) : List PyVal :=
  if Missing na v then [] else expand v

theorem addLevel_ok {set : List PyVal} {v : PyVal} (h : v.key.isSome = true) :
    addLevel set v = .ok (addKey set v) := by
  rw [Option.isSome_iff_exists] at h
  obtain ⟨k, hk⟩ := h
  rw [addLevel, hk]
  simp only [addKey, hasKey, hk]
  congr

theorem sniffValue_ok {na : NAAction} {set : List PyVal} {v : PyVal} (h : Good na v) :
    sniffValue na set v = .ok ((contribution na v).foldl addKey set) := by
  have hna := isCategoricalNA_ok (na := na) h.1
  by_cases hm : Missing na v
  · simp [sniffValue.eq_def, hna, hm, contribution, bind, Except.bind]
  · have hk : v.key.isSome = true := h.2.resolve_left hm
    have hb : (do
        let s ← addLevel set (.bool true)
        addLevel s (.bool false)) = .ok ([PyVal.bool true, .bool false].foldl addKey set) := by
      rw [addLevel_ok (v := .bool true) rfl]
      exact addLevel_ok (v := .bool false) rfl
    have ha := addLevel_ok (set := set) hk
    cases v <;> simp only [sniffValue.eq_def, hna, hm, contribution, bind, Except.bind, decide_false,
      Bool.false_eq_true, if_false, expand] <;> first | exact hb | exact ha

/-- The set of levels of some data, beginning with a given set. -/
def gather (na : NAAction) (set : List PyVal) (vals : List PyVal) : List PyVal :=
  (vals.flatMap (contribution na)).foldl addKey set

theorem gather_append (na : NAAction) (set : List PyVal) (a b : List PyVal) :
    gather na set (a ++ b) = gather na (gather na set a) b := by
  simp [gather, List.flatMap_append]

theorem foldlM_sniff {na : NAAction} : ∀ {vals : List PyVal} {set : List PyVal}, (∀ v ∈ vals, Good na v) →
    vals.foldlM (sniffValue na) set = .ok (gather na set vals) := by
  intro vals
  induction vals with
  | nil => intro set _; rfl
  | cons v vals ih =>
    intro set h
    rw [List.foldlM_cons, sniffValue_ok (h v (by simp))]
    simp only [bind, Except.bind]
    rw [ih (fun w hw => h w (by simp [hw]))]
    simp [gather]

theorem mem_addKey {set : List PyVal} {v : PyVal} {k : Option Key} :
    k ∈ (addKey set v).map PyVal.key ↔ k ∈ set.map PyVal.key ∨ k = v.key := by
  rw [addKey]
  split
  · rename_i h
    simp only [List.any_eq_true, decide_eq_true_eq] at h
    obtain ⟨w, hw, he⟩ := h
    constructor
    · exact Or.inl
    · rintro (h | rfl)
      · exact h
      · exact List.mem_map.mpr ⟨w, hw, he⟩
  · simp [eq_comm]

theorem nodup_addKey {set : List PyVal} {v : PyVal} (h : (set.map PyVal.key).Nodup) :
    ((addKey set v).map PyVal.key).Nodup := by
  rw [addKey]
  split
  · exact h
  · rename_i hn
    simp only [List.any_eq_true, decide_eq_true_eq, not_exists, not_and] at hn
    rw [List.map_append, List.nodup_append]
    refine ⟨h, by simp, ?_⟩
    rintro a ha b hb rfl
    simp only [List.map_cons, List.map_nil, List.mem_singleton] at hb
    obtain ⟨w, hw, rfl⟩ := List.mem_map.mp ha
    exact hn w hw hb

theorem foldl_addKey {vs : List PyVal} : ∀ {set : List PyVal}, (set.map PyVal.key).Nodup →
    ((vs.foldl addKey set).map PyVal.key).Nodup ∧
    ∀ k, k ∈ (vs.foldl addKey set).map PyVal.key ↔ k ∈ set.map PyVal.key ∨ k ∈ vs.map PyVal.key := by
  induction vs with
  | nil => intro set h; simp [h]
  | cons v vs ih =>
    intro set h
    obtain ⟨h1, h2⟩ := ih (nodup_addKey (v := v) h)
    refine ⟨h1, fun k => ?_⟩
    rw [List.foldl_cons, h2, mem_addKey]
    simp only [List.map_cons, List.mem_cons]
    tauto

theorem foldl_addKey_noop {vs : List PyVal} : ∀ {set : List PyVal},
    (∀ v ∈ vs, v.key ∈ set.map PyVal.key) → vs.foldl addKey set = set := by
  induction vs with
  | nil => intro set _; rfl
  | cons v vs ih =>
    intro set h
    have h1 : addKey set v = set := by
      rw [addKey, if_pos]
      obtain ⟨w, hw, he⟩ := List.mem_map.mp (h v (by simp))
      simp only [List.any_eq_true, decide_eq_true_eq]
      exact ⟨w, hw, he⟩
    rw [List.foldl_cons, h1]
    exact ih fun w hw => h w (by simp [hw])

theorem mem_contribution {na : NAAction} {vals : List PyVal} {k : Key} :
    some k ∈ (vals.flatMap (contribution na)).map PyVal.key ↔ Shows na vals k := by
  simp only [List.mem_map, List.mem_flatMap, Shows]
  constructor
  · rintro ⟨w, ⟨v, hv, hw⟩, hk⟩
    rw [contribution] at hw
    split at hw
    · simp at hw
    · rename_i hm
      by_cases hb : ∃ b, v = .bool b
      · obtain ⟨b, rfl⟩ := hb
        right
        refine ⟨?_, b, hv⟩
        simp only [expand, List.mem_cons, List.not_mem_nil, or_false] at hw
        rcases hw with rfl | rfl <;> simp [PyVal.key, boolNum] at hk <;> simp [← hk]
      · have : w = v := by cases v <;> simp [expand] at hb hw <;> exact hw
        subst this
        exact Or.inl ⟨w, hv, hm, hk⟩
  · rintro (⟨v, hv, hm, hk⟩ | ⟨hk, b, hb⟩)
    · by_cases hb : ∃ b, v = .bool b
      · obtain ⟨b, rfl⟩ := hb
        refine ⟨.bool b, ⟨_, hv, ?_⟩, hk⟩
        cases b <;> simp [contribution, Missing, expand]
      · refine ⟨v, ⟨v, hv, ?_⟩, hk⟩
        rw [contribution, if_neg hm]
        cases v <;> simp [expand] at hb ⊢
    · rcases hk with rfl | rfl
      · exact ⟨.bool false, ⟨_, hb, by simp [contribution, Missing, expand]⟩, by simp [PyVal.key, boolNum]⟩
      · exact ⟨.bool true, ⟨_, hb, by simp [contribution, Missing, expand]⟩, by simp [PyVal.key, boolNum]⟩

theorem gather_spec {na : NAAction} {vals : List PyVal} :
    ((gather na [] vals).map PyVal.key).Nodup ∧
    ∀ k, some k ∈ (gather na [] vals).map PyVal.key ↔ Shows na vals k := by
  obtain ⟨h1, h2⟩ := foldl_addKey (vs := vals.flatMap (contribution na)) (set := []) (by simp)
  refine ⟨h1, fun k => ?_⟩
  rw [gather, h2, mem_contribution]
  simp

theorem gather_mem {na : NAAction} {vals : List PyVal} : ∀ {set : List PyVal} {w : PyVal},
    w ∈ gather na set vals → w ∈ set ∨ w ∈ vals.flatMap (contribution na) := by
  intro set w
  rw [gather]
  generalize vals.flatMap (contribution na) = vs
  induction vs generalizing set with
  | nil => intro h; exact Or.inl h
  | cons v vs ih =>
    intro h
    rw [List.foldl_cons] at h
    rcases ih h with h | h
    · rw [addKey] at h
      split at h
      · exact Or.inl h
      · rcases List.mem_append.mp h with h | h
        · exact Or.inl h
        · exact Or.inr (by simp [List.mem_singleton.mp h])
    · exact Or.inr (by simp [h])

theorem isBoolSet_iff {set : List PyVal} (h : (set.map PyVal.key).Nodup)
    (hs : ∀ v ∈ set, v.key.isSome = true) :
    isBoolSet set = true ↔ ∀ k, some k ∈ set.map PyVal.key ↔ k = .num 0 ∨ k = .num 1 := by
  have hk : ∀ k, hasKey set k = true ↔ some k ∈ set.map PyVal.key := by
    intro k
    simp [hasKey]
  simp only [isBoolSet, Bool.and_eq_true, decide_eq_true_eq, hk]
  have hlen : set.length = (set.map PyVal.key).length := by simp
  have hsome : ∀ o ∈ set.map PyVal.key, ∃ k, o = some k := by
    intro o ho
    obtain ⟨v, hv, rfl⟩ := List.mem_map.mp ho
    exact Option.isSome_iff_exists.mp (hs v hv)
  rw [hlen]
  generalize set.map PyVal.key = ks at *
  have h01 : (some (Key.num 0) : Option Key) ≠ some (Key.num 1) := by decide
  have hnd : [some (Key.num 0), some (Key.num 1)].Nodup := by simp
  constructor
  · rintro ⟨⟨h2, hT⟩, hF⟩ k
    constructor
    · intro hk
      by_contra hc
      rw [not_or] at hc
      have hnd3 : [some k, some (Key.num 0), some (Key.num 1)].Nodup := by
        simp only [List.nodup_cons, List.mem_cons, List.not_mem_nil, or_false, not_or, Option.some.injEq]
        refine ⟨⟨hc.1, hc.2⟩, by simp, by simp⟩
      have hsub : [some k, some (Key.num 0), some (Key.num 1)] ⊆ ks := by
        intro x hx
        simp only [List.mem_cons, List.not_mem_nil, or_false] at hx
        rcases hx with rfl | rfl | rfl <;> assumption
      have := (List.subperm_of_subset hnd3 hsub).length_le
      simp at this
      omega
    · rintro (rfl | rfl) <;> assumption
  · intro hall
    have hp : ks.Perm [some (Key.num 0), some (Key.num 1)] := by
      rw [List.perm_ext_iff_of_nodup h hnd]
      intro o
      constructor
      · intro ho
        obtain ⟨k, rfl⟩ := hsome o ho
        have := (hall k).mp ho
        simpa using this
      · intro ho
        simp only [List.mem_cons, List.not_mem_nil, or_false] at ho
        rcases ho with rfl | rfl
        · exact (hall _).mpr (Or.inl rfl)
        · exact (hall _).mpr (Or.inr rfl)
    exact ⟨⟨by simpa using hp.length_eq, (hall _).mpr (Or.inr rfl)⟩, (hall _).mpr (Or.inl rfl)⟩

/-! ### Sorting -/

/-- Levels that can be sorted consistently. -/
def Sortable : PyVal → Prop
  | .nan _ => False
  | .unhashable _ => False
  | _ => True

theorem numVal_of_sortable {v : PyVal} (h : Sortable v) :
    (∃ x, v.numVal = some x ∧ v.key = some (.num x) ∧ v.isNumber = true) ∨ v = .none ∨ ∃ s, v = .str s := by
  cases v with
  | none => exact Or.inr (Or.inl rfl)
  | str s => exact Or.inr (Or.inr ⟨s, rfl⟩)
  | nan i => exact absurd h (by simp [Sortable])
  | unhashable i => exact absurd h (by simp [Sortable])
  | bool b => exact Or.inl ⟨_, rfl, rfl, rfl⟩
  | npBool b => exact Or.inl ⟨_, rfl, rfl, rfl⟩
  | int i => exact Or.inl ⟨_, rfl, rfl, rfl⟩
  | float q => exact Or.inl ⟨_, rfl, rfl, rfl⟩

theorem not_str {v : PyVal} (h : v.isNumber = true) : (∀ s, v ≠ .str s) ∧ v ≠ .none := by
  cases v <;> simp [PyVal.isNumber, PyVal.numVal] at h ⊢

theorem pythonLt_num {a b : PyVal} {x y : ℚ} (ha : a.numVal = some x) (hb : b.numVal = some y) :
    pythonLt a b = some (decide (x < y)) := by
  cases a <;> simp [PyVal.numVal] at ha <;> cases b <;> simp [PyVal.numVal] at hb <;>
    simp [pythonLt, PyVal.isNumber, PyVal.numVal, ha, hb]

theorem precedes_num {a b : PyVal} {x y : ℚ} (ha : a.numVal = some x) (hb : b.numVal = some y) :
    Precedes a b ↔ x < y := by
  cases a <;> simp [PyVal.numVal] at ha <;> cases b <;> simp [PyVal.numVal] at hb <;>
    simp [Precedes, PyVal.numVal, ha, hb]

/-- The sort key agrees with the specified order. -/
theorem sortLt_iff {a b : PyVal} (ha : Sortable a) (hb : Sortable b) : sortLt a b = true ↔ Precedes a b := by
  rcases numVal_of_sortable ha with ⟨x, hx, _, _⟩ | rfl | ⟨s, rfl⟩ <;>
    rcases numVal_of_sortable hb with ⟨y, hy, _, _⟩ | rfl | ⟨t, rfl⟩
  · simp [sortLt, pythonLt_num hx hy, precedes_num hx hy]
  · cases a <;> simp [PyVal.numVal] at hx <;>
      simp [sortLt, pythonLt, PyVal.isNumber, PyVal.numVal, Precedes]
  · cases a <;> simp [PyVal.numVal] at hx <;>
      simp [sortLt, pythonLt, PyVal.isNumber, PyVal.numVal, Precedes]
  · cases b <;> simp [PyVal.numVal] at hy <;>
      simp [sortLt, pythonLt, PyVal.isNumber, PyVal.numVal, Precedes]
  · simp [sortLt, pythonLt, PyVal.isNumber, PyVal.numVal, Precedes]
  · have : ("NoneType" : String) < "str" := by decide
    simp [sortLt, pythonLt, PyVal.isNumber, PyVal.numVal, Precedes, PyVal.key, className, this]
  · cases b <;> simp [PyVal.numVal] at hy <;>
      simp [sortLt, pythonLt, PyVal.isNumber, PyVal.numVal, Precedes]
  · have : ¬ ("str" : String) < "NoneType" := by decide
    simp only [sortLt, pythonLt, PyVal.isNumber, PyVal.numVal, Precedes, PyVal.key, className]
    simpa using this
  · simp [sortLt, pythonLt, Precedes]

/-- A position in a linear order. -/
def rank : PyVal → ℕ ×ₗ ℚ ×ₗ String
  | .none => toLex (1, toLex (0, ""))
  | .str s => toLex (2, toLex (0, s))
  | v => toLex (0, toLex (v.numVal.getD 0, ""))

theorem rank_num {a : PyVal} {x : ℚ} (ha : a.numVal = some x) : rank a = toLex (0, toLex (x, "")) := by
  cases a <;> simp [PyVal.numVal] at ha <;> simp [rank, PyVal.numVal, ha]

theorem precedes_iff_rank {a b : PyVal} (ha : Sortable a) (hb : Sortable b) :
    Precedes a b ↔ rank a < rank b := by
  rcases numVal_of_sortable ha with ⟨x, hx, _, _⟩ | rfl | ⟨s, rfl⟩ <;>
    rcases numVal_of_sortable hb with ⟨y, hy, _, _⟩ | rfl | ⟨t, rfl⟩
  · rw [precedes_num hx hy, rank_num hx, rank_num hy]
    simp [Prod.Lex.toLex_lt_toLex]
  · rw [rank_num hx]
    cases a <;> simp [PyVal.numVal] at hx <;>
      simp [Precedes, PyVal.numVal, rank, Prod.Lex.toLex_lt_toLex]
  · rw [rank_num hx]
    cases a <;> simp [PyVal.numVal] at hx <;>
      simp [Precedes, PyVal.numVal, rank, Prod.Lex.toLex_lt_toLex]
  · rw [rank_num hy]
    cases b <;> simp [PyVal.numVal] at hy <;> simp [Precedes, rank, Prod.Lex.toLex_lt_toLex]
  · simp [Precedes]
  · simp [Precedes, rank, Prod.Lex.toLex_lt_toLex]
  · rw [rank_num hy]
    cases b <;> simp [PyVal.numVal] at hy <;> simp [Precedes, rank, Prod.Lex.toLex_lt_toLex]
  · simp [Precedes, rank, Prod.Lex.toLex_lt_toLex]
  · simp [Precedes, rank, Prod.Lex.toLex_lt_toLex]

theorem key_of_rank {a b : PyVal} (ha : Sortable a) (hb : Sortable b) (h : rank a = rank b) :
    a.key = b.key := by
  rcases numVal_of_sortable ha with ⟨x, hx, hx', _⟩ | rfl | ⟨s, rfl⟩ <;>
    rcases numVal_of_sortable hb with ⟨y, hy, hy', _⟩ | rfl | ⟨t, rfl⟩
  · rw [rank_num hx, rank_num hy] at h
    simp at h
    rw [hx', hy', h]
  · rw [rank_num hx] at h; simp [rank] at h
  · rw [rank_num hx] at h; simp [rank] at h
  · rw [rank_num hy] at h; simp [rank] at h
  · rfl
  · simp [rank] at h
  · rw [rank_num hy] at h; simp [rank] at h
  · simp [rank] at h
  · simp [rank] at h; rw [h]

theorem orderedInsert_congr {α : Type} {r s : α → α → Prop} [DecidableRel r] [DecidableRel s] {a : α}
    {l : List α} (h : ∀ b ∈ l, r a b ↔ s a b) : l.orderedInsert r a = l.orderedInsert s a := by
  induction l with
  | nil => rfl
  | cons b l ih =>
    rw [List.orderedInsert_cons, List.orderedInsert_cons, ih (fun c hc => h c (by simp [hc]))]
    simp only [h b (by simp)]

theorem insertionSort_congr {α : Type} {r s : α → α → Prop} [DecidableRel r] [DecidableRel s]
    {l : List α} (h : ∀ a ∈ l, ∀ b ∈ l, r a b ↔ s a b) : l.insertionSort r = l.insertionSort s := by
  induction l with
  | nil => rfl
  | cons a l ih =>
    rw [List.insertionSort_cons, List.insertionSort_cons,
      ih (fun x hx y hy => h x (by simp [hx]) y (by simp [hy]))]
    apply orderedInsert_congr
    intro b hb
    exact h a (by simp) b (by simp [(List.perm_insertionSort s l).mem_iff.mp hb])

theorem sortAnything_spec {l : List PyVal} (hs : ∀ v ∈ l, Sortable v) (hk : (l.map PyVal.key).Nodup) :
    (sortAnything l).Perm l ∧ (sortAnything l).Pairwise Precedes := by
  have hp : (sortAnything l).Perm l := List.perm_insertionSort _ l
  refine ⟨hp, ?_⟩
  have he : sortAnything l = l.insertionSort (fun a b => rank a ≤ rank b) := by
    apply insertionSort_congr
    intro a ha b hb
    rw [← Bool.not_eq_true, sortLt_iff (hs b hb) (hs a ha), precedes_iff_rank (hs b hb) (hs a ha), not_lt]
  have hsorted : (sortAnything l).Pairwise fun a b => rank a ≤ rank b := by
    rw [he]
    have : Std.Total (fun a b : PyVal => rank a ≤ rank b) := ⟨fun a b => le_total _ _⟩
    have : IsTrans PyVal (fun a b => rank a ≤ rank b) := ⟨fun a b c h1 h2 => le_trans h1 h2⟩
    exact List.pairwise_insertionSort _ l
  have hnd : (sortAnything l).Pairwise fun a b => a.key ≠ b.key := by
    have : ((sortAnything l).map PyVal.key).Nodup := (hp.map _).nodup_iff.mpr hk
    rw [List.Nodup, List.pairwise_map] at this
    exact this
  have hmem : ∀ v ∈ sortAnything l, Sortable v := fun v hv => hs v (hp.mem_iff.mp hv)
  have := (hsorted.and hnd).imp_of_mem (S := Precedes) ?_
  · exact this
  · intro a b ha hb h
    rw [precedes_iff_rank (hmem a ha) (hmem b hb)]
    refine lt_of_le_of_ne h.1 fun h2 => h.2 (key_of_rank (hmem a ha) (hmem b hb) h2)

/-- The result of sorting does not depend on the order of the input. -/
theorem sortAnything_perm {l l' : List PyVal} (hs : ∀ v ∈ l, Sortable v) (hk : (l.map PyVal.key).Nodup)
    (hp : l'.Perm l) : sortAnything l' = sortAnything l := by
  obtain ⟨p1, s1⟩ := sortAnything_spec hs hk
  have hs' : ∀ v ∈ l', Sortable v := fun v hv => hs v (hp.mem_iff.mp hv)
  obtain ⟨p2, s2⟩ := sortAnything_spec hs' ((hp.map _).nodup_iff.mpr hk)
  refine List.Perm.eq_of_pairwise ?_ s2 s1 (p2.trans (hp.trans p1.symm))
  intro a b ha hb h1 h2
  have ha' := hs' a (p2.mem_iff.mp ha)
  have hb' := hs b (p1.mem_iff.mp hb)
  rw [precedes_iff_rank ha' hb'] at h1
  rw [precedes_iff_rank hb' ha'] at h2
  exact absurd h1 (not_lt.mpr h2.le)

end Patsy.Cat
