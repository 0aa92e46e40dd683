import Verif.Spec.Reorder
import Verif.Lemmas.RenameBuilders

/-!
# Rows in another order: levels, codes, designs
-/

set_option linter.unusedSectionVars false

namespace Patsy.Spec

open Patsy.Build Patsy.Desc Patsy.Cat

variable {F D K A B : Type} [DecidableEq F] {n : Nat} {σ : Nat → Nat}

/-! ### Lists -/

theorem rearranges_lt (hσ : Rearranges n σ) {q : Nat} (hq : q < n) : σ q < n := by
  have : σ q ∈ (List.range n).map σ := List.mem_map.mpr ⟨q, List.mem_range.mpr hq, rfl⟩
  exact List.mem_range.mp (hσ.mem_iff.mp this)

theorem rearranges_onto (hσ : Rearranges n σ) {r : Nat} (hr : r < n) : ∃ q, q < n ∧ σ q = r := by
  obtain ⟨q, hq, h⟩ := List.mem_map.mp (hσ.mem_iff.mpr (List.mem_range.mpr hr))
  exact ⟨q, List.mem_range.mp hq, h⟩

theorem map_range_get (l : List B) : (List.range l.length).map (fun q => l[q]?) = l.map some := by
  apply List.ext_getElem
  · simp
  · intro i h1 h2
    simp at h1
    simp [h1]

theorem moved_perm (hσ : Rearranges n σ) {l l' : List B} (h : Moved n σ l l') : l'.Perm l := by
  obtain ⟨h1, h2, h3⟩ := h
  have e1 : l'.map some = ((List.range n).map σ).map fun q => l[q]? := by
    rw [← map_range_get, h2, List.map_map]
    refine List.map_congr_left fun q hq => ?_
    exact h3 q (List.mem_range.mp hq)
  have e2 := hσ.map fun q => l[q]?
  rw [← e1, ← h1, map_range_get] at e2
  have := e2.filterMap id
  simpa [List.filterMap_map] using this

theorem moved_map (f : A → B) {l l' : List A} (h : Moved n σ l l') : Moved n σ (l.map f) (l'.map f) := by
  obtain ⟨h1, h2, h3⟩ := h
  refine ⟨by simpa using h1, by simpa using h2, fun q hq => ?_⟩
  rw [List.getElem?_map, List.getElem?_map, h3 q hq]

theorem moved_mapM (hσ : Rearranges n σ) {f : A → Except Err B} {l l' : List A} (h : Moved n σ l l') {m : List B}
    (hm : l.mapM f = .ok m) : ∃ m', l'.mapM f = .ok m' ∧ Moved n σ m m' := by
  have hall := mapM_ok.mp hm
  have hp := moved_perm hσ h
  have hone : ∀ a ∈ l', ∃ b, f a = .ok b := by
    intro a ha
    obtain ⟨b, _, hb⟩ := exists_mem_of_forall₂ hall (hp.mem_iff.mp ha)
    exact ⟨b, hb⟩
  have hex : ∃ m', List.Forall₂ (fun a b => f a = .ok b) l' m' := by
    clear hp h
    induction l' with
    | nil => exact ⟨[], .nil⟩
    | cons a l' ih =>
      obtain ⟨m', ih⟩ := ih fun a ha => hone a (by simp [ha])
      obtain ⟨b, hb⟩ := hone a (by simp)
      exact ⟨b :: m', .cons hb ih⟩
  obtain ⟨m', hm'⟩ := hex
  obtain ⟨h1, h2, h3⟩ := h
  refine ⟨m', mapM_ok.mpr hm', hall.length_eq ▸ h1, hm'.length_eq ▸ h2, fun q hq => ?_⟩
  have hs := rearranges_lt hσ hq
  have l1 : m.length = n := hall.length_eq ▸ h1
  have l2 : m'.length = n := hm'.length_eq ▸ h2
  have e1 := List.Forall₂.get hall (i := σ q) (by omega) (by omega)
  have e2 := List.Forall₂.get hm' (i := q) (by omega) (by omega)
  have e3 := h3 q hq
  rw [List.getElem?_eq_getElem (by omega), List.getElem?_eq_getElem (by omega)] at e3 ⊢
  simp only [Option.some.injEq] at e3 ⊢
  simp only [List.get_eq_getElem] at e1 e2
  rw [e3] at e2
  exact Except.ok.inj (e2.symm.trans e1)

/-! ### Levels -/

/-- What a value adds to the set of levels. -/
def adds (na : NAAction) (v : PyVal) : Option (List PyVal) :=
  match isCategoricalNA na v with
  | .error _ => none
  | .ok true => some []
  | .ok false => if (expand v).all fun w => w.key.isSome then some (expand v) else none

theorem sniffValue_adds (na : NAAction) (set s : List PyVal) (v : PyVal) :
    sniffValue na set v = .ok s ↔ ∃ l, adds na v = some l ∧ s = l.foldl addKey set := by
  have hb : (do
      let s ← addLevel set (.bool true)
      addLevel s (.bool false)) = .ok ([PyVal.bool true, .bool false].foldl addKey set) := by
    rw [addLevel_ok (v := .bool true) rfl]
    exact addLevel_ok (v := .bool false) rfl
  cases hna : isCategoricalNA na v with
  | error e => simp [sniffValue.eq_def, adds, hna, bind, Except.bind]
  | ok b =>
    cases b with
    | true => simp [sniffValue.eq_def, adds, hna, bind, Except.bind, eq_comm]
    | false =>
      cases v with
      | bool b =>
        simp only [sniffValue.eq_def, adds, hna, bind, Except.bind, Bool.false_eq_true, if_false, expand]
        simp only [bind, Except.bind] at hb
        rw [hb]
        simp [PyVal.key, eq_comm]
      | unhashable i => simp [sniffValue.eq_def, adds, hna, bind, Except.bind, expand, PyVal.key, addLevel]
      | none => 
        simp only [sniffValue.eq_def, adds, hna, bind, Except.bind, Bool.false_eq_true, if_false, expand]
        rw [addLevel_ok rfl]; simp [PyVal.key, eq_comm]
      | npBool b => 
        simp only [sniffValue.eq_def, adds, hna, bind, Except.bind, Bool.false_eq_true, if_false, expand]
        rw [addLevel_ok rfl]; simp [PyVal.key, eq_comm]
      | int i => 
        simp only [sniffValue.eq_def, adds, hna, bind, Except.bind, Bool.false_eq_true, if_false, expand]
        rw [addLevel_ok rfl]; simp [PyVal.key, eq_comm]
      | float q => 
        simp only [sniffValue.eq_def, adds, hna, bind, Except.bind, Bool.false_eq_true, if_false, expand]
        rw [addLevel_ok rfl]; simp [PyVal.key, eq_comm]
      | nan i => 
        simp only [sniffValue.eq_def, adds, hna, bind, Except.bind, Bool.false_eq_true, if_false, expand]
        rw [addLevel_ok rfl]; simp [PyVal.key, eq_comm]
      | str i => 
        simp only [sniffValue.eq_def, adds, hna, bind, Except.bind, Bool.false_eq_true, if_false, expand]
        rw [addLevel_ok rfl]; simp [PyVal.key, eq_comm]

theorem foldlM_adds {na : NAAction} : ∀ {vals set s : List PyVal}, vals.foldlM (sniffValue na) set = .ok s ↔
    (∀ v ∈ vals, (adds na v).isSome) ∧ s = (vals.flatMap fun v => (adds na v).getD []).foldl addKey set := by
  intro vals
  induction vals with
  | nil =>
    intro set s
    simp only [List.foldlM_nil, pure_ok, List.not_mem_nil, false_imp_iff, implies_true, List.flatMap_nil, List.foldl_nil,
      true_and]
    exact eq_comm
  | cons v vals ih =>
    intro set s
    simp only [List.foldlM_cons, bind_ok, sniffValue_adds, ih]
    constructor
    · rintro ⟨_, ⟨l, h1, rfl⟩, h2, rfl⟩
      simp only [List.mem_cons, forall_eq_or_imp, h1, Option.isSome_some, true_and, List.flatMap_cons, Option.getD_some,
        List.foldl_append, and_true]
      exact h2
    · rintro ⟨h1, rfl⟩
      obtain ⟨l, hl⟩ := Option.isSome_iff_exists.mp (h1 v (by simp))
      refine ⟨_, ⟨l, hl, rfl⟩, fun w hw => h1 w (by simp [hw]), ?_⟩
      simp [hl, List.flatMap_cons]

theorem adds_mem {na : NAAction} {v w : PyVal} {l : List PyVal} (h : adds na v = some l) (hw : w ∈ l) :
    w.key.isSome ∧ (w = v ∨ (∃ b, v = .bool b) ∧ ∃ b, w = .bool b) ∧ (na.nan = true → ∀ i, w ≠ .nan i) := by
  unfold adds at h
  split at h
  · cases h
  · cases h; cases hw
  · rename_i hna
    split at h
    · rename_i hk
      cases h
      refine ⟨List.all_eq_true.mp hk w hw, ?_, ?_⟩
      · cases v <;> simp only [expand, List.mem_cons, List.not_mem_nil, or_false] at hw
        case bool b => rcases hw with rfl | rfl <;> simp
        all_goals exact .inl hw
      · rintro hn i rfl
        cases v <;> simp [expand] at hw
        subst hw
        simp [isCategoricalNA, hn, scalarIsNan, bind, Except.bind] at hna
    · cases h

theorem mem_foldl_addKey {vs : List PyVal} (hinj : ∀ a ∈ vs, ∀ b ∈ vs, a.key = b.key → a = b) (w : PyVal) :
    w ∈ vs.foldl addKey [] ↔ w ∈ vs := by
  have hsub : ∀ {vs set : List PyVal} {w : PyVal}, w ∈ vs.foldl addKey set → w ∈ set ∨ w ∈ vs := by
    intro vs
    induction vs with
    | nil => intro set w h; exact .inl h
    | cons v vs ih =>
      intro set w h
      rcases ih h with h | h
      · rw [addKey] at h
        split at h
        · exact .inl h
        · rcases List.mem_append.mp h with h | h
          · exact .inl h
          · exact .inr (by rw [List.mem_singleton] at h; simp [h])
      · exact .inr (List.mem_cons_of_mem _ h)
  refine ⟨fun h => (hsub h).resolve_left (by simp), fun h => ?_⟩
  have := ((foldl_addKey (vs := vs) (set := []) (by simp)).2 w.key).mpr (.inr (List.mem_map.mpr ⟨w, h, rfl⟩))
  obtain ⟨u, hu, hk⟩ := List.mem_map.mp this
  rw [← hinj u ((hsub hu).resolve_left (by simp)) w h hk]
  exact hu

/-- The set of levels does not depend on the order of the values. -/
theorem levels_perm {na : NAAction} {vals vals' s : List PyVal} (hp : vals'.Perm vals)
    (hn : ∀ i, PyVal.nan i ∈ vals → na.nan = true)
    (hinj : ∀ a ∈ withBools vals, ∀ b ∈ withBools vals, a.key = b.key → a = b)
    (h : vals.foldlM (sniffValue na) [] = .ok s) :
    ∃ s', vals'.foldlM (sniffValue na) [] = .ok s' ∧ s'.Perm s ∧ Tidy s := by
  obtain ⟨h1, rfl⟩ := foldlM_adds.mp h
  refine ⟨_, foldlM_adds.mpr ⟨fun v hv => h1 v (hp.mem_iff.mp hv), rfl⟩, ?_, ?_⟩
  · have hmem : ∀ w, w ∈ vals.flatMap (fun v => (adds na v).getD []) → w ∈ withBools vals := by
      intro w hw
      obtain ⟨v, hv, hw⟩ := List.mem_flatMap.mp hw
      obtain ⟨l, hl⟩ := Option.isSome_iff_exists.mp (h1 v hv)
      rw [hl, Option.getD_some] at hw
      rcases (adds_mem hl hw).2.1 with rfl | ⟨⟨b, rfl⟩, ⟨c, rfl⟩⟩
      · unfold withBools; split <;> simp [hv]
      · have : PyVal.bool true ∈ vals ∨ PyVal.bool false ∈ vals := by cases b <;> simp [hv]
        rw [withBools, if_pos this]
        cases c <;> simp
    have hinj1 : ∀ a ∈ vals.flatMap (fun v => (adds na v).getD []), ∀ b ∈ vals.flatMap (fun v => (adds na v).getD []),
        a.key = b.key → a = b := fun a ha b hb => hinj a (hmem a ha) b (hmem b hb)
    have hp' : (vals'.flatMap fun v => (adds na v).getD []).Perm (vals.flatMap fun v => (adds na v).getD []) :=
      hp.flatMap_right _
    have hinj2 : ∀ a ∈ vals'.flatMap (fun v => (adds na v).getD []), ∀ b ∈ vals'.flatMap (fun v => (adds na v).getD []),
        a.key = b.key → a = b := fun a ha b hb => hinj1 a (hp'.mem_iff.mp ha) b (hp'.mem_iff.mp hb)
    have nd : ∀ vs : List PyVal, (vs.foldl addKey []).Nodup := fun vs =>
      ((foldl_addKey (vs := vs) (set := []) (by simp)).1).of_map
    rw [List.perm_ext_iff_of_nodup (nd _) (nd _)]
    intro w
    rw [mem_foldl_addKey hinj2, mem_foldl_addKey hinj1, hp'.mem_iff]
  · refine ⟨fun w hw => ?_, (foldl_addKey (by simp)).1⟩
    have hsub : ∀ {vs set : List PyVal} {w : PyVal}, w ∈ vs.foldl addKey set → w ∈ set ∨ w ∈ vs := by
      intro vs
      induction vs with
      | nil => intro set w h; exact .inl h
      | cons v vs ih =>
        intro set w h
        rcases ih h with h | h
        · rw [addKey] at h
          split at h
          · exact .inl h
          · rcases List.mem_append.mp h with h | h
            · exact .inl h
            · exact .inr (by rw [List.mem_singleton] at h; simp [h])
        · exact .inr (List.mem_cons_of_mem _ h)
    have hw := (hsub hw).resolve_left (by simp)
    obtain ⟨v, hv, hw⟩ := List.mem_flatMap.mp hw
    obtain ⟨l, hl⟩ := Option.isSome_iff_exists.mp (h1 v hv)
    rw [hl, Option.getD_some] at hw
    obtain ⟨g1, g2, g3⟩ := adds_mem hl hw
    have hnan : ∀ i, w ≠ .nan i := by
      rintro i rfl
      rcases g2 with rfl | ⟨_, b, hb⟩
      · exact g3 (hn i hv) i rfl
      · cases hb
    cases w <;> simp [PyVal.key, Sortable] at g1 hnan ⊢

theorem hasKey_perm {s s' : List PyVal} (h : s'.Perm s) (k : Key) : hasKey s' k = hasKey s k := by
  rw [Bool.eq_iff_iff, hasKey, hasKey, List.any_eq_true, List.any_eq_true]
  simp only [h.mem_iff]

theorem isBoolSet_perm {s s' : List PyVal} (h : s'.Perm s) : isBoolSet s' = isBoolSet s := by
  rw [isBoolSet, isBoolSet, h.length_eq, hasKey_perm h, hasKey_perm h]

theorem sniffRaw_moved {Cn : Type} (hσ : Rearranges n σ) {na : NAAction} {order : List PyVal → List PyVal}
    (ho : ∀ l, (order l).Perm l) {c : Option Cn} {r r' : Raw} (hr : MovedRaw n σ r r')
    (hp : ∀ kind ndim ncols vals, r = .array kind ndim ncols vals → (∀ i, PyVal.nan i ∈ vals → na.nan = true) ∧
      ∀ a ∈ withBools vals, ∀ b ∈ withBools vals, a.key = b.key → a = b) {out : Sniffer Cn × Bool}
    (h : Sniffer.sniffRaw na { contrast := c } r = .ok out) :
    ∃ s', Sniffer.sniffRaw na { contrast := c } r' = .ok (s', out.2) ∧
      s'.levelsContrast order = out.1.levelsContrast order := by
  match r, r', hr with
  | .pandas cats codes, .pandas cats' codes', hr =>
    obtain ⟨rfl, _⟩ := hr
    cases h
    exact ⟨_, rfl, rfl⟩
  | .array kind ndim ncols vals, .array kind' ndim' ncols' vals', hr =>
    obtain ⟨rfl, rfl, rfl, hv⟩ := hr
    obtain ⟨hn, hinj⟩ := hp _ _ _ _ rfl
    simp only [Sniffer.sniffRaw] at h ⊢
    split at h
    · rename_i hk
      cases h
      exact ⟨_, if_pos hk, rfl⟩
    · rename_i hk
      split at h
      · cases h
      · rename_i hnd
        simp only [bind_ok] at h
        obtain ⟨set, hset, h⟩ := h
        cases h
        obtain ⟨set', h1, h2, h3⟩ := levels_perm (moved_perm hσ (hv (by omega))) hn hinj hset
        refine ⟨{ contrast := c, levelSet := set' }, ?_, ?_⟩
        · rw [if_neg hk, if_neg hnd, h1]
          simp only [bind, Except.bind, isBoolSet_perm h2]
        · simp only [Sniffer.levelsContrast]
          rw [sortAnything_perm h3.1 h3.2 (ho _), sortAnything_perm h3.1 h3.2 ((ho _).trans h2)]

theorem sniff_moved {Cn : Type} (hσ : Rearranges n σ) {na : NAAction} {order : List PyVal → List PyVal}
    (ho : ∀ l, (order l).Perm l) {v v' : CatValue Cn} (hv : MovedValue n σ v v') (hp : Plain na v)
    (hg : guessCategorical v = true) {out : Sniffer Cn × Bool} (h : Sniffer.sniff na {} v = .ok out) :
    ∃ s', Sniffer.sniff na {} v' = .ok (s', out.2) ∧ s'.levelsContrast order = out.1.levelsContrast order := by
  match v, v', hv with
  | .raw r, .raw r', hr =>
    refine sniffRaw_moved hσ ho (c := none) hr ?_ h
    rintro kind ndim ncols vals rfl
    cases kind with
    | number => cases hg
    | boolDtype => exact hp
    | other => exact hp
  | .box r c (some l), .box r' c' l', hr =>
    obtain ⟨_, rfl, rfl⟩ := hr
    cases h
    exact ⟨_, rfl, rfl⟩
  | .box r c none, .box r' c' l', hr =>
    obtain ⟨hr, rfl, rfl⟩ := hr
    refine sniffRaw_moved hσ ho (c := c') hr ?_ h
    rintro kind ndim ncols vals rfl
    exact hp

theorem guess_moved {Cn : Type} {v v' : CatValue Cn} (hv : MovedValue n σ v v') : guessCategorical v' = guessCategorical v := by
  match v, v', hv with
  | .raw (.pandas _ _), .raw (.pandas _ _), _ => rfl
  | .raw (.array k _ _ _), .raw (.array k' _ _ _), hr =>
    obtain ⟨rfl, _⟩ := hr
    cases k' <;> rfl
  | .box r c l, .box r' c' l', hr => rfl

theorem count_moved {Cn : Type} {v v' : CatValue Cn} (hv : MovedValue n σ v v') : countColumns v' = countColumns v := by
  match v, v', hv with
  | .raw (.pandas _ _), .raw (.pandas _ _), _ => rfl
  | .raw (.array k _ _ _), .raw (.array k' _ _ _), hr =>
    obtain ⟨rfl, rfl, rfl, _⟩ := hr
    rfl
  | .box r c l, .box r' c' l', hr => rfl

/-! ### Types -/

/-- The same types have been found out. -/
structure SameExam {Cn : Type} (order : List PyVal → List PyVal) (s s' : Exam F Cn) : Prop where
  nums : s'.nums = s.nums
  needed : s'.needed = s.needed
  sniffers : s'.sniffers.map (fun p => (p.1, p.2.levelsContrast order)) = s.sniffers.map fun p => (p.1, p.2.levelsContrast order)

theorem examineOne_moved {Cn : Type} (hσ : Rearranges n σ) {na : NAAction} {order : List PyVal → List PyVal}
    (ho : ∀ l, (order l).Perm l) {eval : F → D → Except Err (CatValue Cn)} {eval' : F → D → Except Err (CatValue Cn)} {data data' : D} {f : F}
    (hev : ∀ v, eval f data = .ok v → ∃ v', eval' f data' = .ok v' ∧ MovedValue n σ v v' ∧ Plain na v)
    {s s' out : Exam F Cn} (hs : SameExam order s s') (hf : f ∉ s.sniffers.map Prod.fst)
    (h : examineOne na eval data s f = .ok out) :
    ∃ out', examineOne na eval' data' s' f = .ok out' ∧ SameExam order out out' ∧
      ∀ g, g ∈ out.sniffers.map Prod.fst → g = f ∨ g ∈ s.sniffers.map Prod.fst := by
  have hkeys : s'.sniffers.map Prod.fst = s.sniffers.map Prod.fst := by
    have := congrArg (List.map Prod.fst) hs.sniffers
    simpa [List.map_map, Function.comp_def] using this
  have hf' : f ∉ s'.sniffers.map Prod.fst := by rwa [hkeys]
  simp only [examineOne, bind_ok] at h
  obtain ⟨v, hv, h⟩ := h
  obtain ⟨v', hv', hmv, hpl⟩ := hev v hv
  simp only [examineOne, hv', ok_bind, dictGet_none hf', guess_moved hmv, Option.isSome_none, Bool.false_or, Option.getD_none]
  simp only [dictGet_none hf, Option.isSome_none, Bool.false_or, Option.getD_none] at h
  split at h
  · rename_i hg
    simp only [bind_ok, pure_ok] at h
    obtain ⟨r, hr, rfl⟩ := h
    obtain ⟨t', h1, h2⟩ := sniff_moved hσ ho hmv hpl hg hr
    rw [if_pos hg]
    refine ⟨⟨s'.nums, dictSet (fun a b => decide (a = b)) s'.sniffers f t', if r.2 then s'.needed.erase f else s'.needed⟩,
      by rw [h1]; rfl, ⟨hs.nums, by simp only [hs.needed], ?_⟩, ?_⟩
    · simp only [dictSet_new hf, dictSet_new hf', List.map_append, hs.sniffers, List.map_cons, List.map_nil, h2]
    · intro g hg
      simp only [dictSet_new hf, List.map_append, List.mem_append, List.map_cons, List.map_nil, List.mem_singleton] at hg
      exact hg.symm
  · rename_i hg
    simp only [bind_ok, pure_ok] at h
    obtain ⟨k, hk, rfl⟩ := h
    rw [if_neg hg]
    refine ⟨⟨dictSet (fun a b => decide (a = b)) s'.nums f k, s'.sniffers, s'.needed.erase f⟩,
      by rw [count_moved hmv, hk]; rfl, ⟨by simp only [hs.nums], by simp only [hs.needed], hs.sniffers⟩, fun g hg => .inr hg⟩

theorem examineFold_moved {Cn : Type} (hσ : Rearranges n σ) {na : NAAction} {order : List PyVal → List PyVal}
    (ho : ∀ l, (order l).Perm l) {eval : F → D → Except Err (CatValue Cn)} {eval' : F → D → Except Err (CatValue Cn)} {data data' : D} :
    ∀ {L : List F}, (∀ f ∈ L, ∀ v, eval f data = .ok v → ∃ v', eval' f data' = .ok v' ∧ MovedValue n σ v v' ∧ Plain na v) →
    L.Nodup → ∀ {s s' out : Exam F Cn}, SameExam order s s' → (∀ f ∈ L, f ∉ s.sniffers.map Prod.fst) →
    L.foldlM (examineOne na eval data) s = .ok out →
    ∃ out', L.foldlM (examineOne na eval' data') s' = .ok out' ∧ SameExam order out out' := by
  intro L
  induction L with
  | nil =>
    intro _ _ s s' out hs _ h
    cases h
    exact ⟨s', rfl, hs⟩
  | cons f L ih =>
    intro hev hnd s s' out hs hf h
    simp only [List.foldlM_cons, bind_ok] at h
    obtain ⟨s1, h1, h⟩ := h
    obtain ⟨s1', h2, h3, h4⟩ := examineOne_moved hσ ho (hev f (by simp)) hs (hf f (by simp)) h1
    rw [List.nodup_cons] at hnd
    obtain ⟨out', h5, h6⟩ := ih (fun g hg => hev g (by simp [hg])) hnd.2 h3 (by
      intro g hg hm
      rcases h4 g hm with rfl | hm
      · exact hnd.1 hg
      · exact hf g (by simp [hg]) hm) h
    exact ⟨out', by rw [List.foldlM_cons, h2]; exact h5, h6⟩

theorem examineTypes_moved {Cn : Type} (hσ : Rearranges n σ) {na : NAAction} {order : List PyVal → List PyVal}
    (ho : ∀ l, (order l).Perm l) {visit : List F → List F} (hvis : ∀ l, (visit l).Perm l)
    {eval : F → D → Except Err (CatValue Cn)} {eval' : F → D → Except Err (CatValue Cn)} {data data' : D} {fs : List F} (hnd : fs.Nodup)
    (hev : ∀ f ∈ fs, ∀ v, eval f data = .ok v → ∃ v', eval' f data' = .ok v' ∧ MovedValue n σ v v' ∧ Plain na v) {r}
    (h : examineTypes na order visit eval [data] fs = .ok r) : examineTypes na order visit eval' [data'] fs = .ok r := by
  simp only [examineTypes, bind_ok, pure_ok] at h ⊢
  obtain ⟨s, hs, rfl⟩ := h
  simp only [examineLoop, bind_ok] at hs
  obtain ⟨s1, h1, hs⟩ := hs
  have hs1 : s1 = s := by
    split at hs <;> cases hs <;> rfl
  subst hs1
  obtain ⟨s', h2, h3⟩ := examineFold_moved hσ ho (L := visit fs) (fun f hf => hev f ((hvis _).mem_iff.mp hf))
    ((hvis _).nodup_iff.mpr hnd) (s' := ⟨[], [], fs⟩) ⟨rfl, rfl, rfl⟩ (by simp) h1
  refine ⟨s', ?_, ?_⟩
  · simp only [examineLoop, bind_ok]
    refine ⟨s', h2, ?_⟩
    split <;> rfl
  · rw [h3.nums, h3.sniffers]

/-! ### Designs -/

theorem mapM_same {f g : A → Except Err B} {l : List A} (h : ∀ a ∈ l, f a = g a) : l.mapM f = l.mapM g := by
  induction l with
  | nil => rfl
  | cons a l ih => rw [List.mapM_cons, List.mapM_cons, h a (by simp), ih fun a ha => h a (by simp [ha])]

theorem builders_moved {H : Type} [DecidableEq H] (hσ : Rearranges n σ) {P P' : Setting F D K H}
    (hvis : ∀ l, (P.visit l).Perm l) (ho : ∀ l, (P.order l).Perm l) {data data' : D} {tls : List (List (Term F))}
    (hS : Shuffled n σ P P' data data' (P.visit (allFactors tls))) {dis : List (DesignInfo F D K)}
    (h : designMatrixBuilders P [data] tls = .ok dis) : designMatrixBuilders P' [data'] tls = .ok dis := by
  obtain ⟨e1, e2, e3, e4, e5, e6⟩ := hS.same
  simp only [designMatrixBuilders, bind_ok] at h ⊢
  obtain ⟨eval, he, types, ht, infos, hi, hd⟩ := h
  obtain ⟨eval', he', hee⟩ := hS.memorize eval he
  rw [e1, e2, e3, e4, e5, e6]
  refine ⟨eval', he', types, ?_, infos, ?_, hd⟩
  · refine examineTypes_moved hσ ho hvis ((hvis _).nodup_iff.mpr (allFactors_nodup _)) ?_ ht
    intro f hf v hv
    simp only [bind_ok, pure_ok] at hv
    obtain ⟨s, hs, rfl⟩ := hv
    obtain ⟨s', h1, h2, h3⟩ := hS.values eval he f hf s hs
    refine ⟨s'.value, ?_, h2.value, h3⟩
    rw [hee f hf, h1]
    rfl
  · rw [← hi]
    refine mapM_same fun p hp => ?_
    have hf : p.1 ∈ P.visit (allFactors tls) := by
      have : p.1 ∈ ((P.visit (allFactors tls)).zipIdx).map Prod.fst := List.mem_map_of_mem hp
      rwa [List.zipIdx_map_fst] at this
    simp only [factorInfo, hee p.1 hf]

/-! ### Values -/

/-- An evaluated factor on the old and on the new data. -/
def MovedVal (n : Nat) (σ : Nat → Nat) : Value K → Value K → Prop
  | .num m rows, .num m' rows' => m' = m ∧ Moved n σ rows rows'
  | .cat codes, .cat codes' => Moved n σ codes codes'
  | _, _ => False

theorem arrayToInt_moved (hσ : Rearranges n σ) {na : NAAction} {levels : List PyVal} {kind : Kind} {ndim : Nat}
    {vals vals' : List PyVal} (hv : ndim ≤ 1 → Moved n σ vals vals') {codes : List Int}
    (h : arrayToInt na levels kind ndim vals = .ok codes) :
    ∃ codes', arrayToInt na levels kind ndim vals' = .ok codes' ∧ Moved n σ codes codes' := by
  unfold arrayToInt at h ⊢
  split at h
  · cases h
  · rename_i hnd
    have hv := hv (by omega)
    rw [if_neg hnd]
    simp only [bind_ok] at h
    obtain ⟨d, hd, h⟩ := h
    simp only [hd, ok_bind]
    split at h
    · rename_i hk
      rw [if_pos hk]
      split at h
      · cases h
      · split at h
        · cases h
        · cases h
          exact ⟨_, rfl, moved_map _ hv⟩
        · exact moved_mapM hσ hv h
      · exact moved_mapM hσ hv h
    · rename_i hk
      rw [if_neg hk]
      exact moved_mapM hσ hv h

theorem categoricalToInt_moved {Cn : Type} (hσ : Rearranges n σ) {na : NAAction} {levels : List PyVal} {v v' : CatValue Cn}
    (hv : MovedValue n σ v v') {codes : List Int} (h : categoricalToInt na levels v = .ok codes) :
    ∃ codes', categoricalToInt na levels v' = .ok codes' ∧ Moved n σ codes codes' := by
  match v, v', hv with
  | .raw (.pandas cats cs), .raw (.pandas cats' cs'), hr =>
    obtain ⟨rfl, hc⟩ := hr
    simp only [categoricalToInt] at h ⊢
    split at h
    · rename_i hs
      cases h
      exact ⟨cs', if_pos hs, hc⟩
    · cases h
  | .raw (.array k _ _ _), .raw (.array k' _ _ _), hr =>
    obtain ⟨rfl, rfl, rfl, hv⟩ := hr
    exact arrayToInt_moved hσ hv h
  | .box r c l, .box r' c' l', hr =>
    obtain ⟨hr, rfl, rfl⟩ := hr
    simp only [categoricalToInt] at h ⊢
    have hif : ∀ (b : Bool) (x y : Except Err (List Int)), (if b then Except.error .patsyError else x) = .ok codes →
        x = .ok codes ∧ (if b then Except.error .patsyError else y) = y := by
      intro b x y hx
      cases b with
      | true => cases hx
      | false => exact ⟨hx, rfl⟩
    have h2 := fun y => (hif _ _ y h).2
    have h := (hif _ _ (.ok []) h).1
    rw [h2]
    match r, r', hr with
    | .pandas cats cs, .pandas cats' cs', hr =>
      obtain ⟨rfl, hc⟩ := hr
      exact arrayToInt_moved hσ (fun _ => moved_map _ hc) h
    | .array k _ _ _, .array k' _ _ _, hr =>
      obtain ⟨rfl, rfl, rfl, hv⟩ := hr
      exact arrayToInt_moved hσ hv h

theorem factorEval_moved (hσ : Rearranges n σ) {eval : F → D → Except Err (Seen K)} {types : Types F K} {uid : Nat} {f : F}
    {fi : FactorInfo F D K} (hfi : factorInfo eval types.1 types.2 uid f = .ok fi) {data data' : D}
    (hev : ∀ s, eval f data = .ok s → ∃ s', eval f data' = .ok s' ∧ MovedSeen n σ s s') {na : NAAction} {v : Value K}
    {i : Option (List Build.Label)} (h : fi.eval na.types data = .ok (v, i)) :
    ∃ v' i', fi.eval na.types data' = .ok (v', i') ∧ MovedVal n σ v v' ∧ MovedLabels n σ i i' := by
  rcases (Props.factorInfo_ok hfi).2.2.2 with ⟨k, _, _, h3⟩ | ⟨levels, c, _, _, h3⟩
  · rw [h3] at h ⊢
    simp only [bind_ok] at h ⊢
    obtain ⟨s, hs, h⟩ := h
    obtain ⟨s', hs', hm⟩ := hev s hs
    simp only [numericValue] at h
    split at h
    · rename_i ndim ncols vals hval
      split at h
      · cases h
      · rename_i hnd
        cases h
        have hval' : ∃ vals', s'.value = .raw (.array .number ndim ncols vals') := by
          have := hm.value
          rw [hval] at this
          match hv' : s'.value, this with
          | .raw (.array k' _ _ vals'), this =>
            obtain ⟨rfl, rfl, rfl, _⟩ := this
            exact ⟨vals', rfl⟩
        obtain ⟨vals', hval'⟩ := hval'
        refine ⟨.num (if ndim = 2 then ncols else 1) s'.rows, s'.index, ⟨s', hs', ?_⟩, ⟨rfl, hm.rows ⟨_, _, _, hval⟩⟩, hm.index⟩
        simp only [numericValue, hval', if_neg hnd]
    · cases h
  · rw [h3] at h ⊢
    simp only [bind_ok] at h ⊢
    obtain ⟨s, hs, h⟩ := h
    obtain ⟨s', hs', hm⟩ := hev s hs
    simp only [categoricalValue, bind_ok, pure_ok, Prod.mk.injEq] at h
    obtain ⟨codes, hc, rfl, rfl⟩ := h
    obtain ⟨codes', h1, h2⟩ := categoricalToInt_moved hσ hm.value hc
    exact ⟨.cat codes', s'.index, ⟨s', hs', by simp only [categoricalValue, h1]; rfl⟩, h2, hm.index⟩

end Patsy.Spec
