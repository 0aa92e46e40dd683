import Verif.Spec.CompleteCases
import Verif.Lemmas.ReorderBuild

/-!
# Data from which rows have been removed: levels, codes, designs, matrices
-/

set_option linter.unusedSectionVars false

namespace Patsy.Spec

open Patsy.Build Patsy.Desc Patsy.Cat

variable {F D K A B : Type} [DecidableEq F] {n : Nat} {ks : List Nat}

/-! ### Lists -/

theorem picked_length {l l' : List B} (h : Picked n ks l l') : l'.length = ks.length := by
  have := congrArg List.length h.2
  simpa using this

theorem picked_get {l l' : List B} (h : Picked n ks l l') {q r : Nat} (hq : ks[q]? = some r) : l'[q]? = l[r]? := by
  have := congrArg (fun m => m[q]?) h.2
  simp only [List.getElem?_map, hq, Option.map_some] at this
  cases h1 : l'[q]? with
  | none => rw [h1] at this; cases this
  | some b => rw [h1] at this; simpa using this

theorem picked_mem {l l' : List B} (h : Picked n ks l l') {b : B} (hb : b ∈ l') : b ∈ l := by
  have : some b ∈ ks.map fun r => l[r]? := by rw [← h.2]; exact List.mem_map_of_mem hb
  obtain ⟨r, _, hr⟩ := List.mem_map.mp this
  exact List.mem_of_getElem? hr

theorem picked_lt {l l' : List B} (h : Picked n ks l l') {r : Nat} (hr : r ∈ ks) : r < n := by
  have : l[r]? ∈ l'.map some := by rw [h.2]; exact List.mem_map.mpr ⟨r, hr, rfl⟩
  obtain ⟨b, _, hb⟩ := List.mem_map.mp this
  have := (List.getElem?_eq_some_iff.mp hb.symm).1
  rw [← h.1]
  exact this

theorem picked_unique {l a b : List B} (ha : Picked n ks l a) (hb : Picked n ks l b) : a = b :=
  List.map_injective_iff.mpr (Option.some_injective _) (ha.2.trans hb.2.symm)

theorem picked_exists {l : List B} (hl : l.length = n) (hk : ∀ r ∈ ks, r < n) : ∃ l', Picked n ks l l' := by
  induction ks with
  | nil => exact ⟨[], hl, rfl⟩
  | cons r ks ih =>
    obtain ⟨l', _, h⟩ := ih fun r hr => hk r (by simp [hr])
    have hr : r < l.length := hl ▸ hk r (by simp)
    exact ⟨l[r] :: l', hl, by simp [h, hr]⟩

theorem picked_map (f : A → B) {l l' : List A} (h : Picked n ks l l') : Picked n ks (l.map f) (l'.map f) := by
  refine ⟨by simpa using h.1, ?_⟩
  have := congrArg (List.map (Option.map f)) h.2
  simpa [List.map_map, Function.comp_def] using this

theorem picked_mapM {f : A → Except Err B} {l l' : List A} (h : Picked n ks l l') {m : List B}
    (hm : l.mapM f = .ok m) : ∃ m', l'.mapM f = .ok m' ∧ Picked n ks m m' := by
  have hall := mapM_ok.mp hm
  obtain ⟨h1, h2⟩ := h
  have hl : m.length = n := by rw [← hall.length_eq]; exact h1
  suffices H : ∃ m', List.Forall₂ (fun a b => f a = .ok b) l' m' ∧ m'.map some = ks.map fun r => m[r]? by
    obtain ⟨m', h3, h4⟩ := H
    exact ⟨m', mapM_ok.mpr h3, hl, h4⟩
  clear hm h1 hl
  induction ks generalizing l' with
  | nil =>
    cases l' with
    | nil => exact ⟨[], .nil, rfl⟩
    | cons a l' => simp at h2
  | cons r ks ih =>
    cases l' with
    | nil => simp at h2
    | cons a l' =>
      simp only [List.map_cons, List.cons.injEq] at h2
      obtain ⟨m', h3, h4⟩ := ih h2.2
      obtain ⟨hr, ha⟩ := List.getElem?_eq_some_iff.mp h2.1.symm
      have hr' : r < m.length := by rw [← hall.length_eq]; exact hr
      have e := List.Forall₂.get hall (i := r) hr hr'
      simp only [List.get_eq_getElem, ha] at e
      exact ⟨m[r] :: m', .cons e h3, by simp [h4, hr']⟩

/-! ### Levels -/

theorem adds_of_bool (na : NAAction) (b : Bool) : adds na (.bool b) = some [.bool true, .bool false] := by
  have : isCategoricalNA na (.bool b) = .ok false := by
    unfold isCategoricalNA
    cases na.nan <;> simp [scalarIsNan, bind, Except.bind]
  simp [adds, this, expand, PyVal.key]

/-- The set of levels does not change if every level still occurs. -/
theorem levels_picked {na : NAAction} {vals vals' s : List PyVal} (hsub : ∀ v ∈ vals', v ∈ vals)
    (hleft : ∀ w ∈ vals, isCategoricalNA na w = .ok false → w ∈ withBools vals')
    (hn : ∀ i, PyVal.nan i ∈ vals → na.nan = true)
    (hinj : ∀ a ∈ withBools vals, ∀ b ∈ withBools vals, a.key = b.key → a = b)
    (h : vals.foldlM (sniffValue na) [] = .ok s) :
    ∃ s', vals'.foldlM (sniffValue na) [] = .ok s' ∧ s'.Perm s ∧ Tidy s := by
  obtain ⟨_, _, _, htidy⟩ := levels_perm (.refl vals) hn hinj h
  obtain ⟨h1, rfl⟩ := foldlM_adds.mp h
  refine ⟨_, foldlM_adds.mpr ⟨fun v hv => h1 v (hsub v hv), rfl⟩, ?_, htidy⟩
  have hmem : ∀ w, w ∈ vals.flatMap (fun v => (adds na v).getD []) → w ∈ withBools vals := by
    intro w hw
    obtain ⟨v, hv, hw⟩ := List.mem_flatMap.mp hw
    obtain ⟨l, hl⟩ := Option.isSome_iff_exists.mp (h1 v hv)
    rw [hl, Option.getD_some] at hw
    rcases (adds_mem hl hw).2.1 with rfl | ⟨⟨b, rfl⟩, ⟨c, rfl⟩⟩
    · unfold withBools; split <;> simp [hv]
    · have : PyVal.bool true ∈ vals ∨ PyVal.bool false ∈ vals := by cases b <;> simp [hv]
      rw [withBools, if_pos this]
      cases c <;> simp
  have hinj1 : ∀ a ∈ vals.flatMap (fun v => (adds na v).getD []), ∀ b ∈ vals.flatMap (fun v => (adds na v).getD []),
      a.key = b.key → a = b := fun a ha b hb => hinj a (hmem a ha) b (hmem b hb)
  have hiff : ∀ w, w ∈ vals'.flatMap (fun v => (adds na v).getD []) ↔ w ∈ vals.flatMap (fun v => (adds na v).getD []) := by
    intro w
    simp only [List.mem_flatMap]
    constructor
    · rintro ⟨v, hv, hw⟩
      exact ⟨v, hsub v hv, hw⟩
    · rintro ⟨v, hv, hw⟩
      have hna : isCategoricalNA na v = .ok false := by
        cases hna : isCategoricalNA na v with
        | error e => simp [adds, hna] at hw
        | ok b =>
          cases b with
          | true => simp [adds, hna] at hw
          | false => rfl
      have := hleft v hv hna
      unfold withBools at this
      split at this
      · rename_i hb
        simp only [List.mem_cons] at this
        have hbool : ∀ c, v = .bool c → ∃ v ∈ vals', w ∈ (adds na v).getD [] := by
          rintro c rfl
          rw [adds_of_bool] at hw
          rcases hb with hb | hb
          · exact ⟨_, hb, by rw [adds_of_bool]; exact hw⟩
          · exact ⟨_, hb, by rw [adds_of_bool]; exact hw⟩
        rcases this with h | h | h
        · exact hbool _ h
        · exact hbool _ h
        · exact ⟨v, h, hw⟩
      · exact ⟨v, this, hw⟩
  have hinj2 : ∀ a ∈ vals'.flatMap (fun v => (adds na v).getD []), ∀ b ∈ vals'.flatMap (fun v => (adds na v).getD []),
      a.key = b.key → a = b := fun a ha b hb => hinj1 a ((hiff a).mp ha) b ((hiff b).mp hb)
  have nd : ∀ vs : List PyVal, (vs.foldl addKey []).Nodup := fun vs =>
    ((foldl_addKey (vs := vs) (set := []) (by simp)).1).of_map
  rw [List.perm_ext_iff_of_nodup (nd _) (nd _)]
  intro w
  rw [mem_foldl_addKey hinj2, mem_foldl_addKey hinj1, hiff]

theorem sniffRaw_picked {Cn : Type} {na : NAAction} {order : List PyVal → List PyVal}
    (ho : ∀ l, (order l).Perm l) {c : Option Cn} {r r' : Raw} (hr : PickedRaw n ks r r')
    (hp : ∀ kind ndim ncols vals, r = .array kind ndim ncols vals → (∀ i, PyVal.nan i ∈ vals → na.nan = true) ∧
      ∀ a ∈ withBools vals, ∀ b ∈ withBools vals, a.key = b.key → a = b)
    (hleft : ∀ kind ndim ncols vals vals', r = .array kind ndim ncols vals → r' = .array kind ndim ncols vals' →
      ∀ w ∈ vals, isCategoricalNA na w = .ok false → w ∈ withBools vals') {out : Sniffer Cn × Bool}
    (h : Sniffer.sniffRaw na { contrast := c } r = .ok out) :
    ∃ s', Sniffer.sniffRaw na { contrast := c } r' = .ok (s', out.2) ∧
      s'.levelsContrast order = out.1.levelsContrast order := by
  match r, r', hr with
  | .pandas cats codes, .pandas cats' codes', hr =>
    obtain ⟨rfl, _⟩ := hr
    cases h
    exact ⟨_, rfl, rfl⟩
  | .array kind ndim ncols vals, .array kind' ndim' ncols' vals', hr =>
    obtain ⟨rfl, rfl, rfl, hv⟩ := hr
    obtain ⟨hn, hinj⟩ := hp _ _ _ _ rfl
    simp only [Sniffer.sniffRaw] at h ⊢
    split at h
    · rename_i hk
      cases h
      exact ⟨_, if_pos hk, rfl⟩
    · rename_i hk
      split at h
      · cases h
      · rename_i hnd
        simp only [bind_ok] at h
        obtain ⟨set, hset, h⟩ := h
        cases h
        obtain ⟨set', h1, h2, h3⟩ := levels_picked (fun v h => picked_mem (hv (by omega)) h) (hleft _ _ _ _ _ rfl rfl) hn hinj hset
        refine ⟨{ contrast := c, levelSet := set' }, ?_, ?_⟩
        · rw [if_neg hk, if_neg hnd, h1]
          simp only [bind, Except.bind, isBoolSet_perm h2]
        · simp only [Sniffer.levelsContrast]
          rw [sortAnything_perm h3.1 h3.2 (ho _), sortAnything_perm h3.1 h3.2 ((ho _).trans h2)]

theorem sniff_picked {Cn : Type} {na : NAAction} {order : List PyVal → List PyVal}
    (ho : ∀ l, (order l).Perm l) {v v' : CatValue Cn} (hv : PickedValue n ks v v') (hp : Plain na v) (hl : LevelsLeft na v v')
    (hg : guessCategorical v = true) {out : Sniffer Cn × Bool} (h : Sniffer.sniff na {} v = .ok out) :
    ∃ s', Sniffer.sniff na {} v' = .ok (s', out.2) ∧ s'.levelsContrast order = out.1.levelsContrast order := by
  match v, v', hv with
  | .raw r, .raw r', hr =>
    refine sniffRaw_picked ho (c := none) hr ?_ ?_ h
    · rintro kind ndim ncols vals rfl
      cases kind with
      | number => cases hg
      | boolDtype => exact hp
      | other => exact hp
    · rintro kind ndim ncols vals vals' rfl rfl
      cases kind with
      | number => cases hg
      | boolDtype => exact hl
      | other => exact hl
  | .box r c (some l), .box r' c' l', hr =>
    obtain ⟨_, rfl, rfl⟩ := hr
    cases h
    exact ⟨_, rfl, rfl⟩
  | .box r c none, .box r' c' l', hr =>
    obtain ⟨hr, rfl, rfl⟩ := hr
    refine sniffRaw_picked ho (c := c') hr ?_ ?_ h
    · rintro kind ndim ncols vals rfl
      exact hp
    · rintro kind ndim ncols vals vals' rfl rfl
      exact hl

theorem guess_picked {Cn : Type} {v v' : CatValue Cn} (hv : PickedValue n ks v v') : guessCategorical v' = guessCategorical v := by
  match v, v', hv with
  | .raw (.pandas _ _), .raw (.pandas _ _), _ => rfl
  | .raw (.array k _ _ _), .raw (.array k' _ _ _), hr =>
    obtain ⟨rfl, _⟩ := hr
    cases k' <;> rfl
  | .box r c l, .box r' c' l', hr => rfl

theorem count_picked {Cn : Type} {v v' : CatValue Cn} (hv : PickedValue n ks v v') : countColumns v' = countColumns v := by
  match v, v', hv with
  | .raw (.pandas _ _), .raw (.pandas _ _), _ => rfl
  | .raw (.array k _ _ _), .raw (.array k' _ _ _), hr =>
    obtain ⟨rfl, rfl, rfl, _⟩ := hr
    rfl
  | .box r c l, .box r' c' l', hr => rfl

/-! ### Types -/

theorem examineOne_picked {Cn : Type} {na : NAAction} {order : List PyVal → List PyVal}
    (ho : ∀ l, (order l).Perm l) {eval : F → D → Except Err (CatValue Cn)} {eval' : F → D → Except Err (CatValue Cn)} {data data' : D} {f : F}
    (hev : ∀ v, eval f data = .ok v → ∃ v', eval' f data' = .ok v' ∧ PickedValue n ks v v' ∧ LevelsLeft na v v' ∧ Plain na v)
    {s s' out : Exam F Cn} (hs : SameExam order s s') (hf : f ∉ s.sniffers.map Prod.fst)
    (h : examineOne na eval data s f = .ok out) :
    ∃ out', examineOne na eval' data' s' f = .ok out' ∧ SameExam order out out' ∧
      ∀ g, g ∈ out.sniffers.map Prod.fst → g = f ∨ g ∈ s.sniffers.map Prod.fst := by
  have hkeys : s'.sniffers.map Prod.fst = s.sniffers.map Prod.fst := by
    have := congrArg (List.map Prod.fst) hs.sniffers
    simpa [List.map_map, Function.comp_def] using this
  have hf' : f ∉ s'.sniffers.map Prod.fst := by rwa [hkeys]
  simp only [examineOne, bind_ok] at h
  obtain ⟨v, hv, h⟩ := h
  obtain ⟨v', hv', hmv, hpl⟩ := hev v hv
  simp only [examineOne, hv', ok_bind, dictGet_none hf', guess_picked hmv, Option.isSome_none, Bool.false_or, Option.getD_none]
  simp only [dictGet_none hf, Option.isSome_none, Bool.false_or, Option.getD_none] at h
  split at h
  · rename_i hg
    simp only [bind_ok, pure_ok] at h
    obtain ⟨r, hr, rfl⟩ := h
    obtain ⟨t', h1, h2⟩ := sniff_picked ho hmv hpl.2 hpl.1 hg hr
    rw [if_pos hg]
    refine ⟨⟨s'.nums, dictSet (fun a b => decide (a = b)) s'.sniffers f t', if r.2 then s'.needed.erase f else s'.needed⟩,
      by rw [h1]; rfl, ⟨hs.nums, by simp only [hs.needed], ?_⟩, ?_⟩
    · simp only [dictSet_new hf, dictSet_new hf', List.map_append, hs.sniffers, List.map_cons, List.map_nil, h2]
    · intro g hg
      simp only [dictSet_new hf, List.map_append, List.mem_append, List.map_cons, List.map_nil, List.mem_singleton] at hg
      exact hg.symm
  · rename_i hg
    simp only [bind_ok, pure_ok] at h
    obtain ⟨k, hk, rfl⟩ := h
    rw [if_neg hg]
    refine ⟨⟨dictSet (fun a b => decide (a = b)) s'.nums f k, s'.sniffers, s'.needed.erase f⟩,
      by rw [count_picked hmv, hk]; rfl, ⟨by simp only [hs.nums], by simp only [hs.needed], hs.sniffers⟩, fun g hg => .inr hg⟩

theorem examineFold_picked {Cn : Type} {na : NAAction} {order : List PyVal → List PyVal}
    (ho : ∀ l, (order l).Perm l) {eval : F → D → Except Err (CatValue Cn)} {eval' : F → D → Except Err (CatValue Cn)} {data data' : D} :
    ∀ {L : List F}, (∀ f ∈ L, ∀ v, eval f data = .ok v → ∃ v', eval' f data' = .ok v' ∧ PickedValue n ks v v' ∧ LevelsLeft na v v' ∧ Plain na v) →
    L.Nodup → ∀ {s s' out : Exam F Cn}, SameExam order s s' → (∀ f ∈ L, f ∉ s.sniffers.map Prod.fst) →
    L.foldlM (examineOne na eval data) s = .ok out →
    ∃ out', L.foldlM (examineOne na eval' data') s' = .ok out' ∧ SameExam order out out' := by
  intro L
  induction L with
  | nil =>
    intro _ _ s s' out hs _ h
    cases h
    exact ⟨s', rfl, hs⟩
  | cons f L ih =>
    intro hev hnd s s' out hs hf h
    simp only [List.foldlM_cons, bind_ok] at h
    obtain ⟨s1, h1, h⟩ := h
    obtain ⟨s1', h2, h3, h4⟩ := examineOne_picked ho (hev f (by simp)) hs (hf f (by simp)) h1
    rw [List.nodup_cons] at hnd
    obtain ⟨out', h5, h6⟩ := ih (fun g hg => hev g (by simp [hg])) hnd.2 h3 (by
      intro g hg hm
      rcases h4 g hm with rfl | hm
      · exact hnd.1 hg
      · exact hf g (by simp [hg]) hm) h
    exact ⟨out', by rw [List.foldlM_cons, h2]; exact h5, h6⟩

theorem examineTypes_picked {Cn : Type} {na : NAAction} {order : List PyVal → List PyVal}
    (ho : ∀ l, (order l).Perm l) {visit : List F → List F} (hvis : ∀ l, (visit l).Perm l)
    {eval : F → D → Except Err (CatValue Cn)} {eval' : F → D → Except Err (CatValue Cn)} {data data' : D} {fs : List F} (hnd : fs.Nodup)
    (hev : ∀ f ∈ fs, ∀ v, eval f data = .ok v → ∃ v', eval' f data' = .ok v' ∧ PickedValue n ks v v' ∧ LevelsLeft na v v' ∧ Plain na v) {r}
    (h : examineTypes na order visit eval [data] fs = .ok r) : examineTypes na order visit eval' [data'] fs = .ok r := by
  simp only [examineTypes, bind_ok, pure_ok] at h ⊢
  obtain ⟨s, hs, rfl⟩ := h
  simp only [examineLoop, bind_ok] at hs
  obtain ⟨s1, h1, hs⟩ := hs
  have hs1 : s1 = s := by
    split at hs <;> cases hs <;> rfl
  subst hs1
  obtain ⟨s', h2, h3⟩ := examineFold_picked ho (L := visit fs) (fun f hf => hev f ((hvis _).mem_iff.mp hf))
    ((hvis _).nodup_iff.mpr hnd) (s' := ⟨[], [], fs⟩) ⟨rfl, rfl, rfl⟩ (by simp) h1
  refine ⟨s', ?_, ?_⟩
  · simp only [examineLoop, bind_ok]
    refine ⟨s', h2, ?_⟩
    split <;> rfl
  · rw [h3.nums, h3.sniffers]

/-- Finding out the types does not depend on what is to be done about missing values. -/
theorem examineTypes_types {Cn : Type} {na na' : NAAction} (h : na'.types = na.types) :
    examineTypes (F := F) (D := D) (Cn := Cn) na' = examineTypes na := by
  have h1 : na'.nan = na.nan := congrArg NATypes.nan h
  have h2 : na'.none = na.none := congrArg NATypes.none h
  have e1 : isCategoricalNA na' = isCategoricalNA na := by
    funext v; simp only [isCategoricalNA, h1, h2]
  have e2 : sniffValue na' = sniffValue na := by
    funext s v; simp only [sniffValue.eq_def, e1]
  have e3 : @Sniffer.sniffRaw Cn na' = Sniffer.sniffRaw na := by
    funext s v; simp only [Sniffer.sniffRaw.eq_def, e2]
  have e4 : @Sniffer.sniff Cn na' = Sniffer.sniff na := by
    funext s v; simp only [Sniffer.sniff.eq_def, e3]
  have e5 : @examineOne F D Cn _ na' = examineOne na := by
    funext ev d s f; simp only [examineOne, e4]
  have e6 : ∀ visit ev (chunks : List D) s, @examineLoop F D Cn _ na' visit ev chunks s = examineLoop na visit ev chunks s := by
    intro visit ev chunks
    induction chunks with
    | nil => intro s; simp only [examineLoop]
    | cons d chunks ih => intro s; simp only [examineLoop, e5, ih]
  funext order visit ev chunks fs
  simp only [examineTypes, e6]

/-! ### Designs -/

theorem builders_picked {H : Type} [DecidableEq H] {P P' : Setting F D K H}
    (hvis : ∀ l, (P.visit l).Perm l) (ho : ∀ l, (P.order l).Perm l) {data data' : D} {tls : List (List (Term F))}
    (hS : Thinned n ks P P' data data' (P.visit (allFactors tls))) {dis : List (DesignInfo F D K)}
    (h : designMatrixBuilders P [data] tls = .ok dis) : designMatrixBuilders P' [data'] tls = .ok dis := by
  obtain ⟨e1, e2, e3, e4, e5⟩ := hS.same
  have e6 := examineTypes_types hS.missing (F := F) (D := D) (Cn := Contrast.Spec K)
  simp only [designMatrixBuilders, bind_ok] at h ⊢
  obtain ⟨eval, he, types, ht, infos, hi, hd⟩ := h
  obtain ⟨eval', he', hee⟩ := hS.memorize eval he
  rw [e1, e2, e3, e4, e5, e6]
  refine ⟨eval', he', types, ?_, infos, ?_, hd⟩
  · refine examineTypes_picked (n := n) (ks := ks) ho hvis ((hvis _).nodup_iff.mpr (allFactors_nodup _)) ?_ ht
    intro f hf v hv
    simp only [bind_ok, pure_ok] at hv
    obtain ⟨s, hs, rfl⟩ := hv
    obtain ⟨s', h1, h2, h3⟩ := hS.values eval he f hf s hs
    refine ⟨s'.value, ?_, h2.value, h3⟩
    rw [hee f hf, h1]
    rfl
  · rw [← hi]
    refine mapM_same fun p hp => ?_
    have hf : p.1 ∈ P.visit (allFactors tls) := by
      have : p.1 ∈ ((P.visit (allFactors tls)).zipIdx).map Prod.fst := List.mem_map_of_mem hp
      rwa [List.zipIdx_map_fst] at this
    simp only [factorInfo, hee p.1 hf]

/-! ### Values -/

/-- An evaluated factor on the old and on the new data. -/
def PickedVal (n : Nat) (ks : List Nat) : Value K → Value K → Prop
  | .num m rows, .num m' rows' => m' = m ∧ Picked n ks rows rows'
  | .cat codes, .cat codes' => Picked n ks codes codes'
  | _, _ => False

theorem arrayToInt_picked {na : NAAction} {levels : List PyVal} {kind : Kind} {ndim : Nat}
    {vals vals' : List PyVal} (hv : ndim ≤ 1 → Picked n ks vals vals') {codes : List Int}
    (h : arrayToInt na levels kind ndim vals = .ok codes) :
    ∃ codes', arrayToInt na levels kind ndim vals' = .ok codes' ∧ Picked n ks codes codes' := by
  unfold arrayToInt at h ⊢
  split at h
  · cases h
  · rename_i hnd
    have hv := hv (by omega)
    rw [if_neg hnd]
    simp only [bind_ok] at h
    obtain ⟨d, hd, h⟩ := h
    simp only [hd, ok_bind]
    split at h
    · rename_i hk
      rw [if_pos hk]
      split at h
      · cases h
      · split at h
        · cases h
        · cases h
          exact ⟨_, rfl, picked_map _ hv⟩
        · exact picked_mapM hv h
      · exact picked_mapM hv h
    · rename_i hk
      rw [if_neg hk]
      exact picked_mapM hv h

theorem categoricalToInt_picked {Cn : Type} {na : NAAction} {levels : List PyVal} {v v' : CatValue Cn}
    (hv : PickedValue n ks v v') {codes : List Int} (h : categoricalToInt na levels v = .ok codes) :
    ∃ codes', categoricalToInt na levels v' = .ok codes' ∧ Picked n ks codes codes' := by
  match v, v', hv with
  | .raw (.pandas cats cs), .raw (.pandas cats' cs'), hr =>
    obtain ⟨rfl, hc⟩ := hr
    simp only [categoricalToInt] at h ⊢
    split at h
    · rename_i hs
      cases h
      exact ⟨cs', if_pos hs, hc⟩
    · cases h
  | .raw (.array k _ _ _), .raw (.array k' _ _ _), hr =>
    obtain ⟨rfl, rfl, rfl, hv⟩ := hr
    exact arrayToInt_picked hv h
  | .box r c l, .box r' c' l', hr =>
    obtain ⟨hr, rfl, rfl⟩ := hr
    simp only [categoricalToInt] at h ⊢
    have hif : ∀ (b : Bool) (x y : Except Err (List Int)), (if b then Except.error .patsyError else x) = .ok codes →
        x = .ok codes ∧ (if b then Except.error .patsyError else y) = y := by
      intro b x y hx
      cases b with
      | true => cases hx
      | false => exact ⟨hx, rfl⟩
    have h2 := fun y => (hif _ _ y h).2
    have h := (hif _ _ (.ok []) h).1
    rw [h2]
    match r, r', hr with
    | .pandas cats cs, .pandas cats' cs', hr =>
      obtain ⟨rfl, hc⟩ := hr
      exact arrayToInt_picked (fun _ => picked_map _ hc) h
    | .array k _ _ _, .array k' _ _ _, hr =>
      obtain ⟨rfl, rfl, rfl, hv⟩ := hr
      exact arrayToInt_picked hv h

theorem factorEval_picked {eval : F → D → Except Err (Seen K)} {types : Types F K} {uid : Nat} {f : F}
    {fi : FactorInfo F D K} (hfi : factorInfo eval types.1 types.2 uid f = .ok fi) {data data' : D}
    (hev : ∀ s, eval f data = .ok s → ∃ s', eval f data' = .ok s' ∧ PickedSeen n ks s s') {na : NAAction} {v : Value K}
    {i : Option (List Build.Label)} (h : fi.eval na.types data = .ok (v, i)) :
    ∃ v' i', fi.eval na.types data' = .ok (v', i') ∧ PickedVal n ks v v' ∧ PickedLabels n ks i i' := by
  rcases (Props.factorInfo_ok hfi).2.2.2 with ⟨k, _, _, h3⟩ | ⟨levels, c, _, _, h3⟩
  · rw [h3] at h ⊢
    simp only [bind_ok] at h ⊢
    obtain ⟨s, hs, h⟩ := h
    obtain ⟨s', hs', hm⟩ := hev s hs
    simp only [numericValue] at h
    split at h
    · rename_i ndim ncols vals hval
      split at h
      · cases h
      · rename_i hnd
        cases h
        have hval' : ∃ vals', s'.value = .raw (.array .number ndim ncols vals') := by
          have := hm.value
          rw [hval] at this
          match hv' : s'.value, this with
          | .raw (.array k' _ _ vals'), this =>
            obtain ⟨rfl, rfl, rfl, _⟩ := this
            exact ⟨vals', rfl⟩
        obtain ⟨vals', hval'⟩ := hval'
        refine ⟨.num (if ndim = 2 then ncols else 1) s'.rows, s'.index, ⟨s', hs', ?_⟩, ⟨rfl, hm.rows ⟨_, _, _, hval⟩⟩, hm.index⟩
        simp only [numericValue, hval', if_neg hnd]
    · cases h
  · rw [h3] at h ⊢
    simp only [bind_ok] at h ⊢
    obtain ⟨s, hs, h⟩ := h
    obtain ⟨s', hs', hm⟩ := hev s hs
    simp only [categoricalValue, bind_ok, pure_ok, Prod.mk.injEq] at h
    obtain ⟨codes, hc, rfl, rfl⟩ := h
    obtain ⟨codes', h1, h2⟩ := categoricalToInt_picked hm.value hc
    exact ⟨.cat codes', s'.index, ⟨s', hs', by simp only [categoricalValue, h1]; rfl⟩, h2, hm.index⟩


/-! ### Matrices -/

theorem pickedVal_nrows {v v' : Value K} (h : PickedVal n ks v v') : v.nrows = n ∧ v'.nrows = ks.length := by
  match v, v', h with
  | .num _ _, .num _ _, h => exact ⟨h.2.1, picked_length h.2⟩
  | .cat _, .cat _, h => exact ⟨h.1, picked_length h⟩

theorem pickedVal_kind {T : FType} {v v' : Value K} (h : PickedVal n ks v v') (hk : kindOK T v) : kindOK T v' := by
  match T, v, v', h with
  | .numerical _, .num _ _, .num _ _, h => exact h.1.trans hk
  | .categorical _, .cat _, .cat _, h => trivial

theorem pickedVal_cell {v v' : Value K} (h : PickedVal n ks v v') {q r : Nat} (hq : ks[q]? = some r) :
    cellOf v' q = cellOf v r := by
  match v, v', h with
  | .num _ _, .num _ _, h => simp only [cellOf, picked_get h.2 hq]
  | .cat _, .cat _, h => simp only [cellOf, picked_get h hq]

theorem pickedVal_lt {v v' : Value K} (h : PickedVal n ks v v') {r : Nat} (hr : r ∈ ks) : r < n := by
  match v, v', h with
  | .num _ _, .num _ _, h => exact picked_lt h.2 hr
  | .cat _, .cat _, h => exact picked_lt h hr

/-- The rows that are kept are the same. -/
theorem filter_picked (hks : ks.Pairwise (· < ·)) (hlt : ∀ r ∈ ks, r < n) {kept : Nat → Bool}
    (hin : ∀ r, r < n → kept r = true → r ∈ ks) : ks.filter kept = (List.range n).filter kept := by
  have p1 : (ks.filter kept).Pairwise (· < ·) := hks.filter _
  have p2 : ((List.range n).filter kept).Pairwise (· < ·) := List.pairwise_lt_range.filter _
  have nd : ∀ {l : List Nat}, l.Pairwise (· < ·) → l.Nodup := fun h => h.imp fun h => by omega
  refine List.Perm.eq_of_pairwise (fun a b _ _ h h' => absurd h (by omega)) p1 p2 ((List.perm_ext_iff_of_nodup (nd p1) (nd p2)).mpr ?_)
  intro r
  simp only [List.mem_filter, List.mem_range]
  exact ⟨fun h => ⟨hlt r h.1, h.2⟩, fun h => ⟨hin r h.1 h.2, h.2⟩⟩

theorem range_getD (ks : List Nat) : (List.range ks.length).map (fun q => ks.getD q 0) = ks := by
  apply List.ext_getElem
  · simp
  · intro i h1 h2
    simp [h2]

theorem filterMap_rows {n : Nat} (L : List Nat) (hL : ∀ r ∈ L, r < n) :
    L.filterMap (fun r => ((List.range n).map Build.Label.row)[r]?) = L.map Build.Label.row := by
  rw [← List.filterMap_eq_map]
  refine List.filterMap_congr fun r hr => ?_
  simp [hL r hr]

variable [Mul K] [One K]

/-- `build_design_matrices` on the rows that are left. -/
theorem build_picked (hks : ks.Pairwise (· < ·)) {isnan : K → Bool} {na na' : NAAction} (hna : na'.types = na.types) {frame : Bool}
    {dataIndex dataIndex' : Option (List Build.Label)} (hdi : PickedLabels n ks dataIndex dataIndex')
    {dis : List (DesignInfo F D K)} {data data' : D} {cs : List (Coding F D K)} (hne : dis ≠ [])
    (hdis : List.Forall₂ IsDesign dis cs) (hid : SameIdentity (Spec.factorsOf cs))
    (hfit : ∀ d, IndexFits na.types (Spec.factorsOf cs) d)
    (hmove : ∀ fi ∈ Spec.factorsOf cs, ∀ v i, fi.eval na.types data = .ok (v, i) →
      ∃ v' i', fi.eval na.types data' = .ok (v', i') ∧ PickedVal n ks v v' ∧ PickedLabels n ks i i')
    {b : Built K} (h : buildDesignMatrices isnan na frame dataIndex dis data = .ok b) :
    ∃ V idx, Evaluation na.types (Spec.factorsOf cs) dataIndex data V n idx ∧
      ((∀ r, r < n → complete na isnan (Spec.factorsOf cs) V r = true → r ∈ ks) →
       (na'.onNA = .raise → ∀ r ∈ ks, complete na isnan (Spec.factorsOf cs) V r = true) →
       ∃ b', buildDesignMatrices isnan na' frame dataIndex' dis data' = .ok b' ∧ b'.mats = b.mats ∧
      (frame = false → b.index = none ∧ b'.index = none) ∧
      (frame = true → (dataIndex ≠ none ∨ ∃ fi ∈ Spec.factorsOf cs, ∃ v l, fi.eval na.types data = .ok (v, some l)) →
        b'.index = b.index) ∧
      (frame = true → ¬ (dataIndex ≠ none ∨ ∃ fi ∈ Spec.factorsOf cs, ∃ v l, fi.eval na.types data = .ok (v, some l)) →
        b.index = some (((List.range n).filter (complete na isnan (Spec.factorsOf cs) V)).map Build.Label.row) ∧
        b'.index = some (((List.range ks.length).filter fun q => (ks[q]?).any (complete na isnan (Spec.factorsOf cs) V)).map
          Build.Label.row))) := by
  rw [Props.build_keeps_complete_rows hne hdis hid (hfit data)] at h
  obtain ⟨V, n0, idx, hev, -, hmats, hidx⟩ := h
  -- the number of rows
  obtain ⟨rfl, hlt⟩ : n0 = n ∧ ∀ r ∈ ks, r < n := by
    cases hfs : Spec.factorsOf cs with
    | nil =>
      obtain ⟨l, hl⟩ := Option.ne_none_iff_exists'.mp (hev.known hfs)
      rw [hl] at hdi
      match dataIndex', hdi with
      | some l', hdi => exact ⟨by rw [← hev.length, ← hev.frame l hl, hdi.1], fun r hr => picked_lt hdi hr⟩
    | cons fi fis =>
      have hfi : fi ∈ Spec.factorsOf cs := by simp [hfs]
      obtain ⟨i, hi, _⟩ := hev.value fi hfi
      obtain ⟨v', i', _, h2, _⟩ := hmove fi hfi _ _ hi
      exact ⟨by rw [← hev.rows fi hfi, (pickedVal_nrows h2).1], fun r hr => pickedVal_lt h2 hr⟩
  refine ⟨V, idx, hev, fun hin hrs => ?_⟩
  -- the values
  obtain ⟨V', hV'⟩ : ∃ V' : FactorInfo F D K → Value K, ∀ fi ∈ Spec.factorsOf cs, ∀ i, fi.eval na.types data = .ok (V fi, i) →
      ∃ i', fi.eval na.types data' = .ok (V' fi, i') ∧ PickedVal n0 ks (V fi) (V' fi) ∧ PickedLabels n0 ks i i' := by
    refine ⟨fun fi => match fi.eval na.types data' with | .ok (v, _) => v | .error _ => V fi, fun fi hfi i hi => ?_⟩
    obtain ⟨v', i', h1, h2, h3⟩ := hmove fi hfi _ _ hi
    refine ⟨i', ?_⟩
    simp only [h1]
    exact ⟨trivial, h2, h3⟩
  have hcell : ∀ fi ∈ Spec.factorsOf cs, ∀ q r, ks[q]? = some r → cellOf (V' fi) q = cellOf (V fi) r := by
    intro fi hfi q r hq
    obtain ⟨i, hi, _⟩ := hev.value fi hfi
    obtain ⟨_, _, h2, _⟩ := hV' fi hfi i hi
    exact pickedVal_cell h2 hq
  -- the labels
  generalize hix : (dataIndex ≠ none ∨ ∃ fi ∈ Spec.factorsOf cs, ∃ v l, fi.eval na.types data = .ok (v, some l)) = indexed
  obtain ⟨mv, hmv⟩ : ∃ l', Picked n0 ks idx l' := picked_exists hev.length hlt
  obtain ⟨idx', hi1, hi2⟩ : ∃ idx', (indexed → idx' = mv) ∧ (¬ indexed → idx' = (List.range ks.length).map Build.Label.row) := by
    by_cases hx : indexed
    · exact ⟨mv, fun _ => rfl, fun h => absurd hx h⟩
    · exact ⟨_, fun h => absurd h hx, fun _ => rfl⟩
  have hframe : ∀ l', dataIndex' = some l' → l' = idx' := by
    intro l' hl'
    rw [hl'] at hdi
    match dataIndex, hdi, hev.frame, hix with
    | some l, hdi, hfr, hix =>
      rw [hi1 (hix ▸ Or.inl (by simp))]
      rw [hfr l rfl] at hdi
      exact picked_unique hdi hmv
  have hev' : Evaluation na.types (Spec.factorsOf cs) dataIndex' data' V' ks.length idx' := by
    refine ⟨?_, ?_, ?_, hframe, ?_, ?_, ?_⟩
    · intro fi hfi
      obtain ⟨i, hi, hl⟩ := hev.value fi hfi
      obtain ⟨i', h1, _, h3⟩ := hV' fi hfi i hi
      refine ⟨i', h1, ?_⟩
      rintro l' rfl
      match i, h3 with
      | some l, h3 =>
        rw [hi1 (hix ▸ Or.inr ⟨fi, hfi, _, l, hi⟩)]
        rw [hl l rfl] at h3
        exact picked_unique h3 hmv
    · intro fi hfi
      obtain ⟨i, hi, _⟩ := hev.value fi hfi
      obtain ⟨_, _, h2, _⟩ := hV' fi hfi i hi
      exact pickedVal_kind h2 (hev.kind fi hfi)
    · intro fi hfi
      obtain ⟨i, hi, _⟩ := hev.value fi hfi
      obtain ⟨_, _, h2, _⟩ := hV' fi hfi i hi
      exact (pickedVal_nrows h2).2
    · by_cases hx : indexed
      · rw [hi1 hx]; exact picked_length hmv
      · rw [hi2 hx]; simp
    · intro hd hall
      refine hi2 ?_
      rw [← hix]
      rintro (hne | ⟨fi, hfi, v, l, hv⟩)
      · rw [hd] at hdi
        match dataIndex, hdi, hne with
        | none, _, hne => exact hne rfl
      · obtain ⟨v', i', h1, _, h3⟩ := hmove fi hfi _ _ hv
        match i', h3, h1 with
        | some l', _, h1 => exact hall fi hfi _ _ h1
    · intro hfs hd
      refine hev.known hfs ?_
      rw [hd] at hdi
      match dataIndex, hdi with
      | none, _ => rfl
  -- the rows that are kept
  have hnan : na'.nan = na.nan := congrArg NATypes.nan hna
  have hcomp : ∀ q r, ks[q]? = some r → complete na' isnan (Spec.factorsOf cs) V' q = complete na isnan (Spec.factorsOf cs) V r := by
    intro q r hq
    unfold complete
    rw [Bool.eq_iff_iff, List.all_eq_true, List.all_eq_true]
    refine forall₂_congr fun fi hfi => ?_
    rw [hcell fi hfi q r hq]
    have : cellMissing na' isnan = cellMissing na isnan := by
      funext c; cases c <;> simp only [cellMissing, hnan]
    rw [this]
  have hget : ∀ q ∈ List.range ks.length, ks[q]? = some (ks.getD q 0) := by
    intro q hq
    simp [List.mem_range.mp hq]
  have hnew : completeRows na' isnan (Spec.factorsOf cs) V' ks.length =
      (List.range ks.length).filter fun q => complete na isnan (Spec.factorsOf cs) V (ks.getD q 0) :=
    List.filter_congr fun q hq => hcomp q _ (hget q hq)
  have hmap : (completeRows na' isnan (Spec.factorsOf cs) V' ks.length).map (fun q => ks.getD q 0) =
      completeRows na isnan (Spec.factorsOf cs) V n0 := by
    rw [hnew, filter_map_range (σ := fun q => ks.getD q 0), range_getD, filter_picked hks hlt hin]
    rfl
  have hmem : ∀ {q}, q ∈ completeRows na' isnan (Spec.factorsOf cs) V' ks.length → q ∈ List.range ks.length :=
    fun hq => (List.mem_filter.mp hq).1
  have hm : AreMatrices cs V' (completeRows na' isnan (Spec.factorsOf cs) V' ks.length) b.mats := by
    have hcs : ∀ c ∈ cs, (completeRows na' isnan (Spec.factorsOf cs) V' ks.length).map (designCells c V') =
        (completeRows na isnan (Spec.factorsOf cs) V n0).map (designCells c V) := by
      intro c hc
      rw [← hmap, List.map_map]
      refine List.map_congr_left fun q hq => ?_
      funext f
      simp only [Function.comp_apply, designCells]
      cases hd : dictGet c.factorInfos f with
      | none => rfl
      | some fi =>
        exact hcell fi (List.mem_flatMap.mpr ⟨c, hc, List.mem_map.mpr ⟨_, dictGet_mem hd, rfl⟩⟩) q _ (hget q (hmem hq))
    unfold AreMatrices at hmats ⊢
    refine (forall₂_congr_mem fun c hc m => ?_).mp hmats
    rw [hcs c hc, ← hmap]
    simp
  refine ⟨⟨b.mats, if frame then
    some ((completeRows na' isnan (Spec.factorsOf cs) V' ks.length).filterMap fun r => idx'[r]?) else none⟩, ?_, rfl, ?_, ?_, ?_⟩
  · rw [Props.build_keeps_complete_rows hne hdis hid (by rw [hna]; exact hfit data')]
    refine ⟨V', ks.length, idx', by rw [hna]; exact hev', ?_, hm, rfl⟩
    intro hr
    rw [hnew, List.filter_eq_self]
    intro q hq
    exact hrs hr _ (List.mem_of_getElem? (hget q hq))
  · rintro rfl
    exact ⟨by simpa using hidx, by simp⟩
  · rintro rfl hx
    simp only [if_true] at hidx ⊢
    rw [hidx, ← hmap, List.filterMap_map]
    congr 1
    refine List.filterMap_congr fun q hq => ?_
    rw [hi1 hx]
    exact picked_get hmv (hget q (hmem hq))
  · rintro rfl hx
    simp only [if_true] at hidx ⊢
    have hix' : idx = (List.range n0).map Build.Label.row := by
      refine hev.default ?_ ?_
      · by_contra hd
        exact hx (hix ▸ Or.inl hd)
      · intro fi hfi v l hv
        exact hx (hix ▸ Or.inr ⟨fi, hfi, v, l, hv⟩)
    constructor
    · rw [hidx, hix', filterMap_rows]
      · rfl
      · intro r hr
        exact List.mem_range.mp (List.mem_filter.mp hr).1
    · rw [hi2 hx, filterMap_rows _ (fun r hr => List.mem_range.mp (hmem hr)), hnew]
      congr 2
      refine List.filter_congr fun q hq => ?_
      rw [hget q hq]
      rfl

end Patsy.Spec
