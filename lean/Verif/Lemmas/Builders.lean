import Verif.Lemmas.Setup
import Verif.Lemmas.BuildTop
import Verif.Lemmas.Subset
import Verif.Lemmas.DesignInfo
import Verif.Model.Builders

/-! Lemmas about `_examine_factor_types`: every factor is examined by itself. -/

namespace Patsy.Build

open Patsy.Desc Patsy.Redundancy Patsy.Cat

variable {F D K Cn : Type} [DecidableEq F]

/-- What is known about one factor. -/
inductive Own (Cn : Type) where
  | working (o : Option (Sniffer Cn))
  | number (n : Nat)
  | finished (s : Sniffer Cn)

/-- The examination of one factor on one chunk. -/
def ownStep (na : NAAction) (v : Except Err (CatValue Cn)) : Own Cn → Except Err (Own Cn)
  | .working o => do
    let v ← v
    if o.isSome || guessCategorical v then do
      let r ← (o.getD {}).sniff na v
      pure (if r.2 then .finished r.1 else .working (some r.1))
    else do
      let n ← countColumns v
      pure (.number n)
  | o => pure o

/-- What the state of the loop says about one factor. -/
def view (s : Exam F Cn) (f : F) : Own Cn :=
  if f ∈ s.needed then .working (dictGet s.sniffers f)
  else match dictGet s.nums f with
    | some n => .number n
    | none => match dictGet s.sniffers f with
      | some x => .finished x
      | none => .number 0

/-- Invariant of the loop. -/
structure ExamInv (s : Exam F Cn) : Prop where
  nodup : s.needed.Nodup
  fresh : ∀ f ∈ s.needed, dictGet s.nums f = none
  apart : ∀ f n, dictGet s.nums f = some n → dictGet s.sniffers f = none

theorem ok_bind {A B : Type} (a : A) (f : A → Except Err B) : ((Except.ok a : Except Err A) >>= f) = f a := rfl
theorem err_bind {A B : Type} (e : Err) (f : A → Except Err B) :
    ((Except.error e : Except Err A) >>= f) = .error e := rfl

theorem examineOne_sim {na : NAAction} {eval : F → D → Except Err (CatValue Cn)} {d : D} {s : Exam F Cn}
    (hs : ExamInv s) {f : F} (hf : f ∈ s.needed) :
    (∀ o, ownStep na (eval f d) (view s f) = .ok o → ∃ s', examineOne na eval d s f = .ok s' ∧ ExamInv s' ∧
      view s' f = o ∧ ∀ g, g ≠ f → view s' g = view s g ∧ (g ∈ s'.needed ↔ g ∈ s.needed)) ∧
    (∀ e, ownStep na (eval f d) (view s f) = .error e → examineOne na eval d s f = .error e) := by
  have hview : view s f = .working (dictGet s.sniffers f) := by simp [view, hf]
  rw [hview]
  simp only [ownStep, examineOne]
  cases hv : eval f d with
  | error e => exact ⟨(by intro o h; cases h), by intro e' h; cases h; rfl⟩
  | ok v =>
    simp only [ok_bind]
    have herase : ∀ g, g ≠ f → (g ∈ s.needed.erase f ↔ g ∈ s.needed) := fun g hg => List.mem_erase_of_ne hg
    have hnot : f ∉ s.needed.erase f := hs.nodup.not_mem_erase
    by_cases hc : ((dictGet s.sniffers f).isSome || guessCategorical v) = true
    · simp only [hc, if_true]
      cases hr : ((dictGet s.sniffers f).getD {}).sniff na v with
      | error e => exact ⟨(by intro o h; cases h), by intro e' h; cases h; rfl⟩
      | ok r =>
        simp only [ok_bind]
        refine ⟨?_, (by intro e h; cases h)⟩
        intro o ho
        cases ho
        refine ⟨_, rfl, ?_, ?_, ?_⟩
        · refine ⟨?_, ?_, ?_⟩
          · show (if r.2 then s.needed.erase f else s.needed).Nodup
            split
            · exact hs.nodup.erase f
            · exact hs.nodup
          · intro g hg
            refine hs.fresh g ?_
            revert hg
            show g ∈ (if r.2 then s.needed.erase f else s.needed) → _
            split
            · exact List.mem_of_mem_erase
            · exact id
          · intro g n hg
            rw [dictSet_get]
            have : f ≠ g := by
              rintro rfl
              have := hs.fresh f hf
              rw [show dictGet s.nums f = some n from hg] at this
              cases this
            rw [if_neg this]
            exact hs.apart g n hg
        · cases h2 : r.2 with
          | true => simp [view, hnot, hs.fresh f hf, dictSet_get]
          | false => simp [view, hf, dictSet_get]
        · intro g hg
          have hg' : f ≠ g := fun h => hg h.symm
          cases h2 : r.2 with
          | true => simp [view, herase g hg, dictSet_get, hg']
          | false => simp [view, dictSet_get, hg']
    · simp only [hc]
      simp only [Bool.false_eq_true, if_false]
      cases hn : countColumns v with
      | error e => exact ⟨(by intro o h; cases h), by intro e' h; cases h; rfl⟩
      | ok n =>
        simp only [ok_bind]
        refine ⟨?_, (by intro e h; cases h)⟩
        intro o ho
        cases ho
        have hsn : dictGet s.sniffers f = none := by
          simp only [Bool.or_eq_true, not_or, Bool.not_eq_true, Option.isSome_eq_false_iff,
            Option.isNone_iff_eq_none] at hc
          exact hc.1
        refine ⟨_, rfl, ?_, ?_, ?_⟩
        · refine ⟨hs.nodup.erase f, ?_, ?_⟩
          · intro g hg
            rw [dictSet_get]
            have : f ≠ g := by
              rintro rfl
              exact hnot hg
            rw [if_neg this]
            exact hs.fresh g (List.mem_of_mem_erase hg)
          · intro g m hg
            simp only at hg
            rw [dictSet_get] at hg
            by_cases h : f = g
            · subst h; exact hsn
            · rw [if_neg h] at hg
              exact hs.apart g m hg
        · simp [view, hnot, dictSet_get]
        · intro g hg
          have hg' : f ≠ g := fun h => hg h.symm
          simp [view, herase g hg, dictSet_get, hg']

theorem foldlM_cons_ok {A B : Type} {f : B → A → Except Err B} {a : A} {l : List A} {b : B} :
    (a :: l).foldlM f b = (f b a >>= fun b' => l.foldlM f b') := by
  rw [List.foldlM_cons]

theorem examineFold_sim {na : NAAction} {eval : F → D → Except Err (CatValue Cn)} {d : D} :
    ∀ (L : List F) {s : Exam F Cn}, ExamInv s → L.Nodup → (∀ f ∈ L, f ∈ s.needed) →
    (∀ s', L.foldlM (examineOne na eval d) s = .ok s' → ExamInv s' ∧
      ∀ g, (g ∈ L → ownStep na (eval g d) (view s g) = .ok (view s' g)) ∧
        (g ∉ L → view s' g = view s g ∧ (g ∈ s'.needed ↔ g ∈ s.needed))) ∧
    ((∀ g ∈ L, ∃ o, ownStep na (eval g d) (view s g) = .ok o) → ∃ s', L.foldlM (examineOne na eval d) s = .ok s') := by
  intro L
  induction L with
  | nil =>
    intro s hs _ _
    refine ⟨?_, fun _ => ⟨s, rfl⟩⟩
    intro s' h
    cases h
    exact ⟨hs, fun g => ⟨by simp, fun _ => ⟨rfl, Iff.rfl⟩⟩⟩
  | cons f L ih =>
    intro s hs hnd hsub
    obtain ⟨hfL, hnd⟩ := List.nodup_cons.mp hnd
    obtain ⟨h1, h2⟩ := examineOne_sim (na := na) (eval := eval) (d := d) hs (hsub f (by simp))
    cases hown : ownStep na (eval f d) (view s f) with
    | error e =>
      rw [List.foldlM_cons, h2 e hown]
      refine ⟨(by intro s' h; cases h), ?_⟩
      intro h
      obtain ⟨o, ho⟩ := h f (by simp)
      rw [hown] at ho
      cases ho
    | ok o =>
      obtain ⟨s1, hs1, hi1, hv1, ho1⟩ := h1 o hown
      rw [List.foldlM_cons, hs1, ok_bind]
      have hne : ∀ g ∈ L, g ≠ f := fun g hg h => hfL (h ▸ hg)
      obtain ⟨h3, h4⟩ := ih hi1 hnd (fun g hg => (ho1 g (hne g hg)).2.mpr (hsub g (by simp [hg])))
      constructor
      · intro s' h
        obtain ⟨hi, hall⟩ := h3 s' h
        refine ⟨hi, fun g => ⟨?_, ?_⟩⟩
        · intro hg
          rcases List.mem_cons.mp hg with rfl | hg
          · rw [hown, ((hall g).2 hfL).1, hv1]
          · rw [← (ho1 g (hne g hg)).1]
            exact (hall g).1 hg
        · intro hg
          simp only [List.mem_cons, not_or] at hg
          obtain ⟨h5, h6⟩ := (hall g).2 hg.2
          obtain ⟨h7, h8⟩ := ho1 g hg.1
          exact ⟨h5.trans h7, h6.trans h8⟩
      · intro h
        refine h4 fun g hg => ?_
        rw [(ho1 g (hne g hg)).1]
        exact h g (by simp [hg])

/-- The examination of one factor on successive chunks. -/
def ownLoop (na : NAAction) (ev : D → Except Err (CatValue Cn)) (ds : List D) (o : Own Cn) : Except Err (Own Cn) :=
  ds.foldlM (fun o d => ownStep na (ev d) o) o

theorem ownStep_done {na : NAAction} {v : Except Err (CatValue Cn)} {s : Exam F Cn} {g : F} (h : g ∉ s.needed) :
    ownStep na v (view s g) = .ok (view s g) := by
  simp only [view, if_neg h]
  cases dictGet s.nums g with
  | some n => rfl
  | none => cases dictGet s.sniffers g <;> rfl

theorem ownLoop_done {na : NAAction} {ev : D → Except Err (CatValue Cn)} {s : Exam F Cn} {g : F} (h : g ∉ s.needed)
    (ds : List D) : ownLoop na ev ds (view s g) = .ok (view s g) := by
  induction ds with
  | nil => rfl
  | cons d ds ih =>
    rw [ownLoop, List.foldlM_cons, ownStep_done h, ok_bind]
    exact ih

theorem examineLoop_sim {na : NAAction} {visit : List F → List F} (hv : ∀ l, (visit l).Perm l)
    {eval : F → D → Except Err (CatValue Cn)} :
    ∀ (ds : List D) {s : Exam F Cn}, ExamInv s →
    (∀ s', examineLoop na visit eval ds s = .ok s' → ExamInv s' ∧
      ∀ g, ownLoop na (eval g) ds (view s g) = .ok (view s' g)) ∧
    ((∀ g ∈ s.needed, ∃ o, ownLoop na (eval g) ds (view s g) = .ok o) →
      ∃ s', examineLoop na visit eval ds s = .ok s') := by
  intro ds
  induction ds with
  | nil =>
    intro s hs
    refine ⟨?_, fun _ => ⟨s, rfl⟩⟩
    intro s' h
    cases h
    exact ⟨hs, fun g => rfl⟩
  | cons d ds ih =>
    intro s hs
    have hnd : (visit s.needed).Nodup := (hv _).nodup_iff.mpr hs.nodup
    obtain ⟨h1, h2⟩ := examineFold_sim (na := na) (eval := eval) (d := d) (visit s.needed) hs hnd
      (fun f hf => (hv _).mem_iff.mp hf)
    have hstep : ∀ s1, (visit s.needed).foldlM (examineOne na eval d) s = .ok s1 → ExamInv s1 ∧
        (∀ g, ownStep na (eval g d) (view s g) = .ok (view s1 g)) ∧ (∀ g, g ∈ s1.needed → g ∈ s.needed) := by
      intro s1 hs1
      obtain ⟨hi, hall⟩ := h1 s1 hs1
      refine ⟨hi, ?_, ?_⟩
      · intro g
        by_cases hg : g ∈ s.needed
        · exact (hall g).1 ((hv _).mem_iff.mpr hg)
        · rw [((hall g).2 (fun h => hg ((hv _).mem_iff.mp h))).1]
          exact ownStep_done hg
      · intro g hg
        by_contra hg'
        exact hg' (((hall g).2 (fun h => hg' ((hv _).mem_iff.mp h))).2.mp hg)
    simp only [examineLoop]
    cases hf : (visit s.needed).foldlM (examineOne na eval d) s with
    | error e =>
      refine ⟨(by intro s' h; cases h), ?_⟩
      intro h
      obtain ⟨s', hs'⟩ := h2 (by
        intro g hg
        obtain ⟨o, ho⟩ := h g ((hv _).mem_iff.mp hg)
        rw [ownLoop, List.foldlM_cons] at ho
        cases h : ownStep na (eval g d) (view s g) with
        | error e => rw [h] at ho; cases ho
        | ok o => exact ⟨o, rfl⟩)
      rw [hf] at hs'
      cases hs'
    | ok s1 =>
      obtain ⟨hi1, hv1, hn1⟩ := hstep s1 hf
      obtain ⟨h3, h4⟩ := ih hi1
      simp only [ok_bind]
      by_cases he : s1.needed.isEmpty = true
      · rw [if_pos he]
        refine ⟨?_, fun _ => ⟨s1, rfl⟩⟩
        intro s' h
        cases h
        refine ⟨hi1, fun g => ?_⟩
        rw [ownLoop, List.foldlM_cons, hv1 g, ok_bind]
        refine ownLoop_done ?_ ds
        rw [List.isEmpty_iff.mp he]
        simp
      · rw [if_neg he]
        constructor
        · intro s' h
          obtain ⟨hi, hall⟩ := h3 s' h
          refine ⟨hi, fun g => ?_⟩
          rw [ownLoop, List.foldlM_cons, hv1 g, ok_bind]
          exact hall g
        · intro h
          refine h4 fun g hg => ?_
          obtain ⟨o, ho⟩ := h g (hn1 g hg)
          rw [ownLoop, List.foldlM_cons, hv1 g, ok_bind] at ho
          exact ⟨o, ho⟩

/-- The type that has been found. -/
def ownResult (order : List PyVal → List PyVal) : Own Cn → Option (FactorType Cn)
  | .working none => none
  | .working (some s) => some (.categorical (s.levelsContrast order).1 (s.levelsContrast order).2)
  | .finished s => some (.categorical (s.levelsContrast order).1 (s.levelsContrast order).2)
  | .number n => some (.numerical n)

/-- The type that `_examine_factor_types` reports for a factor. -/
def typeOf (r : List (F × Nat) × List (F × List PyVal × Option Cn)) (f : F) : Option (FactorType Cn) :=
  match dictGet r.1 f with
  | some n => some (.numerical n)
  | none => (dictGet r.2 f).map fun lc => .categorical lc.1 lc.2

theorem dictGet_map {A B C : Type} [DecidableEq A] (d : List (A × B)) (h : B → C) (a : A) :
    dictGet (d.map fun p => (p.1, h p.2)) a = (dictGet d a).map h := by
  induction d with
  | nil => rfl
  | cons p d ih =>
    by_cases hp : p.1 = a
    · simp [dictGet, hp]
    · simp only [dictGet, List.map_cons, List.find?_cons, hp, decide_false] at ih ⊢
      exact ih

theorem typeOf_view {order : List PyVal → List PyVal} {s : Exam F Cn} (hs : ExamInv s) {f : F}
    (hf : f ∈ s.needed ∨ (dictGet s.nums f).isSome ∨ (dictGet s.sniffers f).isSome) :
    typeOf (s.nums, s.sniffers.map fun p => (p.1, p.2.levelsContrast order)) f = ownResult order (view s f) := by
  simp only [typeOf]
  rw [dictGet_map]
  by_cases hn : f ∈ s.needed
  · rw [hs.fresh f hn]
    simp only [view, hn, if_true]
    cases dictGet s.sniffers f <;> rfl
  · simp only [view, hn, if_false]
    cases h1 : dictGet s.nums f with
    | some n => rfl
    | none =>
      cases h2 : dictGet s.sniffers f with
      | some x => rfl
      | none => simp [hn, h1, h2] at hf

theorem ownLoop_examineFactor {na : NAAction} {order : List PyVal → List PyVal} (vs : List (CatValue Cn)) :
    ∀ st : Option (Sniffer Cn), examineFactor na order st vs =
      (ownLoop na (fun v => .ok v) vs (.working st) >>= fun o => pure (ownResult order o)) := by
  have hfin : ∀ (vs : List (CatValue Cn)) (s : Sniffer Cn),
      ownLoop na (fun v => .ok v) vs (.finished s) = .ok (.finished s) := by
    intro vs
    induction vs with
    | nil => intro s; rfl
    | cons v vs ih => intro s; rw [ownLoop, List.foldlM_cons]; exact ih s
  have hnum : ∀ (vs : List (CatValue Cn)) (n : Nat),
      ownLoop na (fun v => (.ok v : Except Err (CatValue Cn))) vs (.number n) = .ok (.number n) := by
    intro vs
    induction vs with
    | nil => intro n; rfl
    | cons v vs ih => intro n; rw [ownLoop, List.foldlM_cons]; exact ih n
  induction vs with
  | nil => intro st; cases st <;> rfl
  | cons v vs ih =>
    intro st
    have hsniff : (st.isSome || guessCategorical v) = true →
        (match (st.getD {}).sniff na v with
          | .error e => .error e
          | .ok (s, true) =>
            let r := s.levelsContrast order
            .ok (some (.categorical r.1 r.2))
          | .ok (s, false) => examineFactor na order (some s) vs) =
        (ownLoop na (fun v => .ok v) (v :: vs) (.working st) >>= fun o => pure (ownResult order o)) := by
      intro h
      rw [ownLoop, List.foldlM_cons]
      simp only [ownStep, ok_bind, h, if_true]
      cases (st.getD {}).sniff na v with
      | error e => rfl
      | ok r =>
        obtain ⟨s, b⟩ := r
        cases b with
        | true =>
          simp only [ok_bind, if_true]
          refine Eq.trans ?_ (congrArg (fun x => x >>= fun o => pure (ownResult order o)) (hfin vs s)).symm
          rfl
        | false =>
          exact ih (some s)
    cases st with
    | some s => exact hsniff rfl
    | none =>
      by_cases hg : guessCategorical v = true
      · have := hsniff (by simp [hg])
        rw [← this]
        match v, hg with
        | .raw (.pandas _ _), _ => rfl
        | .box _ _ _, _ => rfl
        | .raw (.array .boolDtype _ _ _), _ => rfl
        | .raw (.array .other _ _ _), _ => rfl
      · match v, hg with
        | .raw (.array .number ndim ncols vals), _ =>
          rw [ownLoop, List.foldlM_cons]
          simp only [examineFactor, ownStep, ok_bind, guessCategorical, Option.isSome_none, Bool.or_self,
            Bool.false_eq_true, if_false, countColumns]
          by_cases h : 2 < ndim
          · simp only [h, if_true]; rfl
          · simp only [h, if_false, ok_bind]
            refine Eq.trans ?_ (congrArg (fun x => x >>= fun o => pure (ownResult order o))
              (hnum vs (if ndim = 2 then ncols else 1))).symm
            rfl
        | .raw (.pandas _ _), h => exact absurd rfl h
        | .box _ _ _, h => exact absurd rfl h
        | .raw (.array .boolDtype _ _ _), h => exact absurd rfl h
        | .raw (.array .other _ _ _), h => exact absurd rfl h

theorem ownLoop_values {na : NAAction} {ev : D → Except Err (CatValue Cn)} {ds : List D} {vs : List (CatValue Cn)}
    (h : ds.mapM ev = .ok vs) (o : Own Cn) : ownLoop na ev ds o = ownLoop na (fun v => .ok v) vs o := by
  rw [mapM_ok] at h
  induction h generalizing o with
  | nil => rfl
  | @cons d v ds vs h1 h2 ih =>
    simp only [ownLoop, List.foldlM_cons, h1]
    congr 1
    funext o'
    exact ih o'

end Patsy.Build

namespace Patsy.Build

open Patsy.Desc Patsy.Redundancy Patsy.Cat

variable {F D K Cn : Type} [DecidableEq F]

theorem examInv_start {fs : List F} (h : fs.Nodup) : ExamInv (⟨[], [], fs⟩ : Exam F Cn) :=
  ⟨h, fun _ _ => rfl, fun _ _ h => by simp [dictGet] at h⟩

/-- A factor that has been lost from all three variables would be one that the loop forgot. -/
def Known (s : Exam F Cn) (f : F) : Prop :=
  f ∈ s.needed ∨ (dictGet s.nums f).isSome ∨ (dictGet s.sniffers f).isSome

theorem examineOne_known {na : NAAction} {eval : F → D → Except Err (CatValue Cn)} {d : D} {s s' : Exam F Cn} {f g : F}
    (h : examineOne na eval d s f = .ok s') (hg : Known s g) : Known s' g := by
  simp only [examineOne, bind_ok] at h
  obtain ⟨v, _, h⟩ := h
  have key : g ∈ s.needed → f ≠ g → g ∈ s.needed.erase f := fun h1 h2 =>
    (List.mem_erase_of_ne (fun h => h2 h.symm)).mpr h1
  split at h
  · simp only [bind_ok, pure_ok] at h
    obtain ⟨r, _, h⟩ := h
    subst h
    by_cases hf : f = g
    · exact .inr (.inr (by simp [dictSet_get, hf]))
    · rcases hg with hg | hg | hg
      · refine .inl ?_
        show g ∈ (if r.2 then s.needed.erase f else s.needed)
        split
        · exact key hg hf
        · exact hg
      · exact .inr (.inl hg)
      · exact .inr (.inr (by simp [dictSet_get, hf, hg]))
  · simp only [bind_ok, pure_ok] at h
    obtain ⟨r, _, h⟩ := h
    subst h
    by_cases hf : f = g
    · exact .inr (.inl (by simp [dictSet_get, hf]))
    · rcases hg with hg | hg | hg
      · exact .inl (key hg hf)
      · exact .inr (.inl (by simp [dictSet_get, hf, hg]))
      · exact .inr (.inr hg)

theorem examineFold_known {na : NAAction} {eval : F → D → Except Err (CatValue Cn)} {d : D} {g : F} :
    ∀ (L : List F) {s s' : Exam F Cn}, L.foldlM (examineOne na eval d) s = .ok s' → Known s g → Known s' g := by
  intro L
  induction L with
  | nil => intro s s' h hg; cases h; exact hg
  | cons f L ih =>
    intro s s' h hg
    rw [List.foldlM_cons, bind_ok] at h
    obtain ⟨s1, h1, h2⟩ := h
    exact ih h2 (examineOne_known h1 hg)

theorem examineLoop_known {na : NAAction} {visit : List F → List F} {eval : F → D → Except Err (CatValue Cn)} {g : F} :
    ∀ (ds : List D) {s s' : Exam F Cn}, examineLoop na visit eval ds s = .ok s' → Known s g → Known s' g := by
  intro ds
  induction ds with
  | nil => intro s s' h hg; cases h; exact hg
  | cons d ds ih =>
    intro s s' h hg
    rw [examineLoop, bind_ok] at h
    obtain ⟨s1, h1, h2⟩ := h
    have := examineFold_known _ h1 hg
    split at h2
    · cases h2; exact this
    · exact ih h2 this

/-- The reported type of a factor is what the examination of this factor alone finds. -/
theorem examineTypes_own {na : NAAction} {order : List PyVal → List PyVal} {visit : List F → List F}
    (hv : ∀ l, (visit l).Perm l) {eval : F → D → Except Err (CatValue Cn)} {chunks : List D} {fs : List F} (hn : fs.Nodup)
    {r} (h : examineTypes na order visit eval chunks fs = .ok r) {f : F} (hf : f ∈ fs) :
    (ownLoop na (eval f) chunks (.working none) >>= fun o => pure (ownResult order o)) = .ok (typeOf r f) := by
  simp only [examineTypes, bind_ok, pure_ok] at h
  obtain ⟨s, hs, rfl⟩ := h
  obtain ⟨hi, hall⟩ := (examineLoop_sim hv chunks (examInv_start hn)).1 s hs
  have h1 := hall f
  rw [show view (⟨[], [], fs⟩ : Exam F Cn) f = .working none by simp [view, hf, dictGet]] at h1
  rw [h1, typeOf_view hi (examineLoop_known chunks hs (.inl hf))]
  rfl

theorem examineTypes_ok_iff {na : NAAction} {order : List PyVal → List PyVal} {visit : List F → List F}
    (hv : ∀ l, (visit l).Perm l) {eval : F → D → Except Err (CatValue Cn)} {chunks : List D} {fs : List F} (hn : fs.Nodup) :
    (∃ r, examineTypes na order visit eval chunks fs = .ok r) ↔
      ∀ f ∈ fs, ∃ o, ownLoop na (eval f) chunks (.working none) = .ok o := by
  have hview : ∀ f ∈ fs, view (⟨[], [], fs⟩ : Exam F Cn) f = .working none := by
    intro f hf
    simp [view, hf, dictGet]
  obtain ⟨h1, h2⟩ := examineLoop_sim (na := na) (eval := eval) hv chunks (examInv_start (Cn := Cn) hn)
  constructor
  · rintro ⟨r, h⟩ f hf
    simp only [examineTypes, bind_ok, pure_ok] at h
    obtain ⟨s, hs, rfl⟩ := h
    rw [← hview f hf]
    exact ⟨_, (h1 s hs).2 f⟩
  · intro h
    obtain ⟨s, hs⟩ := h2 (fun f hf => by rw [hview f hf]; exact h f hf)
    exact ⟨_, by rw [examineTypes, hs]; rfl⟩

/-! ### `design_matrix_builders` -/

theorem designFactors_fold {fs : List F} {fis acc out : List (F × FactorInfo F D K)}
    (hacc : ∀ p ∈ acc, dictGet fis p.1 = some p.2)
    (h : fs.foldlM (fun acc f => do
      let fi ← match dictGet fis f with
        | some fi => Except.ok fi
        | none => .error .keyError
      .ok (dictSet (fun a b => decide (a = b)) acc f fi)) acc = (.ok out : Except Err _)) :
    (∀ p ∈ out, dictGet fis p.1 = some p.2) ∧ (∀ f, f ∈ out.map Prod.fst ↔ f ∈ acc.map Prod.fst ∨ f ∈ fs) := by
  refine foldlM_factors (c := ⟨fis, []⟩) hacc ?_
  rw [← h]
  congr 1
  funext acc f
  simp only [orKeyError]
  cases dictGet fis f <;> rfl

theorem makeDesign_isDesign {H : Type} [DecidableEq H] {name : F → String} {hash : Subterm F → H}
    {nums : List (F × Nat)} {coder : F → Bool → Except Err (ContrastMatrix K)}
    {fis : List (F × FactorInfo F D K)} {ts : List (Term F)} {d : DesignInfo F D K}
    (h : makeDesign name hash nums coder fis ts = .ok d) :
    ∃ c, d.coding = some c ∧ (∃ names, DesignInfo.make name names (some c) = .ok d) ∧
      (∀ p ∈ c.factorInfos, dictGet fis p.1 = some p.2) ∧
      (∀ f, f ∈ c.factorInfos.map Prod.fst ↔ ∃ t ∈ ts, f ∈ t.factors) := by
  simp only [makeDesign, bind_ok] at h
  obtain ⟨infos, hi, h⟩ := h
  split at h
  · simp only [bind_ok] at h
    obtain ⟨own, ho, names, _, h⟩ := h
    obtain ⟨h1, h2⟩ := designFactors_fold (by simp) ho
    refine ⟨_, (make_good.mp h).coding, ⟨_, h⟩, h1, fun f => ?_⟩
    rw [h2 f]
    simp
  · simp at h

theorem allFactors_mem {tls : List (List (Term F))} {f : F} :
    f ∈ allFactors tls ↔ ∃ tl ∈ tls, ∃ t ∈ tl, f ∈ t.factors := by
  simp [allFactors]

theorem allFactors_nodup (tls : List (List (Term F))) : (allFactors tls).Nodup := List.nodup_dedup _

/-- The list of factor infos that `design_matrix_builders` makes. -/
theorem builders_ok {H : Type} [DecidableEq H] {P : Setting F D K H} (hv : ∀ l, (P.visit l).Perm l)
    {chunks : List D} {tls : List (List (Term F))} {dis : List (DesignInfo F D K)}
    (h : designMatrixBuilders P chunks tls = .ok dis) :
    ∃ eval types infos, P.memorize (P.visit (allFactors tls)) = .ok eval ∧
      examineTypes P.na P.order P.visit (fun f d => do pure (← eval f d).value) chunks (P.visit (allFactors tls)) =
        .ok types ∧
      (∀ f fi, dictGet infos f = some fi → f ∈ allFactors tls ∧
        factorInfo eval types.1 types.2 ((P.visit (allFactors tls)).idxOf f) f = .ok fi) ∧
      List.Forall₂ (fun tl d => makeDesign P.name P.hash types.1 (coderOf P.default types.2) infos tl = .ok d) tls dis := by
  simp only [designMatrixBuilders, bind_ok] at h
  obtain ⟨eval, he, types, ht, infos, hi, hd⟩ := h
  refine ⟨eval, types, infos, he, ht, ?_, mapM_ok.mp hd⟩
  intro f fi hf
  have hmem := dictGet_mem hf
  have hnd : (P.visit (allFactors tls)).Nodup := (hv _).nodup_iff.mpr (allFactors_nodup tls)
  have hall := mapM_ok.mp hi
  obtain ⟨i, hi', hi2⟩ := List.getElem_of_mem hmem
  have hlen := hall.length_eq
  have := List.Forall₂.get hall (i := i) (by omega) hi'
  simp only [List.get_eq_getElem, bind_ok, pure_ok, hi2, List.getElem_zipIdx, Nat.zero_add, Prod.mk.injEq] at this
  obtain ⟨info, h1, h2, h3⟩ := this
  subst h3
  have hlt : i < (P.visit (allFactors tls)).length := by
    have h := hlen
    rw [List.length_zipIdx] at h
    omega
  refine ⟨(hv _).mem_iff.mp (h2 ▸ List.getElem_mem hlt), ?_⟩
  rw [← h2, hnd.idxOf_getElem i hlt]
  exact h1

end Patsy.Build
