import Verif.Spec.Outcome
import Verif.Lemmas.Fit
import Verif.Lemmas.Accept
import Verif.Props.Names

/-!
# Which errors the parts of the pipeline may raise
-/

namespace Patsy.Outcome

open Patsy.Spec Patsy.Build Patsy.Desc Patsy.Cat Patsy.Props Patsy.Redundancy

variable {F D K Cn : Type} [DecidableEq F]

/-! ### Errors of loops -/

theorem bind_error {A B : Type} {x : Except Err A} {f : A → Except Err B} {e : Err} :
    (x >>= f) = .error e ↔ x = .error e ∨ ∃ a, x = .ok a ∧ f a = .error e := by
  cases x <;> simp [bind, Except.bind]

theorem mapM_error {A B : Type} {f : A → Except Err B} {l : List A} {e : Err} (h : l.mapM f = .error e) :
    ∃ a ∈ l, f a = .error e := by
  induction l with
  | nil => cases h
  | cons a l ih =>
    rw [List.mapM_cons, bind_error] at h
    rcases h with h | ⟨b, _, h⟩
    · exact ⟨a, by simp, h⟩
    · rw [bind_error] at h
      rcases h with h | ⟨bs, _, h⟩
      · obtain ⟨a', ha, h⟩ := ih h
        exact ⟨a', List.mem_cons_of_mem _ ha, h⟩
      · cases h

theorem foldlM_error {A S : Type} {f : S → A → Except Err S} {l : List A} {s : S} {e : Err}
    (h : l.foldlM f s = .error e) : ∃ a ∈ l, ∃ s', f s' a = .error e := by
  induction l generalizing s with
  | nil => cases h
  | cons a l ih =>
    rw [List.foldlM_cons, bind_error] at h
    rcases h with h | ⟨b, _, h⟩
    · exact ⟨a, by simp, s, h⟩
    · obtain ⟨a', ha, h⟩ := ih h
      exact ⟨a', List.mem_cons_of_mem _ ha, h⟩

theorem forAll_error {A : Type} {check : A → Except Err Unit} {l : List A} {e : Err} (h : forAll check l = .error e) :
    ∃ a ∈ l, check a = .error e := by
  induction l with
  | nil => cases h
  | cons a l ih =>
    simp only [forAll, bind_error] at h
    rcases h with h | ⟨_, _, h⟩
    · exact ⟨a, by simp, h⟩
    · obtain ⟨a', ha, h⟩ := ih h
      exact ⟨a', List.mem_cons_of_mem _ ha, h⟩

/-! ### Looking at data -/

theorem isCategoricalNA_error {na : NAAction} {v : PyVal} {e : Err} (h : isCategoricalNA na v = .error e) :
    e = .overflowError ∧ ∃ i : Int, v = .int i ∧ 2 ^ 1024 - 2 ^ 970 ≤ i.natAbs := by
  simp only [isCategoricalNA] at h
  split at h
  · rw [bind_error] at h
    rcases h with h | ⟨_, _, h⟩
    · cases v with
      | int i =>
        simp only [scalarIsNan] at h
        split at h
        · rename_i hi
          cases h
          exact ⟨rfl, i, rfl, by simpa [intOverflows] using hi⟩
        · cases h
      | _ => cases h
    · cases h
  · cases h

theorem addLevel_error {set : List PyVal} {v : PyVal} {e : Err} (h : addLevel set v = .error e) : e = .patsyError := by
  simp only [addLevel] at h
  split at h <;> cases h
  rfl

theorem sniffValue_error {na : NAAction} {set : List PyVal} {v : PyVal} {e : Err} (h : sniffValue na set v = .error e) :
    e = .patsyError ∨ e = .overflowError ∧ ∃ i : Int, v = .int i ∧ 2 ^ 1024 - 2 ^ 970 ≤ i.natAbs := by
  simp only [sniffValue, bind_error] at h
  rcases h with h | ⟨b, _, h⟩
  · exact .inr (isCategoricalNA_error h)
  · left
    split at h
    · cases h
    · split at h
      · rw [bind_error] at h
        rcases h with h | ⟨_, _, h⟩ <;> exact addLevel_error h
      · exact addLevel_error h

theorem sniffRaw_error {na : NAAction} {s : Sniffer Cn} {r : Raw} {e : Err} (h : s.sniffRaw na r = .error e) :
    e = .patsyError ∨ e = .overflowError ∧ ∃ kind ndim ncols vals, r = .array kind ndim ncols vals ∧
      ∃ i : Int, PyVal.int i ∈ vals ∧ 2 ^ 1024 - 2 ^ 970 ≤ i.natAbs := by
  cases r with
  | pandas cats codes => cases h
  | array kind ndim ncols vals =>
    simp only [Sniffer.sniffRaw] at h
    split at h
    · cases h
    · split at h
      · cases h; exact .inl rfl
      · rw [bind_error] at h
        rcases h with h | ⟨_, _, h⟩
        · obtain ⟨v, hv, set, h⟩ := foldlM_error h
          rcases sniffValue_error h with h' | ⟨h', i, rfl, hi⟩
          · exact .inl h'
          · exact .inr ⟨h', _, _, _, _, rfl, i, hv, hi⟩
        · cases h

theorem sniff_error {na : NAAction} {s : Sniffer Cn} {v : CatValue Cn} {e : Err} (h : s.sniff na v = .error e) :
    e = .patsyError ∨ e = .overflowError ∧ HasHugeInt v := by
  cases v with
  | raw r =>
    rcases sniffRaw_error h with h' | ⟨h', _, _, _, _, rfl, hi⟩
    · exact .inl h'
    · exact .inr ⟨h', hi⟩
  | box r c l =>
    cases l with
    | some l => cases h
    | none =>
      rcases sniffRaw_error (s := { s with contrast := c }) h with h' | ⟨h', _, _, _, _, rfl, hi⟩
      · exact .inl h'
      · exact .inr ⟨h', hi⟩

theorem examineOne_error {na : NAAction} {eval : F → D → Except Err (CatValue Cn)} {d : D} {s : Exam F Cn} {f : F} {e : Err}
    (h : examineOne na eval d s f = .error e) :
    eval f d = .error e ∨ ∃ v, eval f d = .ok v ∧ (e = .patsyError ∨ e = .overflowError ∧ HasHugeInt v) := by
  simp only [examineOne, bind_error] at h
  rcases h with h | ⟨v, hv, h⟩
  · exact .inl h
  · refine .inr ⟨v, hv, ?_⟩
    split at h
    · rw [bind_error] at h
      rcases h with h | ⟨_, _, h⟩
      · exact sniff_error h
      · cases h
    · rename_i hg
      simp only [Bool.or_eq_true, not_or] at hg
      rw [bind_error] at h
      rcases h with h | ⟨_, _, h⟩
      · left
        unfold countColumns at h
        split at h
        · split at h <;> cases h
          rfl
        · rename_i hno
          exfalso
          revert hg
          cases v with
          | box r c l => simp [guessCategorical]
          | raw r =>
            cases r with
            | pandas _ _ => simp [guessCategorical]
            | array kind ndim ncols vals => exact fun _ => hno _ _ _ _ rfl
      · cases h

theorem examineLoop_error {na : NAAction} {visit : List F → List F} (hv : ∀ l, (visit l).Perm l)
    {eval : F → D → Except Err (CatValue Cn)} {fs : List F} {e : Err} :
    ∀ {ds : List D} {s : Exam F Cn}, Mentions fs s → examineLoop na visit eval ds s = .error e →
      ∃ f ∈ fs, ∃ d ∈ ds, eval f d = .error e ∨
        ∃ v, eval f d = .ok v ∧ (e = .patsyError ∨ e = .overflowError ∧ HasHugeInt v) := by
  intro ds
  induction ds with
  | nil => intro s _ h; cases h
  | cons d ds ih =>
    intro s hs h
    have hneeded : ∀ f ∈ visit s.needed, f ∈ fs := fun f hf => hs.2.2 f ((hv _).mem_iff.mp hf)
    simp only [examineLoop, bind_error] at h
    rcases h with h | ⟨s', h1, h⟩
    · obtain ⟨f, hf, s', h⟩ := foldlM_error h
      exact ⟨f, hneeded f hf, d, by simp, examineOne_error h⟩
    · split at h
      · cases h
      · have hs' : Mentions fs s' := by
          have key : ∀ (l : List F) {s s' : Exam F Cn}, (∀ f ∈ l, f ∈ fs) → Mentions fs s →
              l.foldlM (examineOne na eval d) s = .ok s' → Mentions fs s' := by
            intro l
            induction l with
            | nil => intro s s' _ h1 h2; cases h2; exact h1
            | cons f l ih =>
              intro s s' hl h1 h2
              rw [List.foldlM_cons, bind_ok] at h2
              obtain ⟨s1, h3, h4⟩ := h2
              exact ih (fun g hg => hl g (List.mem_cons_of_mem _ hg)) (examineOne_mentions (hl f (by simp)) h1 h3) h4
          exact key _ hneeded hs h1
        obtain ⟨f, hf, d', hd', h⟩ := ih hs' h
        exact ⟨f, hf, d', List.mem_cons_of_mem _ hd', h⟩

theorem examineTypes_error {na : NAAction} {order : List PyVal → List PyVal} {visit : List F → List F}
    (hv : ∀ l, (visit l).Perm l) {eval : F → D → Except Err (CatValue Cn)} {chunks : List D} {fs : List F} {e : Err}
    (h : examineTypes na order visit eval chunks fs = .error e) :
    ∃ f ∈ fs, ∃ d ∈ chunks, eval f d = .error e ∨
      ∃ v, eval f d = .ok v ∧ (e = .patsyError ∨ e = .overflowError ∧ HasHugeInt v) := by
  simp only [examineTypes, bind_error] at h
  rcases h with h | ⟨_, _, h⟩
  · exact examineLoop_error hv ⟨by simp [dictGet], by simp [dictGet], fun _ h => h⟩ h
  · cases h

/-! ### `categorical_to_int` -/

theorem levelDict_error {levels : List PyVal} {n : Nat} {e : Err} (h : levelDict n levels = .error e) : e = .patsyError := by
  induction levels generalizing n with
  | nil => cases h
  | cons v vs ih =>
    simp only [levelDict] at h
    split at h
    · cases h; rfl
    · rw [bind_error] at h
      rcases h with h | ⟨_, _, h⟩
      · exact ih h
      · cases h

theorem levelDict_keys {levels : List PyVal} {n : Nat} {d : List (Key × Nat)} (h : levelDict n levels = .ok d) {k : Key}
    (hk : lookupKey d k = none) : ∀ l ∈ levels, l.key ≠ some k := by
  induction levels generalizing n d with
  | nil => simp
  | cons v vs ih =>
    simp only [levelDict] at h
    split at h
    · cases h
    · rename_i k' hk'
      rw [bind_ok] at h
      obtain ⟨r, hr, h⟩ := h
      cases h
      have hnone : lookupKey r k = none ∧ k' ≠ k := by
        split at hk
        · rename_i hany
          refine ⟨hk, ?_⟩
          rintro rfl
          simp only [List.any_eq_true, decide_eq_true_eq] at hany
          obtain ⟨p, hp, rfl⟩ := hany
          simp only [lookupKey, Option.map_eq_none_iff, List.find?_eq_none, decide_eq_true_eq] at hk
          exact hk p hp rfl
        · simp only [lookupKey, Option.map_eq_none_iff, List.find?_eq_none, decide_eq_true_eq, List.mem_cons,
            forall_eq_or_imp] at hk ⊢
          exact ⟨hk.2, hk.1⟩
      intro l hl
      rcases List.mem_cons.mp hl with rfl | hl
      · rw [hk']
        simpa using hnone.2
      · exact ih hr hnone.1 l hl

theorem valuesToInt_error {na : NAAction} {d : List (Key × Nat)} {vals : List PyVal} {e : Err}
    (h : vals.mapM (valueToInt na d) = .error e) :
    e = .patsyError ∨ e = .overflowError ∧ ∃ i : Int, PyVal.int i ∈ vals ∧ 2 ^ 1024 - 2 ^ 970 ≤ i.natAbs := by
  obtain ⟨v, hv, h⟩ := mapM_error h
  simp only [valueToInt, bind_error] at h
  rcases h with h | ⟨b, _, h⟩
  · obtain ⟨h1, i, rfl, hi⟩ := isCategoricalNA_error h
    exact .inr ⟨h1, i, hv, hi⟩
  · left
    split at h
    · cases h
    · split at h
      · cases h; rfl
      · split at h <;> cases h
        rfl

theorem arrayToInt_error {na : NAAction} {levels : List PyVal} {kind : Kind} {ndim : Nat} {vals : List PyVal} {e : Err}
    (h : arrayToInt na levels kind ndim vals = .error e) :
    e = .patsyError ∨ (e = .overflowError ∧ ∃ i : Int, PyVal.int i ∈ vals ∧ 2 ^ 1024 - 2 ^ 970 ≤ i.natAbs) ∨
      e = .keyError ∧ kind = .boolDtype ∧ LacksBools levels := by
  simp only [arrayToInt] at h
  have hv : ∀ d, vals.mapM (valueToInt na d) = .error e → e = .patsyError ∨
      (e = .overflowError ∧ ∃ i : Int, PyVal.int i ∈ vals ∧ 2 ^ 1024 - 2 ^ 970 ≤ i.natAbs) ∨
      e = .keyError ∧ kind = .boolDtype ∧ LacksBools levels := fun d h => by
    rcases valuesToInt_error h with h | h
    · exact .inl h
    · exact .inr (.inl h)
  split at h
  · cases h; exact .inl rfl
  · rw [bind_error] at h
    rcases h with h | ⟨d, hd, h⟩
    · exact .inl (levelDict_error h)
    · split at h
      · rename_i hk
        split at h
        · rename_i h0
          cases h
          exact .inr (.inr ⟨rfl, hk, false, levelDict_keys hd h0⟩)
        · split at h
          · rename_i h1
            cases h
            exact .inr (.inr ⟨rfl, hk, true, levelDict_keys hd h1⟩)
          · cases h
          · exact hv d h
        · exact hv d h
      · exact hv d h

theorem categoricalToInt_error {na : NAAction} {levels : List PyVal} {v : CatValue Cn} {e : Err}
    (h : categoricalToInt na levels v = .error e) : Unusable levels v e := by
  cases v with
  | raw r =>
    cases r with
    | pandas cats codes =>
      simp only [categoricalToInt] at h
      split at h <;> cases h
      exact .refused
    | array kind ndim ncols vals =>
      rcases arrayToInt_error h with rfl | ⟨rfl, h'⟩ | ⟨rfl, rfl, h'⟩
      · exact .refused
      · exact .huge h'
      · exact .bools trivial h'
  | box r c l =>
    have hif : ∀ (b : Bool) (x : Except Err (List Int)), (if b then Except.error .patsyError else x) = .error e →
        e = .patsyError ∨ x = .error e := by
      intro b x hx
      cases b with
      | true => left; cases hx; rfl
      | false => exact .inr hx
    rcases hif _ _ h with rfl | h
    · exact .refused
    · cases r with
      | pandas cats codes =>
        rcases arrayToInt_error h with rfl | ⟨rfl, h'⟩ | ⟨rfl, h', _⟩
        · exact .refused
        · exact .huge h'
        · cases h'
      | array kind ndim ncols vals =>
        rcases arrayToInt_error h with rfl | ⟨rfl, h'⟩ | ⟨rfl, rfl, h'⟩
        · exact .refused
        · exact .huge h'
        · exact .bools trivial h'

end Patsy.Outcome
