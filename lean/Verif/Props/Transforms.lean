import Verif.Lemmas.FactorStates
import Verif.Lemmas.Columns

/-!
# Property C55: stateful transforms in formulas compute what they compute outside of formulas

The examples are in `Props/Builtins.lean`, where these theorems are applied to the transforms of patsy.
-/

namespace Patsy.Props

open Patsy.EvalFactor Patsy.Spec Patsy.Calls Patsy.Tokens Patsy.Memorize Patsy.Passes

variable {D V A S F : Type} [DecidableEq F]

/-! ### All factors together -/

theorem called_eq (e : Event F D) : calledFactor e = eventFactor e := by cases e <;> rfl

theorem lookup_factors {W : Type} {s : F → W} {factors : List F} {f : F} (h : f ∈ factors) :
    (factors.map fun f => (f, s f)).lookup f = some (s f) := by
  induction factors with
  | nil => cases h
  | cons g l ih =>
    rw [List.map_cons, List.lookup_cons]
    by_cases hg : f = g
    · subst hg; simp
    · rw [show (f == g) = false by simpa using hg]
      exact ih ((List.mem_cons.mp h).resolve_left hg)

theorem runCalls_iff (P : Python D V A) (classOf : String → Class S A V) (visit : List String → List String) {factors : List F}
    (es : List (Event F D)) (hes : ∀ e ∈ es, ∀ f, eventFactor e = some f → f ∈ factors) (s : F → FactorState S)
    (states : List (F × FactorState S)) :
    runCalls P classOf visit es (factors.map fun f => (f, s f)) = .ok states ↔
      ∃ s' : F → FactorState S, (∀ f ∈ factors, (callsOf f es).foldlM (factorEvent P classOf visit) (s f) = .ok (s' f)) ∧
        states = factors.map fun f => (f, s' f) := by
  induction es generalizing s with
  | nil =>
    simp only [runCalls, callsOf, List.filter_nil, List.foldlM_nil, pure_eq_ok, Except.ok.injEq]
    constructor
    · intro h; exact ⟨s, fun _ _ => rfl, h.symm⟩
    · rintro ⟨s', h1, rfl⟩
      exact List.map_congr_left fun f hf => by rw [h1 f hf]
  | cons e es ih =>
    have ih' := ih (fun e he => hes e (List.mem_cons_of_mem _ he))
    rw [runCalls, called_eq]
    cases he : eventFactor e with
    | none =>
      simp only
      rw [ih' s]
      simp [callsOf, he]
    | some g =>
      have hg := hes e List.mem_cons_self g he
      simp only [lookup_factors hg]
      rw [bind_eq_ok]
      have hmap : ∀ st, (factors.map fun f => (f, s f)).map (fun x => if x.1 = g then (x.1, st) else x) =
          factors.map fun f => (f, Function.update s g st f) := by
        intro st
        rw [List.map_map]
        apply List.map_congr_left
        intro f _
        simp only [Function.comp]
        by_cases h : f = g
        · subst h; simp
        · rw [if_neg h, Function.update_of_ne h]
      simp only [hmap]
      have hcalls : ∀ f, callsOf f (e :: es) = if f = g then e :: callsOf f es else callsOf f es := by
        intro f
        simp only [callsOf, List.filter_cons, he, Option.some.injEq, decide_eq_true_eq, eq_comm (a := g)]
      constructor
      · rintro ⟨st, h1, h2⟩
        obtain ⟨s', h3, rfl⟩ := (ih' _).mp h2
        refine ⟨s', fun f hf => ?_, rfl⟩
        have := h3 f hf
        rw [hcalls]
        by_cases h : f = g
        · subst h
          rw [Function.update_self] at this
          rw [if_pos rfl, List.foldlM_cons, h1]
          exact this
        · rw [Function.update_of_ne h] at this
          rw [if_neg h]
          exact this
      · rintro ⟨s', h1, rfl⟩
        have h2 := h1 g hg
        rw [hcalls, if_pos rfl, List.foldlM_cons, bind_eq_ok] at h2
        obtain ⟨st, h3, h4⟩ := h2
        refine ⟨st, h3, (ih' _).mpr ⟨s', fun f hf => ?_, rfl⟩⟩
        by_cases h : f = g
        · subst h
          rw [Function.update_self]
          exact h4
        · rw [Function.update_of_ne h]
          have := h1 f hf
          rwa [hcalls, if_neg h] at this

/-- The factors have code with properly nested brackets and without reserved names: `tree f` is the code as a tree. -/
def GoodCode (stateful : String → Bool) (code : F → List Tok) (factors : List F) (tree : F → Code) : Prop :=
  ∀ f ∈ factors, code f = (tree f).render ∧ (tree f).WF ∧ NoReserved stateful (tree f)

section

variable {P : Python D V A} {stateful : String → Bool} {classOf : String → Class S A V} {visit : List String → List String}
  {visitFactors : Nat → Nat → List F → List F} {code : F → List Tok} {factors : List F} {tree : F → Code}

/-- The calls that `_factors_memorize` makes, and the states it begins with. -/
theorem memorizeFactors_runs (hgood : GoodCode stateful code factors tree) (hv : ∀ s, (visit s).Perm s)
    (hvf : ∀ p i s, (visitFactors p i s).Perm s) (hn : factors.Nodup) (chunks : List D) :
    ∃ tr : List (Event F D), memorizeFactors P stateful classOf visit visitFactors code chunks factors =
        runCalls P classOf visit tr (factors.map fun f => (f, stateOf stateful (tree f) (start classOf stateful (tree f)))) ∧
      (∀ f ∈ factors, callsOf f tr =
        Event.needed f :: (List.range ((tree f).depth stateful false)).flatMap (onePass (fun _ => chunks) f)) ∧
      ∀ e ∈ tr, ∀ f, eventFactor e = some f → f ∈ factors := by
  let s0 : F → FactorState S := fun f => stateOf stateful (tree f) (start classOf stateful (tree f))
  have hstart : (factors.mapM fun f => do
      let st ← startFactor stateful classOf (code f)
      pure (f, st)) = .ok (factors.map fun f => (f, s0 f)) := by
    rw [Build.mapM_ok, List.forall₂_map_right_iff]
    apply List.forall₂_same.mpr
    intro f hf
    obtain ⟨h1, h2, h3⟩ := hgood f hf
    rw [h1, startFactor_eq classOf h2 h3]
    rfl
  rw [memorizeFactors, hstart]
  simp only [bind, Except.bind]
  let passes : F → Int := fun f => (((factors.map fun f => (f, s0 f)).lookup f).map
    fun st => (st.memo.passBins.length : Int)).getD 0
  have hpasses : ∀ f ∈ factors, passes f = ((tree f).depth stateful false : Int) := by
    intro f hf
    simp only [passes, lookup_factors hf, Option.map_some, Option.getD_some]
    simp [s0, stateOf, memoFor]
  obtain ⟨tr, n, h1, h2, h3, _, _, h6, h7⟩ := memorize_protocol passes (fun _ => chunks) hvf hn
  have hrounds : n ≤ ((factors.map fun f => (f, s0 f)).map fun x => x.2.memo.passBins.length).foldr max 0 := by
    have hle : ∀ (l : List Nat) x, x ∈ l → x ≤ l.foldr max 0 := by
      intro l
      induction l with
      | nil => intro x hx; cases hx
      | cons y l ih =>
        intro x hx
        rw [List.foldr_cons]
        rcases List.mem_cons.mp hx with rfl | hx
        · exact Nat.le_max_left _ _
        · exact Nat.le_trans (ih x hx) (Nat.le_max_right _ _)
    by_cases hp : ∃ f ∈ factors, 0 < passes f
    · obtain ⟨f, hf, h8⟩ := h7 hp
      apply hle
      rw [List.map_map, List.mem_map]
      refine ⟨f, hf, ?_⟩
      rw [← h8, hpasses f hf]
      simp [s0, stateOf, memoFor]
    · have : n = 0 := h6 fun f hf => by
        have h0 : ¬ 0 < passes f := fun h => hp ⟨f, hf, h⟩
        omega
      omega
  have hcalled : ∀ e ∈ tr, ∀ f, eventFactor e = some f → f ∈ factors := by
    intro e he f hf
    by_contra hnot
    have : e ∈ callsOf f tr := List.mem_filter.mpr ⟨he, by simpa using hf⟩
    rw [h3 f hnot] at this
    cases this
  refine ⟨tr, ?_, fun f hf => by rw [h2 f hf, hpasses f hf, Int.toNat_natCast], hcalled⟩
  show (match factorsMemorize visitFactors passes (fun _ => chunks) _ factors with
    | none => Except.error Err.assertionError
    | some calls => runCalls P classOf visit calls (factors.map fun f => (f, s0 f))) = _
  rw [h1 _ hrounds]

theorem memorizeFactors_iff (hgood : GoodCode stateful code factors tree) (hv : ∀ s, (visit s).Perm s)
    (hvf : ∀ p i s, (visitFactors p i s).Perm s) (hn : factors.Nodup) (chunks : List D) (states : List (F × FactorState S)) :
    memorizeFactors P stateful classOf visit visitFactors code chunks factors = .ok states ↔
      ∃ σ : F → Nat → S, (∀ f ∈ factors, Remembers P classOf chunks (readSource stateful false (tree f)) (σ f)) ∧
        states = factors.map fun f => (f, stateOf stateful (tree f) (σ f)) := by
  obtain ⟨tr, h1, h2, hcalled⟩ := memorizeFactors_runs (P := P) (classOf := classOf) hgood hv hvf hn chunks
  rw [h1]
  let s0 : F → FactorState S := fun f => stateOf stateful (tree f) (start classOf stateful (tree f))
  rw [runCalls_iff P classOf visit tr hcalled]
  have hone : ∀ f ∈ factors, ∀ st', (callsOf f tr).foldlM (factorEvent P classOf visit) (s0 f) = .ok st' ↔
      ∃ σ : Nat → S, Remembers P classOf chunks (readSource stateful false (tree f)) σ ∧ st' = stateOf stateful (tree f) σ := by
    intro f hf st'
    obtain ⟨_, hw, hr⟩ := hgood f hf
    rw [h2 f hf, List.foldlM_cons]
    exact factor_iff P classOf hw hr hv chunks f st'
  constructor
  · rintro ⟨s', h8, rfl⟩
    have : ∀ f, ∃ σ : Nat → S, f ∈ factors → Remembers P classOf chunks (readSource stateful false (tree f)) σ ∧
        s' f = stateOf stateful (tree f) σ := by
      intro f
      by_cases hf : f ∈ factors
      · obtain ⟨σ, h9⟩ := (hone f hf _).mp (h8 f hf)
        exact ⟨σ, fun _ => h9⟩
      · exact ⟨start classOf stateful (tree f), fun h => absurd h hf⟩
    choose σ hσ using this
    exact ⟨σ, fun f hf => (hσ f hf).1, List.map_congr_left fun f hf => by rw [(hσ f hf).2]⟩
  · rintro ⟨σ, h8, rfl⟩
    exact ⟨fun f => stateOf stateful (tree f) (σ f), fun f hf => (hone f hf _).mpr ⟨σ f, h8 f hf, rfl⟩, rfl⟩

/-- The pass of a call is one of those that the factor needs. -/
def Within (stateful : String → Bool) (tree : F → Code) : Event F D → Prop
  | .chunk f p _ => p < (tree f).depth stateful false
  | .finish f p => p < (tree f).depth stateful false
  | _ => True

/-- A call of an event leads to another state of the factor, or fails with a `PatsyError`, or with an error of
`memorize_finish` of a transform. -/
theorem factorEvent_cases (hv : ∀ s, (visit s).Perm s) {c : Code} (hw : c.WF) (hr : NoReserved stateful c) {f : F}
    {ev : Event F D} (hev : eventFactor ev = some f) (hin : Within stateful (fun _ => c) ev) (σ : Nat → S) :
    (∃ σ', factorEvent P classOf visit (stateOf stateful c σ) ev = .ok (stateOf stateful c σ')) ∨
    factorEvent P classOf visit (stateOf stateful c σ) ev = .error .patsyError ∨
    ∃ k g args s e, IsCall stateful c k g args ∧ (classOf g).finish s = .error e ∧
      factorEvent P classOf visit (stateOf stateful c σ) ev = .error e := by
  obtain ⟨bins, hb⟩ := exists_bins (stateful := stateful) (c := c) hv
  have hlt : ∀ p, ∀ k ∈ bins p, k < count stateful c := fun p k hk => (((hb p).1.2 k).mp hk).1
  cases ev with
  | needed g => exact .inl ⟨σ, rfl⟩
  | iterate => cases hev
  | chunk g p d =>
    rw [factorEvent, memorizeChunk, bin_eq σ hin]
    simp only [bind, Except.bind]
    rw [(hb p).2]
    have := hlt p
    generalize bins p = l at this
    induction l generalizing σ with
    | nil => exact .inl ⟨σ, rfl⟩
    | cons k l ih =>
      rw [List.map_cons, List.foldlM_cons, memorizeOne_eq P classOf hw hr d σ (this k (by simp))]
      cases chunkCell (argsFor P classOf stateful c) (clsFor classOf stateful c) d k σ with
      | error e => exact .inr (.inl rfl)
      | ok s => exact ih _ fun k hk => this k (by simp [hk])
  | finish g p =>
    rw [factorEvent, memorizeFinish, bin_eq σ hin]
    simp only [bind, Except.bind]
    rw [(hb p).2]
    have := hlt p
    generalize bins p = l at this
    induction l generalizing σ with
    | nil => exact .inl ⟨σ, rfl⟩
    | cons k l ih =>
      have hk := this k (by simp)
      rw [List.map_cons, List.foldlM_cons, finishOne_eq classOf σ hk]
      cases hf : (clsFor classOf stateful c k).finish (σ k) with
      | error e =>
        obtain ⟨f', args, hc⟩ := isCall_lt stateful hk
        rw [clsFor, fnOf_eq hc] at hf
        exact .inr (.inr ⟨k, f', args, σ k, e, hc, hf, rfl⟩)
      | ok s => exact ih _ fun k hk => this k (by simp [hk])

/-- **C55, C58**, how memorisation fails: with a `PatsyError`, or with the error that `memorize_finish` of a stateful
transform of one of the factors raises. -/
theorem memorize_errors (hgood : GoodCode stateful code factors tree) (hv : ∀ s, (visit s).Perm s)
    (hvf : ∀ p i s, (visitFactors p i s).Perm s) (hn : factors.Nodup) (chunks : List D) {e : Err}
    (h : memorizeFactors P stateful classOf visit visitFactors code chunks factors = .error e) :
    e = .patsyError ∨ ∃ f ∈ factors, ∃ k g args s, IsCall stateful (tree f) k g args ∧ (classOf g).finish s = .error e := by
  obtain ⟨tr, h1, h2, hcalled⟩ := memorizeFactors_runs (P := P) (classOf := classOf) hgood hv hvf hn chunks
  rw [h1] at h
  have hwithin : ∀ ev ∈ tr, Within stateful tree ev := by
    intro ev hev
    have key : ∀ f, eventFactor ev = some f → Within stateful tree ev := by
      intro f hf
      have hmem : ev ∈ callsOf f tr := List.mem_filter.mpr ⟨hev, by simpa using hf⟩
      rw [h2 f (hcalled ev hev f hf)] at hmem
      rcases List.mem_cons.mp hmem with rfl | hmem
      · trivial
      · obtain ⟨p, hp, hmem⟩ := List.mem_flatMap.mp hmem
        rw [List.mem_range] at hp
        rw [onePass, List.mem_append] at hmem
        rcases hmem with hmem | hmem
        · obtain ⟨d, _, rfl⟩ := List.mem_map.mp hmem
          exact hp
        · simp only [List.mem_cons, List.not_mem_nil, or_false] at hmem
          subst hmem
          exact hp
    cases ev with
    | needed g => trivial
    | iterate => trivial
    | chunk g p d => exact key g rfl
    | finish g p => exact key g rfl
  clear h1 h2
  suffices key : ∀ (es : List (Event F D)), (∀ ev ∈ es, Within stateful tree ev) →
      (∀ ev ∈ es, ∀ f, eventFactor ev = some f → f ∈ factors) → ∀ σ : F → Nat → S,
      runCalls P classOf visit es (factors.map fun f => (f, stateOf stateful (tree f) (σ f))) = .error e →
      e = .patsyError ∨ ∃ f ∈ factors, ∃ k g args s, IsCall stateful (tree f) k g args ∧ (classOf g).finish s = .error e from
    key tr hwithin hcalled _ h
  intro es
  induction es with
  | nil => intro _ _ σ h; cases h
  | cons ev es ih =>
    intro hw hc σ h
    have ih' := ih (fun ev h => hw ev (List.mem_cons_of_mem _ h)) (fun ev h => hc ev (List.mem_cons_of_mem _ h))
    rw [runCalls, called_eq] at h
    cases hf : eventFactor ev with
    | none =>
      rw [hf] at h
      exact ih' σ h
    | some f =>
      rw [hf] at h
      have hmem := hc ev (by simp) f hf
      simp only [lookup_factors (s := fun f => stateOf stateful (tree f) (σ f)) hmem] at h
      have hin : Within stateful (fun _ => tree f) ev := by
        have := hw ev (by simp)
        cases ev <;> cases hf <;> exact this
      rcases factorEvent_cases (P := P) (classOf := classOf) hv (hgood f hmem).2.1 (hgood f hmem).2.2 hf hin (σ f) with
        ⟨σ', h1⟩ | h1 | ⟨k, g, args, s, e', h1, h2, h3⟩
      · simp only [h1, bind, Except.bind] at h
        have hmap : ((factors.map fun f => (f, stateOf stateful (tree f) (σ f))).map
            fun x => if x.1 = f then (x.1, stateOf stateful (tree f) σ') else x) =
            factors.map fun g => (g, stateOf stateful (tree g) (Function.update σ f σ' g)) := by
          rw [List.map_map]
          refine List.map_congr_left fun g _ => ?_
          by_cases hg : g = f
          · subst hg; simp
          · simp [hg]
        rw [hmap] at h
        exact ih' _ h
      · simp only [h1, bind, Except.bind, Except.error.injEq] at h
        exact .inl h.symm
      · simp only [h3, bind, Except.bind, Except.error.injEq] at h
        subst h
        exact .inr ⟨f, hmem, k, g, args, s, h1, h2⟩

/-- **C55**, what is memorised.  `_factors_memorize` succeeds exactly if the stateful calls of all factors can be given
states such that each has seen its arguments on the whole data, computed with the final states of the calls inside; and a
factor then evaluates with these states, whatever other factors there are and in whatever order they are visited. -/
theorem memorized_states (hgood : GoodCode stateful code factors tree) (hv : ∀ s, (visit s).Perm s)
    (hvf : ∀ p i s, (visitFactors p i s).Perm s) (hn : factors.Nodup) (chunks : List D) :
    ((∃ states, memorizeFactors P stateful classOf visit visitFactors code chunks factors = .ok states) ↔
      ∀ f ∈ factors, ∃ σ, Remembers P classOf chunks (readSource stateful false (tree f)) σ) ∧
    ∀ states, memorizeFactors P stateful classOf visit visitFactors code chunks factors = .ok states → ∀ f ∈ factors,
      ∃ σ, Remembers P classOf chunks (readSource stateful false (tree f)) σ ∧
        ∀ d, evalMemorized P classOf states f d =
          wrapExc (valueWith P classOf σ (readSource stateful false (tree f)) d) := by
  have hiff := memorizeFactors_iff (P := P) (classOf := classOf) hgood hv hvf hn chunks
  constructor
  · constructor
    · rintro ⟨states, h⟩
      obtain ⟨σ, h1, _⟩ := (hiff states).mp h
      exact fun f hf => ⟨σ f, h1 f hf⟩
    · intro h
      have : ∀ f, ∃ σ : Nat → S, f ∈ factors → Remembers P classOf chunks (readSource stateful false (tree f)) σ := by
        intro f
        by_cases hf : f ∈ factors
        · obtain ⟨σ, h9⟩ := h f hf
          exact ⟨σ, fun _ => h9⟩
        · exact ⟨start classOf stateful (tree f), fun h => absurd h hf⟩
      choose σ hσ using this
      exact ⟨_, (hiff _).mpr ⟨σ, hσ, rfl⟩⟩
  · intro states h f hf
    obtain ⟨σ, h1, rfl⟩ := (hiff states).mp h
    refine ⟨σ f, h1 f hf, fun d => ?_⟩
    obtain ⟨_, hw, hr⟩ := hgood f hf
    have := lookup_factors (s := fun f => stateOf stateful (tree f) (σ f)) hf
    rw [evalMemorized, this]
    exact evalFactorCode_eq P classOf hw hr (σ f) d

end

/-! ### The states are determined -/

theorem number_within {e : Expr String} : ∀ {i : Nat}, ∀ p ∈ sites (number i e), i ≤ p.1.1 ∧ ∀ q ∈ sites p.2, p.1.1 < q.1.1 := by
  intro i p hp
  rw [sites_number, List.mem_iff_getElem?] at hp
  obtain ⟨k, hk⟩ := hp
  simp only [List.getElem?_mapIdx, Option.map_eq_some_iff] at hk
  obtain ⟨r, hr, rfl⟩ := hk
  refine ⟨by simp, fun q hq => ?_⟩
  simp only at hq ⊢
  rw [sites_number, List.mem_iff_getElem?] at hq
  obtain ⟨m, hm⟩ := hq
  simp only [List.getElem?_mapIdx, Option.map_eq_some_iff] at hm
  obtain ⟨_, _, rfl⟩ := hm
  simp only
  omega

theorem sites_trans {L : Type} {e : Expr L} {p q : L × Expr L} (hp : p ∈ sites e) (hq : q ∈ sites p.2) : q ∈ sites e := by
  induction e with
  | nil => cases hp
  | tok t rest ih => exact ih hp
  | group b body rest ihb ihr =>
    rcases List.mem_append.mp hp with h | h
    · exact List.mem_append_left _ (ihb h)
    · exact List.mem_append_right _ (ihr h)
  | call l body rest ihb ihr =>
    rcases List.mem_cons.mp hp with rfl | h
    · exact List.mem_cons_of_mem _ (List.mem_append_left _ hq)
    · rcases List.mem_append.mp h with h | h
      · exact List.mem_cons_of_mem _ (List.mem_append_left _ (ihb h))
      · exact List.mem_cons_of_mem _ (List.mem_append_right _ (ihr h))

theorem number_lt {e : Expr String} {p : (Nat × String) × Expr (Nat × String)} (hp : p ∈ sites (number 0 e)) : p.1.1 < size e := by
  rw [sites_number, List.mem_iff_getElem?] at hp
  obtain ⟨k, hk⟩ := hp
  simp only [List.getElem?_mapIdx, Option.map_eq_some_iff] at hk
  obtain ⟨r, hr, rfl⟩ := hk
  have := (List.getElem?_eq_some_iff.mp hr).1
  rw [sites_length] at this
  simpa using this

/-- The right states are determined by the data and the expression. -/
theorem remembers_unique {P : Python D V A} {classOf : String → Class S A V} {chunks : List D} {e : Expr String} {σ τ : Nat → S}
    (h : Remembers P classOf chunks e σ) (h' : Remembers P classOf chunks e τ) :
    ∀ p ∈ sites (number 0 e), σ p.1.1 = τ p.1.1 := by
  -- the calls inside a call have larger numbers
  suffices hs : ∀ m, ∀ p ∈ sites (number 0 e), size e ≤ p.1.1 + m → σ p.1.1 = τ p.1.1 from
    fun p hp => hs (size e) p hp (by omega)
  intro m
  induction m with
  | zero => intro p hp hm; have := number_lt hp; omega
  | succ m ih =>
    rintro ⟨⟨k, f⟩, body⟩ hp hm
    obtain ⟨as, h1, h2⟩ := h k f body hp
    obtain ⟨as', h1', h2'⟩ := h' k f body hp
    have hargs : ∀ d, P.arguments (stateCall classOf σ) d body = P.arguments (stateCall classOf τ) d body := by
      intro d
      have : P.holes (stateCall classOf σ) d body = P.holes (stateCall classOf τ) d body := by
        apply holes_congr
        intro q hq
        funext a
        rw [stateCall, stateCall, ih q (sites_trans hp hq)]
        have := (number_within _ hp).2 q hq
        simp only at this hm
        omega
      rw [Python.arguments, Python.arguments, this]
    rw [funext hargs] at h1
    rw [h1] at h1'
    cases h1'
    rw [h2] at h2'
    exact Except.ok.inj h2'

theorem valueWith_unique {P : Python D V A} {classOf : String → Class S A V} {chunks : List D} {e : Expr String} {σ τ : Nat → S}
    (h : Remembers P classOf chunks e σ) (h' : Remembers P classOf chunks e τ) (d : D) :
    valueWith P classOf σ e d = valueWith P classOf τ e d := by
  have : P.holes (stateCall classOf σ) d (number 0 e) = P.holes (stateCall classOf τ) d (number 0 e) := by
    apply holes_congr
    intro p hp
    funext a
    rw [stateCall, stateCall, remembers_unique h h' p hp]
  rw [valueWith, valueWith, Python.value, Python.value, this]

/-- **C55**, independence.  How a factor evaluates after memorisation does not depend on the other factors of the formula,
nor on the orders in which sets are visited. -/
theorem memorized_alike {P : Python D V A} {stateful : String → Bool} {classOf : String → Class S A V}
    {visit visit' : List String → List String} {visitFactors visitFactors' : Nat → Nat → List F → List F} {code : F → List Tok}
    {factors factors' : List F} {tree : F → Code}
    (hgood : GoodCode stateful code factors tree) (hgood' : GoodCode stateful code factors' tree)
    (hv : ∀ s, (visit s).Perm s) (hv' : ∀ s, (visit' s).Perm s) (hvf : ∀ p i s, (visitFactors p i s).Perm s)
    (hvf' : ∀ p i s, (visitFactors' p i s).Perm s) (hn : factors.Nodup) (hn' : factors'.Nodup) (chunks : List D)
    {states states' : List (F × FactorState S)}
    (h : memorizeFactors P stateful classOf visit visitFactors code chunks factors = .ok states)
    (h' : memorizeFactors P stateful classOf visit' visitFactors' code chunks factors' = .ok states') :
    ∀ f ∈ factors, f ∈ factors' → ∀ d, evalMemorized P classOf states f d = evalMemorized P classOf states' f d := by
  intro f hf hf' d
  obtain ⟨σ, h1, h2⟩ := (memorized_states hgood hv hvf hn chunks).2 states h f hf
  obtain ⟨τ, h3, h4⟩ := (memorized_states hgood' hv' hvf' hn' chunks).2 states' h' f hf'
  rw [h2 d, h4 d, valueWith_unique h1 h3 d]

/-! ### The training data -/

/-- Calls of the plain functions in a numbered expression. -/
def plainCall (classOf : String → Class S A V) (p : Nat × String) (a : A) : Except Err V := (classOf p.2).call a

theorem plain_number (P : Python D V A) (classOf : String → Class S A V) (d : D) (e : Expr String) (i : Nat) :
    P.holes (plainCall classOf) d (number i e) = P.holes (fun f a => (classOf f).call a) d e := by
  conv_rhs => rw [← number_snd e i]
  rw [holes_map]
  rfl

theorem call_of_remember {c : Class S A V} {a : A} {s : S} (h : remember c [a] = .ok s) : c.call a = c.transform s a := by
  simp only [remember, List.foldlM_cons, List.foldlM_nil, bind_pure, bind_eq_ok] at h
  obtain ⟨s1, h1, h2⟩ := h
  rw [Class.call, h1]
  show (c.finish s1 >>= fun s => c.transform s a) = _
  rw [h2]
  rfl

theorem state_plain {P : Python D V A} {classOf : String → Class S A V} {σ : Nat → S} {d : D} {E : Expr (Nat × String)}
    (h : ∀ k f body, ((k, f), body) ∈ sites E → ∀ a, P.arguments (stateCall classOf σ) d body = .ok a →
      P.arguments (plainCall classOf) d body = .ok a → remember (classOf f) [a] = .ok (σ k)) :
    P.holes (stateCall classOf σ) d E = P.holes (plainCall classOf) d E := by
  induction E with
  | nil => rfl
  | tok t rest ih => exact ih h
  | group b body rest ihb ihr =>
    simp only [Python.holes]
    rw [ihb fun k f b hb => h k f b (List.mem_append_left _ hb), ihr fun k f b hb => h k f b (List.mem_append_right _ hb)]
  | call l body rest ihb ihr =>
    have hb := ihb fun k f b hb => h k f b (List.mem_cons_of_mem _ (List.mem_append_left _ hb))
    have hr := ihr fun k f b hb => h k f b (List.mem_cons_of_mem _ (List.mem_append_right _ hb))
    simp only [Python.holes]
    rw [hb, hr]
    cases hvs : P.holes (plainCall classOf) d body with
    | error e => rfl
    | ok vs =>
      show (P.args body.skel d vs >>= _) = (P.args body.skel d vs >>= _)
      cases ha : P.args body.skel d vs with
      | error e => rfl
      | ok a =>
        show (stateCall classOf σ l a >>= _) = (plainCall classOf l a >>= _)
        have := h l.1 l.2 body List.mem_cons_self a (by rw [Python.arguments, hb, hvs]; exact ha)
          (by rw [Python.arguments, hvs]; exact ha)
        rw [stateCall, plainCall, call_of_remember this]

theorem plain_sites {P : Python D V A} {classOf : String → Class S A V} {d : D} {E : Expr (Nat × String)} {vs : List V}
    (h : P.holes (plainCall classOf) d E = .ok vs) : ∀ k f body, ((k, f), body) ∈ sites E →
      ∃ a s, P.arguments (plainCall classOf) d body = .ok a ∧ remember (classOf f) [a] = .ok s := by
  induction E generalizing vs with
  | nil => intro k f b hb; cases hb
  | tok t rest ih => exact ih h
  | group b body rest ihb ihr =>
    simp only [Python.holes, bind_eq_ok] at h
    obtain ⟨vs, h1, ws, h2, _⟩ := h
    intro k f b hb
    rcases List.mem_append.mp hb with hb | hb
    · exact ihb h1 k f b hb
    · exact ihr h2 k f b hb
  | call l body rest ihb ihr =>
    simp only [Python.holes, bind_eq_ok] at h
    obtain ⟨vs, h1, a, h2, v, h3, ws, h4, _⟩ := h
    intro k f b hb
    rcases List.mem_cons.mp hb with hb | hb
    · simp only [Prod.mk.injEq] at hb
      obtain ⟨rfl, rfl⟩ := hb
      simp only [plainCall, Class.call, bind_eq_ok] at h3
      obtain ⟨s1, h5, s2, h6, _⟩ := h3
      refine ⟨a, s2, by rw [Python.arguments, h1]; exact h2, ?_⟩
      simp only [remember, List.foldlM_cons, List.foldlM_nil, bind_pure, bind_eq_ok]
      exact ⟨s1, h5, h6⟩
    · rcases List.mem_append.mp hb with hb | hb
      · exact ihb h1 k f b hb
      · exact ihr h4 k f b hb

theorem number_inj {e : Expr String} {p q : (Nat × String) × Expr (Nat × String)} (hp : p ∈ sites (number 0 e))
    (hq : q ∈ sites (number 0 e)) (h : p.1.1 = q.1.1) : p = q := by
  rw [sites_number, List.mem_iff_getElem?] at hp hq
  obtain ⟨k, hk⟩ := hp
  obtain ⟨m, hm⟩ := hq
  simp only [List.getElem?_mapIdx, Option.map_eq_some_iff] at hk hm
  obtain ⟨r, hr, rfl⟩ := hk
  obtain ⟨r', hr', rfl⟩ := hm
  simp only [Nat.zero_add] at h
  subst h
  rw [hr] at hr'
  cases hr'
  rfl

theorem remembers_one {P : Python D V A} {classOf : String → Class S A V} {d : D} {e : Expr String} {σ : Nat → S}
    (h : Remembers P classOf [d] e σ) : valueWith P classOf σ e d = plainValue P classOf e d := by
  have : P.holes (stateCall classOf σ) d (number 0 e) = P.holes (fun f a => (classOf f).call a) d e := by
    rw [← plain_number P classOf d e 0]
    apply state_plain
    intro k f body hs a ha _
    obtain ⟨as, h1, h2⟩ := h k f body hs
    rw [List.mapM_cons, ha] at h1
    simp only [List.mapM_nil, pure_bind] at h1
    cases h1
    exact h2
  rw [valueWith, plainValue, Python.value, Python.value, this, skel_number]

theorem remembers_exists {P : Python D V A} {classOf : String → Class S A V} {d : D} {e : Expr String} {v : V}
    (h : plainValue P classOf e d = .ok v) : ∃ σ, Remembers P classOf [d] e σ := by
  obtain ⟨vs, h1, _⟩ := bind_eq_ok.mp h
  rw [← plain_number P classOf d e 0] at h1
  have hex : ∀ k, ∃ s : S, ∀ f body, ((k, f), body) ∈ sites (number 0 e) →
      ∃ a, P.arguments (plainCall classOf) d body = .ok a ∧ remember (classOf f) [a] = .ok s := by
    intro k
    by_cases hk : ∃ f body, ((k, f), body) ∈ sites (number 0 e)
    · obtain ⟨f, body, hs⟩ := hk
      obtain ⟨a, s, h2, h3⟩ := plain_sites h1 k f body hs
      refine ⟨s, fun f' body' hs' => ?_⟩
      have := number_inj hs hs' rfl
      simp only [Prod.mk.injEq, true_and] at this
      obtain ⟨rfl, rfl⟩ := this
      exact ⟨a, h2, h3⟩
    · exact ⟨(classOf "").init, fun f body hs => absurd ⟨f, body, hs⟩ hk⟩
  choose σ hσ using hex
  refine ⟨σ, fun k f body hs => ?_⟩
  obtain ⟨a, h2, h3⟩ := hσ k f body hs
  have hsame : P.holes (stateCall classOf σ) d body = P.holes (plainCall classOf) d body := by
    apply state_plain
    intro k' f' body' hs' a' _ ha'
    obtain ⟨a2, h4, h5⟩ := hσ k' f' body' (sites_trans hs hs')
    rw [h4] at ha'
    cases ha'
    exact h5
  refine ⟨[a], ?_, h3⟩
  rw [List.mapM_cons, Python.arguments, hsame]
  rw [Python.arguments] at h2
  rw [h2]
  rfl

section

variable {P : Python D V A} {stateful : String → Bool} {classOf : String → Class S A V} {visit : List String → List String}
  {visitFactors : Nat → Nat → List F → List F} {code : F → List Tok} {factors : List F} {tree : F → Code}

/-- **C55**, training data.  If the factors are memorised on one data set, then on this data set they have the values that
their code has outside of patsy, where the stateful transforms are ordinary functions (and fail if it fails).  If the code
of all factors has values, the memorisation succeeds. -/
theorem training_values (hgood : GoodCode stateful code factors tree) (hv : ∀ s, (visit s).Perm s)
    (hvf : ∀ p i s, (visitFactors p i s).Perm s) (hn : factors.Nodup) (d : D) :
    (∀ states, memorizeFactors P stateful classOf visit visitFactors code [d] factors = .ok states → ∀ f ∈ factors,
      evalMemorized P classOf states f d = wrapExc (plainValue P classOf (readSource stateful false (tree f)) d)) ∧
    ((∀ f ∈ factors, ∃ v, plainValue P classOf (readSource stateful false (tree f)) d = .ok v) →
      ∃ states, memorizeFactors P stateful classOf visit visitFactors code [d] factors = .ok states) := by
  obtain ⟨h1, h2⟩ := memorized_states (P := P) (classOf := classOf) hgood hv hvf hn [d]
  constructor
  · intro states hs f hf
    obtain ⟨σ, h3, h4⟩ := h2 states hs f hf
    rw [h4 d, remembers_one h3]
  · intro h
    rw [h1]
    intro f hf
    obtain ⟨v, hv⟩ := h f hf
    exact remembers_exists hv

end

/-! ### Data in chunks -/

section

variable {n : Nat} {J : Joins n D V A}

theorem glued_append {vs vs' : Fin n → List V} {l l' : List V} {j : (Fin n → V) → V → Prop} (h : Glued j vs l)
    (h' : Glued j vs' l') : Glued j (fun i => vs i ++ vs' i) (l ++ l') := by
  induction h with
  | nil => simpa using h'
  | cons hv _ ih => exact Glued.cons hv ih

theorem holes_joined {P : Python D V A} {classOf : String → Class S A V} {σ : Nat → S} {d : Fin n → D} {whole : D}
    (hd : J.data d whole) {E : Expr (Nat × String)}
    (hargs : ∀ p ∈ sites E, ∀ d whole vs l a, J.data d whole → Glued J.value vs l →
      (∀ i, P.args p.2.skel (d i) (vs i) = .ok (a i)) → ∃ b, J.args a b ∧ P.args p.2.skel whole l = .ok b)
    (hcls : ∀ p ∈ sites E, ChunkFree J (classOf p.1.2)) {vs : Fin n → List V}
    (h : ∀ i, P.holes (stateCall classOf σ) (d i) E = .ok (vs i)) :
    ∃ l, Glued J.value vs l ∧ P.holes (stateCall classOf σ) whole E = .ok l := by
  induction E generalizing vs with
  | nil =>
    have : vs = fun _ => [] := funext fun i => (Except.ok.inj (h i)).symm
    exact ⟨[], this ▸ Glued.nil, rfl⟩
  | tok t rest ih => exact ih hargs hcls h
  | group b body rest ihb ihr =>
    simp only [Python.holes, bind_eq_ok, pure_eq_ok] at h
    choose us hu ws hw he using h
    obtain ⟨l, h1, h2⟩ := ihb (fun p hp => hargs p (List.mem_append_left _ hp)) (fun p hp => hcls p (List.mem_append_left _ hp)) hu
    obtain ⟨l', h1', h2'⟩ := ihr (fun p hp => hargs p (List.mem_append_right _ hp)) (fun p hp => hcls p (List.mem_append_right _ hp)) hw
    refine ⟨l ++ l', ?_, ?_⟩
    · rw [show vs = fun i => us i ++ ws i from funext fun i => (he i).symm]
      exact glued_append h1 h1'
    · simp only [Python.holes, h2, h2']
      rfl
  | call l body rest ihb ihr =>
    simp only [Python.holes, bind_eq_ok, pure_eq_ok] at h
    choose us hu a ha v hv ws hw he using h
    obtain ⟨m, h1, h2⟩ := ihb (fun p hp => hargs p (List.mem_cons_of_mem _ (List.mem_append_left _ hp)))
      (fun p hp => hcls p (List.mem_cons_of_mem _ (List.mem_append_left _ hp))) hu
    obtain ⟨m', h1', h2'⟩ := ihr (fun p hp => hargs p (List.mem_cons_of_mem _ (List.mem_append_right _ hp)))
      (fun p hp => hcls p (List.mem_cons_of_mem _ (List.mem_append_right _ hp))) hw
    obtain ⟨b, h3, h3'⟩ := hargs (l, body) List.mem_cons_self d whole us m a hd h1 ha
    obtain ⟨w, h4, h4'⟩ := (hcls (l, body) List.mem_cons_self a b h3).1 (σ l.1) v hv
    refine ⟨w :: m', ?_, ?_⟩
    · rw [show vs = fun i => v i :: ws i from funext fun i => (he i).symm]
      exact Glued.cons h4 h1'
    · simp only [Python.holes, h2]
      show (P.args body.skel whole m >>= _) = _
      simp only at h3'
      rw [h3']
      show (stateCall classOf σ l b >>= _) = _
      rw [stateCall, h4', h2']
      rfl

theorem mapM_ofFn {B C : Type} {g : B → Except Err C} {b : Fin n → B} {cs : List C} (h : (List.ofFn b).mapM g = .ok cs) :
    ∃ c : Fin n → C, cs = List.ofFn c ∧ ∀ i, g (b i) = .ok (c i) := by
  have h1 := Build.mapM_ok.mp h
  have hlen : cs.length = n := by rw [← h1.length_eq, List.length_ofFn]
  subst hlen
  refine ⟨fun i => cs[i], (List.ofFn_getElem).symm, fun i => ?_⟩
  have := h1.get (i := i) (by simp) (by simp)
  simpa using this

/-- The calls of the numbered expression are those of the expression. -/
theorem site_skel {e : Expr String} {p : (Nat × String) × Expr (Nat × String)} (hp : p ∈ sites (number 0 e)) :
    ∃ q ∈ sites e, q.1 = p.1.2 ∧ q.2.skel = p.2.skel := by
  rw [sites_number, List.mem_iff_getElem?] at hp
  obtain ⟨k, hk⟩ := hp
  simp only [List.getElem?_mapIdx, Option.map_eq_some_iff] at hk
  obtain ⟨r, hr, rfl⟩ := hk
  exact ⟨r, List.mem_of_getElem? hr, rfl, (skel_number _ _).symm⟩

theorem rowwise_number {P : Python D V A} {e : Expr String} (hrow : RowwiseCode P J e) :
    ∀ p ∈ sites (number 0 e), ∀ d whole vs l a, J.data d whole → Glued J.value vs l →
      (∀ i, P.args p.2.skel (d i) (vs i) = .ok (a i)) → ∃ b, J.args a b ∧ P.args p.2.skel whole l = .ok b := by
  intro p hp
  obtain ⟨q, hq, _, hsk⟩ := site_skel hp
  rw [← hsk]
  exact hrow.2 q hq

theorem chunkFree_number {classOf : String → Class S A V} {e : Expr String}
    (hcls : ∀ p ∈ sites e, ChunkFree J (classOf p.1)) : ∀ p ∈ sites (number 0 e), ChunkFree J (classOf p.1.2) := by
  intro p hp
  obtain ⟨q, hq, hl, _⟩ := site_skel hp
  rw [← hl]
  exact hcls q hq

theorem remembers_joined {P : Python D V A} {classOf : String → Class S A V} {σ : Nat → S} {d : Fin n → D} {whole : D}
    (hd : J.data d whole) {e : Expr String}
    (hrow : RowwiseCode P J e) (hcls : ∀ p ∈ sites e, ChunkFree J (classOf p.1))
    (h : Remembers P classOf (List.ofFn d) e σ) : Remembers P classOf [whole] e σ := by
  intro k f body hs
  obtain ⟨as, h1, h2⟩ := h k f body hs
  obtain ⟨a, rfl, h3⟩ := mapM_ofFn h1
  have hargs := rowwise_number hrow
  have hc := chunkFree_number hcls
  simp only [Python.arguments, bind_eq_ok] at h3
  choose vs hvs ha using h3
  obtain ⟨l, h4, h5⟩ := holes_joined hd (fun p hp => hargs p (sites_trans hs hp)) (fun p hp => hc p (sites_trans hs hp)) hvs
  obtain ⟨b, h6, h7⟩ := hargs _ hs d whole vs l a hd h4 ha
  refine ⟨[b], ?_, (hc _ hs a b h6).2 _ h2⟩
  rw [List.mapM_cons, Python.arguments, h5]
  show (P.args body.skel whole l >>= _) = _
  simp only at h7
  rw [h7]
  rfl

/-- **C55**, data in chunks.  If the data come in chunks, the code works row by row outside of the stateful calls, and the
transforms do not mind the chunks, then after memorisation the factors have on the whole data the values that their code
has outside of patsy; and if they have values on the chunks, these put together are the value on the whole data. -/
theorem chunked_values {P : Python D V A} {stateful : String → Bool} {classOf : String → Class S A V}
    {visit : List String → List String} {visitFactors : Nat → Nat → List F → List F} {code : F → List Tok} {factors : List F}
    {tree : F → Code} (hgood : GoodCode stateful code factors tree) (hv : ∀ s, (visit s).Perm s)
    (hvf : ∀ p i s, (visitFactors p i s).Perm s) (hn : factors.Nodup) {d : Fin n → D} {whole : D} (hd : J.data d whole)
    {states : List (F × FactorState S)}
    (h : memorizeFactors P stateful classOf visit visitFactors code (List.ofFn d) factors = .ok states) {f : F}
    (hf : f ∈ factors) (hrow : RowwiseCode P J (readSource stateful false (tree f)))
    (hcls : ∀ p ∈ sites (readSource stateful false (tree f)), ChunkFree J (classOf p.1)) :
    evalMemorized P classOf states f whole = wrapExc (plainValue P classOf (readSource stateful false (tree f)) whole) ∧
      ∀ v : Fin n → V, (∀ i, evalMemorized P classOf states f (d i) = .ok (v i)) →
        ∃ w, J.value v w ∧ evalMemorized P classOf states f whole = .ok w := by
  obtain ⟨σ, h3, h4⟩ := (memorized_states (P := P) (classOf := classOf) hgood hv hvf hn (List.ofFn d)).2 states h f hf
  have h5 := remembers_joined hd hrow hcls h3
  refine ⟨by rw [h4, remembers_one h5], fun v hval => ?_⟩
  have h6 : ∀ i, valueWith P classOf σ (readSource stateful false (tree f)) (d i) = .ok (v i) := by
    intro i
    have := hval i
    rwa [h4, wrapExc_ok] at this
  simp only [valueWith, Python.value, bind_eq_ok, skel_number] at h6
  choose vs hvs hx using h6
  obtain ⟨l, h7, h8⟩ := holes_joined hd (rowwise_number hrow) (chunkFree_number hcls) hvs
  obtain ⟨w, h9, h10⟩ := hrow.1 d whole vs l v hd h7 hx
  refine ⟨w, h9, ?_⟩
  rw [h4, wrapExc_ok]
  simp only [valueWith, Python.value, bind_eq_ok, skel_number]
  exact ⟨l, h8, h10⟩

end

end Patsy.Props
