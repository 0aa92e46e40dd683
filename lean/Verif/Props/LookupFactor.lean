import Verif.Model.LookupFactor
import Verif.Props.Rename

/-!
# C62 for `LookupFactor`
-/

set_option linter.unusedSectionVars false

namespace Patsy.Props

open Patsy.Build Patsy.Desc Patsy.Spec Patsy.Redundancy Patsy.Cat Patsy.UserUtil

variable {Cn D W K H : Type} [DecidableEq Cn] [DecidableEq H]

/-- **C62**, the constructor: contrast and levels can be given exactly if the factor is forced to be categorical. -/
theorem lookup_make (varname : String) (force : Bool) (contrast : Option Cn) (levels : Option (List PyVal)) :
    (LookupFactor.make varname force contrast levels = .ok ⟨varname, force, contrast, levels⟩ ↔
      (contrast ≠ none ∨ levels ≠ none → force = true)) ∧
    (LookupFactor.make varname force contrast levels ≠ .ok ⟨varname, force, contrast, levels⟩ →
      LookupFactor.make varname force contrast levels = .error .valueError) := by
  cases force <;> cases contrast <;> cases levels <;> simp [LookupFactor.make]

example : LookupFactor.make "a" true (none : Option Nat) (some [.str "u"]) = .ok ⟨"a", true, none, some [.str "u"]⟩ ∧
    LookupFactor.make "a" false (none : Option Nat) (some [.str "u"]) = .error .valueError := ⟨rfl, rfl⟩

theorem sniff_contrast {X : Type} {na : NAAction} {s : Sniffer X} {raw : Raw} {c : Option X} {l : Option (List PyVal)}
    {out : Sniffer X × Bool} (h : s.sniff na (.box raw c l) = .ok out) : out.1.contrast = c := by
  cases l with
  | some l => cases h; rfl
  | none =>
    cases raw with
    | pandas cats codes => cases h; rfl
    | array kind ndim ncols vals =>
      simp only [Sniffer.sniff, Sniffer.sniffRaw] at h
      split at h
      · cases h; rfl
      · split at h
        · cases h
        · rw [bind_ok] at h
          obtain ⟨_, _, h⟩ := h
          cases h
          rfl

/-- **C62**, `force_categorical`: whatever its values look like, such a factor is categorical.  If levels are given, it has
these levels; it has the contrast that is given, and none if none is given (unless the data were made by `C(...)` themselves). -/
theorem lookup_forced {visit : List (LookupFactor Cn) → List (LookupFactor Cn)} {order : List PyVal → List PyVal} {na : NAAction}
    {get : D → String → Except Err W} {see : W → Seen K} {specOf : Cn → Contrast.Spec K} (hv : ∀ l, (visit l).Perm l) {data : D}
    {chunks : List D} {fs : List (LookupFactor Cn)} (hn : fs.Nodup) {r}
    (h : examineTypes na order visit (fun f d => do pure (← f.eval get see specOf d).value) (data :: chunks) fs = .ok r)
    {f : LookupFactor Cn} (hf : f ∈ fs) (hforce : f.forceCategorical = true) :
    ∃ levels c, typeOf r f = some (.categorical levels c) ∧ (∀ l, f.levels = some l → levels = l) ∧
      (f.contrast ≠ none ∨ (∀ v, ∃ raw, (see v).value = .raw raw) → c = f.contrast.map specOf) := by
  have hown := examineTypes_own hv hn h hf
  -- what is sniffed
  have hbox : ∀ v, ∃ raw c l, mkC (see v).value (f.contrast.map specOf) f.levels = .box raw c l ∧
      (∀ l', f.levels = some l' → l = some l') ∧
      (f.contrast ≠ none ∨ (∀ v, ∃ raw, (see v).value = .raw raw) → c = f.contrast.map specOf) := by
    intro v
    cases hs : (see v).value with
    | raw x => exact ⟨x, _, _, rfl, fun l' h => h, fun _ => rfl⟩
    | box x c l =>
      refine ⟨x, _, _, rfl, fun l' h => by rw [h]; rfl, ?_⟩
      rintro (h | h)
      · obtain ⟨c', hc'⟩ := Option.ne_none_iff_exists'.mp h
        rw [hc']
        rfl
      · obtain ⟨raw, hr⟩ := h v
        rw [hs] at hr
        cases hr
  have hsniff : ∀ (v : W) (s : Sniffer (Contrast.Spec K)) out, s.sniff na (mkC (see v).value (f.contrast.map specOf) f.levels) = .ok out →
      (f.contrast ≠ none ∨ (∀ v, ∃ raw, (see v).value = .raw raw) → out.1.contrast = f.contrast.map specOf) ∧
      ∀ l, f.levels = some l → out = (⟨out.1.contrast, some l, s.levelSet⟩, true) := by
    intro v s out h
    obtain ⟨raw, c, l, h1, h2, h3⟩ := hbox v
    rw [h1] at h
    have hc := sniff_contrast h
    refine ⟨fun hx => hc.trans (h3 hx), fun l' hl => ?_⟩
    rw [h2 l' hl] at h
    cases h
    rfl
  simp only [LookupFactor.eval, hforce, if_true] at hown
  -- a sniffer stays a sniffer
  have stays : ∀ (ds : List D) (o o' : Own (Contrast.Spec K)),
      (∃ s, (o = .working (some s) ∧ f.levels = none ∨ o = .finished s) ∧ (∀ l, f.levels = some l → s.levels = some l) ∧
        (f.contrast ≠ none ∨ (∀ v, ∃ raw, (see v).value = .raw raw) → s.contrast = f.contrast.map specOf)) →
      ownLoop na (fun d => do
        let x ← (do
          let value ← get d f.varname
          pure { see value with value := mkC (see value).value (f.contrast.map specOf) f.levels } : Except Err (Seen K))
        pure x.value) ds o = .ok o' →
      ∃ s, (o' = .working (some s) ∧ f.levels = none ∨ o' = .finished s) ∧ (∀ l, f.levels = some l → s.levels = some l) ∧
        (f.contrast ≠ none ∨ (∀ v, ∃ raw, (see v).value = .raw raw) → s.contrast = f.contrast.map specOf) := by
    intro ds
    induction ds with
    | nil => intro o o' ho h; cases h; exact ho
    | cons d ds ih =>
      intro o o' ho h
      rw [ownLoop, List.foldlM_cons, bind_ok] at h
      obtain ⟨o1, h1, h2⟩ := h
      refine ih o1 o' ?_ h2
      obtain ⟨s, ⟨rfl, hl⟩ | rfl, hs⟩ := ho
      · simp only [ownStep, Option.isSome_some, Bool.true_or, if_true, bind_ok, pure_ok] at h1
        obtain ⟨_, ⟨_, ⟨v, _, rfl⟩, rfl⟩, r, hr, rfl⟩ := h1
        obtain ⟨h3, h4⟩ := hsniff v _ _ hr
        split
        · exact ⟨_, .inr rfl, (fun l h => by rw [hl] at h; cases h), h3⟩
        · exact ⟨_, .inl ⟨rfl, hl⟩, (fun l h => by rw [hl] at h; cases h), h3⟩
      · cases h1
        exact ⟨s, .inr rfl, hs⟩
  rw [ownLoop, List.foldlM_cons] at hown
  cases hg : get data f.varname with
  | error e => rw [hg] at hown; simp only [ownStep, err_bind] at hown; cases hown
  | ok v =>
    rw [hg] at hown
    obtain ⟨raw, c, l, hb, _, _⟩ := hbox v
    have hguess : guessCategorical (mkC (see v).value (f.contrast.map specOf) f.levels) = true := by rw [hb]; rfl
    simp only [ownStep, ok_bind, pure, Except.pure, hguess, Bool.or_true, if_true, Option.getD_none] at hown
    cases hsn : Sniffer.sniff na {} (mkC (see v).value (f.contrast.map specOf) f.levels) with
    | error e => rw [hsn] at hown; cases hown
    | ok out =>
      rw [hsn, ok_bind, bind_ok] at hown
      obtain ⟨o, ho, hres⟩ := hown
      have hres' : ownResult order o = typeOf r f := Except.ok.inj hres
      rw [ok_bind] at ho
      rw [← hres']
      obtain ⟨h3, h4⟩ := hsniff v _ _ hsn
      obtain ⟨s, hs, hl, hc⟩ := stays chunks _ o (by
        refine ⟨out.1, ?_, fun l hl => by rw [h4 l hl], h3⟩
        cases hlev : f.levels with
        | none =>
          split
          · exact .inr rfl
          · exact .inl ⟨rfl, rfl⟩
        | some l =>
          right
          rw [h4 l hlev]
          rfl) ho
      have htype : ownResult order o = some (.categorical (s.levelsContrast order).1 (s.levelsContrast order).2) := by
        rcases hs with ⟨rfl, _⟩ | rfl <;> rfl
      refine ⟨_, _, htype, fun l' hl' => ?_, hc⟩
      simp only [Sniffer.levelsContrast, hl l' hl']

/-! ### `LookupFactor`s and formulas -/

section Text

open Patsy.Tokens Patsy.EvalFactor Patsy.Program Patsy.Calls

variable {V A S H' : Type} [DecidableEq H']

/-- Without stateful calls there is nothing to remember, and the value is that of ordinary Python. -/
theorem no_calls {P : Python D V A} {classOf : String → Class S A V} {e : Expr String} (h : sites e = []) (σ : Nat → S) (d : D) :
    valueWith P classOf σ e d = plainValue P classOf e d := by
  have hs : sites (number 0 e) = [] := by rw [sites_number, h]; rfl
  have hh : P.holes (stateCall classOf σ) d (number 0 e) = P.holes (fun f a => (classOf f).call a) d e := by
    rw [← plain_number P classOf d e 0]
    exact holes_congr P d fun p hp => by rw [hs] at hp; cases hp
  simp only [valueWith, plainValue, Python.value, hh, skel_number]

/-- The settings for factors given by their code and for `LookupFactor`s with the same values are alike. -/
theorem lookup_alike {I : Interp D V A S K H} (hI : Sane I) {used : String → Prop} {φ : String → LookupFactor Cn}
    (hφ : Function.Injective φ) (hgood : ∀ fs : List String, (∀ f ∈ fs, used f) →
      GoodCode I.stateful I.code fs fun f => (readTokens (I.code f)).getD .nil)
    (hcalls : ∀ f, used f → sites (I.expression f) = []) (hnan : I.na.nan = true)
    {hash : Subterm (LookupFactor Cn) → H'} (hhash : Function.Injective hash)
    {visit : List (LookupFactor Cn) → List (LookupFactor Cn)} (hvisit : ∀ l, (visit l).Perm l) {order : List PyVal → List PyVal}
    (horder : ∀ l, (order l).Perm l) {get : D → String → Except Err W} {see : W → Seen K} {specOf : Cn → Contrast.Spec K}
    (hvalue : ∀ f, used f → ∀ d, ∃ s, I.value d f = .ok s ∧ (φ f).eval get see specOf d = .ok s) (chunks : List D) :
    Alike used φ (I.setting chunks) (lookupSetting hash visit order I.default I.na get see specOf) ∧
      MemoriseAlike used φ (I.setting chunks) (lookupSetting hash visit order I.default I.na get see specOf) := by
  refine ⟨⟨hφ, hI.visits, hvisit, ?_, .inr ⟨hnan, hI.order, horder⟩, rfl, rfl, ?_⟩, ?_⟩
  · intro s t
    have := Redundancy.renameSet_injective hφ
    exact ⟨fun h => congrArg _ (congrArg _ (hI.hash h)), fun h => congrArg _ (this (hhash h))⟩
  · intro fs gs hu hn hp eval eval' h h' f hf
    cases h'
    cases hm : memorizeFactors I.python I.stateful I.classOf I.visitNames I.visitFactors I.code chunks fs with
    | error e => simp only [Interp.setting, hm] at h; cases h
    | ok states =>
      simp only [Interp.setting, hm] at h
      cases h
      funext d
      obtain ⟨σ, _, hσ⟩ := (memorized_states (P := I.python) (classOf := I.classOf) (hgood fs hu) hI.names hI.factors hn chunks).2
        states hm f hf
      obtain ⟨s, h1, h2⟩ := hvalue f (hu f hf) d
      refine h2.trans ?_
      show _ = (evalMemorized I.python I.classOf states f d).map I.see
      have hc := hcalls f (hu f hf)
      rw [Interp.expression] at hc
      rw [hσ d, no_calls hc]
      simp only [Interp.value, Interp.expression] at h1
      cases hv : plainValue I.python I.classOf (readSource I.stateful false ((readTokens (I.code f)).getD .nil)) d with
      | error e => rw [hv] at h1; cases h1
      | ok v => rw [hv] at h1; exact h1.symm
  · intro fs gs hu hn hp
    have := (memorized_states (P := I.python) (classOf := I.classOf) (hgood fs hu) hI.names hI.factors hn chunks).1
    have hmap : ∀ {X Y : Type} (x : Except Err X) (g : X → Y), (∃ y, x.map g = .ok y) ↔ ∃ y, x = .ok y := by
      intro X Y x g
      cases x <;> simp [Except.map]
    simp only [Interp.setting, hmap, this]
    refine ⟨fun _ => ⟨_, rfl⟩, fun _ f hf => ⟨start I.classOf I.stateful ((readTokens (I.code f)).getD .nil), ?_⟩⟩
    intro k g body hs
    have h0 := hcalls f (hu f hf)
    rw [Interp.expression] at h0
    rw [sites_number, h0] at hs
    cases hs

/-- **C62**, `LookupFactor`.  A model whose factors are `LookupFactor`s gives what the model of the corresponding Python
expressions (without stateful transforms) gives: both or none of them succeed, and the matrices, the labels of the rows, the columns
of the terms, and the names are the same. -/
theorem lookup_formula [Mul K] [One K] {I : Interp D V A S K H} (hI : Sane I) {m : ModelDesc String} {φ : String → LookupFactor Cn}
    (hφ : Function.Injective φ) (hname : ∀ f, (φ f).varname = f)
    (hgood : GoodCode I.stateful I.code (allFactors [m.lhs, m.rhs]) fun f => (readTokens (I.code f)).getD .nil)
    (hcalls : ∀ f ∈ allFactors [m.lhs, m.rhs], sites (I.expression f) = []) (hnan : I.na.nan = true)
    {hash : Subterm (LookupFactor Cn) → H'} (hhash : Function.Injective hash)
    {visit : List (LookupFactor Cn) → List (LookupFactor Cn)} (hvisit : ∀ l, (visit l).Perm l) {order : List PyVal → List PyVal}
    (horder : ∀ l, (order l).Perm l) {get : D → String → Except Err W} {see : W → Seen K} {specOf : Cn → Contrast.Spec K}
    (hvalue : ∀ f ∈ allFactors [m.lhs, m.rhs], ∀ d, ∃ s, I.value d f = .ok s ∧ (φ f).eval get see specOf d = .ok s)
    {isnan : K → Bool} {dataIndex : Option (List Build.Label)} {data : D} {rt : ReturnType} :
    let one := highLevelDesign (I.setting [data]) isnan dataIndex data rt (.desc m)
    let other := highLevelDesign (lookupSetting hash visit order I.default I.na get see specOf) isnan dataIndex data rt
      (.desc (renameModel φ m))
    ((∃ t, one = .ok t) ↔ ∃ t, other = .ok t) ∧ ∀ t t', one = .ok t → other = .ok t' →
      TableAlike φ t.1 t'.1 ∧ TableAlike φ t.2 t'.2 ∧ t'.1.info.columnIndexes = t.1.info.columnIndexes ∧
        t'.2.info.columnIndexes = t.2.info.columnIndexes ∧ t'.1.info.termNameSlices = t.1.info.termNameSlices ∧
        t'.2.info.termNameSlices = t.2.info.termNameSlices := by
  intro one other
  obtain ⟨hA, hM⟩ := lookup_alike hI hφ (used := (· ∈ allFactors [m.lhs, m.rhs]))
    (fun fs hfs f hf => hgood f (hfs f hf)) hcalls hnan hhash hvisit horder hvalue [data]
  have hN : NamedAlike φ (I.setting [data]) (lookupSetting hash visit order I.default I.na get see specOf) := hname
  refine ⟨alike_success hA hM hN rfl rfl (fun _ h => h), fun t t' h h' => ?_⟩
  obtain ⟨h1, h2, h3⟩ := alike_matrices hA rfl rfl (fun _ h => h) h h'
  exact ⟨h1, h2, h3 hN⟩

end Text

namespace LookupSample

open ProgramSample FitSample FitSample2 BuilderSample Patsy.Program Patsy.EvalFactor

/-- `x ~ 1 + x`. -/
def model : ModelDesc String := ⟨[⟨["x"]⟩], [⟨[]⟩, ⟨["x"]⟩]⟩

def factor (f : String) : LookupFactor Unit := { varname := f }

def get (d : Col) (v : String) : Except Err Col := if v = "x" then .ok d else .error .keyError

def setting : Setting (LookupFactor Unit) Col ℚ (Subterm (LookupFactor Unit)) :=
  lookupSetting id id List.reverse interp.default interp.na get FitSample2.see (fun _ => interp.default)

def one := highLevelDesign (interp.setting [FitSample2.rows]) FitSample.isnan none FitSample2.rows .matrix (.desc model)

def other := highLevelDesign setting FitSample.isnan none FitSample2.rows .matrix (.desc (renameModel factor model))

theorem one_ok : isOk one = true := by decide +kernel

theorem other_ok : isOk other = true := by decide +kernel

theorem only_x : allFactors [model.lhs, model.rhs] = ["x"] := by decide

theorem read_x : (readTokens (interp.code "x")).getD .nil = .tok (.name, "x") .nil := by decide +kernel

theorem code_x : interp.code "x" = [(.name, "x")] := by decide +kernel

end LookupSample

open LookupSample in
/-- Example for `lookup_formula`: `x ~ 1 + x`. -/
example : ∃ t t', one = .ok t ∧ other = .ok t' ∧ TableAlike factor t.2 t'.2 ∧ t'.2.info.columnNames = ["Intercept", "x"] := by
  have key := lookup_formula ProgramSample.real.toSane (m := model) (φ := factor) (fun _ _ h => congrArg (·.varname) h) (fun _ => rfl)
    (by
      rw [only_x]
      intro f hf
      rw [List.mem_singleton.mp hf]
      beta_reduce
      rw [read_x, code_x]
      exact ⟨rfl, by simp [Patsy.Calls.Code.WF]; decide, by intro k g args hc; simp [IsCall, Patsy.Calls.Code.calls, Patsy.Calls.Code.args?] at hc⟩)
    (by
      rw [only_x]
      intro f hf
      rw [List.mem_singleton.mp hf, Patsy.Program.Interp.expression, read_x]
      rfl) rfl
    (hash := id) (fun _ _ h => h) (visit := id) (fun _ => .refl _) (order := List.reverse) (fun l => l.reverse_perm)
    (get := LookupSample.get) (see := FitSample2.see) (specOf := fun _ => ProgramSample.interp.default)
    (by
      rw [only_x]
      intro f hf d
      rw [List.mem_singleton.mp hf, Patsy.Program.Interp.value, Patsy.Program.Interp.expression, read_x]
      exact ⟨_, rfl, rfl⟩) (isnan := FitSample.isnan) (dataIndex := none) (data := FitSample2.rows) (rt := .matrix)
  exact ⟨_, _, getOk_eq one_ok, getOk_eq other_ok, (key.2 _ _ (getOk_eq one_ok) (getOk_eq other_ok)).2.1, by decide +kernel⟩

namespace LookupSample

open BuilderSample

/-- Numbers that are to be levels. -/
def forced : LookupFactor Unit := { varname := "v", forceCategorical := true, levels := some [.int 2, .int 1] }

def seeInts (l : List Int) : Seen ℚ := ⟨.raw (.array .number 1 1 (l.map .int)), [], none⟩

def examined := examineTypes {} id id (fun f d => do pure (← f.eval (fun d _ => .ok d) seeInts (fun _ : Unit => ProgramSample.interp.default) d).value)
  [[1, 2], [1]] [forced]

end LookupSample

open LookupSample in
/-- Example for `lookup_forced`. -/
example : ∃ r, examined = .ok r ∧ ∃ levels c, typeOf r forced = some (.categorical levels c) ∧ levels = [.int 2, .int 1] := by
  have h : isOk examined = true := by decide +kernel
  obtain ⟨l, c, h1, h2⟩ := lookup_forced (visit := id) (f := forced) (fun _ => .refl _)
    (List.nodup_singleton forced) (getOk_eq h) (List.mem_singleton_self forced) rfl
  exact ⟨_, getOk_eq h, l, c, h1, h2.1 _ rfl⟩

end Patsy.Props
