import Verif.Props.Builtins
import Verif.Props.Fit

/-!
# C54 with stateful transforms: equivalent formulas memorise alike
-/

set_option linter.unusedSectionVars false

namespace Patsy.Props

open Patsy.EvalFactor Patsy.Spec Patsy.Calls Patsy.Tokens Patsy.Build Patsy.Desc Patsy.Contrast

variable {F D K H V A S : Type} [DecidableEq F] [Field K] [DecidableEq H]

/-- The setting memorises with `memorizeFactors`; `see` is what patsy sees of a Python value. -/
def Memorises (P : Setting F D K H) (py : Python D V A) (stateful : String → Bool) (classOf : String → Class S A V)
    (visit : List String → List String) (visitFactors : Nat → Nat → List F → List F) (code : F → List Tok) (chunks : List D)
    (see : V → Seen K) : Prop :=
  ∀ fs, P.memorize fs = (memorizeFactors py stateful classOf visit visitFactors code chunks fs).map
    fun states f d => (evalMemorized py classOf states f d).map see

/-- **C54, C55**: whatever other factors there are, a factor is memorised alike. -/
theorem memorisedAlike {P : Setting F D K H} {py : Python D V A} {stateful : String → Bool} {classOf : String → Class S A V}
    {visit : List String → List String} {visitFactors : Nat → Nat → List F → List F} {code : F → List Tok} {chunks : List D}
    {see : V → Seen K} (hP : Memorises P py stateful classOf visit visitFactors code chunks see) (hw : World P)
    {tree : F → Code} {m m' : ModelDesc F} (hgood : GoodCode stateful code (allFactors [m.lhs, m.rhs]) tree)
    (hgood' : GoodCode stateful code (allFactors [m'.lhs, m'.rhs]) tree)
    (hv : ∀ s, (visit s).Perm s) (hvf : ∀ p i s, (visitFactors p i s).Perm s) : MemorisedAlike P m m' := by
  intro eval eval' h h' f hf hf'
  rw [hP] at h h'
  have hmem := fun (m : ModelDesc F) f => (hw.visits (allFactors [m.lhs, m.rhs])).mem_iff (a := f)
  have hn : ∀ m : ModelDesc F, (P.visit (allFactors [m.lhs, m.rhs])).Nodup := fun m =>
    (hw.visits _).nodup_iff.mpr (allFactors_nodup _)
  cases hs : memorizeFactors py stateful classOf visit visitFactors code chunks (P.visit (allFactors [m.lhs, m.rhs])) with
  | error e => rw [hs] at h; cases h
  | ok states =>
    cases hs' : memorizeFactors py stateful classOf visit visitFactors code chunks
        (P.visit (allFactors [m'.lhs, m'.rhs])) with
    | error e => rw [hs'] at h'; cases h'
    | ok states' =>
      rw [hs] at h
      rw [hs'] at h'
      cases h
      cases h'
      funext d
      simp only
      rw [memorized_alike (fun g hg => hgood g ((hmem m g).mp hg)) (fun g hg => hgood' g ((hmem m' g).mp hg)) hv hv hvf hvf
        (hn m) (hn m') chunks hs hs' f ((hmem m f).mpr hf) ((hmem m' f).mpr hf') d]

/-- **C54, C55**: replacing the right-hand side of a formula by one with the same meaning does not change the fitted values,
also if there are stateful transforms in it. -/
theorem law_same_fit_transforms {K : Type} [Field K] [LinearOrder K] [IsStrictOrderedRing K] {P : Setting F D K H}
    (hw : World P) (hcodes : CodesFit P) {py : Python D V A} {stateful : String → Bool} {classOf : String → Class S A V}
    {visit : List String → List String} {visitFactors : Nat → Nat → List F → List F} {code : F → List Tok} {chunks : List D}
    {see : V → Seen K} (hP : Memorises P py stateful classOf visit visitFactors code chunks see) {tree : F → Code}
    (hcode : ∀ fs, GoodCode stateful code fs tree) (hv : ∀ s, (visit s).Perm s) (hvf : ∀ p i s, (visitFactors p i s).Perm s)
    {isnan : K → Bool} {dataIndex : Option (List Label)} {data : D} {rt : ReturnType}
    {mkFactor : String → Except Err F} {toInt : String → Option Int} {a a' : FTree} (hsame : Same mkFactor toInt a a')
    (y : FTree) {t t' : Table F D K × Table F D K}
    (h : highLevelDesign P isnan dataIndex data rt (.text (fromTree mkFactor toInt (op "~" y a))) = .ok t)
    (h' : highLevelDesign P isnan dataIndex data rt (.text (fromTree mkFactor toInt (op "~" y a'))) = .ok t')
    (hgood : ∀ m, fromTree mkFactor toInt (op "~" y a) = .ok m ∨ fromTree mkFactor toInt (op "~" y a') = .ok m →
      ∀ eval types, Learned P data m eval types → WellCoded P types m.rhs) :
    t.2.mat.nrows = t'.2.mat.nrows ∧ ∀ y v v' : Fin t.2.mat.nrows → K,
      Fitted t.2.mat.nrows t.2.mat.cols y v → Fitted t.2.mat.nrows t'.2.mat.cols y v' → v = v' :=
  law_same_fit hw hcodes hsame y h h' (fun _ _ => memorisedAlike hP hw (hcode _) (hcode _) hv hvf) hgood

/-! ### Example: `x ~ c + x` and `x ~ x + c`, where `c` is `center(x + center(x))` -/

namespace FitSample2

open BuilderSample HighSample FitSample

def tree (f : String) : Code := if f = "c" then nestedCode else plainCode

def rows : Col := colOf [1, 2, 3, 6]

def see (c : Col) : Seen ℚ := number (c.map fun r => r ())

def setting : Setting String Col ℚ (Redundancy.Subterm String) where
  name := id
  hash := id
  visit := List.reverse
  order := id
  default := .coding (Contrast.dummyCode readable) (Contrast.treatment readable none)
  na := {}
  memorize fs := (memorizeFactors samplePython onlyCenter (fun _ => centerClass) id (fun _ _ => id)
    (fun f => (tree f).render) [rows] fs).map
      fun states f d => (evalMemorized samplePython (fun _ => centerClass) states f d).map see

theorem good (fs : List String) : GoodCode onlyCenter (fun f => (tree f).render) fs tree := by
  intro f _
  have h := sample_good (decide (f = "c")) (by cases decide (f = "c") <;> simp)
  by_cases hf : f = "c"
  · subst hf
    simpa [sampleTree, tree] using h
  · simpa [sampleTree, tree, hf] using h

theorem seen {fs : List String} {eval : String → Col → Except Err (Seen ℚ)} (h : setting.memorize fs = .ok eval) {f : String}
    {d : Col} {s : Seen ℚ} (hs : eval f d = .ok s) : ∃ c, s = see c := by
  simp only [setting] at h
  cases hm : memorizeFactors samplePython onlyCenter (fun _ => centerClass) id (fun _ _ => id)
    (fun f => (tree f).render) [rows] fs with
  | error e => rw [hm] at h; cases h
  | ok states =>
    rw [hm] at h
    cases h
    cases he : evalMemorized samplePython (fun _ => centerClass) states f d with
    | error e => simp only [he] at hs; cases hs
    | ok c =>
      simp only [he] at hs
      cases hs
      exact ⟨c, rfl⟩

theorem world : World setting := by
  refine ⟨fun l => l.reverse_perm, ?_⟩
  intro fs eval h f d s hs l hl
  obtain ⟨c, rfl⟩ := seen h hs
  cases hl

theorem codesFit : CodesFit setting := by
  intro fs eval h f d s cats codes hs hv
  obtain ⟨c, rfl⟩ := seen h hs
  cases hv

def treeOne : FTree := op "~" (v "x") (op "+" (v "c") (v "x"))

def treeOther : FTree := op "~" (v "x") (op "+" (v "x") (v "c"))

def modelOne : ModelDesc String := ⟨[⟨["x"]⟩], [⟨[]⟩, ⟨["c"]⟩, ⟨["x"]⟩]⟩

def modelOther : ModelDesc String := ⟨[⟨["x"]⟩], [⟨[]⟩, ⟨["x"]⟩, ⟨["c"]⟩]⟩

theorem parsed_one : fromTree mkEx intEx treeOne = .ok modelOne := by rfl

theorem parsed_other : fromTree mkEx intEx treeOther = .ok modelOther := by rfl

theorem same_trees : Same mkEx intEx (op "+" (v "c") (v "x")) (op "+" (v "x") (v "c")) := by
  have lit : ∀ s, ¬ IsLit "ZERO" (v s) := by intro s; simp [IsLit, v, Infix.Node.token]
  have keep : ∀ s, Keeps mkEx intEx (v s) := by
    intro s m h
    rw [means_unique h (means_v s)]; simp [Meaning.factor]
  exact plus_comm _ _ (lit _) (lit _) (keep _) (keep _)

def result (n : FTree) : Except Err (Table String Col ℚ × Table String Col ℚ) :=
  highLevelDesign setting isnan none rows .matrix (.text (fromTree mkEx intEx n))

theorem one_ok : isOk (result treeOne) = true := by
  unfold result
  rw [parsed_one]
  decide +kernel

theorem other_ok : isOk (result treeOther) = true := by
  unfold result
  rw [parsed_other]
  decide +kernel

/-- No factor is categorical. -/
def numeric (m : ModelDesc String) : Bool :=
  match setting.memorize (setting.visit (allFactors [m.lhs, m.rhs])) with
  | .error _ => true
  | .ok eval =>
    match examineTypes setting.na setting.order setting.visit (fun f d => do pure (← eval f d).value) [rows]
      (setting.visit (allFactors [m.lhs, m.rhs])) with
    | .error _ => true
    | .ok ty => ty.2.isEmpty

theorem numeric_one : numeric modelOne = true := by decide +kernel

theorem numeric_other : numeric modelOther = true := by decide +kernel

theorem wellCoded {m : ModelDesc String} (hm : numeric m = true) {eval : String → Col → Except Err (Seen ℚ)}
    {ty : Types String ℚ} (h : Learned setting rows m eval ty) (ts : List (Term String)) : WellCoded setting ty ts := by
  refine ⟨?_, fun _ _ _ _ h => Redundancy.minusPiece_injective h⟩
  obtain ⟨h1, h2⟩ := h
  simp only [numeric, h1, h2] at hm
  have : ty.2 = [] := by simpa using hm
  intro t _ f _ levels contrast hty
  simp only [typeOf, this] at hty
  cases hd : dictGet ty.1 f with
  | none => rw [hd] at hty; simp [dictGet] at hty
  | some n => rw [hd] at hty; simp at hty

end FitSample2

open FitSample2 HighSample BuilderSample in
/-- Example for `law_same_fit_transforms`. -/
example : ∃ t t', result FitSample2.treeOne = .ok t ∧ result FitSample2.treeOther = .ok t' ∧
    ∀ y v v' : Fin t.2.mat.nrows → ℚ,
      Fitted t.2.mat.nrows t.2.mat.cols y v → Fitted t.2.mat.nrows t'.2.mat.cols y v' → v = v' := by
  refine ⟨_, _, getOk_eq one_ok, getOk_eq other_ok, ?_⟩
  refine (law_same_fit_transforms FitSample2.world FitSample2.codesFit (fun _ => rfl) good (fun _ => .refl _)
    (fun _ _ _ => .refl _) FitSample2.same_trees (v "x") (getOk_eq one_ok) (getOk_eq other_ok) ?_).2
  rintro m (h | h) eval ty hl
  · have hm := Except.ok.inj (h.symm.trans FitSample2.parsed_one)
    subst hm
    exact FitSample2.wellCoded numeric_one hl _
  · have hm := Except.ok.inj (h.symm.trans FitSample2.parsed_other)
    subst hm
    exact FitSample2.wellCoded numeric_other hl _

end Patsy.Props
