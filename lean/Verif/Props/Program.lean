import Verif.Lemmas.Program
import Verif.Props.Outcome

/-!
# C59: from the text of a formula to the matrices

This puts together the theorems about tokens and grammar (C05, C13), about what formulas mean (C53), about stateful
transforms (C55), about types (C47), missing values (C15) and ranks (C03, C54), and about errors (C58).
-/

set_option linter.unusedSectionVars false

namespace Patsy.Props

open Patsy.Tokens Patsy.Desc Patsy.EvalFactor Patsy.Build Patsy.Cat Patsy.Spec Patsy.Calls Patsy.Formula Patsy.Program

variable {D V A S K H : Type} [DecidableEq H]

/-! ### The setting -/

theorem interp_seen {I : Interp D V A S K H} {chunks : List D} {fs : List String} {eval : String → D → Except Err (Seen K)}
    (h : (I.setting chunks).memorize fs = .ok eval) {f : String} {d : D} {s : Seen K} (hs : eval f d = .ok s) :
    ∃ v, s = I.see v := by
  simp only [Interp.setting] at h
  cases hm : memorizeFactors I.python I.stateful I.classOf I.visitNames I.visitFactors I.code chunks fs with
  | error e => rw [hm] at h; cases h
  | ok states =>
    rw [hm] at h
    cases h
    cases he : evalMemorized I.python I.classOf states f d with
    | error e => simp only [he] at hs; cases hs
    | ok v =>
      simp only [he] at hs
      cases hs
      exact ⟨v, rfl⟩

theorem interp_world {I : Interp D V A S K H} (hI : Sane I) (chunks : List D) : World (I.setting chunks) where
  visits := hI.visits
  fits := by
    intro fs eval h f d s hs
    obtain ⟨v, rfl⟩ := interp_seen h hs
    exact hI.fits v

theorem interp_codes {I : Interp D V A S K H} (hI : Sane I) (chunks : List D) : CodesFit (I.setting chunks) := by
  intro fs eval h f d s cats codes hs hv
  obtain ⟨v, rfl⟩ := interp_seen h hs
  exact hI.codes v cats codes hv

theorem interp_real {I : Interp D V A S K H} (hI : Real I) (chunks : List D) : RealWorld (I.setting chunks) where
  toWorld := interp_world hI.toSane chunks
  codes := interp_codes hI.toSane chunks
  rows := by
    intro fs eval h f d s hs
    obtain ⟨v, rfl⟩ := interp_seen h hs
    exact hI.rows v
  default := hI.default
  contrasts := by
    intro fs eval h f d s hs c hc
    obtain ⟨v, rfl⟩ := interp_seen h hs
    exact hI.contrasts v c hc

/-- The code of the factors is fine. -/
theorem fine_good {I : Interp D V A S K H} {fin : RawEnd} {raw : List PyTok} (hfine : FineText I fin raw) {fs : List String}
    (hfs : ∀ f ∈ fs, ∃ e, Embedded fin raw e f ∧ I.code f = plainTokens e) :
    GoodCode I.stateful I.code fs fun f => (readTokens (I.code f)).getD .nil := by
  intro f hf
  obtain ⟨e, h1, h2⟩ := hfs f hf
  obtain ⟨_, h3, h4⟩ := hfine e f h1
  obtain ⟨c, h5, h6⟩ := nested_iff_tree.mp h3
  have h7 : (readTokens (I.code f)).getD .nil = c := by rw [h2, ← h6, readTokens_render h5, Option.getD_some]
  simp only [h7]
  exact ⟨h2.trans h6.symm, h5, h4 c h5 h6⟩

/-- Memorised factors have on the data the values of their code. -/
theorem interp_value {I : Interp D V A S K H} (hI : Sane I) {fs : List String} (hn : fs.Nodup)
    (hgood : GoodCode I.stateful I.code fs fun f => (readTokens (I.code f)).getD .nil) {data : D}
    {eval : String → D → Except Err (Seen K)} (h : (I.setting [data]).memorize fs = .ok eval) {f : String} (hf : f ∈ fs) :
    (∃ s, I.value data f = .ok s ∧ eval f data = .ok s) ∨
      (∃ e, I.value data f = .error e) ∧ eval f data = .error .patsyError := by
  simp only [Interp.setting] at h
  cases hm : memorizeFactors I.python I.stateful I.classOf I.visitNames I.visitFactors I.code [data] fs with
  | error e => rw [hm] at h; cases h
  | ok states =>
    rw [hm] at h
    cases h
    have := (training_values (P := I.python) (classOf := I.classOf) hgood hI.names hI.factors hn data).1 states hm f hf
    simp only [this, Interp.value, Interp.expression]
    cases plainValue I.python I.classOf (readSource I.stateful false ((readTokens (I.code f)).getD .nil)) data with
    | error e => exact .inr ⟨⟨e, rfl⟩, rfl⟩
    | ok v => exact .inl ⟨_, rfl, rfl⟩

/-- The types are those that the values show. -/
theorem interp_typed {I : Interp D V A S K H} (hI : Sane I) {m : ModelDesc String} {data : D}
    (hgood : GoodCode I.stateful I.code (I.visit (allFactors [m.lhs, m.rhs])) fun f => (readTokens (I.code f)).getD .nil)
    {eval : String → D → Except Err (Seen K)} {types : Types String K}
    (h : Learned (I.setting [data]) data m eval types) : Typed I data m types := by
  intro f hf
  have hn : (I.visit (allFactors [m.lhs, m.rhs])).Nodup := (hI.visits _).nodup_iff.mpr (allFactors_nodup _)
  have hf' := (hI.visits _).mem_iff.mpr hf
  have hown := examineTypes_own (visit := I.visit) hI.visits hn h.2 hf'
  rcases interp_value hI hn hgood h.1 hf' with ⟨s, h1, h2⟩ | ⟨_, h2⟩
  · have := examined_alone (visit := I.visit) hI.visits hn h.2 hf' (vs := [s.value]) (by
      simp [h2, bind, Except.bind, pure, Except.pure])
    obtain ⟨T, h3, h4⟩ := examined_shown hI.order this
    exact ⟨s, T, h1, h3, h4⟩
  · simp [ownLoop, ownStep, h2, bind, Except.bind] at hown

theorem interp_cell {I : Interp D V A S K H} (hI : Sane I) {m : ModelDesc String} {data : D}
    (hgood : GoodCode I.stateful I.code (I.visit (allFactors [m.lhs, m.rhs])) fun f => (readTokens (I.code f)).getD .nil)
    {eval : String → D → Except Err (Seen K)} {types : Types String K}
    (h : Learned (I.setting [data]) data m eval types) :
    factorCell I.na types (fun f => eval f data) = factorCell I.na types (I.value data) := by
  funext r f
  have hn : (I.visit (allFactors [m.lhs, m.rhs])).Nodup := (hI.visits _).nodup_iff.mpr (allFactors_nodup _)
  by_cases hf : f ∈ I.visit (allFactors [m.lhs, m.rhs])
  · rcases interp_value hI hn hgood h.1 hf with ⟨s, h1, h2⟩ | ⟨⟨e, h1⟩, h2⟩
    · simp only [factorCell, h1, h2]
    · simp only [factorCell, h1, h2]
      split <;> simp_all
  · simp only [factorCell, typeOf_none (visit := I.visit) hI.visits h.2 hf]

/-- What comes out of the pipeline. -/
theorem text_core [Field K] {I : Interp D V A S K H} (hI : Sane I) {isnan : K → Bool} {dataIndex : Option (List Build.Label)}
    {data : D} {rt : ReturnType} {fin : RawEnd} {raw : List PyTok} (hfine : FineText I fin raw)
    {t : Table String D K × Table String D K}
    (h : highLevelDesign (I.setting [data]) isnan dataIndex data rt (.text (I.fromFormula fin raw)) = .ok t) :
    ∃ m types n, StandsFor I dataIndex data fin raw m types n ∧ IsMatrixOf I isnan data m types n m.lhs t.1.mat ∧
      IsMatrixOf I isnan data m types n m.rhs t.2.mat := by
  cases hm : I.fromFormula fin raw with
  | error e =>
    rw [hm] at h
    simp only [highLevelDesign, tryIncrBuilders] at h
    split at h <;> cases h
  | ok m =>
    rw [hm] at h
    obtain ⟨hmean, hnorm, hcode⟩ := fromFormula_ok hfine hm
    have hsound : Sound (K := K) data (.text (.ok m)) := by
      intro m' hm' t ht
      cases hm'
      rcases List.mem_append.mp ht with ht | ht
      · exact hnorm.1.nodup t ht
      · exact hnorm.2.nodup t ht
    obtain ⟨eval, types, n, hl, hrows, hall⟩ :=
      model_on_data (interp_world hI [data]) (interp_codes hI [data]) hsound rfl h
    have hgood : GoodCode I.stateful I.code (I.visit (allFactors [m.lhs, m.rhs])) fun f => (readTokens (I.code f)).getD .nil :=
      fine_good hfine fun f hf => hcode f ((hI.visits _).mem_iff.mp hf)
    have hcell := interp_cell hI hgood hl
    have hkept : modelRows (I.setting [data]) isnan data m eval types n = Program.completeRows I isnan data m types n := by
      unfold modelRows Program.completeRows keptCells
      rw [← hcell]
      rfl
    rw [hkept] at hall
    have hrows' : RowCount I.na types (I.value data) (allFactors [m.lhs, m.rhs]) dataIndex n := by
      unfold RowCount at hrows ⊢
      rw [← hcell]
      exact hrows
    have hpart : ∀ ts mat, (ts, mat) = (m.lhs, t.1.mat) ∨ (ts, mat) = (m.rhs, t.2.mat) →
        IsMatrixOf I isnan data m types n ts mat := by
      intro ts mat hts
      obtain ⟨h1, h2⟩ := hall ts mat hts
      exact ⟨h1, fun hg => h2 ⟨hg, fun _ _ _ _ h => Redundancy.minusPiece_injective (hI.hash h)⟩⟩
    exact ⟨m, types, n, ⟨hmean, hnorm, hcode, interp_typed hI hgood hl, hrows'⟩, hpart _ _ (.inl rfl), hpart _ _ (.inr rfl)⟩

/-- **C59**.  What `dmatrices` returns for the text of a formula.  The text is grammatical and means certain sets of terms;
the factors are the Python expressions in it; each factor has the value that its code has in ordinary Python, and the type
that this value shows; and each matrix has a row for every complete row of the data, with columns that span the functions
described by the terms, and that are independent if the data are rich enough. -/
theorem text_to_matrices [Field K] {I : Interp D V A S K H} (hI : Sane I) {isnan : K → Bool}
    {dataIndex : Option (List Build.Label)} {data : D} {rt : ReturnType} {fin : RawEnd} {raw : List PyTok}
    (hfine : FineText I fin raw) {t : Table String D K × Table String D K}
    (h : I.dmatrices isnan dataIndex data rt fin raw = .ok t) :
    ∃ m types n, StandsFor I dataIndex data fin raw m types n ∧ IsMatrixOf I isnan data m types n m.lhs t.1.mat ∧
      IsMatrixOf I isnan data m types n m.rhs t.2.mat := by
  simp only [Interp.dmatrices, Build.dmatrices, bind_ok] at h
  obtain ⟨t', h1, h2⟩ := h
  split at h2 <;> cases h2
  exact text_core hI hfine h1

/-- **C59** for `dmatrix`. -/
theorem text_to_matrix [Field K] {I : Interp D V A S K H} (hI : Sane I) {isnan : K → Bool}
    {dataIndex : Option (List Build.Label)} {data : D} {rt : ReturnType} {fin : RawEnd} {raw : List PyTok}
    (hfine : FineText I fin raw) {t : Table String D K}
    (h : I.dmatrix isnan dataIndex data rt fin raw = .ok t) :
    ∃ m types n, StandsFor I dataIndex data fin raw m types n ∧ IsMatrixOf I isnan data m types n m.rhs t.mat := by
  simp only [Interp.dmatrix, Build.dmatrix, bind_ok] at h
  obtain ⟨t', h1, h2⟩ := h
  split at h2 <;> cases h2
  obtain ⟨m, types, n, h3, _, h4⟩ := text_core hI hfine h1
  exact ⟨m, types, n, h3, h4⟩

/-! ### Errors -/

/-- **C59**, errors.  A call of `dmatrix` or `dmatrices` with the text of a formula fails with a `PatsyError`, or the
formula is grammatical and one of the errors of `OtherError` occurs. -/
theorem text_outcome [Mul K] [One K] {I : Interp D V A S K H} (hI : Real I) {isnan : K → Bool}
    {dataIndex : Option (List Build.Label)} {data : D} {rt : ReturnType} {fin : RawEnd} {raw : List PyTok}
    (hfine : FineText I fin raw) (hpy : FromPython fin raw) (hne : pythonTokenize fin raw ≠ .ok []) {e : Err}
    (h : I.dmatrix isnan dataIndex data rt fin raw = .error e ∨ I.dmatrices isnan dataIndex data rt fin raw = .error e) :
    e = .patsyError ∨ ∃ m, (∃ (c : Cst String (Option String)) (tree : FTree), FormulaTokens I.isNumber fin raw c.flatten ∧
        c.WF (Infix.mkTable defaultOps atomicTokenTypes) ∧ astOf tree = c.toAst ∧
        FormulaMeans (F := String) .ok I.toInt tree (termSets m.lhs) (termSets m.rhs)) ∧ OtherError I data m e := by
  cases hm : I.fromFormula fin raw with
  | error e' =>
    have := fromFormula_total hfine hpy hne hm
    subst this
    have key : ∀ P : Setting String D K H, highLevelDesign P isnan dataIndex data rt (.text (.error .patsyError)) =
        .error .patsyError := by
      intro P
      simp only [highLevelDesign, tryIncrBuilders]
      split <;> rfl
    simp only [Interp.dmatrix, Interp.dmatrices, Build.dmatrix, Build.dmatrices, hm, key, bind, Except.bind,
      Except.error.injEq, or_self] at h
    exact .inl h.symm
  | ok m =>
    simp only [Interp.dmatrix, Interp.dmatrices, hm] at h
    obtain ⟨hmean, hnorm, hcode⟩ := fromFormula_ok hfine hm
    have hnd : ∀ t ∈ m.lhs ++ m.rhs, t.factors.Nodup := by
      intro t ht
      rcases List.mem_append.mp ht with ht | ht
      · exact hnorm.1.nodup t ht
      · exact hnorm.2.nodup t ht
    have hdis : ∀ {ts : List (Term String)}, Normal ts → ts.Pairwise fun s t => Term.eqv s t = false := by
      intro ts hts
      refine hts.distinct.imp fun {s t} h => ?_
      rw [Bool.eq_false_iff]
      exact fun h' => h (Term.eqv_iff.mp h')
    have hgood : GoodCode I.stateful I.code (I.visit (allFactors [m.lhs, m.rhs])) fun f => (readTokens (I.code f)).getD .nil :=
      fine_good hfine fun f hf => hcode f ((hI.visits _).mem_iff.mp hf)
    have hn : (I.visit (allFactors [m.lhs, m.rhs])).Nodup := (hI.visits _).nodup_iff.mpr (allFactors_nodup _)
    have hval : ∀ {eval f}, (I.setting [data]).memorize (I.visit (allFactors [m.lhs, m.rhs])) = .ok eval →
        f ∈ allFactors [m.lhs, m.rhs] → (∀ s, eval f data = .ok s → I.value data f = .ok s) ∧
          ∀ e, eval f data = .error e → e = .patsyError := by
      intro eval f he hf
      rcases interp_value hI.toSane hn hgood he ((hI.visits _).mem_iff.mpr hf) with ⟨s, h1, h2⟩ | ⟨_, h2⟩
      · rw [h2]
        exact ⟨fun s' h => by cases h; exact h1, fun e h => by cases h⟩
      · rw [h2]
        exact ⟨fun s' h => (by cases h), fun e h => by cases h; rfl⟩
    have htyped : ∀ {eval types}, LearnedFrom (I.setting [data]) [data] [m.lhs, m.rhs] eval types →
        Typed I data m types := fun hl => interp_typed hI.toSane hgood hl
    rcases formula_outcome (interp_real hI [data]) (f := .text (.ok m)) rfl hnd (hdis hnorm.1) (hdis hnorm.2)
      (fun _ _ _ _ _ _ _ _ _ h => Redundancy.minusPiece_injective (hI.hash h)) h with h | h | h
    · exact .inl h
    · cases h with
      | memorize h =>
        simp only [Interp.setting] at h
        cases hs : memorizeFactors I.python I.stateful I.classOf I.visitNames I.visitFactors I.code [data]
            (I.visit (allFactors [m.lhs, m.rhs])) with
        | ok states => rw [hs] at h; cases h
        | error e' =>
          rw [hs] at h
          cases h
          rcases memorize_errors (P := I.python) (classOf := I.classOf) hgood hI.names hI.factors hn [data] hs with
            h | ⟨f, hf, k, g, args, s, h1, h2⟩
          · exact .inl h
          · exact .inr ⟨m, hmean, .finish ((hI.visits _).mem_iff.mp hf) (hgood f hf).1.symm h1 h2⟩
      | evaluate he hf hd h =>
        cases List.mem_singleton.mp hd
        exact .inl ((hval he hf).2 _ h)
      | refused _ _ _ _ h => exact .inl h
      | huge he hf hd hs h1 h2 =>
        cases List.mem_singleton.mp hd
        exact .inr ⟨m, hmean, .huge hf ((hval he hf).1 _ hs) h1 h2⟩
      | noData h => cases h
      | contrast hl hf hty h => exact .inr ⟨m, hmean, .contrast (htyped hl) hf hty h⟩
      | rows hl hf hty h1 h2 h3 => exact .inr ⟨m, hmean, .rows (htyped hl) hf hty h1 h2 h3⟩
      | names hl htl h1 h2 =>
        refine .inr ⟨m, hmean, .names (htyped hl) ?_ h1 h2⟩
        simpa using htl
    · cases h with
      | refused h => exact .inl h
      | evaluate he hf h => exact .inl ((hval he hf).2 _ h)
      | unusable hl hf hty hs h => exact .inr ⟨m, hmean, .unusable (htyped hl) hf hty ((hval hl.1 hf).1 _ hs) h⟩

/-! ### Example -/

namespace ProgramSample

open BuilderSample HighSample FitSample FitSample2

/-- The tokens of `center(x + center(x))`. -/
def nestedTokens (k : Nat) : List PyTok :=
  [exPy .name "center" k, exPy .op "(" (k + 1), exPy .name "x" (k + 2), exPy .op "+" (k + 3), exPy .name "center" (k + 4),
    exPy .op "(" (k + 5), exPy .name "x" (k + 6), exPy .op ")" (k + 7), exPy .op ")" (k + 8)]

/-- The raw tokens of `x ~ center(x + center(x))`. -/
def raw : List PyTok :=
  [exPy .name "x" 0, exPy .op "~" 1] ++ nestedTokens 2 ++ [exPy .newline "" 11, exPy .endmarker "" 12]

/-- The tokens of the expressions in it. -/
def tokens (s : String) : List PyTok :=
  (if s = "x" then [exPy .name "x" 0]
  else if s = "center" then [exPy .name "center" 0]
  else if s = "center(x)" then [exPy .name "center" 0, exPy .op "(" 1, exPy .name "x" 2, exPy .op ")" 3]
  else if s = "center(x + center(x))" then nestedTokens 0
  else []) ++ [exPy .newline "" 11, exPy .endmarker "" 12]

def interp : Interp Col Col (Unit × Col) (State.Center Unit ℚ) ℚ (Redundancy.Subterm String) where
  tokens := tokens
  isNumber _ := false
  toInt _ := none
  python := samplePython
  stateful := onlyCenter
  classOf _ := centerClass
  visitNames := id
  visitFactors _ _ := id
  visit := List.reverse
  order := id
  hash := id
  default := .coding (Contrast.dummyCode readable) (Contrast.treatment readable none)
  na := {}
  see := FitSample2.see

/-- The same with a transform that refuses to finish. -/
def failing : Interp Col Col (Unit × Col) (State.Center Unit ℚ) ℚ (Redundancy.Subterm String) :=
  { interp with classOf := fun _ => { (centerClass : Class (State.Center Unit ℚ) _ _) with finish := fun _ => .error .zeroDivisionError } }

theorem real : Real interp where
  names _ := .refl _
  factors _ _ _ := .refl _
  visits l := l.reverse_perm
  order _ := .refl _
  hash _ _ h := h
  fits v l hl := by cases hl
  codes v cats codes hv := by cases hv
  rows v ndim ncols vals hv r hr := by
    cases hv
    simp only [interp, FitSample2.see, BuilderSample.number, List.mem_map] at hr
    obtain ⟨_, _, rfl⟩ := hr
    rfl
  default := OutcomeSample.sample_world.default
  contrasts v c hc := by cases hc

theorem real_failing : Real failing := { real with }

def body : List PyTok := [exPy .name "x" 0, exPy .op "~" 1] ++ nestedTokens 2

/-- A necessary condition that can be computed. -/
def exprLike (ops : List String) (e : List PyTok) : Bool :=
  e ≠ [] && e.head?.all (·.str ≠ "(") && depth e == 0 && (List.range e.length).all (fun i => 0 ≤ depth (e.take i)) &&
    (List.range e.length).all fun i => depth (e.take i) ≠ 0 || e[i]?.all fun t => t.str ≠ ")" && t.str ∉ ops

theorem exprLike_of {ops : List String} {e : List PyTok} (h : IsExpr ops e) : exprLike ops e = true := by
  simp only [exprLike, Bool.and_eq_true, decide_eq_true_eq, List.all_eq_true, Option.all_eq_true, beq_iff_eq]
  refine ⟨⟨⟨⟨by simpa using h.nonempty, ?_⟩, h.balanced⟩, ?_⟩, ?_⟩
  · intro t ht
    simpa using h.notParen t ht
  · intro i _
    simpa using h.never_negative _ _ (e.take_append_drop i).symm
  · intro i hi
    have hi := List.mem_range.mp hi
    by_cases hd : depth (e.take i) = 0
    · have := h.no_operator (e.take i) e[i] (e.drop (i + 1)) (by simp) hd
      simp [hd, List.getElem?_eq_getElem hi, this.1, this.2]
    · simp [hd]

/-- The expressions. -/
def expressions : List (String × List PyTok × Code) :=
  [("x", [exPy .name "x" 0], .tok (.name, "x") .nil), ("center", [exPy .name "center" 0], .tok (.name, "center") .nil),
    ("center(x)", [exPy .name "center" 0, exPy .op "(" 1, exPy .name "x" 2, exPy .op ")" 3],
      .tok (.name, "center") (.group .paren (.tok (.name, "x") .nil) .nil)),
    ("center(x + center(x))", nestedTokens 0, nestedCode)]

/-- The parts of the tokens that can be expressions. -/
def AllExpressions (body : List PyTok) : Prop :=
  ∀ i ∈ List.range 12, ∀ j ∈ List.range 12, exprLike (defaultOps.map (·.tokenType)) ((body.drop i).take j) = true →
    ∃ x ∈ expressions, plainTokens x.2.1 = plainTokens ((body.drop i).take j) ∧
      okIs (prettyUntokenize (plainTokens x.2.1)) x.1 = true ∧ x.2.2.render = plainTokens x.2.1 ∧
      tokens x.1 = x.2.1 ++ [exPy .newline "" 11] ++ [exPy .endmarker "" 12] ∧ ∀ s ∈ x.2.2.names false, s.length < 12

theorem expressions_all : AllExpressions body := by
  unfold AllExpressions
  decide +kernel

theorem fine_body (I : Interp Col Col (Unit × Col) (State.Center Unit ℚ) ℚ (Redundancy.Subterm String)) (ht : I.tokens = tokens)
    (hs : I.stateful = onlyCenter) {raw body : List PyTok} (hr : pythonTokenize .exhausted raw = .ok body) (hn : body.length ≤ 11)
    (hall : AllExpressions body) : FineText I .exhausted raw := by
  rintro e text ⟨b, pre, post, h1, h2, h3, h4, h5⟩
  have hb : pythonTokenize .exhausted raw = .ok (pre ++ e ++ post) := by
    rw [python_tokenize_iff]
    exact ⟨b, h1, h2, h3.symm⟩
  rw [hr] at hb
  have hb := Except.ok.inj hb
  have hl : pre.length + e.length + post.length ≤ 11 := by
    have := congrArg List.length hb
    simp only [List.length_append] at this
    omega
  have he : (body.drop pre.length).take e.length = e := by simp [hb]
  obtain ⟨x, hx, g1, g2, g3, g4, g5⟩ := hall pre.length (List.mem_range.mpr (by omega)) e.length
    (List.mem_range.mpr (by omega)) (by rw [he]; exact exprLike_of h4)
  rw [he] at g1
  have ht' : x.1 = text := by
    have := eq_ok_of_okIs g2
    rw [g1, h5] at this
    exact (Except.ok.inj this).symm
  have hw : x.2.2.WF := by
    simp only [expressions, List.mem_cons, List.not_mem_nil, or_false] at hx
    rcases hx with rfl | rfl | rfl | rfl <;> simp [nestedCode, Code.WF, bracketStrings]
  rw [ht, hs]
  refine ⟨⟨x.2.1, [exPy .newline "" 11], exPy .endmarker "" 12, by rw [← ht', g4], g1, by simp [exPy], rfl⟩, ?_, ?_⟩
  · rw [← g1, ← g3]
    exact nested_iff_tree.mpr ⟨_, hw, rfl⟩
  · intro c hc hr
    have : c = x.2.2 := by
      have h6 := readTokens_render hc
      rw [hr, ← g1, ← g3, readTokens_render hw] at h6
      exact (Option.some.inj h6).symm
    subst this
    intro k f args _ h
    have hl := objName_long k f
    have := g5 _ h
    omega

theorem fine_of (I : Interp Col Col (Unit × Col) (State.Center Unit ℚ) ℚ (Redundancy.Subterm String)) (ht : I.tokens = tokens)
    (hs : I.stateful = onlyCenter) : FineText I .exhausted raw :=
  fine_body I ht hs (body := body) rfl (by decide) expressions_all

theorem ok : isOk (interp.dmatrices isnan none rows .matrix .exhausted raw) = true := by decide +kernel

end ProgramSample

open FitSample FitSample2 in
/-- Example for `text_to_matrices`: `x ~ center(x + center(x))`. -/
example : Sane ProgramSample.interp ∧ FineText ProgramSample.interp .exhausted ProgramSample.raw ∧
    ∃ t, ProgramSample.interp.dmatrices isnan none rows .matrix .exhausted ProgramSample.raw = .ok t ∧
      ∃ m types n, StandsFor ProgramSample.interp none rows .exhausted ProgramSample.raw m types n ∧
        IsMatrixOf ProgramSample.interp isnan rows m types n m.rhs t.2.mat := by
  have hfine := ProgramSample.fine_of ProgramSample.interp rfl rfl
  refine ⟨ProgramSample.real.toSane, hfine, _, getOk_eq ProgramSample.ok, ?_⟩
  obtain ⟨m, types, n, h1, _, h2⟩ := text_to_matrices ProgramSample.real.toSane hfine (getOk_eq ProgramSample.ok)
  exact ⟨m, types, n, h1, h2⟩

open FitSample FitSample2 in
/-- Example for `text_outcome`: the same formula, with a transform that does not finish; `dmatrix` with an outcome. -/
example : Real ProgramSample.failing ∧ FineText ProgramSample.failing .exhausted ProgramSample.raw ∧
    FromPython .exhausted ProgramSample.raw ∧ pythonTokenize .exhausted ProgramSample.raw ≠ .ok [] ∧
    ProgramSample.failing.dmatrices isnan none rows .matrix .exhausted ProgramSample.raw = .error .zeroDivisionError ∧
    ProgramSample.interp.dmatrix isnan none rows .matrix .exhausted ProgramSample.raw = .error .patsyError := by
  refine ⟨ProgramSample.real_failing, ProgramSample.fine_of _ rfl rfl,
    ⟨.inr ⟨exPy .endmarker "" 12, by simp [ProgramSample.raw], rfl⟩, by simp, by decide, by decide⟩, ?_,
    eq_of_failsWith (by decide +kernel), eq_of_failsWith (by decide +kernel)⟩
  rw [show pythonTokenize .exhausted ProgramSample.raw = .ok ProgramSample.body from rfl]
  simp [ProgramSample.body]

end Patsy.Props
