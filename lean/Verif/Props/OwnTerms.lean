import Verif.Lemmas.OwnTerms
import Verif.Spec.OwnTerms
import Verif.Props.Rename
import Verif.Props.Describe

/-!
# C67: a design is made again by its own terms

`DesignInfo.terms` lists the terms of a design in the order of their columns, which is usually not the order of the formula.  Used as
a model, they give the same design again.

# C68: what the text of a design says

`DesignInfo.describe()` is read back as the same terms, except that the intercept is always added.
-/

set_option linter.unusedSectionVars false

namespace Patsy.Props

open Patsy.Build Patsy.Desc Patsy.Spec Patsy.Redundancy

variable {F D K H : Type} [DecidableEq F] [DecidableEq H]

theorem orderFree_alike {used : F → Prop} {P : Setting F D K H} (h : SetOrderFree used P) :
    Alike used id P P ∧ MemoriseAlike used id P P := by
  refine ⟨⟨Function.injective_id, h.visits, h.visits, ?_, .inl rfl, rfl, rfl, ?_⟩, ?_⟩
  · intro s t
    have hid : ∀ s : Subterm F, renameSet id s = s := by
      intro s
      have : (renameFactor (id : F → F)) = id := by funext e; rfl
      simp [renameSet, this]
    rw [hid, hid]
  · intro fs gs hu hn hp eval eval' h1 h2 f hf
    rw [List.map_id] at hp
    obtain ⟨e, h3, h4⟩ := h.memorize fs gs hu hn hp eval h1
    rw [h3] at h2
    cases h2
    exact h4 f hf
  · intro fs gs hu hn hp
    rw [List.map_id] at hp
    constructor
    · rintro ⟨eval, he⟩
      obtain ⟨e, h3, _⟩ := h.memorize fs gs hu hn hp eval he
      exact ⟨e, h3⟩
    · rintro ⟨eval, he⟩
      obtain ⟨e, h3, _⟩ := h.memorize gs fs (fun g hg => hu g (hp.mem_iff.mp hg)) (hp.nodup_iff.mpr hn) hp.symm eval he
      exact ⟨e, h3⟩

theorem renameDesign_alike (σ : Nat → Nat) (dis : List (DesignInfo F D K)) :
    List.Forall₂ (DesignAlike id σ) dis (dis.map (renameDesign id σ)) := by
  induction dis with
  | nil => exact .nil
  | cons d l ih => exact .cons ⟨rfl, rfl, rfl⟩ ih

theorem own_terms_core [Mul K] [One K] {used : F → Prop} {P : Setting F D K H} (hA : Alike used id P P) (hM : MemoriseAlike used id P P)
    (hw : World P) {chunks : List D} {tls : List (List (Term F))} (hne : tls ≠ []) (hu : ∀ f ∈ allFactors tls, used f)
    (hnd : ∀ tl ∈ tls, ∀ t ∈ tl, t.factors.Nodup) {dis : List (DesignInfo F D K)} (h : designMatrixBuilders P chunks tls = .ok dis) :
    ∃ tls' dis', List.Forall₂ (fun d ts => d.terms = some ts) dis tls' ∧ designMatrixBuilders P chunks tls' = .ok dis' ∧
      List.Forall₂ SameColumns dis dis' ∧ ∀ (isnan : K → Bool) na frame dataIndex data b,
        buildDesignMatrices isnan na frame dataIndex dis' data = .ok b ↔ buildDesignMatrices isnan na frame dataIndex dis data = .ok b := by
  obtain ⟨tls', dis', σ, h1, h2, hσ, h3, h4⟩ := builders_again hA hM hu h
  obtain ⟨cs, hcs, hid, hfit, _⟩ := builders_sound hw hnd h
  refine ⟨tls', _, h1, h3, ?_, ?_⟩
  · rw [List.forall₂_map_right_iff]
    refine h4.imp fun d d' hd => ⟨hd.indexes, ?_, hd.nameSlices⟩
    rw [renameDesign, hd.slices, renameTerm_id]
    cases d.termSlices <;> simp
  · intro isnan na frame dataIndex data b
    rw [buildDesignMatrices_rename Function.injective_id hσ (codingOf_alike (renameDesign_alike σ dis')) data]
    refine build_sameDesigns h4 ?_ hcs hid hfit
    rintro rfl
    cases h1
    cases h2
    exact hne rfl

/-- **C67**, designs.  The terms of designs, in the order in which the designs have them, give designs with the same columns for
the same terms; and whatever matrices are built from the ones are built from the others, for all data. -/
theorem own_terms [Mul K] [One K] {used : F → Prop} {P : Setting F D K H} (hP : SetOrderFree used P) (hw : World P) {chunks : List D}
    {tls : List (List (Term F))} (hne : tls ≠ []) (hu : ∀ tl ∈ tls, ∀ t ∈ tl, ∀ f ∈ t.factors, used f)
    (hnd : ∀ tl ∈ tls, ∀ t ∈ tl, t.factors.Nodup) {dis : List (DesignInfo F D K)} (h : designMatrixBuilders P chunks tls = .ok dis) :
    ∃ tls' dis', List.Forall₂ (fun d ts => d.terms = some ts) dis tls' ∧ designMatrixBuilders P chunks tls' = .ok dis' ∧
      List.Forall₂ SameColumns dis dis' ∧ ∀ (isnan : K → Bool) na frame dataIndex data b,
        buildDesignMatrices isnan na frame dataIndex dis' data = .ok b ↔ buildDesignMatrices isnan na frame dataIndex dis data = .ok b := by
  obtain ⟨hA, hM⟩ := orderFree_alike hP
  refine own_terms_core hA hM hw hne ?_ hnd h
  intro f hf
  simp only [allFactors, List.mem_dedup, List.mem_flatMap] at hf
  obtain ⟨tl, htl, t, ht, hf⟩ := hf
  exact hu tl htl t ht f hf

/-! ### The terms of a design -/

theorem normal_of_inOrder {isNum : F → Bool} {ts out : List (Term F)} (hnd : ∀ t ∈ ts, t.factors.Nodup) (ho : Spec.InOrder isNum ts out)
    (hd : out.Pairwise fun s t => Term.eqv s t = false) : Normal out ∧ out.Perm ts := by
  obtain ⟨ps, hp, hprec, rfl⟩ := ho
  have hperm : (ps.map Prod.fst).Perm ts := by
    have := hp.map Prod.fst
    rwa [List.zipIdx_map_fst] at this
  refine ⟨⟨hd.imp fun {s t} h => ?_, fun t ht => hnd t (hperm.mem_iff.mp ht), ?_⟩, hperm⟩
  · rw [← eqv_iff_same, h]; simp
  · intro a t b he ht
    cases a with
    | nil => rfl
    | cons s a =>
      exfalso
      obtain ⟨p1, p2, rfl, h1, h2⟩ := List.map_eq_append_iff.mp he
      obtain ⟨s', p1', rfl, rfl, rfl⟩ := List.map_eq_cons_iff.mp h1
      obtain ⟨t', p2', rfl, rfl, rfl⟩ := List.map_eq_cons_iff.mp h2
      have hst := (List.pairwise_append.mp hprec).2.2 s' (by simp) t' (by simp)
      have hdist := (List.pairwise_append.mp (he ▸ hd)).2.2 s'.1 (by simp) t'.1 (by simp)
      have e1 : groupRank isNum ts t'.1 = 0 := by simp [groupRank, ht]
      have e2 : categoricals isNum t'.1 = 0 := by simp [categoricals, ht]
      simp only [Precedes, e1, e2, Nat.not_lt_zero, false_or] at hst
      obtain ⟨g1, g2, _⟩ := hst
      have hs : s'.1.factors = [] := by
        rw [List.eq_nil_iff_forall_not_mem]
        intro f hf
        have k1 : ¬ s'.1.factors.any isNum = true := by
          intro hany
          rw [groupRank, if_pos hany] at g1
          omega
        have k2 : isNum f = true := by
          by_contra hnum
          have : f ∈ s'.1.factors.filter fun f => !isNum f := List.mem_filter.mpr ⟨hf, by simp [hnum]⟩
          rw [categoricals, List.length_eq_zero_iff] at g2
          rw [g2] at this
          cases this
        exact k1 (List.any_eq_true.mpr ⟨f, hf, k2⟩)
      have : Term.eqv s'.1 t'.1 = true := by rw [Term.eqv_iff, hs, ht]; simp
      rw [this] at hdist
      cases hdist

/-- **C67**, the terms of a design are those of the model, each once, the intercept first. -/
theorem design_terms {P : Setting F D K H} (hw : World P) {chunks : List D} {tls : List (List (Term F))}
    (hnd : ∀ tl ∈ tls, ∀ t ∈ tl, t.factors.Nodup) {dis : List (DesignInfo F D K)} (h : designMatrixBuilders P chunks tls = .ok dis) :
    List.Forall₂ (fun d tl => ∃ ts, d.terms = some ts ∧ Normal ts ∧ ts.Perm tl) dis tls := by
  obtain ⟨cs, hcs, -, -, -, isNum, -, hall⟩ := builders_consistent hw.visits hnd h
  clear h
  induction hcs generalizing tls with
  | nil => cases hall; exact .nil
  | @cons d c dis cs hd _ ih =>
    cases hall with
    | @cons tl _ tls _ h1 h2 =>
      refine .cons ?_ (ih (fun tl htl => hnd tl (List.mem_cons_of_mem _ htl)) h2)
      obtain ⟨name, names, hmake⟩ := hd
      obtain ⟨g1, g2⟩ := normal_of_inOrder (hnd tl (by simp)) h1.2.2 (List.pairwise_map.mpr h1.2.1)
      exact ⟨_, terms_eq hmake, g1, g2⟩

/-! ### The text of a design -/

theorem joinToks_cons (sep : Infix.Tok String (Option String)) (x : List (Infix.Tok String (Option String))) (xs) :
    joinToks sep (x :: xs) = x ++ xs.flatMap fun y => sep :: y := rfl

theorem spelling_join {A : Type} (s : String) (sep : Infix.Tok String (Option String)) (hsep : spelling sep = s)
    (toks : A → List (Infix.Tok String (Option String))) (text : A → String) (l : List A)
    (h : ∀ a ∈ l, String.join ((toks a).map spelling) = text a) :
    String.join ((joinToks sep (l.map toks)).map spelling) = s.intercalate (l.map text) := by
  apply String.toList_injective
  rw [String.toList_intercalate]
  cases l with
  | nil => simp [joinToks]
  | cons a l =>
    have key : ∀ l : List A, (∀ a ∈ l, String.join ((toks a).map spelling) = text a) →
        (String.join (((l.map toks).flatMap fun y => sep :: y).map spelling)).toList =
          (l.map fun a => s.toList ++ (text a).toList).flatten := by
      intro l
      induction l with
      | nil => intro _; simp
      | cons b l ih =>
        intro hb
        have h1 := hb b (by simp)
        have h2 := ih fun c hc => hb c (List.mem_cons_of_mem _ hc)
        simp only [List.map_cons, List.flatMap_cons, List.map_append, List.flatten_cons, String.join_append, String.join_cons,
          String.toList_append, hsep] at h2 ⊢
        rw [h1, h2]
    rw [List.map_cons, joinToks_cons, List.map_append, String.join_append, String.toList_append, h a (by simp),
      key l fun c hc => h c (List.mem_cons_of_mem _ hc)]
    have : ∀ (x : List Char) (l : List A), List.intercalate s.toList (x :: (l.map text).map String.toList) =
        x ++ (l.map fun a => s.toList ++ (text a).toList).flatten := by
      intro x l
      induction l generalizing x with
      | nil => simp [List.intercalate]
      | cons b l ih =>
        rw [List.map_cons, List.map_cons, List.intercalate_cons_cons, ih]
        simp
    rw [List.map_cons, List.map_cons, this]

theorem spelling_term (name : F → String) (t : Term F) :
    String.join ((termToks name t).map spelling) = if t.factors = [] then "1" else termName name t := by
  unfold termToks
  by_cases ht : t.factors = []
  · rw [if_pos (eqv_intercept.mpr ht), if_pos ht]
    decide
  · rw [if_neg (by rw [eqv_intercept]; exact ht), if_neg ht, termName, if_neg (by simpa using ht)]
    refine spelling_join ":" _ (by decide) _ _ _ fun f _ => ?_
    simp [spelling, tk]

/-- **C68**, the text.  The text of a design from `DesignInfo.describe` is the sum of its terms, in the order in which the design has them, as long
as no term other than the intercept is named `Intercept`. -/
theorem describe_text {d : DesignInfo F D K} {c : Coding F D K} {name : F → String} {names : List String}
    (h : DesignInfo.make name names (some c) = .ok d) :
    ∃ ts, d.terms = some ts ∧ ((∀ t ∈ ts, t.factors ≠ [] → termName name t ≠ "Intercept") →
      d.describe = String.join ((sumToks name ts).map spelling)) := by
  refine ⟨_, terms_eq h, fun hN => ?_⟩
  rw [sumToks, spelling_join " + " _ (by decide) (termToks name) (fun t => if t.factors = [] then "1" else termName name t) _
    fun t _ => spelling_term name t]
  have hg := make_good.mp h
  rw [DesignInfo.describe, DesignInfo.termNames, hg.nameSlices, layout_keys]
  congr 1
  simp only [List.map_map]
  refine List.map_congr_left fun p hp => ?_
  simp only [Function.comp]
  by_cases hp0 : p.1.factors = []
  · rw [if_pos hp0, if_pos]
    simp [termName, hp0]
  · rw [if_neg hp0, if_neg (hN p.1 (List.mem_map_of_mem hp) hp0)]

/-! ### Reading the text -/

section Read

variable (mkFactor : String → Except Err F) (toInt : String → Option Int) (name : F → String)

theorem root_mem (c : FCst) {s : String} (h : nodeType (Infix.toNode c) = some s) : ∃ t ∈ c.flatten, t.kind = .sym s := by
  have key : ∀ c : FCst, (Infix.toNode c).token ∈ c.flatten := by
    intro c
    induction c with
    | atom t => simp [Infix.toNode, Infix.Node.token, Cst.flatten]
    | paren l c r ih =>
      have : ∀ (n : Infix.Node String (Option String)) o, (n.setOrigin o).token = n.token := by
        intro n o
        cases n <;> rfl
      simp only [Infix.toNode, this, Cst.flatten]
      simp [ih]
    | un t p c ih => simp [Infix.toNode, Infix.Node.token, Cst.flatten]
    | bin l t p r ih1 ih2 => simp [Infix.toNode, Infix.Node.token, Cst.flatten]
  refine ⟨_, key c, ?_⟩
  unfold nodeType at h
  split at h
  · rename_i h'
    cases h
    exact h'
  · cases h

theorem sum_side {ts : List (Term F)} (h : SideOk mkFactor name ts) (hne : ts ≠ []) :
    ∃ (c : FCst) (e : IExpr F), c.WF tbl ∧ (∀ q ∈ c.rightEdge, (100 : Int) ≤ q) ∧ (∀ q ∈ c.leftEdge, (100 : Int) ≤ q) ∧
      c.flatten = sumToks name ts ∧ Desc.eval mkFactor toInt (Infix.toNode c) = .ok (.expr e) ∧ e.interceptRemoved = false ∧
      (if e.intercept then [⟨[]⟩] else []) ++ e.terms = ts ∧ ⟨[]⟩ :: e.terms = withIntercept ts := by
  obtain ⟨rest, hr, h1, h2⟩ := normal_split h.1
  have hany : rest.any (fun t => t.factors.isEmpty) = false := by
    rw [List.any_eq_false]
    intro t ht
    simpa using (h1 t ht).1
  rcases hr with rfl | rfl
  · cases ts with
    | nil => exact absurd rfl hne
    | cons t ts =>
      obtain ⟨c, c1, c2, c3, c4, e, e1, e2, e3, e4⟩ := side_sum' mkFactor toInt name h1 h2 h.2
      exact ⟨c, e, c1, c2, c3, c4, e1, e3, by rw [e2, e4]; simp, by rw [withIntercept, hany, e4]; simp⟩
  · obtain ⟨c, c1, c2, c3, c4, e, e1, e2, e3, e4⟩ := side_sum mkFactor toInt name summand_one
      (evals_one mkFactor toInt _) h1 h2 (fun t ht => h.2 t (by simp [ht]))
    refine ⟨c, e, c1, c2, c3, ?_, e1, e3, by rw [e2, e4]; simp, by rw [withIntercept, e4]; simp⟩
    rw [c4, sumToks, List.map_cons]
    have : termToks name (⟨[]⟩ : Term F) = [tk "ONE" (some "1")] := by
      rw [termToks, if_pos (eqv_intercept.mpr rfl)]
    rw [this]; rfl

theorem sumToks_noTilde (ts : List (Term F)) : ∀ t ∈ sumToks name ts, t.kind ≠ .sym "~" := by
  have hj : ∀ (sep : Infix.Tok String (Option String)) (l : List (List (Infix.Tok String (Option String)))), sep.kind ≠ .sym "~" →
      (∀ x ∈ l, ∀ t ∈ x, t.kind ≠ .sym "~") → ∀ t ∈ joinToks sep l, t.kind ≠ .sym "~" := by
    intro sep l hs hl t ht
    cases l with
    | nil => cases ht
    | cons x l =>
      rw [joinToks_cons, List.mem_append, List.mem_flatMap] at ht
      rcases ht with ht | ⟨y, hy, ht⟩
      · exact hl x (by simp) t ht
      · rcases List.mem_cons.mp ht with rfl | ht
        · exact hs
        · exact hl y (by simp [hy]) t ht
  refine hj _ _ (by decide) ?_
  intro x hx
  obtain ⟨t, _, rfl⟩ := List.mem_map.mp hx
  unfold termToks
  split
  · intro t ht
    rw [List.mem_singleton.mp ht]
    decide
  · refine hj _ _ (by decide) ?_
    intro x hx t ht
    obtain ⟨f, _, rfl⟩ := List.mem_map.mp hx
    rw [List.mem_singleton.mp ht]
    simp [tk]

/-- **C68**, the meaning.  A formula that is a sum of the terms of a design (or two such sums with a `~` in between) is read as
exactly these terms in this order, but always with an intercept on the right-hand side. -/
theorem description_means {l r : List (Term F)} (hl : SideOk mkFactor name l) (hr : SideOk mkFactor name r) (hne : r ≠ []) :
    ∃ n, Infix.infixParse (formulaToks name l r) Formula.defaultOps Formula.atomicTokenTypes = .ok n ∧
      fromTree mkFactor toInt (wrapRoot n) = .ok ⟨l, withIntercept r⟩ := by
  have htb := Infix.tableOk_of_checkOps defaultOps_ok Formula.atomicTokenTypes
  have parse : ∀ c : FCst, c.WF tbl → Infix.infixParse c.flatten Formula.defaultOps Formula.atomicTokenTypes = .ok (Infix.toNode c) := by
    intro c hc
    unfold Infix.infixParse
    rw [defaultOps_ok]
    exact Infix.parseWith_complete htb c hc
  obtain ⟨c, r', c1, _, c2, c3, c4, c5, _, c6⟩ := sum_side mkFactor toInt name hr hne
  have gr := (eval_spec mkFactor toInt _).1 r' c4
  have hint : (INTERCEPT : Term F) = ⟨[]⟩ := by simp [INTERCEPT, Term.of, Util.uniqueify, Util.uniqueifyGo]
  unfold formulaToks
  by_cases hl0 : l = []
  · subst hl0
    rw [if_pos rfl]
    refine ⟨Infix.toNode c, ?_, ?_⟩
    · rw [← c3]
      exact parse c c1
    · have hw : nodeType (Infix.toNode c) ≠ some "~" := by
        intro h
        obtain ⟨t, ht, hk⟩ := root_mem c h
        rw [c3] at ht
        exact sumToks_noTilde name r t ht hk
      have gl : Good (⟨false, none, true, []⟩ : IExpr F) :=
        good_of (simple_ok (ts := []) (by simp) (by simp)) .nil
      have ht := tildeDesc_eq gl gr
      have hof : IExpr.of false none true ([] : List (Term F)) = .ok ⟨false, none, true, []⟩ := rfl
      rw [wrapRoot, if_neg hw]
      simp only [fromTree, Desc.eval]
      rw [c4, hof]
      simp only [requireExpr, bind, Except.bind, pure, Except.pure, ht, Except.ok.injEq]
      rw [← c6, c5]
      simp [maybeAddIntercept, hint]
  · rw [if_neg hl0]
    obtain ⟨b, l', b1, b2, _, b3, b4, _, b5, _⟩ := sum_side mkFactor toInt name hl hl0
    refine ⟨Infix.toNode (.bin b (tk "~" none) (-100) c), ?_, ?_⟩
    · rw [← parse]
      · simp [Cst.flatten, c3, b3]
      · exact ⟨⟨"~", rfl, by decide +kernel⟩, b1, c1, fun q hq => by have := b2 q hq; omega,
          fun q hq => by have := c2 q hq; omega⟩
    · have hw : wrapRoot (Infix.toNode (.bin b (tk "~" none) (-100) c)) = Infix.toNode (.bin b (tk "~" none) (-100) c) := by
        rw [wrapRoot, if_pos (by rfl)]
      have ht := tildeDesc_eq ((eval_spec mkFactor toInt _).1 l' b4) gr
      rw [hw]
      simp only [fromTree, Infix.toNode, Desc.eval, tk]
      rw [b4, c4]
      simp only [requireExpr, bind, Except.bind, pure, Except.pure, ht, Except.ok.injEq]
      have hdl : l = maybeAddIntercept l'.intercept l'.terms := by
        rw [← b5]; cases l'.intercept <;> simp [maybeAddIntercept, hint]
      rw [← hdl, ← c6, c5]
      simp [maybeAddIntercept, hint]

end Read

/-! ### The text of a formula -/

section Text

open Patsy.Tokens Patsy.EvalFactor Patsy.Program

variable {V A S : Type}

/-- **C67**, formulas.  If `dmatrices` or `dmatrix` makes designs from the text of a formula, then the terms of these designs, used as
a `ModelDesc` on the same data, give the same matrices with the same names. -/
theorem own_terms_text [Mul K] [One K] {I : Interp D V A S K H} (hI : Sane I) {fin : RawEnd} {raw : List PyTok}
    (hfine : FineText I fin raw) {isnan : K → Bool} {dataIndex : Option (List Build.Label)} {data : D} {rt : ReturnType}
    {t : Table String D K × Table String D K}
    (h : highLevelDesign (I.setting [data]) isnan dataIndex data rt (.text (I.fromFormula fin raw)) = .ok t) :
    ∃ l r, t.1.info.terms = some l ∧ t.2.info.terms = some r ∧
      (∃ m, I.fromFormula fin raw = .ok m ∧ l.Perm m.lhs ∧ r.Perm m.rhs) ∧ SideOk I.mkFactor id l ∧ SideOk I.mkFactor id r ∧
      ∃ t', highLevelDesign (I.setting [data]) isnan dataIndex data rt (.desc ⟨l, r⟩) = .ok t' ∧
        SameTable t.1 t'.1 ∧ SameTable t.2 t'.2 := by
  cases hm : I.fromFormula fin raw with
  | error e =>
    rw [hm] at h
    simp only [highLevelDesign, tryIncrBuilders] at h
    split at h <;> cases h
  | ok m =>
    rw [hm] at h
    obtain ⟨_, ⟨n1, n2⟩, hcode⟩ := fromFormula_ok hfine hm
    obtain ⟨hA, hM, _⟩ := sameProgram_alike hI hI (⟨rfl, rfl, rfl, rfl, rfl, rfl, rfl, rfl, rfl⟩ : SameProgram I I) (.inl rfl)
      (used := fun f => f ∈ allFactors [m.lhs, m.rhs]) (fun fs hfs => fine_good hfine fun f hf => hcode f (hfs f hf)) [data]
    obtain ⟨hrt, dl, dr, b, x, y, h1, h2, h3, rfl⟩ := (highLevelDesign_model (m := m) rfl).mp h
    have hnd : ∀ tl ∈ [m.lhs, m.rhs], ∀ t ∈ tl, t.factors.Nodup := by
      intro tl htl
      simp only [List.mem_cons, List.not_mem_nil, or_false] at htl
      rcases htl with rfl | rfl
      · exact n1.nodup
      · exact n2.nodup
    have hw := interp_world hI [data]
    obtain ⟨tls', dis', g1, g2, g3, g4⟩ := own_terms_core hA hM hw (by simp) (fun _ h => h) hnd h1
    have hterms := design_terms hw hnd h1
    have hside : ∀ {tl ts : List (Term String)}, tl ∈ [m.lhs, m.rhs] → Normal ts → ts.Perm tl → SideOk I.mkFactor id ts := by
      intro tl ts htl hn hp
      refine ⟨hn, fun t ht f hf => ?_⟩
      obtain ⟨e, he, _⟩ := hcode f (by
        simp only [allFactors, List.mem_dedup, List.mem_flatMap]
        exact ⟨tl, htl, t, hp.mem_iff.mp ht, hf⟩)
      exact (embedded_factor hfine he).1
    obtain ⟨⟨l, k1, k2, k3⟩, hterms⟩ := List.forall₂_cons.mp hterms
    obtain ⟨⟨r, k4, k5, k6⟩, _⟩ := List.forall₂_cons.mp hterms
    cases g1 with
    | @cons _ l' _ _ j1 g1 =>
      cases g1 with
      | @cons _ r' _ _ j2 g1 =>
        cases g1
        cases g3 with
        | @cons _ el _ _ s1 g3 =>
          cases g3 with
          | @cons _ er _ _ s2 g3 =>
            cases g3
            rw [k1] at j1
            rw [k4] at j2
            cases j1
            cases j2
            refine ⟨l, r, k1, k4, ⟨m, rfl, k3, k6⟩, hside (by simp) k2 k3, hside (by simp) k5 k6, _,
              (highLevelDesign_model (m := ⟨l, r⟩) rfl).mpr ⟨hrt, el, er, b, x, y, g2, (g4 _ _ _ _ _ _).mpr h2, h3, rfl⟩, ?_, ?_⟩
            · exact ⟨rfl, rfl, s1.columns, s1.terms, s1.termNames⟩
            · exact ⟨rfl, rfl, s2.columns, s2.terms, s2.termNames⟩

/-- **C68**, formulas.  If the right-hand side has an intercept, the texts of the designs, put together with a `~` again, are read as
a model that gives the same matrices. -/
theorem description_reproduces [Mul K] [One K] {I : Interp D V A S K H} (hI : Sane I) {fin : RawEnd} {raw : List PyTok}
    (hfine : FineText I fin raw) {isnan : K → Bool} {dataIndex : Option (List Build.Label)} {data : D} {rt : ReturnType}
    {t : Table String D K × Table String D K}
    (h : highLevelDesign (I.setting [data]) isnan dataIndex data rt (.text (I.fromFormula fin raw)) = .ok t) :
    ∃ l r, t.1.info.terms = some l ∧ t.2.info.terms = some r ∧ ((⟨[]⟩ : Term String) ∈ r →
      ∃ n m t', Infix.infixParse (formulaToks id l r) Formula.defaultOps Formula.atomicTokenTypes = .ok n ∧
        fromTree I.mkFactor I.toInt (wrapRoot n) = .ok m ∧
        highLevelDesign (I.setting [data]) isnan dataIndex data rt (.desc m) = .ok t' ∧ SameTable t.1 t'.1 ∧ SameTable t.2 t'.2) := by
  obtain ⟨l, r, h1, h2, _, h3, h4, t', h5, h6⟩ := own_terms_text hI hfine h
  refine ⟨l, r, h1, h2, fun hi => ?_⟩
  obtain ⟨n, hn, he⟩ := description_means I.mkFactor I.toInt id h3 h4 (by rintro rfl; cases hi)
  have hw : withIntercept r = r := by
    rw [withIntercept, if_pos]
    exact List.any_eq_true.mpr ⟨_, hi, rfl⟩
  rw [hw] at he
  exact ⟨n, _, t', hn, he, h5, h6⟩

end Text

/-! ### Examples -/

namespace OwnTermsSample

open BuilderSample

theorem order_free : SetOrderFree (fun _ => True) setting where
  visits := visits
  memorize fs gs _ _ _ eval h := ⟨eval, h, fun _ _ => rfl⟩

theorem world : World setting where
  visits := visits
  fits fs eval h f d s hs l hl := by
    cases h
    unfold look at hs
    split at hs
    · cases hs; cases hl
    · split at hs
      · cases hs; cases hl
      · split at hs
        · cases hs; cases hl
        · cases hs

/-- `y ~ a:x + a`: the order of the formula is not that of the columns. -/
def mixed : List (List (Term String)) := [[⟨["y"]⟩], [⟨[]⟩, ⟨["a", "x"]⟩, ⟨["a"]⟩]]

theorem mixed_ok : isOk (designMatrixBuilders setting chunks mixed) = true := by decide +kernel

/-- Every factor is a number. -/
def numbers : Setting String Data ℚ (Subterm String) :=
  { setting with memorize := fun _ => .ok fun _ d => .ok (number (d.map fun r => r.1)) }

/-- The text of the only design. -/
def textOf (P : Setting String Data ℚ (Subterm String)) (ts : List (Term String)) : Except Err (List String) :=
  (designMatrixBuilders P chunks [ts]).map (List.map DesignInfo.describe)

/-- The columns of the only design. -/
def columnsOf (P : Setting String Data ℚ (Subterm String)) (ts : List (Term String)) : Except Err (List (List String)) :=
  (designMatrixBuilders P chunks [ts]).map (List.map (·.columnNames))

end OwnTermsSample

open OwnTermsSample BuilderSample in
/-- Example for `own_terms`: the terms of the design are in another order than those of the formula. -/
example : ∃ dis tls' dis', designMatrixBuilders setting chunks mixed = .ok dis ∧
    List.Forall₂ (fun d ts => d.terms = some ts) dis tls' ∧ designMatrixBuilders setting chunks tls' = .ok dis' ∧
    List.Forall₂ SameColumns dis dis' ∧
    dis.map DesignInfo.terms = [some [⟨["y"]⟩], some [⟨[]⟩, ⟨["a"]⟩, ⟨["a", "x"]⟩]] ∧
    dis.map DesignInfo.describe = ["y", "1 + a + a:x"] := by
  obtain ⟨tls', dis', h1, h2, h3, _⟩ := own_terms order_free world (by simp [mixed]) (fun _ _ _ _ _ _ => trivial) (by decide)
    (getOk_eq mixed_ok)
  exact ⟨_, tls', dis', getOk_eq mixed_ok, h1, h2, h3, by decide +kernel, by decide +kernel⟩

open OwnTermsSample BuilderSample in
/-- Example for `design_terms`. -/
example : ∃ dis, designMatrixBuilders setting chunks mixed = .ok dis ∧
    List.Forall₂ (fun d tl => ∃ ts, d.terms = some ts ∧ Normal ts ∧ ts.Perm tl) dis mixed :=
  ⟨_, getOk_eq mixed_ok, design_terms world (by decide) (getOk_eq mixed_ok)⟩

/-- What `x ~ center(x + center(x))` gives. -/
def OwnTermsSample.nested := highLevelDesign (ProgramSample.interp.setting [FitSample2.rows]) FitSample.isnan none FitSample2.rows .matrix
  (.text (ProgramSample.interp.fromFormula .exhausted ProgramSample.raw))

theorem OwnTermsSample.nested_ok : isOk nested = true := by decide +kernel

open OwnTermsSample in
/-- Example for `own_terms_text` and `description_reproduces`: `x ~ center(x + center(x))`. -/
example : ∃ t, nested = .ok t ∧ Program.Sane ProgramSample.interp ∧
    Program.FineText ProgramSample.interp .exhausted ProgramSample.raw ∧
    t.1.info.describe = "x" ∧ t.2.info.describe = "1 + center(x + center(x))" ∧
    t.2.info.terms = some [⟨[]⟩, ⟨["center(x + center(x))"]⟩] :=
  ⟨_, getOk_eq nested_ok, ProgramSample.real.toSane, ProgramSample.fine_of _ rfl rfl, by decide +kernel, by decide +kernel,
    by decide +kernel⟩

/-- Example for `description_means`: `y ~ x + a:x` gains an intercept. -/
example : SideOk (fun s => .ok s) id [⟨["y"]⟩] ∧ SideOk (fun s => .ok s) id [⟨["x"]⟩, ⟨["a", "x"]⟩] ∧
    withIntercept [⟨["x"]⟩, ⟨["a", "x"]⟩] = [(⟨[]⟩ : Term String), ⟨["x"]⟩, ⟨["a", "x"]⟩] ∧
    String.join ((sumToks id [(⟨["x"]⟩ : Term String), ⟨["a", "x"]⟩]).map spelling) = "x + a:x" := by
  have key : ∀ ts : List (Term String), (ts.Pairwise fun s t => Term.eqv s t = false) → (∀ t ∈ ts, t.factors ≠ [] ∧ t.factors.Nodup) →
      SideOk (fun s => .ok s) id ts := by
    refine fun ts h1 h2 => ⟨⟨h1.imp fun {s t} h => ?_, fun t ht => (h2 t ht).2, ?_⟩, fun _ _ _ _ => rfl⟩
    · rw [← eqv_iff_same, h]; simp
    · intro a t b he ht
      exact absurd ht (h2 t (by rw [he]; simp)).1
  refine ⟨key _ (by decide) (by decide), key _ (by decide) (by decide), by decide, by decide⟩

open OwnTermsSample BuilderSample in
/-- **C68**, finding.  The text of a design without an intercept does not say so: `0 + a` is described as `a`, which is another
model with other columns. -/
theorem describe_forgets_zero : okIs (textOf setting [⟨["a"]⟩]) ["a"] = true ∧
    okIs (columnsOf setting [⟨["a"]⟩]) [["a[u]", "a[v]", "a[w]"]] = true ∧
    (∃ n, Infix.infixParse (formulaToks id [] [(⟨["a"]⟩ : Term String)]) Formula.defaultOps Formula.atomicTokenTypes = .ok n ∧
      fromTree (fun s => .ok s) (fun _ => none) (wrapRoot n) = .ok ⟨[], [⟨[]⟩, ⟨["a"]⟩]⟩) ∧
    okIs (columnsOf setting [⟨[]⟩, ⟨["a"]⟩]) [["Intercept", "a[T.v]", "a[T.w]"]] = true := by
  refine ⟨by decide +kernel, by decide +kernel, ?_, by decide +kernel⟩
  refine description_means (fun s => .ok s) (fun _ => none) id (l := []) (r := [⟨["a"]⟩]) ⟨⟨.nil, ?_, ?_⟩, ?_⟩ ⟨⟨by simp, ?_, ?_⟩, ?_⟩
    (by simp)
  · simp
  · intro a t b he; simp at he
  · simp
  · simp
  · intro a t b he ht
    cases a with
    | nil => rfl
    | cons s a => simp at he
  · simp

open OwnTermsSample BuilderSample in
/-- **C68**, finding.  A variable that is named `Intercept` is described as `1`. -/
theorem describe_intercept_variable : okIs (textOf numbers [⟨["Intercept"]⟩]) ["1"] = true ∧
    okIs (textOf numbers [⟨["x"]⟩, ⟨["Intercept"]⟩]) ["x + 1"] = true := by
  constructor <;> decide +kernel

end Patsy.Props
