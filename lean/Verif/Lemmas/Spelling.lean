import Verif.Lemmas.Positions
import Verif.Lemmas.Program
import Verif.Model.Describe
import Verif.Spec.Spelling
import Verif.Spec.OwnTerms

/-!
# The formula tokens of the text of a model
-/

namespace Patsy.Spell

open Patsy.Infix Patsy.Tokens Patsy.Formula Patsy.Desc Patsy.Spec Patsy.Positions Patsy.Program

/-- A Python token at position zero. -/
def at0 (t : PlainTok) : PyTok := ⟨t.1, t.2, ⟨0, 0⟩⟩

theorem at0_plain (ts : List PyTok) : (plainTokens ts).map at0 = ts.map zeroPy := by
  simp only [plainTokens, List.map_map]
  rfl

/-- The Python tokens `x` are cut into the formula tokens `y` if an operator or nothing follows. -/
def Item (isNumber : String → Bool) (ops : List String) (x : List PlainTok) (y : List (Infix.Tok String (Option String))) : Prop :=
  ∀ ts out, (∀ t ∈ ts.head?, t.str ∈ ops) → Tokenizes isNumber ops ts out →
    Tokenizes isNumber ops (x.map at0 ++ ts) (y ++ out)

variable {isNumber : String → Bool} {ops : List String}

theorem item_nil : Item isNumber ops [] [] := fun _ _ _ h => h

theorem item_op {x z : List PlainTok} {y w : List (Infix.Tok String (Option String))} {s : String} (hs : s ∈ ops)
    (h1 : s ≠ "(") (h2 : s ≠ ")")
    (hx : Item isNumber ops x y) (hz : Item isNumber ops z w) : Item isNumber ops (x ++ (.op, s) :: z) (y ++ tk s none :: w) := by
  intro ts out ht h
  have := hx (at0 (.op, s) :: (z.map at0 ++ ts)) (tk s none :: (w ++ out)) (by simp [at0, hs])
    (.op _ _ _ _ (.inr (.inr hs)) (.o (at0 (.op, s)) h1 h2) (hz ts out ht h))
  simpa using this

theorem item_join {A : Type} {s : String} (hs : s ∈ ops) (h1 : s ≠ "(") (h2 : s ≠ ")") (l : List A) (x : A → List PlainTok)
    (y : A → List (Infix.Tok String (Option String))) (h : ∀ a ∈ l, Item isNumber ops (x a) (y a)) :
    Item isNumber ops (joinPlain (.op, s) (l.map x)) (joinToks (tk s none) (l.map y)) := by
  cases l with
  | nil => exact item_nil
  | cons a l =>
    have key : ∀ (l : List A) (p q) , Item isNumber ops p q → (∀ b ∈ l, Item isNumber ops (x b) (y b)) →
        Item isNumber ops (p ++ (l.map x).flatMap fun z => (.op, s) :: z) (q ++ (l.map y).flatMap fun z => tk s none :: z) := by
      intro l
      induction l with
      | nil => intro p q hp _; simpa using hp
      | cons b l ih =>
        intro p q hp hl
        have := ih _ _ (item_op hs h1 h2 hp (hl b (by simp))) fun c hc => hl c (by simp [hc])
        simpa using this
    exact key l _ _ (h a (by simp)) fun b hb => h b (by simp [hb])

/-- The Python tokens `p` are one expression, whose formula token has type `k` and text `s`. -/
structure OneExpr (isNumber : String → Bool) (ops : List String) (p : List PlainTok) (k s : String) : Prop where
  expr : IsExpr ops (p.map at0)
  text : prettyUntokenize p = .ok s
  kind : exprType isNumber s = k

theorem item_expr {p : List PlainTok} {k s : String} (h : OneExpr isNumber ops p k s) :
    Item isNumber ops p [tk k (some s)] := by
  intro ts out ht hts
  refine .expr _ _ _ _ h.expr (fun t h' => .inr (ht t h')) ?_ ?_ hts
  · intro t hh hm
    obtain ⟨u, us, hu⟩ := List.exists_cons_of_ne_nil h.expr.nonempty
    rw [hu] at hh
    cases hh
    have h0 := h.expr.notParen t (by rw [hu]; rfl)
    have h1 := h.expr.no_operator [] t us (by simpa using hu) rfl
    rcases hm with hm | hm | hm
    · exact h0 hm
    · exact h1.1 hm
    · exact h1.2 hm
  · cases p with
    | nil => exact absurd rfl h.expr.nonempty
    | cons u us =>
      have hp : ((at0 u :: us.map at0).map fun t => (t.type, t.str)) = u :: us := by
        rw [← List.map_cons (f := at0), List.map_map]
        exact List.map_id _
      have := ExprTok.mk (isNumber := isNumber) (at0 u) (us.map at0) s (by rw [hp]; exact h.text)
      have hk := h.kind
      unfold exprType at hk
      rw [hk] at this
      have hc := combine_zero ((us.map at0).map (·.origin)) (by
        intro o ho
        simp only [List.mem_map] at ho
        obtain ⟨_, ⟨_, _, rfl⟩, rfl⟩ := ho
        rfl)
      have h0 : (at0 u).origin = ⟨0, 0⟩ := rfl
      rw [h0, hc] at this
      exact this

/-- What makes the text of a factor an expression. -/
def Codes {D V A S K H : Type} (I : Interp D V A S K H) (f : String) : Prop :=
  OneExpr I.isNumber (defaultOps.map (·.tokenType)) (I.code f) "PYTHON_EXPR" f

theorem isExpr_one (t : PyTok) (h1 : t.str ≠ "(") (h2 : t.str ≠ ")") (h3 : bracket t.str = 0) (h4 : t.str ∉ ops) : IsExpr ops [t] where
  nonempty := by simp
  notParen := by intro u hu; simp at hu; subst hu; exact h1
  balanced := by simp [depth, h3]
  never_negative := by
    intro p s h
    rcases p with _ | ⟨u, p⟩
    · simp [depth]
    · simp only [List.cons_append, List.cons.injEq, List.nil_eq_append_iff] at h
      obtain ⟨rfl, rfl, rfl⟩ := h
      simp [depth, h3]
  no_operator := by
    intro p u s h _
    rcases p with _ | ⟨v, p⟩
    · simp only [List.nil_append, List.cons.injEq] at h
      obtain ⟨rfl, _⟩ := h
      exact ⟨h2, h4⟩
    · simp at h

theorem item_one : Item isNumber (defaultOps.map (·.tokenType)) [(.number, "1")] [tk "ONE" (some "1")] :=
  item_expr ⟨isExpr_one _ (by decide) (by decide) (by decide) (by decide), rfl, rfl⟩

theorem item_zero : Item isNumber (defaultOps.map (·.tokenType)) [(.number, "0")] [tk "ZERO" (some "0")] :=
  item_expr ⟨isExpr_one _ (by decide) (by decide) (by decide) (by decide), rfl, rfl⟩

variable {D V A S K H : Type} {I : Interp D V A S K H}

theorem eqv_intercept {F : Type} [DecidableEq F] (t : Term F) : Term.eqv t INTERCEPT = true ↔ t.factors = [] := by
  rw [Props.eqv_iff_same]
  have : (INTERCEPT : Term F).factors = [] := by simp [INTERCEPT, Term.of, Util.uniqueify, Util.uniqueifyGo]
  unfold Spec.SameTerm
  rw [this]
  simp [List.eq_nil_iff_forall_not_mem]

theorem item_term {t : Term String} (h : ∀ f ∈ t.factors, Codes I f) :
    Item I.isNumber (defaultOps.map (·.tokenType)) (termSpelling I.code t) (termToks id t) := by
  unfold termSpelling termToks
  by_cases h0 : t.factors = []
  · rw [if_pos h0, if_pos ((eqv_intercept t).mpr h0)]
    exact item_one
  · rw [if_neg h0, if_neg (fun h => h0 ((eqv_intercept t).mp h))]
    exact item_join (by decide) (by decide) (by decide) _ _ _ fun f hf => item_expr (h f hf)

theorem item_sum {ts : List (Term String)} (h : ∀ t ∈ ts, ∀ f ∈ t.factors, Codes I f) :
    Item I.isNumber (defaultOps.map (·.tokenType)) (sumSpelling I.code ts) (sumToks id ts) :=
  item_join (by decide) (by decide) (by decide) _ _ _ fun t ht => item_term (h t ht)

theorem item_rhs {ts : List (Term String)} (h : ∀ t ∈ ts, ∀ f ∈ t.factors, Codes I f) :
    Item I.isNumber (defaultOps.map (·.tokenType)) (rhsSpelling I.code ts) (describeRhs id ts) := by
  unfold rhsSpelling describeRhs
  have e1 : (ts.length = 1 ∧ ts.all (fun t => Term.eqv t INTERCEPT) = true) ↔ ts = [⟨[]⟩] := by
    constructor
    · rintro ⟨g1, g2⟩
      obtain ⟨t, rfl⟩ := List.length_eq_one_iff.mp g1
      have := (eqv_intercept t).mp (by simpa using g2)
      cases t; cases this; rfl
    · rintro rfl
      exact ⟨rfl, by rw [List.all_eq_true]; intro t ht; simp at ht; subst ht; exact (eqv_intercept _).mpr rfl⟩
  have e2 : (ts.any fun t => Term.eqv t INTERCEPT) = true ↔ (⟨[]⟩ : Term String) ∈ ts := by
    rw [List.any_eq_true]
    constructor
    · rintro ⟨t, ht, he⟩
      have := (eqv_intercept t).mp he
      cases t; cases this; exact ht
    · intro ht; exact ⟨_, ht, (eqv_intercept _).mpr rfl⟩
  have e3 : (ts.filter fun t => !Term.eqv t INTERCEPT) = ts.filter fun t => t.factors ≠ [] := by
    refine List.filter_congr fun t _ => ?_
    by_cases h0 : t.factors = []
    · simp [h0, (eqv_intercept t).mpr h0]
    · have : Term.eqv t INTERCEPT = false := by
        rw [Bool.eq_false_iff]; exact fun hh => h0 ((eqv_intercept t).mp hh)
      simp [h0, this]
  rw [e3]
  by_cases h1 : ts = [⟨[]⟩]
  · rw [if_pos h1, if_pos (e1.mpr h1)]
    exact item_one
  · rw [if_neg h1, if_neg (fun hh => h1 (e1.mp hh))]
    have hterms : ∀ t ∈ ts.filter (fun t => t.factors ≠ []),
        Item I.isNumber (defaultOps.map (·.tokenType)) (termSpelling I.code t) (termToks id t) :=
      fun t ht => item_term (h t (List.mem_of_mem_filter ht))
    by_cases h2 : (⟨[]⟩ : Term String) ∈ ts
    · rw [if_pos h2, if_pos (e2.mpr h2)]
      exact item_join (by decide) (by decide) (by decide) _ _ _ hterms
    · rw [if_neg h2, if_neg (fun hh => h2 (e2.mp hh))]
      have := item_join (isNumber := I.isNumber) (ops := defaultOps.map (·.tokenType)) (s := "+") (by decide) (by decide) (by decide)
        (none :: (ts.filter fun t => t.factors ≠ []).map some)
        (fun o => o.elim [(.number, "0")] (termSpelling I.code)) (fun o => o.elim [tk "ZERO" (some "0")] (termToks id)) (by
          intro a ha
          rcases List.mem_cons.mp ha with rfl | ha
          · exact item_zero
          · obtain ⟨t, ht, rfl⟩ := List.mem_map.mp ha
            exact hterms t ht)
      simpa [List.map_map, Function.comp_def] using this

theorem item_model {m : ModelDesc String} (hl : ∀ t ∈ m.lhs, ∀ f ∈ t.factors, Codes I f) (hr : ∀ t ∈ m.rhs, ∀ f ∈ t.factors, Codes I f) :
    Item I.isNumber (defaultOps.map (·.tokenType)) (modelSpelling I.code m) (describe id m) :=
  item_op (by decide) (by decide) (by decide) (item_sum hl) (item_rhs hr)

theorem item_design {l r : List (Term String)} (hl : ∀ t ∈ l, ∀ f ∈ t.factors, Codes I f) (hr : ∀ t ∈ r, ∀ f ∈ t.factors, Codes I f) :
    Item I.isNumber (defaultOps.map (·.tokenType)) (designSpelling I.code l r) (formulaToks id l r) := by
  unfold designSpelling formulaToks
  split
  · exact item_sum hr
  · exact item_op (by decide) (by decide) (by decide) (item_sum hl) (item_sum hr)

theorem item_all {x : List PlainTok} {y : List (Infix.Tok String (Option String))} (h : Item isNumber ops x y) :
    Tokenizes isNumber ops (x.map at0) y := by
  simpa using h [] [] (by simp) .nil

/-- A text whose tokens are an item is read like the formula tokens of the item. -/
theorem spelled_reads {x : List PlainTok} {y : List (Infix.Tok String (Option String))}
    (h : Item I.isNumber (defaultOps.map (·.tokenType)) x y) {fin : RawEnd} {raw : List PyTok} (hs : Spelled fin raw x)
    {n : Node String (Option String)} (hn : infixParse y defaultOps atomicTokenTypes = .ok n) :
    I.fromFormula fin raw = fromTree I.mkFactor I.toInt (wrapRoot n) := by
  obtain ⟨body, h1, h2, h3⟩ := hs
  have hp := (Props.python_tokenize_iff fin raw _).mpr ⟨body, h1, h2, rfl⟩
  have ht := (Props.tokenize_iff I.isNumber _ Props.defaultOps_parens _ _).mpr (item_all h)
  rw [← h3, at0_plain, tokenizeFormula_zero] at ht
  cases hq : tokenizeFormula I.isNumber (defaultOps.map (·.tokenType)) (body.filter fun t => ¬ Props.LineEnd t) with
  | error e => rw [hq] at ht; cases ht
  | ok toks =>
    rw [hq] at ht
    simp only [Except.map, Except.ok.injEq] at ht
    subst ht
    rw [infixParse_zero Props.defaultOps_ok] at hn
    cases hi : infixParse toks defaultOps atomicTokenTypes with
    | error e => rw [hi] at hn; cases hn
    | ok n' =>
      rw [hi] at hn
      simp only [Except.map, Except.ok.injEq] at hn
      subst hn
      rw [wrapRoot_zero, fromTree_zero]
      simp only [Interp.fromFormula, parseFormula, hp, hq, hi, bind, Except.bind, pure, Except.pure]

/-! ### The factors of a formula -/

theorem token_kind {ts : List PyTok} {toks : List (Infix.Tok String (Option String))} (h : Tokenizes isNumber ops ts toks)
    (hops : "PYTHON_EXPR" ∉ ops) {t : Infix.Tok String (Option String)} (ht : t ∈ toks) (hk : t.kind = .sym "PYTHON_EXPR")
    {s : String} (hs : t.extra = some s) : exprType isNumber s = "PYTHON_EXPR" := by
  induction h with
  | nil => cases ht
  | op u ts tok out h1 h2 h3 ih =>
    rcases List.mem_cons.mp ht with rfl | ht
    · cases h2 with
      | l _ => cases hk
      | r _ => cases hk
      | o g1 g2 => cases hs
    · exact ih ht
  | expr e ts tok out h1 h2 h3 h4 h5 ih =>
    rcases List.mem_cons.mp ht with rfl | ht
    · cases h4 with
      | mk u us text hp =>
        cases hs
        simpa [exprType] using hk
    · exact ih ht

theorem codes_of_formula {fin : RawEnd} {raw : List PyTok} (hfine : FineText I fin raw)
    {m : ModelDesc String} (h : I.fromFormula fin raw = .ok m) : ∀ f ∈ Build.allFactors [m.lhs, m.rhs], Codes I f := by
  obtain ⟨⟨c, n, ⟨body, g1, g2, g3⟩, _, h4, h5⟩, _, h6⟩ := fromFormula_ok hfine h
  intro f hf
  obtain ⟨e, he, hcode⟩ := h6 f hf
  obtain ⟨_, _, _, _, _, _, hexpr, htext⟩ := he
  refine ⟨?_, by rw [hcode]; exact htext, ?_⟩
  · rw [hcode, at0_plain]
    have hd : ∀ l : List PyTok, depth (l.map zeroPy) = depth l := by
      intro l; simp only [depth, List.map_map]; rfl
    refine ⟨by simpa using hexpr.nonempty, ?_, by rw [hd]; exact hexpr.balanced, ?_, ?_⟩
    · intro t ht
      rw [List.head?_map] at ht
      obtain ⟨u, hu, rfl⟩ := Option.mem_map.mp ht
      exact hexpr.notParen u hu
    · intro p s hps
      obtain ⟨p', s', rfl, rfl, rfl⟩ := List.map_eq_append_iff.mp hps
      rw [hd]
      exact hexpr.never_negative p' s' rfl
    · intro p t s hps h0
      obtain ⟨p', s', rfl, rfl, hts⟩ := List.map_eq_append_iff.mp hps
      obtain ⟨u, us, rfl, rfl, rfl⟩ := List.map_eq_cons_iff.mp hts
      rw [hd] at h0
      exact hexpr.no_operator p' u us rfl h0
  · rw [Build.allFactors_mem] at hf
    obtain ⟨tl, htl, t, ht, hf⟩ := hf
    have hX : {g | g ∈ t.factors} ∈ termSets m.lhs ∨ {g | g ∈ t.factors} ∈ termSets m.rhs := by
      simp only [List.mem_cons, List.not_mem_nil, or_false] at htl
      rcases htl with rfl | rfl
      · exact .inl ⟨t, ht, fun g => Iff.rfl⟩
      · exact .inr ⟨t, ht, fun g => Iff.rfl⟩
    obtain ⟨u, k1, k2, k3⟩ := hasExpr_token h4 (formulaMeans_codes h5 _ hX f hf)
    exact token_kind g3 (by decide) k1 k2 k3

end Patsy.Spell
