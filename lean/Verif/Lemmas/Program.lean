import Verif.Spec.Program
import Verif.Props.Meaning
import Verif.Props.Desc
import Verif.Props.FitTransforms
import Verif.Props.Categorical

/-!
# From the text of a formula to the matrices: lemmas
-/

set_option linter.unusedSectionVars false

namespace Patsy.Program

open Patsy.Tokens Patsy.Desc Patsy.EvalFactor Patsy.Build Patsy.Cat Patsy.Spec Patsy.Calls Patsy.Props Patsy.Formula

variable {D V A S K H : Type}

/-! ### Printing and reading again -/

theorem untokLoop_ends {l l' : List (PyType × String)} (h : ∀ t ∈ l', t.1 = .newline ∨ t.1 = .endmarker) :
    ∀ s, untokLoop s (l ++ l') = untokLoop s l := by
  have h0 : ∀ s, untokLoop s l' = .ok [] := by
    induction l' with
    | nil => intro s; rfl
    | cons t l' ih =>
      intro s
      have ht := h t (by simp)
      obtain ⟨ty, tok⟩ := t
      simp only at ht
      rw [untokLoop, if_neg (by rcases ht with ht | ht <;> simp [ht]), if_pos ht]
      exact ih (fun t h' => h t (by simp [h'])) s
  induction l with
  | nil => intro s; rw [List.nil_append, h0]; rfl
  | cons t l ih =>
    intro s
    obtain ⟨ty, tok⟩ := t
    rw [List.cons_append, untokLoop, untokLoop]
    simp only [ih]

/-- The code of a factor is in normal form, and it consists of the tokens that were printed. -/
theorem reads_factor (I : Interp D V A S K H) {text : String} {e : List PyTok} (hr : Reads I.tokens text e)
    (hp : prettyUntokenize (plainTokens e) = .ok text) (ha : ∀ t ∈ e, t.type ≠ .endmarker)
    (hall : ∀ t ∈ e, Allowed t) (hl : ∀ t ∈ e, ¬ LineEnd t) :
    I.mkFactor text = .ok text ∧ I.code text = plainTokens e := by
  obtain ⟨e', ends, last, h1, h2, h3, h4⟩ := hr
  constructor
  · rw [Interp.mkFactor, normalizeTokenSpacing, h1]
    simp only [List.append_assoc, List.map_append]
    rw [prettyUntokenize, untokLoop_ends]
    · rw [← hp, ← h2]; rfl
    · intro t ht
      simp only [List.mem_append, List.mem_map, List.map_cons, List.map_nil, List.mem_cons, List.not_mem_nil, or_false] at ht
      rcases ht with ⟨t, ht, rfl⟩ | rfl
      · exact .inl (h3 t ht).1
      · exact .inr h4
  · have same : ∀ t ∈ e', ∃ u ∈ e, u.type = t.type ∧ u.str = t.str := by
      intro t ht
      have : (t.type, t.str) ∈ plainTokens e := by
        rw [← h2]; exact List.mem_map_of_mem ht
      obtain ⟨u, hu, he⟩ := List.mem_map.mp this
      simp only [Prod.mk.injEq] at he
      exact ⟨u, hu, he⟩
    have hlines : ∀ t ∈ e', ¬ LineEnd t := by
      intro t ht
      obtain ⟨u, hu, h5, _⟩ := same t ht
      have := hl u hu
      unfold LineEnd at this ⊢
      rwa [← h5]
    have htok : pythonTokenize .exhausted (I.tokens text) = .ok e' := by
      rw [python_tokenize_iff]
      refine ⟨e' ++ ends, .inl ⟨last, [], h1, h4, ?_⟩, ?_, ?_⟩
      · intro t ht
        rcases List.mem_append.mp ht with ht | ht
        · obtain ⟨u, hu, h5, _⟩ := same t ht
          rw [← h5]; exact ha u hu
        · rw [(h3 t ht).1]; decide
      · intro t ht
        rcases List.mem_append.mp ht with ht | ht
        · obtain ⟨u, hu, h5, h6⟩ := same t ht
          have := hall u hu
          unfold Allowed LineEnd at this ⊢
          rwa [← h5, ← h6]
        · unfold Allowed
          rw [(h3 t ht).1]
          exact ⟨by decide, by decide, fun _ => (h3 t ht).2⟩
      · rw [List.filter_append]
        have e1 : e'.filter (fun t => ¬ LineEnd t) = e' := List.filter_eq_self.mpr (by simpa using hlines)
        have e2 : ends.filter (fun t => ¬ LineEnd t) = [] := by
          rw [List.filter_eq_nil_iff]
          intro t ht
          have : LineEnd t := .inl (h3 t ht).1
          simp [this]
        rw [e1, e2, List.append_nil]
    rw [Interp.code, htok]
    exact h2

/-- The tokens of an embedded expression are fine. -/
theorem embedded_tokens {fin : RawEnd} {raw e : List PyTok} {text : String} (h : Embedded fin raw e text) :
    (∀ t ∈ e, t.type ≠ .endmarker) ∧ (∀ t ∈ e, Allowed t) ∧ (∀ t ∈ e, ¬ LineEnd t) ∧
      prettyUntokenize (plainTokens e) = .ok text := by
  obtain ⟨body, pre, post, hb, ha, he, _, hp⟩ := h
  have hmem : ∀ t ∈ e, t ∈ body ∧ ¬ LineEnd t := by
    intro t ht
    have : t ∈ body.filter fun t => ¬ LineEnd t := by rw [he]; simp [ht]
    simpa using this
  refine ⟨fun t ht => ?_, fun t ht => ha t (hmem t ht).1, fun t ht => (hmem t ht).2, hp⟩
  rcases hb with ⟨_, _, _, _, h⟩ | ⟨_, _, h⟩
  · exact h t (hmem t ht).1
  · exact h t (hmem t ht).1

/-! ### Where the factors of a formula come from -/

theorem means_ok {mk : String → Except Err String} {toInt : String → Option Int} {n : FTree} {M : Meaning String}
    (h : Means mk toInt n M) (hmk : ∀ c, HasExpr n (some c) → mk c = .ok c) : Means .ok toInt n M := by
  induction h with
  | zero h => exact .zero h
  | one h => exact .one h
  | code h1 h2 h3 =>
    rw [hmk _ ⟨h1, h2⟩] at h3
    exact .code h1 h2 h3
  | pos h _ ih => exact .pos h (ih hmk)
  | negZero h1 h2 => exact .negZero h1 h2
  | negOne h1 h2 => exact .negOne h1 h2
  | plusZero h _ h2 ih => exact .plusZero h (ih fun c hc => hmk c (.inl hc)) h2
  | plus h _ _ h2 ih1 ih2 => exact .plus h (ih1 fun c hc => hmk c (.inl hc)) (ih2 fun c hc => hmk c (.inr hc)) h2
  | minusZero h _ h2 ih => exact .minusZero h (ih fun c hc => hmk c (.inl hc)) h2
  | minusOne h _ h2 ih => exact .minusOne h (ih fun c hc => hmk c (.inl hc)) h2
  | minus h _ _ h2 h3 ih1 ih2 => exact .minus h (ih1 fun c hc => hmk c (.inl hc)) (ih2 fun c hc => hmk c (.inr hc)) h2 h3
  | colon h _ _ h2 h3 ih1 ih2 => exact .colon h (ih1 fun c hc => hmk c (.inl hc)) (ih2 fun c hc => hmk c (.inr hc)) h2 h3
  | star h _ _ h2 h3 ih1 ih2 => exact .star h (ih1 fun c hc => hmk c (.inl hc)) (ih2 fun c hc => hmk c (.inr hc)) h2 h3
  | slash h _ _ h2 h3 ih1 ih2 => exact .slash h (ih1 fun c hc => hmk c (.inl hc)) (ih2 fun c hc => hmk c (.inr hc)) h2 h3
  | power h _ h2 h3 ih => exact .power h (ih fun c hc => hmk c (.inl hc)) h2 h3

theorem means_codes {toInt : String → Option Int} {n : FTree} {M : Meaning String} (h : Means (F := String) .ok toInt n M) :
    ∀ X ∈ M.terms, ∀ f ∈ X, HasExpr n (some f) := by
  induction h with
  | zero h => rintro X ⟨⟩
  | one h => rintro X ⟨⟩
  | code h1 h2 h3 =>
    rintro X rfl f rfl
    cases h3
    exact ⟨h1, h2⟩
  | pos h _ ih => exact ih
  | negZero h1 h2 => rintro X ⟨⟩
  | negOne h1 h2 => rintro X ⟨⟩
  | plusZero h _ h2 ih => exact fun X hX f hf => .inl (ih X hX f hf)
  | plus h _ _ h2 ih1 ih2 =>
    rintro X (hX | hX) f hf
    · exact .inl (ih1 X hX f hf)
    · exact .inr (ih2 X hX f hf)
  | minusZero h _ h2 ih => exact fun X hX f hf => .inl (ih X hX f hf)
  | minusOne h _ h2 ih => exact fun X hX f hf => .inl (ih X hX f hf)
  | minus h _ _ h2 h3 ih1 ih2 => exact fun X hX f hf => .inl (ih1 X hX.1 f hf)
  | colon h _ _ h2 h3 ih1 ih2 =>
    rintro X ⟨Y, hY, Z, hZ, rfl⟩ f (hf | hf)
    · exact .inl (ih1 Y hY f hf)
    · exact .inr (ih2 Z hZ f hf)
  | star h _ _ h2 h3 ih1 ih2 =>
    rintro X ((hX | hX) | ⟨Y, hY, Z, hZ, rfl⟩) f hf
    · exact .inl (ih1 X hX f hf)
    · exact .inr (ih2 X hX f hf)
    · rcases hf with hf | hf
      · exact .inl (ih1 Y hY f hf)
      · exact .inr (ih2 Z hZ f hf)
  | slash h _ _ h2 h3 ih1 ih2 =>
    rintro X (hX | ⟨Z, hZ, rfl⟩) f hf
    · exact .inl (ih1 X hX f hf)
    · rcases hf with ⟨Y, hY, hf⟩ | hf
      · exact .inl (ih1 Y hY f hf)
      · exact .inr (ih2 Z hZ f hf)
  | power h _ h2 h3 ih =>
    rintro X ⟨Z, hZ, _, _, rfl⟩ f ⟨Y, hY, hf⟩
    exact .inl (ih Y (hZ hY) f hf)

theorem formulaMeans_ok {mk : String → Except Err String} {toInt : String → Option Int} {n : FTree} {L R : Set (Set String)}
    (h : FormulaMeans mk toInt n L R) (hmk : ∀ c, HasExpr n (some c) → mk c = .ok c) : FormulaMeans .ok toInt n L R := by
  cases h with
  | both h h1 h2 => exact .both h (means_ok h1 fun c hc => hmk c (.inl hc)) (means_ok h2 fun c hc => hmk c (.inr hc))
  | tilde h h1 => exact .tilde h (means_ok h1 hmk)
  | bare h h1 => exact .bare h (means_ok h1 hmk)

theorem formulaMeans_codes {toInt : String → Option Int} {n : FTree} {L R : Set (Set String)}
    (h : FormulaMeans (F := String) .ok toInt n L R) : ∀ X, X ∈ L ∨ X ∈ R → ∀ f ∈ X, HasExpr n (some f) := by
  cases h with
  | both h h1 h2 =>
    rintro X ((hX | ⟨rfl, _⟩) | (hX | ⟨rfl, _⟩)) f hf
    · exact .inl (means_codes h1 X hX f hf)
    · exact absurd hf (by simp)
    · exact .inr (means_codes h2 X hX f hf)
    · exact absurd hf (by simp)
  | tilde h h1 =>
    rintro X (hX | (hX | ⟨rfl, _⟩)) f hf
    · exact absurd hX (by simp)
    · exact means_codes h1 X hX f hf
    · exact absurd hf (by simp)
  | bare h h1 =>
    rintro X (hX | (hX | ⟨rfl, _⟩)) f hf
    · exact absurd hX (by simp)
    · exact means_codes h1 X hX f hf
    · exact absurd hf (by simp)

theorem hasExpr_token {c : Cst String (Option String)} {x : Option String} {n : FTree} (hn : astOf n = c.toAst)
    (h : HasExpr n x) : ∃ t ∈ c.flatten, t.kind = .sym "PYTHON_EXPR" ∧ t.extra = x := by
  induction c generalizing n with
  | atom t =>
    cases n with
    | atom t' o => cases hn; exact ⟨t, by simp [Cst.flatten], h⟩
    | unary t' a o => cases hn
    | binary t' a b o => cases hn
  | paren l c r ih =>
    obtain ⟨t, ht, h⟩ := ih hn h
    exact ⟨t, by simp [Cst.flatten, ht], h⟩
  | un t p c ih =>
    cases n with
    | atom t' o => cases hn
    | unary t' a o =>
      simp only [astOf, Cst.toAst, Ast.un.injEq] at hn
      obtain ⟨t, ht, h⟩ := ih hn.2 h
      exact ⟨t, by simp [Cst.flatten, ht], h⟩
    | binary t' a b o => cases hn
  | bin l t p r ih1 ih2 =>
    cases n with
    | atom t' o => cases hn
    | unary t' a o => cases hn
    | binary t' a b o =>
      simp only [astOf, Cst.toAst, Ast.bin.injEq] at hn
      rcases h with h | h
      · obtain ⟨t, ht, h⟩ := ih1 hn.2.1 h
        exact ⟨t, by simp [Cst.flatten, ht], h⟩
      · obtain ⟨t, ht, h⟩ := ih2 hn.2.2 h
        exact ⟨t, by simp [Cst.flatten, ht], h⟩

theorem token_expression {isNumber : String → Bool} {ops : List String} {ts : List PyTok}
    {toks : List (Infix.Tok String (Option String))} (h : Tokenizes isNumber ops ts toks) (hops : "PYTHON_EXPR" ∉ ops)
    {t : Infix.Tok String (Option String)} (ht : t ∈ toks) (hk : t.kind = .sym "PYTHON_EXPR") :
    ∃ pre e post s, t.extra = some s ∧ ts = pre ++ e ++ post ∧ IsExpr ops e ∧
      prettyUntokenize (plainTokens e) = .ok s := by
  induction h with
  | nil => cases ht
  | op u ts tok out h1 h2 h3 ih =>
    rcases List.mem_cons.mp ht with rfl | ht
    · cases h2 with
      | l _ => cases hk
      | r _ => cases hk
      | o g1 g2 =>
        simp only [Infix.Kind.sym.injEq] at hk
        rcases h1 with h1 | h1 | h1
        · exact absurd h1 g1
        · exact absurd h1 g2
        · exact absurd (hk ▸ h1) hops
    · obtain ⟨pre, e, post, s, hs, rfl, h⟩ := ih ht
      exact ⟨u :: pre, e, post, s, hs, rfl, h⟩
  | expr e ts tok out h1 h2 h3 h4 h5 ih =>
    rcases List.mem_cons.mp ht with rfl | ht
    · cases h4 with
      | mk u us text hp =>
        exact ⟨[], u :: us, ts, text, rfl, rfl, h1, hp⟩
    · obtain ⟨pre, e', post, s, hs, rfl, h⟩ := ih ht
      exact ⟨e ++ pre, e', post, s, hs, by simp, h⟩

theorem hasExpr_embedded {isNumber : String → Bool} {fin : RawEnd} {raw : List PyTok} {c : Cst String (Option String)}
    (h : FormulaTokens isNumber fin raw c.flatten) {n : FTree} (hn : astOf n = c.toAst) {x : Option String}
    (hc : HasExpr n x) : ∃ s e, x = some s ∧ Embedded fin raw e s := by
  obtain ⟨t, ht, hk, hs⟩ := hasExpr_token hn hc
  obtain ⟨body, h1, h2, h3⟩ := h
  obtain ⟨pre, e, post, s, h4, h5, h6, h7⟩ := token_expression h3 (by decide) ht hk
  exact ⟨s, e, hs.symm.trans h4, body, pre, post, h1, h2, h5, h6, h7⟩

theorem embedded_factor {I : Interp D V A S K H} {fin : RawEnd} {raw : List PyTok} (hfine : FineText I fin raw)
    {e : List PyTok} {s : String} (he : Embedded fin raw e s) : I.mkFactor s = .ok s ∧ I.code s = plainTokens e := by
  obtain ⟨g1, g2, g3, g4⟩ := embedded_tokens he
  exact reads_factor I (hfine e s he).1 g4 g1 g2 g3

/-- The description of a formula, and where its factors come from. -/
theorem fromFormula_ok {I : Interp D V A S K H} {fin : RawEnd} {raw : List PyTok} (hfine : FineText I fin raw)
    {m : ModelDesc String} (h : I.fromFormula fin raw = .ok m) :
    (∃ (c : Cst String (Option String)) (tree : FTree), FormulaTokens I.isNumber fin raw c.flatten ∧
      c.WF (Infix.mkTable defaultOps atomicTokenTypes) ∧ astOf tree = c.toAst ∧
      FormulaMeans (F := String) .ok I.toInt tree (termSets m.lhs) (termSets m.rhs)) ∧
    (Normal m.lhs ∧ Normal m.rhs) ∧
    ∀ f ∈ allFactors [m.lhs, m.rhs], ∃ e, Embedded fin raw e f ∧ I.code f = plainTokens e := by
  simp only [Interp.fromFormula, bind_ok] at h
  obtain ⟨tree, h1, h2⟩ := h
  have hnormal := eval_normal _ _ _ _ h2
  obtain ⟨toks, n, h3, h4, rfl⟩ := (parseFormula_ok _ _ _ _).1 h1
  obtain ⟨c, hc, rfl, ha⟩ := (parse_iff_grammar _ _ defaultOps_ok toks _).1 ⟨n, h4, rfl⟩
  have hmean := (formula_semantics (mkFactor := I.mkFactor) (toInt := I.toInt) n _ _).mpr ⟨m, h2, rfl, rfl⟩
  have hcode : ∀ s, HasExpr n (some s) → ∃ e, Embedded fin raw e s ∧ I.mkFactor s = .ok s ∧ I.code s = plainTokens e := by
    intro s hs
    obtain ⟨s', e, hs', he⟩ := hasExpr_embedded h3 ha.symm hs
    cases hs'
    exact ⟨e, he, embedded_factor hfine he⟩
  have hmean' := formulaMeans_ok hmean fun s hs => (hcode s hs).elim fun _ h => h.2.1
  refine ⟨⟨c, n, h3, hc, ha.symm, hmean'⟩, hnormal, ?_⟩
  intro f hf
  rw [allFactors_mem] at hf
  obtain ⟨tl, htl, t, ht, hf⟩ := hf
  have hX : {g | g ∈ t.factors} ∈ termSets m.lhs ∨ {g | g ∈ t.factors} ∈ termSets m.rhs := by
    simp only [List.mem_cons, List.not_mem_nil, or_false] at htl
    rcases htl with rfl | rfl
    · exact .inl ⟨t, ht, fun g => Iff.rfl⟩
    · exact .inr ⟨t, ht, fun g => Iff.rfl⟩
  obtain ⟨e, h5, _, h6⟩ := hcode f (formulaMeans_codes hmean' _ hX f hf)
  exact ⟨e, h5, h6⟩

/-- The text of a formula is a model, or a `PatsyError`. -/
theorem fromFormula_total {I : Interp D V A S K H} {fin : RawEnd} {raw : List PyTok} (hfine : FineText I fin raw)
    (hpy : FromPython fin raw) (hne : pythonTokenize fin raw ≠ .ok []) {e : Err} (h : I.fromFormula fin raw = .error e) :
    e = .patsyError := by
  rcases parse_formula_total I.isNumber fin raw hpy hne with ⟨tree, ht⟩ | ht
  · simp only [Interp.fromFormula, ht, bind, Except.bind] at h
    obtain ⟨toks, n, h3, h4, rfl⟩ := (parseFormula_ok _ _ _ _).1 ht
    obtain ⟨c, hc, rfl, ha⟩ := (parse_iff_grammar _ _ defaultOps_ok toks _).1 ⟨n, h4, rfl⟩
    rcases eval_total (mkFactor := I.mkFactor) (toInt := I.toInt) n with ⟨d, hd⟩ | hd | ⟨_, hx⟩ | ⟨code, err, hx, hm, _⟩
    · rw [hd] at h; cases h
    · rw [hd] at h; cases h; rfl
    · obtain ⟨s, e', hs, _⟩ := hasExpr_embedded h3 ha.symm hx
      cases hs
    · obtain ⟨s, e', hs, he⟩ := hasExpr_embedded h3 ha.symm hx
      cases hs
      rw [(embedded_factor hfine he).1] at hm
      cases hm
  · simp only [Interp.fromFormula, ht, bind, Except.bind, Except.error.injEq] at h
    exact h.symm

/-! ### Types of factors -/

theorem examined_shown {Cn : Type} {na : NAAction} {order : List PyVal → List PyVal} (ho : ∀ l, (order l).Perm l)
    {v : CatValue Cn} {T : Option (FactorType Cn)} (h : examineFactor na order none [v] = .ok T) :
    ∃ t, T = some t ∧ TypeShown na v t := by
  have hbool : sortAnything (order [.bool true, .bool false]) = [.bool false, .bool true] := by
    rw [sortAnything_perm (l := [.bool true, .bool false]) (by simp [Sortable]) (by simp [PyVal.key, boolNum]) (ho _)]
    decide +kernel
  -- the levels of an array
  have harr : ∀ (s : Sniffer Cn) (kind : Kind) (ndim ncols : Nat) (vals : List PyVal) (s' : Sniffer Cn) (b : Bool),
      s.levels = none → s.levelSet = [] → kind ≠ .boolDtype →
      s.sniffRaw na (.array kind ndim ncols vals) = .ok (s', b) →
      ndim ≤ 1 ∧ (s'.levelsContrast order).2 = s.contrast ∧
        ((∀ v ∈ vals, Good na v) → (∀ i, PyVal.nan i ∈ vals → na.nan = true) →
          AreLevels na vals (s'.levelsContrast order).1) := by
    intro s kind ndim ncols vals s' b h1 h2 hk h
    simp only [Sniffer.sniffRaw, if_neg hk] at h
    split at h
    · cases h
    · rename_i hnd
      refine ⟨by omega, ?_⟩
      simp only [bind_ok] at h
      obtain ⟨set, h3, h4⟩ := h
      simp only [Except.ok.injEq, Prod.mk.injEq] at h4
      obtain ⟨rfl, _⟩ := h4
      refine ⟨rfl, fun hg hn => ?_⟩
      rw [h2, foldlM_sniff hg] at h3
      cases h3
      simp only [Sniffer.levelsContrast, h1]
      exact (areLevels_sorted hg hn ho).1
  have hsniff : ∀ (s : Sniffer Cn) (b : Bool), Sniffer.sniff na {} v = .ok (s, b) →
      (∀ ndim ncols vals, v ≠ .raw (.array .number ndim ncols vals)) →
      TypeShown na v (.categorical (s.levelsContrast order).1 (s.levelsContrast order).2) := by
    intro s b hs hnum
    cases v with
    | raw r =>
      cases r with
      | pandas cats codes =>
        cases hs
        exact .pandas
      | array kind ndim ncols vals =>
        cases kind with
        | number => exact absurd rfl (hnum ndim ncols vals)
        | boolDtype =>
          simp only [Sniffer.sniff, Sniffer.sniffRaw, if_true] at hs
          cases hs
          simp only [Sniffer.levelsContrast, hbool]
          exact .bools
        | other =>
          obtain ⟨h1, h2, h3⟩ := harr {} .other ndim ncols vals s b rfl rfl (by decide) hs
          rw [h2]
          exact .values h1 h3
    | box r c levels =>
      cases levels with
      | some l =>
        cases hs
        exact .declared
      | none =>
        cases r with
        | pandas cats codes =>
          cases hs
          exact .pandasC
        | array kind ndim ncols vals =>
          by_cases hk : kind = .boolDtype
          · subst hk
            simp only [Sniffer.sniff, Sniffer.sniffRaw, if_true] at hs
            cases hs
            simp only [Sniffer.levelsContrast, hbool]
            exact .boolsC
          · obtain ⟨h1, h2, h3⟩ := harr { contrast := c } kind ndim ncols vals s b rfl rfl hk hs
            rw [h2]
            exact .valuesC hk h1 h3
  by_cases hnum : ∃ ndim ncols vals, v = .raw (.array .number ndim ncols vals)
  · obtain ⟨ndim, ncols, vals, rfl⟩ := hnum
    simp only [examineFactor] at h
    split at h
    · cases h
    · rename_i h2
      cases h
      refine ⟨_, rfl, ?_⟩
      by_cases h3 : ndim = 2
      · subst h3
        simp only [if_true]
        exact .matrix
      · rw [if_neg h3]
        exact .vector (by omega)
  · push Not at hnum
    have hstep : examineFactor na order none [v] = match Sniffer.sniff na {} v with
      | .error e => .error e
      | .ok (s, _) => .ok (some (.categorical (s.levelsContrast order).1 (s.levelsContrast order).2)) := by
      rw [examineFactor]
      · simp only [Option.getD_none]
        cases hs : Sniffer.sniff na {} v with
        | error e => rfl
        | ok p =>
          obtain ⟨s, b⟩ := p
          cases b <;> rfl
      · exact fun a b c _ => hnum a b c
    rw [hstep] at h
    cases hs : Sniffer.sniff na {} v with
    | error e => rw [hs] at h; cases h
    | ok p =>
      obtain ⟨s, b⟩ := p
      rw [hs] at h
      cases h
      exact ⟨_, rfl, hsniff s b hs hnum⟩

end Patsy.Program
