import Verif.Props.Tokens
import Verif.Props.Infix
import Verif.Model.Desc

/-!
# C05, C06, C13 from the raw tokens of Python's tokenizer to the parse tree
-/

namespace Patsy.Props

open Patsy.Infix Patsy.Tokens Patsy.Formula Patsy.Desc Patsy.Spec

/-- NEWLINE or NL. -/
def LineEnd (t : PyTok) : Prop := t.type = .newline ∨ t.type = .nl

instance : DecidablePred LineEnd := fun t => inferInstanceAs (Decidable (_ ∨ _))

/-- `body` is what Python's tokenizer yields before it stops, normally or in the middle of a multi-line construct. -/
def RawBody (fin : RawEnd) (raw body : List PyTok) : Prop :=
  (∃ e rest, raw = body ++ e :: rest ∧ e.type = .endmarker ∧ ∀ t ∈ body, t.type ≠ .endmarker) ∨
    (raw = body ∧ fin = .multiLine ∧ ∀ t ∈ body, t.type ≠ .endmarker)

/-- A token that is fine in a formula. -/
def Allowed (t : PyTok) : Prop := t.type ≠ .errortoken ∧ t.type ≠ .comment ∧ (LineEnd t → t.str = "")

/-- **C13** (Python tokens).  `python_tokenize` succeeds exactly on streams that end as they should and have neither
comments nor error tokens; it keeps all tokens but the ends of lines, in order. -/
theorem python_tokenize_iff (fin : RawEnd) (raw r : List PyTok) :
    pythonTokenize fin raw = .ok r ↔
      ∃ body, RawBody fin raw body ∧ (∀ t ∈ body, Allowed t) ∧ r = body.filter fun t => ¬ LineEnd t := by
  induction raw generalizing r with
  | nil =>
    constructor
    · intro h
      cases fin <;> simp [pythonTokenize] at h
      subst h
      exact ⟨[], .inr ⟨rfl, rfl, by simp⟩, by simp, rfl⟩
    · rintro ⟨body, ⟨e, rest, h, _⟩ | ⟨h, hf, _⟩, _, rfl⟩
      · simp at h
      · subst h hf; simp [pythonTokenize]
  | cons t ts ih =>
    have key : t.type ≠ .endmarker → ∀ body, RawBody fin (t :: ts) body ↔ ∃ b, body = t :: b ∧ RawBody fin ts b := by
      intro ht body
      constructor
      · rintro (⟨e, rest, h, he, hb⟩ | ⟨h, hf, hb⟩)
        · cases body with
          | nil => simp at h; exact absurd (h.1 ▸ he) ht
          | cons x b =>
            simp only [List.cons_append, List.cons.injEq] at h
            obtain ⟨rfl, h⟩ := h
            exact ⟨b, rfl, .inl ⟨e, rest, h, he, fun u hu => hb u (by simp [hu])⟩⟩
        · subst h
          exact ⟨ts, rfl, .inr ⟨rfl, hf, fun u hu => hb u (by simp [hu])⟩⟩
      · rintro ⟨b, rfl, ⟨e, rest, h, he, hb⟩ | ⟨h, hf, hb⟩⟩
        · exact .inl ⟨e, rest, by simp [h], he, by simpa [ht] using hb⟩
        · exact .inr ⟨by simp [h], hf, by simpa [ht] using hb⟩
    rw [pythonTokenize]
    by_cases h1 : t.type = .endmarker
    · rw [if_pos h1]
      constructor
      · intro h
        simp only [Except.ok.injEq] at h
        subst h
        exact ⟨[], .inl ⟨t, ts, rfl, h1, by simp⟩, by simp, rfl⟩
      · rintro ⟨body, ⟨e, rest, h, he, hb⟩ | ⟨h, hf, hb⟩, _, rfl⟩
        · cases body with
          | nil => rfl
          | cons x b =>
            simp only [List.cons_append, List.cons.injEq] at h
            exact absurd (h.1 ▸ h1) (hb x (by simp))
        · subst h; exact absurd h1 (hb t (by simp))
    · rw [if_neg h1]
      simp only [key h1]
      have step : (∃ body, (∃ b, body = t :: b ∧ RawBody fin ts b) ∧ (∀ t ∈ body, Allowed t) ∧
          r = body.filter fun t => ¬ LineEnd t) ↔
          Allowed t ∧ ∃ b, RawBody fin ts b ∧ (∀ t ∈ b, Allowed t) ∧ r = (t :: b).filter fun t => ¬ LineEnd t := by
        constructor
        · rintro ⟨_, ⟨b, rfl, hb⟩, ha, hr⟩
          exact ⟨ha t (by simp), b, hb, fun u hu => ha u (by simp [hu]), hr⟩
        · rintro ⟨h, b, hb, ha, hr⟩
          exact ⟨_, ⟨b, rfl, hb⟩, by simpa [h] using ha, hr⟩
      rw [step]
      by_cases h2 : t.type = .nl ∨ t.type = .newline
      · have hl : LineEnd t := h2.symm
        rw [if_pos h2]
        by_cases h3 : t.str = ""
        · rw [if_pos h3, ih]
          have hA : Allowed t := by
            refine ⟨?_, ?_, fun _ => h3⟩ <;> · intro h; rcases h2 with h2 | h2 <;> rw [h2] at h <;> cases h
          simp [hA, hl]
        · rw [if_neg h3]
          simp [Allowed, hl, h3]
      · have hl : ¬ LineEnd t := fun h => h2 h.symm
        rw [if_neg h2]
        by_cases h4 : t.type = .errortoken
        · rw [if_pos h4]; simp [Allowed, h4]
        · rw [if_neg h4]
          by_cases h5 : t.type = .comment
          · rw [if_pos h5]; simp [Allowed, h5]
          · rw [if_neg h5]
            have hA : Allowed t := ⟨h4, h5, fun h => absurd h hl⟩
            simp only [hA, true_and]
            constructor
            · intro h
              split at h
              · rename_i r' hr'
                simp only [Except.ok.injEq] at h
                subst h
                obtain ⟨b, hb, ha, rfl⟩ := (ih _).1 hr'
                exact ⟨b, hb, ha, by simp [hl]⟩
              · simp at h
            · rintro ⟨b, hb, ha, rfl⟩
              rw [(ih _).2 ⟨b, hb, ha, rfl⟩]
              simp [hl]

/-- What Python's tokenizer can do on a formula (one line without surrounding blanks): it does not just end, its only
errors are about unterminated strings and multi-line constructs, ends of lines are empty. -/
structure FromPython (fin : RawEnd) (raw : List PyTok) : Prop where
  ends : fin ≠ .exhausted ∨ ∃ t ∈ raw, t.type = .endmarker
  known : fin ≠ .otherTokenError
  lines : ∀ t ∈ raw, LineEnd t → t.str = ""
  plain : ∀ t ∈ raw, t.type ≠ .indent ∧ t.type ≠ .dedent

/-- **C06** (Python tokens).  Otherwise a `PatsyError` is raised. -/
theorem python_tokenize_total (fin : RawEnd) (raw : List PyTok) (h : FromPython fin raw) :
    (∃ r, pythonTokenize fin raw = .ok r) ∨ pythonTokenize fin raw = .error .patsyError := by
  obtain ⟨h1, h2, h3, _⟩ := h
  induction raw with
  | nil =>
    cases fin <;> simp [pythonTokenize] at *
  | cons t ts ih =>
    rw [pythonTokenize]
    split
    · exact .inl ⟨_, rfl⟩
    · rename_i h0
      have ih := ih (by simpa [h0] using h1) (fun t ht => h3 t (by simp [ht])) (fun t ht => by simp_all)
      split
      · rename_i h4
        rw [if_pos (h3 t (by simp) h4.symm)]
        exact ih
      · split
        · exact .inr rfl
        · split
          · exact .inr rfl
          · rcases ih with ⟨r, hr⟩ | hr
            · rw [hr]; exact .inl ⟨_, rfl⟩
            · rw [hr]; exact .inr rfl

theorem defaultOps_parens : "(" ∉ defaultOps.map (·.tokenType) ∧ ")" ∉ defaultOps.map (·.tokenType) := by decide

/-- The formula tokens of the raw tokens: the ends of lines are dropped and the rest is cut into operators and
maximal expressions. -/
def FormulaTokens (isNumber : String → Bool) (fin : RawEnd) (raw : List PyTok)
    (toks : List (Tok String (Option String))) : Prop :=
  ∃ body, RawBody fin raw body ∧ (∀ t ∈ body, Allowed t) ∧
    Tokenizes isNumber (defaultOps.map (·.tokenType)) (body.filter fun t => ¬ LineEnd t) toks

/-- The token at the top of a tree. -/
def topToken {σ ε : Type} : Ast σ ε → Tok σ ε
  | .atom t => t
  | .un t _ => t
  | .bin t _ _ => t

/-- `b` is `a`, with a `~` on top if there was none. -/
def Tilded (a b : Ast String (Option String)) : Prop :=
  if (topToken a).kind = .sym "~" then b = a else ∃ t, t.kind = .sym "~" ∧ b = .un t a

theorem formulaTokens_iff (isNumber : String → Bool) (fin : RawEnd) (raw : List PyTok)
    (toks : List (Tok String (Option String))) :
    FormulaTokens isNumber fin raw toks ↔
      ∃ ts, pythonTokenize fin raw = .ok ts ∧ tokenizeFormula isNumber (defaultOps.map (·.tokenType)) ts = .ok toks := by
  constructor
  · rintro ⟨body, h1, h2, h3⟩
    exact ⟨_, (python_tokenize_iff _ _ _).2 ⟨body, h1, h2, rfl⟩, (tokenize_iff _ _ defaultOps_parens _ _).2 h3⟩
  · rintro ⟨ts, h1, h2⟩
    obtain ⟨body, h3, h4, rfl⟩ := (python_tokenize_iff _ _ _).1 h1
    exact ⟨body, h3, h4, (tokenize_iff _ _ defaultOps_parens _ _).1 h2⟩

theorem parseFormula_ok (isNumber : String → Bool) (fin : RawEnd) (raw : List PyTok)
    (m : Node String (Option String)) :
    parseFormula isNumber fin raw = .ok m ↔
      ∃ toks n, FormulaTokens isNumber fin raw toks ∧ infixParse toks defaultOps atomicTokenTypes = .ok n ∧
        wrapRoot n = m := by
  simp only [formulaTokens_iff]
  unfold parseFormula
  cases h1 : pythonTokenize fin raw with
  | error e => simp [bind, Except.bind]
  | ok ts =>
    cases h2 : tokenizeFormula isNumber (defaultOps.map (·.tokenType)) ts with
    | error e => simp [bind, Except.bind, h2]
    | ok toks =>
      cases h3 : infixParse toks defaultOps atomicTokenTypes with
      | error e => simp [bind, Except.bind, h2, h3]
      | ok n => simp [bind, Except.bind, h2, h3, pure, Except.pure]

theorem wrapRoot_tilded (n : Node String (Option String)) : Tilded (astOf n) (astOf (wrapRoot n)) := by
  have h : nodeType n = some "~" ↔ (topToken (astOf n)).kind = .sym "~" := by
    have : topToken (astOf n) = n.token := by cases n <;> rfl
    rw [this, nodeType]
    cases hk : n.token.kind <;> simp
  unfold wrapRoot Tilded
  by_cases hn : nodeType n = some "~"
  · rw [if_pos hn, if_pos (h.1 hn)]
  · rw [if_neg hn, if_neg (fun c => hn (h.2 c))]
    exact ⟨_, rfl, rfl⟩

/-- **C05** (whole formulas).  `parse_formula` returns a tree with abstract syntax `b` iff the tokens of the formula
are the frontier of a tree of the grammar and `b` is the abstract syntax of that tree (with a `~` on top if there
is none). -/
theorem parse_formula_iff (isNumber : String → Bool) (fin : RawEnd) (raw : List PyTok) :
    (∀ m, parseFormula isNumber fin raw = .ok m →
      ∃ toks, ∃ c : Cst String (Option String), FormulaTokens isNumber fin raw toks ∧
        c.WF (mkTable defaultOps atomicTokenTypes) ∧ c.flatten = toks ∧ Tilded c.toAst (astOf m)) ∧
    (∀ toks, ∀ c : Cst String (Option String), FormulaTokens isNumber fin raw toks →
      c.WF (mkTable defaultOps atomicTokenTypes) → c.flatten = toks →
        ∃ m, parseFormula isNumber fin raw = .ok m ∧ Tilded c.toAst (astOf m)) := by
  constructor
  · intro m hm
    obtain ⟨toks, n, h1, h2, rfl⟩ := (parseFormula_ok _ _ _ _).1 hm
    obtain ⟨c, hc, hf, ha⟩ := (parse_iff_grammar _ _ defaultOps_ok toks _).1 ⟨n, h2, rfl⟩
    exact ⟨toks, c, h1, hc, hf, ha ▸ wrapRoot_tilded n⟩
  · intro toks c h1 hc hf
    obtain ⟨n, h2, ha⟩ := (parse_iff_grammar _ _ defaultOps_ok toks _).2 ⟨c, hc, hf, rfl⟩
    exact ⟨_, (parseFormula_ok _ _ _ _).2 ⟨toks, n, h1, h2, rfl⟩, ha ▸ wrapRoot_tilded n⟩

/-- **C06** (whole formulas).  `parse_formula` returns a tree or raises `PatsyError`, unless Python's tokenizer finds
no tokens at all. -/
theorem parse_formula_total (isNumber : String → Bool) (fin : RawEnd) (raw : List PyTok) (h : FromPython fin raw)
    (hne : pythonTokenize fin raw ≠ .ok []) :
    (∃ m, parseFormula isNumber fin raw = .ok m) ∨ parseFormula isNumber fin raw = .error .patsyError := by
  unfold parseFormula
  rcases python_tokenize_total fin raw h with ⟨ts, hts⟩ | hts
  · have hp : Plain ts := by
      obtain ⟨body, hb, _, rfl⟩ := (python_tokenize_iff _ _ _).1 hts
      intro t ht
      obtain ⟨ht, hl⟩ := List.mem_filter.1 ht
      have : t ∈ raw := by
        rcases hb with ⟨e, rest, rfl, _⟩ | ⟨rfl, _⟩
        · simp [ht]
        · exact ht
      exact ⟨(h.plain t this).1, (h.plain t this).2, fun hc => by simp [LineEnd, hc] at hl⟩
    rw [hts]
    rcases tokenize_total isNumber _ defaultOps_parens ts hp with ⟨toks, htk⟩ | htk
    · have hn : toks ≠ [] := by
        rintro rfl
        have h0 := (tokenize_iff _ _ defaultOps_parens _ _).1 htk
        cases h0
        exact hne hts
      rcases parse_total defaultOps atomicTokenTypes defaultOps_ok toks hn with ⟨n, hnn⟩ | ⟨he, _⟩
      · exact .inl ⟨wrapRoot n, by simp [bind, Except.bind, htk, hnn, pure, Except.pure]⟩
      · exact .inr (by simp [bind, Except.bind, htk, he])
    · exact .inr (by simp [bind, Except.bind, htk])
  · rw [hts]
    exact .inr rfl

/-! ### Examples -/

/-- The raw tokens of `y ~ a`. -/
def exRaw : List PyTok :=
  [exPy .name "y" 0, exPy .op "~" 1, exPy .name "a" 2, exPy .newline "" 3, exPy .endmarker "" 4]

example : pythonTokenize .exhausted exRaw = .ok [exPy .name "y" 0, exPy .op "~" 1, exPy .name "a" 2] := by rfl

example : FromPython .exhausted exRaw :=
  ⟨.inr ⟨exPy .endmarker "" 4, by simp [exRaw], rfl⟩, by simp, by decide, by decide⟩

example : pythonTokenize .exhausted exRaw ≠ .ok [] := by
  rw [show pythonTokenize .exhausted exRaw = .ok [exPy .name "y" 0, exPy .op "~" 1, exPy .name "a" 2] from rfl]
  simp

theorem exRaw_parsed : isOk (parseFormula (fun _ => false) .exhausted exRaw) = true := by decide +kernel

/-- It is accepted. -/
example : ∃ m, parseFormula (fun _ => false) .exhausted exRaw = .ok m := ⟨_, getOk_eq exRaw_parsed⟩

/-- A comment is not. -/
example : pythonTokenize .exhausted (exPy .name "y" 0 :: exPy .comment "#" 1 :: exRaw) = .error .patsyError := by rfl

end Patsy.Props
