import Verif.Spec.ConstraintWays
import Verif.Props.Constraint

/-!
# Lemmas about equations for single columns
-/

namespace Patsy.Constraint

set_option linter.unusedSectionVars false

open Patsy.Spec
open Patsy.Infix (Tok Kind Node Origin infixParse mkTable)
open Patsy.Desc (bind_ok pure_ok bind_err)

variable {K : Type} [Field K] [DecidableEq K]

/-! ### Rows -/

theorem unit_selector {names : List Name} (hnd : names.Nodup) {n : Name} (h : n ∈ names) :
    (List.replicate names.length (0 : K)).set (names.idxOf n) 1 = selector names n := by
  apply List.ext_getElem
  · simp [selector]
  intro i h1 h2
  have hi : i < names.length := by simpa using h1
  rw [List.getElem_set]
  simp only [selector, List.getElem_map, List.getElem_replicate]
  by_cases he : names.idxOf n = i
  · subst he
    simp
  · rw [if_neg he, if_neg]
    intro hm
    exact he (by rw [← hm]; exact hnd.idxOf_getElem i hi)

theorem selector_length (names : List Name) (n : Name) : (selector names n : List K).length = names.length := by
  simp [selector]

theorem selector_good (names : List Name) {items : List (Name × K)} (hne : items ≠ []) :
    Good names (columnsEqual names items) where
  names_eq := rfl
  rows := by simp [columnsEqual]
  nonempty := by
    have := List.length_pos_of_ne_nil hne
    simpa [columnsEqual] using this
  cols := by
    intro r hr
    simp only [columnsEqual, List.mem_map] at hr
    obtain ⟨p, -, rfl⟩ := hr
    exact selector_length _ _

theorem combine_rows {names : List Name} {cs : List (LinCon K)} (hne : cs ≠ []) (h : ∀ c ∈ cs, Good names c) :
    combine cs = .ok ⟨names, cs.flatMap (·.coefs), cs.flatMap (·.constants)⟩ := by
  obtain ⟨c, cs, rfl⟩ : ∃ c t, cs = c :: t := List.exists_cons_of_ne_nil hne
  have hlen := length_flatMap _ fun d hd => (h d hd).rows
  have hpos : 0 < ((c :: cs).flatMap (·.coefs)).length := by
    have := (h c List.mem_cons_self).nonempty
    simp only [List.flatMap_cons, List.length_append]
    omega
  have hc : c.names = names := (h c List.mem_cons_self).names_eq
  have hany : (c :: cs).any (fun d => decide (d.names ≠ c.names)) = false := by
    rw [List.any_eq_false]
    intro d hd
    simp [(h d hd).names_eq, hc]
  rw [combine]
  simp only [hany]
  rw [if_neg (by simp), hc, LinCon.make]
  simp only [Arr.columnDefault, Arr.atleast2d]
  rw [if_neg (by simp), if_neg (by simp), if_neg (by omega), if_neg (by simp only [List.length_map]; omega)]
  simp [Function.comp_def]

/-! ### Evaluation -/

/-- Nodes with this expression evaluate to this constraint. -/
def Gives (names : List Name) (num : Name → K) (a : Ast Sym Name) (c : LinCon K) : Prop :=
  ∀ n, astOf n = a → evalConstraint names num n = .ok c

theorem zipWith_sub_zero (l : List K) : List.zipWith (· - ·) l (List.replicate l.length 0) = l := by
  induction l with
  | nil => rfl
  | cons a l ih => simp [List.replicate_succ, ih]

theorem selector_not_zero {names : List Name} {n : Name} (h : n ∈ names) :
    ((selector names n : List K).all fun c => decide (c = 0)) = false := by
  rw [List.all_eq_false]
  exact ⟨1, List.mem_map.mpr ⟨n, h, by simp⟩, by simp⟩

/-- An atom for a variable evaluates to its row. -/
theorem eval_variable {names : List Name} (hnd : names.Nodup) (num : Name → K) {t : Tok Sym Name}
    (hk : t.kind = .sym .variable) (he : t.extra ∈ names) (o : Origin) :
    eval names num (.atom t o) = .ok (.lin ⟨selector names t.extra, 0⟩) := by
  simp only [eval, evalAtom, hk, if_pos he, unit_selector hnd he]

theorem eval_number (names : List Name) (num : Name → K) {t : Tok Sym Name}
    (hk : t.kind = .sym .number) (o : Origin) :
    eval names num (.atom t o) = .ok (.lin ⟨List.replicate names.length 0, num t.extra⟩) := by
  simp only [eval, evalAtom, hk]

/-- The name alone. -/
theorem gives_variable {names : List Name} (hnd : names.Nodup) (num : Name → K) {t : Tok Sym Name}
    (hk : t.kind = .sym .variable) (he : t.extra ∈ names) :
    Gives names num (.atom t) (columnsEqual names [(t.extra, 0)]) := by
  intro n hn
  cases n with
  | atom t' o =>
    simp only [astOf, Ast.atom.injEq] at hn
    subst hn
    simp only [evalConstraint, eval_variable hnd num hk he]
    show toCon names (.lin ⟨selector names t'.extra, 0⟩) = _
    rw [toCon, if_neg, make_vec (selector_length _ _)]
    · simp [columnsEqual]
    · rw [Lin.isConstant, selector_not_zero he]
      simp
  | unary => simp [astOf] at hn
  | binary => simp [astOf] at hn

/-- The expression of a literal. -/
inductive LiteralAst (num : Name → K) : Cst Sym Name → K → Prop
  | plain {t : Tok Sym Name} (h : t.kind = .sym .number) : LiteralAst num (.atom t) (num t.extra)
  | minus {s t : Tok Sym Name} (hs : s.kind = .sym .minus) (h : t.kind = .sym .number) :
    LiteralAst num (.un s 100 (.atom t)) (-num t.extra)

theorem eval_literal (names : List Name) {num : Name → K} {d : Cst Sym Name} {k : K} (h : LiteralAst num d k)
    {n : Node Sym Name} (hn : astOf n = d.toAst) :
    eval names num n = .ok (.lin ⟨List.replicate names.length 0, k⟩) ∧ ∀ t l r o, n ≠ .binary t l r o := by
  cases h with
  | plain h =>
    cases n with
    | atom t' o =>
      simp only [astOf, Cst.toAst, Ast.atom.injEq] at hn
      subst hn
      exact ⟨eval_number names num h o, by simp⟩
    | unary => simp [astOf, Cst.toAst] at hn
    | binary => simp [astOf, Cst.toAst] at hn
  | minus hs h =>
    cases n with
    | atom t' o => simp [astOf, Cst.toAst] at hn
    | binary => simp [astOf, Cst.toAst] at hn
    | unary s' a o =>
      simp only [astOf, Cst.toAst, Ast.un.injEq] at hn
      obtain ⟨rfl, hn⟩ := hn
      cases a with
      | unary => simp [astOf] at hn
      | binary => simp [astOf] at hn
      | atom t' o' =>
        simp only [astOf, Ast.atom.injEq] at hn
        subst hn
        refine ⟨?_, by simp⟩
        rw [eval, eval_number names num h]
        show evalUnary s' _ = _
        simp [evalUnary, hs]

/-- An equation. -/
theorem gives_equation {names : List Name} (hnd : names.Nodup) {num : Name → K} {t e : Tok Sym Name} {d : Cst Sym Name}
    {k : K} (hk : t.kind = .sym .variable) (ht : t.extra ∈ names) (he : e.kind = .sym .eq) (hd : LiteralAst num d k) :
    Gives names num (.bin e (.atom t) d.toAst) (columnsEqual names [(t.extra, k)]) := by
  intro n hn
  cases n with
  | atom => simp [astOf] at hn
  | unary => simp [astOf] at hn
  | binary e' l r o =>
    simp only [astOf, Ast.bin.injEq] at hn
    obtain ⟨rfl, hl, hr⟩ := hn
    obtain ⟨hr1, hr2⟩ := eval_literal names hd hr
    cases l with
    | unary => simp [astOf] at hl
    | binary => simp [astOf] at hl
    | atom t' o' =>
      simp only [astOf, Ast.atom.injEq] at hl
      subst hl
      have hin : innerR names num r = none := by
        cases r with
        | binary t l r o => exact absurd rfl (hr2 t l r o)
        | atom => rfl
        | unary => rfl
      have hil : innerL names num (.atom t' o') = none := rfl
      rw [evalConstraint, eval_eq names num he, hin, hil]
      simp only [evalEq, nested, hr1, eval_variable hnd num hk ht, Option.getD_none, toLin]
      show (do
        let v ← (if (List.zipWith (· - ·) (selector names t'.extra) (List.replicate names.length (0 : K))).all
            (fun c => decide (c = 0)) = true then .error .patsyError else do
          let c ← LinCon.make names (.vec _) (some (.scalar _))
          let res ← combine [c]
          pure (.con res) : Except Err (Val K))
        toCon names v) = _
      have hz := zipWith_sub_zero (selector names t'.extra : List K)
      rw [selector_length] at hz
      rw [hz, if_neg (by rw [selector_not_zero ht]; simp), make_vec (selector_length _ _)]
      show (do
        let v ← (do
          let res ← combine [(⟨names, [selector names t'.extra], [-0 + k]⟩ : LinCon K)]
          pure (.con res) : Except Err (Val K))
        toCon names v) = _
      rw [combine_rows (names := names) (by simp) (by
        intro c hc
        rw [List.mem_singleton] at hc
        subst hc
        exact good_vec (selector_length _ _) _)]
      simp [columnsEqual, toCon, bind, Except.bind, pure, Except.pure]

/-- An enumeration. -/
theorem gives_comma {names : List Name} {num : Name → K} {e : Tok Sym Name} (he : e.kind = .sym .comma)
    {l r : Ast Sym Name} {xs ys : List (Name × K)} (hx : xs ≠ []) (hy : ys ≠ [])
    (hl : Gives names num l (columnsEqual names xs)) (hr : Gives names num r (columnsEqual names ys)) :
    Gives names num (.bin e l r) (columnsEqual names (xs ++ ys)) := by
  intro n hn
  cases n with
  | atom => simp [astOf] at hn
  | unary => simp [astOf] at hn
  | binary e' a b o =>
    simp only [astOf, Ast.bin.injEq] at hn
    obtain ⟨rfl, ha, hb⟩ := hn
    have h1 := hl a ha
    have h2 := hr b hb
    simp only [evalConstraint, bind_ok] at h1 h2
    obtain ⟨v, h1, h1'⟩ := h1
    obtain ⟨w, h2, h2'⟩ := h2
    rw [evalConstraint, eval_not_eq names num (by rw [he]; simp), if_pos he, h1, h2]
    simp only [evalComma]
    simp only [bind, Except.bind, h1', h2']
    rw [combine_rows (names := names) (by simp) (by
      intro c hc
      simp only [List.mem_cons, List.not_mem_nil, or_false] at hc
      rcases hc with rfl | rfl
      · exact selector_good names hx
      · exact selector_good names hy)]
    simp [columnsEqual, toCon, pure, Except.pure]

/-! ### Words -/

/-- The characters of numerals. -/
theorem numeral_chars {v : List Char} (h : Numeral v) : ∀ c ∈ v, isDigit c = true ∨ c ∈ ['.', 'e', 'E', '+', '-'] := by
  have hd : ∀ {w}, Digits w → ∀ c ∈ w, isDigit c = true ∨ c ∈ ['.', 'e', 'E', '+', '-'] := fun hw c hc =>
    Or.inl (((digits_iff _).mp hw).2 c hc)
  have hm : ∀ {w}, Mantissa w → ∀ c ∈ w, isDigit c = true ∨ c ∈ ['.', 'e', 'E', '+', '-'] := by
    intro w hw c hc
    cases hw with
    | int h => exact hd h c hc
    | frac h1 h2 =>
      rw [List.mem_append, List.mem_cons] at hc
      rcases hc with hc | rfl | hc
      · rcases h1 with rfl | h1
        · simp at hc
        · exact hd h1 c hc
      · simp
      · exact hd h2 c hc
  have he : ∀ {w}, Exponent w → ∀ c ∈ w, isDigit c = true ∨ c ∈ ['.', 'e', 'E', '+', '-'] := by
    intro w hw c hc
    cases hw with
    | plain h1 h2 =>
      rw [List.mem_cons] at hc
      rcases hc with rfl | hc
      · rcases h1 with rfl | rfl <;> simp
      · exact hd h2 c hc
    | signed h1 h3 h2 =>
      rw [List.mem_cons, List.mem_cons] at hc
      rcases hc with rfl | rfl | hc
      · rcases h1 with rfl | rfl <;> simp
      · rcases h3 with rfl | rfl <;> simp
      · exact hd h2 c hc
  intro c hc
  cases h with
  | plain h => exact hm h c hc
  | exp h1 h2 =>
    rw [List.mem_append] at hc
    rcases hc with hc | hc
    · exact hm h1 c hc
    · exact he h2 c hc

/-- What may follow an equation: nothing or a comma. -/
def Ends (rest : List Char) : Prop := rest = [] ∨ ∃ t, rest = ',' :: t

theorem numeral_longest_ends {w rest : List Char} (hr : Ends rest) {v : List Char} (hv : Numeral v)
    (hp : v <+: w ++ rest) : v.length ≤ w.length := by
  rcases hr with rfl | ⟨t, rfl⟩
  · simpa using hp.length_le
  · by_contra hlt
    have hlen : w.length < v.length := by omega
    have h1 : v[w.length]? = some ',' := by
      obtain ⟨u, hu⟩ := hp
      have := congrArg (fun l => l[w.length]?) hu
      simp only [List.getElem?_append_left hlen] at this
      rw [this]
      simp
    have h2 := numeral_chars hv ',' (List.mem_of_getElem? h1)
    revert h2
    decide

/-- A name that begins properly does not stand where something else does. -/
theorem not_prefix {names : List Name} (hm : Mentionable names) {c : Char} {s : List Char}
    (hc : c ∈ ['(', ')', ',', '=', '+', '-', '*', '/'] ∨ isDigit c = true ∨ c = '.' ∨ isSpace c = true) :
    ∀ v ∈ names, ¬ v <+: c :: s := by
  intro v hv hp
  obtain ⟨d, t, rfl, h1, h2, h3, h4⟩ := hm.begins v hv
  obtain ⟨rfl, -⟩ := List.cons_prefix_cons.mp hp
  rcases hc with hc | hc | hc | hc
  · exact h1 hc
  · rw [h2] at hc
    simp at hc
  · exact h3 hc
  · rw [h4] at hc
    simp at hc

theorem noOp_cons {c : Char} {s : List Char} (h : c ∉ ['(', ')', ',', '=', '+', '-', '*', '/']) : NoOp (c :: s) := by
  intro d hd
  simp only [List.head?_cons, Option.some.injEq] at hd
  subst hd
  exact h

/-- A numeral before the end or a comma. -/
theorem lex_number {names : List Name} (hm : Mentionable names) {v rest : List Char} (hv : Numeral v) (hr : Ends rest)
    {pos : Nat} {toks : List (Tok Sym Name)} (h : Lexed names (pos + v.length) rest toks) :
    Lexed names pos (v ++ rest) (⟨.sym .number, ⟨pos, pos + v.length⟩, v⟩ :: toks) := by
  obtain ⟨c, t, rfl, hc⟩ := numeral_head hv
  refine .word (.number ?_ ?_ hv fun u hu hp => numeral_longest_ends hr hu hp) h
  · apply noOp_cons
    rintro hc'
    simp only [List.mem_cons, List.not_mem_nil, or_false] at hc'
    rcases hc' with rfl | rfl | rfl | rfl | rfl | rfl | rfl | rfl <;> revert hc <;> decide
  · exact not_prefix hm (by rcases hc with hc | hc <;> simp [hc])

theorem lex_literal {names : List Name} (hm : Mentionable names) {num : Name → K} {v rest : List Char} {k : K}
    (hv : Literal num v k) (hr : Ends rest)
    {pos : Nat} {toks : List (Tok Sym Name)} (h : Lexed names (pos + v.length) rest toks) :
    ∃ d, LiteralAst num d k ∧ Lexed names pos (v ++ rest) (d.flatten ++ toks) := by
  cases hv with
  | plain hv => exact ⟨.atom _, .plain rfl, lex_number hm hv hr h⟩
  | @minus v hv =>
    refine ⟨.un ⟨.sym .minus, ⟨pos, pos + 1⟩, ['-']⟩ 100 (.atom ⟨.sym .number, ⟨pos + ['-'].length, pos + ['-'].length + v.length⟩, v⟩),
      .minus rfl rfl, ?_⟩
    refine .word (w := ['-']) (.op (o := .minus) rfl) (lex_number hm hv hr ?_)
    have e : pos + ['-'].length + v.length = pos + ('-' :: v).length := by
      simp only [List.length_cons, List.length_nil]
      omega
    rw [e]
    exact h

/-- A blank before another character. -/
theorem lex_blank {names : List Name} (hm : Mentionable names) {rest : List Char}
    (hr : ∀ c, rest.head? = some c → isSpace c = false)
    {pos : Nat} {toks : List (Tok Sym Name)} (h : Lexed names (pos + 1) rest toks) :
    Lexed names pos (' ' :: rest) toks :=
  .space (w := [' ']) (noOp_cons (by decide)) (not_prefix hm (by decide)) (by simp) (by simp; decide) hr h

theorem literal_head {num : Name → K} {v : List Char} {k : K} (hv : Literal num v k) (rest : List Char) :
    ∀ c, (v ++ rest).head? = some c → isSpace c = false := by
  intro c hc
  cases hv with
  | plain hv =>
    obtain ⟨d, t, rfl, hd⟩ := numeral_head hv
    simp only [List.cons_append, List.head?_cons, Option.some.injEq] at hc
    subst hc
    cases hs : isSpace d with
    | false => rfl
    | true =>
      have := space_not_digit hs
      rcases hd with hd | hd
      · rw [hd] at this; simp at this
      · exact absurd hd this.2
  | minus hv =>
    simp only [List.cons_append, List.head?_cons, Option.some.injEq] at hc
    subst hc
    decide

/-- An equation before the end or a comma. -/
theorem lex_equation {names : List Name} (hm : Mentionable names) {num : Name → K} {n : Name} (hn : n ∈ names)
    {v rest : List Char} {k : K} (hv : Literal num v k) (hr : Ends rest)
    {pos : Nat} {toks : List (Tok Sym Name)} (h : Lexed names (pos + (equationText n v).length) rest toks) :
    ∃ (t e : Tok Sym Name) (d : Cst Sym Name), t.kind = .sym .variable ∧ t.extra = n ∧ e.kind = .sym .eq ∧
      LiteralAst num d k ∧ Lexed names pos (equationText n v ++ rest) ((t :: e :: d.flatten) ++ toks) := by
  have e1 : pos + (equationText n v).length = pos + n.length + 1 + 1 + 1 + v.length := by
    rw [equationText, List.length_append, List.length_append]
    have : " = ".toList.length = 3 := rfl
    omega
  rw [e1] at h
  obtain ⟨d, hd, h1⟩ := lex_literal hm hv hr h
  have h2 := lex_blank hm (literal_head hv rest) h1
  have h3 : Lexed names (pos + n.length + 1) ('=' :: ' ' :: (v ++ rest))
      (⟨.sym .eq, ⟨pos + n.length + 1, pos + n.length + 1 + 1⟩, ['=']⟩ :: (d.flatten ++ toks)) :=
    .word (w := ['=']) (.op (o := .eq) rfl) h2
  have h4 := lex_blank hm (by intro c hc; simp at hc; subst hc; decide) h3
  refine ⟨⟨.sym .variable, ⟨pos, pos + n.length⟩, n⟩,
    ⟨.sym .eq, ⟨pos + n.length + 1, pos + n.length + 1 + 1⟩, ['=']⟩, d, rfl, rfl, rfl, hd, ?_⟩
  have e2 : equationText n v ++ rest = n ++ ' ' :: '=' :: ' ' :: (v ++ rest) := by
    simp [equationText]
  rw [e2]
  obtain ⟨c, t, hnc, hc1, -⟩ := hm.begins n hn
  refine .word (.variable ?_ ?_ hn ?_) h4
  · rw [hnc]
    exact noOp_cons hc1
  · rw [hnc]
    simp
  · intro m hmm hp
    by_contra hlt
    obtain ⟨k1, k2, k3⟩ := hm.apart n hn m hmm
    have hpre : ∀ u : List Char, u <+: ' ' :: '=' :: ' ' :: (v ++ rest) →
        n ++ u <+: n ++ ' ' :: '=' :: ' ' :: (v ++ rest) := fun u hu => (List.prefix_append_right_inj n).mpr hu
    have hsame : ∀ u : List Char, u <+: ' ' :: '=' :: ' ' :: (v ++ rest) → m.length = (n ++ u).length → m = n ++ u := by
      intro u hu hl
      exact (List.prefix_of_prefix_length_le hp (hpre u hu) hl.le).eq_of_length hl
    have h1 : [' '] <+: ' ' :: '=' :: ' ' :: (v ++ rest) := ⟨'=' :: ' ' :: (v ++ rest), rfl⟩
    have h2 : [' ', '='] <+: ' ' :: '=' :: ' ' :: (v ++ rest) := ⟨' ' :: (v ++ rest), rfl⟩
    have h3 : [' ', '=', ' '] <+: ' ' :: '=' :: ' ' :: (v ++ rest) := ⟨v ++ rest, rfl⟩
    rcases Nat.lt_or_ge m.length (n.length + 3) with hlt' | hge
    · rcases Nat.lt_or_ge m.length (n.length + 2) with hlt'' | hge'
      · exact k1 (hsame _ h1 (by simp; omega))
      · exact k2 (hsame _ h2 (by simp; omega))
    · exact k3 (List.prefix_of_prefix_length_le (hpre _ h3) hp (by simp; omega))

/-! ### Trees -/

/-- The tree of an equation. -/
def equationTree (t e : Tok Sym Name) (d : Cst Sym Name) : Cst Sym Name := .bin (.atom t) e 0 d

theorem equation_wf {num : Name → K} {t e : Tok Sym Name} {d : Cst Sym Name} {k : K} (ht : t.kind = .sym .variable)
    (he : e.kind = .sym .eq) (hd : LiteralAst num d k) : (equationTree t e d).WF (mkTable ops atomic) ∧
      (∀ q ∈ (equationTree t e d).leftEdge, (-100 : Int) < q) ∧ ∀ q ∈ (equationTree t e d).rightEdge, (-100 : Int) ≤ q := by
  have ha : ∀ {t : Tok Sym Name}, t.kind = .sym .variable ∨ t.kind = .sym .number →
      (Cst.atom t : Cst Sym Name).WF (mkTable ops atomic) := by
    intro t ht
    rcases ht with ht | ht
    · exact ⟨_, ht, rfl, rfl⟩
    · exact ⟨_, ht, rfl, rfl⟩
  have hdw : d.WF (mkTable ops atomic) ∧ (∀ q ∈ d.leftEdge, (0 : Int) < q) ∧ ∀ q ∈ d.rightEdge, (-100 : Int) ≤ q := by
    cases hd with
    | plain h => exact ⟨ha (Or.inr h), by simp [Cst.leftEdge], by simp [Cst.rightEdge]⟩
    | minus hs h =>
      exact ⟨⟨⟨_, hs, rfl⟩, ha (Or.inr h), by simp [Cst.leftEdge]⟩, by simp [Cst.leftEdge], by simp [Cst.rightEdge]⟩
  refine ⟨⟨⟨_, he, rfl⟩, ha (Or.inl ht), hdw.1, by simp [Cst.rightEdge], hdw.2.1⟩, by simp [equationTree, Cst.leftEdge], ?_⟩
  intro q hq
  simp only [equationTree, Cst.rightEdge, List.mem_cons] at hq
  rcases hq with rfl | hq
  · omega
  · exact hdw.2.2 q hq

/-- Each name is a column, each text a literal for the number. -/
def Items (names : List Name) (num : Name → K) (l : List (Name × List Char)) (xs : List (Name × K)) : Prop :=
  List.Forall₂ (fun p x => p.1 ∈ names ∧ x.1 = p.1 ∧ Literal num p.2 x.2) l xs

/-- The rest of an enumeration. -/
def moreText (l : List (Name × List Char)) : List Char := l.flatMap fun p => ',' :: ' ' :: equationText p.1 p.2

theorem equationsText_cons (p : Name × List Char) (l : List (Name × List Char)) :
    equationsText (p :: l) = equationText p.1 p.2 ++ moreText l := by
  induction l generalizing p with
  | nil => simp [equationsText, moreText]
  | cons q l ih =>
    rw [equationsText, ih q]
    simp [moreText]

theorem moreText_ends (l : List (Name × List Char)) : Ends (moreText l) := by
  cases l with
  | nil => exact Or.inl rfl
  | cons p l => exact Or.inr ⟨_, rfl⟩

/-- The rest of an enumeration: its tokens continue every tree, and its equations are added. -/
theorem more_equations {names : List Name} (hnd : names.Nodup) (hm : Mentionable names) {num : Name → K}
    {l : List (Name × List Char)} {xs : List (Name × K)} (hl : Items names num l xs) (pos : Nat) :
    ∃ toks, Lexed names pos (moreText l) toks ∧ ∀ (c : Cst Sym Name) (ys : List (Name × K)), c.WF (mkTable ops atomic) →
      (∀ q ∈ c.rightEdge, (-100 : Int) ≤ q) → ys ≠ [] → Gives names num c.toAst (columnsEqual names ys) →
      ∃ d : Cst Sym Name, d.WF (mkTable ops atomic) ∧ d.flatten = c.flatten ++ toks ∧
        Gives names num d.toAst (columnsEqual names (ys ++ xs)) := by
  induction hl generalizing pos with
  | nil => exact ⟨[], .nil, fun c ys h1 _ _ h2 => ⟨c, h1, by simp, by simpa using h2⟩⟩
  | @cons p x l xs hp hl ih =>
    obtain ⟨hp1, hp2, hp3⟩ := hp
    obtain ⟨toks, h1, h2⟩ := ih (pos + 1 + 1 + (equationText p.1 p.2).length)
    obtain ⟨t, e, d, ht, hte, he, hd, h3⟩ := lex_equation hm hp1 hp3 (moreText_ends l) h1
    have h4 : Lexed names (pos + 1) (' ' :: (equationText p.1 p.2 ++ moreText l)) ((t :: e :: d.flatten) ++ toks) := by
      apply lex_blank hm _ h3
      intro c hc
      obtain ⟨c', u, hnc, -, -, -, hs⟩ := hm.begins p.1 hp1
      simp only [equationText, hnc, List.cons_append, List.head?_cons, Option.some.injEq] at hc
      rw [← hc]
      exact hs
    refine ⟨_, .word (w := [',']) (.op (o := .comma) rfl) h4, ?_⟩
    intro c ys hc1 hc2 hys hc3
    obtain ⟨w1, w2, w3⟩ := equation_wf ht he hd
    have hg : Gives names num (equationTree t e d).toAst (columnsEqual names [x]) := by
      have := gives_equation hnd ht (by rw [hte]; exact hp1) he hd
      rw [hte, ← hp2] at this
      exact this
    obtain ⟨d', k1, k2, k3⟩ := h2 (.bin c ⟨.sym .comma, ⟨pos, pos + 1⟩, [',']⟩ (-100) (equationTree t e d)) (ys ++ [x])
      ⟨⟨_, rfl, rfl⟩, hc1, w1, hc2, w2⟩ (by
        intro q hq
        simp only [Cst.rightEdge, List.mem_cons] at hq
        rcases hq with rfl | hq
        · omega
        · exact w3 q hq) (by simp) (gives_comma rfl hys (by simp) hc3 hg)
    refine ⟨d', k1, ?_, by simpa using k3⟩
    rw [k2]
    simp [Cst.flatten, equationTree]

/-- A text with a tree that gives a constraint. -/
theorem constraintOfString_gives {names : List Name} (hne : names ≠ []) {num : Name → K} {s : List Char}
    {toks : List (Tok Sym Name)} (h : Lexed names 0 s toks) {d : Cst Sym Name} (hw : d.WF (mkTable ops atomic))
    (hf : d.flatten = toks) {c : LinCon K} (hg : Gives names num d.toAst c) : constraintOfString names num s = .ok c := by
  obtain ⟨n, h1, h2⟩ := (Patsy.Props.parse_constraint_iff hne s d.toAst).mpr ⟨toks, h, d, hw, hf, rfl⟩
  simp only [constraintOfString, bind_ok]
  exact ⟨n, h1, hg n h2⟩

/-- The text of an enumeration of equations. -/
theorem equations_string {names : List Name} (hnd : names.Nodup) (hm : Mentionable names) {num : Name → K}
    {l : List (Name × List Char)} {xs : List (Name × K)} (hl : Items names num l xs) (hne : l ≠ []) :
    constraintOfString names num (equationsText l) = .ok (columnsEqual names xs) := by
  cases hl with
  | nil => exact absurd rfl hne
  | @cons p x l xs hp hl =>
    obtain ⟨hp1, hp2, hp3⟩ := hp
    have hn : names ≠ [] := by
      rintro rfl
      simp at hp1
    obtain ⟨toks, h1, h2⟩ := more_equations hnd hm hl (0 + (equationText p.1 p.2).length)
    obtain ⟨t, e, d, ht, hte, he, hd, h3⟩ := lex_equation hm hp1 hp3 (moreText_ends l) h1
    obtain ⟨w1, w2, w3⟩ := equation_wf ht he hd
    have hg : Gives names num (equationTree t e d).toAst (columnsEqual names [x]) := by
      have := gives_equation hnd ht (by rw [hte]; exact hp1) he hd
      rw [hte, ← hp2] at this
      exact this
    obtain ⟨d', k1, k2, k3⟩ := h2 (equationTree t e d) [x] w1 w3 (by simp) hg
    rw [equationsText_cons]
    exact constraintOfString_gives hn h3 k1 (by rw [k2]; simp [Cst.flatten, equationTree]) k3

end Patsy.Constraint
