import Verif.Lemmas.Constraint
import Verif.Lemmas.ConstraintTokens
import Verif.Lemmas.ConstraintSigns
import Verif.Props.Infix
import Verif.Lemmas.Columns

/-!
# C28: linear constraints

`names` are the names of the columns, `num` gives the value of numerals, `ρ` is an assignment of numbers to
names, i.e. the vector `names.map ρ`.
-/

namespace Patsy.Props

open Patsy.Constraint Patsy.Spec
open Patsy.Infix (Tok Kind Node Origin infixParse mkTable)
open Patsy.Desc (bind_ok pure_ok bind_err)

set_option linter.unusedSectionVars false

variable {K : Type} [Field K] [DecidableEq K]

/-! ### Words -/

/-- The tokenizer splits a text exactly as specified: operators first, then the longest variable name, then the
longest numeral; everything else is a `PatsyError`. -/
theorem constraint_tokens_iff {names : List Name} (hn : names ≠ []) (s : List Char) :
    (∀ toks, tokenize s names = .ok toks ↔ Lexed names 0 s toks) ∧
      ((¬ ∃ toks, Lexed names 0 s toks) → tokenize s names = .error .patsyError) := by
  have h : ∀ toks, tokenize s names = .ok toks ↔ Lexed names 0 s toks := by
    intro toks
    constructor
    · intro h
      simp only [tokenize] at h
      split at h
      · rename_i h2
        obtain rfl := Except.ok.inj h
        exact scan_sound hn _ _ _ _ (by rw [← h2])
      · simp at h
    · intro h
      have := scan_complete hn h s.length le_rfl
      simp [tokenize, this]
  refine ⟨h, fun hno => ?_⟩
  simp only [tokenize]
  split
  · rename_i h2
    exact absurd ⟨_, scan_sound hn _ _ _ _ (by rw [← h2])⟩ hno
  · rfl

/-- A name is not confused with its beginning, and numerals may stand next to names. -/
example : ∃ toks, Lexed ["a".toList, "ab".toList] 0 "2*ab".toList toks ∧
    toks.map (·.extra) = ["2".toList, "*".toList, "ab".toList] := by
  refine ⟨_, ((constraint_tokens_iff (by simp) _).1 _).mp (getOk_eq (by decide +kernel)), ?_⟩
  decide +kernel

/-! ### Equations -/

theorem ops_ok : Patsy.Infix.checkOps ops = .ok () := rfl

/-- A parsed text: its tokens, and a tree of the grammar that spells them. -/
theorem parse_constraint_iff {names : List Name} (hn : names ≠ []) (s : List Char) (a : Ast Sym Name) :
    (∃ n, parse s names = .ok n ∧ astOf n = a) ↔
      ∃ toks, Lexed names 0 s toks ∧ ∃ d : Cst Sym Name, d.WF (mkTable ops atomic) ∧ d.flatten = toks ∧ d.toAst = a := by
  constructor
  · rintro ⟨n, h, rfl⟩
    simp only [parse, bind_ok] at h
    obtain ⟨toks, h1, h2⟩ := h
    exact ⟨toks, ((constraint_tokens_iff hn s).1 toks).mp h1, (parse_iff_grammar ops atomic ops_ok toks _).mp ⟨n, h2, rfl⟩⟩
  · rintro ⟨toks, h1, h2⟩
    obtain ⟨n, h3, h4⟩ := (parse_iff_grammar ops atomic ops_ok toks a).mpr h2
    refine ⟨n, ?_, h4⟩
    simp only [parse, bind_ok]
    exact ⟨toks, ((constraint_tokens_iff hn s).1 toks).mpr h1, h3⟩

/-- C28: the matrix form of a constraint given as a text has the same solutions as what is written, read with
the precedences of the library. -/
theorem constraint_meaning {names : List Name} (hn : names ≠ []) {num : Name → K} {s : List Char} {c : LinCon K}
    (h : constraintOfString names num s = .ok c) :
    Good names c ∧ ∃ toks, Lexed names 0 s toks ∧ ∃ d : Cst Sym Name, d.WF (mkTable ops atomic) ∧ d.flatten = toks ∧
      ∀ ρ, Sat c (names.map ρ) ↔ Holds ρ num d.toAst := by
  simp only [constraintOfString, evalConstraint, bind_ok] at h
  obtain ⟨n, h1, v, h2, h3⟩ := h
  obtain ⟨hg, hs⟩ := means_toCon ((eval_means names num n).1 v h2) h3
  obtain ⟨toks, h4, d, h5, h6, h7⟩ := (parse_constraint_iff hn s _).mp ⟨n, h1, rfl⟩
  exact ⟨hg, toks, h4, d, h5, h6, fun ρ => by rw [h7]; exact hs ρ⟩

/-- C28: exactly the texts that are proper constraints are accepted. -/
theorem constraint_accepted {names : List Name} (hn : names ≠ []) (hnd : names.Nodup) {num : Name → K} {s : List Char} :
    (∃ c, constraintOfString names num s = .ok c) ↔
      ∃ toks, Lexed names 0 s toks ∧ ∃ d : Cst Sym Name, d.WF (mkTable ops atomic) ∧ d.flatten = toks ∧
        Proper names num d.toAst := by
  constructor
  · rintro ⟨c, h⟩
    simp only [constraintOfString, bind_ok] at h
    obtain ⟨n, h1, h2⟩ := h
    have hp := (eval_proper hnd n).mp ⟨c, h2⟩
    obtain ⟨toks, h4, d, h5, h6, h7⟩ := (parse_constraint_iff hn s _).mp ⟨n, h1, rfl⟩
    exact ⟨toks, h4, d, h5, h6, by rw [h7]; exact hp⟩
  · rintro ⟨toks, h4, d, h5, h6, h7⟩
    obtain ⟨n, h1, h2⟩ := (parse_constraint_iff hn s d.toAst).mpr ⟨toks, h4, d, h5, h6, rfl⟩
    rw [← h2] at h7
    obtain ⟨c, hc⟩ := (eval_proper hnd n).mpr h7
    exact ⟨c, by simp only [constraintOfString, bind_ok]; exact ⟨n, h1, hc⟩⟩

/-- C28: unless a division sign is directly followed by a sign, the matrix form has the same solutions as the
written equations read as ordinary arithmetic. -/
theorem constraint_usual_meaning {names : List Name} (hn : names ≠ []) {num : Name → K} {s : List Char} {c : LinCon K}
    {toks : List (Tok Sym Name)} (h : constraintOfString names num s = .ok c) (ht : Lexed names 0 s toks)
    (hd : NoSignAfterDiv toks) :
    ∃ d : Cst Sym Name, d.WF (mkTable usualOps atoms) ∧ d.flatten = toks ∧
      ∀ ρ, Sat c (names.map ρ) ↔ Holds ρ num d.toAst := by
  obtain ⟨-, toks', h1, d, h2, h3, h4⟩ := constraint_meaning hn h
  have he : toks' = toks := by
    have k1 := ((constraint_tokens_iff hn s).1 toks').mpr h1
    rw [((constraint_tokens_iff hn s).1 toks).mpr ht] at k1
    exact (Except.ok.inj k1).symm
  subst he
  rw [← h3] at hd
  refine ⟨tight d, (tight_wf h2 hd).1, by rw [flatten_tight, h3], fun ρ => ?_⟩
  rw [h4, (tight_same h2 hd).holds]

/-- The usual reading is unique. -/
theorem usual_reading_unique {d d' : Cst Sym Name} (h : d.WF (mkTable usualOps atoms))
    (h' : d'.WF (mkTable usualOps atoms)) (he : d.flatten = d'.flatten) : d.toAst = d'.toAst :=
  grammar_unambiguous usualOps atoms rfl d d' h h' he

/-- With distinct names every vector is an assignment. -/
theorem vector_valuation {names : List Name} (hnd : names.Nodup) {x : List K} (hx : x.length = names.length) :
    ∃ ρ : Name → K, names.map ρ = x := by
  refine ⟨fun n => x[names.idxOf n]?.getD 0, ?_⟩
  apply List.ext_getElem
  · simp [hx]
  · intro i h1 h2
    simp only [List.length_map] at h1
    rw [List.getElem_map, List.Nodup.idxOf_getElem hnd i h1, List.getElem?_eq_getElem h2]
    rfl

/-- Values of some numerals. -/
def sampleNum (w : Name) : ℚ := if w = ['2'] then 2 else if w = ['3'] then 3 else 1

/-- A chain with a product: `x = 2 * y = 3`. -/
example : ∃ c : LinCon ℚ, constraintOfString ["x".toList, "y".toList] sampleNum "x = 2*y = 3".toList = .ok c ∧
    c.coefs = [[1, -2], [0, 2]] ∧ c.constants = [0, 3] :=
  ⟨getOk (constraintOfString ["x".toList, "y".toList] sampleNum "x = 2*y = 3".toList) (by decide +kernel),
    getOk_eq _, by decide +kernel, by decide +kernel⟩

/-- The hypotheses of `constraint_usual_meaning` are met by this chain. -/
example : ∃ (c : LinCon ℚ) (toks : List (Tok Sym Name)),
    constraintOfString ["x".toList, "y".toList] sampleNum "x/2 = -2*y = 3".toList = .ok c ∧
      Lexed ["x".toList, "y".toList] 0 "x/2 = -2*y = 3".toList toks ∧ NoSignAfterDiv toks ∧ toks.length = 10 := by
  refine ⟨getOk (constraintOfString ["x".toList, "y".toList] sampleNum "x/2 = -2*y = 3".toList) (by decide +kernel), _,
    getOk_eq _, ((constraint_tokens_iff (by simp) _).1 _).mp (getOk_eq (by decide +kernel)), ?_, ?_⟩
  · unfold NoSignAfterDiv
    decide +kernel
  · decide +kernel

/-- C28, against the documentation ("the standard arithmetic operators"): `x / -2 * 3 = 3` is read as
`x / (-(2 * 3)) = 3`. -/
theorem sign_after_division :
    ∃ (c : LinCon ℚ) (toks : List (Tok Sym Name)) (d : Cst Sym Name),
      constraintOfString ["x".toList] sampleNum "x / -2 * 3 = 3".toList = .ok c ∧
      Lexed ["x".toList] 0 "x / -2 * 3 = 3".toList toks ∧ d.WF (mkTable usualOps atoms) ∧ d.flatten = toks ∧
      Sat c [-18] ∧ ¬ Holds (fun _ => -18) sampleNum d.toAst := by
  let v (i : Nat) (w : Name) : Cst Sym Name := .atom ⟨.sym .number, ⟨i, i + 1⟩, w⟩
  refine ⟨⟨["x".toList], [[-1 / 6]], [3]⟩, _,
    .bin (.bin (.bin (.atom ⟨.sym .variable, ⟨0, 1⟩, ['x']⟩) ⟨.sym .div, ⟨2, 3⟩, ['/']⟩ 200
      (.un ⟨.sym .minus, ⟨4, 5⟩, ['-']⟩ 300 (v 5 ['2']))) ⟨.sym .times, ⟨7, 8⟩, ['*']⟩ 200 (v 9 ['3']))
      ⟨.sym .eq, ⟨11, 12⟩, ['=']⟩ 0 (v 13 ['3']), ?_, ?_, ?_, rfl, ?_, ?_⟩
  · exact eq_ok_of_okIs (by decide +kernel)
  · exact ((constraint_tokens_iff (by simp) _).1 _).mp (eq_ok_of_okIs (by decide +kernel))
  · simp [Cst.WF, v, Cst.leftEdge, Cst.rightEdge, mkTable, usualOps, atoms, Patsy.Infix.lookupOp]
  · simp only [Sat, List.zip_cons_cons, List.zip_nil_right, List.mem_singleton, forall_eq, dot_cons, dot_nil_left]
    norm_num
  · simp [Holds, v, Cst.toAst, isEq, lastSide, firstSide, value, sampleNum]
    norm_num

/-! ### Failures -/

/-- Expressions over the operators of the language and known variables. -/
def Known (names : List Name) : Ast Sym Name → Prop
  | .atom t => t.kind = .sym .number ∨ (t.kind = .sym .variable ∧ t.extra ∈ names)
  | .un t a => (t.kind = .sym .plus ∨ t.kind = .sym .minus) ∧ Known names a
  | .bin t l r => (∃ o ∈ [Sym.comma, .eq, .plus, .minus, .times, .div], t.kind = .sym o) ∧ Known names l ∧ Known names r

/-- The two kinds of failure of an evaluation. -/
def Soft (e : Err) : Prop := e = .patsyError ∨ e = .zeroDivisionError

theorem toLin_soft {v : Val K} {e : Err} (h : toLin v = .error e) : Soft e := by
  cases v with
  | lin l => simp [toLin] at h
  | con c =>
    simp only [toLin, Except.error.injEq] at h
    exact Or.inl h.symm

theorem toCon_soft {names : List Name} {num : Name → K} {a : Ast Sym Name} {v : Val K} {e : Err}
    (hm : Means names num a v) (h : toCon names v = .error e) : Soft e := by
  cases v with
  | con c => simp [toCon] at h
  | lin l =>
    rw [toCon] at h
    split at h
    · simp only [Except.error.injEq] at h
      exact Or.inl h.symm
    · rw [make_vec hm.1] at h
      simp at h

theorem evalArith_soft {t : Tok Sym Name} {a b : Lin K} {e : Err}
    (ht : ∃ o ∈ [Sym.comma, .eq, .plus, .minus, .times, .div], t.kind = .sym o) (h1 : t.kind ≠ .sym .eq)
    (h2 : t.kind ≠ .sym .comma) (h : evalArith t a b = .error e) : Soft e := by
  obtain ⟨o, ho, hk⟩ := ht
  simp only [List.mem_cons, List.not_mem_nil, or_false] at ho
  rcases ho with rfl | rfl | rfl | rfl | rfl | rfl
  · exact absurd hk h2
  · exact absurd hk h1
  · simp [evalArith, hk] at h
  · simp [evalArith, hk] at h
  · simp only [evalArith, hk] at h
    split at h
    · simp at h
    · split at h
      · simp at h
      · exact Or.inl (Except.error.inj h).symm
  · simp only [evalArith, hk] at h
    split at h
    · split at h
      · exact Or.inr (Except.error.inj h).symm
      · simp at h
    · exact Or.inl (Except.error.inj h).symm

theorem nested_soft {names : List Name} {num : Name → K} {a : Ast Sym Name} {i : Option (Except Err (Val K))}
    {x : Except Err (Val K)} {e : Err} (hm : ∀ v, x = .ok v → Means names num a v) (hx : ∀ e, x = .error e → Soft e)
    (h : nested names i x = .error e) : Soft e := by
  cases i with
  | none => simp [nested] at h
  | some y =>
    simp only [nested, bind_err, Patsy.Desc.pure_err, and_false, exists_false, or_false] at h
    rcases h with h | ⟨v, h1, h2⟩
    · exact hx e h
    · exact toCon_soft (hm v h1) h2

/-- The inner arguments of an equation fail as their evaluation fails. -/
theorem eval_soft {names : List Name} {num : Name → K} (n : Node Sym Name) (hk : Known names (astOf n)) :
    ∀ e, eval names num n = .error e → Soft e := by
  suffices h : (∀ e, eval names num n = .error e → Soft e) ∧
      (∀ e, (innerL names num n).getD (eval names num n) = .error e → Soft e) ∧
      (∀ e, (innerR names num n).getD (eval names num n) = .error e → Soft e) from h.1
  induction n with
  | atom t o =>
    have h : ∀ e, eval names num (.atom t o) = .error e → Soft e := by
      intro e h
      rcases hk with hk | ⟨hk, hm⟩
      · simp [eval, evalAtom, hk] at h
      · simp [eval, evalAtom, hk, hm] at h
    exact ⟨h, h, h⟩
  | unary t a o ih =>
    obtain ⟨ht, hk⟩ := hk
    have h : ∀ e, eval names num (.unary t a o) = .error e → Soft e := by
      intro e h
      simp only [eval, bind_err] at h
      rcases h with h | ⟨v, h1, h | ⟨l, h2, h⟩⟩
      · exact (ih hk).1 e h
      · exact toLin_soft h
      · rcases ht with ht | ht <;> simp [evalUnary, ht] at h
    exact ⟨h, h, h⟩
  | binary t l r o ihl ihr =>
    obtain ⟨ht, hl, hr⟩ := hk
    obtain ⟨il, il1, il2⟩ := ihl hl
    obtain ⟨ir, ir1, ir2⟩ := ihr hr
    have ml := eval_means names num l
    have mr := eval_means names num r
    have h : ∀ e, eval names num (.binary t l r o) = .error e → Soft e := by
      intro e h
      by_cases he : t.kind = .sym .eq
      · rw [eval_eq names num he] at h
        simp only [evalEq, bind_err] at h
        rcases h with h | ⟨cl, h1, h | ⟨cr, h2, h | ⟨lv, h3, h | ⟨a, h4, h | ⟨rv, h5, h | ⟨b, h6, h⟩⟩⟩⟩⟩⟩
        · exact nested_soft ml.1 il h
        · exact nested_soft mr.1 ir h
        · exact il1 e h
        · exact toLin_soft h
        · exact ir2 e h
        · exact toLin_soft h
        · rw [toLin_ok] at h4 h6
          subst h4 h6
          have ma := ml.2.1 _ h3
          have mb := mr.2.2 _ h5
          have hlen : (List.zipWith (· - ·) a.coefs b.coefs).length = names.length := by simp [ma.1, mb.1]
          split at h
          · exact Or.inl (Except.error.inj h).symm
          · exfalso
            obtain ⟨gl, -⟩ := nested_means (innerL_isSome names num l) ml.1 h1
            obtain ⟨gr, -⟩ := nested_means (innerR_isSome names num r) mr.1 h2
            obtain ⟨d, hd, -⟩ := combine_good (names := names)
              (cs := cl ++ cr ++ [⟨names, [List.zipWith (· - ·) a.coefs b.coefs], [-a.const + b.const]⟩]) (by simp) (by
                intro c hc
                simp only [List.mem_append, List.mem_singleton] at hc
                rcases hc with (hc | hc) | rfl
                · exact gl c hc
                · exact gr c hc
                · exact good_vec hlen _)
            rw [make_vec hlen] at h
            simp only [bind, Except.bind] at h
            rw [hd] at h
            simp [pure, Except.pure] at h
      · rw [eval_not_eq names num he] at h
        split at h
        · simp only [evalComma, bind_err] at h
          rcases h with h | ⟨lv, h1, h | ⟨a, h2, h | ⟨rv, h3, h | ⟨b, h4, h | ⟨c, h5, h⟩⟩⟩⟩⟩
          · exact il e h
          · exact toCon_soft (ml.1 _ h1) h
          · exact ir e h
          · exact toCon_soft (mr.1 _ h3) h
          · exfalso
            have ga := (means_toCon (ml.1 _ h1) h2).1
            have gb := (means_toCon (mr.1 _ h3) h4).1
            obtain ⟨d, hd, -⟩ := combine_good (names := names) (cs := [a, b]) (by simp) (by simp [ga, gb])
            rw [hd] at h
            simp at h
          · simp [pure, Except.pure] at h
        · rename_i hc
          simp only [bind_err] at h
          rcases h with h | ⟨lv, h1, h | ⟨a, h2, h | ⟨rv, h3, h | ⟨b, h4, h⟩⟩⟩⟩
          · exact il e h
          · exact toLin_soft h
          · exact ir e h
          · exact toLin_soft h
          · exact evalArith_soft ht he hc h
    refine ⟨h, ?_, ?_⟩
    · by_cases ht : t.kind = .sym .eq
      · simpa only [innerL, ht, if_true, Option.getD_some] using ir
      · simpa [innerL, ht] using h
    · by_cases ht : t.kind = .sym .eq
      · simpa only [innerR, ht, if_true, Option.getD_some] using il
      · simpa [innerR, ht] using h

theorem lexed_variables {names : List Name} {pos : Nat} {s : List Char} {toks : List (Tok Sym Name)}
    (h : Lexed names pos s toks) : ∀ t ∈ toks, t.kind = .sym .variable → t.extra ∈ names := by
  induction h with
  | nil => simp
  | space _ _ _ _ _ _ ih => exact ih
  | word hw _ ih =>
    intro t ht hk
    rcases List.mem_cons.mp ht with rfl | ht
    · cases hw with
      | lparen => simp at hk
      | rparen => simp at hk
      | op h =>
        simp only [Kind.sym.injEq] at hk
        subst hk
        simp [opText] at h
      | «variable» _ _ hw _ => exact hw
      | number _ _ _ _ => simp at hk
    · exact ih t ht hk

theorem known_of_wf {names : List Name} {d : Cst Sym Name} (h : d.WF (mkTable ops atomic))
    (hv : ∀ t ∈ d.flatten, t.kind = .sym .variable → t.extra ∈ names) : Known names d.toAst := by
  induction d with
  | atom t =>
    obtain ⟨s, h1, -, h2⟩ := h
    cases s with
    | number => exact Or.inl h1
    | «variable» => exact Or.inr ⟨h1, hv t (by simp [Cst.flatten]) h1⟩
    | _ => exact absurd h2 (by decide)
  | paren l c r ih => exact ih h.2.2 fun t ht => hv t (by simp [Cst.flatten, ht])
  | un t p c ih =>
    obtain ⟨⟨s, h1, h2⟩, h3, -⟩ := h
    refine ⟨?_, ih h3 fun t ht => hv t (by simp [Cst.flatten, ht])⟩
    cases s with
    | plus => exact Or.inl h1
    | minus => exact Or.inr h1
    | _ => exact absurd (show none = some p from h2) (by simp)
  | bin l t p r ihl ihr =>
    obtain ⟨⟨s, h1, h2⟩, h3, h4, -⟩ := h
    refine ⟨⟨s, ?_, h1⟩, ihl h3 fun t ht => hv t (by simp [Cst.flatten, ht]),
      ihr h4 fun t ht => hv t (by simp [Cst.flatten, ht])⟩
    cases s with
    | number => exact absurd (show none = some p from h2) (by simp)
    | «variable» => exact absurd (show none = some p from h2) (by simp)
    | _ => simp

/-- C28: a text that is not a proper constraint gives a `PatsyError`, except that a blank text crashes with an
`IndexError` and that a division by zero is not noticed (in the model it is an error of its own). -/
theorem constraint_failures {names : List Name} (hn : names ≠ []) {num : Name → K} {s : List Char} {e : Err}
    (h : constraintOfString names num s = .error e) :
    e = .patsyError ∨ e = .zeroDivisionError ∨ (e = .indexError ∧ Lexed names 0 s []) := by
  simp only [constraintOfString, bind_err] at h
  rcases h with h | ⟨n, h1, h⟩
  · simp only [parse, bind_err] at h
    rcases h with h | ⟨toks, h1, h⟩
    · by_cases hl : ∃ toks, Lexed names 0 s toks
      · obtain ⟨toks, hl⟩ := hl
        rw [((constraint_tokens_iff hn s).1 toks).mpr hl] at h
        simp at h
      · rw [(constraint_tokens_iff hn s).2 hl, Except.error.injEq] at h
        exact Or.inl h.symm
    · by_cases hne : toks = []
      · subst hne
        rw [parse_empty_crashes ops atomic ops_ok, Except.error.injEq] at h
        exact Or.inr (Or.inr ⟨h.symm, ((constraint_tokens_iff hn s).1 []).mp h1⟩)
      · rcases parse_total ops atomic ops_ok toks hne with ⟨n, hn'⟩ | ⟨hn', -⟩
        · rw [hn'] at h
          simp at h
        · rw [hn', Except.error.injEq] at h
          exact Or.inl h.symm
  · obtain ⟨toks, h4, d, h5, h6, h7⟩ := (parse_constraint_iff hn s _).mp ⟨n, h1, rfl⟩
    subst h6
    have hk : Known names (astOf n) := by
      rw [← h7]
      exact known_of_wf h5 (lexed_variables h4)
    simp only [evalConstraint, bind_err] at h
    have : Soft e := by
      rcases h with h | ⟨v, h2, h⟩
      · exact eval_soft n hk e h
      · exact toCon_soft ((eval_means names num n).1 v h2) h
    exact this.imp id Or.inl

/-- The blank text is not rejected properly. -/
theorem blank_constraint_crashes (num : Name → K) :
    constraintOfString ["x".toList] num " ".toList = .error .indexError := by
  have h : parse " ".toList ["x".toList] = .error .indexError := by decide +kernel
  simp only [constraintOfString, h]
  rfl

/-! ### Constraints that are not texts -/

/-- A constraint object passes if and only if it is about the same variables. -/
theorem con_meaning (names : List Name) (num : Name → K) (c d : LinCon K) :
    linearConstraint names num (.con c) = .ok d ↔ d = c ∧ c.names = names := by
  simp only [linearConstraint]
  split
  · rename_i h
    simp [h]
  · rename_i h
    simp only [Except.ok.injEq]
    exact ⟨fun h2 => ⟨h2.symm, not_not.mp h⟩, fun h2 => h2.1.symm⟩

/-- C28: a pair of a matrix and a vector is accepted exactly if the matrix has a row, as many columns as there are
names and as many rows as the vector, and then it means `A x = b`. -/
theorem tuple_meaning (names : List Name) (num : Name → K) (n : Nat) (A : List (List K)) (b : List K)
    (hA : ∀ r ∈ A, r.length = n) (c : LinCon K) :
    linearConstraint names num (.tuple (.mat n A) (some (.vec b))) = .ok c ↔
      (n = names.length ∧ A ≠ [] ∧ A.length = b.length) ∧ c = ⟨names, A, b⟩ := by
  have e : b.map (fun x => [x].headD 0) = b := by simp
  by_cases h1 : n = names.length
  · by_cases h2 : A = []
    · simp [linearConstraint, LinCon.make, Arr.columnDefault, Arr.atleast2d, h1, h2]
    · by_cases h3 : A.length = b.length
      · have h4 : b ≠ [] := by
          rintro rfl
          simp at h3
          exact h2 h3
        simp [linearConstraint, LinCon.make, Arr.columnDefault, Arr.atleast2d, h1, h2, h3, h4, Function.comp_def,
          eq_comm]
      · simp [linearConstraint, LinCon.make, Arr.columnDefault, Arr.atleast2d, h1, h2, h3]
  · simp [linearConstraint, LinCon.make, Arr.columnDefault, Arr.atleast2d, h1]

/-- C28: a matrix alone means `A x = 0`. -/
theorem array_meaning (names : List Name) (num : Name → K) (n : Nat) (A : List (List K))
    (hA : ∀ r ∈ A, r.length = n) (c : LinCon K)
    (h : linearConstraint names num (.array (.mat n A)) = .ok c) :
    Good names c ∧ ∀ x, Sat c x ↔ ∀ r ∈ A, dot r x = 0 := by
  simp only [linearConstraint, LinCon.make, Arr.columnDefault, Arr.atleast2d] at h
  split at h
  · simp at h
  · split at h
    · simp at h
    · split at h
      · simp at h
      · rename_i h1 h2
        split at h
        · simp at h
        · obtain rfl := Except.ok.inj h
          have h1' : n = names.length := not_not.mp h1
          refine ⟨⟨rfl, by simp, Nat.pos_of_ne_zero h2, fun r hr => (hA r hr).trans h1'⟩, fun x => ?_⟩
          simp only [Sat, List.map_replicate, List.headD_cons]
          constructor
          · intro h r hr
            obtain ⟨i, hi, rfl⟩ := List.getElem_of_mem hr
            exact h (A[i], 0) (List.mem_iff_getElem.mpr ⟨i, by simpa using hi, by simp⟩)
          · rintro h ⟨r, k⟩ hp
            have h3 := List.of_mem_zip hp
            rw [List.mem_replicate] at h3
            rw [h r h3.1, h3.2.2]

/-- C28: the vector of one row means one equation. -/
theorem row_meaning (names : List Name) (num : Name → K) (r : List K) (c : LinCon K) :
    (linearConstraint names num (.array (.vec r)) = .ok c ↔ r.length = names.length ∧ c = ⟨names, [r], [0]⟩) ∧
      ∀ k, (linearConstraint names num (.tuple (.vec r) (some (.scalar k))) = .ok c ↔
        r.length = names.length ∧ c = ⟨names, [r], [k]⟩) := by
  refine ⟨?_, fun k => ?_⟩
  · by_cases h : r.length = names.length
    · simp [linearConstraint, LinCon.make, Arr.columnDefault, Arr.atleast2d, h, eq_comm]
    · simp [linearConstraint, LinCon.make, Arr.columnDefault, Arr.atleast2d, h]
  · by_cases h : r.length = names.length
    · simp [linearConstraint, LinCon.make, Arr.columnDefault, Arr.atleast2d, h, eq_comm]
    · simp [linearConstraint, LinCon.make, Arr.columnDefault, Arr.atleast2d, h]

/-- Only constraints about the same variables can be combined. -/
theorem combine_names {cs : List (LinCon K)} {d : LinCon K} (h : combine cs = .ok d) :
    cs ≠ [] ∧ ∀ c ∈ cs, c.names = d.names := by
  cases cs with
  | nil => simp [combine] at h
  | cons c cs =>
    simp only [combine] at h
    split at h
    · simp at h
    · rename_i hn
      have hd : d.names = c.names := by
        simp only [LinCon.make, Arr.columnDefault, Arr.atleast2d, ne_eq, not_true_eq_false, if_false] at h
        split at h
        · simp at h
        · split at h
          · simp at h
          · exact (Except.ok.inj h) ▸ rfl
      simp only [List.any_eq_true, decide_eq_true_eq, not_exists, not_and, not_not] at hn
      exact ⟨by simp, fun e he => (hn e he).trans hd.symm⟩

/-- A constraint made from a text is about the names. -/
theorem string_good {names : List Name} (hn : names ≠ []) {num : Name → K} {s : List Char} {c : LinCon K}
    (h : constraintOfString names num s = .ok c) : Good names c := by
  exact (constraint_meaning hn h).1

/-- C28: a list of texts means all of them; a single text means itself. -/
theorem strings_meaning {names : List Name} (hn : names ≠ []) {num : Name → K} (l : List (List Char)) (hl : l ≠ [])
    (d : LinCon K) (h : linearConstraint names num (.strings l) = .ok d) :
    Good names d ∧ ∃ cs, List.Forall₂ (fun s c => constraintOfString names num s = .ok c) l cs ∧
      ∀ x, Sat d x ↔ ∀ c ∈ cs, Sat c x := by
  simp only [linearConstraint, hl, if_false, bind_ok] at h
  obtain ⟨cs, h1, h2⟩ := h
  have hf := Patsy.Build.mapM_ok.mp h1
  have hg : ∀ c ∈ cs, Good names c := by
    intro c hc
    obtain ⟨i, hi, rfl⟩ := List.getElem_of_mem hc
    exact string_good hn (List.forall₂_iff_get.mp hf |>.2 i (by rw [hf.length_eq]; exact hi) hi)
  have hne : cs ≠ [] := by
    rintro rfl
    cases hf
    exact hl rfl
  obtain ⟨d', h3, h4, h5⟩ := combine_good hne hg
  rw [h3, Except.ok.injEq] at h2
  subst h2
  exact ⟨h4, cs, hf, h5⟩

theorem string_meaning {names : List Name} (hn : names ≠ []) {num : Name → K} (s : List Char)
    (d : LinCon K) (h : linearConstraint names num (.string s) = .ok d) :
    ∃ c, constraintOfString names num s = .ok c ∧ Good names d ∧ ∀ x, Sat d x ↔ Sat c x := by
  simp only [linearConstraint, bind_ok] at h
  obtain ⟨c, h1, h2⟩ := h
  obtain ⟨d', h3, h4, h5⟩ := combine_good (names := names) (cs := [c]) (by simp) (by simpa using string_good hn h1)
  rw [h3, Except.ok.injEq] at h2
  subst h2
  exact ⟨c, h1, h4, by simpa using h5⟩

theorem zip_find {names : List Name} {x : List K} (hx : x.length = names.length) {n : Name} (h : n ∈ names) :
    (names.zip x).findSome? (fun p => if p.1 = n then some p.2 else none) = x[names.idxOf n]? := by
  induction names generalizing x with
  | nil => simp at h
  | cons m names ih =>
    cases x with
    | nil => simp at hx
    | cons y x =>
      by_cases hm : m = n
      · simp [hm]
      · have hb : (m == n) = false := by simpa using hm
        rcases List.mem_cons.mp h with rfl | h
        · exact absurd rfl hm
        · rw [List.zip_cons_cons, List.findSome?_cons, if_neg hm, List.idxOf_cons, hb]
          simpa using ih (by simpa using hx) h

/-- One item of a mapping. -/
theorem key_meaning {names : List Name} {k : Key} {idx : Int} {row : List K} (h1 : keyIndex names k = .ok idx)
    (h2 : unitRow names.length idx = .ok row) {x : List K} (hx : x.length = names.length) :
    row.length = names.length ∧ keyValue names x k = some (dot row x) := by
  simp only [unitRow] at h2
  generalize hj : (if idx < 0 then idx + (names.length : Int) else idx) = j at h2
  split at h2
  · rename_i hb
    obtain rfl := Except.ok.inj h2
    have hlt : j.toNat < names.length := by omega
    refine ⟨by simp, ?_⟩
    rw [dot_unit _ _ _ hlt hx]
    have hx' : some (x[j.toNat]?.getD 0) = x[j.toNat]? := by
      rw [List.getElem?_eq_getElem (by omega)]
      rfl
    rw [hx']
    cases k with
    | name n =>
      simp only [keyIndex] at h1
      split at h1
      · rename_i hm
        obtain rfl := Except.ok.inj h1
        rw [if_neg (by omega)] at hj
        subst hj
        simpa [keyValue] using zip_find hx hm
      · simp at h1
    | int i =>
      simp only [keyIndex, Except.ok.injEq] at h1
      subst h1
      simp only [keyValue]
      split
      · rw [if_neg (by omega)] at hj
        rw [hj]
      · rw [if_pos (by omega)] at hj
        rw [if_pos (by omega)]
        congr 1
        omega
    | other => simp [keyIndex] at h1
  · simp at h2

theorem mappingRows_meaning {names : List Name} (items : List (Key × K)) (used : List Int)
    {r : List (List K) × List K} (h : mappingRows names items used = .ok r) {x : List K}
    (hx : x.length = names.length) :
    r.1.length = items.length ∧ r.2.length = items.length ∧ (∀ row ∈ r.1, row.length = names.length) ∧
      ((∀ p ∈ r.1.zip r.2, dot p.1 x = p.2) ↔ ∀ p ∈ items, keyValue names x p.1 = some p.2) := by
  induction items generalizing used r with
  | nil =>
    simp only [mappingRows, Except.ok.injEq] at h
    subst h
    simp
  | cons p items ih =>
    obtain ⟨k, v⟩ := p
    simp only [mappingRows, bind_ok] at h
    obtain ⟨idx, h1, h⟩ := h
    split at h
    · simp at h
    · simp only [bind_ok, pure_ok] at h
      obtain ⟨row, h2, rest, h3, rfl⟩ := h
      obtain ⟨k1, k2⟩ := key_meaning h1 h2 hx
      obtain ⟨i1, i2, i3, i4⟩ := ih _ h3
      refine ⟨by simp [i1], by simp [i2], ?_, ?_⟩
      · intro q hq
        rcases List.mem_cons.mp hq with rfl | hq
        · exact k1
        · exact i3 q hq
      · simp only [List.zip_cons_cons, List.forall_mem_cons, i4, k2, Option.some.injEq]

/-- C28: a mapping means that every key, name or position, has its value. -/
theorem mapping_meaning {names : List Name} {num : Name → K} {items : List (Key × K)} {c : LinCon K}
    (h : linearConstraint names num (.mapping items) = .ok c) :
    Good names c ∧ ∀ x, x.length = names.length →
      (Sat c x ↔ ∀ p ∈ items, keyValue names x p.1 = some p.2) := by
  simp only [linearConstraint, bind_ok] at h
  obtain ⟨r, h1, h2⟩ := h
  have hm := mappingRows_meaning items [] h1 (x := List.replicate names.length 0) (by simp)
  have h3 := (tuple_meaning names num names.length r.1 r.2 hm.2.2.1 c).mp h2
  obtain ⟨⟨-, h4, h5⟩, rfl⟩ := h3
  refine ⟨⟨rfl, h5, List.length_pos_iff.mpr h4, hm.2.2.1⟩, fun x hx => ?_⟩
  exact (mappingRows_meaning items [] h1 hx).2.2.2

example : ∃ c : LinCon ℚ, linearConstraint ["x".toList, "y".toList] sampleNum
    (.mapping [(.name "y".toList, 3), (.int 0, 2)]) = .ok c ∧ c.coefs = [[0, 1], [1, 0]] ∧ c.constants = [3, 2] :=
  ⟨_, rfl, rfl, rfl⟩

/-- The key with a name means the same as the position of the name. -/
def sameKey (names : List Name) : Key → Key → Prop
  | .name n, .name m => n = m
  | .int i, .int j => i = j
  | .name n, .int i => 0 ≤ i ∧ names.findIdx? (· == n) = some i.toNat
  | .int i, .name n => 0 ≤ i ∧ names.findIdx? (· == n) = some i.toNat
  | _, _ => False

theorem sameKey_index {names : List Name} {k k' : Key} {i : Int} (h : keyIndex names k = .ok i)
    (hs : sameKey names k k') : keyIndex names k' = .ok i := by
  have hn : ∀ (n : Name) (j : Int), n ∈ names → (0 ≤ j ∧ names.findIdx? (· == n) = some j.toNat) →
      ((names.idxOf n : Nat) : Int) = j := by
    intro n j hm ⟨h1, h2⟩
    have := List.findIdx?_eq_some_iff_findIdx_eq.mp h2
    simp only [List.idxOf]
    omega
  cases k with
  | other => simp [sameKey] at hs
  | name n =>
    simp only [keyIndex] at h
    split at h
    · rename_i hm
      obtain rfl := Except.ok.inj h
      cases k' with
      | other => simp [sameKey] at hs
      | name m => subst hs; simp [keyIndex, hm]
      | int j => simp [keyIndex, hn n j hm hs]
    · simp at h
  | int j =>
    simp only [keyIndex, Except.ok.injEq] at h
    subst h
    cases k' with
    | other => simp [sameKey] at hs
    | name m =>
      have hm : m ∈ names := by
        by_contra hm
        have : names.findIdx? (· == m) = none := by
          rw [List.findIdx?_eq_none_iff]
          intro x hx
          by_contra hc
          simp at hc
          exact hm (hc ▸ hx)
        rw [hs.2] at this
        simp at this
      simp [keyIndex, hm, hn m j hm hs]
    | int i =>
      have hs : j = i := hs
      simp [keyIndex, hs]

theorem mappingRows_used {names : List Name} (items : List (Key × K)) (used : List Int)
    {r : List (List K) × List K} (h : mappingRows names items used = .ok r) :
    (∀ p ∈ items, ∀ i, keyIndex names p.1 = .ok i → i ∉ used) ∧
      items.Pairwise fun p q => ¬ sameKey names p.1 q.1 := by
  induction items generalizing used r with
  | nil => simp
  | cons p items ih =>
    obtain ⟨k, v⟩ := p
    simp only [mappingRows, bind_ok] at h
    obtain ⟨idx, h1, h⟩ := h
    split at h
    · simp at h
    · rename_i hu
      simp only [bind_ok, pure_ok] at h
      obtain ⟨row, h2, rest, h3, rfl⟩ := h
      obtain ⟨i1, i2⟩ := ih _ h3
      refine ⟨?_, List.pairwise_cons.mpr ⟨?_, i2⟩⟩
      · intro q hq i hi
        rcases List.mem_cons.mp hq with rfl | hq
        · rw [h1, Except.ok.injEq] at hi
          subst hi
          exact hu
        · exact fun hm => i1 q hq i hi (List.mem_cons_of_mem _ hm)
      · intro q hq hs
        exact i1 q hq idx (sameKey_index h1 hs) List.mem_cons_self

/-- C28: a mapping is rejected if two of its keys are the same name or position, but not if one of the positions is
counted from the end: the second mapping demands that `x` is both 1 and 2. -/
theorem mapping_duplicates_partial :
    (∀ (names : List Name) (num : Name → K) (items : List (Key × K)) (c : LinCon K),
      linearConstraint names num (.mapping items) = .ok c → items.Pairwise fun p q => ¬ sameKey names p.1 q.1) ∧
    ∃ c : LinCon ℚ, linearConstraint ["x".toList] sampleNum (.mapping [(.int 0, 1), (.int (-1), 2)]) = .ok c ∧
      ∀ x, x.length = 1 → ¬ Sat c x := by
  constructor
  · intro names num items c h
    simp only [linearConstraint, bind_ok] at h
    obtain ⟨r, h1, -⟩ := h
    exact (mappingRows_used items [] h1).2
  · refine ⟨⟨["x".toList], [[1], [1]], [1, 2]⟩, by rfl, ?_⟩
    intro x hx h
    obtain ⟨y, rfl⟩ := List.length_eq_one_iff.mp hx
    have h1 := h ([1], 1) (by simp)
    have h2 := h ([1], 2) (by simp)
    simp only [dot_cons, dot_nil_left] at h1 h2
    rw [h1] at h2
    norm_num at h2

end Patsy.Props
