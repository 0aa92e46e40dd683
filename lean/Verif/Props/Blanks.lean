import Verif.Lemmas.Blanks
import Verif.Props.Tokens

/-!
# C14: where the blanks of normalised code stand
-/

namespace Patsy.Props

open Patsy.Tokens Patsy.Spec.Blanks Patsy.Blanks

/-- What the state of `pretty_untokenize` says about the tokens so far. -/
structure BlankState (s : UState) (before : List Tok) : Prop where
  delim : s.prevWasSpaceDelim = true ↔ ∃ before' p, before = before' ++ [p] ∧ Word p
  wants : s.prevWantsSpace = true ↔ ∃ before' p, before = before' ++ [p] ∧ BlankBehind before' p
  argument : s.prevWasOpenParenOrComma = true ↔ BeginsArgument before
  operand : s.prevWasObjectLike = true ↔ AfterOperand before
  brackets : Open s.brackets before

theorem isWord_iff {t : Tok} : isWord t.1 = true ↔ Word t := by
  obtain ⟨ty, s⟩ := t
  cases ty <;> simp [isWord, Word]

theorem blankState_init : BlankState .init [] where
  delim := by simp [UState.init]
  wants := by simp [UState.init]
  argument := by simp [UState.init, BeginsArgument]
  operand := by simp [UState.init, AfterOperand]
  brackets := .base .nil

theorem snoc_exists {before : List Tok} {t : Tok} {P : List Tok → Tok → Prop} :
    (∃ before' p, before ++ [t] = before' ++ [p] ∧ P before' p) ↔ P before t := by
  constructor
  · rintro ⟨b, p, h1, h2⟩
    obtain ⟨rfl, h3⟩ := List.append_inj' h1 rfl
    cases h3
    exact h2
  · intro h
    exact ⟨_, _, rfl, h⟩

theorem wants_iff {s : UState} {before : List Tok} (h : BlankState s before) {t : Tok} (ht : ¬ Word t)
    (hn : 0 ≤ level (before ++ [t])) :
    ((wants s.prevWasOpenParenOrComma s.prevWasObjectLike (pushBracket s.brackets t.2) t.2).1 = true ↔ BlankBefore before t) ∧
    ((wants s.prevWasOpenParenOrComma s.prevWasObjectLike (pushBracket s.brackets t.2) t.2).2 = true ↔ BlankBehind before t) := by
  obtain ⟨ty, tok⟩ := t
  have hsym : ∀ x, Symbol x (ty, tok) ↔ tok = x := fun x => ⟨fun h => h.2, fun h => ⟨ht, h⟩⟩
  have hin := h.brackets.head "["
  have hlev : s.brackets = [] ↔ level before = 0 := by
    rw [h.brackets.level]
    constructor
    · intro h; simp [h]
    · intro h; exact List.length_eq_zero_iff.mp (by exact_mod_cast h)
  have hA := h.argument
  have hO := h.operand
  by_cases hbr : tok ∈ ["(", "[", "{", ")", "]", "}"]
  · simp only [List.mem_cons, List.not_mem_nil, or_false] at hbr
    rcases hbr with rfl | rfl | rfl | rfl | rfl | rfl <;>
      simp [wants, spaceBefore, spaceAfter, spaceBoth, BlankBefore, BlankBehind, Binary, binaryOperators, hsym]
  · have hpush : pushBracket s.brackets tok = s.brackets := by
      simp only [List.mem_cons, List.not_mem_nil, or_false, not_or] at hbr
      simp [pushBracket, hbr]
    simp only [hpush]
    by_cases hop : tok ∈ binaryOperators ++ ["=", ":", ",", "!", "~"]
    · simp only [binaryOperators, List.cons_append, List.nil_append, List.mem_cons, List.not_mem_nil, or_false] at hop
      rcases hop with rfl | rfl | rfl | rfl | rfl | rfl | rfl | rfl | rfl | rfl | rfl | rfl | rfl | rfl | rfl | rfl | rfl | rfl
        | rfl | rfl | rfl | rfl | rfl | rfl <;>
      simp [wants, spaceBefore, spaceAfter, spaceBoth, BlankBefore, BlankBehind, Binary, binaryOperators, hsym, IsSign,
        IsStarred, hA, hO, hin, hlev] <;> split <;> simp_all
    · have h1 : tok ∉ spaceBefore ∧ tok ∉ spaceAfter := by
        simp only [binaryOperators, List.cons_append, List.nil_append, List.mem_cons, List.not_mem_nil, or_false, not_or] at hop
        simp [spaceBefore, spaceAfter, spaceBoth, hop]
      simp only [binaryOperators, List.cons_append, List.nil_append, List.mem_cons, List.not_mem_nil, or_false, not_or] at hop
      simp [wants, h1, BlankBefore, BlankBehind, Binary, binaryOperators, hsym, hop]

theorem blankState_step {s : UState} {before : List Tok} (h : BlankState s before) {t : Tok}
    (hn : 0 ≤ level (before ++ [t])) :
    ((untokStep s t.1 t.2).1 = true ↔ Blank before t) ∧ BlankState (untokStep s t.1 t.2).2 (before ++ [t]) := by
  by_cases hw : Word t
  · have h1 : isWord t.1 = true := isWord_iff.mpr hw
    have hs : ∀ x, ¬ Symbol x t := fun x hx => hx.1 hw
    have hb : ¬ BlankBefore before t := by simp [BlankBefore, Binary, hs]
    have ha : ¬ BlankBehind before t := by simp [BlankBehind, Binary, hs]
    simp only [untokStep, h1, if_true]
    refine ⟨?_, ?_⟩
    · rw [Bool.or_eq_true, h.delim, h.wants]
      unfold Blank
      constructor
      · rintro (⟨b, p, rfl, h2⟩ | ⟨b, p, rfl, h2⟩)
        · exact .inr ⟨b, p, rfl, .inl h2⟩
        · exact .inr ⟨b, p, rfl, .inr ⟨h2, hw⟩⟩
      · rintro (h2 | ⟨b, p, rfl, h2 | h2⟩)
        · exact absurd h2 hb
        · exact .inl ⟨b, p, rfl, h2⟩
        · exact .inr ⟨b, p, rfl, h2.1⟩
    · refine ⟨?_, ?_, ?_, ?_, ?_⟩
      · rw [snoc_exists]; simpa using hw
      · rw [snoc_exists]; simpa using ha
      · simp [BeginsArgument]
      · simp [AfterOperand, hw]
      · exact h.brackets.extend (.one (weight_word hw))
  · have h1 : isWord t.1 = false := by rw [Bool.eq_false_iff]; exact mt isWord_iff.mp hw
    obtain ⟨hb, ha⟩ := wants_iff h hw hn
    simp only [untokStep, h1]
    refine ⟨?_, ?_⟩
    · simp only [Bool.false_eq_true, if_false]
      rw [Bool.or_eq_true, hb, h.wants]
      unfold Blank
      constructor
      · rintro (⟨b, p, rfl, h2⟩ | h2)
        · exact .inr ⟨b, p, rfl, .inl h2⟩
        · exact .inl h2
      · rintro (h2 | ⟨b, p, rfl, h2 | h2⟩)
        · exact .inr h2
        · exact .inl ⟨b, p, rfl, h2⟩
        · exact absurd h2.2 hw
    · simp only [Bool.false_eq_true, if_false]
      refine ⟨?_, ?_, ?_, ?_, ?_⟩
      · rw [snoc_exists]; simpa using hw
      · rw [snoc_exists]; exact ha
      · simp [BeginsArgument]
      · simp [AfterOperand, hw]
      · exact h.brackets.push hw hn

theorem untokLoop_layout : ∀ (ts : List Tok) (s : UState) (before : List Tok), BlankState s before →
    (∀ t ∈ ts, t.1 ≠ .indent ∧ t.1 ≠ .dedent ∧ t.1 ≠ .nl) → NeverNegative (before ++ shown ts) →
    ∃ text, untokLoop s ts = .ok text ∧ String.join text = layout before (shown ts) := by
  intro ts
  induction ts with
  | nil => intro s before _ _ _; exact ⟨[], rfl, rfl⟩
  | cons t ts ih =>
    intro s before h hp hn
    obtain ⟨p1, p2, p3⟩ := hp t (by simp)
    have hp' := fun t' ht' => hp t' (List.mem_cons_of_mem _ ht')
    obtain ⟨ty, tok⟩ := t
    by_cases hskip : ty = .newline ∨ ty = .endmarker
    · have hpr : shown ((ty, tok) :: ts) = shown ts := by
        rcases hskip with rfl | rfl <;> simp [shown]
      rw [hpr] at hn ⊢
      obtain ⟨text, h1, h2⟩ := ih s before h hp' hn
      refine ⟨text, ?_, h2⟩
      rw [untokLoop, if_neg (by simp only [not_or]; exact ⟨p1, p2, p3⟩), if_pos hskip, h1]
    · have hpr : shown ((ty, tok) :: ts) = (ty, tok) :: shown ts := by
        simp only [not_or] at hskip
        simp [shown, hskip]
      rw [hpr] at hn ⊢
      obtain ⟨h3, h4⟩ := blankState_step (t := (ty, tok)) h (neverNegative_iff.mp hn _ (shown ts) (by simp))
      obtain ⟨text, h1, h2⟩ := ih _ _ h4 hp' (by simpa using hn)
      refine ⟨(if (untokStep s ty tok).1 then [" "] else []) ++ [tok] ++ text, ?_, ?_⟩
      · rw [untokLoop, if_neg (by simp only [not_or]; exact ⟨p1, p2, p3⟩), if_neg hskip]
        simp only [h1]
      · rw [layout, ← h2]
        by_cases hb : Blank before (ty, tok)
        · simp [h3.mpr hb, hb, String.append_assoc]
        · have : (untokStep s ty tok).1 = false := by rw [Bool.eq_false_iff]; exact mt h3.mp hb
          simp [this, hb]

/-- **C14**, exactly.  The text of normalised code are its tokens with the blanks that `Blank` tells, and no others. -/
theorem untokenize_layout (ts : List Tok) (hp : ∀ t ∈ ts, t.1 ≠ .indent ∧ t.1 ≠ .dedent ∧ t.1 ≠ .nl)
    (hn : NeverNegative (shown ts)) : prettyUntokenize ts = .ok (layout [] (shown ts)) := by
  obtain ⟨text, h1, h2⟩ := untokLoop_layout ts .init [] blankState_init hp hn
  rw [prettyUntokenize, h1, ← h2]

/-- The tokens of `foo(-a*2, *b, k='s')[1:x] - {1:2}`. -/
def blanksSample : List Tok :=
  [(.name, "foo"), (.op, "("), (.op, "-"), (.name, "a"), (.op, "*"), (.number, "2"), (.op, ","), (.op, "*"), (.name, "b"),
    (.op, ","), (.name, "k"), (.op, "="), (.string, "'s'"), (.op, ")"), (.op, "["), (.number, "1"), (.op, ":"), (.name, "x"),
    (.op, "]"), (.op, "-"), (.op, "{"), (.number, "1"), (.op, ":"), (.number, "2"), (.op, "}"), (.newline, ""),
    (.endmarker, "")]

/-- Example for `untokenize_layout`.  The minus after `]` counts as a sign. -/
example : (∀ t ∈ blanksSample, t.1 ≠ .indent ∧ t.1 ≠ .dedent ∧ t.1 ≠ .nl) ∧ NeverNegative (shown blanksSample) ∧
    prettyUntokenize blanksSample = .ok "foo(-a * 2, *b, k='s')[1:x]-{1: 2}" := by
  refine ⟨by decide, ?_, eq_ok_of_okIs (by decide +kernel)⟩
  intro k
  have : ∀ k < 26, 0 ≤ level ((shown blanksSample).take k) := by decide +kernel
  by_cases hk : k < 26
  · exact this k hk
  · have hl : (shown blanksSample).length = 25 := by decide +kernel
    rw [List.take_of_length_le (by omega), ← List.take_of_length_le (i := 25) (l := shown blanksSample) (by omega)]
    exact this 25 (by omega)

end Patsy.Props
