import Verif.Lemmas.ConstraintPosition

/-!
# C63: errors in linear constraints are marked at the text to blame

`names` are the names of the columns, `num` gives the value of numerals.
-/

namespace Patsy.Props

open Patsy.Constraint Patsy.Spec
open Patsy.Infix
open Patsy.Located (LErr nowhere parseAt runAt runAllAt finishAt runAt_spec runAllAt_spec parseAt_ok close_frames framesToks_last)
open Patsy.Desc (bind_ok)

set_option linter.unusedSectionVars false

variable {K : Type} [Field K] [DecidableEq K]

/-! ### Words -/

theorem lexeme_of_piece {names : List Name} (hn : names ≠ []) {w rest : List Char} (h : Piece names w rest) :
    (∃ k, lexeme names (w ++ rest) = some (k, w.length)) ∧ w ≠ [] := by
  cases h with
  | word hw => exact ⟨⟨_, (lexeme_of_word hn hw).1⟩, (lexeme_of_word hn hw).2⟩
  | space hop hv hne hw hmax => exact ⟨⟨_, lexeme_of_space hn hop hv hne hw hmax⟩, hne⟩

theorem piece_of_lexeme {names : List Name} (hn : names ≠ []) {s : List Char} {k : Option (Kind Sym)} {n : Nat}
    (h : lexeme names s = some (k, n)) (h0 : n ≠ 0) : Piece names (s.take n) (s.drop n) ∧ n ≤ s.length := by
  cases k with
  | some k =>
    obtain ⟨h1, h2⟩ := word_of_lexeme hn h h0
    exact ⟨.word h1, h2⟩
  | none =>
    obtain ⟨h1, h2, h3, -⟩ := space_of_lexeme hn h
    have ht : s.take n = s.takeWhile isSpace := by rw [h3]; exact take_takeWhile _ _
    have hd : s.drop n = s.dropWhile isSpace := by
      have e := List.takeWhile_append_dropWhile (p := isSpace) (l := s)
      have := List.drop_left (l₁ := s.takeWhile isSpace) (l₂ := s.dropWhile isSpace)
      rwa [e, ← h3] at this
    refine ⟨.space (by rwa [List.take_append_drop]) (by rwa [List.take_append_drop]) ?_ ?_ ?_, ?_⟩
    · intro hc
      rw [ht] at hc
      rw [h3, hc] at h0
      exact h0 rfl
    · rw [ht]
      intro c hc
      exact List.mem_takeWhile_imp hc
    · rw [hd]
      intro c hc
      have := List.head?_dropWhile_not isSpace s
      rw [hc] at this
      simpa using this
    · rw [h3]
      exact (List.takeWhile_prefix isSpace).length_le

theorem scan_stuck {names : List Name} (hn : names ≠ []) (fuel pos : Nat) (s : List Char) (hf : s.length ≤ fuel)
    (h : (scan names fuel pos s).2 ≠ []) :
    (scan names fuel pos s).2.length ≤ s.length ∧ StuckAt names pos s (pos + (s.length - (scan names fuel pos s).2.length)) := by
  induction fuel generalizing pos s with
  | zero =>
    have : s = [] := List.length_eq_zero_iff.1 (by omega)
    subst this
    simp [scan] at h
  | succ fuel ih =>
    have here : ∀ k n, (lexeme names s = none ∨ (lexeme names s = some (k, n) ∧ n = 0)) → s ≠ [] → StuckAt names pos s pos := by
      intro k n hl hs
      refine .here hs fun w rest he hp => ?_
      subst he
      obtain ⟨⟨k', hk⟩, hne⟩ := lexeme_of_piece hn hp
      rcases hl with hl | ⟨hl, h0⟩
      · rw [hk] at hl; simp at hl
      · rw [hk] at hl
        simp only [Option.some.injEq, Prod.mk.injEq] at hl
        exact hne (List.length_eq_zero_iff.1 (by omega))
    cases hl : lexeme names s with
    | none =>
      have e : (scan names (fuel + 1) pos s).2 = s := by simp [scan, hl]
      rw [e] at h ⊢
      refine ⟨le_rfl, ?_⟩
      simpa using here none 0 (Or.inl hl) h
    | some p =>
      obtain ⟨k, n⟩ := p
      by_cases h0 : n = 0
      · have e : (scan names (fuel + 1) pos s).2 = s := by simp [scan, hl, h0]
        rw [e] at h ⊢
        refine ⟨le_rfl, ?_⟩
        simpa using here k n (Or.inr ⟨hl, h0⟩) h
      · obtain ⟨h1, h2⟩ := piece_of_lexeme hn hl h0
        have e : (scan names (fuel + 1) pos s).2 = (scan names fuel (pos + n) (s.drop n)).2 := by
          cases k <;> simp [scan, hl, h0]
        rw [e] at h ⊢
        have hlen : (s.drop n).length = s.length - n := List.length_drop
        obtain ⟨g1, g2⟩ := ih (pos + n) (s.drop n) (by omega) h
        refine ⟨by omega, ?_⟩
        have hpos : pos + (s.take n).length = pos + n := by rw [List.length_take]; omega
        have := StuckAt.later h1 (pos := pos) (by rw [hpos]; exact g2)
        rw [List.take_append_drop] at this
        have he : pos + n + ((s.drop n).length - (scan names fuel (pos + n) (s.drop n)).2.length) =
            pos + (s.length - (scan names fuel (pos + n) (s.drop n)).2.length) := by omega
        rwa [he] at this

theorem stuck_scan {names : List Name} (hn : names ≠ []) {pos p : Nat} {s : List Char} (h : StuckAt names pos s p) (fuel : Nat)
    (hf : s.length ≤ fuel) : (scan names fuel pos s).2 ≠ [] ∧ p + (scan names fuel pos s).2.length = pos + s.length := by
  induction h generalizing fuel with
  | @here pos s hne h =>
    cases fuel with
    | zero => exact absurd (List.length_eq_zero_iff.1 (by omega)) hne
    | succ fuel =>
      have e : (scan names (fuel + 1) pos s).2 = s := by
        cases hl : lexeme names s with
        | none => simp [scan, hl]
        | some q =>
          obtain ⟨k, n⟩ := q
          by_cases h0 : n = 0
          · simp [scan, hl, h0]
          · exact absurd (piece_of_lexeme hn hl h0).1 (h _ _ (List.take_append_drop _ _).symm)
      rw [e]
      exact ⟨hne, rfl⟩
  | @later pos w rest p hw _ ih =>
    obtain ⟨⟨k, hk⟩, hne⟩ := lexeme_of_piece hn hw
    have hpos : w.length ≠ 0 := fun hc => hne (List.length_eq_zero_iff.1 hc)
    cases fuel with
    | zero => simp only [List.length_append] at hf; omega
    | succ fuel =>
      have e : (scan names (fuel + 1) pos (w ++ rest)).2 = (scan names fuel (pos + w.length) rest).2 := by
        cases k <;> simp [scan, hk, hpos]
      rw [e]
      simp only [List.length_append] at hf ⊢
      obtain ⟨g1, g2⟩ := ih fuel (by omega)
      exact ⟨g1, by omega⟩

/-- The tokenizer stops at the first place where no word and no white space begins. -/
theorem tokenizeAt_error_iff {names : List Name} (hn : names ≠ []) (s : List Char) (x : LErr) :
    tokenizeAt s names = .error x ↔ ∃ p, StuckAt names 0 s p ∧ x = (.patsyError, some ⟨p, p + 1⟩) := by
  simp only [tokenizeAt]
  constructor
  · intro h
    split at h
    · simp at h
    · rename_i hne
      obtain ⟨h1, h2⟩ := scan_stuck hn s.length 0 s le_rfl hne
      simp only [Except.error.injEq] at h
      exact ⟨_, h2, by rw [← h, Nat.zero_add]⟩
  · rintro ⟨p, hp, rfl⟩
    obtain ⟨h1, h2⟩ := stuck_scan hn hp s.length le_rfl
    rw [if_neg h1]
    have : s.length - (scan names s.length 0 s).2.length = p := by omega
    rw [this]

theorem erase_tokenizeAt (s : List Char) (names : List Name) : erase (tokenizeAt s names) = tokenize s names := by
  simp only [tokenizeAt, tokenize]
  split <;> rfl

theorem tokenizeAt_ok_iff {names : List Name} (hn : names ≠ []) (s : List Char) (toks : List (Tok Sym Name)) :
    tokenizeAt s names = .ok toks ↔ Lexed names 0 s toks := by
  rw [← (constraint_tokens_iff hn s).1 toks, ← erase_tokenizeAt]
  constructor
  · intro h
    rw [h]
    rfl
  · exact eq_ok_of_erase

theorem lexed_increasing {names : List Name} {pos : Nat} {s : List Char} {toks : List (Tok Sym Name)}
    (h : Lexed names pos s toks) : Increasing toks ∧ ∀ t ∈ toks.head?, pos ≤ t.origin.start := by
  induction h with
  | nil => exact ⟨trivial, by simp⟩
  | space _ _ _ _ _ _ ih => exact ⟨ih.1, fun t ht => by have := ih.2 t ht; omega⟩
  | @word pos k w rest toks _ _ ih =>
    refine ⟨?_, by simp⟩
    cases toks with
    | nil => simp [Increasing]
    | cons u toks => exact ⟨by simp, ih.2 u (by simp), ih.1⟩

/-! ### The order of the words -/

/-- The table of the constraint language. -/
abbrev ctable : Table Sym := mkTable ops atomic

theorem ctable_ok : TableOk ctable := tableOk_of_checkOps ops_ok atomic

theorem begins_prefix {u v : List (Tok Sym Name)} (h : BeginsConstraint (u ++ v)) : BeginsConstraint u := by
  obtain ⟨w, hw⟩ := h
  exact ⟨v ++ w, by rwa [← List.append_assoc]⟩

/-- What the parser has read without an error is the beginning of a constraint. -/
theorem begins_of_run {pre : List (Tok Sym Name)} {s : State Sym Name} (hi : Inv ctable pre s) : BeginsConstraint pre := by
  let close : Tok Sym Name := ⟨.rparen, ⟨0, 0⟩, []⟩
  cases hi with
  | want fs h1 h2 =>
    subst h2
    have hat : (Cst.atom ⟨.sym .number, ⟨0, 0⟩, []⟩ : Cst Sym Name).WF ctable := ⟨_, rfl, rfl, by decide⟩
    obtain ⟨k, c', g1, g2⟩ := close_frames close rfl fs _ (by simpa [Cst.leftEdge] using h1) hat
    exact ⟨_, c', g1, by rw [g2, List.append_assoc]⟩
  | have_ fs c h1 h2 h3 h4 =>
    subst h4
    obtain ⟨k, c', g1, g2⟩ := close_frames close rfl fs c h1 h2
    exact ⟨_, c', g1, g2⟩

/-- A token the parser does not accept cannot come there in any constraint. -/
theorem not_begins_of_failure {pre : List (Tok Sym Name)} {t : Tok Sym Name} {s : State Sym Name}
    (hr : run ctable ⟨[], [], true⟩ pre = .ok s) (hs : step ctable s t = .error .patsyError) :
    ¬ BeginsConstraint (pre ++ [t]) := by
  rintro ⟨v, c, hc, hf⟩
  have := run_flatten ctable_ok c hc [] [] (by intro o ho; simp at ho)
  rw [hf, List.append_assoc, run_append_ok hr] at this
  simp [run, hs] at this

theorem last_token {σ ε : Type} {tb : Table σ} {c : Cst σ ε} (h : c.WF tb) :
    c.last.kind = .rparen ∨ ∃ s, c.last.kind = .sym s ∧ tb.atomic s = true := by
  induction c with
  | atom t =>
    obtain ⟨s, h1, h2, h3⟩ := h
    exact Or.inr ⟨s, h1, h3⟩
  | paren l c r ih => exact Or.inl h.2.1
  | un t p c ih => exact ih h.2.1
  | bin l t p r ihl ihr => exact ihr h.2.2.1

/-- Closing minus opening parentheses. -/
def excess : List (Tok Sym Name) → Int
  | [] => 0
  | t :: ts => (if t.kind = .rparen then 1 else if t.kind = .lparen then -1 else 0) + excess ts

theorem excess_append (u v : List (Tok Sym Name)) : excess (u ++ v) = excess u + excess v := by
  induction u with
  | nil => simp [excess]
  | cons t u ih => simp only [List.cons_append, excess, ih]; omega

theorem excess_flatten {tb : Table Sym} {c : Cst Sym Name} (h : c.WF tb) :
    excess c.flatten = 0 ∧ ∀ u v, c.flatten = u ++ v → 0 ≤ excess v := by
  induction c with
  | atom t =>
    obtain ⟨s, h1, -⟩ := h
    have h0 : excess [t] = 0 := by simp [excess, h1]
    refine ⟨h0, fun u v he => ?_⟩
    simp only [Cst.flatten] at he
    cases u with
    | nil => simp only [List.nil_append] at he; rw [← he, h0]
    | cons x u =>
      simp only [List.cons_append, List.cons.injEq] at he
      obtain ⟨-, he⟩ := he
      have := (List.append_eq_nil_iff.1 he.symm).2
      simp [this, excess]
  | paren l c r ih =>
    obtain ⟨h1, h2, h3⟩ := h
    obtain ⟨i1, i2⟩ := ih h3
    have hr : excess [r] = 1 := by simp [excess, h2]
    refine ⟨by simp [Cst.flatten, excess, excess_append, h1, h2, i1], fun u v he => ?_⟩
    simp only [Cst.flatten] at he
    cases u with
    | nil =>
      simp only [List.nil_append] at he
      rw [← he]
      simp [excess, excess_append, h1, h2, i1]
    | cons x u =>
      simp only [List.cons_append, List.cons.injEq] at he
      obtain ⟨-, he⟩ := he
      rcases List.append_eq_append_iff.1 he with ⟨a, h4, h5⟩ | ⟨a, h4, h5⟩
      · cases a with
        | nil => simp only [List.nil_append] at h5; rw [← h5, hr]; decide
        | cons y a =>
          simp only [List.cons_append, List.cons.injEq] at h5
          have := (List.append_eq_nil_iff.1 h5.2.symm).2
          simp [this, excess]
      · have := i2 _ _ h4
        rw [h5, excess_append, hr]
        omega
  | un t p c ih =>
    obtain ⟨⟨s, h1, -⟩, h3, -⟩ := h
    obtain ⟨i1, i2⟩ := ih h3
    have h0 : excess (t :: c.flatten) = 0 := by simp [excess, h1, i1]
    refine ⟨by simpa [Cst.flatten] using h0, fun u v he => ?_⟩
    simp only [Cst.flatten] at he
    cases u with
    | nil => simp only [List.nil_append] at he; rw [← he, h0]
    | cons x u =>
      simp only [List.cons_append, List.cons.injEq] at he
      exact i2 _ _ he.2
  | bin l t p r ihl ihr =>
    obtain ⟨⟨s, h1, -⟩, h2, h3, -⟩ := h
    obtain ⟨i1, i2⟩ := ihl h2
    obtain ⟨j1, j2⟩ := ihr h3
    have h0 : excess (t :: r.flatten) = 0 := by simp [excess, h1, j1]
    refine ⟨by simp [Cst.flatten, excess_append, i1, h0], fun u v he => ?_⟩
    simp only [Cst.flatten] at he
    rcases List.append_eq_append_iff.1 he with ⟨a, h4, h5⟩ | ⟨a, h4, h5⟩
    · cases a with
      | nil => simp only [List.nil_append] at h5; rw [← h5, h0]
      | cons y a =>
        simp only [List.cons_append, List.cons.injEq] at h5
        exact j2 _ _ h5.2
    · have := i2 _ _ h4
      rw [h5, excess_append, h0]
      omega

theorem split_or {α : Type} {u u' : List α} {t t' : α} {v v' : List α} (h : u ++ t :: v = u' ++ t' :: v') :
    (u = u' ∧ t = t' ∧ v = v') ∨ (∃ m, u' = u ++ t :: m ∧ v = m ++ t' :: v') ∨ ∃ m, u = u' ++ t' :: m ∧ v' = m ++ t :: v := by
  rcases List.append_eq_append_iff.1 h with ⟨a, h1, h2⟩ | ⟨a, h1, h2⟩
  · cases a with
    | nil =>
      simp only [List.nil_append, List.cons.injEq] at h2
      exact Or.inl ⟨by simpa using h1.symm, h2.1, h2.2⟩
    | cons y a =>
      simp only [List.cons_append, List.cons.injEq] at h2
      obtain ⟨rfl, rfl⟩ := h2
      exact Or.inr (Or.inl ⟨a, h1, rfl⟩)
  · cases a with
    | nil =>
      simp only [List.nil_append, List.cons.injEq] at h2
      exact Or.inl ⟨by simpa using h1, h2.1.symm, h2.2.symm⟩
    | cons y a =>
      simp only [List.cons_append, List.cons.injEq] at h2
      obtain ⟨rfl, rfl⟩ := h2
      exact Or.inr (Or.inr ⟨a, h1, rfl⟩)

/-- There is one token to blame. -/
theorem disordered_unique {ts : List (Tok Sym Name)} {t t' : Tok Sym Name} (h : Disordered ts t) (h' : Disordered ts t') :
    t = t' := by
  have long : ∀ {u v : List (Tok Sym Name)} {t : Tok Sym Name}, BeginsConstraint (u ++ t :: v) → BeginsConstraint (u ++ [t]) := by
    intro u v t h
    exact begins_prefix (v := v) (by simpa using h)
  have tail : ∀ {u v w : List (Tok Sym Name)} {t t' : Tok Sym Name}, u ++ [t] = w ++ t' :: v → IsConstraint v →
      ¬ (t.kind = .lparen ∨ ∃ o ∉ atomic, t.kind = .sym o) := by
    rintro u v w t t' he ⟨c, hc, rfl⟩ hk
    have h1 : (w ++ t' :: c.flatten).getLast? = some c.last := by
      rw [List.getLast?_append, List.getLast?_cons_of_ne_nil (flatten_ne_nil c), last_flatten]
      rfl
    rw [← he] at h1
    simp only [List.getLast?_concat, Option.some.injEq] at h1
    subst h1
    rcases last_token hc with hl | ⟨s, hl, ha⟩
    · simp [hl] at hk
    · rw [hl] at hk
      simp only [reduceCtorEq, Kind.sym.injEq, false_or] at hk
      obtain ⟨o, ho, rfl⟩ := hk
      exact ho (by simpa [mkTable] using ha)
  have inner : ∀ {m v : List (Tok Sym Name)} {t : Tok Sym Name}, IsConstraint (m ++ t :: v) → IsConstraint v →
      t.kind = .lparen → False := by
    rintro m v t ⟨c, hc, hf⟩ ⟨d, hd, rfl⟩ hk
    have h1 := (excess_flatten hc).2 _ _ hf
    have h2 := (excess_flatten hd).1
    simp [excess, hk, h2] at h1
  generalize hts : ts = ts2 at h'
  cases h with
  | misplaced u t v h1 h2 =>
    cases h' with
    | misplaced u' _ v' h1' h2' =>
      rcases split_or hts with ⟨-, h, -⟩ | ⟨m, rfl, -⟩ | ⟨m, rfl, -⟩
      · exact h
      · exact absurd (long h1') h2
      · exact absurd (long h1) h2'
    | unfinished u' _ h1' h2' h3' =>
      rw [← hts] at h1'
      exact absurd (long h1') h2
    | «open» u' _ v' h1' h2' h3' h4' =>
      rw [← hts] at h1'
      exact absurd (long h1') h2
  | unfinished u t h1 h2 h3 =>
    cases h' with
    | misplaced u' _ v' h1' h2' =>
      rw [hts] at h1
      exact absurd (long h1) h2'
    | unfinished u' _ h1' h2' h3' => simpa using (List.append_inj' hts rfl).2
    | «open» u' _ v' h1' h2' h3' h4' => exact absurd h3 (tail hts h4')
  | «open» u t v h1 h2 h3 h4 =>
    cases h' with
    | misplaced u' _ v' h1' h2' =>
      rw [hts] at h1
      exact absurd (long h1) h2'
    | unfinished u' _ h1' h2' h3' => exact absurd h3' (tail hts.symm h4)
    | «open» u' _ v' h1' h2' h3' h4' =>
      rcases split_or hts with ⟨-, h, -⟩ | ⟨m, rfl, rfl⟩ | ⟨m, rfl, rfl⟩
      · exact h
      · exact (inner h4 h4' h3').elim
      · exact (inner h4' h4 h3).elim

theorem frame_last {f : Frame Sym Name} (h : f.WF ctable) :
    f.op.token.kind = .lparen ∨ ∃ o ∉ atomic, f.op.token.kind = .sym o := by
  cases f with
  | paren t => exact Or.inl h
  | un t p =>
    obtain ⟨s, hs, hu⟩ := h
    refine Or.inr ⟨s, ?_, hs⟩
    cases s <;> first | decide | (simp [mkTable, lookupOp, ops] at hu)
  | bin l t p =>
    obtain ⟨⟨s, hs, hu⟩, -⟩ := h
    refine Or.inr ⟨s, ?_, hs⟩
    cases s <;> first | decide | (simp [mkTable, lookupOp, ops] at hu)

/-- The parser fails at the token to blame, or because there are no tokens. -/
theorem parse_error_blames {toks : List (Tok Sym Name)} {x : LErr} (h : parseAt ctable ⟨toks, none⟩ = .error x) :
    (toks = [] ∧ x = (.indexError, none)) ∨ ∃ t, Disordered toks t ∧ x = (.patsyError, some t.origin) := by
  have hnot : ¬ IsConstraint toks := by
    rintro ⟨c, hc, rfl⟩
    rw [parseAt_ok ctable_ok c hc] at h
    simp at h
  unfold parseAt at h
  rcases runAt_spec ctable_ok (Patsy.Located.Inv.init ctable) toks with ⟨s, h1, h2, h3⟩ | ⟨a, t, b, s, h1, h2, h3, h4, h5⟩
  · simp only [h1, List.nil_append] at h h3
    have hbeg := begins_of_run h3
    cases h3 with
    | want fs g1 g2 =>
      cases fs with
      | nil =>
        simp only [framesToks, List.reverse_nil, List.flatMap_nil] at g2
        simp only [finishAt, if_true, framesOps, List.map_nil, Except.error.injEq] at h
        exact Or.inl ⟨g2.symm, h.symm⟩
      | cons f fs =>
        simp only [finishAt, if_true, framesOps, List.map_cons, Except.error.injEq] at h
        have hlast : toks = (framesToks fs ++ f.toks.dropLast) ++ [f.op.token] := by
          rw [← g2, framesToks_cons]
          cases f <;> simp [Frame.toks, Frame.op, StackOp.token]
        refine Or.inr ⟨f.op.token, ?_, h.symm⟩
        rw [hlast] at hbeg hnot ⊢
        exact .unfinished _ _ hbeg hnot (frame_last g1.1)
    | have_ fs c g1 g2 g3 g4 =>
      simp only [finishAt, Bool.false_eq_true, if_false] at h
      rcases runAllAt_spec fs c g1 g2 with ⟨c', k1, k2, k3⟩ | ⟨t, fs', c', k1, k2, k3, k4⟩
      · rw [k1] at h
        simp at h
      · rw [k1] at h
        simp only [Except.error.injEq] at h
        refine Or.inr ⟨t, ?_, h.symm⟩
        rw [k4] at g4
        rw [← g4] at hbeg hnot ⊢
        exact .open _ _ _ hbeg hnot k2 ⟨c', k3, rfl⟩
  · simp only [h5, Except.error.injEq] at h
    refine Or.inr ⟨t, ?_, h.symm⟩
    rw [h1]
    exact .misplaced _ _ _ (begins_of_run (by simpa using h3)) (not_begins_of_failure h2 h4)

theorem disordered_not {toks : List (Tok Sym Name)} {t : Tok Sym Name} (h : Disordered toks t) :
    ¬ IsConstraint toks ∧ toks ≠ [] := by
  cases h with
  | misplaced u t v h1 h2 =>
    refine ⟨fun hc => h2 ⟨v, by simpa using hc⟩, by simp⟩
  | unfinished u t h1 h2 h3 => exact ⟨h2, by simp⟩
  | «open» u t v h1 h2 h3 h4 => exact ⟨h2, by simp⟩

theorem parseAt_spells {toks : List (Tok Sym Name)} {n : Node Sym Name} (h : parseAt ctable ⟨toks, none⟩ = .ok n) :
    ∃ d : Cst Sym Name, d.WF ctable ∧ d.flatten = toks ∧ n = toNode d := by
  unfold parseAt at h
  rcases runAt_spec ctable_ok (Patsy.Located.Inv.init ctable) toks with ⟨s, h1, h2, h3⟩ | ⟨a, t, b, s, h1, h2, h3, h4, h5⟩
  · simp only [h1, List.nil_append] at h h3
    cases h3 with
    | want fs g1 g2 =>
      cases fs <;> simp [finishAt, framesOps] at h
    | have_ fs c g1 g2 g3 g4 =>
      simp only [finishAt, Bool.false_eq_true, if_false] at h
      rcases runAllAt_spec fs c g1 g2 with ⟨c', k1, k2, k3⟩ | ⟨t, fs', c', k1, k2, k3, k4⟩
      · rw [k1] at h
        simp only [Except.ok.injEq] at h
        exact ⟨c', k2, by rw [k3, g4], h.symm⟩
      · rw [k1] at h
        simp at h
  · simp [h5] at h

theorem parse_blames_iff {toks : List (Tok Sym Name)} {t : Tok Sym Name} (h : Disordered toks t) :
    parseAt ctable ⟨toks, none⟩ = .error (.patsyError, some t.origin) := by
  obtain ⟨h1, h2⟩ := disordered_not h
  cases hp : parseAt ctable ⟨toks, none⟩ with
  | ok n =>
    obtain ⟨d, hd, hf, -⟩ := parseAt_spells hp
    exact absurd ⟨d, hd, hf⟩ h1
  | error x =>
    rcases parse_error_blames hp with ⟨h3, -⟩ | ⟨t', h3, rfl⟩
    · exact absurd h3 h2
    · rw [disordered_unique h h3]

/-! ### The theorems -/

theorem lexed_unique {names : List Name} (hn : names ≠ []) {s : List Char} {ts us : List (Tok Sym Name)}
    (h : Lexed names 0 s ts) (h' : Lexed names 0 s us) : ts = us := by
  rw [← tokenizeAt_ok_iff hn] at h h'
  rw [h] at h'
  simpa using h'

/-- **C63**.  An error in the text of a constraint is a `PatsyError`, and its origin is the stretch of text to blame, except
that a text without words crashes and that a division by zero is not noticed (in the model it is an error of its own). -/
theorem constraint_error_position {names : List Name} (hn : names ≠ []) (hnd : names.Nodup) {num : Name → K} {s : List Char}
    {x : LErr} (h : constraintOfStringAt names num s = .error x) :
    (∃ o, x = (.patsyError, some o) ∧ WrongText names num s o) ∨ (x = (.indexError, none) ∧ Lexed names 0 s []) ∨
      x = (.zeroDivisionError, none) := by
  rw [constraintOfStringAt, bind_errorAt] at h
  rcases h with h | ⟨n, h1, h⟩
  · rw [parseTextAt, bind_errorAt] at h
    rcases h with h | ⟨toks, ht, h⟩
    · obtain ⟨p, hp, rfl⟩ := (tokenizeAt_error_iff hn s x).1 h
      exact Or.inl ⟨_, rfl, .character hp⟩
    · rw [tokenizeAt_ok_iff hn] at ht
      rcases parse_error_blames h with ⟨rfl, rfl⟩ | ⟨t, hd, rfl⟩
      · exact Or.inr (Or.inl ⟨rfl, ht⟩)
      · exact Or.inl ⟨_, rfl, .order ht hd⟩
  · rw [parseTextAt, bind_okAt] at h1
    obtain ⟨toks, ht, h1⟩ := h1
    rw [tokenizeAt_ok_iff hn] at ht
    obtain ⟨d, hd, rfl, rfl⟩ := parseAt_spells h1
    rw [(toNode_eq_locate (lexed_increasing ht).1).1] at h
    have hk : Known names (astOf d.locate) := by
      rw [← (toNode_eq_locate (lexed_increasing ht).1).1, astOf_toNode]
      exact known_of_wf hd (lexed_variables ht)
    rcases con_fault (fun x hx => error_fault hnd _ hk x hx) h with ⟨p, rfl, hf⟩ | rfl
    · exact Or.inl ⟨p, rfl, .meaning ht hd hf⟩
    · exact Or.inr (Or.inr rfl)

/-- **C63** (converse).  Whatever is wrong with a text is reported, at the stretch of text to blame; in particular there is
only one such stretch. -/
theorem constraint_error_found {names : List Name} (hn : names ≠ []) (hnd : names.Nodup) {num : Name → K} {s : List Char}
    {o : Origin} (h : WrongText names num s o) : constraintOfStringAt names num s = .error (.patsyError, some o) := by
  cases h with
  | character h =>
    rw [constraintOfStringAt, parseTextAt, (tokenizeAt_error_iff hn s _).2 ⟨_, h, rfl⟩]
    rfl
  | order h hd =>
    rw [constraintOfStringAt, parseTextAt, (tokenizeAt_ok_iff hn s _).2 h]
    simp only [bind, Except.bind]
    rw [parse_blames_iff hd]
  | @meaning d p h hd hf =>
    rw [constraintOfStringAt, parseTextAt, (tokenizeAt_ok_iff hn s _).2 h]
    simp only [bind, Except.bind]
    rw [parseAt_ok ctable_ok d hd]
    simp only
    rw [(toNode_eq_locate (lexed_increasing h).1).1]
    exact fault_fails hnd hf

theorem erase_runAt {σ ε : Type} (tb : Table σ) (s : State σ ε) (ts : List (Tok σ ε)) :
    erase (runAt tb s ts) = run tb s ts := by
  induction ts generalizing s with
  | nil => rfl
  | cons t ts ih =>
    simp only [runAt, run]
    cases step tb s t with
    | ok s' => exact ih s'
    | error e => cases e <;> rfl

theorem erase_runAllAt {σ ε : Type} (os : List (StackOp σ ε)) (ns : List (Node σ ε)) :
    erase (runAllAt os ns) = runAll os ns := by
  induction os generalizing ns with
  | nil => rfl
  | cons o os ih =>
    cases o with
    | paren t => rfl
    | op n p t =>
      simp only [runAllAt, runAll]
      cases runOp (.op n p t :: os) ns with
      | ok r => exact ih r.2
      | error e => rfl

theorem erase_parseAt {σ ε : Type} (tb : Table σ) (ts : List (Tok σ ε)) :
    erase (parseAt tb ⟨ts, none⟩) = parseWith tb ts := by
  unfold parseAt parseWith
  rw [← erase_runAt]
  cases runAt tb ⟨[], [], true⟩ ts with
  | error e => rfl
  | ok s =>
    simp only [erase_ok, finishAt, finish]
    split
    · cases s.ops <;> rfl
    · rw [← erase_runAllAt]
      cases runAllAt s.ops s.nouns with
      | error e => rfl
      | ok l =>
        simp only [erase_ok]
        split <;> simp_all [erase]

/-- The model with positions and the model of C28 agree. -/
theorem constraint_located_agrees (names : List Name) (num : Name → K) (s : List Char) :
    erase (constraintOfStringAt names num s) = constraintOfString names num s := by
  simp only [constraintOfStringAt, constraintOfString, parseTextAt, parse, erase_bind, erase_con, erase_tokenizeAt,
    erase_parseAt, infixParse, ops_ok]

/-! ### Concrete cases -/

/-- Where an error is reported. -/
def faultAt (names : List String) (s : String) : Option (Err × Option Origin) :=
  match constraintOfStringAt (names.map (·.toList)) sampleNum s.toList with
  | .ok _ => none
  | .error e => some e

/-- An unknown name, a word in a wrong place, an open parenthesis, an unfinished text, a product of variables, a quotient by
a variable, an equation whose variables cancel, an equation in the place of a number, a number in the place of a constraint,
and a proper text. -/
theorem constraint_positions_sample :
    faultAt ["a", "b"] "a + q = 1" = some (.patsyError, some ⟨4, 5⟩) ∧
    faultAt ["a", "b"] "a + * b" = some (.patsyError, some ⟨4, 5⟩) ∧
    faultAt ["a", "b"] "2 * (a + b" = some (.patsyError, some ⟨4, 5⟩) ∧
    faultAt ["a", "b"] "a + b -" = some (.patsyError, some ⟨6, 7⟩) ∧
    faultAt ["a", "b"] "1 + (2 * a) * b = 3" = some (.patsyError, some ⟨4, 15⟩) ∧
    faultAt ["a", "b"] "3 / (a + b) = 1" = some (.patsyError, some ⟨4, 11⟩) ∧
    faultAt ["a", "b"] "a = 1, b + 1 = b" = some (.patsyError, some ⟨7, 16⟩) ∧
    faultAt ["a", "b"] "1 + (a = b)" = some (.patsyError, some ⟨4, 11⟩) ∧
    faultAt ["a", "b"] "a = b, 3" = some (.patsyError, some ⟨7, 8⟩) ∧
    faultAt ["a", "b"] "a = 1 = b" = none := by decide +kernel

/-- The hypotheses of `constraint_error_position` and `constraint_error_found` are met. -/
example : ∃ o, WrongText ["a".toList, "b".toList] sampleNum "1 + (2 * a) * b = 3".toList o := by
  have h : constraintOfStringAt ["a".toList, "b".toList] sampleNum "1 + (2 * a) * b = 3".toList =
      .error (.patsyError, some ⟨4, 15⟩) := by
    have := constraint_positions_sample.2.2.2.2.1
    simp only [faultAt, List.map_cons, List.map_nil] at this
    split at this
    · simp at this
    · rename_i e he
      simp only [Option.some.injEq] at this
      rw [he, this]
  rcases constraint_error_position (by simp) (by decide) h with ⟨o, _, ho⟩ | ⟨h, _⟩ | h
  · exact ⟨o, ho⟩
  · simp at h
  · simp at h

end Patsy.Props
