import Verif.Model.Pushback

/-!
# C82: looking ahead does not change the sequence of tokens
-/

namespace Patsy.Spec

/-- What can be done with a `PushbackAdapter`. -/
inductive LookOp (A : Type) where
  | next
  | peek
  | hasMore
  | pushBack (x : A)

/-- What is observed: the next element, if any; whether there is one; nothing. -/
inductive Seen (A : Type) where
  | item (x : Option A)
  | more (b : Bool)
  | done
  deriving DecidableEq

/-- What should be observed for a sequence of elements still to come. -/
def observe {A : Type} : List A → List (LookOp A) → List (Seen A)
  | _, [] => []
  | l, .next :: os => .item l.head? :: observe l.tail os
  | l, .peek :: os => .item l.head? :: observe l os
  | l, .hasMore :: os => .more (!l.isEmpty) :: observe l os
  | l, .pushBack x :: os => .done :: observe (x :: l) os

end Patsy.Spec

namespace Patsy.Pushback

open Patsy.Spec Patsy.Tokens

variable {A : Type}

/-- The elements still to come. -/
def Adapter.rest (a : Adapter A) : List A := a.pushed ++ a.it

theorem next_none {a : Adapter A} (h : a.rest = []) : a.next = none := by
  obtain ⟨p, i⟩ := a
  simp only [Adapter.rest, List.append_eq_nil_iff] at h
  obtain ⟨rfl, rfl⟩ := h
  rfl

theorem next_some {a : Adapter A} {x : A} {l : List A} (h : a.rest = x :: l) :
    ∃ a', a.next = some (x, a') ∧ a'.rest = l := by
  obtain ⟨p, i⟩ := a
  cases p with
  | cons y p =>
    simp only [Adapter.rest, List.cons_append, List.cons.injEq] at h
    obtain ⟨rfl, rfl⟩ := h
    exact ⟨_, rfl, rfl⟩
  | nil =>
    simp only [Adapter.rest, List.nil_append] at h
    subst h
    exact ⟨_, rfl, rfl⟩

theorem rest_pushBack (a : Adapter A) (x : A) : (a.pushBack x).rest = x :: a.rest := rfl

theorem peek_none {a : Adapter A} (h : a.rest = []) : a.peek = .error .valueError := by
  rw [Adapter.peek, next_none h]

theorem peek_some {a : Adapter A} {x : A} {l : List A} (h : a.rest = x :: l) :
    ∃ a', a.peek = .ok (x, a') ∧ a'.rest = x :: l := by
  obtain ⟨a', h1, h2⟩ := next_some h
  exact ⟨a'.pushBack x, by rw [Adapter.peek, h1], by rw [rest_pushBack, h2]⟩

theorem hasMore_eq (a : Adapter A) : a.hasMore.1 = !a.rest.isEmpty ∧ a.hasMore.2.rest = a.rest := by
  cases h : a.rest with
  | nil =>
    rw [Adapter.hasMore, peek_none h]
    exact ⟨rfl, h⟩
  | cons x l =>
    obtain ⟨a', h1, h2⟩ := peek_some h
    rw [Adapter.hasMore, h1]
    exact ⟨rfl, h2⟩

/-- Do what is asked, one thing after the other. -/
def run : Adapter A → List (LookOp A) → List (Seen A)
  | _, [] => []
  | a, .next :: os =>
    match a.next with
    | none => .item none :: run a os
    | some (x, a') => .item (some x) :: run a' os
  | a, .peek :: os =>
    match a.peek with
    | .error _ => .item none :: run a os
    | .ok (x, a') => .item (some x) :: run a' os
  | a, .hasMore :: os => .more a.hasMore.1 :: run a.hasMore.2 os
  | a, .pushBack x :: os => .done :: run (a.pushBack x) os

theorem run_observe (a : Adapter A) (os : List (LookOp A)) : run a os = observe a.rest os := by
  induction os generalizing a with
  | nil => rfl
  | cons o os ih =>
    cases o with
    | next =>
      cases h : a.rest with
      | nil => rw [run, next_none h, observe]; simp only [ih, h]; rfl
      | cons x l =>
        obtain ⟨a', h1, h2⟩ := next_some h
        rw [run, h1, observe]
        simp only [ih, h2]
        rfl
    | peek =>
      cases h : a.rest with
      | nil => rw [run, peek_none h, observe]; simp only [ih, h]; rfl
      | cons x l =>
        obtain ⟨a', h1, h2⟩ := peek_some h
        rw [run, h1, observe]
        simp only [ih, h2]
        rfl
    | hasMore =>
      rw [run, observe, ih, (hasMore_eq a).1, (hasMore_eq a).2]
    | pushBack x =>
      rw [run, observe, ih, rest_pushBack]

/-! ### The loops -/

theorem readLoop_eq (ends : List String) (fuel lvl : Nat) (a : Adapter PyTok) (hf : a.rest.length ≤ fuel) :
    match Tokens.readLoop ends lvl a.rest with
    | .error e => readLoop ends fuel lvl a = .error e
    | .ok (e, l, n) => ∃ a', readLoop ends fuel lvl a = .ok (e, a', n) ∧ a'.rest = l := by
  induction fuel generalizing lvl a with
  | zero =>
    have h : a.rest = [] := List.length_eq_zero_iff.mp (by omega)
    rw [h]
    exact ⟨a, rfl, h⟩
  | succ fuel ih =>
    cases h : a.rest with
    | nil =>
      refine ⟨a, ?_, h⟩
      rw [readLoop, next_none h]
    | cons t l =>
      obtain ⟨a', h1, h2⟩ := next_some h
      rw [Tokens.readLoop, readLoop, h1]
      simp only
      by_cases hc : lvl = 0 ∧ t.str ∈ ends
      · rw [if_pos hc, if_pos hc]
        exact ⟨_, rfl, by rw [rest_pushBack, h2]⟩
      · rw [if_neg hc, if_neg hc]
        cases hb : bracketLevel lvl t.str with
        | none => rfl
        | some lvl' =>
          simp only
          have := ih lvl' a' (by rw [h, List.length_cons] at hf; rw [h2]; omega)
          rw [h2] at this
          cases hr : Tokens.readLoop ends lvl' l with
          | error e =>
            rw [hr] at this
            simp only at this ⊢
            rw [this]
          | ok r =>
            obtain ⟨e, l', n⟩ := r
            rw [hr] at this
            obtain ⟨a'', k1, k2⟩ := this
            simp only
            rw [k1]
            exact ⟨a'', rfl, k2⟩

theorem tokenize_step (isNumber : String → Bool) (ops : List String) (t : PyTok) (l : List PyTok)
    (hc : ¬ (t.str = "(" ∨ t.str = ")" ∨ t.str ∈ ops)) : Tokens.tokenizeLoop isNumber ops (t :: l) =
      match Tokens.readLoop (")" :: ops) 0 (t :: l) with
      | .error e => .error e
      | .ok (e, rest, lvl) =>
        match finishExpr isNumber e lvl with
        | .error e => .error e
        | .ok tok =>
          match Tokens.tokenizeLoop isNumber ops rest with
          | .ok r => .ok (tok :: r)
          | .error e => .error e := by
  rw [Tokens.tokenizeLoop, dif_neg hc]
  split
  · rename_i h
    simp only [h]
  · rename_i e rest lvl h
    simp only [h]
    cases finishExpr isNumber e lvl with
    | error e => rfl
    | ok tok =>
      simp only
      cases Tokens.tokenizeLoop isNumber ops rest <;> rfl

theorem tokenizeLoop_eq (isNumber : String → Bool) (ops : List String) (fuel : Nat) (a : Adapter PyTok)
    (hf : a.rest.length ≤ fuel) : tokenizeLoop isNumber ops fuel a = Tokens.tokenizeLoop isNumber ops a.rest := by
  induction fuel generalizing a with
  | zero =>
    have h : a.rest = [] := List.length_eq_zero_iff.mp (by omega)
    rw [h, Tokens.tokenizeLoop, tokenizeLoop]
  | succ fuel ih =>
    cases h : a.rest with
    | nil => rw [tokenizeLoop, next_none h, Tokens.tokenizeLoop]
    | cons t l =>
      obtain ⟨a', h1, h2⟩ := next_some h
      have hl : l.length ≤ fuel := by
        rw [h, List.length_cons] at hf
        omega
      rw [tokenizeLoop, h1]
      simp only
      by_cases hc : t.str = "(" ∨ t.str = ")" ∨ t.str ∈ ops
      · rw [if_pos hc, Tokens.tokenizeLoop, dif_pos hc, ih a' (by rw [h2]; exact hl), h2]
        cases Tokens.tokenizeLoop isNumber ops l <;> rfl
      · rw [if_neg hc, tokenize_step isNumber ops t l hc]
        have hr := readLoop_eq (")" :: ops) (fuel + 1) 0 (a'.pushBack t) (by
          rw [rest_pushBack, h2, List.length_cons]
          omega)
        rw [rest_pushBack, h2] at hr
        cases he : Tokens.readLoop (")" :: ops) 0 (t :: l) with
        | error e =>
          rw [he] at hr
          simp only at hr
          rw [hr]
        | ok r =>
          obtain ⟨e, l', n⟩ := r
          rw [he] at hr
          obtain ⟨a'', k1, k2⟩ := hr
          rw [k1]
          simp only
          have hlen : l'.length ≤ fuel := by
            have := readLoop_consumes (t := t) (ts := l) (by
              rw [List.mem_cons]
              exact fun hm => hc (Or.inr hm)) he
            rw [List.length_cons] at this
            omega
          rw [ih a'' (by rw [k2]; exact hlen), k2]
          cases finishExpr isNumber e n with
          | error e => rfl
          | ok tok =>
            simp only
            cases Tokens.tokenizeLoop isNumber ops l' <;> rfl

/-- The annotations on a plain list (`bareRef` and `bareFuncall` of `Model/EvalFactor.lean`). -/
def annotatedList : Bool → List EvalFactor.Tok → List (EvalFactor.Tok × Bool × Bool)
  | _, [] => []
  | dot, t :: ts => (t, EvalFactor.bareRef dot t, EvalFactor.bareFuncall dot t ts) :: annotatedList (EvalFactor.isDot t) ts

theorem nextIsParen_eq (a : Adapter EvalFactor.Tok) :
    ∃ a', nextIsParen a = .ok (decide (a.rest.head?.map (·.2) = some "("), a') ∧ a'.rest = a.rest := by
  cases h : a.rest with
  | nil =>
    refine ⟨a, ?_, h⟩
    rw [nextIsParen, Adapter.hasMore, peek_none h]
    simp
  | cons x l =>
    obtain ⟨a', h1, h2⟩ := peek_some h
    obtain ⟨a'', h3, h4⟩ := peek_some h2
    refine ⟨a'', ?_, h4⟩
    rw [nextIsParen, Adapter.hasMore, h1]
    simp only
    rw [h3]
    simp

theorem annotated_eq (fuel : Nat) (dot : Bool) (a : Adapter EvalFactor.Tok) (hf : a.rest.length ≤ fuel) :
    annotated fuel dot a = .ok (annotatedList dot a.rest) := by
  induction fuel generalizing dot a with
  | zero =>
    have h : a.rest = [] := List.length_eq_zero_iff.mp (by omega)
    rw [h]
    rfl
  | succ fuel ih =>
    cases h : a.rest with
    | nil => rw [annotated, next_none h]; rfl
    | cons t l =>
      obtain ⟨a', h1, h2⟩ := next_some h
      have hl : l.length ≤ fuel := by
        rw [h, List.length_cons] at hf
        omega
      rw [annotated, h1, annotatedList, EvalFactor.bareFuncall]
      simp only
      cases hb : EvalFactor.bareRef dot t with
      | false =>
        simp only [Bool.false_eq_true, if_false]
        show (do
          let r ← annotated fuel (EvalFactor.isDot t) a'
          pure ((t, false, false) :: r) : Except Err _) = _
        rw [ih _ a' (by rw [h2]; exact hl), h2]
        rfl
      | true =>
        obtain ⟨a'', k1, k2⟩ := nextIsParen_eq a'
        simp only [if_true]
        rw [k1]
        show (do
          let r ← annotated fuel (EvalFactor.isDot t) a''
          pure ((t, true, _) :: r) : Except Err _) = _
        rw [ih _ a'' (by rw [k2, h2]; exact hl), k2, h2]
        simp [pure, Except.pure, bind, Except.bind]

end Patsy.Pushback

namespace Patsy.Props

open Patsy.Pushback Patsy.Spec

/-- **C82**.  Whatever is done with a `PushbackAdapter`, what is observed is what a plain sequence would show on which
`next` takes the first element away, `push_back` puts one in front, and `peek` and `has_more` only look. -/
theorem pushback_sequence {A : Type} (l : List A) (os : List (LookOp A)) : run (Adapter.make l) os = observe l os :=
  run_observe _ os

/-- `test_PushbackAdapter` (util.py:437-451). -/
example : run (Adapter.make [1, 2, 3, 4])
    [.hasMore, .next, .pushBack 0, .next, .next, .peek, .pushBack 10, .peek, .pushBack 20, .peek, .hasMore,
      .next, .next, .next, .next, .hasMore] =
    [.more true, .item (some 1), .done, .item (some 0), .item (some 2), .item (some 3), .done, .item (some 10), .done,
      .item (some 20), .more true, .item (some 20), .item (some 10), .item (some 3), .item (some 4), .more false] := by
  decide

/-- **C82** (formulas).  The tokenizer of formulas, which reads tokens from the object, pushes them back and reads them
again, gives what the model on plain lists gives. -/
theorem tokenizer_refines (isNumber : String → Bool) (ops : List String) (ts : List Patsy.Tokens.PyTok) :
    Patsy.Pushback.tokenizeLoop isNumber ops ts.length (Adapter.make ts) = Patsy.Tokens.tokenizeLoop isNumber ops ts :=
  tokenizeLoop_eq isNumber ops _ (Adapter.make ts) (Nat.le_refl _)

/-- **C82** (code of factors).  `annotated_tokens` gives every token of the code, once and in order; it is called a bare
reference if it is a name not directly after a dot, and a bare call if moreover an opening parenthesis comes next. -/
theorem annotated_tokens_exact (ts : List EvalFactor.Tok) :
    ∃ r, annotated ts.length false (Adapter.make ts) = .ok r ∧ r.map (·.1) = ts ∧
      ∀ (i : Nat) t b c, r[i]? = some (t, b, c) →
        (b = true ↔ t.1 = .name ∧ ∀ s, 0 < i → ts[i - 1]? = some s → s.2 ≠ ".") ∧
        (c = true ↔ b = true ∧ ∃ s, ts[i + 1]? = some s ∧ s.2 = "(") := by
  refine ⟨_, annotated_eq _ false (Adapter.make ts) (Nat.le_refl _), ?_, ?_⟩
  · show (annotatedList false ts).map (·.1) = ts
    generalize false = dot
    induction ts generalizing dot with
    | nil => rfl
    | cons t ts ih => rw [annotatedList, List.map_cons, ih]
  · show ∀ (i : Nat) t b c, (annotatedList false ts)[i]? = some (t, b, c) → _
    have key : ∀ (ts : List EvalFactor.Tok) (dot : Bool) (i : Nat) t b c, (annotatedList dot ts)[i]? = some (t, b, c) →
        (b = true ↔ t.1 = .name ∧ (i = 0 → dot = false) ∧ ∀ s, 0 < i → ts[i - 1]? = some s → s.2 ≠ ".") ∧
        (c = true ↔ b = true ∧ ∃ s, ts[i + 1]? = some s ∧ s.2 = "(") := by
      intro ts
      induction ts with
      | nil => simp [annotatedList]
      | cons u ts ih =>
        intro dot i t b c h
        cases i with
        | zero =>
          simp only [annotatedList, List.getElem?_cons_zero, Option.some.injEq, Prod.mk.injEq] at h
          obtain ⟨rfl, rfl, rfl⟩ := h
          constructor
          · cases dot <;> simp [EvalFactor.bareRef]
          · rw [EvalFactor.bareFuncall]
            cases ts <;> simp
        | succ i =>
          simp only [annotatedList, List.getElem?_cons_succ] at h
          obtain ⟨h1, h2⟩ := ih _ i t b c h
          refine ⟨h1.trans ?_, by simpa using h2⟩
          cases i with
          | zero => simp [EvalFactor.isDot]
          | succ i => simp
    intro i t b c h
    obtain ⟨h1, h2⟩ := key ts false i t b c h
    exact ⟨by simpa using h1, h2⟩

/-- `a(b) + c.d` (`test_annotated_tokens`, eval.py:743-760). -/
example : annotated 9 false (Adapter.make [(.name, "a"), (.op, "("), (.name, "b"), (.op, ")"), (.op, "+"), (.name, "c"),
    (.op, "."), (.name, "d")]) = .ok [((.name, "a"), true, true), ((.op, "("), false, false), ((.name, "b"), true, false),
    ((.op, ")"), false, false), ((.op, "+"), false, false), ((.name, "c"), true, false), ((.op, "."), false, false),
    ((.name, "d"), false, false)] := by
  rfl

end Patsy.Props
