import Verif.Lemmas.Infix
import Verif.Model.FormulaOps

/-!
# C05, C06, C07: the parser

The grammar is `Patsy.Spec.Cst` (concrete trees), their token sequence
(`flatten`), and well-formedness (`WF`).
-/

namespace Patsy.Props

open Patsy.Infix Patsy.Spec

variable {σ ε : Type} [DecidableEq σ]

/-- **C05** (soundness, completeness).  For every token sequence and every legal
operator table the parser returns a tree with meaning `a` iff some well-formed
concrete tree spells the tokens and has meaning `a`. -/
theorem parse_iff_grammar (ops : List (Operator σ)) (atoms : List σ)
    (hops : checkOps ops = .ok ()) (ts : List (Tok σ ε)) (a : Ast σ ε) :
    (∃ n, infixParse ts ops atoms = .ok n ∧ astOf n = a) ↔
      ∃ c : Cst σ ε, c.WF (mkTable ops atoms) ∧ c.flatten = ts ∧ c.toAst = a := by
  have htb := tableOk_of_checkOps hops atoms
  unfold infixParse
  rw [hops]
  constructor
  · rintro ⟨n, hn, rfl⟩
    rcases parseWith_spec htb ts with ⟨_, h⟩ | ⟨_, h⟩ | ⟨c, h1, h2, h3⟩
    · simp [h] at hn
    · simp [h] at hn
    · simp only [h1, Except.ok.injEq] at hn
      subst hn
      exact ⟨c, h2, h3, (astOf_toNode c).symm⟩
  · rintro ⟨c, h1, rfl, rfl⟩
    exact ⟨toNode c, parseWith_complete htb c h1, astOf_toNode c⟩

/-- **C05** (the grammar is unambiguous).  Two well-formed concrete trees that spell
the same tokens have the same meaning: precedence and left associativity decide
every expression. -/
theorem grammar_unambiguous (ops : List (Operator σ)) (atoms : List σ)
    (hops : checkOps ops = .ok ()) (c d : Cst σ ε) (hc : c.WF (mkTable ops atoms))
    (hd : d.WF (mkTable ops atoms)) (h : c.flatten = d.flatten) : c.toAst = d.toAst := by
  have htb := tableOk_of_checkOps hops atoms
  have h1 := parseWith_complete htb c hc
  have h2 := parseWith_complete htb d hd
  rw [h, h2] at h1
  rw [← astOf_toNode c, ← astOf_toNode d]
  simp only [Except.ok.injEq] at h1
  rw [h1]

/-- **C06**.  On a non-empty token sequence the outcome is a tree or `PatsyError`,
and it is `PatsyError` exactly when the grammar does not generate the sequence. -/
theorem parse_total (ops : List (Operator σ)) (atoms : List σ)
    (hops : checkOps ops = .ok ()) (ts : List (Tok σ ε)) (hne : ts ≠ []) :
    (∃ n, infixParse ts ops atoms = .ok n) ∨
      (infixParse ts ops atoms = .error .patsyError ∧
        ¬ ∃ c : Cst σ ε, c.WF (mkTable ops atoms) ∧ c.flatten = ts) := by
  have htb := tableOk_of_checkOps hops atoms
  unfold infixParse
  rw [hops]
  rcases parseWith_spec htb ts with ⟨h, _⟩ | ⟨_, h⟩ | ⟨c, h1, _, _⟩
  · exact absurd h hne
  · right
    refine ⟨h, ?_⟩
    rintro ⟨c, hc, rfl⟩
    have := parseWith_complete htb c hc
    simp [h] at this
  · exact Or.inl ⟨_, h1⟩

/-- **C06** (the exception).  The empty token sequence is an `IndexError`, for every
operator table. -/
theorem parse_empty_crashes (ops : List (Operator σ)) (atoms : List σ)
    (hops : checkOps ops = .ok ()) :
    infixParse ([] : List (Tok σ ε)) ops atoms = .error .indexError := by
  unfold infixParse
  rw [hops]
  rfl

/-- **C07**.  If the tokens are in source order, the result of a parse is a
well-formed concrete tree in which every node is annotated with exactly the stretch
of text from its first to its last token, parentheses included. -/
theorem parse_positions (ops : List (Operator σ)) (atoms : List σ)
    (ts : List (Tok σ ε)) (n : Node σ ε) (hinc : Increasing ts)
    (h : infixParse ts ops atoms = .ok n) :
    ∃ c : Cst σ ε, c.WF (mkTable ops atoms) ∧ c.flatten = ts ∧ n = c.locate ∧
      n.origin = c.span := by
  unfold infixParse at h
  cases hops : checkOps ops with
  | error e => simp [hops] at h
  | ok u =>
    rw [hops] at h
    have htb := tableOk_of_checkOps hops atoms
    rcases parseWith_spec htb ts with ⟨_, h'⟩ | ⟨_, h'⟩ | ⟨c, h1, h2, h3⟩
    · simp [h'] at h
    · simp [h'] at h
    · simp only [h1, Except.ok.injEq] at h
      subst h
      subst h3
      obtain ⟨e1, e2⟩ := toNode_eq_locate hinc
      exact ⟨c, h2, rfl, e1, e2⟩

omit [DecidableEq σ] in
/-- **C07** (`span` is what it says): the first and the last token of a tree are the
first and the last token it spells. -/
theorem span_spec (c : Cst σ ε) :
    c.flatten.head? = some c.first ∧ c.flatten.getLast? = some c.last :=
  ⟨head_flatten c, last_flatten c⟩

/-- Every argument's origin lies inside the origin of its parent. -/
def Nested : Node σ ε → Prop
  | .atom t o => t.origin = o ∨ (o.start ≤ t.origin.start ∧ t.origin.stop ≤ o.stop)
  | .unary t a o => Nested a ∧ o.start ≤ a.origin.start ∧ a.origin.stop ≤ o.stop ∧
      o.start ≤ t.origin.start ∧ t.origin.stop ≤ o.stop
  | .binary t a b o => Nested a ∧ Nested b ∧ o.start ≤ a.origin.start ∧ b.origin.stop ≤ o.stop ∧
      a.origin.stop ≤ t.origin.start ∧ t.origin.stop ≤ b.origin.start

omit [DecidableEq σ] in
theorem nested_locate (c : Cst σ ε) (h : Increasing c.flatten) : Nested c.locate := by
  induction c with
  | atom t => exact Or.inl rfl
  | paren l c r ih =>
    have h1 := Increasing.append (ts := l :: c.flatten) (us := [r]) (by simpa [Cst.flatten] using h)
    have h0 := Increasing.append (ts := [l]) (us := c.flatten) h1.1
    have ih := ih h0.2.1
    have h2 := h0.2.2 l (by simp) _ (first_mem c)
    have h3 := h1.2.2 _ (List.mem_cons_of_mem l (last_mem c)) r (by simp)
    have h5 : l.origin.start ≤ l.origin.stop := h0.1
    have h6 : r.origin.start ≤ r.origin.stop := h1.2.1
    have h7 := (toNode_eq_locate h0.2.1)
    rw [h7.1] at h7
    have h8 := h7.2
    simp only [Cst.locate]
    have hs : (Cst.paren l c r).span.start ≤ c.span.start ∧ c.span.stop ≤ (Cst.paren l c r).span.stop := by
      simp only [Cst.span, Cst.first, Cst.last]; omega
    cases hc : c.locate with
    | atom t o =>
      rw [hc] at ih h8
      simp only [Node.origin] at h8
      subst h8
      right
      rcases ih with ih | ih
      · rw [ih]; exact hs
      · exact ⟨by omega, by omega⟩
    | unary t a o =>
      rw [hc] at ih h8
      simp only [Node.origin] at h8
      subst h8
      obtain ⟨g1, g2, g3, g4, g5⟩ := ih
      exact ⟨g1, by omega, by omega, by omega, by omega⟩
    | binary t a b o =>
      rw [hc] at ih h8
      simp only [Node.origin] at h8
      subst h8
      obtain ⟨g1, g2, g3, g4, g5, g6⟩ := ih
      exact ⟨g1, g2, by omega, by omega, g5, g6⟩
  | un t p c ih =>
    have h1 := Increasing.append (ts := [t]) (us := c.flatten) (by simpa [Cst.flatten] using h)
    have h7 := (toNode_eq_locate h1.2.1)
    rw [h7.1] at h7
    have h8 := h7.2
    have h2 := h1.2.2 t (by simp) _ (first_mem c)
    have h3 : t.origin.start ≤ t.origin.stop := h1.1
    have h4 := first_start_le_last_stop h1.2.1
    refine ⟨ih h1.2.1, ?_, ?_, ?_, ?_⟩ <;>
      (try rw [h8]) <;> simp only [Cst.span, Cst.first, Cst.last] <;> omega
  | bin l t p r ihl ihr =>
    have h1 := Increasing.append (ts := l.flatten) (us := t :: r.flatten) (by simpa [Cst.flatten] using h)
    have h2 := Increasing.append (ts := [t]) (us := r.flatten) h1.2.1
    have i := (toNode_eq_locate h1.1)
    rw [i.1] at i
    have j := (toNode_eq_locate h2.2.1)
    rw [j.1] at j
    have h3 := h2.2.2 t (by simp) _ (first_mem r)
    have h4 := h1.2.2 _ (last_mem l) t (by simp)
    refine ⟨ihl h1.1, ihr h2.2.1, ?_, ?_, ?_, ?_⟩ <;>
      (try rw [i.2]) <;> (try rw [j.2]) <;> simp only [Cst.span, Cst.first, Cst.last] <;> omega

/-- **C07** (nesting).  Spans of arguments lie inside the span of the parent, and in a
binary node left operand, operator and right operand follow each other. -/
theorem parse_positions_nested (ops : List (Operator σ)) (atoms : List σ)
    (ts : List (Tok σ ε)) (n : Node σ ε) (hinc : Increasing ts)
    (h : infixParse ts ops atoms = .ok n) : Nested n := by
  obtain ⟨c, _, rfl, rfl, _⟩ := parse_positions ops atoms ts n hinc h
  exact nested_locate c hinc

/-! ### Concrete cases: `a + b * (c + d) ** e` in the formula language -/

section Examples

open Patsy.Formula

/-- Build tokens of one-character width, two apart. -/
def exToks : Nat → List (Kind String) → List (Tok String Unit)
  | _, [] => []
  | i, k :: ks => ⟨k, ⟨i, i + 1⟩, ()⟩ :: exToks (i + 2) ks

/-- `a + b * (c + d) ** e`, with every operand an embedded Python expression. -/
def exFormula : List (Tok String Unit) :=
  exToks 0 [.sym "PYTHON_EXPR", .sym "+", .sym "PYTHON_EXPR", .sym "*", .lparen,
    .sym "PYTHON_EXPR", .sym "+", .sym "PYTHON_EXPR", .rparen, .sym "**", .sym "PYTHON_EXPR"]

theorem defaultOps_ok : checkOps defaultOps = .ok () := rfl

/-- The formula parses (the left side of `parse_iff_grammar` is inhabited) and its
top node is the `+` at position 2, spanning everything; the parenthesised `+` has the
span of its parentheses. -/
example : ∃ n, infixParse exFormula defaultOps atomicTokenTypes = .ok n ∧
    n.token.origin = ⟨2, 3⟩ ∧ n.origin = ⟨0, 21⟩ :=
  ⟨.binary ⟨.sym "+", ⟨2, 3⟩, ()⟩ (.atom ⟨.sym "PYTHON_EXPR", ⟨0, 1⟩, ()⟩ ⟨0, 1⟩)
    (.binary ⟨.sym "*", ⟨6, 7⟩, ()⟩ (.atom ⟨.sym "PYTHON_EXPR", ⟨4, 5⟩, ()⟩ ⟨4, 5⟩)
      (.binary ⟨.sym "**", ⟨18, 19⟩, ()⟩
        (.binary ⟨.sym "+", ⟨12, 13⟩, ()⟩ (.atom ⟨.sym "PYTHON_EXPR", ⟨10, 11⟩, ()⟩ ⟨10, 11⟩)
          (.atom ⟨.sym "PYTHON_EXPR", ⟨14, 15⟩, ()⟩ ⟨14, 15⟩) ⟨8, 17⟩)
        (.atom ⟨.sym "PYTHON_EXPR", ⟨20, 21⟩, ()⟩ ⟨20, 21⟩) ⟨8, 21⟩) ⟨4, 21⟩) ⟨0, 21⟩,
    eq_ok_of_okIs (by decide +kernel), rfl, rfl⟩

/-- Its tokens are in source order (hypothesis of C07). -/
example : Increasing exFormula := by
  simp [exFormula, exToks, Increasing]

/-- A well-formed concrete tree for the table: `a - b - c` associates to the left. -/
example : (Cst.bin (.bin (.atom ⟨.sym "PYTHON_EXPR", ⟨0, 1⟩, ()⟩) ⟨.sym "-", ⟨2, 3⟩, ()⟩ 100
      (.atom ⟨.sym "PYTHON_EXPR", ⟨4, 5⟩, ()⟩)) ⟨.sym "-", ⟨6, 7⟩, ()⟩ 100
      (.atom ⟨.sym "PYTHON_EXPR", ⟨8, 9⟩, ()⟩)).WF (mkTable defaultOps atomicTokenTypes) := by
  refine ⟨⟨_, rfl, by decide +kernel⟩, ⟨⟨_, rfl, by decide +kernel⟩, ⟨_, rfl, by decide +kernel, by decide +kernel⟩,
    ⟨_, rfl, by decide +kernel, by decide +kernel⟩, by simp [Cst.rightEdge], by simp [Cst.leftEdge]⟩,
    ⟨_, rfl, by decide +kernel, by decide +kernel⟩, by simp [Cst.rightEdge], by simp [Cst.leftEdge]⟩

/-- ... while `a - (b - c)` without its parentheses is not well formed. -/
example : ¬ (Cst.bin (.atom ⟨.sym "PYTHON_EXPR", ⟨0, 1⟩, ()⟩) ⟨.sym "-", ⟨2, 3⟩, ()⟩ 100
      (.bin (.atom ⟨.sym "PYTHON_EXPR", ⟨4, 5⟩, ()⟩) ⟨.sym "-", ⟨6, 7⟩, ()⟩ 100
      (.atom ⟨.sym "PYTHON_EXPR", ⟨8, 9⟩, ()⟩))).WF (mkTable defaultOps atomicTokenTypes) := by
  rintro ⟨_, _, _, _, h⟩
  simp [Cst.leftEdge] at h

/-- A malformed input: `a + ) b` is a `PatsyError`. -/
example : infixParse (exToks 0 [.sym "PYTHON_EXPR", .sym "+", .rparen, .sym "PYTHON_EXPR"])
    defaultOps atomicTokenTypes = .error .patsyError := by
  rcases parse_total defaultOps atomicTokenTypes defaultOps_ok
    (exToks 0 [.sym "PYTHON_EXPR", .sym "+", .rparen, .sym "PYTHON_EXPR"]) (by simp [exToks]) with ⟨n, h⟩ | h
  · rfl
  · exact h.1

end Examples

end Patsy.Props
