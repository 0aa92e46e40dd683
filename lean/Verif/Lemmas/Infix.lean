import Verif.Spec.Grammar

/-! Helper lemmas for the parser: soundness and completeness of the shunting-yard
loop with respect to the precedence grammar. -/

namespace Patsy.Infix

open Patsy.Spec (Cst Ast astOf)

variable {σ ε : Type}

/-- The node the parser builds for a concrete tree (with the origins it computes). -/
def toNode : Cst σ ε → Node σ ε
  | .atom t => .atom t t.origin
  | .paren l c r =>
    (toNode c).setOrigin (Origin.combine l.origin [(toNode c).token.origin, r.origin])
  | .un t _ c => .unary t (toNode c) (Origin.combine t.origin [(toNode c).origin])
  | .bin l t _ r => .binary t (toNode l) (toNode r)
      (Origin.combine t.origin [(toNode l).origin, (toNode r).origin])

theorem astOf_setOrigin (n : Node σ ε) (o : Origin) : astOf (n.setOrigin o) = astOf n := by
  cases n <;> rfl

theorem astOf_toNode (c : Cst σ ε) : astOf (toNode c) = c.toAst := by
  induction c with
  | atom t => rfl
  | paren l c r ih => simp [toNode, astOf_setOrigin, ih, Cst.toAst]
  | un t p c ih => simp [toNode, astOf, ih, Cst.toAst]
  | bin l t p r ihl ihr => simp [toNode, astOf, ihl, ihr, Cst.toAst]

/-! ### Completeness -/

/-- Operators left on the stack after reading a tree (its right edge). -/
def rspOps : Cst σ ε → List (StackOp σ ε)
  | .atom _ => []
  | .paren _ _ _ => []
  | .un t p c => rspOps c ++ [.op 1 p t]
  | .bin _ t p r => rspOps r ++ [.op 2 p t]

/-- Nouns left on the stack after reading a tree. -/
def rspNouns : Cst σ ε → List (Node σ ε)
  | .atom t => [toNode (.atom t)]
  | .paren l c r => [toNode (.paren l c r)]
  | .un _ _ c => rspNouns c
  | .bin l _ _ r => rspNouns r ++ [toNode l]

theorem run_append (tb : Table σ) (s : State σ ε) (ts us : List (Tok σ ε)) :
    run tb s (ts ++ us) = match run tb s ts with
      | .ok s' => run tb s' us
      | .error e => .error e := by
  induction ts generalizing s with
  | nil => rfl
  | cons t ts ih =>
    simp only [List.cons_append, run]
    cases step tb s t with
    | ok s' => exact ih s'
    | error e => rfl

theorem run_append_ok {tb : Table σ} {s s' : State σ ε} {ts us : List (Tok σ ε)}
    (h : run tb s ts = .ok s') : run tb s (ts ++ us) = run tb s' us := by
  rw [run_append, h]

theorem run_cons_ok {tb : Table σ} {s s' : State σ ε} {t : Tok σ ε} {us : List (Tok σ ε)}
    (h : step tb s t = .ok s') : run tb s (t :: us) = run tb s' us := by
  simp [run, h]

theorem runToParen_rsp (c : Cst σ ε) (ops : List (StackOp σ ε)) (nouns : List (Node σ ε)) :
    runToParen (rspOps c ++ ops) (rspNouns c ++ nouns) = runToParen ops (toNode c :: nouns) := by
  induction c generalizing ops nouns with
  | atom t => rfl
  | paren l c r ih => rfl
  | un t p c ih =>
    simp only [rspOps, rspNouns, List.append_assoc, List.cons_append, List.nil_append]
    rw [ih]
    simp [runToParen, runOp, toNode]
  | bin l t p r ihl ihr =>
    simp only [rspOps, rspNouns, List.append_assoc, List.cons_append, List.nil_append]
    rw [ihr]
    simp [runToParen, runOp, toNode]

theorem runAll_rsp (c : Cst σ ε) (ops : List (StackOp σ ε)) (nouns : List (Node σ ε)) :
    runAll (rspOps c ++ ops) (rspNouns c ++ nouns) = runAll ops (toNode c :: nouns) := by
  induction c generalizing ops nouns with
  | atom t => rfl
  | paren l c r ih => rfl
  | un t p c ih =>
    simp only [rspOps, rspNouns, List.append_assoc, List.cons_append, List.nil_append]
    rw [ih]
    simp [runAll, runOp, toNode]
  | bin l t p r ihl ihr =>
    simp only [rspOps, rspNouns, List.append_assoc, List.cons_append, List.nil_append]
    rw [ihr]
    simp [runAll, runOp, toNode]

theorem runWhile_rsp (q : Int) (c : Cst σ ε) (hq : ∀ p ∈ c.rightEdge, q ≤ p)
    (ops : List (StackOp σ ε)) (nouns : List (Node σ ε)) :
    runWhile q (rspOps c ++ ops) (rspNouns c ++ nouns) = runWhile q ops (toNode c :: nouns) := by
  induction c generalizing ops nouns with
  | atom t => rfl
  | paren l c r ih => rfl
  | un t p c ih =>
    simp only [rspOps, rspNouns, List.append_assoc, List.cons_append, List.nil_append]
    rw [ih (fun p' h => hq p' (by simp [Cst.rightEdge, h]))]
    have : q ≤ p := hq p (by simp [Cst.rightEdge])
    simp [runWhile, runOp, toNode, StackOp.prec, this]
  | bin l t p r ihl ihr =>
    simp only [rspOps, rspNouns, List.append_assoc, List.cons_append, List.nil_append]
    rw [ihr (fun p' h => hq p' (by simp [Cst.rightEdge, h]))]
    have : q ≤ p := hq p (by simp [Cst.rightEdge])
    simp [runWhile, runOp, toNode, StackOp.prec, this]

/-- The top of the stack binds less tightly than everything at the left edge. -/
def TopBelow (ops : List (StackOp σ ε)) (qs : List Int) : Prop :=
  ∀ o ∈ ops.head?, ∀ q ∈ qs, o.prec < q

theorem runWhile_stop {q : Int} {ops : List (StackOp σ ε)} {nouns : List (Node σ ε)}
    (h : TopBelow ops [q]) : runWhile q ops nouns = .ok (ops, nouns) := by
  cases ops with
  | nil => rfl
  | cons o ops =>
    have : o.prec < q := h o (by simp) q (by simp)
    simp [runWhile, Int.not_le.mpr this]

/-- Table precedences exceed the precedence of the open parenthesis (the assertion
at infix_parser.py:215). -/
def TableOk (tb : Table σ) : Prop :=
  (∀ s p, tb.unary s = some p → -9999999 < p) ∧ (∀ s p, tb.binary s = some p → -9999999 < p)

theorem leftEdge_gt {tb : Table σ} (htb : TableOk tb) {c : Cst σ ε} (h : c.WF tb) :
    ∀ q ∈ c.leftEdge, -9999999 < q := by
  induction c with
  | atom t => simp [Cst.leftEdge]
  | paren l c r ih => simp [Cst.leftEdge]
  | un t p c ih => simp [Cst.leftEdge]
  | bin l t p r ihl ihr =>
    intro q hq
    simp only [Cst.leftEdge, List.mem_cons] at hq
    obtain ⟨⟨s, _, hs⟩, hl, _⟩ := h
    rcases hq with rfl | hq
    · exact htb.2 s _ hs
    · exact ihl hl q hq

theorem run_flatten {tb : Table σ} (htb : TableOk tb) (c : Cst σ ε) (h : c.WF tb)
    (ops : List (StackOp σ ε)) (nouns : List (Node σ ε)) (htop : TopBelow ops c.leftEdge) :
    run tb ⟨ops, nouns, true⟩ c.flatten = .ok ⟨rspOps c ++ ops, rspNouns c ++ nouns, false⟩ := by
  induction c generalizing ops nouns with
  | atom t =>
    obtain ⟨s, h1, h2, h3⟩ := h
    simp [Cst.flatten, run, step, readNoun, h1, h2, h3, rspOps, rspNouns, toNode]
  | paren l c r ih =>
    obtain ⟨h1, h2, h3⟩ := h
    have hs : step tb ⟨ops, nouns, true⟩ l = .ok ⟨.paren l :: ops, nouns, true⟩ := by
      simp [step, readNoun, h1]
    rw [Cst.flatten, run_cons_ok hs, run_append_ok (ih h3 (.paren l :: ops) nouns ?_)]
    · simp only [run, step, readOp, h2]
      rw [runToParen_rsp]
      simp [runToParen, StackOp.token, toNode, rspOps, rspNouns]
    · intro o ho q hq
      simp at ho
      subst ho
      exact leftEdge_gt htb h3 q hq
  | un t p c ih =>
    obtain ⟨⟨s, h1, h2⟩, h3, h4⟩ := h
    have hs : step tb ⟨ops, nouns, true⟩ t = .ok ⟨.op 1 p t :: ops, nouns, true⟩ := by
      simp [step, readNoun, h1, h2]
    rw [Cst.flatten, run_cons_ok hs, ih h3]
    · simp [rspOps, rspNouns]
    · intro o ho q hq
      simp at ho
      subst ho
      exact h4 q hq
  | bin l t p r ihl ihr =>
    obtain ⟨⟨s, h1, h2⟩, h3, h4, h5, h6⟩ := h
    rw [Cst.flatten, run_append_ok (ihl h3 ops nouns ?_)]
    · have hs : step tb ⟨rspOps l ++ ops, rspNouns l ++ nouns, false⟩ t
          = .ok ⟨.op 2 p t :: ops, toNode l :: nouns, true⟩ := by
        simp only [step, readOp, h1, h2]
        rw [runWhile_rsp p l h5, runWhile_stop]
        · simp
        · intro o ho q hq
          simp only [List.mem_singleton] at hq
          subst hq
          exact htop o ho q (by simp [Cst.leftEdge])
      rw [run_cons_ok hs, ihr h4]
      · simp [rspOps, rspNouns]
      · intro o ho q hq
        simp at ho
        subst ho
        exact h6 q hq
    · intro o ho q hq
      exact htop o ho q (by simp [Cst.leftEdge, hq])

theorem parseWith_complete {tb : Table σ} (htb : TableOk tb) (c : Cst σ ε) (h : c.WF tb) :
    parseWith tb c.flatten = .ok (toNode c) := by
  unfold parseWith
  rw [run_flatten htb c h [] [] (by intro o ho; simp at ho)]
  unfold finish
  simp only [Bool.false_eq_true, if_false]
  rw [runAll_rsp]
  simp [runAll]

/-! ### Soundness -/

/-- What an entry of the operator stack stands for. -/
inductive Frame (σ ε : Type) where
  | paren (t : Tok σ ε)
  | un (t : Tok σ ε) (p : Int)
  | bin (l : Cst σ ε) (t : Tok σ ε) (p : Int)

namespace Frame

def op : Frame σ ε → StackOp σ ε
  | paren t => .paren t
  | un t p => .op 1 p t
  | bin _ t p => .op 2 p t

def nouns : Frame σ ε → List (Node σ ε)
  | paren _ => []
  | un _ _ => []
  | bin l _ _ => [toNode l]

def toks : Frame σ ε → List (Tok σ ε)
  | paren t => [t]
  | un t _ => [t]
  | bin l t _ => l.flatten ++ [t]

/-- Precedences that become exposed at the left edge when this frame is reduced. -/
def edge : Frame σ ε → List Int
  | paren _ => []
  | un _ _ => []
  | bin l _ p => p :: l.leftEdge

def WF (tb : Table σ) : Frame σ ε → Prop
  | paren t => t.kind = .lparen
  | un t p => ∃ s, t.kind = .sym s ∧ tb.unary s = some p
  | bin l t p => (∃ s, t.kind = .sym s ∧ tb.binary s = some p) ∧ l.WF tb ∧ ∀ q ∈ l.rightEdge, p ≤ q

/-- The edge `qs` may stand directly above this frame. -/
def Below (f : Frame σ ε) (qs : List Int) : Prop :=
  match f with
  | paren _ => True
  | un _ p => ∀ q ∈ qs, p < q
  | bin _ _ p => ∀ q ∈ qs, p < q

end Frame

/-- Well-formed frame stacks, top first; `qs` is the edge that stands on top. -/
def FramesWF (tb : Table σ) : List (Frame σ ε) → List Int → Prop
  | [], _ => True
  | f :: fs, qs => f.WF tb ∧ f.Below qs ∧ FramesWF tb fs f.edge

def framesOps (fs : List (Frame σ ε)) : List (StackOp σ ε) := fs.map Frame.op
def framesNouns (fs : List (Frame σ ε)) : List (Node σ ε) := fs.flatMap Frame.nouns
def framesToks (fs : List (Frame σ ε)) : List (Tok σ ε) := (fs.reverse).flatMap Frame.toks

theorem framesToks_cons (f : Frame σ ε) (fs : List (Frame σ ε)) :
    framesToks (f :: fs) = framesToks fs ++ f.toks := by
  simp [framesToks]

/-- One reduction of the top frame. -/
theorem reduce_top {tb : Table σ} {f : Frame σ ε} {fs : List (Frame σ ε)} {c : Cst σ ε}
    (hf : FramesWF tb (f :: fs) c.leftEdge) (hc : c.WF tb) (hnp : f.op.isParen = false) :
    ∃ c' : Cst σ ε, c'.WF tb ∧ FramesWF tb fs c'.leftEdge ∧
      c'.flatten = f.toks ++ c.flatten ∧ c'.rightEdge = f.op.prec :: c.rightEdge ∧
      (∀ p t n, f.op = .op n p t →
        runOp (f.op :: framesOps fs) (toNode c :: (f.nouns ++ framesNouns fs)) =
          .ok (framesOps fs, toNode c' :: framesNouns fs)) := by
  obtain ⟨h1, h2, h3⟩ := hf
  cases f with
  | paren t => simp [Frame.op, StackOp.isParen] at hnp
  | un t p =>
    refine ⟨.un t p c, ⟨h1, hc, h2⟩, ?_, ?_, ?_, ?_⟩
    · simpa [Cst.leftEdge, Frame.edge] using h3
    · simp [Cst.flatten, Frame.toks]
    · simp [Cst.rightEdge, Frame.op, StackOp.prec]
    · intro p' t' n h
      simp [Frame.op, runOp, Frame.nouns, toNode]
  | bin l t p =>
    obtain ⟨g1, g2, g3⟩ := h1
    refine ⟨.bin l t p c, ⟨g1, g2, hc, g3, h2⟩, ?_, ?_, ?_, ?_⟩
    · simpa [Cst.leftEdge, Frame.edge] using h3
    · simp [Cst.flatten, Frame.toks]
    · simp [Cst.rightEdge, Frame.op, StackOp.prec]
    · intro p' t' n h
      simp [Frame.op, runOp, Frame.nouns, toNode]

theorem runToParen_spec {tb : Table σ} (fs : List (Frame σ ε)) (c : Cst σ ε)
    (hf : FramesWF tb fs c.leftEdge) (hc : c.WF tb) :
    ∃ fs' c', runToParen (framesOps fs) (toNode c :: framesNouns fs) =
        .ok (framesOps fs', toNode c' :: framesNouns fs') ∧
      FramesWF tb fs' c'.leftEdge ∧ c'.WF tb ∧
      framesToks fs' ++ c'.flatten = framesToks fs ++ c.flatten ∧
      (fs' = [] ∨ ∃ t fs'', fs' = .paren t :: fs'') := by
  induction fs generalizing c with
  | nil => exact ⟨[], c, rfl, hf, hc, rfl, Or.inl rfl⟩
  | cons f fs ih =>
    by_cases hp : f.op.isParen = true
    · cases f with
      | paren t => exact ⟨.paren t :: fs, c, rfl, hf, hc, rfl, Or.inr ⟨t, fs, rfl⟩⟩
      | un t p => simp [Frame.op, StackOp.isParen] at hp
      | bin l t p => simp [Frame.op, StackOp.isParen] at hp
    · have hp' : f.op.isParen = false := by simpa using hp
      obtain ⟨c1, g1, g2, g3, _, g5⟩ := reduce_top hf hc hp'
      obtain ⟨fs', c', k1, k2, k3, k4, k5⟩ := ih c1 g2 g1
      refine ⟨fs', c', ?_, k2, k3, ?_, k5⟩
      · rw [← k1]
        cases hop : f.op with
        | paren t => rw [hop] at hp; simp [StackOp.isParen] at hp
        | op n p t =>
          have := g5 p t n hop
          rw [hop] at this
          simp only [framesOps, framesNouns, List.map_cons, List.flatMap_cons, hop] at *
          simp [runToParen, this]
      · rw [k4, framesToks_cons, g3, List.append_assoc]

theorem runAll_spec {tb : Table σ} (fs : List (Frame σ ε)) (c : Cst σ ε)
    (hf : FramesWF tb fs c.leftEdge) (hc : c.WF tb) :
    runAll (framesOps fs) (toNode c :: framesNouns fs) = .error .patsyError ∨
    ∃ c', runAll (framesOps fs) (toNode c :: framesNouns fs) = .ok [toNode c'] ∧ c'.WF tb ∧
      c'.flatten = framesToks fs ++ c.flatten := by
  induction fs generalizing c with
  | nil => right; exact ⟨c, rfl, hc, by simp [framesToks]⟩
  | cons f fs ih =>
    by_cases hp : f.op.isParen = true
    · cases f with
      | paren t => left; rfl
      | un t p => simp [Frame.op, StackOp.isParen] at hp
      | bin l t p => simp [Frame.op, StackOp.isParen] at hp
    · have hp' : f.op.isParen = false := by simpa using hp
      obtain ⟨c1, g1, g2, g3, _, g5⟩ := reduce_top hf hc hp'
      have heq : runAll (framesOps (f :: fs)) (toNode c :: framesNouns (f :: fs)) =
          runAll (framesOps fs) (toNode c1 :: framesNouns fs) := by
        cases hop : f.op with
        | paren t => rw [hop] at hp; simp [StackOp.isParen] at hp
        | op n p t =>
          have := g5 p t n hop
          rw [hop] at this
          simp only [framesOps, framesNouns, List.map_cons, List.flatMap_cons, hop] at *
          simp [runAll, this]
      rw [heq]
      rcases ih c1 g2 g1 with h | ⟨c', k1, k2, k3⟩
      · exact Or.inl h
      · right
        refine ⟨c', k1, k2, ?_⟩
        rw [k3, framesToks_cons, g3, List.append_assoc]

theorem runWhile_spec {tb : Table σ} (q : Int) (hq : -9999999 < q) (fs : List (Frame σ ε))
    (c : Cst σ ε) (hf : FramesWF tb fs c.leftEdge) (hc : c.WF tb)
    (hr : ∀ p ∈ c.rightEdge, q ≤ p) :
    ∃ fs' c', runWhile q (framesOps fs) (toNode c :: framesNouns fs) =
        .ok (framesOps fs', toNode c' :: framesNouns fs') ∧
      FramesWF tb fs' c'.leftEdge ∧ c'.WF tb ∧
      framesToks fs' ++ c'.flatten = framesToks fs ++ c.flatten ∧
      (∀ p ∈ c'.rightEdge, q ≤ p) ∧
      (∀ f ∈ fs'.head?, f.op.prec < q) := by
  induction fs generalizing c with
  | nil => exact ⟨[], c, rfl, hf, hc, rfl, hr, by simp⟩
  | cons f fs ih =>
    by_cases hle : q ≤ f.op.prec
    · have hp' : f.op.isParen = false := by
        cases f with
        | paren t => simp [Frame.op, StackOp.prec] at hle; omega
        | un t p => rfl
        | bin l t p => rfl
      obtain ⟨c1, g1, g2, g3, g4, g5⟩ := reduce_top hf hc hp'
      obtain ⟨fs', c', k1, k2, k3, k4, k5⟩ := ih c1 g2 g1 (by
        rw [g4]; intro p hp
        rcases List.mem_cons.mp hp with rfl | hp
        · exact hle
        · exact hr p hp)
      refine ⟨fs', c', ?_, k2, k3, ?_, k5⟩
      · rw [← k1]
        cases hop : f.op with
        | paren t => rw [hop] at hp'; simp [StackOp.isParen] at hp'
        | op n p t =>
          have := g5 p t n hop
          rw [hop] at this hle
          simp only [framesOps, framesNouns, List.map_cons, List.flatMap_cons, hop] at *
          simp [runWhile, this, hle]
      · rw [k4, framesToks_cons, g3, List.append_assoc]
    · refine ⟨f :: fs, c, ?_, hf, hc, rfl, hr, ?_⟩
      · simp [framesOps, runWhile, hle]
      · intro g hg
        simp at hg
        subst hg
        omega

/-- The invariant of the main loop. -/
inductive Inv (tb : Table σ) (pre : List (Tok σ ε)) : State σ ε → Prop where
  | want (fs : List (Frame σ ε)) : FramesWF tb fs [] → framesToks fs = pre →
      Inv tb pre ⟨framesOps fs, framesNouns fs, true⟩
  | have_ (fs : List (Frame σ ε)) (c : Cst σ ε) : FramesWF tb fs c.leftEdge → c.WF tb →
      c.rightEdge = [] → framesToks fs ++ c.flatten = pre →
      Inv tb pre ⟨framesOps fs, toNode c :: framesNouns fs, false⟩

theorem FramesWF.nil_edge {tb : Table σ} {fs : List (Frame σ ε)} {qs : List Int}
    (h : FramesWF tb fs qs) : FramesWF tb fs [] := by
  cases fs with
  | nil => trivial
  | cons f fs =>
    refine ⟨h.1, ?_, h.2.2⟩
    cases f <;> simp [Frame.Below]

theorem step_spec {tb : Table σ} (htb : TableOk tb) {pre : List (Tok σ ε)} {s : State σ ε}
    (hi : Inv tb pre s) (t : Tok σ ε) :
    step tb s t = .error .patsyError ∨
    ∃ s', step tb s t = .ok s' ∧ Inv tb (pre ++ [t]) s' := by
  cases hi with
  | want fs h1 h2 =>
    subst h2
    cases hk : t.kind with
    | lparen =>
      right
      refine ⟨_, by simp [step, readNoun, hk]; rfl, ?_⟩
      have := Inv.want (tb := tb) (pre := framesToks fs ++ [t]) (.paren t :: fs)
        ⟨hk, trivial, h1⟩ (by simp [framesToks_cons, Frame.toks])
      simpa [framesOps, framesNouns, Frame.op, Frame.nouns] using this
    | rparen => left; simp [step, readNoun, hk]
    | sym s =>
      cases hu : tb.unary s with
      | some p =>
        right
        refine ⟨_, by simp [step, readNoun, hk, hu]; rfl, ?_⟩
        have := Inv.want (tb := tb) (pre := framesToks fs ++ [t]) (.un t p :: fs)
          ⟨⟨s, hk, hu⟩, by simp [Frame.Below], h1⟩ (by simp [framesToks_cons, Frame.toks])
        simpa [framesOps, framesNouns, Frame.op, Frame.nouns] using this
      | none =>
        cases ha : tb.atomic s with
        | false => left; simp [step, readNoun, hk, hu, ha]
        | true =>
          right
          refine ⟨_, by simp [step, readNoun, hk, hu, ha]; rfl, ?_⟩
          exact Inv.have_ (tb := tb) (pre := framesToks fs ++ [t]) fs (.atom t) (by simpa [Cst.leftEdge] using h1)
            ⟨s, hk, hu, ha⟩ rfl (by simp [Cst.flatten])
  | have_ fs c h1 h2 h3 h4 =>
    subst h4
    cases hk : t.kind with
    | lparen => left; simp [step, readOp, hk]
    | rparen =>
      obtain ⟨fs', c', k1, k2, k3, k4, k5⟩ := runToParen_spec fs c h1 h2
      rcases k5 with k5 | ⟨l, fs'', k5⟩
      · left
        subst k5
        simp only [step, Bool.false_eq_true, if_false, readOp, hk, k1]
        rfl
      · right
        subst k5
        refine ⟨_, by simp only [step, Bool.false_eq_true, if_false, readOp, hk, k1]; rfl, ?_⟩
        have hl : l.kind = .lparen := k2.1
        have := Inv.have_ (tb := tb) (pre := framesToks fs ++ c.flatten ++ [t]) fs''
          (.paren l c' t) (by simpa [Cst.leftEdge, Frame.edge] using k2.2.2) ⟨hl, hk, k3⟩ rfl
          (by rw [← k4, framesToks_cons]; simp [Cst.flatten, Frame.toks])
        simpa [framesOps, framesNouns, Frame.nouns, toNode, Frame.op, StackOp.token] using this
    | sym s =>
      cases hb : tb.binary s with
      | none => left; simp [step, readOp, hk, hb]
      | some p =>
        right
        obtain ⟨fs', c', k1, k2, k3, k4, k5, k6⟩ :=
          runWhile_spec p (htb.2 s p hb) fs c h1 h2 (by rw [h3]; simp)
        refine ⟨_, by simp [step, readOp, hk, hb, k1]; rfl, ?_⟩
        have hfw : FramesWF tb (.bin c' t p :: fs') [] := by
          refine ⟨⟨⟨s, hk, hb⟩, k3, k5⟩, by simp [Frame.Below], ?_⟩
          cases fs' with
          | nil => trivial
          | cons f fs' =>
            refine ⟨k2.1, ?_, k2.2.2⟩
            have hlt := k6 f (by simp)
            have hb2 := k2.2.1
            cases f with
            | paren t => trivial
            | un t' p' =>
              intro q hq
              simp only [Frame.edge, List.mem_cons] at hq
              simp only [Frame.op, StackOp.prec] at hlt
              rcases hq with rfl | hq
              · exact hlt
              · exact hb2 q hq
            | bin l' t' p' =>
              intro q hq
              simp only [Frame.edge, List.mem_cons] at hq
              simp only [Frame.op, StackOp.prec] at hlt
              rcases hq with rfl | hq
              · exact hlt
              · exact hb2 q hq
        have := Inv.want (tb := tb) (pre := framesToks fs ++ c.flatten ++ [t]) (.bin c' t p :: fs')
          hfw (by rw [← k4, framesToks_cons]; simp [Frame.toks])
        simpa [framesOps, framesNouns, Frame.op, Frame.nouns] using this

theorem run_spec {tb : Table σ} (htb : TableOk tb) {pre : List (Tok σ ε)} {s : State σ ε}
    (hi : Inv tb pre s) (ts : List (Tok σ ε)) :
    run tb s ts = .error .patsyError ∨
    ∃ s', run tb s ts = .ok s' ∧ Inv tb (pre ++ ts) s' := by
  induction ts generalizing pre s with
  | nil => right; exact ⟨s, rfl, by simpa using hi⟩
  | cons t ts ih =>
    rcases step_spec htb hi t with h | ⟨s', h1, h2⟩
    · left; simp [run, h]
    · rcases ih h2 with h | ⟨s'', h3, h4⟩
      · left; simp [run, h1, h]
      · right; exact ⟨s'', by simp [run, h1, h3], by simpa using h4⟩

/-- The complete description of a parse. -/
theorem parseWith_spec {tb : Table σ} (htb : TableOk tb) (ts : List (Tok σ ε)) :
    (ts = [] ∧ parseWith tb ts = .error .indexError) ∨
    (ts ≠ [] ∧ parseWith tb ts = .error .patsyError) ∨
    ∃ c : Cst σ ε, parseWith tb ts = .ok (toNode c) ∧ c.WF tb ∧ c.flatten = ts := by
  have h0 : Inv tb [] (⟨[], [], true⟩ : State σ ε) := by
    have := Inv.want (tb := tb) (pre := []) ([] : List (Frame σ ε)) trivial (by simp [framesToks])
    simpa [framesOps, framesNouns] using this
  rcases run_spec htb h0 ts with h | ⟨s', h1, h2⟩
  · right; left
    refine ⟨?_, by simp [parseWith, h]⟩
    rintro rfl
    simp [run] at h
  · simp only [List.nil_append] at h2
    cases h2 with
    | want fs g1 g2 =>
      cases fs with
      | nil =>
        left
        have : ts = [] := by rw [← g2]; simp [framesToks]
        exact ⟨this, by simp [parseWith, h1, finish, framesOps]⟩
      | cons f fs =>
        right; left
        refine ⟨?_, by simp [parseWith, h1, finish, framesOps]⟩
        intro hts
        rw [hts, framesToks_cons] at g2
        have : f.toks = [] := (List.append_eq_nil_iff.mp g2).2
        cases f <;> simp [Frame.toks] at this
    | have_ fs c g1 g2 g3 g4 =>
      rcases runAll_spec fs c g1 g2 with h | ⟨c', k1, k2, k3⟩
      · right; left
        refine ⟨?_, by simp [parseWith, h1, finish, h]⟩
        rintro rfl
        simp only [run, Except.ok.injEq] at h1
        injection h1 with _ _ hw
        simp at hw
      · right; right
        exact ⟨c', by simp [parseWith, h1, finish, k1], k2, by rw [k3, g4]⟩

/-! ### Origins -/

open Patsy.Spec (Increasing)

theorem flatten_ne_nil (c : Cst σ ε) : c.flatten ≠ [] := by
  cases c <;> simp [Cst.flatten]

theorem head_flatten (c : Cst σ ε) : c.flatten.head? = some c.first := by
  induction c with
  | atom t => rfl
  | paren l c r ih => rfl
  | un t p c ih => rfl
  | bin l t p r ihl ihr =>
    simp [Cst.flatten, Cst.first, List.head?_append, ihl]

theorem last_flatten (c : Cst σ ε) : c.flatten.getLast? = some c.last := by
  induction c with
  | atom t => rfl
  | paren l c r ih => simp [Cst.flatten, Cst.last, List.getLast?_cons]
  | un t p c ih =>
    have := flatten_ne_nil c
    simp [Cst.flatten, Cst.last, List.getLast?_cons, ih]
  | bin l t p r ihl ihr =>
    simp [Cst.flatten, Cst.last, List.getLast?_append, List.getLast?_cons, ihr]

theorem Increasing.tail {t : Tok σ ε} {ts : List (Tok σ ε)} (h : Increasing (t :: ts)) :
    Increasing ts := by
  cases ts with
  | nil => trivial
  | cons u ts => exact h.2.2

theorem Increasing.head_le {t : Tok σ ε} {ts : List (Tok σ ε)} (h : Increasing (t :: ts)) :
    t.origin.start ≤ t.origin.stop := by
  cases ts with
  | nil => exact h
  | cons u ts => exact h.1

theorem Increasing.append {ts us : List (Tok σ ε)} (h : Increasing (ts ++ us)) :
    Increasing ts ∧ Increasing us ∧
      ∀ a ∈ ts, ∀ b ∈ us, a.origin.stop ≤ b.origin.start := by
  induction ts with
  | nil => exact ⟨trivial, h, by simp⟩
  | cons t ts ih =>
    obtain ⟨h1, h2, h3⟩ := ih (Increasing.tail h)
    cases ts with
    | nil =>
      refine ⟨Increasing.head_le h, h2, ?_⟩
      intro a ha b hb
      simp only [List.mem_singleton] at ha
      subst ha
      -- all later tokens start after `a` stops
      clear ih h1 h3 h2
      simp only [List.cons_append, List.nil_append] at h
      induction us generalizing a with
      | nil => simp at hb
      | cons u us ih2 =>
        rcases List.mem_cons.mp hb with rfl | hb
        · exact h.2.1
        · have := ih2 u hb (Increasing.tail h)
          have h5 := Increasing.head_le (Increasing.tail h)
          have h6 := h.2.1
          omega
    | cons u ts =>
      refine ⟨⟨h.1, h.2.1, h1⟩, h2, ?_⟩
      intro a ha b hb
      rcases List.mem_cons.mp ha with rfl | ha
      · have := h3 u (by simp) b hb
        have h5 := Increasing.head_le (Increasing.tail h)
        have h6 := h.2.1
        omega
      · exact h3 a ha b hb

theorem token_mem (c : Cst σ ε) : (toNode c).token ∈ c.flatten := by
  induction c with
  | atom t => simp [toNode, Node.token, Cst.flatten]
  | paren l c r ih =>
    have : ∀ (n : Node σ ε) o, (n.setOrigin o).token = n.token := by intro n o; cases n <;> rfl
    simp [toNode, this, Cst.flatten, ih]
  | un t p c ih => simp [toNode, Node.token, Cst.flatten]
  | bin l t p r _ _ => simp [toNode, Node.token, Cst.flatten]

theorem first_mem (c : Cst σ ε) : c.first ∈ c.flatten := List.mem_of_mem_head? (head_flatten c)
theorem last_mem (c : Cst σ ε) : c.last ∈ c.flatten := List.mem_of_getLast? (last_flatten c)

theorem Increasing.mem_le {ts : List (Tok σ ε)} (h : Increasing ts) :
    ∀ t ∈ ts, t.origin.start ≤ t.origin.stop := by
  induction ts with
  | nil => simp
  | cons u ts ih =>
    intro t ht
    rcases List.mem_cons.mp ht with rfl | ht
    · exact Increasing.head_le h
    · exact ih (Increasing.tail h) t ht

theorem first_start_le_last_stop {c : Cst σ ε} (h : Increasing c.flatten) :
    c.first.origin.start ≤ c.last.origin.stop := by
  induction c with
  | atom t => exact h
  | paren l c r ih =>
    have h1 := Increasing.append (ts := l :: c.flatten) (us := [r]) (by simpa [Cst.flatten] using h)
    have h2 := h1.2.2 l (by simp) r (by simp)
    have h3 := Increasing.head_le h1.1
    have h4 : r.origin.start ≤ r.origin.stop := h1.2.1
    simp only [Cst.first, Cst.last]; omega
  | un t p c ih =>
    have h1 := Increasing.append (ts := [t]) (us := c.flatten) (by simpa [Cst.flatten] using h)
    have h2 := h1.2.2 t (by simp) _ (first_mem c)
    have h3 : t.origin.start ≤ t.origin.stop := h1.1
    have h4 := ih h1.2.1
    simp only [Cst.first, Cst.last]; omega
  | bin l t p r ihl ihr =>
    have h1 := Increasing.append (ts := l.flatten) (us := t :: r.flatten) (by simpa [Cst.flatten] using h)
    have h2 := Increasing.append (ts := [t]) (us := r.flatten) h1.2.1
    have h3 := h2.2.2 t (by simp) _ (first_mem r)
    have h4 := h1.2.2 _ (last_mem l) t (by simp)
    have h5 := ihl h1.1
    have h6 := ihr h2.2.1
    have h7 : t.origin.start ≤ t.origin.stop := h2.1
    simp only [Cst.first, Cst.last]; omega

theorem origin_setOrigin (n : Node σ ε) (o : Origin) : (n.setOrigin o).origin = o := by
  cases n <;> rfl

theorem toNode_eq_locate {c : Cst σ ε} (h : Increasing c.flatten) :
    toNode c = c.locate ∧ (toNode c).origin = c.span := by
  induction c with
  | atom t => exact ⟨rfl, rfl⟩
  | paren l c r ih =>
    have h1 := Increasing.append (ts := l :: c.flatten) (us := [r]) (by simpa [Cst.flatten] using h)
    have h0 := Increasing.append (ts := [l]) (us := c.flatten) h1.1
    obtain ⟨i1, i2⟩ := ih h0.2.1
    have hm := token_mem c
    have h2 := h0.2.2 l (by simp) _ hm
    have h3 := h1.2.2 _ (List.mem_cons_of_mem l hm) r (by simp)
    have h4 := Increasing.mem_le h0.2.1 _ hm
    have h5 : l.origin.start ≤ l.origin.stop := h0.1
    have h6 : r.origin.start ≤ r.origin.stop := h1.2.1
    have ho : Origin.combine l.origin [(toNode c).token.origin, r.origin] = (Cst.paren l c r).span := by
      simp only [Origin.combine, List.foldl_cons, List.foldl_nil, Cst.span, Cst.first, Cst.last,
        Origin.mk.injEq]
      omega
    constructor
    · simp only [toNode, Cst.locate, ho, ← i1]
      cases toNode c <;> rfl
    · simp only [toNode, ho, origin_setOrigin]
  | un t p c ih =>
    have h1 := Increasing.append (ts := [t]) (us := c.flatten) (by simpa [Cst.flatten] using h)
    obtain ⟨i1, i2⟩ := ih h1.2.1
    have h2 := h1.2.2 t (by simp) _ (first_mem c)
    have h3 : t.origin.start ≤ t.origin.stop := h1.1
    have h4 := first_start_le_last_stop h1.2.1
    have ho : Origin.combine t.origin [(toNode c).origin] = (Cst.un t p c).span := by
      rw [i2]
      simp only [Origin.combine, List.foldl_cons, List.foldl_nil, Cst.span, Cst.first, Cst.last,
        Origin.mk.injEq]
      omega
    constructor
    · simp only [toNode, ho, Cst.locate]
      rw [i1]
    · rw [toNode, ho]; rfl
  | bin l t p r ihl ihr =>
    have h1 := Increasing.append (ts := l.flatten) (us := t :: r.flatten) (by simpa [Cst.flatten] using h)
    have h2 := Increasing.append (ts := [t]) (us := r.flatten) h1.2.1
    obtain ⟨i1, i2⟩ := ihl h1.1
    obtain ⟨j1, j2⟩ := ihr h2.2.1
    have h3 := h2.2.2 t (by simp) _ (first_mem r)
    have h4 := h1.2.2 _ (last_mem l) t (by simp)
    have h5 := first_start_le_last_stop h1.1
    have h6 := first_start_le_last_stop h2.2.1
    have h7 : t.origin.start ≤ t.origin.stop := h2.1
    have ho : Origin.combine t.origin [(toNode l).origin, (toNode r).origin] = (Cst.bin l t p r).span := by
      rw [i2, j2]
      simp only [Origin.combine, List.foldl_cons, List.foldl_nil, Cst.span, Cst.first, Cst.last,
        Origin.mk.injEq]
      omega
    constructor
    · simp only [toNode, ho, Cst.locate]
      rw [i1, j1]
    · rw [toNode, ho]; rfl

/-! ### The operator list -/

theorem checkOps_ok {os : List (Operator σ)} (h : checkOps os = .ok ()) :
    ∀ o ∈ os, -9999999 < o.precedence := by
  induction os with
  | nil => simp
  | cons o os ih =>
    simp only [checkOps] at h
    split at h
    · split at h
      · intro o' ho'
        rcases List.mem_cons.mp ho' with rfl | ho'
        · assumption
        · exact ih h o' ho'
      · simp at h
    · simp at h

theorem lookupOp_mem [DecidableEq σ] {a : Int} {os : List (Operator σ)} {s : σ} {p : Int}
    (h : lookupOp a os s = some p) : ∃ o ∈ os, o.arity = a ∧ o.tokenType = s ∧ o.precedence = p := by
  induction os with
  | nil => simp [lookupOp] at h
  | cons o os ih =>
    simp only [lookupOp] at h
    cases hl : lookupOp a os s with
    | some p' =>
      rw [hl] at h
      obtain ⟨o', ho', h'⟩ := ih (by rw [hl]; exact h)
      exact ⟨o', by simp [ho'], h'⟩
    | none =>
      rw [hl] at h
      simp only at h
      split at h
      · rename_i hh
        exact ⟨o, by simp, hh.1, hh.2, by simpa using h⟩
      · simp at h

theorem tableOk_of_checkOps [DecidableEq σ] {os : List (Operator σ)} (h : checkOps os = .ok ())
    (at_ : List σ) : TableOk (mkTable os at_) := by
  constructor
  · intro s p hs
    obtain ⟨o, ho, _, _, rfl⟩ := lookupOp_mem hs
    exact checkOps_ok h o ho
  · intro s p hs
    obtain ⟨o, ho, _, _, rfl⟩ := lookupOp_mem hs
    exact checkOps_ok h o ho

end Patsy.Infix
