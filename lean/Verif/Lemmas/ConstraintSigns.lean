import Mathlib.Tactic.Ring
import Mathlib.Tactic.FieldSimp
import Mathlib.Data.List.Chain
import Verif.Spec.Constraint

/-!
# The reading of signs in constraints
-/

namespace Patsy.Constraint

open Patsy.Spec Patsy.Infix

set_option linter.unusedSectionVars false

/-- The table of the library. -/
abbrev libTable : Table Sym := mkTable ops atomic

/-- The usual table. -/
abbrev usualTable : Table Sym := mkTable usualOps atoms

/-- A sign moves to the first operand of a product. -/
def push (t : Tok Sym Name) : Cst Sym Name → Cst Sym Name
  | .bin l u p r => if p = 200 then .bin (push t l) u p r else .un t 300 (.bin l u p r)
  | c => .un t 300 c

/-- A factor moves to the first operand of a product. -/
def rot (l : Cst Sym Name) (t : Tok Sym Name) (p : Int) : Cst Sym Name → Cst Sym Name
  | .bin rl u q rr => if q = 200 then .bin (rot l t p rl) u q rr else .bin l t p (.bin rl u q rr)
  | c => .bin l t p c

/-- The same tokens, read in the usual way. -/
def tight : Cst Sym Name → Cst Sym Name
  | .atom t => .atom t
  | .paren l c r => .paren l (tight c) r
  | .un t _ c => push t (tight c)
  | .bin l t p r => if t.kind = .sym .times then rot (tight l) t p (tight r) else .bin (tight l) t p (tight r)

theorem flatten_push (t : Tok Sym Name) (c : Cst Sym Name) : (push t c).flatten = t :: c.flatten := by
  induction c with
  | bin l u p r ihl ihr =>
    rw [push]
    split
    · simp [Cst.flatten, ihl]
    · rfl
  | _ => rfl

theorem flatten_rot (l : Cst Sym Name) (t : Tok Sym Name) (p : Int) (c : Cst Sym Name) :
    (rot l t p c).flatten = l.flatten ++ t :: c.flatten := by
  induction c with
  | bin l u p r ihl ihr =>
    rw [rot]
    split
    · simp [Cst.flatten, ihl]
    · rfl
  | _ => rfl

theorem flatten_tight (c : Cst Sym Name) : (tight c).flatten = c.flatten := by
  induction c with
  | atom t => rfl
  | paren l c r ih => simp [tight, Cst.flatten, ih]
  | un t p c ih => simp [tight, Cst.flatten, flatten_push, ih]
  | bin l t p r ihl ihr =>
    rw [tight]
    split
    · simp [Cst.flatten, flatten_rot, ihl, ihr]
    · simp [Cst.flatten, ihl, ihr]

/-! ### The tables -/

theorem unary_lib (s : Sym) : libTable.unary s = if s = .plus ∨ s = .minus then some 100 else none := by
  cases s <;> rfl

theorem unary_usual (s : Sym) : usualTable.unary s = if s = .plus ∨ s = .minus then some 300 else none := by
  cases s <;> rfl

theorem binary_usual (s : Sym) : usualTable.binary s = libTable.binary s := by
  cases s <;> rfl

theorem binary_cases {s : Sym} {p : Int} (h : libTable.binary s = some p) :
    (p = -100 ∧ s = .comma) ∨ (p = 0 ∧ s = .eq) ∨ (p = 100 ∧ (s = .plus ∨ s = .minus)) ∨
      (p = 200 ∧ (s = .times ∨ s = .div)) := by
  cases s <;> simp_all [libTable, mkTable, lookupOp, ops]

theorem atomic_usual (s : Sym) : usualTable.atomic s = libTable.atomic s := by
  cases s <;> rfl

/-- The precedences at the left edge are those of the operators. -/
theorem leftEdge_cases {c : Cst Sym Name} (h : c.WF usualTable) : ∀ q ∈ c.leftEdge, 100 < q → q = 200 := by
  induction c with
  | bin l t p r ihl ihr =>
    obtain ⟨⟨s, h1, h2⟩, h3, -⟩ := h
    rw [binary_usual] at h2
    intro q hq hlt
    simp only [Cst.leftEdge, List.mem_cons] at hq
    rcases hq with rfl | hq
    · rcases binary_cases h2 with h | h | h | h <;> omega
    · exact ihl h3 q hq hlt
  | _ => intro q hq; simp [Cst.leftEdge] at hq

/-! ### Well-formedness -/

theorem rightEdge_push (t : Tok Sym Name) (c : Cst Sym Name) :
    ∀ q ∈ (push t c).rightEdge, q = 300 ∨ q ∈ c.rightEdge := by
  cases c with
  | bin l u p r =>
    rw [push]
    split
    · intro q hq
      exact Or.inr hq
    · intro q hq
      simpa [Cst.rightEdge] using hq
  | _ => intro q hq; simpa [push, Cst.rightEdge] using hq

theorem leftEdge_push (t : Tok Sym Name) (c : Cst Sym Name) : ∀ q ∈ (push t c).leftEdge, q ∈ c.leftEdge := by
  induction c with
  | bin l u p r ihl ihr =>
    rw [push]
    split
    · intro q hq
      simp only [Cst.leftEdge, List.mem_cons] at hq ⊢
      exact hq.imp id (ihl q)
    · intro q hq
      simp [Cst.leftEdge] at hq
  | _ => intro q hq; simp [push, Cst.leftEdge] at hq

theorem push_wf {t : Tok Sym Name} (ht : t.kind = .sym .plus ∨ t.kind = .sym .minus) {c : Cst Sym Name}
    (hc : c.WF usualTable) (he : ∀ q ∈ c.leftEdge, q = 200) : (push t c).WF usualTable := by
  have hu : ∃ s, t.kind = .sym s ∧ usualTable.unary s = some 300 := by
    rcases ht with ht | ht
    · exact ⟨_, ht, rfl⟩
    · exact ⟨_, ht, rfl⟩
  induction c with
  | bin l u p r ihl ihr =>
    obtain ⟨h1, h2, h3, h4, h5⟩ := hc
    have hp : p = 200 := he p (by simp [Cst.leftEdge])
    subst hp
    rw [push, if_pos rfl]
    refine ⟨h1, ihl h2 fun q hq => he q (by simp [Cst.leftEdge, hq]), h3, ?_, h5⟩
    intro q hq
    rcases rightEdge_push t l q hq with rfl | hq
    · omega
    · exact h4 q hq
  | _ => exact ⟨hu, hc, by simp [Cst.leftEdge]⟩

theorem rightEdge_rot (l : Cst Sym Name) (t : Tok Sym Name) (p : Int) (c : Cst Sym Name) :
    ∀ q ∈ (rot l t p c).rightEdge, q = p ∨ q ∈ c.rightEdge := by
  cases c with
  | bin rl u p r =>
    rw [rot]
    split
    · intro q hq
      exact Or.inr hq
    · intro q hq
      simpa [Cst.rightEdge] using hq
  | _ => intro q hq; simpa [rot, Cst.rightEdge] using hq

theorem leftEdge_rot (l : Cst Sym Name) (t : Tok Sym Name) (p : Int) (c : Cst Sym Name) :
    ∀ q ∈ (rot l t p c).leftEdge, q ∈ c.leftEdge ∨ q = p ∨ q ∈ l.leftEdge := by
  induction c with
  | bin rl u p r ihl ihr =>
    rw [rot]
    split
    · intro q hq
      simp only [Cst.leftEdge, List.mem_cons] at hq ⊢
      rcases hq with hq | hq
      · exact Or.inl (Or.inl hq)
      · rcases ihl q hq with h | h | h
        · exact Or.inl (Or.inr h)
        · exact Or.inr (Or.inl h)
        · exact Or.inr (Or.inr h)
    · intro q hq
      simp only [Cst.leftEdge, List.mem_cons] at hq
      exact Or.inr hq
  | _ => intro q hq; simp only [rot, Cst.leftEdge, List.mem_cons] at hq; exact Or.inr hq

theorem rot_wf {l : Cst Sym Name} {t : Tok Sym Name} (ht : t.kind = .sym .times) {c : Cst Sym Name}
    (hl : l.WF usualTable) (hle : ∀ q ∈ l.rightEdge, 200 ≤ q) (hc : c.WF usualTable)
    (he : ∀ q ∈ c.leftEdge, q = 200) : (rot l t 200 c).WF usualTable := by
  induction c with
  | bin rl u p r ihl ihr =>
    obtain ⟨h1, h2, h3, h4, h5⟩ := hc
    have hp : p = 200 := he p (by simp [Cst.leftEdge])
    subst hp
    rw [rot, if_pos rfl]
    refine ⟨h1, ihl h2 fun q hq => he q (by simp [Cst.leftEdge, hq]), h3, ?_, h5⟩
    intro q hq
    rcases rightEdge_rot l t 200 rl q hq with rfl | hq
    · omega
    · exact h4 q hq
  | _ => exact ⟨⟨_, ht, rfl⟩, hl, hc, hle, by simp [Cst.leftEdge]⟩

theorem flatten_ne_nil (c : Cst Sym Name) : ∃ u us, c.flatten = u :: us := by
  cases c with
  | atom t => exact ⟨_, _, rfl⟩
  | paren l c r => exact ⟨_, _, rfl⟩
  | un t p c => exact ⟨_, _, rfl⟩
  | bin l t p r =>
    cases h : l.flatten with
    | nil => exact ⟨t, r.flatten, by simp [Cst.flatten, h]⟩
    | cons a as => exact ⟨a, as ++ t :: r.flatten, by simp [Cst.flatten, h]⟩

theorem tight_wf {c : Cst Sym Name} (hc : c.WF libTable) (hd : NoSignAfterDiv c.flatten) :
    (tight c).WF usualTable ∧
    (∀ p : Int, p ≤ 200 → (∀ q ∈ c.rightEdge, p ≤ q) → ∀ q ∈ (tight c).rightEdge, p ≤ q) ∧
    (∀ p : Int, p < 200 → (∀ q ∈ c.leftEdge, p < q) → ∀ q ∈ (tight c).leftEdge, p < q) := by
  induction c with
  | atom t =>
    obtain ⟨s, h1, h2, h3⟩ := hc
    refine ⟨⟨s, h1, ?_, ?_⟩, by simp [tight, Cst.rightEdge], by simp [tight, Cst.leftEdge]⟩
    · cases s <;> first | rfl | (simp [unary_lib] at h2)
    · rw [atomic_usual]; exact h3
  | paren l c r ih =>
    obtain ⟨h1, h2, h3⟩ := hc
    have hd' : NoSignAfterDiv c.flatten := by
      have : NoSignAfterDiv (l :: (c.flatten ++ [r])) := hd
      unfold NoSignAfterDiv at this ⊢
      rw [List.isChain_cons] at this
      exact (List.isChain_append.mp this.2).1
    exact ⟨⟨h1, h2, (ih h3 hd').1⟩, by simp [tight, Cst.rightEdge], by simp [tight, Cst.leftEdge]⟩
  | un t p c ih =>
    obtain ⟨⟨s, h1, h2⟩, h3, h4⟩ := hc
    have hd' : NoSignAfterDiv c.flatten := by
      have : NoSignAfterDiv (t :: c.flatten) := hd
      unfold NoSignAfterDiv at this ⊢
      exact (List.isChain_cons.mp this).2
    obtain ⟨i1, i2, i3⟩ := ih h3 hd'
    rw [unary_lib] at h2
    split at h2
    · rename_i hs
      obtain rfl := Option.some.inj h2
      have ht : t.kind = .sym .plus ∨ t.kind = .sym .minus := by
        rcases hs with rfl | rfl
        · exact Or.inl h1
        · exact Or.inr h1
      have he : ∀ q ∈ (tight c).leftEdge, q = 200 := fun q hq =>
        leftEdge_cases i1 q hq (i3 100 (by omega) h4 q hq)
      refine ⟨push_wf ht i1 he, ?_, ?_⟩
      · intro p hp hq q hq'
        simp only [Cst.rightEdge, List.mem_cons, forall_eq_or_imp] at hq
        rcases rightEdge_push t (tight c) q hq' with rfl | h
        · omega
        · exact i2 p hp hq.2 q h
      · intro p hp _ q hq'
        have := he q (leftEdge_push t _ q hq')
        omega
    · simp at h2
  | bin l t p r ihl ihr =>
    obtain ⟨⟨s, h1, h2⟩, h3, h4, h5, h6⟩ := hc
    have hd1 : NoSignAfterDiv l.flatten ∧ NoSignAfterDiv (t :: r.flatten) := by
      have : NoSignAfterDiv (l.flatten ++ t :: r.flatten) := hd
      unfold NoSignAfterDiv at this ⊢
      exact ⟨(List.isChain_append.mp this).1, (List.isChain_append.mp this).2.1⟩
    have hd2 : NoSignAfterDiv r.flatten := by
      have := hd1.2
      unfold NoSignAfterDiv at this ⊢
      exact (List.isChain_cons.mp this).2
    obtain ⟨l1, l2, l3⟩ := ihl h3 hd1.1
    obtain ⟨r1, r2, r3⟩ := ihr h4 hd2
    have hp : p ≤ 200 := by rcases binary_cases h2 with h | h | h | h <;> omega
    have hleaf : p = 200 → r.leftEdge = [] := by
      rintro rfl
      rw [List.eq_nil_iff_forall_not_mem]
      intro q hq
      have h7 := h6 q hq
      have : ∀ {c : Cst Sym Name}, c.WF libTable → ∀ q ∈ c.leftEdge, q ≤ 200 := by
        intro c hc
        induction c with
        | bin l' t' p' r' ih' _ =>
          obtain ⟨⟨s', k1, k2⟩, k3, -⟩ := hc
          intro q hq
          simp only [Cst.leftEdge, List.mem_cons] at hq
          rcases hq with rfl | hq
          · rcases binary_cases k2 with h | h | h | h <;> omega
          · exact ih' k3 q hq
        | _ => intro q hq; simp [Cst.leftEdge] at hq
      have := this h4 q hq
      omega
    rw [tight]
    split
    · rename_i ht
      have hs : s = .times := by rw [ht] at h1; simpa using h1.symm
      have hp200 : p = 200 := by
        subst hs
        have : libTable.binary .times = some 200 := rfl
        rw [this] at h2
        exact (Option.some.inj h2).symm
      subst hp200
      have he : ∀ q ∈ (tight r).leftEdge, q = 200 := fun q hq =>
        leftEdge_cases r1 q hq (r3 100 (by omega) (by simp [hleaf rfl]) q hq)
      refine ⟨rot_wf ht l1 (l2 200 le_rfl h5) r1 he, ?_, ?_⟩
      · intro P hP hq q hq'
        simp only [Cst.rightEdge, List.mem_cons, forall_eq_or_imp] at hq
        rcases rightEdge_rot _ t 200 (tight r) q hq' with rfl | h
        · exact hP
        · exact r2 P hP hq.2 q h
      · intro P hP hq q hq'
        simp only [Cst.leftEdge, List.mem_cons, forall_eq_or_imp] at hq
        rcases leftEdge_rot _ t 200 (tight r) q hq' with h | rfl | h
        · have := he q h; omega
        · exact hP
        · exact l3 P hP hq.2 q h
    · rename_i ht
      refine ⟨⟨⟨s, h1, by rw [binary_usual]; exact h2⟩, l1, r1, l2 p hp h5, ?_⟩, ?_, ?_⟩
      · by_cases hp' : p < 200
        · exact r3 p hp' h6
        · have hp200 : p = 200 := by omega
          subst hp200
          have hs : s = .div := by
            rcases binary_cases h2 with h | h | h | ⟨-, rfl | rfl⟩
            · omega
            · omega
            · omega
            · exact absurd h1 ht
            · rfl
          subst hs
          have hleaf := hleaf rfl
          cases r with
          | atom _ => simp [tight, Cst.leftEdge]
          | paren _ _ _ => simp [tight, Cst.leftEdge]
          | un t' p' c' =>
            exfalso
            obtain ⟨⟨s', k1, k2⟩, -⟩ := h4
            have := hd1.2
            unfold NoSignAfterDiv at this
            rw [Cst.flatten, List.isChain_cons_cons] at this
            obtain ⟨n1, n2⟩ := this.1 h1
            rw [unary_lib] at k2
            split at k2
            · rename_i hs
              rcases hs with rfl | rfl
              · exact n1 k1
              · exact n2 k1
            · simp at k2
          | bin _ _ _ _ => simp [Cst.leftEdge] at hleaf
      · intro P hP hq q hq'
        simp only [Cst.rightEdge, List.mem_cons, forall_eq_or_imp] at hq hq'
        rcases hq' with rfl | h
        · exact hq.1
        · exact r2 P hP hq.2 q h
      · intro P hP hq q hq'
        simp only [Cst.leftEdge, List.mem_cons, forall_eq_or_imp] at hq hq'
        rcases hq' with rfl | h
        · exact hq.1
        · exact l3 P hP hq.2 q h

/-! ### Meaning -/

section meaning
variable {K : Type} [Field K] [DecidableEq K]

/-- Two expressions that mean the same. -/
structure Same (K : Type) [Field K] [DecidableEq K] (e f : Ast Sym Name) : Prop where
  val : ∀ ρ num : Name → K, value ρ num e = value ρ num f
  isEq : isEq e = isEq f
  last : ∀ ρ num : Name → K, value ρ num (lastSide e) = value ρ num (lastSide f)
  first : ∀ ρ num : Name → K, value ρ num (firstSide e) = value ρ num (firstSide f)
  holds : ∀ ρ num : Name → K, Holds ρ num e ↔ Holds ρ num f

theorem sides_of_not {e : Ast Sym Name} (h : Spec.isEq e = false) : lastSide e = e ∧ firstSide e = e := by
  cases e with
  | bin t l r =>
    simp only [Spec.isEq, decide_eq_false_iff_not] at h
    exact ⟨by rw [lastSide, if_neg h], by rw [firstSide, if_neg h]⟩
  | _ => exact ⟨rfl, rfl⟩

theorem holds_arith {ρ num : Name → K} {e : Ast Sym Name} (h1 : Spec.isEq e = false) (h2 : isComma e = false) :
    Holds ρ num e ↔ value ρ num e = some 0 := by
  cases e with
  | bin t l r =>
    simp only [Spec.isEq, isComma, decide_eq_false_iff_not] at h1 h2
    rw [Holds, if_neg h2, if_neg h1]
  | _ => rfl

theorem Same.of_arith {e f : Ast Sym Name} (h : ∀ ρ num : Name → K, value ρ num e = value ρ num f)
    (e1 : Spec.isEq e = false) (e2 : isComma e = false) (f1 : Spec.isEq f = false) (f2 : isComma f = false) :
    Same K e f :=
  ⟨h, by rw [e1, f1], fun ρ num => by rw [(sides_of_not e1).1, (sides_of_not f1).1, h],
    fun ρ num => by rw [(sides_of_not e1).2, (sides_of_not f1).2, h],
    fun ρ num => by rw [holds_arith e1 e2, holds_arith f1 f2, h]⟩

theorem Same.refl (e : Ast Sym Name) : Same K e e := ⟨fun _ _ => rfl, rfl, fun _ _ => rfl, fun _ _ => rfl, fun _ _ => Iff.rfl⟩

theorem Same.trans {e f g : Ast Sym Name} (h1 : Same K e f) (h2 : Same K f g) : Same K e g :=
  ⟨fun ρ num => (h1.val ρ num).trans (h2.val ρ num), h1.isEq.trans h2.isEq,
    fun ρ num => (h1.last ρ num).trans (h2.last ρ num), fun ρ num => (h1.first ρ num).trans (h2.first ρ num),
    fun ρ num => (h1.holds ρ num).trans (h2.holds ρ num)⟩

theorem Same.un {e f : Ast Sym Name} (h : Same K e f) (t : Tok Sym Name) : Same K (.un t e) (.un t f) :=
  Same.of_arith (fun ρ num => by simp only [value, h.val]) rfl rfl rfl rfl

theorem Same.bin {e f e' f' : Ast Sym Name} (h : Same K e f) (h' : Same K e' f') (t : Tok Sym Name) :
    Same K (.bin t e e') (.bin t f f') := by
  have hv : ∀ ρ num : Name → K, value ρ num (.bin t e e') = value ρ num (.bin t f f') := by
    intro ρ num
    simp only [value, h.val, h'.val]
  refine ⟨hv, rfl, ?_, ?_, ?_⟩
  · intro ρ num
    rw [lastSide, lastSide]
    split
    · exact h'.last ρ num
    · exact hv ρ num
  · intro ρ num
    rw [firstSide, firstSide]
    split
    · exact h.first ρ num
    · exact hv ρ num
  · intro ρ num
    rw [Holds, Holds]
    split
    · rw [h.holds, h'.holds]
    · split
      · rw [h.holds, h'.holds, h.isEq, h'.isEq, h.last, h'.first]
      · rw [hv]

theorem kinds_200 {t : Tok Sym Name} (h : ∃ s, t.kind = .sym s ∧ usualTable.binary s = some 200) :
    t.kind = .sym .times ∨ t.kind = .sym .div := by
  obtain ⟨s, h1, h2⟩ := h
  rw [binary_usual] at h2
  rcases binary_cases h2 with h | h | h | ⟨-, rfl | rfl⟩
  · omega
  · omega
  · omega
  · exact Or.inl h1
  · exact Or.inr h1

theorem value_push {t : Tok Sym Name} (ht : t.kind = .sym .plus ∨ t.kind = .sym .minus) {c : Cst Sym Name}
    (hc : c.WF usualTable) (he : ∀ q ∈ c.leftEdge, q = 200) :
    Same K (push t c).toAst (.un t c.toAst) := by
  induction c with
  | bin l u p r ihl ihr =>
    obtain ⟨h1, h2, h3, h4, h5⟩ := hc
    have hp : p = 200 := he p (by simp [Cst.leftEdge])
    subst hp
    have ih := ihl h2 fun q hq => he q (by simp [Cst.leftEdge, hq])
    have hu := kinds_200 h1
    rw [push, if_pos rfl]
    simp only [Cst.toAst]
    refine Same.of_arith ?_ ?_ ?_ rfl rfl
    · intro ρ num
      simp only [value, ih.val]
      cases value ρ num l.toAst with
      | none => simp
      | some x =>
        cases value ρ num r.toAst with
        | none =>
          rcases ht with ht | ht <;> simp [ht]
        | some y =>
          rcases ht with ht | ht <;> rcases hu with hu | hu <;> simp [ht, hu]
          split <;> simp
          ring
    · rcases hu with hu | hu <;> simp [Spec.isEq, hu]
    · rcases hu with hu | hu <;> simp [isComma, hu]
  | _ => exact Same.refl _

theorem value_rot {l : Cst Sym Name} {t : Tok Sym Name} (ht : t.kind = .sym .times) {c : Cst Sym Name}
    (hc : c.WF usualTable) (he : ∀ q ∈ c.leftEdge, q = 200) :
    Same K (rot l t 200 c).toAst (.bin t l.toAst c.toAst) := by
  induction c with
  | bin rl u p r ihl ihr =>
    obtain ⟨h1, h2, h3, h4, h5⟩ := hc
    have hp : p = 200 := he p (by simp [Cst.leftEdge])
    subst hp
    have ih := ihl h2 fun q hq => he q (by simp [Cst.leftEdge, hq])
    have hu := kinds_200 h1
    rw [rot, if_pos rfl]
    simp only [Cst.toAst]
    refine Same.of_arith ?_ ?_ ?_ (by simp [Spec.isEq, ht]) (by simp [isComma, ht])
    · intro ρ num
      simp only [value, ih.val]
      cases value ρ num l.toAst with
      | none => simp
      | some x =>
        cases value ρ num rl.toAst with
        | none => simp
        | some y =>
          cases value ρ num r.toAst with
          | none => rcases hu with hu | hu <;> simp [ht]
          | some z =>
            rcases hu with hu | hu <;> simp [ht, hu]
            · ring
            · split <;> simp
              ring
    · rcases hu with hu | hu <;> simp [Spec.isEq, hu]
    · rcases hu with hu | hu <;> simp [isComma, hu]
  | _ => exact Same.refl _

theorem tight_same {c : Cst Sym Name} (hc : c.WF libTable) (hd : NoSignAfterDiv c.flatten) :
    Same K (tight c).toAst c.toAst := by
  induction c with
  | atom t => exact Same.refl _
  | paren l c r ih =>
    obtain ⟨h1, h2, h3⟩ := hc
    have hd' : NoSignAfterDiv c.flatten := by
      have : NoSignAfterDiv (l :: (c.flatten ++ [r])) := hd
      unfold NoSignAfterDiv at this ⊢
      rw [List.isChain_cons] at this
      exact (List.isChain_append.mp this.2).1
    exact ih h3 hd'
  | un t p c ih =>
    have hw := hc
    obtain ⟨⟨s, h1, h2⟩, h3, h4⟩ := hc
    have hd' : NoSignAfterDiv c.flatten := by
      have : NoSignAfterDiv (t :: c.flatten) := hd
      unfold NoSignAfterDiv at this ⊢
      exact (List.isChain_cons.mp this).2
    obtain ⟨i1, i2, i3⟩ := tight_wf h3 hd'
    rw [unary_lib] at h2
    split at h2
    · rename_i hs
      obtain rfl := Option.some.inj h2
      have ht : t.kind = .sym .plus ∨ t.kind = .sym .minus := by
        rcases hs with rfl | rfl
        · exact Or.inl h1
        · exact Or.inr h1
      have he : ∀ q ∈ (tight c).leftEdge, q = 200 := fun q hq =>
        leftEdge_cases i1 q hq (i3 100 (by omega) h4 q hq)
      exact (value_push ht i1 he).trans ((ih h3 hd').un t)
    · simp at h2
  | bin l t p r ihl ihr =>
    obtain ⟨⟨s, h1, h2⟩, h3, h4, h5, h6⟩ := hc
    have hd1 : NoSignAfterDiv l.flatten ∧ NoSignAfterDiv (t :: r.flatten) := by
      have : NoSignAfterDiv (l.flatten ++ t :: r.flatten) := hd
      unfold NoSignAfterDiv at this ⊢
      exact ⟨(List.isChain_append.mp this).1, (List.isChain_append.mp this).2.1⟩
    have hd2 : NoSignAfterDiv r.flatten := by
      have := hd1.2
      unfold NoSignAfterDiv at this ⊢
      exact (List.isChain_cons.mp this).2
    have hs := (ihl h3 hd1.1).bin (ihr h4 hd2) t
    rw [tight]
    split
    · rename_i ht
      have hst : s = .times := by rw [ht] at h1; simpa using h1.symm
      have hp200 : p = 200 := by
        subst hst
        have : libTable.binary .times = some 200 := rfl
        rw [this] at h2
        exact (Option.some.inj h2).symm
      subst hp200
      obtain ⟨r1, r2, r3⟩ := tight_wf h4 hd2
      have he : ∀ q ∈ (tight r).leftEdge, q = 200 := fun q hq =>
        leftEdge_cases r1 q hq (r3 100 (by omega) (fun q hq => by have := h6 q hq; omega) q hq)
      exact (value_rot ht r1 he).trans hs
    · exact hs

end meaning

end Patsy.Constraint
