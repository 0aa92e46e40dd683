import Verif.Spec.Tokens
import Verif.Lemmas.Infix

/-! Helper lemmas for the formula tokenizer and the token printer. -/

namespace Patsy.Tokens

open Patsy.Infix Patsy.Spec

theorem bracketLevel_some {lvl lvl' : Nat} {s : String} (h : bracketLevel lvl s = some lvl') :
    (lvl' : Int) = lvl + bracket s := by
  unfold bracketLevel at h
  unfold bracket
  simp only [List.mem_cons, List.not_mem_nil, or_false]
  split at h
  · rename_i h1
    simp at h; subst h
    rw [if_pos h1]; simp
  · rename_i h1
    rw [if_neg h1]
    split at h
    · rename_i h2
      rw [if_pos h2]
      cases lvl with
      | zero => simp at h
      | succ l => simp at h; subst h; simp; omega
    · rename_i h2
      rw [if_neg h2]
      simp at h; subst h; simp

theorem bracketLevel_none {lvl : Nat} {s : String} (h : bracketLevel lvl s = none) :
    (lvl : Int) + bracket s < 0 := by
  unfold bracketLevel at h
  unfold bracket
  simp only [List.mem_cons, List.not_mem_nil, or_false]
  split at h
  · simp at h
  · rename_i h1
    rw [if_neg h1]
    split at h
    · rename_i h2
      rw [if_pos h2]
      cases lvl with
      | zero => simp
      | succ l => simp at h
    · simp at h

theorem depth_nil : depth [] = 0 := rfl
theorem depth_cons (t : PyTok) (ts : List PyTok) : depth (t :: ts) = bracket t.str + depth ts := by
  simp [depth]

/-- What the loop guarantees about what it read. -/
structure Read (ends : List String) (lvl : Nat) (e rest : List PyTok) (l : Nat) : Prop where
  level : (l : Int) = lvl + depth e
  nonneg : ∀ p s, e = p ++ s → 0 ≤ (lvl : Int) + depth p
  no_end : ∀ p t s, e = p ++ t :: s → (lvl : Int) + depth p = 0 → t.str ∉ ends
  stop : ∀ t ∈ rest.head?, l = 0 ∧ t.str ∈ ends

theorem readLoop_ok {ends : List String} {lvl : Nat} {ts e rest : List PyTok} {l : Nat}
    (h : readLoop ends lvl ts = .ok (e, rest, l)) : Read ends lvl e rest l := by
  induction ts generalizing lvl e with
  | nil =>
    simp [readLoop] at h
    obtain ⟨rfl, rfl, rfl⟩ := h
    refine ⟨by simp [depth], ?_, ?_, by simp⟩
    · intro p s hp
      have : p = [] := by simp at hp; exact hp.1
      subst this; simp [depth]
    · intro p t s hp; simp at hp
  | cons t ts ih =>
    rw [readLoop] at h
    split at h
    · rename_i hc
      simp at h; obtain ⟨rfl, rfl, rfl⟩ := h
      refine ⟨by simp [depth], ?_, ?_, ?_⟩
      · intro p s hp
        have : p = [] := by simp at hp; exact hp.1
        subst this; simp [depth]
      · intro p t s hp; simp at hp
      · intro u hu; simp at hu; subst hu; exact hc
    · rename_i hc
      split at h
      · simp at h
      · rename_i lvl' hb
        split at h
        · rename_i e' rest' l' heq
          simp at h
          obtain ⟨rfl, rfl, rfl⟩ := h
          have := ih heq
          have hl := bracketLevel_some hb
          refine ⟨?_, ?_, ?_, this.stop⟩
          · rw [this.level, depth_cons]; omega
          · intro p s hp
            cases p with
            | nil => simp [depth]
            | cons x p =>
              simp only [List.cons_append, List.cons.injEq] at hp
              obtain ⟨rfl, hp⟩ := hp
              have := this.nonneg p s hp
              rw [depth_cons]; omega
          · intro p u s hp h0
            cases p with
            | nil =>
              simp only [List.nil_append, List.cons.injEq] at hp
              obtain ⟨rfl, hp⟩ := hp
              simp only [depth_nil] at h0
              exact fun hm => hc ⟨by omega, hm⟩
            | cons x p =>
              simp only [List.cons_append, List.cons.injEq] at hp
              obtain ⟨rfl, hp⟩ := hp
              rw [depth_cons] at h0
              exact this.no_end p u s hp (by omega)
        · simp at h

theorem readLoop_complete {ends : List String} {lvl : Nat} {e rest : List PyTok} {l : Nat}
    (h : Read ends lvl e rest l) : readLoop ends lvl (e ++ rest) = .ok (e, rest, l) := by
  induction e generalizing lvl with
  | nil =>
    have hl := h.level
    simp only [depth_nil] at hl
    have : l = lvl := by omega
    subst this
    cases rest with
    | nil => rfl
    | cons t rest =>
      have := h.stop t (by simp)
      simp [readLoop, this]
  | cons t e ih =>
    simp only [List.cons_append]
    rw [readLoop]
    have h1 := h.nonneg [t] e rfl
    rw [depth_cons, depth_nil] at h1
    have h2 : ¬ (lvl = 0 ∧ t.str ∈ ends) := fun hc =>
      h.no_end [] t e rfl (by simp [depth, hc.1]) hc.2
    rw [if_neg h2]
    cases hb : bracketLevel lvl t.str with
    | none => have := bracketLevel_none hb; omega
    | some lvl' =>
      have hl := bracketLevel_some hb
      have hr : Read ends lvl' e rest l := by
        refine ⟨?_, ?_, ?_, h.stop⟩
        · have := h.level; rw [depth_cons] at this; omega
        · intro p s hp
          have := h.nonneg (t :: p) s (by simp [hp])
          rw [depth_cons] at this; omega
        · intro p u s hp h0
          exact h.no_end (t :: p) u s (by simp [hp]) (by rw [depth_cons]; omega)
      simp [ih hr]

theorem readLoop_error {ends : List String} {lvl : Nat} {ts : List PyTok} {err : Err}
    (h : readLoop ends lvl ts = .error err) : err = .patsyError := by
  induction ts generalizing lvl with
  | nil => simp [readLoop] at h
  | cons t ts ih =>
    rw [readLoop] at h
    split at h
    · simp at h
    · split at h
      · simp at h; exact h.symm
      · split at h
        · simp at h
        · rename_i heq
          simp at h; subst h
          exact ih heq

/-! ### The printer -/

theorem isWord_iff (t : PyType) : isWord t = true ↔ IsWord t := by
  cases t <;> simp [isWord, IsWord]

/-- Tokens that are not printed. -/
def printed (ts : List (PyType × String)) : List (PyType × String) :=
  ts.filter fun t => t.1 ≠ .newline ∧ t.1 ≠ .endmarker

theorem untokLoop_spec (ts : List (PyType × String)) (s : UState)
    (h : ∀ t ∈ ts, t.1 ≠ .indent ∧ t.1 ≠ .dedent ∧ t.1 ≠ .nl) :
    ∃ text, untokLoop s ts = .ok text ∧
      Spaced s.prevWasSpaceDelim (printed ts) (String.join text).toList := by
  induction ts generalizing s with
  | nil => exact ⟨[], rfl, by simp [printed, String.join]; exact .nil _⟩
  | cons t ts ih =>
    obtain ⟨type, tok⟩ := t
    have h0 := h (type, tok) (by simp)
    have h1 : ¬ (type = .indent ∨ type = .dedent ∨ type = .nl) := by
      simp only [not_or]; exact h0
    have h' : ∀ t ∈ ts, t.1 ≠ .indent ∧ t.1 ≠ .dedent ∧ t.1 ≠ .nl := fun t ht => h t (by simp [ht])
    by_cases h2 : type = .newline ∨ type = .endmarker
    · obtain ⟨text, e1, e2⟩ := ih s h'
      refine ⟨text, by simp [untokLoop, h1, h2, e1], ?_⟩
      have : printed ((type, tok) :: ts) = printed ts := by
        rcases h2 with rfl | rfl <;> simp [printed]
      rw [this]; exact e2
    · obtain ⟨text, e1, e2⟩ := ih (untokStep s type tok).2 h'
      have hp : printed ((type, tok) :: ts) = (type, tok) :: printed ts := by
        simp only [not_or] at h2
        simp [printed, h2]
      refine ⟨(if (untokStep s type tok).1 then [" "] else []) ++ [tok] ++ text,
        by simp [untokLoop, h1, h2, e1], ?_⟩
      rw [hp]
      have hw : (untokStep s type tok).2.prevWasSpaceDelim = isWord type := by
        unfold untokStep
        cases isWord type <;> simp
      rw [hw] at e2
      have hj : ∀ l : List String, (String.join l).toList = (l.map String.toList).flatten := by
        intro l
        rw [String.toList_join, List.flatMap_def]
      rw [hj] at e2 ⊢
      cases hb : (untokStep s type tok).1 with
      | true =>
        simpa using Spaced.blank s.prevWasSpaceDelim type tok (printed ts) _ (isWord type) (isWord_iff type) e2
      | false =>
        have hnot : ¬ (s.prevWasSpaceDelim = true ∧ isWord type = true) := by
          rintro ⟨a, b⟩
          simp [untokStep, a, b] at hb
        simpa using Spaced.tight s.prevWasSpaceDelim type tok (printed ts) _ (isWord type) (isWord_iff type) hnot e2

end Patsy.Tokens
