import Verif.Spec.Blanks

/-!
# Brackets in `pretty_untokenize`
-/

namespace Patsy.Blanks

open Patsy.Tokens Patsy.Spec.Blanks

theorem level_append (a b : List Tok) : level (a ++ b) = level a + level b := by simp [level]

theorem level_cons (t : Tok) (a : List Tok) : level (t :: a) = weight t + level a := by simp [level]

theorem level_nil : level [] = 0 := rfl

/-- Balanced tokens. -/
def Bal (ts : List Tok) : Prop := level ts = 0 ∧ NeverNegative ts

theorem neverNegative_iff {ts : List Tok} : NeverNegative ts ↔ ∀ a b, ts = a ++ b → 0 ≤ level a := by
  constructor
  · rintro h a b rfl
    simpa using h a.length
  · intro h k
    exact h _ _ (ts.take_append_drop k).symm

theorem Bal.nil : Bal [] := ⟨rfl, by intro k; simp [level]⟩

theorem Bal.append {a b : List Tok} (ha : Bal a) (hb : Bal b) : Bal (a ++ b) := by
  refine ⟨by rw [level_append, ha.1, hb.1]; rfl, ?_⟩
  rw [neverNegative_iff]
  intro x y h
  rcases List.append_eq_append_iff.mp h with ⟨c, h1, h2⟩ | ⟨c, h1, h2⟩
  · rw [h1, level_append, ha.1]
    have := neverNegative_iff.mp hb.2 c y h2
    omega
  · exact neverNegative_iff.mp ha.2 x c h1

theorem Bal.one {t : Tok} (h : weight t = 0) : Bal [t] := by
  refine ⟨by simp [level, h], ?_⟩
  intro k
  cases k with
  | zero => simp [level]
  | succ k => simp [level, h]

theorem Bal.wrap {o c : Tok} {m : List Tok} (ho : weight o = 1) (hc : weight c = -1) (h : Bal m) : Bal (o :: m ++ [c]) := by
  refine ⟨by simp [level_append, level_cons, level_nil, ho, hc, h.1], ?_⟩
  rw [neverNegative_iff]
  intro x y hxy
  rcases List.append_eq_append_iff.mp hxy with ⟨d, h1, h2⟩ | ⟨d, h1, h2⟩
  · rw [h1, level_append, level_cons, h.1, ho]
    cases d with
    | nil => simp [level]
    | cons e d =>
      have : e = c ∧ d = [] := by
        cases d with
        | nil => simp at h2; exact ⟨h2.1.symm, rfl⟩
        | cons f d => simp at h2
      obtain ⟨rfl, rfl⟩ := this
      simp [level, hc]
  · cases x with
    | nil => simp [level]
    | cons e x =>
      simp only [List.cons_append, List.cons.injEq] at h1
      obtain ⟨rfl, h1⟩ := h1
      have := neverNegative_iff.mp h.2 x d h1
      rw [level_cons, ho]
      omega

/-- The stack `br` of open brackets after the tokens. -/
inductive Open : List String → List Tok → Prop
  | base {ts} : Bal ts → Open [] ts
  | open {br a b t m} : Open br a → ¬ Word t → t.2 = b → weight t = 1 → Bal m → Open (b :: br) (a ++ t :: m)

theorem Open.extend {br : List String} {a m : List Tok} (h : Open br a) (hm : Bal m) : Open br (a ++ m) := by
  cases h with
  | base h => exact .base (h.append hm)
  | «open» h1 h2 h3 h4 h5 =>
    rw [List.append_assoc, List.cons_append]
    exact .open h1 h2 h3 h4 (h5.append hm)

theorem Open.level {br : List String} {ts : List Tok} (h : Open br ts) : level ts = br.length := by
  induction h with
  | base h => simpa using h.1
  | «open» _ _ _ h4 h5 ih =>
    rw [level_append, level_cons, ih, h4, h5.1]
    simp

theorem weight_word {t : Tok} (h : Word t) : weight t = 0 := by simp [weight, h]

theorem weight_open {t : Tok} (h : ¬ Word t) : weight t = 1 ↔ t.2 = "(" ∨ t.2 = "[" ∨ t.2 = "{" := by
  unfold weight
  simp only [h, not_false_iff, true_and, List.mem_cons, List.not_mem_nil, or_false]
  split
  · simp_all
  · split <;> simp_all

theorem weight_close {t : Tok} (h : ¬ Word t) : weight t = -1 ↔ t.2 = ")" ∨ t.2 = "]" ∨ t.2 = "}" := by
  unfold weight
  simp only [h, not_false_iff, true_and, List.mem_cons, List.not_mem_nil, or_false]
  split
  · rename_i h1
    rcases h1 with h1 | h1 | h1 <;> simp [h1]
  · split <;> simp_all

/-- The stack is kept up to date. -/
theorem Open.push {br : List String} {ts : List Tok} (h : Open br ts) {t : Tok} (ht : ¬ Word t)
    (hn : 0 ≤ Spec.Blanks.level (ts ++ [t])) : Open (pushBracket br t.2) (ts ++ [t]) := by
  unfold pushBracket
  split
  · rename_i h1
    exact .open h ht rfl ((weight_open ht).mpr h1) .nil
  · rename_i h1
    split
    · rename_i h2
      have hw := (weight_close ht).mpr h2
      cases h with
      | base h =>
        rw [level_append, h.1, level_cons, hw, level_nil] at hn
        omega
      | «open» g1 g2 g3 g4 g5 =>
        have := g1.extend (g5.wrap g4 hw)
        simpa using this
    · rename_i h2
      apply h.extend (.one ?_)
      unfold weight
      rw [if_neg (by simpa [ht] using h1), if_neg (by simpa [ht] using h2)]

theorem Open.head {br : List String} {ts : List Tok} (h : Open br ts) (b : String) : br.head? = some b ↔ Inside b ts := by
  cases h with
  | base h =>
    simp only [List.head?_nil, false_iff, reduceCtorEq]
    rintro ⟨a, t, m, rfl, _, h2, h3, _⟩
    have h5 := h.1
    rw [level_append, level_cons, h2, h3] at h5
    have := neverNegative_iff.mp h.2 a _ rfl
    omega
  | @«open» br a b' t m h1 h2 h3 h4 h5 =>
    simp only [List.head?_cons, Option.some.injEq]
    constructor
    · rintro rfl
      exact ⟨a, t, m, rfl, ⟨h2, h3⟩, h4, h5.1, h5.2⟩
    · rintro ⟨a', t', m', he, hs, hw, hl, hn⟩
      rcases List.append_eq_append_iff.mp he with ⟨c, e1, e2⟩ | ⟨c, e1, e2⟩
      · cases c with
        | nil => simp at e2; rw [← h3, e2.1, hs.2]
        | cons x c =>
          simp only [List.cons_append, List.cons.injEq] at e2
          obtain ⟨rfl, e2⟩ := e2
          have h6 := h5.1
          rw [e2, level_append, level_cons, hw, hl] at h6
          have := neverNegative_iff.mp h5.2 c _ e2
          omega
      · cases c with
        | nil => simp at e2; rw [← h3, ← e2.1, hs.2]
        | cons x c =>
          simp only [List.cons_append, List.cons.injEq] at e2
          obtain ⟨rfl, e2⟩ := e2
          rw [e2, level_append, level_cons, h4, h5.1] at hl
          have := neverNegative_iff.mp hn c _ e2
          omega

end Patsy.Blanks
