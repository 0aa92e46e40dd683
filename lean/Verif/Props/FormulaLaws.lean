import Verif.Props.Meaning

/-! # C53: the algebra of formulas

Laws of the manual (doc/formulas.rst:118-199) for arbitrary subexpressions.  `Same a b`
says more than that both evaluate to the same terms: it also says that either both are
accepted or both are rejected. -/

set_option linter.unusedSectionVars false

namespace Patsy.Props

open Patsy.Infix Patsy.Desc Patsy.Spec Patsy.Util

variable {F : Type} [DecidableEq F] (mkFactor : String → Except Err F) (toInt : String → Option Int)

/-- The two expressions have the same meaning, or neither has one. -/
def Same (a b : FTree) : Prop := ∀ m : Meaning F, Means mkFactor toInt a m ↔ Means mkFactor toInt b m

/-- The expression does not remove the intercept. -/
def Keeps (a : FTree) : Prop := ∀ m : Meaning F, Means mkFactor toInt a m → m.vote ≠ some false

/-- The expression, if it has a meaning, consists of one term. -/
def OneTerm (a : FTree) : Prop :=
  ∀ m : Meaning F, Means mkFactor toInt a m → ∃ S, m.terms = {S} ∧ m.vote = none

variable {mkFactor toInt}

theorem Same.refl (a : FTree) : Same mkFactor toInt a a := fun _ => Iff.rfl
theorem Same.symm {a b : FTree} (h : Same mkFactor toInt a b) : Same mkFactor toInt b a := fun m => (h m).symm
theorem Same.trans {a b c : FTree} (h : Same mkFactor toInt a b) (h' : Same mkFactor toInt b c) :
    Same mkFactor toInt a c := fun m => (h m).trans (h' m)

theorem not_isLit_op {s t : String} {a b : FTree} (h : t ≠ s) : ¬ IsLit s (op t a b) := by
  simp [IsLit, op, Node.token, h]

/-! ### Inversion -/

theorem means_plus {a b : FTree} {m : Meaning F} (hb : ¬ IsLit "ZERO" b) :
    Means mkFactor toInt (op "+" a b) m ↔
      ∃ l r, Means mkFactor toInt a l ∧ Means mkFactor toInt b r ∧ m = l.plus r := by
  constructor
  · intro h
    cases h with
    | plusZero _ _ hz => exact absurd hz hb
    | plus _ ha hb' _ => exact ⟨_, _, ha, hb', rfl⟩
    | _ => simp_all
  · rintro ⟨l, r, ha, hb', rfl⟩
    exact .plus rfl ha hb' hb

theorem means_minus {a b : FTree} {m : Meaning F} (h0 : ¬ IsLit "ZERO" b) (h1 : ¬ IsLit "ONE" b) :
    Means mkFactor toInt (op "-" a b) m ↔
      ∃ l r, Means mkFactor toInt a l ∧ Means mkFactor toInt b r ∧ m = l.minus r := by
  constructor
  · intro h
    cases h with
    | minusZero _ _ hz => exact absurd hz h0
    | minusOne _ _ hz => exact absurd hz h1
    | minus _ ha hb' _ _ => exact ⟨_, _, ha, hb', rfl⟩
    | _ => simp_all
  · rintro ⟨l, r, ha, hb', rfl⟩
    exact .minus rfl ha hb' h0 h1

theorem means_colon {a b : FTree} {m : Meaning F} :
    Means mkFactor toInt (op ":" a b) m ↔
      ∃ l r, Means mkFactor toInt a l ∧ Means mkFactor toInt b r ∧ l.Interactable ∧ r.Interactable ∧
        m = l.colon r := by
  constructor
  · intro h
    cases h with
    | colon _ ha hb h1 h2 => exact ⟨_, _, ha, hb, h1, h2, rfl⟩
    | _ => simp_all
  · rintro ⟨l, r, ha, hb, h1, h2, rfl⟩
    exact .colon rfl ha hb h1 h2

theorem means_star {a b : FTree} {m : Meaning F} :
    Means mkFactor toInt (op "*" a b) m ↔
      ∃ l r, Means mkFactor toInt a l ∧ Means mkFactor toInt b r ∧ l.Interactable ∧ r.Interactable ∧
        m = l.star r := by
  constructor
  · intro h
    cases h with
    | star _ ha hb h1 h2 => exact ⟨_, _, ha, hb, h1, h2, rfl⟩
    | _ => simp_all
  · rintro ⟨l, r, ha, hb, h1, h2, rfl⟩
    exact .star rfl ha hb h1 h2

theorem means_slash {a b : FTree} {m : Meaning F} :
    Means mkFactor toInt (op "/" a b) m ↔
      ∃ l r, Means mkFactor toInt a l ∧ Means mkFactor toInt b r ∧ l.Interactable ∧ r.Interactable ∧
        m = l.slash r := by
  constructor
  · intro h
    cases h with
    | slash _ ha hb h1 h2 => exact ⟨_, _, ha, hb, h1, h2, rfl⟩
    | _ => simp_all
  · rintro ⟨l, r, ha, hb, h1, h2, rfl⟩
    exact .slash rfl ha hb h1 h2

theorem means_power {a b : FTree} {m : Meaning F} :
    Means mkFactor toInt (op "**" a b) m ↔
      ∃ l n, Means mkFactor toInt a l ∧ l.Interactable ∧ IsExponent toInt b n ∧ m = l.power n := by
  constructor
  · intro h
    cases h with
    | power _ ha h1 h2 => exact ⟨_, _, ha, h1, h2, rfl⟩
    | _ => simp_all
  · rintro ⟨l, n, ha, h1, h2, rfl⟩
    exact .power rfl ha h1 h2

theorem exponent_unique {b : FTree} {m n : ℕ} (h : IsExponent toInt b m) (h' : IsExponent toInt b n) :
    m = n := by
  obtain ⟨_, s, h1, h2, _⟩ := h
  obtain ⟨_, s', h1', h2', _⟩ := h'
  rw [h1] at h1'; cases h1'
  rw [h2] at h2'; simpa using h2'

/-! ### Sums and differences -/

/-- **C53**.  `a + (b + c)` is `(a + b) + c`, unless `b` or `c` is the literal `0`. -/
theorem plus_assoc (a b c : FTree) (hb : ¬ IsLit "ZERO" b) (hc : ¬ IsLit "ZERO" c) :
    Same mkFactor toInt (op "+" a (op "+" b c)) (op "+" (op "+" a b) c) := by
  have key : ∀ x y z : Meaning F, x.plus (y.plus z) = (x.plus y).plus z := by
    intro x y z
    unfold Meaning.plus
    ext1
    · exact (Set.union_assoc _ _ _).symm
    · dsimp only; by_cases h1 : z.vote = some true <;> by_cases h2 : y.vote = some true <;> simp [h1, h2]
  intro m
  rw [means_plus (not_isLit_op (by decide)), means_plus hc]
  constructor
  · rintro ⟨x, w, hx, hw, rfl⟩
    obtain ⟨y, z, hy, hz, rfl⟩ := (means_plus hc).mp hw
    exact ⟨_, z, (means_plus hb).mpr ⟨x, y, hx, hy, rfl⟩, hz, key _ _ _⟩
  · rintro ⟨w, z, hw, hz, rfl⟩
    obtain ⟨x, y, hx, hy, rfl⟩ := (means_plus hb).mp hw
    exact ⟨x, _, hx, (means_plus hc).mpr ⟨y, z, hy, hz, rfl⟩, (key _ _ _).symm⟩

/-- **C53**.  `a + b` is `b + a`, unless one of them removes the intercept. -/
theorem plus_comm (a b : FTree) (ha : ¬ IsLit "ZERO" a) (hb : ¬ IsLit "ZERO" b)
    (ka : Keeps mkFactor toInt a) (kb : Keeps mkFactor toInt b) :
    Same mkFactor toInt (op "+" a b) (op "+" b a) := by
  have key : ∀ x y : Meaning F, x.vote ≠ some false → y.vote ≠ some false → x.plus y = y.plus x := by
    intro x y hx hy
    unfold Meaning.plus
    ext1
    · exact Set.union_comm _ _
    · rcases x with ⟨_, _ | _ | _⟩ <;> rcases y with ⟨_, _ | _ | _⟩ <;> simp_all
  intro m
  rw [means_plus ha, means_plus hb]
  constructor
  · rintro ⟨x, y, hx, hy, rfl⟩; exact ⟨y, x, hy, hx, key _ _ (ka _ hx) (kb _ hy)⟩
  · rintro ⟨y, x, hy, hx, rfl⟩; exact ⟨x, y, hx, hy, key _ _ (kb _ hy) (ka _ hx)⟩

/-- **C53**.  "`a + a` is just `a`" (doc/formulas.rst:131). -/
theorem plus_self (a : FTree) (ha : ¬ IsLit "ZERO" a) : Same mkFactor toInt (op "+" a a) a := by
  have key : ∀ x : Meaning F, x.plus x = x := by
    intro x
    unfold Meaning.plus
    ext1
    · exact Set.union_self _
    · dsimp only; split <;> simp_all
  intro m
  rw [means_plus ha]
  constructor
  · rintro ⟨x, y, hx, hy, rfl⟩; rw [means_unique hy hx, key]; exact hx
  · intro h; exact ⟨m, m, h, h, (key m).symm⟩

/-- **C53**.  `a - b - c` is `a - (b + c)`. -/
theorem minus_plus (a b c : FTree) (hb : ¬ IsLit "ZERO" b) (hc : ¬ IsLit "ZERO" c) (hb' : ¬ IsLit "ONE" b)
    (hc' : ¬ IsLit "ONE" c) :
    Same mkFactor toInt (op "-" (op "-" a b) c) (op "-" a (op "+" b c)) := by
  have key : ∀ x y z : Meaning F, (x.minus y).minus z = x.minus (y.plus z) := by
    intro x y z
    unfold Meaning.plus Meaning.minus
    ext1
    · exact Set.sdiff_sdiff
    · dsimp only; by_cases h1 : z.vote = some true <;> by_cases h2 : y.vote = some true <;> simp [h1, h2]
  intro m
  rw [means_minus hc hc', means_minus (not_isLit_op (by decide)) (not_isLit_op (by decide))]
  constructor
  · rintro ⟨w, z, hw, hz, rfl⟩
    obtain ⟨x, y, hx, hy, rfl⟩ := (means_minus hb hb').mp hw
    exact ⟨x, _, hx, (means_plus hc).mpr ⟨y, z, hy, hz, rfl⟩, key _ _ _⟩
  · rintro ⟨x, w, hx, hw, rfl⟩
    obtain ⟨y, z, hy, hz, rfl⟩ := (means_plus hc).mp hw
    exact ⟨_, z, (means_minus hb hb').mpr ⟨x, y, hx, hy, rfl⟩, hz, (key _ _ _).symm⟩

/-- **C53**.  `a - a` has no terms. -/
theorem minus_self (a : FTree) (h0 : ¬ IsLit "ZERO" a) (h1 : ¬ IsLit "ONE" a) (m : Meaning F)
    (h : Means mkFactor toInt (op "-" a a) m) : m.terms = ∅ := by
  obtain ⟨x, y, hx, hy, rfl⟩ := (means_minus h0 h1).mp h
  rw [means_unique hy hx]
  exact Set.sdiff_self

/-! ### Interactions -/

theorem colon_interactable (x y : Meaning F) : (x.colon y).Interactable := by
  simp [Meaning.colon, Meaning.Interactable]

theorem star_interactable (x y : Meaning F) : (x.star y).Interactable := by
  simp [Meaning.star, Meaning.Interactable]

theorem slash_interactable (x y : Meaning F) : (x.slash y).Interactable := by
  simp [Meaning.slash, Meaning.Interactable]

theorem power_interactable (x : Meaning F) (n : ℕ) : (x.power n).Interactable := by
  simp [Meaning.power, Meaning.Interactable]

theorem plus_interactable {x y : Meaning F} :
    (x.plus y).Interactable ↔ x.Interactable ∧ y.Interactable := by
  unfold Meaning.plus Meaning.Interactable
  dsimp only
  by_cases h : y.vote = some true <;> simp [h]

theorem mcolon_comm (x y : Meaning F) : x.colon y = y.colon x := by
  unfold Meaning.colon
  ext1
  · ext U; constructor
    · rintro ⟨S, hS, T, hT, rfl⟩; exact ⟨T, hT, S, hS, Set.union_comm _ _⟩
    · rintro ⟨S, hS, T, hT, rfl⟩; exact ⟨T, hT, S, hS, Set.union_comm _ _⟩
  · rfl

theorem mcolon_assoc (x y z : Meaning F) : x.colon (y.colon z) = (x.colon y).colon z := by
  unfold Meaning.colon
  ext1
  · ext U; constructor
    · rintro ⟨S, hS, _, ⟨T, hT, V, hV, rfl⟩, rfl⟩
      exact ⟨_, ⟨S, hS, T, hT, rfl⟩, V, hV, (Set.union_assoc _ _ _).symm⟩
    · rintro ⟨_, ⟨S, hS, T, hT, rfl⟩, V, hV, rfl⟩
      exact ⟨S, hS, _, ⟨T, hT, V, hV, rfl⟩, Set.union_assoc _ _ _⟩
  · rfl

theorem colon_union_left (x y z : Meaning F) :
    ((x.plus y).colon z).terms = (x.colon z).terms ∪ (y.colon z).terms := by
  ext U
  simp only [Meaning.colon, Meaning.plus, Set.mem_ofPred_eq, Set.mem_union]
  constructor
  · rintro ⟨S, hS | hS, h⟩
    · exact Or.inl ⟨S, hS, h⟩
    · exact Or.inr ⟨S, hS, h⟩
  · rintro (⟨S, hS, h⟩ | ⟨S, hS, h⟩)
    · exact ⟨S, Or.inl hS, h⟩
    · exact ⟨S, Or.inr hS, h⟩

/-- **C53**.  `a:b` is `b:a`. -/
theorem colon_comm (a b : FTree) : Same mkFactor toInt (op ":" a b) (op ":" b a) := by
  intro m
  rw [means_colon, means_colon]
  constructor
  · rintro ⟨x, y, hx, hy, h1, h2, rfl⟩; exact ⟨y, x, hy, hx, h2, h1, mcolon_comm _ _⟩
  · rintro ⟨x, y, hx, hy, h1, h2, rfl⟩; exact ⟨y, x, hy, hx, h2, h1, mcolon_comm _ _⟩

/-- **C53**.  `a:(b:c)` is `(a:b):c`. -/
theorem colon_assoc (a b c : FTree) :
    Same mkFactor toInt (op ":" a (op ":" b c)) (op ":" (op ":" a b) c) := by
  intro m
  rw [means_colon, means_colon]
  constructor
  · rintro ⟨x, w, hx, hw, h1, _, rfl⟩
    obtain ⟨y, z, hy, hz, h2, h3, rfl⟩ := means_colon.mp hw
    exact ⟨_, z, means_colon.mpr ⟨x, y, hx, hy, h1, h2, rfl⟩, hz, colon_interactable _ _, h3, mcolon_assoc _ _ _⟩
  · rintro ⟨w, z, hw, hz, _, h3, rfl⟩
    obtain ⟨x, y, hx, hy, h1, h2, rfl⟩ := means_colon.mp hw
    exact ⟨x, _, hx, means_colon.mpr ⟨y, z, hy, hz, h2, h3, rfl⟩, h1, colon_interactable _ _,
      (mcolon_assoc _ _ _).symm⟩

/-- **C53**.  "`a:a` is just `a`" (doc/formulas.rst:172), for a single term. -/
theorem colon_self (a : FTree) (h : OneTerm mkFactor toInt a) : Same mkFactor toInt (op ":" a a) a := by
  have key : ∀ x : Meaning F, Means mkFactor toInt a x → x.colon x = x ∧ x.Interactable := by
    intro x hx
    obtain ⟨S, h1, h2⟩ := h x hx
    refine ⟨?_, by simp [Meaning.Interactable, h2]⟩
    unfold Meaning.colon
    ext1
    · ext U; simp [h1]
    · exact h2.symm
  intro m
  rw [means_colon]
  constructor
  · rintro ⟨x, y, hx, hy, _, _, rfl⟩; rw [means_unique hy hx, (key x hx).1]; exact hx
  · intro hm; exact ⟨m, m, hm, hm, (key m hm).2, (key m hm).2, (key m hm).1.symm⟩

/-- **C53**.  `(a + b):c` is `a:c + b:c`. -/
theorem colon_distrib_right (a b c : FTree) (hb : ¬ IsLit "ZERO" b) :
    Same mkFactor toInt (op ":" (op "+" a b) c) (op "+" (op ":" a c) (op ":" b c)) := by
  have key : ∀ x y z : Meaning F, (x.plus y).colon z = (x.colon z).plus (y.colon z) := by
    intro x y z
    ext1
    · exact colon_union_left x y z
    · simp [Meaning.colon, Meaning.plus]
  intro m
  rw [means_colon, means_plus (not_isLit_op (by decide))]
  constructor
  · rintro ⟨w, z, hw, hz, h1, h2, rfl⟩
    obtain ⟨x, y, hx, hy, rfl⟩ := (means_plus hb).mp hw
    obtain ⟨i1, i2⟩ := plus_interactable.mp h1
    exact ⟨_, _, means_colon.mpr ⟨x, z, hx, hz, i1, h2, rfl⟩, means_colon.mpr ⟨y, z, hy, hz, i2, h2, rfl⟩, key _ _ _⟩
  · rintro ⟨_, _, h1, h2, rfl⟩
    obtain ⟨x, z, hx, hz, i1, i2, rfl⟩ := means_colon.mp h1
    obtain ⟨y, z', hy, hz', j1, _, rfl⟩ := means_colon.mp h2
    cases means_unique hz hz'
    exact ⟨_, z, (means_plus hb).mpr ⟨x, y, hx, hy, rfl⟩, hz, plus_interactable.mpr ⟨i1, j1⟩, i2, (key _ _ _).symm⟩

/-! ### Products -/

theorem mstar_comm (x y : Meaning F) : x.star y = y.star x := by
  unfold Meaning.star
  ext1
  · dsimp only; rw [mcolon_comm, Set.union_comm x.terms]
  · rfl

theorem mem_star {x y : Meaning F} {U : Set F} :
    U ∈ (x.star y).terms ↔ U ∈ x.terms ∨ U ∈ y.terms ∨ ∃ S ∈ x.terms, ∃ T ∈ y.terms, U = S ∪ T := by
  simp only [Meaning.star, Meaning.colon, Set.mem_union, Set.mem_ofPred_eq, or_assoc]

theorem mstar_assoc (x y z : Meaning F) : x.star (y.star z) = (x.star y).star z := by
  ext1
  · ext U
    rw [mem_star (x := x) (y := y.star z), mem_star (x := x.star y) (y := z)]
    constructor
    · rintro (h | h | ⟨S, hS, T, hT, rfl⟩)
      · exact Or.inl (mem_star.mpr (Or.inl h))
      · rcases mem_star.mp h with h | h | ⟨S, hS, T, hT, rfl⟩
        · exact Or.inl (mem_star.mpr (Or.inr (Or.inl h)))
        · exact Or.inr (Or.inl h)
        · exact Or.inr (Or.inr ⟨S, mem_star.mpr (Or.inr (Or.inl hS)), T, hT, rfl⟩)
      · rcases mem_star.mp hT with h | h | ⟨V, hV, W, hW, rfl⟩
        · exact Or.inl (mem_star.mpr (Or.inr (Or.inr ⟨S, hS, T, h, rfl⟩)))
        · exact Or.inr (Or.inr ⟨S, mem_star.mpr (Or.inl hS), T, h, rfl⟩)
        · exact Or.inr (Or.inr ⟨_, mem_star.mpr (Or.inr (Or.inr ⟨S, hS, V, hV, rfl⟩)), W, hW,
            (Set.union_assoc _ _ _).symm⟩)
    · rintro (h | h | ⟨S, hS, T, hT, rfl⟩)
      · rcases mem_star.mp h with h | h | ⟨S, hS, T, hT, rfl⟩
        · exact Or.inl h
        · exact Or.inr (Or.inl (mem_star.mpr (Or.inl h)))
        · exact Or.inr (Or.inr ⟨S, hS, T, mem_star.mpr (Or.inl hT), rfl⟩)
      · exact Or.inr (Or.inl (mem_star.mpr (Or.inr (Or.inl h))))
      · rcases mem_star.mp hS with h | h | ⟨V, hV, W, hW, rfl⟩
        · exact Or.inr (Or.inr ⟨S, h, T, mem_star.mpr (Or.inr (Or.inl hT)), rfl⟩)
        · exact Or.inr (Or.inl (mem_star.mpr (Or.inr (Or.inr ⟨S, h, T, hT, rfl⟩))))
        · exact Or.inr (Or.inr ⟨V, hV, _, mem_star.mpr (Or.inr (Or.inr ⟨W, hW, T, hT, rfl⟩)), Set.union_assoc _ _ _⟩)
  · rfl

/-- **C53**.  `a*b` is `b*a`. -/
theorem star_comm (a b : FTree) : Same mkFactor toInt (op "*" a b) (op "*" b a) := by
  intro m
  rw [means_star, means_star]
  constructor
  · rintro ⟨x, y, hx, hy, h1, h2, rfl⟩; exact ⟨y, x, hy, hx, h2, h1, mstar_comm _ _⟩
  · rintro ⟨x, y, hx, hy, h1, h2, rfl⟩; exact ⟨y, x, hy, hx, h2, h1, mstar_comm _ _⟩

/-- **C53**.  `a*(b*c)` is `(a*b)*c`. -/
theorem star_assoc (a b c : FTree) :
    Same mkFactor toInt (op "*" a (op "*" b c)) (op "*" (op "*" a b) c) := by
  intro m
  rw [means_star, means_star]
  constructor
  · rintro ⟨x, w, hx, hw, h1, _, rfl⟩
    obtain ⟨y, z, hy, hz, h2, h3, rfl⟩ := means_star.mp hw
    exact ⟨_, z, means_star.mpr ⟨x, y, hx, hy, h1, h2, rfl⟩, hz, star_interactable _ _, h3, mstar_assoc _ _ _⟩
  · rintro ⟨w, z, hw, hz, _, h3, rfl⟩
    obtain ⟨x, y, hx, hy, h1, h2, rfl⟩ := means_star.mp hw
    exact ⟨x, _, hx, means_star.mpr ⟨y, z, hy, hz, h2, h3, rfl⟩, h1, star_interactable _ _,
      (mstar_assoc _ _ _).symm⟩

/-- **C53**.  "`a * b` is short-hand for `a + b + a:b`" (doc/formulas.rst:139), unless `a`
removes the intercept or `b` is the literal `0`. -/
theorem star_expand (a b : FTree) (ka : Keeps mkFactor toInt a) (hb : ¬ IsLit "ZERO" b) :
    Same mkFactor toInt (op "*" a b) (op "+" (op "+" a b) (op ":" a b)) := by
  have key : ∀ x y : Meaning F, x.vote ≠ some false → x.Interactable → y.Interactable →
      x.star y = (x.plus y).plus (x.colon y) := by
    intro x y h1 h2 h3
    unfold Meaning.Interactable at *
    ext1
    · rfl
    · simp only [Meaning.star, Meaning.plus, Meaning.colon]
      rcases x with ⟨_, _ | _ | _⟩ <;> simp_all
  intro m
  rw [means_star, means_plus (not_isLit_op (by decide))]
  constructor
  · rintro ⟨x, y, hx, hy, h1, h2, rfl⟩
    exact ⟨_, _, (means_plus hb).mpr ⟨x, y, hx, hy, rfl⟩, means_colon.mpr ⟨x, y, hx, hy, h1, h2, rfl⟩,
      key _ _ (ka _ hx) h1 h2⟩
  · rintro ⟨_, _, h1, h2, rfl⟩
    obtain ⟨x, y, hx, hy, rfl⟩ := (means_plus hb).mp h1
    obtain ⟨x', y', hx', hy', i1, i2, rfl⟩ := means_colon.mp h2
    cases means_unique hx hx'; cases means_unique hy hy'
    exact ⟨x, y, hx, hy, i1, i2, (key _ _ (ka _ hx) i1 i2).symm⟩

/-! ### Nesting -/

theorem mem_slash {x y : Meaning F} {U : Set F} :
    U ∈ (x.slash y).terms ↔ U ∈ x.terms ∨ ∃ T ∈ y.terms, U = ⋃₀ x.terms ∪ T := Iff.rfl

theorem sUnion_slash (x y : Meaning F) : ⋃₀ (x.slash y).terms = ⋃₀ x.terms ∪ ⋃₀ y.terms := by
  ext f
  simp only [Set.mem_sUnion, Set.mem_union, mem_slash]
  constructor
  · rintro ⟨U, h | ⟨T, hT, rfl⟩, hf⟩
    · exact Or.inl ⟨U, h, hf⟩
    · rcases hf with hf | hf
      · exact Or.inl (by simpa using hf)
      · exact Or.inr ⟨T, hT, hf⟩
  · rintro (⟨U, h, hf⟩ | ⟨T, hT, hf⟩)
    · exact ⟨U, Or.inl h, hf⟩
    · exact ⟨_, Or.inr ⟨T, hT, rfl⟩, Or.inr hf⟩

theorem mslash_assoc (x y z : Meaning F) : x.slash (y.slash z) = (x.slash y).slash z := by
  ext1
  · ext U
    rw [mem_slash, mem_slash, sUnion_slash]
    constructor
    · rintro (h | ⟨T, hT, rfl⟩)
      · exact Or.inl (mem_slash.mpr (Or.inl h))
      · rcases mem_slash.mp hT with h | ⟨V, hV, rfl⟩
        · exact Or.inl (mem_slash.mpr (Or.inr ⟨T, h, rfl⟩))
        · exact Or.inr ⟨V, hV, (Set.union_assoc _ _ _).symm⟩
    · rintro (h | ⟨V, hV, rfl⟩)
      · rcases mem_slash.mp h with h | ⟨T, hT, rfl⟩
        · exact Or.inl h
        · exact Or.inr ⟨T, mem_slash.mpr (Or.inl hT), rfl⟩
      · exact Or.inr ⟨_, mem_slash.mpr (Or.inr ⟨V, hV, rfl⟩), Set.union_assoc _ _ _⟩
  · rfl

/-- **C53**.  `a/(b/c)` is `(a/b)/c`. -/
theorem slash_assoc (a b c : FTree) :
    Same mkFactor toInt (op "/" a (op "/" b c)) (op "/" (op "/" a b) c) := by
  intro m
  rw [means_slash, means_slash]
  constructor
  · rintro ⟨x, w, hx, hw, h1, _, rfl⟩
    obtain ⟨y, z, hy, hz, h2, h3, rfl⟩ := means_slash.mp hw
    exact ⟨_, z, means_slash.mpr ⟨x, y, hx, hy, h1, h2, rfl⟩, hz, slash_interactable _ _, h3, mslash_assoc _ _ _⟩
  · rintro ⟨w, z, hw, hz, _, h3, rfl⟩
    obtain ⟨x, y, hx, hy, h1, h2, rfl⟩ := means_slash.mp hw
    exact ⟨x, _, hx, means_slash.mpr ⟨y, z, hy, hz, h2, h3, rfl⟩, h1, slash_interactable _ _,
      (mslash_assoc _ _ _).symm⟩

/-- **C53**.  "`/` is rightward distributive over `+`" (doc/formulas.rst:151): `a/(b + c)` is
`a/b + a/c`. -/
theorem slash_distrib (a b c : FTree) (hc : ¬ IsLit "ZERO" c) :
    Same mkFactor toInt (op "/" a (op "+" b c)) (op "+" (op "/" a b) (op "/" a c)) := by
  have key : ∀ x y z : Meaning F, x.slash (y.plus z) = (x.slash y).plus (x.slash z) := by
    intro x y z
    ext1
    · ext U
      simp only [Meaning.slash, Meaning.plus, Set.mem_union, Set.mem_ofPred_eq]
      constructor
      · rintro (h | ⟨T, hT | hT, rfl⟩)
        · exact Or.inl (Or.inl h)
        · exact Or.inl (Or.inr ⟨T, hT, rfl⟩)
        · exact Or.inr (Or.inr ⟨T, hT, rfl⟩)
      · rintro ((h | ⟨T, hT, rfl⟩) | (h | ⟨T, hT, rfl⟩))
        · exact Or.inl h
        · exact Or.inr ⟨T, Or.inl hT, rfl⟩
        · exact Or.inl h
        · exact Or.inr ⟨T, Or.inr hT, rfl⟩
    · simp [Meaning.slash, Meaning.plus]
  intro m
  rw [means_slash, means_plus (not_isLit_op (by decide))]
  constructor
  · rintro ⟨x, w, hx, hw, h1, h2, rfl⟩
    obtain ⟨y, z, hy, hz, rfl⟩ := (means_plus hc).mp hw
    obtain ⟨i1, i2⟩ := plus_interactable.mp h2
    exact ⟨_, _, means_slash.mpr ⟨x, y, hx, hy, h1, i1, rfl⟩, means_slash.mpr ⟨x, z, hx, hz, h1, i2, rfl⟩, key _ _ _⟩
  · rintro ⟨_, _, h1, h2, rfl⟩
    obtain ⟨x, y, hx, hy, i1, i2, rfl⟩ := means_slash.mp h1
    obtain ⟨x', z, hx', hz, _, j2, rfl⟩ := means_slash.mp h2
    cases means_unique hx hx'
    exact ⟨x, _, hx, (means_plus hc).mpr ⟨y, z, hy, hz, rfl⟩, i1, plus_interactable.mpr ⟨i2, j2⟩, (key _ _ _).symm⟩

/-- **C53**.  "`a / b` is shorthand for `a + a:b`" (doc/formulas.rst:145), when `a` is a
single term. -/
theorem slash_expand (a b : FTree) (h : OneTerm mkFactor toInt a) :
    Same mkFactor toInt (op "/" a b) (op "+" a (op ":" a b)) := by
  have key : ∀ x y : Meaning F, Means mkFactor toInt a x → x.slash y = x.plus (x.colon y) := by
    intro x y hx
    obtain ⟨S, h1, h2⟩ := h x hx
    ext1
    · ext U; simp [Meaning.slash, Meaning.plus, Meaning.colon, h1]
    · simp [Meaning.slash, Meaning.plus, Meaning.colon, h2]
  intro m
  rw [means_slash, means_plus (not_isLit_op (by decide))]
  constructor
  · rintro ⟨x, y, hx, hy, h1, h2, rfl⟩
    exact ⟨x, _, hx, means_colon.mpr ⟨x, y, hx, hy, h1, h2, rfl⟩, key _ _ hx⟩
  · rintro ⟨x, _, hx, h2, rfl⟩
    obtain ⟨x', y, hx', hy, i1, i2, rfl⟩ := means_colon.mp h2
    cases means_unique hx hx'
    exact ⟨x, y, hx, hy, i1, i2, (key _ _ hx).symm⟩

/-- **C53**.  "`(a + b)/c` is equivalent to `a + b + a:b:c`" (doc/formulas.rst:155), when
`a` and `b` are single terms. -/
theorem slash_two (a b c : FTree) (ha : OneTerm mkFactor toInt a) (hb : OneTerm mkFactor toInt b)
    (hb0 : ¬ IsLit "ZERO" b) :
    Same mkFactor toInt (op "/" (op "+" a b) c) (op "+" (op "+" a b) (op ":" (op ":" a b) c)) := by
  have key : ∀ x y z : Meaning F, Means mkFactor toInt a x → Means mkFactor toInt b y →
      (x.plus y).slash z = (x.plus y).plus ((x.colon y).colon z) := by
    intro x y z hx hy
    obtain ⟨S, h1, h2⟩ := ha x hx
    obtain ⟨T, h3, h4⟩ := hb y hy
    ext1
    · ext U
      simp [Meaning.slash, Meaning.plus, Meaning.colon, h1, h3, Set.union_comm T S]
    · simp [Meaning.slash, Meaning.plus, Meaning.colon, h2, h4]
  intro m
  rw [means_slash, means_plus (not_isLit_op (by decide))]
  constructor
  · rintro ⟨w, z, hw, hz, h1, h2, rfl⟩
    obtain ⟨x, y, hx, hy, rfl⟩ := (means_plus hb0).mp hw
    obtain ⟨i1, i2⟩ := plus_interactable.mp h1
    exact ⟨_, _, hw, means_colon.mpr ⟨_, z, means_colon.mpr ⟨x, y, hx, hy, i1, i2, rfl⟩, hz,
      colon_interactable _ _, h2, rfl⟩, key _ _ _ hx hy⟩
  · rintro ⟨w, _, hw, h2, rfl⟩
    obtain ⟨x, y, hx, hy, rfl⟩ := (means_plus hb0).mp hw
    obtain ⟨_, z, hc, hz, _, i2, rfl⟩ := means_colon.mp h2
    obtain ⟨x', y', hx', hy', j1, j2, rfl⟩ := means_colon.mp hc
    cases means_unique hx hx'; cases means_unique hy hy'
    exact ⟨_, z, hw, hz, plus_interactable.mpr ⟨j1, j2⟩, i2, (key _ _ _ hx hy).symm⟩

end Patsy.Props
