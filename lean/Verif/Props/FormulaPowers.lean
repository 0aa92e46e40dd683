import Mathlib.Algebra.Order.BigOperators.Group.Finset
import Verif.Props.FormulaLaws

/-! # C53: powers, contexts, and whole models -/

set_option linter.unusedSectionVars false

namespace Patsy.Props

open Patsy.Infix Patsy.Desc Patsy.Spec Patsy.Util

variable {F : Type} [DecidableEq F] {mkFactor : String → Except Err F} {toInt : String → Option Int}

/-! ### Powers -/

theorem mem_power {x : Meaning F} {n : ℕ} {U : Set F} :
    U ∈ (x.power n).terms ↔
      ∃ X : Finset (Set F), ↑X ⊆ x.terms ∧ X.Nonempty ∧ X.card ≤ n ∧ U = ⋃₀ (X : Set (Set F)) := by
  simp only [Meaning.power, Set.mem_ofPred_eq]
  constructor
  · rintro ⟨X, h1, h2, h3, rfl⟩
    have hfin : X.Finite := Set.finite_of_encard_le_coe h3
    rw [hfin.encard_eq_coe_toFinset_card] at h3
    exact ⟨hfin.toFinset, by simpa using h1, by simpa using h2, by exact_mod_cast h3, by simp⟩
  · rintro ⟨X, h1, h2, h3, rfl⟩
    exact ⟨X, h1, by simpa using h2, by rw [Set.encard_coe_eq_coe_finsetCard]; exact_mod_cast h3, rfl⟩

theorem mem_power_of {x : Meaning F} {n : ℕ} {X : Finset (Set F)} (h1 : ↑X ⊆ x.terms) (h2 : X.Nonempty)
    (h3 : X.card ≤ n) : ⋃₀ (X : Set (Set F)) ∈ (x.power n).terms := mem_power.mpr ⟨X, h1, h2, h3, rfl⟩

theorem power_mono {x : Meaning F} {m n : ℕ} (h : m ≤ n) : (x.power m).terms ⊆ (x.power n).terms := by
  intro U hU
  obtain ⟨X, h1, h2, h3, rfl⟩ := mem_power.mp hU
  exact mem_power_of h1 h2 (h3.trans h)

/-- Grouping: a union of at most `m * n` sets is a union of at most `n` unions of at most
`m` of them. -/
theorem grouping {x : Meaning F} {m : ℕ} (hm : 1 ≤ m) (n : ℕ) (hn : 1 ≤ n) :
    ∀ Y : Finset (Set F), ↑Y ⊆ x.terms → Y.Nonempty → Y.card ≤ m * n →
      ∃ X : Finset (Set F), ↑X ⊆ (x.power m).terms ∧ X.Nonempty ∧ X.card ≤ n ∧
        ⋃₀ (X : Set (Set F)) = ⋃₀ (Y : Set (Set F)) := by
  classical
  induction n, hn using Nat.le_induction with
  | base =>
    intro Y h1 h2 h3
    exact ⟨{⋃₀ (Y : Set (Set F))}, by simpa using mem_power_of h1 h2 (by simpa using h3), by simp, by simp, by simp⟩
  | succ n hn ih =>
    intro Y h1 h2 h3
    by_cases hc : Y.card ≤ m * n
    · obtain ⟨X, k1, k2, k3, k4⟩ := ih Y h1 h2 hc
      exact ⟨X, k1, k2, by omega, k4⟩
    · have hmn : m ≤ m * n := Nat.le_mul_of_pos_right m (by omega)
      obtain ⟨Z, hZ, hZc⟩ := Finset.exists_subset_card_eq (s := Y) (n := m) (by omega)
      have hd : (Y \ Z).card = Y.card - m := by rw [Finset.card_sdiff_of_subset hZ, hZc]
      rw [Nat.mul_add, Nat.mul_one] at h3
      obtain ⟨X, k1, k2, k3, k4⟩ := ih (Y \ Z) (fun s hs => h1 (Finset.mem_of_subset Finset.sdiff_subset hs))
        (Finset.card_pos.mp (by omega)) (by omega)
      refine ⟨insert (⋃₀ (Z : Set (Set F))) X, ?_, by simp, ?_, ?_⟩
      · intro s hs
        rcases Finset.mem_insert.mp hs with rfl | hs
        · exact mem_power_of (fun s hs => h1 (hZ hs)) (Finset.card_pos.mp (by omega)) (by omega)
        · exact k1 hs
      · exact (Finset.card_insert_le _ _).trans (by omega)
      · rw [Finset.coe_insert, Set.sUnion_insert, k4, ← Set.sUnion_union, ← Finset.coe_union]
        rw [Finset.union_sdiff_of_subset hZ]

theorem mpower_power {x : Meaning F} {m n : ℕ} (hm : 1 ≤ m) (hn : 1 ≤ n) :
    (x.power m).power n = x.power (m * n) := by
  classical
  ext1
  · ext U
    rw [mem_power, mem_power]
    constructor
    · rintro ⟨X, h1, h2, h3, rfl⟩
      have hex : ∀ W : Set F, ∃ Y : Finset (Set F), W ∈ X →
          ↑Y ⊆ x.terms ∧ Y.Nonempty ∧ Y.card ≤ m ∧ W = ⋃₀ (Y : Set (Set F)) := by
        intro W
        by_cases hW : W ∈ X
        · obtain ⟨Y, hY⟩ := mem_power.mp (h1 hW); exact ⟨Y, fun _ => hY⟩
        · exact ⟨∅, fun h => absurd h hW⟩
      choose g hg using hex
      refine ⟨X.biUnion g, ?_, ?_, ?_, ?_⟩
      · intro s hs
        obtain ⟨W, hW, hs⟩ := Finset.mem_biUnion.mp hs
        exact (hg W hW).1 hs
      · obtain ⟨W, hW⟩ := h2
        obtain ⟨s, hs⟩ := (hg W hW).2.1
        exact ⟨s, Finset.mem_biUnion.mpr ⟨W, hW, hs⟩⟩
      · calc (X.biUnion g).card ≤ X.card * m := Finset.card_biUnion_le_card_mul _ _ _ fun W hW => (hg W hW).2.2.1
          _ ≤ n * m := Nat.mul_le_mul_right m h3
          _ = m * n := Nat.mul_comm _ _
      · ext f
        simp only [Set.mem_sUnion, Finset.mem_coe, Finset.mem_biUnion]
        constructor
        · rintro ⟨W, hW, hf⟩
          rw [(hg W hW).2.2.2] at hf
          obtain ⟨s, hs, hf⟩ := hf
          exact ⟨s, ⟨W, hW, hs⟩, hf⟩
        · rintro ⟨s, ⟨W, hW, hs⟩, hf⟩
          refine ⟨W, hW, ?_⟩
          rw [(hg W hW).2.2.2]
          exact ⟨s, hs, hf⟩
    · rintro ⟨Y, h1, h2, h3, rfl⟩
      obtain ⟨X, k1, k2, k3, k4⟩ := grouping hm n hn Y h1 h2 h3
      exact ⟨X, k1, k2, k3, k4.symm⟩
  · rfl

theorem mpower_colon {x : Meaning F} {m n : ℕ} (hm : 1 ≤ m) (hn : 1 ≤ n) :
    (x.power m).colon (x.power n) = x.power (m + n) := by
  classical
  ext1
  · ext U
    rw [mem_power]
    simp only [Meaning.colon, Set.mem_ofPred_eq]
    constructor
    · rintro ⟨S, hS, T, hT, rfl⟩
      obtain ⟨X, h1, h2, h3, rfl⟩ := mem_power.mp hS
      obtain ⟨Y, k1, k2, k3, rfl⟩ := mem_power.mp hT
      refine ⟨X ∪ Y, ?_, h2.mono Finset.subset_union_left, (Finset.card_union_le _ _).trans (by omega), ?_⟩
      · rw [Finset.coe_union]; exact Set.union_subset h1 k1
      · rw [Finset.coe_union, Set.sUnion_union]
    · rintro ⟨X, h1, h2, h3, rfl⟩
      by_cases hc : X.card ≤ m
      · obtain ⟨s, hs⟩ := h2
        refine ⟨_, mem_power_of h1 ⟨s, hs⟩ hc, _, mem_power_of (X := {s}) (by simpa using h1 hs) (by simp) (by simpa using hn), ?_⟩
        rw [Finset.coe_singleton, Set.sUnion_singleton, Set.union_eq_self_of_subset_right]
        exact Set.subset_sUnion_of_mem hs
      · obtain ⟨Z, hZ, hZc⟩ := Finset.exists_subset_card_eq (s := X) (n := m) (by omega)
        have hd : (X \ Z).card = X.card - m := by rw [Finset.card_sdiff_of_subset hZ, hZc]
        refine ⟨_, mem_power_of (X := Z) (fun s hs => h1 (hZ hs)) (Finset.card_pos.mp (by omega)) (by omega), _,
          mem_power_of (X := X \ Z) (fun s hs => h1 (Finset.mem_of_subset Finset.sdiff_subset hs))
          (Finset.card_pos.mp (by omega)) (by omega), ?_⟩
        rw [← Set.sUnion_union, ← Finset.coe_union, Finset.union_sdiff_of_subset hZ]
  · rfl

theorem mpower_star {x : Meaning F} {m n : ℕ} (hm : 1 ≤ m) (hn : 1 ≤ n) :
    (x.power m).star (x.power n) = x.power (m + n) := by
  ext1
  · show _ ∪ _ ∪ ((x.power m).colon (x.power n)).terms = _
    rw [mpower_colon hm hn]
    exact Set.union_eq_self_of_subset_left
      (Set.union_subset (power_mono (by omega)) (power_mono (by omega)))
  · rfl

/-- **C53**.  `(a ** m) ** n` is `a ** (m n)`. -/
theorem power_power (a b c d : FTree) (m n : ℕ) (hb : IsExponent toInt b m) (hc : IsExponent toInt c n)
    (hd : IsExponent toInt d (m * n)) :
    Same mkFactor toInt (op "**" (op "**" a b) c) (op "**" a d) := by
  have hm := hb.2.choose_spec.2.2
  have hn := hc.2.choose_spec.2.2
  intro k
  rw [means_power, means_power]
  constructor
  · rintro ⟨w, n', hw, _, hc', rfl⟩
    obtain ⟨x, m', hx, h1, hb', rfl⟩ := means_power.mp hw
    cases exponent_unique hb hb'; cases exponent_unique hc hc'
    exact ⟨x, _, hx, h1, hd, mpower_power hm hn⟩
  · rintro ⟨x, k', hx, h1, hd', rfl⟩
    cases exponent_unique hd hd'
    exact ⟨_, n, means_power.mpr ⟨x, m, hx, h1, hb, rfl⟩, power_interactable _ _, hc, (mpower_power hm hn).symm⟩

/-- **C53**.  `a ** m : a ** n` and `a ** m * a ** n` are `a ** (m + n)`. -/
theorem power_mul (a b c d : FTree) (m n : ℕ) (hb : IsExponent toInt b m) (hc : IsExponent toInt c n)
    (hd : IsExponent toInt d (m + n)) :
    Same mkFactor toInt (op ":" (op "**" a b) (op "**" a c)) (op "**" a d) ∧
    Same mkFactor toInt (op "*" (op "**" a b) (op "**" a c)) (op "**" a d) := by
  have hm := hb.2.choose_spec.2.2
  have hn := hc.2.choose_spec.2.2
  constructor
  · intro k
    rw [means_colon, means_power]
    constructor
    · rintro ⟨_, _, hx, hy, _, _, rfl⟩
      obtain ⟨x, m', ax, h1, hb', rfl⟩ := means_power.mp hx
      obtain ⟨y, n', ay, _, hc', rfl⟩ := means_power.mp hy
      cases exponent_unique hb hb'; cases exponent_unique hc hc'; cases means_unique ax ay
      exact ⟨x, _, ax, h1, hd, mpower_colon hm hn⟩
    · rintro ⟨x, k', hx, h1, hd', rfl⟩
      cases exponent_unique hd hd'
      exact ⟨_, _, means_power.mpr ⟨x, m, hx, h1, hb, rfl⟩, means_power.mpr ⟨x, n, hx, h1, hc, rfl⟩,
        power_interactable _ _, power_interactable _ _, (mpower_colon hm hn).symm⟩
  · intro k
    rw [means_star, means_power]
    constructor
    · rintro ⟨_, _, hx, hy, _, _, rfl⟩
      obtain ⟨x, m', ax, h1, hb', rfl⟩ := means_power.mp hx
      obtain ⟨y, n', ay, _, hc', rfl⟩ := means_power.mp hy
      cases exponent_unique hb hb'; cases exponent_unique hc hc'; cases means_unique ax ay
      exact ⟨x, _, ax, h1, hd, mpower_star hm hn⟩
    · rintro ⟨x, k', hx, h1, hd', rfl⟩
      cases exponent_unique hd hd'
      exact ⟨_, _, means_power.mpr ⟨x, m, hx, h1, hb, rfl⟩, means_power.mpr ⟨x, n, hx, h1, hc, rfl⟩,
        power_interactable _ _, power_interactable _ _, (mpower_star hm hn).symm⟩

/-! ### The exercise of the manual -/

theorem factor_not_zero {a : FTree} {f : F} (h : Means mkFactor toInt a (.factor f)) (s : String)
    (hs : s = "ZERO" ∨ s = "ONE") : ¬ IsLit s a := by
  intro hl
  have hne : ∀ b, (Meaning.factor f : Meaning F) ≠ .only b := by
    intro b h; have := congrArg Meaning.vote h; simp [Meaning.factor, Meaning.only] at this
  cases a with
  | atom t o =>
    simp only [IsLit, Node.token] at hl
    rcases hs with rfl | rfl
    · exact hne _ (means_unique h (.zero hl))
    · exact hne _ (means_unique h (.one hl))
  | unary t a o =>
    simp only [IsLit, Node.token] at hl
    rcases hs with rfl | rfl <;> · generalize Meaning.factor f = m at h; cases h <;> simp_all
  | binary t a b o =>
    simp only [IsLit, Node.token] at hl
    rcases hs with rfl | rfl <;> · generalize Meaning.factor f = m at h; cases h <;> simp_all

/-- `x₀ s x₁ s x₂ …`, associated to the left. -/
def chain (s : String) (x : FTree) (xs : List FTree) : FTree := xs.foldl (op s) x

/-- The trees are single factors, namely these. -/
def Factors (mkFactor : String → Except Err F) (toInt : String → Option Int) :
    List FTree → List F → Prop :=
  List.Forall₂ fun t f => Means mkFactor toInt t (.factor f)

theorem chain_plus {xs : List FTree} {fs : List F} (h : Factors mkFactor toInt xs fs) {x : FTree} {m : Meaning F}
    (hx : Means mkFactor toInt x m) (hv : m.vote = none) :
    Means mkFactor toInt (chain "+" x xs) ⟨m.terms ∪ {S | ∃ f ∈ fs, S = {f}}, none⟩ := by
  induction h generalizing x m with
  | nil =>
    have : (⟨m.terms ∪ {S | ∃ f ∈ ([] : List F), S = {f}}, none⟩ : Meaning F) = m := by
      ext1
      · ext S; simp
      · exact hv.symm
    rw [this]; exact hx
  | @cons t f ts fs' ht hts ih =>
    have := ih (x := op "+" x t) (m := m.plus (.factor f))
      ((means_plus (factor_not_zero ht _ (Or.inl rfl))).mpr ⟨_, _, hx, ht, rfl⟩)
      (by simp [Meaning.plus, Meaning.factor, hv])
    have e : (⟨m.terms ∪ {S | ∃ g ∈ f :: fs', S = {g}}, none⟩ : Meaning F) =
        ⟨(m.plus (.factor f)).terms ∪ {S | ∃ g ∈ fs', S = {g}}, none⟩ := by
      ext1
      · ext S; simp [Meaning.plus, Meaning.factor, or_assoc]
        tauto
      · rfl
    rw [e]; exact this

theorem chain_colon {xs : List FTree} {fs : List F} (h : Factors mkFactor toInt xs fs) {x : FTree} {S : Set F}
    (hx : Means mkFactor toInt x ⟨{S}, none⟩) :
    Means mkFactor toInt (chain ":" x xs) ⟨{S ∪ {f | f ∈ fs}}, none⟩ := by
  induction h generalizing x S with
  | nil => simpa [chain] using hx
  | @cons t f ts fs' ht hts ih =>
    have hc : Means mkFactor toInt (op ":" x t) ⟨{S ∪ {f}}, none⟩ := by
      refine means_colon.mpr ⟨_, _, hx, ht, by simp [Meaning.Interactable], by simp [Meaning.Interactable, Meaning.factor], ?_⟩
      ext1
      · ext U; simp [Meaning.colon, Meaning.factor]
      · rfl
    have e : S ∪ {g | g ∈ f :: fs'} = S ∪ {f} ∪ {g | g ∈ fs'} := by
      ext g; simp [or_assoc]; tauto
    rw [e]; exact ih hc

theorem chain_star {xs : List FTree} {fs : List F} (h : Factors mkFactor toInt xs fs) {x : FTree} {G : Set F}
    (hx : Means mkFactor toInt x ⟨{S | S.Nonempty ∧ S ⊆ G}, none⟩) :
    Means mkFactor toInt (chain "*" x xs) ⟨{S | S.Nonempty ∧ S ⊆ G ∪ {f | f ∈ fs}}, none⟩ := by
  induction h generalizing x G with
  | nil => simpa [chain] using hx
  | @cons t f ts fs' ht hts ih =>
    have hc : Means mkFactor toInt (op "*" x t) ⟨{S | S.Nonempty ∧ S ⊆ G ∪ {f}}, none⟩ := by
      refine means_star.mpr ⟨_, _, hx, ht, by simp [Meaning.Interactable], by simp [Meaning.Interactable, Meaning.factor], ?_⟩
      ext1
      · ext U
        rw [mem_star]
        simp only [Meaning.factor, Set.mem_ofPred_eq, Set.mem_singleton_iff, exists_eq_left]
        constructor
        · rintro ⟨h1, h2⟩
          by_cases hf : f ∈ U
          · by_cases hr : (U \ {f}).Nonempty
            · refine Or.inr (Or.inr ⟨U \ {f}, ⟨hr, ?_⟩, ?_⟩)
              · rintro g ⟨hg, hgf⟩
                rcases h2 hg with h | h
                · exact h
                · exact absurd h hgf
              · ext g; by_cases hg : g = f <;> simp [hg, hf]
            · refine Or.inr (Or.inl ?_)
              rw [Set.not_nonempty_iff_eq_empty] at hr
              ext g
              constructor
              · intro hg
                by_contra hgf
                have : g ∈ U \ {f} := ⟨hg, hgf⟩
                rw [hr] at this; exact this
              · rintro rfl; exact hf
          · refine Or.inl ⟨h1, fun g hg => ?_⟩
            rcases h2 hg with h | h
            · exact h
            · exact absurd (h ▸ hg) hf
        · rintro (⟨h1, h2⟩ | rfl | ⟨S, ⟨h1, h2⟩, rfl⟩)
          · exact ⟨h1, fun g hg => Or.inl (h2 hg)⟩
          · exact ⟨⟨f, rfl⟩, fun g hg => Or.inr hg⟩
          · exact ⟨h1.mono Set.subset_union_left, Set.union_subset_union_left _ h2⟩
      · rfl
    have e : G ∪ {g | g ∈ f :: fs'} = G ∪ {f} ∪ {g | g ∈ fs'} := by
      ext g; simp [or_assoc]; tauto
    rw [e]; exact ih hc

/-- **C53** (the exercise at doc/formulas.rst:189-193, in general).  For `n + 2` distinct
factors, `(x₀ + … + xₙ₊₁) ** (n + 1)` is `x₀ * … * xₙ₊₁ - x₀: … :xₙ₊₁`. -/
theorem power_exercise (x : FTree) (xs : List FTree) (f : F) (fs : List F) (b : FTree)
    (hx : Means mkFactor toInt x (.factor f)) (hxs : Factors mkFactor toInt xs fs) (hnd : (f :: fs).Nodup)
    (hb : IsExponent toInt b fs.length) :
    Same mkFactor toInt (op "**" (chain "+" x xs) b) (op "-" (chain "*" x xs) (chain ":" x xs)) := by
  classical
  have hne : fs ≠ [] := by
    intro h; have := hb.2.choose_spec.2.2; simp [h] at this
  have hxs0 : xs ≠ [] := by rintro rfl; cases hxs; exact hne rfl
  have hlit : ∀ s, s ≠ ":" → ¬ IsLit s (chain ":" x xs) := by
    intro s hs
    obtain ⟨l, y, rfl⟩ := List.eq_nil_or_concat xs |>.resolve_left hxs0
    rw [List.concat_eq_append, chain, List.foldl_append]
    exact not_isLit_op (Ne.symm hs)
  have h1 := chain_plus hxs hx rfl
  have h2 := chain_colon hxs hx
  have h3 : Means mkFactor toInt x ⟨{S | S.Nonempty ∧ S ⊆ {f}}, none⟩ := by
    have : (Meaning.factor f : Meaning F) = ⟨{S | S.Nonempty ∧ S ⊆ {f}}, none⟩ := by
      ext1
      · ext S
        simp only [Meaning.factor, Set.mem_singleton_iff, Set.mem_ofPred_eq]
        exact ⟨by rintro rfl; simp, fun h => h.1.subset_singleton_iff.mp h.2⟩
      · rfl
    rw [← this]; exact hx
  have h3 := chain_star hxs h3
  have key : ((⟨{({f} : Set F)} ∪ {S | ∃ g ∈ fs, S = {g}}, none⟩ : Meaning F).power fs.length) =
      (⟨{S | S.Nonempty ∧ S ⊆ {f} ∪ {g | g ∈ fs}}, none⟩ : Meaning F).minus ⟨{{f} ∪ {g | g ∈ fs}}, none⟩ := by
    have hG : ({f} ∪ {g | g ∈ fs} : Set F) = ↑(f :: fs).toFinset := by ext g; simp
    have hcard : (f :: fs).toFinset.card = fs.length + 1 := by
      rw [List.toFinset_card_of_nodup hnd, List.length_cons]
    have hsing : ∀ S : Set F, S ∈ ({({f} : Set F)} ∪ {S | ∃ g ∈ fs, S = {g}} : Set (Set F)) ↔
        ∃ g ∈ (f :: fs).toFinset, S = {g} := by intro S; simp
    ext1
    · ext U
      rw [mem_power]
      simp only [Meaning.minus, Set.mem_sdiff, Set.mem_ofPred_eq, Set.mem_singleton_iff, hG]
      constructor
      · rintro ⟨X, k1, k2, k3, rfl⟩
        have hX : ∀ S ∈ X, ∃ g ∈ (f :: fs).toFinset, S = {g} := fun S hS => (hsing S).mp (k1 hS)
        refine ⟨⟨?_, ?_⟩, ?_⟩
        · obtain ⟨S, hS⟩ := k2
          obtain ⟨g, _, rfl⟩ := hX S hS
          exact ⟨g, _, hS, rfl⟩
        · rintro g ⟨S, hS, hg⟩
          obtain ⟨g', hg', rfl⟩ := hX S hS
          rw [hg]; exact hg'
        · intro he
          have hsub : (f :: fs).toFinset.image (fun g => ({g} : Set F)) ⊆ X := by
            intro S hS
            obtain ⟨g, hg, rfl⟩ := Finset.mem_image.mp hS
            have : g ∈ ⋃₀ (X : Set (Set F)) := by rw [he]; exact hg
            obtain ⟨S, hS, hgS⟩ := this
            obtain ⟨g', _, rfl⟩ := hX S hS
            rw [show g = g' from hgS]; exact hS
          have := Finset.card_le_card hsub
          rw [Finset.card_image_of_injective _ Set.singleton_injective, hcard] at this
          omega
      · rintro ⟨⟨k1, k2⟩, k3⟩
        have hfin : U.Finite := (f :: fs).toFinset.finite_toSet.subset k2
        refine ⟨hfin.toFinset.image fun g => ({g} : Set F), ?_, ?_, ?_, ?_⟩
        · intro S hS
          obtain ⟨g, hg, rfl⟩ := Finset.mem_image.mp hS
          exact (hsing _).mpr ⟨g, k2 (by simpa using hg), rfl⟩
        · obtain ⟨g, hg⟩ := k1
          exact ⟨{g}, Finset.mem_image.mpr ⟨g, by simpa using hg, rfl⟩⟩
        · rw [Finset.card_image_of_injective _ Set.singleton_injective]
          have hlt : hfin.toFinset ⊂ (f :: fs).toFinset := by
            rw [Finset.ssubset_iff_subset_ne]
            refine ⟨fun g hg => k2 (by simpa using hg), fun he => k3 ?_⟩
            rw [← he]; simp
          have := Finset.card_lt_card hlt
          omega
        · ext g; simp
    · rfl
  have hA : Means mkFactor toInt (op "**" (chain "+" x xs) b) (Meaning.power ⟨{({f} : Set F)} ∪ {S | ∃ g ∈ fs, S = {g}}, none⟩ fs.length) :=
    means_power.mpr ⟨_, _, h1, by simp [Meaning.Interactable], hb, rfl⟩
  have hB : Means mkFactor toInt (op "-" (chain "*" x xs) (chain ":" x xs)) _ :=
    (means_minus (hlit _ (by decide)) (hlit _ (by decide))).mpr ⟨_, _, h3, h2, rfl⟩
  rw [← key] at hB
  intro m
  exact ⟨fun h => means_unique h hA ▸ hB, fun h => means_unique h hB ▸ hA⟩

/-! ### Contexts and models -/

/-- **C53**.  Equal expressions may be replaced by each other on the left of any operator. -/
theorem same_left {a a' : FTree} (h : Same mkFactor toInt a a') (s : String) (b : FTree) :
    Same mkFactor toInt (op s a b) (op s a' b) := by
  have aux : ∀ {a a' : FTree}, Same mkFactor toInt a a' → ∀ m, Means mkFactor toInt (op s a b) m →
      Means mkFactor toInt (op s a' b) m := by
    intro a a' h m hm
    cases hm with
    | plusZero hk ha hz => exact .plusZero hk ((h _).mp ha) hz
    | plus hk ha hb hz => exact .plus hk ((h _).mp ha) hb hz
    | minusZero hk ha hz => exact .minusZero hk ((h _).mp ha) hz
    | minusOne hk ha hz => exact .minusOne hk ((h _).mp ha) hz
    | minus hk ha hb hz ho => exact .minus hk ((h _).mp ha) hb hz ho
    | colon hk ha hb h1 h2 => exact .colon hk ((h _).mp ha) hb h1 h2
    | star hk ha hb h1 h2 => exact .star hk ((h _).mp ha) hb h1 h2
    | slash hk ha hb h1 h2 => exact .slash hk ((h _).mp ha) hb h1 h2
    | power hk ha h1 h2 => exact .power hk ((h _).mp ha) h1 h2
  intro m
  exact ⟨aux h m, aux h.symm m⟩

/-- The node is not a literal. -/
def NotLiteral (b : FTree) : Prop := ¬ IsLit "ZERO" b ∧ ¬ IsLit "ONE" b ∧ ¬ IsLit "NUMBER" b

/-- **C53**.  Equal expressions that are not literals may be replaced by each other on the
right of any operator. -/
theorem same_right {b b' : FTree} (h : Same mkFactor toInt b b') (hb : NotLiteral b) (hb' : NotLiteral b')
    (s : String) (a : FTree) : Same mkFactor toInt (op s a b) (op s a b') := by
  have aux : ∀ {b b' : FTree}, Same mkFactor toInt b b' → NotLiteral b → NotLiteral b' →
      ∀ m, Means mkFactor toInt (op s a b) m → Means mkFactor toInt (op s a b') m := by
    intro b b' h hb hb' m hm
    cases hm with
    | plusZero hk ha hz => exact absurd hz hb.1
    | plus hk ha hm hz => exact .plus hk ha ((h _).mp hm) hb'.1
    | minusZero hk ha hz => exact absurd hz hb.1
    | minusOne hk ha hz => exact absurd hz hb.2.1
    | minus hk ha hm hz ho => exact .minus hk ha ((h _).mp hm) hb'.1 hb'.2.1
    | colon hk ha hm h1 h2 => exact .colon hk ha ((h _).mp hm) h1 h2
    | star hk ha hm h1 h2 => exact .star hk ha ((h _).mp hm) h1 h2
    | slash hk ha hm h1 h2 => exact .slash hk ha ((h _).mp hm) h1 h2
    | power hk ha h1 h2 => exact (h2.1.elim hb.2.1 hb.2.2).elim
  intro m
  exact ⟨aux h hb hb' m, aux h.symm hb' hb m⟩

/-- **C53**.  Formulas with equal right hand sides have the same terms on both sides, or
are both rejected. -/
theorem same_model {a a' : FTree} (h : Same mkFactor toInt a a') (y : FTree) (d : ModelDesc F)
    (hd : fromTree mkFactor toInt (op "~" y a) = .ok d) :
    ∃ d', fromTree mkFactor toInt (op "~" y a') = .ok d' ∧ termSets d'.lhs = termSets d.lhs ∧
      termSets d'.rhs = termSets d.rhs := by
  have hw : ∀ a : FTree, wrapRoot (op "~" y a) = op "~" y a := fun a => if_pos rfl
  have h1 := (formula_semantics (op "~" y a) (termSets d.lhs) (termSets d.rhs)).mpr
    ⟨d, by rw [hw]; exact hd, rfl, rfl⟩
  have h2 : FormulaMeans mkFactor toInt (op "~" y a') (termSets d.lhs) (termSets d.rhs) := by
    generalize termSets d.lhs = L at *
    generalize termSets d.rhs = R at *
    cases h1 with
    | both hk hy ha => exact .both hk hy ((h _).mp ha)
    | bare hk _ => exact absurd rfl hk
  obtain ⟨d', hd', e1, e2⟩ := (formula_semantics _ _ _).mp h2
  rw [hw] at hd'
  exact ⟨d', hd', e1, e2⟩

/-! ### Concrete cases -/

theorem means_v (s : String) : Means mkEx intEx (v s) (.factor s) := .code rfl rfl rfl

/-- `a + b:c - 1`, by hand, means the terms `a` and `b:c` without intercept ... -/
example : FormulaMeans mkEx intEx (op "~" (v "y") (op "-" (op "+" (v "a") (op ":" (v "b") (v "c"))) (lit "ONE" "1")))
    {{"y"}} {{"a"}, {"b", "c"}} := by
  have h := FormulaMeans.both (t := ⟨.sym "~", ⟨0, 0⟩, none⟩) (o := ⟨0, 0⟩) rfl (means_v "y")
    (Means.minusOne (t := ⟨.sym "-", ⟨0, 0⟩, none⟩) (o := ⟨0, 0⟩) (b := lit "ONE" "1") rfl
      ((means_plus (not_isLit_op (by decide))).mpr ⟨_, _, means_v "a",
        means_colon.mpr ⟨_, _, means_v "b", means_v "c", by simp [Meaning.Interactable, Meaning.factor],
          by simp [Meaning.Interactable, Meaning.factor], rfl⟩, rfl⟩) rfl)
  have e1 : (Meaning.factor "y").left = {{"y"}} := by ext S; simp [Meaning.left, Meaning.factor]
  have e2 : (((Meaning.factor "a").plus ((Meaning.factor "b").colon (Meaning.factor "c"))).saying false).right =
      {{"a"}, {"b", "c"}} := by
    ext S
    simp [Meaning.right, Meaning.saying, Meaning.plus, Meaning.colon, Meaning.factor, Set.pair_comm, or_comm]
  rw [e1, e2] at h
  exact h

/-- ... and that is what the evaluator returns. -/
example : fromTree mkEx intEx (op "~" (v "y") (op "-" (op "+" (v "a") (op ":" (v "b") (v "c"))) (lit "ONE" "1"))) =
    .ok ⟨[⟨["y"]⟩], [⟨["a"]⟩, ⟨["b", "c"]⟩]⟩ := eq_ok_of_okIs (by decide +kernel)

/-- Variables meet the hypotheses of the laws. -/
example : OneTerm mkEx intEx (v "a") ∧ Keeps mkEx intEx (v "a") ∧ NotLiteral (v "a") := by
  refine ⟨fun m h => ?_, fun m h => ?_, ?_⟩
  · rw [means_unique h (means_v "a")]; exact ⟨{"a"}, rfl, rfl⟩
  · rw [means_unique h (means_v "a")]; simp [Meaning.factor]
  · simp [NotLiteral, IsLit, v, Node.token]

/-- The four factors of the manual's exercise meet the hypotheses of `power_exercise`. -/
example : Same mkEx intEx
    (op "**" (chain "+" (v "a") [v "b", v "c", v "d"]) (lit "NUMBER" "3"))
    (op "-" (chain "*" (v "a") [v "b", v "c", v "d"]) (chain ":" (v "a") [v "b", v "c", v "d"])) :=
  power_exercise (v "a") _ "a" ["b", "c", "d"] _ (means_v "a")
    (.cons (means_v "b") (.cons (means_v "c") (.cons (means_v "d") .nil))) (by decide)
    ⟨Or.inr rfl, "3", rfl, by decide, by decide⟩

/-- The exponents of `power_power` and `power_mul` exist. -/
example : Same mkEx (fun s => if s = "2" then some 2 else if s = "3" then some 3 else some 6)
    (op "**" (op "**" (op "+" (v "a") (v "b")) (lit "NUMBER" "2")) (lit "NUMBER" "3"))
    (op "**" (op "+" (v "a") (v "b")) (lit "NUMBER" "6")) :=
  power_power _ _ _ _ 2 3 ⟨Or.inr rfl, "2", rfl, by decide, by decide⟩
    ⟨Or.inr rfl, "3", rfl, by decide, by decide⟩ ⟨Or.inr rfl, "6", rfl, by decide, by decide⟩

/-- **C53** (why `star_expand` needs `Keeps`).  A removal of the intercept inside an
operand of `*` is silently dropped: `(a - 1) * b` has an intercept, its expansion
`(a - 1) + b + (a - 1):b` has none. -/
theorem star_drops_removal :
    fromTree mkEx intEx (tilde (op "*" (op "-" (v "a") (lit "ONE" "1")) (v "b"))) =
      .ok ⟨[], [⟨[]⟩, ⟨["a"]⟩, ⟨["b"]⟩, ⟨["a", "b"]⟩]⟩ ∧
    fromTree mkEx intEx (tilde (op "+" (op "+" (op "-" (v "a") (lit "ONE" "1")) (v "b"))
        (op ":" (op "-" (v "a") (lit "ONE" "1")) (v "b")))) =
      .ok ⟨[], [⟨["a"]⟩, ⟨["b"]⟩, ⟨["a", "b"]⟩]⟩ :=
  ⟨eq_ok_of_okIs (by decide +kernel), eq_ok_of_okIs (by decide +kernel)⟩

/-- **C53** (why `plus_assoc` excludes the literal `0`).  `a + (b + 0)` has an intercept,
`(a + b) + 0` has none. -/
theorem zero_not_associative :
    fromTree mkEx intEx (tilde (op "+" (v "a") (op "+" (v "b") (lit "ZERO" "0")))) =
      .ok ⟨[], [⟨[]⟩, ⟨["a"]⟩, ⟨["b"]⟩]⟩ ∧
    fromTree mkEx intEx (tilde (op "+" (op "+" (v "a") (v "b")) (lit "ZERO" "0"))) =
      .ok ⟨[], [⟨["a"]⟩, ⟨["b"]⟩]⟩ :=
  ⟨eq_ok_of_okIs (by decide +kernel), eq_ok_of_okIs (by decide +kernel)⟩

/-- **C53** ("`/` is *not* leftward distributive over `+`", doc/formulas.rst:157). -/
theorem slash_not_left_distributive :
    fromTree mkEx intEx (tilde (op "/" (op "+" (v "a") (v "b")) (v "c"))) =
      .ok ⟨[], [⟨[]⟩, ⟨["a"]⟩, ⟨["b"]⟩, ⟨["a", "b", "c"]⟩]⟩ ∧
    fromTree mkEx intEx (tilde (op "+" (op "/" (v "a") (v "c")) (op "/" (v "b") (v "c")))) =
      .ok ⟨[], [⟨[]⟩, ⟨["a"]⟩, ⟨["a", "c"]⟩, ⟨["b"]⟩, ⟨["b", "c"]⟩]⟩ :=
  ⟨eq_ok_of_okIs (by decide +kernel), eq_ok_of_okIs (by decide +kernel)⟩

end Patsy.Props
