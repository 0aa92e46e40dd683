import Verif.Spec.Meaning
import Verif.Props.Power

/-! # The evaluator computes the meaning of an expression -/

set_option linter.unusedSectionVars false

namespace Patsy.Props

open Patsy.Infix Patsy.Desc Patsy.Spec Patsy.Util

variable {F : Type} [DecidableEq F] {mkFactor : String → Except Err F} {toInt : String → Option Int}

/-- The meaning of an evaluated expression. -/
def meaningOf (e : IExpr F) : Meaning F := ⟨termSets e.terms, said e⟩

theorem mem_termSets {ts : List (Term F)} {S : Set F} : S ∈ termSets ts ↔ HasTerm ts (· ∈ S) := Iff.rfl

theorem termSets_nil : termSets ([] : List (Term F)) = ∅ := by
  ext S; simp [termSets]

theorem termSets_append (a b : List (Term F)) : termSets (a ++ b) = termSets a ∪ termSets b := by
  ext S; simp only [Set.mem_union, mem_termSets, hasTerm_append]

theorem termSets_uniqueify (a : List (Term F)) : termSets (uniqueify Term.eqv a) = termSets a := by
  ext S; simp only [mem_termSets, hasTerm_uniqueify]

/-- The set of factors of a term. -/
def fset (t : Term F) : Set F := {f | f ∈ t.factors}

theorem fset_mem {ts : List (Term F)} {t : Term F} (h : t ∈ ts) : fset t ∈ termSets ts :=
  ⟨t, h, fun _ => Iff.rfl⟩

theorem mem_termSets' {ts : List (Term F)} {S : Set F} : S ∈ termSets ts ↔ ∃ t ∈ ts, fset t = S := by
  simp only [termSets, Set.mem_ofPred_eq]
  constructor
  · rintro ⟨t, ht, h⟩; exact ⟨t, ht, Set.ext h⟩
  · rintro ⟨t, ht, rfl⟩; exact ⟨t, ht, fun _ => Iff.rfl⟩

theorem termSets_products (a b : List (Term F)) :
    termSets (products a b) = {U | ∃ S ∈ termSets a, ∃ T ∈ termSets b, U = S ∪ T} := by
  ext U
  simp only [mem_termSets, hasTerm_products, Set.mem_ofPred_eq]
  constructor
  · rintro ⟨t, u, ht, hu, h⟩
    exact ⟨fset t, fset_mem ht, fset u, fset_mem hu, Set.ext h⟩
  · rintro ⟨S, ⟨t, ht, hS⟩, T, ⟨u, hu, hT⟩, rfl⟩
    exact ⟨t, u, ht, hu, fun f => by rw [Set.mem_union, hS, hT]⟩

theorem termSets_diff (a b : List (Term F)) :
    termSets (a.filter fun t => !(b.any fun u => Term.eqv u t)) = termSets a \ termSets b := by
  ext S
  simp only [mem_termSets, Set.mem_sdiff, HasTerm, List.mem_filter, Bool.not_eq_true', List.any_eq_false,
    eqv_iff_same, SameTerm]
  constructor
  · rintro ⟨t, ⟨ht, hn⟩, hS⟩
    refine ⟨⟨t, ht, hS⟩, ?_⟩
    rintro ⟨u, hu, hSu⟩
    exact hn u hu (fun f => (hSu f).trans (hS f).symm)
  · rintro ⟨⟨t, ht, hS⟩, hn⟩
    refine ⟨t, ⟨ht, ?_⟩, hS⟩
    intro u hu hs
    exact hn ⟨u, hu, fun f => (hs f).trans (hS f)⟩

theorem sUnion_termSets (a : List (Term F)) :
    ⋃₀ termSets a = {f | ∃ t ∈ a, f ∈ t.factors} := by
  ext f
  simp only [Set.mem_sUnion, Set.mem_ofPred_eq]
  constructor
  · rintro ⟨S, ⟨t, ht, h⟩, hf⟩; exact ⟨t, ht, (h f).mpr hf⟩
  · rintro ⟨t, ht, hf⟩; exact ⟨fset t, fset_mem ht, hf⟩

theorem mem_P_iff {S : List (Term F)} {k : Nat} {U : Set F} :
    U ∈ termSets (P S k) ↔ ∃ l : List (Term F), l.length = k + 1 ∧ (∀ s ∈ l, s ∈ S) ∧
      ∀ f, f ∈ U ↔ ∃ s ∈ l, f ∈ s.factors := by
  constructor
  · rintro ⟨t, ht, hU⟩
    obtain ⟨l, h1, h2, h3⟩ := mem_P ht
    exact ⟨l, h1, h2, fun f => (hU f).symm.trans (h3 f)⟩
  · rintro ⟨l, h1, h2, h3⟩
    obtain ⟨t, ht, he⟩ := covers_P (S := S) (t := ⟨l.flatMap (·.factors)⟩) l h1 h2 (by simp)
    refine ⟨t, ht, fun f => ?_⟩
    rw [Term.eqv_iff] at he
    rw [he f, h3 f]; simp

theorem mem_upTo_iff {S : List (Term F)} {n : Nat} {U : Set F} :
    U ∈ termSets (upTo S n) ↔ ∃ k ≤ n, U ∈ termSets (P S k) := by
  induction n with
  | zero => simp [upTo]
  | succ n ih =>
    rw [upTo, termSets_append, Set.mem_union, ih]
    constructor
    · rintro (⟨k, hk, h⟩ | h)
      · exact ⟨k, by omega, h⟩
      · exact ⟨n + 1, le_refl _, h⟩
    · rintro ⟨k, hk, h⟩
      rcases Nat.lt_or_ge n k with h' | h'
      · have : k = n + 1 := by omega
        subst this; exact Or.inr h
      · exact Or.inl ⟨k, h', h⟩

theorem termSets_upTo (S : List (Term F)) (n : Nat) :
    termSets (upTo S n) = {U | ∃ X ⊆ termSets S, X.Nonempty ∧ X.encard ≤ (n + 1 : ℕ) ∧ U = ⋃₀ X} := by
  ext U
  simp only [mem_upTo_iff, mem_P_iff, Set.mem_ofPred_eq]
  constructor
  · rintro ⟨k, hk, l, h1, h2, h3⟩
    refine ⟨fset '' {s | s ∈ l}, ?_, ?_, ?_, ?_⟩
    · rintro _ ⟨s, hs, rfl⟩; exact fset_mem (h2 s hs)
    · match l, h1 with
      | s :: l, _ => exact ⟨fset s, s, by simp, rfl⟩
    · calc (fset '' {s | s ∈ l}).encard ≤ {s | s ∈ l}.encard := Set.encard_image_le _ _
        _ = ((l.toFinset : Finset (Term F)) : Set (Term F)).encard := by congr 1; ext; simp
        _ = (l.toFinset.card : ℕ∞) := Set.encard_coe_eq_coe_finsetCard _
        _ ≤ (n + 1 : ℕ) := by
          have := l.toFinset_card_le
          exact_mod_cast (by omega : l.toFinset.card ≤ n + 1)
    · ext f; rw [h3 f]; simp [fset]
  · rintro ⟨X, hX, hne, hc, rfl⟩
    have hfin : X.Finite := Set.finite_of_encard_le_coe hc
    have hex : ∀ x : Set F, ∃ t : Term F, x ∈ termSets S → t ∈ S ∧ fset t = x := by
      intro x
      by_cases hx : x ∈ termSets S
      · obtain ⟨t, ht, e⟩ := mem_termSets'.mp hx
        exact ⟨t, fun _ => ⟨ht, e⟩⟩
      · exact ⟨⟨[]⟩, fun h => absurd h hx⟩
    choose g hg using hex
    have hcard : hfin.toFinset.card ≤ n + 1 := by
      rw [hfin.encard_eq_coe_toFinset_card] at hc
      exact_mod_cast hc
    have hpos : 0 < hfin.toFinset.card := Finset.card_pos.mpr (by simpa using hne)
    refine ⟨hfin.toFinset.card - 1, by omega, hfin.toFinset.toList.map g, ?_, ?_, ?_⟩
    · simp; omega
    · intro s hs
      simp only [List.mem_map, Finset.mem_toList, Set.Finite.mem_toFinset] at hs
      obtain ⟨x, hx, rfl⟩ := hs
      exact (hg x (hX hx)).1
    · intro f
      simp only [Set.mem_sUnion, List.mem_map, Finset.mem_toList, Set.Finite.mem_toFinset]
      constructor
      · rintro ⟨x, hx, hf⟩
        refine ⟨g x, ⟨x, hx, rfl⟩, ?_⟩
        have := (hg x (hX hx)).2
        rw [← this] at hf; exact hf
      · rintro ⟨_, ⟨x, hx, rfl⟩, hf⟩
        refine ⟨x, hx, ?_⟩
        rw [← (hg x (hX hx)).2]; exact hf

theorem evalPower_meaning {l : IExpr F} (hl : Good l) (hi : l.intercept = false) {n : ℕ} (hn : 1 ≤ n) :
    ∃ e, evalPower l n = .ok e ∧ meaningOf e = (meaningOf l).power n := by
  rcases evalPower_cases hl n with h | ⟨_, _, all, e, h1, h2, rfl, _⟩
  · exfalso
    obtain ⟨x, hx, _⟩ := powerLoop_terms hi (min l.terms.length n - 1) 0 l l.terms hi rfl rfl
    have hlt : ¬ ((n : Int) < 1) := by omega
    simp [evalPower, checkInteractable, hi, hlt, bind, Except.bind, hx, IExpr.of] at h
  · refine ⟨_, h2, ?_⟩
    obtain ⟨x, hx, hx2⟩ := powerLoop_terms hi (min l.terms.length (n : Int).toNat - 1) 0 l l.terms hi rfl rfl
    rw [h1] at hx
    simp only [Except.ok.injEq] at hx
    subst hx
    obtain ⟨m, rfl⟩ : ∃ m, n = m + 1 := ⟨n - 1, by omega⟩
    have ht : termSets all = termSets (upTo l.terms m) := by
      rw [← termSets_uniqueify, hx2, Nat.zero_add, Int.toNat_natCast]
      by_cases hc : m + 1 ≤ l.terms.length
      · rw [Nat.min_eq_right hc, Nat.add_sub_cancel, termSets_uniqueify]
      · rw [Nat.min_eq_left (by omega)]
        obtain ⟨d, hd⟩ : ∃ d, m = (l.terms.length - 1) + d := ⟨m - (l.terms.length - 1), by omega⟩
        rw [hd, ← upTo_stable l.terms (l.terms.length - 1) d (by omega), termSets_uniqueify]
    unfold meaningOf Meaning.power
    ext1
    · show termSets (uniqueify Term.eqv all) = _
      rw [termSets_uniqueify, ht, termSets_upTo]
    · rfl

theorem said_true {e : IExpr F} : said e = some true ↔ e.intercept = true := by
  unfold said
  cases e.intercept <;> cases e.interceptRemoved <;> simp

theorem said_false {e : IExpr F} (g : Good e) : said e = some false ↔ e.interceptRemoved = true := by
  have := g.removed
  unfold said
  cases h1 : e.intercept <;> cases h2 : e.interceptRemoved <;> simp_all

theorem interactable_iff {e : IExpr F} : (meaningOf e).Interactable ↔ e.intercept = false := by
  unfold Meaning.Interactable
  rw [show (meaningOf e).vote = said e from rfl, Ne, said_true]; simp

theorem nodeType_iff {n : FTree} {s : String} : nodeType n = some s ↔ IsLit s n := by
  unfold nodeType IsLit
  split <;> rename_i h <;> simp_all

theorem exponent_iff {b : FTree} {n : ℕ} (hn : 1 ≤ n) : exponent toInt b = n ↔ IsExponent toInt b n := by
  unfold exponent IsExponent
  split
  · rename_i h
    rw [nodeType_iff, nodeType_iff] at h
    simp only [h, true_and]
    cases he : b.token.extra with
    | none => simp
    | some s =>
      simp only [Option.some.injEq, exists_eq_left']
      cases hs : toInt s with
      | none => simp
      | some i => simp [hn]
  · rename_i h
    rw [nodeType_iff, nodeType_iff] at h
    simp only [h, false_and, iff_false]; omega

theorem plus_meaning {l r : IExpr F} (hl : Good l) (hr : Good r) :
    ∃ e, evalPlus l r = .ok e ∧ meaningOf e = (meaningOf l).plus (meaningOf r) := by
  obtain ⟨e, h1, _, h3, h4, h5⟩ := evalPlus_cases hl hr
  refine ⟨e, h1, ?_⟩
  have e1 := hl.removed
  have e2 := hr.removed
  ext1
  · simp only [meaningOf, Meaning.plus, h3, termSets_uniqueify, termSets_append]
  · show said e = if said r = some true then some true else said l
    by_cases hi : r.intercept = true
    · rw [if_pos (said_true.mpr hi), said_true, h4, hi]; rfl
    · rw [if_neg (mt said_true.mp hi)]
      simp [said, h4, h5, hi]

theorem minus_meaning {l r : IExpr F} (hl : Good l) :
    ∃ e, evalMinus l r = .ok e ∧ meaningOf e = (meaningOf l).minus (meaningOf r) := by
  obtain ⟨e, h1, _, h3, h4, h5⟩ := evalMinus_cases (r := r) hl
  refine ⟨e, h1, ?_⟩
  have e1 := hl.removed
  ext1
  · simp only [meaningOf, Meaning.minus, h3, termSets_diff]
  · show said e = if said r = some true then some false else said l
    by_cases hi : r.intercept = true
    · rw [if_pos (said_true.mpr hi)]
      simp [said, h4, h5, hi]
    · rw [if_neg (mt said_true.mp hi)]
      simp [said, h4, h5, hi]

theorem colon_meaning {l r e : IExpr F} (h : interaction l r = .ok e) :
    meaningOf e = (meaningOf l).colon (meaningOf r) := by
  obtain ⟨_, _, rfl⟩ := interaction_ok.mp h
  ext1
  · simp only [meaningOf, Meaning.colon, termSets_uniqueify, termSets_products]
  · rfl

theorem star_meaning {l r e : IExpr F} (h : evalProd l r = .ok e) :
    meaningOf e = (meaningOf l).star (meaningOf r) := by
  obtain ⟨_, _, rfl⟩ := evalProd_ok.mp h
  ext1
  · simp only [meaningOf, Meaning.star, Meaning.colon, termSets_uniqueify, termSets_products, termSets_append]
  · rfl

theorem slash_meaning {l r e : IExpr F} (h : evalDiv l r = .ok e) :
    meaningOf e = (meaningOf l).slash (meaningOf r) := by
  obtain ⟨_, _, rfl⟩ := evalDiv_ok.mp h
  have h1 : ⋃₀ termSets l.terms = fset (Term.of (l.terms.flatMap (·.factors))) := by
    rw [sUnion_termSets]; ext f; simp [fset, Term.mem_of]
  ext1
  · simp only [meaningOf, Meaning.slash, termSets_uniqueify, termSets_products, termSets_append, h1]
    congr 1
    ext U
    simp only [Set.mem_ofPred_eq]
    constructor
    · rintro ⟨S, hS, T, hT, rfl⟩
      obtain ⟨t, ht, rfl⟩ := mem_termSets'.mp hS
      simp only [List.mem_singleton] at ht
      subst ht; exact ⟨T, hT, rfl⟩
    · rintro ⟨T, hT, rfl⟩
      exact ⟨_, fset_mem (by simp), T, hT, rfl⟩
  · rfl

theorem saying_meaning {i r : Bool} {o : Option Origin} {l e : IExpr F}
    (h : IExpr.of i o r l.terms = .ok e) (b : Bool) (hb : i = b) (hr : r = !b) :
    meaningOf e = (meaningOf l).saying b := by
  obtain ⟨_, _, rfl⟩ := IExpr.of_ok.mp h
  subst hb hr
  ext1
  · simp only [meaningOf, Meaning.saying, termSets_uniqueify]
  · cases i <;> rfl

theorem only_meaning {i r : Bool} {o : Option Origin} {e : IExpr F}
    (h : IExpr.of i o r [] = .ok e) (b : Bool) (hb : i = b) (hr : r = !b) :
    meaningOf e = .only b := by
  obtain ⟨_, _, rfl⟩ := IExpr.of_ok.mp h
  subst hb hr
  ext1
  · simp only [meaningOf, Meaning.only, termSets_uniqueify, termSets_nil]
  · cases i <;> rfl

theorem factor_meaning {f : F} {e : IExpr F} (h : IExpr.of false none false [Term.of [f]] = .ok e) :
    meaningOf e = .factor f := by
  obtain ⟨_, _, rfl⟩ := IExpr.of_ok.mp h
  ext1
  · simp only [meaningOf, Meaning.factor, termSets_uniqueify]
    ext S
    rw [mem_termSets']
    simp only [List.mem_singleton, exists_eq_left, Set.mem_singleton_iff]
    have : fset (Term.of [f]) = {f} := by ext x; simp [fset, Term.mem_of]
    rw [this]; exact eq_comm
  · rfl

/-- If the evaluator returns an expression, that is what the tree means. -/
theorem eval_means (n : FTree) : ∀ e, eval mkFactor toInt n = .ok (.expr e) →
    Means mkFactor toInt n (meaningOf e) := by
  induction n with
  | atom t o =>
    intro e h
    rw [eval] at h
    split at h
    · rename_i hk
      simp only [bind_ok, pure_ok] at h
      obtain ⟨e', h1, h2⟩ := h
      simp only [Val.expr.injEq] at h2; subst h2
      rw [only_meaning h1 false rfl rfl]; exact .zero hk
    · rename_i hk
      simp only [bind_ok, pure_ok] at h
      obtain ⟨e', h1, h2⟩ := h
      simp only [Val.expr.injEq] at h2; subst h2
      rw [only_meaning h1 true rfl rfl]; exact .one hk
    · simp at h
    · rename_i hk
      split at h
      · rename_i code hc
        simp only [bind_ok, pure_ok] at h
        obtain ⟨f, hf, e', h1, h2⟩ := h
        simp only [Val.expr.injEq] at h2; subst h2
        rw [factor_meaning h1]; exact .code hk hc hf
      · simp at h
    · simp at h
  | unary t a o ih =>
    intro e h
    rw [eval] at h
    split at h
    · simp only [bind_ok, pure_ok] at h
      obtain ⟨_, _, _, _, h⟩ := h; simp at h
    · rename_i hk
      simp only [bind_ok, pure_ok, requireExpr_ok] at h
      obtain ⟨e', h1, h2⟩ := h
      simp only [Val.expr.injEq] at h2; subst h2
      exact .pos hk (ih _ h1)
    · rename_i hk
      split at h
      · rename_i hz
        simp only [bind_ok, pure_ok] at h
        obtain ⟨e', h1, h2⟩ := h
        simp only [Val.expr.injEq] at h2; subst h2
        rw [only_meaning h1 true rfl rfl]; exact .negZero hk (nodeType_iff.mp hz)
      · split at h
        · rename_i hz
          simp only [bind_ok, pure_ok] at h
          obtain ⟨e', h1, h2⟩ := h
          simp only [Val.expr.injEq] at h2; subst h2
          rw [only_meaning h1 false rfl rfl]; exact .negOne hk (nodeType_iff.mp hz)
        · simp at h
    · simp at h
  | binary t a b o iha ihb =>
    intro e h
    have ga := (eval_spec mkFactor toInt a).1
    have gb := (eval_spec mkFactor toInt b).1
    rw [eval] at h
    split at h
    · simp only [bind_ok, pure_ok] at h
      obtain ⟨_, _, _, _, h⟩ := h; simp at h
    · rename_i hk
      simp only [bind_ok, requireExpr_ok] at h
      obtain ⟨l, hl, h⟩ := h
      split at h
      · rename_i hz
        simp only [bind_ok, pure_ok] at h
        obtain ⟨e', h1, h2⟩ := h
        simp only [Val.expr.injEq] at h2; subst h2
        rw [saying_meaning h1 false rfl rfl]; exact .plusZero hk (iha _ hl) (nodeType_iff.mp hz)
      · rename_i hz
        simp only [bind_ok, pure_ok, requireExpr_ok] at h
        obtain ⟨r, hr, e', h1, h2⟩ := h
        simp only [Val.expr.injEq] at h2; subst h2
        obtain ⟨x, hx, hm⟩ := plus_meaning (ga l hl) (gb r hr)
        rw [h1] at hx; simp only [Except.ok.injEq] at hx; subst hx
        rw [hm]; exact .plus hk (iha _ hl) (ihb _ hr) (fun q => hz (nodeType_iff.mpr q))
    · rename_i hk
      simp only [bind_ok, requireExpr_ok] at h
      obtain ⟨l, hl, h⟩ := h
      split at h
      · rename_i hz
        simp only [bind_ok, pure_ok] at h
        obtain ⟨e', h1, h2⟩ := h
        simp only [Val.expr.injEq] at h2; subst h2
        rw [saying_meaning h1 true rfl rfl]; exact .minusZero hk (iha _ hl) (nodeType_iff.mp hz)
      · rename_i hz
        split at h
        · rename_i ho
          simp only [bind_ok, pure_ok] at h
          obtain ⟨e', h1, h2⟩ := h
          simp only [Val.expr.injEq] at h2; subst h2
          rw [saying_meaning h1 false rfl rfl]; exact .minusOne hk (iha _ hl) (nodeType_iff.mp ho)
        · rename_i ho
          simp only [bind_ok, pure_ok, requireExpr_ok] at h
          obtain ⟨r, hr, e', h1, h2⟩ := h
          simp only [Val.expr.injEq] at h2; subst h2
          obtain ⟨x, hx, hm⟩ := minus_meaning (r := r) (ga l hl)
          rw [h1] at hx; simp only [Except.ok.injEq] at hx; subst hx
          rw [hm]
          exact .minus hk (iha _ hl) (ihb _ hr) (fun q => hz (nodeType_iff.mpr q))
            (fun q => ho (nodeType_iff.mpr q))
    · rename_i hk
      simp only [bind_ok, pure_ok, requireExpr_ok] at h
      obtain ⟨l, hl, r, hr, e', h1, h2⟩ := h
      simp only [Val.expr.injEq] at h2; subst h2
      obtain ⟨i1, i2, _⟩ := evalProd_ok.mp h1
      rw [star_meaning h1]
      exact .star hk (iha _ hl) (ihb _ hr) (interactable_iff.mpr i1) (interactable_iff.mpr i2)
    · rename_i hk
      simp only [bind_ok, pure_ok, requireExpr_ok] at h
      obtain ⟨l, hl, r, hr, e', h1, h2⟩ := h
      simp only [Val.expr.injEq] at h2; subst h2
      obtain ⟨i1, i2, _⟩ := evalDiv_ok.mp h1
      rw [slash_meaning h1]
      exact .slash hk (iha _ hl) (ihb _ hr) (interactable_iff.mpr i1) (interactable_iff.mpr i2)
    · rename_i hk
      simp only [bind_ok, pure_ok, requireExpr_ok] at h
      obtain ⟨l, hl, r, hr, e', h1, h2⟩ := h
      simp only [Val.expr.injEq] at h2; subst h2
      obtain ⟨i1, i2, _⟩ := interaction_ok.mp h1
      rw [colon_meaning h1]
      exact .colon hk (iha _ hl) (ihb _ hr) (interactable_iff.mpr i1) (interactable_iff.mpr i2)
    · rename_i hk
      simp only [bind_ok, pure_ok, requireExpr_ok] at h
      obtain ⟨l, hl, e', h1, h2⟩ := h
      simp only [Val.expr.injEq] at h2; subst h2
      rcases evalPower_cases (ga l hl) (exponent toInt b) with h | ⟨hi, hp, _⟩
      · rw [h] at h1; simp at h1
      · obtain ⟨n, hn⟩ : ∃ n : ℕ, exponent toInt b = n := ⟨(exponent toInt b).toNat, by omega⟩
        rw [hn] at h1 hp
        have hn1 : 1 ≤ n := by omega
        obtain ⟨x, hx, hm⟩ := evalPower_meaning (ga l hl) hi hn1
        rw [h1] at hx; simp only [Except.ok.injEq] at hx; subst hx
        rw [hm]
        exact .power hk (iha _ hl) (interactable_iff.mpr hi) ((exponent_iff hn1).mp hn)
    · simp at h

/-- If a tree has a meaning, the evaluator computes it. -/
theorem means_eval {n : FTree} {m : Meaning F} (h : Means mkFactor toInt n m) :
    ∃ e, eval mkFactor toInt n = .ok (.expr e) ∧ meaningOf e = m := by
  induction h with
  | zero hk =>
    have h := simple_ok (F := F) (i := false) (o := none) (r := true) (ts := []) (by simp) (by simp)
    exact ⟨_, by simp [eval, hk, h, bind, Except.bind, pure, Except.pure], only_meaning h false rfl rfl⟩
  | @one t o hk =>
    have h := simple_ok (F := F) (i := true) (o := some o) (r := false) (ts := []) (by simp) (by simp)
    exact ⟨_, by simp [eval, hk, h, bind, Except.bind, pure, Except.pure], only_meaning h true rfl rfl⟩
  | @code t o c f hk hc hf =>
    have h := simple_ok (F := F) (i := false) (o := none) (r := false) (ts := [Term.of [f]]) (by simp) (by simp)
    exact ⟨_, by simp [eval, hk, hc, hf, h, bind, Except.bind, pure, Except.pure], factor_meaning h⟩
  | pos hk _ ih =>
    obtain ⟨e, he, hm⟩ := ih
    exact ⟨e, by simp [eval, hk, he, requireExpr, bind, Except.bind, pure, Except.pure], hm⟩
  | @negZero t a o hk hz =>
    have h := simple_ok (F := F) (i := true) (o := some o) (r := false) (ts := []) (by simp) (by simp)
    exact ⟨_, by simp [eval, hk, nodeType_iff.mpr hz, h, bind, Except.bind, pure, Except.pure],
      only_meaning h true rfl rfl⟩
  | @negOne t a o hk hz =>
    have h := simple_ok (F := F) (i := false) (o := none) (r := true) (ts := []) (by simp) (by simp)
    exact ⟨_, by simp [eval, hk, nodeType_iff.mpr hz, h, bind, Except.bind, pure, Except.pure],
      only_meaning h false rfl rfl⟩
  | plusZero hk _ hz ih =>
    obtain ⟨l, hl, hm⟩ := ih
    have h := simple_ok (F := F) (i := false) (o := none) (r := true) (ts := l.terms) (by simp) (by simp)
    exact ⟨_, by simp [eval, hk, hl, requireExpr, nodeType_iff.mpr hz, h, bind, Except.bind, pure, Except.pure]; rfl,
      by rw [saying_meaning h false rfl rfl, hm]⟩
  | plus hk _ _ hz iha ihb =>
    obtain ⟨l, hl, hm⟩ := iha
    obtain ⟨r, hr, hm'⟩ := ihb
    obtain ⟨e, he, hm''⟩ := plus_meaning ((eval_spec mkFactor toInt _).1 l hl) ((eval_spec mkFactor toInt _).1 r hr)
    exact ⟨e, by simp [eval, hk, hl, hr, requireExpr, mt nodeType_iff.mp hz, he, bind, Except.bind, pure, Except.pure],
      by rw [hm'', hm, hm']⟩
  | @minusZero t a b o _ hk _ hz ih =>
    obtain ⟨l, hl, hm⟩ := ih
    have h := simple_ok (F := F) (i := true) (o := some b.origin) (r := false) (ts := l.terms) (by simp) (by simp)
    exact ⟨_, by simp [eval, hk, hl, requireExpr, nodeType_iff.mpr hz, h, bind, Except.bind, pure, Except.pure]; rfl,
      by rw [saying_meaning h true rfl rfl, hm]⟩
  | minusOne hk _ hz ih =>
    obtain ⟨l, hl, hm⟩ := ih
    have h := simple_ok (F := F) (i := false) (o := none) (r := true) (ts := l.terms) (by simp) (by simp)
    exact ⟨_, by simp [eval, hk, hl, requireExpr, nodeType_iff.mpr hz, h, bind, Except.bind, pure, Except.pure]; rfl,
      by rw [saying_meaning h false rfl rfl, hm]⟩
  | minus hk _ _ hz ho iha ihb =>
    obtain ⟨l, hl, hm⟩ := iha
    obtain ⟨r, hr, hm'⟩ := ihb
    obtain ⟨e, he, hm''⟩ := minus_meaning (r := r) ((eval_spec mkFactor toInt _).1 l hl)
    exact ⟨e, by simp [eval, hk, hl, hr, requireExpr, mt nodeType_iff.mp hz, mt nodeType_iff.mp ho, he, bind, Except.bind, pure, Except.pure],
      by rw [hm'', hm, hm']⟩
  | colon hk _ _ h1 h2 iha ihb =>
    obtain ⟨l, hl, rfl⟩ := iha
    obtain ⟨r, hr, rfl⟩ := ihb
    have h := interaction_ok.mpr ⟨interactable_iff.mp h1, interactable_iff.mp h2, rfl⟩
    exact ⟨_, by simp [eval, hk, hl, hr, requireExpr, h, bind, Except.bind, pure, Except.pure], colon_meaning h⟩
  | star hk _ _ h1 h2 iha ihb =>
    obtain ⟨l, hl, rfl⟩ := iha
    obtain ⟨r, hr, rfl⟩ := ihb
    have h := evalProd_ok.mpr ⟨interactable_iff.mp h1, interactable_iff.mp h2, rfl⟩
    exact ⟨_, by simp [eval, hk, hl, hr, requireExpr, h, bind, Except.bind, pure, Except.pure], star_meaning h⟩
  | slash hk _ _ h1 h2 iha ihb =>
    obtain ⟨l, hl, rfl⟩ := iha
    obtain ⟨r, hr, rfl⟩ := ihb
    have h := evalDiv_ok.mpr ⟨interactable_iff.mp h1, interactable_iff.mp h2, rfl⟩
    exact ⟨_, by simp [eval, hk, hl, hr, requireExpr, h, bind, Except.bind, pure, Except.pure], slash_meaning h⟩
  | power hk _ h1 h2 iha =>
    obtain ⟨l, hl, rfl⟩ := iha
    have hn := h2.2.choose_spec.2.2
    obtain ⟨e, he, hm⟩ := evalPower_meaning ((eval_spec mkFactor toInt _).1 l hl) (interactable_iff.mp h1) hn
    have hx := (exponent_iff hn).mpr h2
    exact ⟨e, by simp [eval, hk, hl, requireExpr, hx, he, bind, Except.bind, pure, Except.pure], hm⟩

end Patsy.Props
