import Mathlib.Data.List.Forall2
import Verif.Model.Columns
import Verif.Lemmas.Desc
import Verif.Spec.Build

/-! Helper lemmas on lists, column combinations and column building. -/

set_option linter.unusedSectionVars false

namespace Patsy.Build

open Patsy.Desc Patsy.Spec

variable {F D K : Type} [DecidableEq F]

/-! ### monadic maps -/

theorem mapM_ok {A B : Type} {f : A → Except Err B} {l : List A} {out : List B} :
    l.mapM f = .ok out ↔ List.Forall₂ (fun a b => f a = .ok b) l out := by
  induction l generalizing out with
  | nil => cases out <;> simp [pure, Except.pure]
  | cons a l ih =>
    simp only [List.mapM_cons, bind_ok, pure_ok]
    constructor
    · rintro ⟨b, hb, bs, hbs, rfl⟩
      exact .cons hb (ih.mp hbs)
    · intro h
      cases h with
      | cons h1 h2 => exact ⟨_, h1, _, ih.mpr h2, rfl⟩

theorem mapM_some {A B : Type} {f : A → Option B} {l : List A} {out : List B} :
    l.mapM f = some out ↔ List.Forall₂ (fun a b => f a = some b) l out := by
  induction l generalizing out with
  | nil => cases out <;> simp
  | cons a l ih =>
    simp only [List.mapM_cons, Option.bind_eq_bind, Option.bind_eq_some_iff, Option.pure_def,
      Option.some.injEq]
    constructor
    · rintro ⟨b, hb, bs, hbs, rfl⟩
      exact .cons hb (ih.mp hbs)
    · intro h
      cases h with
      | cons h1 h2 => exact ⟨_, h1, _, ih.mpr h2, rfl⟩

theorem forall₂_iff {A B : Type} {R : A → B → Prop} {l : List A} {m : List B} :
    List.Forall₂ R l m ↔ m.length = l.length ∧
      ∀ (i : Nat) (a : A) (b : B), l[i]? = some a → m[i]? = some b → R a b := by
  induction l generalizing m with
  | nil => cases m <;> simp
  | cons a l ih =>
    cases m with
    | nil => simp
    | cons b m =>
      simp only [List.forall₂_cons, ih, List.length_cons, Nat.add_right_cancel_iff]
      constructor
      · rintro ⟨h1, h2, h3⟩
        refine ⟨h2, ?_⟩
        intro i a' b' ha hb
        cases i with
        | zero => simp at ha hb; subst ha; subst hb; exact h1
        | succ i => simp at ha hb; exact h3 i _ _ ha hb
      · rintro ⟨h2, h3⟩
        refine ⟨h3 0 a b (by simp) (by simp), h2, ?_⟩
        intro i a' b' ha hb
        exact h3 (i+1) _ _ (by simpa using ha) (by simpa using hb)

/-! ### column combinations -/

theorem product_snoc {A : Type} (ls : List (List A)) (l : List A) :
    product (ls ++ [l]) = (product ls).flatMap fun t => l.map fun a => t ++ [a] := by
  induction ls with
  | nil =>
    simp only [List.nil_append, product, List.map_cons, List.map_nil, List.flatMap_cons,
      List.flatMap_nil, List.append_nil]
    induction l with
    | nil => rfl
    | cons a l ih => simp [ih]
  | cons m ls ih =>
    simp only [List.cons_append, product, ih]
    simp [List.flatMap_assoc, List.map_flatMap, List.flatMap_map, Function.comp_def]

theorem columnCombinations_cons (n : Nat) (ns : List Nat) :
    columnCombinations (n :: ns) =
      (columnCombinations ns).flatMap fun t => (List.range n).map fun a => a :: t := by
  simp only [columnCombinations, List.reverse_cons, List.map_append, List.map_cons, List.map_nil,
    product_snoc]
  simp [List.map_flatMap, List.flatMap_map, Function.comp_def]

theorem range_mul (n m : Nat) :
    List.range (n * m) = (List.range m).flatMap fun q => (List.range n).map fun r => n * q + r := by
  induction m with
  | zero => simp
  | succ m ih =>
    rw [Nat.mul_succ, List.range_add, ih, List.range_succ]
    simp

theorem columnCombinations_eq (ns : List Nat) :
    columnCombinations ns = (List.range ns.prod).map (digits ns) := by
  induction ns with
  | nil => simp [columnCombinations, product, digits]
  | cons n ns ih =>
    rw [columnCombinations_cons, ih, List.prod_cons, range_mul]
    simp only [List.flatMap_map, List.map_flatMap, List.map_map]
    apply List.flatMap_congr
    intro q _
    apply List.map_congr_left
    intro r hr
    have hr : r < n := by simpa using hr
    have hn : 0 < n := by omega
    simp [digits, Nat.mod_eq_of_lt hr, Nat.mul_add_div hn, Nat.div_eq_of_lt hr]

theorem digits_length (ns : List Nat) (i : Nat) : (digits ns i).length = ns.length := by
  induction ns generalizing i with
  | nil => simp [digits]
  | cons n ns ih => simp [digits, ih]

theorem place_lt {ns js : List Nat} (h : Choice ns js) : place ns js < ns.prod := by
  induction ns generalizing js with
  | nil => simp [place]
  | cons n ns ih =>
    cases js with
    | nil => simp [Choice] at h
    | cons j js =>
      obtain ⟨h1, h2⟩ := h
      have := ih h2
      simp only [place, List.prod_cons]
      calc j + n * place ns js < n + n * place ns js := by omega
        _ = n * (place ns js + 1) := by rw [Nat.mul_succ]; omega
        _ ≤ n * ns.prod := Nat.mul_le_mul_left _ this

theorem digits_place {ns js : List Nat} (h : Choice ns js) : digits ns (place ns js) = js := by
  induction ns generalizing js with
  | nil => cases js <;> simp_all [Choice, digits]
  | cons n ns ih =>
    cases js with
    | nil => simp [Choice] at h
    | cons j js =>
      obtain ⟨h1, h2⟩ := h
      have hn : 0 < n := by omega
      simp only [place, digits]
      rw [Nat.add_comm j, Nat.mul_add_mod, Nat.mod_eq_of_lt h1, Nat.mul_add_div hn,
        Nat.div_eq_of_lt h1, Nat.add_zero, ih h2]

theorem choice_digits {ns : List Nat} {i : Nat} (h : i < ns.prod) : Choice ns (digits ns i) := by
  induction ns generalizing i with
  | nil => simp [digits, Choice]
  | cons n ns ih =>
    simp only [List.prod_cons] at h
    have hn : 0 < n := Nat.pos_of_ne_zero (by rintro rfl; simp at h)
    exact ⟨Nat.mod_lt _ hn, ih (Nat.div_lt_of_lt_mul h)⟩

theorem place_digits {ns : List Nat} {i : Nat} (h : i < ns.prod) : place ns (digits ns i) = i := by
  induction ns generalizing i with
  | nil => simp at h; simp [place, h]
  | cons n ns ih =>
    simp only [List.prod_cons] at h
    have hn : 0 < n := Nat.pos_of_ne_zero (by rintro rfl; simp at h)
    simp only [digits, place, ih (Nat.div_lt_of_lt_mul h)]
    exact Nat.mod_add_div i n

/-! ### consistency of a subterm -/

/-- Every factor of the subterm is known, and has a contrast matrix with the right number
of rows exactly if it is categorical. -/
def SubtermGood (fis : List (F × FactorInfo F D K)) (cms : List (F × ContrastMatrix K))
    (fs : List F) : Prop :=
  ∀ f ∈ fs, ∃ fi, dictGet fis f = some fi ∧
    ((∃ n, fi.type = .numerical n ∧ dictGet cms f = none) ∨
     (∃ k cm, fi.type = .categorical k ∧ dictGet cms f = some cm ∧ cm.matrix.length = k))

theorem dictGet_mem {A B : Type} [DecidableEq A] {d : List (A × B)} {a : A} {b : B}
    (h : dictGet d a = some b) : (a, b) ∈ d := by
  simp only [dictGet, Option.map_eq_some_iff] at h
  obtain ⟨p, hp, rfl⟩ := h
  have h1 := List.mem_of_find?_eq_some hp
  have h2 := List.find?_some hp
  simp only [decide_eq_true_eq] at h2
  subst h2
  exact h1

theorem dictGet_isSome {A B : Type} [DecidableEq A] {d : List (A × B)} {a : A} :
    (dictGet d a).isSome ↔ a ∈ d.map Prod.fst := by
  simp [dictGet, List.find?_isSome]

theorem expectedColumns_spec {fis : List (F × FactorInfo F D K)}
    {cms : List (F × ContrastMatrix K)} {fs : List F} {n : Nat} {cats : List F}
    (h : expectedColumns fis cms fs = .ok (n, cats)) :
    (∀ f ∈ fs, ∃ fi, dictGet fis f = some fi ∧
      ((∃ n, fi.type = .numerical n) ∨
       (∃ k cm, fi.type = .categorical k ∧ dictGet cms f = some cm ∧ cm.matrix.length = k))) ∧
    (∀ f, f ∈ cats → ∃ fi k, dictGet fis f = some fi ∧ fi.type = .categorical k) := by
  induction fs generalizing n cats with
  | nil =>
    simp only [expectedColumns, Except.ok.injEq, Prod.mk.injEq] at h
    obtain ⟨_, rfl⟩ := h
    simp
  | cons f fs ih =>
    simp only [expectedColumns] at h
    split at h
    · simp at h
    · rename_i fi hfi
      split at h
      · rename_i m hm
        simp only [bind_ok] at h
        obtain ⟨⟨n', cats'⟩, h1, h2⟩ := h
        simp only [Except.ok.injEq, Prod.mk.injEq] at h2
        obtain ⟨rfl, rfl⟩ := h2
        obtain ⟨a, b⟩ := ih h1
        refine ⟨?_, b⟩
        intro g hg
        simp only [List.mem_cons] at hg
        rcases hg with rfl | hg
        · exact ⟨fi, hfi, .inl ⟨m, hm⟩⟩
        · exact a g hg
      · rename_i k hk
        split at h
        · simp at h
        · rename_i cm hcm
          split at h
          · simp at h
          · rename_i hlen
            simp only [bind_ok] at h
            obtain ⟨⟨n', cats'⟩, h1, h2⟩ := h
            simp only [Except.ok.injEq, Prod.mk.injEq] at h2
            obtain ⟨rfl, rfl⟩ := h2
            obtain ⟨a, b⟩ := ih h1
            constructor
            · intro g hg
              simp only [List.mem_cons] at hg
              rcases hg with rfl | hg
              · exact ⟨fi, hfi, .inr ⟨k, cm, hk, hcm, by simpa using hlen⟩⟩
              · exact a g hg
            · intro g hg
              simp only [List.mem_cons] at hg
              rcases hg with rfl | hg
              · exact ⟨fi, k, hfi, hk⟩
              · exact b g hg

theorem sameSet_iff {A : Type} [DecidableEq A] {l m : List A} :
    sameSet l m = true ↔ ∀ a, a ∈ l ↔ a ∈ m := by
  simp only [sameSet, Bool.and_eq_true, List.all_eq_true, decide_eq_true_eq]
  constructor
  · rintro ⟨h1, h2⟩ a; exact ⟨h1 a, h2 a⟩
  · intro h; exact ⟨fun a => (h a).mp, fun a => (h a).mpr⟩

/-- The width list of a list of factors. -/
def widthsL (fis : List (F × FactorInfo F D K)) (cms : List (F × ContrastMatrix K))
    (fs : List F) : List Nat :=
  fs.map (widthOf fis cms)

theorem expectedColumns_prod {fis : List (F × FactorInfo F D K)}
    {cms : List (F × ContrastMatrix K)} {fs : List F} {n : Nat} {cats : List F}
    (h : expectedColumns fis cms fs = .ok (n, cats)) (hg : SubtermGood fis cms fs) :
    n = (widthsL fis cms fs).prod := by
  induction fs generalizing n cats with
  | nil =>
    simp only [expectedColumns, Except.ok.injEq, Prod.mk.injEq] at h
    simp [widthsL, h.1.symm]
  | cons f fs ih =>
    have hg' : SubtermGood fis cms fs := fun g hgm => hg g (List.mem_cons_of_mem _ hgm)
    obtain ⟨fi, hfi, hcase⟩ := hg f (List.mem_cons_self ..)
    simp only [expectedColumns, hfi] at h
    rcases hcase with ⟨m, hm, hnone⟩ | ⟨k, cm, hk, hcm, hlen⟩
    · simp only [hm, bind_ok] at h
      obtain ⟨⟨n', cats'⟩, h1, h2⟩ := h
      simp only [Except.ok.injEq, Prod.mk.injEq] at h2
      have := ih h1 hg'
      obtain ⟨u, f', ty, ev⟩ := fi
      simp only at hm; subst hm
      simp only [widthsL, List.map_cons, widthOf, hnone, hfi, List.prod_cons]
      rw [← h2.1, this]; rfl
    · simp only [hk, hcm, hlen, ne_eq, not_true_eq_false, if_false, bind_ok] at h
      obtain ⟨⟨n', cats'⟩, h1, h2⟩ := h
      simp only [Except.ok.injEq, Prod.mk.injEq] at h2
      have := ih h1 hg'
      simp only [widthsL, List.map_cons, widthOf, hcm, List.prod_cons]
      rw [← h2.1, this]; rfl

theorem columnsPerFactor_good {fis : List (F × FactorInfo F D K)}
    {cms : List (F × ContrastMatrix K)} {fs : List F} (hg : SubtermGood fis cms fs) :
    columnsPerFactor fis cms fs = .ok (widthsL fis cms fs) := by
  induction fs with
  | nil => rfl
  | cons f fs ih =>
    have hg' : SubtermGood fis cms fs := fun g hgm => hg g (List.mem_cons_of_mem _ hgm)
    obtain ⟨fi, hfi, hcase⟩ := hg f (List.mem_cons_self ..)
    obtain ⟨u, f', ty, ev⟩ := fi
    rcases hcase with ⟨m, hm, hnone⟩ | ⟨k, cm, hk, hcm, hlen⟩
    · simp only at hm; subst hm
      simp [columnsPerFactor, hnone, hfi, ih hg', widthsL, widthOf, bind, Except.bind]
    · simp [columnsPerFactor, hcm, ih hg', widthsL, widthOf, bind, Except.bind]

theorem checkSubterm_good {fis : List (F × FactorInfo F D K)} {st : SubtermInfo F K}
    (h : checkSubterm fis st = .ok ()) :
    SubtermGood fis st.contrasts st.factors ∧ (widths fis st).prod = st.numColumns ∧
    subtermCombinations fis st = .ok ((List.range st.numColumns).map (digits (widths fis st))) := by
  simp only [checkSubterm, bind_ok] at h
  obtain ⟨⟨n, cats⟩, h1, h2⟩ := h
  split at h2
  · simp at h2
  · rename_i hs
    split at h2
    · simp at h2
    · rename_i hn
      have hs : sameSet cats (st.contrasts.map Prod.fst) = true := by simpa using hs
      rw [sameSet_iff] at hs
      have hn : n = st.numColumns := by simpa using hn
      obtain ⟨a, b⟩ := expectedColumns_spec h1
      have good : SubtermGood fis st.contrasts st.factors := by
        intro f hf
        obtain ⟨fi, hfi, hc⟩ := a f hf
        refine ⟨fi, hfi, ?_⟩
        rcases hc with ⟨m, hm⟩ | hc
        · left
          refine ⟨m, hm, ?_⟩
          rw [← Option.not_isSome_iff_eq_none, dictGet_isSome, ← hs]
          intro hcat
          obtain ⟨fi', k, h3, h4⟩ := b f hcat
          rw [hfi] at h3; cases h3
          rw [hm] at h4; simp at h4
        · exact .inr hc
      have hw : widths fis st = widthsL fis st.contrasts st.factors := rfl
      have hp := expectedColumns_prod h1 good
      refine ⟨good, by rw [hw, ← hp, hn], ?_⟩
      simp [subtermCombinations, columnsPerFactor_good good, columnCombinations_eq, ← hp, hn, hw,
        bind, Except.bind]

/-! ### columns -/

/-- `col` is the column of length `n` with the entries `E`. -/
def IsCol (n : Nat) (E : Nat → Option K) (col : List K) : Prop :=
  col.length = n ∧ ∀ r, r < n → E r = col[r]?

theorem mapM_isCol {A : Type} {l : List A} {f : A → Except Err K} {E : Nat → Option K}
    {col : List K} (h : ∀ r a, l[r]? = some a → ∀ x, f a = .ok x ↔ E r = some x) :
    l.mapM f = .ok col ↔ IsCol l.length E col := by
  rw [mapM_ok, forall₂_iff]
  unfold IsCol
  constructor
  · rintro ⟨h1, h2⟩
    refine ⟨h1, ?_⟩
    intro r hr
    have hr' : r < col.length := by omega
    have := h2 r _ _ (List.getElem?_eq_getElem hr) (List.getElem?_eq_getElem hr')
    rw [(h r _ (List.getElem?_eq_getElem hr) _).mp this, List.getElem?_eq_getElem hr']
  · rintro ⟨h1, h2⟩
    refine ⟨h1, ?_⟩
    intro r a b ha hb
    have hr : r < l.length := (List.getElem?_eq_some_iff.mp ha).1
    exact (h r a ha b).mpr (by rw [h2 r hr, hb])

theorem factorColumn_isCol {fis : List (F × FactorInfo F D K)}
    {cms : List (F × ContrastMatrix K)} {values : List (F × Value K)} {n : Nat} {fs : List F}
    (hg : SubtermGood fis cms fs) (hv : ValuesGood fis values n fs) {f : F} (hf : f ∈ fs) {j : Nat}
    {col : List K} :
    factorColumn fis cms values f j = .ok col ↔
      IsCol n (fun r => entryAt fis cms (cellsAt values r) f j) col := by
  obtain ⟨fi, hfi, hcase⟩ := hg f hf
  obtain ⟨fi', v, hfi', hval, hn, hk⟩ := hv f hf
  rw [hfi] at hfi'; cases hfi'
  rcases hcase with ⟨m, hm, hnone⟩ | ⟨k, cm, hkk, hcm, hlen⟩
  · rw [hm] at hk
    cases v with
    | cat _ => simp [kindOK] at hk
    | labels _ => simp [kindOK] at hk
    | num nc rows =>
      simp only [kindOK] at hk
      simp only [factorColumn, hfi, hval, hm, hk, ne_eq, not_true_eq_false, if_false]
      simp only [Value.nrows] at hn
      subst hn
      apply mapM_isCol
      intro r a ha x
      simp only [entryAt, hfi, cellsAt, hval, cellOf, ha, hm, Option.bind_some, Option.map_some, cellEntry, rowEntry]
      cases a[j]? <;> simp
  · rw [hkk] at hk
    cases v with
    | num _ _ => simp [kindOK] at hk
    | labels _ => simp [kindOK] at hk
    | cat codes =>
      simp only [factorColumn, hfi, hval, hkk, hcm]
      simp only [Value.nrows] at hn
      subst hn
      have entry : ∀ r c, codes[r]? = some c → entryAt fis cms (cellsAt values r) f j =
          if c < 0 then none else cm.matrix[c.toNat]?.bind (·[j]?) := by
        intro r c hc
        simp [entryAt, hfi, cellsAt, hval, cellOf, hc, hkk, cellEntry, hcm]
      split
      · rename_i hneg
        simp only [List.any_eq_true, decide_eq_true_eq] at hneg
        obtain ⟨c, hc, hlt⟩ := hneg
        constructor
        · intro h; simp at h
        · rintro ⟨h1, h2⟩
          obtain ⟨r, hr, hrc⟩ := List.getElem_of_mem hc
          have e := entry r c (by rw [List.getElem?_eq_getElem hr, hrc])
          have := h2 r hr
          beta_reduce at this
          rw [e, if_pos hlt, List.getElem?_eq_getElem (by omega)] at this
          simp at this
      · rename_i hpos
        simp only [List.any_eq_true, decide_eq_true_eq, not_exists, not_and] at hpos
        apply mapM_isCol
        intro r c hc x
        rw [entry r c hc, if_neg (hpos c (List.mem_of_getElem? hc))]
        simp only [contrastEntry]
        cases cm.matrix[c.toNat]? with
        | none => simp
        | some row =>
          simp only [Option.bind_some]
          cases row[j]? <;> simp

theorem mulColumns_isCol [Mul K] {fis : List (F × FactorInfo F D K)}
    {cms : List (F × ContrastMatrix K)} {values : List (F × Value K)} {n : Nat} {fs : List F}
    (hg : SubtermGood fis cms fs) (hv : ValuesGood fis values n fs) {js : List Nat}
    {col out : List K} (hcol : col.length = n) :
    mulColumns fis cms values fs js col = .ok out ↔
      IsCol n (fun r => col[r]?.bind fun x => prodFrom fis cms (cellsAt values r) x fs js) out := by
  induction fs generalizing js col with
  | nil =>
    simp only [mulColumns, prodFrom, Except.ok.injEq]
    constructor
    · rintro rfl; exact ⟨hcol, fun r _ => by simp⟩
    · rintro ⟨h1, h2⟩
      apply List.ext_getElem? 
      intro r
      by_cases hr : r < n
      · have := h2 r hr; simpa using this
      · rw [List.getElem?_eq_none (by omega), List.getElem?_eq_none (by omega)]
  | cons f fs ih =>
    have hg' : SubtermGood fis cms fs := fun g hgm => hg g (List.mem_cons_of_mem _ hgm)
    have hv' : ValuesGood fis values n fs := fun g hgm => hv g (List.mem_cons_of_mem _ hgm)
    cases js with
    | nil =>
      simp only [mulColumns, prodFrom, Except.ok.injEq]
      constructor
      · rintro rfl; exact ⟨hcol, fun r _ => by simp⟩
      · rintro ⟨h1, h2⟩
        apply List.ext_getElem? 
        intro r
        by_cases hr : r < n
        · have := h2 r hr; simpa using this
        · rw [List.getElem?_eq_none (by omega), List.getElem?_eq_none (by omega)]
    | cons j js =>
      simp only [mulColumns, bind_ok, prodFrom]
      constructor
      · rintro ⟨v, h1, h2⟩
        rw [factorColumn_isCol hg hv (List.mem_cons_self ..)] at h1
        rw [ih hg' hv' (by simp [hcol, h1.1])] at h2
        refine ⟨h2.1, ?_⟩
        intro r hr
        rw [← h2.2 r hr]
        have hrc : r < col.length := by omega
        have hrv : r < v.length := by have := h1.1; omega
        have h1r := h1.2 r hr
        beta_reduce at h1r
        beta_reduce
        rw [h1r, List.getElem?_zipWith, List.getElem?_eq_getElem hrc, List.getElem?_eq_getElem hrv]
        simp
      · rintro ⟨h1, h2⟩
        -- the contribution exists in every row
        have hex : ∀ r, r < n → (entryAt fis cms (cellsAt values r) f j).isSome := by
          intro r hr
          have := h2 r hr
          beta_reduce at this
          rw [List.getElem?_eq_getElem (by omega : r < col.length), List.getElem?_eq_getElem (by omega : r < out.length)] at this
          simp only [Option.bind_some] at this
          cases he : entryAt fis cms (cellsAt values r) f j with
          | none => rw [he] at this; simp at this
          | some y => rfl
        have hv1 : IsCol n (fun r => entryAt fis cms (cellsAt values r) f j)
            ((List.range n).pmap (fun r (h : r < n) =>
              (entryAt fis cms (cellsAt values r) f j).get (hex r h)) (by simp)) := by
          refine ⟨by simp, ?_⟩
          intro r hr
          simp [List.getElem?_pmap, List.getElem?_range hr]
        refine ⟨_, (factorColumn_isCol hg hv (List.mem_cons_self ..)).mpr hv1, ?_⟩
        rw [ih hg' hv' (by simp [hcol])]
        refine ⟨h1, ?_⟩
        intro r hr
        rw [← h2 r hr]
        have hrc : r < col.length := by omega
        obtain ⟨y, hy⟩ := Option.isSome_iff_exists.mp (hex r hr)
        beta_reduce
        rw [List.getElem?_zipWith, List.getElem?_eq_getElem hrc]
        simp [List.getElem?_pmap, List.getElem?_range hr, hy]

theorem buildSubterm_isCol [Mul K] [One K] {fis : List (F × FactorInfo F D K)} {st : SubtermInfo F K}
    {values : List (F × Value K)} {n : Nat} {cols : List (List K)}
    (hc : checkSubterm fis st = .ok ()) (hv : ValuesGood fis values n st.factors) :
    buildSubterm fis st values n st.numColumns = .ok cols ↔
      List.Forall₂ (fun i col => IsCol n (fun r =>
        prodFrom fis st.contrasts (cellsAt values r) 1 st.factors (digits (widths fis st) i)) col)
        (List.range st.numColumns) cols := by
  obtain ⟨hg, hp, hcomb⟩ := checkSubterm_good hc
  have hcol : ∀ combo out, mulColumns fis st.contrasts values st.factors combo
      (List.replicate n 1) = .ok out ↔ IsCol n (fun r =>
        prodFrom fis st.contrasts (cellsAt values r) 1 st.factors combo) out := by
    intro combo out
    rw [mulColumns_isCol hg hv (by simp)]
    unfold IsCol
    have : ∀ r, r < n → ((List.replicate n (1 : K))[r]?.bind fun x =>
        prodFrom fis st.contrasts (cellsAt values r) x st.factors combo) =
        prodFrom fis st.contrasts (cellsAt values r) 1 st.factors combo := by
      intro r hr
      simp [hr]
    constructor
    · rintro ⟨h1, h2⟩; exact ⟨h1, fun r hr => by rw [← h2 r hr]; exact (this r hr).symm⟩
    · rintro ⟨h1, h2⟩; exact ⟨h1, fun r hr => by rw [← h2 r hr]; exact this r hr⟩
  simp only [buildSubterm, ne_eq, not_true_eq_false, if_false, hcomb, bind_ok]
  simp only [Except.ok.injEq, exists_eq_left', mapM_ok, List.forall₂_map_left_iff]
  constructor
  · rintro ⟨cols', h1, h2⟩
    have hl := h1.length_eq
    simp only [List.length_range] at hl
    rw [← hl] at h2
    simp only [gt_iff_lt, Nat.lt_irrefl, if_false, Nat.sub_self, List.replicate_zero,
      List.append_nil, Except.ok.injEq] at h2
    subst h2
    exact h1.imp fun i c h => (hcol _ _).mp h
  · intro h
    refine ⟨cols, h.imp fun i c h => (hcol _ _).mpr h, ?_⟩
    have hl := h.length_eq
    simp only [List.length_range] at hl
    simp [hl]

end Patsy.Build
