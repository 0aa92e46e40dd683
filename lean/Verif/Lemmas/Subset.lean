import Verif.Lemmas.DesignInfo
import Verif.Lemmas.BuildTop

/-! Lemmas about `DesignInfo.subset`. -/

set_option linter.unusedSectionVars false

namespace Patsy.Build

open Patsy.Desc Patsy.Spec

variable {F D K : Type} [DecidableEq F]

/-- The columns of a term. -/
def termBlock (fis : List (F × FactorInfo F D K)) (p : Term F × List (SubtermInfo F K)) :
    List (SubtermInfo F K × List Nat) := columnsOfSts fis p.2

theorem termBlock_length (fis : List (F × FactorInfo F D K)) (p : Term F × List (SubtermInfo F K)) :
    (termBlock fis p).length = termColumns p.2 := by
  simp only [termBlock, columnsOfSts, termColumns, List.length_flatMap, List.length_map,
    List.length_range]

theorem columnsOf_blocks (c : Coding F D K) :
    columnsOf c = c.termCodings.flatMap (termBlock c.factorInfos) := rfl

/-- The slice found for a term and the coding found for it belong to the same position. -/
theorem termGet_layout {l : List (Term F × List (SubtermInfo F K))} {t : Term F} {s : Slice}
    (h : termGet (layout 0 (l.map fun p => (p.1, termColumns p.2))) t = some s) :
    ∃ k p, l[k]? = some p ∧ Term.eqv p.1 t = true ∧ termGet l t = some p.2 ∧
      s = ⟨((l.take k).map fun p => termColumns p.2).sum,
        ((l.take k).map fun p => termColumns p.2).sum + termColumns p.2⟩ := by
  have key : ∀ (l : List (Term F × List (SubtermInfo F K))) (idx : Nat),
      termGet (layout idx (l.map fun p => (p.1, termColumns p.2))) t = some s →
      ∃ k p, l[k]? = some p ∧ Term.eqv p.1 t = true ∧ termGet l t = some p.2 ∧
      s = ⟨idx + ((l.take k).map fun p => termColumns p.2).sum,
        idx + ((l.take k).map fun p => termColumns p.2).sum + termColumns p.2⟩ := by
    intro l
    induction l with
    | nil => intro idx h; simp [layout, termGet] at h
    | cons q l ih =>
      intro idx h
      simp only [List.map_cons, layout, termGet, List.find?_cons] at h
      cases hq : Term.eqv q.1 t with
      | true =>
        simp only [hq, Option.map_some, Option.some.injEq] at h
        refine ⟨0, q, rfl, hq, ?_, by simp [← h]⟩
        simp [termGet, List.find?_cons, hq]
      | false =>
        simp only [hq] at h
        obtain ⟨k, p, h1, h2, h3, h4⟩ := ih _ h
        refine ⟨k + 1, p, by simpa using h1, h2, ?_, ?_⟩
        · simp only [termGet, List.find?_cons, hq]; exact h3
        · rw [h4]
          simp only [List.take_succ_cons, List.map_cons, List.sum_cons, Slice.mk.injEq]
          omega
  simpa using key l 0 h

/-- Selecting the columns of a term. -/
theorem select_term {A : Type} {fis : List (F × FactorInfo F D K)}
    {l : List (Term F × List (SubtermInfo F K))} {R : SubtermInfo F K × List Nat → A → Prop}
    {cols : List A} (h : List.Forall₂ R (l.flatMap (termBlock fis)) cols) {k : Nat}
    {p : Term F × List (SubtermInfo F K)} (hp : l[k]? = some p) :
    List.Forall₂ R (termBlock fis p)
      (Slice.select ⟨((l.take k).map fun p => termColumns p.2).sum,
        ((l.take k).map fun p => termColumns p.2).sum + termColumns p.2⟩ cols) := by
  have hb := select_block (termBlock fis) hp
  have hl : ∀ q : Term F × List (SubtermInfo F K), (termBlock fis q).length = termColumns q.2 :=
    fun q => termBlock_length fis q
  simp only [hl] at hb
  rw [← hb]
  unfold Slice.select
  exact List.forall₂_drop _ (List.forall₂_take _ h)

/-- One step of the loop. -/
structure Step (c : Coding F D K) (name : F → String) (w : TermSpec F) (t : Term F)
    (sts : List (SubtermInfo F K)) (s : Slice) : Prop where
  slice : termGet (layout 0 (c.termCodings.map fun p => (p.1, termColumns p.2))) t = some s
  coding : termGet c.termCodings t = some sts
  spec : match w with
    | .term t' => t' = t
    | .name n => dictGet (dictOf (fun a b => decide (a = b))
        (c.termCodings.map fun p => (termName name p.1, p.1))) n = some t

theorem orKeyError_ok {A : Type} {o : Option A} {a : A} : orKeyError o = .ok a ↔ o = some a := by
  cases o <;> simp [orKeyError]

theorem foldlM_factors {fs : List F} {c : Coding F D K} {acc out : List (F × FactorInfo F D K)}
    (hacc : ∀ p ∈ acc, dictGet c.factorInfos p.1 = some p.2)
    (h : fs.foldlM (fun acc f => do
      let fi ← orKeyError (dictGet c.factorInfos f)
      .ok (dictSet (fun a b => decide (a = b)) acc f fi)) acc = .ok out) :
    (∀ p ∈ out, dictGet c.factorInfos p.1 = some p.2) ∧
    (∀ f, f ∈ out.map Prod.fst ↔ f ∈ acc.map Prod.fst ∨ f ∈ fs) := by
  induction fs generalizing acc with
  | nil =>
    simp only [List.foldlM_nil, pure_ok] at h
    subst h
    exact ⟨hacc, by simp⟩
  | cons f fs ih =>
    rw [List.foldlM_cons] at h
    cases hf : dictGet c.factorInfos f with
    | none => simp [hf, bind, Except.bind, orKeyError] at h
    | some fi =>
      simp only [hf, bind, Except.bind, orKeyError] at h
      have hmem : ∀ p ∈ dictSet (fun a b => decide (a = b)) acc f fi, p ∈ acc ∨ p = (f, fi) := by
        intro p hp
        clear h ih
        induction acc with
        | nil => simp [dictSet] at hp; exact .inr hp
        | cons q acc ih =>
          obtain ⟨a', b'⟩ := q
          simp only [dictSet] at hp
          split at hp
          · rename_i heq
            have heq : a' = f := by simpa using heq
            rcases List.mem_cons.mp hp with rfl | hp
            · right; rw [heq]
            · left; exact List.mem_cons_of_mem _ hp
          · rcases List.mem_cons.mp hp with rfl | hp
            · left; exact List.mem_cons_self ..
            · rcases ih (fun p hp => hacc p (List.mem_cons_of_mem _ hp)) hp with h | h
              · left; exact List.mem_cons_of_mem _ h
              · right; exact h
      obtain ⟨h1, h2⟩ := ih (acc := dictSet (fun a b => decide (a = b)) acc f fi) (by
        intro p hp
        rcases hmem p hp with h1 | rfl
        · exact hacc p h1
        · exact hf) h
      refine ⟨h1, ?_⟩
      intro g
      rw [h2, List.mem_cons]
      have hk : (dictSet (fun a b => decide (a = b)) acc f fi).map Prod.fst =
          if f ∈ acc.map Prod.fst then acc.map Prod.fst else acc.map Prod.fst ++ [f] := by
        split
        · rename_i hin; exact dictSet_keys hin
        · rename_i hin; rw [dictSet_new hin]; simp
      rw [hk]
      split
      · rename_i hin
        constructor
        · rintro (h | h)
          · exact .inl h
          · exact .inr (.inr h)
        · rintro (h | rfl | h)
          · exact .inl h
          · exact .inl hin
          · exact .inr h
      · simp only [List.mem_append, List.mem_singleton]
        tauto

/-- The columns of a list of codings, in terms of the full design. -/
def blocksOf (c : Coding F D K) (tcs : List (Term F × List (SubtermInfo F K))) :
    List (SubtermInfo F K × List Nat) := tcs.flatMap (termBlock c.factorInfos)

/-- Invariant of the accumulators. -/
structure Accs (c : Coding F D K) (colNames : List String) (names : List String)
    (fis : List (F × FactorInfo F D K)) (tcs : List (Term F × List (SubtermInfo F K))) : Prop where
  info : ∀ p ∈ fis, dictGet c.factorInfos p.1 = some p.2
  keys : ∀ f, f ∈ fis.map Prod.fst ↔ ∃ p ∈ tcs, f ∈ p.1.factors
  coding : ∀ p ∈ tcs, termGet c.termCodings p.1 = some p.2
  names : ∀ p ∈ tcs, ∀ s, termGet (layout 0 (c.termCodings.map fun p => (p.1, termColumns p.2))) p.1 = some s →
    ∀ n ∈ s.select colNames, n ∈ names

theorem termGet_eqv {B : Type} {d : List (Term F × B)} {s t : Term F} (h : Term.eqv s t = true) :
    termGet d s = termGet d t := by
  unfold termGet
  congr 2
  funext p
  rw [Bool.eq_iff_iff, Term.eqv_iff, Term.eqv_iff]
  rw [Term.eqv_iff] at h
  constructor
  · intro h1 f; rw [h1 f, h f]
  · intro h1 f; rw [h1 f, ← h f]

theorem dictSet_termEqv {d : List (Term F × List (SubtermInfo F K))} {c : Coding F D K} {t : Term F}
    {sts : List (SubtermInfo F K)} (hd : ∀ p ∈ d, termGet c.termCodings p.1 = some p.2)
    (ht : termGet c.termCodings t = some sts) :
    ((∃ p ∈ d, Term.eqv p.1 t = true) ∧ dictSet Term.eqv d t sts = d) ∨
    ((∀ p ∈ d, Term.eqv p.1 t = false) ∧ dictSet Term.eqv d t sts = d ++ [(t, sts)]) := by
  induction d with
  | nil => right; simp [dictSet]
  | cons q d ih =>
    obtain ⟨a', b'⟩ := q
    simp only [dictSet]
    cases hq : Term.eqv a' t with
    | true =>
      left
      refine ⟨⟨_, List.mem_cons_self .., hq⟩, ?_⟩
      have h1 := hd _ (List.mem_cons_self ..)
      simp only at h1
      rw [termGet_eqv hq, ht] at h1
      simp only [Option.some.injEq] at h1
      simp [h1]
    | false =>
      rcases ih (fun p hp => hd p (List.mem_cons_of_mem _ hp)) with ⟨⟨p, h1, h2⟩, h3⟩ | ⟨h1, h2⟩
      · left
        exact ⟨⟨p, List.mem_cons_of_mem _ h1, h2⟩, by simp [h3]⟩
      · right
        refine ⟨?_, by simp [h2]⟩
        intro p hp
        rcases List.mem_cons.mp hp with rfl | hp
        · exact hq
        · exact h1 p hp

theorem subsetLoop_spec {name : F → String} {colNames : List String} {c : Coding F D K}
    {d : DesignInfo F D K} (hd : GoodDesign name colNames c d)
    {which : List (TermSpec F)} {names : List String} {fis : List (F × FactorInfo F D K)}
    {tcs : List (Term F × List (SubtermInfo F K))} (hacc : Accs c colNames names fis tcs)
    {out : List String × List (F × FactorInfo F D K) × List (Term F × List (SubtermInfo F K))}
    (h : subsetLoop name d c (layout 0 (c.termCodings.map fun p => (p.1, termColumns p.2))) which
      names fis tcs = .ok out) :
    ∃ steps : List (Term F × List (SubtermInfo F K) × Slice),
      List.Forall₂ (fun w q => Step c name w q.1 q.2.1 q.2.2) which steps ∧
      Accs c colNames out.1 out.2.1 out.2.2 ∧
      out.1 = names ++ steps.flatMap (fun q => q.2.2.select colNames) ∧
      (out.1.Nodup → blocksOf c out.2.2 =
        blocksOf c tcs ++ steps.flatMap (fun q => termBlock c.factorInfos (q.1, q.2.1))) := by
  have hcn : d.columnNames = colNames := by
    simp [DesignInfo.columnNames, hd.indexes, zip_range_keys]
  induction which generalizing names fis tcs with
  | nil =>
    simp only [subsetLoop, Except.ok.injEq] at h
    subst h
    exact ⟨[], .nil, hacc, by simp, by simp⟩
  | cons w which ih =>
    simp only [subsetLoop, bind_ok] at h
    obtain ⟨t, ht, s, hs, newFis, hf, sts, hst, h⟩ := h
    have hs' := orKeyError_ok.mp hs
    have hst' := orKeyError_ok.mp hst
    have hstep : Step c name w t sts s := by
      refine ⟨hs', hst', ?_⟩
      cases w with
      | term t' => simpa [resolveTerm] using ht
      | name n => exact orKeyError_ok.mp ht
    rw [hcn] at h
    obtain ⟨hf1, hf2⟩ := foldlM_factors hacc.info hf
    have hset := dictSet_termEqv hacc.coding hst'
    have hacc' : Accs c colNames (names ++ s.select colNames) newFis (dictSet Term.eqv tcs t sts) := by
      refine ⟨hf1, ?_, ?_, ?_⟩
      · intro f
        rw [hf2, hacc.keys]
        rcases hset with ⟨⟨p, h1, h2⟩, h3⟩ | ⟨h1, h2⟩
        · rw [h3]
          rw [Term.eqv_iff] at h2
          constructor
          · rintro (h | h)
            · exact h
            · exact ⟨p, h1, (h2 f).mpr h⟩
          · exact .inl
        · rw [h2]
          simp only [List.mem_append, List.mem_singleton]
          constructor
          · rintro (⟨p, h3, h4⟩ | h)
            · exact ⟨p, .inl h3, h4⟩
            · exact ⟨_, .inr rfl, h⟩
          · rintro ⟨p, h3 | rfl, h4⟩
            · exact .inl ⟨p, h3, h4⟩
            · exact .inr h4
      · intro p hp
        rcases hset with ⟨_, h3⟩ | ⟨h1, h2⟩
        · rw [h3] at hp; exact hacc.coding p hp
        · rw [h2] at hp
          rcases List.mem_append.mp hp with hp | hp
          · exact hacc.coding p hp
          · simp at hp; rw [hp]; exact hst'
      · intro p hp s' hs2 n hn
        rw [List.mem_append]
        rcases hset with ⟨_, h3⟩ | ⟨h1, h2⟩
        · rw [h3] at hp; exact .inl (hacc.names p hp s' hs2 n hn)
        · rw [h2] at hp
          rcases List.mem_append.mp hp with hp | hp
          · exact .inl (hacc.names p hp s' hs2 n hn)
          · simp at hp
            rw [hp] at hs2
            simp only [hs', Option.some.injEq] at hs2
            rw [← hs2] at hn
            exact .inr hn
    obtain ⟨steps, h1, h2, h3, h4⟩ := ih hacc' h
    refine ⟨(t, sts, s) :: steps, .cons hstep h1, h2, ?_, ?_⟩
    · rw [h3]; simp
    · intro hn
      rw [h4 hn]
      simp only [List.flatMap_cons, ← List.append_assoc]
      congr 1
      rcases hset with ⟨⟨p, h5, h6⟩, h7⟩ | ⟨h5, h6⟩
      · -- repeated term: it cannot have columns
        rw [h7]
        have hsel : s.select colNames = [] := by
          rw [h3] at hn
          have hn' := (List.nodup_append.mp hn).1
          rw [List.nodup_append] at hn'
          rw [List.eq_nil_iff_forall_not_mem]
          intro n hmem
          have := hacc.names p h5 s (by rw [termGet_eqv h6]; exact hs') n hmem
          exact hn'.2.2 n this n hmem rfl
        obtain ⟨k, q, h8, h9, h10, h11⟩ := termGet_layout hs'
        rw [hst'] at h10
        simp only [Option.some.injEq] at h10
        have hk : k < c.termCodings.length := by
          by_contra hge
          rw [List.getElem?_eq_none (by omega)] at h8
          simp at h8
        have hsum : ((c.termCodings.take k).map fun p => termColumns p.2).sum + termColumns q.2 ≤
            colNames.length := by
          rw [← hd.total]
          have hq : c.termCodings[k] = q := by
            rw [List.getElem?_eq_getElem hk] at h8; simpa using h8
          conv_rhs => rw [← List.take_append_drop (k + 1) c.termCodings]
          rw [List.map_append, List.sum_append, List.take_add_one, h8]
          simp
        have hlen := congrArg List.length hsel
        rw [h11] at hlen
        simp only [Slice.select, List.length_drop, List.length_take, List.length_nil] at hlen
        have hz : termColumns sts = 0 := by rw [h10]; omega
        have : termBlock c.factorInfos (t, sts) = [] := by
          apply List.length_eq_zero_iff.mp
          rw [termBlock_length]; exact hz
        simp [this]
      · rw [h6]
        simp [blocksOf]

end Patsy.Build
