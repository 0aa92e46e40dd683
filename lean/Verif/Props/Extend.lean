import Verif.Lemmas.Extend
import Verif.Props.HighLevel
import Verif.Props.Subset
import Verif.Spec.Extend

/-!
# Property C77: adding terms to a formula
-/

set_option linter.unusedSectionVars false

namespace Patsy.Props

open Patsy.Build Patsy.Spec Patsy.Desc Patsy.Redundancy

variable {F D K : Type} [DecidableEq F]

/-- A design whose term codings are some of those of another design, over the same factors: its columns are the slices
of its terms in the other design. -/
theorem columns_of_some_terms [Mul K] [One K] {name : F → String} {names2 : List String} {c1 c2 : Coding F D K}
    {d2 : DesignInfo F D K} (h1 : ValidCoding c1) (hd2 : DesignInfo.make name names2 (some c2) = .ok d2) (hk : TermKeys c2)
    (hsub : ∀ p ∈ c1.termCodings, p ∈ c2.termCodings)
    (hget : ∀ p ∈ c1.termCodings, ∀ f ∈ p.1.factors, dictGet c1.factorInfos f = dictGet c2.factorInfos f) :
    ∃ slices, List.Forall₂ (fun p s => d2.slice (.term p.1) = .ok s) c1.termCodings slices ∧
      (∀ {B : Type} (blk : Term F × List (SubtermInfo F K) → List B), (∀ p ∈ c2.termCodings, (blk p).length = width p) →
        c1.termCodings.flatMap blk = selectAll slices (c2.termCodings.flatMap blk)) ∧
      columnsOf c1 = selectAll slices (columnsOf c2) ∧
      ∀ col ∈ columnsOf c1, ∀ V r,
        columnEntry c1 (designCells c1 V r) col = columnEntry c2 (designCells c2 V r) col := by
  have hex := (columns_exact hd2 hk).2.2.2.1
  have hslices : ∀ l : List (Term F × List (SubtermInfo F K)), (∀ p ∈ l, p ∈ c2.termCodings) →
      ∃ slices, List.Forall₂ (fun p s => d2.slice (.term p.1) = .ok s) l slices ∧
        ∀ {B : Type} (blk : Term F × List (SubtermInfo F K) → List B), (∀ p ∈ c2.termCodings, (blk p).length = width p) →
          l.flatMap blk = selectAll slices (c2.termCodings.flatMap blk) := by
    intro l
    induction l with
    | nil => intro _; exact ⟨[], .nil, fun _ _ => rfl⟩
    | cons p l ih =>
      intro hl
      obtain ⟨ss, i1, i2⟩ := ih fun q hq => hl q (List.mem_cons_of_mem _ hq)
      obtain ⟨k, hkp⟩ := List.getElem?_of_mem (hl p (by simp))
      refine ⟨⟨before c2 k, before c2 k + width p⟩ :: ss, .cons ((hex k p hkp).1 p.1 (by rw [Term.eqv_iff]; simp)) i1, ?_⟩
      intro B blk hb
      have := select_block blk hkp
      have hbef : ((c2.termCodings.take k).map fun a => (blk a).length).sum = before c2 k := by
        unfold before
        congr 1
        apply List.map_congr_left
        intro q hq
        exact hb q (List.mem_of_mem_take hq)
      rw [hbef, hb p (hl p (by simp))] at this
      simp only [selectAll, List.flatMap_cons]
      rw [this, i2 blk hb]
      rfl
  obtain ⟨slices, hs1, hs2⟩ := hslices c1.termCodings hsub
  have hget' : ∀ p ∈ c1.termCodings, ∀ st ∈ p.2, ∀ f ∈ st.factors,
      dictGet c1.factorInfos f = dictGet c2.factorInfos f :=
    fun p hp st hst f hf => hget p hp f (h1.sub p hp st hst f hf)
  refine ⟨slices, hs1, hs2, ?_, ?_⟩
  · rw [columnsOf_blocks c2, ← hs2 (termBlock c2.factorInfos) fun p _ => termBlock_length _ p, columnsOf_blocks]
    apply List.flatMap_congr
    intro p hp
    simp only [termBlock, columnsOfSts]
    apply List.flatMap_congr
    intro st hst
    have : widths c1.factorInfos st = widths c2.factorInfos st := by
      simp only [widths]
      apply List.map_congr_left
      intro f hf
      simp only [widthOf, hget' p hp st hst f hf]
    rw [this]
  · intro col hcol V r
    rw [columnsOf_blocks] at hcol
    obtain ⟨p, hp, hcol⟩ := List.mem_flatMap.mp hcol
    have hst := mem_termBlock hcol
    unfold columnEntry
    apply prodFrom_congr
    intro f hf j
    simp only [entryAt, designCells, hget' p hp col.1 hst f hf]

/-- The parts of a design made from a list of terms. -/
theorem makeDesign_parts {H : Type} [DecidableEq H] {name : F → String} {hash : Subterm F → H} {nums : List (F × Nat)}
    {coder : F → Bool → Except Err (ContrastMatrix K)} {fis : List (F × FactorInfo F D K)} {ts : List (Term F)}
    {d : DesignInfo F D K} (h : makeDesign name hash nums coder fis ts = .ok d) :
    ∃ (infos : List (Term F × List (SubtermInfo F K))) (own : List (F × FactorInfo F D K))
      (blk : Term F × List (SubtermInfo F K) → List (List String)), makeSubtermInfos hash nums coder ts = .ok infos ∧ d.coding = some ⟨own, infos⟩ ∧
      (∀ f, (∃ t ∈ ts, f ∈ t.factors) → dictGet own f = dictGet fis f) ∧
      (∀ p ∈ infos, List.Forall₂ (fun st l => subtermColumnNames name fis st = .ok l) p.2 (blk p)) ∧
      DesignInfo.make name (infos.flatMap fun p => (blk p).flatten) (some ⟨own, infos⟩) = .ok d := by
  simp only [makeDesign, bind_ok] at h
  obtain ⟨infos, hi, h⟩ := h
  split at h
  · simp only [bind_ok] at h
    obtain ⟨own, ho, names, hn, h⟩ := h
    obtain ⟨h1, h2⟩ := designFactors_fold (by simp) ho
    have hn := mapM_ok.mp hn
    let one : SubtermInfo F K → List String := fun st =>
      match subtermColumnNames name fis st with | .ok l => l | .error _ => []
    have hone : ∀ (l : List (SubtermInfo F K)) (ns : List (List String)),
        List.Forall₂ (fun st l => subtermColumnNames name fis st = .ok l) l ns → ns = l.map one := by
      intro l ns hl
      induction hl with
      | nil => rfl
      | cons h1 _ ih => rw [List.map_cons, ← ih]; simp [one, h1]
    have hall : ∀ st ∈ infos.flatMap (·.2), subtermColumnNames name fis st = .ok (one st) := by
      rw [hone _ _ hn, List.forall₂_map_right_iff] at hn
      intro st hst
      obtain ⟨i, hi, rfl⟩ := List.getElem_of_mem hst
      exact List.Forall₂.get hn (i := i) hi hi
    refine ⟨infos, own, fun p => p.2.map one, hi, (make_good.mp h).coding, ?_, ?_, ?_⟩
    · rintro f ⟨t, ht, hf⟩
      have hkey : f ∈ own.map Prod.fst := (h2 f).mpr (.inr (List.mem_flatMap.mpr ⟨t, ht, hf⟩))
      cases hdg : dictGet own f with
      | none =>
        have := dictGet_isSome.mpr hkey
        rw [hdg] at this; simp at this
      | some fi => exact (h1 (f, fi) (dictGet_mem hdg)).symm
    · intro p hp
      rw [List.forall₂_map_right_iff, List.forall₂_same]
      exact fun st hst => hall st (List.mem_flatMap.mpr ⟨p, hp, hst⟩)
    · rw [hone _ _ hn] at h
      have : (infos.flatMap fun p => (p.2.map one).flatten) = ((infos.flatMap (·.2)).map one).flatten := by
        clear * -
        induction infos with
        | nil => rfl
        | cons p l ih =>
          rw [List.flatMap_cons, List.flatMap_cons, List.map_append, List.flatten_append, ih]
      rw [this]; exact h
  · simp at h

/-- Two designs that are made in one call from the terms `ts` and `ts ++ new`. -/
theorem nested_core [Mul K] [One K] {H : Type} [DecidableEq H] {name : F → String} {hash : Subterm F → H}
    {eval : F → D → Except Err (Seen K)} {types : List (F × Nat) × List (F × List Cat.PyVal × Option (Contrast.Spec K))} {uid : F → Nat} {coder : F → Bool → Except Err (ContrastMatrix K)}
    {fis : List (F × FactorInfo F D K)} (hinfo : ∀ f fi, dictGet fis f = some fi → factorInfo eval types.1 types.2 (uid f) f = .ok fi)
    {ts new : List (Term F)} (hnd : ∀ t ∈ ts ++ new, t.factors.Nodup) {d1 d2 : DesignInfo F D K}
    (hd1 : makeDesign name hash types.1 coder fis ts = .ok d1) (hd2 : makeDesign name hash types.1 coder fis (ts ++ new) = .ok d2)
    (hlate : Later (numericalIn d2) ts new) :
    ∃ c1 c2 slices, IsDesign d1 c1 ∧ IsDesign d2 c2 ∧
      List.Forall₂ (fun p s => d2.slice (.term p.1) = .ok s) c1.termCodings slices ∧
      d1.columnNames = selectAll slices d2.columnNames ∧
      ∀ V (rows : List Nat) cols, IsMatrix c2 (rows.map (designCells c2 V)) cols → IsMatrix c1 (rows.map (designCells c1 V)) (selectAll slices cols) := by
  obtain ⟨infos1, own1, blk1, g1, g2, g3, g4, g5⟩ := makeDesign_parts hd1
  obtain ⟨infos2, own2, blk2, k1, k2, k3, k4, k5⟩ := makeDesign_parts hd2
  have hnum : ∀ t ∈ ts ++ new, ∀ f ∈ t.factors, numericalIn d2 f = (dictGet types.1 f).isSome := by
    intro t ht f hf
    have hval := (make_good.mp k5).valid
    have e := k3 f ⟨t, ht, hf⟩
    have hperm := Patsy.Names.inOrder_perm (term_order hnd k1)
    have hkey : f ∈ own2.map Prod.fst := by
      refine (hval.same f).mp (List.mem_flatMap.mpr ?_)
      obtain ⟨p, hp, rfl⟩ := List.mem_map.mp (hperm.mem_iff.mpr ht)
      exact ⟨p, hp, hf⟩
    cases hfi : dictGet own2 f with
    | none =>
      have := dictGet_isSome.mpr hkey
      rw [hfi] at this; simp at this
    | some fi =>
      rw [hfi] at e
      have hf2 := hinfo f fi e.symm
      simp only [numericalIn, k2, Option.bind_some, hfi]
      unfold factorInfo at hf2
      split at hf2
      · rename_i n hn
        simp only [Except.ok.injEq] at hf2
        subst hf2
        simp [hn]
      · rename_i hn
        split at hf2
        · simp at hf2
        · simp only [Except.ok.injEq] at hf2
          subst hf2
          simp [hn]
  have hlate' : ∀ u ∈ new, ∀ t ∈ ts, sameGroup (fun f => (dictGet types.1 f).isSome) t u = true →
      t.factors.length ≤ u.factors.length := by
    intro u hu t ht' h
    refine hlate u hu t ht' ?_
    simp only [sameGroup, Bool.and_eq_true, List.all_eq_true] at h ⊢
    exact ⟨fun f hf => by rw [hnum t (by simp [ht']) f hf]; exact h.1 f hf,
      fun f hf => by rw [hnum u (by simp [hu]) f hf]; exact h.2 f hf⟩
  have hsubs := makeSubtermInfos_append hnd hlate' k1
  rw [g1] at hsubs
  have hinfos : infos1 = infos2.filter fun p => ts.any (Term.eqv p.1) := Except.ok.inj hsubs
  obtain ⟨_, _, _, hpw, _⟩ := makeSubtermInfos_spec k1
  have hperm1 := Patsy.Names.inOrder_perm (term_order (fun t h => hnd t (List.mem_append_left _ h)) g1)
  obtain ⟨slices, s1, s2, s3, s4⟩ := columns_of_some_terms (c1 := ⟨own1, infos1⟩) (c2 := ⟨own2, infos2⟩)
    (make_good.mp g5).valid k5 hpw
    (fun p hp => by rw [hinfos] at hp; exact List.mem_of_mem_filter hp)
    (fun p hp f hf => by
      have hmem : p.1 ∈ ts := hperm1.mem_iff.mp (List.mem_map_of_mem hp)
      exact (g3 f ⟨p.1, hmem, hf⟩).trans (k3 f ⟨p.1, List.mem_append_left _ hmem, hf⟩).symm)
  refine ⟨_, _, slices, ⟨_, _, g5⟩, ⟨_, _, k5⟩, s1, ?_, fun V rows cols => subset_isMatrix s3 s4⟩
  · have hn1 := (columns_exact g5 (by
      have := (makeSubtermInfos_spec g1)
      obtain ⟨_, _, _, h, _⟩ := this
      exact h)).1
    have hn2 := (columns_exact k5 hpw).1
    rw [hn1, hn2]
    have hblk : ∀ p ∈ infos1, blk1 p = blk2 p := by
      intro p hp
      have a1 := g4 p hp
      have a2 := k4 p (by rw [hinfos] at hp; exact List.mem_of_mem_filter hp)
      generalize blk1 p = x at a1
      generalize blk2 p = y at a2
      generalize p.2 = z at a1 a2
      induction a1 generalizing y with
      | nil => cases a2; rfl
      | cons b1 _ ih =>
        cases a2 with
        | cons b2 b3 =>
          rw [ih _ b3]
          rw [b1] at b2
          rw [Except.ok.inj b2]
    rw [← s2 (fun p => (blk2 p).flatten)]
    · apply List.flatMap_congr
      intro p hp
      rw [hblk p hp]
    · intro p hp
      have a2 := k4 p hp
      simp only [width]
      generalize blk2 p = y at a2
      generalize p.2 = z at a2
      induction a2 with
      | nil => rfl
      | cons b1 _ ih =>
        rw [List.flatten_cons, List.length_append, List.map_cons, List.sum_cons, ih]
        congr 1
        simp only [subtermColumnNames, bind_ok] at b1
        obtain ⟨_, _, ns, _, b1⟩ := b1
        split at b1
        · rename_i hl
          rw [← Except.ok.inj b1, hl]
        · simp at b1

/-- **C77**.  Terms are added at the end of a formula, and no new term has fewer factors than an old term with the same
numerical factors.  Then the columns of the old terms stay what they were: each term of the smaller design is a term of
the larger one, the columns of the smaller design have the names that the larger design gives to the columns of these
terms, and when both are built on the same data the matrix of the smaller design consists of these columns of the larger
matrix. -/
theorem nested_designs [Mul K] [One K] {H : Type} [DecidableEq H] {P : Setting F D K H} (hw : World P) {chunks : List D}
    {ts new : List (Term F)} (hnd : ∀ t ∈ ts ++ new, t.factors.Nodup) {d1 d2 : DesignInfo F D K}
    (hb : designMatrixBuilders P chunks [ts, ts ++ new] = .ok [d1, d2]) (hlate : Later (numericalIn d2) ts new) :
    ∃ c1 slices, d1.coding = some c1 ∧ List.Forall₂ (fun p s => d2.slice (.term p.1) = .ok s) c1.termCodings slices ∧
      d1.columnNames = selectAll slices d2.columnNames ∧
      ∀ isnan na frame dataIndex data b, buildDesignMatrices isnan na frame dataIndex [d1, d2] data = .ok b →
        ∃ m1 m2, b.mats = [m1, m2] ∧ m1.nrows = m2.nrows ∧ m1.cols = selectAll slices m2.cols := by
  obtain ⟨cs, hcs, hsame, hfits, _⟩ := builders_sound hw (by
    intro tl htl t ht
    simp only [List.mem_cons, List.not_mem_nil, or_false] at htl
    rcases htl with rfl | rfl
    · exact hnd t (List.mem_append_left _ ht)
    · exact hnd t ht) hb
  obtain ⟨eval, types, fis, he, ht, hinfo, hd⟩ := builders_ok hw.visits hb
  rw [List.forall₂_cons, List.forall₂_cons] at hd
  obtain ⟨hd1, hd2, _⟩ := hd
  obtain ⟨c1, c2, slices, i1, i2, s1, s2, s3⟩ := nested_core (fun f fi h => (hinfo f fi h).2) hnd hd1 hd2 hlate
  refine ⟨c1, slices, coding_of_isDesign i1, s1, s2, ?_⟩
  intro isnan na frame dataIndex data b hbuild
  have hcs' : cs = [c1, c2] := by
    have : ∀ (d : DesignInfo F D K) c c', IsDesign d c → IsDesign d c' → c = c' := by
      intro d c c' h h'
      have e1 := coding_of_isDesign h
      have e2 := coding_of_isDesign h'
      rw [e1] at e2
      exact Option.some.inj e2
    cases hcs with
    | cons b1 b2 =>
      cases b2 with
      | cons b3 b4 =>
        cases b4
        rw [this _ _ _ b1 i1, this _ _ _ b3 i2]
  subst hcs'
  rw [build_iff (by simp) hcs hsame (hfits _ _)] at hbuild
  obtain ⟨V, n, idx, _, _, e3, _⟩ := hbuild
  obtain ⟨mats, i⟩ := b
  simp only at e3
  cases e3 with
  | @cons _ m1 _ l hm hl =>
    cases hl with
    | @cons _ m2 _ l' hm' hl' =>
      cases hl'
      exact ⟨m1, m2, rfl, by rw [hm.1, hm'.1], isMatrix_unique hm.2 (s3 _ _ _ hm'.2)⟩

/-! ### Examples -/

namespace ExtendSample

open BuilderSample HighSample

/-- `1 + a + x`. -/
def old : List (Term String) := [⟨[]⟩, ⟨["a"]⟩, ⟨["x"]⟩]

/-- `a:x + y`, added to it. -/
def new : List (Term String) := [⟨["a", "x"]⟩, ⟨["y"]⟩]

def both : Except Err (List (DesignInfo String Data ℚ)) := designMatrixBuilders setting' [data] [old, old ++ new]

theorem both_ok : isOk both = true := by decide +kernel

/-- The two designs. -/
def small : DesignInfo String Data ℚ := (getOk both both_ok)[0]'(by decide +kernel)
def large : DesignInfo String Data ℚ := (getOk both both_ok)[1]'(by decide +kernel)

theorem both_eq : both = .ok [small, large] := by
  rw [getOk_eq both_ok]
  congr 1
  exact List.ext_getElem (by decide +kernel) fun i h1 h2 => by
    have : i < 2 := h2
    match i, this with
    | 0, _ => rfl
    | 1, _ => rfl

def matrices : Except Err (Built ℚ) := buildDesignMatrices noNaN {} false none [small, large] data

theorem matrices_ok : isOk matrices = true := by decide +kernel

end ExtendSample

open ExtendSample BuilderSample HighSample in
/-- Example: `a:x` and `y` are added to `1 + a + x`.  The columns of the old terms stay the same, although one of the new
columns (`y`) belongs to a new group and two of them (`a:x`) come after the column of `x`. -/
example : (∀ t ∈ old ++ new, t.factors.Nodup) ∧ Later (numericalIn large) old new ∧
    small.columnNames = ["Intercept", "a[T.v]", "a[T.w]", "x"] ∧
    large.columnNames = ["Intercept", "a[T.v]", "a[T.w]", "x", "a[T.v]:x", "a[T.w]:x", "y"] ∧
    ∃ c1 slices, small.coding = some c1 ∧
      List.Forall₂ (fun p s => large.slice (.term p.1) = .ok s) c1.termCodings slices ∧
      small.columnNames = selectAll slices large.columnNames ∧
      ∃ m1 m2, (getOk matrices matrices_ok).mats = [m1, m2] ∧ m1.nrows = m2.nrows ∧ m1.cols = selectAll slices m2.cols := by
  have h1 : ∀ t ∈ old ++ new, t.factors.Nodup := by decide +kernel
  have h2 : Later (numericalIn large) old new := by unfold Later; decide +kernel
  obtain ⟨c1, slices, a1, a2, a3, a4⟩ := nested_designs world h1 both_eq h2
  exact ⟨h1, h2, by decide +kernel, by decide +kernel, c1, slices, a1, a2, a3, a4 _ _ _ _ _ _ (getOk_eq matrices_ok)⟩

namespace ExtendSample

open BuilderSample HighSample

/-- `x` is added to `a:x`. -/
def changed : Except Err (List (DesignInfo String Data ℚ)) :=
  designMatrixBuilders setting' [data] [[⟨["a", "x"]⟩], [⟨["a", "x"]⟩, ⟨["x"]⟩]]

theorem changed_ok : isOk changed = true := by decide +kernel

end ExtendSample

open ExtendSample BuilderSample HighSample in
/-- The condition is needed: when `x` is added to `a:x` (both have the numerical factor `x`), the columns of `a:x`
change. -/
theorem added_main_effect :
    ∃ ds, designMatrixBuilders setting' [data] [[⟨["a", "x"]⟩], [⟨["a", "x"]⟩, ⟨["x"]⟩]] = .ok ds ∧
      ds.map (·.columnNames) = [["a[u]:x", "a[v]:x", "a[w]:x"], ["x", "a[T.v]:x", "a[T.w]:x"]] :=
  ⟨_, getOk_eq changed_ok, by decide +kernel⟩

end Patsy.Props
