import Verif.Lemmas.BuildMatrices

/-! The main lemma about `build_design_matrices`. -/

set_option linter.unusedSectionVars false

namespace Patsy.Build

open Patsy.Desc Patsy.Spec

variable {F D K : Type} [DecidableEq F]

/-- All factor infos of a list of designs. -/
def allFis (cs : List (Coding F D K × Nat)) : List (FactorInfo F D K) :=
  cs.flatMap fun c => c.1.factorInfos.map Prod.snd

/-- The new value after missing-value handling, when `good` marks the complete rows. -/
def afterNA (na : NAAction) (good : List Bool) (v : Value K) : Value K :=
  match na.onNA with
  | .drop => v.select good
  | .raise => v

theorem range_filter_self {n : Nat} {p : Nat → Bool} :
    (List.range n).filter p = List.range n ↔ ∀ r, r < n → p r = true := by
  rw [List.filter_eq_self]
  simp

theorem afterNA_nrows {na : NAAction} {p : Nat → Bool} {v : Value K} {n : Nat} (hv : v.nrows = n)
    (hr : na.onNA = .raise → (List.range n).filter p = List.range n) :
    (afterNA na ((List.range n).map p) v).nrows = ((List.range n).filter p).length := by
  subst hv
  unfold afterNA
  cases h : na.onNA with
  | drop => exact nrows_select v p
  | raise => rw [hr h]; simp

theorem cellOf_none {v : Value K} {q : Nat} (h : v.nrows ≤ q) : cellOf v q = none := by
  cases v <;> simp_all [cellOf, Value.nrows]

theorem afterNA_cell {na : NAAction} {p : Nat → Bool} {v : Value K} {n : Nat} (hv : v.nrows = n)
    (hr : na.onNA = .raise → (List.range n).filter p = List.range n) (q : Nat) :
    cellOf (afterNA na ((List.range n).map p) v) q =
      ((List.range n).filter p)[q]?.bind (cellOf v) := by
  subst hv
  unfold afterNA
  cases h : na.onNA with
  | drop => exact cellOf_select v p q
  | raise =>
    rw [hr h]
    simp only
    by_cases hq : q < v.nrows
    · simp [List.getElem?_range hq]
    · rw [cellOf_none (by omega), List.getElem?_eq_none (by simp; omega)]; rfl

theorem afterNA_kind {na : NAAction} {t : FType} {good : List Bool} {v : Value K}
    (h : kindOK t v) : kindOK t (afterNA na good v) := by
  unfold afterNA
  cases na.onNA with
  | drop => exact kindOK_select h
  | raise => exact h

theorem afterNA_labels {na : NAAction} {p : Nat → Bool} {ls : List Label} {n : Nat}
    (hl : ls.length = n) (hr : na.onNA = .raise → (List.range n).filter p = List.range n) :
    afterNA (K := K) na ((List.range n).map p) (.labels ls) =
      .labels (((List.range n).filter p).filterMap fun r => ls[r]?) := by
  subst hl
  unfold afterNA
  cases h : na.onNA with
  | drop => simp only [Value.select, maskSelect_eq]
  | raise =>
    rw [hr h]
    simp only [Value.labels.injEq]
    apply List.ext_getElem?
    intro q
    rw [filterMap_getElem? (by simp)]
    by_cases hq : q < ls.length
    · simp [List.getElem?_range hq]
    · rw [List.getElem?_eq_none (by omega), List.getElem?_eq_none (by simp; omega)]; rfl

/-- Missing-value handling, on values with masks of equal length. -/
theorem handleNA_iff {na : NAAction} {n : Nat} {vm : List (Value K × List Bool)}
    (hl : ∀ e ∈ vm, e.2.length = n) {p : Nat → Bool}
    (hp : ∀ r, r < n → p r = !(vm.any fun e => e.2[r]?.getD false)) {out : List (Value K)} :
    na.handleNA (vm.map Prod.fst) (vm.map Prod.snd) = .ok out ↔
      (na.onNA = .raise → (List.range n).filter p = List.range n) ∧
      out = (vm.map Prod.fst).map (afterNA na ((List.range n).map p)) := by
  have hcond : (List.range n).filter p = List.range n ↔ (vm.map Prod.snd).any (fun m => m.any id) = false := by
    rw [range_filter_self]
    constructor
    · intro h
      rw [List.any_eq_false]
      intro m hm
      obtain ⟨e, he, rfl⟩ := List.mem_map.mp hm
      simp only [List.any_eq_true, id, not_exists, not_and]
      intro b hb
      obtain ⟨r, hr, rfl⟩ := List.getElem_of_mem hb
      have hrn : r < n := by rw [← hl e he]; exact hr
      have := h r hrn
      rw [hp r hrn] at this
      simp only [Bool.not_eq_true', List.any_eq_false] at this
      have := this e he
      simpa [List.getElem?_eq_getElem hr] using this
    · intro h r hr
      rw [hp r hr]
      simp only [Bool.not_eq_true', List.any_eq_false]
      intro e he
      rw [List.any_eq_false] at h
      have := h _ (List.mem_map_of_mem (f := Prod.snd) he)
      simp only [List.any_eq_true, id, not_exists, not_and] at this
      have hlt : r < e.2.length := by rw [hl e he]; exact hr
      have h2 := this _ (List.getElem_mem hlt)
      simpa [List.getElem?_eq_getElem hlt] using h2
  unfold NAAction.handleNA
  simp only [List.length_map, ne_eq, not_true_eq_false, if_false]
  cases vm with
  | nil =>
    simp only [List.map_nil, List.isEmpty_nil, if_true, Except.ok.injEq]
    simp only [List.map_nil, List.any_nil] at hcond
    constructor
    · rintro rfl; exact ⟨fun _ => by simpa using hcond, rfl⟩
    · rintro ⟨_, h⟩; exact h.symm
  | cons e vm =>
    simp only [List.map_cons, List.isEmpty_cons, Bool.false_eq_true, if_false]
    simp only [List.map_cons] at hcond
    cases hna : na.onNA with
    | raise =>
      simp only [handleRaise]
      have hid : ∀ l : List (Value K), l.map (afterNA na ((List.range n).map p)) = l := by
        intro l
        have : afterNA (K := K) na ((List.range n).map p) = id := by
          funext v; simp [afterNA, hna]
        rw [this]; simp
      have haf : afterNA (K := K) na ((List.range n).map p) e.1 = e.1 := by simp [afterNA, hna]
      cases hany : List.any (e.2 :: vm.map Prod.snd) (fun m => m.any id) with
      | true =>
        simp only [if_true]
        constructor
        · intro h; simp at h
        · rintro ⟨h, _⟩
          have := hcond.mp (h trivial)
          rw [hany] at this; simp at this
      | false =>
        simp only [Bool.false_eq_true, if_false, Except.ok.injEq, hid, haf]
        constructor
        · rintro rfl; exact ⟨fun _ => hcond.mpr hany, rfl⟩
        · rintro ⟨_, h⟩; exact h.symm
    | drop =>
      simp only [handleDrop, Except.ok.injEq]
      have hlen : e.2.length = n := hl e (List.mem_cons_self ..)
      have hmask : (totalMask e.2.length (e.2 :: vm.map Prod.snd)).map (fun b => !b) =
          (List.range n).map p := by
        rw [hlen, totalMask_eq (by
          intro m hm
          rcases List.mem_cons.mp hm with rfl | hm
          · exact hlen
          · obtain ⟨e', he', rfl⟩ := List.mem_map.mp hm
            exact hl e' (List.mem_cons_of_mem _ he')), List.map_map]
        apply List.map_congr_left
        intro r hr
        have hr : r < n := by simpa using hr
        rw [hp r hr]
        simp only [Function.comp, List.any_cons, List.any_map]
        rfl
      rw [hmask]
      have : afterNA (K := K) na ((List.range n).map p) = fun v => v.select ((List.range n).map p) := by
        funext v; simp [afterNA, hna]
      rw [this]
      simp only [List.map_cons]
      constructor
      · rintro rfl; exact ⟨by simp, rfl⟩
      · rintro ⟨_, h⟩; exact h.symm

theorem zip_map_right' {A B C : Type} (f : B → C) (g : A → B) (l : List A) :
    l.zip ((l.map g).map f) = l.map fun a => (a, f (g a)) := by
  induction l with
  | nil => rfl
  | cons a l ih => simp only [List.map_cons, List.zip_cons_cons, ih]

/-- The facts about the state after the evaluation loop. -/
theorem loop_facts {isnan : K → Bool} {na : NAAction} {data : D}
    {fis : List (FactorInfo F D K)} {s : EvalState F D K} {rows0 : Option Nat}
    {index0 : Option (List Label)} (hid : SameIdentity fis)
    (hs : evalLoop isnan na data fis ⟨[], rows0, index0⟩ = .ok s) :
    s.entries = (newOnes [] fis).map (fun fi => (fi, evalValue na.types data fi,
      (List.range (evalValue na.types data fi).nrows).map (missingAt na isnan (evalValue na.types data fi)))) ∧
    (∀ fi ∈ fis, s.rows = some (evalValue na.types data fi).nrows ∧ kindOK fi.type (evalValue na.types data fi) ∧
      ∃ i, fi.eval na.types data = .ok (evalValue na.types data fi, i) ∧ ∀ l, i = some l → s.index = some l) ∧
    (fis = [] → s.rows = rows0) ∧ (∀ n, rows0 = some n → s.rows = some n) ∧
    (∀ l, index0 = some l → s.index = some l) ∧
    (∀ l, s.index = some l → index0 = some l ∨
      ∃ fi ∈ fis, ∃ v, fi.eval na.types data = .ok (v, some l)) := by
  have h := evalLoop_forward hs
  simp only [List.map_nil] at h
  obtain ⟨es, h1, h2, h3⟩ := h.entries
  simp only [List.nil_append] at h1
  have hval : ∀ e ∈ es, e.2.1 = evalValue na.types data e.1 ∧
      e.2.2 = (List.range (evalValue na.types data e.1).nrows).map (missingAt na isnan (evalValue na.types data e.1)) := by
    intro e he
    obtain ⟨i, h4, _, _⟩ := h3 e he
    rw [evalFactor_ok] at h4
    have : evalValue na.types data e.1 = e.2.1 := by simp [evalValue, h4.1]
    rw [this]
    exact ⟨rfl, h4.2.2⟩
  refine ⟨?_, ?_, ?_, h.rows1, h.index1, ?_⟩
  · rw [h1, ← h2, List.map_map]
    symm
    rw [List.map_congr_left (g := id), List.map_id]
    intro e he
    obtain ⟨h4, h5⟩ := hval e he
    obtain ⟨a, b, c⟩ := e
    simp only at h4 h5
    simp [← h4, h5]
  · intro fi hfi
    rw [← mem_newOnes hid, ← h2] at hfi
    obtain ⟨e, he, rfl⟩ := List.mem_map.mp hfi
    obtain ⟨i, h4, h5, h6⟩ := h3 e he
    obtain ⟨h7, _⟩ := hval e he
    rw [evalFactor_ok] at h4
    rw [← h7]
    exact ⟨h5, h4.2.1, i, h4.1, h6⟩
  · intro hf
    apply h.rows0
    simp [hf, newOnes]
  · intro l hl
    rcases h.index2 l hl with h4 | ⟨fi, h4, v, m, h5⟩
    · exact .inl h4
    · rw [evalFactor_ok] at h5
      exact .inr ⟨fi, newOnes_sub h4, v, h5.1⟩

theorem build_core [Mul K] [One K] {isnan : K → Bool} {na : NAAction} {frame : Bool}
    {dataIndex : Option (List Label)} {dis : List (DesignInfo F D K)} {data : D}
    {cs : List (Coding F D K × Nat)} (hcs : dis.mapM DesignInfo.codingOf = .ok cs)
    (hvalid : ∀ c ∈ cs, ValidCoding c.1 ∧
      c.2 = ((c.1.termCodings.flatMap (·.2)).map (·.numColumns)).sum)
    (hid : SameIdentity (allFis cs)) {s : EvalState F D K}
    (hs : evalLoop isnan na data (allFis cs) ⟨[], dataIndex.map List.length, dataIndex⟩ = .ok s)
    {n : Nat} (hn : s.rows = some n) (hidx : ∀ l, s.index = some l → l.length = n)
    {kept : List Nat}
    (hkept : kept = completeRows na isnan (allFis cs) (evalValue na.types data) n) {b : Built K} :
    buildDesignMatrices isnan na frame dataIndex dis data = .ok b ↔
      (na.onNA = .raise → kept = List.range n) ∧
      List.Forall₂ (fun c m => m.nrows = kept.length ∧
        IsMatrix c.1 (kept.map (designCells c.1 (evalValue na.types data))) m.cols) cs b.mats ∧
      b.index = if frame then
        some (kept.filterMap fun r => (s.index.getD ((List.range n).map Label.row))[r]?) else none := by
  obtain ⟨he, hfi, _, _, _, _⟩ := loop_facts hid hs
  generalize hV : evalValue na.types data = V at *
  have hrows : ∀ fi ∈ allFis cs, (V fi).nrows = n := by
    intro fi h
    have := (hfi fi h).1
    rw [hn] at this
    simpa using this.symm
  let idx := s.index.getD ((List.range n).map Label.row)
  have hidxlen : idx.length = n := by
    simp only [idx]
    cases h : s.index with
    | none => simp
    | some l => simpa using hidx l h
  let p : Nat → Bool := complete na isnan (allFis cs) V
  have hkept' : kept = (List.range n).filter p := hkept
  -- values and masks together
  let vm : List (Value K × List Bool) :=
    s.entries.map (fun e => (e.2.1, e.2.2)) ++
      (if frame then [(Value.labels idx, List.replicate idx.length false)] else [])
  have hvm1 : (s.entries.map fun e => e.2.1) ++ (if (frame && s.rows.isSome) = true
      then [Value.labels (s.index.getD ((List.range (s.rows.getD 0)).map Label.row))] else []) = vm.map Prod.fst := by
    simp only [vm, hn, Option.isSome_some, Bool.and_true, Option.getD_some, List.map_append, List.map_map, idx]
    cases frame <;> simp [Function.comp_def]
  have hvm2 : (s.entries.map fun e => e.2.2) ++ (if (frame && s.rows.isSome) = true
      then [List.replicate (s.index.getD ((List.range (s.rows.getD 0)).map Label.row)).length false] else []) = vm.map Prod.snd := by
    simp only [vm, hn, Option.isSome_some, Bool.and_true, Option.getD_some, List.map_append, List.map_map, idx]
    cases frame <;> simp [Function.comp_def]
  have hent : ∀ e ∈ s.entries, e.1 ∈ allFis cs ∧ e.2.1 = V e.1 ∧
      e.2.2 = (List.range n).map (missingAt na isnan (V e.1)) := by
    intro e hmem
    rw [he] at hmem
    obtain ⟨fi, hm, rfl⟩ := List.mem_map.mp hmem
    have hm' := newOnes_sub hm
    refine ⟨hm', rfl, ?_⟩
    simp only
    rw [hrows fi hm']
  have hlen : ∀ e ∈ vm, e.2.length = n := by
    intro e hmem
    rcases List.mem_append.mp hmem with h | h
    · obtain ⟨e', h', rfl⟩ := List.mem_map.mp h
      rw [(hent e' h').2.2]; simp
    · cases frame with
      | false => simp at h
      | true => simp at h; rw [h]; simpa using hidxlen
  have hp : ∀ r, r < n → p r = !(vm.any fun e => e.2[r]?.getD false) := by
    intro r hr
    simp only [p, complete_eq, vm, List.any_append, List.any_map]
    congr 1
    have h1 : (if frame = true then [(Value.labels (K := K) idx, List.replicate idx.length false)]
        else []).any (fun e => e.2[r]?.getD false) = false := by
      cases frame with
      | false => simp
      | true =>
        simp only [if_true, List.any_cons, List.any_nil, Bool.or_false, List.getElem?_replicate]
        split <;> rfl
    rw [h1, Bool.or_false]
    rw [Bool.eq_iff_iff]
    simp only [List.any_eq_true, Function.comp]
    constructor
    · rintro ⟨fi, hmem, hmiss⟩
      rw [← mem_newOnes hid] at hmem
      refine ⟨_, by rw [he]; exact List.mem_map_of_mem hmem, ?_⟩
      simp only [hrows fi (newOnes_sub hmem)]
      simp [hr, hmiss]
    · rintro ⟨e, hmem, hmiss⟩
      obtain ⟨h2, h3, h4⟩ := hent e hmem
      refine ⟨e.1, h2, ?_⟩
      rw [h4] at hmiss
      simpa [hr] using hmiss
  have hNA := fun out => handleNA_iff (na := na) hlen hp (out := out)
  rw [← hkept'] at hNA
  -- the values after missing-value handling
  let V' : FactorInfo F D K → Value K := fun fi => afterNA na ((List.range n).map p) (V fi)
  let vals := (newOnes [] (allFis cs)).map fun fi => (fi, V' fi)
  have hmain : (na.onNA = .raise → kept = List.range n) → ∀ (mats : List (Mat K)),
      (∃ results, cs.mapM (fun c => buildDesignMatrix c.1 c.2 vals) = .ok results ∧
        results.mapM (reshape (some kept.length)) = .ok mats) ↔
      List.Forall₂ (fun c m => m.nrows = kept.length ∧
        IsMatrix c.1 (kept.map (designCells c.1 V)) m.cols) cs mats := by
    intro hr mats
    rw [mapM_mapM_ok]
    apply forall₂_congr_mem
    intro c hc m
    obtain ⟨hc1, hc2⟩ := hvalid c hc
    rw [hkept'] at hr
    have hsub : ∀ q ∈ c.1.factorInfos, q.2 ∈ allFis cs := fun q hq =>
      List.mem_flatMap.mpr ⟨c, hc, List.mem_map_of_mem hq⟩
    have hg : ValsGood c.1 vals kept.length V' := by
      refine ⟨?_, ?_, ?_, ?_, ?_⟩
      · intro q hq
        obtain ⟨fi, hm, rfl⟩ := List.mem_map.mp hq
        rw [hkept']
        exact afterNA_nrows (hrows fi (newOnes_sub hm)) hr
      · intro q hq
        obtain ⟨fi, hm, rfl⟩ := List.mem_map.mp hq
        rfl
      · intro q hq
        exact afterNA_kind (hfi q.2 (hsub q hq)).2.1
      · intro q hq
        exact ⟨V' q.2, List.mem_map.mpr ⟨q.2, (mem_newOnes hid).mpr (hsub q hq), rfl⟩⟩
      · intro q hq e he' hu
        obtain ⟨fi, hm, rfl⟩ := List.mem_map.mp he'
        exact (hid q.2 (hsub q hq) fi (newOnes_sub hm) hu).symm
    rw [design_iff hc1 hc2 hg]
    have hcells : (List.range kept.length).map (designCells c.1 V') =
        kept.map (designCells c.1 V) := by
      apply List.ext_getElem (by simp)
      intro q h1 h2
      simp only [List.length_map, List.length_range] at h1
      simp only [List.getElem_map, List.getElem_range]
      funext f
      simp only [designCells]
      cases hd : dictGet c.1.factorInfos f with
      | none => rfl
      | some fi =>
        simp only [Option.bind_some, V']
        rw [afterNA_cell (hrows fi (hsub _ (dictGet_mem hd))) hr, ← hkept',
          List.getElem?_eq_getElem h1]
        rfl
    rw [hcells]
  -- put together
  have hvals : ∀ (fr : Bool), fr = frame → (s.entries.map Prod.fst).zip
      (if fr = true then ((vm.map Prod.fst).map (afterNA na ((List.range n).map p))).dropLast
        else (vm.map Prod.fst).map (afterNA na ((List.range n).map p))) = vals := by
    intro fr hfr
    have hfst : s.entries.map Prod.fst = newOnes [] (allFis cs) := by
      rw [he]; simp [Function.comp_def]
    have hval : s.entries.map (fun e => e.2.1) = (newOnes [] (allFis cs)).map V := by
      rw [he]; simp [Function.comp_def]
    rw [hfst]
    have : (if fr = true then ((vm.map Prod.fst).map (afterNA na ((List.range n).map p))).dropLast
        else (vm.map Prod.fst).map (afterNA na ((List.range n).map p))) =
        ((newOnes [] (allFis cs)).map V).map (afterNA na ((List.range n).map p)) := by
      rw [← hval]
      subst hfr
      cases fr <;> simp [vm, Function.comp_def]
    rw [this]
    exact zip_map_right' _ _ _
  have hwith : (frame && s.rows.isSome) = frame := by simp [hn]
  have hmatch : (na.onNA = .raise → kept = List.range n) →
      rowsAfter s.rows ((vm.map Prod.fst).map (afterNA na ((List.range n).map p))) = some kept.length := by
    intro hr
    cases hvmc : vm with
    | nil =>
      simp only [List.map_nil, rowsAfter]
      rw [hn]
      have h1 : s.entries = [] := by
        have : vm.map Prod.fst = [] := by rw [hvmc]; rfl
        simp only [vm, List.map_append, List.append_eq_nil_iff, List.map_eq_nil_iff] at this
        exact this.1
      rw [he] at h1
      have h2 : newOnes [] (allFis cs) = [] := by simpa using h1
      have h3 : ∀ fi, fi ∉ allFis cs := by
        intro fi h
        rw [← mem_newOnes hid, h2] at h
        simp at h
      have h4 : kept = List.range n := by
        rw [hkept', range_filter_self]
        intro r _
        simp only [p, complete, List.all_eq_true]
        intro fi h
        exact absurd h (h3 fi)
      rw [h4]; simp
    | cons e l =>
      simp only [List.map_cons, rowsAfter]
      rw [hkept'] at hr ⊢
      rw [afterNA_nrows ?_ hr]
      have hmem : e ∈ vm := by rw [hvmc]; exact List.mem_cons_self ..
      rcases List.mem_append.mp hmem with h | h
      · obtain ⟨e', h', rfl⟩ := List.mem_map.mp h
        obtain ⟨h2, h3, _⟩ := hent e' h'
        simp only [h3]
        exact hrows _ h2
      · cases frame with
        | false => simp at h
        | true => simp at h; rw [h]; simpa [Value.nrows] using hidxlen
  have hindex : (na.onNA = .raise → kept = List.range n) →
      (if frame = true then
        lastLabels ((vm.map Prod.fst).map (afterNA na ((List.range n).map p)))
       else none) = if frame then some (kept.filterMap fun r => idx[r]?) else none := by
    intro hr
    cases frame with
    | false => simp
    | true =>
      rw [hkept'] at hr ⊢
      simp only [lastLabels, vm, if_true, List.map_append, List.map_cons, List.map_nil,
        List.getLast?_append, List.getLast?_singleton, Option.some_or]
      rw [afterNA_labels hidxlen hr]
  simp only [buildDesignMatrices, bind_ok, hcs, Except.ok.injEq, exists_eq_left']
  change (∃ a, evalLoop isnan na data (allFis cs) _ = _ ∧ _) ↔ _
  simp only [hs, Except.ok.injEq, exists_eq_left', hvm1, hvm2, hNA]
  constructor
  · rintro ⟨out, ⟨hr, rfl⟩, results, h1, mats, h2, rfl⟩
    refine ⟨hr, ?_, ?_⟩
    · rw [← hmain hr]
      refine ⟨results, ?_, ?_⟩
      · rw [hwith, hvals frame rfl] at h1; exact h1
      · rw [hmatch hr] at h2; exact h2
    · simp only [hwith]
      exact hindex hr
  · rintro ⟨hr, h1, h2⟩
    obtain ⟨results, h3, h4⟩ := (hmain hr b.mats).mpr h1
    refine ⟨_, ⟨hr, rfl⟩, results, ?_, b.mats, ?_, ?_⟩
    · rw [hwith, hvals frame rfl]; exact h3
    · rw [hmatch hr]; exact h4
    · have := hindex hr
      simp only [hwith]
      rw [this]
      obtain ⟨m, i⟩ := b
      simp only at h2
      rw [h2]

theorem isDesign_valid {d : DesignInfo F D K} {c : Coding F D K} (h : IsDesign d c) :
    ValidCoding c ∧ d.codingOf = .ok (c, ((c.termCodings.flatMap (·.2)).map (·.numColumns)).sum) := by
  obtain ⟨name, names, h⟩ := h
  obtain ⟨h1, h2, h3⟩ := make_valid h
  refine ⟨h2, ?_⟩
  simp [DesignInfo.codingOf, h1, h3]

theorem collectValues_nil (fis : List (F × FactorInfo F D K)) :
    collectValues fis [] [] none = .ok ([], none) := rfl

/-- Complete description of `build_design_matrices`. -/
theorem build_iff [Mul K] [One K] {isnan : K → Bool} {na : NAAction} {frame : Bool}
    {dataIndex : Option (List Label)} {dis : List (DesignInfo F D K)} {data : D}
    {cs : List (Coding F D K)} (hne : dis ≠ []) (hdis : List.Forall₂ IsDesign dis cs)
    (hid : SameIdentity (factorsOf cs)) (hfit : IndexFits na.types (factorsOf cs) data) {b : Built K} :
    buildDesignMatrices isnan na frame dataIndex dis data = .ok b ↔
      ∃ V n idx, Evaluation na.types (factorsOf cs) dataIndex data V n idx ∧
        (na.onNA = .raise → completeRows na isnan (factorsOf cs) V n = List.range n) ∧
        AreMatrices cs V (completeRows na isnan (factorsOf cs) V n) b.mats ∧
        b.index = if frame then
          some ((completeRows na isnan (factorsOf cs) V n).filterMap fun r => idx[r]?) else none := by
  let w : Coding F D K → Coding F D K × Nat := fun c =>
    (c, ((c.termCodings.flatMap (·.2)).map (·.numColumns)).sum)
  have hcs : dis.mapM DesignInfo.codingOf = .ok (cs.map w) := by
    rw [mapM_ok, List.forall₂_map_right_iff]
    exact hdis.imp fun d c h => (isDesign_valid h).2
  have hvalid : ∀ c ∈ cs, ValidCoding c := by
    intro c hc
    obtain ⟨i, hi, rfl⟩ := List.getElem_of_mem hc
    have hl := hdis.length_eq
    exact (isDesign_valid (List.Forall₂.get hdis (i := i) (by omega) hi)).1
  have hall : allFis (cs.map w) = factorsOf cs := by
    simp only [allFis, factorsOf, List.flatMap_map]; rfl
  have hmats : ∀ V kept (mats : List (Mat K)), AreMatrices cs V kept mats ↔
      List.Forall₂ (fun c m => m.nrows = kept.length ∧
        IsMatrix c.1 (kept.map (designCells c.1 V)) m.cols) (cs.map w) mats := by
    intro V kept mats
    rw [List.forall₂_map_left_iff]; rfl
  have hvalid' : ∀ c ∈ cs.map w, ValidCoding c.1 ∧
      c.2 = ((c.1.termCodings.flatMap (·.2)).map (·.numColumns)).sum := by
    intro c hc
    obtain ⟨c', hc', rfl⟩ := List.mem_map.mp hc
    exact ⟨hvalid c' hc', rfl⟩
  constructor
  · intro h
    have h' := h
    simp only [buildDesignMatrices, bind_ok, hcs, Except.ok.injEq, exists_eq_left'] at h'
    obtain ⟨s, hs, h2⟩ := h'
    change evalLoop isnan na data (allFis (cs.map w)) _ = _ at hs
    obtain ⟨he, hfi, h0, h1, hi1, hi2⟩ := loop_facts (by rw [hall]; exact hid) hs
    cases hn : s.rows with
    | none =>
      exfalso
      have hnil : factorsOf cs = [] := by
        rw [← hall]
        cases hf : allFis (cs.map w) with
        | nil => rfl
        | cons fi l =>
          have := (hfi fi (by rw [hf]; exact List.mem_cons_self ..)).1
          rw [hn] at this; simp at this
      have hent : s.entries = [] := by rw [he, hall, hnil]; rfl
      obtain ⟨nv, h3, results, h4, mats, h5, _⟩ := h2
      simp only [hn, Option.isSome_none, Bool.and_false, hent, List.map_nil, Bool.false_eq_true,
        if_false, List.append_nil, NAAction.handleNA, List.length_nil, ne_eq, not_true_eq_false,
        List.isEmpty_nil, if_true, Except.ok.injEq] at h3
      subst h3
      simp only [rowsAfter, hn] at h5
      cases cs with
      | nil => cases hdis; exact hne rfl
      | cons c cs =>
        rw [mapM_ok] at h4 h5
        simp only [List.map_cons] at h4
        cases h4 with
        | cons h6 _ =>
          cases h5 with
          | cons h7 _ =>
            simp only [hent, List.map_nil, List.zip_nil_left, buildDesignMatrix, bind_ok,
              collectValues_nil, Except.ok.injEq, exists_eq_left'] at h6
            obtain ⟨r, _, h8⟩ := h6
            split at h8
            · simp at h8
            · simp only [Except.ok.injEq] at h8
              subst h8
              simp [reshape] at h7
    | some n =>
      have hlen : ∀ l, s.index = some l → l.length = n := by
        intro l hl
        rcases hi2 l hl with h3 | ⟨fi, h3, v, h4⟩
        · have := h1 l.length (by simp [h3])
          rw [hn] at this; simpa using this.symm
        · have h5 := hfit fi (by rw [← hall]; exact h3) v l h4
          have h6 := (hfi fi h3)
          rw [hn] at h6
          have : evalValue na.types data fi = v := by simp [evalValue, h4]
          rw [this] at h6
          simp only [Option.some.injEq] at h6
          omega
      have := (build_core hcs hvalid' (by rw [hall]; exact hid) hs hn hlen rfl (b := b)).mp h
      rw [hall, ← hmats] at this
      refine ⟨evalValue na.types data, n, s.index.getD ((List.range n).map Label.row), ?_, this.1, this.2.1,
        this.2.2⟩
      rw [hall] at hfi
      refine ⟨?_, fun fi h => (hfi fi h).2.1, ?_, ?_, ?_, ?_, ?_⟩
      · intro fi h
        obtain ⟨i, h3, h4⟩ := (hfi fi h).2.2
        refine ⟨i, h3, ?_⟩
        intro l hl
        simp [h4 l hl]
      · intro fi h
        have h3 := (hfi fi h).1
        rw [hn] at h3
        simpa using h3.symm
      · intro l hl
        simp [hi1 l hl]
      · cases h3 : s.index with
        | none => simp
        | some l => simpa using hlen l h3
      · intro h3 h4
        cases h5 : s.index with
        | none => rfl
        | some l =>
          rcases hi2 l h5 with h6 | ⟨fi, h6, v, h7⟩
          · rw [h3] at h6; simp at h6
          · exact absurd h7 (h4 fi (by rw [← hall]; exact h6) v l)
      · intro h3 h4
        have := h0 (by rw [hall]; exact h3)
        rw [hn, h4] at this
        simp at this
  · rintro ⟨V, n, idx, hev, hr, hm, hix⟩
    have hV : ∀ fi ∈ factorsOf cs, evalValue na.types data fi = V fi := by
      intro fi h
      obtain ⟨i, h1, _⟩ := hev.value fi h
      simp [evalValue, h1]
    have hcomp : completeRows na isnan (factorsOf cs) V n =
        completeRows na isnan (factorsOf cs) (evalValue na.types data) n := by
      unfold completeRows
      apply List.filter_congr
      intro r _
      unfold complete
      rw [Bool.eq_iff_iff]
      simp only [List.all_eq_true]
      constructor
      · intro h fi hf; rw [hV fi hf]; exact h fi hf
      · intro h fi hf; rw [← hV fi hf]; exact h fi hf
    have hcell : ∀ c ∈ cs, ∀ r, designCells c V r = designCells c (evalValue na.types data) r := by
      intro c hc r
      funext f
      simp only [designCells]
      cases hd : dictGet c.factorInfos f with
      | none => rfl
      | some fi =>
        simp only [Option.bind_some]
        rw [hV fi (List.mem_flatMap.mpr ⟨c, hc, List.mem_map.mpr ⟨_, dictGet_mem hd, rfl⟩⟩)]
    obtain ⟨s, hs⟩ := evalLoop_backward (isnan := isnan) (na := na) (data := data)
      (fis := factorsOf cs) (s := ⟨[], dataIndex.map List.length, dataIndex⟩) (n := n) (I := idx)
      (by
        intro fi hf
        obtain ⟨i, h1, h2⟩ := hev.value fi hf
        exact ⟨V fi, _, i, evalFactor_ok.mpr ⟨h1, hev.kind fi hf, rfl⟩, hev.rows fi hf, h2⟩)
      (by
        intro k hk
        cases hd : dataIndex with
        | none => simp [hd] at hk
        | some l =>
          have := hev.frame l hd
          have h3 := hev.length
          simp only [hd, Option.map_some, Option.some.injEq] at hk
          rw [← hk, this, h3])
      (by intro l hl; exact hev.frame l hl)
    rw [← hall] at hs
    obtain ⟨_, hfi, _, h1, hi1, hi2⟩ := loop_facts (by rw [hall]; exact hid) hs
    rw [hall] at hfi
    have hn : s.rows = some n := by
      cases hf : factorsOf cs with
      | nil =>
        have := hev.known hf
        cases hd : dataIndex with
        | none => exact absurd hd this
        | some l =>
          have h3 := hev.frame l hd
          have h4 := hev.length
          apply h1
          rw [hd, Option.map_some, h3, h4]
      | cons fi l =>
        have hmem : fi ∈ factorsOf cs := by rw [hf]; exact List.mem_cons_self ..
        rw [(hfi fi hmem).1, hV fi hmem, hev.rows fi hmem]
    have hsidx : ∀ l, s.index = some l → l = idx := by
      intro l hl
      rcases hi2 l hl with h3 | ⟨fi, h3, v, h4⟩
      · exact hev.frame l h3
      · rw [hall] at h3
        obtain ⟨i, h5, h6⟩ := hev.value fi h3
        rw [h4] at h5
        simp only [Except.ok.injEq, Prod.mk.injEq] at h5
        exact h6 l h5.2.symm
    have hget : s.index.getD ((List.range n).map Label.row) = idx := by
      cases h3 : s.index with
      | some l => exact hsidx l h3
      | none =>
        simp only [Option.getD_none]
        symm
        apply hev.default
        · cases hd : dataIndex with
          | none => rfl
          | some l => have := hi1 l hd; rw [h3] at this; simp at this
        · intro fi hf v l h4
          obtain ⟨i, h5, h6⟩ := (hfi fi hf).2.2
          rw [h4] at h5
          simp only [Except.ok.injEq, Prod.mk.injEq] at h5
          have := h6 l h5.2.symm
          rw [h3] at this; simp at this
    rw [build_core hcs hvalid' (by rw [hall]; exact hid) hs hn (by
      intro l hl; rw [hsidx l hl]; exact hev.length) rfl, hall, ← hcomp, hget]
    refine ⟨hr, ?_, hix⟩
    rw [← hmats]
    refine (forall₂_congr_mem ?_).mp hm
    intro c hc m
    have : (completeRows na isnan (factorsOf cs) V n).map (designCells c V) =
        (completeRows na isnan (factorsOf cs) V n).map (designCells c (evalValue na.types data)) :=
      List.map_congr_left fun r _ => hcell c hc r
    rw [this]

end Patsy.Build
