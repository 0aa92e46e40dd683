import Verif.Lemmas.BuildOutcome
import Verif.Lemmas.MakeOutcome

/-!
# What is known about the designs that `design_matrix_builders` makes
-/

namespace Patsy.Outcome

open Patsy.Spec Patsy.Build Patsy.Desc Patsy.Cat Patsy.Props Patsy.Redundancy Patsy.Names

variable {F D K : Type} [DecidableEq F]

/-! ### Contrasts -/

theorem apply_real {full : Bool} {levels : List PyVal} {c : Contrast.Spec K} (hc : RealContrast c) {cm : ContrastMatrix K}
    (h : c.apply full levels = .ok cm) : RealMatrix cm := by
  cases c with
  | coding w wo =>
    simp only [Contrast.Spec.apply] at h
    split at h
    · exact hc levels cm (.inl h)
    · exact hc levels cm (.inr h)
  | matrix m =>
    simp only [Contrast.Spec.apply, Except.ok.injEq] at h
    subst h
    exact hc
  | array ndim ncols rows =>
    simp only [Contrast.Spec.apply, ContrastMatrix.make] at h
    split at h
    · cases h
    · split at h
      · cases h
      · simp only [Except.ok.injEq] at h
        subst h
        exact ⟨hc, by simp⟩
  | callable r => cases h
  | none => cases h

theorem call_real {c : Contrast.Spec K} (hc : RealContrast c) : RealContrast c.call := by
  cases c with
  | callable r => exact hc
  | _ => exact hc

theorem codeContrastMatrix_real {full : Bool} {levels : List PyVal} {c default : Contrast.Spec K} (hc : RealContrast c)
    (hd : RealContrast default) {cm : ContrastMatrix K} (h : Contrast.codeContrastMatrix full levels c default = .ok cm) :
    RealMatrix cm := by
  unfold Contrast.codeContrastMatrix at h
  refine apply_real (call_real ?_) h
  cases c with
  | none => exact hd
  | _ => exact hc

/-- The contrast that is known so far satisfies `Q`. -/
def OwnContrast {Cn : Type} (Q : Cn → Prop) : Own Cn → Prop
  | .working (some s) => ∀ c, s.contrast = some c → Q c
  | .finished s => ∀ c, s.contrast = some c → Q c
  | _ => True

theorem sniffRaw_contrast {Cn : Type} {na : NAAction} {s : Sniffer Cn} {r : Raw} {out : Sniffer Cn × Bool}
    (h : s.sniffRaw na r = .ok out) : out.1.contrast = s.contrast := by
  cases r with
  | pandas cats codes => cases h; rfl
  | array kind ndim ncols vals =>
    simp only [Sniffer.sniffRaw] at h
    split at h
    · cases h; rfl
    · split at h
      · cases h
      · simp only [bind_ok, Except.ok.injEq] at h
        obtain ⟨_, _, rfl⟩ := h
        rfl

theorem sniff_contrast {na : NAAction} {s : Sniffer (Contrast.Spec K)} {v : CatValue (Contrast.Spec K)}
    {out : Sniffer (Contrast.Spec K) × Bool} (h : s.sniff na v = .ok out) :
    ∀ c, out.1.contrast = some c → s.contrast = some c ∨ contrastOf v = some c := by
  intro c hc
  match v with
  | .raw r =>
    left
    rw [← sniffRaw_contrast h]
    exact hc
  | .box r c' (some l) =>
    cases h
    exact .inr hc
  | .box r c' none =>
    right
    have := sniffRaw_contrast (s := { s with contrast := c' }) h
    rw [this] at hc
    exact hc

theorem ownLoop_contrast {na : NAAction} {ev : D → Except Err (CatValue (Contrast.Spec K))} {Q : Contrast.Spec K → Prop}
    (hev : ∀ d v, ev d = .ok v → ∀ c, contrastOf v = some c → Q c) {ds : List D} {o o' : Own (Contrast.Spec K)}
    (ho : OwnContrast Q o) (h : ownLoop na ev ds o = .ok o') : OwnContrast Q o' := by
  induction ds generalizing o with
  | nil => cases h; exact ho
  | cons d ds ih =>
    simp only [ownLoop, List.foldlM_cons, bind_ok] at h
    obtain ⟨o1, h1, h2⟩ := h
    refine ih ?_ h2
    cases o with
    | number n => cases h1; exact ho
    | finished s => cases h1; exact ho
    | working x =>
      simp only [ownStep, bind_ok] at h1
      obtain ⟨v, hv, h1⟩ := h1
      split at h1
      · simp only [bind_ok, pure_ok] at h1
        obtain ⟨r, hr, h1⟩ := h1
        have key : ∀ c, r.1.contrast = some c → Q c := by
          intro c hc
          rcases sniff_contrast hr c hc with h | h
          · cases x with
            | none => simp at h
            | some s => exact ho c h
          · exact hev d v hv c h
        split at h1 <;> subst h1 <;> exact key
      · simp only [bind_ok, pure_ok] at h1
        obtain ⟨n, _, rfl⟩ := h1
        trivial

/-- The contrasts that have been found are contrasts of values of the factor. -/
theorem examined_contrast {na : NAAction} {order : List PyVal → List PyVal} {visit : List F → List F}
    (hv : ∀ l, (visit l).Perm l) {eval : F → D → Except Err (CatValue (Contrast.Spec K))} {chunks : List D} {fs : List F}
    (hn : fs.Nodup) {types : Types F K} (h : examineTypes na order visit eval chunks fs = .ok types) {f : F} (hf : f ∈ fs)
    {Q : Contrast.Spec K → Prop} (hq : ∀ d v, eval f d = .ok v → ∀ c, contrastOf v = some c → Q c)
    {levels : List PyVal} {c : Contrast.Spec K} (ht : typeOf types f = some (.categorical levels (some c))) : Q c := by
  have hown := examineTypes_own hv hn h hf
  simp only [bind_ok, pure_ok] at hown
  obtain ⟨o, h1, h2⟩ := hown
  have ho := ownLoop_contrast hq (o := .working none) trivial h1
  rw [ht] at h2
  cases o with
  | number n => simp [ownResult] at h2
  | finished s =>
    simp only [ownResult, Option.some.injEq, FactorType.categorical.injEq] at h2
    exact ho c h2.2
  | working x =>
    cases x with
    | none => simp [ownResult] at h2
    | some s =>
      simp only [ownResult, Option.some.injEq, FactorType.categorical.injEq] at h2
      exact ho c h2.2

/-- With data, every factor gets a type. -/
theorem examined_some {na : NAAction} {order : List PyVal → List PyVal} {visit : List F → List F}
    (hv : ∀ l, (visit l).Perm l) {eval : F → D → Except Err (CatValue (Contrast.Spec K))} {chunks : List D} {fs : List F}
    (hn : fs.Nodup) {types : Types F K} (h : examineTypes na order visit eval chunks fs = .ok types) {f : F} (hf : f ∈ fs)
    (hc : chunks ≠ []) : typeOf types f ≠ none := by
  have hown := examineTypes_own hv hn h hf
  simp only [bind_ok, pure_ok] at hown
  obtain ⟨o, h1, h2⟩ := hown
  rw [← h2]
  have key : ∀ (ds : List D) (o o' : Own (Contrast.Spec K)), ownResult order o ≠ none →
      ownLoop na (eval f) ds o = .ok o' → ownResult order o' ≠ none := by
    intro ds
    induction ds with
    | nil => intro o o' ho h; cases h; exact ho
    | cons d ds ih =>
      intro o o' ho h
      simp only [ownLoop, List.foldlM_cons, bind_ok] at h
      obtain ⟨o1, h1, h2⟩ := h
      refine ih o1 o' ?_ h2
      cases o with
      | number n => cases h1; exact ho
      | finished s => cases h1; exact ho
      | working x =>
        simp only [ownStep, bind_ok] at h1
        obtain ⟨v, hv, h1⟩ := h1
        split at h1
        · simp only [bind_ok, pure_ok] at h1
          obtain ⟨r, _, h1⟩ := h1
          split at h1 <;> subst h1 <;> simp [ownResult]
        · simp only [bind_ok, pure_ok] at h1
          obtain ⟨n, _, rfl⟩ := h1
          simp [ownResult]
  cases chunks with
  | nil => exact absurd rfl hc
  | cons d ds =>
    simp only [ownLoop, List.foldlM_cons, bind_ok] at h1
    obtain ⟨o1, h1, h2⟩ := h1
    refine key ds o1 o ?_ h2
    simp only [ownStep, bind_ok] at h1
    obtain ⟨v, hv, h1⟩ := h1
    split at h1
    · simp only [bind_ok, pure_ok] at h1
      obtain ⟨r, _, h1⟩ := h1
      split at h1 <;> subst h1 <;> simp [ownResult]
    · simp only [bind_ok, pure_ok] at h1
      obtain ⟨n, _, rfl⟩ := h1
      simp [ownResult]

variable {H : Type}

theorem visited_nodup {P : Setting F D K H} (hv : ∀ l, (P.visit l).Perm l) (tls : List (List (Term F))) :
    (P.visit (allFactors tls)).Nodup := (hv _).nodup_iff.mpr (allFactors_nodup tls)

/-- Matrices of contrasts of the factors are real. -/
theorem coder_real {P : Setting F D K H} (hw : RealWorld P) {chunks : List D} {tls : List (List (Term F))}
    {eval : F → D → Except Err (Seen K)} {types : Types F K} (hl : LearnedFrom P chunks tls eval types) {f : F}
    (hf : f ∈ allFactors tls) {full : Bool} (hn : dictGet types.1 f = none) {cm : ContrastMatrix K}
    (h : coderOf P.default types.2 f full = .ok cm) : RealMatrix cm := by
  unfold coderOf at h
  split at h
  · cases h
  · rename_i lc hlc
    refine codeContrastMatrix_real ?_ hw.default h
    cases hc : lc.2 with
    | none => trivial
    | some c =>
      refine examined_contrast hw.visits (visited_nodup hw.visits tls) hl.2 ((hw.visits _).mem_iff.mpr hf) (Q := RealContrast)
        ?_ (levels := lc.1) (by simp only [typeOf, hn, hlc, Option.map_some, hc]; rfl)
      intro d v hv c hc
      simp only [bind_ok, pure_ok] at hv
      obtain ⟨s, hs, rfl⟩ := hv
      exact hw.contrasts _ _ hl.1 f d s hs c hc

theorem makeDesign_real [DecidableEq H] {name : F → String} {hash : Subterm F → H}
    {nums : List (F × Nat)} {coder : F → Bool → Except Err (ContrastMatrix K)}
    {fis : List (F × FactorInfo F D K)} {ts : List (Term F)} (hnd : ∀ t ∈ ts, t.factors.Nodup)
    (hreal : ∀ t ∈ ts, ∀ f ∈ t.factors, ∀ full cm, dictGet nums f = none → coder f full = .ok cm → RealMatrix cm)
    {d : DesignInfo F D K} (h : makeDesign name hash nums coder fis ts = .ok d) {c : Coding F D K} (hc : d.coding = some c) :
    RealCoding c := by
  simp only [makeDesign, bind_ok] at h
  obtain ⟨infos, hi, h⟩ := h
  split at h
  · simp only [bind_ok] at h
    obtain ⟨own, _, names, _, h⟩ := h
    have := (make_good.mp h).coding
    rw [hc] at this
    cases this
    intro p hp st hst q hq
    obtain ⟨e, he⟩ := infos_made hi p hp st hst
    have hterm : p.1 ∈ ts := (inOrder_perm (term_order hnd hi)).mem_iff.mp (List.mem_map_of_mem hp)
    obtain ⟨h1, h2, full, h3⟩ := makeSubterm_contrasts he q hq
    exact hreal _ hterm _ h1 full _ h2 h3
  · cases h

/-! ### Values -/

theorem factorInfo_kind {eval : F → D → Except Err (Seen K)} {nums cats} {uid : Nat} {f : F}
    {fi : FactorInfo F D K} (h : factorInfo eval nums cats uid f = .ok fi) (ty : NATypes) (data : D) :
    KindSafe ty data fi := by
  intro k v i hk hv
  rcases (factorInfo_ok h).2.2.2 with ⟨n, _, h2, _⟩ | ⟨levels, c, _, _, h3⟩
  · rw [h2] at hk; cases hk
  · rw [show fi.eval ty data = _ from h3 ⟨.drop, ty.nan, ty.none⟩ data] at hv
    simp only [bind_ok, categoricalValue, pure_ok, Prod.mk.injEq] at hv
    obtain ⟨_, _, codes, _, rfl, _⟩ := hv
    exact ⟨codes, rfl⟩

theorem factorInfo_fits {na : NAAction} {eval : F → D → Except Err (Seen K)} {nums cats} {uid : Nat} {f : F}
    {fi : FactorInfo F D K} (h : factorInfo eval nums cats uid f = .ok fi) {data : D}
    (hrows : ∀ s, eval f data = .ok s → SeenRows s)
    (hcodes : ∀ s cats codes, eval f data = .ok s → s.value = .raw (.pandas cats codes) →
      ∀ c ∈ codes, -1 ≤ c ∧ c < cats.length)
    {v : Value K} {i : Option (List Build.Label)} (hv : fi.eval na.types data = .ok (v, i)) (hk : kindOK fi.type v) :
    ValueFits fi.type v := by
  rcases (factorInfo_ok h).2.2.2 with ⟨n, _, h2, h3⟩ | ⟨levels, c, _, h2, h3⟩
  · rw [h3] at hv
    simp only [bind_ok] at hv
    obtain ⟨s, hs, hv⟩ := hv
    simp only [numericValue] at hv
    split at hv
    · rename_i ndim ncols vals hval
      split at hv
      · cases hv
      · simp only [Except.ok.injEq, Prod.mk.injEq] at hv
        obtain ⟨rfl, _⟩ := hv
        rw [h2] at hk ⊢
        refine ⟨hk, ?_⟩
        rw [← (hk : _ = n)]
        exact hrows s hs _ _ _ hval
    · cases hv
  · rw [h3] at hv
    simp only [bind_ok, categoricalValue, pure_ok, Prod.mk.injEq] at hv
    obtain ⟨s, hs, codes, hc, rfl, _⟩ := hv
    rw [h2]
    exact categoricalToInt_range (fun cats cs he => hcodes s cats cs hs he) hc

/-- What is known about the designs that have been made. -/
theorem builders_real [DecidableEq H] {P : Setting F D K H} (hw : RealWorld P)
    {chunks : List D} {tls : List (List (Term F))} (hnd : ∀ tl ∈ tls, ∀ t ∈ tl, t.factors.Nodup)
    {dis : List (DesignInfo F D K)} (h : designMatrixBuilders P chunks tls = .ok dis) {cs : List (Coding F D K)}
    (hcs : List.Forall₂ IsDesign dis cs) :
    SameIdentity (Spec.factorsOf cs) ∧ (∀ ty data, IndexFits ty (Spec.factorsOf cs) data) ∧ (∀ c ∈ cs, RealCoding c) ∧
      ∃ eval types, LearnedFrom P chunks tls eval types ∧ ∀ fi ∈ Spec.factorsOf cs, ∃ f ∈ allFactors tls, ∃ uid,
        factorInfo eval types.1 types.2 uid f = .ok fi := by
  obtain ⟨cs', h1, h2, h3, _⟩ := builders_sound hw.toWorld hnd h
  obtain rfl : cs = cs' := by
    have key : ∀ {dis : List (DesignInfo F D K)} {cs cs' : List (Coding F D K)}, List.Forall₂ IsDesign dis cs →
        List.Forall₂ IsDesign dis cs' → cs = cs' := by
      intro dis cs cs' h
      induction h generalizing cs' with
      | nil => intro h'; cases h'; rfl
      | cons a _ ih =>
        intro h'
        cases h' with
        | cons b t =>
          rw [ih t, Option.some.inj ((coding_of_isDesign a).symm.trans (coding_of_isDesign b))]
    exact key hcs h1
  obtain ⟨eval, types, infos, he, ht, hinfo, hd⟩ := builders_ok hw.visits h
  have hl : LearnedFrom P chunks tls eval types := ⟨he, ht⟩
  have hmade : ∀ c ∈ cs, ∃ tl ∈ tls, ∃ d, makeDesign P.name P.hash types.1 (coderOf P.default types.2) infos tl = .ok d ∧
      d.coding = some c := by
    intro c hc
    obtain ⟨d, hd', hdc⟩ := exists_mem_of_forall₂' hcs hc
    obtain ⟨tl, htl, hm⟩ := exists_mem_of_forall₂' hd hd'
    exact ⟨tl, htl, d, hm, coding_of_isDesign hdc⟩
  refine ⟨h2, h3, ?_, eval, types, hl, ?_⟩
  · intro c hc
    obtain ⟨tl, htl, d, hm, hdc⟩ := hmade c hc
    refine makeDesign_real (hnd tl htl) ?_ hm hdc
    intro t ht' f hf full cm hn hcm
    exact coder_real hw hl (allFactors_mem.mpr ⟨tl, htl, t, ht', hf⟩) hn hcm
  · intro fi hfi
    simp only [Spec.factorsOf, List.mem_flatMap, List.mem_map] at hfi
    obtain ⟨c, hc, p, hp, rfl⟩ := hfi
    obtain ⟨tl, htl, d, hm, hdc⟩ := hmade c hc
    obtain ⟨c', hc', _, h5, _⟩ := makeDesign_isDesign hm
    obtain rfl : c = c' := Option.some.inj (hdc.symm.trans hc')
    obtain ⟨hf, h6⟩ := hinfo _ _ (h5 p hp)
    exact ⟨p.1, hf, _, h6⟩

/-! ### What `design_matrix_builders` knows about the factors -/

theorem factorInfos_made {P : Setting F D K H} (hv : ∀ l, (P.visit l).Perm l) {tls : List (List (Term F))}
    {eval : F → D → Except Err (Seen K)} {types : Types F K} {infos : List (F × FactorInfo F D K)}
    (h : (P.visit (allFactors tls)).zipIdx.mapM (fun fi => do
      let info ← factorInfo eval types.1 types.2 fi.2 fi.1
      pure (fi.1, info)) = (.ok infos : Except Err _)) {f : F} (hf : f ∈ allFactors tls) :
    ∃ fi uid, dictGet infos f = some fi ∧ factorInfo eval types.1 types.2 uid f = .ok fi := by
  have hall := mapM_ok.mp h
  have hkey : ∀ {l : List (F × Nat)} {m : List (F × FactorInfo F D K)}, List.Forall₂ (fun a b => (do
      let info ← factorInfo eval types.1 types.2 a.2 a.1
      pure (a.1, info)) = (.ok b : Except Err _)) l m → f ∈ l.map Prod.fst →
      ∃ fi uid, dictGet m f = some fi ∧ factorInfo eval types.1 types.2 uid f = .ok fi := by
    intro l m h
    induction h with
    | nil => intro h; simp at h
    | @cons a b l m h1 _ ih =>
      intro hm
      simp only [bind_ok, pure_ok] at h1
      obtain ⟨info, h1, rfl⟩ := h1
      by_cases ha : a.1 = f
      · refine ⟨info, a.2, by simp [dictGet, ha], ?_⟩
        rw [← ha]
        exact h1
      · simp only [List.map_cons, List.mem_cons] at hm
        obtain ⟨fi, uid, h2, h3⟩ := ih (hm.resolve_left fun h => ha h.symm)
        refine ⟨fi, uid, ?_, h3⟩
        simpa [dictGet, ha] using h2
  refine hkey hall ?_
  rw [List.zipIdx_map_fst]
  exact (hv _).mem_iff.mpr hf

theorem typeOf_none_of_nums {types : Types F K} {f : F} (hn : dictGet types.1 f = none) (full : Bool)
    (default : Contrast.Spec K) {levels : List PyVal} {c : Option (Contrast.Spec K)}
    (h : typeOf types f = some (.categorical levels c)) :
    coderOf default types.2 f full = Contrast.codeContrastMatrix full levels (c.getD .none) default := by
  simp only [typeOf, hn] at h
  cases hc : dictGet types.2 f with
  | none => simp [hc] at h
  | some lc =>
    simp only [hc, Option.map_some, Option.some.injEq, FactorType.categorical.injEq] at h
    obtain ⟨rfl, rfl⟩ := h
    simp only [coderOf, hc]

/-- Everything is known about the factors when the designs are made. -/
theorem examined_factor {P : Setting F D K H} (hw : RealWorld P) {tls : List (List (Term F))}
    {eval : F → D → Except Err (Seen K)} {types : Types F K}
    {infos : List (F × FactorInfo F D K)}
    (h : (P.visit (allFactors tls)).zipIdx.mapM (fun fi => do
      let info ← factorInfo eval types.1 types.2 fi.2 fi.1
      pure (fi.1, info)) = (.ok infos : Except Err _)) {f : F} (hf : f ∈ allFactors tls) :
    (∀ n, dictGet types.1 f = some n → ∃ fi, dictGet infos f = some fi ∧ fi.factor = f ∧ fi.type = .numerical n) ∧
    (dictGet types.1 f = none → ∃ fi levels c, dictGet infos f = some fi ∧ fi.factor = f ∧
      fi.type = .categorical levels.length ∧ typeOf types f = some (.categorical levels c)) := by
  obtain ⟨fi, uid, h1, h2⟩ := factorInfos_made hw.visits h hf
  obtain ⟨_, h3, h4, h5⟩ := factorInfo_ok h2
  constructor
  · intro n hn
    rcases h5 with ⟨m, h6, h7, _⟩ | ⟨levels, c, h6, _, _⟩
    · simp only [typeOf, hn, Option.some.injEq, FactorType.numerical.injEq] at h6
      subst h6
      exact ⟨fi, h1, h3, h7⟩
    · simp [typeOf, hn] at h6
  · intro hn
    rcases h5 with ⟨m, h6, _, _⟩ | ⟨levels, c, h6, h7, _⟩
    · simp only [typeOf, hn] at h6
      cases hc : dictGet types.2 f <;> simp [hc] at h6
    · exact ⟨fi, levels, c, h1, h3, h7, h6⟩

end Patsy.Outcome
