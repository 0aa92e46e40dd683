import Verif.Spec.ChunkedDesign
import Verif.Lemmas.ReorderBuild
import Verif.Lemmas.RenameBuilders

/-!
# Designs from data in chunks: levels, designs, values
-/

set_option linter.unusedSectionVars false

namespace Patsy.Spec

open Patsy.Build Patsy.Desc Patsy.Cat Patsy.Redundancy

variable {F D K A B Cn : Type} [DecidableEq F]

/-! ### Lists -/

theorem mapM_ok_flatten {f : A → Except Err B} {ls : List (List A)} {ms : List (List B)}
    (h : List.Forall₂ (fun l m => l.mapM f = .ok m) ls ms) : ls.flatten.mapM f = .ok ms.flatten := by
  induction h with
  | nil => rfl
  | cons h1 _ ih =>
    rw [List.flatten_cons, List.flatten_cons, mapM_ok]
    exact List.rel_append (mapM_ok.mp h1) (mapM_ok.mp ih)

theorem mapM_some_flatten {f : A → Option B} {ls : List (List A)} {ms : List (List B)}
    (h : List.Forall₂ (fun l m => l.mapM f = some m) ls ms) : ls.flatten.mapM f = some ms.flatten := by
  induction h with
  | nil => rfl
  | cons h1 _ ih =>
    rw [List.flatten_cons, List.flatten_cons, mapM_some]
    exact List.rel_append (mapM_some.mp h1) (mapM_some.mp ih)

/-! ### Levels -/

/-- The keys of a set. -/
def Has (set : List PyVal) (k : Key) : Prop := ∃ a ∈ set, a.key = some k

theorem hasKey_iff {set : List PyVal} {k : Key} : hasKey set k = true ↔ Has set k := by
  simp [hasKey, Has]

theorem addLevel_has {set s : List PyVal} {v : PyVal} (h : addLevel set v = .ok s) (k : Key) :
    Has s k ↔ Has set k ∨ v.key = some k := by
  unfold addLevel at h
  split at h
  · cases h
  · rename_i k' hk
    cases h
    rw [hk]
    split
    · rename_i hh
      rw [hasKey_iff] at hh
      constructor
      · exact .inl
      · rintro (h | h)
        · exact h
        · cases h; exact hh
    · unfold Has
      simp only [List.mem_append, List.mem_singleton]
      constructor
      · rintro ⟨a, ha | rfl, h⟩
        · exact .inl ⟨a, ha, h⟩
        · exact .inr (hk ▸ h)
      · rintro (⟨a, ha, h⟩ | h)
        · exact ⟨a, .inl ha, h⟩
        · exact ⟨v, .inr rfl, hk.trans h⟩

/-- What is in the set has been shown. -/
theorem sniffValue_has {na : NAAction} {set s : List PyVal} {v : PyVal} (h : sniffValue na set v = .ok s) (k : Key)
    (hk : Has s k) : Has set k ∨ v.key = some k ∨ (∃ b, v = .bool b) ∧ (k = .num 0 ∨ k = .num 1) := by
  simp only [sniffValue, bind_ok] at h
  obtain ⟨b, _, h⟩ := h
  cases b with
  | true => cases h; exact .inl hk
  | false =>
    simp only [Bool.false_eq_true, if_false] at h
    split at h
    · simp only [bind_ok] at h
      obtain ⟨s1, h1, h2⟩ := h
      rcases (addLevel_has h2 k).mp hk with hk | hk
      · rcases (addLevel_has h1 k).mp hk with hk | hk
        · exact .inl hk
        · refine .inr (.inr ⟨⟨_, rfl⟩, .inr ?_⟩)
          simpa [PyVal.key, boolNum] using hk.symm
      · refine .inr (.inr ⟨⟨_, rfl⟩, .inl ?_⟩)
        simpa [PyVal.key, boolNum] using hk.symm
    · rcases (addLevel_has h k).mp hk with hk | hk
      · exact .inl hk
      · exact .inr (.inl hk)

theorem foldl_has {na : NAAction} : ∀ {vals set s : List PyVal}, vals.foldlM (sniffValue na) set = .ok s → ∀ k, Has s k →
    Has set k ∨ (∃ v ∈ vals, v.key = some k) ∨ (∃ b, .bool b ∈ vals) ∧ (k = .num 0 ∨ k = .num 1) := by
  intro vals
  induction vals with
  | nil => intro set s h k hk; cases h; exact .inl hk
  | cons v vals ih =>
    intro set s h k hk
    rw [List.foldlM_cons] at h
    simp only [bind_ok] at h
    obtain ⟨s1, h1, h2⟩ := h
    rcases ih h2 k hk with h | ⟨w, hw, h⟩ | ⟨⟨b, hb⟩, h⟩
    · rcases sniffValue_has h1 k h with h | h | ⟨⟨b, rfl⟩, h⟩
      · exact .inl h
      · exact .inr (.inl ⟨v, by simp, h⟩)
      · exact .inr (.inr ⟨⟨b, by simp⟩, h⟩)
    · exact .inr (.inl ⟨w, by simp [hw], h⟩)
    · exact .inr (.inr ⟨⟨b, by simp [hb]⟩, h⟩)

theorem has_withBools {vals : List PyVal} {k : Key}
    (h : (∃ v ∈ vals, v.key = some k) ∨ (∃ b, PyVal.bool b ∈ vals) ∧ (k = .num 0 ∨ k = .num 1)) :
    ∃ a ∈ withBools vals, a.key = some k := by
  rcases h with ⟨v, hv, h⟩ | ⟨⟨b, hb⟩, h⟩
  · refine ⟨v, ?_, h⟩
    unfold withBools
    split <;> simp [hv]
  · have hw : withBools vals = .bool true :: .bool false :: vals := by
      unfold withBools
      rw [if_pos]
      cases b
      · exact .inr hb
      · exact .inl hb
    rw [hw]
    rcases h with rfl | rfl
    · exact ⟨.bool false, by simp, by simp [PyVal.key, boolNum]⟩
    · exact ⟨.bool true, by simp, by simp [PyVal.key, boolNum]⟩

/-- A value whose keys are there adds nothing. -/
theorem sniffValue_noop {na : NAAction} {set : List PyVal} {v : PyVal} (h0 : Has set (.num 0)) (h1 : Has set (.num 1))
    (hk : v.key = some (.num 0) ∨ v.key = some (.num 1) ∨ Missing na v) : sniffValue na set v = .ok set := by
  have hv : isCategoricalNA na v = .ok true ∨ isCategoricalNA na v = .ok false := by
    unfold isCategoricalNA
    cases v with
    | int i =>
      have hi : i = 0 ∨ i = 1 := by
        rcases hk with h | h | h
        · simp only [PyVal.key, Option.some.injEq, Key.num.injEq] at h
          exact .inl (by exact_mod_cast h)
        · simp only [PyVal.key, Option.some.injEq, Key.num.injEq] at h
          exact .inr (by exact_mod_cast h)
        · exact absurd h id
      have : intOverflows i = false := by rcases hi with rfl | rfl <;> decide +kernel
      cases na.nan <;> simp [scalarIsNan, this, bind, Except.bind]
    | str s => simp [PyVal.key, Missing] at hk
    | unhashable i => simp [PyVal.key, Missing] at hk
    | _ => cases na.nan <;> cases na.none <;> simp [scalarIsNan, bind, Except.bind]
  rcases hv with hv | hv
  · simp only [sniffValue, hv]; rfl
  · have hadd : ∀ a : PyVal, a.key = some (.num 0) ∨ a.key = some (.num 1) → addLevel set a = .ok set := by
      rintro a (ha | ha) <;> simp [addLevel, ha, hasKey_iff.mpr h0, hasKey_iff.mpr h1]
    have hk' : v.key = some (.num 0) ∨ v.key = some (.num 1) := by
      rcases hk with h | h | h
      · exact .inl h
      · exact .inr h
      · exfalso
        cases v <;> simp_all [Missing, isCategoricalNA, scalarIsNan, bind, Except.bind]
    simp only [sniffValue, hv]
    cases v with
    | bool b =>
      show ((addLevel set (.bool true)) >>= fun s => addLevel s (.bool false)) = _
      rw [hadd (.bool true) (.inr (by simp [PyVal.key, boolNum]))]
      exact hadd (.bool false) (.inl (by simp [PyVal.key, boolNum]))
    | _ => exact hadd _ hk'

theorem foldl_noop {na : NAAction} {set : List PyVal} (h0 : Has set (.num 0)) (h1 : Has set (.num 1)) :
    ∀ {vals : List PyVal}, (∀ v ∈ vals, v.key = some (.num 0) ∨ v.key = some (.num 1) ∨ Missing na v) →
    vals.foldlM (sniffValue na) set = .ok set := by
  intro vals
  induction vals with
  | nil => intro _; rfl
  | cons v vals ih =>
    intro hk
    rw [List.foldlM_cons, sniffValue_noop h0 h1 (hk v (by simp))]
    exact ih fun v h => hk v (by simp [h])

/-- Has the data shown the key? -/
def Shown (vals : List PyVal) (k : Key) : Prop :=
  (∃ v ∈ vals, v.key = some k) ∨ (∃ b, PyVal.bool b ∈ vals) ∧ (k = .num 0 ∨ k = .num 1)

theorem shown_append {l m : List PyVal} {k : Key} : Shown (l ++ m) k ↔ Shown l k ∨ Shown m k := by
  unfold Shown
  simp only [List.mem_append]
  constructor
  · rintro (⟨v, hv | hv, h⟩ | ⟨⟨b, hb | hb⟩, h⟩)
    · exact .inl (.inl ⟨v, hv, h⟩)
    · exact .inr (.inl ⟨v, hv, h⟩)
    · exact .inl (.inr ⟨⟨b, hb⟩, h⟩)
    · exact .inr (.inr ⟨⟨b, hb⟩, h⟩)
  · rintro ((⟨v, hv, h⟩ | ⟨⟨b, hb⟩, h⟩) | (⟨v, hv, h⟩ | ⟨⟨b, hb⟩, h⟩))
    · exact .inl ⟨v, .inl hv, h⟩
    · exact .inr ⟨⟨b, .inl hb⟩, h⟩
    · exact .inl ⟨v, .inr hv, h⟩
    · exact .inr ⟨⟨b, .inr hb⟩, h⟩

theorem examine_cons {na : NAAction} {order : List PyVal → List PyVal} {st : Option (Sniffer Cn)} {v : CatValue Cn}
    (hv : guessCategorical v = true) (vs : List (CatValue Cn)) :
    examineFactor na order st (v :: vs) = (match (st.getD {}).sniff na v with
      | .error e => .error e
      | .ok (s, true) => .ok (some (.categorical (s.levelsContrast order).1 (s.levelsContrast order).2))
      | .ok (s, false) => examineFactor na order (some s) vs) := by
  rw [examineFactor.eq_def]
  match st, v, hv with
  | none, .raw (.pandas _ _), _ => rfl
  | none, .raw (.array .boolDtype _ _ _), _ => rfl
  | none, .raw (.array .other _ _ _), _ => rfl
  | none, .box _ _ _, _ => rfl
  | some s, v, _ => rfl

/-- Chunks of values without declared levels. -/
theorem examine_values {na : NAAction} {order : List PyVal → List PyVal} {mk : List PyVal → CatValue Cn} {c : Option Cn}
    (hg : ∀ l, guessCategorical (mk l) = true)
    (hmk : ∀ (s : Sniffer Cn) (l : List PyVal), s.levels = none → (s.contrast = none ∨ s.contrast = c) → s.sniff na (mk l) =
      (l.foldlM (sniffValue na) s.levelSet >>= fun set => .ok (⟨c, none, set⟩, isBoolSet set))) {r : Option (FactorType Cn)} :
    ∀ (ls : List (List PyVal)) (st : Option (Sniffer Cn)), (ls ≠ [] ∨ (st.getD {}).contrast = c ∧ st.isSome) →
    (st.getD {}).levels = none → ((st.getD {}).contrast = none ∨ (st.getD {}).contrast = c) →
    ((∀ v ∈ ls.flatten, v.key = some (.num 0) ∨ v.key = some (.num 1) ∨ Missing na v) ∨
      ¬ ((Has (st.getD {}).levelSet (.num 0) ∨ Shown ls.flatten (.num 0)) ∧
        (Has (st.getD {}).levelSet (.num 1) ∨ Shown ls.flatten (.num 1)))) →
    examineFactor na order st (ls.map mk) = .ok r →
    ∃ set, ls.flatten.foldlM (sniffValue na) (st.getD {}).levelSet = .ok set ∧
      r = some (.categorical (sortAnything (order set)) c) := by
  intro ls
  induction ls with
  | nil =>
    intro st hne hl _ _ h
    rcases hne with h | ⟨hc, hs⟩
    · exact absurd rfl h
    · obtain ⟨s, rfl⟩ := Option.isSome_iff_exists.mp hs
      simp only [List.map_nil, examineFactor, Option.getD_some] at h hc hl ⊢
      cases h
      refine ⟨s.levelSet, rfl, ?_⟩
      simp [Sniffer.levelsContrast, hl, hc]
  | cons l ls ih =>
    intro st _ hl hc hu h
    rw [List.map_cons, examine_cons (hg l), hmk _ l hl hc] at h
    cases hf : l.foldlM (sniffValue na) (st.getD {}).levelSet with
    | error e => rw [hf] at h; cases h
    | ok S =>
      simp only [hf, ok_bind] at h
      rw [List.flatten_cons, List.foldlM_append, hf, ok_bind]
      have hkeys : ∀ k, Has S k → Has (st.getD {}).levelSet k ∨ Shown l k := fun k hk => foldl_has hf k hk
      cases hb : isBoolSet S with
      | true =>
        rw [hb] at h
        cases h
        simp only [isBoolSet, Bool.and_eq_true, hasKey_iff] at hb
        rcases hu with hu | hu
        · exact ⟨S, foldl_noop hb.2 hb.1.2
            (fun v h => hu v (by simp only [List.flatten_cons, List.mem_append]; exact .inr h)), rfl⟩
        · exfalso
          simp only [List.flatten_cons, shown_append] at hu
          exact hu ⟨(hkeys _ hb.2).imp_right .inl, (hkeys _ hb.1.2).imp_right .inl⟩
      | false =>
        rw [hb] at h
        refine ih (some ⟨c, none, S⟩) (.inr ⟨rfl, rfl⟩) rfl (.inr rfl) ?_ h
        rcases hu with hu | hu
        · exact .inl fun v h => hu v (by simp only [List.flatten_cons, List.mem_append]; exact .inr h)
        · refine .inr fun ⟨h0, h1⟩ => hu ?_
          simp only [List.flatten_cons, shown_append]
          have : ∀ k, Has S k ∨ Shown ls.flatten k → Has (st.getD {}).levelSet k ∨ Shown l k ∨ Shown ls.flatten k := by
            rintro k (h | h)
            · rcases hkeys k h with h | h
              · exact .inl h
              · exact .inr (.inl h)
            · exact .inr (.inr h)
          exact ⟨this _ h0, this _ h1⟩

/-- The levels found in chunks are those found in the whole data. -/
theorem examine_joined {na : NAAction} {order : List PyVal → List PyVal} {vs : List (CatValue Cn)} {w : CatValue Cn}
    (hne : vs ≠ []) (hj : JoinedValue vs w) (hu : Unmixed na w) {r : Option (FactorType Cn)} (h : examineFactor na order none vs = .ok r) :
    examineFactor na order none [w] = .ok r := by
  have hfirst : ∀ {v : CatValue Cn} {rest : List (CatValue Cn)} {s : Sniffer Cn}, guessCategorical v = true →
      ({} : Sniffer Cn).sniff na v = .ok (s, true) →
      examineFactor na order none (v :: rest) = .ok (some (.categorical (s.levelsContrast order).1 (s.levelsContrast order).2)) := by
    intro v rest s h1 h2
    rw [examine_cons h1, show (none : Option (Sniffer Cn)).getD {} = {} from rfl, h2]
  have hvals : ∀ (mk : List PyVal → CatValue Cn) (c : Option Cn) (ls : List (List PyVal)), (∀ l, guessCategorical (mk l) = true) →
      (∀ (s : Sniffer Cn) (l : List PyVal), s.levels = none → (s.contrast = none ∨ s.contrast = c) → s.sniff na (mk l) =
        (l.foldlM (sniffValue na) s.levelSet >>= fun set => .ok (⟨c, none, set⟩, isBoolSet set))) →
      vs = ls.map mk → w = mk ls.flatten → sniffed w = ls.flatten →
      examineFactor na order none [w] = .ok r := by
    intro mk c ls hg hmk hvs hw hs
    rw [hvs] at h
    obtain ⟨set, h1, h2⟩ := examine_values hg hmk ls none (.inl (by rintro rfl; exact hne hvs)) rfl (.inl rfl) (by
      unfold Unmixed at hu
      rw [hs] at hu
      refine hu.imp_right fun hu => ?_
      rintro ⟨h0, h1⟩
      have : ∀ k, Has ((none : Option (Sniffer Cn)).getD {}).levelSet k ∨ Shown ls.flatten k →
          ∃ a ∈ withBools ls.flatten, a.key = some k := by
        rintro k (⟨a, ha, _⟩ | h)
        · cases ha
        · exact has_withBools h
      exact hu ⟨this _ h0, this _ h1⟩) h
    rw [hw, examine_cons (hg _), hmk _ _ rfl (.inl rfl), h1, ok_bind, h2]
    cases isBoolSet set <;> rfl
  match w, hj, hu, hvals with
  | .raw (.pandas cats codes), ⟨rs, e1, cs, e2, _⟩, _, _ =>
    cases cs with
    | nil => simp only [List.map_nil] at e2; subst e2; exact absurd e1 hne
    | cons c cs =>
      subst e2
      rw [e1] at h
      rw [← h]
      exact (hfirst rfl rfl).trans (hfirst rfl rfl).symm
  | .box r c (some l), ⟨rs, e1, _⟩, _, _ =>
    cases rs with
    | nil => exact absurd e1 hne
    | cons r' rs =>
      rw [e1] at h
      rw [← h]
      exact (hfirst rfl rfl).trans (hfirst rfl rfl).symm
  | .box (.pandas cats codes) c none, ⟨rs, e1, cs, e2, _⟩, _, _ =>
    cases cs with
    | nil => simp only [List.map_nil] at e2; subst e2; exact absurd e1 hne
    | cons c cs =>
      subst e2
      rw [e1] at h
      rw [← h]
      exact (hfirst rfl rfl).trans (hfirst rfl rfl).symm
  | .raw (.array kind ndim ncols vals), ⟨rs, e1, hnd, ls, e2, hvl⟩, hu, hvals =>
    cases ls with
    | nil => simp only [List.map_nil] at e2; subst e2; exact absurd e1 hne
    | cons l ls =>
      subst e2
      cases kind with
      | number =>
        rw [e1] at h
        rw [← h]
        simp only [List.map_cons, examineFactor]
      | boolDtype =>
        rw [e1] at h
        rw [← h]
        exact (hfirst rfl rfl).trans (hfirst rfl rfl).symm
      | other =>
        by_cases h1 : ndim = 1
        · subst h1
          have hvl := hvl rfl
          subst hvl
          refine hvals (fun l => .raw (.array .other 1 ncols l)) none (l :: ls) (fun _ => rfl) ?_
            (by rw [e1, List.map_map]; rfl) rfl rfl
          rintro ⟨sc, sl, ss⟩ l hl hc
          simp only [or_self] at hl hc
          subst hl hc
          rfl
        · exfalso
          rw [e1, List.map_cons, List.map_cons, examine_cons rfl] at h
          simp [Sniffer.sniff, Sniffer.sniffRaw, show 1 < ndim by omega] at h
  | .box (.array kind ndim ncols vals) c none, ⟨rs, e1, hnd, ls, e2, hvl⟩, hu, hvals =>
    cases ls with
    | nil => simp only [List.map_nil] at e2; subst e2; exact absurd e1 hne
    | cons l ls =>
      subst e2
      by_cases hb : kind = .boolDtype
      · subst hb
        rw [e1] at h
        rw [← h]
        exact (hfirst rfl rfl).trans (hfirst rfl rfl).symm
      · by_cases h1 : ndim = 1
        · subst h1
          have hvl := hvl rfl
          subst hvl
          refine hvals (fun l => .box (.array kind 1 ncols l) c none) c (l :: ls) (fun _ => rfl) ?_
            (by rw [e1, List.map_map]; rfl) rfl rfl
          rintro ⟨sc, sl, ss⟩ l hl _
          simp only at hl
          subst hl
          simp only [Sniffer.sniff, Sniffer.sniffRaw, if_neg hb]
          rfl
        · exfalso
          rw [e1, List.map_cons, List.map_cons, examine_cons rfl] at h
          simp [Sniffer.sniff, Sniffer.sniffRaw, hb, show 1 < ndim by omega] at h

/-! ### Designs -/

theorem makeSubtermInfos_same {H : Type} [DecidableEq H] {hash : Subterm F → H} {nums nums' : List (F × Nat)}
    {coder coder' : F → Bool → Except Err (ContrastMatrix K)} (hn : ∀ f, dictGet nums' f = dictGet nums f)
    (hc : ∀ f, dictGet nums f = none → coder' f = coder f) (ts : List (Term F)) :
    makeSubtermInfos hash nums' coder' ts = makeSubtermInfos hash nums coder ts := by
  have hnum : isNumeric nums' = isNumeric nums := by funext f; simp only [isNumeric, hn]
  have hb : buckets nums' ts = buckets nums ts := by
    have : bucketStep nums' = bucketStep nums := by
      have hbk : bucketOf nums' = bucketOf nums := by
        funext t
        unfold bucketOf
        rw [hnum]
      funext s t
      unfold bucketStep
      rw [hbk]
    simp only [buckets, this]
  have hl : ∀ (coding : Subterm F) (fs : List F), subtermLoop nums' coder' coding fs = subtermLoop nums coder coding fs := by
    intro coding fs
    induction fs with
    | nil => rfl
    | cons f fs ih =>
      simp only [subtermLoop, hn f, ih]
      cases hd : dictGet nums f with
      | some n => rfl
      | none => simp only [hc f hd]
  have hm : ∀ t, makeSubterm nums' coder' t = makeSubterm nums coder t := by
    intro t
    funext c
    simp only [makeSubterm, hl]
  have hcb : ∀ (ts : List (Term F)) (used : List H), codeBucket hash nums' coder' ts used = codeBucket hash nums coder ts used := by
    intro ts
    induction ts with
    | nil => intro _; rfl
    | cons t ts ih =>
      intro used
      simp only [codeBucket, hnum, hm, ih]
  simp only [makeSubtermInfos, hb, hcb]

theorem makeDesign_same {H : Type} [DecidableEq H] {name : F → String} {hash : Subterm F → H} {nums nums' : List (F × Nat)}
    {coder coder' : F → Bool → Except Err (ContrastMatrix K)} (hn : ∀ f, dictGet nums' f = dictGet nums f)
    (hc : ∀ f, dictGet nums f = none → coder' f = coder f) (fis : List (F × FactorInfo F D K)) (ts : List (Term F)) :
    makeDesign name hash nums' coder' fis ts = makeDesign name hash nums coder fis ts := by
  simp only [makeDesign, makeSubtermInfos_same hn hc]

/-- The design made from the whole data is the one made from the chunks. -/
theorem builders_joined {H : Type} [DecidableEq H] {P P' : Setting F D K H} (hvis : ∀ l, (P.visit l).Perm l) {chunks : List D}
    (hne : chunks ≠ []) {whole : D} {tls : List (List (Term F))} (hS : Chunked P P' chunks whole (P.visit (allFactors tls)))
    (hall : ∀ eval, P.memorize (P.visit (allFactors tls)) = .ok eval → ∀ f ∈ allFactors tls, ∃ ss, chunks.mapM (eval f) = .ok ss)
    {dis : List (DesignInfo F D K)}
    (h : designMatrixBuilders P chunks tls = .ok dis) : designMatrixBuilders P' [whole] tls = .ok dis := by
  obtain ⟨e1, e2, e3, e4, e5, e6⟩ := hS.same
  simp only [designMatrixBuilders, bind_ok] at h ⊢
  obtain ⟨eval, he, types, ht, infos, hi, hd⟩ := h
  obtain ⟨eval', he', hee⟩ := hS.memorize eval he
  rw [e1, e2, e3, e4, e5, e6]
  have hnd : (P.visit (allFactors tls)).Nodup := (hvis _).nodup_iff.mpr (allFactors_nodup _)
  have hone : ∀ f ∈ P.visit (allFactors tls), examineFactor P.na P.order none
      (match (do pure (← eval' f whole).value : Except Err (CatValue (Contrast.Spec K))) with | .ok v => [v] | .error _ => []) =
        .ok (typeOf types f) ∧ ∃ v, (do pure (← eval' f whole).value : Except Err (CatValue (Contrast.Spec K))) = .ok v := by
    intro f hf
    obtain ⟨ss, hss⟩ := hall eval he f ((hvis _).mem_iff.mp hf)
    obtain ⟨w, hw, hj, hu⟩ := hS.values eval he f hf ss hss
    have hvs : chunks.mapM (fun d => do pure (← eval f d).value) = .ok (ss.map (·.value)) := by
      rw [mapM_ok, List.forall₂_map_right_iff]
      refine (mapM_ok.mp hss).imp fun d s h => ?_
      rw [h]; rfl
    have h1 := Props.examined_alone (eval := fun f d => do pure (← eval f d).value) hvis hnd ht hf hvs
    have hw' : (do pure (← eval' f whole).value : Except Err (CatValue (Contrast.Spec K))) = .ok w.value := by
      rw [hee f hf, hw]; rfl
    refine ⟨?_, _, hw'⟩
    rw [hw']
    refine examine_joined ?_ hj.value hu h1
    intro h0
    rw [List.map_eq_nil_iff] at h0
    subst h0
    have := (mapM_ok.mp hss).length_eq
    simp only [List.length_nil, List.length_eq_zero_iff] at this
    exact hne this
  obtain ⟨types', ht'⟩ : ∃ r, examineTypes P.na P.order P.visit (fun f d => do pure (← eval' f d).value) [whole]
      (P.visit (allFactors tls)) = .ok r := by
    rw [examineTypes_ok_iff hvis hnd]
    intro f hf
    obtain ⟨h1, v, hv⟩ := hone f hf
    rw [hv] at h1
    simp only at h1
    rw [ownLoop_examineFactor] at h1
    rw [ownLoop_values (ds := [whole]) (vs := [v]) (by rw [mapM_ok]; exact .cons hv .nil)]
    simp only [bind_ok] at h1
    obtain ⟨o, ho, _⟩ := h1
    exact ⟨o, ho⟩
  have htt : ∀ f, typeOf types' f = typeOf types f := by
    intro f
    by_cases hf : f ∈ P.visit (allFactors tls)
    · obtain ⟨h1, v, hv⟩ := hone f hf
      have h2 := Props.examined_alone (eval := fun f d => do pure (← eval' f d).value) hvis hnd ht' hf (vs := [v])
        (by rw [mapM_ok]; exact .cons hv .nil)
      rw [hv] at h1
      simp only at h1
      rw [h2] at h1
      exact Except.ok.inj h1
    · rw [typeOf_none hvis ht' hf, typeOf_none hvis ht hf]
  refine ⟨eval', he', types', ht', infos, ?_, ?_⟩
  · rw [← hi]
    refine mapM_same fun p hp => ?_
    have hf : p.1 ∈ P.visit (allFactors tls) := by
      have : p.1 ∈ ((P.visit (allFactors tls)).zipIdx).map Prod.fst := List.mem_map_of_mem hp
      rwa [List.zipIdx_map_fst] at this
    obtain ⟨h1, h2⟩ := typeOf_alike (htt p.1)
    simp only [factorInfo, h1, hee p.1 hf]
    cases hn : dictGet types.1 p.1 with
    | some n => rfl
    | none => simp only [h2 hn]
  · rw [← hd]
    refine mapM_same fun ts _ => ?_
    refine makeDesign_same (fun f => (typeOf_alike (htt f)).1) (fun f hn => ?_) infos ts
    funext b
    simp only [coderOf, (typeOf_alike (htt f)).2 hn]

/-! ### Values -/

/-- An evaluated factor on the chunks and on the whole data. -/
def JoinedVal (vs : List (Value K)) : Value K → Prop
  | .num m rows => ∃ rs : List (List (List K)), vs = rs.map (.num m) ∧ rows = rs.flatten
  | .cat codes => ∃ cs : List (List Int), vs = cs.map .cat ∧ codes = cs.flatten
  | .labels _ => False

theorem arrayToInt_form (na : NAAction) (levels : List PyVal) (kind : Kind) (ndim : Nat) :
    (∃ e, ∀ vals, arrayToInt na levels kind ndim vals = .error e) ∨
      ndim ≤ 1 ∧ ∃ f, ∀ vals, arrayToInt na levels kind ndim vals = vals.mapM f := by
  by_cases hnd : 1 < ndim
  · exact .inl ⟨.patsyError, fun vals => if_pos hnd⟩
  · cases hd : levelDict 0 levels with
    | error e => exact .inl ⟨e, fun vals => by simp only [arrayToInt, if_neg hnd, hd]; rfl⟩
    | ok d =>
      simp only [arrayToInt, if_neg hnd, hd, ok_bind]
      by_cases hk : kind = .boolDtype
      · simp only [if_pos hk]
        split
        · exact .inl ⟨_, fun _ => rfl⟩
        · split
          · exact .inl ⟨_, fun _ => rfl⟩
          · refine .inr ⟨by omega, fun v => .ok (boolToInt v), fun vals => Eq.symm ?_⟩
            rw [mapM_ok, List.forall₂_map_right_iff]
            exact List.forall₂_same.mpr fun _ _ => rfl
          · exact .inr ⟨by omega, _, fun vals => rfl⟩
        · exact .inr ⟨by omega, _, fun vals => rfl⟩
      · simp only [if_neg hk]
        exact .inr ⟨by omega, _, fun vals => rfl⟩

theorem arrayToInt_joined {na : NAAction} {levels : List PyVal} {kind : Kind} {ndim : Nat} {vals : List PyVal}
    {ls : List (List PyVal)} (hne : ls ≠ []) (hv : ndim ≤ 1 → vals = ls.flatten) {css : List (List Int)}
    (h : List.Forall₂ (fun l c => arrayToInt na levels kind ndim l = .ok c) ls css) :
    arrayToInt na levels kind ndim vals = .ok css.flatten := by
  rcases arrayToInt_form na levels kind ndim with ⟨e, he⟩ | ⟨hnd, f, hf⟩
  · cases h with
    | nil => exact absurd rfl hne
    | cons h1 _ => rw [he] at h1; cases h1
  · rw [hf, hv hnd]
    exact mapM_ok_flatten (h.imp fun l c h => by rw [← hf]; exact h)

theorem categoricalToInt_joined {na : NAAction} {levels : List PyVal} {vs : List (CatValue Cn)} {w : CatValue Cn}
    (hne : vs ≠ []) (hj : JoinedValue vs w) {css : List (List Int)} (h : vs.mapM (categoricalToInt na levels) = .ok css) :
    categoricalToInt na levels w = .ok css.flatten := by
  rw [mapM_ok] at h
  match w, hj with
  | .raw (.pandas cats codes), ⟨rs, e1, cs, e2, e3⟩ =>
    subst e2 e3
    rw [e1, List.map_map, List.forall₂_map_left_iff] at h
    have hall : ∀ c ∈ cs, sameLevels cats levels = true := by
      intro c hc
      obtain ⟨b, _, hb⟩ := exists_mem_of_forall₂ h hc
      simp only [Function.comp, categoricalToInt] at hb
      split at hb
      · assumption
      · cases hb
    cases cs with
    | nil => exact absurd e1 hne
    | cons c cs =>
      have hs := hall c (by simp)
      have : css = c :: cs := by
        have h' : List.Forall₂ Eq (c :: cs) css := h.imp fun a b hab => by
          simp only [Function.comp, categoricalToInt, if_pos hs] at hab
          exact Except.ok.inj hab
        exact (List.forall₂_eq_eq_eq ▸ h').symm
      rw [this]
      simp only [categoricalToInt, if_pos hs]
  | .raw (.array kind ndim ncols vals), ⟨rs, e1, hnd, ls, e2, hvl⟩ =>
    subst e2
    rw [e1, List.map_map, List.forall₂_map_left_iff] at h
    refine arrayToInt_joined ?_ (fun h => hvl (by omega)) h
    rintro rfl
    exact hne e1
  | .box r c l, ⟨rs, e1, hr⟩ =>
    have hform : ∀ r : Raw, categoricalToInt na levels (.box r c l) = match r with
      | .pandas cats codes => arrayToInt na levels .other 1 (pandasValues cats codes)
      | .array kind ndim _ vals => arrayToInt na levels kind ndim vals := by
      rcases l with _ | l
      · intro r; rfl
      · cases hb : sameLevels l levels with
        | true =>
          intro r
          simp only [categoricalToInt, hb]
          rfl
        | false =>
          exfalso
          cases rs with
          | nil => exact hne e1
          | cons r rs =>
            rw [e1] at h
            cases h with
            | cons h1 _ =>
              simp only [categoricalToInt, hb] at h1
              cases h1
    rw [hform]
    rw [e1, List.forall₂_map_left_iff] at h
    simp only [hform] at h
    match r, hr with
    | .pandas cats codes, ⟨cs, e2, e3⟩ =>
      subst e2 e3
      rw [List.forall₂_map_left_iff] at h
      refine arrayToInt_joined (ls := cs.map (pandasValues cats)) ?_ (fun _ => ?_) ?_
      · intro h0
        rw [List.map_eq_nil_iff] at h0
        subst h0
        exact hne e1
      · simp only [pandasValues, List.map_flatten]
        rfl
      · rw [List.forall₂_map_left_iff]
        exact h
    | .array kind ndim ncols vals, ⟨hnd, ls, e2, hvl⟩ =>
      subst e2
      rw [List.forall₂_map_left_iff] at h
      refine arrayToInt_joined ?_ (fun h => hvl (by omega)) h
      rintro rfl
      exact hne e1

theorem joined_kind {vs : List (CatValue Cn)} {ndim ncols : Nat} {vals : List PyVal} {w : CatValue Cn}
    (hj : JoinedValue (.raw (.array .number ndim ncols vals) :: vs) w) : ∃ vals', w = .raw (.array .number ndim ncols vals') := by
  match w, hj with
  | .raw (.pandas cats codes), ⟨rs, e1, cs, e2, e3⟩ =>
    subst e2
    cases cs <;> simp at e1
  | .raw (.array kind ndim' ncols' vals'), ⟨rs, e1, hnd, ls, e2, hvl⟩ =>
    subst e2
    cases ls with
    | nil => simp at e1
    | cons l ls =>
      simp only [List.map_cons, List.cons.injEq, CatValue.raw.injEq, Raw.array.injEq] at e1
      obtain ⟨⟨rfl, rfl, rfl, rfl⟩, _⟩ := e1
      exact ⟨vals', rfl⟩
  | .box r c l, ⟨rs, e1, hr⟩ => cases rs <;> simp at e1

theorem joined_kinds {vs : List (CatValue Cn)} {ndim ncols : Nat} {vals : List PyVal}
    (hj : JoinedValue vs (.raw (.array .number ndim ncols vals))) : ∀ v ∈ vs, ∃ vals', v = .raw (.array .number ndim ncols vals') := by
  obtain ⟨rs, e1, _, ls, e2, _⟩ := hj
  subst e2
  rw [e1]
  intro v hv
  simp only [List.map_map, List.mem_map] at hv
  obtain ⟨l, _, rfl⟩ := hv
  exact ⟨l, rfl⟩

/-- An evaluated factor on the whole data. -/
theorem factorEval_joined {eval : F → D → Except Err (Seen K)} {types : Types F K} {uid : Nat} {f : F}
    {fi : FactorInfo F D K} (hfi : factorInfo eval types.1 types.2 uid f = .ok fi) {chunks : List D} (hne : chunks ≠ []) {whole : D}
    (hev : ∀ ss, chunks.mapM (eval f) = .ok ss → ∃ w, eval f whole = .ok w ∧ JoinedSeen ss w) {na : NAAction}
    {vis : List (Value K × Option (List Build.Label))} (h : chunks.mapM (fi.eval na.types) = .ok vis) :
    ∃ v i, fi.eval na.types whole = .ok (v, i) ∧ JoinedVal (vis.map Prod.fst) v ∧ JoinedLabels (vis.map Prod.snd) i := by
  have hex : ∀ {g : Seen K → Except Err (Value K × Option (List Build.Label))} {ds : List D} {vis},
      (ds.mapM fun d => eval f d >>= g) = .ok vis → ∃ ss, ds.mapM (eval f) = .ok ss ∧ ss.mapM g = .ok vis := by
    intro g ds
    induction ds with
    | nil => intro vis h; cases h; exact ⟨[], rfl, rfl⟩
    | cons d ds ih =>
      intro vis h
      rw [mapM_ok] at h
      cases h with
      | cons h1 h2 =>
        obtain ⟨ss, h3, h4⟩ := ih (mapM_ok.mpr h2)
        simp only [bind_ok] at h1
        obtain ⟨s, h5, h6⟩ := h1
        exact ⟨s :: ss, mapM_ok.mpr (.cons h5 (mapM_ok.mp h3)), mapM_ok.mpr (.cons h6 (mapM_ok.mp h4))⟩
  have hss_ne : ∀ {ss : List (Seen K)}, chunks.mapM (eval f) = .ok ss → ss ≠ [] := by
    rintro ss h rfl
    have := (mapM_ok.mp h).length_eq
    simp only [List.length_nil, List.length_eq_zero_iff] at this
    exact hne this
  rcases (Props.factorInfo_ok hfi).2.2.2 with ⟨k, _, _, h3⟩ | ⟨levels, c, _, _, h3⟩
  · have h3' : fi.eval na.types = fun d => eval f d >>= numericValue := by funext d; exact h3 _ d
    rw [h3'] at h ⊢
    obtain ⟨ss, hss, hg⟩ := hex h
    obtain ⟨w, hw, hj⟩ := hev ss hss
    rw [mapM_ok] at hg
    cases ss with
    | nil => exact absurd rfl (hss_ne hss)
    | cons s ss =>
      have hs : ∃ ndim ncols vals, s.value = .raw (.array .number ndim ncols vals) ∧ ¬ 2 < ndim := by
        cases hg with
        | cons h1 _ =>
          simp only [numericValue] at h1
          split at h1
          · rename_i ndim ncols vals hval
            refine ⟨ndim, ncols, vals, hval, fun hnd => ?_⟩
            rw [if_pos hnd] at h1
            cases h1
          · cases h1
      obtain ⟨ndim, ncols, vals, hval, hnd⟩ := hs
      obtain ⟨vals', hw'⟩ := joined_kind (by have := hj.value; rwa [List.map_cons, hval] at this)
      have hkinds := joined_kinds (hw' ▸ hj.value)
      have hvis : vis = (s :: ss).map fun s => (.num (if ndim = 2 then ncols else 1) s.rows, s.index) := by
        generalize s :: ss = L at hg hkinds
        clear hss hj hex hss_ne h hev
        induction hg with
        | nil => rfl
        | @cons a b _ _ h1 _ ih =>
          rw [List.map_cons, ← ih fun v hv => hkinds v (by simp only [List.map_cons, List.mem_cons]; exact .inr hv)]
          obtain ⟨va, hva⟩ := hkinds a.value (by simp)
          simp only [numericValue, hva, if_neg hnd] at h1
          cases h1
          rfl
      refine ⟨.num (if ndim = 2 then ncols else 1) w.rows, w.index, ?_, ⟨(s :: ss).map (·.rows), ?_, hj.rows ⟨_, _, _, hw'⟩⟩, ?_⟩
      · simp only [hw, ok_bind, numericValue, hw', if_neg hnd]
      · rw [hvis, List.map_map, List.map_map]; rfl
      · rw [hvis, List.map_map]; exact hj.index
  · have h3' : fi.eval na.types = fun d => eval f d >>= categoricalValue na levels := by funext d; exact h3 _ d
    rw [h3'] at h ⊢
    obtain ⟨ss, hss, hg⟩ := hex h
    obtain ⟨w, hw, hj⟩ := hev ss hss
    rw [mapM_ok] at hg
    obtain ⟨css, hc, hvis⟩ : ∃ css, (ss.map (·.value)).mapM (categoricalToInt na levels) = .ok css ∧
        vis = (css.zip (ss.map (·.index))).map fun p => (Value.cat p.1, p.2) := by
      clear hss hj hex hss_ne h hev
      induction hg with
      | nil => exact ⟨[], rfl, rfl⟩
      | @cons a b _ _ h1 _ ih =>
        obtain ⟨css, i1, i2⟩ := ih
        simp only [categoricalValue, bind_ok, pure_ok] at h1
        obtain ⟨codes, hc, rfl⟩ := h1
        exact ⟨codes :: css, mapM_ok.mpr (.cons hc (mapM_ok.mp i1)), by simp [i2]⟩
    have hlen : css.length = (ss.map (·.index)).length := by
      have := (mapM_ok.mp hc).length_eq
      simpa using this.symm
    refine ⟨.cat css.flatten, w.index, ?_, ⟨css, ?_, rfl⟩, ?_⟩
    · have := categoricalToInt_joined (by simpa using hss_ne hss) hj.value hc
      simp only [hw, ok_bind, categoricalValue, this]
      rfl
    · rw [hvis, List.map_map]
      have : (Prod.fst ∘ fun p : List Int × Option (List Build.Label) => ((.cat p.1, p.2) : Value K × Option (List Build.Label))) =
        Value.cat ∘ Prod.fst := rfl
      rw [this, ← List.map_map, List.map_fst_zip hlen.le]
    · rw [hvis, List.map_map]
      have : (Prod.snd ∘ fun p : List Int × Option (List Build.Label) => ((.cat p.1, p.2) : Value K × Option (List Build.Label))) =
        Prod.snd := rfl
      rw [this, List.map_snd_zip hlen.ge]
      exact hj.index

end Patsy.Spec
