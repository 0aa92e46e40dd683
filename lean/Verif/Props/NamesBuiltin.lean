import Verif.Props.Names
import Verif.Props.RankBuiltin
import Verif.Props.Poly
import Verif.Lemmas.PolyNames

/-!
# C52 for what `design_matrix_builders` makes, and for the contrasts that come with patsy
-/

set_option linter.unusedSectionVars false

namespace Patsy.Props

open Patsy.Spec Patsy.Build Patsy.Desc Patsy.Redundancy Patsy.Rank Patsy.Names Patsy.Cat Patsy.Contrast

variable {F D K : Type} [DecidableEq F]

/-- Names of factors that are written in the usual way: brackets are balanced, colons are in brackets, the last character
is not a closing square bracket, and the name is not `Intercept`. -/
structure UsualName (s : String) : Prop where
  closed : Closed s
  last : s.toList.getLast? ≠ some ']'
  notIntercept : s ≠ "Intercept"

/-- A text in brackets, or the suffix of a polynomial (`.Linear`, `^4`). -/
def UsualSuffix (s : String) : Prop := Bracketed s ∨ PolySuffix s

theorem append_usual_inj {a b s s' : String} (ha : Closed a) (hb : Closed b) (hs : UsualSuffix s)
    (hs' : UsualSuffix s') (h : a ++ s = b ++ s') : a = b ∧ s = s' := by
  rcases hs with hs | hs <;> rcases hs' with hs' | hs'
  · exact append_bracketed_inj ha hb hs hs' h
  · exact absurd (by rw [← h]; exact bracketed_last hs) (poly_last (a := b) hs')
  · exact absurd (by rw [h]; exact bracketed_last hs') (poly_last (a := a) hs)
  · exact append_poly_inj hs hs' h

theorem closed_append_usual {a s : String} (ha : Closed a) (hs : UsualSuffix s) : Closed (a ++ s) :=
  hs.elim (closed_append ha) (closed_append_poly ha)

theorem usual_not_intercept {a s : String} (hs : UsualSuffix s) : a ++ s ≠ "Intercept" := by
  rcases hs with hs | hs
  · intro h
    have := bracketed_last (a := a) hs
    rw [h] at this
    exact absurd this (by decide)
  · exact poly_not_intercept hs

/-- The suffixes of the columns of a contrast matrix are of the usual form and distinct. -/
structure UsualSuffixes (cm : ContrastMatrix K) : Prop where
  usual : ∀ s ∈ cm.suffixes, UsualSuffix s
  nodup : cm.suffixes.Nodup

/-- **C52**, the labels.  With usual names and suffixes the labels are unambiguous. -/
theorem usual_readable {name : F → String} {nums : List (F × Nat)} {coder : F → Bool → Except Err (ContrastMatrix K)}
    {fs : List F} (hname : ∀ f ∈ fs, UsualName (name f)) (hinj : ∀ f ∈ fs, ∀ g ∈ fs, name f = name g → f = g)
    (hpoly : ∀ f ∈ fs, ∀ g ∈ fs, ∀ s, PolySuffix s → name g ≠ name f ++ s)
    (hsuf : ∀ f ∈ fs, dictGet nums f = none → ∀ full cm, coder f full = .ok cm → UsualSuffixes cm) :
    Readable name nums coder fs := by
  -- the suffix of a label
  have key : ∀ f ∈ fs, ∀ full j s, Label name nums coder f full j s →
      (s = name f ∧ dictGet nums f = some 1 ∧ j = 0) ∨ ∃ sfx, s = name f ++ sfx ∧ UsualSuffix sfx ∧
        ∀ j', Label name nums coder f full j' s → j = j' := by
    intro f hf full j s hl
    cases hl with
    | single h => exact .inl ⟨rfl, h, rfl⟩
    | multi hn h1 h2 =>
      refine .inr ⟨"[" ++ toString j ++ "]", by simp [String.append_assoc], .inl (bracketed_number j), ?_⟩
      intro j' hl'
      generalize he : name f ++ "[" ++ toString j ++ "]" = t at hl'
      cases hl' with
      | single h => rw [hn] at h; cases h; omega
      | multi _ _ _ =>
        have h3 := congrArg String.toList he
        simp only [String.toList_append, List.append_assoc, List.append_cancel_left_eq, List.append_cancel_right_eq] at h3
        exact Nat.repr_inj.mp (String.toList_inj.mp h3)
      | level h _ _ => rw [hn] at h; cases h
    | @level cm _ sfx hn hc hs =>
      have hu := hsuf f hf hn full cm hc
      refine .inr ⟨sfx, rfl, hu.usual _ (List.mem_of_getElem? hs), ?_⟩
      intro j' hl'
      generalize he : name f ++ sfx = t at hl'
      cases hl' with
      | single h => rw [hn] at h; cases h
      | multi h _ _ => rw [hn] at h; cases h
      | @level cm' _ sfx' _ hc' hs' =>
        rw [hc] at hc'
        cases hc'
        have := (String.append_right_inj _).mp he
        subst this
        have hlt : j < cm.suffixes.length := by
          by_contra hge
          rw [List.getElem?_eq_none (by omega)] at hs
          cases hs
        exact (List.getElem?_inj hlt hu.nodup).mp (by rw [hs, hs'])
  -- no name ends in a suffix of another
  have hbare : ∀ f ∈ fs, ∀ g ∈ fs, ∀ s, UsualSuffix s → name g ≠ name f ++ s := by
    intro f hf g hg s hs h
    rcases hs with hs | hs
    · exact (hname g hg).last (by rw [h]; exact bracketed_last hs)
    · exact hpoly f hf g hg s hs h
  refine ⟨fun f hf => (hname f hf).closed, ?_, hinj, ?_, ?_, ?_⟩
  · intro f hf full j s hl
    rcases key f hf full j s hl with ⟨rfl, _⟩ | ⟨sfx, rfl, hb, _⟩
    · exact (hname f hf).closed
    · exact closed_append_usual (hname f hf).closed hb
  · intro f hf g hg full full' j j' s hl hl'
    have hfg : f = g := by
      rcases key f hf full j s hl with ⟨h1, _⟩ | ⟨sfx, h1, hb, _⟩ <;>
        rcases key g hg full' j' s hl' with ⟨h2, _⟩ | ⟨sfx', h2, hb', _⟩
      · exact hinj f hf g hg (h1.symm.trans h2)
      · exact absurd (h1.symm.trans h2) (hbare g hg f hf sfx' hb')
      · exact absurd (h2.symm.trans h1) (hbare f hf g hg sfx hb)
      · exact hinj f hf g hg
          (append_usual_inj (hname f hf).closed (hname g hg).closed hb hb' (h1.symm.trans h2)).1
    subst hfg
    refine ⟨rfl, ?_⟩
    rintro rfl
    rcases key f hf full j s hl with ⟨h1, h2, rfl⟩ | ⟨sfx, h1, hb, h2⟩
    · rcases key f hf full j' s hl' with ⟨_, _, rfl⟩ | ⟨sfx', h3, hb', _⟩
      · rfl
      · exact absurd (h1.symm.trans h3) (hbare f hf f hf sfx' hb')
    · exact h2 j' hl'
  · intro f hf g hg full j hl
    rcases key f hf full j _ hl with ⟨_, h, _⟩ | ⟨sfx, h1, hb, _⟩
    · exact h
    · exact absurd h1 (hbare f hf g hg sfx hb)
  · intro f hf
    refine ⟨(hname f hf).notIntercept, fun full j hl => ?_⟩
    rcases key f hf full j _ hl with ⟨h, _⟩ | ⟨sfx, h1, hb, _⟩
    · exact (hname f hf).notIntercept h.symm
    · exact usual_not_intercept hb h1.symm

/-! ### The contrasts that come with patsy -/

theorem bracketed_level {pre s : String} (hp : ∀ c ∈ pre.toList, bracketStep c = 0) (h : Balanced s.toList) :
    Bracketed ("[" ++ pre ++ s ++ "]") := by
  refine ⟨pre.toList ++ s.toList, by simp [String.toList_append], ?_, ?_⟩
  · rw [depth_append, h.1, depth_of_plain hp]; rfl
  · intro p hpre
    rcases prefix_append_cases hpre with h1 | ⟨r, rfl, h1⟩
    · exact (balanced_of_plain hp).2 p h1
    · rw [depth_append, depth_of_plain hp]
      have := h.2 r h1
      omega

theorem levelNames_usual {readable : PyVal → String} {levels : List PyVal} {pre : String}
    (hp : ∀ c ∈ pre.toList, bracketStep c = 0) (hb : ∀ l ∈ levels, Balanced (readable l).toList)
    (hn : (levels.map readable).Nodup) :
    (∀ s ∈ levels.map (fun l => "[" ++ pre ++ readable l ++ "]"), UsualSuffix s) ∧
      (levels.map fun l => "[" ++ pre ++ readable l ++ "]").Nodup := by
  refine ⟨?_, ?_⟩
  · intro s hs
    obtain ⟨l, hl, rfl⟩ := List.mem_map.mp hs
    exact .inl (bracketed_level hp (hb l hl))
  · have : (levels.map fun l => "[" ++ pre ++ readable l ++ "]") = (levels.map readable).map fun s => "[" ++ pre ++ s ++ "]" := by
      rw [List.map_map]; rfl
    rw [this]
    refine List.Nodup.map ?_ hn
    intro a b hab
    have h := congrArg String.toList hab
    simp only [String.toList_append, List.append_assoc, List.append_cancel_left_eq, List.append_cancel_right_eq] at h
    exact String.toList_inj.mp h

/-- A contrast matrix of `k` levels whose columns can be told apart. -/
def Tellable (k : Nat) (cm : ContrastMatrix K) : Prop :=
  cm.matrix.length = k ∧ cm.suffixes.length = cm.ncols ∧ UsualSuffixes cm

/-- A contrast whose two codings of the levels have columns that can be told apart. -/
def TellableContrast (levels : List PyVal) (contrast : Contrast.Spec K) : Prop :=
  ∃ w wo, contrast = .coding w wo ∧ (∃ cm, w levels = .ok cm ∧ Tellable levels.length cm) ∧
    ∃ cm, wo levels = .ok cm ∧ Tellable levels.length cm

variable [Field K]

/-- **C52**, the suffixes.  The contrasts that come with patsy (apart from `Poly`) have unambiguous suffixes if the levels
have different names with balanced brackets, and none is called `intercept` (which clashes with Helmert). -/
theorem builtin_suffixes [CharZero K] {readable : PyVal → String} {levels : List PyVal} (hne : levels ≠ [])
    (hb : ∀ l ∈ levels, Balanced (readable l).toList) (hn : (levels.map readable).Nodup)
    (hint : ∀ l ∈ levels, readable l ≠ "intercept") {contrast : Contrast.Spec K} (h : Builtin readable levels contrast) :
    TellableContrast levels contrast := by
  have hplain : ∀ pre ∈ ["", "T.", "S.", "H.", "D."], ∀ c ∈ pre.toList, bracketStep c = 0 := by decide
  have herase : ∀ r, (∀ l ∈ levels.eraseIdx r, Balanced (readable l).toList) ∧ ((levels.eraseIdx r).map readable).Nodup :=
    fun r => ⟨fun l hl => hb l (List.mem_of_mem_eraseIdx hl), hn.sublist ((List.eraseIdx_sublist _ _).map _)⟩
  have hdrop : (∀ l ∈ levels.drop 1, Balanced (readable l).toList) ∧ ((levels.drop 1).map readable).Nodup :=
    ⟨fun l hl => hb l (List.mem_of_mem_drop hl), hn.sublist ((List.drop_sublist _ _).map _)⟩
  have hinit : (∀ l ∈ levels.dropLast, Balanced (readable l).toList) ∧ (levels.dropLast.map readable).Nodup :=
    ⟨fun l hl => hb l (List.mem_of_mem_dropLast hl), hn.sublist ((List.dropLast_sublist _).map _)⟩
  have hred : ∀ {c : ContrastMatrix K} {A B}, IsReduced c levels.length A B → UsualSuffixes c → Tellable levels.length c :=
    fun h1 h2 => ⟨h1.rows, by rw [h1.names, h1.ncols], h2⟩
  have hfull : ∀ {c : ContrastMatrix K} {B}, IsFull c levels.length B → UsualSuffixes c → Tellable levels.length c :=
    fun h1 h2 => ⟨h1.rows, by rw [h1.names, h1.ncols], h2⟩
  cases h with
  | @treatment _ r h hlt =>
    obtain ⟨c, h1, h3, h2⟩ := treatment_meaning (K := K) readable h hlt
    obtain ⟨c', h1', h3', h2'⟩ := dummy_meaning (K := K) readable levels
    have u := levelNames_usual (hplain "T." (by decide)) (herase r).1 (herase r).2
    have u' := levelNames_usual (hplain "" (by decide)) hb hn
    exact ⟨_, _, rfl, ⟨c', h1', hfull h2' ⟨by rw [h3']; exact u'.1, by rw [h3']; exact u'.2⟩⟩,
      c, h1, hred h2 ⟨by rw [h3]; exact u.1, by rw [h3]; exact u.2⟩⟩
  | @sum _ o h hlt =>
    obtain ⟨⟨c, h1, h3, h2⟩, c', h1', h3', h2'⟩ := sum_meaning (K := K) readable h hlt
    have u := levelNames_usual (hplain "S." (by decide)) (herase o).1 (herase o).2
    refine ⟨_, _, rfl, ⟨c', h1', hfull h2' ⟨?_, ?_⟩⟩, c, h1, hred h2 ⟨by rw [h3]; exact u.1, by rw [h3]; exact u.2⟩⟩
    · rw [h3']
      intro s hs
      rcases List.mem_cons.mp hs with rfl | hs
      · exact .inl ⟨"mean".toList, by decide, balanced_of_plain (by decide)⟩
      · exact u.1 s hs
    · rw [h3', List.nodup_cons]
      refine ⟨?_, u.2⟩
      intro hm
      obtain ⟨l, _, he⟩ := List.mem_map.mp hm
      have := congrArg (fun s : String => s.toList[1]?) he
      simp [String.toList_append] at this
  | helmert =>
    obtain ⟨⟨c, h1, h3, h2⟩, c', h1', h3', h2'⟩ := helmert_meaning (K := K) readable hne
    have u := levelNames_usual (hplain "H." (by decide)) hdrop.1 hdrop.2
    refine ⟨_, _, rfl, ⟨c', h1', hfull h2' ⟨?_, ?_⟩⟩, c, h1, hred h2 ⟨by rw [h3]; exact u.1, by rw [h3]; exact u.2⟩⟩
    · rw [h3']
      intro s hs
      rcases List.mem_cons.mp hs with rfl | hs
      · exact .inl ⟨"H.intercept".toList, by decide, balanced_of_plain (by decide)⟩
      · exact u.1 s hs
    · rw [h3', List.nodup_cons]
      refine ⟨?_, u.2⟩
      intro hm
      obtain ⟨l, hl, he⟩ := List.mem_map.mp hm
      refine hint l (List.mem_of_mem_drop hl) ?_
      have h := congrArg String.toList he
      have hs : "[H.intercept]".toList = "[H.".toList ++ ("intercept".toList ++ "]".toList) := by decide
      rw [hs] at h
      simp only [String.toList_append, List.append_assoc, List.append_cancel_left_eq, List.append_cancel_right_eq] at h
      exact String.toList_inj.mp h
  | diff h =>
    obtain ⟨⟨c, h1, h3, h2⟩, c', h1', h3', h2'⟩ := diff_meaning (K := K) readable h hne
    have u := levelNames_usual (hplain "D." (by decide)) hinit.1 hinit.2
    have u' := levelNames_usual (hplain "D." (by decide)) hb hn
    exact ⟨_, _, rfl, ⟨c', h1', hfull h2' ⟨by rw [h3']; exact u'.1, by rw [h3']; exact u'.2⟩⟩,
      c, h1, hred h2 ⟨by rw [h3]; exact u.1, by rw [h3]; exact u.2⟩⟩

/-- **C52**, the suffixes of `Poly`, for any scores of the right number; the names of the levels do not matter. -/
theorem poly_suffixes {qr : Nat → (Nat → Nat → ℝ) → (Nat → Nat → ℝ) × (Nat → Nat → ℝ)} {scores : Option (List ℝ)}
    {levels : List PyVal}
    (hlen : (scores.getD ((List.range levels.length).map fun (i : Nat) => (i : ℝ))).length = levels.length) :
    TellableContrast levels (.coding (poly qr scores true) (poly qr scores false)) := by
  refine ⟨_, _, rfl, ⟨_, by simp only [poly, hlen, ne_eq, not_true_eq_false, if_false, if_true]; exact make_ok (polyNames_length _),
    matOf_length _ _ _, polyNames_length _, fun s hs => .inr ⟨_, hs⟩, polyNames_nodup _⟩,
    ⟨_, by
      simp only [poly, hlen, ne_eq, not_true_eq_false, if_false, Bool.false_eq_true]
      exact make_ok (by rw [List.length_drop, polyNames_length]),
    matOf_length _ _ _, by rw [List.length_drop, polyNames_length], fun s hs => .inr ⟨_, List.mem_of_mem_drop hs⟩,
    (polyNames_nodup _).sublist (List.drop_sublist _ _)⟩⟩

/-- What `design_matrix_builders` may find out about a factor so that the labels are unambiguous: that it is numerical, or
that it has levels and a contrast (as a class or as an object, its own or by default) whose columns can be told apart;
`builtin_suffixes` and `poly_suffixes` are about the contrasts that come with patsy. -/
def UsualFactor (default : Contrast.Spec K) : Option (FactorType (Contrast.Spec K)) → Prop
  | some (.numerical _) => True
  | some (.categorical levels contrast) => ∃ c, TellableContrast levels c ∧ (contrast = some c ∨
      contrast = some (.callable c) ∨ contrast = none ∧ (default = c ∨ default = .callable c))
  | none => False

theorem coder_tellable {default : Contrast.Spec K} {types : List (F × Nat) × _}
    {f : F} (hf : UsualFactor default (typeOf types f)) (hn : dictGet types.1 f = none) :
    ∃ lc, dictGet types.2 f = some lc ∧ ∀ full, ∃ cm, coderOf default types.2 f full = .ok cm ∧ Tellable lc.1.length cm := by
  simp only [typeOf, hn] at hf
  cases hd : dictGet types.2 f with
  | none => rw [hd] at hf; exact absurd hf (by simp [UsualFactor])
  | some lc =>
    rw [hd] at hf
    simp only [Option.map_some, UsualFactor] at hf
    obtain ⟨c, ⟨w, wo, rfl, ⟨cm, hw, ht⟩, cm', hwo, ht'⟩, h5⟩ := hf
    refine ⟨lc, rfl, fun full => ?_⟩
    have hco : coderOf default types.2 f full = if full then w lc.1 else wo lc.1 := by
      rw [coderOf, hd]
      simp only
      rcases h5 with h5 | h5 | ⟨h5, h6 | h6⟩
      · rw [h5]; rfl
      · rw [h5]; rfl
      · rw [h5, h6]; rfl
      · rw [h5, h6]; rfl
    rw [hco]
    cases full
    · exact ⟨cm', hwo, ht'⟩
    · exact ⟨cm, hw, ht⟩

/-- **C52**.  Once `design_matrix_builders` has evaluated the factors and found out what they are, it succeeds, for all lists
of different terms: usual names and contrasts whose columns can be told apart never make it fail.  (No factor may be called
like another one followed by `.Linear` or the like, because `Poly` uses suffixes without brackets.) -/
theorem builders_accepted {H : Type} [DecidableEq H] {P : Setting F D K H} (hv : ∀ l, (P.visit l).Perm l)
    {chunks : List D} {tls : List (List (Term F))} (hnd : ∀ tl ∈ tls, ∀ t ∈ tl, t.factors.Nodup)
    (hdis : ∀ tl ∈ tls, tl.Pairwise fun s t => Term.eqv s t = false) {eval : F → D → Except Err (Seen K)} (he : P.memorize (P.visit (allFactors tls)) = .ok eval)
    {types : List (F × Nat) × List (F × List PyVal × Option (Contrast.Spec K))}
    (ht : examineTypes P.na P.order P.visit (fun f d => do pure (← eval f d).value) chunks (P.visit (allFactors tls)) =
      .ok types)
    (hsep : ∀ tl ∈ tls, Separates P.hash (fun f => (dictGet types.1 f).isSome) (tl.map (·.factors)))
    (hname : ∀ f ∈ allFactors tls, UsualName (P.name f))
    (hinj : ∀ f ∈ allFactors tls, ∀ g ∈ allFactors tls, P.name f = P.name g → f = g)
    (hpoly : ∀ f ∈ allFactors tls, ∀ g ∈ allFactors tls, ∀ s, PolySuffix s → P.name g ≠ P.name f ++ s)
    (hfac : ∀ f ∈ allFactors tls, UsualFactor P.default (typeOf types f)) :
    ∃ dis, designMatrixBuilders P chunks tls = .ok dis := by
  -- the factor infos
  have hinfo : ∀ f ∈ allFactors tls, ∀ uid, ∃ fi, factorInfo eval types.1 types.2 uid f = .ok fi := by
    intro f hf uid
    cases hn : dictGet types.1 f with
    | some n => exact ⟨_, by rw [factorInfo, hn]⟩
    | none =>
      obtain ⟨lc, h1, _⟩ := coder_tellable (hfac f hf) hn
      exact ⟨_, by rw [factorInfo, hn, h1]⟩
  obtain ⟨infos, hi⟩ := mapM_total (l := (P.visit (allFactors tls)).zipIdx) (f := fun fi => do
      let info ← factorInfo eval types.1 types.2 fi.2 fi.1
      pure (fi.1, info)) fun q hq => by
    have hm : q.1 ∈ allFactors tls := (hv _).mem_iff.mp (List.fst_mem_of_mem_zipIdx hq)
    obtain ⟨fi, hfi⟩ := hinfo q.1 hm q.2
    exact ⟨(q.1, fi), by rw [hfi]; rfl⟩
  have hget : ∀ f ∈ allFactors tls, ∃ fi uid, dictGet infos f = some fi ∧
      factorInfo eval types.1 types.2 uid f = .ok fi := by
    intro f hf
    have hall := mapM_ok.mp hi
    have hkey : f ∈ infos.map Prod.fst := by
      have hf' : f ∈ P.visit (allFactors tls) := (hv _).mem_iff.mpr hf
      obtain ⟨i, hi', rfl⟩ := List.getElem_of_mem hf'
      have hlen := hall.length_eq
      rw [List.length_zipIdx] at hlen
      have := hall.get (i := i) (by rw [List.length_zipIdx]; exact hi') (by omega)
      simp only [List.get_eq_getElem, bind_ok, pure_ok, List.getElem_zipIdx] at this
      obtain ⟨_, _, h2⟩ := this
      refine List.mem_map.mpr ⟨infos[i], List.getElem_mem _, ?_⟩
      rw [← h2]
    obtain ⟨fi, hfi⟩ := Option.isSome_iff_exists.mp (dictGet_isSome.mpr hkey)
    obtain ⟨i, hi', he'⟩ := List.getElem_of_mem (dictGet_mem hfi)
    have := hall.get (i := i) (by rw [hall.length_eq]; exact hi') hi'
    simp only [List.get_eq_getElem, bind_ok, pure_ok, he', Prod.mk.injEq] at this
    obtain ⟨info, h1, h2, rfl⟩ := this
    rw [h2] at h1
    exact ⟨info, _, hfi, h1⟩
  obtain ⟨dis, hd⟩ := mapM_total (l := tls)
      (f := makeDesign P.name P.hash types.1 (coderOf P.default types.2) infos) fun tl htl => by
    have hall : ∀ t ∈ tl, ∀ f ∈ t.factors, f ∈ allFactors tls := fun t ht f hf => allFactors_mem.mpr ⟨tl, htl, t, ht, hf⟩
    have hall' : ∀ f ∈ tl.flatMap (·.factors), f ∈ allFactors tls := fun f hf => by
      obtain ⟨t, ht, hf⟩ := List.mem_flatMap.mp hf
      exact hall t ht f hf
    refine design_accepted (hnd tl htl) (hdis tl htl) (hsep tl htl) ⟨?_, ?_⟩ (usual_readable
      (fun f hf => hname f (hall' f hf)) (fun f hf g hg => hinj f (hall' f hf) g (hall' g hg))
      (fun f hf g hg => hpoly f (hall' f hf) g (hall' g hg)) ?_)
    · intro t ht f hf n hn
      obtain ⟨fi, uid, h1, h2⟩ := hget f (hall t ht f hf)
      obtain ⟨_, h3, _, ⟨m, h4, h5, _⟩ | ⟨_, _, h4, _⟩⟩ := factorInfo_ok h2
      · simp only [typeOf, hn, Option.some.injEq, FactorType.numerical.injEq] at h4
        exact ⟨fi, h1, h3, by rw [h5, h4]⟩
      · simp [typeOf, hn] at h4
    · intro t ht f hf hn
      obtain ⟨fi, uid, h1, h2⟩ := hget f (hall t ht f hf)
      obtain ⟨lc, h6, h7⟩ := coder_tellable (hfac f (hall t ht f hf)) hn
      obtain ⟨_, h3, _, ⟨m, h4, _⟩ | ⟨levels, c, h4, h5, _⟩⟩ := factorInfo_ok h2
      · simp [typeOf, hn] at h4
      · simp only [typeOf, hn, h6, Option.map_some, Option.some.injEq, FactorType.categorical.injEq] at h4
        refine ⟨fi, _, h1, h3, h5, fun full => ?_⟩
        obtain ⟨cm, h8, h9, h10, _⟩ := h7 full
        exact ⟨cm, h8, by rw [h9, h4.1], h10⟩
    · intro f hf hn full cm hcm
      obtain ⟨_, _, h7⟩ := coder_tellable (hfac f (hall' f hf)) hn
      obtain ⟨cm', h8, _, _, h9⟩ := h7 full
      rw [hcm] at h8
      cases h8
      exact h9
  exact ⟨dis, by simp only [designMatrixBuilders, he, ht, ok_bind, hi, hd]⟩

/-! ### Examples -/

namespace NameSample

/-- The definitions for texts that can be looked through. -/
theorem balanced_of_inits {l : List Char} (h : nestingDepth l = 0 ∧ ∀ p ∈ l.inits, 0 ≤ nestingDepth p) : Balanced l :=
  ⟨h.1, fun p hp => h.2 p ((List.mem_inits _ _).mpr hp)⟩

theorem usual_of_inits {s : String} (h : (nestingDepth s.toList = 0 ∧ ∀ p ∈ s.toList.inits, 0 ≤ nestingDepth p) ∧
    (∀ p ∈ s.toList.inits, p.getLast? = some ':' → nestingDepth p.dropLast ≠ 0) ∧ s.toList.getLast? ≠ some ']' ∧
    s ≠ "Intercept") : UsualName s := by
  refine ⟨⟨balanced_of_inits h.1, fun p hp => ?_⟩, h.2.2.1, h.2.2.2⟩
  simpa using h.2.1 _ ((List.mem_inits _ _).mpr hp) (by simp)

/-- One numerical factor with two columns, and numerical factors with one column, for the witnesses. -/
def witness (nums : List (String × Nat)) (terms : List (Term String)) : Except Err (DesignInfo String Unit ℚ) :=
  makeDesign id (fun s => s) nums (fun _ _ => .error .keyError)
    (nums.map fun p => (p.1, ⟨0, p.1, .numerical p.2, fun _ _ => .error .keyError⟩)) terms

/-- One categorical factor `a`. -/
def leveled (contrast : Contrast.Spec ℚ) (levels : List PyVal) (terms : List (Term String)) :
    Except Err (DesignInfo String Unit ℚ) :=
  makeDesign id (fun s => s) [] (coderOf contrast [("a", levels, none)])
    [("a", ⟨0, "a", .categorical levels.length, fun _ _ => .error .keyError⟩)] terms

/-- What `str` makes of strings and of the number 1. -/
def text : PyVal → String
  | .str s => s
  | _ => "1"

def usualContrast : Contrast.Spec ℚ := .coding (dummyCode text) (treatment text none)

def helmertContrast : Contrast.Spec ℚ := .coding (helmertWith text) (helmertWithout text)

end NameSample

open NameSample in
/-- Usual names. -/
example : UsualName "x" ∧ UsualName "np.log(x + 1)" ∧ UsualName "C(a, levels=['u:v', 'w'])" ∧ UsualName "f(x[1:2])" :=
  ⟨usual_of_inits (by decide +kernel), usual_of_inits (by decide +kernel), usual_of_inits (by decide +kernel),
    usual_of_inits (by decide +kernel)⟩

open BuilderSample NameSample in
/-- Example for `builders_accepted`: `y ~ 1 + a + a:x` on two chunks of data. -/
example : ∃ dis, designMatrixBuilders setting chunks terms = .ok dis := by
  have h : isOk (examineTypes setting.na setting.order setting.visit (fun f d => do pure (← look f d).value) chunks
    (setting.visit (allFactors terms))) = true := by decide +kernel
  have hall : ∀ f ∈ allFactors terms, f = "y" ∨ f = "a" ∨ f = "x" := by decide
  refine builders_accepted visits (by decide) (by decide) rfl (getOk_eq h)
    (fun _ _ _ _ _ _ h => minusPiece_injective h) ?_ (fun _ _ _ _ h => h) ?_ ?_
  · intro f hf
    rcases hall f hf with rfl | rfl | rfl <;> exact usual_of_inits (by decide +kernel)
  · intro f hf g hg s hs h
    have h1 : f.toList.length = 1 := by rcases hall f hf with rfl | rfl | rfl <;> rfl
    have h2 : g.toList.length = 1 := by rcases hall g hg with rfl | rfl | rfl <;> rfl
    obtain ⟨c, t, h3, _⟩ := polySuffix_parts hs
    have := congrArg (fun s : String => s.toList.length) h
    simp only [String.toList_append, List.length_append, h3, List.length_cons] at this
    have h4 : (setting.name f).toList.length = 1 := h1
    have h5 : (setting.name g).toList.length = 1 := h2
    omega
  · intro f hf
    rcases hall f hf with rfl | rfl | rfl
    · exact trivial
    · suffices hs : ∀ l ∈ [PyVal.str "u", .str "v", .str "w"], Balanced (readable l).toList ∧ readable l ≠ "intercept" from
        ⟨_, builtin_suffixes (by decide) (fun l hl => (hs l hl).1) (by decide) (fun l hl => (hs l hl).2)
          (.treatment (reference := none) (r := 0) rfl (by decide)), .inr (.inr ⟨rfl, .inl rfl⟩)⟩
      intro l hl
      have : l = .str "u" ∨ l = .str "v" ∨ l = .str "w" := by
        have : l ∈ [PyVal.str "u", .str "v", .str "w"] := hl
        simpa using this
      rcases this with rfl | rfl | rfl <;> exact ⟨balanced_of_inits (by decide +kernel), by decide⟩
    · exact trivial

/-- Example: `Poly` with two levels is good, and its columns can be told apart. -/
example : GoodContrast (.coding (poly sampleQR none true) (poly sampleQR none false)) [.str "a", .str "b"] .none ∧
    TellableContrast [.str "a", .str "b"] (.coding (poly sampleQR none true) (poly sampleQR none false)) :=
  ⟨(poly_good (s := [0, 1]) (levels := [.str "a", .str "b"]) (scores := none) (default := .none) sampleQR_isQR
    (by simp [List.range_succ]) rfl (by simp) (by simp) rfl).2.2.1, poly_suffixes (by simp)⟩

open NameSample in
/-- The hypotheses on the names are needed.  These models are refused because of the names of their columns, though the
terms are different: `1 + Intercept` with a variable called `Intercept`, and `x + x[0]` with a two-column variable `x`. -/
theorem ambiguous_names :
    (witness [("Intercept", 1)] [⟨[]⟩, ⟨["Intercept"]⟩] matches .error .valueError) = true ∧
    (witness [("x", 2), ("x[0]", 1)] [⟨["x"]⟩, ⟨["x[0]"]⟩] matches .error .valueError) = true ∧
    isOk (witness [("Intercept", 1)] [⟨["Intercept"]⟩]) = true ∧
    isOk (witness [("x", 2), ("x0", 1)] [⟨["x"]⟩, ⟨["x0"]⟩]) = true := by
  decide +kernel

open NameSample in
/-- The hypotheses on the levels are needed: the number `1` and the string `'1'` have the same name; a level `intercept`
clashes with the first column of the Helmert coding.  Both factors are refused though they are fine as data. -/
theorem ambiguous_levels :
    (leveled usualContrast [.int 1, .str "1"] [⟨["a"]⟩] matches .error .valueError) = true ∧
    (leveled helmertContrast [.str "a", .str "intercept"] [⟨["a"]⟩] matches .error .valueError) = true ∧
    isOk (leveled helmertContrast [.str "a", .str "intercept"] [⟨[]⟩, ⟨["a"]⟩]) = true ∧
    isOk (leveled helmertContrast [.str "a", .str "other"] [⟨["a"]⟩]) = true := by
  decide +kernel

end Patsy.Props
