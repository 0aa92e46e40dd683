import Verif.Lemmas.Accept

/-!
# The names of the columns of a design are distinct
-/

namespace Patsy.Names

open Patsy.Spec Patsy.Build Patsy.Desc Patsy.Redundancy Patsy.Props Patsy.Rank

variable {F D K : Type} [DecidableEq F]

/-- The coding of a factor that takes part with full rank. -/
def isFull (coding : F → Option Bool) (f : F) : Bool := (coding f).getD false

/-- The contrast matrix, if there is one. -/
def coded (coder : F → Bool → Except Err (ContrastMatrix K)) (full : Bool) (f : F) : ContrastMatrix K :=
  match coder f full with
  | .ok cm => cm
  | .error _ => ⟨[], 0, []⟩

theorem coded_ok {coder : F → Bool → Except Err (ContrastMatrix K)} {full : Bool} {f : F}
    (h : ∃ cm, coder f full = .ok cm) : coder f full = .ok (coded coder full f) := by
  obtain ⟨cm, h⟩ := h
  simp [coded, h]

theorem pieceNames_labels {name : F → String} {fis : List (F × FactorInfo F D K)} {cms : List (F × ContrastMatrix K)}
    {R : F → Nat → String → Prop} {fs : List F} {js : List Nat} {ps : List String}
    (hj : Choice (fs.map (widthOf fis cms)) js)
    (hR : ∀ f ∈ fs, ∀ j, j < widthOf fis cms f → ∀ s, pieceName name fis cms f j = some s → R f j s)
    (h : pieceNames name fis cms fs js = some ps) : List.Forall₂ (fun q s => R q.1 q.2 s) (fs.zip js) ps := by
  induction fs generalizing js ps with
  | nil =>
    simp only [pieceNames, Option.some.injEq] at h
    subst h
    simp
  | cons f fs ih =>
    cases js with
    | nil => simp [Choice] at hj
    | cons j js =>
      simp only [List.map_cons, Choice] at hj
      simp only [pieceNames, Option.bind_eq_some_iff, Option.map_eq_some_iff] at h
      obtain ⟨p, h1, qs, h2, rfl⟩ := h
      exact .cons (hR f (by simp) j hj.1 p h1) (ih hj.2 (fun g hg => hR g (List.mem_cons_of_mem _ hg)) h2)

/-- The name of a column, in terms of the labels. -/
theorem piece_names {name : F → String} {nums : List (F × Nat)} {coder : F → Bool → Except Err (ContrastMatrix K)}
    {fis : List (F × FactorInfo F D K)} {ts : List (Term F)} (hs : KnownFactors nums coder fis ts) {t : Term F} (ht : t ∈ ts)
    (hnd : t.factors.Nodup) {coding : F → Option Bool} {st : SubtermInfo F K} (hr : Realizes nums coder t coding st)
    (hm : Mentions nums t coding) (hc : checkSubterm fis st = .ok ())
    (hsuf : ∀ p ∈ st.contrasts, p.2.suffixes.length = p.2.ncols) :
    ∃ names, subtermColumnNames name fis st = .ok names ∧ names.length = st.numColumns ∧
      ∀ i, i < st.numColumns → ∃ ps, names[i]? = some (if st.factors = [] then "Intercept" else ":".intercalate ps) ∧
        List.Forall₂ (fun q s => Label name nums coder q.1 (isFull coding q.1) q.2 s)
          (st.factors.zip (digits (widths fis st) i)) ps := by
  obtain ⟨names, h1, h2, h3, h4⟩ := interaction_names name hc hsuf
  have hcode : ∀ f ∈ t.factors, dictGet nums f = none → coder f false = .ok (coded coder false f) ∧
      coder f true = .ok (coded coder true f) := by
    intro f hf hn
    obtain ⟨_, _, _, _, _, h⟩ := hs.categorical t ht f hf hn
    exact ⟨coded_ok (by obtain ⟨cm, h, _⟩ := h false; exact ⟨cm, h⟩),
      coded_ok (by obtain ⟨cm, h, _⟩ := h true; exact ⟨cm, h⟩)⟩
  obtain ⟨_, h5, h6⟩ := realizes_facts hnd hr hm hcode
  refine ⟨names, h1, h2, fun i hi => ?_⟩
  have hp := (checkSubterm_good hc).2.1
  have hcho := choice_digits (ns := widths fis st) (i := i) (by rw [hp]; exact hi)
  obtain ⟨ps, h7, _, h8⟩ := h4 _ hcho
  rw [place_digits (by rw [hp]; exact hi)] at h8
  refine ⟨ps, h8, pieceNames_labels hcho (R := fun f j s => Label name nums coder f (isFull coding f) j s) ?_ h7⟩
  intro f hf j hj s hps
  obtain ⟨hft, hor⟩ := (h5 f).mp hf
  cases hn : dictGet nums f with
  | some n =>
    have hnone : coding f = none := by
      by_contra hne
      rw [(hm f hne).2] at hn
      cases hn
    obtain ⟨fi, hfi, _, hty⟩ := hs.numerical t ht f hft n hn
    obtain ⟨u, g, ty, ev⟩ := fi
    simp only at hty
    subst hty
    simp only [widthOf, h6, hnone, Option.map_none, hfi] at hj
    simp only [pieceName, hfi, h6, hnone, Option.map_none, Option.some.injEq] at hps
    subst hps
    split
    · exact .multi hn (by assumption) hj
    · obtain rfl : n = 1 := by omega
      obtain rfl : j = 0 := by omega
      exact .single hn
  | none =>
    have hne := hor.resolve_left (by simp [hn])
    obtain ⟨b, hb⟩ := Option.ne_none_iff_exists'.mp hne
    obtain ⟨fi, k, hfi, _, _, _⟩ := hs.categorical t ht f hft hn
    simp only [pieceName, hfi, h6, hb, Option.map_some, Option.map_eq_some_iff] at hps
    obtain ⟨sfx, hsfx, rfl⟩ := hps
    have hfull : isFull coding f = b := by simp [isFull, hb]
    rw [hfull]
    refine .level hn (cm := if b then coded coder true f else coded coder false f) ?_ hsfx
    cases b
    · exact (hcode f hft hn).1
    · exact (hcode f hft hn).2

/-! ### Reading the names -/

/-- The labels of a column are read off its name. -/
theorem labels_of_name {name : F → String} {nums : List (F × Nat)} {coder : F → Bool → Except Err (ContrastMatrix K)}
    {all : List F} (hread : Readable name nums coder all) {b b' : F → Bool} {q q' : List (F × Nat)} {ps ps' : List String}
    (hq : ∀ p ∈ q, p.1 ∈ all) (hq' : ∀ p ∈ q', p.1 ∈ all)
    (h : List.Forall₂ (fun q s => Label name nums coder q.1 (b q.1) q.2 s) q ps)
    (h' : List.Forall₂ (fun q s => Label name nums coder q.1 (b' q.1) q.2 s) q' ps')
    (he : (if q = [] then "Intercept" else ":".intercalate ps) = if q' = [] then "Intercept" else ":".intercalate ps') :
    ps = ps' := by
  have hcl : ∀ {b : F → Bool} {q : List (F × Nat)} {ps : List String}, (∀ p ∈ q, p.1 ∈ all) →
      List.Forall₂ (fun q s => Label name nums coder q.1 (b q.1) q.2 s) q ps → ∀ s ∈ ps, Closed s ∧ s ≠ "Intercept" := by
    intro b q ps hq h s hs
    obtain ⟨i, hi, rfl⟩ := List.getElem_of_mem hs
    have hi' : i < q.length := by rw [h.length_eq]; exact hi
    have := h.get hi' hi
    simp only [List.get_eq_getElem] at this
    have hm := hq _ (List.getElem_mem hi')
    refine ⟨hread.closedLabel _ hm _ _ _ this, fun he => ?_⟩
    rw [he] at this
    exact (hread.intercept _ hm).2 _ _ this
  have hnil : ∀ {b : F → Bool} {q : List (F × Nat)} {ps : List String}, (∀ p ∈ q, p.1 ∈ all) →
      List.Forall₂ (fun q s => Label name nums coder q.1 (b q.1) q.2 s) q ps → q ≠ [] →
      ":".intercalate ps ≠ "Intercept" := by
    intro b q ps hq h hne he
    have hps : ps ≠ [] := by rintro rfl; cases h; exact hne rfl
    have := join_inj (l := ps) (m := ["Intercept"]) (fun s hs => (hcl hq h s hs).1)
      (by intro s hs; simp only [List.mem_singleton] at hs; subst hs; exact closed_intercept) hps (by simp)
      (by rw [he, String.intercalate_singleton])
    subst this
    exact (hcl hq h "Intercept" (by simp)).2 rfl
  by_cases h1 : q = []
  · by_cases h2 : q' = []
    · subst h1 h2
      cases h
      cases h'
      rfl
    · rw [if_pos h1, if_neg h2] at he
      exact absurd he.symm (hnil hq' h' h2)
  · by_cases h2 : q' = []
    · rw [if_neg h1, if_pos h2] at he
      exact absurd he (hnil hq h h1)
    · rw [if_neg h1, if_neg h2] at he
      refine join_inj (fun s hs => (hcl hq h s hs).1) (fun s hs => (hcl hq' h' s hs).1) ?_ ?_ he
      · rintro rfl; cases h; exact h1 rfl
      · rintro rfl; cases h'; exact h2 rfl

/-- The factors, and the columns of the factors, are read off the labels. -/
theorem factors_of_labels {name : F → String} {nums : List (F × Nat)} {coder : F → Bool → Except Err (ContrastMatrix K)}
    {all : List F} (hread : Readable name nums coder all) {b b' : F → Bool} {q q' : List (F × Nat)} {ps : List String}
    (hq : ∀ p ∈ q, p.1 ∈ all) (hq' : ∀ p ∈ q', p.1 ∈ all)
    (h : List.Forall₂ (fun q s => Label name nums coder q.1 (b q.1) q.2 s) q ps)
    (h' : List.Forall₂ (fun q s => Label name nums coder q.1 (b' q.1) q.2 s) q' ps) :
    q.map Prod.fst = q'.map Prod.fst ∧ ((∀ f, b f = b' f) → q = q') := by
  induction h generalizing q' with
  | nil => cases h'; simp
  | @cons p s q ps h1 h2 ih =>
    cases h' with
    | @cons p' _ q' _ h3 h4 =>
      obtain ⟨h5, h6⟩ := hread.apart _ (hq p (by simp)) _ (hq' p' (by simp)) _ _ _ _ _ h1 h3
      obtain ⟨h7, h8⟩ := ih (fun r hr => hq r (List.mem_cons_of_mem _ hr)) (fun r hr => hq' r (List.mem_cons_of_mem _ hr)) h4
      refine ⟨by rw [List.map_cons, List.map_cons, h5, h7], fun hb => ?_⟩
      rw [h8 hb]
      congr 1
      exact Prod.ext h5 (h6 (by rw [h5]; exact hb _))

/-- The name of a term, in terms of the labels that its factors would have. -/
theorem termName_eq (name : F → String) (t : Term F) :
    termName name t = if t.factors = [] then "Intercept" else ":".intercalate (t.factors.map name) := by
  simp [termName, List.isEmpty_iff]

theorem termName_inj {name : F → String} {nums : List (F × Nat)} {coder : F → Bool → Except Err (ContrastMatrix K)}
    {all : List F} (hread : Readable name nums coder all) {s t : Term F} (hs : ∀ f ∈ s.factors, f ∈ all)
    (ht : ∀ f ∈ t.factors, f ∈ all) (h : termName name s = termName name t) : s.factors = t.factors := by
  rw [termName_eq, termName_eq] at h
  have hcl : ∀ {t : Term F}, (∀ f ∈ t.factors, f ∈ all) → ∀ x ∈ t.factors.map name, Closed x ∧ x ≠ "Intercept" := by
    intro t ht x hx
    obtain ⟨f, hf, rfl⟩ := List.mem_map.mp hx
    exact ⟨hread.closed f (ht f hf), (hread.intercept f (ht f hf)).1⟩
  have hnil : ∀ {t : Term F}, (∀ f ∈ t.factors, f ∈ all) → t.factors ≠ [] →
      ":".intercalate (t.factors.map name) ≠ "Intercept" := by
    intro t ht hne he
    have := join_inj (l := t.factors.map name) (m := ["Intercept"]) (fun s hs => (hcl ht s hs).1)
      (by intro s hs; simp only [List.mem_singleton] at hs; subst hs; exact closed_intercept) (by simpa using hne) (by simp)
      (by rw [he, String.intercalate_singleton])
    exact (hcl ht "Intercept" (by rw [this]; simp)).2 rfl
  by_cases h1 : s.factors = []
  · by_cases h2 : t.factors = []
    · rw [h1, h2]
    · rw [if_pos h1, if_neg h2] at h
      exact absurd h.symm (hnil ht h2)
  · by_cases h2 : t.factors = []
    · rw [if_neg h1, if_pos h2] at h
      exact absurd h (hnil hs h1)
    · rw [if_neg h1, if_neg h2] at h
      have := join_inj (fun x hx => (hcl hs x hx).1) (fun x hx => (hcl ht x hx).1) (by simpa using h1) (by simpa using h2) h
      generalize s.factors = l at *
      generalize t.factors = m at *
      clear hcl hnil h1 h2 h
      induction l generalizing m with
      | nil => simpa using this.symm
      | cons f l ih =>
        cases m with
        | nil => simp at this
        | cons g m =>
          simp only [List.map_cons, List.cons.injEq] at this
          rw [hread.names f (hs f (by simp)) g (ht g (by simp)) this.1,
            ih (fun f hf => hs f (List.mem_cons_of_mem _ hf)) m (fun f hf => ht f (List.mem_cons_of_mem _ hf)) this.2]

theorem label_single {name : F → String} {nums : List (F × Nat)} {coder : F → Bool → Except Err (ContrastMatrix K)}
    {f : F} {b : Bool} {j : Nat} {s : String} (h1 : dictGet nums f = some 1) (h : Label name nums coder f b j s) :
    s = name f := by
  cases h with
  | single _ => rfl
  | multi h3 h4 _ =>
    rw [h1] at h3
    cases h3
    omega
  | level h3 _ _ =>
    rw [h1] at h3
    cases h3

/-- A column that is named like a term belongs to numerical factors with one column. -/
theorem column_named_like_term {name : F → String} {nums : List (F × Nat)}
    {coder : F → Bool → Except Err (ContrastMatrix K)} {all : List F} (hread : Readable name nums coder all)
    {b : F → Bool} {q : List (F × Nat)} {ps : List String} (hq : ∀ p ∈ q, p.1 ∈ all)
    (h : List.Forall₂ (fun q s => Label name nums coder q.1 (b q.1) q.2 s) q ps)
    {t : Term F} (ht : ∀ f ∈ t.factors, f ∈ all)
    (he : (if q = [] then "Intercept" else ":".intercalate ps) = termName name t) :
    ∀ f ∈ t.factors, dictGet nums f = some 1 := by
  rw [termName_eq] at he
  have hcl : ∀ s ∈ ps, Closed s ∧ s ≠ "Intercept" := by
    intro s hs
    obtain ⟨i, hi, rfl⟩ := List.getElem_of_mem hs
    have hi' : i < q.length := by rw [h.length_eq]; exact hi
    have := h.get hi' hi
    simp only [List.get_eq_getElem] at this
    have hm := hq _ (List.getElem_mem hi')
    refine ⟨hread.closedLabel _ hm _ _ _ this, fun he => ?_⟩
    rw [he] at this
    exact (hread.intercept _ hm).2 _ _ this
  have hcl' : ∀ x ∈ t.factors.map name, Closed x ∧ x ≠ "Intercept" := by
    intro x hx
    obtain ⟨f, hf, rfl⟩ := List.mem_map.mp hx
    exact ⟨hread.closed f (ht f hf), (hread.intercept f (ht f hf)).1⟩
  by_cases h2 : t.factors = []
  · simp [h2]
  rw [if_neg h2] at he
  by_cases h1 : q = []
  · rw [if_pos h1] at he
    have := join_inj (l := t.factors.map name) (m := ["Intercept"]) (fun s hs => (hcl' s hs).1)
      (by intro s hs; simp only [List.mem_singleton] at hs; subst hs; exact closed_intercept) (by simpa using h2) (by simp)
      (by rw [← he, String.intercalate_singleton])
    exact absurd rfl (hcl' "Intercept" (by rw [this]; simp)).2
  · rw [if_neg h1] at he
    have hps : ps ≠ [] := by rintro rfl; cases h; exact h1 rfl
    have := join_inj (fun s hs => (hcl s hs).1) (fun x hx => (hcl' x hx).1) hps (by simpa using h2) he
    subst this
    rw [List.forall₂_map_right_iff] at h
    intro f hf
    obtain ⟨i, hi, rfl⟩ := List.getElem_of_mem hf
    have hi' : i < q.length := by rw [h.length_eq]; exact hi
    have hl := h.get hi' hi
    simp only [List.get_eq_getElem] at hl
    have hone := hread.bare _ (hq _ (List.getElem_mem hi')) _ (ht _ (List.getElem_mem hi)) _ _ hl
    rw [hread.names _ (ht _ (List.getElem_mem hi)) _ (hq _ (List.getElem_mem hi')) (label_single hone hl)]
    exact hone

end Patsy.Names
