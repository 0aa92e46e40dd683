import Verif.Lemmas.ChunkedDesign

/-!
# Designs from data in chunks: matrices
-/

set_option linter.unusedSectionVars false

namespace Patsy.Spec

open Patsy.Build Patsy.Desc Patsy.Cat

variable {F D K A B X Y Z E : Type} [DecidableEq F]

/-! ### Lists -/

theorem forall₂_of_exists {R : X → Y → Prop} {l : List X} (h : ∀ x ∈ l, ∃ y, R x y) : ∃ m, List.Forall₂ R l m := by
  induction l with
  | nil => exact ⟨[], .nil⟩
  | cons x l ih =>
    obtain ⟨m, hm⟩ := ih fun x hx => h x (by simp [hx])
    obtain ⟨y, hy⟩ := h x (by simp)
    exact ⟨y :: m, .cons hy hm⟩

theorem zipped_of_exists {R : X → Y → Prop} {l : List X} (h : ∀ x ∈ l, ∃ y, R x y) :
    ∃ es : List (X × Y), es.map Prod.fst = l ∧ ∀ e ∈ es, R e.1 e.2 := by
  induction l with
  | nil => exact ⟨[], rfl, by simp⟩
  | cons x l ih =>
    obtain ⟨es, h1, h2⟩ := ih fun x hx => h x (by simp [hx])
    obtain ⟨y, hy⟩ := h x (by simp)
    refine ⟨(x, y) :: es, by simp [h1], ?_⟩
    intro e he
    rcases List.mem_cons.mp he with rfl | he
    · exact hy
    · exact h2 e he

theorem map_of_forall₂ {f : X → Z} {g : Y → Z} {l : List X} {m : List Y} (h : List.Forall₂ (fun a b => g b = f a) l m) :
    m.map g = l.map f := by
  induction h with
  | nil => rfl
  | cons h1 _ ih => simp only [List.map_cons, h1, ih]

/-- What holds entry by entry for each of the chunks. -/
theorem transpose {es : List E} {R : E → X → Y → Prop} {S : X → Z → Prop} {T : List Y → Z → Prop} :
    ∀ {xs : List X} {ys : E → List Y}, (∀ e ∈ es, List.Forall₂ (R e) xs (ys e)) →
    (∀ x ∈ xs, ∀ g, List.Forall₂ (fun e y => R e x y) es g → ∃ z, S x z ∧ T g z) →
    ∃ zs, List.Forall₂ S xs zs ∧ ∀ (j : Nat) z, zs[j]? = some z → ∃ g : List Y, es.map (fun e => (ys e)[j]?) = g.map some ∧ T g z := by
  intro xs
  induction xs with
  | nil => intro ys _ _; exact ⟨[], .nil, by simp⟩
  | cons x xs ih =>
    intro ys h hstep
    obtain ⟨g, hg⟩ : ∃ g, List.Forall₂ (fun e y => R e x y ∧ (ys e)[0]? = some y) es g := by
      refine forall₂_of_exists fun e he => ?_
      have := h e he
      generalize ys e = m at this
      cases this with
      | cons h1 _ => exact ⟨_, h1, rfl⟩
    obtain ⟨z, h1, h2⟩ := hstep x (by simp) g (hg.imp fun _ _ h => h.1)
    obtain ⟨zs, h3, h4⟩ := ih (ys := fun e => (ys e).tail) (fun e he => by
      have := h e he
      generalize ys e = m at this
      cases this with
      | cons _ h2 => exact h2) (fun x hx => hstep x (by simp [hx]))
    refine ⟨z :: zs, .cons h1 h3, fun j w hj => ?_⟩
    cases j with
    | zero =>
      simp only [List.getElem?_cons_zero, Option.some.injEq] at hj
      subst hj
      refine ⟨g, ?_, h2⟩
      clear h h2 hstep h4 ih
      induction hg with
      | nil => rfl
      | cons h1 _ ih => simp only [List.map_cons, h1.2, ih]
    | succ j =>
      obtain ⟨g', h5, h6⟩ := h4 j w (by simpa using hj)
      refine ⟨g', ?_, h6⟩
      rw [← h5]
      refine List.map_congr_left fun e _ => ?_
      simp

theorem pairs_ext {l m : List (X × (Y → Z))} (h1 : l.map Prod.fst = m.map Prod.fst)
    (h2 : ∀ y, l.map (fun p => p.2 y) = m.map fun p => p.2 y) : l = m := by
  have hlen : l.length = m.length := by simpa using congrArg List.length h1
  refine List.ext_getElem hlen fun i hi hi' => ?_
  refine Prod.ext ?_ ?_
  · have := congrArg (fun L => L[i]?) h1
    simpa [hi, hi'] using this
  · funext y
    have := congrArg (fun L => L[i]?) (h2 y)
    simpa [hi, hi'] using this

/-! ### Rows -/

open Classical in
/-- The rows: a label for each, and the values of the factors. -/
noncomputable def labelled (fis : List (FactorInfo F D K)) (V : FactorInfo F D K → Value K) (lab : Nat → X) (n : Nat) :
    List (X × (FactorInfo F D K → Option (Cell K))) :=
  (List.range n).map fun r => (lab r, fun fi => if fi ∈ fis then cellOf (V fi) r else none)

/-- The cells of a value. -/
def cellsOf (v : Value K) : List (Option (Cell K)) := (List.range v.nrows).map (cellOf v)

theorem cellsOf_num (m : Nat) (rows : List (List K)) : cellsOf (.num m rows) = rows.map fun r => some (.num r) := by
  refine List.ext_getElem (by simp [cellsOf, Value.nrows]) fun i h1 h2 => ?_
  simp only [List.length_map] at h2
  simp [cellsOf, cellOf, h2]

theorem cellsOf_cat (codes : List Int) : cellsOf (.cat codes : Value K) = codes.map fun c => some (.code c) := by
  refine List.ext_getElem (by simp [cellsOf, Value.nrows]) fun i h1 h2 => ?_
  simp only [List.length_map] at h2
  simp [cellsOf, cellOf, h2]

theorem joinedVal_cells {vs : List (Value K)} {v : Value K} (h : JoinedVal vs v) : cellsOf v = (vs.map cellsOf).flatten := by
  match v, h with
  | .num m rows, ⟨rs, e1, e2⟩ =>
    rw [e1, e2, cellsOf_num, List.map_map, List.map_flatten]
    congr 1
    exact List.map_congr_left fun l _ => (cellsOf_num m l).symm
  | .cat codes, ⟨cs, e1, e2⟩ =>
    rw [e1, e2, cellsOf_cat, List.map_map, List.map_flatten]
    congr 1
    exact List.map_congr_left fun l _ => (cellsOf_cat l).symm

theorem joinedVal_nrows {vs : List (Value K)} {v : Value K} (h : JoinedVal vs v) : v.nrows = (vs.map (·.nrows)).sum := by
  have := congrArg List.length (joinedVal_cells h)
  simpa [cellsOf, List.length_flatten, List.map_map, Function.comp_def] using this

theorem joinedVal_kind {T : FType} {vs : List (Value K)} {v w : Value K} (h : JoinedVal vs v) (hw : w ∈ vs) (hk : kindOK T w) :
    kindOK T v := by
  match v, h with
  | .num m rows, ⟨rs, e1, e2⟩ =>
    rw [e1] at hw
    obtain ⟨r, _, rfl⟩ := List.mem_map.mp hw
    cases T with
    | numerical k => exact hk
    | categorical k => exact hk
  | .cat codes, ⟨cs, e1, e2⟩ =>
    rw [e1] at hw
    obtain ⟨r, _, rfl⟩ := List.mem_map.mp hw
    cases T with
    | numerical k => exact hk
    | categorical k => trivial

/-- The rows of the whole data are those of the chunks. -/
theorem labelled_joined {fis : List (FactorInfo F D K)} {es : List E} {V : E → FactorInfo F D K → Value K} {n : E → Nat}
    {lab : E → Nat → X} {V' : FactorInfo F D K → Value K} {N : Nat} {lab' : Nat → X}
    (hV : ∀ fi ∈ fis, JoinedVal (es.map (V · fi)) (V' fi)) (hn : ∀ e ∈ es, ∀ fi ∈ fis, (V e fi).nrows = n e)
    (hN : N = (es.map n).sum) (hl : (List.range N).map lab' = (es.map fun e => (List.range (n e)).map (lab e)).flatten) :
    labelled fis V' lab' N = (es.map fun e => labelled fis (V e) (lab e) (n e)).flatten := by
  refine pairs_ext ?_ fun fi => ?_
  · simp only [labelled, List.map_map, List.map_flatten, Function.comp_def]
    exact hl
  · by_cases hfi : fi ∈ fis
    · have h1 := joinedVal_cells (hV fi hfi)
      have h2 : (V' fi).nrows = N := by
        rw [joinedVal_nrows (hV fi hfi), hN, List.map_map]
        congr 1
        exact List.map_congr_left fun e he => hn e he fi hfi
      simp only [cellsOf, h2] at h1
      simp only [labelled, List.map_map, List.map_flatten, Function.comp_def, if_pos hfi]
      rw [h1, List.map_map]
      congr 1
      refine List.map_congr_left fun e he => ?_
      simp only [Function.comp, cellsOf, hn e he fi hfi]
    · simp only [labelled, List.map_map, List.map_flatten, Function.comp_def, if_neg hfi, List.map_const']
      rw [List.length_range]
      have : (es.map fun e => List.replicate (List.range (n e)).length (none : Option (Cell K))).flatten =
          List.replicate N none := by
        rw [List.eq_replicate_iff]
        constructor
        · simp [List.length_flatten, List.map_map, Function.comp_def, hN]
        · intro x hx
          simp only [List.mem_flatten, List.mem_map] at hx
          obtain ⟨l, ⟨e, _, rfl⟩, hx⟩ := hx
          exact List.eq_of_mem_replicate hx
      rw [this]

/-- Is a row with these values complete? -/
def keep (na : NAAction) (isnan : K → Bool) (fis : List (FactorInfo F D K)) (ρ : FactorInfo F D K → Option (Cell K)) : Bool :=
  fis.all fun fi => (ρ fi).all fun c => !cellMissing na isnan c

theorem keep_labelled {na : NAAction} {isnan : K → Bool} {fis : List (FactorInfo F D K)} {V : FactorInfo F D K → Value K}
    {r : Nat} [∀ fi, Decidable (fi ∈ fis)] : keep na isnan fis (fun fi => if fi ∈ fis then cellOf (V fi) r else none) =
      complete na isnan fis V r := by
  unfold keep complete
  rw [Bool.eq_iff_iff, List.all_eq_true, List.all_eq_true]
  refine forall₂_congr fun fi hfi => ?_
  simp only [if_pos hfi]

theorem complete_labelled {na : NAAction} {isnan : K → Bool} {fis : List (FactorInfo F D K)} {V : FactorInfo F D K → Value K}
    {lab : Nat → X} {n : Nat} (g : X × (FactorInfo F D K → Option (Cell K)) → Y) (h : Nat → Y)
    (hg : ∀ r, [∀ fi, Decidable (fi ∈ fis)] → g (lab r, fun fi => if fi ∈ fis then cellOf (V fi) r else none) = h r) :
    (completeRows na isnan fis V n).map h = ((labelled fis V lab n).filter fun p => keep na isnan fis p.2).map g := by
  classical
  simp only [completeRows, labelled, List.filter_map, List.map_map]
  have : (fun p : X × (FactorInfo F D K → Option (Cell K)) => keep na isnan fis p.2) ∘
      (fun r => (lab r, fun fi => if fi ∈ fis then cellOf (V fi) r else none)) = complete na isnan fis V := by
    funext r
    exact keep_labelled
  rw [this]
  exact List.map_congr_left fun r _ => (hg r).symm

theorem all_complete_labelled {na : NAAction} {isnan : K → Bool} {fis : List (FactorInfo F D K)} {V : FactorInfo F D K → Value K}
    {n : Nat} : completeRows na isnan fis V n = List.range n ↔
      ∀ p ∈ labelled fis V (fun _ => ()) n, keep na isnan fis p.2 = true := by
  classical
  rw [completeRows, List.filter_eq_self]
  simp only [labelled, List.mem_map]
  constructor
  · rintro h _ ⟨r, hr, rfl⟩
    rw [keep_labelled]
    exact h r hr
  · intro h r hr
    rw [← keep_labelled]
    exact h _ ⟨r, hr, rfl⟩

/-! ### Matrices -/

variable [Mul K] [One K]

/-- The matrices of the whole data are those of the chunks, one above the other. -/
theorem areMatrices_joined {cs : List (Coding F D K)} {es : List E} {V : E → FactorInfo F D K → Value K} {kept : E → List Nat}
    {mats : E → List (Mat K)} {V' : FactorInfo F D K → Value K} {kept' : List Nat} (h : ∀ e ∈ es, AreMatrices cs (V e) (kept e) (mats e))
    (hlen : kept'.length = (es.map fun e => (kept e).length).sum)
    (hrows : ∀ c ∈ cs, kept'.map (designCells c V') = (es.map fun e => (kept e).map (designCells c (V e))).flatten) :
    ∃ mats', AreMatrices cs V' kept' mats' ∧ ∀ (j : Nat) m, mats'[j]? = some m →
      ∃ ms : List (Mat K), es.map (fun e => (mats e)[j]?) = ms.map some ∧ Stacked ms m := by
  unfold AreMatrices at h ⊢
  refine transpose h fun c hc ms hms => ?_
  obtain ⟨cols, h1, h2⟩ := transpose (es := es.zip ms) (xs := columnsOf c) (ys := fun p => p.2.cols)
    (R := fun p col vals => ((kept p.1).map (designCells c (V p.1))).mapM (fun cells => columnEntry c cells col) = some vals)
    (S := fun col vals => (kept'.map (designCells c V')).mapM (fun cells => columnEntry c cells col) = some vals)
    (T := fun g z => z = g.flatten) (fun p hp => by
      have := List.forall₂_iff_zip.mp hms |>.2 hp
      exact this.2) (fun col _ g hg => by
      refine ⟨g.flatten, ?_, rfl⟩
      rw [hrows c hc]
      refine mapM_some_flatten ?_
      have hl := hms.length_eq
      rw [List.forall₂_map_left_iff]
      have : es = (es.zip ms).map Prod.fst := by rw [List.map_fst_zip hl.le]
      rw [this, List.forall₂_map_left_iff]
      exact hg)
  have hl := hms.length_eq
  refine ⟨⟨kept'.length, cols⟩, ⟨rfl, h1⟩, ?_, ?_, ?_⟩
  · show kept'.length = _
    rw [hlen]
    congr 1
    clear h1 h2 hlen hrows h hl
    induction hms with
    | nil => rfl
    | cons h1 _ ih => simp only [List.map_cons, h1.1, ih]
  · intro m hm
    obtain ⟨i, hi, rfl⟩ := List.getElem_of_mem hm
    have := List.Forall₂.get hms (i := i) (by omega) hi
    have h3 := this.2.length_eq
    have h4 := h1.length_eq
    simp only [List.get_eq_getElem] at h3
    show _ = cols.length
    omega
  · intro j z hz
    obtain ⟨g, h3, h4⟩ := h2 j z hz
    refine ⟨g, ?_, h4⟩
    rw [← h3]
    have : ms = (es.zip ms).map Prod.snd := by rw [List.map_snd_zip hl.ge]
    conv_lhs => rw [this, List.map_map]
    rfl

theorem joinedLabels_some {parts : List (Option (List Build.Label))} {l : List Build.Label} (h : JoinedLabels parts (some l))
    {idx : List (List Build.Label)} (hi : List.Forall₂ (fun p i => ∀ l, p = some l → l = i) parts idx) : l = idx.flatten := by
  obtain ⟨ls, e1, e2⟩ := h
  rw [e2]
  congr 1
  rw [e1, List.forall₂_map_left_iff] at hi
  have : List.Forall₂ Eq ls idx := hi.imp fun a b h => h a rfl
  exact (List.forall₂_eq_eq_eq ▸ this)

/-- `build_design_matrices` on the whole data. -/
theorem build_joined {isnan : K → Bool} {na : NAAction} {frame : Bool} {dataIndex : Option (List Build.Label)}
    {dis : List (DesignInfo F D K)} {whole : D} {cs : List (Coding F D K)} (hne : dis ≠ [])
    (hdis : List.Forall₂ IsDesign dis cs) (hid : SameIdentity (Spec.factorsOf cs))
    (hfit : ∀ d, IndexFits na.types (Spec.factorsOf cs) d) {parts : List (Part D K)} (hparts : parts ≠ [])
    (hdi : JoinedLabels (parts.map (·.index)) dataIndex)
    (hmove : ∀ fi ∈ Spec.factorsOf cs, ∀ vis, (parts.map (·.data)).mapM (fi.eval na.types) = .ok vis →
      ∃ v i, fi.eval na.types whole = .ok (v, i) ∧ JoinedVal (vis.map Prod.fst) v ∧ JoinedLabels (vis.map Prod.snd) i)
    (h : ∀ p ∈ parts, buildDesignMatrices isnan na frame p.index dis p.data = .ok p.built) :
    ∃ b, buildDesignMatrices isnan na frame dataIndex dis whole = .ok b ∧
      (∀ (j : Nat) m, b.mats[j]? = some m → ∃ ms : List (Mat K), parts.map (fun p => p.built.mats[j]?) = ms.map some ∧ Stacked ms m) ∧
      (frame = false → b.index = none) ∧
      (frame = true → (dataIndex ≠ none ∨ ∃ fi ∈ Spec.factorsOf cs, ∃ v l, fi.eval na.types whole = .ok (v, some l)) →
        ∃ ls : List (List Build.Label), parts.map (·.built.index) = ls.map some ∧ b.index = some ls.flatten) := by
  generalize hfs : Spec.factorsOf cs = fis at hid hfit hmove ⊢
  -- the chunks
  obtain ⟨es, hes, hE⟩ := zipped_of_exists (l := parts)
    (R := fun (p : Part D K) (e : (FactorInfo F D K → Value K) × Nat × List Build.Label) =>
      Evaluation na.types fis p.index p.data e.1 e.2.1 e.2.2 ∧
      (na.onNA = .raise → completeRows na isnan fis e.1 e.2.1 = List.range e.2.1) ∧
      AreMatrices cs e.1 (completeRows na isnan fis e.1 e.2.1) p.built.mats ∧
      p.built.index = if frame then some ((completeRows na isnan fis e.1 e.2.1).filterMap fun r => e.2.2[r]?) else none)
    (fun p hp => by
      have := h p hp
      rw [Props.build_keeps_complete_rows hne hdis (hfs ▸ hid) (hfs ▸ hfit p.data)] at this
      obtain ⟨V, n, idx, h1, h2, h3, h4⟩ := this
      rw [hfs] at h1 h2 h3 h4
      exact ⟨(V, n, idx), h1, h2, h3, h4⟩)
  subst hes
  have hes_ne : es ≠ [] := by
    rintro rfl
    exact hparts rfl
  obtain ⟨e0, he0⟩ := List.exists_mem_of_ne_nil es hes_ne
  -- the values
  have hvals : ∀ fi ∈ fis, ∃ (v : Value K) (i : Option (List Build.Label)), fi.eval na.types whole = .ok (v, i) ∧
      JoinedVal (es.map (·.2.1 fi)) v ∧ ∀ l, i = some l → l = (es.map (·.2.2.2)).flatten := by
    intro fi hfi
    obtain ⟨vis, hvis⟩ : ∃ vis, List.Forall₂ (fun (e : Part D K × (FactorInfo F D K → Value K) × Nat × List Build.Label) vi =>
        fi.eval na.types e.1.data = .ok vi ∧ vi.1 = e.2.1 fi ∧ ∀ l, vi.2 = some l → l = e.2.2.2) es vis := by
      refine forall₂_of_exists fun e he => ?_
      obtain ⟨i, h1, h2⟩ := (hE e he).1.value fi hfi
      exact ⟨(e.2.1 fi, i), h1, rfl, h2⟩
    obtain ⟨v, i, h1, h2, h3⟩ := hmove fi hfi vis (by
      rw [mapM_ok, List.map_map, List.forall₂_map_left_iff]
      exact hvis.imp fun e vi h => h.1)
    refine ⟨v, i, h1, ?_, ?_⟩
    · have : vis.map Prod.fst = es.map (·.2.1 fi) := by
        exact map_of_forall₂ (hvis.imp fun _ _ h => h.2.1)
      rwa [this] at h2
    · rintro l rfl
      refine joinedLabels_some h3 ?_
      rw [List.forall₂_map_left_iff, List.forall₂_map_right_iff]
      exact (hvis.imp fun e vi h => h.2.2).flip
  obtain ⟨V', hV'⟩ : ∃ V' : FactorInfo F D K → Value K, ∀ fi ∈ fis, ∃ i, fi.eval na.types whole = .ok (V' fi, i) ∧
      JoinedVal (es.map (·.2.1 fi)) (V' fi) ∧ ∀ l, i = some l → l = (es.map (·.2.2.2)).flatten := by
    refine ⟨fun fi => match fi.eval na.types whole with | .ok (v, _) => v | .error _ => .cat [], fun fi hfi => ?_⟩
    obtain ⟨v, i, h1, h2, h3⟩ := hvals fi hfi
    refine ⟨i, ?_⟩
    simp only [h1]
    exact ⟨trivial, h2, h3⟩
  have hV : ∀ fi ∈ fis, JoinedVal (es.map (·.2.1 fi)) (V' fi) := fun fi hfi => (hV' fi hfi).choose_spec.2.1
  have hn : ∀ e ∈ es, ∀ fi ∈ fis, (e.2.1 fi).nrows = e.2.2.1 := fun e he fi hfi => (hE e he).1.rows fi hfi
  -- the rows
  generalize hN : (es.map (·.2.2.1)).sum = N
  have hrow : ∀ {X : Type} {lab : Part D K × (FactorInfo F D K → Value K) × Nat × List Build.Label → Nat → X} {lab' : Nat → X},
      (List.range N).map lab' = (es.map fun e => (List.range e.2.2.1).map (lab e)).flatten →
      labelled fis V' lab' N = (es.map fun e => labelled fis e.2.1 (lab e) e.2.2.1).flatten :=
    fun hl => labelled_joined hV hn hN.symm hl
  have hunit : labelled fis V' (fun _ => ()) N = (es.map fun e => labelled fis e.2.1 (fun _ => ()) e.2.2.1).flatten := by
    refine hrow ?_
    rw [List.map_const', List.length_range]
    symm
    rw [List.eq_replicate_iff]
    exact ⟨by simp [List.length_flatten, List.map_map, Function.comp_def, hN], fun _ _ => rfl⟩
  -- the labels
  have hidxlen : ((es.map (·.2.2.2)).flatten).length = N := by
    rw [List.length_flatten, List.map_map, ← hN]
    congr 1
    exact List.map_congr_left fun e he => (hE e he).1.length
  generalize hix : (dataIndex ≠ none ∨ ∃ fi ∈ fis, ∃ v l, fi.eval na.types whole = .ok (v, some l)) = indexed
  obtain ⟨idx', hi1, hi2⟩ : ∃ idx', (indexed → idx' = (es.map (·.2.2.2)).flatten) ∧
      (¬ indexed → idx' = (List.range N).map Build.Label.row) := by
    by_cases hx : indexed
    · exact ⟨_, fun _ => rfl, fun h => absurd hx h⟩
    · exact ⟨_, fun h => absurd h hx, fun _ => rfl⟩
  have hlen' : idx'.length = N := by
    by_cases hx : indexed
    · rw [hi1 hx]; exact hidxlen
    · rw [hi2 hx]; simp
  have hev : Evaluation na.types fis dataIndex whole V' N idx' := by
    refine ⟨?_, ?_, ?_, ?_, hlen', ?_, ?_⟩
    · intro fi hfi
      obtain ⟨i, h1, _, h3⟩ := hV' fi hfi
      refine ⟨i, h1, ?_⟩
      rintro l rfl
      rw [hi1 (hix ▸ Or.inr ⟨fi, hfi, _, l, h1⟩)]
      exact h3 l rfl
    · intro fi hfi
      exact joinedVal_kind (hV fi hfi) (List.mem_map_of_mem he0) ((hE e0 he0).1.kind fi hfi)
    · intro fi hfi
      rw [joinedVal_nrows (hV fi hfi), ← hN, List.map_map]
      congr 1
      exact List.map_congr_left fun e he => hn e he fi hfi
    · rintro l rfl
      rw [hi1 (hix ▸ Or.inl (by simp))]
      refine joinedLabels_some hdi ?_
      rw [List.map_map, List.forall₂_map_left_iff, List.forall₂_map_right_iff]
      exact List.forall₂_same.mpr fun e he => (hE e he).1.frame
    · intro hd hall
      refine hi2 ?_
      rw [← hix]
      rintro (h | ⟨fi, hfi, v, l, hv⟩)
      · exact h hd
      · exact hall fi hfi v l hv
    · rintro h0 rfl
      exact (hE e0 he0).1.known h0 (hdi _ (List.mem_map_of_mem (List.mem_map_of_mem he0)))
  -- the rows that are kept
  have hkept : ∀ {X Y : Type} (g : X × (FactorInfo F D K → Option (Cell K)) → Y)
      {lab : Part D K × (FactorInfo F D K → Value K) × Nat × List Build.Label → Nat → X} {lab' : Nat → X}
      (h : Part D K × (FactorInfo F D K → Value K) × Nat × List Build.Label → Nat → Y) (h' : Nat → Y),
      (List.range N).map lab' = (es.map fun e => (List.range e.2.2.1).map (lab e)).flatten →
      (∀ r, [∀ fi, Decidable (fi ∈ fis)] → g (lab' r, fun fi => if fi ∈ fis then cellOf (V' fi) r else none) = h' r) →
      (∀ e r, [∀ fi, Decidable (fi ∈ fis)] → g (lab e r, fun fi => if fi ∈ fis then cellOf (e.2.1 fi) r else none) = h e r) →
      (completeRows na isnan fis V' N).map h' = (es.map fun e => (completeRows na isnan fis e.2.1 e.2.2.1).map (h e)).flatten := by
    intro X Y g lab lab' h h' hl hg' hg
    rw [complete_labelled g h' hg', hrow hl, List.filter_flatten, List.map_flatten, List.map_map, List.map_map]
    congr 1
    refine List.map_congr_left fun e _ => ?_
    exact (complete_labelled g (h e) (hg e)).symm
  have hunits : (List.range N).map (fun _ => ()) = (es.map fun e => (List.range e.2.2.1).map fun _ => ()).flatten := by
    rw [List.map_const', List.length_range]
    symm
    rw [List.eq_replicate_iff]
    exact ⟨by simp [List.length_flatten, List.map_map, Function.comp_def, hN], fun _ _ => rfl⟩
  have hcells : ∀ c ∈ cs, (completeRows na isnan fis V' N).map (designCells c V') =
      (es.map fun e => (completeRows na isnan fis e.2.1 e.2.2.1).map (designCells c e.2.1)).flatten := by
    intro c hc
    have hmem : ∀ f fi, dictGet c.factorInfos f = some fi → fi ∈ fis := fun f fi hd => by
      rw [← hfs]
      exact List.mem_flatMap.mpr ⟨c, hc, List.mem_map.mpr ⟨_, dictGet_mem hd, rfl⟩⟩
    refine hkept (fun p f => (dictGet c.factorInfos f).bind p.2) (lab := fun _ _ => ()) (lab' := fun _ => ())
      (fun e => designCells c e.2.1) (designCells c V') hunits ?_ ?_
    · intro r _
      funext f
      unfold designCells
      cases hd : dictGet c.factorInfos f with
      | none => rfl
      | some fi => simp only [Option.bind_some, if_pos (hmem f fi hd)]
    · intro e r _
      funext f
      unfold designCells
      cases hd : dictGet c.factorInfos f with
      | none => rfl
      | some fi => simp only [Option.bind_some, if_pos (hmem f fi hd)]
  have hlens : (completeRows na isnan fis V' N).length = (es.map fun e => (completeRows na isnan fis e.2.1 e.2.2.1).length).sum := by
    have := congrArg List.length (hkept (fun p => p.1) (lab := fun _ _ => ()) (lab' := fun _ => ())
      (fun _ _ => ()) (fun _ => ()) hunits (fun _ _ => rfl) (fun _ _ _ => rfl))
    simpa [List.length_flatten, List.map_map, Function.comp_def] using this
  obtain ⟨mats', hm1, hm2⟩ := areMatrices_joined (fun e he => (hE e he).2.2.1) hlens hcells
  refine ⟨⟨mats', if frame then some ((completeRows na isnan fis V' N).filterMap fun r => idx'[r]?) else none⟩, ?_, ?_, ?_, ?_⟩
  · rw [Props.build_keeps_complete_rows hne hdis (hfs ▸ hid) (hfs ▸ hfit whole), hfs]
    refine ⟨V', N, idx', hev, ?_, hm1, rfl⟩
    intro hr
    rw [all_complete_labelled, hunit]
    intro p hp
    obtain ⟨l, hl, hp⟩ := List.mem_flatten.mp hp
    obtain ⟨e, he, rfl⟩ := List.mem_map.mp hl
    exact all_complete_labelled.mp ((hE e he).2.1 hr) p hp
  · intro j m hj
    obtain ⟨ms, h1, h2⟩ := hm2 j m hj
    refine ⟨ms, ?_, h2⟩
    rw [List.map_map]
    exact h1
  · rintro rfl; rfl
  · rintro rfl hx
    refine ⟨es.map fun e => (completeRows na isnan fis e.2.1 e.2.2.1).filterMap fun r => e.2.2.2[r]?, ?_, ?_⟩
    · rw [List.map_map, List.map_map]
      refine List.map_congr_left fun e he => ?_
      simpa using (hE e he).2.2.2
    · simp only [if_true]
      congr 1
      have hfm : ∀ (l : List Nat) (g : Nat → Option Build.Label), l.filterMap g = (l.map g).filterMap id := by
        intro l g
        rw [List.filterMap_map]
        rfl
      rw [hfm, hkept (fun p => p.1) (lab := fun e r => e.2.2.2[r]?) (lab' := fun r => idx'[r]?)
        (fun e r => e.2.2.2[r]?) (fun r => idx'[r]?) ?_ (fun _ _ => rfl) (fun _ _ _ => rfl)]
      · rw [List.filterMap_flatten, List.map_map]
        congr 1
        refine List.map_congr_left fun e _ => ?_
        exact (hfm _ _).symm
      · have h1 := map_range_get idx'
        rw [hlen'] at h1
        rw [h1, hi1 hx, List.map_flatten, List.map_map]
        congr 1
        refine List.map_congr_left fun e he => ?_
        have h2 := map_range_get e.2.2.2
        rw [(hE e he).1.length] at h2
        exact h2.symm

end Patsy.Spec
