import Verif.Props.Reorder
import Verif.Props.Program
import Verif.Props.Builtins

/-!
# C65 for formulas given as text, and for the stateful transforms of patsy
-/

set_option linter.unusedSectionVars false

namespace Patsy.Props

open Patsy.Tokens Patsy.Desc Patsy.EvalFactor Patsy.Build Patsy.Cat Patsy.Spec Patsy.Calls Patsy.Formula Patsy.Program Patsy.Memorize Patsy.Passes

variable {D V A S K H : Type} [DecidableEq H] {n : Nat} {σ : Nat → Nat}

/-! ### Another order is like one chunk -/

/-- Data in another order, as a chunk. -/
def asChunk (R : Shuffle D V A) : Joins 1 D V A where
  data d w := R.data (d 0) w
  value v w := R.value (v 0) w
  args a b := R.args (a 0) b

theorem glued_one {r : V → V → Prop} {vs : Fin 1 → List V} {l : List V} (h : Glued (fun v w => r (v 0) w) vs l) :
    List.Forall₂ r (vs 0) l := by
  induction h with
  | nil => exact .nil
  | cons hv _ ih => exact .cons hv ih

theorem rowCode_chunk {P : Python D V A} {R : Shuffle D V A} {e : Expr String} (h : RowCode P R e) :
    RowwiseCode P (asChunk R) e := by
  constructor
  · intro d whole vs l v hd hg hv
    exact h.1 _ _ _ _ _ hd (glued_one hg) (hv 0)
  · intro p hp d whole vs l a hd hg ha
    exact h.2 p hp _ _ _ _ _ hd (glued_one hg) (ha 0)

theorem orderFree_chunk {R : Shuffle D V A} {c : Class S A V} (h : OrderFree R c) : ChunkFree (asChunk R) c := by
  intro a b hab
  obtain ⟨h1, h2⟩ := h _ _ hab
  exact ⟨fun s v hv => h1 s _ (hv 0), fun s hs => h2 s (by simpa using hs)⟩

/-- Factors that do not care about the order of the rows. -/
theorem interp_shuffled {I : Interp D V A S K H} (hI : Sane I) {R : Shuffle D V A}
    (hsee : ∀ v v', R.value v v' → MovedSeen n σ (I.see v) (I.see v')) {data data' : D} (hd : R.data data data')
    {fs : List String} (hn : fs.Nodup)
    (hgood : GoodCode I.stateful I.code fs fun f => (readTokens (I.code f)).getD .nil)
    (hfs : ∀ f ∈ fs, Unordered I R data f) : Shuffled n σ (I.setting [data]) (I.setting [data']) data data' fs where
  same := ⟨rfl, rfl, rfl, rfl, rfl, rfl⟩
  memorize := by
    intro eval h
    simp only [Interp.setting] at h ⊢
    cases hm : memorizeFactors I.python I.stateful I.classOf I.visitNames I.visitFactors I.code [data] fs with
    | error e => rw [hm] at h; cases h
    | ok states =>
      rw [hm] at h
      cases h
      have h1 := memorized_states (P := I.python) (classOf := I.classOf) hgood hI.names hI.factors hn [data]
      have h2 := memorized_states (P := I.python) (classOf := I.classOf) hgood hI.names hI.factors hn [data']
      have hmove : ∀ f ∈ fs, ∀ τ, Remembers I.python I.classOf [data] (I.expression f) τ →
          Remembers I.python I.classOf [data'] (I.expression f) τ := by
        intro f hf τ hτ
        exact remembers_joined (J := asChunk R) (d := fun _ => data) hd (rowCode_chunk (hfs f hf).code)
          (fun p hp => orderFree_chunk ((hfs f hf).classes p hp)) (by simpa using hτ)
      obtain ⟨states', hs'⟩ := h2.1.mpr fun f hf => by
        obtain ⟨τ, hτ, _⟩ := h1.2 states hm f hf
        exact ⟨τ, hmove f hf τ hτ⟩
      refine ⟨fun f d => (evalMemorized I.python I.classOf states' f d).map I.see, by rw [hs']; rfl, fun f hf => ?_⟩
      obtain ⟨τ, hτ, h3⟩ := h1.2 states hm f hf
      obtain ⟨τ', hτ', h4⟩ := h2.2 states' hs' f hf
      funext d
      simp only [h3, h4, valueWith_unique hτ' (hmove f hf τ hτ) d]
  values := by
    intro eval h f hf s hs
    have hval := interp_value hI hn hgood h hf
    simp only [Interp.setting] at h
    cases hm : memorizeFactors I.python I.stateful I.classOf I.visitNames I.visitFactors I.code [data] fs with
    | error e => rw [hm] at h; cases h
    | ok states =>
      rw [hm] at h
      cases h
      obtain ⟨τ, hτ, h3⟩ := (memorized_states (P := I.python) (classOf := I.classOf) hgood hI.names hI.factors hn [data]).2
        states hm f hf
      have hplain : Spec.Plain I.na s.value := by
        rcases hval with ⟨s1, h4, h5⟩ | ⟨_, h5⟩
        · obtain rfl : s = s1 := Except.ok.inj (hs.symm.trans h5)
          exact (hfs f hf).plain s h4
        · rw [hs] at h5; cases h5
      simp only [h3] at hs ⊢
      cases hv : valueWith I.python I.classOf τ (I.expression f) data with
      | error e =>
        simp only [Interp.expression] at hv
        rw [hv] at hs
        cases hs
      | ok v =>
        have hv' := hv
        simp only [valueWith, Python.value, bind_eq_ok, skel_number] at hv
        obtain ⟨vs, hvs, hx⟩ := hv
        obtain ⟨l, h7, h8⟩ := holes_joined (J := asChunk R) (d := fun _ => data) hd (rowwise_number (rowCode_chunk (hfs f hf).code))
          (chunkFree_number fun p hp => orderFree_chunk ((hfs f hf).classes p hp)) (vs := fun _ => vs) (fun _ => hvs)
        obtain ⟨w, h9, h10⟩ := (hfs f hf).code.1 _ _ _ _ _ hd (glued_one h7) hx
        have hw : valueWith I.python I.classOf τ (I.expression f) data' = .ok w := by
          simp only [valueWith, Python.value, bind_eq_ok, skel_number]
          exact ⟨l, h8, h10⟩
        simp only [Interp.expression] at hv' hw
        rw [hv'] at hs
        cases hs
        rw [hw]
        exact ⟨_, rfl, hsee _ _ h9, hplain⟩

/-! ### Text -/

/-- What the pipeline yields for data in another order. -/
theorem text_moved [Field K] {I : Interp D V A S K H} (hI : Sane I) {isnan : K → Bool} {R : Shuffle D V A}
    (hsee : ∀ v v', R.value v v' → MovedSeen n σ (I.see v) (I.see v')) {data data' : D} (hd : R.data data data')
    (hσ : Rearranges n σ) {dataIndex dataIndex' : Option (List Build.Label)} (hdi : MovedLabels n σ dataIndex dataIndex')
    {rt : ReturnType} {fin : RawEnd} {raw : List PyTok} (hfine : FineText I fin raw)
    (hun : ∀ m, I.fromFormula fin raw = .ok m → ∀ f ∈ allFactors [m.lhs, m.rhs], Unordered I R data f)
    {t : Table String D K × Table String D K}
    (h : highLevelDesign (I.setting [data]) isnan dataIndex data rt (.text (I.fromFormula fin raw)) = .ok t) :
    ∃ t' m types, I.fromFormula fin raw = .ok m ∧ Typed I data m types ∧
      highLevelDesign (I.setting [data']) isnan dataIndex' data' rt (.text (I.fromFormula fin raw)) = .ok t' ∧
      SameTables n σ (keeps I.na isnan types (I.value data) (allFactors [m.lhs, m.rhs]))
        (Indexed dataIndex (allFactors [m.lhs, m.rhs]) (I.value data)) (rt = .dataframe) t.1 t'.1 ∧
      SameTables n σ (keeps I.na isnan types (I.value data) (allFactors [m.lhs, m.rhs]))
        (Indexed dataIndex (allFactors [m.lhs, m.rhs]) (I.value data)) (rt = .dataframe) t.2 t'.2 := by
  cases hm : I.fromFormula fin raw with
  | error e =>
    rw [hm] at h
    simp only [highLevelDesign, tryIncrBuilders] at h
    split at h <;> cases h
  | ok m =>
    rw [hm] at h
    obtain ⟨_, hnorm, hcode⟩ := fromFormula_ok hfine hm
    have hsound : Sound (K := K) data (.text (.ok m)) := by
      intro m' hm' t ht
      cases hm'
      rcases List.mem_append.mp ht with ht | ht
      · exact hnorm.1.nodup t ht
      · exact hnorm.2.nodup t ht
    have hgood : GoodCode I.stateful I.code (I.visit (allFactors [m.lhs, m.rhs])) fun f => (readTokens (I.code f)).getD .nil :=
      fine_good hfine fun f hf => hcode f ((hI.visits _).mem_iff.mp hf)
    have hn : (I.visit (allFactors [m.lhs, m.rhs])).Nodup := (hI.visits _).nodup_iff.mpr (allFactors_nodup _)
    have hS := interp_shuffled hI hsee hd hn hgood fun f hf => hun m hm f ((hI.visits _).mem_iff.mp hf)
    obtain ⟨t', eval, types, h1, hl, h2, h3⟩ := row_order (interp_world hI [data]) hI.order hσ hdi hsound rfl hS h
    have hcell := interp_cell hI hgood hl
    have hkept : keeps (I.setting [data]).na isnan types (fun f => eval f data) (allFactors [m.lhs, m.rhs]) =
        keeps I.na isnan types (I.value data) (allFactors [m.lhs, m.rhs]) := by
      funext r
      show keeps I.na isnan types (fun f => eval f data) _ r = _
      unfold keeps
      rw [hcell]
    have hix : Indexed dataIndex (allFactors [m.lhs, m.rhs]) (fun f => eval f data) =
        Indexed dataIndex (allFactors [m.lhs, m.rhs]) (I.value data) := by
      unfold Indexed
      refine propext (or_congr Iff.rfl (exists_congr fun f => and_congr_right fun hf => exists_congr fun s => ?_))
      rcases interp_value hI hn hgood hl.1 ((hI.visits _).mem_iff.mpr hf) with ⟨s1, h4, h5⟩ | ⟨⟨e, h4⟩, h5⟩
      · show eval f data = _ ∧ _ ↔ _
        rw [h4, h5]
      · show eval f data = _ ∧ _ ↔ _
        rw [h4, h5]
        simp
    rw [hkept, hix] at h2 h3
    exact ⟨t', m, types, rfl, interp_typed hI hgood hl, h1, h2, h3⟩

/-- **C65**.  `dmatrices` with the text of a formula, on data with the rows in another order.  If the code of the factors
works row by row and its stateful transforms do not care about the order (`Unordered`), then the matrices are the same but
for the order of their rows: the same design, the same numbers in each row, the same rows dropped. -/
theorem text_row_order [Field K] {I : Interp D V A S K H} (hI : Sane I) {isnan : K → Bool} {R : Shuffle D V A}
    (hsee : ∀ v v', R.value v v' → MovedSeen n σ (I.see v) (I.see v')) {data data' : D} (hd : R.data data data')
    (hσ : Rearranges n σ) {dataIndex dataIndex' : Option (List Build.Label)} (hdi : MovedLabels n σ dataIndex dataIndex')
    {rt : ReturnType} {fin : RawEnd} {raw : List PyTok} (hfine : FineText I fin raw)
    (hun : ∀ m, I.fromFormula fin raw = .ok m → ∀ f ∈ allFactors [m.lhs, m.rhs], Unordered I R data f)
    {t : Table String D K × Table String D K} (h : I.dmatrices isnan dataIndex data rt fin raw = .ok t) :
    ∃ t' m types, I.fromFormula fin raw = .ok m ∧ Typed I data m types ∧
      I.dmatrices isnan dataIndex' data' rt fin raw = .ok t' ∧
      SameTables n σ (keeps I.na isnan types (I.value data) (allFactors [m.lhs, m.rhs]))
        (Indexed dataIndex (allFactors [m.lhs, m.rhs]) (I.value data)) (rt = .dataframe) t.1 t'.1 ∧
      SameTables n σ (keeps I.na isnan types (I.value data) (allFactors [m.lhs, m.rhs]))
        (Indexed dataIndex (allFactors [m.lhs, m.rhs]) (I.value data)) (rt = .dataframe) t.2 t'.2 := by
  simp only [Interp.dmatrices, Build.dmatrices, bind_eq_ok] at h
  obtain ⟨t0, h1, h2⟩ := h
  split at h2
  · cases h2
  · rename_i hc
    cases h2
    obtain ⟨t', m, types, h3, h4, h5, h6, h7⟩ := text_moved hI hsee hd hσ hdi hfine hun h1
    refine ⟨t', m, types, h3, h4, ?_, h6, h7⟩
    simp only [Interp.dmatrices, Build.dmatrices, bind_eq_ok]
    refine ⟨t', h5, if_neg ?_⟩
    rw [Table.ncols, ← h6.mat.columns.length_eq]
    exact hc

/-- **C65** for `dmatrix`. -/
theorem text_row_order_one [Field K] {I : Interp D V A S K H} (hI : Sane I) {isnan : K → Bool} {R : Shuffle D V A}
    (hsee : ∀ v v', R.value v v' → MovedSeen n σ (I.see v) (I.see v')) {data data' : D} (hd : R.data data data')
    (hσ : Rearranges n σ) {dataIndex dataIndex' : Option (List Build.Label)} (hdi : MovedLabels n σ dataIndex dataIndex')
    {rt : ReturnType} {fin : RawEnd} {raw : List PyTok} (hfine : FineText I fin raw)
    (hun : ∀ m, I.fromFormula fin raw = .ok m → ∀ f ∈ allFactors [m.lhs, m.rhs], Unordered I R data f)
    {t : Table String D K} (h : I.dmatrix isnan dataIndex data rt fin raw = .ok t) :
    ∃ t' m types, I.fromFormula fin raw = .ok m ∧ Typed I data m types ∧
      I.dmatrix isnan dataIndex' data' rt fin raw = .ok t' ∧
      SameTables n σ (keeps I.na isnan types (I.value data) (allFactors [m.lhs, m.rhs]))
        (Indexed dataIndex (allFactors [m.lhs, m.rhs]) (I.value data)) (rt = .dataframe) t t' := by
  simp only [Interp.dmatrix, Build.dmatrix, bind_eq_ok] at h
  obtain ⟨t0, h1, h2⟩ := h
  split at h2
  · cases h2
  · rename_i hc
    cases h2
    obtain ⟨t', m, types, h3, h4, h5, h6, h7⟩ := text_moved hI hsee hd hσ hdi hfine hun h1
    refine ⟨t'.2, m, types, h3, h4, ?_, h7⟩
    simp only [Interp.dmatrix, Build.dmatrix, bind_eq_ok]
    refine ⟨t', h5, if_neg ?_⟩
    rw [Table.ncols, ← h6.mat.columns.length_eq]
    exact hc

/-! ### The stateful transforms of patsy -/

section

open Patsy.State Patsy.SplineTransform

variable {X Y W ι : Type}

/-- Rows in another order; the other arguments of a call are the same. -/
def rowShuffle (n : Nat) (σ : Nat → Nat) (data : D → D → Prop) : Shuffle D (List Y) (W × List X) where
  data := data
  value := Moved n σ
  args a a' := a'.1 = a.1 ∧ Moved n σ a.2 a'.2

/-- **C65**: `center` does not care about the order of the rows. -/
theorem center_orderFree [Field K] (hσ : Rearranges n σ) (data : D → D → Prop) :
    OrderFree (rowShuffle n σ data) (centerClass (ι := ι) (K := K)) := by
  rintro ⟨⟨⟩, x⟩ ⟨⟨⟩, x'⟩ ⟨_, hx⟩
  simp only at hx
  refine ⟨fun s v h => ?_, fun s h => ?_⟩
  · simp only [centerClass, Center.transform] at h ⊢
    split at h
    · cases h
    · cases h
      exact ⟨_, moved_map _ hx, rfl⟩
  · rw [center_remember] at h ⊢
    rw [← h]
    have hp := moved_perm hσ hx
    simp only [Transform.memorized, centerT, List.map_cons, List.map_nil, List.foldl_cons, List.foldl_nil,
      Center.memorizeChunk, hp.sum_eq, hp.length_eq]

theorem online_unique [Field K] [CharZero K] {s s' : Nat × Row ι K × Row ι K} {x x' : List (Row ι K)} (hp : x'.Perm x)
    (h : onlineState s x) (h' : onlineState s' x') : s' = s := by
  obtain ⟨a1, a2, a3, a4⟩ := h
  obtain ⟨b1, b2, b3, b4⟩ := h'
  obtain ⟨n, m, q⟩ := s
  obtain ⟨n', m', q'⟩ := s'
  simp only at a1 a2 a3 a4 b1 b2 b3 b4
  by_cases hx : x = []
  · have hx' : x' = [] := by rw [hx] at hp; exact hp.eq_nil
    obtain ⟨rfl, rfl⟩ := a4 hx
    obtain ⟨rfl, rfl⟩ := b4 hx'
    rw [a1, b1, hx, hx']
  · have hl : (x.length : K) ≠ 0 := by rw [Nat.cast_ne_zero]; simpa using hx
    have hc : ∀ i, (column i x').Perm (column i x) := fun i => hp.map _
    have hm : m' = m := by
      funext i
      have e := (b2 i).trans ((hc i).sum_eq.trans (a2 i).symm)
      rw [hp.length_eq] at e
      exact mul_right_cancel₀ hl e
    subst hm
    have hq : q' = q := by
      funext i
      have e := (b3 i).trans (((hc i).map _).sum_eq.trans (a3 i).symm)
      rw [hp.length_eq] at e
      exact add_right_cancel e
    rw [hq, a1, b1, hp.length_eq]

/-- **C65**: neither do `standardize` and `scale`. -/
theorem standardize_orderFree [Field K] [CharZero K] (sqrt : K → K) (hσ : Rearranges n σ) (data : D → D → Prop) :
    OrderFree (rowShuffle n σ data) (standardizeClass (ι := ι) sqrt) := by
  rintro ⟨kw, x⟩ ⟨kw', x'⟩ ⟨hkw, hx⟩
  simp only at hkw hx
  subst hkw
  refine ⟨fun s v h => ?_, fun s h => ?_⟩
  · simp only [standardizeClass, Standardize.transform] at h ⊢
    split at h
    · cases h
      refine ⟨_, ?_, rfl⟩
      cases kw'.center <;> cases kw'.rescale
      · exact hx
      · exact moved_map _ hx
      · exact moved_map _ hx
      · exact moved_map _ (moved_map _ hx)
    · split at h
      · cases h
      · rename_i hc
        cases h
        exact ⟨x', hx, by rw [if_neg hc]⟩
  · rw [standardize_remember sqrt _ true true 0] at h ⊢
    rw [← h]
    have h0 : onlineState (ι := ι) (K := K) (0, 0, 0) [] := ⟨rfl, by simp [column], by simp [column], fun _ => ⟨rfl, rfl⟩⟩
    have e := online_unique (moved_perm hσ hx) (online_foldl x h0) (online_foldl x' h0)
    simp only [Transform.memorized, standardizeT, List.map_cons, List.map_nil, List.foldl_cons, List.foldl_nil,
      Standardize.memorizeChunk, Standardize.init, Option.getD_none, e]

/-- A class that collects its data does not care about the order if what it computes from them does not depend on it. -/
theorem collect_orderFree {Z B : Type} (hσ : Rearranges n σ) {fin : B → List ℝ → Except Err S}
    {tr : S → B → List ℝ → Except Err (List Z)} (hfin : ∀ kw x x' s, x'.Perm x → fin kw x = .ok s → fin kw x' = .ok s)
    (htr : ∀ s kw x x' v, Moved n σ x x' → tr s kw x = .ok v → ∃ v', Moved n σ v v' ∧ tr s kw x' = .ok v')
    (data : D → D → Prop) : OrderFree (rowShuffle n σ data) (collectClass fin tr) := by
  rintro ⟨kw, x⟩ ⟨kw', x'⟩ ⟨hkw, hx⟩
  simp only at hkw hx
  subst hkw
  refine ⟨fun s v h => ?_, fun s h => ?_⟩
  · cases s with
    | collecting t => simp [collectClass] at h
    | done s => exact htr s kw' x x' v hx h
  · have := collect_remember (n := 0) fin tr (fun _ => (kw', x)) (fun _ => rfl)
    have h' := collect_remember (n := 0) fin tr (fun _ => (kw', x')) (fun _ => rfl)
    simp only [List.ofFn_succ, List.ofFn_zero, List.flatten_cons, List.flatten_nil, List.append_nil] at this h'
    rw [this] at h
    cases hf : fin kw' x with
    | error e => rw [hf] at h; cases h
    | ok s0 =>
      rw [h', hfin kw' x x' s0 (moved_perm hσ hx) hf, ← h, hf]

theorem min_perm {x x' : List ℝ} (h : x'.Perm x) : x'.min? = x.min? := by
  cases hx : x.min? with
  | none =>
    rw [List.min?_eq_none_iff] at hx ⊢
    rw [hx] at h
    exact h.eq_nil
  | some a =>
    rw [List.min?_eq_some_iff] at hx ⊢
    exact ⟨h.mem_iff.mpr hx.1, fun b hb => hx.2 b (h.mem_iff.mp hb)⟩

theorem max_perm {x x' : List ℝ} (h : x'.Perm x) : x'.max? = x.max? := by
  cases hx : x.max? with
  | none =>
    rw [List.max?_eq_none_iff] at hx ⊢
    rw [hx] at h
    exact h.eq_nil
  | some a =>
    rw [List.max?_eq_some_iff] at hx ⊢
    exact ⟨h.mem_iff.mpr hx.1, fun b hb => hx.2 b (h.mem_iff.mp hb)⟩

theorem unique_perm {x x' : List ℝ} (h : x'.Perm x) : unique x' = unique x := by
  rw [unique, unique, List.toFinset_eq_of_perm _ _ h]

theorem knots_perm {x x' : List ℝ} (h : x'.Perm x) (m : Option Int) (knots : Option (List ℝ)) (lower upper : Option ℝ) :
    getAllSortedKnots x' m knots lower upper = getAllSortedKnots x m knots lower upper := by
  have hin : ∀ l u, innerKnots x' m knots l u = innerKnots x m knots l u := by
    intro l u
    simp only [innerKnots, unique_perm (h.filter _)]
  simp only [getAllSortedKnots, min_perm h, max_perm h, hin]

theorem mapM_perm {f : X → Except Err Y} {x x' : List X} (h : x'.Perm x) {y : List Y} (hy : x.mapM f = .ok y) :
    ∃ y', x'.mapM f = .ok y' ∧ y'.Perm y := by
  rw [Build.mapM_ok] at hy
  obtain ⟨y', h1, h2⟩ := (List.perm_comp_forall₂ h hy)
  exact ⟨y', Build.mapM_ok.mpr h1, h2⟩

theorem meanRow_perm {x x' : List (List ℝ)} (h : x'.Perm x) : meanRow x' = meanRow x := by
  funext j
  rw [meanRow, meanRow, (h.map _).sum_eq, h.length_eq]

/-- **C65**: neither do `cr` and `cc`. -/
theorem cr_orderFree (qr : QR) (cyclic : Bool) (hσ : Rearranges n σ) (data : D → D → Prop) :
    OrderFree (rowShuffle n σ data) (crClass qr cyclic) := by
  refine collect_orderFree hσ ?_ ?_ data
  · intro kw x x' s hp h
    simp only [crFinish, bind_eq_ok, pure_eq_ok] at h ⊢
    split at h
    · cases h
    · rename_i hc
      rw [if_neg hc]
      simp only [bind_eq_ok, pure_eq_ok] at h ⊢
      obtain ⟨nc, h1, m, h2, knots, h3, cons, h4, rfl⟩ := h
      refine ⟨nc, h1, m, h2, knots, by rw [knots_perm hp, h3], cons, ?_, rfl⟩
      cases hk : kw.constraints with
      | center =>
        rw [hk] at h4
        simp only [finishConstraints, bind_eq_ok, pure_eq_ok] at h4 ⊢
        obtain ⟨rows, h5, rfl⟩ := h4
        obtain ⟨rows', h6, h7⟩ := mapM_perm hp h5
        exact ⟨rows', h6, by rw [meanRow_perm h7]⟩
      | _ =>
        rw [hk] at h4
        exact h4
  · intro s kw x x' v hx h
    obtain ⟨v', h1, h2⟩ := moved_mapM hσ hx h
    exact ⟨v', h2, h1⟩

theorem sorted_of_perm {x x' : List ℝ} (h : x'.Perm x) : sorted x' = sorted x := by
  have hs : ∀ l : List ℝ, (sorted l).Pairwise (· ≤ ·) := fun l => by
    have := List.pairwise_mergeSort (le := fun a b : ℝ => decide (a ≤ b)) (by intro a b c; simpa using le_trans)
      (by intro a b; simpa using le_total a b) l
    simpa [sorted] using this
  exact ((sorted_perm x').trans (h.trans (sorted_perm x).symm)).eq_of_pairwise' (hs x') (hs x)

/-- **C65**: neither does `bs`. -/
theorem bs_orderFree (splev : Splev) (hσ : Rearranges n σ) (data : D → D → Prop) :
    OrderFree (rowShuffle n σ data) (bsClass splev) := by
  refine collect_orderFree hσ ?_ ?_ data
  · intro kw x x' s hp h
    have hq : quantile x' = quantile x := by
      funext t
      simp only [quantile, sorted_of_perm hp]
    have he : x' = [] ↔ x = [] := ⟨fun h => by rw [h] at hp; exact hp.symm.eq_nil, fun h => by rw [h] at hp; exact hp.eq_nil⟩
    have hin : bsInner kw x' = bsInner kw x := by
      simp only [bsInner, hq, he]
    rw [← h]
    simp only [bsFinish, hin, min_perm hp, max_perm hp]
  · intro s kw x x' v hx h
    simp only [bsTransform, bind_eq_ok, pure_eq_ok] at h ⊢
    obtain ⟨u, hu, rfl⟩ := h
    have hp := moved_perm hσ hx
    refine ⟨if kw.includeIntercept then x'.map (basisRow splev (sorted s.knots) s.degree)
      else (x'.map (basisRow splev (sorted s.knots) s.degree)).map (List.drop 1), ?_,
      x'.map (basisRow splev (sorted s.knots) s.degree), ?_, rfl⟩
    · rw [evalBasis_ok] at hu
      rw [hu.2.2.2]
      split
      · exact moved_map _ hx
      · exact moved_map _ (moved_map _ hx)
    · rw [evalBasis_ok] at hu ⊢
      obtain ⟨h1, h2, h3, _⟩ := hu
      refine ⟨?_, h2, fun y hy => h3 y (hp.mem_iff.mp hy), rfl⟩
      rintro rfl
      exact h1 hp.symm.eq_nil

end

/-! ### Example -/

namespace ReorderSample

open Patsy.State ProgramSample FitSample2

/-- A column of numbers. -/
def see (c : Col) : Seen ℚ := ⟨.raw (.array .number 1 1 (c.map fun r => .float (r ()))), c.map fun r => [r ()], none⟩

def interp : Interp Col Col (Unit × Col) (State.Center Unit ℚ) ℚ (Redundancy.Subterm String) := { ProgramSample.interp with see := see }

theorem real : Real interp where
  names _ := .refl _
  factors _ _ _ := .refl _
  visits l := l.reverse_perm
  order _ := .refl _
  hash _ _ h := h
  fits v l hl := by cases hl
  codes v cats codes hv := by cases hv
  rows v ndim ncols vals hv r hr := by
    cases hv
    simp only [interp, see, List.mem_map] at hr
    obtain ⟨_, _, rfl⟩ := hr
    rfl
  default := OutcomeSample.sample_world.default
  contrasts v c hc := by cases hc

abbrev shuffle (n : Nat) (σ : Nat → Nat) : Shuffle Col Col (Unit × Col) := rowShuffle n σ (Moved n σ)

theorem sum_moved {n : Nat} {σ : Nat → Nat} (hσ : Rearranges n σ) {s : Skel} {d d' : Col} {vs vs' : List Col} {v : Col}
    (hd : Moved n σ d d') (hvs : List.Forall₂ (Moved n σ) vs vs') (h : samplePython.sum s d vs = .ok v) :
    ∃ v', Moved n σ v v' ∧ samplePython.sum s d' vs' = .ok v' := by
  unfold samplePython.sum at h
  split at h
  · cases h
    cases hvs
    exact ⟨_, hd, rfl⟩
  · cases h
    cases hvs with
    | cons h1 h2 =>
      cases h2
      exact ⟨_, h1, rfl⟩
  · cases hvs with
    | cons h1 h2 =>
      cases h2
      split at h
      · cases h
        refine ⟨List.zipWith (· + ·) d' _, ⟨?_, ?_, ?_⟩, if_pos (by rw [hd.2.1, h1.2.1])⟩
        · simp [hd.1, h1.1]
        · simp [hd.2.1, h1.2.1]
        · intro q hq
          rw [List.getElem?_zipWith, List.getElem?_zipWith, hd.2.2 q hq, h1.2.2 q hq]
      · cases h
  · cases h

theorem rowCode {n : Nat} {σ : Nat → Nat} (hσ : Rearranges n σ) (e : Expr String) : RowCode samplePython (shuffle n σ) e := by
  constructor
  · intro d d' vs vs' v hd hvs h
    exact sum_moved hσ hd hvs h
  · intro p _ d d' vs vs' a hd hvs h
    simp only [samplePython] at h ⊢
    cases hc : samplePython.sum p.2.skel d vs with
    | error e => rw [hc] at h; cases h
    | ok w =>
      rw [hc] at h
      cases h
      obtain ⟨v', h1, h2⟩ := sum_moved hσ hd hvs hc
      exact ⟨((), v'), ⟨rfl, h1⟩, by rw [h2]; rfl⟩

theorem unordered {n : Nat} {σ : Nat → Nat} (hσ : Rearranges n σ) (data : Col) (f : String) :
    Unordered interp (shuffle n σ) data f where
  code := rowCode hσ _
  classes _ _ := center_orderFree hσ _
  plain s hs := by
    have : ∃ c, s = see c := by
      simp only [Interp.value] at hs
      cases hp : plainValue interp.python interp.classOf (interp.expression f) data with
      | error e => rw [hp] at hs; cases hs
      | ok c => rw [hp] at hs; exact ⟨c, (Except.ok.inj hs).symm⟩
    obtain ⟨c, rfl⟩ := this
    simp [Spec.Plain, sniffed, withBools, see]

/-- The rows 1, 2, 3, 6 in another order. -/
def rows' : Col := colOf [6, 2, 1, 3]

def origin (q : Nat) : Nat := [3, 1, 0, 2].getD q 0

theorem rearranges : Rearranges 4 origin := by unfold Rearranges; decide

theorem text_ok : isOk (interp.dmatrices FitSample.isnan none rows .matrix .exhausted raw) = true ∧
    isOk (interp.dmatrices FitSample.isnan none rows' .matrix .exhausted raw) = true := by decide +kernel

end ReorderSample

open ReorderSample in
/-- Example for `text_row_order`: `x ~ center(x + center(x))`, where `center` does not care about the order of the rows. -/
example : Sane interp ∧ (∀ v v', Moved 4 origin v v' → MovedSeen 4 origin (interp.see v) (interp.see v')) ∧
    Moved 4 origin FitSample2.rows rows' ∧ FineText interp .exhausted ProgramSample.raw ∧
    (∀ f, Unordered interp (shuffle 4 origin) FitSample2.rows f) ∧
    ∃ t t', interp.dmatrices FitSample.isnan none FitSample2.rows .matrix .exhausted ProgramSample.raw = .ok t ∧
      interp.dmatrices FitSample.isnan none rows' .matrix .exhausted ProgramSample.raw = .ok t' ∧
      t.2.mat = ⟨4, [[1, 1, 1, 1], [-4, -2, 0, 6]]⟩ ∧ t'.2.mat = ⟨4, [[1, 1, 1, 1], [6, -2, -4, 0]]⟩ :=
  ⟨real.toSane, fun v v' h => ⟨⟨rfl, rfl, rfl, fun _ => moved_map _ h⟩, fun _ => moved_map _ h, trivial⟩, ⟨rfl, rfl, by
    intro q hq; interval_cases q <;> rfl⟩, ProgramSample.fine_of _ rfl rfl, unordered rearranges _,
    getOk _ text_ok.1, getOk _ text_ok.2, getOk_eq _, getOk_eq _, by decide +kernel, by decide +kernel⟩

namespace ReorderSample

/-- The raw tokens of `center(x + center(x))`. -/
def oneRaw : List PyTok := ProgramSample.nestedTokens 0 ++ [exPy .newline "" 11, exPy .endmarker "" 12]

theorem one_fine : FineText interp .exhausted oneRaw :=
  ProgramSample.fine_body _ rfl rfl (body := ProgramSample.nestedTokens 0) rfl (by decide)
    (by unfold ProgramSample.AllExpressions; decide +kernel)

theorem one_ok : isOk (interp.dmatrix FitSample.isnan none FitSample2.rows .matrix .exhausted oneRaw) = true ∧
    isOk (interp.dmatrix FitSample.isnan none rows' .matrix .exhausted oneRaw) = true := by decide +kernel

end ReorderSample

open ReorderSample in
/-- Example for `text_row_order_one`: the same without the left side. -/
example : FineText interp .exhausted oneRaw ∧
    ∃ t t', interp.dmatrix FitSample.isnan none FitSample2.rows .matrix .exhausted oneRaw = .ok t ∧
      interp.dmatrix FitSample.isnan none rows' .matrix .exhausted oneRaw = .ok t' ∧
      t.mat = ⟨4, [[1, 1, 1, 1], [-4, -2, 0, 6]]⟩ ∧ t'.mat = ⟨4, [[1, 1, 1, 1], [6, -2, -4, 0]]⟩ :=
  ⟨one_fine, getOk _ one_ok.1, getOk _ one_ok.2, getOk_eq _, getOk_eq _, by decide +kernel, by decide +kernel⟩

end Patsy.Props
