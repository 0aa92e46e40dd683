import Verif.Lemmas.Columns

/-!
# Property C17: the columns of an interaction and their names

`checkSubterm fis st = .ok ()` is what `DesignInfo.__init__` has verified about every
subterm of a design.
-/

set_option linter.unusedSectionVars false

namespace Patsy.Props

open Patsy.Build Patsy.Spec Patsy.Desc

variable {F D K : Type} [DecidableEq F]

/-- **C17**, numbering.  The combinations of column numbers are listed with the leftmost
factor fastest: there are `n₀ * n₁ * ...` of them, the combination `js` stands at
position `j₀ + n₀ * (j₁ + n₁ * ...)`, and every position belongs to exactly one choice. -/
theorem combinations_order (ns : List Nat) :
    (columnCombinations ns).length = ns.prod ∧
    (∀ js, Choice ns js → (columnCombinations ns)[place ns js]? = some js) ∧
    (∀ i, i < ns.prod → ∃ js, Choice ns js ∧ place ns js = i ∧
      ∀ js', Choice ns js' → place ns js' = i → js' = js) := by
  rw [columnCombinations_eq]
  refine ⟨by simp, ?_, ?_⟩
  · intro js h
    simp [place_lt h, digits_place h]
  · intro i hi
    refine ⟨digits ns i, choice_digits hi, place_digits hi, ?_⟩
    intro js' h h'
    rw [← h', digits_place h]

/-- Example: two and three columns. -/
example : columnCombinations [2, 3] = [[0, 0], [1, 0], [0, 1], [1, 1], [0, 2], [1, 2]] ∧
    Choice [2, 3] [1, 2] ∧ place [2, 3] [1, 2] = 5 := by
  refine ⟨by decide, by simp [Choice], by decide⟩

/-- **C17**, values.  Whenever an interaction is built, there is exactly one column for
every combination of the columns of its factors, in the order above, and the entry in row
`r` is the product, from left to right, of what the factors contribute in that row. -/
theorem interaction_columns [Mul K] [One K] {fis : List (F × FactorInfo F D K)}
    {st : SubtermInfo F K} {values : List (F × Value K)} {n : Nat} {cols : List (List K)}
    (hc : checkSubterm fis st = .ok ()) (hv : ValuesGood fis values n st.factors)
    (h : buildSubterm fis st values n st.numColumns = .ok cols) :
    cols.length = (widths fis st).prod ∧
    ∀ js, Choice (widths fis st) js → ∃ col, cols[place (widths fis st) js]? = some col ∧
      col.length = n ∧
      ∀ r, r < n → ∃ x, col[r]? = some x ∧
        prodFrom fis st.contrasts (cellsAt values r) 1 st.factors js = some x := by
  obtain ⟨_, hp, _⟩ := checkSubterm_good hc
  rw [buildSubterm_isCol hc hv, forall₂_iff] at h
  obtain ⟨h1, h2⟩ := h
  simp only [List.length_range] at h1
  refine ⟨by rw [h1, hp], ?_⟩
  intro js hjs
  have hlt := place_lt hjs
  have hlt' : place (widths fis st) js < cols.length := by omega
  refine ⟨cols[place (widths fis st) js], List.getElem?_eq_getElem hlt', ?_⟩
  have := h2 _ _ _ (List.getElem?_range (by omega)) (List.getElem?_eq_getElem hlt')
  rw [digits_place hjs] at this
  refine ⟨this.1, ?_⟩
  intro r hr
  have h3 := this.2 r hr
  rw [List.getElem?_eq_getElem (by rw [this.1]; exact hr)] at h3 ⊢
  exact ⟨_, rfl, h3⟩

/-- **C17**, values: building succeeds whenever every contribution exists, that is, unless a
category code is negative (a missing value) or out of range. -/
theorem interaction_built [Mul K] [One K] {fis : List (F × FactorInfo F D K)}
    {st : SubtermInfo F K} {values : List (F × Value K)} {n : Nat}
    (hc : checkSubterm fis st = .ok ()) (hv : ValuesGood fis values n st.factors)
    (hall : ∀ f ∈ st.factors, ∀ j r, j < widthOf fis st.contrasts f → r < n →
      (entryAt fis st.contrasts (cellsAt values r) f j).isSome) :
    ∃ cols, buildSubterm fis st values n st.numColumns = .ok cols := by
  obtain ⟨_, hp, _⟩ := checkSubterm_good hc
  have key : ∀ (fs : List F), (∀ f ∈ fs, f ∈ st.factors) → ∀ js,
      Choice (widthsL fis st.contrasts fs) js → ∀ (r : Nat), r < n → ∀ x : K,
      (prodFrom fis st.contrasts (cellsAt values r) x fs js).isSome := by
    intro fs
    induction fs with
    | nil => intro _ js _ r _ x; simp [prodFrom]
    | cons f fs ih =>
      intro hmem js hjs r hr x
      cases js with
      | nil => simp [prodFrom]
      | cons j js =>
        simp only [widthsL, List.map_cons, Choice] at hjs
        have : (entryAt fis st.contrasts (cellsAt values r) f j).isSome := by
          exact hall f (hmem f (List.mem_cons_self ..)) j r hjs.1 hr
        obtain ⟨y, hy⟩ := Option.isSome_iff_exists.mp this
        simp only [prodFrom, hy, Option.bind_some]
        exact ih (fun g hg => hmem g (List.mem_cons_of_mem _ hg)) js hjs.2 r hr _
  have hsome : ∀ i, i < st.numColumns → ∀ (r : Nat), r < n →
      (prodFrom fis st.contrasts (cellsAt values r) 1 st.factors
        (digits (widths fis st) i)).isSome := by
    intro i hi r hr
    exact key st.factors (fun f hf => hf) _ (choice_digits (by show i < (widths fis st).prod; omega)) r hr 1
  have hcolx : ∀ i, i < st.numColumns → ∃ col, IsCol n (fun r =>
      prodFrom fis st.contrasts (cellsAt values r) 1 st.factors (digits (widths fis st) i)) col := by
    intro i hi
    refine ⟨(List.range n).pmap (fun r (h : r < n) => Option.get _ (hsome i hi r h)) (by simp), ?_⟩
    refine ⟨by simp, ?_⟩
    intro r hr
    simp [List.getElem?_pmap, List.getElem?_range hr]
  have hcols : ∀ l : List Nat, (∀ i ∈ l, i < st.numColumns) → ∃ cols,
      List.Forall₂ (fun i col => IsCol n (fun r => prodFrom fis st.contrasts (cellsAt values r) 1
        st.factors (digits (widths fis st) i)) col) l cols := by
    intro l
    induction l with
    | nil => intro _; exact ⟨[], .nil⟩
    | cons i l ih =>
      intro hl
      obtain ⟨c, h1⟩ := hcolx i (hl i (List.mem_cons_self ..))
      obtain ⟨cs, h2⟩ := ih (fun k hk => hl k (List.mem_cons_of_mem _ hk))
      exact ⟨c :: cs, .cons h1 h2⟩
  obtain ⟨cols, h⟩ := hcols (List.range st.numColumns) (by simp)
  exact ⟨cols, (buildSubterm_isCol hc hv).mpr h⟩

/-- The name of column `j` of a factor, as documented: `x`, `x[j]` if there are several
columns, `a<suffix>` for a categorical factor. -/
def pieceName (name : F → String) (fis : List (F × FactorInfo F D K))
    (cms : List (F × ContrastMatrix K)) (f : F) (j : Nat) : Option String :=
  match dictGet fis f, dictGet cms f with
  | some fi, none =>
    match fi.type with
    | .numerical n => some (if n > 1 then name f ++ "[" ++ toString j ++ "]" else name f)
    | .categorical _ => none
  | some _, some cm => cm.suffixes[j]?.map (name f ++ ·)
  | none, _ => none

/-- The pieces of a column name. -/
def pieceNames (name : F → String) (fis : List (F × FactorInfo F D K))
    (cms : List (F × ContrastMatrix K)) : List F → List Nat → Option (List String)
  | f :: fs, j :: js => (pieceName name fis cms f j).bind fun p =>
      (pieceNames name fis cms fs js).map (p :: ·)
  | _, _ => some []

/-- **C17**, names.  For every consistent subterm (the suffix lists have the length that
`ContrastMatrix.__init__` checks) the names are produced, there are as many names as
columns, and the name at the position of the combination `js` joins the names of the
factors' columns `js` with colons; without factors it is `Intercept`. -/
theorem interaction_names (name : F → String) {fis : List (F × FactorInfo F D K)}
    {st : SubtermInfo F K} (hc : checkSubterm fis st = .ok ())
    (hs : ∀ p ∈ st.contrasts, p.2.suffixes.length = p.2.ncols) :
    ∃ names, subtermColumnNames name fis st = .ok names ∧
      names.length = st.numColumns ∧ names.length = (widths fis st).prod ∧
      ∀ js, Choice (widths fis st) js → ∃ ps, pieceNames name fis st.contrasts st.factors js = some ps ∧
        ps.length = st.factors.length ∧
        names[place (widths fis st) js]? =
          some (if st.factors = [] then "Intercept" else ":".intercalate ps) := by
  obtain ⟨hg, hp, hcomb⟩ := checkSubterm_good hc
  -- the pieces
  have key : ∀ fs, (∀ f ∈ fs, f ∈ st.factors) → ∀ js, Choice (widthsL fis st.contrasts fs) js →
      ∃ ps, pieceNames name fis st.contrasts fs js = some ps ∧ ps.length = fs.length ∧
        namePieces name fis st.contrasts fs js = .ok ps := by
    intro fs
    induction fs with
    | nil => intro _ js _; exact ⟨[], by simp [pieceNames], rfl, by simp [namePieces]⟩
    | cons f fs ih =>
      intro hmem js hjs
      cases js with
      | nil => simp [widthsL, Choice] at hjs
      | cons j js =>
        simp only [widthsL, List.map_cons, Choice] at hjs
        obtain ⟨hj, hjs⟩ := hjs
        obtain ⟨ps, h1, h2, h3⟩ := ih (fun g hg => hmem g (List.mem_cons_of_mem _ hg)) js hjs
        obtain ⟨fi, hfi, hcase⟩ := hg f (hmem f (List.mem_cons_self ..))
        have : ∃ p, pieceName name fis st.contrasts f j = some p ∧
            namePiece name fis st.contrasts f j = .ok p := by
          obtain ⟨u, f', ty, ev⟩ := fi
          rcases hcase with ⟨m, hm, hnone⟩ | ⟨k, cm, hk, hcm, _⟩
          · simp only at hm; subst hm
            simp only [widthOf, hnone, hfi] at hj
            refine ⟨if m > 1 then name f ++ "[" ++ toString j ++ "]" else name f,
              by simp only [pieceName, hfi, hnone], ?_⟩
            simp only [namePiece, hfi]
            by_cases hm1 : m > 1
            · simp [hm1]
            · have : j = 0 := by omega
              simp [hm1, this]
          · simp only at hk; subst hk
            simp only [widthOf, hcm] at hj
            have hl := hs _ (dictGet_mem hcm)
            simp only at hl
            have hjl : j < cm.suffixes.length := by omega
            refine ⟨name f ++ cm.suffixes[j], by simp [pieceName, hfi, hcm, hjl], ?_⟩
            simp [namePiece, hfi, hcm, hjl]
        obtain ⟨p, hp1, hp2⟩ := this
        refine ⟨p :: ps, by simp [pieceNames, hp1, h1], by simp [h2], ?_⟩
        simp [namePieces, hp2, h3, bind, Except.bind]
  have hname : ∀ js, Choice (widths fis st) js → ∃ ps,
      pieceNames name fis st.contrasts st.factors js = some ps ∧ ps.length = st.factors.length ∧
      (do let ps ← namePieces name fis st.contrasts st.factors js
          if ps.isEmpty then Except.ok "Intercept" else .ok (":".intercalate ps)) =
        .ok (if st.factors = [] then "Intercept" else ":".intercalate ps) := by
    intro js hjs
    obtain ⟨ps, h1, h2, h3⟩ := key st.factors (fun f hf => hf) js hjs
    refine ⟨ps, h1, h2, ?_⟩
    simp only [h3, bind, Except.bind]
    cases ps with
    | nil =>
      have : st.factors = [] := List.length_eq_zero_iff.mp (by simpa using h2.symm)
      simp [this]
    | cons a l =>
      have : st.factors ≠ [] := by intro e; simp [e] at h2
      simp [this]
  -- the list of names
  let g : Nat → String := fun i =>
    if st.factors = [] then "Intercept"
    else ":".intercalate ((pieceNames name fis st.contrasts st.factors (digits (widths fis st) i)).getD [])
  refine ⟨(List.range st.numColumns).map g, ?_, by simp, by simp [hp], ?_⟩
  · simp only [subtermColumnNames, hcomb, bind_ok, Except.ok.injEq, exists_eq_left']
    refine ⟨(List.range st.numColumns).map g, ?_, by simp⟩
    rw [mapM_ok, List.forall₂_map_left_iff, List.forall₂_map_right_iff, List.forall₂_same]
    intro i hi
    have hi : i < st.numColumns := by simpa using hi
    obtain ⟨ps, h1, _, h3⟩ := hname _ (choice_digits (i := i) (by rw [hp]; exact hi))
    simp only [g, h1, Option.getD_some]
    exact h3
  · intro js hjs
    obtain ⟨ps, h1, h2, _⟩ := hname js hjs
    have := place_lt hjs
    refine ⟨ps, h1, h2, ?_⟩
    simp [← hp, this, g, digits_place hjs, h1]

/-- Example: the interaction of a numerical factor `x` with two columns and a categorical
factor `a` with three levels in a reduced coding (two columns): the hypotheses hold and
the four columns and names are the expected ones. -/
example :
    let cm : ContrastMatrix Int := ⟨[[0, 0], [1, 0], [0, 1]], 2, ["[T.b]", "[T.c]"]⟩
    let fis : List (String × FactorInfo String Unit Int) :=
      [("x", ⟨0, "x", .numerical 2, fun _ _ => .error .typeError⟩),
       ("a", ⟨1, "a", .categorical 3, fun _ _ => .error .typeError⟩)]
    let st : SubtermInfo String Int := ⟨["x", "a"], [("a", cm)], 4⟩
    let values : List (String × Value Int) :=
      [("x", .num 2 [[10, 20], [30, 40], [50, 60]]), ("a", .cat [1, 0, 2])]
    checkSubterm fis st = .ok () ∧ ValuesGood fis values 3 st.factors ∧
    (∀ p ∈ st.contrasts, p.2.suffixes.length = p.2.ncols) ∧
    buildSubterm fis st values 3 4 =
      .ok [[10, 0, 0], [20, 0, 0], [0, 0, 50], [0, 0, 60]] ∧
    subtermColumnNames id fis st =
      .ok ["x[0]:a[T.b]", "x[1]:a[T.b]", "x[0]:a[T.c]", "x[1]:a[T.c]"] := by
  refine ⟨eq_ok_of_okIs (by decide +kernel), ?_, by simp, eq_ok_of_okIs (by decide +kernel),
    eq_ok_of_okIs (by decide +kernel)⟩
  intro f hf
  simp only [List.mem_cons, List.not_mem_nil, or_false] at hf
  rcases hf with rfl | rfl
  · exact ⟨_, _, rfl, rfl, rfl, rfl⟩
  · exact ⟨_, _, rfl, rfl, rfl, trivial⟩

end Patsy.Props
