import Verif.Props.Rank
import Verif.Props.Builders
import Verif.Props.Poly

/-!
# C03 for what `design_matrix_builders` makes, and for the contrasts that come with patsy
-/

set_option linter.unusedSectionVars false

namespace Patsy.Props

open Patsy.Build Patsy.Cat Patsy.Contrast Patsy.Spec Patsy.Desc Patsy.Redundancy Patsy.Rank

variable {F D K : Type} [DecidableEq F] [Field K]

/-- A contrast whose two codings of the given levels are bases. -/
def GoodContrast (default : Contrast.Spec K) (levels : List PyVal) (contrast : Contrast.Spec K) : Prop :=
  (∃ cm A B, codeContrastMatrix false levels contrast default = .ok cm ∧ IsReduced cm levels.length A B) ∧
    ∃ cm B, codeContrastMatrix true levels contrast default = .ok cm ∧ IsFull cm levels.length B

/-- The contrasts that come with patsy, apart from `Poly`, as classes or with arguments. -/
inductive Builtin (readable : PyVal → String) (levels : List PyVal) : Contrast.Spec K → Prop
  | treatment {reference : Option PyVal} {r : Nat} (h : chosenLevel levels reference 0 = .ok r) (hlt : r < levels.length) :
      Builtin readable levels (.coding (dummyCode readable) (treatment readable reference))
  | sum {omitted : Option PyVal} {o : Nat} (h : chosenLevel levels omitted (levels.length - 1) = .ok o)
      (hlt : o < levels.length) : Builtin readable levels (.coding (sumWith readable omitted) (sumWithout readable omitted))
  | helmert : Builtin readable levels (.coding (helmertWith readable) (helmertWithout readable))
  | diff {argsort : List Nat → List Nat} (h : IsArgsort argsort) :
      Builtin readable levels (.coding (diffWith readable argsort) (diffWithout readable argsort))

/-- The contrasts that come with patsy are good, for every nonempty list of levels. -/
theorem builtin_good [CharZero K] {readable : PyVal → String} {levels : List PyVal} (hne : levels ≠ [])
    {contrast default : Contrast.Spec K} (h : Builtin readable levels contrast) :
    GoodContrast default levels contrast ∧ GoodContrast default levels (.callable contrast) ∧
      GoodContrast contrast levels .none ∧ GoodContrast (.callable contrast) levels .none := by
  have key : ∀ {w wo : List PyVal → Except Err (ContrastMatrix K)},
      (∃ cm A B, wo levels = .ok cm ∧ IsReduced cm levels.length A B) →
      (∃ cm B, w levels = .ok cm ∧ IsFull cm levels.length B) →
      GoodContrast default levels (.coding w wo) ∧ GoodContrast default levels (.callable (.coding w wo)) ∧
        GoodContrast (.coding w wo) levels .none ∧ GoodContrast (.callable (.coding w wo)) levels .none :=
    fun h1 h2 => ⟨⟨h1, h2⟩, ⟨h1, h2⟩, ⟨h1, h2⟩, ⟨h1, h2⟩⟩
  cases h with
  | treatment h hlt =>
    obtain ⟨c, h1, _, h2⟩ := treatment_meaning (K := K) readable h hlt
    obtain ⟨c', h1', _, h2'⟩ := dummy_meaning (K := K) readable levels
    exact key ⟨c, _, _, h1, h2⟩ ⟨c', _, h1', h2'⟩
  | sum h hlt =>
    obtain ⟨⟨c, h1, _, h2⟩, c', h1', _, h2'⟩ := sum_meaning (K := K) readable h hlt
    exact key ⟨c, _, _, h1, h2⟩ ⟨c', _, h1', h2'⟩
  | helmert =>
    obtain ⟨⟨c, h1, _, h2⟩, c', h1', _, h2'⟩ := helmert_meaning (K := K) readable hne
    exact key ⟨c, _, _, h1, h2⟩ ⟨c', _, h1', h2'⟩
  | diff h =>
    obtain ⟨⟨c, h1, _, h2⟩, c', h1', _, h2'⟩ := diff_meaning (K := K) readable h hne
    exact key ⟨c, _, _, h1, h2⟩ ⟨c', _, h1', h2'⟩

/-- `Poly` (over the real numbers) is good for distinct scores, for example the default ones. -/
theorem poly_good {qr : Nat → (Nat → Nat → ℝ) → (Nat → Nat → ℝ) × (Nat → Nat → ℝ)} {scores : Option (List ℝ)}
    {levels : List PyVal} {s : List ℝ}
    (hqr : IsQR s.length (rawPoly s) (qr s.length (rawPoly s)).1 (qr s.length (rawPoly s)).2)
    (hs : scores.getD ((List.range levels.length).map fun (i : Nat) => (i : ℝ)) = s)
    (hlen : s.length = levels.length) (hd : s.Nodup) (hne : levels ≠ []) {contrast default : Contrast.Spec ℝ}
    (h : contrast = .coding (poly qr scores true) (poly qr scores false)) :
    GoodContrast default levels contrast ∧ GoodContrast default levels (.callable contrast) ∧
      GoodContrast contrast levels .none ∧ GoodContrast (.callable contrast) levels .none := by
  obtain ⟨⟨c, h1, _, h2⟩, c', _, h1', _, h2'⟩ := poly_meaning hqr hs hlen hd hne
  subst h
  exact ⟨⟨⟨c, _, _, h1, h2⟩, c', _, h1', h2'⟩, ⟨⟨c, _, _, h1, h2⟩, c', _, h1', h2'⟩, ⟨⟨c, _, _, h1, h2⟩, c', _, h1', h2'⟩,
    ⟨⟨c, _, _, h1, h2⟩, c', _, h1', h2'⟩⟩

/-- **C03** for what `design_matrix_builders` makes.  It finds levels and a contrast for each factor of a list of terms
(`typeOf types`); if all factors are categorical and their contrasts are good, then the columns of the matrix of this design
on any data that contain every combination of levels are linearly independent and span the space of the model. -/
theorem builders_basis {H : Type} [DecidableEq H] {P : Setting F D K H} (hv : ∀ l, (P.visit l).Perm l)
    {chunks : List D} {tls : List (List (Term F))} (hnd : ∀ tl ∈ tls, ∀ t ∈ tl, t.factors.Nodup)
    {dis : List (DesignInfo F D K)} (h : designMatrixBuilders P chunks tls = .ok dis) :
    ∃ eval types, P.memorize (P.visit (allFactors tls)) = .ok eval ∧
      examineTypes P.na P.order P.visit (fun f d => do pure (← eval f d).value) chunks (P.visit (allFactors tls)) =
        .ok types ∧
      List.Forall₂ (fun tl d => ∀ levels : F → List PyVal,
        (∀ t ∈ tl, ∀ f ∈ t.factors, ∃ contrast, typeOf types f = some (.categorical (levels f) contrast) ∧
          GoodContrast P.default (levels f) (contrast.getD .none)) →
        Separates P.hash (fun _ => false) (tl.map (·.factors)) →
        ∀ c, d.coding = some c → ∀ rows cols, IsMatrix c rows cols →
        (∀ cells ∈ rows, ∀ t ∈ tl, ∀ f ∈ t.factors, levelAt cells f < (levels f).length) →
        FullyCrossed tl (fun f => (levels f).length) rows →
        LinearIndependent K (columnVectors rows.length cols) ∧
        Submodule.span K (Set.range (columnVectors rows.length cols)) =
          Submodule.span K (⋃ t ∈ tl, {φ | DependsOnly rows t.factors φ})) tls dis := by
  obtain ⟨eval, types, infos, he, ht, hinfo, hd⟩ := builders_ok hv h
  refine ⟨eval, types, he, ht, ?_⟩
  have hd' : List.Forall₂ (fun tl d => tl ∈ tls ∧
      makeDesign P.name P.hash types.1 (coderOf P.default types.2) infos tl = .ok d) tls dis := by
    rw [List.forall₂_iff_get] at hd ⊢
    exact ⟨hd.1, fun i h1 h2 => ⟨List.get_mem _ _, hd.2 i h1 h2⟩⟩
  refine hd'.imp ?_
  rintro tl d ⟨htl, hm⟩ levels hlev hsep c hc rows cols hmat hrows hall
  have hcat : ∀ t ∈ tl, ∀ f ∈ t.factors, dictGet types.1 f = none := by
    intro t ht' f hf
    obtain ⟨contrast, h1, _⟩ := hlev t ht' f hf
    cases hn : dictGet types.1 f with
    | none => rfl
    | some n => simp [typeOf, hn] at h1
  refine categorical_basis (hnd tl htl) ?_ hcat (n := fun f => (levels f).length) ?_ hm hc hmat hrows hall
  · have hpart : ∀ t ∈ tl, catPart (fun f => (dictGet types.1 f).isSome) t.factors = catPart (fun _ => false) t.factors := by
      intro t ht'
      unfold catPart
      refine List.filter_congr fun f hf => ?_
      simp [hcat t ht' f hf]
    intro S T hS hT
    apply hsep
    · obtain ⟨t0, ht0, h'⟩ := hS
      obtain ⟨t, ht', rfl⟩ := List.mem_map.mp ht0
      exact ⟨_, List.mem_map.mpr ⟨t, ht', rfl⟩, by rw [← hpart t ht']; exact h'⟩
    · obtain ⟨t0, ht0, h'⟩ := hT
      obtain ⟨t, ht', rfl⟩ := List.mem_map.mp ht0
      exact ⟨_, List.mem_map.mpr ⟨t, ht', rfl⟩, by rw [← hpart t ht']; exact h'⟩
  · intro t ht' f hf hn
    obtain ⟨contrast, h1, h2, h3⟩ := hlev t ht' f hf
    simp only [typeOf, hn, Option.map_eq_some_iff, FactorType.categorical.injEq] at h1
    obtain ⟨lc, h4, h5, h6⟩ := h1
    have hco : ∀ full, coderOf P.default types.2 f full =
        codeContrastMatrix full (levels f) (contrast.getD .none) P.default := by
      intro full
      rw [coderOf, h4]
      simp only
      rw [h5, h6]
    simp only [hco]
    exact ⟨h2, h3⟩

/-! ### Examples -/

namespace RankSample

def readable : PyVal → String
  | .str s => s
  | _ => "?"

/-- The factor `a` has two levels, `b` has three; `x` is numerical. -/
def cats : List (String × List PyVal × Option (Contrast.Spec ℚ)) :=
  [("a", [.str "a1", .str "a2"], none), ("b", [.str "b1", .str "b2", .str "b3"],
    some (.coding (sumWith readable none) (sumWithout readable none)))]

def infos : List (String × FactorInfo String Unit ℚ) :=
  [("a", ⟨0, "a", .categorical 2, fun _ _ => .error .keyError⟩), ("b", ⟨1, "b", .categorical 3, fun _ _ => .error .keyError⟩),
    ("x", ⟨2, "x", .numerical 1, fun _ _ => .error .keyError⟩)]

def coder : String → Bool → Except Err (ContrastMatrix ℚ) :=
  coderOf (.callable (.coding (dummyCode readable) (treatment readable none))) cats

def count (f : String) : Nat := if f = "a" then 2 else if f = "b" then 3 else 0

/-- `1 + a:b`. -/
def crossed : List (Term String) := [⟨[]⟩, ⟨["a", "b"]⟩]

/-- A row with the levels `i` of `a` and `j` of `b`. -/
def cell (i j : Nat) (f : String) : Option (Cell ℚ) :=
  if f = "a" then some (.code i) else if f = "b" then some (.code j) else none

def rows : List (String → Option (Cell ℚ)) := [cell 0 0, cell 0 1, cell 0 2, cell 1 0, cell 1 1, cell 1 2]

def design : Except Err (DesignInfo String Unit ℚ) := makeDesign id (fun s => s) [] coder infos crossed

/-- The columns of the matrix. -/
def columns (d : DesignInfo String Unit ℚ) (rows : List (String → Option (Cell ℚ))) : Option (List (List ℚ)) :=
  match d.coding with
  | none => none
  | some c => (columnsOf c).mapM fun col => rows.mapM fun cells => columnEntry c cells col

theorem columns_isMatrix {d : DesignInfo String Unit ℚ} {c : Coding String Unit ℚ} (hc : d.coding = some c)
    {rows : List (String → Option (Cell ℚ))} {cols : List (List ℚ)} (h : columns d rows = some cols) :
    IsMatrix c rows cols := by
  rw [columns, hc] at h
  exact mapM_some.mp h

theorem coded (nums : List (String × Nat)) (ts : List (Term String))
    (h : ∀ t ∈ ts, ∀ f ∈ t.factors, dictGet nums f = none → f = "a" ∨ f = "b") : CodedByBases nums coder ts count := by
  intro t ht f hf hn
  rcases h t ht f hf hn with rfl | rfl
  · exact (builtin_good (default := .none) (levels := [.str "a1", .str "a2"]) (by simp)
      (.treatment (readable := readable) (reference := none) (r := 0) rfl (by decide))).2.2.2
  · exact (builtin_good (default := .callable (.coding (dummyCode readable) (treatment readable none)))
      (levels := [.str "b1", .str "b2", .str "b3"]) (by simp)
      (.sum (readable := readable) (omitted := none) (o := 2) rfl (by decide))).1

end RankSample

namespace RankSample

theorem design_ok : isOk design = true := by decide +kernel

/-- The columns of `1 + a:b` on the rows above. -/
def crossedColumns : List (List ℚ) :=
  [[1, 1, 1, 1, 1, 1], [1, 0, -1, 1, 0, -1], [0, 1, -1, 0, 1, -1],
    [0, 0, 0, 1, 1, 1], [0, 0, 0, 1, 0, -1], [0, 0, 0, 0, 1, -1]]

theorem fully : FullyCrossed crossed count rows := by
  intro g hg
  have ha : g "a" < 2 := hg ⟨["a", "b"]⟩ (by decide) "a" (by decide)
  have hb : g "b" < 3 := hg ⟨["a", "b"]⟩ (by decide) "b" (by decide)
  refine ⟨cell (g "a") (g "b"), ?_, ?_⟩
  · have h1 : g "a" = 0 ∨ g "a" = 1 := by omega
    have h2 : g "b" = 0 ∨ g "b" = 1 ∨ g "b" = 2 := by omega
    rcases h1 with h1 | h1 <;> rcases h2 with h2 | h2 | h2 <;> rw [h1, h2] <;> simp [rows]
  · intro t ht f hf
    simp only [crossed, List.mem_cons, List.not_mem_nil, or_false] at ht
    rcases ht with rfl | rfl
    · simp at hf
    · simp only [List.mem_cons, List.not_mem_nil, or_false] at hf
      rcases hf with rfl | rfl <;> rfl

/-- `1 + a + x`, with two values of `x` for each level of `a`. -/
def mixed : List (Term String) := [⟨[]⟩, ⟨["a"]⟩, ⟨["x"]⟩]

def mixedCell (i : Nat) (x : ℚ) (f : String) : Option (Cell ℚ) :=
  if f = "a" then some (.code i) else if f = "x" then some (.num [x]) else none

def mixedRows : List (String → Option (Cell ℚ)) := [mixedCell 0 1, mixedCell 0 2, mixedCell 1 3, mixedCell 1 5]

def mixedColumns : List (List ℚ) := [[1, 1, 1, 1], [0, 0, 1, 1], [1, 2, 3, 5]]

def mixedDesign : Except Err (DesignInfo String Unit ℚ) := makeDesign id (fun s => s) [("x", 1)] coder infos mixed

theorem mixedDesign_ok : isOk mixedDesign = true := by decide +kernel

theorem numsFit : NumsFit [("x", 1)] infos mixed := by
  intro t ht f hf m hm
  by_cases hx : f = "x"
  · subst hx
    obtain rfl : 1 = m := Option.some.inj hm
    exact ⟨_, rfl, rfl⟩
  · have : ¬ "x" = f := fun h => hx h.symm
    simp [dictGet, this] at hm

theorem mixed_monomial {k : Finset (String × Nat)} (h : ∃ t ∈ mixed, MonomialOf [("x", 1)] t k) :
    k = ∅ ∨ k = {("x", 0)} := by
  obtain ⟨t, ht, j, hj, rfl⟩ := h
  simp only [mixed, List.mem_cons, List.not_mem_nil, or_false] at ht
  rcases ht with rfl | rfl | rfl
  · exact .inl rfl
  · exact .inl rfl
  · have : j "x" = 0 := by
      have := hj "x" (by simp) 1 rfl
      omega
    refine .inr ?_
    have hfil : (["x"].filter fun f => (dictGet [("x", 1)] f).isSome) = ["x"] := by decide
    rw [hfil]
    simp [this]

theorem rich : Rich [("x", 1)] mixed count mixedRows := by
  intro g hg
  have ha : g "a" < 2 := hg ⟨["a"]⟩ (by decide) "a" (by decide) (by decide)
  suffices hs : LinearIndepOn ℚ (fun (k : Finset (String × Nat))
      (i : {i : Fin mixedRows.length // HasLevels [("x", 1)] mixed g mixedRows[i]}) => monomial mixedRows[i.1] k)
      {∅, {("x", 0)}} from hs.mono fun k hk => mixed_monomial hk
  have hrow : ∀ i : Nat, (hi : i < mixedRows.length) → levelAt mixedRows[i] "a" = g "a" →
      HasLevels [("x", 1)] mixed g mixedRows[i] := by
    intro i hi h t ht f hf hn
    simp only [mixed, List.mem_cons, List.not_mem_nil, or_false] at ht
    rcases ht with rfl | rfl | rfl
    · simp at hf
    · simp only [List.mem_cons, List.not_mem_nil, or_false] at hf
      rw [hf]
      exact h
    · simp only [List.mem_cons, List.not_mem_nil, or_false] at hf
      rw [hf] at hn
      exact absurd hn (by decide)
  rw [LinearIndepOn.pair_iff _ (by decide)]
  intro u v h
  have key : ∀ i : Nat, (hi : i < mixedRows.length) → levelAt mixedRows[i] "a" = g "a" →
      u + v * numberAt mixedRows[i] "x" 0 = 0 := by
    intro i hi hl
    have := congrFun h ⟨⟨i, hi⟩, hrow i hi hl⟩
    simpa [monomial] using this
  have h2 : g "a" = 0 ∨ g "a" = 1 := by omega
  rcases h2 with h2 | h2
  · have e1 : u + v * 1 = 0 := key 0 (by decide) (by rw [h2]; rfl)
    have e2 : u + v * 2 = 0 := key 1 (by decide) (by rw [h2]; rfl)
    constructor <;> linarith
  · have e1 : u + v * 3 = 0 := key 2 (by decide) (by rw [h2]; rfl)
    have e2 : u + v * 5 = 0 := key 3 (by decide) (by rw [h2]; rfl)
    constructor <;> linarith

end RankSample

open RankSample in
/-- Example: `1 + a:b` with Treatment coding of `a` and Sum coding of `b`, on data with every combination of levels.  The
matrix has six columns; they are a basis of all functions of the two levels. -/
example : ∃ d c, design = .ok d ∧ d.coding = some c ∧ IsMatrix c rows crossedColumns ∧
    LinearIndependent ℚ (columnVectors rows.length crossedColumns) ∧
    Submodule.span ℚ (Set.range (columnVectors rows.length crossedColumns)) =
      Submodule.span ℚ (⋃ t ∈ crossed, {φ | DependsOnly rows t.factors φ}) := by
  obtain ⟨c, hc, _⟩ := makeDesign_isDesign (getOk_eq design_ok)
  have hm : IsMatrix c rows crossedColumns := columns_isMatrix hc (by decide +kernel)
  refine ⟨_, c, getOk_eq design_ok, hc, hm, categorical_basis (by decide) (fun _ _ _ _ h => minusPiece_injective h)
    (fun _ _ _ _ => rfl) (coded [] crossed (by decide)) (getOk_eq design_ok) hc hm (by decide) fully⟩

open RankSample in
/-- Example: `1 + a + x` on data with two values of `x` for each level of `a`. -/
example : ∃ d c, mixedDesign = .ok d ∧ d.coding = some c ∧
    IsMatrix c mixedRows mixedColumns ∧
    LinearIndependent ℚ (columnVectors mixedRows.length mixedColumns) ∧
    Submodule.span ℚ (Set.range (columnVectors mixedRows.length mixedColumns)) =
      Submodule.span ℚ (⋃ t ∈ mixed, termFunctions [("x", 1)] mixedRows t) := by
  obtain ⟨c, hc, _⟩ := makeDesign_isDesign (getOk_eq mixedDesign_ok)
  have hm : IsMatrix c mixedRows mixedColumns := columns_isMatrix hc (by decide +kernel)
  refine ⟨_, c, getOk_eq mixedDesign_ok, hc, hm, ?_, ?_⟩
  · exact columns_independent (by decide) (fun _ _ _ _ h => minusPiece_injective h) numsFit
      (coded [("x", 1)] mixed (by decide)) (getOk_eq mixedDesign_ok) hc hm rich
  · exact columns_span (by decide) (fun _ _ _ _ h => minusPiece_injective h) numsFit
      (coded [("x", 1)] mixed (by decide)) (getOk_eq mixedDesign_ok) hc hm (by unfold Combination; decide)

open RankSample in
/-- The hypothesis on the data is needed: without the last row, the columns are not independent. -/
example : ¬ LinearIndependent ℚ (columnVectors 5 (crossedColumns.map (List.take 5))) := by
  intro h
  have := h.fintype_card_le_finrank
  simp [crossedColumns] at this

open BuilderSample in
/-- Example for `builders_basis`: the design of `1 + a` that is made from two chunks of data; three levels are found. -/
example : ∃ dis types, designMatrixBuilders setting chunks [[⟨[]⟩, ⟨["a"]⟩]] = .ok dis ∧
    examineTypes setting.na setting.order setting.visit (fun f d => do pure (← look f d).value) chunks ["a"] = .ok types ∧
    typeOf types "a" = some (.categorical [.str "u", .str "v", .str "w"] none) ∧
    GoodContrast setting.default [.str "u", .str "v", .str "w"] .none := by
  have h1 : isOk (designMatrixBuilders setting chunks [[⟨[]⟩, ⟨["a"]⟩]]) = true := by decide +kernel
  have h2 : isOk (examineTypes setting.na setting.order setting.visit (fun f d => do pure (← look f d).value) chunks
    ["a"]) = true := by decide +kernel
  refine ⟨_, _, getOk_eq h1, getOk_eq h2, by rfl, ?_⟩
  exact (builtin_good (default := .none) (levels := [.str "u", .str "v", .str "w"]) (by simp)
      (.treatment (readable := BuilderSample.readable) (reference := none) (r := 0) rfl (by decide))).2.2.1

end Patsy.Props
