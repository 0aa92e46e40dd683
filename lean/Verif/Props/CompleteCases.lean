import Verif.Lemmas.CompleteCases
import Verif.Model.State
import Verif.Props.Reorder

/-!
# C80: removing incomplete rows by hand
-/

set_option linter.unusedSectionVars false

namespace Patsy.Props

open Patsy.Spec Patsy.Build Patsy.Desc Patsy.Cat

variable {F D K H : Type} [DecidableEq F] [DecidableEq H] {n : Nat}

variable [Mul K] [One K]

/-- **C80**.  Rows are removed from the data before the call: `ks` lists the numbers of the rows that are left, and no row is
removed that would have been kept (none of the factors is missing in it).  If the factors of a formula are evaluated row by row,
remember the same states, and no level of a categorical factor is lost (`Thinned`), then the call succeeds again with the same
design and the same matrices, and the rows have the same labels if there are labels.  With `NA_action="raise"` the same holds
if exactly the complete rows are left. -/
theorem complete_cases {P P' : Setting F D K H} (hw : World P) (ho : ∀ l, (P.order l).Perm l) {ks : List Nat}
    (hks : ks.Pairwise (· < ·)) {isnan : K → Bool} {dataIndex dataIndex' : Option (List Build.Label)}
    (hdi : PickedLabels n ks dataIndex dataIndex') {data data' : D} {rt : ReturnType} {f : FormulaLike F D K}
    (hf : Sound data f) {m : ModelDesc F} (hm : modelOf f = some m)
    (hS : Thinned n ks P P' data data' (P.visit (allFactors [m.lhs, m.rhs])))
    (hleft : ∀ eval types, Learned P data m eval types →
      (∀ r, r < n → keeps P.na isnan types (fun f => eval f data) (allFactors [m.lhs, m.rhs]) r = true → r ∈ ks) ∧
      (P'.na.onNA = .raise → ∀ r ∈ ks, keeps P.na isnan types (fun f => eval f data) (allFactors [m.lhs, m.rhs]) r = true))
    {t : Table F D K × Table F D K} (h : highLevelDesign P isnan dataIndex data rt f = .ok t) :
    ∃ t' eval types, highLevelDesign P' isnan dataIndex' data' rt f = .ok t' ∧ Learned P data m eval types ∧
      SameComplete n ks (keeps P.na isnan types (fun f => eval f data) (allFactors [m.lhs, m.rhs]))
        (Indexed dataIndex (allFactors [m.lhs, m.rhs]) fun f => eval f data) (rt = .dataframe) t.1 t'.1 ∧
      SameComplete n ks (keeps P.na isnan types (fun f => eval f data) (allFactors [m.lhs, m.rhs]))
        (Indexed dataIndex (allFactors [m.lhs, m.rhs]) fun f => eval f data) (rt = .dataframe) t.2 t'.2 := by
  obtain ⟨hrt, _, hbuild, hi, _, _, _, _, _, hb⟩ := highLevel_built hw hf (by cases f <;> trivial) h
  have hb := hb m hm
  have hnd : ∀ tl ∈ [m.lhs, m.rhs], ∀ t ∈ tl, t.factors.Nodup := by
    have : ∀ t ∈ m.lhs ++ m.rhs, t.factors.Nodup := by
      cases f <;> first | exact hf m hm | simp [modelOf] at hm
    intro tl htl t ht
    simp only [List.mem_cons, List.not_mem_nil, or_false] at htl
    rcases htl with rfl | rfl
    · exact this t (by simp [ht])
    · exact this t (by simp [ht])
  obtain ⟨cs, hcs, hid, hfits, _⟩ := builders_sound hw hnd hb
  obtain ⟨eval, types, he, ht, hfrom, hto⟩ := made_factors hw.visits hb hcs
  have hmem : ∀ {g}, g ∈ allFactors [m.lhs, m.rhs] → g ∈ P.visit (allFactors [m.lhs, m.rhs]) :=
    fun h => (hw.visits _).mem_iff.mpr h
  have hmove : ∀ fi ∈ Spec.factorsOf cs, ∀ v i, fi.eval P.na.types data = .ok (v, i) →
      ∃ v' i', fi.eval P.na.types data' = .ok (v', i') ∧ PickedVal n ks v v' ∧ PickedLabels n ks i i' := by
    intro fi hfi v i hv
    obtain ⟨g, hg, uid, hgi⟩ := hfrom fi hfi
    refine factorEval_picked hgi (fun s hs => ?_) hv
    obtain ⟨s', h1, h2, _⟩ := hS.values eval he g (hmem hg) s hs
    exact ⟨s', h1, h2⟩
  obtain ⟨V, idx, hev, hnext⟩ :=
    build_picked hks hS.missing hdi (by simp) hcs hid (hfits P.na.types) hmove hbuild
  have hkept : complete P.na isnan (Spec.factorsOf cs) V =
      keeps P.na isnan types (fun f => eval f data) (allFactors [m.lhs, m.rhs]) := by
    funext r
    have hcell : ∀ {g uid fi}, fi ∈ Spec.factorsOf cs → factorInfo eval types.1 types.2 uid g = .ok fi →
        cellOf (V fi) r = factorCell P.na types (fun f => eval f data) r g := by
      intro g uid fi hfi hgi
      obtain ⟨i, hi, _⟩ := hev.value fi hfi
      exact cellOf_factorCell hgi hi r
    rw [Bool.eq_iff_iff, complete, keeps, List.all_eq_true, List.all_eq_true]
    constructor
    · intro hall g hg
      obtain ⟨fi, hfi, uid, hgi⟩ := hto g hg
      rw [← hcell hfi hgi]
      exact hall fi hfi
    · intro hall fi hfi
      obtain ⟨g, hg, uid, hgi⟩ := hfrom fi hfi
      rw [hcell hfi hgi]
      exact hall g hg
  have hindexed : (dataIndex ≠ none ∨ ∃ fi ∈ Spec.factorsOf cs, ∃ v l, fi.eval P.na.types data = .ok (v, some l)) ↔
      Indexed dataIndex (allFactors [m.lhs, m.rhs]) fun f => eval f data := by
    refine or_congr Iff.rfl ⟨?_, ?_⟩
    · rintro ⟨fi, hfi, v, l, hv⟩
      obtain ⟨g, hg, uid, hgi⟩ := hfrom fi hfi
      obtain ⟨s, h1, h2⟩ := factorInfo_seen hgi hv
      exact ⟨g, hg, s, h1, by simp [← h2]⟩
    · rintro ⟨g, hg, s, h1, h2⟩
      obtain ⟨fi, hfi, uid, hgi⟩ := hto g hg
      obtain ⟨i, hi, _⟩ := hev.value fi hfi
      obtain ⟨s', h3, rfl⟩ := factorInfo_seen hgi hi
      obtain rfl : s = s' := Except.ok.inj (h1.symm.trans h3)
      obtain ⟨l, hl⟩ := Option.ne_none_iff_exists'.mp h2
      exact ⟨fi, hfi, _, l, hl ▸ hi⟩
  obtain ⟨hl1, hl2⟩ := hleft eval types ⟨he, ht⟩
  rw [hkept] at hnext
  obtain ⟨b', hbuild', hmats, hnone, hlabels, hnumbers⟩ := hnext hl1 hl2
  rw [hindexed] at hlabels hnumbers
  have hb' := builders_picked hw.visits ho hS hb
  refine ⟨(⟨t.1.info, t.1.mat, b'.index⟩, ⟨t.2.info, t.2.mat, b'.index⟩), eval, types, ?_, ⟨he, ht⟩, ?_, ?_⟩
  · simp only [highLevelDesign, if_neg hrt, tryIncrBuilders_model P' [data'] hm, descBuilders, hb', ok_bind]
    simp only [pure, Except.pure, ok_bind, hbuild']
    rw [asTables_ok]
    exact ⟨rfl, hmats, rfl, rfl⟩
  · exact ⟨rfl, rfl, hnone, hlabels, hnumbers⟩
  · refine ⟨rfl, rfl, ?_, ?_, ?_⟩
    all_goals rw [hi]
    · exact hnone
    · exact hlabels
    · exact hnumbers

/-! ### Example -/

namespace CompleteSample

open BuilderSample HighSample ReorderSample

/-- One value of `x` is missing; the levels `u` and `w` of `a` also occur in other rows. -/
def all : Data := [(1, 2, "u"), (3, 4, "w"), (5, 99, "w"), (7, 8, "u")]

def rest : Data := [(1, 2, "u"), (3, 4, "w"), (7, 8, "u")]

/-- The same setting with `NA_action="raise"`. -/
def strict : Setting String Data ℚ (Redundancy.Subterm String) :=
  { ReorderSample.setting with na := { onNA := .raise } }

theorem picked : Picked 4 [0, 1, 3] all rest := ⟨rfl, rfl⟩

theorem sound_all : Sound all formula := by
  rintro m ⟨⟩ t ht
  revert t
  decide

theorem thinned (fs : List String) : Thinned 4 [0, 1, 3] ReorderSample.setting strict all rest fs where
  same := ⟨rfl, rfl, rfl, rfl, rfl⟩
  missing := rfl
  memorize eval h := ⟨eval, h, fun _ _ => rfl⟩
  values eval h f _ s hs := by
    cases h
    have hnum : ∀ g : ℚ × ℚ × String → ℚ, s = (⟨.raw (.array .number 1 1 (all.map fun r => .float (g r))), all.map fun r => [g r], none⟩ : Seen ℚ) →
        PickedSeen 4 [0, 1, 3] s ⟨.raw (.array .number 1 1 (rest.map fun r => .float (g r))), rest.map fun r => [g r], none⟩ ∧
          LevelsLeft ReorderSample.setting.na s.value (.raw (.array .number 1 1 (rest.map fun r => .float (g r)))) ∧
          Spec.Plain ReorderSample.setting.na s.value := by
      rintro g rfl
      exact ⟨⟨⟨rfl, rfl, rfl, fun _ => picked_map _ picked⟩, fun _ => picked_map _ picked, trivial⟩,
        by simp [LevelsLeft, sniffed], by simp [Spec.Plain, sniffed, withBools]⟩
    by_cases h1 : f = "y"
    · simp only [ReorderSample.look, if_pos h1] at hs ⊢
      exact ⟨_, rfl, hnum _ (Except.ok.inj hs).symm⟩
    by_cases h2 : f = "x"
    · simp only [ReorderSample.look, if_neg h1, if_pos h2] at hs ⊢
      exact ⟨_, rfl, hnum _ (Except.ok.inj hs).symm⟩
    by_cases h3 : f = "a"
    · simp only [ReorderSample.look, if_neg h1, if_neg h2, if_pos h3] at hs ⊢
      cases hs
      refine ⟨_, rfl, ⟨⟨rfl, rfl, rfl, fun _ => picked_map _ picked⟩, ?_, trivial⟩, ?_, ?_⟩
      · rintro ⟨_, _, _, h⟩
        cases h
      · intro w hw _
        simp only [sniffed, all, List.map_cons, List.map_nil, List.mem_cons, List.not_mem_nil, or_false] at hw
        rcases hw with rfl | rfl | rfl | rfl <;> simp [sniffed, rest, withBools]
      · exact plain_strings _ (all.map fun r => r.2.2)
    · simp only [ReorderSample.look, if_neg h1, if_neg h2, if_neg h3] at hs
      cases hs

def allResult : Except Err (Table String Data ℚ × Table String Data ℚ) :=
  highLevelDesign ReorderSample.setting ReorderSample.isnan none all .dataframe formula

def restResult : Except Err (Table String Data ℚ × Table String Data ℚ) :=
  highLevelDesign strict ReorderSample.isnan none rest .dataframe formula

theorem all_ok : isOk allResult = true := by decide +kernel

theorem rest_ok : isOk restResult = true := by decide +kernel

/-- The rows that are left are exactly the complete ones. -/
theorem left : ∀ eval types, Learned ReorderSample.setting all ⟨[⟨["y"]⟩], [⟨[]⟩, ⟨["a"]⟩, ⟨["x"]⟩]⟩ eval types →
    ∀ r, r < 4 → (keeps ReorderSample.setting.na ReorderSample.isnan types (fun f => eval f all)
      (allFactors [[⟨["y"]⟩], [⟨[]⟩, ⟨["a"]⟩, ⟨["x"]⟩]]) r = true ↔ r ∈ [0, 1, 3]) := by
  rintro eval types ⟨he, ht⟩
  cases he
  have hex : ∀ (x : Except Err (Types String ℚ)), x = .ok types → ∀ p : Types String ℚ → Bool,
      (match x with | .ok t => p t | .error _ => true) = true → p types = true := by
    rintro x rfl p h
    exact h
  intro r hr
  have := hex _ ht (fun types => (List.range 4).all fun r => keeps ReorderSample.setting.na ReorderSample.isnan types (fun f => ReorderSample.look f all)
      (allFactors [[⟨["y"]⟩], [⟨[]⟩, ⟨["a"]⟩, ⟨["x"]⟩]]) r == decide (r ∈ [0, 1, 3])) (by decide +kernel)
  have := List.all_eq_true.mp this r (List.mem_range.mpr hr)
  rw [beq_iff_eq] at this
  rw [this, decide_eq_true_iff]

end CompleteSample

open CompleteSample ReorderSample in
/-- Example for `complete_cases`: four rows, one of them incomplete.  Removed by hand, the others pass with `"raise"`, with the
same matrices.  There are no labels, so that the rows are numbered anew. -/
example : World ReorderSample.setting ∧ Sound all formula ∧ (∀ fs, Thinned 4 [0, 1, 3] ReorderSample.setting strict all rest fs) ∧
    ∃ t t', allResult = .ok t ∧ restResult = .ok t' ∧ t'.1.mat = t.1.mat ∧ t'.2.mat = t.2.mat ∧
      t.2.info.columnNames = ["Intercept", "a[T.w]", "x"] ∧ t.2.mat = ⟨3, [[1, 1, 1], [0, 1, 0], [2, 4, 8]]⟩ ∧
      t.2.index = some [.row 0, .row 1, .row 3] ∧ t'.2.index = some [.row 0, .row 1, .row 2] :=
  ⟨world, sound_all, thinned, getOk _ all_ok, getOk _ rest_ok, getOk_eq _, getOk_eq _, by decide +kernel, by decide +kernel,
    by decide +kernel, by decide +kernel, by decide +kernel, by decide +kernel⟩

/-! ### The conditions are needed -/

namespace CompleteSample

open BuilderSample HighSample ReorderSample

/-- Here the level `v` occurs only in the incomplete row. -/
def old' : Data := [(1, 2, "u"), (3, 4, "w"), (7, 8, "u")]

theorem old'_ok : isOk (highLevelDesign ReorderSample.setting ReorderSample.isnan none old' .matrix formula) = true := by
  decide +kernel

theorem old_ok' : isOk (highLevelDesign ReorderSample.setting ReorderSample.isnan none old .matrix formula) = true := by
  decide +kernel

end CompleteSample

open CompleteSample ReorderSample in
/-- **C80**, lost levels.  If a level occurs in incomplete rows only, its column is in the matrix (all zeros) unless the
incomplete rows are removed by hand. -/
theorem lost_level : World ReorderSample.setting ∧ Picked 4 [0, 1, 3] old old' ∧
    ∃ t t', highLevelDesign ReorderSample.setting ReorderSample.isnan none old .matrix formula = .ok t ∧
      highLevelDesign ReorderSample.setting ReorderSample.isnan none old' .matrix formula = .ok t' ∧
      t.2.info.columnNames = ["Intercept", "a[T.v]", "a[T.w]", "x"] ∧ t.2.mat = ⟨3, [[1, 1, 1], [0, 0, 0], [0, 1, 0], [2, 4, 8]]⟩ ∧
      t'.2.info.columnNames = ["Intercept", "a[T.w]", "x"] ∧ t'.2.mat = ⟨3, [[1, 1, 1], [0, 1, 0], [2, 4, 8]]⟩ :=
  ⟨world, ⟨rfl, rfl⟩, getOk _ old_ok', getOk _ old'_ok, getOk_eq _, getOk_eq _, by decide +kernel, by decide +kernel,
    by decide +kernel, by decide +kernel⟩

namespace CompleteSample

open BuilderSample HighSample

/-- `y` and `center(x)`, where `center` has memorised the data `seen`. -/
def centred (seen : Data) (f : String) (d : Data) : Except Err (Seen ℚ) :=
  if f = "y" then .ok ⟨.raw (.array .number 1 1 (d.map fun r => .float r.1)), d.map fun r => [r.1], none⟩
  else if f = "center(x)" then do
    let col (d : Data) : List (State.Row Unit ℚ) := d.map fun r _ => r.2.1
    let v ← State.centerT.transform (State.centerT.memorized [col seen]) (col d)
    .ok ⟨.raw (.array .number 1 1 (v.map fun r => .float (r ()))), v.map fun r => [r ()], none⟩
  else .error .nameError

/-- Setting up and building on the data `seen`. -/
def centring (seen : Data) : Setting String Data ℚ (Redundancy.Subterm String) :=
  { HighSample.setting' with memorize := fun _ => .ok (centred seen) }

/-- `y ~ 0 + center(x)`. -/
def centredFormula : FormulaLike String Data ℚ := .desc ⟨[⟨["y"]⟩], [⟨["center(x)"]⟩]⟩

/-- The first value of `y` is missing. -/
def noY : Data := [(99, 0, "u"), (1, 2, "u"), (3, 4, "u")]

def withY : Data := [(1, 2, "u"), (3, 4, "u")]

def noYResult : Except Err (Table String Data ℚ × Table String Data ℚ) :=
  highLevelDesign (centring noY) ReorderSample.isnan none noY .matrix centredFormula

def withYResult : Except Err (Table String Data ℚ × Table String Data ℚ) :=
  highLevelDesign (centring withY) ReorderSample.isnan none withY .matrix centredFormula

theorem picked_noY : Picked 3 [1, 2] noY withY := ⟨rfl, rfl⟩

theorem noY_ok : isOk noYResult = true := by decide +kernel

theorem withY_ok : isOk withYResult = true := by decide +kernel

end CompleteSample

set_option maxHeartbeats 1000000 in
open CompleteSample in
/-- **C80**, states.  `center(x)` memorises the mean of all values of `x`, also of those in rows that are dropped because `y`
is missing.  So the matrix of `y ~ 0 + center(x)` changes if these rows are removed by hand; only then is it centred. -/
theorem center_sees_dropped_rows : Picked 3 [1, 2] noY withY ∧
    ∃ t t', noYResult = .ok t ∧ withYResult = .ok t' ∧
      t.1.mat = ⟨2, [[1, 3]]⟩ ∧ t'.1.mat = t.1.mat ∧ t.2.mat = ⟨2, [[0, 2]]⟩ ∧ t'.2.mat = ⟨2, [[-1, 1]]⟩ := by
  refine ⟨picked_noY, getOk noYResult noY_ok, getOk withYResult withY_ok, getOk_eq _, getOk_eq _, ?_, ?_, ?_, ?_⟩
  · decide +kernel
  · decide +kernel
  · decide +kernel
  · decide +kernel

end Patsy.Props
