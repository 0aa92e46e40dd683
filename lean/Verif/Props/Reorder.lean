import Verif.Lemmas.ReorderBuild
import Verif.Props.Outcome
import Verif.Lemmas.Fit

/-!
# C65: the order of the rows does not matter
-/

set_option linter.unusedSectionVars false

namespace Patsy.Props

open Patsy.Spec Patsy.Build Patsy.Desc Patsy.Cat

variable {F D K H : Type} [DecidableEq F] [DecidableEq H] {n : Nat} {σ : Nat → Nat}

/-- The factors of designs that have been made together. -/
theorem made_factors {P : Setting F D K H} (hv : ∀ l, (P.visit l).Perm l) {chunks : List D} {tls : List (List (Term F))}
    {dis : List (DesignInfo F D K)} (h : designMatrixBuilders P chunks tls = .ok dis) {cs : List (Coding F D K)}
    (hcs : List.Forall₂ IsDesign dis cs) :
    ∃ eval types, P.memorize (P.visit (allFactors tls)) = .ok eval ∧
      examineTypes P.na P.order P.visit (fun f d => do pure (← eval f d).value) chunks (P.visit (allFactors tls)) = .ok types ∧
      (∀ fi ∈ Spec.factorsOf cs, ∃ f ∈ allFactors tls, ∃ uid, factorInfo eval types.1 types.2 uid f = .ok fi) ∧
      ∀ f ∈ allFactors tls, ∃ fi ∈ Spec.factorsOf cs, ∃ uid, factorInfo eval types.1 types.2 uid f = .ok fi := by
  obtain ⟨eval, types, infos, he, ht, hinfo, hd⟩ := builders_ok hv h
  refine ⟨eval, types, he, ht, ?_, ?_⟩
  · intro fi hfi
    obtain ⟨c, hc, hfi⟩ := List.mem_flatMap.mp hfi
    obtain ⟨p, hp, rfl⟩ := List.mem_map.mp hfi
    obtain ⟨d, hdm, hdc⟩ := exists_mem_of_forall₂' hcs hc
    obtain ⟨tl, _, hmk⟩ := exists_mem_of_forall₂' hd hdm
    obtain ⟨c', h3, _, h4, _⟩ := makeDesign_isDesign hmk
    obtain rfl : c = c' := Option.some.inj ((coding_of_isDesign hdc).symm.trans h3)
    obtain ⟨h5, h6⟩ := hinfo _ _ (h4 p hp)
    exact ⟨p.1, h5, _, h6⟩
  · intro f hf
    obtain ⟨tl, htl, t, ht', hf⟩ := allFactors_mem.mp hf
    obtain ⟨d, hdm, hmk⟩ := exists_mem_of_forall₂ hd htl
    obtain ⟨c, hc, hdc⟩ := exists_mem_of_forall₂ hcs hdm
    obtain ⟨c', h3, _, h4, h5⟩ := makeDesign_isDesign hmk
    obtain rfl : c = c' := Option.some.inj ((coding_of_isDesign hdc).symm.trans h3)
    obtain ⟨p, hp, rfl⟩ := List.mem_map.mp ((h5 f).mpr ⟨t, ht', hf⟩)
    exact ⟨p.2, List.mem_flatMap.mpr ⟨c, hc, List.mem_map.mpr ⟨p, hp, rfl⟩⟩, _, (hinfo _ _ (h4 p hp)).2⟩

theorem factorInfo_seen {eval : F → D → Except Err (Seen K)} {types : Types F K} {uid : Nat} {f : F} {fi : FactorInfo F D K}
    (h : factorInfo eval types.1 types.2 uid f = .ok fi) {na : NAAction} {data : D} {v : Value K}
    {i : Option (List Build.Label)} (he : fi.eval na.types data = .ok (v, i)) : ∃ s, eval f data = .ok s ∧ i = s.index := by
  rcases (factorInfo_ok h).2.2.2 with ⟨k, _, _, h3⟩ | ⟨levels, c, _, _, h3⟩
  · rw [h3] at he
    simp only [bind_ok] at he
    obtain ⟨s, hs, he⟩ := he
    refine ⟨s, hs, ?_⟩
    simp only [numericValue] at he
    split at he
    · split at he
      · cases he
      · cases he; rfl
    · cases he
  · rw [h3] at he
    simp only [bind_ok, categoricalValue, pure_ok, Prod.mk.injEq] at he
    obtain ⟨s, hs, codes, hc, rfl, rfl⟩ := he
    exact ⟨s, hs, rfl⟩

variable [Mul K] [One K]

/-- **C65**.  Let the rows of the data be put into another order.  If the factors of a formula are evaluated row by row and
the states that they memorise do not depend on the order (`Shuffled`), then the call succeeds again, the design is the same
— names of columns, types, levels, codings, states —, the matrices have the rows of the matrices before, in the new order,
and rows with missing values are dropped as before.  The labels of the rows move along; if there are none, then the rows are
numbered. -/
theorem row_order {P P' : Setting F D K H} (hw : World P) (ho : ∀ l, (P.order l).Perm l) (hσ : Rearranges n σ)
    {isnan : K → Bool} {dataIndex dataIndex' : Option (List Build.Label)} (hdi : MovedLabels n σ dataIndex dataIndex')
    {data data' : D} {rt : ReturnType} {f : FormulaLike F D K} (hf : Sound data f) {m : ModelDesc F} (hm : modelOf f = some m)
    (hS : Shuffled n σ P P' data data' (P.visit (allFactors [m.lhs, m.rhs]))) {t : Table F D K × Table F D K}
    (h : highLevelDesign P isnan dataIndex data rt f = .ok t) :
    ∃ t' eval types, highLevelDesign P' isnan dataIndex' data' rt f = .ok t' ∧ Learned P data m eval types ∧
      SameTables n σ (keeps P.na isnan types (fun f => eval f data) (allFactors [m.lhs, m.rhs]))
        (Indexed dataIndex (allFactors [m.lhs, m.rhs]) fun f => eval f data) (rt = .dataframe) t.1 t'.1 ∧
      SameTables n σ (keeps P.na isnan types (fun f => eval f data) (allFactors [m.lhs, m.rhs]))
        (Indexed dataIndex (allFactors [m.lhs, m.rhs]) fun f => eval f data) (rt = .dataframe) t.2 t'.2 := by
  obtain ⟨hrt, _, hbuild, hi, _, _, _, _, _, hb⟩ := highLevel_built hw hf (by cases f <;> trivial) h
  have hb := hb m hm
  have hnd : ∀ tl ∈ [m.lhs, m.rhs], ∀ t ∈ tl, t.factors.Nodup := by
    have : ∀ t ∈ m.lhs ++ m.rhs, t.factors.Nodup := by
      cases f <;> first | exact hf m hm | simp [modelOf] at hm
    intro tl htl t ht
    simp only [List.mem_cons, List.not_mem_nil, or_false] at htl
    rcases htl with rfl | rfl
    · exact this t (by simp [ht])
    · exact this t (by simp [ht])
  obtain ⟨cs, hcs, hid, hfits, _⟩ := builders_sound hw hnd hb
  obtain ⟨eval, types, he, ht, hfrom, hto⟩ := made_factors hw.visits hb hcs
  have hmem : ∀ {g}, g ∈ allFactors [m.lhs, m.rhs] → g ∈ P.visit (allFactors [m.lhs, m.rhs]) :=
    fun h => (hw.visits _).mem_iff.mpr h
  have hmove : ∀ fi ∈ Spec.factorsOf cs, ∀ v i, fi.eval P.na.types data = .ok (v, i) →
      ∃ v' i', fi.eval P.na.types data' = .ok (v', i') ∧ MovedVal n σ v v' ∧ MovedLabels n σ i i' := by
    intro fi hfi v i hv
    obtain ⟨g, hg, uid, hgi⟩ := hfrom fi hfi
    refine factorEval_moved hσ hgi (fun s hs => ?_) hv
    obtain ⟨s', h1, h2, _⟩ := hS.values eval he g (hmem hg) s hs
    exact ⟨s', h1, h2⟩
  obtain ⟨V, idx, b', hev, hbuild', hmats, hnone, hlabels, hnumbers⟩ :=
    build_moved hσ hdi (by simp) hcs hid (hfits P.na.types) hmove hbuild
  have hkept : complete P.na isnan (Spec.factorsOf cs) V =
      keeps P.na isnan types (fun f => eval f data) (allFactors [m.lhs, m.rhs]) := by
    funext r
    have hcell : ∀ {g uid fi}, fi ∈ Spec.factorsOf cs → factorInfo eval types.1 types.2 uid g = .ok fi →
        cellOf (V fi) r = factorCell P.na types (fun f => eval f data) r g := by
      intro g uid fi hfi hgi
      obtain ⟨i, hi, _⟩ := hev.value fi hfi
      exact cellOf_factorCell hgi hi r
    rw [Bool.eq_iff_iff, complete, keeps, List.all_eq_true, List.all_eq_true]
    constructor
    · intro hall g hg
      obtain ⟨fi, hfi, uid, hgi⟩ := hto g hg
      rw [← hcell hfi hgi]
      exact hall fi hfi
    · intro hall fi hfi
      obtain ⟨g, hg, uid, hgi⟩ := hfrom fi hfi
      rw [hcell hfi hgi]
      exact hall g hg
  have hindexed : (dataIndex ≠ none ∨ ∃ fi ∈ Spec.factorsOf cs, ∃ v l, fi.eval P.na.types data = .ok (v, some l)) ↔
      Indexed dataIndex (allFactors [m.lhs, m.rhs]) fun f => eval f data := by
    refine or_congr Iff.rfl ⟨?_, ?_⟩
    · rintro ⟨fi, hfi, v, l, hv⟩
      obtain ⟨g, hg, uid, hgi⟩ := hfrom fi hfi
      obtain ⟨s, h1, h2⟩ := factorInfo_seen hgi hv
      exact ⟨g, hg, s, h1, by simp [← h2]⟩
    · rintro ⟨g, hg, s, h1, h2⟩
      obtain ⟨fi, hfi, uid, hgi⟩ := hto g hg
      obtain ⟨i, hi, _⟩ := hev.value fi hfi
      obtain ⟨s', h3, rfl⟩ := factorInfo_seen hgi hi
      obtain rfl : s = s' := Except.ok.inj (h1.symm.trans h3)
      obtain ⟨l, hl⟩ := Option.ne_none_iff_exists'.mp h2
      exact ⟨fi, hfi, _, l, hl ▸ hi⟩
  rw [hkept] at hmats hlabels hnumbers
  rw [hindexed] at hlabels hnumbers
  have hb' := builders_moved hσ hw.visits ho hS hb
  obtain ⟨x, y, hxy, hx, hy⟩ := forall₂_two hmats
  refine ⟨(⟨t.1.info, x, b'.index⟩, ⟨t.2.info, y, b'.index⟩), eval, types, ?_, ⟨he, ht⟩, ?_, ?_⟩
  · simp only [highLevelDesign, if_neg hrt, tryIncrBuilders_model P' [data'] hm, descBuilders, hb', ok_bind, hS.same.2.2.2.2.2]
    simp only [pure, Except.pure, ok_bind, hbuild']
    rw [asTables_ok]
    exact ⟨rfl, hxy, rfl, rfl⟩
  · refine ⟨rfl, hx, ?_, ?_, ?_⟩
    · exact hnone
    · exact hlabels
    · exact hnumbers
  · refine ⟨rfl, hy, ?_, ?_, ?_⟩
    all_goals rw [hi]
    · exact hnone
    · exact hlabels
    · exact hnumbers

/-! ### Example -/

namespace ReorderSample

open BuilderSample HighSample

/-- `y` and `x` are numbers, `a` is a list of strings. -/
def look (f : String) (d : Data) : Except Err (Seen ℚ) :=
  if f = "y" then .ok ⟨.raw (.array .number 1 1 (d.map fun r => .float r.1)), d.map fun r => [r.1], none⟩
  else if f = "x" then .ok ⟨.raw (.array .number 1 1 (d.map fun r => .float r.2.1)), d.map fun r => [r.2.1], none⟩
  else if f = "a" then .ok ⟨.raw (.array .other 1 1 (d.map fun r => .str r.2.2)), [], none⟩
  else .error .nameError

def setting : Setting String Data ℚ (Redundancy.Subterm String) := { HighSample.setting' with memorize := fun _ => .ok look }

/-- One value of `x` is missing. -/
def old : Data := [(1, 2, "u"), (3, 4, "w"), (5, 99, "v"), (7, 8, "u")]

def new : Data := [(5, 99, "v"), (1, 2, "u"), (7, 8, "u"), (3, 4, "w")]

def from' (q : Nat) : Nat := [2, 0, 3, 1].getD q 0

def labels (l : List String) : Option (List Build.Label) := some (l.map .other)

/-- 99 stands for NaN. -/
def isnan (x : ℚ) : Bool := x = 99

/-- `y ~ 1 + a + x`. -/
def formula : FormulaLike String Data ℚ := .desc ⟨[⟨["y"]⟩], [⟨[]⟩, ⟨["a"]⟩, ⟨["x"]⟩]⟩

theorem world : World setting := by
  refine ⟨visits, ?_⟩
  intro fs eval h f d s hs l hl
  cases h
  have : s.index = none := by
    simp only [look] at hs
    repeat' split at hs
    all_goals first | (cases hs; rfl) | cases hs
  rw [this] at hl
  cases hl

theorem sound : Sound old formula := by
  rintro m ⟨⟩ t ht
  revert t
  decide

theorem plain_strings {Cn : Type} (na : NAAction) (l : List String) :
    Spec.Plain na (.raw (.array .other 1 1 (l.map .str)) : CatValue Cn) := by
  have hb : withBools (l.map PyVal.str) = l.map .str := by simp [withBools]
  constructor
  · intro i h
    simp [sniffed] at h
  · intro a ha b hb' h
    simp only [sniffed, hb, List.mem_map] at ha hb'
    obtain ⟨s, _, rfl⟩ := ha
    obtain ⟨t, _, rfl⟩ := hb'
    simpa [PyVal.key] using h

theorem moved : Moved 4 from' old new := ⟨rfl, rfl, by decide⟩

theorem shuffled (fs : List String) : Shuffled 4 from' setting setting old new fs where
  same := ⟨rfl, rfl, rfl, rfl, rfl, rfl⟩
  memorize eval h := ⟨eval, h, fun _ _ => rfl⟩
  values eval h f _ s hs := by
    cases h
    have hnum : ∀ g : ℚ × ℚ × String → ℚ, s = (⟨.raw (.array .number 1 1 (old.map fun r => .float (g r))), old.map fun r => [g r], none⟩ : Seen ℚ) →
        MovedSeen 4 from' s ⟨.raw (.array .number 1 1 (new.map fun r => .float (g r))), new.map fun r => [g r], none⟩ ∧
          Spec.Plain setting.na s.value := by
      rintro g rfl
      exact ⟨⟨⟨rfl, rfl, rfl, fun _ => moved_map _ moved⟩, fun _ => moved_map _ moved, trivial⟩, by simp [Spec.Plain, sniffed, withBools]⟩
    by_cases h1 : f = "y"
    · simp only [look, if_pos h1] at hs ⊢
      exact ⟨_, rfl, hnum _ (Except.ok.inj hs).symm⟩
    by_cases h2 : f = "x"
    · simp only [look, if_neg h1, if_pos h2] at hs ⊢
      exact ⟨_, rfl, hnum _ (Except.ok.inj hs).symm⟩
    by_cases h3 : f = "a"
    · simp only [look, if_neg h1, if_neg h2, if_pos h3] at hs ⊢
      cases hs
      refine ⟨_, rfl, ⟨⟨rfl, rfl, rfl, fun _ => moved_map _ moved⟩, ?_, trivial⟩, ?_⟩
      · rintro ⟨_, _, _, h⟩
        cases h
      · exact plain_strings _ (old.map fun r => r.2.2)
    · simp only [look, if_neg h1, if_neg h2, if_neg h3] at hs
      cases hs

def oldResult : Except Err (Table String Data ℚ × Table String Data ℚ) :=
  highLevelDesign setting isnan (labels ["p", "q", "r", "s"]) old .dataframe formula

def newResult : Except Err (Table String Data ℚ × Table String Data ℚ) :=
  highLevelDesign setting isnan (labels ["r", "p", "s", "q"]) new .dataframe formula

theorem old_ok : isOk oldResult = true := by decide +kernel

theorem new_ok : isOk newResult = true := by decide +kernel

end ReorderSample

open ReorderSample in
/-- Example for `row_order`: four rows, one of them incomplete. -/
example : World setting ∧ (∀ l, (setting.order l).Perm l) ∧ Rearranges 4 from' ∧
    MovedLabels 4 from' (labels ["p", "q", "r", "s"]) (labels ["r", "p", "s", "q"]) ∧ Sound old formula ∧
    (∀ fs, Shuffled 4 from' setting setting old new fs) ∧
    ∃ t t', oldResult = .ok t ∧ newResult = .ok t' ∧
      t.2.info.columnNames = ["Intercept", "a[T.v]", "a[T.w]", "x"] ∧ t'.2.info.columnNames = t.2.info.columnNames ∧
      t.2.mat = ⟨3, [[1, 1, 1], [0, 0, 0], [0, 1, 0], [2, 4, 8]]⟩ ∧ t'.2.mat = ⟨3, [[1, 1, 1], [0, 0, 0], [0, 0, 1], [2, 8, 4]]⟩ ∧
      t.2.index = labels ["p", "q", "s"] ∧ t'.2.index = labels ["p", "s", "q"] :=
  ⟨world, fun _ => .refl _, by unfold Rearranges; decide, ⟨rfl, rfl, by decide⟩, sound, shuffled, getOk oldResult old_ok, getOk newResult new_ok,
    getOk_eq _, getOk_eq _, by decide +kernel, by decide +kernel, by decide +kernel, by decide +kernel, by decide +kernel, by decide +kernel⟩

/-! ### Equal objects -/

namespace ReorderSample

/-- Enough of `str` for the example. -/
def shown : PyVal → String
  | .int _ => "2"
  | .float _ => "2.0"
  | _ => "?"

/-- A list of Python objects. -/
def seen (d : List PyVal) : Seen ℚ := ⟨.raw (.array .other 1 1 d), [], none⟩

/-- One factor: the data themselves. -/
def objects : Setting String (List PyVal) ℚ (Redundancy.Subterm String) where
  name := id
  hash := id
  visit := List.reverse
  order := id
  default := .coding (Contrast.dummyCode shown) (Contrast.treatment shown none)
  na := {}
  memorize := fun _ => .ok fun _ d => .ok (seen d)

def cells : FormulaLike String (List PyVal) ℚ := .desc ⟨[], [⟨["a"]⟩]⟩

def result (d : List PyVal) : Except Err (Table String (List PyVal) ℚ × Table String (List PyVal) ℚ) :=
  highLevelDesign objects (fun _ => false) none d .matrix cells

theorem result_ok : isOk (result [.int 2, .float 2]) = true ∧ isOk (result [.float 2, .int 2]) = true := by decide +kernel

end ReorderSample

open ReorderSample in
/-- **C65**, the condition `Plain` is needed: a list of objects with `2` and `2.0`, which are equal, has one level, the one
that comes first.  Its name is that of the column, so that the name depends on the order of the rows, although each value of
the factor has moved with its row. -/
theorem equal_objects_order : World objects ∧ Rearranges 2 (fun q => 1 - q) ∧
    MovedSeen 2 (fun q => 1 - q) (seen [.int 2, .float 2]) (seen [.float 2, .int 2]) ∧
    ∃ t t', result [.int 2, .float 2] = .ok t ∧ result [.float 2, .int 2] = .ok t' ∧
      t.2.info.columnNames = ["a[2]"] ∧ t'.2.info.columnNames = ["a[2.0]"] := by
  refine ⟨⟨fun l => l.reverse_perm, ?_⟩, by unfold Rearranges; decide, ⟨⟨rfl, rfl, rfl, fun _ => ⟨rfl, rfl, by decide⟩⟩, ?_, trivial⟩,
    getOk _ result_ok.1, getOk _ result_ok.2, getOk_eq _, getOk_eq _, by decide +kernel, by decide +kernel⟩
  · intro fs eval h f d s hs l hl
    cases h
    cases hs
    cases hl
  · rintro ⟨_, _, _, h⟩
    cases h

end Patsy.Props
