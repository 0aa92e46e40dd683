import Mathlib.Data.List.Induction
import Verif.Lemmas.Categorical

/-!
# C24, C25: levels of categorical factors and their codes
-/

namespace Patsy.Props

open Patsy.Cat
open Patsy.Build (NAAction)

set_option linter.unusedSectionVars false

variable {Cn : Type}

/-! ### C24: the levels of a factor -/

/-- A chunk of a categorical factor given by values without declared levels: `boxed` is `none` for bare
data and `some c` for `C(data, c)`. -/
def valueChunk (boxed : Option (Option Cn)) (kind : Kind) (ncols : Nat) (vals : List PyVal) : CatValue Cn :=
  match boxed with
  | none => .raw (.array .other 1 ncols vals)
  | some c => .box (.array kind 1 ncols vals) c none

/-- The contrast given with the data. -/
def givenContrast (boxed : Option (Option Cn)) : Option Cn := boxed.getD none

/-- Declared levels decide: if the first chunk is `C(data, contrast, levels)`, the factor has these levels
in this order, whatever the data and the following chunks are. -/
theorem levels_declared (na : NAAction) (order : List PyVal → List PyVal) (r : Raw) (c : Option Cn)
    (levels : List PyVal) (later : List (CatValue Cn)) :
    examineFactor na order none (.box r c (some levels) :: later) =
      .ok (some (.categorical levels c)) := by
  simp [examineFactor, Sniffer.sniff, Sniffer.levelsContrast]

/-- `C(... C(C(data, contrast, levels), contrast, levels) ...)`, the arguments from the inside out. -/
def nestedC (r : Raw) (calls : List (Option Cn × Option (List PyVal))) : CatValue Cn :=
  calls.foldl (fun d a => mkC d a.1 a.2) (.raw r)

theorem nestedC_box (r : Raw) (calls : List (Option Cn × Option (List PyVal))) (h : calls ≠ []) :
    nestedC r calls = .box r (calls.reverse.findSome? Prod.fst) (calls.reverse.findSome? Prod.snd) := by
  induction calls using List.reverseRecOn with
  | nil => exact absurd rfl h
  | append_singleton calls a ih =>
    obtain ⟨c, l⟩ := a
    rw [nestedC, List.foldl_append, ← nestedC]
    by_cases hc : calls = []
    · subst hc
      cases c <;> cases l <;> rfl
    · rw [ih hc]
      cases c <;> cases l <;> simp [mkC, List.findSome?]

/-- **C24**.  In nested calls of `C`, the outermost declaration of levels and the outermost contrast count. -/
theorem levels_nested (na : NAAction) (order : List PyVal → List PyVal) (r : Raw)
    (inside outside : List (Option Cn × Option (List PyVal))) (c : Option Cn) (levels : List PyVal)
    (hout : ∀ a ∈ outside, a.2 = none) (later : List (CatValue Cn)) :
    examineFactor na order none (nestedC r (inside ++ (c, some levels) :: outside) :: later) =
      .ok (some (.categorical levels ((inside ++ (c, some levels) :: outside).reverse.findSome? Prod.fst))) := by
  rw [nestedC_box _ _ (by simp)]
  have : (inside ++ (c, some levels) :: outside).reverse.findSome? Prod.snd = some levels := by
    have h0 : outside.reverse.findSome? Prod.snd = none := by
      rw [List.findSome?_eq_none_iff]
      intro a ha
      exact hout a (List.mem_reverse.1 ha)
    simp [List.findSome?_append, h0]
  rw [this]
  exact levels_declared na order r _ levels later

/-- Example: `C(C(C(x, Sum, levels=[b, a]), levels=[a, b, c]), Poly)`. -/
example : examineFactor {} List.reverse none
      [nestedC (.array .number 1 1 []) [(some "Sum", some [.str "b", .str "a"]), (none, some [.str "a", .str "b", .str "c"]),
        (some "Poly", none)]] = .ok (some (.categorical [.str "a", .str "b", .str "c"] (some "Poly"))) :=
  levels_nested _ _ _ [(some "Sum", some [.str "b", .str "a"])] [(some "Poly", none)] none _ (by simp) []

/-- The categories of a `pandas.Categorical` decide likewise, bare or in `C(...)`. -/
theorem levels_pandas (na : NAAction) (order : List PyVal → List PyVal) (cats : List PyVal) (codes : List Int)
    (c : Option Cn) (later : List (CatValue Cn)) :
    examineFactor na order none (.raw (.pandas cats codes) :: later) =
      .ok (some (.categorical cats (none : Option Cn))) ∧
    examineFactor na order none (.box (.pandas cats codes) c none :: later) =
      .ok (some (.categorical cats c)) := by
  simp [examineFactor, Sniffer.sniff, Sniffer.sniffRaw, Sniffer.levelsContrast]

/-- An array of booleans has the levels `False` and `True`, whichever of them occur. -/
theorem levels_boolean (na : NAAction) (order : List PyVal → List PyVal)
    (ho : ∀ l, (order l).Perm l) (ndim ncols : Nat) (vals : List PyVal) (later : List (CatValue Cn)) :
    examineFactor na order none (.raw (.array .boolDtype ndim ncols vals) :: later) =
      .ok (some (.categorical [.bool false, .bool true] (none : Option Cn))) := by
  have h : sortAnything (order [.bool true, .bool false]) = [.bool false, .bool true] := by
    rw [sortAnything_perm (l := [.bool true, .bool false]) (by simp [Sortable])
      (by simp [PyVal.key, boolNum]) (ho _)]
    decide +kernel
  simp [examineFactor, Sniffer.sniff, Sniffer.sniffRaw, Sniffer.levelsContrast, h]

theorem sniff_valueChunk {na : NAAction} {boxed : Option (Option Cn)} {kind : Kind} {ncols : Nat}
    {vals : List PyVal} (hkind : kind ≠ .boolDtype) (hg : ∀ v ∈ vals, Good na v) {s : Sniffer Cn}
    (hs : boxed = none → s.contrast = none) :
    s.sniff na (valueChunk boxed kind ncols vals) =
      .ok (({ s with contrast := givenContrast boxed, levelSet := gather na s.levelSet vals } : Sniffer Cn),
        isBoolSet (gather na s.levelSet vals)) := by
  obtain ⟨c, l, set⟩ := s
  cases boxed with
  | none =>
    simp only [forall_const] at hs
    subst hs
    simp [valueChunk, Sniffer.sniff, Sniffer.sniffRaw, foldlM_sniff hg, givenContrast, bind, Except.bind]
  | some c =>
    simp [valueChunk, Sniffer.sniff, Sniffer.sniffRaw, foldlM_sniff hg, givenContrast, bind, Except.bind,
      hkind]

theorem good_hashable {na : NAAction} {vals : List PyVal} (hg : ∀ v ∈ vals, Good na v) :
    ∀ w ∈ vals.flatMap (contribution na), w.key.isSome = true := by
  intro w hw
  obtain ⟨v, hv, hw⟩ := List.mem_flatMap.mp hw
  rw [contribution] at hw
  split at hw
  · simp at hw
  · rename_i hm
    have hk := (hg v hv).2.resolve_left hm
    cases v <;> simp only [expand, List.mem_singleton, List.mem_cons, List.not_mem_nil, or_false] at hw
    case bool => rcases hw with rfl | rfl <;> rfl
    all_goals (subst hw; exact hk)

theorem good_sortable {na : NAAction} {vals : List PyVal} (hg : ∀ v ∈ vals, Good na v)
    (hn : ∀ i, PyVal.nan i ∈ vals → na.nan = true) :
    ∀ w ∈ vals.flatMap (contribution na), Sortable w := by
  intro w hw
  obtain ⟨v, hv, hw⟩ := List.mem_flatMap.mp hw
  rw [contribution] at hw
  split at hw
  · simp at hw
  · rename_i hm
    have hk := (hg v hv).2.resolve_left hm
    cases v <;> simp only [expand, List.mem_singleton, List.mem_cons, List.not_mem_nil, or_false] at hw
    case bool => rcases hw with rfl | rfl <;> trivial
    case nan i => exact absurd (hn i hv) hm
    case unhashable => simp [PyVal.key] at hk
    all_goals (subst hw; trivial)

theorem gather_isBool {na : NAAction} {vals : List PyVal} (hg : ∀ v ∈ vals, Good na v) :
    isBoolSet (gather na [] vals) = true ↔ ShowsBools na vals := by
  rw [isBoolSet_iff gather_spec.1]
  · simp only [gather_spec.2]
    rfl
  · intro v hv
    rcases gather_mem hv with h | h
    · simp at h
    · exact good_hashable hg v h

theorem examine_from {na : NAAction} {order : List PyVal → List PyVal} {boxed : Option (Option Cn)}
    {kind : Kind} {ncols : Nat} (hkind : kind ≠ .boolDtype) (chunks : List (List PyVal)) :
    ∀ (past : List PyVal) (st : Option (Sniffer Cn)),
    (∀ v ∈ past ++ chunks.flatten, Good na v) →
    (st = none → past = [] ∧ chunks ≠ []) →
    (∀ s, st = some s → s = ⟨givenContrast boxed, none, gather na [] past⟩) →
    ∃ n ≤ chunks.length,
      examineFactor na order st (chunks.map (valueChunk boxed kind ncols)) =
        .ok (some (.categorical (sortAnything (order (gather na [] (past ++ (chunks.take n).flatten))))
          (givenContrast boxed))) ∧
      (n = chunks.length ∨ ShowsBools na (past ++ (chunks.take n).flatten)) ∧
      ∀ m, 0 < m → m < n → ¬ ShowsBools na (past ++ (chunks.take m).flatten) := by
  induction chunks with
  | nil =>
    intro past st hg h0 hst
    cases st with
    | none => exact absurd rfl (h0 rfl).2
    | some s =>
      refine ⟨0, le_rfl, ?_, Or.inl rfl, fun m h1 h2 => absurd h2 (by omega)⟩
      rw [hst s rfl]
      simp [examineFactor, Sniffer.levelsContrast]
  | cons vals chunks ih =>
    intro past st hg h0 hst
    have hs0 : ∃ s : Sniffer Cn, st.getD {} = s ∧ s.levels = none ∧ s.levelSet = gather na [] past ∧
        (boxed = none → s.contrast = none) := by
      cases st with
      | none => exact ⟨{}, rfl, rfl, by rw [(h0 rfl).1]; rfl, fun _ => rfl⟩
      | some s =>
        refine ⟨s, rfl, ?_, ?_, ?_⟩ <;> rw [hst s rfl]
        rintro rfl
        rfl
    obtain ⟨s, hs1, hl, hset, hc⟩ := hs0
    have hgv : ∀ v ∈ vals, Good na v := fun v hv => hg v (by simp [hv])
    have hsn := sniff_valueChunk (ncols := ncols) hkind hgv hc
    rw [hset, ← gather_append, hl] at hsn
    rw [← hs1] at hsn
    have hgp : ∀ v ∈ past ++ vals, Good na v := by
      intro v hv
      refine hg v ?_
      simp only [List.flatten_cons, List.mem_append] at hv ⊢
      tauto
    cases hb : isBoolSet (gather na [] (past ++ vals)) with
    | true =>
      rw [hb] at hsn
      refine ⟨1, by simp, ?_, Or.inr ?_, fun m h1 h2 => absurd h2 (by omega)⟩
      · rw [List.map_cons]
        cases st <;> cases boxed <;> simp only [valueChunk] at hsn ⊢ <;>
          simp only [examineFactor, hsn] <;> simp [Sniffer.levelsContrast]
      · simpa using (gather_isBool hgp).mp hb
    | false =>
      obtain ⟨n, hn, h1, h2, h3⟩ := ih (past ++ vals) (some ⟨givenContrast boxed, none, gather na [] (past ++ vals)⟩)
        (by simpa using hg) (by simp) (by simp)
      refine ⟨n + 1, by simpa using hn, ?_, ?_, ?_⟩
      · rw [hb] at hsn
        rw [List.map_cons]
        simp only [List.take_succ_cons, List.flatten_cons, ← List.append_assoc]
        rw [← h1]
        cases st <;> cases boxed <;> simp only [valueChunk] at hsn ⊢ <;>
          simp only [examineFactor, hsn]
      · simpa using h2
      · intro m hm hmn
        cases m with
        | zero => omega
        | succ m =>
          cases m with
          | zero =>
            simp only [List.take_succ_cons, List.take_zero, List.flatten_cons, List.flatten_nil,
              List.append_nil]
            rw [← gather_isBool hgp, hb]
            simp
          | succ m => simpa using h3 (m + 1) (by omega) (by omega)

theorem areLevels_sorted {na : NAAction} {data : List PyVal} (hg : ∀ v ∈ data, Good na v)
    (hn : ∀ i, PyVal.nan i ∈ data → na.nan = true) {order : List PyVal → List PyVal}
    (ho : ∀ l, (order l).Perm l) :
    AreLevels na data (sortAnything (order (gather na [] data))) ∧
    sortAnything (order (gather na [] data)) = sortAnything (gather na [] data) := by
  have hs : ∀ v ∈ gather na [] data, Sortable v := by
    intro v hv
    rcases gather_mem hv with h | h
    · simp at h
    · exact good_sortable hg hn v h
  have he := sortAnything_perm hs gather_spec.1 (ho (gather na [] data))
  rw [he]
  obtain ⟨hp, hso⟩ := sortAnything_spec hs gather_spec.1
  refine ⟨⟨?_, ?_, ?_, hso⟩, rfl⟩
  · exact (hp.map _).nodup_iff.mpr gather_spec.1
  · intro k
    rw [(hp.map _).mem_iff, gather_spec.2]
  · intro v hv
    rcases gather_mem (hp.mem_iff.mp hv) with h | h
    · simp at h
    · exact good_hashable hg v h

/-- C24, what is really found out: the levels are the distinct values, in order, of the chunks that are
looked at, which are all chunks up to the first one after which exactly `False` and `True` (or 0 and 1)
have been seen.  `order` is the (arbitrary) order in which Python enumerates a set. -/
theorem levels_examined {na : NAAction} {order : List PyVal → List PyVal} (ho : ∀ l, (order l).Perm l)
    {boxed : Option (Option Cn)} {kind : Kind} {ncols : Nat} (hkind : kind ≠ .boolDtype)
    {chunks : List (List PyVal)} (hne : chunks ≠ []) (hg : ∀ v ∈ chunks.flatten, Good na v)
    (hn : ∀ i, PyVal.nan i ∈ chunks.flatten → na.nan = true) :
    ∃ n levels,
      examineFactor na order none (chunks.map (valueChunk boxed kind ncols)) =
        .ok (some (.categorical levels (givenContrast boxed))) ∧
      AreLevels na (chunks.take n).flatten levels ∧
      (n = chunks.length ∨ ShowsBools na (chunks.take n).flatten) ∧
      ∀ m, 0 < m → m < n → ¬ ShowsBools na (chunks.take m).flatten := by
  obtain ⟨n, hn', h1, h2, h3⟩ := examine_from (order := order) (boxed := boxed) (ncols := ncols) hkind chunks
    [] none (by simpa using hg) (by simp [hne]) (by simp)
  simp only [List.nil_append] at h1 h2 h3
  have hsub : ∀ v ∈ (chunks.take n).flatten, v ∈ chunks.flatten := by
    intro v hv
    obtain ⟨l, hl, hv⟩ := List.mem_flatten.mp hv
    exact List.mem_flatten.mpr ⟨l, List.mem_of_mem_take hl, hv⟩
  exact ⟨n, _, h1, (areLevels_sorted (fun v hv => hg v (hsub v hv)) (fun i hi => hn i (hsub _ hi)) ho).1,
    h2, h3⟩

theorem shows_prefix {na : NAAction} {p s : List PyVal} {k : Key} (h : Shows na p k) : Shows na (p ++ s) k := by
  rcases h with ⟨w, hw, h⟩ | ⟨h, b, hb⟩
  · exact Or.inl ⟨w, by simp only [List.mem_append]; exact Or.inl hw, h⟩
  · exact Or.inr ⟨h, b, by simp only [List.mem_append]; exact Or.inl hb⟩

/-- C24, where it is true: if no beginning of the data shows exactly `False`/0 and `True`/1 while all the data show further levels. -/
theorem levels_prefixes {na : NAAction} {boxed : Option (Option Cn)} {kind : Kind} {ncols : Nat}
    (hkind : kind ≠ .boolDtype) {data : List PyVal} (hg : ∀ v ∈ data, Good na v)
    (hn : ∀ i, PyVal.nan i ∈ data → na.nan = true)
    (hb : ∀ p s, data = p ++ s → ShowsBools na p → ShowsBools na data) :
    ∃ levels, AreLevels na data levels ∧
      ∀ (order : List PyVal → List PyVal) (chunks : List (List PyVal)), (∀ l, (order l).Perm l) →
        chunks ≠ [] → chunks.flatten = data →
        examineFactor na order none (chunks.map (valueChunk boxed kind ncols)) =
          .ok (some (.categorical levels (givenContrast boxed))) := by
  refine ⟨sortAnything (gather na [] data), ?_, ?_⟩
  · exact (areLevels_sorted hg hn (order := id) (fun l => List.Perm.refl l)).1
  · intro order chunks ho hne hc
    obtain ⟨n, hn', h1, h2, h3⟩ := examine_from (order := order) (boxed := boxed) (ncols := ncols) hkind
      chunks [] none (by simpa [hc] using hg) (by simp [hne]) (by simp)
    simp only [List.nil_append] at h1 h2 h3
    have hdata : data = (chunks.take n).flatten ++ (chunks.drop n).flatten := by
      rw [← List.flatten_append, List.take_append_drop, hc]
    have hge : gather na [] data = gather na [] (chunks.take n).flatten := by
      rcases h2 with rfl | h2
      · simp [← hc]
      · rw [hdata, gather_append]
        apply foldl_addKey_noop
        intro v hv
        have hk := good_hashable (vals := (chunks.drop n).flatten)
          (fun w hw => hg w (by rw [hdata]; simp only [List.mem_append]; exact Or.inr hw)) v hv
        obtain ⟨k, hk⟩ := Option.isSome_iff_exists.mp hk
        rw [hk, gather_spec.2, h2 k]
        have hB := hb _ _ hdata h2
        rw [← hB k, hdata]
        have : some k ∈ ((chunks.drop n).flatten.flatMap (contribution na)).map PyVal.key :=
          List.mem_map.mpr ⟨v, hv, hk⟩
        rw [mem_contribution] at this
        rcases this with ⟨w, hw, h⟩ | ⟨h, b, hb⟩
        · exact Or.inl ⟨w, by simp only [List.mem_append]; exact Or.inr hw, h⟩
        · exact Or.inr ⟨h, b, by simp only [List.mem_append]; exact Or.inr hb⟩
    rw [h1, ← hge, (areLevels_sorted hg hn ho).2]

/-- C24, where it is true: if the data do not show both `False`/0 and `True`/1 next to further levels,
then there is one list of levels, made of the distinct non-missing values in order, that is found however
the data are cut into chunks and in whatever order Python enumerates sets. -/
theorem levels_chunks_irrelevant {na : NAAction} {boxed : Option (Option Cn)} {kind : Kind} {ncols : Nat}
    (hkind : kind ≠ .boolDtype) {data : List PyVal} (hg : ∀ v ∈ data, Good na v)
    (hn : ∀ i, PyVal.nan i ∈ data → na.nan = true)
    (hb : Shows na data (.num 0) → Shows na data (.num 1) → ShowsBools na data) :
    ∃ levels, AreLevels na data levels ∧
      ∀ (order : List PyVal → List PyVal) (chunks : List (List PyVal)), (∀ l, (order l).Perm l) →
        chunks ≠ [] → chunks.flatten = data →
        examineFactor na order none (chunks.map (valueChunk boxed kind ncols)) =
          .ok (some (.categorical levels (givenContrast boxed))) := by
  refine levels_prefixes hkind hg hn ?_
  rintro p s rfl hp
  exact hb (shows_prefix ((hp _).mpr (Or.inl rfl))) (shows_prefix ((hp _).mpr (Or.inr rfl)))

/-- C24, exactly when it is true: the levels that are found do not depend on how the data are cut into chunks if and only if the data do
not begin with a stretch that shows exactly `False`/0 and `True`/1 and go on with further levels. -/
theorem levels_chunks_irrelevant_iff {na : NAAction} {boxed : Option (Option Cn)} {kind : Kind} {ncols : Nat}
    (hkind : kind ≠ .boolDtype) {data : List PyVal} (hg : ∀ v ∈ data, Good na v)
    (hn : ∀ i, PyVal.nan i ∈ data → na.nan = true) :
    (∃ levels, ∀ (order : List PyVal → List PyVal) (chunks : List (List PyVal)), (∀ l, (order l).Perm l) →
        chunks ≠ [] → chunks.flatten = data →
        examineFactor na order none (chunks.map (valueChunk boxed kind ncols)) =
          .ok (some (.categorical levels (givenContrast boxed)))) ↔
      ∀ p s, data = p ++ s → ShowsBools na p → ShowsBools na data := by
  constructor
  · rintro ⟨levels, h⟩ p s rfl hp
    obtain ⟨n, l1, e1, a1, c1, -⟩ := levels_examined (order := id) (fun l => .refl l) (boxed := boxed) (ncols := ncols) hkind
      (chunks := [p ++ s]) (by simp) (by simpa using hg) (by simpa using hn)
    obtain ⟨m, l2, e2, a2, c2, d2⟩ := levels_examined (order := id) (fun l => .refl l) (boxed := boxed) (ncols := ncols) hkind
      (chunks := [p, s]) (by simp) (by simpa using hg) (by simpa using hn)
    have f1 := h id [p ++ s] (fun l => .refl l) (by simp) (by simp)
    have f2 := h id [p, s] (fun l => .refl l) (by simp) (by simp)
    rw [e1] at f1
    rw [e2] at f2
    cases f1
    cases f2
    have key : ∀ {q q' : List PyVal}, AreLevels na q levels → AreLevels na q' levels → ShowsBools na q → ShowsBools na q' :=
      fun h1 h2 hq k => by rw [← h2.shown, h1.shown]; exact hq k
    -- the second way stops after the first chunk
    have hm : m ≤ 1 := by
      by_contra hm
      exact d2 1 (by omega) (by omega) (by simpa using hp)
    have hfirst : ShowsBools na ([p, s].take m).flatten := by
      rcases c2 with rfl | c2
      · simp at hm
      · exact c2
    have hlev := key a2 a1 hfirst
    rcases c1 with rfl | c1
    · simpa using hlev
    · have hn1 : n = 0 ∨ [p ++ s].take n = [p ++ s] := by
        rcases n with _ | n
        · exact .inl rfl
        · exact .inr (by simp)
      rcases hn1 with rfl | hn1
      · have := (c1 (.num 0)).mpr (Or.inl rfl)
        simp [Shows] at this
      · rw [hn1] at hlev
        simpa using hlev
  · intro hb
    obtain ⟨levels, _, h⟩ := levels_prefixes (boxed := boxed) (ncols := ncols) hkind hg hn hb
    exact ⟨levels, h⟩

/-- Example for `levels_chunks_irrelevant_iff`: 2, 0, 1 begin with a further level, 0, 1, 2 do not. -/
example (na : NAAction) : (∀ p s, [PyVal.int 2, .int 0, .int 1] = p ++ s → ShowsBools na p → ShowsBools na [.int 2, .int 0, .int 1]) ∧
    ShowsBools na [.int 0, .int 1] ∧ ¬ ShowsBools na [.int 0, .int 1, .int 2] := by
  have h2 : ∀ l, PyVal.int 2 ∈ l → ¬ ShowsBools na l := by
    intro l hl h
    have := (h (.num 2)).mp (Or.inl ⟨.int 2, hl, by simp [Missing], rfl⟩)
    revert this
    decide +kernel
  refine ⟨?_, ?_, h2 _ (by simp)⟩
  · intro p s h hp
    cases p with
    | nil =>
      have := (hp (.num 0)).mpr (Or.inl rfl)
      simp [Shows] at this
    | cons a p =>
      simp only [List.cons_append, List.cons.injEq] at h
      obtain ⟨rfl, _⟩ := h
      exact absurd hp (h2 _ (by simp))
  · intro k
    constructor
    · rintro (⟨v, hv, _, hk⟩ | ⟨h, _⟩)
      · simp only [List.mem_cons, List.not_mem_nil, or_false] at hv
        rcases hv with rfl | rfl
        · left; simpa [PyVal.key] using hk.symm
        · right; simpa [PyVal.key] using hk.symm
      · exact h
    · rintro (rfl | rfl)
      · exact Or.inl ⟨.int 0, by simp, by simp [Missing], rfl⟩
      · exact Or.inl ⟨.int 1, by simp, by simp [Missing], rfl⟩

/-- C24 fails in general: the chunks `[0, 1]`, `[2]` give the levels 0, 1, but the single chunk
`[0, 1, 2]` gives 0, 1, 2. -/
theorem levels_depend_on_chunks (na : NAAction) :
    examineFactor na id none ([[.int 0, .int 1], [.int 2]].map
        (valueChunk (some (none : Option Unit)) .number 1)) =
      .ok (some (.categorical [.int 0, .int 1] none)) ∧
    examineFactor na id none ([[.int 0, .int 1, .int 2]].map
        (valueChunk (some (none : Option Unit)) .number 1)) =
      .ok (some (.categorical [.int 0, .int 1, .int 2] none)) := by
  have hg : ∀ i ∈ [0, 1, 2], Good na (PyVal.int i) := by
    intro i hi
    refine ⟨?_, Or.inr rfl⟩
    have : i = 0 ∨ i = 1 ∨ i = 2 := by simpa using hi
    rcases this with rfl | rfl | rfl <;> (simp only [Ordinary]; decide +kernel)
  have e0 : contribution na (.int 0) = [.int 0] := by simp [contribution, Missing, expand]
  have e1 : contribution na (.int 1) = [.int 1] := by simp [contribution, Missing, expand]
  have e2 : contribution na (.int 2) = [.int 2] := by simp [contribution, Missing, expand]
  have g1 : gather na [] [.int 0, .int 1] = [.int 0, .int 1] := by
    simp only [gather, List.flatMap_cons, List.flatMap_nil, e0, e1]
    decide +kernel
  have g2 : gather na [] [.int 0, .int 1, .int 2] = [.int 0, .int 1, .int 2] := by
    simp only [gather, List.flatMap_cons, List.flatMap_nil, e0, e1, e2]
    decide +kernel
  have s1 := sniff_valueChunk (Cn := Unit) (na := na) (boxed := some none) (kind := .number) (ncols := 1)
    (vals := [.int 0, .int 1]) (by decide)
    (by simp only [List.forall_mem_cons]; exact ⟨hg 0 (by simp), hg 1 (by simp), by simp⟩) (s := {}) (by simp)
  have s2 := sniff_valueChunk (Cn := Unit) (na := na) (boxed := some none) (kind := .number) (ncols := 1)
    (vals := [.int 0, .int 1, .int 2]) (by decide)
    (by simp only [List.forall_mem_cons]; exact ⟨hg 0 (by simp), hg 1 (by simp), hg 2 (by simp), by simp⟩)
    (s := {}) (by simp)
  have b1 : isBoolSet [.int 0, .int 1] = true := by decide +kernel
  have b2 : isBoolSet [.int 0, .int 1, .int 2] = false := by decide +kernel
  have t1 : sortAnything [.int 0, .int 1] = [.int 0, .int 1] := by decide +kernel
  have t2 : sortAnything [.int 0, .int 1, .int 2] = [.int 0, .int 1, .int 2] := by decide +kernel
  constructor
  · simp only [valueChunk] at s1
    simp [examineFactor, valueChunk, s1, g1, b1, Sniffer.levelsContrast, t1, givenContrast]
  · simp only [valueChunk] at s2
    simp [examineFactor, valueChunk, s2, g2, b2, Sniffer.levelsContrast, t2, givenContrast]

/-- What is missing differs from the documentation (missing.py:63-68) for strings such as `"NaN"`,
which count as missing, because `float("NaN")` is NaN. -/
theorem nan_string_is_missing :
    isCategoricalNA {} (.str " NaN ") = .ok true ∧ ¬ Missing {} (.str " NaN ") := by
  refine ⟨?_, fun h => h⟩
  decide +kernel

/-- On all other values the code follows the documentation. -/
theorem missing_documented {na : NAAction} {v : PyVal} (h : Ordinary v) :
    isCategoricalNA na v = .ok (decide (Missing na v)) := isCategoricalNA_ok h

example : ∃ levels, AreLevels {} [.str "b", .none, .int 3, .str "a", .nan 0, .bool true, .str "b"] levels ∧
    examineFactor {} List.reverse none ([[.str "b", .none, .int 3], [], [.str "a", .nan 0, .bool true, .str "b"]].map
      (valueChunk (none : Option (Option Unit)) .other 1)) = .ok (some (.categorical levels none)) := by
  have hg : ∀ v ∈ [PyVal.str "b", .none, .int 3, .str "a", .nan 0, .bool true, .str "b"],
      Good {} v := by
    have h1 : isNanString "a" = false := by decide +kernel
    have h2 : isNanString "b" = false := by decide +kernel
    have h3 : Ordinary (.int 3) := intOverflows_false.1 (by decide +kernel)
    simp [Good, h3]
    simp [Ordinary, Missing, PyVal.key, h1, h2]
  obtain ⟨n, levels, h1, h2, h3, h4⟩ := levels_examined (na := {}) (order := List.reverse)
    (fun l => List.reverse_perm l) (boxed := (none : Option (Option Unit))) (kind := .other) (ncols := 1)
    (by decide) (chunks := [[.str "b", .none, .int 3], [], [.str "a", .nan 0, .bool true, .str "b"]])
    (by simp) hg (fun _ _ => rfl)
  have hnot : ∀ m, ¬ (Shows {} ([[PyVal.str "b", .none, .int 3], [],
      [.str "a", .nan 0, .bool true, .str "b"]].take (m + 1)).flatten (.str "b") → False) := by
    intro m h
    apply h
    left
    exact ⟨.str "b", by simp, fun h => h, rfl⟩
  refine ⟨levels, ?_, h1⟩
  rcases h3 with rfl | h3
  · exact h2
  · cases n with
    | zero =>
      have := (h3 (.num 0)).mpr (Or.inl rfl)
      simp [Shows] at this
    | succ n =>
      exfalso
      refine hnot n fun h => ?_
      have := (h3 _).mp h
      simp at this

/-- An instance of `levels_chunks_irrelevant`. -/
example : ∃ levels, AreLevels {} [.str "b", .int 1, .nan 0, .str "a"] levels ∧
    ∀ (order : List PyVal → List PyVal) (chunks : List (List PyVal)), (∀ l, (order l).Perm l) →
      chunks ≠ [] → chunks.flatten = [.str "b", .int 1, .nan 0, .str "a"] →
      examineFactor {} order none (chunks.map (valueChunk (some (some "Sum")) .other 1)) =
        .ok (some (.categorical levels (some "Sum"))) := by
  refine levels_chunks_irrelevant (by decide) ?_ (fun _ _ => rfl) ?_
  · have h1 : isNanString "a" = false := by decide +kernel
    have h2 : isNanString "b" = false := by decide +kernel
    have h3 : Ordinary (.int 1) := intOverflows_false.1 (by decide +kernel)
    simp [Good, h3]
    simp [Ordinary, Missing, PyVal.key, h1, h2]
  · intro h
    simp [Shows, PyVal.key] at h

/-! ### C25: codes -/

/-- The code of a value: −1 if it is missing, otherwise the position of the level equal to it. -/
def IsCode (na : NAAction) (levels : List PyVal) (v : PyVal) (c : Int) : Prop :=
  (Missing na v ∧ c = -1) ∨
  (¬ Missing na v ∧ ∃ (i : Nat) (l : PyVal), levels[i]? = some l ∧ l.key = v.key ∧ c = i)

theorem levelDict_ok : ∀ {levels : List PyVal} {n : Nat}, (∀ l ∈ levels, l.key.isSome = true) →
    (levels.map PyVal.key).Nodup →
    ∃ d, levelDict n levels = .ok d ∧ ∀ k i, lookupKey d k = some i ↔
      ∃ (j : Nat) (l : PyVal), levels[j]? = some l ∧ l.key = some k ∧ i = n + j := by
  intro levels
  induction levels with
  | nil =>
    intro n _ _
    exact ⟨[], rfl, by simp [lookupKey]⟩
  | cons v vs ih =>
    intro n hh hnd
    rw [List.map_cons, List.nodup_cons] at hnd
    obtain ⟨d, hd, hl⟩ := ih (n := n + 1) (fun l h => hh l (by simp [h])) hnd.2
    obtain ⟨kv, hkv⟩ := Option.isSome_iff_exists.mp (hh v (by simp))
    have hnone : lookupKey d kv = none := by
      cases h : lookupKey d kv with
      | none => rfl
      | some i =>
        obtain ⟨j, l, h1, h2, -⟩ := (hl kv i).mp h
        exact absurd (List.mem_map.mpr ⟨l, List.mem_of_getElem? h1, by rw [h2, hkv]⟩) hnd.1
    have hany : d.any (fun p => decide (p.1 = kv)) = false := by
      rw [lookupKey, Option.map_eq_none_iff, List.find?_eq_none] at hnone
      rw [List.any_eq_false]
      simpa using hnone
    refine ⟨(kv, n) :: d, ?_, ?_⟩
    · simp [levelDict, hkv, hd, bind, Except.bind, hany]
    · intro k i
      by_cases hk : kv = k
      · subst hk
        have : lookupKey ((kv, n) :: d) kv = some n := by simp [lookupKey]
        rw [this]
        constructor
        · rintro h
          exact ⟨0, v, by simp, hkv, by simpa using h.symm⟩
        · rintro ⟨j, l, h1, h2, rfl⟩
          cases j with
          | zero => simp
          | succ j =>
            rw [List.getElem?_cons_succ] at h1
            exact absurd (List.mem_map.mpr ⟨l, List.mem_of_getElem? h1, by rw [h2, hkv]⟩) hnd.1
      · have : lookupKey ((kv, n) :: d) k = lookupKey d k := by simp [lookupKey, hk]
        rw [this, hl]
        constructor
        · rintro ⟨j, l, h1, h2, rfl⟩
          exact ⟨j + 1, l, by simpa using h1, h2, by omega⟩
        · rintro ⟨j, l, h1, h2, rfl⟩
          cases j with
          | zero =>
            simp only [List.getElem?_cons_zero, Option.some.injEq] at h1
            subst h1
            rw [hkv] at h2
            exact absurd (Option.some.inj h2) hk
          | succ j => exact ⟨j, l, by simpa using h1, h2, by omega⟩

theorem valueToInt_spec {na : NAAction} {levels : List PyVal} {d : List (Key × Nat)} {v : PyVal}
    (hh : ∀ l ∈ levels, l.key.isSome = true)
    (hl : ∀ k i, lookupKey d k = some i ↔
      ∃ (j : Nat) (l : PyVal), levels[j]? = some l ∧ l.key = some k ∧ i = 0 + j) (ho : Ordinary v) :
    (∃ c, valueToInt na d v = .ok c ∧ IsCode na levels v c ∧ (Missing na v ∨ ∃ l ∈ levels, l.key = v.key)) ∨
    (valueToInt na d v = .error .patsyError ∧ ¬ Missing na v ∧ ∀ l ∈ levels, l.key ≠ v.key) := by
  have hna := isCategoricalNA_ok (na := na) ho
  by_cases hm : Missing na v
  · left
    refine ⟨-1, ?_, Or.inl ⟨hm, rfl⟩, Or.inl hm⟩
    simp [valueToInt, hna, hm, bind, Except.bind]
  · cases hk : v.key with
    | none =>
      right
      refine ⟨?_, hm, ?_⟩
      · simp [valueToInt, hna, hm, bind, Except.bind, hk]
      · intro l hl h
        have := hh l hl
        rw [h] at this
        simp at this
    | some k =>
      cases hi : lookupKey d k with
      | none =>
        right
        refine ⟨?_, hm, ?_⟩
        · simp [valueToInt, hna, hm, bind, Except.bind, hk, hi]
        · intro l hl' h
          obtain ⟨j, hj⟩ := List.mem_iff_getElem?.mp hl'
          have := (hl k (0 + j)).mpr ⟨j, l, hj, h, rfl⟩
          rw [hi] at this
          simp at this
      | some i =>
        left
        obtain ⟨j, l, h1, h2, h3⟩ := (hl k i).mp hi
        refine ⟨i, ?_, Or.inr ⟨hm, j, l, h1, by rw [h2, hk], by rw [h3]; simp⟩,
          Or.inr ⟨l, List.mem_of_getElem? h1, h2⟩⟩
        simp [valueToInt, hna, hm, bind, Except.bind, hk, hi]

theorem mapM_valueToInt {na : NAAction} {levels : List PyVal} {d : List (Key × Nat)} {vals : List PyVal}
    (hh : ∀ l ∈ levels, l.key.isSome = true)
    (hl : ∀ k i, lookupKey d k = some i ↔
      ∃ (j : Nat) (l : PyVal), levels[j]? = some l ∧ l.key = some k ∧ i = 0 + j)
    (ho : ∀ v ∈ vals, Ordinary v) :
    (∃ codes, vals.mapM (valueToInt na d) = .ok codes ∧ List.Forall₂ (IsCode na levels) vals codes ∧
      ∀ v ∈ vals, Missing na v ∨ ∃ l ∈ levels, l.key = v.key) ∨
    (vals.mapM (valueToInt na d) = .error .patsyError ∧
      ∃ v ∈ vals, ¬ Missing na v ∧ ∀ l ∈ levels, l.key ≠ v.key) := by
  induction vals with
  | nil => exact Or.inl ⟨[], rfl, .nil, by simp⟩
  | cons v vs ih =>
    rw [List.mapM_cons]
    rcases valueToInt_spec (na := na) hh hl (ho v (by simp)) with ⟨c, h1, h2, h3⟩ | ⟨h1, h2, h3⟩
    · rcases ih (fun w hw => ho w (by simp [hw])) with ⟨cs, h4, h5, h6⟩ | ⟨h4, w, hw, h5, h6⟩
      · left
        refine ⟨c :: cs, ?_, .cons h2 h5, ?_⟩
        · simp [h1, h4, bind, Except.bind, pure, Except.pure]
        · simpa using ⟨h3, h6⟩
      · right
        refine ⟨?_, w, by simp [hw], h5, h6⟩
        simp [h1, h4, bind, Except.bind]
    · right
      refine ⟨?_, v, by simp, h2, h3⟩
      simp [h1, bind, Except.bind]

/-- Data to be coded: bare values, `C(values, c)`, or `C(values, c, levels)` with the very levels of the
factor. -/
inductive CodesData (levels : List PyVal) (kind : Kind) (vals : List PyVal) : CatValue Cn → Prop
  | bare (ncols : Nat) : CodesData levels kind vals (.raw (.array kind 1 ncols vals))
  | boxed (ncols : Nat) (c : Option Cn) : CodesData levels kind vals (.box (.array kind 1 ncols vals) c none)
  | declared (ncols : Nat) (c : Option Cn) :
    CodesData levels kind vals (.box (.array kind 1 ncols vals) c (some levels))

theorem categoricalToInt_array {na : NAAction} {levels : List PyVal} {kind : Kind} {vals : List PyVal}
    {v : CatValue Cn} (h : CodesData levels kind vals v) :
    categoricalToInt na levels v = arrayToInt na levels kind 1 vals := by
  cases h <;> simp [categoricalToInt, sameLevels]

/-- C25: if every value is missing or equal to a level, the codes say which level it is (−1 for a missing
value). -/
theorem codes_correct {na : NAAction} {levels : List PyVal} {kind : Kind} {vals : List PyVal}
    {v : CatValue Cn} (hc : CodesData levels kind vals v) (hkind : kind ≠ .boolDtype)
    (hh : ∀ l ∈ levels, l.key.isSome = true) (hnd : (levels.map PyVal.key).Nodup)
    (ho : ∀ w ∈ vals, Ordinary w) (hall : ∀ w ∈ vals, Missing na w ∨ ∃ l ∈ levels, l.key = w.key) :
    ∃ codes, categoricalToInt na levels v = .ok codes ∧ List.Forall₂ (IsCode na levels) vals codes := by
  obtain ⟨d, hd, hl⟩ := levelDict_ok (n := 0) hh hnd
  have he : categoricalToInt na levels v = vals.mapM (valueToInt na d) := by
    rw [categoricalToInt_array hc]
    simp [arrayToInt, hd, bind, Except.bind, hkind]
  rw [he]
  rcases mapM_valueToInt (na := na) hh hl ho with ⟨cs, h1, h2, -⟩ | ⟨-, w, hw, h5, h6⟩
  · exact ⟨cs, h1, h2⟩
  · rcases hall w hw with h | ⟨l, hl, h⟩
    · exact absurd h h5
    · exact absurd h (h6 l hl)

/-- C25: a value that is neither missing nor equal to a level leads to a `PatsyError`; it is never
coded silently. -/
theorem codes_unknown_rejected {na : NAAction} {levels : List PyVal} {kind : Kind} {vals : List PyVal}
    {v : CatValue Cn} (hc : CodesData levels kind vals v) (hkind : kind ≠ .boolDtype)
    (hh : ∀ l ∈ levels, l.key.isSome = true) (hnd : (levels.map PyVal.key).Nodup)
    (ho : ∀ w ∈ vals, Ordinary w) (hex : ∃ w ∈ vals, ¬ Missing na w ∧ ∀ l ∈ levels, l.key ≠ w.key) :
    categoricalToInt na levels v = .error .patsyError := by
  obtain ⟨d, hd, hl⟩ := levelDict_ok (n := 0) hh hnd
  have he : categoricalToInt na levels v = vals.mapM (valueToInt na d) := by
    rw [categoricalToInt_array hc]
    simp [arrayToInt, hd, bind, Except.bind, hkind]
  rw [he]
  rcases mapM_valueToInt (na := na) hh hl ho with ⟨cs, -, -, h3⟩ | ⟨h, -⟩
  · obtain ⟨w, hw, h1, h2⟩ := hex
    rcases h3 w hw with h | ⟨l, hl, h⟩
    · exact absurd h h1
    · exact absurd h (h2 l hl)
  · exact h

/-- C25 for boolean arrays, which take another way through the code. -/
theorem codes_boolean {na : NAAction} {levels : List PyVal} {vals : List PyVal}
    {v : CatValue Cn} (hc : CodesData levels .boolDtype vals v)
    (hh : ∀ l ∈ levels, l.key.isSome = true) (hnd : (levels.map PyVal.key).Nodup)
    (hv : ∀ w ∈ vals, ∃ b, w = .bool b ∨ w = .npBool b)
    (h0 : ∃ l ∈ levels, l.key = some (.num 0)) (h1 : ∃ l ∈ levels, l.key = some (.num 1)) :
    ∃ codes, categoricalToInt na levels v = .ok codes ∧ List.Forall₂ (IsCode na levels) vals codes := by
  obtain ⟨d, hd, hl⟩ := levelDict_ok (n := 0) hh hnd
  have key : ∀ k, (∃ l ∈ levels, l.key = some k) → ∃ i, lookupKey d k = some i := by
    rintro k ⟨l, hl', h⟩
    obtain ⟨j, hj⟩ := List.mem_iff_getElem?.mp hl'
    exact ⟨0 + j, (hl k _).mpr ⟨j, l, hj, h, rfl⟩⟩
  obtain ⟨i0, hi0⟩ := key _ h0
  obtain ⟨i1, hi1⟩ := key _ h1
  have slow : ∃ codes, vals.mapM (valueToInt na d) = .ok codes ∧ List.Forall₂ (IsCode na levels) vals codes := by
    have ho : ∀ w ∈ vals, Ordinary w := by
      intro w hw
      obtain ⟨b, rfl | rfl⟩ := hv w hw <;> trivial
    rcases mapM_valueToInt (na := na) (vals := vals) hh hl ho with ⟨cs, h1, h2, -⟩ | ⟨-, w, hw, h5, h6⟩
    · exact ⟨cs, h1, h2⟩
    · exfalso
      obtain ⟨b, hb⟩ := hv w hw
      have hwk : w.key = some (.num (boolNum b)) := by rcases hb with rfl | rfl <;> rfl
      rw [hwk] at h6
      cases b
      · obtain ⟨l, hl, h⟩ := h0
        exact h6 l hl h
      · obtain ⟨l, hl, h⟩ := h1
        exact h6 l hl h
  rw [categoricalToInt_array hc]
  simp only [arrayToInt, hd, bind, Except.bind, hi0, hi1]
  by_cases e0 : i0 = 0
  · subst e0
    by_cases e1 : i1 = 1
    · subst e1
      refine ⟨vals.map boolToInt, by simp, ?_⟩
      obtain ⟨j0, l0, a0, b0, c0⟩ := (hl _ _).mp hi0
      obtain ⟨j1, l1, a1, b1, c1⟩ := (hl _ _).mp hi1
      rw [List.forall₂_map_right_iff, List.forall₂_same]
      intro w hw
      right
      obtain ⟨b, hb⟩ := hv w hw
      refine ⟨by rcases hb with rfl | rfl <;> exact fun h => h, ?_⟩
      cases b
      · refine ⟨j0, l0, a0, by rcases hb with rfl | rfl <;> exact b0, ?_⟩
        have : j0 = 0 := by omega
        rcases hb with rfl | rfl <;> simp [boolToInt, this]
      · refine ⟨j1, l1, a1, by rcases hb with rfl | rfl <;> exact b1, ?_⟩
        have : j1 = 1 := by omega
        rcases hb with rfl | rfl <;> simp [boolToInt, this]
    · obtain ⟨cs, h1, h2⟩ := slow
      refine ⟨cs, ?_, h2⟩
      rw [← h1]
      simp only [if_true, Nat.lt_irrefl, if_false]
  · obtain ⟨cs, h1, h2⟩ := slow
    refine ⟨cs, ?_, h2⟩
    rw [← h1]
    simp only [if_true, Nat.lt_irrefl, if_false]

example : ∃ codes, categoricalToInt (Cn := Unit) {} [.bool true, .str "a", .int 0]
      (.raw (.array .boolDtype 1 1 [.npBool true, .npBool false])) = .ok codes ∧
    List.Forall₂ (IsCode {} [.bool true, .str "a", .int 0]) [.npBool true, .npBool false] codes :=
  codes_boolean (.bare 1) (by simp [PyVal.key]) (by simp [PyVal.key, boolNum]) (by simp)
    ⟨.int 0, by simp, by simp [PyVal.key]⟩ ⟨.bool true, by simp, by simp [PyVal.key, boolNum]⟩

/-- C25 fails for boolean arrays without a matching level: the error is a `KeyError`, not a
`PatsyError`. -/
theorem codes_boolean_keyError {na : NAAction} {levels : List PyVal} {vals : List PyVal}
    {v : CatValue Cn} (hc : CodesData levels .boolDtype vals v)
    (hh : ∀ l ∈ levels, l.key.isSome = true) (hnd : (levels.map PyVal.key).Nodup)
    (h0 : ∀ l ∈ levels, l.key ≠ some (.num 0)) :
    categoricalToInt na levels v = .error .keyError := by
  obtain ⟨d, hd, hl⟩ := levelDict_ok (n := 0) hh hnd
  have : lookupKey d (.num 0) = none := by
    cases h : lookupKey d (.num 0) with
    | none => rfl
    | some i =>
      obtain ⟨j, l, h1, h2, -⟩ := (hl _ i).mp h
      exact absurd h2 (h0 l (List.mem_of_getElem? h1))
  rw [categoricalToInt_array hc]
  simp [arrayToInt, hd, bind, Except.bind, this]

example : categoricalToInt (Cn := Unit) {} [.str "a", .str "b"]
    (.raw (.array .boolDtype 1 1 [.npBool true])) = .error .keyError :=
  codes_boolean_keyError (.bare 1) (by simp [PyVal.key]) (by simp [PyVal.key]) (by simp [PyVal.key])

/-- Levels declared with the data must be those of the factor. -/
theorem codes_levels_mismatch {na : NAAction} {levels other : List PyVal} {r : Raw} {c : Option Cn}
    (h : other.map PyVal.key ≠ levels.map PyVal.key) :
    categoricalToInt na levels (.box r c (some other)) = .error .patsyError := by
  simp [categoricalToInt, sameLevels, h]

/-- A bare `pandas.Categorical` keeps its codes if its categories are the levels, and is rejected
otherwise. -/
theorem codes_pandas {na : NAAction} {levels cats : List PyVal} {codes : List Int} :
    (cats.map PyVal.key = levels.map PyVal.key →
      categoricalToInt (Cn := Cn) na levels (.raw (.pandas cats codes)) = .ok codes) ∧
    (cats.map PyVal.key ≠ levels.map PyVal.key →
      categoricalToInt (Cn := Cn) na levels (.raw (.pandas cats codes)) = .error .patsyError) := by
  constructor <;> intro h <;> simp [categoricalToInt, sameLevels, h]

/-- C25: data from which the levels were found are never rejected: every part of them can be coded with
these levels. -/
theorem codes_of_levels {na : NAAction} {data levels vals : List PyVal} {kind : Kind} {v : CatValue Cn}
    (hL : AreLevels na data levels) (hg : ∀ w ∈ data, Good na w) (hsub : vals ⊆ data)
    (hc : CodesData levels kind vals v) (hkind : kind ≠ .boolDtype) :
    ∃ codes, categoricalToInt na levels v = .ok codes ∧ List.Forall₂ (IsCode na levels) vals codes := by
  refine codes_correct hc hkind hL.hashable hL.distinct (fun w hw => (hg w (hsub hw)).1) ?_
  intro w hw
  by_cases hm : Missing na w
  · exact Or.inl hm
  · right
    obtain ⟨k, hk⟩ := Option.isSome_iff_exists.mp ((hg w (hsub hw)).2.resolve_left hm)
    have := (hL.shown k).mpr (Or.inl ⟨w, hsub hw, hm, hk⟩)
    obtain ⟨l, hl, h⟩ := List.mem_map.mp this
    exact ⟨l, hl, by rw [h, hk]⟩

/-- That needs all data to have been looked at: with the chunks `[0, 1]`, `[2]` the levels found are 0
and 1 (`levels_depend_on_chunks`), and then the second chunk is rejected. -/
theorem codes_later_chunk_rejected (na : NAAction) :
    categoricalToInt na [.int 0, .int 1] (valueChunk (some (none : Option Unit)) .number 1 [.int 2]) =
      .error .patsyError := by
  refine codes_unknown_rejected (.boxed 1 none) (by decide) (by simp [PyVal.key]) (by simp [PyVal.key]) ?_ ?_
  · simp only [List.mem_singleton, forall_eq, Ordinary]
    decide +kernel
  · exact ⟨.int 2, by simp, fun h => h, by simp [PyVal.key]⟩

/-- A `pandas.Categorical` with missing values is coded when bare, but rejected inside `C(...)` if NaN does
not count as missing (`NAAction(NA_types=["None"])`). -/
theorem codes_boxed_pandas_rejected :
    categoricalToInt (Cn := Unit) { nan := false } [.str "a", .str "b"] (.raw (.pandas [.str "a", .str "b"] [0, -1])) =
      .ok [0, -1] ∧
    categoricalToInt (Cn := Unit) { nan := false } [.str "a", .str "b"]
      (.box (.pandas [.str "a", .str "b"] [0, -1]) none none) = .error .patsyError := by
  constructor
  · exact codes_pandas.1 rfl
  · refine (?_ : categoricalToInt (Cn := Unit) { nan := false } [.str "a", .str "b"]
      (.box (.array .other 1 1 [.str "a", .nan 0]) none none) = .error .patsyError)
    refine codes_unknown_rejected (.boxed 1 none) (by decide) (by simp [PyVal.key]) (by simp [PyVal.key]) ?_ ?_
    · simp only [List.forall_mem_cons, Ordinary]
      exact ⟨by decide +kernel, trivial, by simp⟩
    · exact ⟨.nan 0, by simp, by simp [Missing], by simp [PyVal.key]⟩

/-- With NaN counting as missing, a `pandas.Categorical` inside `C(...)` keeps its codes too. -/
theorem codes_boxed_pandas {na : NAAction} (hna : na.nan = true) {levels : List PyVal} {codes : List Int}
    {c : Option Cn} (hh : ∀ l ∈ levels, l.key.isSome = true) (hnd : (levels.map PyVal.key).Nodup)
    (hl : ∀ l ∈ levels, Ordinary l ∧ ¬ Missing na l)
    (hcodes : ∀ i ∈ codes, i = -1 ∨ ∃ j : Nat, j < levels.length ∧ i = j) :
    categoricalToInt na levels (.box (.pandas levels codes) c none) = .ok codes := by
  have hval : ∀ i ∈ codes, ∃ w, (if i < 0 then PyVal.nan 0 else levels[i.toNat]?.getD (.nan 0)) = w ∧
      ((i = -1 ∧ w = .nan 0) ∨ ∃ j : Nat, i = j ∧ levels[j]? = some w) := by
    intro i hi
    refine ⟨_, rfl, ?_⟩
    rcases hcodes i hi with rfl | ⟨j, hj, rfl⟩
    · left; simp
    · right
      refine ⟨j, rfl, ?_⟩
      simp [hj]
  have h : ∃ cs, categoricalToInt na levels (.box (.array .other 1 1 (pandasValues levels codes)) c none) =
      .ok cs ∧ List.Forall₂ (IsCode na levels) (pandasValues levels codes) cs := by
    refine codes_correct (.boxed 1 c) (by decide) hh hnd ?_ ?_
    · intro w hw
      obtain ⟨i, hi, rfl⟩ := List.mem_map.mp hw
      obtain ⟨w, hw, ⟨-, h⟩ | ⟨j, -, h⟩⟩ := hval i hi
      · rw [hw, h]; trivial
      · rw [hw]; exact (hl w (List.mem_of_getElem? h)).1
    · intro w hw
      obtain ⟨i, hi, rfl⟩ := List.mem_map.mp hw
      obtain ⟨w, hw, ⟨-, h⟩ | ⟨j, -, h⟩⟩ := hval i hi
      · rw [hw, h]; exact Or.inl hna
      · rw [hw]; exact Or.inr ⟨w, List.mem_of_getElem? h, rfl⟩
  obtain ⟨cs, h1, h2⟩ := h
  have : cs = codes := by
    rw [pandasValues, List.forall₂_map_left_iff] at h2
    clear h1
    induction h2 with
    | nil => rfl
    | @cons i c' is cs' hic _ ih =>
      rw [ih (fun i hi => hcodes i (by simp [hi])) (fun i hi => hval i (by simp [hi]))]
      congr 1
      obtain ⟨w, hw, hcase⟩ := hval i (by simp)
      rw [hw] at hic
      rcases hcase with ⟨h, hn⟩ | ⟨j, h, hj⟩
      · rw [hn] at hic
        rcases hic with ⟨-, h'⟩ | ⟨h', -⟩
        · rw [h, h']
        · exact absurd hna h'
      · have hnm := (hl w (List.mem_of_getElem? hj)).2
        rcases hic with ⟨h', -⟩ | ⟨-, j', l, hj', hk, h'⟩
        · exact absurd h' hnm
        · have hmj : (levels.map PyVal.key)[j]? = some w.key := by simp [hj]
          have hmj' : (levels.map PyVal.key)[j']? = some w.key := by simp [hj', hk]
          have hjj : j = j' := by
            have h1 := List.getElem?_eq_some_iff.mp hmj
            have h2 := List.getElem?_eq_some_iff.mp hmj'
            obtain ⟨a, ha⟩ := h1
            obtain ⟨b, hb⟩ := h2
            exact (List.Nodup.getElem_inj_iff hnd).mp (ha.trans hb.symm)
          rw [h', h, hjj]
  rw [this] at h1
  exact h1

example : ∃ codes, categoricalToInt (Cn := Unit) {} [.bool false, .int 3, .str "a"]
      (.box (.array .other 1 1 [.str "a", .none, .float 0, .float 3]) none none) = .ok codes ∧
    List.Forall₂ (IsCode {} [.bool false, .int 3, .str "a"])
      [.str "a", .none, .float 0, .float 3] codes := by
  refine codes_correct (.boxed 1 none) (by decide) (by simp [PyVal.key])
    (by simp [PyVal.key, boolNum]) ?_ ?_
  · have h1 : isNanString "a" = false := by decide +kernel
    simp [Ordinary, h1]
  · simp [Missing, PyVal.key, boolNum]

end Patsy.Props
