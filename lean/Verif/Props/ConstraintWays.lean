import Verif.Lemmas.ConstraintWays
import Verif.Model.DesignConstraint
import Verif.Props.DesignInfo

/-!
# C81: the ways to demand values of columns agree
-/

namespace Patsy.Props

open Patsy.Constraint Patsy.Spec
open Patsy.Infix (Tok Kind Node Origin infixParse mkTable)
open Patsy.Desc (bind_ok pure_ok bind_err)

set_option linter.unusedSectionVars false

variable {K : Type} [Field K] [DecidableEq K]

theorem dot_selector {names : List Name} (hnd : names.Nodup) {n : Name} (h : n ∈ names) (ρ : Name → K) :
    dot (selector names n) (names.map ρ) = ρ n := by
  rw [← unit_selector hnd h, dot_variable h]

/-- The matrix form says that the columns have the given values. -/
theorem columnsEqual_meaning {names : List Name} (hnd : names.Nodup) {xs : List (Name × K)} (hx : ∀ p ∈ xs, p.1 ∈ names)
    (ρ : Name → K) : Sat (columnsEqual names xs) (names.map ρ) ↔ ∀ p ∈ xs, ρ p.1 = p.2 := by
  unfold Sat
  simp only [columnsEqual, List.zip_map']
  constructor
  · intro h p hp
    have := h _ (List.mem_map.mpr ⟨p, hp, rfl⟩)
    rwa [dot_selector hnd (hx p hp)] at this
  · intro h p hp
    obtain ⟨q, hq, rfl⟩ := List.mem_map.mp hp
    simp only
    rw [dot_selector hnd (hx q hq)]
    exact h q hq

theorem unitRow_selector {names : List Name} (hnd : names.Nodup) {n : Name} (h : n ∈ names) (i : Int)
    (hi : i = names.idxOf n ∨ i = names.idxOf n - (names.length : Int)) :
    unitRow names.length i = .ok (selector names n : List K) := by
  have hlt : names.idxOf n < names.length := List.idxOf_lt_length_iff.mpr h
  have hj : (if i < 0 then i + (names.length : Int) else i) = names.idxOf n := by
    split <;> omega
  rw [unitRow]
  simp only [hj]
  rw [if_pos (by omega), Int.toNat_natCast, unit_selector hnd h]

/-- The keys denote columns: by name, or by position. -/
inductive KeyDenotes (names : List Name) : Key → Name → Prop
  | name {n : Name} : KeyDenotes names (.name n) n
  | position {n : Name} : KeyDenotes names (.int (names.idxOf n)) n

theorem mapping_rows {names : List Name} (hnd : names.Nodup) {items : List (Key × K)} {xs : List (Name × K)}
    (h : List.Forall₂ (fun p x => KeyDenotes names p.1 x.1 ∧ p.2 = x.2) items xs) (hx : ∀ p ∈ xs, p.1 ∈ names)
    (hd : (xs.map Prod.fst).Nodup) (used : List Int)
    (hu : ∀ p ∈ xs, ((names.idxOf p.1 : Nat) : Int) ∉ used) :
    mappingRows names items used = .ok (xs.map fun p => selector names p.1, xs.map Prod.snd) := by
  induction h generalizing used with
  | nil => rfl
  | @cons p x items xs hp h ih =>
    obtain ⟨k, v⟩ := p
    obtain ⟨hk, rfl⟩ := hp
    have hin := hx x List.mem_cons_self
    have hki : keyIndex names k = .ok ((names.idxOf x.1 : Nat) : Int) := by
      cases hk with
      | name => simp [keyIndex, hin]
      | position => rfl
    rw [List.map_cons, List.nodup_cons] at hd
    rw [mappingRows, hki]
    show (if ((names.idxOf x.1 : Nat) : Int) ∈ used then _ else _) = _
    rw [if_neg (hu x List.mem_cons_self), unitRow_selector hnd hin _ (Or.inl rfl)]
    show (do
      let rest ← mappingRows names items (((names.idxOf x.1 : Nat) : Int) :: used)
      pure (selector names x.1 :: rest.1, x.2 :: rest.2) : Except Err _) = _
    rw [ih (fun p hp => hx p (List.mem_cons_of_mem _ hp)) hd.2 _ (by
      intro p hp hmem
      rw [List.mem_cons] at hmem
      rcases hmem with hmem | hmem
      · have he : names.idxOf p.1 = names.idxOf x.1 := by exact_mod_cast hmem
        have hpn := hx p (List.mem_cons_of_mem _ hp)
        have : p.1 = x.1 := (List.idxOf_inj hpn).mp he
        exact hd.1 (this ▸ List.mem_map_of_mem hp)
      · exact hu p (List.mem_cons_of_mem _ hp) hmem)]
    rfl

/-- **C81**.  All ways to demand that some columns have some values give the same equations: a text with the equations
separated by commas, a list of texts with one equation each, a dictionary whose keys are names or positions, a matrix
with a vector, and the resulting object itself. -/
theorem constraint_ways {names : List Name} (hnd : names.Nodup) (hm : Mentionable names) {num : Name → K}
    {l : List (Name × List Char)} {xs : List (Name × K)}
    (hl : List.Forall₂ (fun p x => p.1 ∈ names ∧ x.1 = p.1 ∧ Literal num p.2 x.2) l xs) (hne : l ≠ [])
    (hd : (xs.map Prod.fst).Nodup) :
    linearConstraint names num (.string (equationsText l)) = .ok (columnsEqual names xs) ∧
    linearConstraint names num (.strings (l.map fun p => equationText p.1 p.2)) = .ok (columnsEqual names xs) ∧
    (∀ items : List (Key × K), List.Forall₂ (fun p x => KeyDenotes names p.1 x.1 ∧ p.2 = x.2) items xs →
      linearConstraint names num (.mapping items) = .ok (columnsEqual names xs)) ∧
    linearConstraint names num
      (.tuple (.mat names.length (xs.map fun x => selector names x.1)) (some (.vec (xs.map Prod.snd)))) =
      .ok (columnsEqual names xs) ∧
    linearConstraint names num (.con (columnsEqual names xs)) = .ok (columnsEqual names xs) := by
  have hxs : xs ≠ [] := by
    intro h
    rw [h, List.forall₂_nil_right_iff] at hl
    exact hne hl
  have hx : ∀ p ∈ xs, p.1 ∈ names := by
    intro x hx
    obtain ⟨i, hi, rfl⟩ := List.mem_iff_getElem.mp hx
    have hi' : i < l.length := by rw [hl.length_eq]; exact hi
    have := (List.forall₂_iff_get.mp hl).2 i hi' hi
    simp only [List.get_eq_getElem] at this
    rw [this.2.1]
    exact this.1
  have htuple : linearConstraint names num
      (.tuple (.mat names.length (xs.map fun x => selector names x.1)) (some (.vec (xs.map Prod.snd)))) =
      .ok (columnsEqual names xs) := by
    refine (tuple_meaning names num _ _ _ ?_ _).mpr ⟨⟨rfl, by simpa using hxs, by simp⟩, rfl⟩
    intro r hr
    obtain ⟨x, -, rfl⟩ := List.mem_map.mp hr
    exact selector_length _ _
  refine ⟨?_, ?_, ?_, htuple, by simp [linearConstraint, columnsEqual]⟩
  · rw [linearConstraint, equations_string hnd hm hl hne]
    show combine [columnsEqual names xs] = _
    rw [combine_rows (names := names) (by simp) (by simpa using selector_good names hxs)]
    simp [columnsEqual]
  · have hmap : (l.map fun p => equationText p.1 p.2).mapM (constraintOfString names num) =
        .ok (xs.map fun x => columnsEqual names [x]) := by
      clear hne hd hxs hx htuple
      induction hl with
      | nil => rfl
      | @cons p x l xs hp hl ih =>
        have := equations_string (l := [p]) (xs := [x]) hnd hm (.cons hp .nil) (by simp)
        simp only [equationsText] at this
        rw [List.map_cons, List.mapM_cons, this]
        show (do
          let r ← (l.map fun p => equationText p.1 p.2).mapM (constraintOfString names num)
          pure (columnsEqual names [x] :: r) : Except Err _) = _
        rw [ih]
        rfl
    rw [linearConstraint, if_neg (by simpa using hne), hmap]
    show combine (xs.map fun x => columnsEqual names [x]) = _
    rw [combine_rows (names := names) (by simpa using hxs) (by
      intro c hc
      obtain ⟨x, -, rfl⟩ := List.mem_map.mp hc
      exact selector_good names (by simp))]
    simp [columnsEqual, List.flatMap_map, List.flatMap_singleton']
    constructor <;> (clear hl hne hd hxs hx htuple hmap; induction xs <;> simp_all)
  · intro items hi
    rw [linearConstraint, mapping_rows hnd hi hx hd [] (by simp)]
    exact htuple

/-! ### A name alone -/

/-- Two assignments agree on the variables of an expression. -/
def Agree (ρ ρ' : Name → K) : Ast Sym Name → Prop
  | .atom t => t.kind = .sym .variable → ρ t.extra = ρ' t.extra
  | .un _ a => Agree ρ ρ' a
  | .bin _ a b => Agree ρ ρ' a ∧ Agree ρ ρ' b

theorem value_congr {ρ ρ' : Name → K} (num : Name → K) (a : Ast Sym Name) (h : Agree ρ ρ' a) :
    value ρ num a = value ρ' num a := by
  induction a with
  | atom t =>
    rw [value, value]
    split
    · rename_i ht
      rw [h ht]
    · rfl
  | un t a ih => rw [value, value, ih h]
  | bin t a b iha ihb => rw [value, value, iha h.1, ihb h.2]

theorem agree_sides {ρ ρ' : Name → K} (a : Ast Sym Name) (h : Agree ρ ρ' a) :
    Agree ρ ρ' (lastSide a) ∧ Agree ρ ρ' (firstSide a) := by
  induction a with
  | atom t => exact ⟨h, h⟩
  | un t a => exact ⟨h, h⟩
  | bin t a b iha ihb =>
    rw [lastSide, firstSide]
    split
    · exact ⟨(ihb h.2).1, (iha h.1).2⟩
    · exact ⟨h, h⟩

theorem holds_congr {ρ ρ' : Name → K} (num : Name → K) (a : Ast Sym Name) (h : Agree ρ ρ' a) :
    Holds ρ num a ↔ Holds ρ' num a := by
  induction a with
  | atom t => rw [Holds, Holds, value_congr num _ h]; all_goals simp
  | un t a => rw [Holds, Holds, value_congr num _ h]; all_goals simp
  | bin t a b iha ihb =>
    rw [Holds, Holds]
    split
    · rw [iha h.1, ihb h.2]
    · split
      · rw [iha h.1, ihb h.2, value_congr num _ (agree_sides a h.1).1, value_congr num _ (agree_sides b h.2).2]
      · rw [value_congr num _ h]

theorem agree_of_flatten {ρ ρ' : Name → K} (d : Cst Sym Name)
    (h : ∀ t ∈ d.flatten, t.kind = .sym .variable → ρ t.extra = ρ' t.extra) : Agree ρ ρ' d.toAst := by
  induction d with
  | atom t => exact h t (by simp [Cst.flatten])
  | paren l c r ih => exact ih fun t ht => h t (by simp [Cst.flatten, ht])
  | un t p c ih => exact ih fun t ht => h t (by simp [Cst.flatten, ht])
  | bin l t p r ihl ihr =>
    exact ⟨ihl fun t ht => h t (by simp [Cst.flatten, ht]), ihr fun t ht => h t (by simp [Cst.flatten, ht])⟩

theorem lexed_length {names : List Name} {pos : Nat} {s : List Char} {toks : List (Tok Sym Name)}
    (h : Lexed names pos s toks) : ∀ t ∈ toks, t.extra.length ≤ s.length := by
  induction h with
  | nil => simp
  | space _ _ _ _ _ _ ih =>
    intro t ht
    have := ih t ht
    rw [List.length_append]
    omega
  | word _ _ ih =>
    intro t ht
    rw [List.length_append]
    rcases List.mem_cons.mp ht with rfl | ht
    · simp
    · have := ih t ht
      omega

/-- A text that begins with an operator does not mention the variable of that name. -/
theorem lexed_not_self {names : List Name} {pos : Nat} {s : List Char} {toks : List (Tok Sym Name)}
    (h : Lexed names pos s toks) (hop : ¬ NoOp s) : ∀ t ∈ toks, t.kind = .sym .variable → t.extra ≠ s := by
  cases h with
  | nil => exact absurd (by intro c hc; simp at hc) hop
  | space hno => exact absurd hno hop
  | @word _ k w rest toks hw h =>
    intro t ht hk he
    rcases List.mem_cons.mp ht with rfl | ht
    · simp only at hk
      subst hk
      cases hw with
      | op h' => simp [opText] at h'
      | «variable» hno => exact hop hno
    · have h1 := lexed_length h t ht
      have h2 : w ≠ [] := by
        cases hw with
        | lparen => simp
        | rparen => simp
        | op => simp
        | «variable» _ hne => exact hne
        | number hno => exact absurd hno hop
      have := List.length_pos_of_ne_nil h2
      rw [he, List.length_append] at h1
      omega

/-- **C81** (a name alone).  The name of a column, given as a constraint, demands that the column is zero exactly if it does
not begin with an operator or a parenthesis. -/
theorem name_alone_iff {names : List Name} (hnd : names.Nodup) {num : Name → K} {n : Name} (h : n ∈ names) (hn : n ≠ []) :
    constraintOfString names num n = .ok (columnsEqual names [(n, 0)]) ↔ NoOp n := by
  have hne : names ≠ [] := List.ne_nil_of_mem h
  constructor
  · intro hc
    by_contra hop
    obtain ⟨-, toks, h1, d, -, h3, h4⟩ := constraint_meaning hne hc
    have hns := lexed_not_self h1 hop
    have hag : Agree (fun _ => (0 : K)) (fun m => if m = n then 1 else 0) d.toAst := by
      apply agree_of_flatten
      intro t ht hk
      rw [h3] at ht
      rw [if_neg (hns t ht hk)]
    have h5 := holds_congr num _ hag
    rw [← h4, ← h4, columnsEqual_meaning hnd (by simpa using h), columnsEqual_meaning hnd (by simpa using h)] at h5
    simp at h5
  · intro hop
    have hlex : Lexed names 0 (n ++ []) [⟨.sym .variable, ⟨0, 0 + n.length⟩, n⟩] :=
      .word (.variable (by simpa using hop) hn h (fun v _ hp => by simpa using hp.length_le)) .nil
    rw [List.append_nil] at hlex
    exact constraintOfString_gives hne hlex (d := .atom _) ⟨_, rfl, rfl, rfl⟩ rfl (gives_variable hnd num rfl h)

/-! ### Designs -/

section design
open Patsy.Build
variable {F D C : Type} [DecidableEq F]

/-- Columns of a design have distinct names. -/
theorem column_names_nodup {name : F → String} {names : List String} {coding : Option (Coding F D C)} {d : DesignInfo F D C}
    (h : DesignInfo.make name names coding = .ok d) (hk : ∀ c, coding = some c → TermKeys c) :
    d.columnNames = names ∧ names.Nodup := by
  cases coding with
  | none =>
    obtain ⟨h1, h2, -⟩ := columns_exact_plain.1 d h
    exact ⟨h2, h1⟩
  | some c =>
    obtain ⟨h1, h2, -⟩ := columns_exact h (hk c rfl)
    exact ⟨h1, h2⟩

/-- **C81** (designs).  With the names of a design: the equation `name = value`, the dictionary with the name and the
dictionary with the position give the same constraint, and it says that the coefficient of the column has the value. -/
theorem design_constraint {name : F → String} {names : List String} {coding : Option (Coding F D C)} {d : DesignInfo F D C}
    (h : DesignInfo.make name names coding = .ok d) (hk : ∀ c, coding = some c → TermKeys c)
    (hm : Mentionable (names.map String.toList)) {num : Name → K} {i : Nat} {n : String} (hi : names[i]? = some n)
    {v : List Char} {k : K} (hv : Literal num v k) :
    ∃ c, d.linearConstraint num (.string (equationText n.toList v)) = .ok c ∧
      d.linearConstraint num (.mapping [(.name n.toList, k)]) = .ok c ∧
      d.linearConstraint num (.mapping [(.int i, k)]) = .ok c ∧
      ∀ β : List K, β.length = names.length → (Sat c β ↔ β[i]? = some k) := by
  obtain ⟨h1, h2⟩ := column_names_nodup h hk
  have hnd : (names.map String.toList).Nodup := h2.map fun a b hab => String.toList_injective hab
  have hmem : n.toList ∈ names.map String.toList := List.mem_map_of_mem (List.mem_of_getElem? hi)
  have hw := constraint_ways (l := [(n.toList, v)]) (xs := [(n.toList, k)]) hnd hm (.cons ⟨hmem, rfl, hv⟩ .nil) (by simp)
    (by simp)
  have hidx : (names.map String.toList).idxOf n.toList = i := by
    obtain ⟨hlt, rfl⟩ := List.getElem?_eq_some_iff.mp hi
    have := hnd.idxOf_getElem i (by simpa using hlt)
    simpa using this
  refine ⟨columnsEqual (names.map String.toList) [(n.toList, k)], ?_, ?_, ?_, ?_⟩
  · rw [DesignInfo.linearConstraint, h1]
    exact hw.1
  · rw [DesignInfo.linearConstraint, h1]
    exact hw.2.2.1 _ (.cons ⟨.name, rfl⟩ .nil)
  · rw [DesignInfo.linearConstraint, h1]
    refine hw.2.2.1 _ (.cons ⟨?_, rfl⟩ .nil)
    rw [← hidx]
    exact .position
  · intro β hβ
    obtain ⟨ρ, rfl⟩ := vector_valuation hnd (x := β) (by simpa using hβ)
    rw [columnsEqual_meaning hnd (by simpa using hmem)]
    simp [hi]

end design

/-! ### Samples -/

namespace WaysSample

/-- The columns of `1 + C(a) + x + x:z`. -/
def names : List String := ["Intercept", "C(a)[T.b]", "x", "x:z"]

/-- The value of numerals. -/
def num (w : Name) : ℚ := if w = "2.5".toList then 5 / 2 else if w = "2".toList then 2 else 1

theorem mentionable : Mentionable (names.map String.toList) := by
  constructor
  · intro n hn
    simp only [names, List.map_cons, List.map_nil, List.mem_cons, List.not_mem_nil, or_false] at hn
    rcases hn with rfl | rfl | rfl | rfl
    · exact ⟨_, _, rfl, by decide +kernel⟩
    · exact ⟨_, _, rfl, by decide +kernel⟩
    · exact ⟨_, _, rfl, by decide +kernel⟩
    · exact ⟨_, _, rfl, by decide +kernel⟩
  · decide +kernel

theorem literal : Literal num "-2.5".toList (-(5 / 2)) := by
  have : Numeral "2.5".toList :=
    .plain (.frac (d := ['2']) (f := ['5']) (Or.inr ⟨by simp, by decide +kernel⟩) ⟨by simp, by decide +kernel⟩)
  exact .minus this

theorem literal_one : Literal num "1".toList 1 := .plain (.plain (.int ⟨by simp, by decide +kernel⟩))

end WaysSample

open WaysSample in
/-- `C(a)[T.b] = 1, x:z = -2.5`. -/
example : linearConstraint (WaysSample.names.map String.toList) WaysSample.num
      (.string "C(a)[T.b] = 1, x:z = -2.5".toList) =
      .ok (columnsEqual (WaysSample.names.map String.toList) [("C(a)[T.b]".toList, 1), ("x:z".toList, -(5 / 2))]) ∧
    linearConstraint (WaysSample.names.map String.toList) WaysSample.num
      (.mapping [(.name "C(a)[T.b]".toList, 1), (.int 3, -(5 / 2))]) =
      .ok (columnsEqual (WaysSample.names.map String.toList) [("C(a)[T.b]".toList, 1), ("x:z".toList, -(5 / 2))]) := by
  have hw := constraint_ways (names := WaysSample.names.map String.toList) (num := WaysSample.num)
    (l := [("C(a)[T.b]".toList, "1".toList), ("x:z".toList, "-2.5".toList)])
    (xs := [("C(a)[T.b]".toList, 1), ("x:z".toList, -(5 / 2))]) (by decide +kernel) mentionable
    (.cons ⟨by decide +kernel, rfl, literal_one⟩ (.cons ⟨by decide +kernel, rfl, literal⟩ .nil)) (by simp)
    (by decide +kernel)
  exact ⟨hw.1, hw.2.2.1 _ (.cons ⟨.name, rfl⟩ (.cons ⟨.position (n := "x:z".toList), rfl⟩ .nil))⟩

/-- The name of a column alone. -/
example : constraintOfString (WaysSample.names.map String.toList) WaysSample.num "x:z".toList =
    .ok (columnsEqual (WaysSample.names.map String.toList) [("x:z".toList, 0)]) :=
  (name_alone_iff (by decide +kernel) (by decide +kernel) (by decide +kernel)).mpr (by
    intro c hc
    obtain rfl : c = 'x' := by simpa using hc.symm
    decide)

/-- **C81** (the condition is needed).  If a column is called `1`, then `x = 1` speaks of that column, unlike the dictionary;
and a column called `(x)` cannot be mentioned by its name: the text means the column `x`. -/
theorem names_not_mentionable :
    (∃ c c' : LinCon ℚ, linearConstraint ["1".toList, "x".toList] WaysSample.num (.string "x = 1".toList) = .ok c ∧
      linearConstraint ["1".toList, "x".toList] WaysSample.num (.mapping [(.name "x".toList, 1)]) = .ok c' ∧
      Sat c [7, 7] ∧ ¬ Sat c' [7, 7] ∧ Sat c' [7, 1] ∧ ¬ Sat c [7, 1]) ∧
    ∃ c : LinCon ℚ, linearConstraint ["(x)".toList, "x".toList] WaysSample.num (.string "(x)".toList) = .ok c ∧
      Sat c [7, 0] ∧ ¬ Sat c [0, 7] := by
  refine ⟨⟨⟨["1".toList, "x".toList], [[-1, 1]], [0]⟩, ⟨["1".toList, "x".toList], [[0, 1]], [1]⟩,
    eq_ok_of_okIs (by decide +kernel), eq_ok_of_okIs (by decide +kernel), ?_⟩,
    ⟨["(x)".toList, "x".toList], [[0, 1]], [0]⟩, eq_ok_of_okIs (by decide +kernel), ?_⟩
  · simp [Sat, dot]
    norm_num
  · simp [Sat, dot]

end Patsy.Props
