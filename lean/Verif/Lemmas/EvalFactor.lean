import Mathlib.Data.List.Basic
import Verif.Model.EvalFactor
import Verif.Spec.Calls

/-!
# Lemmas about the scanning functions of `EvalFactor`
-/

set_option linter.unusedSectionVars false

namespace Patsy.EvalFactor

open Patsy.Tokens Patsy.Calls

/-! ### Names of objects -/

theorem toDigits_injective {i j : Nat} (h : Nat.toDigits 10 i = Nat.toDigits 10 j) : i = j := by
  have h1 := Nat.ofDigitChars_toDigits (b := 10) (n := i) (by decide) (by decide)
  have h2 := Nat.ofDigitChars_toDigits (b := 10) (n := j) (by decide) (by decide)
  rw [← h1, ← h2, h]

theorem objName_toList (i : Nat) (t : String) : (objName i t).toList =
    "_patsy_stobj".toList ++ (Nat.toDigits 10 i ++ ('_' :: ("_".toList ++ (t.toList ++ "__".toList)))) := by
  have h : (toString i).toList = Nat.toDigits 10 i := Nat.toList_repr
  simp only [objName, String.toList_append, h]
  simp

theorem objName_index {i j : Nat} {s t : String} (h : objName i s = objName j t) : i = j := by
  have h' := congrArg String.toList h
  rw [objName_toList, objName_toList] at h'
  have h1 := List.append_cancel_left h'
  have h2 := congrArg (List.takeWhile Char.isDigit) h1
  have key : ∀ (n : Nat) (r : List Char),
      List.takeWhile Char.isDigit (Nat.toDigits 10 n ++ ('_' :: r)) = Nat.toDigits 10 n := by
    intro n r
    rw [List.takeWhile_append_of_pos]
    · simp [List.takeWhile_cons, show Char.isDigit '_' = false by decide]
    · intro c hc
      exact Nat.isDigit_of_mem_toDigits (by decide) (by decide) hc
  rw [key, key] at h2
  exact toDigits_injective h2

theorem objName_long (i : Nat) (t : String) : 12 ≤ (objName i t).length := by
  have h : (objName i t).length = (objName i t).toList.length := rfl
  rw [h, objName_toList]
  simp only [List.length_append]
  have : "_patsy_stobj".toList.length = 12 := by decide
  omega

theorem objName_ne_dot (i : Nat) (t : String) : objName i t ≠ "." := by
  intro h
  have := objName_long i t
  rw [h] at this
  exact absurd this (by decide)

theorem objName_not_bracket (i : Nat) (t : String) : objName i t ∉ bracketStrings := by
  intro h
  have := objName_long i t
  simp only [bracketStrings, List.mem_cons, List.not_mem_nil, or_false] at h
  rcases h with h | h | h | h | h | h <;> rw [h] at this <;> exact absurd this (by decide)

/-! ### Trees -/

variable (st : String → Bool)

/-- Whether a token is the function name of a stateful call. -/
def callee (dot : Bool) (t : Tok) (rest : Code) : Bool :=
  rest.args?.isSome && (!dot && decide (t.1 = .name) && st t.2)

/-- Whether the token before the position after some code is a dot. -/
def lastDot : Bool → Code → Bool
  | dot, .nil => dot
  | _, .tok t rest => lastDot (isDot t) rest
  | _, .group _ _ rest => lastDot false rest

/-- The tree after the replacement of stateful calls. -/
def subst : Nat → Bool → Code → Code
  | _, _, .nil => .nil
  | i, dot, .tok t rest =>
    if callee st dot t rest then
      .tok (.name, objName i t.2) (.tok (.op, ".") (.tok (.name, "transform")
        (subst (i + 1) (isDot t) rest)))
    else .tok t (subst i (isDot t) rest)
  | i, _, .group b body rest =>
    .group b (subst i false body) (subst (i + (body.calls st false).length) false rest)

/-- The names of the objects of some code. -/
def objs (i : Nat) (dot : Bool) (c : Code) : List String :=
  (c.calls st dot).mapIdx fun k p => objName (i + k) p.1

theorem args?_eq {c body : Code} (h : c.args? = some body) : ∃ r, c = .group .paren body r := by
  cases c with
  | nil => simp [Code.args?] at h
  | tok t r => simp [Code.args?] at h
  | group b bd r => cases b <;> simp [Code.args?] at h; exact ⟨r, by rw [h]⟩

theorem callee_true {dot : Bool} {t : Tok} {rest : Code} (h : callee st dot t rest = true) :
    ∃ body r, rest = .group .paren body r ∧ dot = false ∧ t.1 = .name ∧ st t.2 = true := by
  simp only [callee, Bool.and_eq_true, Option.isSome_iff_exists, Bool.not_eq_true', decide_eq_true_eq] at h
  obtain ⟨⟨body, hb⟩, ⟨h1, h2⟩, h3⟩ := h
  obtain ⟨r, hr⟩ := args?_eq hb
  exact ⟨body, r, hr, h1, h2, h3⟩

theorem calls_callee {dot : Bool} {t : Tok} {body r : Code}
    (h : callee st dot t (.group .paren body r) = true) :
    Code.calls st dot (.tok t (.group .paren body r)) =
      (t.2, body) :: Code.calls st false (.group .paren body r) := by
  obtain ⟨_, _, _, h1, h2, h3⟩ := callee_true st h
  simp [Code.calls, Code.args?, h1, h2, h3]

theorem calls_other {dot : Bool} {t : Tok} {rest : Code} (h : callee st dot t rest = false) :
    Code.calls st dot (.tok t rest) = Code.calls st (isDot t) rest := by
  cases ha : rest.args? with
  | none => simp [Code.calls, ha, isDot]
  | some body =>
    have : ¬ (dot = false ∧ t.1 = .name ∧ st t.2 = true) := by
      rintro ⟨h1, h2, h3⟩
      simp [callee, ha, h1, h2, h3] at h
    simp [Code.calls, ha, this, isDot]

theorem objs_callee {i : Nat} {dot : Bool} {t : Tok} {body r : Code}
    (h : callee st dot t (.group .paren body r) = true) :
    objs st i dot (.tok t (.group .paren body r)) =
      objName i t.2 :: objs st (i + 1) false (.group .paren body r) := by
  rw [objs, calls_callee st h, objs, List.mapIdx_cons]
  simp only [Nat.add_zero]
  congr 1
  apply List.mapIdx_eq_mapIdx_iff.mpr
  intro k hk
  congr 1
  omega

theorem objs_other {i : Nat} {dot : Bool} {t : Tok} {rest : Code} (h : callee st dot t rest = false) :
    objs st i dot (.tok t rest) = objs st i (isDot t) rest := by
  rw [objs, calls_other st h, objs]

theorem objs_group (i : Nat) (dot : Bool) (b : Bracket) (body rest : Code) :
    objs st i dot (.group b body rest) =
      objs st i false body ++ objs st (i + (body.calls st false).length) false rest := by
  simp only [objs, Code.calls, List.mapIdx_append]
  congr 1
  apply List.mapIdx_eq_mapIdx_iff.mpr
  intro k hk
  congr 1
  omega

theorem head_render {rest : Code} (hw : rest.WF) {ts : List Tok}
    (ht : ts.head?.map (·.2) ≠ some "(") :
    ((rest.render ++ ts).head?.map (·.2) = some "(") ↔ rest.args?.isSome = true := by
  cases rest with
  | nil => simpa [Code.render, Code.args?] using ht
  | tok t r =>
    have h1 := hw.1
    simp only [Code.render, Code.args?, List.cons_append, List.head?_cons, Option.map_some,
      Option.some.injEq, Option.isSome_none, Bool.false_eq_true, iff_false]
    intro h
    rw [h] at h1
    exact h1 (by decide)
  | group b body r =>
    cases b <;> simp [Code.render, Code.args?, Bracket.opening]

theorem bareFuncall_render {dot : Bool} {t : Tok} {rest : Code} (hw : rest.WF) {ts : List Tok}
    (ht : ts.head?.map (·.2) ≠ some "(") :
    (bareFuncall dot t (rest.render ++ ts) && st t.2) = callee st dot t rest := by
  have h := head_render hw ht
  rw [Bool.eq_iff_iff]
  simp only [bareFuncall, bareRef, callee, Bool.and_eq_true, decide_eq_true_eq, Bool.not_eq_true', h]
  tauto

theorem opening_not_dot (b : Bracket) : isDot (.op, b.opening) = false := by cases b <;> decide
theorem closing_not_dot (b : Bracket) : isDot (.op, b.closing) = false := by cases b <;> decide

theorem calls_group_length (dot : Bool) (b : Bracket) (body rest : Code) :
    (Code.calls st dot (.group b body rest)).length =
      (body.calls st false).length + (rest.calls st false).length := by
  simp [Code.calls]

theorem replaceBare_cons (i : Nat) (dot : Bool) (t : Tok) (ts : List Tok) :
    replaceBare st i dot (t :: ts) = if bareFuncall dot t ts && st t.2 then
      ((.name, objName i t.2) :: (.op, ".") :: (.name, "transform") ::
        (replaceBare st (i + 1) (isDot t) ts).1, objName i t.2 :: (replaceBare st (i + 1) (isDot t) ts).2)
    else (t :: (replaceBare st i (isDot t) ts).1, (replaceBare st i (isDot t) ts).2) := rfl

theorem replaceBare_op (i : Nat) (dot : Bool) (s : String) (ts : List Tok) :
    replaceBare st i dot ((.op, s) :: ts) =
      ((.op, s) :: (replaceBare st i (isDot (.op, s)) ts).1, (replaceBare st i (isDot (.op, s)) ts).2) := by
  rw [replaceBare_cons]
  simp [bareFuncall, bareRef]

/-- The replacement, on trees. -/
theorem replaceBare_render {c : Code} : ∀ {i : Nat} {dot : Bool} {ts : List Tok}, c.WF →
    ts.head?.map (·.2) ≠ some "(" →
    replaceBare st i dot (c.render ++ ts) =
      ((subst st i dot c).render ++ (replaceBare st (i + (c.calls st dot).length) (lastDot dot c) ts).1,
       objs st i dot c ++ (replaceBare st (i + (c.calls st dot).length) (lastDot dot c) ts).2) := by
  induction c with
  | nil => intro i dot ts hw ht; simp [Code.render, Code.calls, subst, objs, lastDot]
  | tok t rest ih =>
    intro i dot ts hw ht
    rw [Code.render, List.cons_append, replaceBare_cons, bareFuncall_render st hw.2 ht]
    cases hc : callee st dot t rest with
    | true =>
      obtain ⟨body, r, rfl, _⟩ := callee_true st hc
      rw [if_pos rfl, ih hw.2 ht, objs_callee st hc, calls_callee st hc]
      rw [subst, if_pos hc]
      simp only [List.length_cons, Code.render, List.cons_append, lastDot, Code.calls, objs_group]
      rw [show i + ((body.calls st false ++ r.calls st false).length + 1) =
        i + 1 + (body.calls st false ++ r.calls st false).length by omega]
    | false =>
      rw [if_neg (by simp), ih hw.2 ht, objs_other st hc, calls_other st hc, subst, if_neg (by simp [hc])]
      simp [Code.render, lastDot]
  | group b body rest ihb ihr =>
    intro i dot ts hw ht
    rw [Code.render, List.cons_append, replaceBare_op, opening_not_dot, List.append_assoc,
      ihb hw.1 (by cases b <;> simp [Bracket.closing]), List.cons_append, replaceBare_op,
      closing_not_dot, ihr hw.2 ht, objs_group, calls_group_length]
    simp [subst, Code.render, lastDot, Nat.add_assoc]

theorem subst_wf {c : Code} : ∀ {i : Nat} {dot : Bool}, c.WF → (subst st i dot c).WF := by
  induction c with
  | nil => intro i dot _; exact trivial
  | tok t rest ih =>
    intro i dot hw
    rw [subst]
    split
    · exact ⟨objName_not_bracket _ _, by simp only; decide, by simp only; decide, ih hw.2⟩
    · exact ⟨hw.1, ih hw.2⟩
  | group b body rest ihb ihr =>
    intro i dot hw
    exact ⟨ihb hw.1, ihr hw.2⟩

/-! ### Names -/

theorem hasBareRef_render (S : List String) {c : Code} : ∀ {dot : Bool} {ts : List Tok},
    hasBareRef S dot (c.render ++ ts) =
      ((c.names dot).any (fun n => decide (n ∈ S)) || hasBareRef S (lastDot dot c) ts) := by
  induction c with
  | nil => intro dot ts; simp [Code.render, Code.names, lastDot]
  | tok t rest ih =>
    intro dot ts
    rw [Code.render, List.cons_append, hasBareRef, ih, Code.names, lastDot]
    by_cases h : dot = false ∧ t.1 = .name
    · simp [bareRef, h, isDot, Bool.or_assoc]
    · rw [if_neg h]
      have : bareRef dot t = false := by
        simp only [bareRef]
        cases dot <;> simp_all
      simp [this, isDot]
  | group b body rest ihb ihr =>
    intro dot ts
    rw [Code.render, List.cons_append, hasBareRef, List.append_assoc, opening_not_dot, ihb, List.cons_append,
      hasBareRef, closing_not_dot, ihr]
    simp [bareRef, Code.names, lastDot, Bool.or_assoc]

theorem hasBareRef_iff (S : List String) (c : Code) (dot : Bool) :
    hasBareRef S dot c.render = true ↔ ∃ n ∈ c.names dot, n ∈ S := by
  have := hasBareRef_render S (c := c) (dot := dot) (ts := [])
  rw [List.append_nil] at this
  rw [this]
  simp [hasBareRef]

theorem mem_names_subst {c : Code} : ∀ {i : Nat} {dot : Bool} {n : String},
    (n ∈ (subst st i dot c).names dot → n ∈ objs st i dot c ∨ n ∈ c.names dot) ∧
    (n ∈ objs st i dot c → n ∈ (subst st i dot c).names dot) := by
  induction c with
  | nil => intro i dot n; simp [subst, Code.names, objs, Code.calls]
  | tok t rest ih =>
    intro i dot n
    cases hc : callee st dot t rest with
    | true =>
      obtain ⟨body, r, rfl, hd, htn, _⟩ := callee_true st hc
      obtain ⟨ih1, ih2⟩ := ih (i := i + 1) (dot := false) (n := n)
      have hs : subst st (i + 1) (isDot t) (.group .paren body r) =
        subst st (i + 1) false (.group .paren body r) := rfl
      rw [subst, if_pos hc, objs_callee st hc, hs]
      have hnd : objName i t.2 ≠ "." := objName_ne_dot _ _
      have hn : (Code.tok (.name, objName i t.2) (.tok (.op, ".") (.tok (.name, "transform")
          (subst st (i + 1) false (.group .paren body r))))).names dot =
          objName i t.2 :: (subst st (i + 1) false (.group .paren body r)).names false := by
        simp [Code.names, hd]
      have hn2 : (Code.tok t (.group .paren body r)).names dot =
          t.2 :: (Code.group .paren body r).names false := by
        simp [Code.names, hd, htn]
      rw [hn, hn2]
      simp only [List.mem_cons]
      constructor
      · rintro (h | h)
        · exact Or.inl (Or.inl h)
        · rcases ih1 h with h | h
          · exact Or.inl (Or.inr h)
          · exact Or.inr (Or.inr h)
      · rintro (h | h)
        · exact Or.inl h
        · exact Or.inr (ih2 h)
    | false =>
      obtain ⟨ih1, ih2⟩ := ih (i := i) (dot := isDot t) (n := n)
      rw [subst, if_neg (by simp [hc]), objs_other st hc]
      simp only [Code.names, List.mem_append]
      simp only [isDot] at ih1 ih2
      constructor
      · rintro (h | h)
        · exact Or.inr (Or.inl h)
        · rcases ih1 h with h | h
          · exact Or.inl h
          · exact Or.inr (Or.inr h)
      · intro h
        exact Or.inr (ih2 h)
  | group b body rest ihb ihr =>
    intro i dot n
    obtain ⟨b1, b2⟩ := ihb (i := i) (dot := false) (n := n)
    obtain ⟨r1, r2⟩ := ihr (i := i + (body.calls st false).length) (dot := false) (n := n)
    rw [objs_group]
    simp only [subst, Code.names, List.mem_append]
    constructor
    · rintro (h | h)
      · exact (b1 h).imp Or.inl Or.inl
      · exact (r1 h).imp Or.inr Or.inr
    · exact Or.imp b2 r2

/-! ### Captured calls -/

theorem capture_render {c : Code} : ∀ {d : Int} {ts : List Tok}, 1 ≤ d → c.WF →
    capture d true (c.render ++ ts) =
      (match capture d true ts with
        | .ok r => .ok (r.1, c.render ++ r.2)
        | .error e => .error e) := by
  induction c with
  | nil =>
    intro d ts hd hw
    simp only [Code.render, List.nil_append]
    cases capture d true ts <;> rfl
  | tok t rest ih =>
    intro d ts hd hw
    have hb := hw.1
    simp only [bracketStrings, List.mem_cons, List.not_mem_nil, or_false, not_or] at hb
    have hz : depthChange t.2 = 0 := by
      simp [depthChange, hb]
    rw [Code.render, List.cons_append, capture]
    simp only [hz, Int.add_zero]
    rw [if_neg (by omega), if_neg (by simp), if_neg (by omega), ih hd hw.2]
    cases capture d true ts <;> rfl
  | group b body rest ihb ihr =>
    intro d ts hd hw
    have ho : depthChange b.opening = 1 := by cases b <;> decide
    have hc : depthChange b.closing = -1 := by cases b <;> decide
    rw [Code.render, List.cons_append, capture]
    simp only [ho]
    rw [if_neg (by omega), if_neg (by simp), if_neg (by omega), List.append_assoc, ihb (by omega) hw.1,
      List.cons_append, capture]
    simp only [hc]
    rw [show d + 1 + -1 = d by omega, if_neg (by omega), if_neg (by simp), if_neg (by omega), ihr hd hw.2]
    cases capture d true ts <;> simp

/-- The tokens of a method call. -/
def callTokens (o method : String) (body : Code) : List Tok :=
  (.name, o) :: (.op, ".") :: (.name, method) :: (.op, "(") :: (body.render ++ [(.op, ")")])

theorem capture_call {body : Code} (hw : body.WF) (ts : List Tok) :
    capture 0 false ((.op, ".") :: (.name, "transform") :: (.op, "(") ::
      (body.render ++ ((.op, ")") :: ts))) =
      .ok ([".", "transform"], (.op, ".") :: (.name, "transform") :: (.op, "(") ::
        (body.render ++ [(.op, ")")])) := by
  have h1 : capture 1 true (body.render ++ ((.op, ")") :: ts)) = .ok ([], body.render ++ [(.op, ")")]) := by
    rw [capture_render (by decide) hw, capture]
    simp [show depthChange ")" = -1 by decide]
  have h2 : capture 0 false ((.op, "(") :: (body.render ++ ((.op, ")") :: ts))) =
      .ok ([], (.op, "(") :: (body.render ++ [(.op, ")")])) := by
    rw [capture]
    simp [show depthChange "(" = 1 by decide, h1]
  have h3 : capture 0 false ((.name, "transform") :: (.op, "(") :: (body.render ++ ((.op, ")") :: ts))) =
      .ok (["transform"], (.name, "transform") :: (.op, "(") :: (body.render ++ [(.op, ")")])) := by
    rw [capture]
    simp [show depthChange "transform" = 0 by decide, h2]
  rw [capture]
  simp [show depthChange "." = 0 by decide, h3]

/-- The objects with their arguments. -/
def caps (i : Nat) (dot : Bool) (c : Code) : List (String × Code) :=
  (c.calls st dot).mapIdx fun k p => (objName (i + k) p.1, subst st (i + k + 1) false p.2)

theorem caps_callee {i : Nat} {dot : Bool} {t : Tok} {body r : Code}
    (h : callee st dot t (.group .paren body r) = true) :
    caps st i dot (.tok t (.group .paren body r)) =
      (objName i t.2, subst st (i + 1) false body) :: caps st (i + 1) false (.group .paren body r) := by
  rw [caps, calls_callee st h, caps, List.mapIdx_cons]
  simp only [Nat.add_zero]
  congr 1
  apply List.mapIdx_eq_mapIdx_iff.mpr
  intro k hk
  rw [show i + (k + 1) = i + 1 + k by omega]

theorem caps_other {i : Nat} {dot : Bool} {t : Tok} {rest : Code} (h : callee st dot t rest = false) :
    caps st i dot (.tok t rest) = caps st i (isDot t) rest := by
  rw [caps, calls_other st h, caps]

theorem caps_group (i : Nat) (dot : Bool) (b : Bracket) (body rest : Code) :
    caps st i dot (.group b body rest) =
      caps st i false body ++ caps st (i + (body.calls st false).length) false rest := by
  simp only [caps, Code.calls, List.mapIdx_append]
  congr 1
  apply List.mapIdx_eq_mapIdx_iff.mpr
  intro k hk
  rw [show i + (k + (body.calls st false).length) = i + (body.calls st false).length + k by omega]

theorem captureCalls_skip (o : String) (dot : Bool) (t : Tok) (ts : List Tok)
    (h : (bareRef dot t && decide (t.2 = o)) = false) :
    captureCalls o dot (t :: ts) = captureCalls o (isDot t) ts := by
  rw [captureCalls, h]; rfl

/-- What is captured. -/
theorem captureCalls_render {o : String} {c : Code} : ∀ {i : Nat} {dot : Bool} {ts : List Tok},
    c.WF → o ∉ c.names dot →
    captureCalls o dot ((subst st i dot c).render ++ ts) =
      (match captureCalls o (lastDot dot c) ts with
        | .ok r => .ok ((((caps st i dot c).filter (fun p => decide (p.1 = o))).map fun p =>
            (o ++ ".transform", callTokens o "transform" p.2)) ++ r)
        | .error e => .error e) := by
  induction c with
  | nil =>
    intro i dot ts hw hn
    simp only [subst, Code.render, List.nil_append, lastDot, caps, Code.calls]
    cases captureCalls o dot ts <;> rfl
  | tok t rest ih =>
    intro i dot ts hw hn
    cases hc : callee st dot t rest with
    | true =>
      obtain ⟨body, r, rfl, hd, htn, _⟩ := callee_true st hc
      have hn2 : (Code.tok t (.group .paren body r)).names dot =
          t.2 :: (Code.group .paren body r).names false := by
        simp [Code.names, hd, htn]
      rw [hn2, List.mem_cons, not_or] at hn
      have ihr := ih (i := i + 1) (dot := false) (ts := ts) hw.2 hn.2
      have hs : subst st (i + 1) (isDot t) (.group .paren body r) =
        subst st (i + 1) false (.group .paren body r) := rfl
      rw [subst, if_pos hc, hs, caps_callee st hc]
      generalize hX : (subst st (i + 1) false (.group .paren body r)).render ++ ts = X at ihr
      have hX' : X = (.op, "(") :: ((subst st (i + 1) false body).render ++ ((.op, ")") ::
          ((subst st (i + 1 + (body.calls st false).length) false r).render ++ ts))) := by
        rw [← hX]; simp [subst, Code.render, Bracket.opening, Bracket.closing]
      have hrest : ∀ d, captureCalls o d ((.op, ".") :: (.name, "transform") :: X) = captureCalls o false X := by
        intro d
        rw [captureCalls_skip _ _ _ _ (by simp [bareRef]), captureCalls_skip _ _ _ _ (by simp [bareRef, isDot])]
        rfl
      have hcap := capture_call (subst_wf st (i := i + 1) (dot := false) hw.2.1)
        ((subst st (i + 1 + (body.calls st false).length) false r).render ++ ts)
      rw [← hX'] at hcap
      have hl : lastDot dot (.tok t (.group .paren body r)) = lastDot false (.group .paren body r) := rfl
      rw [hl]
      simp only [Code.render, List.cons_append, hX]
      by_cases ho : objName i t.2 = o
      · rw [captureCalls]
        have : (bareRef dot (.name, objName i t.2) && decide (((.name, objName i t.2) : Tok).2 = o)) = true := by
          simp [bareRef, hd, ho]
        rw [if_pos this, hrest, ihr, hcap]
        cases captureCalls o (lastDot false (.group .paren body r)) ts with
        | error e => rfl
        | ok q =>
          simp only [List.filter_cons, ho, decide_true, if_true, List.map_cons, List.cons_append]
          congr 2
      · rw [captureCalls_skip _ _ _ _ (by simp [ho]), hrest, ihr]
        simp [ho]
    | false =>
      have hn' : o ∉ rest.names (isDot t) := by
        intro h; apply hn; simp only [Code.names, List.mem_append]; exact Or.inr h
      rw [subst, if_neg (by simp [hc]), caps_other st hc, Code.render, List.cons_append, captureCalls_skip,
        ih hw.2 hn']
      · rfl
      · by_cases hb : bareRef dot t = true
        · have : t.2 ∈ (Code.tok t rest).names dot := by
            simp only [bareRef, Bool.and_eq_true, Bool.not_eq_true', decide_eq_true_eq] at hb
            simp [Code.names, hb]
          have h2 : t.2 ≠ o := fun h => hn (h ▸ this)
          simp [h2]
        · simp [hb]
  | group b body rest ihb ihr =>
    intro i dot ts hw hn
    simp only [Code.names, List.mem_append, not_or] at hn
    rw [subst, Code.render, List.cons_append, captureCalls_skip _ _ _ _ (by simp [bareRef]), opening_not_dot,
      List.append_assoc, ihb hw.1 hn.1, List.cons_append, captureCalls_skip _ _ _ _ (by simp [bareRef]),
      closing_not_dot, ihr hw.2 hn.2, caps_group]
    simp only [lastDot]
    cases captureCalls o (lastDot false rest) ts with
    | error e => rfl
    | ok q => simp

/-! ### Nesting -/

theorem calls_nest {c : Code} : ∀ {dot : Bool} {k : Nat} {f : String} {args : Code},
    (c.calls st dot)[k]? = some (f, args) → args.calls st false <+: (c.calls st dot).drop (k + 1) := by
  induction c with
  | nil => intro dot k f args h; simp [Code.calls] at h
  | tok t rest ih =>
    intro dot k f args h
    cases hc : callee st dot t rest with
    | true =>
      obtain ⟨body, r, rfl, _⟩ := callee_true st hc
      rw [calls_callee st hc] at h ⊢
      cases k with
      | zero =>
        simp only [List.getElem?_cons_zero, Option.some.injEq, Prod.mk.injEq] at h
        rw [← h.2]
        simp [Code.calls]
      | succ k =>
        rw [List.getElem?_cons_succ] at h
        rw [List.drop_succ_cons]
        exact ih h
    | false =>
      rw [calls_other st hc] at h ⊢
      exact ih h
  | group b body rest ihb ihr =>
    intro dot k f args h
    rw [Code.calls] at h ⊢
    by_cases hk : k < (body.calls st false).length
    · rw [List.getElem?_append_left hk] at h
      rw [List.drop_append_of_le_length (by omega)]
      exact (ihb h).trans (List.prefix_append _ _)
    · rw [List.getElem?_append_right (by omega)] at h
      have := ihr h
      rw [List.drop_append, List.drop_eq_nil_of_le (by omega), List.nil_append]
      rwa [show k + 1 - (body.calls st false).length = k - (body.calls st false).length + 1 by omega]

theorem depth_group (dot : Bool) (b : Bracket) (body rest : Code) :
    Code.depth st dot (.group b body rest) = max (body.depth st false) (rest.depth st false) := by
  simp [Code.depth]

theorem depth_callee {dot : Bool} {t : Tok} {body r : Code}
    (h : callee st dot t (.group .paren body r) = true) :
    Code.depth st dot (.tok t (.group .paren body r)) =
      max (body.depth st false + 1) (Code.depth st false (.group .paren body r)) := by
  obtain ⟨_, _, _, h1, h2, h3⟩ := callee_true st h
  rw [depth_group, Code.depth]
  simp only [h1, h2, h3, and_self, if_true]
  omega

theorem depth_other {dot : Bool} {t : Tok} {rest : Code} (h : callee st dot t rest = false) :
    Code.depth st dot (.tok t rest) = Code.depth st (isDot t) rest := by
  cases rest with
  | nil => simp [Code.depth]
  | tok t' r => simp [Code.depth, isDot]
  | group b body r =>
    cases b with
    | square => simp [Code.depth]
    | curly => simp [Code.depth]
    | paren =>
      have : ¬ (dot = false ∧ t.1 = .name ∧ st t.2 = true) := by
        rintro ⟨h1, h2, h3⟩
        simp [callee, Code.args?, h1, h2, h3] at h
      rw [depth_group, Code.depth]
      simp [this]

/-- The nesting depth is determined by the calls. -/
theorem depth_calls {c : Code} : ∀ {dot : Bool},
    (∀ p ∈ c.calls st dot, p.2.depth st false + 1 ≤ c.depth st dot) ∧
    (c.depth st dot = 0 ∨ ∃ p ∈ c.calls st dot, c.depth st dot = p.2.depth st false + 1) := by
  induction c with
  | nil => intro dot; simp [Code.calls, Code.depth]
  | tok t rest ih =>
    intro dot
    cases hc : callee st dot t rest with
    | true =>
      obtain ⟨body, r, rfl, _⟩ := callee_true st hc
      rw [calls_callee st hc, depth_callee st hc]
      obtain ⟨h1, h2⟩ := ih (dot := false)
      refine ⟨?_, Or.inr ?_⟩
      · intro p hp
        rcases List.mem_cons.mp hp with rfl | hp
        · exact Nat.le_max_left _ _
        · exact Nat.le_trans (h1 p hp) (Nat.le_max_right _ _)
      · rcases h2 with h2 | ⟨p, hp, h2⟩
        · exact ⟨_, List.mem_cons_self, by rw [h2]; simp⟩
        · by_cases hm : body.depth st false + 1 ≤ p.2.depth st false + 1
          · exact ⟨p, List.mem_cons_of_mem _ hp, by rw [h2]; omega⟩
          · exact ⟨_, List.mem_cons_self, by rw [h2]; simp only; omega⟩
    | false =>
      rw [calls_other st hc, depth_other st hc]
      exact ih
  | group b body rest ihb ihr =>
    intro dot
    rw [Code.calls, depth_group]
    obtain ⟨b1, b2⟩ := ihb (dot := false)
    obtain ⟨r1, r2⟩ := ihr (dot := false)
    constructor
    · intro p hp
      rcases List.mem_append.mp hp with hp | hp
      · exact Nat.le_trans (b1 p hp) (Nat.le_max_left _ _)
      · exact Nat.le_trans (r1 p hp) (Nat.le_max_right _ _)
    · by_cases hm : body.depth st false ≤ rest.depth st false
      · rw [Nat.max_eq_right hm]
        rcases r2 with h | ⟨p, hp, h⟩
        · exact Or.inl h
        · exact Or.inr ⟨p, List.mem_append_right _ hp, h⟩
      · rw [Nat.max_eq_left (by omega)]
        rcases b2 with h | ⟨p, hp, h⟩
        · exact Or.inl h
        · exact Or.inr ⟨p, List.mem_append_left _ hp, h⟩

end Patsy.EvalFactor
