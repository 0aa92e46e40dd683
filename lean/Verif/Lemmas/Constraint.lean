import Mathlib.Tactic.Ring
import Mathlib.Tactic.FieldSimp
import Mathlib.Algebra.BigOperators.Group.List.Basic
import Verif.Spec.Constraint
import Verif.Lemmas.Columns

/-!
# Lemmas about linear constraints
-/

namespace Patsy.Constraint

open Patsy.Spec Patsy.Infix
open Patsy.Desc (bind_ok pure_ok bind_err pure_err)

set_option linter.unusedSectionVars false

variable {K : Type} [Field K] [DecidableEq K]

@[simp] theorem dot_nil_left (x : List K) : dot [] x = 0 := by simp [dot]
@[simp] theorem dot_nil_right (a : List K) : dot a [] = 0 := by simp [dot]
@[simp] theorem dot_cons (a : K) (as : List K) (x : K) (xs : List K) :
    dot (a :: as) (x :: xs) = a * x + dot as xs := by simp [dot]

theorem dot_add {a b : List K} (h : a.length = b.length) (x : List K) :
    dot (List.zipWith (· + ·) a b) x = dot a x + dot b x := by
  induction a generalizing b x with
  | nil => cases b <;> simp_all
  | cons p a ih =>
    cases b with
    | nil => simp at h
    | cons q b =>
      cases x with
      | nil => simp
      | cons y x =>
        simp only [List.zipWith_cons_cons, dot_cons, ih (by simpa using h)]
        ring

theorem dot_sub {a b : List K} (h : a.length = b.length) (x : List K) :
    dot (List.zipWith (· - ·) a b) x = dot a x - dot b x := by
  induction a generalizing b x with
  | nil => cases b <;> simp_all
  | cons p a ih =>
    cases b with
    | nil => simp at h
    | cons q b =>
      cases x with
      | nil => simp
      | cons y x =>
        simp only [List.zipWith_cons_cons, dot_cons, ih (by simpa using h)]
        ring

theorem dot_map_mul (k : K) (a x : List K) (f : K → K) (hf : ∀ y, f y = k * y) :
    dot (a.map f) x = k * dot a x := by
  induction a generalizing x with
  | nil => simp
  | cons p a ih =>
    cases x with
    | nil => simp
    | cons y x =>
      simp only [List.map_cons, dot_cons, ih, hf]
      ring

theorem dot_zero {a : List K} (h : ∀ c ∈ a, c = 0) (x : List K) : dot a x = 0 := by
  induction a generalizing x with
  | nil => simp
  | cons p a ih =>
    cases x with
    | nil => simp
    | cons y x =>
      rw [dot_cons, ih (fun c hc => h c (List.mem_cons_of_mem _ hc)), h p List.mem_cons_self]
      ring

/-- The row with a single one selects an entry. -/
theorem dot_unit (n i : Nat) (x : List K) (hi : i < n) (hx : x.length = n) :
    dot ((List.replicate n 0).set i 1) x = x[i]?.getD 0 := by
  induction n generalizing i x with
  | zero => omega
  | succ n ih =>
    cases x with
    | nil => simp at hx
    | cons y x =>
      cases i with
      | zero =>
        rw [List.replicate_succ, List.set_cons_zero, dot_cons,
          dot_zero (fun c hc => (List.mem_replicate.mp hc).2)]
        simp
      | succ i =>
        rw [List.replicate_succ, List.set_cons_succ, dot_cons, ih i x (by omega) (by simpa using hx)]
        simp

theorem dot_variable {names : List Name} {v : Name} (h : v ∈ names) (ρ : Name → K) :
    dot ((List.replicate names.length 0).set (names.idxOf v) 1) (names.map ρ) = ρ v := by
  have hlt : names.idxOf v < names.length := List.idxOf_lt_length_iff.mpr h
  rw [dot_unit _ _ _ hlt (by simp), List.getElem?_map, List.getElem?_eq_getElem hlt, List.getElem_idxOf]
  rfl

theorem isConstant_iff (l : Lin K) : l.isConstant = true ↔ ∀ c ∈ l.coefs, c = 0 := by
  simp [Lin.isConstant]

theorem make_vec {names : List Name} {l : List K} (h : l.length = names.length) (k : K) :
    LinCon.make names (.vec l) (some (.scalar k)) = .ok ⟨names, [l], [k]⟩ := by
  simp [LinCon.make, Arr.columnDefault, Arr.atleast2d, h]

theorem good_vec {names : List Name} {l : List K} (h : l.length = names.length) (k : K) :
    Good names ⟨names, [l], [k]⟩ := ⟨rfl, rfl, by simp, by simpa using h⟩

theorem sat_vec {names : List Name} (l : List K) (k : K) (x : List K) :
    Sat ⟨names, [l], [k]⟩ x ↔ dot l x = k := by simp [Sat]

theorem zip_flatMap (cs : List (LinCon K)) (h : ∀ c ∈ cs, c.coefs.length = c.constants.length) :
    (cs.flatMap (·.coefs)).zip (cs.flatMap (·.constants)) = cs.flatMap fun c => c.coefs.zip c.constants := by
  induction cs with
  | nil => rfl
  | cons c cs ih =>
    rw [List.flatMap_cons, List.flatMap_cons, List.flatMap_cons, List.zip_append (h c List.mem_cons_self),
      ih fun d hd => h d (List.mem_cons_of_mem _ hd)]

theorem length_flatMap (cs : List (LinCon K)) (h : ∀ c ∈ cs, c.coefs.length = c.constants.length) :
    (cs.flatMap (·.coefs)).length = (cs.flatMap (·.constants)).length := by
  induction cs with
  | nil => rfl
  | cons c cs ih =>
    rw [List.flatMap_cons, List.flatMap_cons, List.length_append, List.length_append, h c List.mem_cons_self,
      ih fun d hd => h d (List.mem_cons_of_mem _ hd)]

/-- Constraints over the same variables can be combined, and the result is their conjunction. -/
theorem combine_good {names : List Name} {cs : List (LinCon K)} (hne : cs ≠ []) (h : ∀ c ∈ cs, Good names c) :
    ∃ d, combine cs = .ok d ∧ Good names d ∧ ∀ x, Sat d x ↔ ∀ c ∈ cs, Sat c x := by
  obtain ⟨c, cs, rfl⟩ : ∃ c t, cs = c :: t := List.exists_cons_of_ne_nil hne
  have hrows : ∀ d ∈ c :: cs, d.coefs.length = d.constants.length := fun d hd => (h d hd).rows
  have hlen := length_flatMap _ hrows
  have hpos : 0 < ((c :: cs).flatMap (·.coefs)).length := by
    have := (h c List.mem_cons_self).nonempty
    simp only [List.flatMap_cons, List.length_append]
    omega
  have hc : c.names = names := (h c List.mem_cons_self).names_eq
  refine ⟨⟨names, (c :: cs).flatMap (·.coefs), (c :: cs).flatMap (·.constants)⟩, ?_, ⟨rfl, hlen, hpos, ?_⟩, ?_⟩
  · have hany : (c :: cs).any (fun d => decide (d.names ≠ c.names)) = false := by
      rw [List.any_eq_false]
      intro d hd
      simp [(h d hd).names_eq, hc]
    rw [combine]
    simp only [hany]
    rw [if_neg (by simp), hc, LinCon.make]
    simp only [Arr.columnDefault, Arr.atleast2d]
    rw [if_neg (by simp), if_neg (by simp), if_neg (by omega), if_neg (by simp only [List.length_map]; omega)]
    simp [Function.comp_def]
  · intro r hr
    rw [List.mem_flatMap] at hr
    obtain ⟨d, hd, hr⟩ := hr
    exact (h d hd).cols r hr
  · intro x
    unfold Sat
    rw [zip_flatMap _ hrows]
    constructor
    · intro hs d hd p hp
      exact hs p (List.mem_flatMap.mpr ⟨d, hd, hp⟩)
    · intro hs p hp
      obtain ⟨d, hd, hp⟩ := List.mem_flatMap.mp hp
      exact hs d hd p hp

/-! ### Evaluation -/

/-- What an evaluation means. -/
def Means (names : List Name) (num : Name → K) (e : Ast Sym Name) : Val K → Prop
  | .lin l => l.coefs.length = names.length ∧ isEq e = false ∧ isComma e = false ∧
      (∀ ρ, value ρ num e = some (dot l.coefs (names.map ρ) + l.const)) ∧ Linear names num e
  | .con c => Good names c ∧ (isEq e = true ∨ isComma e = true) ∧
      ∀ ρ, Sat c (names.map ρ) ↔ Holds ρ num e

theorem toLin_ok {v : Val K} {l : Lin K} : toLin v = .ok l ↔ v = .lin l := by
  cases v <;> simp [toLin]

theorem isConstant_const {names : List Name} {num : Name → K} {e : Ast Sym Name} {l : Lin K}
    (h : Means names num e (.lin l)) (hc : l.isConstant = true) : ∀ ρ, value ρ num e = some l.const := by
  intro ρ
  rw [h.2.2.2.1 ρ, dot_zero ((isConstant_iff l).mp hc), zero_add]

theorem const_of_isConstant {names : List Name} {num : Name → K} {e : Ast Sym Name} {l : Lin K}
    (h : Means names num e (.lin l)) (hc : l.isConstant = true) : Const num e :=
  ⟨_, isConstant_const h hc⟩

theorem means_atom {names : List Name} {num : Name → K} {t : Tok Sym Name} {v : Val K}
    (h : evalAtom names num t = .ok v) : Means names num (.atom t) v := by
  unfold evalAtom at h
  split at h
  · rename_i hk
    split at h
    · rename_i hm
      obtain rfl := Except.ok.inj h
      refine ⟨by simp, rfl, rfl, fun ρ => ?_, Or.inl ⟨hk, hm⟩⟩
      rw [dot_variable hm]
      simp [value, hk]
    · simp at h
  · rename_i hk
    obtain rfl := Except.ok.inj h
    refine ⟨by simp, rfl, rfl, fun ρ => ?_, Or.inr hk⟩
    rw [dot_zero (fun c hc => (List.mem_replicate.mp hc).2)]
    simp [value, hk]
  · simp at h

theorem means_unary {names : List Name} {num : Name → K} {t : Tok Sym Name} {e : Ast Sym Name} {a : Lin K} {v : Val K}
    (ha : Means names num e (.lin a)) (h : evalUnary t a = .ok v) : Means names num (.un t e) v := by
  obtain ⟨h1, h2, h3, h4, h5⟩ := ha
  unfold evalUnary at h
  split at h
  · rename_i hk
    obtain rfl := Except.ok.inj h
    refine ⟨h1, rfl, rfl, fun ρ => ?_, Or.inl hk, h5⟩
    simp [value, hk, h4]
  · rename_i hk
    obtain rfl := Except.ok.inj h
    refine ⟨by simpa using h1, rfl, rfl, fun ρ => ?_, Or.inr hk, h5⟩
    rw [dot_map_mul (-1) _ _ _ (fun y => rfl)]
    simp [value, hk, h4]
    ring
  · simp at h

theorem means_arith {names : List Name} {num : Name → K} {t : Tok Sym Name} {el er : Ast Sym Name} {a b : Lin K}
    {v : Val K} (ha : Means names num el (.lin a)) (hb : Means names num er (.lin b))
    (h : evalArith t a b = .ok v) : Means names num (.bin t el er) v := by
  have ha' := ha
  have hb' := hb
  obtain ⟨a1, a2, a3, a4, a5⟩ := ha
  obtain ⟨b1, b2, b3, b4, b5⟩ := hb
  unfold evalArith at h
  split at h
  · rename_i hk
    obtain rfl := Except.ok.inj h
    refine ⟨by simp [a1, b1], by simp [isEq, hk], by simp [isComma, hk], fun ρ => ?_, a5, b5, Or.inl hk⟩
    rw [dot_add (by rw [a1, b1])]
    simp only [value, a4, b4, hk, Option.bind_some, if_true]
    congr 1
    ring
  · rename_i hk
    obtain rfl := Except.ok.inj h
    refine ⟨by simp [a1, b1], by simp [isEq, hk], by simp [isComma, hk], fun ρ => ?_, a5, b5, Or.inr (Or.inl hk)⟩
    rw [dot_sub (by rw [a1, b1])]
    simp [value, a4, b4, hk]
    ring
  · rename_i hk
    split at h
    · rename_i hc
      split at h
      · simp at h
      · rename_i h0
        obtain rfl := Except.ok.inj h
        have hv := isConstant_const hb' hc
        refine ⟨by simpa using a1, by simp [isEq, hk], by simp [isComma, hk], fun ρ => ?_, a5, b5,
          Or.inr (Or.inr (Or.inr ⟨hk, _, h0, hv⟩))⟩
        rw [dot_map_mul (1 / b.const) _ _ _ (fun y => by ring)]
        simp [value, a4, hv, hk, h0]
        ring
    · simp at h
  · rename_i hk
    split at h
    · rename_i hc
      obtain rfl := Except.ok.inj h
      have hv := isConstant_const ha' hc
      refine ⟨by simpa using b1, by simp [isEq, hk], by simp [isComma, hk], fun ρ => ?_, a5, b5,
        Or.inr (Or.inr (Or.inl ⟨hk, Or.inl ⟨_, hv⟩⟩))⟩
      rw [dot_map_mul a.const _ _ _ (fun y => rfl)]
      simp [value, b4, hv, hk]
      ring
    · split at h
      · rename_i hc
        obtain rfl := Except.ok.inj h
        have hv := isConstant_const hb' hc
        refine ⟨by simpa using a1, by simp [isEq, hk], by simp [isComma, hk], fun ρ => ?_, a5, b5,
          Or.inr (Or.inr (Or.inl ⟨hk, Or.inr ⟨_, hv⟩⟩))⟩
        rw [dot_map_mul b.const _ _ _ (fun y => mul_comm _ _)]
        simp [value, a4, hv, hk]
        ring
      · simp at h
  · simp at h

theorem holds_of_not {ρ num : Name → K} {e : Ast Sym Name} (h1 : isEq e = false) (h2 : isComma e = false) :
    Holds ρ num e ↔ value ρ num e = some 0 := by
  cases e with
  | atom t => rfl
  | un t a => rfl
  | bin t l r =>
    simp only [isEq, isComma, decide_eq_false_iff_not] at h1 h2
    rw [Holds, if_neg h2, if_neg h1]

/-- The value as a constraint. -/
theorem means_toCon {names : List Name} {num : Name → K} {e : Ast Sym Name} {v : Val K} {c : LinCon K}
    (h : Means names num e v) (hc : toCon names v = .ok c) :
    Good names c ∧ ∀ ρ, Sat c (names.map ρ) ↔ Holds ρ num e := by
  cases v with
  | con d =>
    obtain rfl := Except.ok.inj hc
    exact ⟨h.1, h.2.2⟩
  | lin l =>
    rw [toCon] at hc
    split at hc
    · simp at hc
    · rw [make_vec h.1] at hc
      obtain rfl := Except.ok.inj hc
      refine ⟨good_vec h.1 _, fun ρ => ?_⟩
      rw [sat_vec, holds_of_not h.2.1 h.2.2.1, h.2.2.2.1 ρ, Option.some.injEq]
      constructor
      · intro h; rw [h]; ring
      · intro h; exact eq_neg_of_add_eq_zero_left h

theorem means_comma {names : List Name} {num : Name → K} {t : Tok Sym Name} (ht : t.kind = .sym .comma)
    {el er : Ast Sym Name} {x y : Except Err (Val K)} (hx : ∀ v, x = .ok v → Means names num el v)
    (hy : ∀ v, y = .ok v → Means names num er v) {v : Val K} (h : evalComma names x y = .ok v) :
    Means names num (.bin t el er) v := by
  simp only [evalComma, bind_ok, pure_ok] at h
  obtain ⟨lv, h1, a, h2, rv, h3, b, h4, c, h5, rfl⟩ := h
  obtain ⟨ga, sa⟩ := means_toCon (hx _ h1) h2
  obtain ⟨gb, sb⟩ := means_toCon (hy _ h3) h4
  obtain ⟨d, h6, h7, h8⟩ := combine_good (names := names) (cs := [a, b]) (by simp) (by simp [ga, gb])
  rw [h5] at h6
  obtain rfl := Except.ok.inj h6
  refine ⟨h7, Or.inr (by simp [isComma, ht]), fun ρ => ?_⟩
  rw [h8, Holds, if_pos ht, ← sa ρ, ← sb ρ]
  simp

theorem lastSide_eq {e : Ast Sym Name} (h : isEq (afterEq e) = false) : lastSide e = afterEq e := by
  cases e with
  | atom t => rfl
  | un t a => rfl
  | bin t l r =>
    by_cases ht : t.kind = .sym .eq
    · simp only [afterEq, lastSide, ht, if_true] at h ⊢
      cases r with
      | atom _ => rfl
      | un _ _ => rfl
      | bin u a b =>
        simp only [isEq, decide_eq_false_iff_not] at h
        rw [lastSide, if_neg h]
    · simp [afterEq, lastSide, ht]

theorem firstSide_eq {e : Ast Sym Name} (h : isEq (beforeEq e) = false) : firstSide e = beforeEq e := by
  cases e with
  | atom t => rfl
  | un t a => rfl
  | bin t l r =>
    by_cases ht : t.kind = .sym .eq
    · simp only [beforeEq, firstSide, ht, if_true] at h ⊢
      cases l with
      | atom _ => rfl
      | un _ _ => rfl
      | bin u a b =>
        simp only [isEq, decide_eq_false_iff_not] at h
        rw [firstSide, if_neg h]
    · simp [beforeEq, firstSide, ht]

theorem nested_means {names : List Name} {num : Name → K} {e : Ast Sym Name} {i : Option (Except Err (Val K))}
    {x : Except Err (Val K)} (hi : i.isSome = isEq e) (hx : ∀ v, x = .ok v → Means names num e v)
    {cs : List (LinCon K)} (h : nested names i x = .ok cs) :
    (∀ c ∈ cs, Good names c) ∧ ∀ ρ, (∀ c ∈ cs, Sat c (names.map ρ)) ↔ (isEq e = true → Holds ρ num e) := by
  cases i with
  | none =>
    obtain rfl := Except.ok.inj h
    have : isEq e = false := by rw [← hi]; rfl
    simp [this]
  | some y =>
    have he : isEq e = true := by rw [← hi]; rfl
    simp only [nested, bind_ok, pure_ok] at h
    obtain ⟨v, h1, c, h2, rfl⟩ := h
    obtain ⟨g, hs⟩ := means_toCon (hx _ h1) h2
    simp [g, hs, he]

theorem means_eq {names : List Name} {num : Name → K} {t : Tok Sym Name} (ht : t.kind = .sym .eq)
    {el er : Ast Sym Name} {x y : Except Err (Val K)} {il ir : Option (Except Err (Val K))}
    (hil : il.isSome = isEq el) (hir : ir.isSome = isEq er)
    (hx : ∀ v, x = .ok v → Means names num el v) (hy : ∀ v, y = .ok v → Means names num er v)
    (hx' : ∀ v, il.getD x = .ok v → Means names num (afterEq el) v)
    (hy' : ∀ v, ir.getD y = .ok v → Means names num (beforeEq er) v)
    {v : Val K} (h : evalEq names il ir x y = .ok v) : Means names num (.bin t el er) v := by
  simp only [evalEq, bind_ok] at h
  obtain ⟨cl, h1, cr, h2, lv, h3, a, h4, rv, h5, b, h6, h7⟩ := h
  rw [toLin_ok] at h4 h6
  subst h4 h6
  obtain ⟨a1, a2, a3, a4, a5⟩ := hx' _ h3
  obtain ⟨b1, b2, b3, b4, b5⟩ := hy' _ h5
  split at h7
  · simp at h7
  · have hlen : (List.zipWith (· - ·) a.coefs b.coefs).length = names.length := by simp [a1, b1]
    simp only [make_vec hlen, bind_ok, pure_ok] at h7
    obtain ⟨c, hc, r, h8, rfl⟩ := h7
    obtain rfl := Except.ok.inj hc
    obtain ⟨gl, sl⟩ := nested_means hil hx h1
    obtain ⟨gr, sr⟩ := nested_means hir hy h2
    obtain ⟨d, h9, h10, h11⟩ := combine_good (names := names)
      (cs := cl ++ cr ++ [⟨names, [List.zipWith (· - ·) a.coefs b.coefs], [-a.const + b.const]⟩]) (by simp) (by
        intro c hc
        simp only [List.mem_append, List.mem_singleton] at hc
        rcases hc with (hc | hc) | rfl
        · exact gl c hc
        · exact gr c hc
        · exact good_vec hlen _)
    rw [h8] at h9
    obtain rfl := Except.ok.inj h9
    refine ⟨h10, Or.inl (by simp [isEq, ht]), fun ρ => ?_⟩
    rw [h11, Holds, if_neg (by simp [ht]), if_pos ht, ← sl ρ, ← sr ρ, lastSide_eq a2, firstSide_eq b2, a4 ρ, b4 ρ]
    have key : Sat (⟨names, [List.zipWith (· - ·) a.coefs b.coefs], [-a.const + b.const]⟩ : LinCon K) (names.map ρ) ↔
        ∃ v, some (dot a.coefs (names.map ρ) + a.const) = some v ∧
          some (dot b.coefs (names.map ρ) + b.const) = some v := by
      rw [sat_vec, dot_sub (by rw [a1, b1])]
      constructor
      · intro h
        refine ⟨_, rfl, ?_⟩
        rw [Option.some.injEq]
        have : dot a.coefs (names.map ρ) = -a.const + b.const + dot b.coefs (names.map ρ) := by
          rw [← h]; ring
        rw [this]; ring
      · rintro ⟨v, h1, h2⟩
        rw [Option.some.injEq] at h1 h2
        have : dot a.coefs (names.map ρ) = dot b.coefs (names.map ρ) + b.const - a.const := by
          rw [h2, ← h1]; ring
        rw [this]; ring
    rw [← key]
    constructor
    · intro h
      exact ⟨fun c hc => h c (by simp [hc]), fun c hc => h c (by simp [hc]), h _ (by simp)⟩
    · rintro ⟨h1, h2, h3⟩ c hc
      simp only [List.mem_append, List.mem_singleton] at hc
      rcases hc with (hc | hc) | rfl
      · exact h1 c hc
      · exact h2 c hc
      · exact h3

/-- The inner argument on the left. -/
def innerL (names : List Name) (num : Name → K) : Node Sym Name → Option (Except Err (Val K))
  | .binary tl _ lr _ => if tl.kind = .sym .eq then some (eval names num lr) else none
  | _ => none

/-- The inner argument on the right. -/
def innerR (names : List Name) (num : Name → K) : Node Sym Name → Option (Except Err (Val K))
  | .binary tr rl _ _ => if tr.kind = .sym .eq then some (eval names num rl) else none
  | _ => none

theorem eval_eq (names : List Name) (num : Name → K) {t : Tok Sym Name} (ht : t.kind = .sym .eq)
    (l r : Node Sym Name) (o : Origin) :
    eval names num (.binary t l r o) =
      evalEq names (innerL names num l) (innerR names num r) (eval names num l) (eval names num r) := by
  rw [eval.eq_def]
  simp only [ht, if_true]
  cases l <;> cases r <;> rfl

theorem eval_not_eq (names : List Name) (num : Name → K) {t : Tok Sym Name} (ht : t.kind ≠ .sym .eq)
    (l r : Node Sym Name) (o : Origin) :
    eval names num (.binary t l r o) =
      if t.kind = .sym .comma then evalComma names (eval names num l) (eval names num r)
      else (eval names num l >>= fun lv => toLin lv >>= fun a => eval names num r >>= fun rv => toLin rv >>= fun b =>
        evalArith t a b) := by
  rw [eval.eq_def]
  simp only [ht, if_false]

theorem innerL_isSome (names : List Name) (num : Name → K) (n : Node Sym Name) :
    (innerL names num n).isSome = isEq (astOf n) := by
  cases n with
  | atom t o => rfl
  | unary t a o => rfl
  | binary t l r o => by_cases ht : t.kind = .sym .eq <;> simp [innerL, astOf, isEq, ht]

theorem innerR_isSome (names : List Name) (num : Name → K) (n : Node Sym Name) :
    (innerR names num n).isSome = isEq (astOf n) := by
  cases n with
  | atom t o => rfl
  | unary t a o => rfl
  | binary t l r o => by_cases ht : t.kind = .sym .eq <;> simp [innerR, astOf, isEq, ht]

/-- Evaluation is sound, together with the same for the parts of an equation. -/
theorem eval_means (names : List Name) (num : Name → K) (n : Node Sym Name) :
    (∀ v, eval names num n = .ok v → Means names num (astOf n) v) ∧
    (∀ v, (innerL names num n).getD (eval names num n) = .ok v → Means names num (afterEq (astOf n)) v) ∧
    (∀ v, (innerR names num n).getD (eval names num n) = .ok v → Means names num (beforeEq (astOf n)) v) := by
  induction n with
  | atom t o =>
    have h : ∀ v, eval names num (.atom t o) = .ok v → Means names num (.atom t) v := fun v hv => means_atom hv
    exact ⟨h, h, h⟩
  | unary t a o ih =>
    have h : ∀ v, eval names num (.unary t a o) = .ok v → Means names num (.un t (astOf a)) v := by
      intro v hv
      simp only [eval, bind_ok] at hv
      obtain ⟨w, h1, l, h2, h3⟩ := hv
      rw [toLin_ok] at h2
      subst h2
      exact means_unary (ih.1 _ h1) h3
    exact ⟨h, h, h⟩
  | binary t l r o ihl ihr =>
    have h : ∀ v, eval names num (.binary t l r o) = .ok v → Means names num (.bin t (astOf l) (astOf r)) v := by
      intro v hv
      by_cases ht : t.kind = .sym .eq
      · rw [eval_eq names num ht] at hv
        exact means_eq ht (innerL_isSome names num l) (innerR_isSome names num r) ihl.1 ihr.1 ihl.2.1 ihr.2.2 hv
      · rw [eval_not_eq names num ht] at hv
        by_cases hc : t.kind = .sym .comma
        · rw [if_pos hc] at hv
          exact means_comma hc ihl.1 ihr.1 hv
        · rw [if_neg hc] at hv
          simp only [bind_ok] at hv
          obtain ⟨lv, h1, a, h2, rv, h3, b, h4, h5⟩ := hv
          rw [toLin_ok] at h2 h4
          subst h2 h4
          exact means_arith (ihl.1 _ h1) (ihr.1 _ h3) h5
    refine ⟨h, ?_, ?_⟩
    · by_cases ht : t.kind = .sym .eq
      · simp only [innerL, ht, if_true, Option.getD_some, astOf, afterEq]
        exact ihr.1
      · simpa [innerL, ht, astOf, afterEq] using h
    · by_cases ht : t.kind = .sym .eq
      · simp only [innerR, ht, if_true, Option.getD_some, astOf, beforeEq]
        exact ihl.1
      · simpa [innerR, ht, astOf, beforeEq] using h

/-! ### When evaluation succeeds -/

theorem dot_comm (a b : List K) : dot a b = dot b a := by
  induction a generalizing b with
  | nil => simp
  | cons p a ih =>
    cases b with
    | nil => simp
    | cons q b =>
      rw [dot_cons, dot_cons, ih]
      ring

/-- A linear combination is constant only if all coefficients vanish. -/
theorem all_zero_of_const {names : List Name} (hn : names.Nodup) {w : List K} (hw : w.length = names.length) {k : K}
    (h : ∀ ρ : Name → K, dot w (names.map ρ) = k) : ∀ c ∈ w, c = 0 := by
  have hk : k = 0 := by
    rw [← h fun _ => 0, dot_comm, dot_zero]
    intro c hc
    simp only [List.mem_map] at hc
    obtain ⟨_, _, rfl⟩ := hc
    rfl
  intro c hc
  obtain ⟨i, hi, rfl⟩ := List.getElem_of_mem hc
  have hi' : i < names.length := by omega
  have := h fun n => if n = names[i] then 1 else 0
  have hmap : (names.map fun n => if n = names[i] then (1 : K) else 0) = (List.replicate names.length 0).set i 1 := by
    apply List.ext_getElem
    · simp
    · intro j h1 h2
      simp only [List.length_map] at h1
      rw [List.getElem_map, List.getElem_set, List.getElem_replicate]
      by_cases hij : i = j
      · subst hij
        simp
      · rw [if_neg hij, if_neg]
        rw [hn.getElem_inj_iff]
        omega
  rw [hmap, dot_comm, dot_unit _ _ _ hi' hw, List.getElem?_eq_getElem hi, hk] at this
  exact this

theorem isConstant_of_const {names : List Name} (hn : names.Nodup) {num : Name → K} {e : Ast Sym Name} {l : Lin K}
    (h : Means names num e (.lin l)) (hc : Const num e) : l.isConstant = true := by
  obtain ⟨k, hk⟩ := hc
  rw [isConstant_iff]
  apply all_zero_of_const hn h.1 (k := k - l.const)
  intro ρ
  have := h.2.2.2.1 ρ
  rw [hk ρ, Option.some.injEq] at this
  rw [this]
  ring

theorem const_iff {names : List Name} (hn : names.Nodup) {num : Name → K} {e : Ast Sym Name} {l : Lin K}
    (h : Means names num e (.lin l)) : l.isConstant = true ↔ Const num e :=
  ⟨const_of_isConstant h, isConstant_of_const hn h⟩

/-- Linear expressions can be evaluated. -/
theorem eval_linear {names : List Name} (hn : names.Nodup) {num : Name → K} (n : Node Sym Name)
    (h : Linear names num (astOf n)) : ∃ l, eval names num n = .ok (.lin l) := by
  induction n with
  | atom t o =>
    rcases h with ⟨h1, h2⟩ | h1
    · simp only [eval, evalAtom, h1, h2, if_true]; exact ⟨_, rfl⟩
    · simp only [eval, evalAtom, h1]; exact ⟨_, rfl⟩
  | unary t a o ih =>
    obtain ⟨h1, h2⟩ := h
    obtain ⟨l, hl⟩ := ih h2
    rcases h1 with h1 | h1
    · simp only [eval, hl, bind, Except.bind, toLin, evalUnary, h1]; exact ⟨_, rfl⟩
    · simp only [eval, hl, bind, Except.bind, toLin, evalUnary, h1]; exact ⟨_, rfl⟩
  | binary t l r o ihl ihr =>
    obtain ⟨h1, h2, h3⟩ := h
    obtain ⟨a, ha⟩ := ihl h1
    obtain ⟨b, hb⟩ := ihr h2
    have ma := (eval_means names num l).1 _ ha
    have mb := (eval_means names num r).1 _ hb
    have hne : t.kind ≠ .sym .eq ∧ t.kind ≠ .sym .comma := by
      rcases h3 with h3 | h3 | h3 | h3
      · simp [h3]
      · simp [h3]
      · simp [h3.1]
      · simp [h3.1]
    rw [eval_not_eq names num hne.1, if_neg hne.2, ha, hb]
    simp only [bind, Except.bind, toLin]
    rcases h3 with h3 | h3 | ⟨h3, h4⟩ | ⟨h3, k, h4, h5⟩
    · simp only [evalArith, h3]; exact ⟨_, rfl⟩
    · simp only [evalArith, h3]; exact ⟨_, rfl⟩
    · by_cases hc : a.isConstant = true
      · simp only [evalArith, h3, hc, if_true]; exact ⟨_, rfl⟩
      · have hc' : b.isConstant = true := by
          rcases h4 with h4 | h4
          · exact absurd (isConstant_of_const hn ma h4) hc
          · exact isConstant_of_const hn mb h4
        simp only [evalArith, h3, hc, hc', if_true]; exact ⟨_, rfl⟩
    · have hc : b.isConstant = true := isConstant_of_const hn mb ⟨k, h5⟩
      have hk : b.const ≠ 0 := by
        have := isConstant_const mb hc (fun _ => 0)
        rw [h5, Option.some.injEq] at this
        rwa [← this]
      simp only [evalArith, h3, hc, if_true, hk]; exact ⟨_, rfl⟩

theorem proper_of_not {names : List Name} {num : Name → K} {e : Ast Sym Name} (h1 : isEq e = false)
    (h2 : isComma e = false) : Proper names num e ↔ Linear names num e ∧ ¬ Const num e := by
  cases e with
  | atom t => rfl
  | un t a => rfl
  | bin t l r =>
    simp only [isEq, isComma, decide_eq_false_iff_not] at h1 h2
    rw [Proper, if_neg h2, if_neg h1]

theorem not_of_linear {names : List Name} {num : Name → K} {e : Ast Sym Name} (h : Linear names num e) :
    isEq e = false ∧ isComma e = false := by
  cases e with
  | atom t => exact ⟨rfl, rfl⟩
  | un t a => exact ⟨rfl, rfl⟩
  | bin t l r =>
    obtain ⟨-, -, h⟩ := h
    rcases h with h | h | h | h
    · simp [isEq, isComma, h]
    · simp [isEq, isComma, h]
    · simp [isEq, isComma, h.1]
    · simp [isEq, isComma, h.1]

theorem innerL_eval (names : List Name) (num : Name → K) (n : Node Sym Name) :
    ∃ m, (innerL names num n).getD (eval names num n) = eval names num m ∧ astOf m = afterEq (astOf n) := by
  cases n with
  | atom t o => exact ⟨_, rfl, rfl⟩
  | unary t a o => exact ⟨_, rfl, rfl⟩
  | binary t l r o =>
    by_cases ht : t.kind = .sym .eq
    · exact ⟨r, by simp [innerL, ht], by simp [astOf, afterEq, ht]⟩
    · exact ⟨.binary t l r o, by simp [innerL, ht], by simp [astOf, afterEq, ht]⟩

theorem innerR_eval (names : List Name) (num : Name → K) (n : Node Sym Name) :
    ∃ m, (innerR names num n).getD (eval names num n) = eval names num m ∧ astOf m = beforeEq (astOf n) := by
  cases n with
  | atom t o => exact ⟨_, rfl, rfl⟩
  | unary t a o => exact ⟨_, rfl, rfl⟩
  | binary t l r o =>
    by_cases ht : t.kind = .sym .eq
    · exact ⟨l, by simp [innerR, ht], by simp [astOf, beforeEq, ht]⟩
    · exact ⟨.binary t l r o, by simp [innerR, ht], by simp [astOf, beforeEq, ht]⟩

theorem nested_ok {names : List Name} {num : Name → K} {n : Node Sym Name} {i : Option (Except Err (Val K))}
    (hi : i.isSome = isEq (astOf n)) :
    (∃ cs, nested names i (eval names num n) = .ok cs) ↔
      (isEq (astOf n) = true → ∃ c, evalConstraint names num n = .ok c) := by
  cases i with
  | none =>
    have : isEq (astOf n) = false := by rw [← hi]; rfl
    simp [nested, this]
  | some y =>
    have : isEq (astOf n) = true := by rw [← hi]; rfl
    simp only [nested, this, evalConstraint, bind_ok, pure_ok, true_implies]
    constructor
    · rintro ⟨cs, v, h1, c, h2, -⟩
      exact ⟨c, v, h1, h2⟩
    · rintro ⟨c, v, h1, h2⟩
      exact ⟨[c], v, h1, c, h2, rfl⟩

/-- Exactly the proper constraints are accepted. -/
theorem eval_proper {names : List Name} (hn : names.Nodup) {num : Name → K} (n : Node Sym Name) :
    (∃ c, evalConstraint names num n = .ok c) ↔ Proper names num (astOf n) := by
  induction n with
  | atom t o => exact lin_case hn _ rfl rfl
  | unary t a o => exact lin_case hn _ rfl rfl
  | binary t l r o ihl ihr =>
    by_cases hc : t.kind = .sym .comma
    · rw [astOf, Proper, if_pos hc, ← ihl, ← ihr]
      simp only [evalConstraint]
      rw [eval_not_eq names num (by simp [hc]), if_pos hc]
      simp only [evalComma, bind_ok, pure_ok]
      constructor
      · rintro ⟨c, v, ⟨lv, h1, a, h2, rv, h3, b, h4, d, h5, rfl⟩, -⟩
        exact ⟨⟨a, lv, h1, h2⟩, ⟨b, rv, h3, h4⟩⟩
      · rintro ⟨⟨a, lv, h1, h2⟩, ⟨b, rv, h3, h4⟩⟩
        have ga := (means_toCon ((eval_means names num l).1 _ h1) h2).1
        have gb := (means_toCon ((eval_means names num r).1 _ h3) h4).1
        obtain ⟨d, hd, -⟩ := combine_good (names := names) (cs := [a, b]) (by simp) (by simp [ga, gb])
        exact ⟨d, _, ⟨lv, h1, a, h2, rv, h3, b, h4, d, hd, rfl⟩, rfl⟩
    · by_cases ht : t.kind = .sym .eq
      · rw [astOf, Proper, if_neg hc, if_pos ht]
        have hnl := nested_ok (names := names) (num := num) (innerL_isSome names num l)
        have hnr := nested_ok (names := names) (num := num) (innerR_isSome names num r)
        rw [← ihl, ← ihr, ← hnl, ← hnr]
        simp only [evalConstraint]
        rw [eval_eq names num ht]
        simp only [evalEq, bind_ok]
        obtain ⟨ml, hml, hml'⟩ := innerL_eval names num l
        obtain ⟨mr, hmr, hmr'⟩ := innerR_eval names num r
        rw [hml, hmr, ← hml', ← hmr']
        have key : ∀ a b : Lin K, Means names num (astOf ml) (.lin a) → Means names num (astOf mr) (.lin b) →
            ((∃ k, ∀ ρ x y, value ρ num (astOf ml) = some x → value ρ num (astOf mr) = some y → x - y = k) ↔
              (List.zipWith (· - ·) a.coefs b.coefs).all (fun c => decide (c = 0)) = true) := by
          intro a b ha hb
          have hlen : (List.zipWith (· - ·) a.coefs b.coefs).length = names.length := by simp [ha.1, hb.1]
          simp only [List.all_eq_true, decide_eq_true_eq]
          constructor
          · rintro ⟨k, hk⟩
            apply all_zero_of_const hn hlen (k := k - a.const + b.const)
            intro ρ
            rw [dot_sub (by rw [ha.1, hb.1]), ← hk ρ _ _ (ha.2.2.2.1 ρ) (hb.2.2.2.1 ρ)]
            ring
          · intro h
            refine ⟨a.const - b.const, fun ρ x y hx hy => ?_⟩
            rw [ha.2.2.2.1 ρ, Option.some.injEq] at hx
            rw [hb.2.2.2.1 ρ, Option.some.injEq] at hy
            have := dot_sub (a := a.coefs) (b := b.coefs) (by rw [ha.1, hb.1]) (names.map ρ)
            rw [dot_zero h] at this
            rw [← hx, ← hy]
            have : dot a.coefs (names.map ρ) = dot b.coefs (names.map ρ) := (sub_eq_zero.mp this.symm)
            rw [this]
            ring
        constructor
        · rintro ⟨c, v, ⟨cl, h1, cr, h2, lv, h3, a, h4, rv, h5, b, h6, h7⟩, -⟩
          rw [toLin_ok] at h4 h6
          subst h4 h6
          have ma := (eval_means names num ml).1 _ h3
          have mb := (eval_means names num mr).1 _ h5
          refine ⟨⟨cl, h1⟩, ⟨cr, h2⟩, ma.2.2.2.2, mb.2.2.2.2, ?_⟩
          rw [key a b ma mb]
          intro hall
          rw [if_pos hall] at h7
          simp at h7
        · rintro ⟨⟨cl, h1⟩, ⟨cr, h2⟩, h3, h4, h5⟩
          obtain ⟨a, ha⟩ := eval_linear hn ml h3
          obtain ⟨b, hb⟩ := eval_linear hn mr h4
          have ma := (eval_means names num ml).1 _ ha
          have mb := (eval_means names num mr).1 _ hb
          rw [key a b ma mb] at h5
          have hlen : (List.zipWith (· - ·) a.coefs b.coefs).length = names.length := by simp [ma.1, mb.1]
          obtain ⟨gl, -⟩ := nested_means (innerL_isSome names num l) (eval_means names num l).1 h1
          obtain ⟨gr, -⟩ := nested_means (innerR_isSome names num r) (eval_means names num r).1 h2
          obtain ⟨d, hd, -⟩ := combine_good (names := names)
            (cs := cl ++ cr ++ [⟨names, [List.zipWith (· - ·) a.coefs b.coefs], [-a.const + b.const]⟩]) (by simp) (by
              intro c hc
              simp only [List.mem_append, List.mem_singleton] at hc
              rcases hc with (hc | hc) | rfl
              · exact gl c hc
              · exact gr c hc
              · exact good_vec hlen _)
          refine ⟨d, .con d, ⟨cl, h1, cr, h2, _, ha, a, rfl, _, hb, b, rfl, ?_⟩, rfl⟩
          rw [if_neg h5, make_vec hlen]
          simp only [bind_ok, pure_ok]
          exact ⟨_, rfl, d, hd, rfl⟩
      · exact lin_case hn _ (by simp [astOf, isEq, ht]) (by simp [astOf, isComma, hc])
where
  lin_case {names : List Name} (hn : names.Nodup) {num : Name → K} (n : Node Sym Name)
      (h1 : isEq (astOf n) = false) (h2 : isComma (astOf n) = false) :
      (∃ c, evalConstraint names num n = .ok c) ↔ Proper names num (astOf n) := by
    rw [proper_of_not h1 h2]
    simp only [evalConstraint, bind_ok]
    constructor
    · rintro ⟨c, v, hv, hc⟩
      have hm := (eval_means names num n).1 _ hv
      cases v with
      | con d =>
        have := hm.2.1
        simp [h1, h2] at this
      | lin l =>
        refine ⟨hm.2.2.2.2, fun hk => ?_⟩
        rw [toCon, if_pos (isConstant_of_const hn hm hk)] at hc
        simp at hc
    · rintro ⟨hl, hk⟩
      obtain ⟨l, hl⟩ := eval_linear hn n hl
      have hm := (eval_means names num n).1 _ hl
      refine ⟨⟨names, [l.coefs], [-l.const]⟩, _, hl, ?_⟩
      rw [toCon, if_neg (fun h => hk (const_of_isConstant hm h)), make_vec hm.1]

end Patsy.Constraint
