import Verif.Spec.Transforms
import Verif.Props.EvalFactor
import Verif.Props.Memorize

/-!
# Lemmas about the execution of memorisation code
-/

namespace Patsy.EvalFactor

open Patsy.Tokens Patsy.Calls Patsy.Spec Patsy.Props

variable {D V A S L L' : Type}

/-! ### Reading token lists -/

/-- One piece of code after the other. -/
def Calls.Code.append : Code → Code → Code
  | .nil, c => c
  | .tok t rest, c => .tok t (append rest c)
  | .group b body rest, c => .group b body (append rest c)

theorem append_nil (c : Code) : Calls.Code.append c .nil = c := by
  induction c with
  | nil => rfl
  | tok t rest ih => rw [Calls.Code.append, ih]
  | group b body rest _ ih => rw [Calls.Code.append, ih]

theorem closing_find (b : Bracket) :
    [Bracket.paren, .square, .curly].find? (fun b' => decide (b.closing = b'.closing)) = some b := by
  cases b <;> decide

theorem opening_find (b : Bracket) :
    [Bracket.paren, .square, .curly].find? (fun b' => decide (b.opening = b'.closing)) = none ∧
    [Bracket.paren, .square, .curly].find? (fun b' => decide (b.opening = b'.opening)) = some b := by
  cases b <;> decide

theorem other_find {s : String} (h : s ∉ bracketStrings) :
    [Bracket.paren, .square, .curly].find? (fun b' => decide (s = b'.closing)) = none ∧
    [Bracket.paren, .square, .curly].find? (fun b' => decide (s = b'.opening)) = none := by
  simp only [bracketStrings, List.mem_cons, List.not_mem_nil, or_false, not_or] at h
  simp [List.find?, Bracket.closing, Bracket.opening, h]

theorem readFrom_render {c : Code} : ∀ {ts : List Tok} {cur : Code} {outer : List (Bracket × Code)}, c.WF →
    readFrom ts = some (cur, outer) → readFrom (c.render ++ ts) = some (Calls.Code.append c cur, outer) := by
  induction c with
  | nil => intro ts cur outer _ h; exact h
  | tok t rest ih =>
    intro ts cur outer hw h
    rw [Code.render, List.cons_append, readFrom, ih hw.2 h]
    simp [other_find hw.1, Calls.Code.append]
  | group b body rest ihb ihr =>
    intro ts cur outer hw h
    have h1 := ihr hw.2 h
    have h2 : readFrom ((.op, b.closing) :: (rest.render ++ ts)) = some (.nil, (b, Calls.Code.append rest cur) :: outer) := by
      rw [readFrom, h1]
      simp [closing_find]
    have h3 := ihb hw.1 h2
    rw [Code.render, List.cons_append, List.append_assoc, List.cons_append, readFrom, h3]
    simp [opening_find, append_nil, Calls.Code.append]

/-- Python reads a tree as what it is. -/
theorem readTokens_render {c : Code} (hw : c.WF) : readTokens c.render = some c := by
  have := readFrom_render (ts := []) hw (cur := .nil) (outer := []) rfl
  rw [List.append_nil] at this
  rw [readTokens, this, append_nil]

/-! ### Expressions -/

/-- Change the labels. -/
def Expr.map (g : L → L') : Expr L → Expr L'
  | .nil => .nil
  | .tok t rest => .tok t (rest.map g)
  | .group b body rest => .group b (body.map g) (rest.map g)
  | .call l body rest => .call (g l) (body.map g) (rest.map g)

theorem skel_map (g : L → L') (e : Expr L) : (e.map g).skel = e.skel := by
  induction e with
  | nil => rfl
  | tok t rest ih => simp [Expr.map, Expr.skel, ih]
  | group b body rest ihb ihr => simp [Expr.map, Expr.skel, ihb, ihr]
  | call l body rest ihb ihr => simp [Expr.map, Expr.skel, ihr]

theorem skel_number (e : Expr L) : ∀ i, (number i e).skel = e.skel := by
  induction e with
  | nil => intro i; rfl
  | tok t rest ih => intro i; simp [number, Expr.skel, ih]
  | group b body rest ihb ihr => intro i; simp [number, Expr.skel, ihb, ihr]
  | call l body rest ihb ihr => intro i; simp [number, Expr.skel, ihr]

theorem holes_map (P : Python D V A) (call : L' → A → Except Err V) (g : L → L') (d : D) (e : Expr L) :
    P.holes call d (e.map g) = P.holes (fun l => call (g l)) d e := by
  induction e with
  | nil => rfl
  | tok t rest ih => simp only [Expr.map, Python.holes, ih]
  | group b body rest ihb ihr => simp only [Expr.map, Python.holes, ihb, ihr]
  | call l body rest ihb ihr => simp only [Expr.map, Python.holes, ihb, ihr, skel_map]

theorem number_snd (e : Expr L) : ∀ i, (number i e).map Prod.snd = e := by
  induction e with
  | nil => intro i; rfl
  | tok t rest ih => intro i; simp [number, Expr.map, ih]
  | group b body rest ihb ihr => intro i; simp [number, Expr.map, ihb, ihr]
  | call l body rest ihb ihr => intro i; simp [number, Expr.map, ihb, ihr]

/-- Only the calls that occur matter. -/
theorem holes_congr (P : Python D V A) {call call' : L → A → Except Err V} (d : D) {e : Expr L}
    (h : ∀ p ∈ sites e, call p.1 = call' p.1) : P.holes call d e = P.holes call' d e := by
  induction e with
  | nil => rfl
  | tok t rest ih => simp only [Python.holes]; exact ih h
  | group b body rest ihb ihr =>
    simp only [Python.holes]
    rw [ihb fun p hp => h p (List.mem_append_left _ hp), ihr fun p hp => h p (List.mem_append_right _ hp)]
  | call l body rest ihb ihr =>
    simp only [Python.holes]
    rw [ihb fun p hp => h p (List.mem_cons_of_mem _ (List.mem_append_left _ hp)),
      ihr fun p hp => h p (List.mem_cons_of_mem _ (List.mem_append_right _ hp)), h (l, body) List.mem_cons_self]

/-! ### What the user wrote and what patsy makes of it -/

variable (st : String → Bool)

theorem readSource_callee {dot : Bool} {t : Tok} {body r : Code} (h : callee st dot t (.group .paren body r) = true) :
    readSource st dot (.tok t (.group .paren body r)) =
      .call t.2 (readSource st false body) (readSource st false r) := by
  obtain ⟨_, _, _, h1, h2, h3⟩ := callee_true st h
  simp [readSource, bareRef, h1, h2, h3]

theorem readSource_paren {c : Code} {dot : Bool} {body r : Expr String} (h : readSource st dot c = .group .paren body r) :
    ∃ b' r', c = .group .paren b' r' := by
  cases c with
  | nil => cases h
  | tok t rest =>
    rw [readSource] at h
    split at h
    · split at h <;> cases h
    · cases h
  | group b b' r' =>
    cases h
    exact ⟨_, _, rfl⟩

theorem readSource_other {dot : Bool} {t : Tok} {rest : Code} (h : callee st dot t rest = false) :
    readSource st dot (.tok t rest) = .tok t (readSource st (isDot t) rest) := by
  rw [readSource]
  split
  · rename_i body r hr
    obtain ⟨b', r', rfl⟩ := readSource_paren st hr
    have : (bareRef dot t && st t.2) = false := by
      simpa [callee, Code.args?, bareRef] using h
    rw [this, if_neg (by simp), hr]
  · rfl

theorem size_source {c : Code} : ∀ {dot : Bool}, size (readSource st dot c) = (c.calls st dot).length := by
  induction c with
  | nil => intro dot; rfl
  | tok t rest ih =>
    intro dot
    cases hc : callee st dot t rest with
    | true =>
      obtain ⟨body, r, rfl, _⟩ := callee_true st hc
      have := ih (dot := false)
      rw [readSource_callee st hc, calls_callee st hc]
      simp only [readSource, size, List.length_cons] at this ⊢
      omega
    | false => rw [readSource_other st hc, calls_other st hc, size, ih]
  | group b body rest ihb ihr => intro dot; simp [readSource, size, Code.calls, ihb, ihr]

theorem sites_source {c : Code} : ∀ {dot : Bool}, sites (readSource st dot c) =
    (c.calls st dot).map fun p => (p.1, readSource st false p.2) := by
  induction c with
  | nil => intro dot; rfl
  | tok t rest ih =>
    intro dot
    cases hc : callee st dot t rest with
    | true =>
      obtain ⟨body, r, rfl, _⟩ := callee_true st hc
      have := ih (dot := false)
      rw [readSource_callee st hc, calls_callee st hc, sites, List.map_cons, ← this]
      rfl
    | false => rw [readSource_other st hc, calls_other st hc, sites, ih]
  | group b body rest ihb ihr => intro dot; simp [readSource, sites, Code.calls, ihb, ihr]

theorem sites_length (e : Expr L) : (sites e).length = size e := by
  induction e with
  | nil => rfl
  | tok t rest ih => simpa [sites, size] using ih
  | group b body rest ihb ihr => simp [sites, size, ihb, ihr]
  | call l body rest ihb ihr => simp [sites, size, ihb, ihr]

theorem sites_number (e : Expr L) : ∀ i, sites (number i e) =
    (sites e).mapIdx fun k p => ((i + k, p.1), number (i + k + 1) p.2) := by
  induction e with
  | nil => intro i; rfl
  | tok t rest ih => intro i; simpa [sites, number] using ih i
  | group b body rest ihb ihr =>
    intro i
    simp only [sites, number, List.mapIdx_append, ihb, ihr, sites_length]
    congr 1
    apply List.mapIdx_eq_mapIdx_iff.mpr
    intro k hk
    rw [show i + (k + size body) = i + size body + k by omega]
  | call l body rest ihb ihr =>
    intro i
    simp only [sites, number, List.mapIdx_cons, List.mapIdx_append, ihb, ihr, sites_length, Nat.add_zero]
    congr 1
    congr 1
    · apply List.mapIdx_eq_mapIdx_iff.mpr
      intro k hk
      rw [show i + (k + 1) = i + 1 + k by omega]
    · apply List.mapIdx_eq_mapIdx_iff.mpr
      intro k hk
      rw [show i + (k + size body + 1) = i + 1 + size body + k by omega]

/-- Patsy's code is the user's code with the calls replaced. -/
theorem readObjects_subst {isObj : String → Bool} {c : Code} : ∀ {i : Nat} {dot : Bool},
    (∀ n ∈ c.names dot, isObj n = false) → (∀ o ∈ objs st i dot c, isObj o = true) →
    readObjects isObj dot (subst st i dot c) =
      (number i (readSource st dot c)).map fun p => objName p.1 p.2 := by
  induction c with
  | nil => intro i dot _ _; rfl
  | tok t rest ih =>
    intro i dot hn ho
    cases hc : callee st dot t rest with
    | true =>
      obtain ⟨body, r, rfl, hd, htn, _⟩ := callee_true st hc
      have hobj : isObj (objName i t.2) = true := ho _ (by rw [objs_callee st hc]; exact List.mem_cons_self)
      have := ih (i := i + 1) (dot := false)
        (fun n h => hn n (by simp only [Code.names, hd, htn, true_and, if_true] at h ⊢; exact List.mem_append_right _ h))
        (fun o h => ho o (by rw [objs_callee st hc]; exact List.mem_cons_of_mem _ h))
      have hs : subst st (i + 1) (isDot t) (.group .paren body r) = subst st (i + 1) false (.group .paren body r) := rfl
      rw [subst, if_pos hc, hs, readSource_callee st hc]
      simp only [subst, readObjects, readSource, number, Expr.map, Expr.group.injEq, true_and] at this ⊢
      rw [this.1, this.2]
      simp [bareRef, hd, hobj, size_source st]
    | false =>
      have := ih (i := i) (dot := isDot t)
        (fun n h => hn n (by simp only [Code.names]; exact List.mem_append_right _ h))
        (fun o h => ho o (by rwa [objs_other st hc]))
      have hno : (bareRef dot t && isObj t.2) = false := by
        by_cases hb : dot = false ∧ t.1 = .name
        · have : isObj t.2 = false := hn _ (by simp [Code.names, hb])
          simp [this]
        · cases dot <;> simp_all [bareRef]
      rw [subst, if_neg (by simp [hc]), readSource_other st hc, readObjects]
      simp only [hno, number, Expr.map]
      rw [this]
      split
      · rename_i h; rw [h]; simp
      · rfl
  | group b body rest ihb ihr =>
    intro i dot hn ho
    rw [objs_group] at ho
    simp only [subst, readObjects, readSource, number, Expr.map, size_source]
    rw [ihb (fun n h => hn n (by simp [Code.names, h])) (fun o h => ho o (List.mem_append_left _ h)),
      ihr (fun n h => hn n (by simp [Code.names, h])) (fun o h => ho o (List.mem_append_right _ h))]

theorem replacedNames_render {c : Code} : ∀ {dot : Bool} {ts : List Tok}, c.WF → ts.head?.map (·.2) ≠ some "(" →
    replacedNames st dot (c.render ++ ts) = (c.calls st dot).map Prod.fst ++ replacedNames st (lastDot dot c) ts := by
  induction c with
  | nil => intro dot ts hw ht; rfl
  | tok t rest ih =>
    intro dot ts hw ht
    rw [Code.render, List.cons_append, replacedNames, bareFuncall_render st hw.2 ht]
    cases hc : callee st dot t rest with
    | true =>
      obtain ⟨body, r, rfl, _⟩ := callee_true st hc
      rw [if_pos rfl, ih hw.2 ht, calls_callee st hc]
      simp [lastDot, Code.calls]
    | false =>
      rw [if_neg (by simp), ih hw.2 ht, calls_other st hc]
      simp [lastDot]
  | group b body rest ihb ihr =>
    intro dot ts hw ht
    have hop : ∀ (dot : Bool) (s : String) (ts : List Tok), replacedNames st dot ((.op, s) :: ts) =
        replacedNames st (isDot (.op, s)) ts := by
      intro dot s ts
      rw [replacedNames]
      simp [bareFuncall, bareRef]
    rw [Code.render, List.cons_append, hop, opening_not_dot, List.append_assoc,
      ihb hw.1 (by cases b <;> simp [Bracket.closing]), List.cons_append, hop, closing_not_dot, ihr hw.2 ht]
    simp [Code.calls, lastDot]

end Patsy.EvalFactor
