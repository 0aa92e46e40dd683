import Mathlib.Data.List.Nodup
import Mathlib.Data.List.Range
import Verif.Lemmas.EvalFactor

/-!
# Property C22: nested stateful transforms are memorised inside-out
-/

set_option linter.unusedSectionVars false

namespace Patsy.Props

open Patsy.Tokens Patsy.Calls Patsy.EvalFactor

/-! ### Sorting into bins -/

theorem binLoop_step {n : Nat} {l : List (String × List Tok)} (hl : l ≠ []) :
    binLoop (n + 1) l =
      (let fits := fun p : String × List Tok =>
        !hasBareRef ((l.map (·.1)).filter (fun o => decide (o ≠ p.1))) false p.2
      if l.filter fits = [] then .error .assertionError
      else match binLoop n (l.filter fun p => !fits p) with
        | .ok bins => .ok ((l.filter fits).map (·.1) :: bins)
        | .error e => .error e) := by
  cases l with
  | nil => exact absurd rfl hl
  | cons u us => rfl

/-- The loop, when whether an object still refers to unsorted ones is given by its level. -/
theorem binLoop_spec {N M : Nat} {o : Nat → String} {memo : Nat → List Tok} {D : Nat → Nat}
    (h : ∀ b k, k < N → b ≤ D k →
      (hasBareRef ((((List.range N).filter fun j => decide (b ≤ D j)).map o).filter
        fun x => decide (x ≠ o k)) false (memo k) = true ↔ b < D k))
    (hex : ∀ b k, k < N → b ≤ D k → ∃ j, j < N ∧ D j = b)
    (hM1 : ∀ k, k < N → D k < M) (hM2 : M = 0 ∨ ∃ k, k < N ∧ D k + 1 = M) :
    ∀ n b, ((List.range N).filter fun j => decide (b ≤ D j)).length ≤ n →
      binLoop n (((List.range N).filter fun j => decide (b ≤ D j)).map fun k => (o k, memo k)) =
        .ok ((List.range' b (M - b)).map fun b => ((List.range N).filter fun j => decide (D j = b)).map o) := by
  intro n
  induction n with
  | zero =>
    intro b hb
    have he : (List.range N).filter (fun j => decide (b ≤ D j)) = [] :=
      List.eq_nil_of_length_eq_zero (Nat.le_zero.mp hb)
    rw [he]
    have : M - b = 0 := by
      rcases hM2 with h2 | ⟨k, hk, h2⟩
      · omega
      · have : k ∉ (List.range N).filter (fun j => decide (b ≤ D j)) := by rw [he]; simp
        simp only [List.mem_filter, List.mem_range, decide_eq_true_eq, not_and] at this
        have := this hk
        omega
    simp [binLoop, this]
  | succ n ih =>
    intro b hb
    by_cases he : (List.range N).filter (fun j => decide (b ≤ D j)) = []
    · rw [he]
      have : M - b = 0 := by
        rcases hM2 with h2 | ⟨k, hk, h2⟩
        · omega
        · have : k ∉ (List.range N).filter (fun j => decide (b ≤ D j)) := by rw [he]; simp
          simp only [List.mem_filter, List.mem_range, decide_eq_true_eq, not_and] at this
          have := this hk
          omega
      simp [binLoop, this]
    · obtain ⟨k0, hk0⟩ := List.exists_mem_of_ne_nil _ he
      simp only [List.mem_filter, List.mem_range, decide_eq_true_eq] at hk0
      have hl : ((List.range N).filter fun j => decide (b ≤ D j)).map (fun k => (o k, memo k)) ≠ [] := by
        simpa using he
      rw [binLoop_step hl]
      simp only [List.map_map]
      have hcomp : (fun x : String × List Tok => x.1) ∘ (fun k => (o k, memo k)) = o := rfl
      simp only [hcomp]
      have hfits : ((List.range N).filter fun j => decide (b ≤ D j)).filter
          ((fun p : String × List Tok => !hasBareRef
            ((((List.range N).filter fun j => decide (b ≤ D j)).map o).filter
              (fun o => decide (o ≠ p.1))) false p.2) ∘ fun k => (o k, memo k)) =
          (List.range N).filter fun j => decide (D j = b) := by
        rw [List.filter_filter]
        apply List.filter_congr
        intro k hk
        simp only [List.mem_range] at hk
        by_cases hb : b ≤ D k
        · have := h b k hk hb
          rw [Bool.eq_iff_iff]
          simp only [Function.comp, Bool.and_eq_true, Bool.not_eq_true', decide_eq_true_eq, hb, and_true]
          rw [← Bool.not_eq_true, this]
          omega
        · have : ¬ D k = b := by omega
          simp [hb, this]
      have hrest : ((List.range N).filter fun j => decide (b ≤ D j)).filter
          ((fun p : String × List Tok => !!hasBareRef
            ((((List.range N).filter fun j => decide (b ≤ D j)).map o).filter
              (fun o => decide (o ≠ p.1))) false p.2) ∘ fun k => (o k, memo k)) =
          (List.range N).filter fun j => decide (b + 1 ≤ D j) := by
        rw [List.filter_filter]
        apply List.filter_congr
        intro k hk
        simp only [List.mem_range] at hk
        by_cases hb : b ≤ D k
        · have := h b k hk hb
          rw [Bool.eq_iff_iff]
          simp only [Function.comp, Bool.and_eq_true, Bool.not_not, decide_eq_true_eq, hb, and_true]
          rw [this]
          omega
        · have : ¬ b + 1 ≤ D k := by omega
          simp [hb, this]
      rw [List.filter_map, List.filter_map, hfits, hrest]
      obtain ⟨j, hj, hDj⟩ := hex b k0 hk0.1 hk0.2
      have hne : ((List.range N).filter fun j => decide (D j = b)).map (fun k => (o k, memo k)) ≠ [] := by
        have : j ∈ (List.range N).filter fun j => decide (D j = b) := by simp [hj, hDj]
        simpa using List.ne_nil_of_mem this
      rw [if_neg hne, ih (b + 1)]
      · have hMb : M - b = (M - (b + 1)) + 1 := by
          have := hM1 j hj
          omega
        rw [hMb, List.range'_succ]
        simp [hcomp]
      · have hlt : ((List.range N).filter fun j => decide (b + 1 ≤ D j)).length <
            ((List.range N).filter fun j => decide (b ≤ D j)).length := by
          have h1 : (List.range N).filter (fun j => decide (b + 1 ≤ D j)) =
              ((List.range N).filter fun j => decide (b ≤ D j)).filter (fun j => decide (b + 1 ≤ D j)) := by
            rw [List.filter_filter]
            apply List.filter_congr
            intro k _
            rw [Bool.eq_iff_iff]
            simp only [Bool.and_eq_true, decide_eq_true_eq]
            omega
          rw [h1, List.length_filter_lt_length_iff_exists]
          exact ⟨j, by simp [hj, hDj], by simp [hDj]⟩
        omega

/-! ### The theorem -/

variable (stateful : String → Bool)

/-- The stateful call number `k` of some code, with its arguments. -/
def IsCall (c : Code) (k : Nat) (f : String) (args : Code) : Prop :=
  (c.calls stateful false)[k]? = some (f, args)

/-- The object of call number `k`. -/
def objOf (c : Code) (k : Nat) : String :=
  ((c.calls stateful false)[k]?.map fun p => objName k p.1).getD ""

/-- Nesting level of the arguments of call number `k`. -/
def levelOf (c : Code) (k : Nat) : Nat :=
  ((c.calls stateful false)[k]?.map fun p => p.2.depth stateful false).getD 0

/-- The memorisation code of call number `k`: `obj.memorize_chunk(args)`, where the stateful
calls in the arguments are replaced by calls of the `transform` methods. -/
def memoOf (c : Code) (k : Nat) : List Tok :=
  ((c.calls stateful false)[k]?.map fun p =>
    callTokens (objName k p.1) "memorize_chunk" (subst stateful (k + 1) false p.2)).getD []

theorem mapIdx_eq_map_range {α β : Type} (l : List α) (f : Nat → α → β) (d : β) :
    l.mapIdx f = (List.range l.length).map fun (k : Nat) => (l[k]?.map (f k)).getD d := by
  apply List.ext_getElem
  · simp
  · intro k h1 h2
    have : k < l.length := by simpa using h1
    simp [this]

theorem memorizeCodes_spec {evalCode : List Tok} {os : List String} {code : String → List Tok}
    (h : ∀ o ∈ os, ∃ cs, captureCalls o false evalCode = .ok cs ∧ memorizeCodeOf o cs = .ok (code o)) :
    memorizeCodes evalCode os = .ok (os.map fun o => (o, code o)) := by
  induction os with
  | nil => rfl
  | cons o os ih =>
    obtain ⟨cs, h1, h2⟩ := h o (by simp)
    rw [memorizeCodes, h1]
    simp only [bind, Except.bind, h2, ih (fun o ho => h o (by simp [ho])), pure, Except.pure]
    rfl

theorem isCall_lt {c : Code} {k : Nat} (h : k < (c.calls stateful false).length) :
    ∃ f args, IsCall stateful c k f args :=
  ⟨_, _, List.getElem?_eq_getElem h⟩

theorem objOf_eq {c : Code} {k : Nat} {f : String} {args : Code} (h : IsCall stateful c k f args) :
    objOf stateful c k = objName k f := by
  rw [IsCall] at h
  simp [objOf, h]

theorem levelOf_eq {c : Code} {k : Nat} {f : String} {args : Code} (h : IsCall stateful c k f args) :
    levelOf stateful c k = args.depth stateful false := by
  rw [IsCall] at h
  simp [levelOf, h]

theorem memoOf_eq {c : Code} {k : Nat} {f : String} {args : Code} (h : IsCall stateful c k f args) :
    memoOf stateful c k = callTokens (objName k f) "memorize_chunk" (subst stateful (k + 1) false args) := by
  rw [IsCall] at h
  simp [memoOf, h]

theorem isCall_args {c : Code} {k m : Nat} {f g : String} {args args' : Code} (h : IsCall stateful c k f args)
    (hg : (args.calls stateful false)[m]? = some (g, args')) : IsCall stateful c (k + 1 + m) g args' := by
  obtain ⟨t, ht⟩ := calls_nest stateful h
  have hm : m < (args.calls stateful false).length := (List.getElem?_eq_some_iff.mp hg).1
  rw [IsCall, ← List.getElem?_drop, ← ht, List.getElem?_append_left hm, hg]

theorem objs_zero (c : Code) : objs stateful 0 false c =
    (List.range (c.calls stateful false).length).map (objOf stateful c) := by
  rw [objs, mapIdx_eq_map_range _ _ ""]
  simp [objOf]

theorem mem_objs_args {c : Code} {k : Nat} {f : String} {args : Code} (h : IsCall stateful c k f args)
    {n : String} : n ∈ objs stateful (k + 1) false args ↔
      ∃ m, m < (args.calls stateful false).length ∧ n = objOf stateful c (k + 1 + m) := by
  rw [objs, List.mem_iff_getElem?]
  simp only [List.getElem?_mapIdx, Option.map_eq_some_iff]
  constructor
  · rintro ⟨m, p, h1, h2⟩
    refine ⟨m, (List.getElem?_eq_some_iff.mp h1).1, ?_⟩
    rw [objOf_eq stateful (isCall_args stateful h (g := p.1) (args' := p.2) h1), ← h2]
  · rintro ⟨m, h1, h2⟩
    refine ⟨m, _, List.getElem?_eq_getElem h1, ?_⟩
    rw [h2, objOf_eq stateful (isCall_args stateful h (g := _) (args' := _) (List.getElem?_eq_getElem h1))]
    rfl

/-- No name of an internal object is used in the code. -/
def NoReserved (c : Code) : Prop :=
  ∀ k f args, IsCall stateful c k f args → objName k f ∉ c.names false

theorem names_args {c : Code} : ∀ {dot : Bool} {p : String × Code} {n : String},
    p ∈ c.calls stateful dot → n ∈ p.2.names false → n ∈ c.names dot := by
  induction c with
  | nil => intro dot p n h; simp [Code.calls] at h
  | tok t rest ih =>
    intro dot p n h hn
    cases hc : callee stateful dot t rest with
    | true =>
      obtain ⟨body, r, rfl, _⟩ := callee_true stateful hc
      rw [calls_callee stateful hc] at h
      simp only [Code.names, List.mem_append]
      rcases List.mem_cons.mp h with rfl | h
      · exact Or.inr (Or.inl hn)
      · have := ih h hn
        simp only [Code.names, List.mem_append] at this
        exact Or.inr this
    | false =>
      rw [calls_other stateful hc] at h
      simp only [Code.names, List.mem_append]
      exact Or.inr (ih h hn)
  | group b body rest ihb ihr =>
    intro dot p n h hn
    rw [Code.calls, List.mem_append] at h
    simp only [Code.names, List.mem_append]
    exact h.imp (fun h => ihb h hn) (fun h => ihr h hn)

theorem wf_args {c : Code} : ∀ {dot : Bool} {p : String × Code},
    p ∈ c.calls stateful dot → c.WF → p.2.WF := by
  induction c with
  | nil => intro dot p h; simp [Code.calls] at h
  | tok t rest ih =>
    intro dot p h hw
    cases hc : callee stateful dot t rest with
    | true =>
      obtain ⟨body, r, rfl, _⟩ := callee_true stateful hc
      rw [calls_callee stateful hc] at h
      rcases List.mem_cons.mp h with rfl | h
      · exact hw.2.1
      · exact ih h hw.2
    | false =>
      rw [calls_other stateful hc] at h
      exact ih h hw.2
  | group b body rest ihb ihr =>
    intro dot p h hw
    rw [Code.calls, List.mem_append] at h
    rcases h with h | h
    · exact ihb h hw.1
    · exact ihr h hw.2

theorem callTokens_render (o m : String) (body : Code) : callTokens o m body =
    (Code.tok (.name, o) (.tok (.op, ".") (.tok (.name, m) (.group .paren body .nil)))).render := rfl

/-- Which objects the memorisation code of an object refers to. -/
theorem memo_refs {c : Code} (hr : NoReserved stateful c) {k : Nat} {f : String} {args : Code}
    (h : IsCall stateful c k f args) {S : List String}
    (hS : ∀ n ∈ S, n ∈ objs stateful 0 false c) :
    hasBareRef S false (memoOf stateful c k) = true ↔
      objName k f ∈ S ∨ ∃ m, m < (args.calls stateful false).length ∧ objOf stateful c (k + 1 + m) ∈ S := by
  rw [memoOf_eq stateful h, callTokens_render, hasBareRef_iff]
  have hnd : objName k f ≠ "." := objName_ne_dot _ _
  have hn : (Code.tok (.name, objName k f) (.tok (.op, ".") (.tok (.name, "memorize_chunk")
      (.group .paren (subst stateful (k + 1) false args) .nil)))).names false =
      objName k f :: (subst stateful (k + 1) false args).names false := by
    simp [Code.names, hnd]
  rw [hn]
  have hfree : ∀ n ∈ S, n ∉ args.names false := by
    intro n hnS hna
    have h1 := hS n hnS
    rw [objs_zero, List.mem_map] at h1
    obtain ⟨j, hj, rfl⟩ := h1
    obtain ⟨g, a, hg⟩ := isCall_lt stateful (List.mem_range.mp hj)
    rw [objOf_eq stateful hg] at hna
    exact hr j g a hg (names_args stateful (List.mem_of_getElem? h) hna)
  obtain ⟨m1, m2⟩ := fun n => (mem_names_subst stateful (c := args) (i := k + 1) (dot := false) (n := n))
    |> fun x => x, trivial
  constructor
  · rintro ⟨n, h1, h2⟩
    rcases List.mem_cons.mp h1 with rfl | h1
    · exact Or.inl h2
    · rcases (m1 n).1 h1 with h1 | h1
      · obtain ⟨m, hm, rfl⟩ := (mem_objs_args stateful h).mp h1
        exact Or.inr ⟨m, hm, h2⟩
      · exact absurd h1 (hfree n h2)
  · rintro (h1 | ⟨m, hm, h1⟩)
    · exact ⟨_, List.mem_cons_self, h1⟩
    · exact ⟨_, List.mem_cons_of_mem _ ((m1 _).2 ((mem_objs_args stateful h).mpr ⟨m, hm, rfl⟩)), h1⟩

theorem objOf_injective {c : Code} {j k : Nat} (hj : j < (c.calls stateful false).length)
    (hk : k < (c.calls stateful false).length) (h : objOf stateful c j = objOf stateful c k) : j = k := by
  obtain ⟨f, a, hf⟩ := isCall_lt stateful hj
  obtain ⟨g, b, hg⟩ := isCall_lt stateful hk
  rw [objOf_eq stateful hf, objOf_eq stateful hg] at h
  exact objName_index h

/-- **C22**, complete description of the schedule.  For all code with properly nested
brackets in which no reserved name occurs, `memorize_passes_needed` succeeds; the object of
each stateful call gets the code `obj.memorize_chunk(args)`; the number of passes is the
nesting depth of the code; and pass `b` memorises the objects whose arguments have nesting
depth `b`. -/
theorem memorize_passes {c : Code} (hw : c.WF) (hr : NoReserved stateful c) :
    memorizePassesNeeded stateful c.render = .ok
      { transforms := (List.range (c.calls stateful false).length).map (objOf stateful c)
        evalCode := (subst stateful 0 false c).render
        memorizeCode := (List.range (c.calls stateful false).length).map fun k =>
          (objOf stateful c k, memoOf stateful c k)
        passBins := (List.range (c.depth stateful false)).map fun b =>
          ((List.range (c.calls stateful false).length).filter
            fun k => decide (levelOf stateful c k = b)).map (objOf stateful c) } := by
  have hrep : replaceBare stateful 0 false c.render =
      ((subst stateful 0 false c).render, objs stateful 0 false c) := by
    have := replaceBare_render stateful (c := c) (i := 0) (dot := false) (ts := []) hw (by simp)
    simpa [replaceBare] using this
  have hnr : hasBareRef (objs stateful 0 false c) false c.render = false := by
    rw [← Bool.not_eq_true, hasBareRef_iff]
    rintro ⟨n, h1, h2⟩
    rw [objs_zero, List.mem_map] at h2
    obtain ⟨k, hk, rfl⟩ := h2
    obtain ⟨f, args, hf⟩ := isCall_lt stateful (List.mem_range.mp hk)
    rw [objOf_eq stateful hf] at h1
    exact hr k f args hf h1
  generalize hN : (c.calls stateful false).length = N
  -- the memorisation codes
  have hcodes : memorizeCodes (subst stateful 0 false c).render ((List.range N).map (objOf stateful c)) =
      .ok ((List.range N).map fun k => (objOf stateful c k, memoOf stateful c k)) := by
    have hidx : ∃ idx : String → Nat, ∀ k, k < N → idx (objOf stateful c k) = k := by
      classical
      refine ⟨fun o => if h : ∃ k, k < N ∧ objOf stateful c k = o then h.choose else 0, ?_⟩
      intro k hk
      have h : ∃ j, j < N ∧ objOf stateful c j = objOf stateful c k := ⟨k, hk, rfl⟩
      simp only [dif_pos h]
      exact objOf_injective stateful (by rw [hN]; exact h.choose_spec.1) (by rw [hN]; exact hk)
        h.choose_spec.2
    obtain ⟨idx, hidx⟩ := hidx
    have := memorizeCodes_spec (evalCode := (subst stateful 0 false c).render)
      (os := (List.range N).map (objOf stateful c)) (code := fun o => memoOf stateful c (idx o)) ?_
    · rw [this, List.map_map]
      congr 1
      apply List.map_congr_left
      intro k hk
      simp [hidx k (List.mem_range.mp hk)]
    · intro o ho
      obtain ⟨k, hk, rfl⟩ := List.mem_map.mp ho
      have hk' := List.mem_range.mp hk
      obtain ⟨f, args, hf⟩ := isCall_lt stateful (c := c) (k := k) (by rw [hN]; exact hk')
      have hcap := captureCalls_render stateful (o := objOf stateful c k) (c := c) (i := 0) (dot := false)
        (ts := []) hw (by rw [objOf_eq stateful hf]; exact hr k f args hf)
      rw [List.append_nil] at hcap
      have hfil : (caps stateful 0 false c).filter (fun p => decide (p.1 = objOf stateful c k)) =
          [(objName k f, subst stateful (k + 1) false args)] := by
        have hcaps : caps stateful 0 false c = (List.range N).map fun j =>
            (objOf stateful c j, (((c.calls stateful false)[j]?).map fun p =>
              subst stateful (j + 1) false p.2).getD .nil) := by
          rw [caps, mapIdx_eq_map_range _ _ ("", Code.nil), hN]
          apply List.map_congr_left
          intro j hj
          obtain ⟨g, b, hg⟩ := isCall_lt stateful (c := c) (k := j) (by rw [hN]; exact List.mem_range.mp hj)
          rw [objOf_eq stateful hg]
          rw [IsCall] at hg
          simp [hg]
        rw [hcaps, List.filter_map]
        have : (List.range N).filter ((fun p : String × Code => decide (p.1 = objOf stateful c k)) ∘ fun j =>
            (objOf stateful c j, (((c.calls stateful false)[j]?).map fun p =>
              subst stateful (j + 1) false p.2).getD .nil)) = (List.range N).filter (fun j => j == k) := by
          apply List.filter_congr
          intro j hj
          rw [Bool.eq_iff_iff]
          simp only [Function.comp, decide_eq_true_eq, beq_iff_eq]
          constructor
          · intro h
            exact objOf_injective stateful (by rw [hN]; exact List.mem_range.mp hj) (by rw [hN]; exact hk') h
          · intro h; rw [h]
        rw [this, List.filter_beq, List.count_eq_one_of_mem List.nodup_range hk]
        have h2 := hf
        rw [IsCall] at h2
        simp [objOf_eq stateful hf, h2]
      refine ⟨_, hcap, ?_⟩
      rw [hidx k hk', hfil, memoOf_eq stateful hf, objOf_eq stateful hf]
      simp [memorizeCodeOf, callTokens]
  -- the bins
  have hbins : binLoop N ((List.range N).map fun k => (objOf stateful c k, memoOf stateful c k)) =
      .ok ((List.range (c.depth stateful false)).map fun b =>
          ((List.range N).filter fun k => decide (levelOf stateful c k = b)).map (objOf stateful c)) := by
    have hlev := depth_calls stateful (c := c) (dot := false)
    -- the level of a call is one more than that of some call inside it
    have hdown : ∀ k f args, IsCall stateful c k f args → 0 < levelOf stateful c k →
        ∃ m, m < (args.calls stateful false).length ∧
          levelOf stateful c (k + 1 + m) + 1 = levelOf stateful c k := by
      intro k f args hf hpos
      rw [levelOf_eq stateful hf] at hpos ⊢
      rcases (depth_calls stateful (c := args) (dot := false)).2 with h | ⟨p, hp, h⟩
      · omega
      · obtain ⟨m, hm⟩ := List.mem_iff_getElem?.mp hp
        refine ⟨m, (List.getElem?_eq_some_iff.mp hm).1, ?_⟩
        rw [levelOf_eq stateful (isCall_args stateful hf (g := p.1) (args' := p.2) hm), h]
    have hup : ∀ k f args, IsCall stateful c k f args → ∀ m, m < (args.calls stateful false).length →
        levelOf stateful c (k + 1 + m) < levelOf stateful c k := by
      intro k f args hf m hm
      have := List.getElem?_eq_getElem hm
      have h1 := (depth_calls stateful (c := args) (dot := false)).1 _ (List.mem_of_getElem? this)
      rw [levelOf_eq stateful hf, levelOf_eq stateful (isCall_args stateful hf (g := _) (args' := _) this)]
      exact h1
    have hin : ∀ k f args, IsCall stateful c k f args → ∀ m, m < (args.calls stateful false).length →
        k + 1 + m < N := by
      intro k f args hf m hm
      have := isCall_args stateful hf (g := _) (args' := _) (List.getElem?_eq_getElem hm)
      rw [← hN]
      exact (List.getElem?_eq_some_iff.mp this).1
    have := binLoop_spec (N := N) (M := c.depth stateful false) (o := objOf stateful c)
      (memo := memoOf stateful c) (D := levelOf stateful c) ?_ ?_ ?_ ?_ N 0
      (by simp)
    · simpa [List.range_eq_range'] using this
    · intro b k hk hb
      obtain ⟨f, args, hf⟩ := isCall_lt stateful (c := c) (k := k) (by rw [hN]; exact hk)
      rw [memo_refs stateful hr hf]
      · rw [objOf_eq stateful hf]
        constructor
        · rintro (h | ⟨m, hm, h⟩)
          · simp at h
          · simp only [List.mem_filter, List.mem_map, List.mem_range, decide_eq_true_eq] at h
            obtain ⟨⟨j, ⟨hj, hbj⟩, he⟩, _⟩ := h
            have h3 := objOf_injective stateful (by rw [hN]; exact hj)
              (by rw [hN]; exact hin k f args hf m hm) he
            have := hup k f args hf m hm
            rw [h3] at hbj
            omega
        · intro h
          obtain ⟨m, hm, h1⟩ := hdown k f args hf (by omega)
          refine Or.inr ⟨m, hm, ?_⟩
          simp only [List.mem_filter, List.mem_map, List.mem_range, decide_eq_true_eq]
          refine ⟨⟨k + 1 + m, ⟨hin k f args hf m hm, by omega⟩, rfl⟩, ?_⟩
          rw [← objOf_eq stateful hf]
          intro he
          have := objOf_injective stateful (by rw [hN]; exact hin k f args hf m hm) (by rw [hN]; exact hk) he
          omega
      · intro n hn
        rw [objs_zero, hN]
        have := List.mem_of_mem_filter hn
        obtain ⟨j, hj, rfl⟩ := List.mem_map.mp this
        exact List.mem_map.mpr ⟨j, List.mem_of_mem_filter hj, rfl⟩
    · intro b k
      -- go inwards until the level is `b`
      induction hd : levelOf stateful c k - b generalizing k with
      | zero => intro hk hb; exact ⟨k, hk, by omega⟩
      | succ d ih =>
        intro hk hb
        obtain ⟨f, args, hf⟩ := isCall_lt stateful (c := c) (k := k) (by rw [hN]; exact hk)
        obtain ⟨m, hm, h1⟩ := hdown k f args hf (by omega)
        exact ih (k + 1 + m) (by omega) (hin k f args hf m hm) (by omega)
    · intro k hk
      obtain ⟨f, args, hf⟩ := isCall_lt stateful (c := c) (k := k) (by rw [hN]; exact hk)
      rw [levelOf_eq stateful hf]
      have := hlev.1 _ (List.mem_of_getElem? hf)
      simp only at this
      omega
    · rcases hlev.2 with h | ⟨p, hp, h⟩
      · exact Or.inl h
      · obtain ⟨k, hk⟩ := List.mem_iff_getElem?.mp hp
        refine Or.inr ⟨k, ?_, ?_⟩
        · rw [← hN]; exact (List.getElem?_eq_some_iff.mp hk).1
        · rw [levelOf_eq stateful (f := p.1) (args := p.2) hk, h]
  rw [memorizePassesNeeded]
  simp only [hrep, hnr, Bool.false_eq_true, if_false]
  rw [objs_zero, hN, hcodes]
  simp only [bind, Except.bind, List.length_map, List.length_range, hbins, pure, Except.pure]

theorem mem_bins {c : Code} {b : Nat} {l : List String}
    (h : ((List.range (c.depth stateful false)).map fun b =>
          ((List.range (c.calls stateful false).length).filter
            fun k => decide (levelOf stateful c k = b)).map (objOf stateful c))[b]? = some l) (o : String) :
    o ∈ l ↔ ∃ k, k < (c.calls stateful false).length ∧ levelOf stateful c k = b ∧ objOf stateful c k = o := by
  rw [List.getElem?_map, Option.map_eq_some_iff] at h
  obtain ⟨b', h1, rfl⟩ := h
  obtain ⟨_, h1⟩ := List.getElem?_eq_some_iff.mp h1
  simp only [List.getElem_range] at h1
  subst h1
  simp [and_assoc]

theorem levelOf_lt {c : Code} {k : Nat} (hk : k < (c.calls stateful false).length) :
    levelOf stateful c k < c.depth stateful false := by
  obtain ⟨f, args, hf⟩ := isCall_lt stateful hk
  rw [levelOf_eq stateful hf]
  exact (depth_calls stateful).1 _ (List.mem_of_getElem? hf)

theorem levelOf_inside {c : Code} {k m : Nat} {f : String} {args : Code} (hf : IsCall stateful c k f args)
    (hm : m < (args.calls stateful false).length) :
    levelOf stateful c (k + 1 + m) < levelOf stateful c k := by
  have := List.getElem?_eq_getElem hm
  have h1 := (depth_calls stateful (c := args) (dot := false)).1 _ (List.mem_of_getElem? this)
  rw [levelOf_eq stateful hf, levelOf_eq stateful (isCall_args stateful hf (g := _) (args' := _) this)]
  exact h1

theorem inside_lt {c : Code} {k m : Nat} {f : String} {args : Code} (hf : IsCall stateful c k f args)
    (hm : m < (args.calls stateful false).length) : k + 1 + m < (c.calls stateful false).length := by
  have := isCall_args stateful hf (g := _) (args' := _) (List.getElem?_eq_getElem hm)
  exact (List.getElem?_eq_some_iff.mp this).1

/-- **C22**.  For all code with properly nested brackets in which no reserved name occurs, the
sorting of the stateful transforms into passes succeeds, and
* the number of passes is the nesting depth of stateful calls;
* the objects are distinct, one for each stateful call, and each is memorised in exactly one
  pass;
* every call in the arguments of a call (those are the calls following it in the order of the
  text) is memorised in an earlier pass;
* the code evaluated to memorise an object in some pass refers to no object of this or of a
  later pass, except itself. -/
theorem memorize_inside_out {c : Code} (hw : c.WF) (hr : NoReserved stateful c) :
    ∃ m, memorizePassesNeeded stateful c.render = .ok m ∧
      m.passBins.length = c.depth stateful false ∧
      (m.transforms.Nodup ∧ m.transforms.length = (c.calls stateful false).length ∧
        m.passBins.flatten.Perm m.transforms) ∧
      (∀ (k : Nat) f args (b : Nat) bin o, IsCall stateful c k f args → m.passBins[b]? = some bin →
        m.transforms[k]? = some o → o ∈ bin →
        args.calls stateful false <+: (c.calls stateful false).drop (k + 1) ∧
        ∀ i, i < (args.calls stateful false).length → ∃ (b' : Nat) (bin' : List String) (o' : String),
          b' < b ∧ m.passBins[b']? = some bin' ∧ m.transforms[k + 1 + i]? = some o' ∧ o' ∈ bin') ∧
      (∀ (b : Nat) bin o code, m.passBins[b]? = some bin → o ∈ bin → (o, code) ∈ m.memorizeCode →
        ∀ (b' : Nat) bin', b ≤ b' → m.passBins[b']? = some bin' → ∀ o' ∈ bin', o' ≠ o →
          hasBareRef [o'] false code = false) := by
  refine ⟨_, memorize_passes stateful hw hr, by simp, ⟨?_, by simp, ?_⟩, ?_, ?_⟩
  · simp only
    apply List.Nodup.map_on _ List.nodup_range
    intro j hj k hk h
    exact objOf_injective stateful (List.mem_range.mp hj) (List.mem_range.mp hk) h
  · simp only
    rw [← List.flatMap_def]
    have hN : ((List.range (c.calls stateful false).length).map (objOf stateful c)).Nodup := by
      apply List.Nodup.map_on _ List.nodup_range
      intro j hj k hk h
      exact objOf_injective stateful (List.mem_range.mp hj) (List.mem_range.mp hk) h
    rw [List.perm_ext_iff_of_nodup _ hN]
    · intro o
      simp only [List.mem_flatMap, List.mem_map, List.mem_filter, List.mem_range, decide_eq_true_eq]
      constructor
      · rintro ⟨b, hb, k, ⟨hk, _⟩, rfl⟩
        exact ⟨k, hk, rfl⟩
      · rintro ⟨k, hk, rfl⟩
        exact ⟨_, levelOf_lt stateful hk, k, ⟨hk, rfl⟩, rfl⟩
    · rw [List.nodup_flatMap]
      constructor
      · intro b _
        apply List.Nodup.map_on _ (List.nodup_range.filter _)
        intro j hj k hk h
        exact objOf_injective stateful (List.mem_range.mp (List.mem_of_mem_filter hj))
          (List.mem_range.mp (List.mem_of_mem_filter hk)) h
      · apply List.Pairwise.imp _ List.nodup_range
        intro a b hab o ho ho'
        simp only [List.mem_map, List.mem_filter, List.mem_range, decide_eq_true_eq] at ho ho'
        obtain ⟨j, ⟨hj, hja⟩, rfl⟩ := ho
        obtain ⟨k, ⟨hk, hkb⟩, he⟩ := ho'
        have := objOf_injective stateful hk hj he
        subst this
        exact hab (hja.symm.trans hkb)
  · intro k f args b bin o hf hb ho hin
    refine ⟨calls_nest stateful hf, fun i hi => ?_⟩
    simp only at hb ho ⊢
    rw [mem_bins stateful hb] at hin
    obtain ⟨k', hk', hl, he⟩ := hin
    have hk : k < (c.calls stateful false).length := (List.getElem?_eq_some_iff.mp hf).1
    have ho' : o = objOf stateful c k := by
      rw [List.getElem?_map, List.getElem?_range hk] at ho
      simpa using ho.symm
    have := objOf_injective stateful hk' hk (he.trans ho')
    subst this
    have hlt := levelOf_inside stateful hf hi
    have hin' := inside_lt stateful hf hi
    have hget : ((List.range (c.depth stateful false)).map fun b =>
          ((List.range (c.calls stateful false).length).filter
            fun k => decide (levelOf stateful c k = b)).map (objOf stateful c))[levelOf stateful c (k' + 1 + i)]? =
          some (((List.range (c.calls stateful false).length).filter
            fun k => decide (levelOf stateful c k = levelOf stateful c (k' + 1 + i))).map (objOf stateful c)) := by
      rw [List.getElem?_map, List.getElem?_range (levelOf_lt stateful hin')]
      rfl
    refine ⟨_, _, objOf stateful c (k' + 1 + i), by omega, hget, ?_, (mem_bins stateful hget _).mpr
      ⟨_, hin', rfl, rfl⟩⟩
    rw [List.getElem?_map, List.getElem?_range hin']
    rfl
  · intro b bin o code hb ho hcode b' bin' hbb hb' o' ho' hne
    simp only at hb hb' hcode
    rw [mem_bins stateful hb] at ho
    rw [mem_bins stateful hb'] at ho'
    obtain ⟨k, hk, hl, rfl⟩ := ho
    obtain ⟨k', hk', hl', rfl⟩ := ho'
    obtain ⟨k2, hk2, he⟩ := List.mem_map.mp hcode
    simp only [Prod.mk.injEq] at he
    have := objOf_injective stateful (List.mem_range.mp hk2) hk he.1
    subst this
    obtain ⟨f, args, hf⟩ := isCall_lt stateful hk
    rw [← he.2, ← Bool.not_eq_true, memo_refs stateful hr hf]
    · rw [← objOf_eq stateful hf]
      rintro (h | ⟨m, hm, h⟩)
      · exact hne (List.mem_singleton.mp h).symm
      · have h3 := objOf_injective stateful (inside_lt stateful hf hm) hk' (List.mem_singleton.mp h)
        have := levelOf_inside stateful hf hm
        rw [h3] at this
        omega
    · intro n hn
      rw [List.mem_singleton.mp hn, objs_zero]
      exact List.mem_map.mpr ⟨k', List.mem_range.mpr hk', rfl⟩

/-- If a reserved name does occur, the set-up fails, and not with the intended `PatsyError`. -/
theorem memorize_reserved {c : Code} (hw : c.WF) (hr : ¬ NoReserved stateful c) :
    memorizePassesNeeded stateful c.render = .error .nameError := by
  have hrep : replaceBare stateful 0 false c.render =
      ((subst stateful 0 false c).render, objs stateful 0 false c) := by
    have := replaceBare_render stateful (c := c) (i := 0) (dot := false) (ts := []) hw (by simp)
    simpa [replaceBare] using this
  have hyes : hasBareRef (objs stateful 0 false c) false c.render = true := by
    rw [hasBareRef_iff]
    simp only [NoReserved, not_forall, not_not] at hr
    obtain ⟨k, f, args, h1, h2⟩ := hr
    refine ⟨_, h2, ?_⟩
    rw [objs_zero, ← objOf_eq stateful h1]
    exact List.mem_map.mpr ⟨k, List.mem_range.mpr (List.getElem?_eq_some_iff.mp h1).1, rfl⟩
  rw [memorizePassesNeeded]
  simp only [hrep, hyes, if_true]

/-! ### Which token lists are covered -/

/-- Brackets are properly nested: a scan with a stack of open brackets. -/
def BracketsNested : List Bracket → List Tok → Prop
  | s, [] => s = []
  | s, t :: ts =>
    (∃ b : Bracket, t = (.op, b.opening) ∧ BracketsNested (b :: s) ts) ∨
    (∃ (b : Bracket) (s' : List Bracket), t = (.op, b.closing) ∧ s = b :: s' ∧ BracketsNested s' ts) ∨
    (t.2 ∉ bracketStrings ∧ BracketsNested s ts)

/-- Tokens of a tree followed by closing brackets and further trees. -/
def renderStack (c : Code) : List (Bracket × Code) → List Tok
  | [] => c.render
  | (b, c') :: l => c.render ++ (.op, b.closing) :: renderStack c' l

theorem nested_tree_stack {ts : List Tok} : ∀ {s : List Bracket}, BracketsNested s ts →
    ∃ (c : Code) (l : List (Bracket × Code)), c.WF ∧ (∀ p ∈ l, p.2.WF) ∧ l.map (·.1) = s ∧
      renderStack c l = ts := by
  induction ts with
  | nil =>
    intro s h
    have h : s = [] := h
    exact ⟨.nil, [], trivial, by simp, by simp [h], rfl⟩
  | cons t ts ih =>
    intro s h
    rw [BracketsNested] at h
    rcases h with ⟨b, rfl, h⟩ | ⟨b, s', rfl, rfl, h⟩ | ⟨ht, h⟩
    · obtain ⟨c, l, h1, h2, h3, h4⟩ := ih h
      cases l with
      | nil => simp at h3
      | cons p l =>
        obtain ⟨b', c'⟩ := p
        simp only [List.map_cons, List.cons.injEq] at h3
        obtain ⟨rfl, h3⟩ := h3
        refine ⟨.group b' c c', l, ⟨h1, h2 (b', c') (by simp)⟩, fun p hp => h2 p (by simp [hp]), h3, ?_⟩
        rw [← h4]
        cases l with
        | nil => rfl
        | cons q l => simp [renderStack, Code.render]
    · obtain ⟨c, l, h1, h2, h3, h4⟩ := ih h
      refine ⟨.nil, (b, c) :: l, trivial, ?_, by simp [h3], by simp [renderStack, Code.render, h4]⟩
      intro p hp
      rcases List.mem_cons.mp hp with rfl | hp
      · exact h1
      · exact h2 p hp
    · obtain ⟨c, l, h1, h2, h3, h4⟩ := ih h
      refine ⟨.tok t c, l, ⟨ht, h1⟩, h2, h3, ?_⟩
      rw [← h4]
      cases l <;> rfl

/-- The trees cover exactly the token lists with properly nested brackets (which is what the
call of `ast.parse` in eval.py:504 lets through). -/
theorem nested_iff_tree {ts : List Tok} : BracketsNested [] ts ↔ ∃ c : Code, c.WF ∧ c.render = ts := by
  constructor
  · intro h
    obtain ⟨c, l, h1, h2, h3, h4⟩ := nested_tree_stack h
    rw [List.map_eq_nil_iff] at h3
    subst h3
    exact ⟨c, h1, h4⟩
  · rintro ⟨c, hw, rfl⟩
    have : ∀ (c : Code) (s : List Bracket) (ts : List Tok), c.WF → BracketsNested s ts → BracketsNested s (c.render ++ ts) := by
      intro c
      induction c with
      | nil => intro s ts _ h; exact h
      | tok t rest ih => intro s ts hw h; exact Or.inr (Or.inr ⟨hw.1, ih s ts hw.2 h⟩)
      | group b body rest ihb ihr =>
        intro s ts hw h
        rw [Code.render, List.cons_append, List.append_assoc]
        refine Or.inl ⟨b, rfl, ihb _ _ hw.1 (Or.inr (Or.inl ⟨b, s, rfl, rfl, ihr _ _ hw.2 h⟩))⟩
    simpa using this c [] [] hw rfl

/-! ### Examples -/

/-- `spline(center(x) + scale(center(y), 2)) * np.center(z)`. -/
def sampleCode : Code :=
  .tok (.name, "spline") (.group .paren
    (.tok (.name, "center") (.group .paren (.tok (.name, "x") .nil)
      (.tok (.op, "+") (.tok (.name, "scale") (.group .paren
        (.tok (.name, "center") (.group .paren (.tok (.name, "y") .nil)
          (.tok (.op, ",") (.tok (.number, "2") .nil)))) .nil)))))
    (.tok (.op, "*") (.tok (.name, "np") (.tok (.op, ".") (.tok (.name, "center")
      (.group .paren (.tok (.name, "z") .nil) .nil))))))

def sampleStateful (s : String) : Bool := decide (s ∈ ["spline", "center", "scale"])

/-- Example: the hypotheses of the theorems hold, there are four stateful calls, nested three
deep. -/
example : sampleCode.WF ∧ sampleCode.depth sampleStateful false = 3 ∧
    (sampleCode.calls sampleStateful false).map (·.1) = ["spline", "center", "scale", "center"] := by
  refine ⟨?_, by decide +kernel, by decide +kernel⟩
  simp [sampleCode, Code.WF, bracketStrings]

example : NoReserved sampleStateful sampleCode := by
  intro k f args _ h
  have h2 : sampleCode.names false = ["spline", "center", "x", "scale", "center", "y", "np", "z"] := by decide +kernel
  rw [h2] at h
  have hl := objName_long k f
  have : ∀ s ∈ ["spline", "center", "x", "scale", "center", "y", "np", "z"], s.length < 12 := by decide +kernel
  have := this _ h
  omega

/-- Example: the schedule. -/
example : (memorizePassesNeeded sampleStateful sampleCode.render).map (·.passBins) = .ok
    [["_patsy_stobj1__center__", "_patsy_stobj3__center__"], ["_patsy_stobj2__scale__"],
     ["_patsy_stobj0__spline__"]] :=
  eq_ok_of_okIs (by decide +kernel)

/-- Example: a reserved name. -/
example : memorizePassesNeeded sampleStateful
    (Code.tok (.name, "center") (.group .paren (.tok (.name, "_patsy_stobj0__center__") .nil) .nil)).render =
    .error .nameError := by
  apply memorize_reserved
  · simp [Code.WF, bracketStrings]
  · intro h
    have := h 0 "center" (.tok (.name, "_patsy_stobj0__center__") .nil) (by unfold IsCall; decide +kernel)
    exact this (by decide +kernel)

end Patsy.Props
