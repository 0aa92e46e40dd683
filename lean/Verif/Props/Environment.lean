import Verif.Lemmas.Environment
import Verif.Model.EvalFactor

/-! # C29: variable lookup -/

namespace Patsy.Props

open Patsy.Environment Patsy.Spec
open Patsy.Desc (bind_ok pure_ok)

variable {V R : Type}

/-- C29: a name in a factor resolves to what the code itself assigned, then the data, then the stateful transform
objects, then the scopes of the environment from the innermost to the outermost, then Python's own names. -/
theorem factor_lookup_order {h : Heap V} (hv : Valid h) {e : Env} {data transforms : Nat}
    (hd : data < h.length) (ht : transforms < h.length) (he : ∀ a ∈ e.namespaces, a < h.length)
    (py : Scope V) (p : Prog V R) :
    (factorEval py h e data transforms p).1 =
      sem py (lookup h data :: lookup h transforms :: e.namespaces.map (lookup h)) (fun _ => none) p := by
  have hds : ∀ b ∈ [data, transforms], b < h.length := by simp [hd, ht]
  have hf := frame_valid hv [] hds
  have hlen : (frame h [] [data, transforms]).length = h.length + 2 := by simp [frame]
  have hall : ∀ b ∈ (h.length + 1) :: e.namespaces, b < (frame h [] [data, transforms]).length := by
    intro b hb
    rw [hlen]
    rcases List.mem_cons.mp hb with rfl | hb
    · omega
    · have := he b hb
      omega
  simp only [factorEval, Env.eval, newVld_eq]
  rw [(run_frame hf hall py p []).1]
  have e1 : (fun k => ([] : List (String × V)).lookup k) = fun _ => none := rfl
  rw [e1]
  refine sem_congr (fun _ => True) ?_ ?_ _
  · intro n _
    rw [List.map_cons, resolve, lookup_frame hv [] hds]
    have e2 : e.namespaces.map (lookup (frame h [] [data, transforms])) = e.namespaces.map (lookup h) := by
      apply List.map_congr_left
      intro b hb
      exact lookup_append hv (he b hb)
    rw [e2]
    simp only [List.map_cons, List.map_nil, resolve, List.lookup]
    cases lookup h data n with
    | some v => rfl
    | none =>
      cases lookup h transforms n <;> rfl
  · clear hall hlen hf
    induction p with
    | done r => trivial
    | fail e => trivial
    | load n k ih => exact ⟨trivial, ih⟩
    | store n v k ih => exact ⟨trivial, ih⟩
    | quote n k ih => exact ⟨trivial, ih⟩

/-- C29: assignments in a factor never modify the data or a scope: all dictionaries that were there before are
unchanged. -/
theorem factor_eval_keeps_scopes {h : Heap V} (hv : Valid h) {e : Env} {data transforms : Nat}
    (hd : data < h.length) (ht : transforms < h.length) (he : ∀ a ∈ e.namespaces, a < h.length)
    (py : Scope V) (p : Prog V R) : h <+: (factorEval py h e data transforms p).2 := by
  have hds : ∀ b ∈ [data, transforms], b < h.length := by simp [hd, ht]
  have hf := frame_valid hv [] hds
  have hall : ∀ b ∈ (h.length + 1) :: e.namespaces, b < (frame h [] [data, transforms]).length := by
    intro b hb
    have hlen : (frame h [] [data, transforms]).length = h.length + 2 := by simp [frame]
    rw [hlen]
    rcases List.mem_cons.mp hb with rfl | hb
    · omega
    · have := he b hb
      omega
  simp only [factorEval, Env.eval, newVld_eq]
  obtain ⟨d', h1⟩ := (run_frame hf hall py p []).2
  rw [h1]
  simp only [frame, List.append_assoc]
  exact List.prefix_append _ _

/-- Code that may use every name. -/
theorem uses_true (p : Prog V R) : Uses (fun _ => True) p := by
  induction p with
  | done r => trivial
  | fail e => trivial
  | load n k ih => exact ⟨trivial, ih⟩
  | store n v k ih => exact ⟨trivial, ih⟩
  | quote n k ih => exact ⟨trivial, ih⟩

/-- C29, C40: exactly what a factor sees of the environment, whatever its code does: what the names of its code
meant when the factor was made, and nothing else. -/
theorem factor_env_exact {h : Heap V} (hv : Valid h) {e : Env} {pb : Nat} (he : ∀ a ∈ e.namespaces, a < h.length)
    (hb : pb < h.length) (names : List String) :
    ∃ e' h', factorEnv h e pb names = .ok (e', h') ∧ h <+: h' ∧ Valid h' ∧
      ∀ (h'' : Heap V) (data transforms : Nat) (py : Scope V) (p : Prog V R), Valid h'' →
        (∀ a, h.length ≤ a → a < h'.length → h''[a]? = h'[a]?) → data < h''.length → transforms < h''.length →
        (factorEval py h'' e' data transforms p).1 =
          sem py [lookup h'' data, lookup h'' transforms,
            captured names (e.namespaces.map (lookup h) ++ [lookup h pb])] (fun _ => none) p := by
  have hns : ∀ b ∈ (e.withOuter pb).namespaces, b < h.length := by
    intro b hb'
    simp only [Env.withOuter, List.mem_append, List.mem_singleton] at hb'
    rcases hb' with hb' | rfl
    · exact he b hb'
    · exact hb
  have hv1 := frame_valid hv [] hns
  have hl1 : (frame h [] (e.withOuter pb).namespaces).length = h.length + 2 := by simp [frame]
  have hns1 : ∀ b ∈ (e.withOuter pb).namespaces, b < (frame h [] (e.withOuter pb).namespaces).length := by
    intro b hb
    have := hns b hb
    omega
  generalize hh1 : frame h [] (e.withOuter pb).namespaces = h1 at hv1 hl1 hns1
  have hlk1 : ∀ n, lookup h1 (h.length + 1) n = resolve ((e.withOuter pb).namespaces.map (lookup h)) n := by
    intro n
    rw [← hh1, lookup_frame hv [] hns, resolve]
    rfl
  have hmap : (e.withOuter pb).namespaces.map (lookup h1) = (e.withOuter pb).namespaces.map (lookup h) := by
    apply List.map_congr_left
    intro b hb
    rw [← hh1]
    exact lookup_append hv (hns b hb)
  have hv2 := frame_valid hv1 [] hns1
  have hlk2 : ∀ n, lookup (frame h1 [] (e.withOuter pb).namespaces) (h1.length + 1) n =
      resolve ((e.withOuter pb).namespaces.map (lookup h)) n := by
    intro n
    rw [lookup_frame hv1 [] hns1, resolve, hmap]
    rfl
  generalize hh2 : frame h1 [] (e.withOuter pb).namespaces = h2 at hv2 hlk2
  have hl2 : h2.length = h.length + 4 := by simp [← hh2, frame, hl1]
  obtain ⟨l, hp1, hp2⟩ := pick_ok (h := h2) (a := h1.length + 1)
    (names.filter fun n => (lookup h1 (h.length + 1) n).isSome) (by
      intro n hn
      rw [List.mem_filter] at hn
      rw [hlk2, ← hlk1]
      exact hn.2)
  have hpre : h <+: h2 := by
    rw [← hh2, ← hh1]
    simp only [frame, List.append_assoc]
    exact List.prefix_append _ _
  refine ⟨⟨[h2.length]⟩, h2 ++ [.dict l], ?_, hpre.trans (List.prefix_append _ _), ?_, ?_⟩
  · simp only [factorEnv, Env.namespace, newVld_eq, Env.subset, hh1, hh2, hp1, newDict]
    rfl
  · intro a ds ha b hb
    rcases Nat.lt_or_ge a h2.length with hl | hl
    · rw [List.getElem?_append_left hl] at ha
      exact hv2 a ds ha b hb
    · rw [List.getElem?_append_right hl] at ha
      obtain ⟨k, rfl⟩ := Nat.exists_eq_add_of_le hl
      cases k <;> simp at ha
  · intro h'' data transforms py p hv'' hsame hd ht
    have hcell : h''[h2.length]? = some (.dict l) := by
      rw [hsame _ (by omega) (by simp)]
      simp
    have hlt : h2.length < h''.length := (List.getElem?_eq_some_iff.mp hcell).1
    rw [factor_lookup_order hv'' hd ht (by simpa using hlt)]
    refine sem_congr (fun _ => True) ?_ (uses_true p) _
    rintro n -
    simp only [List.map_cons, List.map_nil, resolve]
    have e5 : lookup h'' h2.length n = captured names (e.namespaces.map (lookup h) ++ [lookup h pb]) n := by
      rw [lookup_dict hcell, hp2, hlk2]
      have e6 : (e.withOuter pb).namespaces.map (lookup h) = e.namespaces.map (lookup h) ++ [lookup h pb] := by
        simp [Env.withOuter]
      rw [e6, captured]
      simp only [List.mem_filter, hlk1, e6]
      by_cases hn : n ∈ names
      · cases hr : resolve (e.namespaces.map (lookup h) ++ [lookup h pb]) n <;> simp [hn]
      · simp [hn]
    rw [e5]

/-- C29: restricting the environment to the names of the code changes no lookup, and later changes to the captured
scopes (anything that was in the heap before) have no effect: the names mean what they meant when the environment
was restricted. -/
theorem factor_env_snapshot {h : Heap V} (hv : Valid h) {e : Env} {pb : Nat} (he : ∀ a ∈ e.namespaces, a < h.length)
    (hb : pb < h.length) (names : List String) :
    ∃ e' h', factorEnv h e pb names = .ok (e', h') ∧ h <+: h' ∧ Valid h' ∧
      ∀ (h'' : Heap V) (data transforms : Nat) (py : Scope V) (p : Prog V R), Valid h'' →
        (∀ a, h.length ≤ a → a < h'.length → h''[a]? = h'[a]?) → data < h''.length → transforms < h''.length →
        Uses (fun n => n ∈ names ∨ (resolve [lookup h'' data, lookup h'' transforms] n).isSome = true) p →
        (factorEval py h'' e' data transforms p).1 =
          sem py (lookup h'' data :: lookup h'' transforms :: e.namespaces.map (lookup h) ++ [lookup h pb])
            (fun _ => none) p := by
  obtain ⟨e', h', h1, h2, h3, h4⟩ := factor_env_exact (R := R) hv he hb names
  refine ⟨e', h', h1, h2, h3, ?_⟩
  intro h'' data transforms py p hv'' hsame hd ht hu
  rw [h4 h'' data transforms py p hv'' hsame hd ht]
  refine sem_congr _ ?_ hu _
  rintro n hn
  simp only [resolve, List.cons_append]
  cases h5 : lookup h'' data n with
  | some v => rfl
  | none =>
    cases h6 : lookup h'' transforms n with
    | some v => rfl
    | none =>
      have hn : n ∈ names := by
        rcases hn with hn | hn
        · exact hn
        · simp [resolve, h5, h6] at hn
      simp only [captured, hn, if_true]
      cases resolve (e.namespaces.map (lookup h) ++ [lookup h pb]) n <;> rfl

/-- Data `{"x": 1}`, locals `{"x": 2, "y": 3}`, globals `{"y": 4, "z": 5}`, patsy's builtins `{"Q": 6}`. -/
def sampleHeap : Heap Nat :=
  [.dict [("x", 1)], .dict [("x", 2), ("y", 3)], .dict [("y", 4), ("z", 5)], .dict [("Q", 6)], .dict []]

/-- The code of a factor that loads `x`, `y` and `z`. -/
def sampleProg : Prog Nat (List Nat) :=
  .load "x" fun a => .store "w" 9 (.load "y" fun b => .load "z" fun c => .done [a, b, c])

example : Valid sampleHeap := by
  intro a ds h
  match a, h with
  | 0, h => simp [sampleHeap] at h
  | 1, h => simp [sampleHeap] at h
  | 2, h => simp [sampleHeap] at h
  | 3, h => simp [sampleHeap] at h
  | 4, h => simp [sampleHeap] at h
  | a + 5, h => simp [sampleHeap] at h

example : Uses (· ∈ ["x", "y", "z", "w"]) sampleProg :=
  ⟨by simp, fun _ => ⟨by simp, by simp, fun _ => ⟨by simp, fun _ => trivial⟩⟩⟩

example : ((factorEval (fun _ => none) sampleHeap ⟨[1, 2]⟩ 0 4 sampleProg).1).toOption = some [1, 3, 5] := by
  decide +kernel

/-! ### Capturing -/

/-- C29: an environment is captured `eval_env + reference` frames above the function that calls `capture`; here
`stack` are the frames from that function on. -/
theorem capture_depth (f : Frame) (stack : List Frame) (n r : Nat) (g : Frame) (hg : stack[n + r]? = some g) :
    Env.capture (f :: stack) (.int n) r = .ok ⟨[g.locals, g.globals]⟩ := by
  have hw : ∀ (k : Nat) (s : List Frame), s[k]? = some g → walk k s = .ok (s.drop k) := by
    intro k
    induction k with
    | zero => intro s _; rfl
    | succ k ih =>
      intro s hs
      cases s with
      | nil => simp at hs
      | cons a s =>
        rw [walk, List.drop_succ_cons]
        exact ih s (by simpa using hs)
  have e : ((n : Int) + r + 1).toNat = n + r + 1 := by omega
  simp only [Env.capture, e]
  rw [hw (n + r + 1) (f :: stack) (by simpa using hg), List.drop_succ_cons]
  obtain ⟨hl, hg⟩ := List.getElem?_eq_some_iff.mp hg
  rw [List.drop_eq_getElem_cons hl, hg]
  rfl

example : Env.capture [⟨0, 9⟩, ⟨1, 9⟩, ⟨2, 8⟩] (.int 0) 1 = .ok ⟨[2, 8]⟩ := rfl

/-- A stack that is too short is a `ValueError`, except that the first depth that does not exist is an
`AttributeError`. -/
theorem capture_too_deep (stack : List Frame) (n r : Nat) (h : stack.length ≤ n + r) (f : Frame) :
    Env.capture (f :: stack) (.int n) r =
      if n + r = stack.length then .error .attributeError else .error .valueError := by
  have hw : ∀ (k : Nat) (s : List Frame), s.length ≤ k → walk k s = if k = s.length then .ok [] else .error .valueError := by
    intro k
    induction k with
    | zero =>
      intro s hs
      have : s = [] := by
        cases s with
        | nil => rfl
        | cons => simp at hs
      subst this
      rfl
    | succ k ih =>
      intro s hs
      cases s with
      | nil => rfl
      | cons a s =>
        rw [walk, ih s (by simpa using hs)]
        simp
  have e : ((n : Int) + r + 1).toNat = n + r + 1 := by omega
  simp only [Env.capture, e]
  rw [hw _ _ (by simp; omega)]
  by_cases hk : n + r = stack.length
  · rw [if_pos (by simp [hk]), if_pos hk]
    rfl
  · rw [if_neg (by simpa using hk), if_neg hk]
    rfl

/-- An environment that is given is used as it is. -/
theorem capture_env (stack : List Frame) (e : Env) (r : Int) : Env.capture stack (.env e) r = .ok e := rfl

/-! ### `Q` -/

/-- C40: `Q("x")` is `x` if the data have `x`. -/
theorem quote_of_data {h : Heap V} (hv : Valid h) {e : Env} {data transforms : Nat}
    (hd : data < h.length) (ht : transforms < h.length) (he : ∀ a ∈ e.namespaces, a < h.length)
    (py : Scope V) (n : String) (k : V → Prog V R) (hn : (lookup h data n).isSome = true) :
    (factorEval py h e data transforms (.quote n k)).1 = (factorEval py h e data transforms (.load n k)).1 := by
  obtain ⟨v, hn⟩ := Option.isSome_iff_exists.mp hn
  rw [factor_lookup_order hv hd ht he, factor_lookup_order hv hd ht he]
  simp [sem, resolve, hn]

example : (lookup sampleHeap 0 "x").isSome = true := by decide +kernel

/-- C40, exactly: in a factor whose code has the names `names`, `Q("x")` has the value `v` iff the data have it, or a
stateful transform object of the factor, or the code also has the name `x` by itself and the environment had the
value when the factor was made.  The environment alone never suffices. -/
theorem quote_value_iff {h : Heap V} (hv : Valid h) {e : Env} {pb : Nat} (he : ∀ a ∈ e.namespaces, a < h.length)
    (hb : pb < h.length) (names : List String) :
    ∃ e' h', factorEnv h e pb names = .ok (e', h') ∧ h <+: h' ∧ Valid h' ∧
      ∀ (h'' : Heap V) (data transforms : Nat) (py : Scope V) (n : String) (v : V), Valid h'' →
        (∀ a, h.length ≤ a → a < h'.length → h''[a]? = h'[a]?) → data < h''.length → transforms < h''.length →
        ((factorEval py h'' e' data transforms (.quote n .done)).1 = .ok v ↔
          lookup h'' data n = some v ∨
          lookup h'' data n = none ∧ (lookup h'' transforms n = some v ∨
            lookup h'' transforms n = none ∧ n ∈ names ∧
              resolve (e.namespaces.map (lookup h) ++ [lookup h pb]) n = some v)) := by
  obtain ⟨e', h', h1, h2, h3, h4⟩ := factor_env_exact (R := V) hv he hb names
  refine ⟨e', h', h1, h2, h3, ?_⟩
  intro h'' data transforms py n v hv'' hsame hd ht
  rw [h4 h'' data transforms py _ hv'' hsame hd ht]
  simp only [sem, resolve, captured]
  cases lookup h'' data n with
  | some w => simp
  | none =>
    cases lookup h'' transforms n with
    | some w => simp
    | none =>
      by_cases hn : n ∈ names
      · simp only [hn, if_true]
        cases resolve (e.namespaces.map (lookup h) ++ [lookup h pb]) n <;> simp
      · simp [hn]

/-- `Q("z")` fails where `Q("z") + z` finds the very same variable. -/
example : ∃ (e₁ e₂ : Env) (h₁ h₂ : Heap Nat),
    factorEnv sampleHeap ⟨[1, 2]⟩ 3 ["Q"] = .ok (e₁, h₁) ∧ factorEnv sampleHeap ⟨[1, 2]⟩ 3 ["Q", "z"] = .ok (e₂, h₂) ∧
    (factorEval (fun _ => none) h₁ e₁ 0 4 (.quote "z" .done : Prog Nat Nat)).1.toOption = none ∧
    (factorEval (fun _ => none) h₂ e₂ 0 4 (.quote "z" .done : Prog Nat Nat)).1.toOption = some 5 :=
  ⟨_, _, _, _, rfl, rfl, by decide +kernel, by decide +kernel⟩

/-- C40, against the documentation (`builtins.py:59`, "If `x` is a variable, `Q("x")` returns the value of `x`"):
for the variable `z` of the environment the factor `z` has a value but the factor `Q("z")` is a `NameError`. -/
theorem quote_misses_environment :
    ∃ (e₁ e₂ : Env) (h₁ h₂ : Heap Nat),
      factorEnv sampleHeap ⟨[1, 2]⟩ 3 ["z"] = .ok (e₁, h₁) ∧
      factorEnv sampleHeap ⟨[1, 2]⟩ 3 ["Q"] = .ok (e₂, h₂) ∧
      (factorEval (fun _ => none) h₁ e₁ 0 4 (.load "z" .done)).1.toOption = some 5 ∧
      (factorEval (fun _ => none) h₂ e₂ 0 4 (.load "Q" fun _ => (.quote "z" .done : Prog Nat Nat))).1.toOption
        = none := by
  refine ⟨_, _, _, _, rfl, rfl, by decide +kernel, by decide +kernel⟩

/-- C29, the exception: a call of a stateful transform is decided by the environment alone, so a function of the
same name in the data is not used.  Here the data have `center`, and the environment a stateful transform `center`
(values above 99 are stateful): the call is replaced by the object. -/
theorem stateful_call_ignores_data :
    ∃ (h : Heap Nat) (m : EvalFactor.Memo), lookup h 0 "center" = some 1 ∧
      EvalFactor.memorizePassesNeeded (isStatefulCall (fun v => decide (99 < v)) h ⟨[1]⟩)
        [(.name, "center"), (.op, "("), (.name, "x"), (.op, ")")] = .ok m ∧
      ∀ t ∈ m.evalCode, t.2 ≠ "center" := by
  refine ⟨[.dict [("center", 1), ("x", 2)], .dict [("center", 100)]], _, by decide +kernel,
    eq_ok_of_okIs (b := ⟨["_patsy_stobj0__center__"], [(.name, "_patsy_stobj0__center__"), (.op, "."),
      (.name, "transform"), (.op, "("), (.name, "x"), (.op, ")")], [("_patsy_stobj0__center__",
      [(.name, "_patsy_stobj0__center__"), (.op, "."),
      (.name, "memorize_chunk"), (.op, "("), (.name, "x"), (.op, ")")])], [["_patsy_stobj0__center__"]]⟩)
      (by decide +kernel), by decide +kernel⟩

/-- The heap after assignments `d[key] = value` in the given order. -/
def assignAll (h : Heap V) (a : Nat) (ps : List (String × V)) : Heap V :=
  ps.foldl (fun h p => setItem h a p.1 p.2) h

theorem assignAll_frame (h : Heap V) (ds : List Nat) (ps : List (String × V)) (d : List (String × V)) :
    ∃ d', assignAll (frame h d ds) (h.length + 1) ps = frame h d' ds ∧
      (fun k => d'.lookup k) = ps.foldl (fun s p => assign s p.1 p.2) (fun k => d.lookup k) := by
  induction ps generalizing d with
  | nil => exact ⟨d, rfl, rfl⟩
  | cons p ps ih =>
    obtain ⟨d', h1, h2⟩ := ih ((p.1, p.2) :: d.filter fun q => q.1 ≠ p.1)
    refine ⟨d', ?_, ?_⟩
    · rw [assignAll, List.foldl_cons, setItem_frame]
      exact h1
    · rw [h2, lookup_set, List.foldl_cons]

/-- C29: a `VarLookupDict` over given dictionaries, after any sequence of assignments to it.  `d[key]` is the last
value assigned to `key`, otherwise the value in the first of the dictionaries that has `key`; `key in d` and
`d.get(key, default)` say the same; and the dictionaries given are as before. -/
theorem lookup_dict_protocol {h : Heap V} (hv : Valid h) {ds : List Nat} (hd : ∀ b ∈ ds, b < h.length)
    (ps : List (String × V)) :
    let a := (newVld h ds).1
    let h' := assignAll (newVld h ds).2 a ps
    let scope := resolve ((ps.foldl (fun s p => assign s p.1 p.2) fun _ => none) :: ds.map (lookup h))
    (∀ key, lookup h' a key = scope key) ∧
      (∀ key, contains h' a key = true ↔ ∃ v, scope key = some v) ∧
      (∀ key default v, getDefault h' a key default = v ↔
        scope key = some v ∨ scope key = none ∧ v = default) ∧
      ∀ b, b < h.length → h'[b]? = h[b]? := by
  intro a h' scope
  obtain ⟨d', h1, h2⟩ := assignAll_frame h ds ps []
  have e : h' = frame h d' ds := by
    have : h' = assignAll (frame h [] ds) (h.length + 1) ps := by simp only [h', a, newVld_eq]
    rw [this, h1]
  have ea : a = h.length + 1 := by simp only [a, newVld_eq]
  have hl : ∀ key, lookup h' a key = scope key := by
    intro key
    rw [e, ea, lookup_frame hv d' hd, h2]
    rfl
  refine ⟨hl, ?_, ?_, ?_⟩
  · intro key
    rw [contains, hl]
    cases scope key <;> simp
  · intro key default v
    rw [getDefault, hl]
    cases scope key <;> simp [eq_comm]
  · intro b hb
    rw [e, frame, List.getElem?_append_left hb]

/-- Two assignments to `x`: the last one counts, `y` comes from the second dictionary. -/
example :
    let h' := assignAll (newVld sampleHeap [0, 1]).2 (newVld sampleHeap [0, 1]).1 [("x", 70), ("q", 71), ("x", 72)]
    let a := (newVld sampleHeap [0, 1]).1
    lookup h' a "x" = some 72 ∧ lookup h' a "y" = some 3 ∧ contains h' a "q" = true ∧ contains h' a "nowhere" = false ∧
      getDefault h' a "nowhere" 9 = 9 ∧ h'[0]? = sampleHeap[0]? := by decide +kernel

end Patsy.Props
