import Verif.Props.Environment
import Verif.Spec.AstNames

/-! # C70: the code of a factor sees the variables that it names -/

namespace Patsy.Props

open Patsy.Environment hiding walk
open Patsy.AstNames Patsy.Spec
open Patsy.Desc (bind_ok pure_ok)

variable {V R : Type}

/-! ### `ast_names` -/

theorem kids_size (e : Node V) : e.size = 1 + sizes e.kids := by
  cases e <;> simp only [Node.size, Node.kids, sizes] <;> omega

theorem sizes_append (l m : List (Node V)) : sizes (l ++ m) = sizes l + sizes m := by
  induction l with
  | nil => simp [sizes]
  | cons a l ih => simp only [List.cons_append, sizes, ih]; omega

/-- `ast.walk` meets exactly the parts of the trees. -/
theorem walk_mem (a : Node V) : ∀ (n : Nat) (todo : List (Node V)), sizes todo ≤ n →
    (a ∈ walk n todo ↔ ∃ t ∈ todo, Inside a t)
  | 0, [], _ => by simp [walk]
  | 0, t :: todo, h => by
    rw [sizes, kids_size] at h
    omega
  | n + 1, [], _ => by simp [walk]
  | n + 1, t :: todo, h => by
    have h1 : sizes (todo ++ t.kids) ≤ n := by
      rw [sizes, kids_size] at h
      rw [sizes_append]
      omega
    rw [walk, List.mem_cons, walk_mem a n _ h1]
    constructor
    · rintro (rfl | ⟨b, hb, hp⟩)
      · exact ⟨a, List.mem_cons_self, .self a⟩
      · rcases List.mem_append.mp hb with hb | hb
        · exact ⟨b, List.mem_cons_of_mem _ hb, hp⟩
        · exact ⟨t, List.mem_cons_self, .kid hb hp⟩
    · rintro ⟨b, hb, hp⟩
      rcases List.mem_cons.mp hb with rfl | hb
      · cases hp with
        | self => exact .inl rfl
        | kid hc hp => exact .inr ⟨_, List.mem_append_right _ hc, hp⟩
      · exact .inr ⟨b, List.mem_append_left _ hb, hp⟩

theorem collect_ok (l : List (Node V)) (h : ∀ k ks, Node.binder k ks ∉ l) :
    ∃ names, collect l = .ok names ∧ ∀ n, n ∈ names ↔ Node.name n ∈ l := by
  induction l with
  | nil => exact ⟨[], rfl, by simp⟩
  | cons a l ih =>
    obtain ⟨names, h1, h2⟩ := ih fun k ks hm => h k ks (List.mem_cons_of_mem _ hm)
    cases a with
    | binder k ks => exact absurd List.mem_cons_self (h k ks)
    | name m => exact ⟨m :: names, by simp [collect, h1]; rfl, by simp [h2]⟩
    | const v => exact ⟨names, by simp [collect, h1], by simp [h2]⟩
    | op o ks => exact ⟨names, by simp [collect, h1], by simp [h2]⟩
    | call f as => exact ⟨names, by simp [collect, h1], by simp [h2]⟩
    | named t e => exact ⟨names, by simp [collect, h1], by simp [h2]⟩

theorem collect_error (l : List (Node V)) {k : String} {ks : List (Node V)} (h : Node.binder k ks ∈ l) :
    collect l = .error .patsyError := by
  induction l with
  | nil => cases h
  | cons a l ih =>
    rcases List.mem_cons.mp h with rfl | hm
    · rfl
    · cases a with
      | binder k ks => rfl
      | name m => simp only [collect, ih hm]; rfl
      | const v => exact ih hm
      | op o ks => exact ih hm
      | call f as => exact ih hm
      | named t e => exact ih hm

/-- C70: of an expression without lambdas and comprehensions, however deeply nested, `ast_names` gives exactly the
names that occur in it. -/
theorem ast_names_exact (e : Node V) (h : BindsNothing e) :
    ∃ names, astNames e = .ok names ∧ ∀ n, n ∈ names ↔ Mentions n e := by
  have hw : ∀ a, a ∈ walk e.size [e] ↔ Inside a e := by
    intro a
    rw [walk_mem a _ _ (by simp [sizes])]
    simp
  obtain ⟨names, h1, h2⟩ := collect_ok (walk e.size [e]) fun k ks hm => h k ks ((hw _).mp hm)
  exact ⟨names, h1, fun n => (h2 n).trans (hw _)⟩

/-- C70: every expression with a lambda or comprehension anywhere in it is refused. -/
theorem ast_names_refuses_iff (e : Node V) : astNames e = .error .patsyError ↔ ¬ BindsNothing e := by
  constructor
  · intro h hb
    obtain ⟨names, h1, -⟩ := ast_names_exact e hb
    rw [h1] at h
    cases h
  · intro h
    have h : ∃ k ks, Inside (.binder k ks) e := by
      apply Classical.byContradiction
      intro hn
      exact h fun k ks hp => hn ⟨k, ks, hp⟩
    obtain ⟨k, ks, hp⟩ := h
    exact collect_error (walk e.size [e]) ((walk_mem _ _ _ (by simp [sizes])).mpr ⟨e, by simp, hp⟩)

/-! ### Running an expression -/

theorem resolve_two (own : Scope V) (ss : List (Scope V)) (n : String) :
    resolve (own :: ss) n = resolve [own, resolve ss] n := by
  simp only [resolve]
  cases own n with
  | some v => rfl
  | none => cases resolve ss n <;> rfl

theorem okBind {A B : Type} (a : A) (f : A → Except Err B) : ((Except.ok a : Except Err A) >>= f) = f a := rfl

theorem sem_andThen (py : Scope V) (scopes : List (Scope V)) (own : Scope V) (r : Except Err V) (k : V → Prog V R) :
    sem py scopes own (andThen r k) = (match r with | .ok v => sem py scopes own (k v) | .error e => .error e) := by
  cases r <;> rfl

mutual

theorem sem_prog (P : Python V) (py : Scope V) (scopes : List (Scope V)) : ∀ (e : Node V) (own : Scope V)
    (k : V → Prog V R), sem py scopes own (e.prog P k) =
      (match meaning P (resolve (scopes ++ [py])) (resolve scopes) e own with
        | .ok r => sem py scopes r.2 (k r.1)
        | .error x => .error x)
  | .name n, own, k => by
    rw [Node.prog, meaning, sem, List.cons_append, resolve_two]
    cases resolve [own, resolve (scopes ++ [py])] n <;> rfl
  | .const v, own, k => rfl
  | .op o ks, own, k => by
    rw [Node.prog, meaning, sem_progs P py scopes o ks [] own]
  | .call f as, own, k => by
    rw [Node.prog, meaning, sem_prog P py scopes f own]
    cases meaning P (resolve (scopes ++ [py])) (resolve scopes) f own with
    | error x => rfl
    | ok r =>
      simp only [okBind]
      rw [sem_progArgs P py scopes as [] r.2]
      cases arguments P (resolve (scopes ++ [py])) (resolve scopes) as [] r.2 with
      | error x => rfl
      | ok vs =>
        simp only [okBind]
        cases P.asQ r.1 vs.1 with
        | some n =>
          simp only
          rw [sem, resolve_two]
          cases resolve [vs.2, resolve scopes] n <;> rfl
        | none =>
          simp only
          rw [sem_andThen]
          cases P.call r.1 vs.1 <;> rfl
  | .named t e, own, k => by
    rw [Node.prog, meaning, sem_prog P py scopes e own]
    cases meaning P (resolve (scopes ++ [py])) (resolve scopes) e own <;> rfl
  | .binder _ _, own, k => rfl

theorem sem_progs (P : Python V) (py : Scope V) (scopes : List (Scope V)) (o : String) : ∀ (es : List (Node V))
    (done : List (Option V)) (own : Scope V) (k : V → Prog V R),
    sem py scopes own (progs P o es done fun r => andThen r k) =
      (match meanings P (resolve (scopes ++ [py])) (resolve scopes) o es done own with
        | .ok r => sem py scopes r.2 (k r.1)
        | .error x => .error x)
  | [], done, own, k => by
    rw [progs, meanings, sem_andThen]
    cases P.apply o done <;> rfl
  | e :: es, done, own, k => by
    rw [progs, meanings]
    cases P.plan o done with
    | evaluate =>
      simp only
      rw [sem_prog P py scopes e own]
      cases meaning P (resolve (scopes ++ [py])) (resolve scopes) e own with
      | error x => rfl
      | ok r => exact sem_progs P py scopes o es _ r.2 k
    | skip => exact sem_progs P py scopes o es _ own k
    | finish r =>
      simp only
      rw [sem_andThen]
      cases r <;> rfl

theorem sem_progArgs (P : Python V) (py : Scope V) (scopes : List (Scope V)) : ∀ (es : List (Node V))
    (done : List (Option V)) (own : Scope V) (k : List (Option V) → Prog V R),
    sem py scopes own (progArgs P es done k) =
      (match arguments P (resolve (scopes ++ [py])) (resolve scopes) es done own with
        | .ok r => sem py scopes r.2 (k r.1)
        | .error x => .error x)
  | [], done, own, k => rfl
  | e :: es, done, own, k => by
    rw [progArgs, arguments, sem_prog P py scopes e own]
    cases meaning P (resolve (scopes ++ [py])) (resolve scopes) e own with
    | error x => rfl
    | ok r => exact sem_progArgs P py scopes es _ r.2 k

end

mutual

/-- An expression depends only on the names that occur in it. -/
theorem meaning_congr (P : Python V) {look look' : Scope V} (quoted : Scope V) : ∀ (e : Node V) (own : Scope V),
    (∀ n, Mentions n e → look n = look' n) → meaning P look quoted e own = meaning P look' quoted e own
  | .name n, own, h => by
    simp only [meaning, resolve, h n (.self _)]
  | .const v, own, h => rfl
  | .op o ks, own, h => by
    rw [meaning, meaning]
    exact meanings_congr P quoted o ks [] own fun n k hk hn => h n (.kid hk hn)
  | .call f as, own, h => by
    rw [meaning, meaning, meaning_congr P quoted f own fun n hn => h n (.kid List.mem_cons_self hn)]
    cases meaning P look' quoted f own with
    | error x => rfl
    | ok r =>
      simp only [okBind]
      rw [arguments_congr P quoted as [] r.2 fun n k hk hn => h n (.kid (List.mem_cons_of_mem _ hk) hn)]
  | .named t e, own, h => by
    rw [meaning, meaning, meaning_congr P quoted e own fun n hn => h n (.kid (by simp [Node.kids]) hn)]
  | .binder _ _, own, h => rfl

theorem meanings_congr (P : Python V) {look look' : Scope V} (quoted : Scope V) (o : String) :
    ∀ (es : List (Node V)) (done : List (Option V)) (own : Scope V),
    (∀ n, ∀ k ∈ es, Mentions n k → look n = look' n) →
    meanings P look quoted o es done own = meanings P look' quoted o es done own
  | [], done, own, h => rfl
  | e :: es, done, own, h => by
    rw [meanings, meanings]
    have h2 : ∀ n, ∀ k ∈ es, Mentions n k → look n = look' n := fun n k hk => h n k (List.mem_cons_of_mem _ hk)
    cases P.plan o done with
    | evaluate =>
      simp only
      rw [meaning_congr P quoted e own fun n hn => h n e List.mem_cons_self hn]
      cases meaning P look' quoted e own with
      | error x => rfl
      | ok r => exact meanings_congr P quoted o es _ r.2 h2
    | skip => exact meanings_congr P quoted o es _ own h2
    | finish r => rfl

theorem arguments_congr (P : Python V) {look look' : Scope V} (quoted : Scope V) :
    ∀ (es : List (Node V)) (done : List (Option V)) (own : Scope V),
    (∀ n, ∀ k ∈ es, Mentions n k → look n = look' n) →
    arguments P look quoted es done own = arguments P look' quoted es done own
  | [], done, own, h => rfl
  | e :: es, done, own, h => by
    rw [arguments, arguments, meaning_congr P quoted e own fun n hn => h n e List.mem_cons_self hn]
    cases meaning P look' quoted e own with
    | error x => rfl
    | ok r => exact arguments_congr P quoted es _ r.2 fun n k hk => h n k (List.mem_cons_of_mem _ hk)

end

/-! ### Replaced calls -/

theorem swap_call (stateful : String → Bool) (f : Node V) (as : List (Node V)) (objs : List String)
    (he : swap stateful objs (.call f as) =
      (.call (swap stateful objs f).1 (swaps stateful (swap stateful objs f).2 as).1,
        (swaps stateful (swap stateful objs f).2 as).2))
    (hf : (∀ n, Mentions n (swap stateful objs f).1 → Mentions n f ∨ n ∈ (swap stateful objs f).2) ∧
      objs ⊆ (swap stateful objs f).2)
    (ha : ∀ objs, (∀ n, ∀ k ∈ (swaps stateful objs as).1, Mentions n k →
      (∃ c ∈ as, Mentions n c) ∨ n ∈ (swaps stateful objs as).2) ∧ objs ⊆ (swaps stateful objs as).2) :
    (∀ n, Mentions n (swap stateful objs (.call f as)).1 →
      Mentions n (.call f as) ∨ n ∈ (swap stateful objs (.call f as)).2) ∧
      objs ⊆ (swap stateful objs (.call f as)).2 := by
  obtain ⟨h1, h2⟩ := hf
  obtain ⟨h3, h4⟩ := ha (swap stateful objs f).2
  rw [he]
  refine ⟨?_, fun x hx => h4 (h2 hx)⟩
  intro n h
  cases h with
  | kid hb h =>
    rcases List.mem_cons.mp hb with rfl | hb
    · rcases h1 n h with hm | hm
      · exact .inl (.kid List.mem_cons_self hm)
      · exact .inr (h4 hm)
    · rcases h3 n _ hb h with ⟨c, hc, hm⟩ | hm
      · exact .inl (.kid (List.mem_cons_of_mem _ hc) hm)
      · exact .inr hm

mutual

/-- The names of the code with the calls replaced are names of the code or of the objects; and no object is lost. -/
theorem swap_mentions (stateful : String → Bool) : ∀ (e : Node V) (objs : List String),
    (∀ n, Mentions n (swap stateful objs e).1 → Mentions n e ∨ n ∈ (swap stateful objs e).2) ∧
      objs ⊆ (swap stateful objs e).2
  | .name m, objs => ⟨fun n h => .inl h, fun _ h => h⟩
  | .const v, objs => ⟨fun n h => .inl h, fun _ h => h⟩
  | .op o ks, objs => by
    obtain ⟨h1, h2⟩ := swaps_mentions stateful ks objs
    rw [swap]
    refine ⟨?_, h2⟩
    intro n h
    cases h with
    | kid hb h =>
      rcases h1 n _ hb h with ⟨c, hc, hm⟩ | hm
      · exact .inl (.kid hc hm)
      · exact .inr hm
  | .call (.name m) as, objs => by
    rw [swap]
    split
    · obtain ⟨h1, h2⟩ := swaps_mentions stateful as (objs ++ [EvalFactor.objName objs.length m])
      refine ⟨?_, fun x hx => h2 (List.mem_append_left _ hx)⟩
      intro n h
      cases h with
      | kid hb h =>
        rcases List.mem_cons.mp hb with rfl | hb
        · cases h with
          | kid hb h =>
            simp only [Node.kids, List.mem_singleton] at hb
            subst hb
            cases h with
            | self => exact .inr (h2 (by simp))
            | kid hb h => simp [Node.kids] at hb
        · rcases h1 n _ hb h with ⟨c, hc, hm⟩ | hm
          · exact .inl (.kid (List.mem_cons_of_mem _ hc) hm)
          · exact .inr hm
    · obtain ⟨h1, h2⟩ := swaps_mentions stateful as objs
      refine ⟨?_, h2⟩
      intro n h
      cases h with
      | kid hb h =>
        rcases List.mem_cons.mp hb with rfl | hb
        · exact .inl (.kid List.mem_cons_self h)
        · rcases h1 n _ hb h with ⟨c, hc, hm⟩ | hm
          · exact .inl (.kid (List.mem_cons_of_mem _ hc) hm)
          · exact .inr hm
  | .call (.const v) as, objs => swap_call stateful (.const v) as objs rfl (swap_mentions stateful (.const v) objs)
      (swaps_mentions stateful as)
  | .call (.op o ks) as, objs => swap_call stateful (.op o ks) as objs rfl (swap_mentions stateful (.op o ks) objs)
      (swaps_mentions stateful as)
  | .call (.call f bs) as, objs => swap_call stateful (.call f bs) as objs rfl
      (swap_mentions stateful (.call f bs) objs) (swaps_mentions stateful as)
  | .call (.named t e) as, objs => swap_call stateful (.named t e) as objs rfl
      (swap_mentions stateful (.named t e) objs) (swaps_mentions stateful as)
  | .call (.binder k ks) as, objs => swap_call stateful (.binder k ks) as objs rfl
      (swap_mentions stateful (.binder k ks) objs) (swaps_mentions stateful as)
  | .named t e, objs => by
    obtain ⟨h1, h2⟩ := swap_mentions stateful e objs
    rw [swap]
    refine ⟨?_, h2⟩
    intro n h
    cases h with
    | kid hb h =>
      simp only [Node.kids, List.mem_cons, List.not_mem_nil, or_false] at hb
      rcases hb with rfl | rfl
      · exact .inl (.kid (by simp [Node.kids]) h)
      · rcases h1 n h with hm | hm
        · exact .inl (.kid (by simp [Node.kids]) hm)
        · exact .inr hm
  | .binder k ks, objs => by
    obtain ⟨h1, h2⟩ := swaps_mentions stateful ks objs
    rw [swap]
    refine ⟨?_, h2⟩
    intro n h
    cases h with
    | kid hb h =>
      rcases h1 n _ hb h with ⟨c, hc, hm⟩ | hm
      · exact .inl (.kid hc hm)
      · exact .inr hm

theorem swaps_mentions (stateful : String → Bool) : ∀ (es : List (Node V)) (objs : List String),
    (∀ n, ∀ k ∈ (swaps stateful objs es).1, Mentions n k →
      (∃ c ∈ es, Mentions n c) ∨ n ∈ (swaps stateful objs es).2) ∧ objs ⊆ (swaps stateful objs es).2
  | [], objs => ⟨fun n k hk => by simp [swaps] at hk, fun _ h => h⟩
  | e :: es, objs => by
    obtain ⟨h1, h2⟩ := swap_mentions stateful e objs
    obtain ⟨h3, h4⟩ := swaps_mentions stateful es (swap stateful objs e).2
    rw [swaps]
    refine ⟨?_, fun x hx => h4 (h2 hx)⟩
    intro n k hk h
    rcases List.mem_cons.mp hk with rfl | hk
    · rcases h1 n h with hm | hm
      · exact .inl ⟨e, List.mem_cons_self, hm⟩
      · exact .inr (h4 hm)
    · rcases h3 n k hk h with ⟨c, hc, hm⟩ | hm
      · exact .inl ⟨c, List.mem_cons_of_mem _ hc, hm⟩
      · exact .inr hm

end

/-! ### Factors -/

/-- C70: every expression without lambdas and comprehensions is accepted, and whatever it does, its value is what
Python makes of the expression when all names are looked up in the data, the stateful transform objects, the scopes of
the environment as they were when the factor was made, patsy's builtins and Python's own names, in this order.  (`Q`
alone sees of the environment only the names that occur in the expression.)  What has happened to the scopes in between
does not matter. -/
theorem factor_value {h : Heap V} (hv : Valid h) {env : Env} {pb : Nat} (he : ∀ a ∈ env.namespaces, a < h.length)
    (hb : pb < h.length) (e : Node V) (hn : BindsNothing e) :
    ∃ names e' h', (∀ n, n ∈ names ↔ Mentions n e) ∧ factorEnvOf h env pb e = .ok (e', h') ∧ h <+: h' ∧ Valid h' ∧
      ∀ (P : Python V) (stateful : String → Bool) (h'' : Heap V) (data transforms : Nat) (py : Scope V), Valid h'' →
        (∀ a, h.length ≤ a → a < h'.length → h''[a]? = h'[a]?) → data < h''.length → transforms < h''.length →
        (∀ obj ∈ (swap stateful [] e).2, (lookup h'' transforms obj).isSome = true) →
        (factorEval py h'' e' data transforms ((swap stateful [] e).1.prog P .done)).1 =
          (meaning P (resolve (lookup h'' data :: lookup h'' transforms :: env.namespaces.map (lookup h) ++
              [lookup h pb, py]))
            (resolve [lookup h'' data, lookup h'' transforms,
              captured names (env.namespaces.map (lookup h) ++ [lookup h pb])])
            (swap stateful [] e).1 (fun _ => none)).map Prod.fst := by
  obtain ⟨names, h1, h2⟩ := ast_names_exact e hn
  obtain ⟨e', h', h3, h4, h5, h6⟩ := factor_env_exact (R := V) hv he hb names
  refine ⟨names, e', h', h2, by rw [factorEnvOf, h1]; exact h3, h4, h5, ?_⟩
  intro P stateful h'' data transforms py hv'' hsame hd ht ho
  rw [h6 h'' data transforms py _ hv'' hsame hd ht, sem_prog]
  rw [meaning_congr P _ (swap stateful [] e).1 (fun _ => none) (look' := resolve (lookup h'' data ::
    lookup h'' transforms :: env.namespaces.map (lookup h) ++ [lookup h pb, py]))]
  · cases meaning P _ _ (swap stateful [] e).1 (fun _ => none) <;> rfl
  · intro n hm
    have e1 : env.namespaces.map (lookup h) ++ [lookup h pb, py] =
        (env.namespaces.map (lookup h) ++ [lookup h pb]) ++ [py] := by simp
    simp only [List.cons_append, List.nil_append, e1, resolve]
    cases lookup h'' data n with
    | some v => rfl
    | none =>
      cases h7 : lookup h'' transforms n with
      | some v => rfl
      | none =>
        simp only
        have hin : n ∈ names := by
          rcases (swap_mentions stateful e []).1 n hm with hm | hm
          · exact (h2 n).mpr hm
          · have := ho n hm
            simp [h7] at this
        rw [resolve_append, captured, if_pos hin]
        cases resolve (env.namespaces.map (lookup h) ++ [lookup h pb]) n with
        | some v => rfl
        | none => rfl

/-- C70: a factor is refused with a `PatsyError` iff its code has a lambda or comprehension anywhere. -/
theorem factor_refused_iff {h : Heap V} (hv : Valid h) {env : Env} {pb : Nat} (he : ∀ a ∈ env.namespaces, a < h.length)
    (hb : pb < h.length) (e : Node V) :
    (∃ x, factorEnvOf h env pb e = .error x) ↔ ¬ BindsNothing e := by
  constructor
  · rintro ⟨x, hx⟩ hn
    obtain ⟨_, _, _, _, h1, _⟩ := factor_value hv he hb e hn
    rw [h1] at hx
    cases hx
  · intro hn
    refine ⟨.patsyError, ?_⟩
    rw [factorEnvOf, (ast_names_refuses_iff e).mpr hn]
    rfl

/-- The code `center(x) if z else (w := y)`. -/
def condCode : Node Nat :=
  .op "if" [.name "z", .call (.name "center") [.name "x"], .named "w" (.name "y")]

/-- Python as far as needed for it: numbers, zero is false, calling adds. -/
def condPython : Python Nat where
  plan o vs := match o, vs with
    | "if", [some z] => if z = 0 then .skip else .evaluate
    | "if", [_, some _] => .skip
    | _, _ => .evaluate
  apply o vs := match o, vs with
    | "if", [_, some v, none] => .ok v
    | "if", [_, none, some v] => .ok v
    | ".transform", [some v] => .ok v
    | _, _ => .error .typeError
  call f vs := match vs with
    | [some v] => .ok (f + v)
    | _ => .error .typeError
  asQ _ _ := none

theorem condCode_binds : BindsNothing condCode := by
  intro k ks h
  have hm := (walk_mem _ condCode.size [condCode] (by decide +kernel)).mpr ⟨_, List.mem_singleton.mpr rfl, h⟩
  rw [show walk condCode.size [condCode] = [condCode, .name "z", .call (.name "center") [.name "x"],
    .named "w" (.name "y"), .name "center", .name "x", .name "w", .name "y"] from rfl] at hm
  simp [condCode] at hm

/-- All names of the code are captured, `w` is not there.  The call is replaced and the value is that of the object
plus `x` of the data. -/
example : (swap (· == "center") [] condCode).2 = ["_patsy_stobj0__center__"] ∧
    (astNames condCode).toOption = some ["z", "center", "x", "w", "y"] ∧
    ((meaning condPython (resolve [fun n => [("x", 1), ("y", 3), ("z", 5), ("_patsy_stobj0__center__", 100)].lookup n])
      (fun _ => none) (swap (· == "center") [] condCode).1 (fun _ => none)).map Prod.fst).toOption = some 101 ∧
    ((meaning condPython (resolve [fun n => [("x", 1), ("y", 3), ("z", 0)].lookup n])
      (fun _ => none) (swap (· == "center") [] condCode).1 (fun _ => none)).map Prod.fst).toOption = some 3 := by
  decide +kernel

/-- `f(lambda x: x)` is refused. -/
example : ¬ BindsNothing (.call (.name "f") [.binder "lambda" [.name "x"]] : Node Nat) := by
  intro h
  exact h _ _ (.kid (List.mem_cons_of_mem _ List.mem_cons_self) (.self _))

end Patsy.Props
