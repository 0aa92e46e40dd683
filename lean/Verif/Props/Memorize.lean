import Mathlib.Data.List.Nodup
import Mathlib.Order.Basic
import Verif.Model.Memorize

/-!
# Property C21: the memorisation protocol
-/

set_option linter.unusedSectionVars false

namespace Patsy.Props

open Patsy.Memorize

variable {F D : Type} [DecidableEq F]

/-- The factor a call belongs to. -/
def eventFactor : Event F D → Option F
  | .needed f => some f
  | .iterate => none
  | .chunk f _ _ => some f
  | .finish f _ => some f

/-- The calls that one factor gets. -/
def callsOf (f : F) (tr : List (Event F D)) : List (Event F D) :=
  tr.filter fun e => decide (eventFactor e = some f)

/-- What a factor should see in pass `p`: every chunk once and in order, then the end of the
pass. -/
def onePass (chunks : Nat → List D) (f : F) (p : Nat) : List (Event F D) :=
  (chunks p).map (Event.chunk f p) ++ [Event.finish f p]

/-- The number of times the data are iterated. -/
def iterations (tr : List (Event F D)) : Nat :=
  tr.countP fun e => match e with | .iterate => true | _ => false

theorem callsOf_append (f : F) (a b : List (Event F D)) :
    callsOf f (a ++ b) = callsOf f a ++ callsOf f b := List.filter_append ..

theorem callsOf_map {l : List F} (mk : F → Event F D) (hmk : ∀ g, eventFactor (mk g) = some g) (f : F)
    (hn : l.Nodup) : callsOf f (l.map mk) = if f ∈ l then [mk f] else [] := by
  induction l with
  | nil => simp [callsOf]
  | cons g l ih =>
    rw [List.nodup_cons] at hn
    have h := ih hn.2
    simp only [callsOf, List.map_cons, List.filter_cons, hmk, Option.some.injEq] at h ⊢
    by_cases hg : g = f
    · subst hg
      rw [h]; simp [hn.1]
    · have hg' : ¬ f = g := fun e => hg e.symm
      simp [hg, h, hg']

theorem callsOf_chunks {visit : Nat → Nat → List F → List F} {pass : Nat} {needed : List F}
    (hv : ∀ p i s, (visit p i s).Perm s) (hn : needed.Nodup) (f : F) (i : Nat) (ds : List D) :
    callsOf f (chunkEvents visit pass needed i ds) =
      if f ∈ needed then ds.map (Event.chunk f pass) else [] := by
  induction ds generalizing i with
  | nil => simp [chunkEvents, callsOf]
  | cons d ds ih =>
    rw [chunkEvents, callsOf_append, ih, callsOf_map (fun f => Event.chunk f pass d) (fun _ => rfl) f
      ((hv pass i needed).nodup_iff.mpr hn)]
    simp only [(hv pass i needed).mem_iff]
    split <;> simp

theorem iterations_append (a b : List (Event F D)) :
    iterations (a ++ b) = iterations a + iterations b := List.countP_append ..

theorem iterations_chunks (visit : Nat → Nat → List F → List F) (pass : Nat) (needed : List F)
    (i : Nat) (ds : List D) : iterations (chunkEvents visit pass needed i ds) = 0 := by
  induction ds generalizing i with
  | nil => rfl
  | cons d ds ih => rw [chunkEvents, iterations_append, ih]; simp [iterations]

/-- The loop, from pass `pass` on. -/
theorem memorizeLoop_spec {visit : Nat → Nat → List F → List F} {passes : F → Int}
    {chunks : Nat → List D} (hv : ∀ p i s, (visit p i s).Perm s) (fuel : Nat) :
    ∀ (pass : Nat) (needed : List F), needed.Nodup → (∀ f ∈ needed, (pass : Int) < passes f) →
      (∀ f ∈ needed, passes f ≤ (pass + fuel : Nat)) →
      ∃ tr, memorizeLoop visit passes chunks fuel pass needed = some tr ∧
        (∀ f, callsOf f tr = if f ∈ needed then
          (List.range' pass ((passes f).toNat - pass)).flatMap (onePass chunks f) else []) ∧
        (∀ f ∈ needed, (passes f).toNat ≤ pass + iterations tr) ∧
        (needed = [] → iterations tr = 0) ∧
        (needed ≠ [] → ∃ f ∈ needed, (passes f).toNat = pass + iterations tr) := by
  induction fuel with
  | zero =>
    intro pass needed hn h1 h2
    cases needed with
    | nil => exact ⟨[], by simp [memorizeLoop], by simp [callsOf], by simp, by simp [iterations], by simp⟩
    | cons f fs =>
      exfalso
      have := h1 f (by simp)
      have := h2 f (by simp)
      omega
  | succ fuel ih =>
    intro pass needed hn h1 h2
    cases needed with
    | nil => exact ⟨[], by simp [memorizeLoop], by simp [callsOf], by simp, by simp [iterations], by simp⟩
    | cons g gs =>
      generalize hN : g :: gs = needed at hn h1 h2
      let rest := needed.filter fun g => decide ((pass : Int) ≠ passes g - 1)
      have hmem : ∀ f, f ∈ rest ↔ f ∈ needed ∧ (pass : Int) ≠ passes f - 1 := by
        intro f; simp [rest]
      obtain ⟨tr, t1, t2, t3, t4, t5⟩ := ih (pass + 1) rest (hn.filter _)
        (by
          intro f hf
          obtain ⟨hf1, hf2⟩ := (hmem f).mp hf
          have := h1 f hf1
          push_cast
          omega)
        (by
          intro f hf
          have := h2 f ((hmem f).mp hf).1
          push_cast at this ⊢
          omega)
      let here : List (Event F D) := Event.iterate :: chunkEvents visit pass needed 0 (chunks pass) ++
        (visit pass (chunks pass).length needed).map fun g => Event.finish g pass
      have hrun : memorizeLoop visit passes chunks (fuel + 1) pass needed = some (here ++ tr) := by
        subst hN
        rw [memorizeLoop]
        simp only [rest] at t1
        simp only [t1, Option.map_some]
        rfl
      have hcalls : ∀ f, callsOf f here = if f ∈ needed then onePass chunks f pass else [] := by
        intro f
        have h3 : here = [Event.iterate] ++ (chunkEvents visit pass needed 0 (chunks pass) ++
          (visit pass (chunks pass).length needed).map fun g => Event.finish g pass) := rfl
        rw [h3, callsOf_append, callsOf_append, callsOf_chunks hv hn,
          callsOf_map (fun g => Event.finish g pass) (fun _ => rfl) f ((hv _ _ needed).nodup_iff.mpr hn)]
        simp only [(hv _ _ needed).mem_iff]
        have : callsOf f [(Event.iterate : Event F D)] = [] := by simp [callsOf, eventFactor]
        rw [this]
        split <;> simp [onePass]
      have hit : iterations here = 1 := by
        have h3 : here = [Event.iterate] ++ (chunkEvents visit pass needed 0 (chunks pass) ++
          (visit pass (chunks pass).length needed).map fun g => Event.finish g pass) := rfl
        rw [h3, iterations_append, iterations_append, iterations_chunks]
        simp [iterations]
      refine ⟨here ++ tr, hrun, ?_, ?_, ?_, ?_⟩
      · intro f
        rw [callsOf_append, hcalls, t2]
        by_cases hf : f ∈ needed
        · have h4 := h1 f hf
          by_cases hp : (pass : Int) = passes f - 1
          · have : f ∉ rest := fun h => ((hmem f).mp h).2 hp
            rw [if_pos hf, if_neg this, if_pos hf]
            have : (passes f).toNat - pass = 1 := by omega
            rw [this]
            simp
          · have : f ∈ rest := (hmem f).mpr ⟨hf, hp⟩
            rw [if_pos hf, if_pos this, if_pos hf]
            have : (passes f).toNat - pass = ((passes f).toNat - (pass + 1)) + 1 := by omega
            rw [this, List.range'_succ]
            simp
        · have : f ∉ rest := fun h => hf ((hmem f).mp h).1
          rw [if_neg hf, if_neg hf, if_neg this]
          rfl
      · intro f hf
        rw [iterations_append, hit]
        by_cases hp : (pass : Int) = passes f - 1
        · omega
        · have := t3 f ((hmem f).mpr ⟨hf, hp⟩)
          omega
      · intro h; subst hN; simp at h
      · intro _
        rw [iterations_append, hit]
        by_cases hr : rest = []
        · have hgm : g ∈ needed := by subst hN; simp
          refine ⟨g, hgm, ?_⟩
          have : g ∉ rest := by rw [hr]; simp
          have hp : (pass : Int) = passes g - 1 := by
            by_contra hp
            exact this ((hmem g).mpr ⟨hgm, hp⟩)
          rw [t4 hr]
          omega
        · obtain ⟨f, hf1, hf2⟩ := t5 hr
          exact ⟨f, ((hmem f).mp hf1).1, by omega⟩

theorem memorizeLoop_mono {visit : Nat → Nat → List F → List F} {passes : F → Int}
    {chunks : Nat → List D} {fuel : Nat} : ∀ {pass : Nat} {needed : List F} {tr : List (Event F D)},
    memorizeLoop visit passes chunks fuel pass needed = some tr →
    memorizeLoop visit passes chunks (fuel + 1) pass needed = some tr := by
  induction fuel with
  | zero =>
    intro pass needed tr h
    cases needed with
    | nil => simpa [memorizeLoop] using h
    | cons f fs => simp [memorizeLoop] at h
  | succ fuel ih =>
    intro pass needed tr h
    cases needed with
    | nil => simpa [memorizeLoop] using h
    | cons f fs =>
      rw [memorizeLoop] at h
      rw [memorizeLoop]
      simp only [Option.map_eq_some_iff] at h ⊢
      obtain ⟨t, h1, h2⟩ := h
      exact ⟨t, ih h1, h2⟩

/-- **C21**.  The loop always ends (the number of rounds it takes is given by the most
demanding factor), and whatever the order in which the set of factors is visited: the calls
that a factor gets are `memorize_passes_needed` once, then for each of its passes
`0, 1, ..., passes - 1` every chunk once and in order followed by one `memorize_finish`;
nothing else; and the data are iterated as often as the most demanding factor requires (not
at all if no factor needs a pass). -/
theorem memorize_protocol {visit : Nat → Nat → List F → List F} (passes : F → Int)
    (chunks : Nat → List D) (hv : ∀ p i s, (visit p i s).Perm s) {factors : List F}
    (hn : factors.Nodup) :
    ∃ tr n, (∀ fuel, n ≤ fuel → factorsMemorize visit passes chunks fuel factors = some tr) ∧
      (∀ f ∈ factors, callsOf f tr =
        Event.needed f :: (List.range (passes f).toNat).flatMap (onePass chunks f)) ∧
      (∀ f, f ∉ factors → callsOf f tr = []) ∧
      iterations tr = n ∧ (∀ f ∈ factors, (passes f).toNat ≤ n) ∧
      ((∀ f ∈ factors, passes f ≤ 0) → n = 0) ∧
      ((∃ f ∈ factors, 0 < passes f) → ∃ f ∈ factors, (passes f).toNat = n) := by
  let needed := factors.filter fun f => decide (0 < passes f)
  have hmem : ∀ f, f ∈ needed ↔ f ∈ factors ∧ 0 < passes f := by intro f; simp [needed]
  obtain ⟨m, hm⟩ : ∃ m : Nat, ∀ f ∈ needed, passes f ≤ m := by
    clear hmem hn
    induction needed with
    | nil => exact ⟨0, by simp⟩
    | cons f l ih =>
      obtain ⟨m, hm⟩ := ih
      refine ⟨max m (passes f).toNat, ?_⟩
      intro g hg
      rcases List.mem_cons.mp hg with rfl | hg
      · omega
      · have := hm g hg; omega
  have key := fun fuel (hf : ∀ f ∈ needed, passes f ≤ (0 + fuel : Nat)) =>
    memorizeLoop_spec (chunks := chunks) hv fuel 0 needed (hn.filter _)
      (fun f hf => by have := ((hmem f).mp hf).2; simpa using this) hf
  obtain ⟨tr, t1, t2, t3, t4, t5⟩ := key m (fun f hf => by have := hm f hf; push_cast; omega)
  -- exactly as much fuel as there are iterations suffices
  have hle : ∀ f ∈ needed, passes f ≤ (0 + iterations tr : Nat) := by
    intro f hf
    have := t3 f hf
    push_cast
    omega
  obtain ⟨tr', t1', _⟩ := key (iterations tr) hle
  have hmono : ∀ k fuel, ∀ t, memorizeLoop visit passes chunks fuel 0 needed = some t →
      memorizeLoop visit passes chunks (fuel + k) 0 needed = some t := by
    intro k
    induction k with
    | zero => intro fuel t h; exact h
    | succ k ih => intro fuel t h; exact memorizeLoop_mono (ih fuel t h)
  have heq : tr' = tr := by
    have h1 := hmono m _ _ t1'
    have h2 := hmono (iterations tr) _ _ t1
    rw [Nat.add_comm] at h2
    rw [h1] at h2
    simpa using h2
  subst heq
  have hneed : ∀ f, callsOf f (factors.map (Event.needed (D := D))) =
      if f ∈ factors then [Event.needed f] else [] :=
    fun f => callsOf_map Event.needed (fun _ => rfl) f hn
  have hit : iterations (factors.map (Event.needed (D := D))) = 0 := by simp [iterations]
  refine ⟨factors.map Event.needed ++ tr', iterations tr', ?_, ?_, ?_, ?_, ?_, ?_, ?_⟩
  · intro fuel hf
    have := hmono (fuel - iterations tr') _ _ t1'
    rw [show iterations tr' + (fuel - iterations tr') = fuel by omega] at this
    simp only [factorsMemorize]
    rw [this]
    rfl
  · intro f hf
    rw [callsOf_append, hneed, if_pos hf, t2]
    by_cases hp : 0 < passes f
    · rw [if_pos ((hmem f).mpr ⟨hf, hp⟩), List.range_eq_range']
      simp
    · rw [if_neg (fun h => hp ((hmem f).mp h).2)]
      have : (passes f).toNat = 0 := by omega
      simp [this]
  · intro f hf
    rw [callsOf_append, hneed, if_neg hf, t2, if_neg (fun h => hf ((hmem f).mp h).1)]
    rfl
  · rw [iterations_append, hit, Nat.zero_add]
  · intro f hf
    by_cases hp : 0 < passes f
    · have := t3 f ((hmem f).mpr ⟨hf, hp⟩); omega
    · omega
  · intro h
    apply t4
    rw [List.eq_nil_iff_forall_not_mem]
    intro f hf
    have h1 := (hmem f).mp hf
    have := h f h1.1
    omega
  · rintro ⟨f, hf, hp⟩
    obtain ⟨g, hg, he⟩ := t5 (List.ne_nil_of_mem ((hmem f).mpr ⟨hf, hp⟩))
    exact ⟨g, ((hmem g).mp hg).1, by omega⟩

/-- The states of all factors after a trace, when the methods of the factors act on them by
`act`. -/
def runStates {S : Type} (act : F → Event F D → S → S) (tr : List (Event F D)) (st : F → S) : F → S :=
  tr.foldl (fun st e => match eventFactor e with
    | some f => fun g => if g = f then act f e (st f) else st g
    | none => st) st

theorem runStates_calls {S : Type} (act : F → Event F D → S → S) (tr : List (Event F D)) (st : F → S)
    (f : F) : runStates act tr st f = (callsOf f tr).foldl (fun s e => act f e s) (st f) := by
  induction tr generalizing st with
  | nil => rfl
  | cons e tr ih =>
    have hstep : runStates act (e :: tr) st = runStates act tr (match eventFactor e with
      | some f => fun g => if g = f then act f e (st f) else st g
      | none => st) := rfl
    rw [hstep, ih]
    simp only [callsOf, List.filter_cons]
    cases he : eventFactor e with
    | none => simp
    | some g =>
      by_cases hg : g = f
      · subst hg; simp
      · have : ¬ f = g := fun h => hg h.symm
        simp [hg, this]

/-- **C21**, order of visits.  Whatever the orders in which the set of factors is visited,
the final state of every factor is the same. -/
theorem memorize_order_irrelevant {S : Type} {visit visit' : Nat → Nat → List F → List F}
    (passes : F → Int) (chunks : Nat → List D) (hv : ∀ p i s, (visit p i s).Perm s)
    (hv' : ∀ p i s, (visit' p i s).Perm s) {factors factors' : List F} (hn : factors.Nodup)
    (hp : factors.Perm factors') (act : F → Event F D → S → S) (st : F → S)
    {fuel fuel' : Nat} {tr tr' : List (Event F D)}
    (h : factorsMemorize visit passes chunks fuel factors = some tr)
    (h' : factorsMemorize visit' passes chunks fuel' factors' = some tr') :
    runStates act tr st = runStates act tr' st := by
  have huniq : ∀ (visit : Nat → Nat → List F → List F) (factors : List F) (fuel : Nat) (tr : List (Event F D)),
      (∀ p i s, (visit p i s).Perm s) → factors.Nodup →
      factorsMemorize visit passes chunks fuel factors = some tr →
      ∀ f, callsOf f tr = if f ∈ factors then
        Event.needed f :: (List.range (passes f).toNat).flatMap (onePass chunks f) else [] := by
    intro visit factors fuel tr hv hn h f
    obtain ⟨t, n, h1, h2, h3, _⟩ := memorize_protocol passes chunks hv hn
    have hmono : ∀ k fuel, ∀ t, factorsMemorize visit passes chunks fuel factors = some t →
        factorsMemorize visit passes chunks (fuel + k) factors = some t := by
      intro k
      induction k with
      | zero => intro fuel t h; exact h
      | succ k ih =>
        intro fuel t h
        have := ih fuel t h
        simp only [factorsMemorize, Option.map_eq_some_iff] at this ⊢
        obtain ⟨u, h4, h5⟩ := this
        exact ⟨u, memorizeLoop_mono h4, h5⟩
    have h4 := hmono n fuel tr h
    rw [h1 (fuel + n) (by omega)] at h4
    simp only [Option.some.injEq] at h4
    subst h4
    split
    · rename_i hf; exact h2 f hf
    · rename_i hf; exact h3 f hf
  funext f
  rw [runStates_calls, runStates_calls, huniq visit factors fuel tr hv hn h f,
    huniq visit' factors' fuel' tr' hv' (hp.nodup_iff.mp hn) h' f]
  simp only [hp.mem_iff]

/-- Example: three factors that need 0, 2 and 1 passes, two chunks; the set is visited
backwards every other time. -/
example : factorsMemorize (fun p i s => if (p + i) % 2 = 0 then s else s.reverse)
    (fun f : String => if f = "a" then 0 else if f = "b" then 2 else 1)
    (fun _ => ["d0", "d1"]) 2 ["a", "b", "c"] = some
      [.needed "a", .needed "b", .needed "c", .iterate,
       .chunk "b" 0 "d0", .chunk "c" 0 "d0", .chunk "c" 0 "d1", .chunk "b" 0 "d1",
       .finish "b" 0, .finish "c" 0, .iterate,
       .chunk "b" 1 "d0", .chunk "b" 1 "d1", .finish "b" 1] := by
  decide +kernel

/-- Example: such an order of visits satisfies the hypothesis. -/
example (p i : Nat) (s : List String) :
    ((fun p i s => if (p + i) % 2 = 0 then s else s.reverse : Nat → Nat → List String → List String) p i s).Perm s := by
  simp only
  split
  · exact List.Perm.refl _
  · exact List.reverse_perm _

end Patsy.Props
