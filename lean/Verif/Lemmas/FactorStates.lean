import Verif.Lemmas.FactorMemorize
import Verif.Lemmas.Passes

/-!
# The states of a factor, with numbers instead of names
-/

namespace Patsy.EvalFactor

open Patsy.Tokens Patsy.Calls Patsy.Spec Patsy.Props Patsy.Passes Patsy.Memorize

variable {D V A S F : Type}

theorem wrapExc_ok {R : Type} {x : Except Err R} {r : R} : wrapExc x = .ok r ↔ x = .ok r := by
  cases x with
  | error e => constructor <;> intro h <;> cases h
  | ok r' => rfl

theorem lookup_map_range {K W : Type} [DecidableEq K] {key : Nat → K} {val : Nat → W} {n k : Nat} (hk : k < n)
    (hinj : ∀ j, j < n → key j = key k → j = k) :
    ((List.range n).map fun j => (key j, val j)).lookup (key k) = some (val k) := by
  rw [List.lookup_eq_some_iff]
  refine ⟨(List.range k).map fun j => (key j, val j), ((List.range' (k + 1) (n - k - 1)).map fun j => (key j, val j)), ?_, ?_⟩
  · have : List.range n = List.range k ++ k :: List.range' (k + 1) (n - k - 1) := by
      have h := List.range'_append_1 (s := 0) (m := k) (n := n - k - 1 + 1)
      rw [Nat.zero_add] at h
      rw [List.range_eq_range', List.range_eq_range', ← List.range'_succ, h]
      congr 1
      omega
    rw [this]
    simp
  · intro p hp
    obtain ⟨j, hj, rfl⟩ := List.mem_map.mp hp
    have hjk := List.mem_range.mp hj
    simp only [bne_iff_ne, ne_eq]
    intro h
    have := hinj j (by omega) (by simpa using h.symm)
    omega

theorem lookup_map_range_none {K W : Type} [DecidableEq K] {key : Nat → K} {val : Nat → W} {n : Nat} {x : K}
    (h : ∀ j, j < n → key j ≠ x) : ((List.range n).map fun j => (key j, val j)).lookup x = none := by
  rw [List.lookup_eq_none_iff]
  intro p hp
  obtain ⟨j, hj, rfl⟩ := List.mem_map.mp hp
  have := h j (List.mem_range.mp hj)
  simpa using fun h => this h.symm

variable (stateful : String → Bool) (c : Code)

/-- The number of stateful calls. -/
def count : Nat := (c.calls stateful false).length

/-- The function called by call number `k`. -/
def fnOf (k : Nat) : String := ((c.calls stateful false)[k]?.map Prod.fst).getD ""

/-- The arguments of call number `k`, with the numbers of the calls inside. -/
def bodyOf (k : Nat) : Expr (Nat × String) :=
  ((c.calls stateful false)[k]?.map fun p => number (k + 1) (readSource stateful false p.2)).getD .nil

/-- What `memorize_passes_needed` computes. -/
def memoFor : Memo :=
  { transforms := (List.range (c.calls stateful false).length).map (objOf stateful c)
    evalCode := (subst stateful 0 false c).render
    memorizeCode := (List.range (c.calls stateful false).length).map fun k =>
      (objOf stateful c k, memoOf stateful c k)
    passBins := (List.range (c.depth stateful false)).map fun b =>
      ((List.range (c.calls stateful false).length).filter
        fun k => decide (levelOf stateful c k = b)).map (objOf stateful c) }

/-- The state of the factor when the objects are in the states `σ`. -/
def stateOf (σ : Nat → S) : FactorState S :=
  ⟨memoFor stateful c, (List.range (count stateful c)).map fun k => (objOf stateful c k, fnOf stateful c k, σ k)⟩

variable {stateful c}

theorem fnOf_eq {k : Nat} {f : String} {args : Code} (h : IsCall stateful c k f args) : fnOf stateful c k = f := by
  rw [IsCall] at h
  simp [fnOf, h]

theorem bodyOf_eq {k : Nat} {f : String} {args : Code} (h : IsCall stateful c k f args) :
    bodyOf stateful c k = number (k + 1) (readSource stateful false args) := by
  rw [IsCall] at h
  simp [bodyOf, h]

theorem lookup_object (σ : Nat → S) {k : Nat} (hk : k < count stateful c) :
    (stateOf stateful c σ).objects.lookup (objOf stateful c k) = some (fnOf stateful c k, σ k) :=
  lookup_map_range (key := objOf stateful c) (val := fun k => (fnOf stateful c k, σ k)) hk
    fun _ hj h => objOf_injective stateful hj hk h

theorem isObject_iff (σ : Nat → S) (o : String) :
    (stateOf stateful c σ).isObject o = true ↔ ∃ k, k < count stateful c ∧ objOf stateful c k = o := by
  constructor
  · intro h
    by_contra hne
    simp only [not_exists, not_and] at hne
    have : (stateOf stateful c σ).objects.lookup o = none :=
      lookup_map_range_none (key := objOf stateful c) (val := fun k => (fnOf stateful c k, σ k)) hne
    rw [FactorState.isObject, this] at h
    cases h
  · rintro ⟨k, hk, rfl⟩
    rw [FactorState.isObject, lookup_object σ hk]
    rfl

theorem setObject_eq (σ : Nat → S) {k : Nat} (hk : k < count stateful c) (s : S) :
    (stateOf stateful c σ).setObject (objOf stateful c k) s = stateOf stateful c (Function.update σ k s) := by
  simp only [FactorState.setObject, stateOf, List.map_map, FactorState.mk.injEq, true_and]
  apply List.map_congr_left
  intro j hj
  simp only [Function.comp]
  by_cases h : j = k
  · subst h; simp
  · rw [if_neg (fun he => h (objOf_injective stateful (List.mem_range.mp hj) hk he)), Function.update_of_ne h]

variable (P : Python D V A) (classOf : String → Class S A V)

theorem transform_eq (σ : Nat → S) {k : Nat} {f : String} {args : Code} (h : IsCall stateful c k f args) (a : A) :
    (stateOf stateful c σ).transform classOf (objName k f) a = stateCall classOf σ (k, f) a := by
  have hk : k < count stateful c := (List.getElem?_eq_some_iff.mp h).1
  have := lookup_object σ hk
  rw [objOf_eq stateful h, fnOf_eq h] at this
  rw [FactorState.transform, FactorState.object, this]
  rfl

/-- The numbered calls of an expression inside the code. -/
def Within (e : Expr (Nat × String)) : Prop :=
  ∀ p ∈ sites e, ∃ args, IsCall stateful c p.1.1 p.1.2 args

theorem holes_objects (σ : Nat → S) (d : D) {e : Expr (Nat × String)} (he : Within (stateful := stateful) (c := c) e) :
    P.holes ((stateOf stateful c σ).transform classOf) d (e.map fun p => objName p.1 p.2) =
      P.holes (stateCall classOf σ) d e := by
  rw [holes_map]
  apply holes_congr
  rintro ⟨⟨k, f⟩, body⟩ hp
  obtain ⟨args, hargs⟩ := he _ hp
  funext a
  exact transform_eq classOf σ hargs a

theorem within_whole : Within (stateful := stateful) (c := c) (number 0 (readSource stateful false c)) := by
  intro p hp
  rw [sites_number, sites_source, List.mem_iff_getElem?] at hp
  obtain ⟨k, hk⟩ := hp
  simp only [List.getElem?_mapIdx, List.getElem?_map, Option.map_eq_some_iff] at hk
  obtain ⟨_, ⟨q, hq, rfl⟩, rfl⟩ := hk
  refine ⟨q.2, ?_⟩
  rw [IsCall, Nat.zero_add]
  exact hq

theorem sites_whole {k : Nat} {f : String} {body : Expr (Nat × String)} :
    ((k, f), body) ∈ sites (number 0 (readSource stateful false c)) ↔
      k < count stateful c ∧ f = fnOf stateful c k ∧ body = bodyOf stateful c k := by
  rw [sites_number, sites_source, List.mem_iff_getElem?]
  simp only [List.getElem?_mapIdx, List.getElem?_map, Option.map_eq_some_iff]
  constructor
  · rintro ⟨j, _, ⟨q, hq, rfl⟩, he⟩
    simp only [Nat.zero_add, Prod.mk.injEq] at he
    obtain ⟨⟨rfl, rfl⟩, rfl⟩ := he
    have hc : IsCall stateful c j q.1 q.2 := hq
    exact ⟨(List.getElem?_eq_some_iff.mp hq).1, (fnOf_eq hc).symm, (bodyOf_eq hc).symm⟩
  · rintro ⟨hk, rfl, rfl⟩
    obtain ⟨f, args, hc⟩ := isCall_lt stateful hk
    refine ⟨k, _, ⟨(f, args), hc, rfl⟩, ?_⟩
    rw [fnOf_eq hc, bodyOf_eq hc, Nat.zero_add]

theorem sites_body {k : Nat} {f : String} {args : Code} (h : IsCall stateful c k f args) {p : (Nat × String) × Expr (Nat × String)}
    (hp : p ∈ sites (bodyOf stateful c k)) :
    (∃ args, IsCall stateful c p.1.1 p.1.2 args) ∧ p.1.1 < count stateful c ∧
      levelOf stateful c p.1.1 < levelOf stateful c k := by
  rw [bodyOf_eq h, sites_number, sites_source, List.mem_iff_getElem?] at hp
  obtain ⟨m, hm⟩ := hp
  simp only [List.getElem?_mapIdx, List.getElem?_map, Option.map_eq_some_iff] at hm
  obtain ⟨_, ⟨q, hq, rfl⟩, rfl⟩ := hm
  have hlt : m < (args.calls stateful false).length := (List.getElem?_eq_some_iff.mp hq).1
  exact ⟨⟨q.2, isCall_args stateful h hq⟩, inside_lt stateful h hlt, levelOf_inside stateful h hlt⟩

/-- The arguments of call number `k`. -/
def argsFor (stateful : String → Bool) (c : Code) (k : Nat) (σ : Nat → S) (d : D) : Except Err A :=
  P.arguments (stateCall classOf σ) d (bodyOf stateful c k)

/-- The class of call number `k`. -/
def clsFor (stateful : String → Bool) (c : Code) (k : Nat) : Class S A V := classOf (fnOf stateful c k)

theorem argsFor_dep {k : Nat} (hk : k < count stateful c) (σ τ : Nat → S) (d : D)
    (h : ∀ m, m < count stateful c → levelOf stateful c m < levelOf stateful c k → σ m = τ m) :
    argsFor P classOf stateful c k σ d = argsFor P classOf stateful c k τ d := by
  obtain ⟨f, args, hc⟩ := isCall_lt stateful hk
  have : P.holes (stateCall classOf σ) d (bodyOf stateful c k) = P.holes (stateCall classOf τ) d (bodyOf stateful c k) := by
    apply holes_congr
    intro p hp
    obtain ⟨_, h1, h2⟩ := sites_body hc hp
    funext a
    rw [stateCall, stateCall, h _ h1 h2]
  rw [argsFor, argsFor, Python.arguments, Python.arguments, this]

/-- Carrying out the memorisation code of an object. -/
theorem memorizeOne_eq (hw : c.WF) (hr : NoReserved stateful c) (d : D) (σ : Nat → S) {k : Nat} (hk : k < count stateful c) :
    memorizeOne P classOf d (stateOf stateful c σ) (objOf stateful c k) = wrapExc (do
      let s ← chunkCell (argsFor P classOf stateful c) (clsFor classOf stateful c) d k σ
      pure (stateOf stateful c (Function.update σ k s))) := by
  obtain ⟨f, args, hc⟩ := isCall_lt stateful hk
  have hcode : (stateOf stateful c σ).memo.memorizeCode.lookup (objOf stateful c k) = some (memoOf stateful c k) :=
    lookup_map_range (key := objOf stateful c) (val := memoOf stateful c) hk fun _ hj h => objOf_injective stateful hj hk h
  have hwa : args.WF := wf_args stateful (List.mem_of_getElem? hc) hw
  have hread : readTokens (memoOf stateful c k) = some (.tok (.name, objName k f) (.tok (.op, ".")
      (.tok (.name, "memorize_chunk") (.group .paren (subst stateful (k + 1) false args) .nil)))) := by
    rw [memoOf_eq stateful hc, callTokens_render]
    apply readTokens_render
    exact ⟨objName_not_bracket _ _, by simp only; decide, by simp only; decide, subst_wf stateful hwa, trivial⟩
  have hbody : readObjects (stateOf stateful c σ).isObject false (subst stateful (k + 1) false args) =
      (bodyOf stateful c k).map fun p => objName p.1 p.2 := by
    rw [bodyOf_eq hc]
    apply readObjects_subst
    · intro n hn
      rw [← Bool.not_eq_true, isObject_iff]
      rintro ⟨j, hj, rfl⟩
      obtain ⟨g, b, hg⟩ := isCall_lt stateful hj
      rw [objOf_eq stateful hg] at hn
      exact hr j g b hg (names_args stateful (List.mem_of_getElem? hc) hn)
    · intro o ho
      rw [isObject_iff]
      obtain ⟨m, hm, rfl⟩ := (mem_objs_args stateful hc).mp ho
      exact ⟨_, inside_lt stateful hc hm, rfl⟩
  have hargs : P.arguments ((stateOf stateful c σ).transform classOf) d
      ((bodyOf stateful c k).map fun p => objName p.1 p.2) = argsFor P classOf stateful c k σ d := by
    rw [argsFor, Python.arguments, Python.arguments, skel_map, holes_objects P classOf σ d]
    intro p hp
    exact (sites_body hc hp).1
  have hobj : (stateOf stateful c σ).object (objName k f) = .ok (fnOf stateful c k, σ k) := by
    rw [FactorState.object, ← objOf_eq stateful hc, lookup_object σ hk]
  rw [memorizeOne, hcode]
  simp only [hread, hbody, hargs, hobj]
  congr 1
  simp only [chunkCell, bind_assoc, ← objOf_eq stateful hc, setObject_eq σ hk]
  rfl

theorem finishOne_eq (σ : Nat → S) {k : Nat} (hk : k < count stateful c) :
    finishOne classOf (stateOf stateful c σ) (objOf stateful c k) = (do
      let s ← (clsFor classOf stateful c k).finish (σ k)
      pure (stateOf stateful c (Function.update σ k s))) := by
  rw [finishOne, lookup_object σ hk]
  simp only [setObject_eq σ hk]
  rfl

/-- A loop over objects is a loop over cells. -/
theorem fold_each {step : FactorState S → String → Except Err (FactorState S)} {g : Nat → (Nat → S) → Except Err S}
    (hstep : ∀ (σ : Nat → S) k st', k < count stateful c → (step (stateOf stateful c σ) (objOf stateful c k) = .ok st' ↔
      ∃ s, g k σ = .ok s ∧ st' = stateOf stateful c (Function.update σ k s))) (l : List Nat)
    (hl : ∀ k ∈ l, k < count stateful c) (σ : Nat → S) (st' : FactorState S) :
    (l.map (objOf stateful c)).foldlM step (stateOf stateful c σ) = .ok st' ↔
      ∃ σ', each g l σ = .ok σ' ∧ st' = stateOf stateful c σ' := by
  induction l generalizing σ with
  | nil =>
    simp only [List.map_nil, List.foldlM_nil, each, pure_eq_ok]
    exact ⟨fun h => ⟨σ, rfl, h.symm⟩, fun ⟨_, h, h'⟩ => by rw [h', ← h]⟩
  | cons k l ih =>
    have hcons : each g (k :: l) σ = (do
      let s ← g k σ
      each g l (Function.update σ k s)) := by
      simp only [each, List.foldlM_cons, bind_assoc, pure_bind]
    rw [List.map_cons, List.foldlM_cons, bind_eq_ok, hcons]
    simp only [bind_eq_ok]
    constructor
    · rintro ⟨st1, h1, h2⟩
      obtain ⟨s, h3, rfl⟩ := (hstep σ k _ (hl k List.mem_cons_self)).mp h1
      obtain ⟨σ', h4, h5⟩ := (ih (fun k hk => hl k (List.mem_cons_of_mem _ hk)) _).mp h2
      exact ⟨σ', ⟨s, h3, h4⟩, h5⟩
    · rintro ⟨σ', ⟨s, h3, h4⟩, h5⟩
      exact ⟨_, (hstep σ k _ (hl k List.mem_cons_self)).mpr ⟨s, h3, rfl⟩,
        (ih (fun k hk => hl k (List.mem_cons_of_mem _ hk)) _).mpr ⟨σ', h4, h5⟩⟩

theorem perm_map {X Y : Type} [DecidableEq X] {g : X → Y} {l : List X} {l' : List Y} (h : l'.Perm (l.map g)) :
    ∃ l'' : List X, l''.Perm l ∧ l' = l''.map g := by
  induction l' generalizing l with
  | nil =>
    have := h.symm.eq_nil
    rw [List.map_eq_nil_iff] at this
    exact ⟨[], by rw [this], rfl⟩
  | cons y l' ih =>
    obtain ⟨x, hx, rfl⟩ := List.mem_map.mp (h.subset List.mem_cons_self)
    have h1 : l.Perm (x :: l.erase x) := List.perm_cons_erase hx
    have h2 : (g x :: l').Perm (g x :: (l.erase x).map g) := h.trans (h1.map g)
    obtain ⟨l'', h3, rfl⟩ := ih h2.cons_inv
    exact ⟨x :: l'', (h3.cons x).trans h1.symm, rfl⟩

/-- The numbers of the objects that are memorised in a pass. -/
def cells (stateful : String → Bool) (c : Code) (p : Nat) : List Nat :=
  (List.range (count stateful c)).filter fun k => decide (levelOf stateful c k = p)

theorem mem_cells {p k : Nat} : k ∈ cells stateful c p ↔ k < count stateful c ∧ levelOf stateful c k = p := by
  simp [cells]

theorem exists_bins {visit : List String → List String} (hv : ∀ s, (visit s).Perm s) :
    ∃ bins : Nat → List Nat, ∀ p, ((bins p).Nodup ∧ ∀ k, k ∈ bins p ↔ k < count stateful c ∧ levelOf stateful c k = p) ∧
      visit ((cells stateful c p).map (objOf stateful c)) = (bins p).map (objOf stateful c) := by
  have : ∀ p, ∃ l : List Nat, l.Perm (cells stateful c p) ∧
      visit ((cells stateful c p).map (objOf stateful c)) = l.map (objOf stateful c) := fun p => perm_map (hv _)
  choose bins hb using this
  refine ⟨bins, fun p => ⟨⟨(hb p).1.nodup_iff.mpr (List.nodup_range.filter _), fun k => ?_⟩, (hb p).2⟩⟩
  rw [(hb p).1.mem_iff, mem_cells]

theorem bin_eq (σ : Nat → S) {p : Nat} (hp : p < c.depth stateful false) :
    (stateOf stateful c σ).bin p = .ok ((cells stateful c p).map (objOf stateful c)) := by
  have : (memoFor stateful c).passBins[p]? = some ((cells stateful c p).map (objOf stateful c)) := by
    simp only [memoFor, List.getElem?_map, List.getElem?_range hp]
    rfl
  rw [FactorState.bin]
  simp only [stateOf, this]

/-- The calls of a factor in one pass. -/
theorem pass_iff (hw : c.WF) (hr : NoReserved stateful c) {visit : List String → List String} {bins : Nat → List Nat}
    (hb : ∀ p, ((bins p).Nodup ∧ ∀ k, k ∈ bins p ↔ k < count stateful c ∧ levelOf stateful c k = p) ∧
      visit ((cells stateful c p).map (objOf stateful c)) = (bins p).map (objOf stateful c))
    (chunks : List D) (f : F) {p : Nat} (hp : p < c.depth stateful false) (σ : Nat → S) (st' : FactorState S) :
    (onePass (fun _ => chunks) f p).foldlM (factorEvent P classOf visit) (stateOf stateful c σ) = .ok st' ↔
      ∃ σ', onePassRun (argsFor P classOf stateful c) (clsFor classOf stateful c) chunks (bins p) σ = .ok σ' ∧
        st' = stateOf stateful c σ' := by
  have hlt : ∀ k ∈ bins p, k < count stateful c := fun k hk => (((hb p).1.2 k).mp hk).1
  have hchunk : ∀ (d : D) (σ : Nat → S) (st' : FactorState S),
      factorEvent P classOf visit (stateOf stateful c σ) (Event.chunk f p d) = .ok st' ↔
        ∃ σ', each (chunkCell (argsFor P classOf stateful c) (clsFor classOf stateful c) d) (bins p) σ = .ok σ' ∧
          st' = stateOf stateful c σ' := by
    intro d σ st'
    rw [factorEvent, memorizeChunk, bin_eq σ hp]
    show (visit _).foldlM _ _ = _ ↔ _
    rw [(hb p).2]
    refine fold_each (fun σ k st' hk => ?_) _ hlt σ st'
    rw [memorizeOne_eq P classOf hw hr d σ hk, wrapExc_ok, bind_eq_ok]
    simp only [pure_eq_ok, eq_comm (a := st')]
  have hfinish : ∀ (σ : Nat → S) (st' : FactorState S),
      factorEvent P classOf visit (stateOf stateful c σ) (Event.finish f p : Event F D) = .ok st' ↔
        ∃ σ', each (fun k σ => (clsFor classOf stateful c k).finish (σ k)) (bins p) σ = .ok σ' ∧
          st' = stateOf stateful c σ' := by
    intro σ st'
    rw [factorEvent, memorizeFinish, bin_eq σ hp]
    show (visit _).foldlM _ _ = _ ↔ _
    rw [(hb p).2]
    refine fold_each (fun σ k st' hk => ?_) _ hlt σ st'
    rw [finishOne_eq classOf σ hk, bind_eq_ok]
    simp only [pure_eq_ok, eq_comm (a := st')]
  rw [onePass, List.foldlM_append, bind_eq_ok, onePassRun]
  simp only [List.foldlM_cons, List.foldlM_nil, bind_pure, bind_eq_ok]
  have hchunks : ∀ (chunks : List D) (σ : Nat → S) (st' : FactorState S),
      (chunks.map (Event.chunk f p)).foldlM (factorEvent P classOf visit) (stateOf stateful c σ) = .ok st' ↔
        ∃ σ', chunks.foldlM (fun σ d => each (chunkCell (argsFor P classOf stateful c) (clsFor classOf stateful c) d)
          (bins p) σ) σ = .ok σ' ∧ st' = stateOf stateful c σ' := by
    intro chunks
    induction chunks with
    | nil =>
      intro σ st'
      simp only [List.map_nil, List.foldlM_nil, pure_eq_ok]
      exact ⟨fun h => ⟨σ, rfl, h.symm⟩, fun ⟨_, h, h'⟩ => by rw [h', ← h]⟩
    | cons d ds ih =>
      intro σ st'
      simp only [List.map_cons, List.foldlM_cons, bind_eq_ok]
      constructor
      · rintro ⟨st1, h1, h2⟩
        obtain ⟨σ1, h3, rfl⟩ := (hchunk d σ _).mp h1
        obtain ⟨σ', h4, h5⟩ := (ih σ1 _).mp h2
        exact ⟨σ', ⟨σ1, h3, h4⟩, h5⟩
      · rintro ⟨σ', ⟨σ1, h3, h4⟩, h5⟩
        exact ⟨_, (hchunk d σ _).mpr ⟨σ1, h3, rfl⟩, (ih σ1 _).mpr ⟨σ', h4, h5⟩⟩
  constructor
  · rintro ⟨st1, h1, h2⟩
    obtain ⟨σ1, h3, rfl⟩ := (hchunks chunks σ _).mp h1
    obtain ⟨σ', h4, h5⟩ := (hfinish σ1 _).mp h2
    exact ⟨σ', ⟨σ1, h3, h4⟩, h5⟩
  · rintro ⟨σ', ⟨σ1, h3, h4⟩, h5⟩
    exact ⟨_, (hchunks chunks σ _).mpr ⟨σ1, h3, rfl⟩, (hfinish σ1 _).mpr ⟨σ', h4, h5⟩⟩

/-- The initial states. -/
def start (stateful : String → Bool) (c : Code) (k : Nat) : S := (clsFor classOf stateful c k).init

theorem startFactor_eq (hw : c.WF) (hr : NoReserved stateful c) :
    startFactor stateful classOf c.render = .ok (stateOf stateful c (start classOf stateful c)) := by
  have hnames : replacedNames stateful false c.render = (List.range (count stateful c)).map (fnOf stateful c) := by
    have := replacedNames_render stateful (c := c) (dot := false) (ts := []) hw (by simp)
    rw [List.append_nil] at this
    rw [this]
    simp only [replacedNames, List.append_nil]
    apply List.ext_getElem
    · simp [count]
    · intro k h1 h2
      have : k < (c.calls stateful false).length := by simpa using h1
      simp [fnOf, this]
  rw [startFactor, memorize_passes stateful hw hr, hnames]
  simp only [bind, Except.bind, pure, Except.pure, stateOf, memoFor, Except.ok.injEq, FactorState.mk.injEq, true_and]
  rw [show (List.range (c.calls stateful false).length).map (objOf stateful c) =
    (List.range (count stateful c)).map (objOf stateful c) from rfl, List.zip_map', List.map_map]
  rfl

/-- All calls that a factor gets. -/
theorem factor_iff (hw : c.WF) (hr : NoReserved stateful c) {visit : List String → List String}
    (hv : ∀ s, (visit s).Perm s) (chunks : List D) (f : F) (st' : FactorState S) :
    ((List.range (c.depth stateful false)).flatMap (onePass (fun _ => chunks) f)).foldlM (factorEvent P classOf visit)
      (stateOf stateful c (start classOf stateful c)) = .ok st' ↔
      ∃ σ : Nat → S, Remembers P classOf chunks (readSource stateful false c) σ ∧ st' = stateOf stateful c σ := by
  obtain ⟨bins, hb⟩ := exists_bins (stateful := stateful) (c := c) hv
  have hall : ∀ (M : Nat), M ≤ c.depth stateful false → ∀ (σ : Nat → S) st',
      ((List.range M).flatMap (onePass (fun _ => chunks) f)).foldlM (factorEvent P classOf visit) (stateOf stateful c σ) = .ok st' ↔
      ∃ σ', (List.range M).foldlM (fun σ p => onePassRun (argsFor P classOf stateful c) (clsFor classOf stateful c) chunks
        (bins p) σ) σ = .ok σ' ∧ st' = stateOf stateful c σ' := by
    intro M
    induction M with
    | zero =>
      intro _ σ st'
      simp only [List.range_zero, List.flatMap_nil, List.foldlM_nil, pure_eq_ok]
      exact ⟨fun h => ⟨σ, rfl, h.symm⟩, fun ⟨_, h, h'⟩ => by rw [h', ← h]⟩
    | succ M ih =>
      intro hM σ st'
      rw [List.range_succ, List.flatMap_append, List.foldlM_append, List.foldlM_append, bind_eq_ok]
      simp only [List.flatMap_cons, List.flatMap_nil, List.append_nil, List.foldlM_cons, List.foldlM_nil, bind_pure, bind_eq_ok]
      constructor
      · rintro ⟨st1, h1, h2⟩
        obtain ⟨σ1, h3, rfl⟩ := (ih (by omega) σ _).mp h1
        obtain ⟨σ', h4, h5⟩ := (pass_iff P classOf hw hr hb chunks f (by omega) σ1 _).mp h2
        exact ⟨σ', ⟨σ1, h3, h4⟩, h5⟩
      · rintro ⟨σ', ⟨σ1, h3, h4⟩, h5⟩
        exact ⟨_, (ih (by omega) σ _).mpr ⟨σ1, h3, rfl⟩, (pass_iff P classOf hw hr hb chunks f (by omega) σ1 _).mpr ⟨σ', h4, h5⟩⟩
  have hlevel : ∀ k < count stateful c, levelOf stateful c k < c.depth stateful false := fun k hk => levelOf_lt stateful hk
  have hpass := passes_iff (args := argsFor P classOf stateful c) (cls := clsFor classOf stateful c)
    (level := levelOf stateful c) (n := count stateful c)
    (fun k hk σ τ d h => argsFor_dep P classOf hk σ τ d h) bins (fun p => (hb p).1) chunks (start classOf stateful c)
    (c.depth stateful false)
  have hlearn : ∀ (σ : Nat → S) k, learn (argsFor P classOf stateful c) (clsFor classOf stateful c) chunks k σ
      (start classOf stateful c k) = .ok (σ k) ↔ ∃ as, chunks.mapM (argsFor P classOf stateful c k σ) = .ok as ∧
        remember (clsFor classOf stateful c k) as = .ok (σ k) := by
    intro σ k
    rw [learn, bind_eq_ok]
    rfl
  rw [hall _ (Nat.le_refl _)]
  constructor
  · rintro ⟨σ, h1, h2⟩
    obtain ⟨h3, _⟩ := (hpass σ).mp h1
    refine ⟨σ, ?_, h2⟩
    intro k g body hs
    obtain ⟨hk, rfl, rfl⟩ := sites_whole.mp hs
    exact (hlearn σ k).mp (h3 k hk (hlevel k hk))
  · rintro ⟨σ, h1, h2⟩
    -- cells that do not exist keep their states
    let σ1 : Nat → S := fun k => if k < count stateful c then σ k else start classOf stateful c k
    have hin : ∀ k < count stateful c, σ1 k = σ k := fun k hk => if_pos hk
    refine ⟨σ1, (hpass σ1).mpr ⟨fun k hk _ => ?_, fun k hk => ?_⟩, ?_⟩
    · rw [hlearn]
      have h3 := h1 k _ _ (sites_whole.mpr ⟨hk, rfl, rfl⟩)
      rw [hin k hk]
      have : argsFor P classOf stateful c k σ1 = argsFor P classOf stateful c k σ :=
        funext fun d => argsFor_dep P classOf hk σ1 σ d fun m hm _ => hin m hm
      rw [this]
      exact h3
    · simp only [σ1]
      rw [if_neg]
      intro h
      have := hk h
      have := hlevel k h
      omega
    · rw [h2]
      simp only [stateOf, FactorState.mk.injEq, true_and]
      apply List.map_congr_left
      intro k hk
      rw [hin k (List.mem_range.mp hk)]

/-- The evaluation of a factor. -/
theorem evalFactorCode_eq (hw : c.WF) (hr : NoReserved stateful c) (σ : Nat → S) (d : D) :
    evalFactorCode P classOf (stateOf stateful c σ) d = wrapExc (valueWith P classOf σ (readSource stateful false c) d) := by
  have hread : readTokens (stateOf stateful c σ).memo.evalCode = some (subst stateful 0 false c) :=
    readTokens_render (subst_wf stateful hw)
  have hbody : readObjects (stateOf stateful c σ).isObject false (subst stateful 0 false c) =
      (number 0 (readSource stateful false c)).map fun p => objName p.1 p.2 := by
    apply readObjects_subst
    · intro n hn
      rw [← Bool.not_eq_true, isObject_iff]
      rintro ⟨j, hj, rfl⟩
      obtain ⟨g, b, hg⟩ := isCall_lt stateful hj
      rw [objOf_eq stateful hg] at hn
      exact hr j g b hg hn
    · intro o ho
      rw [isObject_iff]
      rw [objs_zero] at ho
      obtain ⟨k, hk, rfl⟩ := List.mem_map.mp ho
      exact ⟨k, List.mem_range.mp hk, rfl⟩
  rw [evalFactorCode, hread]
  simp only [hbody]
  rw [valueWith, Python.value, Python.value, skel_map, holes_objects P classOf σ d within_whole]

end Patsy.EvalFactor
