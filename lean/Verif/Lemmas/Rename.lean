import Verif.Spec.Rename
import Mathlib.Data.List.Dedup

/-!
# Renaming factors: the coding of categorical factors
-/

set_option linter.unusedSectionVars false

namespace Patsy.Redundancy

open Patsy.Spec (renameFactor renameSet HashAlike)

variable {F G : Type} [DecidableEq F] [DecidableEq G]

theorem renameFactor_injective {φ : F → G} (hφ : Function.Injective φ) : Function.Injective (renameFactor φ) := by
  rintro ⟨a, f⟩ ⟨b, g⟩ h
  simp only [renameFactor, EFactor.mk.injEq] at h
  rw [h.1, hφ h.2]

theorem renameSet_injective {φ : F → G} (hφ : Function.Injective φ) :
    Function.Injective (renameSet φ : Subterm F → Subterm G) :=
  Finset.image_injective (renameFactor_injective hφ)

theorem canAbsorb_rename {φ : F → G} (hφ : Function.Injective φ) (s t : Subterm F) :
    canAbsorb (renameSet φ s) (renameSet φ t) = canAbsorb s t := by
  have h := renameFactor_injective hφ
  simp only [canAbsorb, renameSet, Finset.card_image_of_injective _ h, Finset.image_subset_image_iff h]

theorem absorb_rename {φ : F → G} (hφ : Function.Injective φ) (s t : Subterm F) :
    absorb (renameSet φ s) (renameSet φ t) = (absorb s t).map (renameSet φ) := by
  have h := renameFactor_injective hφ
  have hd : (renameSet φ s) \ (renameSet φ t) = Finset.image (renameFactor φ) (s \ t) :=
    (Finset.image_sdiff _ _ h).symm
  simp only [absorb, hd, Finset.card_image_of_injective _ h, Finset.forall_mem_image]
  have hu : (renameSet φ t) ∪ Finset.image (fun e => (⟨true, e.factor⟩ : EFactor G)) (Finset.image (renameFactor φ) (s \ t)) =
      renameSet φ (t ∪ Finset.image (fun e => (⟨true, e.factor⟩ : EFactor F)) (s \ t)) := by
    simp only [renameSet, Finset.image_union, Finset.image_image]
    rfl
  simp only [renameFactor, hu] at hu ⊢
  split <;> [split; skip] <;> simp_all [Except.map, renameFactor]

theorem absorbInto_rename {φ : F → G} (hφ : Function.Injective φ) (s : Subterm F) (l : List (Subterm F)) :
    absorbInto (renameSet φ s) (l.map (renameSet φ)) =
      (absorbInto s l).map (Option.map (List.map (renameSet φ))) := by
  induction l with
  | nil => rfl
  | cons t l ih =>
    simp only [List.map_cons, absorbInto, canAbsorb_rename hφ, absorb_rename hφ, ih]
    split
    · cases absorb t s <;> rfl
    · cases absorbInto s l with
      | error e => rfl
      | ok o => cases o <;> rfl

theorem simplifyOne_rename {φ : F → G} (hφ : Function.Injective φ) (l : List (Subterm F)) :
    simplifyOne (l.map (renameSet φ)) = (simplifyOne l).map (Option.map (List.map (renameSet φ))) := by
  induction l with
  | nil => rfl
  | cons t l ih =>
    simp only [List.map_cons, simplifyOne, absorbInto_rename hφ, ih]
    cases absorbInto t l with
    | error e => rfl
    | ok o =>
      cases o with
      | some l' => rfl
      | none =>
        cases simplifyOne l with
        | error e => rfl
        | ok o => cases o <;> rfl

theorem simplify_error {l : List (Subterm F)} {e : Err} (h : simplifyOne l = .error e) : simplify l = .error e := by
  rw [simplify]; split <;> simp_all

theorem simplify_done {l : List (Subterm F)} (h : simplifyOne l = .ok none) : simplify l = .ok l := by
  rw [simplify]; split <;> simp_all

theorem simplify_step {l l' : List (Subterm F)} (h : simplifyOne l = .ok (some l')) : simplify l = simplify l' := by
  rw [simplify]; split <;> simp_all

theorem simplify_rename {φ : F → G} (hφ : Function.Injective φ) (l : List (Subterm F)) :
    simplify (l.map (renameSet φ)) = (simplify l).map (List.map (renameSet φ)) := by
  induction hn : l.length using Nat.strong_induction_on generalizing l with
  | _ n ih =>
    subst hn
    have h := simplifyOne_rename hφ l
    cases ho : simplifyOne l with
    | error e =>
      rw [ho] at h
      rw [simplify_error h, simplify_error ho]; rfl
    | ok o =>
      rw [ho] at h
      cases o with
      | none => rw [simplify_done h, simplify_done ho]; rfl
      | some l' =>
        rw [simplify_step h, simplify_step ho]
        exact ih _ (by have := simplifyOne_length ho; omega) _ rfl

theorem enumFrom_rename {α β : Type} (g : α → β) (i : Nat) (l : List α) :
    enumFrom i (l.map g) = (enumFrom i l).map (Prod.map id g) := by
  induction l generalizing i with
  | nil => rfl
  | cons a l ih => simp [enumFrom, ih]

theorem tupleLe_rename {α β : Type} (g : α → β) : ∀ s t : List (Nat × α),
    tupleLe (s.map (Prod.map id g)) (t.map (Prod.map id g)) = tupleLe s t
  | [], _ => rfl
  | _ :: _, [] => rfl
  | a :: s, b :: t => by simp [tupleLe, tupleLe_rename g s t]

theorem sortStrip_rename {α β : Type} (g : α → β) (l : List (List (Nat × α))) :
    sortStrip (l.map (List.map (Prod.map id g))) = (sortStrip l).map (List.map g) := by
  have h1 : ((l.map (List.map (Prod.map id g))).insertionSort fun s t => tupleLe s t = true) =
      (l.insertionSort fun s t => tupleLe s t = true).map (List.map (Prod.map id g)) :=
    (List.map_insertionSort _ _ _ _ fun a _ b _ => by rw [tupleLe_rename]).symm
  have h2 : ∀ m : List (List (Nat × α)), ((m.map (List.map (Prod.map id g))).insertionSort fun s t => s.length ≤ t.length) =
      (m.insertionSort fun s t => s.length ≤ t.length).map (List.map (Prod.map id g)) := fun m =>
    (List.map_insertionSort _ _ _ _ fun a _ b _ => by simp).symm
  simp only [sortStrip, h1, h2, List.map_map]
  congr 1
  funext s
  simp

theorem subsetsSortedN_rename (n : Nat) : ∀ {α β : Type} (g : α → β) (l : List α),
    subsetsSortedN n (l.map g) = (subsetsSortedN n l).map (List.map g) := by
  induction n with
  | zero => intro α β g l; exact sortStrip_rename g [[]]
  | succ n ih =>
    intro α β g l
    simp only [subsetsSortedN, enumFrom_rename]
    cases enumFrom 0 l with
    | nil => exact sortStrip_rename g [[]]
    | cons o seq =>
      simp only [List.map_cons, ih (Prod.map id g) seq]
      rw [← sortStrip_rename g]
      congr 1
      simp [List.flatMap_map, List.map_flatMap]

theorem subsetsSorted_rename {α β : Type} (g : α → β) (l : List α) :
    subsetsSorted (l.map g) = (subsetsSorted l).map (List.map g) := by
  simp only [subsetsSorted, List.length_map, subsetsSortedN_rename]

theorem mkSubterm_rename {φ : F → G} (l : List F) : mkSubterm (l.map φ) = renameSet φ (mkSubterm l) := by
  ext e
  simp only [mkSubterm, renameSet, List.mem_toFinset, Finset.mem_image, List.mem_map]
  constructor
  · rintro ⟨g, ⟨f, hf, rfl⟩, rfl⟩
    exact ⟨_, ⟨f, hf, rfl⟩, rfl⟩
  · rintro ⟨_, ⟨f, hf, rfl⟩, rfl⟩
    exact ⟨_, ⟨f, hf, rfl⟩, rfl⟩

theorem codingLookup_rename {φ : F → G} (hφ : Function.Injective φ) (c : Subterm F) (f : F) :
    codingLookup (renameSet φ c) (φ f) = codingLookup c f := by
  have h : ∀ b, (⟨b, φ f⟩ : EFactor G) ∈ renameSet φ c ↔ (⟨b, f⟩ : EFactor F) ∈ c := by
    intro b
    constructor
    · intro h
      obtain ⟨e, he, h⟩ := Finset.mem_image.1 h
      rwa [renameFactor_injective hφ (a₁ := e) (a₂ := ⟨b, f⟩) h] at he
    · exact fun h => Finset.mem_image.2 ⟨_, h, rfl⟩
  simp only [codingLookup, h]

theorem pickContrasts_rename {H H' : Type} [DecidableEq H] [DecidableEq H'] {φ : F → G} (hφ : Function.Injective φ)
    {hash : Subterm F → H} {hash' : Subterm G → H'} (hh : HashAlike φ hash hash') {isNum : F → Bool} {isNum' : G → Bool}
    (term : List F) (hnum : ∀ f ∈ term, isNum' (φ f) = isNum f) (used : List (Subterm F)) :
    ∃ used' : List (Subterm F), pickContrasts hash isNum term (used.map hash) =
        (match pickContrasts hash isNum term (used.map hash) with
          | .ok r => .ok (r.1, used'.map hash)
          | .error e => .error e) ∧
      pickContrasts hash' isNum' (term.map φ) (used.map fun s => hash' (renameSet φ s)) =
        (match pickContrasts hash isNum term (used.map hash) with
          | .ok r => .ok (r.1.map (renameSet φ), used'.map fun s => hash' (renameSet φ s))
          | .error e => .error e) := by
  have hcat : (term.map φ).filter (fun f => !isNum' f) = (term.filter fun f => !isNum f).map φ := by
    rw [List.filter_map]
    congr 1
    exact List.filter_congr fun f hf => by simp [hnum f hf]
  have hmem : ∀ s, hash' (renameSet φ s) ∈ (used.map fun s => hash' (renameSet φ s)) ↔ hash s ∈ used.map hash := by
    intro s
    simp only [List.mem_map]
    constructor
    · rintro ⟨t, ht, h⟩; exact ⟨t, ht, (hh t s).2 h⟩
    · rintro ⟨t, ht, h⟩; exact ⟨t, ht, (hh t s).1 h⟩
  refine ⟨used ++ ((subsetsSorted (term.filter fun f => !isNum f)).map mkSubterm).filter fun s => decide (hash s ∉ used.map hash), ?_, ?_⟩
  · simp only [pickContrasts]
    cases simplify (F := F) _ <;> simp
  · have hs : ((subsetsSorted ((term.filter fun f => !isNum f).map φ)).map mkSubterm).filter
        (fun s => decide (hash' s ∉ used.map fun s => hash' (renameSet φ s))) =
        (((subsetsSorted (term.filter fun f => !isNum f)).map mkSubterm).filter fun s => decide (hash s ∉ used.map hash)).map
          (renameSet φ) := by
      rw [subsetsSorted_rename, List.map_map, show (mkSubterm ∘ List.map φ : List F → Subterm G) = renameSet φ ∘ mkSubterm from
        funext mkSubterm_rename, ← List.map_map, List.filter_map]
      congr 1
      exact List.filter_congr fun s _ => by simp only [Function.comp, hmem]
    simp only [pickContrasts, hcat, hs, simplify_rename hφ]
    cases simplify (F := F) _ <;> simp [Except.map]

end Patsy.Redundancy

namespace Patsy.Build

open Patsy.Desc Patsy.Redundancy
open Patsy.Spec (renameFactor renameSet HashAlike renameTerm)

variable {F G D K : Type} [DecidableEq F] [DecidableEq G]

/-! ### Dictionaries -/

theorem dictGet_rename {A A' B B' : Type} [DecidableEq A] [DecidableEq A'] {φ : A → A'} (hφ : Function.Injective φ) (g : B → B')
    (d : List (A × B)) (a : A) : dictGet (d.map (Prod.map φ g)) (φ a) = (dictGet d a).map g := by
  induction d with
  | nil => rfl
  | cons p d ih =>
    simp only [dictGet, List.map_cons, List.find?_cons, Prod.map_fst, hφ.eq_iff] at ih ⊢
    by_cases h : p.1 = a
    · simp [h]
    · simp only [h, decide_false, ih]

theorem dictSet_rename {A A' B B' : Type} {eqv : A → A → Bool} {eqv' : A' → A' → Bool} {φ : A → A'}
    (h : ∀ a b, eqv' (φ a) (φ b) = eqv a b) (g : B → B') (d : List (A × B)) (a : A) (b : B) :
    dictSet eqv' (d.map (Prod.map φ g)) (φ a) (g b) = (dictSet eqv d a b).map (Prod.map φ g) := by
  induction d with
  | nil => rfl
  | cons p d ih =>
    obtain ⟨a', b'⟩ := p
    simp only [dictSet, List.map_cons, Prod.map_apply, h, ih]
    split <;> rfl

theorem dictOf_rename {A A' B B' : Type} {eqv : A → A → Bool} {eqv' : A' → A' → Bool} {φ : A → A'}
    (h : ∀ a b, eqv' (φ a) (φ b) = eqv a b) (g : B → B') (l : List (A × B)) :
    dictOf eqv' (l.map (Prod.map φ g)) = (dictOf eqv l).map (Prod.map φ g) := by
  have key : ∀ (l d : List (A × B)), (l.map (Prod.map φ g)).foldl (fun d p => dictSet eqv' d p.1 p.2) (d.map (Prod.map φ g)) =
      (l.foldl (fun d p => dictSet eqv d p.1 p.2) d).map (Prod.map φ g) := by
    intro l
    induction l with
    | nil => intro d; rfl
    | cons p l ih =>
      intro d
      simp only [List.map_cons, List.foldl_cons, Prod.map_fst, Prod.map_snd, dictSet_rename h, ih]
  exact key l []

theorem mapM_rename {A A' B B' : Type} {f : A → Except Err B} {f' : A' → Except Err B'} {φ : A → A'} {g : B → B'} {l : List A}
    (h : ∀ a ∈ l, f' (φ a) = (f a).map g) : (l.map φ).mapM f' = (l.mapM f).map (List.map g) := by
  induction l with
  | nil => rfl
  | cons a l ih =>
    simp only [List.map_cons, List.mapM_cons, h a (by simp), ih fun b hb => h b (by simp [hb])]
    cases f a with
    | error e => rfl
    | ok b => cases l.mapM f <;> rfl

/-! ### Terms and subterms -/

/-- Rename the factors of a subterm. -/
def renameSubterm (φ : F → G) (st : SubtermInfo F K) : SubtermInfo G K :=
  ⟨st.factors.map φ, st.contrasts.map (Prod.map φ id), st.numColumns⟩

/-- Rename the factors in a list of codings. -/
def renameCodings (φ : F → G) (l : List (Term F × List (SubtermInfo F K))) : List (Term G × List (SubtermInfo G K)) :=
  l.map (Prod.map (renameTerm φ) (List.map (renameSubterm φ)))

theorem mem_rename {φ : F → G} (hφ : Function.Injective φ) (l : List F) (f : F) : φ f ∈ l.map φ ↔ f ∈ l := by
  simp [hφ.eq_iff]

theorem eqv_rename {φ : F → G} (hφ : Function.Injective φ) (s t : Term F) :
    Term.eqv (renameTerm φ s) (renameTerm φ t) = Term.eqv s t := by
  simp only [Term.eqv, renameTerm, List.all_map]
  congr 2 <;> funext f <;> simp only [Function.comp, mem_rename hφ]

theorem isNumeric_rename {φ : F → G} {nums : List (F × Nat)} {nums' : List (G × Nat)}
    (hn : ∀ f, dictGet nums' (φ f) = dictGet nums f) (f : F) : isNumeric nums' (φ f) = isNumeric nums f := by
  simp only [isNumeric, hn]

theorem bucketOf_rename {φ : F → G} {nums : List (F × Nat)} {nums' : List (G × Nat)}
    (hn : ∀ f, dictGet nums' (φ f) = dictGet nums f) (t : Term F) :
    bucketOf nums' (renameTerm φ t) = (bucketOf nums t).image φ := by
  ext g
  simp only [bucketOf, renameTerm, List.mem_toFinset, List.mem_filter, List.mem_map, Finset.mem_image]
  constructor
  · rintro ⟨⟨f, hf, rfl⟩, h⟩
    exact ⟨f, ⟨hf, by rwa [isNumeric_rename hn] at h⟩, rfl⟩
  · rintro ⟨f, ⟨hf, h⟩, rfl⟩
    exact ⟨⟨f, hf, rfl⟩, by rwa [isNumeric_rename hn]⟩

theorem buckets_rename {φ : F → G} (hφ : Function.Injective φ) {nums : List (F × Nat)} {nums' : List (G × Nat)}
    (hn : ∀ f, dictGet nums' (φ f) = dictGet nums f) (ts : List (Term F)) :
    buckets nums' (ts.map (renameTerm φ)) = ((buckets nums ts).1.map (Finset.image φ),
      (buckets nums ts).2.map (Prod.map (Finset.image φ) (List.map (renameTerm φ)))) := by
  have hi : Function.Injective (Finset.image φ) := Finset.image_injective hφ
  have key : ∀ (ts : List (Term F)) (s : List (Finset F) × List (Finset F × List (Term F))),
      (ts.map (renameTerm φ)).foldl (bucketStep nums') (s.1.map (Finset.image φ),
          s.2.map (Prod.map (Finset.image φ) (List.map (renameTerm φ)))) =
        ((ts.foldl (bucketStep nums) s).1.map (Finset.image φ),
          (ts.foldl (bucketStep nums) s).2.map (Prod.map (Finset.image φ) (List.map (renameTerm φ)))) := by
    intro ts
    induction ts with
    | nil => intro s; rfl
    | cons t ts ih =>
      intro s
      simp only [List.map_cons, List.foldl_cons]
      rw [← ih]
      congr 1
      simp only [bucketStep, bucketOf_rename hn, dictGet_rename hi, Option.isSome_map]
      refine Prod.ext ?_ ?_
      · simp only
        split <;> simp
      · simp only
        rw [← dictSet_rename (eqv := fun a b => decide (a = b)) (eqv' := fun a b => decide (a = b))
          (fun a b => by simp only [hi.eq_iff])]
        congr 1
        cases dictGet s.2 (bucketOf nums t) <;> simp
  exact key ts ([], [])

theorem sortByDegree_rename (φ : F → G) (ts : List (Term F)) :
    sortByDegree (ts.map (renameTerm φ)) = (sortByDegree ts).map (renameTerm φ) :=
  (List.map_insertionSort _ _ _ _ fun a _ b _ => by simp [renameTerm]).symm

theorem moveEmptyFirst_rename {φ : F → G} (hφ : Function.Injective φ) (order : List (Finset F))
    (bs : List (Finset F × List (Term F))) :
    moveEmptyFirst (order.map (Finset.image φ)) (bs.map (Prod.map (Finset.image φ) (List.map (renameTerm φ)))) =
      (moveEmptyFirst order bs).map (Finset.image φ) := by
  have hi : Function.Injective (Finset.image φ) := Finset.image_injective hφ
  have h := dictGet_rename hi (List.map (renameTerm φ)) bs ∅
  have he := List.map_erase hi order (a := ∅)
  rw [Finset.image_empty] at h he
  simp only [moveEmptyFirst, h, Option.isSome_map]
  split <;> simp [he]

theorem subtermLoop_rename {φ : F → G} (hφ : Function.Injective φ) {nums : List (F × Nat)} {nums' : List (G × Nat)}
    (hn : ∀ f, dictGet nums' (φ f) = dictGet nums f) {coder : F → Bool → Except Err (ContrastMatrix K)}
    {coder' : G → Bool → Except Err (ContrastMatrix K)} (hc : ∀ f b, dictGet nums f = none → coder' (φ f) b = coder f b) (c : Subterm F) (fs : List F) :
    subtermLoop nums' coder' (renameSet φ c) (fs.map φ) =
      (subtermLoop nums coder c fs).map fun r => (r.1.map φ, r.2.1.map (Prod.map φ id), r.2.2) := by
  induction fs with
  | nil => rfl
  | cons f fs ih =>
    simp only [List.map_cons, subtermLoop, hn, codingLookup_rename hφ, ih]
    cases hnum : dictGet nums f with
    | some n => cases subtermLoop nums coder c fs <;> rfl
    | none =>
      cases codingLookup c f with
      | none => rfl
      | some full =>
        simp only [hc f full hnum]
        cases coder f full with
        | error e => rfl
        | ok cm => cases subtermLoop nums coder c fs <;> rfl

theorem subtermMake_rename {φ : F → G} (hφ : Function.Injective φ) (fs : List F) (cs : List (F × ContrastMatrix K)) (n : Nat) :
    SubtermInfo.make (fs.map φ) (cs.map (Prod.map φ id)) n = (SubtermInfo.make fs cs n).map (renameSubterm φ) := by
  simp only [SubtermInfo.make, List.any_map]
  rw [show ((fun p : G × ContrastMatrix K => decide (p.1 ∉ fs.map φ)) ∘ Prod.map φ id) =
    fun p : F × ContrastMatrix K => decide (p.1 ∉ fs) from funext fun p => by simp only [Function.comp, Prod.map_fst, mem_rename hφ]]
  split <;> rfl

theorem makeSubterm_rename {φ : F → G} (hφ : Function.Injective φ) {nums : List (F × Nat)} {nums' : List (G × Nat)}
    (hn : ∀ f, dictGet nums' (φ f) = dictGet nums f) {coder : F → Bool → Except Err (ContrastMatrix K)}
    {coder' : G → Bool → Except Err (ContrastMatrix K)} (hc : ∀ f b, dictGet nums f = none → coder' (φ f) b = coder f b) (t : Term F) (c : Subterm F) :
    makeSubterm nums' coder' (renameTerm φ t) (renameSet φ c) = (makeSubterm nums coder t c).map (renameSubterm φ) := by
  simp only [makeSubterm, renameTerm, subtermLoop_rename hφ hn hc]
  cases subtermLoop nums coder c t.factors with
  | error e => rfl
  | ok r => exact subtermMake_rename hφ _ _ _

theorem codeBucket_rename {H H' : Type} [DecidableEq H] [DecidableEq H'] {φ : F → G} (hφ : Function.Injective φ)
    {hash : Subterm F → H} {hash' : Subterm G → H'} (hh : HashAlike φ hash hash') {nums : List (F × Nat)} {nums' : List (G × Nat)}
    (hn : ∀ f, dictGet nums' (φ f) = dictGet nums f) {coder : F → Bool → Except Err (ContrastMatrix K)}
    {coder' : G → Bool → Except Err (ContrastMatrix K)} (hc : ∀ f b, dictGet nums f = none → coder' (φ f) b = coder f b) (ts : List (Term F)) :
    ∀ used : List (Subterm F), codeBucket hash' nums' coder' (ts.map (renameTerm φ)) (used.map fun s => hash' (renameSet φ s)) =
      (codeBucket hash nums coder ts (used.map hash)).map (renameCodings φ) := by
  induction ts with
  | nil => intro used; rfl
  | cons t ts ih =>
    intro used
    obtain ⟨used', h1, h2⟩ := pickContrasts_rename hφ hh (isNum := isNumeric nums) (isNum' := isNumeric nums') t.factors
      (fun f _ => isNumeric_rename hn f) used
    simp only [List.map_cons, codeBucket]
    rw [show (renameTerm φ t).factors = t.factors.map φ from rfl, h2]
    cases hp : pickContrasts hash (isNumeric nums) t.factors (used.map hash) with
    | error e => rfl
    | ok r =>
      rw [hp] at h1
      have h1 : r = (r.1, used'.map hash) := Except.ok.inj h1
      simp only [bind, Except.bind]
      rw [show (r.1.map (renameSet φ)).mapM (makeSubterm nums' coder' (renameTerm φ t)) =
        (r.1.mapM (makeSubterm nums coder t)).map (List.map (renameSubterm φ)) from
          mapM_rename fun c _ => makeSubterm_rename hφ hn hc t c]
      cases r.1.mapM (makeSubterm nums coder t) with
      | error e => rfl
      | ok sts =>
        simp only [Except.map]
        rw [ih used', congrArg Prod.snd h1]
        cases codeBucket hash nums coder ts (used'.map hash) <;> rfl

theorem sameTerms_rename {φ : F → G} (hφ : Function.Injective φ) : ∀ l m : List (Term F),
    sameTerms (l.map (renameTerm φ)) (m.map (renameTerm φ)) = sameTerms l m
  | [], [] => rfl
  | [], _ :: _ => rfl
  | _ :: _, [] => rfl
  | s :: l, t :: m => by simp only [List.map_cons, sameTerms, eqv_rename hφ, sameTerms_rename hφ l m]

theorem makeSubtermInfos_rename {H H' : Type} [DecidableEq H] [DecidableEq H'] {φ : F → G} (hφ : Function.Injective φ)
    {hash : Subterm F → H} {hash' : Subterm G → H'} (hh : HashAlike φ hash hash') {nums : List (F × Nat)} {nums' : List (G × Nat)}
    (hn : ∀ f, dictGet nums' (φ f) = dictGet nums f) {coder : F → Bool → Except Err (ContrastMatrix K)}
    {coder' : G → Bool → Except Err (ContrastMatrix K)} (hc : ∀ f b, dictGet nums f = none → coder' (φ f) b = coder f b) (ts : List (Term F)) :
    makeSubtermInfos hash' nums' coder' (ts.map (renameTerm φ)) = (makeSubtermInfos hash nums coder ts).map (renameCodings φ) := by
  have hi : Function.Injective (Finset.image φ) := Finset.image_injective hφ
  have hget : ∀ b, sortByDegree ((dictGet ((buckets nums ts).2.map (Prod.map (Finset.image φ) (List.map (renameTerm φ))))
      (Finset.image φ b)).getD []) = (sortByDegree ((dictGet (buckets nums ts).2 b).getD [])).map (renameTerm φ) := by
    intro b
    rw [dictGet_rename hi, ← sortByDegree_rename]
    cases dictGet (buckets nums ts).2 b <;> rfl
  simp only [makeSubtermInfos, buckets_rename hφ hn, moveEmptyFirst_rename hφ]
  rw [mapM_rename (f := fun b => codeBucket hash nums coder (sortByDegree ((dictGet (buckets nums ts).2 b).getD [])) [])
    (g := renameCodings φ) (fun b _ => by
      rw [hget]
      exact codeBucket_rename hφ hh hn hc _ [])]
  have hord : ((moveEmptyFirst (buckets nums ts).1 (buckets nums ts).2).map (Finset.image φ)).flatMap (fun b => sortByDegree
      ((dictGet ((buckets nums ts).2.map (Prod.map (Finset.image φ) (List.map (renameTerm φ)))) b).getD [])) =
      ((moveEmptyFirst (buckets nums ts).1 (buckets nums ts).2).flatMap fun b =>
        sortByDegree ((dictGet (buckets nums ts).2 b).getD [])).map (renameTerm φ) := by
    rw [List.flatMap_map, List.map_flatMap]
    exact List.flatMap_congr fun b _ => hget b
  rw [hord]
  cases (moveEmptyFirst (buckets nums ts).1 (buckets nums ts).2).mapM fun b =>
      codeBucket hash nums coder (sortByDegree ((dictGet (buckets nums ts).2 b).getD [])) [] with
  | error e => rfl
  | ok assigned =>
    simp only [Except.map, bind, Except.bind]
    have h1 : (assigned.map (renameCodings φ)).flatten = assigned.flatten.map (Prod.map (renameTerm φ) (List.map (renameSubterm φ))) := by
      rw [List.map_flatten]; rfl
    rw [h1, dictOf_rename (eqv := Term.eqv) (fun a b => eqv_rename hφ a b)]
    have h2 : ∀ l : List (Term F × List (SubtermInfo F K)), (l.map (Prod.map (renameTerm φ) (List.map (renameSubterm φ)))).map Prod.fst =
        (l.map Prod.fst).map (renameTerm φ) := by intro l; simp
    rw [h2, sameTerms_rename hφ]
    split <;> rfl

end Patsy.Build
