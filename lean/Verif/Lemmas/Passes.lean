import Verif.Spec.Transforms
import Verif.Lemmas.Desc
import Mathlib.Data.List.Nodup
import Mathlib.Logic.Function.Basic

/-!
# Memorisation in passes, with numbers instead of names

Cells `k` with states `σ k` are brought up to date pass by pass.  What a cell needs from the others is of lower level.
-/

namespace Patsy.Passes

open Patsy.EvalFactor Patsy.Spec

variable {D V A S : Type}

theorem bind_eq_ok {B C : Type} {x : Except Err B} {f : B → Except Err C} {c : C} :
    (x >>= f) = .ok c ↔ ∃ b, x = .ok b ∧ f b = .ok c := by
  cases x with
  | error e =>
    constructor
    · intro h; cases h
    · rintro ⟨_, h, _⟩; cases h
  | ok b =>
    constructor
    · intro h; exact ⟨b, rfl, h⟩
    · rintro ⟨_, h, h'⟩; cases h; exact h'

theorem pure_eq_ok {B : Type} {b c : B} : (pure b : Except Err B) = .ok c ↔ b = c :=
  ⟨fun h => by cases h; rfl, fun h => by rw [h]; rfl⟩

/-- Going through a list of cells, changing each. -/
def each (g : Nat → (Nat → S) → Except Err S) (l : List Nat) (σ : Nat → S) : Except Err (Nat → S) :=
  l.foldlM (fun σ k => do
    let s ← g k σ
    pure (Function.update σ k s)) σ

/-- Cells that do not need each other can be changed in any order. -/
theorem each_iff {g : Nat → (Nat → S) → Except Err S} {l : List Nat} (hl : l.Nodup)
    (hdep : ∀ k ∈ l, ∀ σ τ : Nat → S, (∀ m, m ∉ l ∨ m = k → σ m = τ m) → g k σ = g k τ) (σ σ' : Nat → S) :
    each g l σ = .ok σ' ↔ (∀ k ∈ l, g k σ = .ok (σ' k)) ∧ ∀ k, k ∉ l → σ' k = σ k := by
  suffices h : ∀ (l' : List Nat) (σ : Nat → S), l'.Nodup → (∀ k ∈ l', k ∈ l) → (each g l' σ = .ok σ' ↔
      (∀ k ∈ l', g k σ = .ok (σ' k)) ∧ ∀ k, k ∉ l' → σ' k = σ k) from h l σ hl fun _ h => h
  intro l'
  induction l' with
  | nil =>
    intro σ _ _
    simp only [each, List.foldlM_nil, pure_eq_ok]
    exact ⟨fun h => ⟨by simp, fun k _ => by rw [h]⟩, fun h => funext fun k => (h.2 k (by simp)).symm⟩
  | cons a l' ih =>
    intro σ hn hsub
    obtain ⟨ha, hn'⟩ := List.nodup_cons.mp hn
    have hind : ∀ s, ∀ k ∈ l', g k (Function.update σ a s) = g k σ := by
      intro s k hk
      have hka : k ≠ a := fun h => ha (h ▸ hk)
      apply hdep k (hsub k (List.mem_cons_of_mem _ hk))
      rintro m (hm | rfl)
      · exact Function.update_of_ne (fun h => hm (by rw [h]; exact hsub a List.mem_cons_self)) _ _
      · exact Function.update_of_ne hka _ _
    have hstep : each g (a :: l') σ = (do
      let s ← g a σ
      each g l' (Function.update σ a s)) := by
      simp only [each, List.foldlM_cons, bind_assoc, pure_bind]
    rw [hstep, bind_eq_ok]
    constructor
    · rintro ⟨s, h1, h2⟩
      obtain ⟨h3, h4⟩ := (ih _ hn' fun k hk => hsub k (List.mem_cons_of_mem _ hk)).mp h2
      have hs : σ' a = s := by rw [h4 a ha, Function.update_self]
      refine ⟨?_, ?_⟩
      · intro k hk
        rcases List.mem_cons.mp hk with rfl | hk
        · rw [h1, hs]
        · rw [← hind s k hk, h3 k hk]
      · intro k hk
        rw [List.mem_cons, not_or] at hk
        rw [h4 k hk.2, Function.update_of_ne hk.1]
    · rintro ⟨h1, h2⟩
      refine ⟨σ' a, h1 a List.mem_cons_self, (ih _ hn' fun k hk => hsub k (List.mem_cons_of_mem _ hk)).mpr ⟨?_, ?_⟩⟩
      · intro k hk
        rw [hind _ k hk, h1 k (List.mem_cons_of_mem _ hk)]
      · intro k hk
        by_cases hka : k = a
        · rw [hka, Function.update_self]
        · rw [Function.update_of_ne hka]
          exact h2 k (by simp [hka, hk])

/-! ### One pass -/

/-- One cell on one chunk. -/
def chunkCell (args : Nat → (Nat → S) → D → Except Err A) (cls : Nat → Class S A V) (d : D) (k : Nat) (σ : Nat → S) :
    Except Err S := do
  let a ← args k σ d
  (cls k).chunk (σ k) a

/-- One pass over the data for the cells `l`. -/
def onePassRun (args : Nat → (Nat → S) → D → Except Err A) (cls : Nat → Class S A V) (chunks : List D) (l : List Nat)
    (σ : Nat → S) : Except Err (Nat → S) := do
  let σ ← chunks.foldlM (fun σ d => each (chunkCell args cls d) l σ) σ
  each (fun k σ => (cls k).finish (σ k)) l σ

/-- What a cell remembers of the data. -/
def learn (args : Nat → (Nat → S) → D → Except Err A) (cls : Nat → Class S A V) (chunks : List D) (k : Nat) (σ : Nat → S)
    (start : S) : Except Err S := do
  let as ← chunks.mapM (args k σ)
  let s ← as.foldlM (cls k).chunk start
  (cls k).finish s

theorem mapM_foldlM {B : Type} (f : D → Except Err A) (g : S → A → Except Err S) (h : S → Except Err B) (chunks : List D)
    (s : S) (b : B) : (do
      let as ← chunks.mapM f
      let s ← as.foldlM g s
      h s) = .ok b ↔ (do
      let s ← chunks.foldlM (fun s d => do
        let a ← f d
        g s a) s
      h s) = .ok b := by
  induction chunks generalizing s with
  | nil => simp
  | cons d ds ih =>
    simp only [List.mapM_cons, List.foldlM_cons, bind_assoc, pure_bind, bind_eq_ok] at ih ⊢
    constructor
    · rintro ⟨a, ha, as, has, s1, hs1, s2, hs2, hb⟩
      obtain ⟨s3, hs3, h3⟩ := (ih s1).mp ⟨as, has, s2, hs2, hb⟩
      exact ⟨a, ha, s1, hs1, s3, hs3, h3⟩
    · rintro ⟨a, ha, s1, hs1, s3, hs3, h3⟩
      obtain ⟨as, has, s2, hs2, hb⟩ := (ih s1).mpr ⟨s3, hs3, h3⟩
      exact ⟨a, ha, as, has, s1, hs1, s2, hs2, hb⟩

section

variable {args : Nat → (Nat → S) → D → Except Err A} {cls : Nat → Class S A V} {l : List Nat}

theorem chunks_iff (hl : l.Nodup)
    (hdep : ∀ k ∈ l, ∀ (σ τ : Nat → S) d, (∀ m, m ∉ l → σ m = τ m) → args k σ d = args k τ d)
    (chunks : List D) (σ σ' : Nat → S) :
    chunks.foldlM (fun σ d => each (chunkCell args cls d) l σ) σ = .ok σ' ↔
      (∀ k ∈ l, chunks.foldlM (fun s d => do
        let a ← args k σ d
        (cls k).chunk s a) (σ k) = .ok (σ' k)) ∧ ∀ k, k ∉ l → σ' k = σ k := by
  induction chunks generalizing σ with
  | nil =>
    simp only [List.foldlM_nil, pure_eq_ok]
    refine ⟨fun h => ⟨fun k _ => by rw [h], fun k _ => by rw [h]⟩, fun h => funext fun k => ?_⟩
    by_cases hk : k ∈ l
    · exact h.1 k hk
    · exact (h.2 k hk).symm
  | cons d ds ih =>
    have hd : ∀ k ∈ l, ∀ σ τ : Nat → S, (∀ m, m ∉ l ∨ m = k → σ m = τ m) →
        chunkCell args cls d k σ = chunkCell args cls d k τ := by
      intro k hk σ τ h
      rw [chunkCell, chunkCell, hdep k hk σ τ d fun m hm => h m (.inl hm), h k (.inr rfl)]
    simp only [List.foldlM_cons, bind_eq_ok]
    constructor
    · rintro ⟨σ1, h1, h2⟩
      obtain ⟨h3, h4⟩ := (each_iff hl hd _ _).mp h1
      obtain ⟨h5, h6⟩ := (ih σ1).mp h2
      refine ⟨fun k hk => ?_, fun k hk => by rw [h6 k hk, h4 k hk]⟩
      have h7 := h3 k hk
      have h8 := h5 k hk
      rw [chunkCell] at h7
      refine ⟨σ1 k, bind_eq_ok.mp h7, ?_⟩
      rw [← h8]
      congr 1
      funext s d'
      rw [hdep k hk σ σ1 d' fun m hm => (h4 m hm).symm]
    · rintro ⟨h1, h2⟩
      have hex : ∀ k, ∃ s, (k ∈ l → (args k σ d >>= fun a => (cls k).chunk (σ k) a) = .ok s ∧
          ds.foldlM (fun s d => do
            let a ← args k σ d
            (cls k).chunk s a) s = .ok (σ' k)) ∧ (k ∉ l → s = σ k) := by
        intro k
        by_cases hk : k ∈ l
        · obtain ⟨s, h3, h4⟩ := h1 k hk
          exact ⟨s, fun _ => ⟨bind_eq_ok.mpr h3, h4⟩, fun h => absurd hk h⟩
        · exact ⟨σ k, fun h => absurd h hk, fun _ => rfl⟩
      choose σ1 hs using hex
      refine ⟨σ1, (each_iff hl hd _ _).mpr ⟨fun k hk => ((hs k).1 hk).1, fun k hk => (hs k).2 hk⟩,
        (ih σ1).mpr ⟨fun k hk => ?_, fun k hk => by rw [h2 k hk, (hs k).2 hk]⟩⟩
      rw [← ((hs k).1 hk).2]
      congr 1
      funext s d'
      rw [hdep k hk σ1 σ d' fun m hm => (hs m).2 hm]

theorem onePassRun_iff (hl : l.Nodup)
    (hdep : ∀ k ∈ l, ∀ (σ τ : Nat → S) d, (∀ m, m ∉ l → σ m = τ m) → args k σ d = args k τ d)
    (chunks : List D) (σ σ' : Nat → S) :
    onePassRun args cls chunks l σ = .ok σ' ↔
      (∀ k ∈ l, learn args cls chunks k σ (σ k) = .ok (σ' k)) ∧ ∀ k, k ∉ l → σ' k = σ k := by
  have hf : ∀ k ∈ l, ∀ σ τ : Nat → S, (∀ m, m ∉ l ∨ m = k → σ m = τ m) → (cls k).finish (σ k) = (cls k).finish (τ k) := by
    intro k _ σ τ h
    rw [h k (.inr rfl)]
  rw [onePassRun, bind_eq_ok]
  constructor
  · rintro ⟨σ1, h1, h2⟩
    obtain ⟨h3, h4⟩ := (chunks_iff hl hdep chunks _ _).mp h1
    obtain ⟨h5, h6⟩ := (each_iff hl hf _ _).mp h2
    refine ⟨fun k hk => ?_, fun k hk => by rw [h6 k hk, h4 k hk]⟩
    rw [learn, mapM_foldlM]
    exact bind_eq_ok.mpr ⟨_, h3 k hk, h5 k hk⟩
  · rintro ⟨h1, h2⟩
    have hex : ∀ k, ∃ s, (k ∈ l → chunks.foldlM (fun s d => do
            let a ← args k σ d
            (cls k).chunk s a) (σ k) = .ok s ∧ (cls k).finish s = .ok (σ' k)) ∧ (k ∉ l → s = σ k) := by
      intro k
      by_cases hk : k ∈ l
      · have := h1 k hk
        rw [learn, mapM_foldlM] at this
        obtain ⟨s, h3, h4⟩ := bind_eq_ok.mp this
        exact ⟨s, fun _ => ⟨h3, h4⟩, fun h => absurd hk h⟩
      · exact ⟨σ k, fun h => absurd h hk, fun _ => rfl⟩
    choose σ1 hs using hex
    refine ⟨σ1, (chunks_iff hl hdep chunks _ _).mpr ⟨fun k hk => ((hs k).1 hk).1, fun k hk => (hs k).2 hk⟩,
      (each_iff hl hf _ _).mpr ⟨fun k hk => ((hs k).1 hk).2, fun k hk => by rw [h2 k hk, (hs k).2 hk]⟩⟩

end

/-! ### All passes -/

theorem passes_iff {args : Nat → (Nat → S) → D → Except Err A} {cls : Nat → Class S A V} {level : Nat → Nat} {n : Nat}
    (hdep : ∀ k < n, ∀ (σ τ : Nat → S) d, (∀ m, m < n → level m < level k → σ m = τ m) → args k σ d = args k τ d)
    (bins : Nat → List Nat) (hbins : ∀ p, (bins p).Nodup ∧ ∀ k, k ∈ bins p ↔ k < n ∧ level k = p)
    (chunks : List D) (σ0 : Nat → S) : ∀ (M : Nat) (σ : Nat → S),
    (List.range M).foldlM (fun σ p => onePassRun args cls chunks (bins p) σ) σ0 = .ok σ ↔
      (∀ k < n, level k < M → learn args cls chunks k σ (σ0 k) = .ok (σ k)) ∧
        ∀ k, (k < n → M ≤ level k) → σ k = σ0 k := by
  have hd : ∀ p, ∀ k ∈ bins p, ∀ (σ τ : Nat → S) d, (∀ m, m ∉ bins p → σ m = τ m) → args k σ d = args k τ d := by
    intro p k hk σ τ d h
    obtain ⟨hkn, hkp⟩ := ((hbins p).2 k).mp hk
    apply hdep k hkn
    intro m hm hlt
    apply h
    rw [(hbins p).2 m]
    omega
  have hlearn : ∀ k < n, ∀ (σ τ : Nat → S) s, (∀ m, m < n → level m < level k → σ m = τ m) →
      learn args cls chunks k σ s = learn args cls chunks k τ s := by
    intro k hk σ τ s h
    have : args k σ = args k τ := funext fun d => hdep k hk σ τ d h
    rw [learn, learn, this]
  intro M
  induction M with
  | zero =>
    intro σ
    simp only [List.range_zero, List.foldlM_nil, pure_eq_ok, Nat.not_lt_zero, false_implies, implies_true, true_and,
      Nat.zero_le, true_implies]
    exact ⟨fun h k => by rw [h], fun h => funext fun k => (h k).symm⟩
  | succ M ih =>
    intro σ
    rw [List.range_succ, List.foldlM_append, bind_eq_ok]
    simp only [List.foldlM_cons, List.foldlM_nil, bind_pure]
    constructor
    · rintro ⟨σ1, h1, h2⟩
      obtain ⟨h3, h4⟩ := (ih σ1).mp h1
      obtain ⟨h5, h6⟩ := (onePassRun_iff (hbins M).1 (hd M) chunks _ _).mp h2
      have hsame : ∀ k < n, level k ≤ M → ∀ m, m < n → level m < level k → σ1 m = σ m := by
        intro k hk hkM m hm hlt
        refine (h6 m ?_).symm
        rw [(hbins M).2 m]
        omega
      refine ⟨fun k hk hkM => ?_, fun k hk => ?_⟩
      · rw [← hlearn k hk σ1 σ _ (hsame k hk (by omega))]
        by_cases hlt : level k < M
        · rw [h3 k hk hlt, h6 k (by rw [(hbins M).2 k]; omega)]
        · have hk' : k ∈ bins M := ((hbins M).2 k).mpr ⟨hk, by omega⟩
          rw [← h5 k hk', h4 k (fun _ => by omega)]
      · rw [h6 k (by rw [(hbins M).2 k]; rintro ⟨hkn, h⟩; have := hk hkn; omega), h4 k (fun h => by have := hk h; omega)]
    · rintro ⟨h1, h2⟩
      let σ1 : Nat → S := fun k => if k < n ∧ level k < M then σ k else σ0 k
      have hsame : ∀ k < n, level k ≤ M → ∀ m, m < n → level m < level k → σ1 m = σ m := by
        intro k hk hkM m hm hlt
        simp only [σ1]
        rw [if_pos ⟨hm, by omega⟩]
      refine ⟨σ1, (ih σ1).mpr ⟨fun k hk hlt => ?_, fun k hk => ?_⟩,
        (onePassRun_iff (hbins M).1 (hd M) chunks _ _).mpr ⟨fun k hk => ?_, fun k hk => ?_⟩⟩
      · rw [hlearn k hk σ1 σ _ (hsame k hk (by omega)), h1 k hk (by omega)]
        simp only [σ1]
        rw [if_pos ⟨hk, hlt⟩]
      · simp only [σ1]
        rw [if_neg]
        rintro ⟨h3, h4⟩
        have := hk h3
        omega
      · obtain ⟨hkn, hkM⟩ := ((hbins M).2 k).mp hk
        have h3 : σ1 k = σ0 k := by
          simp only [σ1]
          rw [if_neg (by omega)]
        rw [hlearn k hkn σ1 σ _ (hsame k hkn (by omega)), h3, h1 k hkn (by omega)]
      · rw [(hbins M).2 k] at hk
        simp only [σ1]
        split
        · rfl
        · rename_i h
          exact h2 k fun hkn => by omega

end Patsy.Passes
