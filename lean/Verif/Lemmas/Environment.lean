import Verif.Spec.Environment
import Verif.Lemmas.Desc

/-! # Lemmas about variable lookup -/

namespace Patsy.Environment

open Patsy.Spec
open Patsy.Desc (bind_ok pure_ok)

variable {V R : Type}

theorem getItem_fuel {h : Heap V} (hv : Valid h) (key : String) (n m a : Nat) (h1 : a < n) (h2 : a < m) :
    getItem h n a key = getItem h m a key := by
  induction n generalizing m a with
  | zero => omega
  | succ n ih =>
    cases m with
    | zero => omega
    | succ m =>
      rw [getItem, getItem]
      cases hc : h[a]? with
      | none => rfl
      | some c =>
        cases c with
        | dict d => rfl
        | vld ds =>
          simp only
          have := hv a ds hc
          clear hc
          induction ds with
          | nil => rfl
          | cons b ds ih2 =>
            rw [List.findSome?_cons, List.findSome?_cons,
              ih m b (by have := this b List.mem_cons_self; omega) (by have := this b List.mem_cons_self; omega),
              ih2 fun c hc => this c (List.mem_cons_of_mem _ hc)]

/-- Lookups only depend on the cells below. -/
theorem getItem_congr {h h' : Heap V} (hv : Valid h) (key : String) (n a : Nat)
    (he : ∀ b, b ≤ a → h[b]? = h'[b]?) : getItem h n a key = getItem h' n a key := by
  induction n generalizing a with
  | zero => rfl
  | succ n ih =>
    rw [getItem, getItem, ← he a (Nat.le_refl a)]
    cases hc : h[a]? with
    | none => rfl
    | some c =>
      cases c with
      | dict d => rfl
      | vld ds =>
        simp only
        have hb := hv a ds hc
        clear hc
        induction ds with
        | nil => rfl
        | cons b ds ih2 =>
          rw [List.findSome?_cons, List.findSome?_cons,
            ih b fun c hc => he c (Nat.le_trans hc (Nat.le_of_lt (hb b List.mem_cons_self))),
            ih2 fun c hc => hb c (List.mem_cons_of_mem _ hc)]

theorem lookup_append {h t : Heap V} (hv : Valid h) {a : Nat} (ha : a < h.length) :
    lookup (h ++ t) a = lookup h a := by
  funext key
  exact (getItem_congr hv key (a + 1) a fun b hb => by rw [List.getElem?_append_left (by omega)]).symm

theorem lookup_dict {h : Heap V} {a : Nat} {d : List (String × V)} (ha : h[a]? = some (.dict d)) (key : String) :
    lookup h a key = d.lookup key := by
  simp [lookup, getItem, ha]

theorem findSome_resolve (ss : List (Scope V)) (key : String) : ss.findSome? (fun s => s key) = resolve ss key := by
  induction ss with
  | nil => rfl
  | cons s ss ih =>
    rw [List.findSome?_cons, resolve, ih]
    cases s key <;> rfl

theorem lookup_vld {h : Heap V} (hv : Valid h) {a : Nat} {ds : List Nat} (ha : h[a]? = some (.vld ds)) (key : String) :
    lookup h a key = resolve (ds.map (lookup h)) key := by
  rw [← findSome_resolve, List.findSome?_map]
  rw [lookup, getItem]
  simp only [ha]
  have hb := hv a ds ha
  clear ha
  induction ds with
  | nil => rfl
  | cons b ds ih =>
    rw [List.findSome?_cons, List.findSome?_cons, ih fun c hc => hb c (List.mem_cons_of_mem _ hc)]
    simp only [Function.comp, lookup]
    rw [getItem_fuel hv key a (b + 1) b (hb b List.mem_cons_self) (Nat.lt_succ_self b)]

/-- The heap while code is running. -/
def frame (h : Heap V) (d : List (String × V)) (ds : List Nat) : Heap V := h ++ [.dict d, .vld (h.length :: ds)]

theorem newVld_eq (h : Heap V) (ds : List Nat) : newVld h ds = (h.length + 1, frame h [] ds) := by
  simp [newVld, newDict, frame]

theorem frame_valid {h : Heap V} (hv : Valid h) (d : List (String × V)) {ds : List Nat}
    (hd : ∀ b ∈ ds, b < h.length) : Valid (frame h d ds) := by
  intro a es ha b hb
  rcases Nat.lt_or_ge a h.length with hl | hl
  · rw [frame, List.getElem?_append_left hl] at ha
    exact hv a es ha b hb
  · rw [frame, List.getElem?_append_right hl] at ha
    obtain ⟨k, rfl⟩ := Nat.exists_eq_add_of_le hl
    simp only [Nat.add_sub_cancel_left] at ha
    match k, ha with
    | 0, ha => simp at ha
    | 1, ha =>
      simp only [List.getElem?_cons_succ, List.getElem?_cons_zero, Option.some.injEq, Cell.vld.injEq] at ha
      subst ha
      rcases List.mem_cons.mp hb with rfl | hb
      · omega
      · have := hd b hb
        omega
    | k + 2, ha => simp at ha

theorem frame_own (h : Heap V) (d : List (String × V)) (ds : List Nat) :
    (frame h d ds)[h.length]? = some (.dict d) := by simp [frame]

theorem frame_top (h : Heap V) (d : List (String × V)) (ds : List Nat) :
    (frame h d ds)[h.length + 1]? = some (.vld (h.length :: ds)) := by
  simp [frame]

theorem lookup_frame {h : Heap V} (hv : Valid h) (d : List (String × V)) {ds : List Nat}
    (hd : ∀ b ∈ ds, b < h.length) (key : String) :
    lookup (frame h d ds) (h.length + 1) key = resolve ((fun k => d.lookup k) :: ds.map (lookup h)) key := by
  rw [lookup_vld (frame_valid hv d hd) (frame_top h d ds), List.map_cons]
  have e1 : lookup (frame h d ds) h.length = fun k => d.lookup k := by
    funext k
    exact lookup_dict (frame_own h d ds) k
  have e2 : ds.map (lookup (frame h d ds)) = ds.map (lookup h) := by
    apply List.map_congr_left
    intro b hb
    exact lookup_append hv (hd b hb)
  rw [e1, e2]

theorem setItem_frame (h : Heap V) (d : List (String × V)) (ds : List Nat) (key : String) (v : V) :
    setItem (frame h d ds) (h.length + 1) key v = frame h ((key, v) :: d.filter fun p => p.1 ≠ key) ds := by
  simp only [setItem, frame_top, setEntry, frame_own]
  simp [frame]

theorem lookup_set (d : List (String × V)) (key : String) (v : V) :
    (fun k => ((key, v) :: d.filter fun p => p.1 ≠ key).lookup k) = assign (fun k => d.lookup k) key v := by
  funext k
  simp only [assign, List.lookup_cons]
  by_cases hk : k = key
  · simp [hk]
  · have hb : (k == key) = false := by simpa using hk
    rw [hb, if_neg hk]
    simp only
    induction d with
    | nil => rfl
    | cons p d ih =>
      by_cases hp : p.1 = key
      · rw [List.filter_cons_of_neg (by simp [hp]), ih]
        obtain ⟨a, b⟩ := p
        have hp : a = key := hp
        rw [List.lookup_cons, hp, hb]
      · rw [List.filter_cons_of_pos (by simp [hp])]
        obtain ⟨a, b⟩ := p
        rw [List.lookup_cons, List.lookup_cons, ih]

theorem resolve_append (ss ts : List (Scope V)) (n : String) :
    resolve (ss ++ ts) n = match resolve ss n with
      | some v => some v
      | none => resolve ts n := by
  induction ss with
  | nil => rfl
  | cons s ss ih =>
    rw [List.cons_append, resolve, resolve]
    cases hs : s n with
    | none => simp only; exact ih
    | some v => rfl

/-- Running code in a new scope. -/
theorem run_frame {h : Heap V} (hv : Valid h) {ds : List Nat} (hd : ∀ b ∈ ds, b < h.length)
    (py : Scope V) (p : Prog V R) (d : List (String × V)) :
    (run py (h.length + 1) (frame h d ds) p).1 = sem py (ds.map (lookup h)) (fun k => d.lookup k) p ∧
      ∃ d', (run py (h.length + 1) (frame h d ds) p).2 = frame h d' ds := by
  induction p generalizing d with
  | done r => exact ⟨rfl, d, rfl⟩
  | fail e => exact ⟨rfl, d, rfl⟩
  | load n k ih =>
    have e : loadName py (frame h d ds) (h.length + 1) n =
        match resolve ((fun k => d.lookup k) :: ds.map (lookup h) ++ [py]) n with
        | some v => .ok v
        | none => .error .nameError := by
      rw [loadName, lookup_frame hv d hd, resolve_append]
      cases resolve ((fun k => d.lookup k) :: ds.map (lookup h)) n with
      | some v => rfl
      | none =>
        simp only [resolve]
        cases py n <;> rfl
    rw [run, sem, e]
    cases resolve ((fun k => d.lookup k) :: ds.map (lookup h) ++ [py]) n with
    | none => exact ⟨rfl, d, rfl⟩
    | some v => exact ih v d
  | store n v k ih =>
    rw [run, sem, setItem_frame, ← lookup_set]
    exact ih _
  | quote n k ih =>
    rw [run, sem, quoteName, lookup_frame hv d hd]
    cases resolve ((fun k => d.lookup k) :: ds.map (lookup h)) n with
    | none => exact ⟨rfl, d, rfl⟩
    | some v => exact ih v d

/-- The value of code only depends on the scopes. -/
theorem sem_congr (P : String → Prop) {py : Scope V} {ss ts : List (Scope V)}
    (he : ∀ n, P n → resolve ss n = resolve ts n) {p : Prog V R} (hp : Uses P p) (own : Scope V) :
    sem py ss own p = sem py ts own p := by
  induction p generalizing own with
  | done r => rfl
  | fail e => rfl
  | load n k ih =>
    have e : resolve (own :: ss ++ [py]) n = resolve (own :: ts ++ [py]) n := by
      rw [resolve_append, resolve_append]
      have e : resolve (own :: ss) n = resolve (own :: ts) n := by rw [resolve, resolve, he n hp.1]
      rw [e]
    rw [sem, sem, e]
    cases resolve (own :: ts ++ [py]) n with
    | none => rfl
    | some v => exact ih v (hp.2 v) own
  | store n v k ih => exact ih hp.2 _
  | quote n k ih =>
    have e : resolve (own :: ss) n = resolve (own :: ts) n := by
      rw [resolve, resolve, he n hp.1]
    rw [sem, sem, e]
    cases resolve (own :: ts) n with
    | none => rfl
    | some v => exact ih v (hp.2 v) own

theorem pick_ok {h : Heap V} {a : Nat} (names : List String) (hn : ∀ n ∈ names, (lookup h a n).isSome = true) :
    ∃ l, pick h a names = .ok l ∧ ∀ n, l.lookup n = if n ∈ names then lookup h a n else none := by
  induction names with
  | nil => exact ⟨[], rfl, by simp⟩
  | cons m names ih =>
    obtain ⟨l, h1, h2⟩ := ih fun n hn' => hn n (List.mem_cons_of_mem _ hn')
    obtain ⟨v, hv⟩ := Option.isSome_iff_exists.mp (hn m List.mem_cons_self)
    refine ⟨(m, v) :: l, by simp [pick, hv, h1, bind, Except.bind, pure, Except.pure], fun n => ?_⟩
    rw [List.lookup_cons]
    by_cases hm : n = m
    · simp [hm, hv]
    · have hb : (n == m) = false := by simpa using hm
      rw [hb]
      simp [h2, hm]

end Patsy.Environment
