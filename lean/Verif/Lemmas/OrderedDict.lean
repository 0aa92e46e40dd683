import Verif.Spec.OrderedDict
import Mathlib.Data.List.Nodup
import Mathlib.Data.List.Basic
import Mathlib.Data.List.Perm.Subperm

/-! # The linked list and the list of pairs -/

set_option linter.unusedSectionVars false

namespace Patsy.ODict

variable {K V : Type} [DecidableEq K]

/-- From `x` the links lead through `l` to `y`. -/
def Seg (f : Nat → Nat) : Nat → List Nat → Nat → Prop
  | x, [], y => f x = y
  | x, a :: l, y => f x = a ∧ Seg f a l y

theorem write_self {A : Type} (f : Nat → A) (a : Nat) (x : A) : write f a x a = x := by simp [write]

theorem write_ne {A : Type} (f : Nat → A) {a b : Nat} (x : A) (h : b ≠ a) : write f a x b = f b := by simp [write, h]

theorem seg_write {f : Nat → Nat} {c z : Nat} : ∀ {l : List Nat} {x y : Nat}, c ∉ x :: l → Seg f x l y →
    Seg (write f c z) x l y := by
  intro l
  induction l with
  | nil =>
    intro x y hc h
    rw [List.mem_singleton] at hc
    simp only [Seg] at h ⊢
    rw [write_ne _ _ (fun e => hc e.symm), h]
  | cons a l ih =>
    intro x y hc h
    simp only [List.mem_cons, not_or] at hc
    refine ⟨?_, ih (by simp [hc.2.1, hc.2.2]) h.2⟩
    rw [write_ne _ _ (fun e => hc.1 e.symm), h.1]

theorem seg_append {f : Nat → Nat} {b : Nat} {m : List Nat} : ∀ {l : List Nat} {x y : Nat},
    Seg f x (l ++ b :: m) y ↔ Seg f x l b ∧ Seg f b m y := by
  intro l
  induction l with
  | nil => intro x y; rfl
  | cons a l ih => intro x y; simp only [List.cons_append, Seg, ih, and_assoc]

theorem seg_head {f : Nat → Nat} {l : List Nat} {x y : Nat} (h : Seg f x l y) : f x = (l ++ [y]).head (by simp) := by
  cases l with
  | nil => exact h
  | cons a l => exact h.1

/-- The start of a segment can be moved. -/
theorem seg_start {f g : Nat → Nat} {l : List Nat} {x x' y : Nat} (hx : g x' = f x) (hg : ∀ a ∈ l, g a = f a)
    (h : Seg f x l y) : Seg g x' l y := by
  induction l generalizing x x' with
  | nil => exact hx.trans h
  | cons a l ih => exact ⟨hx.trans h.1, ih (hg a (by simp)) (fun b hb => hg b (by simp [hb])) h.2⟩

/-- A new node at the end. -/
theorem seg_snoc {f : Nat → Nat} {a y : Nat} : ∀ {l : List Nat} {x : Nat}, (x :: l).Nodup → a ∉ x :: l → Seg f x l y →
    Seg (write (write f a y) ((x :: l).getLast (by simp)) a) x (l ++ [a]) y := by
  intro l
  induction l with
  | nil =>
    intro x _ ha h
    rw [List.mem_singleton] at ha
    refine ⟨write_self _ _ _, ?_⟩
    show write _ _ _ a = y
    rw [List.getLast_singleton, write_ne _ _ ha, write_self]
  | cons b l ih =>
    intro x hn ha h
    have hl : x ∉ b :: l := (List.nodup_cons.mp hn).1
    have hne : x ≠ (b :: l).getLast (by simp) := by
      intro e
      exact hl (e ▸ List.getLast_mem _)
    simp only [List.mem_cons, not_or] at ha
    refine ⟨?_, ?_⟩
    · rw [List.getLast_cons (by simp), write_ne _ _ hne, write_ne _ _ (fun e => ha.1 e.symm), h.1]
    · simp only [List.getLast_cons (List.cons_ne_nil b l)]
      exact ih (List.nodup_cons.mp hn).2 (by simp [ha.2.1, ha.2.2]) h.2

/-- A node is taken out. -/
theorem seg_relink {f : Nat → Nat} {a y : Nat} {m : List Nat} : ∀ {l : List Nat} {x : Nat}, (x :: (l ++ a :: m)).Nodup →
    Seg f x (l ++ a :: m) y → Seg (write f ((x :: l).getLast (by simp)) (f a)) x (l ++ m) y := by
  intro l
  induction l with
  | nil =>
    intro x hn h
    simp only [List.nil_append] at hn h ⊢
    rw [List.getLast_singleton]
    refine seg_start (write_self _ _ _) ?_ h.2
    intro b hb
    refine write_ne _ _ ?_
    rintro rfl
    exact (List.nodup_cons.mp hn).1 (by simp [hb])
  | cons b l ih =>
    intro x hn h
    have hl : x ∉ b :: (l ++ a :: m) := (List.nodup_cons.mp hn).1
    have hne : x ≠ (b :: l).getLast (by simp) := by
      intro e
      have := List.getLast_mem (List.cons_ne_nil b l)
      rw [← e] at this
      simp only [List.mem_cons, List.mem_append] at this hl
      tauto
    refine ⟨?_, ?_⟩
    · rw [List.getLast_cons (by simp), write_ne _ _ hne, h.1]
    · simp only [List.getLast_cons (List.cons_ne_nil b l)]
      exact ih (List.nodup_cons.mp hn).2 h.2

theorem walk_seg {key : Nat → Option K} {f : Nat → Nat} : ∀ {l : List Nat} {x fuel : Nat}, 0 ∉ l → l.length < fuel →
    Seg f x l 0 → walk key f (f x) fuel = some (l.map key) := by
  intro l
  induction l with
  | nil =>
    intro x fuel _ hf h
    obtain ⟨k, rfl⟩ : ∃ k, fuel = k + 1 := ⟨fuel - 1, by simp at hf; omega⟩
    simp only [Seg] at h
    simp [walk, h]
  | cons a l ih =>
    intro x fuel h0 hf h
    obtain ⟨k, rfl⟩ : ∃ k, fuel = k + 1 := ⟨fuel - 1, by simp at hf; omega⟩
    simp only [List.mem_cons, not_or] at h0
    rw [h.1, walk, if_neg (fun e => h0.1 e.symm), ih h0.2 (by simpa using hf) h.2]
    rfl

/-! ### The plain dictionary -/

theorem dictHas_iff {d : List (K × V)} {k : K} : dictHas d k = true ↔ k ∈ d.map Prod.fst := by
  simp [dictHas]

theorem dictHas_false {d : List (K × V)} {k : K} : dictHas d k = false ↔ k ∉ d.map Prod.fst := by
  rw [← dictHas_iff, Bool.not_eq_true]

theorem dictGetItem_eq (d : List (K × V)) (k : K) : dictGetItem d k = match Spec.Ordered.lookup d k with
    | some v => .ok v
    | none => .error .keyError := by
  unfold dictGetItem Spec.Ordered.lookup
  cases d.find? fun p => p.1 = k <;> rfl

theorem lookup_isSome {d : List (K × V)} {k : K} : (∃ v, Spec.Ordered.lookup d k = some v) ↔ k ∈ d.map Prod.fst := by
  rw [Spec.Ordered.lookup]
  cases h : d.find? fun p => p.1 = k with
  | none =>
    simp only [List.find?_eq_none, decide_eq_true_eq] at h
    simp only [Option.map_none, reduceCtorEq, exists_false, false_iff, List.mem_map, not_exists, not_and]
    exact fun p hp => h p hp
  | some p =>
    have h1 := List.find?_some h
    have h2 := List.mem_of_find?_eq_some h
    simp only [decide_eq_true_eq] at h1
    simp only [Option.map_some, Option.some.injEq, exists_eq', true_iff]
    exact List.mem_map.mpr ⟨p, h2, h1⟩

theorem dictSetItem_eq (d : List (K × V)) (k : K) (v : V) : dictSetItem d k v = Spec.Ordered.set d k v := by
  unfold dictSetItem Spec.Ordered.set
  by_cases h : k ∈ d.map Prod.fst
  · rw [if_pos (dictHas_iff.mpr h), if_pos h]
    refine List.map_congr_left fun p _ => ?_
    by_cases hp : p.1 = k
    · rw [if_pos hp, if_pos hp, hp]
    · rw [if_neg hp, if_neg hp]
  · rw [if_neg (by rw [dictHas_iff]; exact h), if_neg h]

theorem dictSetItem_new {d : List (K × V)} {k : K} (h : k ∉ d.map Prod.fst) (v : V) :
    dictSetItem d k v = d ++ [(k, v)] := by
  rw [dictSetItem_eq, Spec.Ordered.set, if_neg h]

theorem filter_split {A : Type} {l1 l2 : List (K × A)} {k : K} {v : A} (h1 : k ∉ l1.map Prod.fst)
    (h2 : k ∉ l2.map Prod.fst) : (l1 ++ (k, v) :: l2).filter (fun p => p.1 ≠ k) = l1 ++ l2 := by
  have key : ∀ l : List (K × A), k ∉ l.map Prod.fst → l.filter (fun p => p.1 ≠ k) = l := by
    intro l h
    rw [List.filter_eq_self]
    intro p hp
    simp only [ne_eq, decide_not, Bool.not_eq_eq_eq_not, Bool.not_true, decide_eq_false_iff_not]
    rintro rfl
    exact h (List.mem_map.mpr ⟨p, hp, rfl⟩)
  rw [List.filter_append, List.filter_cons_of_neg (by simp), key _ h1, key _ h2]

theorem find_split {A : Type} {l1 l2 : List (K × A)} {k : K} {v : A} (h1 : k ∉ l1.map Prod.fst) :
    (l1 ++ (k, v) :: l2).find? (fun p => p.1 = k) = some (k, v) := by
  have : l1.find? (fun p => p.1 = k) = none := by
    simp only [List.find?_eq_none, decide_eq_true_eq]
    rintro p hp rfl
    exact h1 (List.mem_map.mpr ⟨p, hp, rfl⟩)
  rw [List.find?_append, this, Option.none_or]
  simp

theorem dictDelItem_split {A : Type} {l1 l2 : List (K × A)} {k : K} {v : A} (h1 : k ∉ l1.map Prod.fst)
    (h2 : k ∉ l2.map Prod.fst) : dictDelItem (l1 ++ (k, v) :: l2) k = .ok (l1 ++ l2) := by
  unfold dictDelItem
  rw [if_pos (dictHas_iff.mpr (by simp)), filter_split h1 h2]

theorem dictGetItem_split {A : Type} {l1 l2 : List (K × A)} {k : K} {v : A} (h1 : k ∉ l1.map Prod.fst) :
    dictGetItem (l1 ++ (k, v) :: l2) k = .ok v := by
  unfold dictGetItem
  rw [find_split h1]

/-! ### The representation -/

/-- The dictionary `o` has the pairs `l`, in this order; their nodes are at the addresses `as`. -/
structure Represents (o : Od K V) (l : List (K × V)) (as : List Nat) : Prop where
  nodup : (0 :: as).Nodup
  fresh : ∀ a ∈ 0 :: as, a < o.fresh
  next : Seg o.next 0 as 0
  prev : Seg o.prev 0 as.reverse 0
  keys : as.map o.key = l.map fun p => some p.1
  distinct : (l.map Prod.fst).Nodup
  dict : o.dict = l
  map : o.map = (l.map Prod.fst).zip as

theorem Represents.length {o : Od K V} {l : List (K × V)} {as : List Nat} (h : Represents o l as) :
    l.length = as.length := by
  simpa using (congrArg List.length h.keys).symm

theorem represents_empty : Represents (empty : Od K V) [] [] :=
  ⟨by simp, by simp [empty], rfl, rfl, rfl, by simp, rfl, rfl⟩

theorem Represents.bound {o : Od K V} {l : List (K × V)} {as : List Nat} (h : Represents o l as) :
    as.length < o.fresh + 1 := by
  have hs : (0 :: as) ⊆ List.range o.fresh := fun a ha => List.mem_range.mpr (h.fresh a ha)
  have := (List.subperm_of_subset h.nodup hs).length_le
  simp at this
  omega

theorem Represents.iter {o : Od K V} {l : List (K × V)} {as : List Nat} (h : Represents o l as) :
    iter o = some (l.map fun p => some p.1) := by
  unfold ODict.iter
  rw [walk_seg (List.nodup_cons.mp h.nodup).1 h.bound h.next, h.keys]

theorem Represents.reversed {o : Od K V} {l : List (K × V)} {as : List Nat} (h : Represents o l as) :
    reversed o = some (l.reverse.map fun p => some p.1) := by
  unfold ODict.reversed
  rw [walk_seg (by simpa using (List.nodup_cons.mp h.nodup).1) (by simpa using h.bound) h.prev, List.map_reverse, h.keys,
    List.map_reverse]

theorem lookups_sublist {o : Od K V} : ∀ {l : List (K × V)}, (∀ p ∈ l, Spec.Ordered.lookup o.dict p.1 = some p.2) →
    lookups o (l.map fun p => some p.1) = .ok (l.map fun p => (some p.1, p.2)) := by
  intro l
  induction l with
  | nil => intro _; rfl
  | cons p l ih =>
    intro h
    simp only [List.map_cons, lookups, dictGetItem_eq, h p (by simp), ih fun q hq => h q (by simp [hq])]
    rfl

theorem lookup_of_mem {l : List (K × V)} (hn : (l.map Prod.fst).Nodup) {p : K × V} (hp : p ∈ l) :
    Spec.Ordered.lookup l p.1 = some p.2 := by
  obtain ⟨l1, l2, rfl⟩ := List.append_of_mem hp
  rw [Spec.Ordered.lookup, find_split]
  · rfl
  · intro hm
    rw [List.map_append, List.nodup_append] at hn
    exact hn.2.2 _ hm _ (by simp) rfl

theorem Represents.items {o : Od K V} {l : List (K × V)} {as : List Nat} (h : Represents o l as) :
    items o = some (.ok (l.map fun p => (some p.1, p.2))) := by
  unfold ODict.items
  rw [h.iter]
  simp only [Option.map_some]
  rw [lookups_sublist]
  intro p hp
  rw [h.dict]
  exact lookup_of_mem h.distinct hp

theorem getLast_of_rev {as : List Nat} {f : Nat → Nat} (h : Seg f 0 as.reverse 0) :
    f 0 = (0 :: as).getLast (by simp) := by
  rw [seg_head h]
  simp only [List.getLast_eq_head_reverse, List.reverse_cons]

/-- Setting a new key. -/
theorem Represents.push {o : Od K V} {l : List (K × V)} {as : List Nat} (h : Represents o l as) {k : K}
    (hk : k ∉ l.map Prod.fst) (v : V) : Represents (setItem o k v) (l ++ [(k, v)]) (as ++ [o.fresh]) := by
  have hd : dictHas o.dict k = false := by rw [h.dict]; exact dictHas_false.mpr hk
  have hfresh : o.fresh ∉ 0 :: as := fun hm => Nat.lt_irrefl _ (h.fresh _ hm)
  have hlen := h.length
  have hlast := getLast_of_rev h.prev
  have h0 : (0 : Nat) ≠ o.fresh := fun e => hfresh (by simp [e])
  constructor
  · have hn := h.nodup
    rw [← List.cons_append, List.nodup_append]
    refine ⟨hn, by simp, ?_⟩
    intro a ha b hb
    simp only [List.mem_singleton] at hb
    rintro rfl
    exact hfresh (hb ▸ ha)
  · intro a ha
    simp only [setItem, hd, Bool.false_eq_true, if_false]
    rw [← List.cons_append, List.mem_append, List.mem_singleton] at ha
    rcases ha with ha | rfl
    · have := h.fresh a ha
      omega
    · omega
  · simp only [setItem, hd, Bool.false_eq_true, if_false]
    rw [hlast]
    exact seg_snoc h.nodup hfresh h.next
  · simp only [setItem, hd, Bool.false_eq_true, if_false, List.reverse_append, List.reverse_singleton, List.singleton_append]
    refine ⟨write_self _ _ _, ?_⟩
    refine seg_start (f := o.prev) (x := 0) ?_ ?_ h.prev
    · rw [write_ne _ _ (fun e => h0 e.symm), write_self]
    · intro a ha
      rw [List.mem_reverse] at ha
      have ha0 : a ≠ 0 := by
        rintro rfl
        exact (List.nodup_cons.mp h.nodup).1 ha
      have haf : a ≠ o.fresh := by
        rintro rfl
        exact hfresh (by simp [ha])
      rw [write_ne _ _ ha0, write_ne _ _ haf]
  · simp only [setItem, hd, Bool.false_eq_true, if_false, List.map_append, List.map_cons, List.map_nil, write_self]
    rw [← h.keys]
    congr 1
    refine List.map_congr_left fun a ha => write_ne _ _ ?_
    rintro rfl
    exact hfresh (by simp [ha])
  · rw [List.map_append, List.nodup_append]
    refine ⟨h.distinct, by simp, ?_⟩
    intro a ha b hb
    simp only [List.map_cons, List.map_nil, List.mem_singleton] at hb
    rintro rfl
    exact hk (hb ▸ ha)
  · simp only [setItem, hd, Bool.false_eq_true, if_false]
    rw [h.dict]
    exact dictSetItem_new hk v
  · simp only [setItem, hd, Bool.false_eq_true, if_false]
    rw [dictSetItem_new, h.map, List.map_append, List.zip_append (by simp [hlen])]
    · rfl
    · rw [h.map, List.map_fst_zip (by simp [hlen])]
      exact hk

/-- Setting a key that is there. -/
theorem Represents.replace {o : Od K V} {l : List (K × V)} {as : List Nat} (h : Represents o l as) {k : K}
    (hk : k ∈ l.map Prod.fst) (v : V) : Represents (setItem o k v) (Spec.Ordered.set l k v) as := by
  have hd : dictHas o.dict k = true := by rw [h.dict]; exact dictHas_iff.mpr hk
  have hkeys : (Spec.Ordered.set l k v).map Prod.fst = l.map Prod.fst := by
    rw [Spec.Ordered.set, if_pos hk, List.map_map]
    refine List.map_congr_left fun p _ => ?_
    by_cases hp : p.1 = k
    · simp [hp]
    · simp [hp]
  have hset : setItem o k v = { o with dict := Spec.Ordered.set l k v } := by
    unfold setItem
    rw [hd]
    simp only [if_true, dictSetItem_eq, h.dict]
  rw [hset]
  refine ⟨h.nodup, h.fresh, h.next, h.prev, ?_, by rw [hkeys]; exact h.distinct, rfl, by rw [hkeys]; exact h.map⟩
  show as.map o.key = _
  rw [h.keys]
  have := congrArg (List.map some) hkeys
  rw [List.map_map, List.map_map] at this
  exact this.symm

theorem Represents.set {o : Od K V} {l : List (K × V)} {as : List Nat} (h : Represents o l as) (k : K) (v : V) :
    ∃ as', Represents (setItem o k v) (Spec.Ordered.set l k v) as' := by
  by_cases hk : k ∈ l.map Prod.fst
  · exact ⟨_, h.replace hk v⟩
  · rw [Spec.Ordered.set, if_neg hk]
    exact ⟨_, h.push hk v⟩

theorem Represents.update {kvs : List (K × V)} : ∀ {o : Od K V} {l : List (K × V)} {as : List Nat}, Represents o l as →
    ∃ as', Represents (update o kvs) (kvs.foldl (fun l p => Spec.Ordered.set l p.1 p.2) l) as' := by
  induction kvs with
  | nil => intro o l as h; exact ⟨as, h⟩
  | cons p kvs ih =>
    intro o l as h
    obtain ⟨as', h'⟩ := h.set p.1 p.2
    exact ih h'

theorem split_rep {o : Od K V} {l1 l2 : List (K × V)} {p : K × V} {as : List Nat} (h : Represents o (l1 ++ p :: l2) as) :
    ∃ bs a cs, as = bs ++ a :: cs ∧ l1.length = bs.length ∧ l2.length = cs.length := by
  have hlen := h.length
  rw [List.length_append, List.length_cons] at hlen
  have h1 : l1.length < as.length := by omega
  refine ⟨as.take l1.length, as[l1.length], as.drop (l1.length + 1), ?_, ?_, ?_⟩
  · rw [List.getElem_cons_drop, List.take_append_drop]
  · rw [List.length_take]; omega
  · rw [List.length_drop]; omega

/-- Taking out a node. -/
theorem Represents.unlink {o : Od K V} {l1 l2 : List (K × V)} {k : K} {v : V} {bs cs : List Nat} {a : Nat}
    (h : Represents o (l1 ++ (k, v) :: l2) (bs ++ a :: cs)) (h1 : l1.length = bs.length) :
    Represents { o with
      dict := l1 ++ l2
      map := ((l1 ++ l2).map Prod.fst).zip (bs ++ cs)
      next := write o.next (o.prev a) (o.next a)
      prev := write o.prev (o.next a) (o.prev a) } (l1 ++ l2) (bs ++ cs) := by
  have hn := h.nodup
  have hsub : (0 :: (bs ++ cs)).Sublist (0 :: (bs ++ a :: cs)) :=
    ((List.Sublist.refl bs).append (List.sublist_cons_self a cs)).cons_cons 0
  have hprev := h.prev
  have hrev : (bs ++ a :: cs).reverse = cs.reverse ++ a :: bs.reverse := by simp
  rw [hrev] at hprev
  have hp : o.prev a = (0 :: bs).getLast (by simp) := by
    rw [seg_head (seg_append.mp hprev).2]
    simp only [List.getLast_eq_head_reverse, List.reverse_cons]
  have hx : o.next a = (0 :: cs.reverse).getLast (by simp) := by
    rw [seg_head (seg_append.mp h.next).2]
    simp only [List.getLast_eq_head_reverse, List.reverse_cons, List.reverse_reverse]
  refine ⟨hn.sublist hsub, fun b hb => h.fresh b (hsub.subset hb), ?_, ?_, ?_, ?_, rfl, rfl⟩
  · rw [hp]
    exact seg_relink hn h.next
  · rw [hx, List.reverse_append]
    refine seg_relink ?_ hprev
    rw [← hrev]
    rw [List.nodup_cons] at hn ⊢
    exact ⟨by rw [List.mem_reverse]; exact hn.1, List.nodup_reverse.mpr hn.2⟩
  · have hk := h.keys
    rw [List.map_append, List.map_append] at hk
    obtain ⟨e1, e2⟩ := List.append_inj hk (by simp [h1])
    rw [List.map_cons, List.map_cons] at e2
    show (bs ++ cs).map o.key = _
    rw [List.map_append, List.map_append, e1, (List.cons.inj e2).2]
  · have := h.distinct
    refine this.sublist (List.Sublist.map _ ?_)
    exact (List.Sublist.refl l1).append (List.sublist_cons_self _ l2)

theorem split_keys {l1 l2 : List (K × V)} {k : K} {v : V} (h : ((l1 ++ (k, v) :: l2).map Prod.fst).Nodup) :
    k ∉ l1.map Prod.fst ∧ k ∉ l2.map Prod.fst := by
  rw [List.map_append, List.map_cons, List.nodup_append, List.nodup_cons] at h
  exact ⟨fun hm => h.2.2 _ hm _ (by simp) rfl, h.2.1.1⟩

theorem zip_split {l1 l2 : List (K × V)} {k : K} {v : V} {bs cs : List Nat} {a : Nat} (h1 : l1.length = bs.length) :
    ((l1 ++ (k, v) :: l2).map Prod.fst).zip (bs ++ a :: cs) =
      (l1.map Prod.fst).zip bs ++ (k, a) :: (l2.map Prod.fst).zip cs := by
  rw [List.map_append, List.zip_append (by simp [h1])]
  rfl

theorem fst_zip {l : List (K × V)} {bs : List Nat} (h : l.length = bs.length) :
    ((l.map Prod.fst).zip bs).map Prod.fst = l.map Prod.fst := by
  rw [List.map_fst_zip (by simp [h])]

/-- Deleting the node of a pair. -/
theorem Represents.del {o : Od K V} {l1 l2 : List (K × V)} {k : K} {v : V} {as : List Nat}
    (h : Represents o (l1 ++ (k, v) :: l2) as) : ∃ o' as', delItem o k = .ok o' ∧ Represents o' (l1 ++ l2) as' := by
  obtain ⟨bs, a, cs, rfl, e1, e2⟩ := split_rep h
  obtain ⟨k1, k2⟩ := split_keys h.distinct
  refine ⟨_, bs ++ cs, ?_, h.unlink e1⟩
  unfold delItem
  rw [h.dict, dictDelItem_split k1 k2, h.map, zip_split e1, dictGetItem_split (by rw [fst_zip e1]; exact k1),
    dictDelItem_split (by rw [fst_zip e1]; exact k1) (by rw [fst_zip e2]; exact k2)]
  rw [List.map_append, List.zip_append (by simp [e1])]
  rfl

theorem Represents.popLast {o : Od K V} {l : List (K × V)} {k : K} {v : V} {as : List Nat}
    (h : Represents o (l ++ [(k, v)]) as) : ∃ o' as', popItem o true = .ok ((some k, v), o') ∧ Represents o' l as' := by
  obtain ⟨bs, a, cs, rfl, e1, e2⟩ := split_rep h
  obtain rfl : cs = [] := List.length_eq_zero_iff.mp e2.symm
  obtain ⟨k1, k2⟩ := split_keys h.distinct
  have hlink : o.prev 0 = a := by
    have := h.prev
    rw [List.reverse_append] at this
    exact this.1
  have hnext : o.next a = 0 := (seg_append.mp h.next).2
  have hkey : o.key a = some k := by
    have hk := h.keys
    rw [List.map_append, List.map_append] at hk
    exact (List.cons.inj (List.append_inj hk (by simp [e1])).2).1
  have hrep := h.unlink e1
  rw [hnext] at hrep
  simp only [List.append_nil] at hrep
  refine ⟨_, bs, ?_, hrep⟩
  unfold popItem
  rw [if_neg (by rw [h.dict]; simp)]
  simp only [if_true, hlink, hkey]
  rw [h.dict, h.map, zip_split e1]
  rw [dictDelItem_split (by rw [fst_zip e1]; exact k1) (by simp), dictGetItem_split k1, dictDelItem_split k1 k2]
  simp only [List.map_nil, List.zip_nil_left, List.append_nil]
  rfl

theorem Represents.popFirst {o : Od K V} {l : List (K × V)} {k : K} {v : V} {as : List Nat}
    (h : Represents o ((k, v) :: l) as) : ∃ o' as', popItem o false = .ok ((some k, v), o') ∧ Represents o' l as' := by
  have h' : Represents o ([] ++ (k, v) :: l) as := h
  obtain ⟨bs, a, cs, rfl, e1, e2⟩ := split_rep h'
  obtain rfl : bs = [] := List.length_eq_zero_iff.mp e1.symm
  obtain ⟨k1, k2⟩ := split_keys h'.distinct
  have hlink : o.next 0 = a := h.next.1
  have hprev : o.prev a = 0 := by
    have := h.prev
    rw [List.nil_append, List.reverse_cons] at this
    exact (seg_append.mp this).2
  have hkey : o.key a = some k := (List.cons.inj h.keys).1
  have hrep := h'.unlink e1
  rw [hprev] at hrep
  simp only [List.nil_append] at hrep
  refine ⟨_, cs, ?_, hrep⟩
  unfold popItem
  rw [if_neg (by rw [h.dict]; simp)]
  simp only [Bool.false_eq_true, if_false, hlink, hkey]
  have hm : o.map = [] ++ (k, a) :: (l.map Prod.fst).zip cs := by rw [h.map]; rfl
  have hd : o.dict = [] ++ (k, v) :: l := h.dict
  rw [hd, hm]
  rw [dictDelItem_split (by simp) (by rw [fst_zip e2]; exact k2), dictGetItem_split k1, dictDelItem_split k1 k2]
  rfl

end Patsy.ODict
