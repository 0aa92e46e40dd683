import Verif.Lemmas.OrderedDict

/-! # C75, C76: the ordered dictionary -/

namespace Patsy.Props

open Patsy.ODict

variable {K V : Type} [DecidableEq K]

theorem pairs_some (l : List (K × V)) : pairs (l.map fun p => (some p.1, p.2)) = l := by
  induction l with
  | nil => rfl
  | cons p l ih => simp only [List.map_cons, pairs, ih]

theorem foldl_set_self : ∀ (l m : List (K × V)), ((m ++ l).map Prod.fst).Nodup →
    l.foldl (fun l p => Spec.Ordered.set l p.1 p.2) m = m ++ l := by
  intro l
  induction l with
  | nil => intro m _; simp
  | cons p l ih =>
    intro m h
    have hp : p.1 ∉ m.map Prod.fst := by
      rw [List.map_append, List.nodup_append] at h
      exact fun hm => h.2.2 _ hm _ (by simp) rfl
    rw [List.foldl_cons, Spec.Ordered.set, if_neg hp, ih]
    · simp
    · simpa using h

/-- One operation. -/
theorem step_represents {o : Od K V} {l : List (K × V)} {as : List Nat} (h : Represents o l as) (op : Op K V) :
    (ODict.step o op).1 = (Spec.Ordered.step l op).1 ∧
      ∃ as', Represents (ODict.step o op).2 (Spec.Ordered.step l op).2 as' := by
  have hsplit : ∀ {k : K} {v : V}, Spec.Ordered.lookup l k = some v → ∃ l1 l2, l = l1 ++ (k, v) :: l2 := by
    intro k v hl
    rw [Spec.Ordered.lookup, Option.map_eq_some_iff] at hl
    obtain ⟨p, hp, rfl⟩ := hl
    have h1 := List.find?_some hp
    simp only [decide_eq_true_eq] at h1
    obtain ⟨l1, l2, h2⟩ := List.append_of_mem (List.mem_of_find?_eq_some hp)
    exact ⟨l1, l2, by rw [h2, ← h1]⟩
  have hnone : ∀ {k : K}, Spec.Ordered.lookup l k = none → k ∉ l.map Prod.fst := by
    intro k hl hm
    obtain ⟨v, hv⟩ := lookup_isSome.mpr hm
    rw [hl] at hv
    cases hv
  have hsome : ∀ {k : K} {v : V}, Spec.Ordered.lookup l k = some v → k ∈ l.map Prod.fst :=
    fun hl => lookup_isSome.mp ⟨_, hl⟩
  have herase : ∀ {l1 l2 : List (K × V)} {k : K} {v : V}, l = l1 ++ (k, v) :: l2 →
      Spec.Ordered.erase l k = l1 ++ l2 := by
    rintro l1 l2 k v rfl
    obtain ⟨k1, k2⟩ := split_keys h.distinct
    exact filter_split k1 k2
  cases op with
  | set k v => exact ⟨rfl, h.set k v⟩
  | del k =>
    cases hl : Spec.Ordered.lookup l k with
    | none =>
      have hk := hnone hl
      have hd : delItem o k = .error .keyError := by
        unfold delItem dictDelItem
        rw [h.dict, if_neg (by rw [dictHas_iff]; exact hk)]
        rfl
      simp only [ODict.step, Spec.Ordered.step, if_neg hk, hd]
      exact ⟨trivial, as, h⟩
    | some v =>
      have hk := hsome hl
      obtain ⟨l1, l2, e⟩ := hsplit hl
      have he := herase e
      rw [e] at h
      obtain ⟨o', as', hd, hr⟩ := h.del
      simp only [ODict.step, Spec.Ordered.step, if_pos hk, hd, he]
      exact ⟨trivial, as', hr⟩
  | get k =>
    simp only [ODict.step, Spec.Ordered.step, h.dict, dictGetItem_eq]
    cases Spec.Ordered.lookup l k <;> exact ⟨rfl, as, h⟩
  | contains k =>
    simp only [ODict.step, Spec.Ordered.step, h.dict]
    refine ⟨?_, as, h⟩
    congr 1
    rw [Bool.eq_iff_iff, dictHas_iff, decide_eq_true_eq]
  | len =>
    simp only [ODict.step, Spec.Ordered.step, h.dict]
    exact ⟨trivial, as, h⟩
  | keys =>
    simp only [ODict.step, Spec.Ordered.step, h.iter]
    exact ⟨trivial, as, h⟩
  | reversed =>
    simp only [ODict.step, Spec.Ordered.step, h.reversed]
    exact ⟨trivial, as, h⟩
  | items =>
    simp only [ODict.step, Spec.Ordered.step, h.items]
    exact ⟨trivial, as, h⟩
  | pop k d =>
    simp only [ODict.step, Spec.Ordered.step, pop]
    cases hl : Spec.Ordered.lookup l k with
    | none =>
      have hd : dictHas o.dict k = false := by rw [h.dict]; exact dictHas_false.mpr (hnone hl)
      cases d <;> simp only [hd, Bool.false_eq_true, if_false] <;> exact ⟨trivial, as, h⟩
    | some v =>
      have hd : dictHas o.dict k = true := by rw [h.dict]; exact dictHas_iff.mpr (hsome hl)
      obtain ⟨l1, l2, e⟩ := hsplit hl
      have he := herase e
      have hg : dictGetItem o.dict k = .ok v := by rw [h.dict, dictGetItem_eq, hl]
      rw [e] at h
      obtain ⟨o', as', hdel, hr⟩ := h.del
      simp only [hd, if_true, hg, hdel, he]
      exact ⟨rfl, as', hr⟩
  | popItem last =>
    have hempty : l = [] → ∀ last, popItem o last = .error .keyError := by
      rintro rfl last
      unfold popItem
      rw [h.dict]
      rfl
    cases last with
    | true =>
      rcases List.eq_nil_or_concat l with rfl | ⟨l', ⟨k, v⟩, e⟩
      · simp only [ODict.step, Spec.Ordered.step, hempty rfl true]
        exact ⟨rfl, as, h⟩
      · rw [List.concat_eq_append] at e
        subst e
        obtain ⟨o', as', hp, hr⟩ := h.popLast
        simp only [ODict.step, Spec.Ordered.step, hp]
        simp only [List.getLast?_append, List.getLast?_singleton, Option.some_or, List.dropLast_concat]
        exact ⟨trivial, as', hr⟩
    | false =>
      cases l with
      | nil =>
        simp only [ODict.step, Spec.Ordered.step, hempty rfl false]
        exact ⟨trivial, as, h⟩
      | cons p l' =>
        obtain ⟨o', as', hp, hr⟩ := h.popFirst
        simp only [ODict.step, Spec.Ordered.step, hp]
        exact ⟨trivial, as', hr⟩
  | setDefault k d =>
    simp only [ODict.step, Spec.Ordered.step, setDefault]
    cases hl : Spec.Ordered.lookup l k with
    | none =>
      have hd : dictHas o.dict k = false := by rw [h.dict]; exact dictHas_false.mpr (hnone hl)
      simp only [hd, Bool.false_eq_true, if_false]
      exact ⟨trivial, _, h.push (hnone hl) d⟩
    | some v =>
      have hd : dictHas o.dict k = true := by rw [h.dict]; exact dictHas_iff.mpr (hsome hl)
      have hg : dictGetItem o.dict k = .ok v := by rw [h.dict, dictGetItem_eq, hl]
      simp only [hd, if_true, hg]
      exact ⟨rfl, as, h⟩
  | update kvs => exact ⟨rfl, h.update⟩
  | copy =>
    have hc : ODict.copy o = some (.ok (ODict.update ODict.empty l)) := by
      unfold ODict.copy
      rw [h.items]
      simp only [Option.map_some, Except.map, pairs_some]
    simp only [ODict.step, Spec.Ordered.step, hc]
    obtain ⟨as', hr⟩ := (represents_empty (K := K) (V := V)).update (kvs := l)
    rw [foldl_set_self l [] (by simpa using h.distinct)] at hr
    exact ⟨trivial, as', hr⟩

theorem run_represents (ops : List (Op K V)) : ∀ {o : Od K V} {l : List (K × V)} {as : List Nat}, Represents o l as →
    (ODict.run o ops).1 = (Spec.Ordered.run l ops).1 ∧
      ∃ as', Represents (ODict.run o ops).2 (Spec.Ordered.run l ops).2 as' := by
  induction ops with
  | nil => intro o l as h; exact ⟨rfl, as, h⟩
  | cons op ops ih =>
    intro o l as h
    obtain ⟨h1, as', h2⟩ := step_represents h op
    obtain ⟨h3, h4⟩ := ih h2
    refine ⟨?_, h4⟩
    simp only [ODict.run, Spec.Ordered.run, h1, h3]

/-- **C75**.  Whatever is done with a dictionary, everything that it returns is what a list of pairs in the order of first
insertion would return.  In particular no loop over it runs for ever. -/
theorem ordered_dict (ops : List (Op K V)) : (ODict.run ODict.empty ops).1 = (Spec.Ordered.run [] ops).1 :=
  (run_represents ops represents_empty).1

/-- **C75**.  Two dictionaries, whatever was done with them, are equal if and only if they have the same pairs in the same
order. -/
theorem ordered_eq [DecidableEq V] (ops ops' : List (Op K V)) :
    ODict.eq (ODict.run ODict.empty ops).2 (ODict.run ODict.empty ops').2 =
      some (.ok (decide ((Spec.Ordered.run [] ops).2 = (Spec.Ordered.run [] ops').2))) := by
  obtain ⟨_, as, h⟩ := run_represents ops (represents_empty (K := K) (V := V))
  obtain ⟨_, as', h'⟩ := run_represents ops' (represents_empty (K := K) (V := V))
  revert h h'
  generalize (ODict.run ODict.empty ops).2 = o, (ODict.run ODict.empty ops').2 = o', (Spec.Ordered.run [] ops).2 = l,
    (Spec.Ordered.run [] ops').2 = l'
  intro h h'
  unfold ODict.eq
  rw [h.dict, h'.dict, h.items, h'.items]
  by_cases hl : l.length = l'.length
  · rw [if_neg (by simpa using hl)]
    show some (Except.ok _) = _
    congr 2
    rw [Bool.eq_iff_iff, beq_iff_eq, decide_eq_true_eq]
    constructor
    · intro e
      have := congrArg pairs e
      rwa [pairs_some, pairs_some] at this
    · rintro rfl
      rfl
  · rw [if_pos hl]
    congr 2
    symm
    rw [decide_eq_false_iff_not]
    rintro rfl
    exact hl rfl

/-! ### What the specification says -/

/-- **C75**.  After any operations the keys are distinct. -/
theorem ordered_nodup (ops : List (Op K V)) : ((Spec.Ordered.run ([] : List (K × V)) ops).2.map Prod.fst).Nodup := by
  obtain ⟨_, _, h⟩ := run_represents ops (represents_empty (K := K) (V := V))
  exact h.distinct

/-! ### `clear` -/

/-- **C76** is false.  `clear` on a dictionary that was made by any operations leaves the keys in the linked list: a loop over
the cleared dictionary gives all the old keys, although it has length 0, and `items` raises a `KeyError` if there was any. -/
theorem clear_keeps_keys (ops : List (Op K V)) :
    let o := (ODict.run ODict.empty ops).2
    let l := (Spec.Ordered.run [] ops).2
    (ODict.step (clear o) .len).1 = .number 0 ∧
    (ODict.step (clear o) .keys).1 = .keys (l.map fun p => some p.1) ∧
    (ODict.step (clear o) .items).1 = if l = [] then .items [] else .error .keyError := by
  obtain ⟨_, as, h⟩ := run_represents ops (represents_empty (K := K) (V := V))
  revert h
  generalize (ODict.run ODict.empty ops).2 = o, (Spec.Ordered.run [] ops).2 = l
  intro h
  have hi : ODict.iter (clear o) = some (l.map fun p => some p.1) := h.iter
  refine ⟨rfl, by simp only [ODict.step, hi], ?_⟩
  simp only [ODict.step, ODict.items, hi, Option.map_some]
  cases l with
  | nil => rfl
  | cons p l => rfl

/-- **C76**, exactly: `clear` works if and only if the dictionary was empty. -/
theorem clear_iff (ops : List (Op K V)) :
    (ODict.step (clear (ODict.run ODict.empty ops).2) .keys).1 = .keys [] ↔
      (Spec.Ordered.run ([] : List (K × V)) ops).2 = [] := by
  rw [(clear_keeps_keys ops).2.1]
  simp

/-- **C76**.  A key that is set again after `clear` appears twice. -/
theorem clear_twice : (ODict.step (setItem (clear (setItem ODict.empty "a" 1)) "a" 2) .keys).1 =
    (.keys [some "a", some "a"] : Out String Nat) := by decide +kernel

/-! ### Examples -/

/-- Example for `ordered_dict`: `b` keeps its place when it is set again, `a` loses it when it is deleted and set again. -/
example : (ODict.run ODict.empty [.set "b" 1, .set "a" 2, .set "c" 3, .set "b" 4, .del "a", .keys, .set "a" 5, .items,
      .reversed, .popItem true, .popItem false, .copy, .items, .pop "z" none, .pop "c" (some 7), .len, .popItem true] :
        List (Out String Nat) × _).1 =
    [.unit, .unit, .unit, .unit, .unit, .keys [some "b", some "c"], .unit,
      .items [(some "b", 4), (some "c", 3), (some "a", 5)], .keys [some "a", some "c", some "b"], .pair (some "a") 5,
      .pair (some "b") 4, .unit, .items [(some "c", 3)], .error .keyError, .value 3, .number 0, .error .keyError] := by
  decide +kernel

/-- Example for `ordered_eq`: the same pairs in another order. -/
example : ODict.eq (ODict.run ODict.empty [.set "b" 1, .set "a" 2]).2 (ODict.run ODict.empty [.set "a" 2, .set "b" 1]).2 =
      some (.ok false) ∧
    ODict.eq (ODict.run ODict.empty [.set "b" 1, .set "a" 2]).2
      (ODict.run ODict.empty [.set "a" 2, .set "b" 1, .pop "a" none, .setDefault "a" 2]).2 = some (.ok true) := by
  rw [ordered_eq, ordered_eq]
  decide +kernel

/-- Example for `ordered_nodup`. -/
example : (Spec.Ordered.run ([] : List (String × Nat)) [.set "b" 1, .update [("a", 1), ("b", 2), ("a", 3)]]).2 =
    [("b", 2), ("a", 3)] := by decide +kernel

/-- Example for `clear_keeps_keys` and `clear_iff`. -/
example : (ODict.step (clear (ODict.run ODict.empty [.set "b" 1, .set "a" 2]).2) .keys).1 =
    (.keys [some "b", some "a"] : Out String Nat) := by decide +kernel

end Patsy.Props
