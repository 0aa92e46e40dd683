import Mathlib.Data.List.TakeWhile
import Verif.Spec.ConstraintTokens

/-!
# Lemmas about the tokenizer of the constraint language
-/

namespace Patsy.Constraint

open Patsy.Spec Patsy.Infix

/-! ### Variables -/

theorem find_longest {p : Name → Bool} {l : List Name} (hs : l.Pairwise fun a b => b.length ≤ a.length) {v : Name}
    (h : l.find? p = some v) : v ∈ l ∧ p v = true ∧ ∀ u ∈ l, p u = true → u.length ≤ v.length := by
  refine ⟨List.mem_of_find?_eq_some h, List.find?_some h, ?_⟩
  induction l with
  | nil => simp at h
  | cons a l ih =>
    rw [List.pairwise_cons] at hs
    intro u hu hp
    by_cases ha : p a = true
    · rw [List.find?_cons_of_pos ha, Option.some.injEq] at h
      subst h
      rcases List.mem_cons.mp hu with rfl | hu
      · exact le_rfl
      · exact hs.1 u hu
    · rw [List.find?_cons_of_neg (by simpa using ha)] at h
      rcases List.mem_cons.mp hu with rfl | hu
      · exact absurd hp ha
      · exact ih hs.2 h u hu hp

theorem variableOrder_sorted (names : List Name) :
    (variableOrder names).Pairwise fun a b => b.length ≤ a.length := by
  unfold variableOrder
  split
  · simp
  · have : Std.Total (fun a b : Name => b.length ≤ a.length) := ⟨fun a b => le_total _ _⟩
    have : IsTrans Name (fun a b => b.length ≤ a.length) := ⟨fun a b c h1 h2 => le_trans h2 h1⟩
    exact List.pairwise_insertionSort (fun a b : Name => b.length ≤ a.length) names

theorem mem_variableOrder {names : List Name} (hn : names ≠ []) (v : Name) : v ∈ variableOrder names ↔ v ∈ names := by
  rw [variableOrder, if_neg hn]
  exact List.mem_insertionSort _

theorem variableMatch_some {names : List Name} (hn : names ≠ []) {s : List Char} {n : Nat}
    (h : variableMatch names s = some n) :
    s.take n ∈ names ∧ n ≤ s.length ∧ ∀ u ∈ names, u <+: s → u.length ≤ n := by
  simp only [variableMatch, Option.map_eq_some_iff] at h
  obtain ⟨v, hv, rfl⟩ := h
  obtain ⟨h1, h2, h3⟩ := find_longest (variableOrder_sorted names) hv
  rw [mem_variableOrder hn] at h1
  rw [List.isPrefixOf_iff_prefix] at h2
  rw [← List.prefix_iff_eq_take.mp h2]
  refine ⟨h1, h2.length_le, fun u hu hp => ?_⟩
  exact h3 u ((mem_variableOrder hn u).mpr hu) (List.isPrefixOf_iff_prefix.mpr hp)

theorem variableMatch_none {names : List Name} (hn : names ≠ []) {s : List Char} :
    variableMatch names s = none ↔ ∀ u ∈ names, ¬ u <+: s := by
  simp only [variableMatch, Option.map_eq_none_iff, List.find?_eq_none, mem_variableOrder hn]
  simp [List.isPrefixOf_iff_prefix]

theorem variableMatch_of_longest {names : List Name} (hn : names ≠ []) {w s : List Char} (hw : w ∈ names) (hp : w <+: s)
    (h : ∀ u ∈ names, u <+: s → u.length ≤ w.length) : variableMatch names s = some w.length := by
  cases hm : variableMatch names s with
  | none =>
    rw [variableMatch_none hn] at hm
    exact absurd hp (hm w hw)
  | some n =>
    obtain ⟨h1, h2, h3⟩ := variableMatch_some hn hm
    have h4 := h _ h1 (List.take_prefix n s)
    have h5 := h3 w hw hp
    rw [List.length_take] at h4
    congr 1
    omega

/-! ### Numerals -/

theorem isDigit_iff (c : Char) : isDigit c = true ↔ '0' ≤ c ∧ c ≤ '9' := by simp [isDigit]

theorem digits_iff (w : List Char) : Digits w ↔ w ≠ [] ∧ ∀ c ∈ w, isDigit c = true := by
  simp [Digits, isDigit_iff]

theorem takeWhile_digits (s : List Char) : ∀ c ∈ s.takeWhile isDigit, isDigit c = true := fun _ h =>
  List.mem_takeWhile_imp h

theorem prefix_takeWhile {p : Char → Bool} {v s : List Char} (h : v <+: s) (hv : ∀ c ∈ v, p c = true) :
    v.length ≤ (s.takeWhile p).length := by
  obtain ⟨t, rfl⟩ := h
  rw [List.takeWhile_append_of_pos hv]
  simp

theorem eq_takeWhile {p : Char → Bool} {v u s : List Char} {c : Char} (h : v ++ c :: u <+: s)
    (hv : ∀ c ∈ v, p c = true) (hc : p c = false) :
    v = s.takeWhile p ∧ c :: u <+: s.drop v.length := by
  obtain ⟨t, rfl⟩ := h
  refine ⟨?_, ?_⟩
  · rw [List.append_assoc, List.takeWhile_append_of_pos hv, List.cons_append, List.takeWhile_cons_of_neg (by simp [hc])]
    simp
  · rw [List.append_assoc, List.drop_left]
    exact List.prefix_append _ _

theorem take_takeWhile (p : Char → Bool) (s : List Char) : s.take (s.takeWhile p).length = s.takeWhile p :=
  (List.prefix_iff_eq_take.mp (List.takeWhile_prefix p)).symm

theorem mantissa_some {s : List Char} {n : Nat} (h : mantissaMatch s = some n) :
    Mantissa (s.take n) ∧ n ≤ s.length ∧ n ≠ 0 := by
  have hlen : (s.takeWhile isDigit).length ≤ s.length := (List.takeWhile_prefix isDigit).length_le
  have hsplit : s.take (s.takeWhile isDigit).length = s.takeWhile isDigit := take_takeWhile _ _
  simp only [mantissaMatch] at h
  split at h
  · rename_i hf
    cases hd : s.drop (s.takeWhile isDigit).length with
    | nil => simp [hd, fractionMatch] at hf
    | cons c s' =>
      by_cases hc : c = '.'
      · subst hc
        simp only [hd, fractionMatch, if_true, Option.some.injEq] at h hf
        have hs : s = s.takeWhile isDigit ++ '.' :: s' := by
          conv_lhs => rw [← List.take_append_drop (s.takeWhile isDigit).length s, hd, hsplit]
        have hl : (s'.takeWhile isDigit).length ≤ s'.length := (List.takeWhile_prefix isDigit).length_le
        have hslen : s.length = (s.takeWhile isDigit).length + 1 + s'.length := by
          conv_lhs => rw [hs]
          simp only [List.length_append, List.length_cons]
          omega
        subst h
        refine ⟨?_, by omega, by omega⟩
        have : s.take ((s.takeWhile isDigit).length + 1 + (s'.takeWhile isDigit).length) =
            s.takeWhile isDigit ++ '.' :: s'.takeWhile isDigit := by
          conv_lhs =>
            arg 2
            rw [hs]
          rw [Nat.add_assoc, List.take_length_add_append, Nat.add_comm 1, List.take_succ_cons, take_takeWhile]
        rw [this]
        refine Mantissa.frac ?_ ((digits_iff _).mpr ⟨?_, takeWhile_digits s'⟩)
        · by_cases he : s.takeWhile isDigit = []
          · exact Or.inl he
          · exact Or.inr ((digits_iff _).mpr ⟨he, takeWhile_digits s⟩)
        · intro he
          rw [he] at hf
          exact hf rfl
      · simp [hd, fractionMatch, hc] at hf
  · split at h
    · rename_i hd
      obtain rfl := Option.some.inj h
      refine ⟨?_, hlen, hd⟩
      rw [hsplit]
      refine Mantissa.int ((digits_iff _).mpr ⟨?_, takeWhile_digits s⟩)
      intro he
      rw [he] at hd
      exact hd rfl
    · simp at h

theorem mantissaMatch_eq (s : List Char) : mantissaMatch s =
    if fractionMatch (s.drop (s.takeWhile isDigit).length) ≠ 0 then
      some ((s.takeWhile isDigit).length + 1 + fractionMatch (s.drop (s.takeWhile isDigit).length))
    else if (s.takeWhile isDigit).length ≠ 0 then some (s.takeWhile isDigit).length else none := rfl

theorem dot_not_digit : isDigit '.' = false := by decide

theorem mantissa_longest {s v : List Char} (hv : Mantissa v) (hp : v <+: s) :
    ∃ n, mantissaMatch s = some n ∧ v.length ≤ n := by
  rw [mantissaMatch_eq]
  cases hv with
  | int h =>
    rw [digits_iff] at h
    have hl := prefix_takeWhile hp h.2
    have hpos : 0 < v.length := List.length_pos_iff.mpr h.1
    split
    · exact ⟨_, rfl, by omega⟩
    · rw [if_pos (by omega)]
      exact ⟨_, rfl, hl⟩
  | @frac d f hd hf =>
    rw [digits_iff] at hf
    have hdd : ∀ c ∈ d, isDigit c = true := by
      rcases hd with rfl | hd
      · simp
      · exact ((digits_iff d).mp hd).2
    obtain ⟨h1, h2⟩ := eq_takeWhile hp hdd dot_not_digit
    rw [← h1]
    obtain ⟨t, ht⟩ := h2
    rw [← ht]
    simp only [List.cons_append, fractionMatch, if_true]
    have hl := prefix_takeWhile (s := f ++ t) (List.prefix_append f t) hf.2
    have hpos : 0 < f.length := List.length_pos_iff.mpr hf.1
    rw [if_pos (by omega)]
    refine ⟨_, rfl, ?_⟩
    simp only [List.length_append, List.length_cons]
    omega

/-- A mantissa followed by an exponent sign is the longest one. -/
theorem mantissa_exact {s v u : List Char} {c : Char} (hv : Mantissa v) (hp : v ++ c :: u <+: s)
    (hc : isDigit c = false) (hdot : c ≠ '.') : mantissaMatch s = some v.length := by
  rw [mantissaMatch_eq]
  cases hv with
  | int h =>
    rw [digits_iff] at h
    have hpos : 0 < v.length := List.length_pos_iff.mpr h.1
    obtain ⟨h1, t, ht⟩ := eq_takeWhile hp h.2 hc
    rw [← h1, ← ht]
    simp only [List.cons_append, fractionMatch, hdot, if_false]
    rw [if_neg (by simp), if_pos (by omega)]
  | @frac d f hd hf =>
    rw [digits_iff] at hf
    have hdd : ∀ c ∈ d, isDigit c = true := by
      rcases hd with rfl | hd
      · simp
      · exact ((digits_iff d).mp hd).2
    rw [List.append_assoc, List.cons_append] at hp
    obtain ⟨h1, t, ht⟩ := eq_takeWhile hp hdd dot_not_digit
    rw [← h1, ← ht]
    simp only [List.cons_append, fractionMatch, if_true]
    have hpos : 0 < f.length := List.length_pos_iff.mpr hf.1
    obtain ⟨h2, -⟩ := eq_takeWhile (p := isDigit) (s := f ++ c :: u ++ t) (List.prefix_append _ _) hf.2 hc
    rw [← h2, if_pos (by omega)]
    simp only [List.length_append, List.length_cons]
    congr 1
    omega

theorem exponent_some {s : List Char} {n : Nat} (h : exponentMatch s = n) (hn : n ≠ 0) :
    Exponent (s.take n) ∧ n ≤ s.length := by
  unfold exponentMatch at h
  split at h
  · rename_i e s
    split at h
    · rename_i he
      split at h
      · rename_i c s'
        split at h
        · rename_i hc
          simp only at h
          split at h
          · omega
          · rename_i hd
            have hl : (s'.takeWhile isDigit).length ≤ s'.length := (List.takeWhile_prefix isDigit).length_le
            subst h
            refine ⟨?_, by simp only [List.length_cons]; omega⟩
            simp only [List.take_succ_cons, take_takeWhile]
            refine Exponent.signed he (hc.symm) ((digits_iff _).mpr ⟨?_, takeWhile_digits s'⟩)
            intro h0
            rw [h0] at hd
            exact hd rfl
        · simp only at h
          split at h
          · omega
          · rename_i hd
            have hl : ((c :: s').takeWhile isDigit).length ≤ (c :: s').length :=
              (List.takeWhile_prefix isDigit).length_le
            subst h
            refine ⟨?_, by simp only [List.length_cons] at hl ⊢; omega⟩
            simp only [List.take_succ_cons, take_takeWhile]
            refine Exponent.plain he ((digits_iff _).mpr ⟨?_, takeWhile_digits _⟩)
            intro h0
            rw [h0] at hd
            exact hd rfl
      · omega
    · omega
  · omega

theorem sign_not_digit {c : Char} (h : c = '-' ∨ c = '+') : isDigit c = false := by
  rcases h with rfl | rfl <;> decide

theorem exponent_longest {s v : List Char} (hv : Exponent v) (hp : v <+: s) : v.length ≤ exponentMatch s := by
  cases hv with
  | @plain e d he hd =>
    rw [digits_iff] at hd
    obtain ⟨t, rfl⟩ := hp
    obtain ⟨c, d', rfl⟩ : ∃ c d', d = c :: d' := List.exists_cons_of_ne_nil hd.1
    have hc : ¬ (c = '-' ∨ c = '+') := fun h => by
      have := hd.2 c List.mem_cons_self
      rw [sign_not_digit h] at this
      simp at this
    have hl := prefix_takeWhile (s := c :: d' ++ t) (List.prefix_append _ _) hd.2
    simp only [List.cons_append, List.length_cons] at hl
    simp only [List.cons_append, exponentMatch, he, if_true, hc, if_false, List.length_cons]
    rw [if_neg (by omega)]
    omega
  | @signed e c d he hs hd =>
    rw [digits_iff] at hd
    obtain ⟨t, rfl⟩ := hp
    have hl := prefix_takeWhile (s := d ++ t) (List.prefix_append _ _) hd.2
    have hpos : 0 < d.length := List.length_pos_iff.mpr hd.1
    simp only [List.cons_append, exponentMatch, he, if_true, hs.symm, List.length_cons]
    rw [if_neg (by omega)]
    omega

theorem exponent_head {v : List Char} (h : Exponent v) : ∃ e d, v = e :: d ∧ isDigit e = false ∧ e ≠ '.' := by
  cases h with
  | @plain e d he hd => exact ⟨e, d, rfl, by rcases he with rfl | rfl <;> decide, by rcases he with rfl | rfl <;> decide⟩
  | @signed e c d he hs hd =>
    exact ⟨e, c :: d, rfl, by rcases he with rfl | rfl <;> decide, by rcases he with rfl | rfl <;> decide⟩

theorem number_some {s : List Char} {n : Nat} (h : numberMatch s = some n) :
    Numeral (s.take n) ∧ n ≤ s.length ∧ n ≠ 0 := by
  simp only [numberMatch, Option.map_eq_some_iff] at h
  obtain ⟨m, hm, rfl⟩ := h
  obtain ⟨h1, h2, h3⟩ := mantissa_some hm
  by_cases he : exponentMatch (s.drop m) = 0
  · rw [he, Nat.add_zero]
    exact ⟨.plain h1, h2, h3⟩
  · obtain ⟨h4, h5⟩ := exponent_some rfl he
    rw [List.length_drop] at h5
    refine ⟨?_, by omega, by omega⟩
    rw [List.take_add]
    exact .exp h1 h4

theorem number_longest {s v : List Char} (hv : Numeral v) (hp : v <+: s) :
    ∃ n, numberMatch s = some n ∧ v.length ≤ n := by
  cases hv with
  | plain h =>
    obtain ⟨n, hn, hl⟩ := mantissa_longest h hp
    exact ⟨n + exponentMatch (s.drop n), by rw [numberMatch, hn]; rfl, by omega⟩
  | @exp m e h he =>
    obtain ⟨c, d, rfl, h1, h2⟩ := exponent_head he
    have := mantissa_exact h hp h1 h2
    refine ⟨m.length + exponentMatch (s.drop m.length), by rw [numberMatch, this]; rfl, ?_⟩
    rw [List.length_append]
    have : c :: d <+: s.drop m.length := by
      obtain ⟨t, rfl⟩ := hp
      rw [List.append_assoc, List.drop_left]
      exact List.prefix_append _ _
    have := exponent_longest he this
    omega

theorem number_none {s : List Char} : numberMatch s = none ↔ ∀ v, Numeral v → ¬ v <+: s := by
  constructor
  · intro h v hv hp
    obtain ⟨n, hn, -⟩ := number_longest hv hp
    rw [h] at hn
    simp at hn
  · intro h
    cases hm : numberMatch s with
    | none => rfl
    | some n => exact absurd (List.take_prefix n s) (h _ (number_some hm).1)

theorem number_of_longest {s w : List Char} (hw : Numeral w) (hp : w <+: s)
    (h : ∀ v, Numeral v → v <+: s → v.length ≤ w.length) : numberMatch s = some w.length := by
  obtain ⟨n, hn, hl⟩ := number_longest hw hp
  obtain ⟨h1, h2, -⟩ := number_some hn
  have := h _ h1 (List.take_prefix n s)
  rw [List.length_take] at this
  rw [hn]
  congr 1
  omega

/-! ### Words -/

theorem opSym_some {c : Char} {o : Sym} : opSym c = some o ↔ opText o = [c] := by
  constructor
  · intro h
    unfold opSym at h
    split at h <;> simp_all [opText]
    all_goals (subst h; rfl)
  · intro h
    cases o <;> simp only [opText, List.cons.injEq, and_true] at h <;> (try subst h) <;> first | rfl | simp at h

theorem opSym_none {c : Char} : opSym c = none ↔ c ∉ [',', '=', '+', '-', '*', '/'] := by
  constructor
  · intro h hc
    simp only [List.mem_cons, List.not_mem_nil, or_false] at hc
    rcases hc with rfl | rfl | rfl | rfl | rfl | rfl <;> simp [opSym] at h
  · intro h
    unfold opSym
    split <;> simp_all

theorem noOp_iff (s : List Char) : NoOp s ↔
    s.head? ≠ some '(' ∧ s.head? ≠ some ')' ∧ s.head?.bind opSym = none := by
  cases s with
  | nil => simp [NoOp]
  | cons c s =>
    simp only [NoOp, List.head?_cons, Option.some.injEq, forall_eq', Option.bind_some, opSym_none, ne_eq,
      List.mem_cons, not_or]

/-- The lexicon below the operators. -/
theorem lexeme_noOp {names : List Name} {s : List Char} (h : NoOp s) : lexeme names s =
    match variableMatch names s with
      | some n => some (some (.sym .variable), n)
      | none => match numberMatch s with
        | some n => some (some (.sym .number), n)
        | none => if (s.takeWhile isSpace).length = 0 then none else some (none, (s.takeWhile isSpace).length) := by
  obtain ⟨h1, h2, h3⟩ := (noOp_iff s).mp h
  simp only [lexeme, if_neg h1, if_neg h2, h3]
  rfl

theorem word_of_lexeme {names : List Name} (hn : names ≠ []) {s : List Char} {k : Kind Sym} {n : Nat}
    (h : lexeme names s = some (some k, n)) (h0 : n ≠ 0) : Word names k (s.take n) (s.drop n) ∧ n ≤ s.length := by
  by_cases hop : NoOp s
  · rw [lexeme_noOp hop] at h
    have hop' : NoOp (s.take n ++ s.drop n) := by rwa [List.take_append_drop]
    cases hv : variableMatch names s with
    | some m =>
      simp only [hv, Option.some.injEq, Prod.mk.injEq] at h
      obtain ⟨rfl, rfl⟩ := h
      obtain ⟨h1, h2, h3⟩ := variableMatch_some hn hv
      refine ⟨.variable hop' ?_ h1 ?_, h2⟩
      · intro he
        have := congrArg List.length he
        rw [List.length_take] at this
        simp only [List.length_nil] at this
        omega
      · intro v hv' hp
        rw [List.take_append_drop] at hp
        rw [List.length_take]
        have := h3 v hv' hp
        omega
    | none =>
      cases hm : numberMatch s with
      | some m =>
        simp only [hv, hm, Option.some.injEq, Prod.mk.injEq] at h
        obtain ⟨rfl, rfl⟩ := h
        obtain ⟨h1, h2, -⟩ := number_some hm
        refine ⟨.number hop' ?_ h1 ?_, h2⟩
        · rw [List.take_append_drop]
          exact (variableMatch_none hn).mp hv
        · intro v hv' hp
          rw [List.take_append_drop] at hp
          rw [List.length_take]
          obtain ⟨m', hm', hl⟩ := number_longest hv' hp
          rw [hm, Option.some.injEq] at hm'
          omega
      | none =>
        simp only [hv, hm] at h
        split at h <;> simp at h
  · cases s with
    | nil => exact absurd (by simp [NoOp]) hop
    | cons c s =>
      unfold lexeme at h
      split at h
      · rename_i hc
        simp only [Option.some.injEq, Prod.mk.injEq] at h
        obtain ⟨rfl, rfl⟩ := h
        simp only [List.head?_cons, Option.some.injEq] at hc
        subst hc
        exact ⟨by simpa using Word.lparen, by simp⟩
      · split at h
        · rename_i hc
          simp only [Option.some.injEq, Prod.mk.injEq] at h
          obtain ⟨rfl, rfl⟩ := h
          simp only [List.head?_cons, Option.some.injEq] at hc
          subst hc
          exact ⟨by simpa using Word.rparen, by simp⟩
        · rename_i hc1 hc2
          cases ho : (c :: s).head?.bind opSym with
          | none => exact absurd ((noOp_iff _).mpr ⟨hc1, hc2, ho⟩) hop
          | some o =>
            rw [ho] at h
            simp only [Option.some.injEq, Prod.mk.injEq] at h
            obtain ⟨rfl, rfl⟩ := h
            simp only [List.head?_cons, Option.bind_some] at ho
            refine ⟨?_, by simp⟩
            simpa using Word.op (names := names) (rest := s) (opSym_some.mp ho)

theorem space_of_lexeme {names : List Name} (hn : names ≠ []) {s : List Char} {n : Nat}
    (h : lexeme names s = some (none, n)) :
    NoOp s ∧ (∀ v ∈ names, ¬ v <+: s) ∧ n = (s.takeWhile isSpace).length ∧ n ≠ 0 := by
  by_cases hop : NoOp s
  · rw [lexeme_noOp hop] at h
    cases hv : variableMatch names s with
    | some m => simp [hv] at h
    | none =>
      cases hm : numberMatch s with
      | some m => simp [hv, hm] at h
      | none =>
        simp only [hv, hm] at h
        split at h
        · simp at h
        · rename_i hl
          simp only [Option.some.injEq, Prod.mk.injEq, true_and] at h
          exact ⟨hop, (variableMatch_none hn).mp hv, h.symm, by omega⟩
  · unfold lexeme at h
    split at h
    · simp at h
    · split at h
      · simp at h
      · rename_i h1 h2
        cases ho : s.head?.bind opSym with
        | none => exact absurd ((noOp_iff _).mpr ⟨h1, h2, ho⟩) hop
        | some o => rw [ho] at h; simp at h

theorem lexeme_of_word {names : List Name} (hn : names ≠ []) {k : Kind Sym} {w rest : List Char}
    (h : Word names k w rest) : lexeme names (w ++ rest) = some (some k, w.length) ∧ w ≠ [] := by
  cases h with
  | lparen => exact ⟨rfl, by simp⟩
  | rparen => exact ⟨rfl, by simp⟩
  | @op o c _ h =>
    have h' := opSym_some.mpr h
    refine ⟨?_, by simp⟩
    have h1 : c ≠ '(' := by
      rintro rfl
      simp [opSym] at h'
    have h2 : c ≠ ')' := by
      rintro rfl
      simp [opSym] at h'
    simp [lexeme, h1, h2, h']
  | «variable» hop hne hw longest =>
    refine ⟨?_, hne⟩
    rw [lexeme_noOp hop, variableMatch_of_longest hn hw (List.prefix_append _ _) longest]
  | number hop hv hw longest =>
    have h1 := number_of_longest hw (List.prefix_append w rest) longest
    refine ⟨?_, ?_⟩
    · rw [lexeme_noOp hop, (variableMatch_none hn).mpr hv, h1]
    · rintro rfl
      exact (number_some h1).2.2 rfl

theorem space_not_digit {c : Char} (h : isSpace c = true) : isDigit c = false ∧ c ≠ '.' := by
  constructor
  · cases hd : isDigit c with
    | false => rfl
    | true =>
      rw [isDigit_iff] at hd
      have h1 : '0'.toNat ≤ c.toNat := hd.1
      have h2 : c.toNat ≤ '9'.toNat := hd.2
      have e1 : '0'.toNat = 48 := rfl
      have e2 : '9'.toNat = 57 := rfl
      simp only [isSpace, Bool.or_eq_true, decide_eq_true_eq, List.mem_cons, List.not_mem_nil, or_false] at h
      omega
  · rintro rfl
    revert h
    decide

theorem numeral_head {v : List Char} (h : Numeral v) : ∃ c t, v = c :: t ∧ (isDigit c = true ∨ c = '.') := by
  have hm : ∀ {m}, Mantissa m → ∃ c t, m = c :: t ∧ (isDigit c = true ∨ c = '.') := by
    intro m hm
    cases hm with
    | int h =>
      rw [digits_iff] at h
      obtain ⟨c, t, rfl⟩ := List.exists_cons_of_ne_nil h.1
      exact ⟨c, t, rfl, Or.inl (h.2 c List.mem_cons_self)⟩
    | @frac d f hd hf =>
      rcases hd with rfl | hd
      · exact ⟨'.', f, rfl, Or.inr rfl⟩
      · rw [digits_iff] at hd
        obtain ⟨c, t, rfl⟩ := List.exists_cons_of_ne_nil hd.1
        exact ⟨c, _, rfl, Or.inl (hd.2 c List.mem_cons_self)⟩
  cases h with
  | plain h => exact hm h
  | exp h he =>
    obtain ⟨c, t, rfl, h'⟩ := hm h
    exact ⟨c, _, rfl, h'⟩

theorem lexeme_of_space {names : List Name} (hn : names ≠ []) {w rest : List Char} (hop : NoOp (w ++ rest))
    (hv : ∀ v ∈ names, ¬ v <+: w ++ rest) (hne : w ≠ []) (hw : ∀ c ∈ w, isSpace c = true)
    (hmax : ∀ c, rest.head? = some c → isSpace c = false) :
    lexeme names (w ++ rest) = some (none, w.length) := by
  have hnum : numberMatch (w ++ rest) = none := by
    rw [number_none]
    intro v hv hp
    obtain ⟨c, t, rfl, hc⟩ := numeral_head hv
    obtain ⟨d, w', rfl⟩ := List.exists_cons_of_ne_nil hne
    rw [List.cons_append, List.cons_prefix_cons] at hp
    obtain ⟨rfl, -⟩ := hp
    have := space_not_digit (hw c List.mem_cons_self)
    rcases hc with hc | hc
    · rw [this.1] at hc; simp at hc
    · exact this.2 hc
  have htw : (w ++ rest).takeWhile isSpace = w := by
    rw [List.takeWhile_append_of_pos hw]
    cases rest with
    | nil => simp
    | cons c rest => simp [hmax c rfl]
  rw [lexeme_noOp hop, (variableMatch_none hn).mpr hv, hnum]
  simp only [htw]
  rw [if_neg (by rw [List.length_eq_zero_iff]; exact hne)]

theorem lexeme_nil {names : List Name} {k : Option (Kind Sym)} {n : Nat} (h : lexeme names [] = some (k, n)) : n = 0 := by
  rw [lexeme_noOp (by simp [NoOp])] at h
  cases hv : variableMatch names [] with
  | some m =>
    simp only [hv, Option.some.injEq, Prod.mk.injEq] at h
    simp only [variableMatch, Option.map_eq_some_iff] at hv
    obtain ⟨v, hv, rfl⟩ := hv
    have := List.find?_some hv
    rw [List.isPrefixOf_iff_prefix, List.prefix_nil] at this
    rw [← h.2, this]
    rfl
  | none =>
    have : numberMatch [] = none := by decide
    simp [hv, this] at h

theorem scan_sound {names : List Name} (hn : names ≠ []) (fuel pos : Nat) (s : List Char) (toks : List (Tok Sym Name))
    (h : scan names fuel pos s = (toks, [])) : Lexed names pos s toks := by
  induction fuel generalizing pos s toks with
  | zero =>
    simp only [scan, Prod.mk.injEq] at h
    obtain ⟨rfl, rfl⟩ := h
    exact .nil
  | succ fuel ih =>
    rw [scan] at h
    cases hl : lexeme names s with
    | none =>
      simp only [hl, Prod.mk.injEq] at h
      obtain ⟨rfl, rfl⟩ := h
      exact .nil
    | some kn =>
      obtain ⟨k, n⟩ := kn
      simp only [hl] at h
      split at h
      · simp only [Prod.mk.injEq] at h
        obtain ⟨rfl, rfl⟩ := h
        exact .nil
      · rename_i h0
        cases k with
        | none =>
          simp only at h
          obtain ⟨h1, h2, h3, -⟩ := space_of_lexeme hn hl
          have htake : s.take n = s.takeWhile isSpace := by rw [h3, take_takeWhile]
          have hlen : (s.take n).length = n := by rw [htake, ← h3]
          have := ih _ _ _ h
          rw [← List.take_append_drop n s]
          refine .space ?_ ?_ ?_ ?_ ?_ (by rw [hlen]; exact this)
          · rwa [List.take_append_drop]
          · rwa [List.take_append_drop]
          · intro he
            rw [he] at hlen
            simp only [List.length_nil] at hlen
            omega
          · intro c hc
            rw [htake] at hc
            exact List.mem_takeWhile_imp hc
          · intro c hc
            have : s.drop n = s.dropWhile isSpace := by
              have h4 := List.takeWhile_append_dropWhile (p := isSpace) (l := s)
              conv_lhs => rw [← h4, h3]
              rw [List.drop_left]
            rw [this] at hc
            have h5 := List.head?_dropWhile_not isSpace s
            rw [hc] at h5
            simpa using h5
        | some k =>
          simp only [Prod.mk.injEq] at h
          obtain ⟨rfl, h⟩ := h
          obtain ⟨hw, hle⟩ := word_of_lexeme hn hl h0
          have hlen : (s.take n).length = n := by rw [List.length_take]; omega
          have := ih (pos + n) (s.drop n) (scan names fuel (pos + n) (s.drop n)).1 (by rw [← h])
          have key := Lexed.word (pos := pos) hw (by rw [hlen]; exact this)
          rw [List.take_append_drop, hlen] at key
          exact key

theorem scan_complete {names : List Name} (hn : names ≠ []) {pos : Nat} {s : List Char} {toks : List (Tok Sym Name)}
    (h : Lexed names pos s toks) (fuel : Nat) (hf : s.length ≤ fuel) : scan names fuel pos s = (toks, []) := by
  induction h generalizing fuel with
  | nil =>
    cases fuel with
    | zero => rfl
    | succ fuel =>
      rw [scan]
      cases hl : lexeme names [] with
      | none => rfl
      | some kn =>
        obtain ⟨k, n⟩ := kn
        simp only
        rw [if_pos (lexeme_nil hl)]
  | @space pos w rest toks hop hv hne hw hmax _ ih =>
    have hpos : 0 < w.length := List.length_pos_iff.mpr hne
    rw [List.length_append] at hf
    obtain ⟨fuel, rfl⟩ : ∃ f, fuel = f + 1 := ⟨fuel - 1, by omega⟩
    rw [scan, lexeme_of_space hn hop hv hne hw hmax]
    simp only
    rw [if_neg (by omega), List.drop_left]
    exact ih fuel (by omega)
  | @word pos k w rest toks hw _ ih =>
    obtain ⟨hl, hne⟩ := lexeme_of_word hn hw
    have hpos : 0 < w.length := List.length_pos_iff.mpr hne
    rw [List.length_append] at hf
    obtain ⟨fuel, rfl⟩ : ∃ f, fuel = f + 1 := ⟨fuel - 1, by omega⟩
    rw [scan, hl]
    simp only
    rw [if_neg (by omega), List.drop_left, List.take_left, ih fuel (by omega)]

end Patsy.Constraint
