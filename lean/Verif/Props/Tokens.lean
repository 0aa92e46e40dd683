import Verif.Lemmas.Tokens

/-! # C13, C14: tokenising formulas and normalising spacing -/

namespace Patsy.Props

open Patsy.Infix Patsy.Tokens Patsy.Spec

/-- No INDENT, DEDENT or NL token: guaranteed by `python_tokenize`, which strips the
code and drops NL. -/
def Plain (ts : List PyTok) : Prop :=
  ∀ t ∈ ts, t.type ≠ .indent ∧ t.type ≠ .dedent ∧ t.type ≠ .nl

theorem prettyUntokenize_ok (ts : List (PyType × String))
    (h : ∀ t ∈ ts, t.1 ≠ .indent ∧ t.1 ≠ .dedent ∧ t.1 ≠ .nl) :
    ∃ s, prettyUntokenize ts = .ok s := by
  obtain ⟨text, h1, _⟩ := untokLoop_spec ts .init h
  exact ⟨_, by rw [prettyUntokenize, h1]⟩

/-- **C13**.  The tokenizer of formulas returns `out` iff `out` is the list of
formula tokens in the sense of the specification `Tokenizes`: every Python token is
used exactly once and in order, operators and parentheses stand for themselves, and
embedded expressions extend, with balanced brackets, to the next operator or closing
parenthesis outside all their brackets. -/
theorem tokenize_iff (isNumber : String → Bool) (ops : List String)
    (hops : "(" ∉ ops ∧ ")" ∉ ops) (ts : List PyTok) (out : List (Tok String (Option String))) :
    tokenizeFormula isNumber ops ts = .ok out ↔ Tokenizes isNumber ops ts out := by
  have h0 : ¬ ("(" ∈ ops ∨ ")" ∈ ops) := by simpa using hops
  rw [tokenizeFormula, if_neg h0]
  constructor
  · intro h
    induction hn : ts.length using Nat.strongRecOn generalizing ts out with
    | _ n ih =>
      subst hn
      cases ts with
      | nil => rw [tokenizeLoop] at h; simp at h; subst h; exact .nil
      | cons t ts =>
        rw [tokenizeLoop] at h
        split at h
        · rename_i hm
          split at h
          · rename_i r hr
            simp only [Except.ok.injEq] at h
            subst h
            refine .op t ts _ r hm ?_ (ih ts.length (by simp) ts r hr rfl)
            by_cases h1 : t.str = "("
            · rw [magicKind, if_pos h1]; exact .l t h1
            · by_cases h2 : t.str = ")"
              · rw [magicKind, if_neg h1, if_pos h2]; exact .r t h2
              · rw [magicKind, if_neg h1, if_neg h2]; exact .o t h1 h2
          · simp at h
        · rename_i hm
          split at h
          · simp at h
          · rename_i e rest lvl hr
            split at h
            · simp at h
            · rename_i tok htok
              split at h
              · rename_i r hr2
                simp only [Except.ok.injEq] at h
                subst h
                have happ := readLoop_append hr
                have hlen := readLoop_consumes (by rw [List.mem_cons]; exact fun hc => hm (Or.inr hc)) hr
                have hread := readLoop_ok hr
                rw [← happ]
                cases e with
                | nil =>
                  simp at happ; subst happ; simp at hlen
                | cons t' e =>
                  simp only [List.cons_append, List.cons.injEq] at happ
                  obtain ⟨rfl, happ⟩ := happ
                  unfold finishExpr at htok
                  split at htok
                  · rename_i hlvl
                    subst hlvl
                    simp only at htok
                    split at htok
                    · simp at htok
                    · rename_i text htext
                      simp only [Except.ok.injEq] at htok
                      subst htok
                      refine .expr _ _ _ _ ⟨by simp, ?_, ?_, ?_, ?_⟩ ?_ ?_ (.mk t' e text htext)
                        (ih rest.length hlen rest r hr2 rfl)
                      · intro u hu
                        simp at hu; subst hu
                        exact fun hc => hm (Or.inl hc)
                      · have := hread.level; simp at this; exact this.symm
                      · intro p s hp
                        have := hread.nonneg p s hp; simpa using this
                      · intro p u s hp hd
                        have := hread.no_end p u s hp (by simpa using hd)
                        simpa [List.mem_cons] using this
                      · intro u hu
                        have := (hread.stop u hu).2
                        simpa [List.mem_cons] using this
                      · intro u hu
                        simp at hu; subst hu
                        exact hm
                  · simp at htok
              · simp at h
  · intro h
    induction h with
    | nil => rw [tokenizeLoop]
    | op t ts tok out hm ho _ ih =>
      unfold IsMagic at hm
      rw [tokenizeLoop, dif_pos hm, ih]
      cases ho with
      | l h1 => simp [magicKind, h1]
      | r h1 => simp [magicKind, h1]
      | o h1 h2 => simp [magicKind, h1, h2]
    | expr e ts tok out he hnext hm ht _ ih =>
      cases ht with
      | mk t e text htext =>
        have hm := hm t (by simp)
        unfold IsMagic at hm
        have hread : Read (")" :: ops) 0 (t :: e) ts 0 := by
          refine ⟨by simp [he.balanced], ?_, ?_, ?_⟩
          · intro p s hp; simpa using he.never_negative p s hp
          · intro p u s hp hd
            have := he.no_operator p u s hp (by simpa using hd)
            simpa [List.mem_cons] using this
          · intro u hu; exact ⟨rfl, by simpa [List.mem_cons] using hnext u hu⟩
        have hr := readLoop_complete hread
        simp only [List.cons_append] at hr ⊢
        rw [tokenizeLoop, dif_neg hm]
        split
        · rename_i err heq; rw [hr] at heq; simp at heq
        · rename_i e' rest' lvl' heq
          rw [hr] at heq
          simp only [Except.ok.injEq, Prod.mk.injEq] at heq
          obtain ⟨rfl, rfl, rfl⟩ := heq
          simp only [finishExpr, if_true]
          rw [htext]
          simp only [ih]
          rfl

/-- **C13** (errors).  On streams `python_tokenize` can produce, the tokenizer either
succeeds or raises `PatsyError`. -/
theorem tokenize_total (isNumber : String → Bool) (ops : List String)
    (hops : "(" ∉ ops ∧ ")" ∉ ops) (ts : List PyTok) (hp : Plain ts) :
    (∃ out, tokenizeFormula isNumber ops ts = .ok out) ∨
      tokenizeFormula isNumber ops ts = .error .patsyError := by
  have h0 : ¬ ("(" ∈ ops ∨ ")" ∈ ops) := by simpa using hops
  rw [tokenizeFormula, if_neg h0]
  induction hn : ts.length using Nat.strongRecOn generalizing ts with
  | _ n ih =>
    subst hn
    cases ts with
    | nil => left; exact ⟨[], by rw [tokenizeLoop]⟩
    | cons t ts =>
      rw [tokenizeLoop]
      split
      · rcases ih ts.length (by simp) ts (fun u hu => hp u (by simp [hu])) rfl with ⟨out, h⟩ | h
        · left; exact ⟨_, by rw [h]⟩
        · right; rw [h]
      · rename_i hm
        split
        · rename_i err heq
          right; rw [readLoop_error heq]
        · rename_i e rest lvl hr
          have happ := readLoop_append hr
          have hlen := readLoop_consumes (by rw [List.mem_cons]; exact fun hc => hm (Or.inr hc)) hr
          have hpe : Plain e := fun u hu => hp u (by rw [← happ]; simp [hu])
          have hpr : Plain rest := fun u hu => hp u (by rw [← happ]; simp [hu])
          unfold finishExpr
          by_cases hl : lvl = 0
          · rw [if_pos hl]
            cases e with
            | nil => simp at happ; subst happ; simp at hlen
            | cons t' e =>
              obtain ⟨s, hs⟩ := prettyUntokenize_ok ((t' :: e).map fun t => (t.type, t.str)) (by
                intro u hu
                obtain ⟨v, hv, rfl⟩ := List.mem_map.mp hu
                exact hpe v hv)
              simp only
              rw [hs]
              rcases ih rest.length hlen rest hpr rfl with ⟨out, h⟩ | h
              · left; exact ⟨_, by simp only [h]; rfl⟩
              · right; simp only [h]
          · right; rw [if_neg hl]

/-- Python tokens in source order. -/
structure InOrder (ts : List PyTok) : Prop where
  each : ∀ t ∈ ts, t.origin.start ≤ t.origin.stop
  sorted : ts.Pairwise fun a b => a.origin.stop ≤ b.origin.start

theorem foldl_min_mem (os : List Origin) (a : Nat) :
    os.foldl (fun a b => min a b.start) a = a ∨
      ∃ o ∈ os, os.foldl (fun a b => min a b.start) a = o.start := by
  induction os generalizing a with
  | nil => simp
  | cons o os ih =>
    simp only [List.foldl_cons]
    rcases ih (min a o.start) with h | ⟨o', h1, h2⟩
    · rw [h]
      rcases Nat.le_total a o.start with h' | h'
      · left; omega
      · right; exact ⟨o, by simp, by omega⟩
    · right; exact ⟨o', by simp [h1], h2⟩

theorem foldl_max_mem (os : List Origin) (a : Nat) :
    (os.foldl (fun a b => max a b.stop) a = a ∨
      ∃ o ∈ os, os.foldl (fun a b => max a b.stop) a = o.stop) ∧
    a ≤ os.foldl (fun a b => max a b.stop) a := by
  induction os generalizing a with
  | nil => simp
  | cons o os ih =>
    simp only [List.foldl_cons]
    obtain ⟨h0, hle⟩ := ih (max a o.stop)
    refine ⟨?_, by omega⟩
    rcases h0 with h | ⟨o', h1, h2⟩
    · rw [h]
      rcases Nat.le_total a o.stop with h' | h'
      · right; exact ⟨o, by simp, by omega⟩
      · left; omega
    · right; exact ⟨o', by simp [h1], h2⟩

theorem foldl_min_le (os : List Origin) (a : Nat) :
    os.foldl (fun a b => min a b.start) a ≤ a := by
  induction os generalizing a with
  | nil => simp
  | cons o os ih =>
    simp only [List.foldl_cons]
    have := ih (min a o.start)
    omega

theorem increasing_of_pairwise {ts : List (Tok String (Option String))}
    (h1 : ∀ t ∈ ts, t.origin.start ≤ t.origin.stop)
    (h2 : ts.Pairwise fun a b => a.origin.stop ≤ b.origin.start) : Increasing ts := by
  induction ts with
  | nil => trivial
  | cons t ts ih =>
    have ih := ih (fun u hu => h1 u (by simp [hu])) (List.pairwise_cons.mp h2).2
    cases ts with
    | nil => exact h1 t (by simp)
    | cons u ts =>
      exact ⟨h1 t (by simp), (List.pairwise_cons.mp h2).1 u (by simp), ih⟩

/-- **C13/C07** (positions).  If the Python tokens are in source order then so are the
formula tokens, and each carries the position of the text it was made from: so the
position theorem of the parser applies to every formula. -/
theorem tokenize_increasing (isNumber : String → Bool) (ops : List String)
    (ts : List PyTok) (out : List (Tok String (Option String)))
    (hin : InOrder ts) (h : tokenizeFormula isNumber ops ts = .ok out) : Increasing out := by
  have hops : "(" ∉ ops ∧ ")" ∉ ops := by
    unfold tokenizeFormula at h
    split at h
    · simp at h
    · rename_i h0; simpa using h0
  rw [tokenize_iff isNumber ops hops] at h
  suffices hs : (∀ t ∈ out, t.origin.start ≤ t.origin.stop) ∧
      (out.Pairwise fun a b => a.origin.stop ≤ b.origin.start) ∧
      ∀ o ∈ out, (∃ a ∈ ts, o.origin.start = a.origin.start) ∧ ∃ a ∈ ts, o.origin.stop = a.origin.stop from
    increasing_of_pairwise hs.1 hs.2.1
  obtain ⟨he, hp⟩ := hin
  induction h with
  | nil => simp
  | op t ts tok out hm ho _ ih =>
    obtain ⟨i1, i2, i3⟩ := ih (fun u hu => he u (by simp [hu])) (List.pairwise_cons.mp hp).2
    have hto : tok.origin = t.origin := by cases ho <;> rfl
    refine ⟨?_, ?_, ?_⟩
    · intro u hu
      rcases List.mem_cons.mp hu with rfl | hu
      · rw [hto]; exact he t (by simp)
      · exact i1 u hu
    · refine List.pairwise_cons.mpr ⟨?_, i2⟩
      intro u hu
      obtain ⟨⟨a, ha, e⟩, _⟩ := i3 u hu
      rw [hto, e]
      exact (List.pairwise_cons.mp hp).1 a ha
    · intro u hu
      rcases List.mem_cons.mp hu with rfl | hu
      · rw [hto]; exact ⟨⟨t, by simp, rfl⟩, ⟨t, by simp, rfl⟩⟩
      · obtain ⟨⟨a, ha, e⟩, ⟨b, hb, f⟩⟩ := i3 u hu
        exact ⟨⟨a, by simp [ha], e⟩, ⟨b, by simp [hb], f⟩⟩
  | expr e ts tok out hex hnext hm ht _ ih =>
    obtain ⟨p1, p2, p3⟩ := List.pairwise_append.mp hp
    obtain ⟨i1, i2, i3⟩ := ih (fun u hu => he u (by simp [hu])) p2
    cases ht with
    | mk t e text htext =>
      have hst : (∃ a ∈ t :: e, (Origin.combine t.origin (e.map (·.origin))).start = a.origin.start) := by
        rcases foldl_min_mem (e.map (·.origin)) t.origin.start with h | ⟨o, ho, h⟩
        · exact ⟨t, by simp, h⟩
        · obtain ⟨a, ha, rfl⟩ := List.mem_map.mp ho
          exact ⟨a, by simp [ha], h⟩
      have hsp : (∃ a ∈ t :: e, (Origin.combine t.origin (e.map (·.origin))).stop = a.origin.stop) := by
        rcases (foldl_max_mem (e.map (·.origin)) t.origin.stop).1 with h | ⟨o, ho, h⟩
        · exact ⟨t, by simp, h⟩
        · obtain ⟨a, ha, rfl⟩ := List.mem_map.mp ho
          exact ⟨a, by simp [ha], h⟩
      have hle : (Origin.combine t.origin (e.map (·.origin))).start ≤
          (Origin.combine t.origin (e.map (·.origin))).stop := by
        have h1 := foldl_min_le (e.map (·.origin)) t.origin.start
        have h2 := (foldl_max_mem (e.map (·.origin)) t.origin.stop).2
        have h3 := he t (by simp)
        simp only [Origin.combine]; omega
      refine ⟨?_, ?_, ?_⟩
      · intro u hu
        rcases List.mem_cons.mp hu with rfl | hu
        · exact hle
        · exact i1 u hu
      · refine List.pairwise_cons.mpr ⟨?_, i2⟩
        intro u hu
        obtain ⟨⟨a, ha, ea⟩, _⟩ := i3 u hu
        obtain ⟨b, hb, eb⟩ := hsp
        simp only at eb ⊢
        rw [eb, ea]
        exact p3 b hb a ha
      · intro u hu
        rcases List.mem_cons.mp hu with rfl | hu
        · obtain ⟨a, ha, ea⟩ := hst
          obtain ⟨b, hb, eb⟩ := hsp
          exact ⟨⟨a, List.mem_append_left _ ha, ea⟩, ⟨b, List.mem_append_left _ hb, eb⟩⟩
        · obtain ⟨⟨a, ha, e⟩, ⟨b, hb, f⟩⟩ := i3 u hu
          exact ⟨⟨a, List.mem_append_right _ ha, e⟩, ⟨b, List.mem_append_right _ hb, f⟩⟩

/-- **C14** (printing keeps the tokens).  Unless the stream contains INDENT, DEDENT or
NL, printing succeeds and the result is the tokens in order with at most one blank in
front of each, and exactly one blank between neighbouring words (so words never
fuse). -/
theorem untokenize_spaced (ts : List (PyType × String))
    (h : ∀ t ∈ ts, t.1 ≠ .indent ∧ t.1 ≠ .dedent ∧ t.1 ≠ .nl) :
    ∃ s, prettyUntokenize ts = .ok s ∧
      Spaced false (ts.filter fun t => t.1 ≠ .newline ∧ t.1 ≠ .endmarker) s.toList := by
  obtain ⟨text, h1, h2⟩ := untokLoop_spec ts .init h
  exact ⟨_, by rw [prettyUntokenize, h1], h2⟩

/-- **C14** (only white space changes).  Whatever the spacing of the source, the
printed text without blanks is the concatenation of the tokens without blanks. -/
theorem untokenize_same_ink (ts : List (PyType × String)) (s : String)
    (h : prettyUntokenize ts = .ok s) :
    stripBlanks s = (ts.filter fun t => t.1 ≠ .newline ∧ t.1 ≠ .endmarker).flatMap
      (fun t => stripBlanks t.2) := by
  have hok : ∀ (ts : List (PyType × String)) st text, untokLoop st ts = .ok text →
      ∀ t ∈ ts, t.1 ≠ .indent ∧ t.1 ≠ .dedent ∧ t.1 ≠ .nl := by
    intro ts
    induction ts with
    | nil => simp
    | cons t ts ih =>
      obtain ⟨type, tok⟩ := t
      intro st text h u hu
      rw [untokLoop] at h
      split at h
      · simp at h
      · rename_i h1
        rcases List.mem_cons.mp hu with rfl | hu
        · simpa using h1
        · split at h
          · exact ih st text h u hu
          · cases h3 : untokLoop (untokStep st type tok).2 ts with
            | error e => simp [h3] at h
            | ok text' => exact ih _ _ h3 u hu
  have hp : ∀ t ∈ ts, t.1 ≠ .indent ∧ t.1 ≠ .dedent ∧ t.1 ≠ .nl := by
    unfold prettyUntokenize at h
    split at h
    · rename_i text htext; exact hok ts _ _ htext
    · simp at h
  obtain ⟨s', h1, h2⟩ := untokenize_spaced ts hp
  rw [h] at h1
  simp only [Except.ok.injEq] at h1
  subst h1
  unfold stripBlanks
  generalize s.toList = cs at h2
  generalize (ts.filter fun t => t.1 ≠ .newline ∧ t.1 ≠ .endmarker) = ps at h2
  clear h hp hok
  generalize false = b at h2
  induction h2 with
  | nil => simp
  | tight prev type tok ts s w _ _ _ ih => simpa [List.filter_append] using ih
  | blank prev type tok ts s w _ _ ih => simpa [List.filter_append] using ih

/-- **C14** (factors).  `EvalFactor` normalises its code when it is made: the result depends on the kinds and texts of
the tokens only, not on where they stand, and contains them in order. -/
theorem normalize_spacing (raw raw' : List PyTok)
    (hsame : raw.map (fun t => (t.type, t.str)) = raw'.map fun t => (t.type, t.str)) (hp : Plain raw) :
    ∃ s, normalizeTokenSpacing raw = .ok s ∧ normalizeTokenSpacing raw' = .ok s ∧
      Spaced false ((raw.map fun t => (t.type, t.str)).filter fun t => t.1 ≠ .newline ∧ t.1 ≠ .endmarker) s.toList := by
  obtain ⟨s, h1, h2⟩ := untokenize_spaced (raw.map fun t => (t.type, t.str)) (by simpa [Plain] using hp)
  exact ⟨s, h1, by rw [normalizeTokenSpacing, ← hsame]; exact h1, h2⟩

/-- **C14** (INDENT).  Code that starts with a blank is not normalised: the INDENT
token trips an assertion. -/
theorem untokenize_indent_crashes (ts us : List (PyType × String)) (tok : String)
    (h : ∀ t ∈ ts, t.1 = .newline ∨ t.1 = .endmarker) :
    prettyUntokenize (ts ++ (.indent, tok) :: us) = .error .assertionError := by
  unfold prettyUntokenize
  have : ∀ s, untokLoop s (ts ++ (.indent, tok) :: us) = .error .assertionError := by
    induction ts with
    | nil => intro s; simp [untokLoop]
    | cons t ts ih =>
      intro s
      obtain ⟨type, tk⟩ := t
      have h1 := h (type, tk) (by simp)
      have ih := ih (fun t ht => h t (by simp [ht])) s
      simp only at h1
      rcases h1 with rfl | rfl <;> simp [untokLoop, ih]
  rw [this]

/-! ### Concrete cases -/

section Examples

def exPy (type : PyType) (s : String) (i : Nat) : PyTok := ⟨type, s, ⟨i, i + 1⟩⟩

/-- `a + f(b + 1, c[2])` -/
def exStream : List PyTok :=
  [exPy .name "a" 0, exPy .op "+" 2, exPy .name "f" 4, exPy .op "(" 5, exPy .name "b" 6,
   exPy .op "+" 8, exPy .number "1" 10, exPy .op "," 11, exPy .name "c" 13, exPy .op "[" 14,
   exPy .number "2" 15, exPy .op "]" 16, exPy .op ")" 17]

example : tokenizeFormula (fun _ => false) ["~", "+", "-"] exStream =
    .ok [⟨.sym "PYTHON_EXPR", ⟨0, 1⟩, some "a"⟩, ⟨.sym "+", ⟨2, 3⟩, none⟩,
      ⟨.sym "PYTHON_EXPR", ⟨4, 18⟩, some "f(b + 1, c[2])"⟩] :=
  eq_ok_of_okIs (by decide +kernel)

example : InOrder exStream := ⟨by simp [exStream, exPy], by simp [exStream, exPy]⟩

example : Plain exStream := by simp [Plain, exStream, exPy]

/-- An unmatched bracket is reported: `a ]`. -/
example : tokenizeFormula (fun _ => false) ["+"] [exPy .name "a" 0, exPy .op "]" 1] =
    .error .patsyError := by
  simp only [tokenizeFormula]
  rw [if_neg (by decide), tokenizeLoop]
  rfl

/-- The bracket check counts brackets without looking at their kind: `f(a]` is taken
for a balanced expression. -/
example : tokenizeFormula (fun _ => false) ["+"]
    [exPy .name "f" 0, exPy .op "(" 1, exPy .name "a" 2, exPy .op "]" 3] =
    .ok [⟨.sym "PYTHON_EXPR", ⟨0, 4⟩, some "f(a]"⟩] :=
  eq_ok_of_okIs (by decide +kernel)

example : prettyUntokenize [(.name, "foo"), (.op, "("), (.op, "-"), (.name, "a"), (.op, "*"),
    (.name, "b"), (.op, ","), (.name, "if"), (.name, "x"), (.op, ")")] =
    .ok "foo(-a * b, if x)" :=
  eq_ok_of_okIs (by decide +kernel)

end Examples

/-- **C14** (limits of the normalisation).  The printed text does not determine the
token stream: the ill-formed `x[a: =b]` is printed exactly like the well-formed
`x[a:=b]`; and a number followed by an attribute access is glued to the dot, so that
`1 .real` (valid Python) becomes `1.real` (not valid). -/
theorem untokenize_not_injective :
    (prettyUntokenize [(.name, "x"), (.op, "["), (.name, "a"), (.op, ":"), (.op, "="), (.name, "b"), (.op, "]")]
      = .ok "x[a:=b]" ∧
     prettyUntokenize [(.name, "x"), (.op, "["), (.name, "a"), (.op, ":="), (.name, "b"), (.op, "]")]
      = .ok "x[a:=b]") ∧
    prettyUntokenize [(.number, "1"), (.op, "."), (.name, "real")] = .ok "1.real" :=
  ⟨⟨eq_ok_of_okIs (by decide +kernel), eq_ok_of_okIs (by decide +kernel)⟩,
    eq_ok_of_okIs (by decide +kernel)⟩

/-- **C14** (leading blank).  An embedded expression that starts with a Python
operator such as `%` is printed with a leading blank; tokenising that text again
yields an INDENT token, on which the normalisation fails with an assertion
(`untokenize_indent_crashes`). -/
theorem untokenize_leading_blank :
    prettyUntokenize [(.op, "%"), (.name, "b")] = .ok " % b" :=
  eq_ok_of_okIs (by decide +kernel)

/-- Example for `normalize_spacing`: `a+b` and `a  + b`. -/
example : [exPy .name "a" 0, exPy .op "+" 1, exPy .name "b" 2].map (fun t => (t.type, t.str)) =
      [exPy .name "a" 0, exPy .op "+" 3, exPy .name "b" 5].map (fun t => (t.type, t.str)) ∧
    Plain [exPy .name "a" 0, exPy .op "+" 1, exPy .name "b" 2] ∧
    okIs (normalizeTokenSpacing [exPy .name "a" 0, exPy .op "+" 1, exPy .name "b" 2]) "a + b" = true :=
  ⟨by decide +kernel, by simp [Plain, exPy], by decide +kernel⟩

end Patsy.Props
