import Verif.Lemmas.ErrorPosition

/-!
# C57: syntax errors point at the right place
-/

namespace Patsy.Props

open Patsy.Infix Patsy.Tokens Patsy.Formula Patsy.Desc Patsy.Spec Patsy.Located

/-- What Python's tokenizer says about the text: the tokens (without ends of lines) and how they end. -/
inductive Reads (fin : RawEnd) (raw : List PyTok) : List PyTok → Stop → Prop where
  | finished (body : List PyTok) : RawBody fin raw body → (∀ t ∈ body, Allowed t) →
      Reads fin raw (body.filter fun t => ¬ LineEnd t) .finished
  | bad (body : List PyTok) (t : PyTok) (rest : List PyTok) : raw = body ++ t :: rest →
      (∀ x ∈ body, Allowed x ∧ x.type ≠ .endmarker) → (t.type = .errortoken ∨ t.type = .comment) →
      Reads fin raw (body.filter fun t => ¬ LineEnd t) (.bad t)
  | unterminated : fin = .unterminatedString → (∀ x ∈ raw, Allowed x ∧ x.type ≠ .endmarker) →
      Reads fin raw (raw.filter fun t => ¬ LineEnd t) .unterminated

/-- The exception after the last token. -/
def failOf (whole : Origin) : Stop → Option LErr
  | .finished => none
  | .bad t => some (.patsyError, some t.origin)
  | .unterminated => some (.patsyError, some whole)

theorem reads_cons {fin : RawEnd} {t : PyTok} {raw ts : List PyTok} {stop : Stop} (h : Reads fin raw ts stop)
    (ht : Allowed t) (he : t.type ≠ .endmarker) :
    Reads fin (t :: raw) (if LineEnd t then ts else t :: ts) stop := by
  have key : ∀ body : List PyTok, (if LineEnd t then body.filter (fun t => ¬ LineEnd t) else
      t :: body.filter (fun t => ¬ LineEnd t)) = (t :: body).filter fun t => ¬ LineEnd t := by
    intro body
    by_cases hl : LineEnd t <;> simp [hl]
  cases h with
  | finished body h1 h2 =>
    rw [key]
    refine .finished _ ?_ (by simpa [ht] using h2)
    rcases h1 with ⟨e, rest, rfl, h3, h4⟩ | ⟨rfl, h3, h4⟩
    · exact Or.inl ⟨e, rest, rfl, h3, by simpa [he] using h4⟩
    · exact Or.inr ⟨rfl, h3, by simpa [he] using h4⟩
  | bad body x rest h1 h2 h3 =>
    rw [key]
    subst h1
    exact .bad _ x rest rfl (by simpa [ht, he] using h2) h3
  | unterminated h1 h2 =>
    rw [key]
    exact .unterminated h1 (by simpa [ht, he] using h2)

theorem pythonStream_spec {fin : RawEnd} {raw : List PyTok} (whole : Origin) (h : FromPython fin raw) :
    ∃ stop, Reads fin raw (pythonStream fin whole raw).items stop ∧
      (pythonStream fin whole raw).fail = failOf whole stop := by
  obtain ⟨h1, h2, h3, _⟩ := h
  induction raw with
  | nil =>
    cases fin with
    | exhausted => simp at h1
    | unterminatedString => exact ⟨.unterminated, .unterminated rfl (by simp), rfl⟩
    | multiLine => exact ⟨.finished, .finished [] (Or.inr ⟨rfl, rfl, by simp⟩) (by simp), rfl⟩
    | otherTokenError => simp at h2
  | cons t ts ih =>
    rw [pythonStream]
    split
    · rename_i h0
      exact ⟨.finished, .finished [] (Or.inl ⟨t, ts, rfl, h0, by simp⟩) (by simp), rfl⟩
    · rename_i h0
      obtain ⟨stop, i1, i2⟩ := ih (by simpa [h0] using h1) (fun t ht => h3 t (by simp [ht])) (fun t ht => by simp_all)
      split
      · rename_i h4
        have hl : LineEnd t := h4.symm
        rw [if_pos (h3 t (by simp) hl)]
        have hA : Allowed t := by
          refine ⟨?_, ?_, h3 t (by simp)⟩ <;> · intro h; rcases h4 with h4 | h4 <;> rw [h4] at h <;> cases h
        have := reads_cons i1 hA h0
        rw [if_pos hl] at this
        exact ⟨stop, this, i2⟩
      · rename_i h4
        have hl : ¬ LineEnd t := fun h => h4 h.symm
        split
        · rename_i h5
          exact ⟨.bad t, .bad [] t ts rfl (by simp) (Or.inl h5), rfl⟩
        · rename_i h5
          split
          · rename_i h6
            exact ⟨.bad t, .bad [] t ts rfl (by simp) (Or.inr h6), rfl⟩
          · rename_i h6
            have := reads_cons i1 ⟨h5, h6, fun h => absurd h hl⟩ h0
            rw [if_neg hl] at this
            exact ⟨stop, this, i2⟩

theorem reads_mem {fin : RawEnd} {raw ts : List PyTok} {stop : Stop} (h : Reads fin raw ts stop) :
    ∀ t ∈ ts, t ∈ raw ∧ ¬ LineEnd t := by
  intro t ht
  cases h with
  | finished body h1 h2 =>
    obtain ⟨ht, hl⟩ := List.mem_filter.1 ht
    refine ⟨?_, by simpa using hl⟩
    rcases h1 with ⟨e, rest, rfl, _⟩ | ⟨rfl, _⟩
    · simp [ht]
    · exact ht
  | bad body x rest h1 h2 h3 =>
    obtain ⟨ht, hl⟩ := List.mem_filter.1 ht
    exact ⟨by simp [h1, ht], by simpa using hl⟩
  | unterminated h1 h2 =>
    obtain ⟨ht, hl⟩ := List.mem_filter.1 ht
    exact ⟨ht, by simpa using hl⟩

theorem formula_parses {isNumber : String → Bool} {ts : List PyTok} {toks : List FTok}
    (ht : Tokenizes isNumber opStrings ts toks) (h : IsFormula isNumber ts) :
    ∃ c : Cst String (Option String), c.WF ftable ∧ c.flatten = toks := by
  obtain ⟨c, hc, hf⟩ := h
  have h1 := (tokenize_iff isNumber opStrings defaultOps_parens ts toks).2 ht
  have h2 := (tokenize_iff isNumber opStrings defaultOps_parens ts _).2 hf
  rw [h1] at h2
  simp only [Except.ok.injEq] at h2
  exact ⟨c, hc, h2.symm⟩

theorem parseAt_flatten (c : Cst String (Option String)) (hc : c.WF ftable) :
    parseAt ftable ⟨c.flatten, none⟩ = .ok (toNode c) := parseAt_ok ftable_ok c hc

/-- **C57**.  Whenever `parse_formula` fails on a text with tokens, it raises `PatsyError`, and the origin of the error is
the stretch of text to blame. -/
theorem syntax_error_position (isNumber : String → Bool) (fin : RawEnd) (whole : Origin) (raw : List PyTok)
    (h : FromPython fin raw) (hne : ¬ Reads fin raw [] .finished) (e : LErr)
    (he : parseFormulaAt isNumber fin whole raw = .error e) :
    ∃ ts stop o, Reads fin raw ts stop ∧ e = (.patsyError, some o) ∧ Blames isNumber whole ts stop o := by
  obtain ⟨stop, hreads, hfail⟩ := pythonStream_spec whole h
  unfold parseFormulaAt at he
  simp only at he
  generalize hts : (pythonStream fin whole raw).items = ts at he hreads
  rw [hfail] at he
  have hplain : ∀ t ∈ ts, t.type ≠ .indent ∧ t.type ≠ .dedent ∧ t.type ≠ .nl := by
    intro t ht
    obtain ⟨h1, h2⟩ := reads_mem hreads t ht
    exact ⟨(h.plain t h1).1, (h.plain t h1).2, fun hc => h2 (Or.inr hc)⟩
  obtain ⟨u, rest, hur, hu, hB, hwhy⟩ := tokenizeAt_spec isNumber opStrings (failOf whole stop) ts hplain
  change (match parseAt ftable (tokenizeAt isNumber opStrings (failOf whole stop) ts) with
    | .ok tree => Except.ok (wrapRoot tree)
    | .error e => .error e) = .error e at he
  generalize tokenizeAt isNumber opStrings (failOf whole stop) ts = st at he hu hB hwhy
  have he : parseAt ftable st = .error e := by
    split at he
    · simp at he
    · simp only [Except.error.injEq] at he
      subst he
      assumption
  refine ⟨ts, stop, ?_⟩
  suffices hs : ∃ o, e = (.patsyError, some o) ∧ Blames isNumber whole ts stop o by
    obtain ⟨o, h1, h2⟩ := hs
    exact ⟨o, hreads, h1, h2⟩
  unfold parseAt at he
  rcases runAt_spec ftable_ok (Inv.init ftable) st.items with ⟨s, h1, h2, h3⟩ | ⟨a, t, b, s, h1, h2, h3, h4, h5⟩
  · simp only [h1, List.nil_append] at he h3
    have hbeg := begins_of_inv hu h3
    rcases hwhy with ⟨rfl, hf⟩ | ⟨w, t, v, rfl, hw, ht, htm, hf⟩ | ⟨hp, hn, hf⟩ | ⟨hp, hd, hn, hf⟩
    · rw [List.append_nil] at hur
      subst hur
      rw [hf] at he
      cases stop with
      | bad t =>
        simp only [failOf, Except.error.injEq] at he
        refine ⟨_, he.symm, ?_⟩
        have := Blames.notAllowed (whole := whole) ts [] t hbeg (Or.inl rfl)
        simpa using this
      | unterminated =>
        simp only [failOf, Except.error.injEq] at he
        refine ⟨_, he.symm, ?_⟩
        have := Blames.string (whole := whole) ts [] hbeg (Or.inl rfl)
        simpa using this
      | finished =>
        simp only [failOf] at he
        have hnot : ∀ o, finishAt s = .error o → ¬ IsFormula isNumber ts := by
          intro o ho hF
          obtain ⟨c, hc, hcf⟩ := formula_parses hu hF
          have := parseAt_flatten c hc
          rw [hcf] at this
          unfold parseAt at this
          simp only [h1] at this
          rw [ho] at this
          simp at this
        cases h3 with
        | want fs g1 g2 =>
          cases fs with
          | nil =>
            exfalso
            simp only [framesToks, List.reverse_nil, List.flatMap_nil] at g2
            rw [← g2] at hu
            have := tokenizes_nil hu
            subst this
            exact hne hreads
          | cons f fs =>
            have hfin := hnot _ he
            simp only [finishAt, if_true, framesOps, List.map_cons] at he
            simp only [Except.error.injEq] at he
            refine ⟨_, he.symm, ?_⟩
            have hlast : st.items = (framesToks fs ++ f.toks.dropLast) ++ [f.op.token] := by
              rw [← g2, framesToks_cons]
              cases f <;> simp [Frame.toks, Frame.op, StackOp.token]
            rw [hlast] at hu
            obtain ⟨a, b, rfl, ha, hb, _⟩ := tokenizes_split hu
            obtain ⟨_, ⟨x, rfl, hx1, hx2⟩ | hx⟩ := covers_tok hb
            · have ho : f.op.token.origin = x.origin := opTok_origin hx2
              rw [ho]
              refine .unfinished a x hbeg hfin hx1 ?_
              intro hx
              generalize hz : f.op.token = z at hx2
              have hk : f.op.token.kind ≠ .rparen := by
                have := g1.1
                cases f with
                | paren t => simp only [Frame.op, StackOp.token]; rw [this]; simp
                | un t p => obtain ⟨k, hk, _⟩ := this; simp only [Frame.op, StackOp.token]; rw [hk]; simp
                | bin l t p => obtain ⟨⟨k, hk, _⟩, _⟩ := this; simp only [Frame.op, StackOp.token]; rw [hk]; simp
              cases hx2 with
              | l h => rw [hx] at h; simp at h
              | r h => rw [hz] at hk; exact hk rfl
              | o h1 h2 => exact h2 hx
            · exfalso
              obtain ⟨e', he'⟩ : ∃ e', ExprTok isNumber e' f.op.token := by
                rcases tokenizes_last hb f.op.token (by simp) with h | h
                · generalize ho : [f.op.token] = o at hb
                  cases hb with
                  | nil => simp at ho
                  | op t0 ts0 tok0 o0 hm0 =>
                    exact absurd hm0 (IsExpr.head hx t0 (by simp))
                  | expr e0 ts0 tok0 o0 _ _ _ htok0 =>
                    simp only [List.cons.injEq] at ho
                    rw [ho.1]
                    exact ⟨e0, htok0⟩
                · exact h
              exact frame_notAtom g1.1 he'
        | have_ fs c g1 g2 g3 g4 =>
          have hfin := hnot _ he
          simp only [finishAt, Bool.false_eq_true, if_false] at he
          rcases runAllAt_spec fs c g1 g2 with ⟨c', k1, k2, k3⟩ | ⟨t, fs', c', k1, k2, k3, k4⟩
          · rw [k1] at he
            simp at he
          · rw [k1] at he
            simp only [Except.error.injEq] at he
            refine ⟨_, he.symm, ?_⟩
            rw [← g4, k4] at hu
            obtain ⟨a, b, rfl, ha, hb, _⟩ := tokenizes_split hu
            obtain ⟨x, b', rfl, hx, hb', _⟩ := tokenizes_split (pre := [t]) hb
            obtain ⟨_, ⟨y, rfl, hy1, hy2⟩ | hy⟩ := covers_tok hx
            · have ho : t.origin = y.origin := opTok_origin hy2
              rw [ho]
              refine .open a y b' hbeg hfin ?_ ⟨c', k3, hb'⟩
              cases hy2 with
              | l h => exact h
              | r h => simp at k2
              | o h1 h2 => simp at k2
            · exfalso
              generalize ho : [t] = o at hx
              cases hx with
              | nil => simp at ho
              | op t0 ts0 tok0 o0 hm0 =>
                exact absurd hm0 (IsExpr.head hy t0 (by simp))
              | expr e0 ts0 tok0 o0 _ _ _ htok0 =>
                simp only [List.cons.injEq] at ho
                obtain ⟨k, hk, _⟩ := exprTok_kind htok0
                rw [← ho.1, k2] at hk
                simp at hk
    · rw [hf] at he
      simp only [Except.error.injEq] at he
      refine ⟨_, he.symm, ?_⟩
      subst hur
      rw [← List.append_assoc]
      refine .bracket u w t v stop hbeg (not_begins_of_bracket hu ?_ hw ht) hw ht
      rcases hB with hB | hB
      · exact Or.inl hB
      · refine Or.inr fun x hx => hB x ?_
        cases w with
        | nil => exact hx
        | cons y ys => exact hx
    · subst hur
      rw [hf] at he
      cases stop with
      | finished => simp [failOf] at hn
      | bad t =>
        simp only [failOf, Except.error.injEq] at he
        exact ⟨_, he.symm, .notAllowed u rest t hbeg (Or.inr hp)⟩
      | unterminated =>
        simp only [failOf, Except.error.injEq] at he
        exact ⟨_, he.symm, .string u rest hbeg (Or.inr hp)⟩
    · subst hur
      rw [hf] at he
      cases stop with
      | bad t => simp [failOf] at hn
      | unterminated => simp [failOf] at hn
      | finished =>
        simp only [Except.error.injEq] at he
        cases rest with
        | nil => exact absurd rfl hp.nonempty
        | cons x xs =>
          refine ⟨_, he.symm, .unclosed u (x :: xs) _ hbeg hp hd (covers_combine x xs)⟩
  · simp only [h5, Except.error.injEq] at he
    refine ⟨_, he.symm, ?_⟩
    rw [h1] at hu
    obtain ⟨x, y, rfl, hx, hy, hb⟩ := tokenizes_split hu
    obtain ⟨w, z, rfl, hw, hz, _⟩ := tokenizes_split (pre := [t]) hy
    have hwne : w ≠ [] := by
      rintro rfl
      have := tokenizes_of_nil hw
      simp at this
    have hb' : Boundary opStrings a w := by
      rcases hb with hb | hb
      · exact Or.inl hb
      · refine Or.inr fun q hq => hb q ?_
        cases w with
        | nil => exact absurd rfl hwne
        | cons q' qs => exact hq
    obtain ⟨c1, c2⟩ := covers_tok hw
    have := Blames.misplaced (whole := whole) x w (z ++ rest) stop t.origin (begins_of_inv hx (by simpa using h3))
      (not_begins_of_step hx h2 hw hb' h4)
      (c2.imp (fun ⟨q, q1, q2, _⟩ => ⟨q, q1, q2⟩) id) c1
    subst hur
    simpa [List.append_assoc] using this

/-! ### The lazy model and the model of C05, C06, C13 agree -/

theorem pythonStream_of_ok {fin : RawEnd} (whole : Origin) {raw ts : List PyTok} (h : pythonTokenize fin raw = .ok ts) :
    pythonStream fin whole raw = ⟨ts, none⟩ := by
  induction raw generalizing ts with
  | nil =>
    cases fin <;> simp [pythonTokenize] at h
    subst h
    rfl
  | cons t raw ih =>
    rw [pythonTokenize] at h
    rw [pythonStream]
    split
    · rename_i h0
      rw [if_pos h0] at h
      simp only [Except.ok.injEq] at h
      subst h
      rfl
    · rename_i h0
      rw [if_neg h0] at h
      split
      · rename_i h1
        rw [if_pos h1] at h
        split
        · rename_i h2
          rw [if_pos h2] at h
          exact ih h
        · rename_i h2
          rw [if_neg h2] at h
          simp at h
      · rename_i h1
        rw [if_neg h1] at h
        split
        · rename_i h2
          rw [if_pos h2] at h
          simp at h
        · rename_i h2
          rw [if_neg h2] at h
          split
          · rename_i h3
            rw [if_pos h3] at h
            simp at h
          · rename_i h3
            rw [if_neg h3] at h
            split at h
            · rename_i r hr
              simp only [Except.ok.injEq] at h
              subst h
              rw [ih hr]
              rfl
            · simp at h

theorem tokenize_of_stream {fin : RawEnd} {whole : Origin} {raw : List PyTok} (h : FromPython fin raw)
    (hf : (pythonStream fin whole raw).fail = none) :
    pythonTokenize fin raw = .ok (pythonStream fin whole raw).items := by
  obtain ⟨stop, hreads, hfail⟩ := pythonStream_spec whole h
  rw [hf] at hfail
  cases stop with
  | bad t => simp [failOf] at hfail
  | unterminated => simp [failOf] at hfail
  | finished =>
    generalize (pythonStream fin whole raw).items = ts at hreads ⊢
    cases hreads with
    | finished body h1 h2 => exact (python_tokenize_iff _ _ _).2 ⟨body, h1, h2, rfl⟩

theorem tokenizeAt_of_tokenizes {isNumber : String → Bool} {ts : List PyTok} {toks : List FTok}
    (hp : ∀ t ∈ ts, t.type ≠ .indent ∧ t.type ≠ .dedent ∧ t.type ≠ .nl) (h : Tokenizes isNumber opStrings ts toks) :
    tokenizeAt isNumber opStrings none ts = ⟨toks, none⟩ := by
  obtain ⟨u, rest, hur, hu, hB, hwhy⟩ := tokenizeAt_spec isNumber opStrings none ts hp
  subst hur
  obtain ⟨out, rfl, hout⟩ := tokenizes_prefix hu hB h
  rcases hwhy with ⟨rfl, hf⟩ | ⟨w, t, v, rfl, hw, ht, _, _⟩ | ⟨_, hn, _⟩ | ⟨hp, hd, _, _⟩
  · have := tokenizes_of_nil hout
    subst this
    rw [List.append_nil (tokenizeAt isNumber opStrings none (u ++ [])).items]
    cases hst : tokenizeAt isNumber opStrings none (u ++ []) with
    | mk items fail =>
      rw [hst] at hf
      simp only at hf
      rw [hf]
  · exact absurd hout (not_tokenizes_bracket hw ht)
  · exact absurd rfl hn
  · exact absurd hout (not_tokenizes_unclosed hp hd)

theorem plain_of_python {fin : RawEnd} {raw ts : List PyTok} (h : FromPython fin raw) {stop : Stop}
    (hr : Reads fin raw ts stop) : ∀ t ∈ ts, t.type ≠ .indent ∧ t.type ≠ .dedent ∧ t.type ≠ .nl := by
  intro t ht
  obtain ⟨h1, h2⟩ := reads_mem hr t ht
  exact ⟨(h.plain t h1).1, (h.plain t h1).2, fun hc => h2 (Or.inr hc)⟩

theorem reads_of_tokenize {fin : RawEnd} {raw ts : List PyTok} (h : pythonTokenize fin raw = .ok ts) :
    Reads fin raw ts .finished := by
  obtain ⟨body, h1, h2, rfl⟩ := (python_tokenize_iff _ _ _).1 h
  exact .finished body h1 h2

theorem located_of_parse {isNumber : String → Bool} {fin : RawEnd} (whole : Origin) {raw : List PyTok}
    {m : Node String (Option String)} (h : FromPython fin raw) (hm : parseFormula isNumber fin raw = .ok m) :
    parseFormulaAt isNumber fin whole raw = .ok m := by
  obtain ⟨toks, n, h1, h2, rfl⟩ := (parseFormula_ok _ _ _ _).1 hm
  obtain ⟨ts, h3, h4⟩ := (formulaTokens_iff _ _ _ _).1 h1
  have ht := (tokenize_iff isNumber opStrings defaultOps_parens ts toks).1 h4
  unfold parseFormulaAt
  simp only [pythonStream_of_ok whole h3]
  have h5 := tokenizeAt_of_tokenizes (plain_of_python h (reads_of_tokenize h3)) ht
  unfold opStrings at h5
  rw [h5]
  unfold infixParse at h2
  rw [defaultOps_ok] at h2
  simp only at h2
  rcases parseWith_spec ftable_ok toks with ⟨_, g⟩ | ⟨_, g⟩ | ⟨c, g1, g2, g3⟩
  · rw [g] at h2; simp at h2
  · rw [g] at h2; simp at h2
  · rw [g1] at h2
    simp only [Except.ok.injEq] at h2
    subst h2
    rw [← g3, parseAt_flatten c g2]

theorem parse_of_located {isNumber : String → Bool} {fin : RawEnd} {whole : Origin} {raw : List PyTok}
    {m : Node String (Option String)} (h : FromPython fin raw) (hm : parseFormulaAt isNumber fin whole raw = .ok m) :
    ∃ m', parseFormula isNumber fin raw = .ok m' := by
  obtain ⟨stop, hreads, hfail⟩ := pythonStream_spec whole h
  unfold parseFormulaAt at hm
  simp only at hm
  obtain ⟨u, rest, hur, hu, hB, hwhy⟩ := tokenizeAt_spec isNumber opStrings (pythonStream fin whole raw).fail
    (pythonStream fin whole raw).items (plain_of_python h hreads)
  change (match parseAt ftable (tokenizeAt isNumber opStrings (pythonStream fin whole raw).fail
      (pythonStream fin whole raw).items) with
    | .ok tree => Except.ok (wrapRoot tree)
    | .error e => .error e) = .ok m at hm
  generalize hst : tokenizeAt isNumber opStrings (pythonStream fin whole raw).fail
    (pythonStream fin whole raw).items = st at hm hu hB hwhy
  split at hm
  · rename_i tree htree
    unfold parseAt at htree
    split at htree
    · simp at htree
    · rename_i s hs
      split at htree
      · simp at htree
      · rename_i hnone
        rcases hwhy with ⟨rfl, hf⟩ | ⟨w, t, v, rfl, hw, ht, _, hf⟩ | ⟨_, hn, hf⟩ | ⟨hp, hd, _, hf⟩
        · rw [hnone] at hf
          have h1 := tokenize_of_stream h hf.symm
          rw [List.append_nil] at hur
          rw [← hur] at hu
          rcases runAt_spec ftable_ok (Inv.init ftable) st.items with ⟨s', k1, k2, k3⟩ | ⟨a, t, b, s', k1, k2, k3, k4, k5⟩
          · rw [k1] at hs
            simp only [Except.ok.injEq] at hs
            subst hs
            rw [List.nil_append] at k3
            obtain ⟨c, hc, hcf⟩ : ∃ c : Cst String (Option String), c.WF ftable ∧ c.flatten = st.items := by
              cases k3 with
              | want fs g1 g2 =>
                cases fs <;> simp [finishAt, framesOps] at htree
              | have_ fs c g1 g2 g3 g4 =>
                rcases runAllAt_spec fs c g1 g2 with ⟨c', q1, q2, q3⟩ | ⟨t, fs', c', q1, _⟩
                · exact ⟨c', q2, q3.trans g4⟩
                · simp [finishAt, q1] at htree
            obtain ⟨m', hm', _⟩ := (parse_formula_iff isNumber fin raw).2 st.items c
              ((formulaTokens_iff _ _ _ _).2 ⟨_, h1, (tokenize_iff isNumber opStrings defaultOps_parens _ _).2 hu⟩) hc hcf
            exact ⟨m', hm'⟩
          · rw [k5] at hs
            simp at hs
        · rw [hnone] at hf; simp at hf
        · rw [hnone] at hf; exact absurd hf.symm hn
        · rw [hnone] at hf; simp at hf
  · simp at hm

/-- **C57** (agreement).  Up to the positions of errors `parse_formula` is what C05 and C06 are about. -/
theorem located_agrees (isNumber : String → Bool) (fin : RawEnd) (whole : Origin) (raw : List PyTok) (h : FromPython fin raw) :
    parseFormula isNumber fin raw = (parseFormulaAt isNumber fin whole raw).mapError Prod.fst := by
  by_cases hne : Reads fin raw [] .finished
  · have h1 : pythonTokenize fin raw = .ok [] := by
      generalize hz : ([] : List PyTok) = z at hne
      generalize hs : Stop.finished = st at hne
      cases hne with
      | finished body h1 h2 => exact (python_tokenize_iff _ _ _).2 ⟨body, h1, h2, rfl⟩
      | bad => simp at hs
      | unterminated => simp at hs
    have h2 := pythonStream_of_ok whole h1
    have e1 : parseFormula isNumber fin raw = .error .indexError := by
      unfold parseFormula
      rw [h1]
      have : tokenizeFormula isNumber (defaultOps.map (·.tokenType)) [] = .ok [] := by
        simp only [tokenizeFormula]
        rw [if_neg (by decide), tokenizeLoop]
      simp only [bind, Except.bind, this]
      rfl
    have e2 : parseFormulaAt isNumber fin whole raw = .error (.indexError, none) := by
      unfold parseFormulaAt
      simp only [h2, tokenizeAt]
      rfl
    rw [e1, e2]
    rfl
  · cases hp : parseFormulaAt isNumber fin whole raw with
    | ok m =>
      obtain ⟨m', hm'⟩ := parse_of_located h hp
      have := located_of_parse whole h hm'
      rw [hp] at this
      simp only [Except.ok.injEq] at this
      subst this
      rw [hm']
      rfl
    | error e =>
      obtain ⟨ts, stop, o, _, rfl, _⟩ := syntax_error_position isNumber fin whole raw h hne e hp
      have hn : pythonTokenize fin raw ≠ .ok [] := fun hc => hne (reads_of_tokenize hc)
      rcases parse_formula_total isNumber fin raw h hn with ⟨m, hm⟩ | hm
      · rw [located_of_parse whole h hm] at hp
        simp at hp
      · rw [hm]
        rfl

/-! ### Examples -/

/-- What the error marks. -/
def marked (fin : RawEnd) (raw : List PyTok) : Option (Err × Option Origin) :=
  match parseFormulaAt (fun s => decide (s = "2")) fin ⟨0, 99⟩ raw with
  | .ok _ => none
  | .error e => some e

/-- The tokens with the usual end. -/
def withEnd (ts : List (PyType × String)) : List PyTok :=
  (ts.zipIdx.map fun p => exPy p.1.1 p.1.2 (2 * p.2)) ++ [exPy .newline "" 90, exPy .endmarker "" 91]

theorem withEnd_python (ts : List (PyType × String)) (h : ∀ p ∈ ts, p.1 ≠ .indent ∧ p.1 ≠ .dedent ∧ p.1 ≠ .nl ∧ p.1 ≠ .newline) :
    FromPython .exhausted (withEnd ts) := by
  have key : ∀ t ∈ withEnd ts, t = exPy .newline "" 90 ∨ t = exPy .endmarker "" 91 ∨ ∃ p ∈ ts, t.type = p.1 := by
    intro t ht
    simp only [withEnd, List.mem_append, List.mem_cons, List.not_mem_nil, or_false] at ht
    rcases ht with ht | ht | ht
    · obtain ⟨p, hp, rfl⟩ := List.mem_map.1 ht
      exact Or.inr (Or.inr ⟨p.1, List.fst_mem_of_mem_zipIdx hp, rfl⟩)
    · exact Or.inl ht
    · exact Or.inr (Or.inl ht)
  refine ⟨Or.inr ⟨exPy .endmarker "" 91, by simp [withEnd], rfl⟩, by simp, ?_, ?_⟩
  · intro t ht hl
    rcases key t ht with rfl | rfl | ⟨p, hp, hpt⟩
    · rfl
    · rfl
    · rcases hl with hl | hl <;> rw [hpt] at hl
      · exact absurd hl (h p hp).2.2.2
      · exact absurd hl (h p hp).2.2.1
  · intro t ht
    rcases key t ht with rfl | rfl | ⟨p, hp, hpt⟩
    · exact ⟨by decide, by decide⟩
    · exact ⟨by decide, by decide⟩
    · rw [hpt]; exact ⟨(h p hp).1, (h p hp).2.1⟩

/-- `y ~ + * a`: the `*`. -/
example : marked .exhausted (withEnd [(.name, "y"), (.op, "~"), (.op, "+"), (.op, "*"), (.name, "a")]) =
    some (.patsyError, some ⟨6, 7⟩) := by decide +kernel

/-- `(a) b[2]`: all of `b[2]`. -/
example : marked .exhausted (withEnd [(.op, "("), (.name, "a"), (.op, ")"), (.name, "b"), (.op, "["), (.number, "2"), (.op, "]")]) =
    some (.patsyError, some ⟨6, 13⟩) := by decide +kernel

/-- `(a) b]`: the bracket. -/
example : marked .exhausted (withEnd [(.op, "("), (.name, "a"), (.op, ")"), (.name, "b"), (.op, "]")]) =
    some (.patsyError, some ⟨8, 9⟩) := by decide +kernel

/-- `a + f(b +` (in the middle of a multi-line construct): all of `f(b +`. -/
example : marked .multiLine (withEnd [(.name, "a"), (.op, "+"), (.name, "f"), (.op, "("), (.name, "b"), (.op, "+")]) =
    some (.patsyError, some ⟨4, 11⟩) := by decide +kernel

/-- `(a + (b) +`: the last `+`. -/
example : marked .exhausted (withEnd [(.op, "("), (.name, "a"), (.op, "+"), (.op, "("), (.name, "b"), (.op, ")"), (.op, "+")]) =
    some (.patsyError, some ⟨12, 13⟩) := by decide +kernel

/-- `(a + (b:c`: the second parenthesis. -/
example : marked .exhausted (withEnd [(.op, "("), (.name, "a"), (.op, "+"), (.op, "("), (.name, "b"), (.op, ":"), (.name, "c")]) =
    some (.patsyError, some ⟨6, 7⟩) := by decide +kernel

/-- `a + f(b #`: the comment. -/
example : marked .exhausted (withEnd [(.name, "a"), (.op, "+"), (.name, "f"), (.op, "("), (.name, "b"), (.comment, "#")]) =
    some (.patsyError, some ⟨10, 11⟩) := by decide +kernel

/-- The hypotheses of the theorems are met. -/
example : FromPython .exhausted (withEnd [(.op, "("), (.name, "a"), (.op, "+"), (.op, "("), (.name, "b")]) ∧
    ¬ Reads .exhausted (withEnd [(.op, "("), (.name, "a"), (.op, "+"), (.op, "("), (.name, "b")]) [] .finished := by
  refine ⟨withEnd_python _ (by decide), ?_⟩
  intro h
  generalize hz : ([] : List PyTok) = z at h
  generalize hs : Stop.finished = st at h
  cases h with
  | finished body h1 h2 =>
    have h3 := (python_tokenize_iff _ _ _).2 ⟨body, h1, h2, rfl⟩
    rw [← hz] at h3
    exact absurd h3 (by
      intro hc
      have : (match pythonTokenize .exhausted (withEnd [(.op, "("), (.name, "a"), (.op, "+"), (.op, "("), (.name, "b")]) with
        | .ok r => r.length
        | .error _ => 0) = 5 := by decide +kernel
      rw [hc] at this
      simp at this)
  | bad => simp at hs
  | unterminated => simp at hs

end Patsy.Props
