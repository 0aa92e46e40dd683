import Verif.Spec.ErrorPosition
import Verif.Model.ErrorPosition
import Verif.Props.ParseFormula

/-! # Lemmas about syntax errors -/

namespace Patsy.Located

open Patsy.Infix Patsy.Tokens Patsy.Formula Patsy.Spec Patsy.Desc Patsy.Props

/-- Formula tokens. -/
abbrev FTok := Tok String (Option String)

/-- The table of the formula language. -/
abbrev ftable : Table String := mkTable defaultOps atomicTokenTypes

/-! ### Formula tokens -/

variable {isNumber : String → Bool} {ops : List String}

theorem IsExpr.head {e : List PyTok} (h : IsExpr ops e) : ∀ t ∈ e.head?, ¬ IsMagic ops t := by
  intro t ht hm
  cases e with
  | nil => simp at ht
  | cons a e =>
    obtain rfl : a = t := by simpa using ht
    have := h.no_operator [] a e rfl rfl
    rcases hm with hm | hm | hm
    · exact h.notParen a (by simp) hm
    · exact this.1 hm
    · exact this.2 hm

/-- The last token is an operator or a parenthesis, or the next token does not go on with the expression. -/
def Boundary (ops : List String) (pre : List FTok) (v : List PyTok) : Prop :=
  (∀ tok ∈ pre.getLast?, tok.extra = none) ∨ ∀ t ∈ v.head?, t.str = ")" ∨ t.str ∈ ops

theorem Boundary.tail {a : FTok} {pre : List FTok} {v : List PyTok} (h : Boundary ops (a :: pre) v) (hne : pre ≠ []) :
    Boundary ops pre v := by
  rcases h with h | h
  · left
    intro tok htok
    apply h
    rwa [List.getLast?_cons_of_ne_nil hne]
  · exact Or.inr h

theorem opTok_extra {t : PyTok} {tok : FTok} (h : OpTok t tok) : tok.extra = none := by cases h <;> rfl

theorem opTok_origin {t : PyTok} {tok : FTok} (h : OpTok t tok) : tok.origin = t.origin := by cases h <;> rfl

theorem exprTok_extra {e : List PyTok} {tok : FTok} (h : ExprTok isNumber e tok) : tok.extra ≠ none := by
  cases h; simp

theorem opTok_unique {t : PyTok} {a b : FTok} (ha : OpTok t a) (hb : OpTok t b) : a = b := by
  cases ha <;> cases hb <;> simp_all

theorem tokenizes_nil {u : List PyTok} (h : Tokenizes isNumber ops u []) : u = [] := by
  generalize hz : ([] : List FTok) = z at h
  cases h with
  | nil => rfl
  | op => simp at hz
  | expr => simp at hz

theorem tokenizes_of_nil {out : List FTok} (h : Tokenizes isNumber ops [] out) : out = [] := by
  generalize hz : ([] : List PyTok) = z at h
  cases h with
  | nil => rfl
  | op => simp at hz
  | expr e ts tok out he => simp at hz; exact absurd hz.1 he.nonempty

theorem tokenizes_append {u v : List PyTok} {pre out : List FTok} (hu : Tokenizes isNumber ops u pre)
    (hv : Tokenizes isNumber ops v out) (hb : Boundary ops pre v) : Tokenizes isNumber ops (u ++ v) (pre ++ out) := by
  induction hu with
  | nil => exact hv
  | op t ts tok pre hm ho hts ih =>
    refine .op t _ tok _ hm ho ?_
    by_cases hne : pre = []
    · subst hne
      cases hts
      exact hv
    · exact ih (hb.tail hne)
  | expr e ts tok pre he hend hhead htok hts ih =>
    rw [List.append_assoc]
    by_cases hne : pre = []
    · subst hne
      cases hts
      refine .expr e _ tok _ he ?_ hhead htok hv
      rcases hb with hb | hb
      · exact absurd (hb tok (by simp)) (exprTok_extra htok)
      · exact hb
    · refine .expr e _ tok _ he ?_ hhead htok (ih (hb.tail hne))
      cases ts with
      | nil => exact absurd (tokenizes_of_nil hts) hne
      | cons x xs => exact hend

/-- Tokens can be cut anywhere. -/
theorem tokenizes_split {u : List PyTok} {pre post : List FTok} (h : Tokenizes isNumber ops u (pre ++ post)) :
    ∃ a b, u = a ++ b ∧ Tokenizes isNumber ops a pre ∧ Tokenizes isNumber ops b post ∧ Boundary ops pre b := by
  induction pre generalizing u with
  | nil => exact ⟨[], u, rfl, .nil, h, Or.inl (by simp)⟩
  | cons x pre ih =>
    rw [List.cons_append] at h
    cases h with
    | op t ts tok out hm ho hts =>
      obtain ⟨a, b, rfl, ha, hb, hB⟩ := ih hts
      refine ⟨t :: a, b, rfl, .op t a x pre hm ho ha, hb, ?_⟩
      by_cases hne : pre = []
      · subst hne
        exact Or.inl (by simpa using opTok_extra ho)
      · rcases hB with hB | hB
        · exact Or.inl (by rwa [List.getLast?_cons_of_ne_nil hne])
        · exact Or.inr hB
    | expr e ts tok out he hend hhead htok hts =>
      obtain ⟨a, b, rfl, ha, hb, hB⟩ := ih hts
      refine ⟨e ++ a, b, by simp, .expr e a x pre he ?_ hhead htok ha, hb, ?_⟩
      · intro t ht
        refine hend t ?_
        cases a with
        | nil => simp at ht
        | cons y ys => exact ht
      · by_cases hne : pre = []
        · subst hne
          cases ha
          exact Or.inr hend
        · rcases hB with hB | hB
          · exact Or.inl (by rwa [List.getLast?_cons_of_ne_nil hne])
          · exact Or.inr hB

theorem isExpr_read {e r : List PyTok} (he : IsExpr ops e) (hr : ∀ t ∈ r.head?, t.str = ")" ∨ t.str ∈ ops) :
    readLoop (")" :: ops) 0 (e ++ r) = .ok (e, r, 0) := by
  apply readLoop_complete
  refine ⟨by simp [he.balanced], ?_, ?_, ?_⟩
  · intro p s hp
    simpa using he.never_negative p s hp
  · intro p u s hp hd
    have := he.no_operator p u s hp (by simpa using hd)
    simpa [List.mem_cons] using this
  · intro u hu
    exact ⟨rfl, by simpa [List.mem_cons] using hr u hu⟩

theorem expr_unique {e e' r r' : List PyTok} (he : IsExpr ops e) (hr : ∀ t ∈ r.head?, t.str = ")" ∨ t.str ∈ ops)
    (he' : IsExpr ops e') (hr' : ∀ t ∈ r'.head?, t.str = ")" ∨ t.str ∈ ops) (h : e ++ r = e' ++ r') : e = e' ∧ r = r' := by
  have h1 := isExpr_read he hr
  rw [h, isExpr_read he' hr'] at h1
  simp only [Except.ok.injEq, Prod.mk.injEq] at h1
  exact ⟨h1.1.symm, h1.2.1.symm⟩

/-- The tokens of a beginning do not depend on what follows. -/
theorem tokenizes_prefix {u x : List PyTok} {pre toks : List FTok} (hu : Tokenizes isNumber ops u pre)
    (hb : Boundary ops pre x) (h : Tokenizes isNumber ops (u ++ x) toks) :
    ∃ out, toks = pre ++ out ∧ Tokenizes isNumber ops x out := by
  induction hu generalizing toks with
  | nil => exact ⟨toks, rfl, h⟩
  | op t ts tok pre hm ho hts ih =>
    generalize hz : t :: ts ++ x = z at h
    cases h with
    | nil => simp at hz
    | op t' ts' tok' out hm' ho' hts' =>
      simp only [List.cons_append, List.cons.injEq] at hz
      obtain ⟨rfl, rfl⟩ := hz
      obtain rfl := opTok_unique ho ho'
      by_cases hne : pre = []
      · subst hne
        cases hts
        exact ⟨out, rfl, hts'⟩
      · obtain ⟨out', rfl, ho⟩ := ih (hb.tail hne) hts'
        exact ⟨out', rfl, ho⟩
    | expr e ts' tok' out he hend hhead htok hts' =>
      cases e with
      | nil => exact absurd rfl he.nonempty
      | cons y e =>
        simp only [List.cons_append, List.cons.injEq] at hz
        exact absurd (hz.1 ▸ hm) (hhead y (by simp))
  | expr e ts tok pre he hend hhead htok hts ih =>
    generalize hz : e ++ ts ++ x = z at h
    cases h with
    | nil => simp at hz; exact absurd hz.1 he.nonempty
    | op t' ts' tok' out hm' ho' hts' =>
      cases e with
      | nil => exact absurd rfl he.nonempty
      | cons y e =>
        simp only [List.cons_append, List.cons.injEq] at hz
        exact absurd (hz.1 ▸ hm') (hhead y (by simp))
    | expr e' ts' tok' out he' hend' hhead' htok' hts' =>
      rw [List.append_assoc] at hz
      have hr : ∀ t ∈ (ts ++ x).head?, t.str = ")" ∨ t.str ∈ ops := by
        cases ts with
        | nil =>
          have := tokenizes_of_nil hts
          subst this
          rcases hb with hb | hb
          · exact absurd (hb tok (by simp)) (exprTok_extra htok)
          · exact hb
        | cons y ys => exact hend
      obtain ⟨rfl, rfl⟩ := expr_unique he hr he' hend' hz
      have etok : tok = tok' := by
        cases htok with
        | mk t ts text h1 =>
          generalize hq : t :: ts = q at htok'
          cases htok' with
          | mk t' ts' text' h2 =>
            simp only [List.cons.injEq] at hq
            obtain ⟨rfl, rfl⟩ := hq
            rw [h1] at h2
            simp only [Except.ok.injEq] at h2
            subst h2
            rfl
      subst etok
      by_cases hne : pre = []
      · subst hne
        cases hts
        exact ⟨out, rfl, hts'⟩
      · obtain ⟨out', rfl, ho⟩ := ih (hb.tail hne) hts'
        exact ⟨out', rfl, ho⟩

/-! ### Reading expressions -/

theorem read_nil {ends : List String} {lvl : Nat} {rest : List PyTok} (h : ∀ t ∈ rest.head?, lvl = 0 ∧ t.str ∈ ends) :
    Read ends lvl [] rest lvl := by
  refine ⟨by simp [depth], ?_, ?_, h⟩
  · intro p s hp
    have : p = [] := by simp at hp; exact hp.1
    subst this; simp [depth]
  · intro p t s hp; simp at hp

theorem read_cons {ends : List String} {lvl lvl' l : Nat} {t : PyTok} {e rest : List PyTok} (hr : Read ends lvl' e rest l)
    (hc : ¬ (lvl = 0 ∧ t.str ∈ ends)) (hb : bracketLevel lvl t.str = some lvl') : Read ends lvl (t :: e) rest l := by
  have hl := bracketLevel_some hb
  refine ⟨?_, ?_, ?_, hr.stop⟩
  · rw [hr.level, depth_cons]; omega
  · intro p s hp
    cases p with
    | nil => simp [depth]
    | cons x p =>
      simp only [List.cons_append, List.cons.injEq] at hp
      obtain ⟨rfl, hp⟩ := hp
      have := hr.nonneg p s hp
      rw [depth_cons]; omega
  · intro p u s hp h0
    cases p with
    | nil =>
      simp only [List.nil_append, List.cons.injEq] at hp
      obtain ⟨rfl, hp⟩ := hp
      simp only [depth_nil] at h0
      exact fun hm => hc ⟨by omega, hm⟩
    | cons x p =>
      simp only [List.cons_append, List.cons.injEq] at hp
      obtain ⟨rfl, hp⟩ := hp
      rw [depth_cons] at h0
      exact hr.no_end p u s hp (by omega)

theorem readAt_ok {fail : Option LErr} {ends : List String} {lvl : Nat} {ts e rest : List PyTok} {l : Nat}
    (h : readAt fail ends lvl ts = .ok (e, rest, l)) : Read ends lvl e rest l ∧ (rest = [] → fail = none) := by
  induction ts generalizing lvl e with
  | nil =>
    cases fail <;> simp [readAt] at h
    obtain ⟨rfl, rfl, rfl⟩ := h
    exact ⟨read_nil (by simp), fun _ => rfl⟩
  | cons t ts ih =>
    rw [readAt] at h
    split at h
    · rename_i hc
      simp at h; obtain ⟨rfl, rfl, rfl⟩ := h
      exact ⟨read_nil (by simpa using hc), by simp⟩
    · rename_i hc
      split at h
      · simp at h
      · rename_i lvl' hb
        split at h
        · rename_i e' rest' l' heq
          simp at h
          obtain ⟨rfl, rfl, rfl⟩ := h
          exact ⟨read_cons (ih heq).1 hc hb, (ih heq).2⟩
        · simp at h

theorem readAt_error {fail : Option LErr} {ends : List String} {lvl : Nat} {ts : List PyTok} {err : LErr}
    (h : readAt fail ends lvl ts = .error err) :
    (∃ w t v, ts = w ++ t :: v ∧ Read ends lvl w [] 0 ∧ t.str ∉ ends ∧ (t.str = ")" ∨ t.str = "]" ∨ t.str = "}") ∧
      err = (.patsyError, some t.origin)) ∨ (fail = some err ∧ ∃ l, Read ends lvl ts [] l) := by
  induction ts generalizing lvl with
  | nil =>
    cases fail <;> simp [readAt] at h
    subst h
    exact Or.inr ⟨rfl, lvl, read_nil (by simp)⟩
  | cons t ts ih =>
    rw [readAt] at h
    split at h
    · simp at h
    · rename_i hc
      split at h
      · rename_i hb
        simp only [Except.error.injEq] at h
        have h0 : lvl = 0 ∧ (t.str = ")" ∨ t.str = "]" ∨ t.str = "}") := by
          unfold bracketLevel at hb
          split at hb
          · simp at hb
          · split at hb
            · rename_i h2
              cases lvl with
              | zero => exact ⟨rfl, h2⟩
              | succ l => simp at hb
            · simp at hb
        obtain ⟨rfl, h0⟩ := h0
        exact Or.inl ⟨[], t, ts, rfl, read_nil (by simp), fun hm => hc ⟨rfl, hm⟩, h0, h.symm⟩
      · rename_i lvl' hb
        split at h
        · simp at h
        · rename_i e heq
          simp only [Except.error.injEq] at h
          subst h
          rcases ih heq with ⟨w, u, v, rfl, h1, h2, h3, h4⟩ | ⟨h1, l, h2⟩
          · exact Or.inl ⟨t :: w, u, v, rfl, read_cons h1 hc hb, h2, h3, h4⟩
          · exact Or.inr ⟨h1, l, read_cons h2 hc hb⟩

theorem partExpr_of_read {e rest : List PyTok} {l : Nat} (hr : Read (")" :: ops) 0 e rest l) (hne : e ≠ [])
    (hp : ∀ t ∈ e.head?, t.str ≠ "(") : PartExpr ops e := by
  refine ⟨hne, hp, ?_, ?_⟩
  · intro p s h
    simpa using hr.nonneg p s h
  · intro p u s h hd
    have := hr.no_end p u s h (by simpa using hd)
    simpa [List.mem_cons] using this

theorem isExpr_of_part {e : List PyTok} (h : PartExpr ops e) (h0 : depth e = 0) : IsExpr ops e :=
  ⟨h.nonempty, h.notParen, h0, h.never_negative, h.no_operator⟩

/-- What `_tokenize_formula` yields, and why it stops. -/
theorem tokenizeAt_spec (isNumber : String → Bool) (ops : List String) (fail : Option LErr) (ts : List PyTok)
    (hp : ∀ t ∈ ts, t.type ≠ .indent ∧ t.type ≠ .dedent ∧ t.type ≠ .nl) :
    ∃ u rest, ts = u ++ rest ∧ Tokenizes isNumber ops u (tokenizeAt isNumber ops fail ts).items ∧
      Boundary ops (tokenizeAt isNumber ops fail ts).items rest ∧
      ((rest = [] ∧ (tokenizeAt isNumber ops fail ts).fail = fail) ∨
       (∃ w t v, rest = w ++ t :: v ∧ (w = [] ∨ IsExpr ops w) ∧ (t.str = "]" ∨ t.str = "}") ∧ ¬ IsMagic ops t ∧
          (tokenizeAt isNumber ops fail ts).fail = some (.patsyError, some t.origin)) ∨
       (PartExpr ops rest ∧ fail ≠ none ∧ (tokenizeAt isNumber ops fail ts).fail = fail) ∨
       (PartExpr ops rest ∧ 0 < depth rest ∧ fail = none ∧
          (tokenizeAt isNumber ops fail ts).fail = some (.patsyError, originOf rest))) := by
  induction hn : ts.length using Nat.strongRecOn generalizing ts with
  | _ n ih =>
    subst hn
    cases ts with
    | nil => exact ⟨[], [], rfl, by rw [tokenizeAt]; exact .nil, Or.inr (by simp), Or.inl ⟨rfl, by rw [tokenizeAt]⟩⟩
    | cons t ts =>
      rw [tokenizeAt]
      split
      · rename_i hm
        obtain ⟨u, rest, rfl, h1, h2, h3⟩ := ih ts.length (by simp) ts (fun u hu => hp u (by simp [hu])) rfl
        refine ⟨t :: u, rest, rfl, .op t u _ _ hm ?_ h1, ?_, h3⟩
        · by_cases h1 : t.str = "("
          · rw [magicKind, if_pos h1]; exact .l t h1
          · by_cases h2 : t.str = ")"
            · rw [magicKind, if_neg h1, if_pos h2]; exact .r t h2
            · rw [magicKind, if_neg h1, if_neg h2]; exact .o t h1 h2
        · simp only [Stream.cons]
          by_cases hne : (tokenizeAt isNumber ops fail (u ++ rest)).items = []
          · rw [hne]
            exact Or.inl (by simp)
          · rcases h2 with h2 | h2
            · exact Or.inl (by rwa [List.getLast?_cons_of_ne_nil hne])
            · exact Or.inr h2
      · rename_i hm
        have hend : t.str ∉ ")" :: ops := by
          rw [List.mem_cons]; exact fun hc => hm (Or.inr hc)
        split
        · rename_i err heq
          refine ⟨[], t :: ts, rfl, .nil, Or.inl (by simp), Or.inr ?_⟩
          rcases readAt_error heq with ⟨w, x, v, hw, hr, hx, hx', rfl⟩ | ⟨hf, l, hr⟩
          · refine Or.inl ⟨w, x, v, hw, ?_, ?_, ?_, rfl⟩
            · by_cases hne : w = []
              · exact Or.inl hne
              · refine Or.inr (isExpr_of_part (partExpr_of_read hr hne ?_) ?_)
                · intro y hy
                  cases w with
                  | nil => simp at hy
                  | cons z w =>
                    simp only [List.cons_append, List.cons.injEq] at hw
                    obtain rfl : z = y := by simpa using hy
                    exact fun hc => hm (Or.inl (hw.1 ▸ hc))
                · have := hr.level
                  simpa using this.symm
            · simp only [List.mem_cons, not_or] at hx
              exact hx'.resolve_left hx.1
            · simp only [List.mem_cons, not_or] at hx
              rintro (h | h | h)
              · rw [h] at hx'; simp at hx'
              · exact hx.1 h
              · exact hx.2 h
          · exact Or.inr (Or.inl ⟨partExpr_of_read hr (by simp) (by
              intro y hy
              obtain rfl : t = y := by simpa using hy
              exact fun hc => hm (Or.inl hc)), by rw [hf]; simp, hf.symm⟩)
        · rename_i e rest lvl heq
          have happ := readAt_append heq
          have hlen := readAt_consumes hend heq
          obtain ⟨hr, hf⟩ := readAt_ok heq
          cases e with
          | nil => simp at happ; subst happ; simp at hlen
          | cons t' e =>
            have ht' : t' = t := by simp at happ; exact happ.1
            have hpart : PartExpr ops (t' :: e) := partExpr_of_read hr (by simp) (by
              intro y hy
              obtain rfl : t' = y := by simpa using hy
              exact fun hc => hm (Or.inl (ht' ▸ hc)))
            split
            · rename_i err herr
              unfold finishExprAt at herr
              split at herr
              · rename_i h0
                exfalso
                obtain ⟨s, hs⟩ := prettyUntokenize_ok ((t' :: e).map fun t => (t.type, t.str)) (by
                  intro u hu
                  obtain ⟨v, hv, rfl⟩ := List.mem_map.mp hu
                  exact hp v (by rw [← happ]; exact List.mem_append_left _ hv))
                have : finishExpr isNumber (t' :: e) 0 = .ok ⟨.sym (exprType isNumber s),
                    Origin.combine t'.origin (e.map (·.origin)), some s⟩ := by
                  simp only [finishExpr, if_true]
                  rw [hs]
                rw [this] at herr
                simp at herr
              · rename_i h0
                simp only [Except.error.injEq] at herr
                have hrest : rest = [] := by
                  cases rest with
                  | nil => rfl
                  | cons y ys => exact absurd (hr.stop y (by simp)).1 h0
                subst hrest
                refine ⟨[], t :: ts, rfl, .nil, Or.inl (by simp), Or.inr (Or.inr (Or.inr ?_))⟩
                rw [List.append_nil] at happ
                rw [← happ]
                refine ⟨hpart, ?_, hf rfl, by rw [herr]⟩
                have := hr.level
                omega
            · rename_i tok htok
              obtain ⟨u, rest', hrest, h1, h2, h3⟩ := ih rest.length hlen rest (fun u hu => hp u (by rw [← happ]; simp [hu])) rfl
              unfold finishExprAt at htok
              split at htok
              · rename_i h0
                subst h0
                have hE : IsExpr ops (t' :: e) := isExpr_of_part hpart (by have := hr.level; simpa using this.symm)
                have hstop : ∀ y ∈ rest.head?, y.str = ")" ∨ y.str ∈ ops := by
                  intro y hy
                  have := (hr.stop y hy).2
                  simpa [List.mem_cons] using this
                have hT : ExprTok isNumber (t' :: e) tok := by
                  simp only [finishExpr, if_true] at htok
                  split at htok
                  · rename_i tok' heq'
                    simp only [Except.ok.injEq] at htok
                    subst htok
                    split at heq'
                    · simp at heq'
                    · rename_i text htext
                      simp only [Except.ok.injEq] at heq'
                      subst heq'
                      exact .mk t' e text htext
                  · simp at htok
                refine ⟨(t' :: e) ++ u, rest', ?_, ?_, ?_, h3⟩
                · rw [← happ, List.append_assoc, ← hrest]
                · refine .expr _ u tok _ hE ?_ (IsExpr.head hE) hT h1
                  intro y hy
                  refine hstop y ?_
                  rw [hrest]
                  cases u with
                  | nil => simp at hy
                  | cons z zs => exact hy
                · simp only [Stream.cons]
                  by_cases hne : (tokenizeAt isNumber ops fail rest).items = []
                  · rw [hne] at h1
                    have := tokenizes_nil h1
                    subst this
                    simp only [List.nil_append] at hrest
                    subst hrest
                    exact Or.inr hstop
                  · rcases h2 with h2 | h2
                    · exact Or.inl (by rwa [List.getLast?_cons_of_ne_nil hne])
                    · exact Or.inr h2
              · simp at htok

/-! ### The parser -/

/-- An unfinished formula can be finished by closing its parentheses. -/
theorem close_frames {σ ε : Type} {tb : Table σ} (r : Tok σ ε) (hr : r.kind = .rparen) (fs : List (Frame σ ε))
    (c : Cst σ ε) (hf : FramesWF tb fs c.leftEdge) (hc : c.WF tb) :
    ∃ k, ∃ c' : Cst σ ε, c'.WF tb ∧ c'.flatten = framesToks fs ++ c.flatten ++ List.replicate k r := by
  induction fs generalizing c with
  | nil => exact ⟨0, c, hc, by simp [framesToks]⟩
  | cons f fs ih =>
    obtain ⟨h1, h2, h3⟩ := hf
    cases f with
    | paren t =>
      obtain ⟨k, c', g1, g2⟩ := ih (.paren t c r) (by simpa [Cst.leftEdge, Frame.edge] using h3) ⟨h1, hr, hc⟩
      refine ⟨k + 1, c', g1, ?_⟩
      rw [g2, framesToks_cons]
      simp [Cst.flatten, Frame.toks, List.replicate_succ]
    | un t p =>
      obtain ⟨k, c', g1, g2⟩ := ih (.un t p c) (by simpa [Cst.leftEdge, Frame.edge] using h3) ⟨h1, hc, h2⟩
      refine ⟨k, c', g1, ?_⟩
      rw [g2, framesToks_cons]
      simp [Cst.flatten, Frame.toks]
    | bin l t p =>
      obtain ⟨k1, k2, k3⟩ := h1
      obtain ⟨k, c', g1, g2⟩ := ih (.bin l t p c) (by simpa [Cst.leftEdge, Frame.edge] using h3) ⟨k1, k2, hc, k3, h2⟩
      refine ⟨k, c', g1, ?_⟩
      rw [g2, framesToks_cons]
      simp [Cst.flatten, Frame.toks]

theorem runAllAt_spec {σ ε : Type} {tb : Table σ} (fs : List (Frame σ ε)) (c : Cst σ ε)
    (hf : FramesWF tb fs c.leftEdge) (hc : c.WF tb) :
    (∃ c' : Cst σ ε, runAllAt (framesOps fs) (toNode c :: framesNouns fs) = .ok [toNode c'] ∧ c'.WF tb ∧
      c'.flatten = framesToks fs ++ c.flatten) ∨
    ∃ (t : Tok σ ε) (fs' : List (Frame σ ε)) (c' : Cst σ ε), runAllAt (framesOps fs) (toNode c :: framesNouns fs) = .error (.patsyError, some t.origin) ∧
      t.kind = .lparen ∧ c'.WF tb ∧ framesToks fs ++ c.flatten = framesToks fs' ++ t :: c'.flatten := by
  induction fs generalizing c with
  | nil => left; exact ⟨c, rfl, hc, by simp [framesToks]⟩
  | cons f fs ih =>
    by_cases hp : f.op.isParen = true
    · cases f with
      | paren t => right; exact ⟨t, fs, c, rfl, hf.1, hc, by simp [framesToks_cons, Frame.toks]⟩
      | un t p => simp [Frame.op, StackOp.isParen] at hp
      | bin l t p => simp [Frame.op, StackOp.isParen] at hp
    · have hp' : f.op.isParen = false := by simpa using hp
      obtain ⟨c1, g1, g2, g3, _, g5⟩ := reduce_top hf hc hp'
      have heq : runAllAt (framesOps (f :: fs)) (toNode c :: framesNouns (f :: fs)) =
          runAllAt (framesOps fs) (toNode c1 :: framesNouns fs) := by
        cases hop : f.op with
        | paren t => rw [hop] at hp; simp [StackOp.isParen] at hp
        | op n p t =>
          have := g5 p t n hop
          rw [hop] at this
          simp only [framesOps, framesNouns, List.map_cons, List.flatMap_cons, hop] at *
          simp [runAllAt, this]
      rw [heq]
      rcases ih c1 g2 g1 with ⟨c', k1, k2, k3⟩ | ⟨t, fs', c', k1, k2, k3, k4⟩
      · left
        refine ⟨c', k1, k2, ?_⟩
        rw [k3, framesToks_cons, g3, List.append_assoc]
      · right
        refine ⟨t, fs', c', k1, k2, k3, ?_⟩
        rw [← k4, framesToks_cons, g3, List.append_assoc]

theorem runAt_spec {σ ε : Type} {tb : Table σ} (htb : TableOk tb) {pre : List (Tok σ ε)} {s : State σ ε}
    (hi : Inv tb pre s) (ts : List (Tok σ ε)) :
    (∃ s', runAt tb s ts = .ok s' ∧ run tb s ts = .ok s' ∧ Inv tb (pre ++ ts) s') ∨
    ∃ a t b s', ts = a ++ t :: b ∧ run tb s a = .ok s' ∧ Inv tb (pre ++ a) s' ∧ step tb s' t = .error .patsyError ∧
      runAt tb s ts = .error (.patsyError, some t.origin) := by
  induction ts generalizing pre s with
  | nil => left; exact ⟨s, rfl, rfl, by simpa using hi⟩
  | cons t ts ih =>
    rcases step_spec htb hi t with h | ⟨s', h1, h2⟩
    · right
      exact ⟨[], t, ts, s, rfl, rfl, by simpa using hi, h, by simp [runAt, h]⟩
    · rcases ih h2 with ⟨s'', k1, k2, k3⟩ | ⟨a, x, b, s'', rfl, k2, k3, k4, k5⟩
      · left
        exact ⟨s'', by simp [runAt, h1, k1], by simp [run, h1, k2], by simpa using k3⟩
      · right
        exact ⟨t :: a, x, b, s'', rfl, by simp [run, h1, k2], by simpa using k3, k4, by simp [runAt, h1, k5]⟩

theorem Inv.init {σ ε : Type} (tb : Table σ) : Inv tb [] (⟨[], [], true⟩ : State σ ε) := by
  have := Inv.want (tb := tb) (pre := []) ([] : List (Frame σ ε)) trivial (by simp [framesToks])
  simpa [framesOps, framesNouns] using this

theorem parseAt_ok {σ ε : Type} {tb : Table σ} (htb : TableOk tb) (c : Cst σ ε) (hc : c.WF tb) :
    parseAt tb ⟨c.flatten, none⟩ = .ok (toNode c) := by
  have hr := run_flatten htb c hc [] [] (by intro o ho; simp at ho)
  unfold parseAt
  rcases runAt_spec htb (Inv.init tb) c.flatten with ⟨s, h1, h2, h3⟩ | ⟨a, t, b, s, h1, h2, h3, h4, h5⟩
  · simp only [h1]
    rw [hr] at h2
    simp only [Except.ok.injEq] at h2
    subst h2
    have : ∀ (c : Cst σ ε) ops nouns, runAllAt (rspOps c ++ ops) (rspNouns c ++ nouns) =
        runAllAt ops (toNode c :: nouns) := by
      intro c
      induction c with
      | atom t => intros; rfl
      | paren l c r ih => intros; rfl
      | un t p c ih =>
        intro ops nouns
        simp only [rspOps, rspNouns, List.append_assoc, List.cons_append, List.nil_append]
        rw [ih]
        simp [runAllAt, runOp, toNode]
      | bin l t p r ihl ihr =>
        intro ops nouns
        simp only [rspOps, rspNouns, List.append_assoc, List.cons_append, List.nil_append]
        rw [ihr]
        simp [runAllAt, runOp, toNode]
    simp only [finishAt, Bool.false_eq_true, if_false]
    rw [this]
    simp [runAllAt]
  · rw [h1, run_append_ok h2] at hr
    simp [run, h4] at hr

/-! ### Beginnings of formulas -/

theorem ftable_ok : TableOk ftable := tableOk_of_checkOps defaultOps_ok atomicTokenTypes

theorem atom_kind {k : String} (h : k = "ZERO" ∨ k = "ONE" ∨ k = "NUMBER" ∨ k = "PYTHON_EXPR") :
    ftable.unary k = none ∧ ftable.binary k = none ∧ ftable.atomic k = true := by
  rcases h with rfl | rfl | rfl | rfl <;> exact ⟨by decide, by decide, by decide⟩

theorem exprTok_kind {e : List PyTok} {tok : FTok} (h : ExprTok isNumber e tok) :
    ∃ k, tok.kind = .sym k ∧ ftable.unary k = none ∧ ftable.binary k = none ∧ ftable.atomic k = true := by
  cases h with
  | mk t ts text ht =>
    refine ⟨_, rfl, atom_kind ?_⟩
    split
    · exact Or.inl rfl
    · split
      · exact Or.inr (Or.inl rfl)
      · split
        · exact Or.inr (Or.inr (Or.inl rfl))
        · exact Or.inr (Or.inr (Or.inr rfl))

/-- The Python token `)`. -/
def closeTok : PyTok := ⟨.op, ")", ⟨0, 0⟩⟩

/-- The Python token `x`. -/
def nameTok : PyTok := ⟨.name, "x", ⟨0, 0⟩⟩

/-- Their formula tokens. -/
def closeF : FTok := ⟨.rparen, ⟨0, 0⟩, none⟩

/-- Their formula tokens. -/
def nameF (isNumber : String → Bool) : FTok := ⟨.sym (if isNumber "x" then "NUMBER" else "PYTHON_EXPR"), ⟨0, 0⟩, some "x"⟩

theorem tokenizes_close (k : Nat) :
    Tokenizes isNumber opStrings (List.replicate k closeTok) (List.replicate k closeF) := by
  induction k with
  | zero => exact .nil
  | succ k ih => exact .op closeTok _ closeF _ (Or.inr (Or.inl rfl)) (.r closeTok rfl) ih

theorem head_replicate {k : Nat} : ∀ t ∈ (List.replicate k closeTok).head?, t.str = ")" ∨ t.str ∈ opStrings := by
  intro t ht
  cases k with
  | zero => simp at ht
  | succ k =>
    simp only [List.replicate_succ, List.head?_cons, Option.mem_def, Option.some.injEq] at ht
    subst ht
    exact Or.inl rfl

theorem nameTok_isExpr : IsExpr opStrings [nameTok] := by
  refine ⟨by simp, ?_, by decide, ?_, ?_⟩
  · intro t ht
    obtain rfl : nameTok = t := by simpa using ht
    decide
  · intro p s h
    cases p with
    | nil => simp [depth]
    | cons a p =>
      simp only [List.cons_append, List.cons.injEq] at h
      obtain ⟨rfl, h⟩ := h
      have : p = [] := by simp at h; exact h.1
      subst this
      decide
  · intro p t s h _
    cases p with
    | nil =>
      simp only [List.nil_append, List.cons.injEq] at h
      obtain ⟨rfl, _⟩ := h
      decide
    | cons a p => simp at h

theorem tokenizes_name (k : Nat) :
    Tokenizes isNumber opStrings (nameTok :: List.replicate k closeTok) (nameF isNumber :: List.replicate k closeF) := by
  refine .expr [nameTok] _ _ _ nameTok_isExpr head_replicate (IsExpr.head nameTok_isExpr) ?_ (tokenizes_close k)
  have := ExprTok.mk (isNumber := isNumber) nameTok [] "x" (by rfl)
  simpa [nameF, nameTok, Origin.combine] using this

theorem tokenizes_last {u : List PyTok} {pre : List FTok} (hu : Tokenizes isNumber ops u pre) :
    ∀ tok ∈ pre, tok.extra = none ∨ ∃ e, ExprTok isNumber e tok := by
  induction hu with
  | nil => simp
  | op t ts tok pre hm ho hts ih =>
    intro x hx
    rcases List.mem_cons.1 hx with rfl | hx
    · exact Or.inl (opTok_extra ho)
    · exact ih x hx
  | expr e ts tok pre he hend hhead htok hts ih =>
    intro x hx
    rcases List.mem_cons.1 hx with rfl | hx
    · exact Or.inr ⟨e, htok⟩
    · exact ih x hx

/-- The token of the frame on top is the last one. -/
theorem framesToks_last {σ ε : Type} {f : Frame σ ε} {fs : List (Frame σ ε)} :
    (framesToks (f :: fs)).getLast? = some f.op.token := by
  rw [framesToks_cons]
  cases f <;> simp [Frame.toks, Frame.op, StackOp.token]

theorem frame_notAtom {f : Frame String (Option String)} (h : f.WF ftable) {e : List PyTok} :
    ¬ ExprTok isNumber e f.op.token := by
  intro he
  obtain ⟨k, hk, h1, h2, _⟩ := exprTok_kind he
  cases f with
  | paren t => simp only [Frame.op, StackOp.token, Frame.WF] at hk h; rw [hk] at h; simp at h
  | un t p =>
    obtain ⟨s, hs, hu⟩ := h
    simp only [Frame.op, StackOp.token] at hk
    rw [hk] at hs
    simp only [Kind.sym.injEq] at hs
    subst hs
    rw [h1] at hu
    simp at hu
  | bin l t p =>
    obtain ⟨⟨s, hs, hu⟩, _⟩ := h
    simp only [Frame.op, StackOp.token] at hk
    rw [hk] at hs
    simp only [Kind.sym.injEq] at hs
    subst hs
    rw [h2] at hu
    simp at hu

/-- What the parser has read without an error is the beginning of a formula. -/
theorem begins_of_inv {u : List PyTok} {pre : List FTok} {s : State String (Option String)}
    (hu : Tokenizes isNumber opStrings u pre) (hi : Inv ftable pre s) : BeginsFormula isNumber u := by
  cases hi with
  | want fs h1 h2 =>
    subst h2
    have hat : (Cst.atom (nameF isNumber) : Cst String (Option String)).WF ftable := by
      refine ⟨_, rfl, ?_⟩
      have := atom_kind (k := if isNumber "x" then "NUMBER" else "PYTHON_EXPR") (by split <;> simp)
      exact ⟨this.1, this.2.2⟩
    obtain ⟨k, c', g1, g2⟩ := close_frames closeF rfl fs (.atom (nameF isNumber)) (by simpa [Cst.leftEdge] using h1) hat
    refine ⟨nameTok :: List.replicate k closeTok, c', g1, ?_⟩
    rw [g2, List.append_assoc]
    refine tokenizes_append hu (by simpa [Cst.flatten] using tokenizes_name k) (Or.inl ?_)
    intro tok htok
    cases fs with
    | nil => simp [framesToks] at htok
    | cons f fs =>
      rw [framesToks_last] at htok
      have : f.op.token = tok := by simpa using htok
      subst this
      rcases tokenizes_last hu f.op.token (List.mem_of_getLast? framesToks_last) with h | ⟨e, he⟩
      · exact h
      · exact absurd he (frame_notAtom h1.1)
  | have_ fs c h1 h2 h3 h4 =>
    subst h4
    obtain ⟨k, c', g1, g2⟩ := close_frames closeF rfl fs c h1 h2
    refine ⟨List.replicate k closeTok, c', g1, ?_⟩
    rw [g2]
    exact tokenizes_append hu (tokenizes_close k) (Or.inr head_replicate)

/-- A formula is read without an error. -/
theorem run_of_formula {ts : List PyTok} (h : IsFormula isNumber ts) :
    ∃ toks s, Tokenizes isNumber opStrings ts toks ∧ run ftable ⟨[], [], true⟩ toks = .ok s := by
  obtain ⟨c, hc, ht⟩ := h
  exact ⟨_, _, ht, run_flatten ftable_ok c hc [] [] (by intro o ho; simp at ho)⟩

/-- A token the parser does not accept cannot come there in any formula. -/
theorem not_begins_of_step {u w : List PyTok} {pre : List FTok} {t : FTok} {s : State String (Option String)}
    (hu : Tokenizes isNumber opStrings u pre) (hr : run ftable ⟨[], [], true⟩ pre = .ok s)
    (hw : Tokenizes isNumber opStrings w [t]) (hb : Boundary opStrings pre w) (hs : step ftable s t = .error .patsyError) :
    ¬ BeginsFormula isNumber (u ++ w) := by
  rintro ⟨v, hv⟩
  obtain ⟨toks, s', ht, hrun⟩ := run_of_formula hv
  have hwne : w ≠ [] := by
    rintro rfl
    have := tokenizes_of_nil hw
    simp at this
  rw [List.append_assoc] at ht
  have hb' : Boundary opStrings pre (w ++ v) := by
    rcases hb with hb | hb
    · exact Or.inl hb
    · refine Or.inr fun x hx => hb x ?_
      cases w with
      | nil => exact absurd rfl hwne
      | cons y ys => exact hx
  obtain ⟨out, rfl, hout⟩ := tokenizes_prefix hu hb' ht
  rw [run_append_ok hr] at hrun
  generalize hz : w ++ v = z at hout
  generalize ho : [t] = o at hw
  cases hw with
  | nil => simp at ho
  | op t0 ts tok o' hm hop hts =>
    simp only [List.cons.injEq] at ho
    obtain ⟨rfl, rfl⟩ := ho
    have := tokenizes_nil hts
    subst this
    cases hout with
    | nil => simp at hz
    | op t1 ts1 tok1 out1 hm1 hop1 hts1 =>
      simp only [List.cons_append, List.cons.injEq] at hz
      obtain ⟨rfl, _⟩ := hz
      obtain rfl := opTok_unique hop hop1
      simp [run, hs] at hrun
    | expr e ts1 tok1 out1 he hend hhead htok hts1 =>
      cases e with
      | nil => exact absurd rfl he.nonempty
      | cons y e =>
        simp only [List.cons_append, List.cons.injEq] at hz
        exact hhead y (by simp) (hz.1 ▸ hm)
  | expr e ts tok o' he hend hhead htok hts =>
    simp only [List.cons.injEq] at ho
    obtain ⟨rfl, rfl⟩ := ho
    have := tokenizes_nil hts
    subst this
    cases hout with
    | nil => simp at hz; exact he.nonempty hz.1
    | op t1 ts1 tok1 out1 hm1 hop1 hts1 =>
      cases e with
      | nil => exact he.nonempty rfl
      | cons y e =>
        simp only [List.cons_append, List.cons.injEq] at hz
        exact hhead y (by simp) (hz.1 ▸ hm1)
    | expr e1 ts1 tok1 out1 he1 hend1 hhead1 htok1 hts1 =>
      obtain ⟨k, hk, k1, k2, k3⟩ := exprTok_kind htok
      obtain ⟨j, hj, j1, j2, j3⟩ := exprTok_kind htok1
      cases hwn : s.wantNoun with
      | true => simp [step, hwn, readNoun, hk, k1, k3] at hs
      | false => simp [run, step, hwn, readOp, hj, j2] at hrun

/-- A closing bracket without an opening one: there are no formula tokens. -/
theorem not_tokenizes_bracket {w v : List PyTok} {t : PyTok} {out : List FTok} (hw : w = [] ∨ IsExpr opStrings w)
    (ht : t.str = "]" ∨ t.str = "}") : ¬ Tokenizes isNumber opStrings (w ++ ([t] ++ v)) out := by
  intro hout
  have htm : ¬ IsMagic opStrings t := by
    rcases ht with ht | ht <;> rw [IsMagic, ht] <;> decide
  have hbr : bracket t.str = -1 := by
    rcases ht with ht | ht <;> rw [ht] <;> decide
  have hw0 : depth w = 0 := by
    rcases hw with rfl | hw
    · rfl
    · exact hw.balanced
  have hneg : ¬ 0 ≤ depth (w ++ [t]) := by
    have : depth (w ++ [t]) = -1 := by
      simp only [depth, List.map_append, List.sum_append, List.map_cons, List.map_nil, List.sum_cons, List.sum_nil] at hw0 ⊢
      rw [hw0, hbr]
      rfl
    rw [this]
    decide
  have hfirst : ∀ x ∈ (w ++ ([t] ++ v)).head?, ¬ IsMagic opStrings x := by
    intro x hx
    rcases hw with rfl | hw
    · obtain rfl : t = x := by simpa using hx
      exact htm
    · refine IsExpr.head hw x ?_
      cases w with
      | nil => exact absurd rfl hw.nonempty
      | cons y ys => exact hx
  generalize hz : w ++ ([t] ++ v) = z at hout hfirst
  cases hout with
  | nil => simp at hz
  | op t1 ts1 tok1 out1 hm1 hop1 hts1 => exact hfirst t1 (by simp) hm1
  | expr e1 ts1 tok1 out1 he1 hend1 hhead1 htok1 hts1 =>
    rcases List.append_eq_append_iff.1 hz with ⟨a, h1, h2⟩ | ⟨a, h1, h2⟩
    · -- `e1 = w ++ a`, `[t] ++ v = a ++ ts1`
      cases a with
      | nil =>
        simp only [List.nil_append] at h2
        rw [← h2] at hend1
        exact htm (Or.inr (hend1 t (by simp)))
      | cons x a =>
        simp only [List.cons_append, List.nil_append, List.cons.injEq] at h2
        obtain ⟨rfl, _⟩ := h2
        exact hneg (he1.never_negative (w ++ [t]) a (by rw [h1]; simp))
    · -- `w = e1 ++ a`, `ts1 = a ++ [t] ++ v`
      rcases hw with rfl | hw
      · simp at h1
        exact he1.nonempty h1.1
      · cases a with
        | nil =>
          simp only [List.nil_append] at h2
          rw [h2] at hend1
          exact htm (Or.inr (hend1 t (by simp)))
        | cons x a =>
          have h3 := hend1 x (by rw [h2]; simp)
          have h4 := hw.no_operator e1 x a h1 he1.balanced
          rcases h3 with h3 | h3
          · exact h4.1 h3
          · exact h4.2 h3

/-- A closing bracket without an opening one cannot come in any formula. -/
theorem not_begins_of_bracket {u w : List PyTok} {pre : List FTok} {t : PyTok}
    (hu : Tokenizes isNumber opStrings u pre) (hb : Boundary opStrings pre (w ++ [t])) (hw : w = [] ∨ IsExpr opStrings w)
    (ht : t.str = "]" ∨ t.str = "}") : ¬ BeginsFormula isNumber (u ++ w ++ [t]) := by
  rintro ⟨v, c, hc, hv⟩
  rw [List.append_assoc, List.append_assoc] at hv
  have hb' : Boundary opStrings pre (w ++ ([t] ++ v)) := by
    rcases hb with hb | hb
    · exact Or.inl hb
    · refine Or.inr fun x hx => hb x ?_
      cases w with
      | nil => exact hx
      | cons y ys => exact hx
  obtain ⟨out, _, hout⟩ := tokenizes_prefix hu hb' hv
  exact not_tokenizes_bracket hw ht hout

/-- With an open bracket at the end there are no formula tokens. -/
theorem not_tokenizes_unclosed {w : List PyTok} {out : List FTok} (hw : PartExpr opStrings w) (hd : 0 < depth w) :
    ¬ Tokenizes isNumber opStrings w out := by
  intro h
  cases h with
  | nil => exact hw.nonempty rfl
  | op t ts tok out hm =>
    have := hw.no_operator [] t ts rfl rfl
    rcases hm with hm | hm | hm
    · exact hw.notParen t (by simp) hm
    · exact this.1 hm
    · exact this.2 hm
  | expr e ts tok out he hend hhead htok hts =>
    cases ts with
    | nil => rw [List.append_nil, he.balanced] at hd; omega
    | cons x ts =>
      have h1 := hend x (by simp)
      have h2 := hw.no_operator e x ts rfl he.balanced
      rcases h1 with h1 | h1
      · exact h2.1 h1
      · exact h2.2 h1

/-- The combined origin of some tokens covers exactly these. -/
theorem covers_combine (t : PyTok) (ts : List PyTok) :
    Covers (Origin.combine t.origin (ts.map (·.origin))) (t :: ts) := by
  have hmin : ∀ (os : List Origin) (a : Nat), ∀ o ∈ os, os.foldl (fun a b => min a b.start) a ≤ o.start := by
    intro os
    induction os with
    | nil => simp
    | cons x os ih =>
      intro a o ho
      simp only [List.foldl_cons]
      rcases List.mem_cons.1 ho with rfl | ho
      · have := foldl_min_le os (min a o.start); omega
      · exact ih _ o ho
  have hmax : ∀ (os : List Origin) (a : Nat), ∀ o ∈ os, o.stop ≤ os.foldl (fun a b => max a b.stop) a := by
    intro os
    induction os with
    | nil => simp
    | cons x os ih =>
      intro a o ho
      simp only [List.foldl_cons]
      rcases List.mem_cons.1 ho with rfl | ho
      · have := (foldl_max_mem os (max a o.stop)).2; omega
      · exact ih _ o ho
  unfold Origin.combine
  refine ⟨?_, ?_, ?_⟩
  · intro x hx
    rcases List.mem_cons.1 hx with rfl | hx
    · exact ⟨foldl_min_le _ _, (foldl_max_mem _ _).2⟩
    · exact ⟨hmin _ _ _ (List.mem_map_of_mem hx), hmax _ _ _ (List.mem_map_of_mem hx)⟩
  · rcases foldl_min_mem (ts.map (·.origin)) t.origin.start with h | ⟨o, ho, h⟩
    · exact ⟨t, by simp, h.symm⟩
    · obtain ⟨x, hx, rfl⟩ := List.mem_map.1 ho
      exact ⟨x, by simp [hx], h.symm⟩
  · rcases (foldl_max_mem (ts.map (·.origin)) t.origin.stop).1 with h | ⟨o, ho, h⟩
    · exact ⟨t, by simp, h.symm⟩
    · obtain ⟨x, hx, rfl⟩ := List.mem_map.1 ho
      exact ⟨x, by simp [hx], h.symm⟩

/-- One formula token covers the Python tokens it is made of. -/
theorem covers_tok {w : List PyTok} {t : FTok} (h : Tokenizes isNumber ops w [t]) :
    Covers t.origin w ∧ ((∃ x, w = [x] ∧ IsMagic ops x ∧ OpTok x t) ∨ IsExpr ops w) := by
  generalize ho : [t] = o at h
  cases h with
  | nil => simp at ho
  | op t0 ts tok o' hm hop hts =>
    simp only [List.cons.injEq] at ho
    obtain ⟨rfl, rfl⟩ := ho
    have := tokenizes_nil hts
    subst this
    refine ⟨?_, Or.inl ⟨t0, rfl, hm, hop⟩⟩
    have : t.origin = t0.origin := by cases hop <;> rfl
    rw [this]
    simp [Covers]
  | expr e ts tok o' he hend hhead htok hts =>
    simp only [List.cons.injEq] at ho
    obtain ⟨rfl, rfl⟩ := ho
    have := tokenizes_nil hts
    subst this
    rw [List.append_nil]
    refine ⟨?_, Or.inr he⟩
    cases htok with
    | mk x xs text h => exact covers_combine x xs

end Patsy.Located
