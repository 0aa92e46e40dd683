import Verif.Model.Message
import Verif.Spec.Message
import Verif.Props.EvalPosition

/-!
# C57, C61: the message of an error underlines the text to blame
-/

set_option linter.unusedSectionVars false

namespace Patsy.Props

open Patsy.Infix Patsy.Tokens Patsy.Formula Patsy.Desc Patsy.Spec Patsy.Util Patsy.Located
open Patsy.Program (Embedded)

variable {F : Type} [DecidableEq F] {mkFactor : String → Except Err F} {toInt : String → Option Int}

theorem underlined_blank (line : List Char) (k : Nat) (marks : List Char) :
    underlined line (List.replicate k ' ' ++ marks) = underlined (line.drop k) marks := by
  induction k generalizing line with
  | zero => simp
  | succ k ih =>
    cases line with
    | nil => simp [underlined]
    | cons c line => simp only [List.drop_succ_cons, ← ih line]; simp [underlined, List.replicate_succ]

theorem underlined_carets (line : List Char) (l : Nat) : underlined line (List.replicate l '^') = line.take l := by
  induction l generalizing line with
  | zero => simp [underlined]
  | succ l ih =>
    cases line with
    | nil => simp [underlined]
    | cons c line => simp only [List.take_succ_cons, ← ih line]; simp [underlined, List.replicate_succ]

/-- **C57, C61** (message).  For a position inside the text, the message shows the text and underlines exactly the characters at that
position. -/
theorem message_shows (message code : List Char) (o : Origin) (h1 : o.start < o.stop) (h2 : o.stop ≤ code.length) :
    Shows (errorText message code (some o)) message code (relevantCode code o) := by
  refine ⟨⟨List.replicate 4 ' ' ++ code, List.replicate (4 + o.start) ' ' ++ List.replicate (o.stop - o.start) '^',
    ?_, ⟨_, rfl, by simp⟩, ⟨_, _, rfl, by omega⟩, by simp; omega, ?_⟩, ?_⟩
  · simp [errorText, caretize, List.replicate_add]
  · rw [underlined_blank, underlined_carets]
    rw [show List.drop (4 + o.start) (List.replicate 4 ' ' ++ code) = List.drop o.start code by
      rw [← List.drop_drop]; rfl, relevantCode, List.drop_take]
  · intro h
    have := congrArg List.length h
    simp [relevantCode] at this
    omega

/-- The position is a piece of a text of length `n`. -/
def Inside (n : Nat) (o : Origin) : Prop := o.start < o.stop ∧ o.stop ≤ n

theorem inside_covers {n : Nat} {o : Origin} {w : List PyTok} (hw : ∀ t ∈ w, Inside n t.origin) (h : Spec.Covers o w) :
    Inside n o := by
  obtain ⟨h1, ⟨a, ha, ea⟩, ⟨b, hb, eb⟩⟩ := h
  have := (hw a ha).1
  have := (hw b hb).2
  have := (h1 a ha).2
  exact ⟨by omega, by omega⟩

theorem inside_blames {isNumber : String → Bool} {n : Nat} {whole : Origin} {ts : List PyTok} {stop : Stop} {o : Origin}
    (hw : Inside n whole) (hts : ∀ t ∈ ts, Inside n t.origin) (hstop : ∀ t, stop = .bad t → Inside n t.origin)
    (h : Blames isNumber whole ts stop o) : Inside n o := by
  cases h with
  | misplaced u w v _ _ _ _ _ hc => exact inside_covers (fun t ht => hts t (by simp [ht])) hc
  | bracket u w t v => exact hts t (by simp)
  | notAllowed u w t => exact hstop t rfl
  | string => exact hw
  | unclosed u w _ _ _ _ hc => exact inside_covers (fun t ht => hts t (by simp [ht])) hc
  | unfinished u t => exact hts t (by simp)
  | «open» u t v => exact hts t (by simp)

theorem inside_tokens {isNumber : String → Bool} {ops : List String} {n : Nat} {ts : List PyTok}
    {out : List (Tok String (Option String))} (hts : ∀ t ∈ ts, Inside n t.origin) (h : Tokenizes isNumber ops ts out) :
    ∀ t ∈ out, Inside n t.origin := by
  induction h with
  | nil => simp
  | op t ts tok out hm ho _ ih =>
    have hto : tok.origin = t.origin := by cases ho <;> rfl
    intro u hu
    rcases List.mem_cons.mp hu with rfl | hu
    · rw [hto]; exact hts t (by simp)
    · exact ih (fun u hu => hts u (by simp [hu])) u hu
  | expr e ts tok out hex hnext hm ht _ ih =>
    intro u hu
    rcases List.mem_cons.mp hu with rfl | hu
    · cases ht with
      | mk t e text htext =>
        have h0 := hts t (by simp)
        have h1 := foldl_min_le (e.map (·.origin)) t.origin.start
        obtain ⟨h2, h3⟩ := foldl_max_mem (e.map (·.origin)) t.origin.stop
        have h4 : (e.map (·.origin)).foldl (fun a b => max a b.stop) t.origin.stop ≤ n := by
          rcases h2 with h2 | ⟨o, ho, h2⟩
          · rw [h2]; exact h0.2
          · obtain ⟨a, ha, rfl⟩ := List.mem_map.mp ho
            rw [h2]; exact (hts a (by simp [ha])).2
        have h5 := h0.1
        exact ⟨by simp only [Origin.combine]; omega, h4⟩
    · exact ih (fun u hu => hts u (by simp [hu])) u hu

/-- The position of a part of the tree. -/
def PartAt : FTree → Origin → Prop
  | .atom _ o, p => p = o
  | .unary _ a o, p => p = o ∨ PartAt a p
  | .binary _ a b o, p => p = o ∨ PartAt a p ∨ PartAt b p

theorem partAt_origin (n : FTree) : PartAt n n.origin := by
  cases n <;> simp [PartAt, Node.origin]

theorem asks_part {n : FTree} {p : Origin} (h : AsksAt mkFactor toInt n p) : PartAt n p := by
  induction h with
  | one => rfl
  | negZero => exact .inl rfl
  | pos _ _ ih => exact .inr ih
  | plusRight _ _ _ ih => exact .inr (.inr ih)
  | plusLeft _ _ _ _ _ ih => exact .inr (.inl ih)
  | minusZero => exact .inr (.inr (partAt_origin _))
  | minusLeft _ _ _ _ _ _ ih => exact .inr (.inl ih)

theorem wrong_part {n : FTree} {p : Origin} (h : Wrong mkFactor toInt n p) : PartAt n p := by
  induction h with
  | number => rfl
  | sign => exact .inl rfl
  | tilde => exact .inl rfl
  | tilde₂ => exact .inl rfl
  | interceptLeft _ _ _ h => exact .inr (.inl (asks_part h))
  | interceptRight _ _ _ _ h => exact .inr (.inr (asks_part h))
  | interceptPower _ _ h => exact .inr (.inl (asks_part h))
  | exponent => exact .inr (.inr (partAt_origin _))
  | operand _ _ ih => exact .inr ih
  | left _ _ ih => exact .inr (.inl ih)
  | right _ _ _ _ _ ih => exact .inr (.inr ih)

theorem formulaWrong_part {n : FTree} {p : Origin} (h : FormulaWrong mkFactor toInt n p) : PartAt n p := by
  cases h with
  | bare _ h => exact wrong_part h
  | tilde _ h => exact .inr (wrong_part h)
  | left _ h => exact .inr (.inl (wrong_part h))
  | right _ _ h => exact .inr (.inr (wrong_part h))

theorem inside_part {n : Nat} (c : Cst String (Option String)) (hinc : Increasing c.flatten)
    (hin : ∀ t ∈ c.flatten, Inside n t.origin) : Inside n c.span ∧ ∀ p, PartAt c.locate p → Inside n p := by
  induction c with
  | atom t =>
    have := hin t (by simp [Cst.flatten])
    refine ⟨this, ?_⟩
    rintro p rfl; exact this
  | paren l c r ih =>
    have h1 := Increasing.append (ts := l :: c.flatten) (us := [r]) (by simpa [Cst.flatten] using hinc)
    have h0 := Increasing.append (ts := [l]) (us := c.flatten) h1.1
    obtain ⟨_, i2⟩ := ih h0.2.1 fun t ht => hin t (by simp [Cst.flatten, ht])
    have hl := hin l (by simp [Cst.flatten])
    have hr := hin r (by simp [Cst.flatten])
    have hlr := h1.2.2 l (by simp) r (by simp)
    have hs : Inside n (Cst.paren l c r).span := by
      have := hl.1; have := hr.1
      exact ⟨by simp only [Cst.span, Cst.first, Cst.last]; omega, hr.2⟩
    refine ⟨hs, ?_⟩
    intro p hp
    simp only [Cst.locate] at hp
    cases hc : c.locate with
    | atom t o => rw [hc] at hp; cases hp; exact hs
    | unary t a o =>
      rw [hc] at hp i2
      rcases hp with rfl | hp
      · exact hs
      · exact i2 p (.inr hp)
    | binary t a b o =>
      rw [hc] at hp i2
      rcases hp with rfl | hp
      · exact hs
      · exact i2 p (.inr hp)
  | un t q c ih =>
    have h1 := Increasing.append (ts := [t]) (us := c.flatten) (by simpa [Cst.flatten] using hinc)
    obtain ⟨i1, i2⟩ := ih h1.2.1 fun u hu => hin u (by simp [Cst.flatten, hu])
    have ht := hin t (by simp [Cst.flatten])
    have h2 := h1.2.2 t (by simp) _ (first_mem c)
    have hs : Inside n (Cst.un t q c).span := by
      have := ht.1
      have := i1.1
      simp only [Cst.span] at this
      exact ⟨by simp only [Cst.span, Cst.first, Cst.last]; omega, i1.2⟩
    refine ⟨hs, ?_⟩
    rintro p (rfl | hp)
    · exact hs
    · exact i2 p hp
  | bin l t q r ihl ihr =>
    have h1 := Increasing.append (ts := l.flatten) (us := t :: r.flatten) (by simpa [Cst.flatten] using hinc)
    have h2 := Increasing.append (ts := [t]) (us := r.flatten) h1.2.1
    obtain ⟨i1, i2⟩ := ihl h1.1 fun u hu => hin u (by simp [Cst.flatten, hu])
    obtain ⟨j1, j2⟩ := ihr h2.2.1 fun u hu => hin u (by simp [Cst.flatten, hu])
    have h3 := h1.2.2 _ (last_mem l) _ (List.mem_cons_of_mem t (first_mem r))
    have hs : Inside n (Cst.bin l t q r).span := by
      have := i1.1
      have := j1.1
      simp only [Cst.span] at *
      exact ⟨by simp only [Cst.first, Cst.last]; omega, j1.2⟩
    refine ⟨hs, ?_⟩
    rintro p (rfl | hp | hp)
    · exact hs
    · exact i2 p hp
    · exact j2 p hp

/-- **C57, C61** (message).  For every text of which no model can be made, the message of the exception shows the text and underlines
a non-empty piece of it, namely the one at the position to blame.  Hypotheses on Python's tokenizer: the tokens are in order, and
all but ends of lines and of the text are non-empty pieces of the text. -/
theorem formula_error_message (isNumber : String → Bool) (fin : RawEnd) (code message : List Char) (raw : List PyTok)
    (h : FromPython fin raw) (hin : InOrder raw) (hne : ¬ Props.Reads fin raw [] .finished)
    (hpieces : ∀ t ∈ raw, ¬ LineEnd t → t.type ≠ .endmarker → t.origin.start < t.origin.stop ∧ t.origin.stop ≤ code.length)
    (htext : code ≠ [])
    (hcode : ∀ e s, Embedded fin raw e s → ∃ f, mkFactor s = .ok f) (x : LErr)
    (hx : fromFormulaAt isNumber mkFactor toInt fin ⟨0, code.length⟩ raw = .error x) :
    ∃ p, x = (.patsyError, some p) ∧ Shows (errorText message code x.2) message code (relevantCode code p) ∧
      ((∃ ts stop, Props.Reads fin raw ts stop ∧ Blames isNumber ⟨0, code.length⟩ ts stop p) ∨
        ∃ c : Cst String (Option String), FormulaTokens isNumber fin raw c.flatten ∧ c.WF ftable ∧
          FormulaWrong mkFactor toInt c.locate p) := by
  obtain ⟨p, rfl, hp⟩ := formula_error_position isNumber fin _ raw h hin hne hcode x hx
  refine ⟨p, rfl, ?_, hp⟩
  have key : Inside code.length p := by
    rcases hp with ⟨ts, stop, hr, hb⟩ | ⟨c, hc, _, hw⟩
    · have hmem : ∀ t ∈ ts, Inside code.length t.origin := by
        intro t ht
        obtain ⟨h1, h2⟩ := reads_mem hr t ht
        refine hpieces t h1 h2 ?_
        cases hr with
        | finished body hd _ =>
          obtain ⟨ht, _⟩ := List.mem_filter.1 ht
          rcases hd with ⟨e, rest, _, _, hd⟩ | ⟨_, _, hd⟩ <;> exact hd t ht
        | bad body u rest _ hd => exact (hd t (List.mem_filter.1 ht).1).2
        | unterminated _ hd => exact (hd t (List.mem_filter.1 ht).1).2
      refine inside_blames ⟨List.length_pos_iff.mpr htext, le_refl _⟩ hmem ?_ hb
      rintro t rfl
      cases hr with
      | bad body _ rest hraw _ ht =>
        refine hpieces t (by simp [hraw]) ?_ ?_
        · rintro (hl | hl) <;> rcases ht with ht | ht <;> rw [hl] at ht <;> simp at ht
        · rcases ht with ht | ht <;> simp [ht]
    · obtain ⟨ts, h3, h4⟩ := (formulaTokens_iff _ _ _ _).1 hc
      have hr := reads_of_tokenize h3
      obtain ⟨body, hb, _, hts⟩ := (python_tokenize_iff _ _ _).1 h3
      have hsub : ts.Sublist raw := by
        rw [hts]
        refine List.filter_sublist.trans ?_
        rcases hb with ⟨e, rest, rfl, _⟩ | ⟨rfl, _⟩
        · exact List.sublist_append_left _ _
        · exact List.Sublist.refl _
      have hmem : ∀ t ∈ ts, Inside code.length t.origin := by
        intro t ht
        obtain ⟨h1, h2⟩ := reads_mem hr t ht
        refine hpieces t h1 h2 ?_
        rw [hts] at ht
        obtain ⟨ht, _⟩ := List.mem_filter.1 ht
        rcases hb with ⟨e, rest, _, _, hb⟩ | ⟨_, _, hb⟩ <;> exact hb t ht
      have hinc := tokenize_increasing _ _ _ _ ⟨fun t ht => hin.1 t (hsub.subset ht), hin.2.sublist hsub⟩ h4
      have htok := inside_tokens hmem ((tokenize_iff isNumber opStrings defaultOps_parens ts _).1 h4)
      exact (inside_part c hinc htok).2 p (formulaWrong_part hw)
  exact message_shows message code p key.1 key.2

/-- The hypotheses are met by `a : 1` (a name, an operator and a number, at 0, 2 and 4). -/
example : ∃ p, Shows (errorText "bad".toList "a : 1".toList (some p)) "bad".toList "a : 1".toList (relevantCode "a : 1".toList p) := by
  have hx : fromFormulaAt (fun _ => false) (.ok : String → Except Err String) (fun _ => none) .exhausted ⟨0, 5⟩
      (withEnd [(.name, "a"), (.op, ":"), (.number, "1")]) = .error (.patsyError, some ⟨4, 5⟩) := by
    have h : (match fromFormulaAt (fun _ => false) (.ok : String → Except Err String) (fun _ => none) .exhausted ⟨0, 5⟩
      (withEnd [(.name, "a"), (.op, ":"), (.number, "1")]) with
        | .ok _ => none
        | .error e => some e) = some (.patsyError, some ⟨4, 5⟩) := by decide +kernel
    revert h
    cases fromFormulaAt (fun _ => false) (.ok : String → Except Err String) (fun _ => none) .exhausted ⟨0, 5⟩
      (withEnd [(.name, "a"), (.op, ":"), (.number, "1")]) <;> simp
  obtain ⟨p, hp, hs, _⟩ := formula_error_message (fun _ => false) .exhausted "a : 1".toList "bad".toList _
    (withEnd_python [(.name, "a"), (.op, ":"), (.number, "1")] (by decide)) (withEnd_inOrder _ (by decide)) (by
      intro h
      generalize hts : ([] : List PyTok) = ts at h
      cases h with
      | finished body hb _ =>
        rcases hb with ⟨e, rest, he, _, hb⟩ | ⟨h, _⟩
        · cases body with
          | nil => simp [withEnd, exPy] at he; obtain ⟨rfl, _⟩ := he; contradiction
          | cons t body =>
            simp [withEnd, exPy] at he
            obtain ⟨rfl, _⟩ := he
            simp [LineEnd] at hts
        · subst h; simp [withEnd, exPy, LineEnd] at hts)
    (by decide) (by decide) (fun _ s _ => ⟨s, rfl⟩) _ hx
  exact ⟨p, by rw [hp] at hs; exact hs⟩

/-- `a + 2:b` with the message: the `2` is underlined. -/
example : Shows (errorText "bad".toList "a + 2:b".toList (some ⟨4, 5⟩)) "bad".toList "a + 2:b".toList ['2'] :=
  message_shows _ _ ⟨4, 5⟩ (by decide) (by decide)

example : String.ofList (errorText "bad".toList "y ~ x1:x2".toList (some ⟨4, 6⟩)) = "bad\n    y ~ x1:x2\n        ^^" := by
  decide +kernel

end Patsy.Props
