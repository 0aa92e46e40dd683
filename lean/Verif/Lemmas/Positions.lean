import Verif.Props.ParseFormula
import Verif.Model.Program

/-!
# Positions do not matter

Every step from the raw tokens to the model commutes with setting all positions to zero.
-/

set_option linter.unusedSectionVars false

namespace Patsy.Positions

open Patsy.Infix Patsy.Tokens Patsy.Formula Patsy.Desc Patsy.Spec

/-- Set the position to zero. -/
def zeroPy (t : PyTok) : PyTok := ⟨t.type, t.str, ⟨0, 0⟩⟩

/-- Set the position to zero. -/
def zeroTok {σ ε : Type} (t : Tok σ ε) : Tok σ ε := ⟨t.kind, ⟨0, 0⟩, t.extra⟩

/-- Set all positions to zero. -/
def zeroNode {σ ε : Type} : Node σ ε → Node σ ε
  | .atom t _ => .atom (zeroTok t) ⟨0, 0⟩
  | .unary t a _ => .unary (zeroTok t) (zeroNode a) ⟨0, 0⟩
  | .binary t a b _ => .binary (zeroTok t) (zeroNode a) (zeroNode b) ⟨0, 0⟩

/-- Set all positions to zero. -/
def zeroCst {σ ε : Type} : Cst σ ε → Cst σ ε
  | .atom t => .atom (zeroTok t)
  | .paren l c r => .paren (zeroTok l) (zeroCst c) (zeroTok r)
  | .un t p c => .un (zeroTok t) p (zeroCst c)
  | .bin l t p r => .bin (zeroCst l) (zeroTok t) p (zeroCst r)

/-! ### The tokenizers -/

theorem pythonTokenize_zero (fin : RawEnd) (raw : List PyTok) :
    pythonTokenize fin (raw.map zeroPy) = (pythonTokenize fin raw).map (List.map zeroPy) := by
  induction raw with
  | nil => cases fin <;> rfl
  | cons t ts ih =>
    simp only [List.map_cons, pythonTokenize, ih]
    have h1 : (zeroPy t).type = t.type := rfl
    have h2 : (zeroPy t).str = t.str := rfl
    rw [h1, h2]
    by_cases c1 : t.type = .endmarker
    · rw [if_pos c1, if_pos c1]; rfl
    rw [if_neg c1, if_neg c1]
    by_cases c2 : t.type = .nl ∨ t.type = .newline
    · rw [if_pos c2, if_pos c2]
      by_cases c3 : t.str = ""
      · rw [if_pos c3, if_pos c3]
      · rw [if_neg c3, if_neg c3]; rfl
    rw [if_neg c2, if_neg c2]
    by_cases c4 : t.type = .errortoken
    · rw [if_pos c4, if_pos c4]; rfl
    rw [if_neg c4, if_neg c4]
    by_cases c5 : t.type = .comment
    · rw [if_pos c5, if_pos c5]; rfl
    rw [if_neg c5, if_neg c5]
    cases pythonTokenize fin ts <;> rfl

theorem readLoop_zero (ends : List String) (lvl : Nat) (ts : List PyTok) :
    readLoop ends lvl (ts.map zeroPy) =
      (readLoop ends lvl ts).map fun x => (x.1.map zeroPy, x.2.1.map zeroPy, x.2.2) := by
  induction ts generalizing lvl with
  | nil => rfl
  | cons t ts ih =>
    simp only [List.map_cons, readLoop]
    have hs : (zeroPy t).str = t.str := rfl
    rw [hs]
    split
    · rfl
    · cases bracketLevel lvl t.str with
      | none => rfl
      | some l =>
        simp only [ih]
        cases readLoop ends l ts with
        | error e => rfl
        | ok x => rfl

theorem combine_zero (os : List Origin) (h : ∀ o ∈ os, o = ⟨0, 0⟩) : Origin.combine ⟨0, 0⟩ os = ⟨0, 0⟩ := by
  have : ∀ os : List Origin, (∀ o ∈ os, o = ⟨0, 0⟩) → Origin.combine ⟨0, 0⟩ os = ⟨0, 0⟩ := by
    intro os
    induction os with
    | nil => intro _; rfl
    | cons o os ih =>
      intro h
      have ho := h o (by simp)
      subst ho
      have := ih fun p hp => h p (by simp [hp])
      simpa [Origin.combine] using this
  exact this os h

theorem plain_zero (e : List PyTok) : (e.map zeroPy).map (fun t => (t.type, t.str)) = e.map fun t => (t.type, t.str) := by
  rw [List.map_map]; rfl

theorem finishExpr_zero (isNumber : String → Bool) (e : List PyTok) (lvl : Nat) :
    finishExpr isNumber (e.map zeroPy) lvl = (finishExpr isNumber e lvl).map zeroTok := by
  unfold finishExpr
  split
  · cases e with
    | nil => rfl
    | cons t ts =>
      have hp := plain_zero (t :: ts)
      simp only [List.map_cons] at hp ⊢
      rw [hp]
      cases prettyUntokenize _ with
      | error e => rfl
      | ok text =>
        have hc := combine_zero ((ts.map zeroPy).map (·.origin)) (by simp [zeroPy])
        simp only [Except.map, zeroTok, Except.ok.injEq]
        congr 1
  · rfl

theorem tokenizeLoop_zero (isNumber : String → Bool) (ops : List String) (ts : List PyTok) :
    tokenizeLoop isNumber ops (ts.map zeroPy) = (tokenizeLoop isNumber ops ts).map (List.map zeroTok) := by
  induction hn : ts.length using Nat.strongRecOn generalizing ts with
  | ind n ih =>
    cases ts with
    | nil => simp [tokenizeLoop, Except.map]
    | cons t ts =>
      rw [List.map_cons, tokenizeLoop, tokenizeLoop]
      have hs : (zeroPy t).str = t.str := rfl
      by_cases hm : t.str = "(" ∨ t.str = ")" ∨ t.str ∈ ops
      · rw [dif_pos (by rw [hs]; exact hm), dif_pos hm, ih ts.length (by simp at hn; omega) ts rfl]
        cases tokenizeLoop isNumber ops ts <;> rfl
      · rw [dif_neg (by rw [hs]; exact hm), dif_neg hm]
        have hr := readLoop_zero (")" :: ops) 0 (t :: ts)
        rw [List.map_cons] at hr
        cases h : readLoop (")" :: ops) 0 (t :: ts) with
        | error e =>
          rw [h] at hr
          have hr : readLoop (")" :: ops) 0 (zeroPy t :: ts.map zeroPy) = .error e := hr
          split
          · rename_i e' he'
            rw [hr] at he'
            cases he'; rfl
          · rename_i he'
            rw [hr] at he'
            cases he'
        | ok x =>
          obtain ⟨e, rest, lvl⟩ := x
          rw [h] at hr
          have hr : readLoop (")" :: ops) 0 (zeroPy t :: ts.map zeroPy) = .ok (e.map zeroPy, rest.map zeroPy, lvl) := hr
          have hlt := readLoop_consumes (by rw [List.mem_cons]; exact fun hc => hm (.inr hc)) h
          split
          · rename_i e' he'
            rw [hr] at he'
            cases he'
          · rename_i he'
            rw [hr] at he'
            cases he'
            rw [finishExpr_zero, ih rest.length (by omega) rest rfl]
            cases finishExpr isNumber e lvl with
            | error e => rfl
            | ok tok => cases tokenizeLoop isNumber ops rest <;> rfl

theorem tokenizeFormula_zero (isNumber : String → Bool) (ops : List String) (ts : List PyTok) :
    tokenizeFormula isNumber ops (ts.map zeroPy) = (tokenizeFormula isNumber ops ts).map (List.map zeroTok) := by
  unfold tokenizeFormula
  split
  · rfl
  · exact tokenizeLoop_zero isNumber ops ts

/-! ### The parser -/

section Parse

variable {σ ε : Type}

theorem flatten_zero (c : Cst σ ε) : (zeroCst c).flatten = c.flatten.map zeroTok := by
  induction c with
  | atom t => rfl
  | paren l c r ih => simp [zeroCst, Cst.flatten, ih]
  | un t p c ih => simp [zeroCst, Cst.flatten, ih]
  | bin l t p r ihl ihr => simp [zeroCst, Cst.flatten, ihl, ihr]

theorem leftEdge_zero (c : Cst σ ε) : (zeroCst c).leftEdge = c.leftEdge := by
  induction c <;> simp_all [zeroCst, Cst.leftEdge]

theorem rightEdge_zero (c : Cst σ ε) : (zeroCst c).rightEdge = c.rightEdge := by
  induction c <;> simp_all [zeroCst, Cst.rightEdge]

theorem wf_zero (tb : Table σ) (c : Cst σ ε) : (zeroCst c).WF tb ↔ c.WF tb := by
  induction c with
  | atom t => rfl
  | paren l c r ih => simp [zeroCst, Cst.WF, ih, zeroTok]
  | un t p c ih => simp [zeroCst, Cst.WF, ih, zeroTok, leftEdge_zero]
  | bin l t p r ihl ihr => simp [zeroCst, Cst.WF, ihl, ihr, zeroTok, leftEdge_zero, rightEdge_zero]

theorem origin_zero (n : Node σ ε) : (zeroNode n).origin = ⟨0, 0⟩ := by cases n <;> rfl
theorem token_zero (n : Node σ ε) : (zeroNode n).token = zeroTok n.token := by cases n <;> rfl
theorem setOrigin_zero (n : Node σ ε) (o : Origin) : zeroNode (n.setOrigin o) = zeroNode n := by cases n <;> rfl
theorem setOrigin_zero' (n : Node σ ε) : (zeroNode n).setOrigin ⟨0, 0⟩ = zeroNode n := by cases n <;> rfl

theorem toNode_zero (c : Cst σ ε) : toNode (zeroCst c) = zeroNode (toNode c) := by
  induction c with
  | atom t => rfl
  | paren l c r ih =>
    simp only [zeroCst, toNode, ih, token_zero, setOrigin_zero]
    have := combine_zero [⟨0, 0⟩, ⟨0, 0⟩] (by simp)
    simp only [zeroTok, this, setOrigin_zero']
  | un t p c ih =>
    have := combine_zero [⟨0, 0⟩] (by simp)
    simp only [zeroCst, toNode, ih, zeroNode, origin_zero]
    simp only [zeroTok, this]
  | bin l t p r ihl ihr =>
    have := combine_zero [⟨0, 0⟩, ⟨0, 0⟩] (by simp)
    simp only [zeroCst, toNode, ihl, ihr, zeroNode, origin_zero]
    simp only [zeroTok, this]

theorem unzero (c : Cst σ ε) (ts : List (Tok σ ε)) (h : c.flatten = ts.map zeroTok) :
    ∃ c', c'.flatten = ts ∧ zeroCst c' = c := by
  induction c generalizing ts with
  | atom t =>
    obtain ⟨u, us, rfl, hu, hus⟩ := List.map_eq_cons_iff.mp h.symm
    rw [List.map_eq_nil_iff] at hus
    subst hus hu
    exact ⟨.atom u, rfl, rfl⟩
  | paren l c r ih =>
    obtain ⟨u, us, rfl, hu, hus⟩ := List.map_eq_cons_iff.mp h.symm
    obtain ⟨xs, ys, rfl, hxs, hys⟩ := List.map_eq_append_iff.mp hus
    obtain ⟨v, vs, rfl, hv, hvs⟩ := List.map_eq_cons_iff.mp hys
    rw [List.map_eq_nil_iff] at hvs
    subst hvs hu hv
    obtain ⟨c', rfl, rfl⟩ := ih xs hxs.symm
    exact ⟨.paren u c' v, rfl, rfl⟩
  | un t p c ih =>
    obtain ⟨u, us, rfl, hu, hus⟩ := List.map_eq_cons_iff.mp h.symm
    subst hu
    obtain ⟨c', rfl, rfl⟩ := ih us hus.symm
    exact ⟨.un u p c', rfl, rfl⟩
  | bin l t p r ihl ihr =>
    obtain ⟨xs, ys, rfl, hxs, hys⟩ := List.map_eq_append_iff.mp h.symm
    obtain ⟨v, vs, rfl, hv, hvs⟩ := List.map_eq_cons_iff.mp hys
    subst hv
    obtain ⟨l', rfl, rfl⟩ := ihl xs hxs.symm
    obtain ⟨r', rfl, rfl⟩ := ihr vs hvs.symm
    exact ⟨.bin l' v p r', rfl, rfl⟩

theorem parseWith_zero {tb : Table σ} (htb : TableOk tb) (ts : List (Tok σ ε)) :
    parseWith tb (ts.map zeroTok) = (parseWith tb ts).map zeroNode := by
  rcases parseWith_spec htb ts with ⟨h, h1⟩ | ⟨h, h1⟩ | ⟨c, h1, h2, h3⟩
  · subst h
    rw [List.map_nil, h1]; rfl
  · rw [h1]
    rcases parseWith_spec htb (ts.map zeroTok) with ⟨g, _⟩ | ⟨_, g⟩ | ⟨c, _, g2, g3⟩
    · exact absurd (List.map_eq_nil_iff.mp g) h
    · rw [g]; rfl
    · obtain ⟨c', rfl, rfl⟩ := unzero c ts g3
      rw [parseWith_complete htb c' ((wf_zero tb c').mp g2)] at h1
      cases h1
  · subst h3
    rw [h1, ← flatten_zero, parseWith_complete htb _ ((wf_zero tb c).mpr h2), toNode_zero]
    rfl

theorem infixParse_zero [DecidableEq σ] {ops : List (Operator σ)} (hops : checkOps ops = .ok ()) (atoms : List σ)
    (ts : List (Tok σ ε)) : infixParse (ts.map zeroTok) ops atoms = (infixParse ts ops atoms).map zeroNode := by
  unfold infixParse
  rw [hops]
  exact parseWith_zero (tableOk_of_checkOps hops atoms) ts

end Parse

/-! ### The evaluator -/

section Eval

variable {F : Type} [DecidableEq F]

/-- Set the position to zero. -/
def zeroExpr (e : IExpr F) : IExpr F := ⟨e.intercept, e.interceptOrigin.map fun _ => ⟨0, 0⟩, e.interceptRemoved, e.terms⟩

/-- Set the position to zero. -/
def zeroVal : Val F → Val F
  | .expr e => .expr (zeroExpr e)
  | .desc d => .desc d

theorem of_zero (i : Bool) (o : Option Origin) (r : Bool) (ts : List (Term F)) :
    IExpr.of i (o.map fun _ => ⟨0, 0⟩) r ts = (IExpr.of i o r ts).map zeroExpr := by
  unfold IExpr.of
  cases o <;> cases i <;> cases r <;> rfl

theorem of_none (i : Bool) (r : Bool) (ts : List (Term F)) :
    (IExpr.of i none r ts).map zeroExpr = IExpr.of i none r ts := (of_zero i none r ts).symm

theorem of_some (i : Bool) (o : Origin) (r : Bool) (ts : List (Term F)) :
    IExpr.of i (some ⟨0, 0⟩) r ts = (IExpr.of i (some o) r ts).map zeroExpr := of_zero i (some o) r ts

theorem interaction_zero (l r : IExpr F) : interaction (zeroExpr l) (zeroExpr r) = (interaction l r).map zeroExpr := by
  unfold interaction checkInteractable zeroExpr
  cases l.intercept <;> cases r.intercept <;> simp [bind, Except.bind, Except.map]
  exact (of_none _ _ _).symm

theorem powerLoop_zero (l : IExpr F) (n : Nat) (big : IExpr F) (all : List (Term F)) :
    powerLoop (zeroExpr l) n (zeroExpr big) all = powerLoop l n big all := by
  induction n generalizing big all with
  | zero => rfl
  | succ n ih =>
    simp only [powerLoop, interaction_zero]
    cases interaction l big with
    | error e => rfl
    | ok b => exact ih b _

theorem power_zero (l : IExpr F) (p : Int) : evalPower (zeroExpr l) p = (evalPower l p).map zeroExpr := by
  unfold evalPower
  have h1 : checkInteractable (zeroExpr l) = checkInteractable l := rfl
  have h2 : (zeroExpr l).terms = l.terms := rfl
  simp only [h1, h2, powerLoop_zero]
  cases checkInteractable l with
  | error e => rfl
  | ok u =>
    simp only [bind, Except.bind]
    split
    · rfl
    · cases powerLoop l _ l l.terms with
      | error e => rfl
      | ok a => exact (of_none _ _ _).symm

theorem plus_zero (l r : IExpr F) : evalPlus (zeroExpr l) (zeroExpr r) = (evalPlus l r).map zeroExpr := by
  unfold evalPlus
  have h : (zeroExpr r).intercept = r.intercept := rfl
  rw [h]
  split <;> exact of_zero _ _ _ _

theorem minus_zero (l r : IExpr F) : evalMinus (zeroExpr l) (zeroExpr r) = (evalMinus l r).map zeroExpr := by
  unfold evalMinus
  have h : (zeroExpr r).intercept = r.intercept := rfl
  simp only [h]
  split
  · exact (of_none _ _ _).symm
  · exact of_zero _ _ _ _

theorem prod_zero (l r : IExpr F) : evalProd (zeroExpr l) (zeroExpr r) = (evalProd l r).map zeroExpr := by
  unfold evalProd
  rw [interaction_zero]
  cases interaction l r with
  | error e => rfl
  | ok i => exact (of_none (F := F) false false _).symm

theorem div_zero (l r : IExpr F) : evalDiv (zeroExpr l) (zeroExpr r) = (evalDiv l r).map zeroExpr := by
  unfold evalDiv
  have h1 : checkInteractable (zeroExpr l) = checkInteractable l := rfl
  have h2 : (zeroExpr l).terms = l.terms := rfl
  rw [h1, h2]
  cases checkInteractable l with
  | error e => rfl
  | ok u =>
    simp only [bind, Except.bind]
    have h3 := of_none (F := F) false false [Term.of (l.terms.flatMap fun t => t.factors)]
    cases h : IExpr.of (F := F) false none false [Term.of (l.terms.flatMap fun t => t.factors)] with
    | error e => rfl
    | ok c =>
      rw [h] at h3
      simp only [Except.map, Except.ok.injEq] at h3
      have h4 := interaction_zero c r
      rw [h3] at h4
      simp only [h4]
      cases interaction c r with
      | error e => rfl
      | ok i => exact (of_none _ _ _).symm

theorem nodeType_zero (n : Node String (Option String)) : nodeType (zeroNode n) = nodeType n := by
  unfold nodeType; rw [token_zero]; rfl

theorem exponent_zero (toInt : String → Option Int) (n : Node String (Option String)) :
    exponent toInt (zeroNode n) = exponent toInt n := by
  unfold exponent; rw [nodeType_zero, token_zero]; rfl

theorem require_zero (x : Except Err (Val F)) : requireExpr (x.map zeroVal) = (requireExpr x).map zeroExpr := by
  rcases x with e | v
  · rfl
  · cases v <;> rfl

theorem bind_zero {A B A' B' : Type} {f : A → A'} {g : B → B'} (x : Except Err A) (k : A → Except Err B) (k' : A' → Except Err B')
    (h : ∀ a, k' (f a) = (k a).map g) : (x.map f).bind k' = (x.bind k).map g := by
  rcases x with e | a
  · rfl
  · exact h a

theorem ret_zero (x : Except Err (IExpr F)) :
    ((x.map zeroExpr).bind fun e => Except.ok (Val.expr e)) = (x.bind fun e => Except.ok (Val.expr e)).map zeroVal :=
  bind_zero x _ _ fun _ => rfl

variable (mkFactor : String → Except Err F) (toInt : String → Option Int)

theorem eval_zero (n : Node String (Option String)) :
    eval mkFactor toInt (zeroNode n) = (eval mkFactor toInt n).map zeroVal := by
  induction n with
  | atom t o =>
    simp only [zeroNode, eval, zeroTok, bind, pure, Except.pure]
    split
    · rw [← ret_zero, of_none]
    · rw [← ret_zero, ← of_some]
    · rfl
    · cases t.extra with
      | none => rfl
      | some code =>
        simp only
        cases mkFactor code with
        | error e => rfl
        | ok f =>
          have := ret_zero (IExpr.of false none false [Term.of [f]])
          rw [of_none] at this
          exact this
    · rfl
  | unary t a o ih =>
    simp only [zeroNode, eval, zeroTok, bind, pure, Except.pure, ih, require_zero, nodeType_zero]
    split
    · refine bind_zero _ _ _ fun r => ?_
      rfl
    · exact ret_zero _
    · split
      · rw [← ret_zero, ← of_some]
      · split
        · rw [← ret_zero, of_none]
        · rfl
    · rfl
  | binary t a b o iha ihb =>
    simp only [zeroNode, eval, zeroTok, bind, pure, Except.pure, iha, ihb, require_zero, nodeType_zero, exponent_zero, origin_zero]
    split
    · refine bind_zero _ _ _ fun l => bind_zero _ _ _ fun r => ?_
      rfl
    · refine bind_zero _ _ _ fun l => ?_
      split
      · rw [← ret_zero, of_none]; rfl
      · refine bind_zero _ _ _ fun r => ?_
        rw [← ret_zero, ← plus_zero]
    · refine bind_zero _ _ _ fun l => ?_
      split
      · rw [← ret_zero, ← of_some]; rfl
      · split
        · rw [← ret_zero, of_none]; rfl
        · refine bind_zero _ _ _ fun r => ?_
          rw [← ret_zero, ← minus_zero]
    · refine bind_zero _ _ _ fun l => bind_zero _ _ _ fun r => ?_
      rw [← ret_zero, ← prod_zero]
    · refine bind_zero _ _ _ fun l => bind_zero _ _ _ fun r => ?_
      rw [← ret_zero, ← div_zero]
    · refine bind_zero _ _ _ fun l => bind_zero _ _ _ fun r => ?_
      rw [← ret_zero, ← interaction_zero]
    · refine bind_zero _ _ _ fun l => ?_
      rw [← ret_zero, ← power_zero]
    · rfl

theorem fromTree_zero (n : Node String (Option String)) : fromTree mkFactor toInt (zeroNode n) = fromTree mkFactor toInt n := by
  unfold fromTree
  rw [eval_zero]
  rcases eval mkFactor toInt n with e | v
  · rfl
  · cases v <;> rfl

theorem wrapRoot_zero (n : Node String (Option String)) : wrapRoot (zeroNode n) = zeroNode (wrapRoot n) := by
  unfold wrapRoot
  rw [nodeType_zero]
  split
  · rfl
  · simp only [zeroNode, origin_zero, zeroTok]

end Eval

theorem parseFormula_zero (isNumber : String → Bool) (fin : RawEnd) (raw : List PyTok) :
    parseFormula isNumber fin (raw.map zeroPy) = (parseFormula isNumber fin raw).map zeroNode := by
  unfold parseFormula
  rw [pythonTokenize_zero]
  refine bind_zero _ _ _ fun ts => ?_
  rw [tokenizeFormula_zero]
  refine bind_zero _ _ _ fun toks => ?_
  rw [infixParse_zero Props.defaultOps_ok]
  refine bind_zero _ _ _ fun tree => ?_
  rw [wrapRoot_zero]
  rfl

open Patsy.Program in
theorem fromFormula_zero {D V A S K H : Type} (I : Interp D V A S K H) (fin : RawEnd) (raw : List PyTok) :
    I.fromFormula fin (raw.map zeroPy) = I.fromFormula fin raw := by
  unfold Interp.fromFormula
  rw [parseFormula_zero]
  cases parseFormula I.isNumber fin raw with
  | error e => rfl
  | ok n => exact fromTree_zero _ _ n

end Patsy.Positions
