import Verif.Model.Python
import Verif.Model.Memorize

/-!
# Model of the methods of `EvalFactor` (`patsy/eval.py`) and of `_factors_memorize` (`patsy/build.py`)

Code is executed as in `Model/Python.lean`.  The environment is part of the `Python` parameter.  The data are assumed
to contain no variables with the reserved names (they would hide the objects, since `data` comes first in
`VarLookupDict([data, memorize_state["transforms"]])`).
-/

namespace Patsy.EvalFactor

open Patsy.Tokens Patsy.Calls Patsy.Memorize

variable {D V A S F : Type}

/-- A class of stateful transforms (state.py:5-13): `__init__`, `memorize_chunk`, `memorize_finish`, `transform`.
`transform` does not change the object. -/
structure Class (S A V : Type) where
  init : S
  chunk : S → A → Except Err S
  finish : S → Except Err S
  transform : S → A → Except Err V

/-- The function that `stateful_transform` makes of a class (state.py:53-59). -/
def Class.call (c : Class S A V) (a : A) : Except Err V := do
  let s ← c.chunk c.init a
  let s ← c.finish s
  c.transform s a

/-- `call_and_wrap_exc` (compat.py:38-43): every exception becomes a `PatsyError`. -/
def wrapExc {R : Type} : Except Err R → Except Err R
  | .ok r => .ok r
  | .error _ => .error .patsyError

/-- The names of the functions that are replaced by objects, in order (eval.py:511-519, 770-776). -/
def replacedNames (stateful : String → Bool) : Bool → List Tok → List String
  | _, [] => []
  | dot, t :: ts =>
    if bareFuncall dot t ts && stateful t.2 then t.2 :: replacedNames stateful (isDot t) ts
    else replacedNames stateful (isDot t) ts

/-- The dictionary `state` of a factor: what `memorize_passes_needed` puts there, and the objects, each with the name
of the function it was made from. -/
structure FactorState (S : Type) where
  memo : Memo
  objects : List (String × String × S)

/-- The state after `memorize_passes_needed` (eval.py:497-578); `classOf` are the classes of the stateful
transforms. -/
def startFactor (stateful : String → Bool) (classOf : String → Class S A V) (code : List Tok) :
    Except Err (FactorState S) := do
  let m ← memorizePassesNeeded stateful code
  pure ⟨m, (m.transforms.zip (replacedNames stateful false code)).map fun p => (p.1, p.2, (classOf p.2).init)⟩

/-- The name and the attributes of an object. -/
def FactorState.object (st : FactorState S) (o : String) : Except Err (String × S) :=
  match st.objects.lookup o with
  | some x => .ok x
  | none => .error .nameError

/-- Is this the name of an object? -/
def FactorState.isObject (st : FactorState S) (o : String) : Bool := (st.objects.lookup o).isSome

/-- Change the attributes of an object. -/
def FactorState.setObject (st : FactorState S) (o : String) (s : S) : FactorState S :=
  { st with objects := st.objects.map fun x => if x.1 = o then (x.1, x.2.1, s) else x }

/-- The call `o.transform(a)`. -/
def FactorState.transform (classOf : String → Class S A V) (st : FactorState S) (o : String) (a : A) : Except Err V := do
  let x ← st.object o
  (classOf x.1).transform x.2 a

/-- `EvalFactor.eval` (eval.py:598-599, 580-588). -/
def evalFactorCode (P : Python D V A) (classOf : String → Class S A V) (st : FactorState S) (d : D) : Except Err V :=
  wrapExc (match readTokens st.memo.evalCode with
    | none => .error .valueError
    | some c => P.value (st.transform classOf) d (readObjects st.isObject false c))

/-- Carry out the memorisation code `o.memorize_chunk(...)` of an object (eval.py:591-592, 580-588). -/
def memorizeOne (P : Python D V A) (classOf : String → Class S A V) (d : D) (st : FactorState S) (o : String) :
    Except Err (FactorState S) := do
  match st.memo.memorizeCode.lookup o with
  | none => .error .keyError
  | some code => wrapExc (match readTokens code with
    | some (.tok (.name, o') (.tok (.op, ".") (.tok (.name, "memorize_chunk") (.group .paren body .nil)))) => do
      let x ← st.object o'
      let a ← P.arguments (st.transform classOf) d (readObjects st.isObject false body)
      let s ← (classOf x.1).chunk x.2 a
      pure (st.setObject o' s)
    | _ => .error .valueError)

/-- The objects that are memorised in a pass. -/
def FactorState.bin (st : FactorState S) (pass : Nat) : Except Err (List String) :=
  match st.memo.passBins[pass]? with
  | some b => .ok b
  | none => .error .indexError

/-- `EvalFactor.memorize_chunk` (eval.py:590-592).  `visit` is the order in which a set is traversed. -/
def memorizeChunk (P : Python D V A) (classOf : String → Class S A V) (visit : List String → List String)
    (pass : Nat) (d : D) (st : FactorState S) : Except Err (FactorState S) := do
  let b ← st.bin pass
  (visit b).foldlM (memorizeOne P classOf d) st

/-- `memorize_finish()` of one object. -/
def finishOne (classOf : String → Class S A V) (st : FactorState S) (o : String) : Except Err (FactorState S) := do
  match st.objects.lookup o with
  | none => .error .keyError
  | some x => do
    let s ← (classOf x.1).finish x.2
    pure (st.setObject o s)

/-- `EvalFactor.memorize_finish` (eval.py:594-596). -/
def memorizeFinish (classOf : String → Class S A V) (visit : List String → List String) (pass : Nat)
    (st : FactorState S) : Except Err (FactorState S) := do
  let b ← st.bin pass
  (visit b).foldlM (finishOne classOf) st

/-- What a call by `_factors_memorize` does to the state of the factor. -/
def factorEvent (P : Python D V A) (classOf : String → Class S A V) (visit : List String → List String)
    (st : FactorState S) : Event F D → Except Err (FactorState S)
  | .needed _ => .ok st
  | .iterate => .ok st
  | .chunk _ pass d => memorizeChunk P classOf visit pass d st
  | .finish _ pass => memorizeFinish classOf visit pass st

/-- The factor that is called. -/
def calledFactor : Event F D → Option F
  | .needed f => some f
  | .iterate => none
  | .chunk f _ _ => some f
  | .finish f _ => some f

/-- The calls that `_factors_memorize` makes, until one of them raises an exception.  `states` is the dictionary
`factor_states`. -/
def runCalls [DecidableEq F] (P : Python D V A) (classOf : String → Class S A V) (visit : List String → List String) :
    List (Event F D) → List (F × FactorState S) → Except Err (List (F × FactorState S))
  | [], states => .ok states
  | e :: es, states => do
    match calledFactor e with
    | none => runCalls P classOf visit es states
    | some f =>
      match states.lookup f with
      | none => .error .keyError
      | some st => do
        let st' ← factorEvent P classOf visit st e
        runCalls P classOf visit es (states.map fun x => if x.1 = f then (x.1, st') else x)

/-- `_factors_memorize` (build.py:386-413) for factors that are `EvalFactor`s with the given code.  Setting up
the states comes first; the calls that follow are those of `Model/Memorize.lean`, where the `while` loop is given as many
rounds as the factors have passes. -/
def memorizeFactors [DecidableEq F] (P : Python D V A) (stateful : String → Bool) (classOf : String → Class S A V)
    (visit : List String → List String) (visitFactors : Nat → Nat → List F → List F) (code : F → List Tok)
    (chunks : List D) (factors : List F) : Except Err (List (F × FactorState S)) := do
  let states ← factors.mapM fun f => do
    let st ← startFactor stateful classOf (code f)
    pure (f, st)
  let passes (f : F) : Int := ((states.lookup f).map fun st => (st.memo.passBins.length : Int)).getD 0
  let rounds := (states.map fun x => x.2.memo.passBins.length).foldr max 0
  match factorsMemorize visitFactors passes (fun _ => chunks) rounds factors with
  | none => .error .assertionError
  | some calls => runCalls P classOf visit calls states

/-- The value of a memorised factor (build.py:68: `factor.eval(factor_info.state, data)`, with the state of build.py:757
and 767). -/
def evalMemorized [DecidableEq F] (P : Python D V A) (classOf : String → Class S A V) (states : List (F × FactorState S))
    (f : F) (d : D) : Except Err V :=
  match states.lookup f with
  | none => .error .keyError
  | some st => evalFactorCode P classOf st d

end Patsy.EvalFactor
