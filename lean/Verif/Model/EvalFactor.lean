import Verif.Model.Err
import Verif.Model.Tokens

/-!
# Model of `EvalFactor.memorize_passes_needed` and its helpers (`patsy/eval.py`)

Code is modelled as the list of its tokens (type and string; origins are not needed).  The
functions of the original print token lists with `pretty_untokenize` and tokenize them again
later; here that round trip is taken to be the identity.
-/

namespace Patsy.EvalFactor

open Patsy.Tokens

/-- A token without origin. -/
abbrev Tok := PyType × String

/-- `props["bare_ref"]` of `annotated_tokens` (eval.py:735), given whether the previous token
is a dot. -/
def bareRef (dot : Bool) (t : Tok) : Bool := !dot && decide (t.1 = .name)

/-- `props["bare_funcall"]` of `annotated_tokens` (eval.py:736-738); `ts` are the following
tokens. -/
def bareFuncall (dot : Bool) (t : Tok) (ts : List Tok) : Bool :=
  bareRef dot t && decide (ts.head?.map (·.2) = some "(")

/-- `prev_was_dot` after a token (eval.py:740). -/
def isDot (t : Tok) : Bool := decide (t.2 = ".")

/-- `has_bare_variable_reference` (eval.py:763-767).  The extra argument tells whether the
token before `code` is a dot (`false` at the beginning). -/
def hasBareRef (names : List String) : Bool → List Tok → Bool
  | _, [] => false
  | dot, t :: ts => (bareRef dot t && decide (t.2 ∈ names)) || hasBareRef names (isDot t) ts

/-- The name given to the `i`-th stateful transform object (eval.py:514). -/
def objName (i : Nat) (token : String) : String :=
  "_patsy_stobj" ++ (toString i ++ ("__" ++ (token ++ "__")))

/-- `replace_bare_funcalls(self.code, new_name_maker)` (eval.py:511-524, 770-776): the new
code and the names of the objects created, in order.  `stateful` tells which names
stand for stateful transforms in the namespace (eval.py:512-513).  The string
`obj_name + ".transform"` that replaces a name is modelled as three tokens, which is how it
is tokenized later.  The dictionary `state["transforms"]` is represented by the list of its
keys (the counter makes them distinct). -/
def replaceBare (stateful : String → Bool) : Nat → Bool → List Tok → List Tok × List String
  | _, _, [] => ([], [])
  | i, dot, t :: ts =>
    if bareFuncall dot t ts && stateful t.2 then
      let r := replaceBare stateful (i + 1) (isDot t) ts
      ((.name, objName i t.2) :: (.op, ".") :: (.name, "transform") :: r.1, objName i t.2 :: r.2)
    else
      let r := replaceBare stateful i (isDot t) ts
      (t :: r.1, r.2)

/-- How a token changes the bracket depth (eval.py:810-813). -/
def depthChange (s : String) : Int :=
  if s = "(" ∨ s = "{" ∨ s = "[" then 1 else if s = ")" ∨ s = "}" ∨ s = "]" then -1 else 0

/-- A `_FuncallCapturer` fed with the given tokens (eval.py:797-822): the strings added to
`func` and the tokens added to `tokens`.  Tokens that come after the capturer is done
(line 807-808) are not looked at. -/
def capture : Int → Bool → List Tok → Except Err (List String × List Tok)
  | _, _, [] => .ok ([], [])
  | depth, started, t :: ts =>
    let depth' := depth + depthChange t.2
    if depth' < 0 then .error .assertionError
    else if !started && decide (t.2 ≠ "(") then
      if t.1 = .name ∨ t.2 = "." then
        match capture depth' false ts with
        | .ok r => .ok (t.2 :: r.1, t :: r.2)
        | .error e => .error e
      else .error .assertionError
    else if depth' = 0 then .ok ([], [t])
    else
      match capture depth' true ts with
      | .ok r => .ok (r.1, t :: r.2)
      | .error e => .error e

/-- `capture_obj_method_calls` (eval.py:827-838).  The capturers are fed in turn there and
one after the other here; any error is an `AssertionError` in both. -/
def captureCalls (obj : String) : Bool → List Tok → Except Err (List (String × List Tok))
  | _, [] => .ok []
  | dot, t :: ts =>
    if bareRef dot t && decide (t.2 = obj) then
      match capture 0 false ts, captureCalls obj (isDot t) ts with
      | .ok c, .ok r => .ok ((t.2 ++ String.join c.1, t :: c.2) :: r)
      | .error e, _ => .error e
      | _, .error e => .error e
    else captureCalls obj (isDot t) ts

/-- The memorisation code of one object, from the calls found (eval.py:537-548).  The string
surgery of lines 544-547 (replace the prefix `obj.transform`) is done on tokens. -/
def memorizeCodeOf (obj : String) : List (String × List Tok) → Except Err (List Tok)
  | [(callName, callCode)] =>
    if callName ≠ obj ++ ".transform" then .error .assertionError
    else if callCode.take 4 ≠ [(.name, obj), (.op, "."), (.name, "transform"), (.op, "(")] then
      .error .assertionError
    else .ok ((.name, obj) :: (.op, ".") :: (.name, "memorize_chunk") :: callCode.drop 3)
  | _ => .error .assertionError

/-- The `while` loop that sorts the objects into bins (eval.py:565-576); the objects come with
their memorisation codes.  The first argument bounds the number of rounds; every round removes
at least one object, so the number of objects is enough. -/
def binLoop : Nat → List (String × List Tok) → Except Err (List (List String))
  | _, [] => .ok []
  | 0, _ :: _ => .error .assertionError
  | n + 1, u :: us =>
    let unsorted := u :: us
    let fits (p : String × List Tok) : Bool :=
      !hasBareRef ((unsorted.map (·.1)).filter (fun o => decide (o ≠ p.1))) false p.2
    let bin := unsorted.filter fits
    if bin = [] then .error .assertionError
    else
      match binLoop n (unsorted.filter fun p => !fits p) with
      | .ok bins => .ok (bin.map (·.1) :: bins)
      | .error e => .error e

/-- The entries of `state` that `memorize_passes_needed` creates (the objects themselves and
`eval_env` are not modelled). -/
structure Memo where
  transforms : List String
  evalCode : List Tok
  memorizeCode : List (String × List Tok)
  passBins : List (List String)
  deriving DecidableEq, Repr

/-- The loop of eval.py:536-548. -/
def memorizeCodes (evalCode : List Tok) : List String → Except Err (List (String × List Tok))
  | [] => .ok []
  | o :: os => do
    let calls ← captureCalls o false evalCode
    let code ← memorizeCodeOf o calls
    let rest ← memorizeCodes evalCode os
    pure ((o, code) :: rest)

/-- `EvalFactor.memorize_passes_needed` (eval.py:497-579) applied to the tokens of
`self.code`; the returned number is `passBins.length`.  Line 529 mentions a variable `token`
that is not defined there, so the intended `PatsyError` is a `NameError`. -/
def memorizePassesNeeded (stateful : String → Bool) (code : List Tok) : Except Err Memo := do
  let r := replaceBare stateful 0 false code
  if hasBareRef r.2 false code then .error .nameError
  else do
    let codes ← memorizeCodes r.1 r.2
    let bins ← binLoop codes.length codes
    pure { transforms := r.2, evalCode := r.1, memorizeCode := codes, passBins := bins }

end Patsy.EvalFactor
