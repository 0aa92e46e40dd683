import Verif.Model.Err

/-!
# Model of `VarLookupDict`, `EvalEnvironment` (`patsy/eval.py`) and `Q` (`patsy/builtins.py`)

Dictionaries are mutable, so they live in a heap: a list of cells, the address of a cell is its position.
`V` are the values that variables can have.
-/

namespace Patsy.Environment

variable {V : Type}

/-- A Python `dict` (or the user's data, any object with `d[key]` that raises `KeyError`) or a `VarLookupDict`
with the addresses in `self._dicts`. -/
inductive Cell (V : Type) where
  | dict (entries : List (String × V))
  | vld (dicts : List Nat)
  deriving DecidableEq, Repr

/-- All dictionaries there are. -/
abbrev Heap (V : Type) := List (Cell V)

/-- `d[key]` for a dictionary and `VarLookupDict.__getitem__` (eval.py:50-56); `none` is a `KeyError`.  The first
number bounds the depth of nesting. -/
def getItem (h : Heap V) : Nat → Nat → String → Option V
  | 0, _, _ => none
  | n + 1, a, key =>
    match h[a]? with
    | some (.dict d) => d.lookup key
    | some (.vld ds) => ds.findSome? fun b => getItem h n b key
    | none => none

/-- `d[key]` for the dictionary at an address.  A `VarLookupDict` refers to dictionaries that were there before, so
its address bounds the nesting. -/
def lookup (h : Heap V) (a : Nat) (key : String) : Option V := getItem h (a + 1) a key

/-- A new dictionary: its address and the heap. -/
def newDict (h : Heap V) (entries : List (String × V)) : Nat × Heap V := (h.length, h ++ [.dict entries])

/-- `VarLookupDict.__init__` (eval.py:47-48): a new empty dictionary in front. -/
def newVld (h : Heap V) (ds : List Nat) : Nat × Heap V :=
  let d := newDict h []
  (d.2.length, d.2 ++ [.vld (d.1 :: ds)])

/-- `d[key] = value`. -/
def setEntry (h : Heap V) (a : Nat) (key : String) (v : V) : Heap V :=
  match h[a]? with
  | some (.dict d) => h.set a (.dict ((key, v) :: d.filter fun p => p.1 ≠ key))
  | _ => h

/-- `VarLookupDict.__setitem__` (eval.py:58-59). -/
def setItem (h : Heap V) (a : Nat) (key : String) (v : V) : Heap V :=
  match h[a]? with
  | some (.vld (own :: _)) => setEntry h own key v
  | _ => setEntry h a key v

/-- `VarLookupDict.__contains__` (eval.py:61-67): `key in d`. -/
def contains (h : Heap V) (a : Nat) (key : String) : Bool :=
  match lookup h a key with
  | none => false
  | some _ => true

/-- `VarLookupDict.get` (eval.py:69-73): the default is returned for a `KeyError`. -/
def getDefault (h : Heap V) (a : Nat) (key : String) (default : V) : V :=
  match lookup h a key with
  | none => default
  | some v => v

/-- `EvalEnvironment` (eval.py:145-153).  The compiler flags are not modelled. -/
structure Env where
  namespaces : List Nat
  deriving DecidableEq, Repr

/-- `EvalEnvironment.namespace` (eval.py:157-160). -/
def Env.namespace (h : Heap V) (e : Env) : Nat × Heap V := newVld h e.namespaces

/-- `with_outer_namespace` (eval.py:162-167). -/
def Env.withOuter (e : Env) (outer : Nat) : Env := ⟨e.namespaces ++ [outer]⟩

/-- `dict((name, vld[name]) for name in names)` (eval.py:257). -/
def pick (h : Heap V) (a : Nat) : List String → Except Err (List (String × V))
  | [] => .ok []
  | n :: ns =>
    match lookup h a n with
    | none => .error .keyError
    | some v => do
      let r ← pick h a ns
      pure ((n, v) :: r)

/-- `EvalEnvironment.subset` (eval.py:253-258). -/
def Env.subset (h : Heap V) (e : Env) (names : List String) : Except Err (Env × Heap V) := do
  let vld := newVld h e.namespaces
  let entries ← pick vld.2 vld.1 names
  let d := newDict vld.2 entries
  pure (⟨[d.1]⟩, d.2)

/-- A frame of the call stack: the addresses of its locals and globals. -/
structure Frame where
  locals : Nat
  globals : Nat
  deriving DecidableEq, Repr

/-- What may be given as `eval_env`. -/
inductive EnvLike where
  | env (e : Env)
  | int (depth : Int)
  | other
  deriving DecidableEq, Repr

/-- The loop at eval.py:233-236: `n` steps up from the top of the stack.  The result is the frame (`none` for
`None`). -/
def walk : Nat → List Frame → Except Err (List Frame)
  | 0, s => .ok s
  | _ + 1, [] => .error .valueError
  | n + 1, _ :: s => walk n s

/-- The environment of a frame (eval.py:237-240); `None` has no attribute `f_locals`. -/
def ofFrame : List Frame → Except Err Env
  | [] => .error .attributeError
  | f :: _ => .ok ⟨[f.locals, f.globals]⟩

/-- `EvalEnvironment.capture` (eval.py:181-251).  `stack` begins with the frame of `capture` itself. -/
def Env.capture (stack : List Frame) (evalEnv : EnvLike) (reference : Int) : Except Err Env :=
  match evalEnv with
  | .env e => .ok e
  | .other => .error .typeError
  | .int d => do
    let s ← walk (d + reference + 1).toNat stack
    ofFrame s

/-- The evaluation of a Python expression as far as names are concerned: it loads and stores names (`:=`), calls
`Q`, and otherwise does something with the values.  Function bodies have their own scopes. -/
inductive Prog (V R : Type) where
  | done (r : R)
  | fail (e : Err)
  | load (name : String) (k : V → Prog V R)
  | store (name : String) (v : V) (k : Prog V R)
  | quote (name : String) (k : V → Prog V R)

/-- A name in code executed by `eval(code, {}, loc)`: the local mapping, the empty dictionary of globals, then
Python's builtins (`LOAD_NAME`). -/
def loadName (py : String → Option V) (h : Heap V) (loc : Nat) (name : String) : Except Err V :=
  match lookup h loc name with
  | some v => .ok v
  | none => match py name with
    | some v => .ok v
    | none => .error .nameError

/-- `Q` (builtins.py:57-98) called from code executed by `eval(code, {}, loc)`: the captured frame has the local
mapping and the empty dictionary of globals. -/
def quoteName (h : Heap V) (loc : Nat) (name : String) : Except Err V :=
  match lookup h loc name with
  | some v => .ok v
  | none => .error .nameError

/-- Run code with a local mapping. -/
def run {R : Type} (py : String → Option V) (loc : Nat) : Heap V → Prog V R → Except Err R × Heap V
  | h, .done r => (.ok r, h)
  | h, .fail e => (.error e, h)
  | h, .load n k =>
    match loadName py h loc n with
    | .ok v => run py loc h (k v)
    | .error e => (.error e, h)
  | h, .store n v k => run py loc (setItem h loc n v) k
  | h, .quote n k =>
    match quoteName h loc n with
    | .ok v => run py loc h (k v)
    | .error e => (.error e, h)

/-- `EvalEnvironment.eval` (eval.py:169-179). -/
def Env.eval {R : Type} (py : String → Option V) (h : Heap V) (e : Env) (p : Prog V R) (inner : Nat) :
    Except Err R × Heap V :=
  let vld := newVld h (inner :: e.namespaces)
  run py vld.1 vld.2 p

/-- The environment that `EvalFactor.memorize_passes_needed` stores (eval.py:502-506): the given environment with
patsy's builtins outside, restricted to the names of the code (`ast_names`) that it has. -/
def factorEnv (h : Heap V) (e : Env) (patsyBuiltins : Nat) (names : List String) : Except Err (Env × Heap V) := do
  let e' := e.withOuter patsyBuiltins
  let ns := e'.namespace h
  let keep := names.filter fun n => (lookup ns.2 ns.1 n).isSome
  e'.subset ns.2 keep

/-- `EvalFactor._eval` (eval.py:580-588) with the stored environment. -/
def factorEval {R : Type} (py : String → Option V) (h : Heap V) (e : Env) (data transforms : Nat) (p : Prog V R) :
    Except Err R × Heap V :=
  let inner := newVld h [data, transforms]
  e.eval py inner.2 p inner.1

/-- `new_name_maker` (eval.py:511-519): does the name of a called function stand for a stateful transform?  Looked
up in the stored environment. -/
def isStatefulCall (stateful : V → Bool) (h : Heap V) (e : Env) (token : String) : Bool :=
  let ns := e.namespace h
  match lookup ns.2 ns.1 token with
  | some v => stateful v
  | none => false

end Patsy.Environment
