/-!
# Model of the argument handling of `lib/fbuild/functools.py`

`normalize_args` (68-211) and `bind_args` (215-261).  A function is its `inspect.getfullargspec`: names of
parameters, defaults, and whether it is a method.  Dictionaries are lists of pairs in insertion order.
Positional-only parameters are left out (`getfullargspec` shows them as ordinary ones).
-/
namespace Verif.Functools

abbrev Name := String
abbrev Dict (α : Type) := List (Name × α)

/-- `del d[k]` -/
def Dict.erase {α} (d : Dict α) (k : Name) : Dict α := d.filter (fun x => x.1 ≠ k)

/-- `d[k] = v` -/
def Dict.set {α} (d : Dict α) (k : Name) (v : α) : Dict α :=
  if (d.lookup k).isSome then d.map (fun x => if x.1 = k then (k, v) else x) else d ++ [(k, v)]

/-- `d.update(e)` -/
def Dict.update {α} (d e : Dict α) : Dict α := e.foldl (fun d x => Dict.set d x.1 x.2) d

/-- `inspect.getfullargspec(function)` and `inspect.ismethod(function)` -/
structure Sig (V : Type) where
  args : List Name
  defaults : List V := []
  varargs : Option Name := none
  kwonly : List Name := []
  kwdefaults : Dict V := []
  varkw : Option Name := none
  method : Bool := false

/-- `fn_args`: without `self` for a method (94-99, 236-239) -/
def Sig.fnArgs {V} (s : Sig V) : List Name := if s.method then s.args.tail else s.args

inductive Err where
  | typeError | indexError | keyError | attributeError
  deriving DecidableEq, Repr

/-- What a parameter is bound to: a value, the tuple of `*args`, the dictionary of `**kwargs`. -/
inductive Value (V : Type) where
  | one (v : V)
  | tuple (vs : List V)
  | dict (d : Dict V)
  deriving DecidableEq

/-- the key fbuild's decorators add to the arguments -/
def inner : Name := "__FBUILD_INNER"

/-- What `'__FBUILD_INNER' in v` and `v.pop('__FBUILD_INNER', None)` do with a value. -/
inductive Probe (V : Type) where
  /-- not in `v` -/
  | absent
  /-- `in` or `pop` raise -/
  | raises (e : Err)
  /-- removed from the dictionary `v` -/
  | popped (v : V)

/-- What the code does with values of arguments, apart from passing them on. -/
structure Ops (V : Type) where
  probe : V → Probe V
  /-- is the value the text `__FBUILD_INNER`? -/
  isInner : V → Bool

section
variable {V : Type}

/-- The loop over the parameters (134-163).  Returns `bound_args`, the rest of `kwargs` and `argcount`; `ks` are
the parameters from number `i` on. -/
def posLoop (s : Sig V) (as : List V) : List Name → Nat → Dict V → List V → Except Err (List V × Dict V × Nat)
  | [], i, kw, b => .ok (b, kw, i)
  | key :: ks, i, kw, b =>
    match kw.lookup key with
    | none =>
      match as[i]? with
      | some a => posLoop s as ks (i + 1) kw (b ++ [a])
      | none =>
        if s.fnArgs.length - i ≤ s.defaults.length then
          match s.defaults[s.defaults.length - (s.fnArgs.length - i)]? with
          | some d => posLoop s as ks (i + 1) kw (b ++ [d])
          | none => .error .indexError
        else .ok (b, kw, i)
    | some v =>
      if i < as.length then .error .typeError
      else posLoop s as ks (i + 1) (Dict.erase kw key) (b ++ [v])

/-- The keyword-only parameters (180-192): the bound ones, and the rest of `kwargs`. -/
def kwLoop (s : Sig V) : List Name → Dict V → Dict V → Except Err (Dict V × Dict V)
  | [], kw, bk => .ok (bk, kw)
  | key :: ks, kw, bk =>
    match kw.lookup key with
    | some v => kwLoop s ks (Dict.erase kw key) (Dict.set bk key v)
    | none =>
      match s.kwdefaults.lookup key with
      | some d => kwLoop s ks kw (Dict.set bk key d)
      | none => .error .typeError

/-- The rest of `kwargs` without `**kwargs` (197-207). -/
def restLoop (s : Sig V) : Dict V → Dict V → Except Err (Dict V)
  | [], bk => .ok bk
  | (k, v) :: kw, bk =>
    if k ∉ s.fnArgs ∧ k ≠ inner then .error .typeError
    else restLoop s kw (Dict.set bk k v)

/-- `normalize_args` (68-211) -/
def normalizeArgs (s : Sig V) (as : List V) (kws : Dict V) : Except Err (List V × Dict V) :=
  if s.fnArgs = [] ∧ s.kwonly = [] ∧ s.varargs = none ∧ s.varkw = none then
    if as ≠ [] ∨ kws ≠ [] then .error .typeError else .ok ([], [])
  else if as.length > s.fnArgs.length + s.kwonly.length ∧ s.varargs = none then .error .typeError
  else do
    let (b, kw, argcount) ← posLoop s as s.fnArgs 0 kws []
    if argcount + s.defaults.length < s.fnArgs.length then .error .typeError
    else
      let b := if s.varargs ≠ none ∧ argcount < as.length then b ++ as.drop argcount else b
      let (bk, kw) ← kwLoop s s.kwonly kw []
      match s.varkw with
      | some _ => .ok (b, Dict.update bk kw)
      | none => do
        let bk ← restLoop s kw bk
        .ok (b, bk)

/-- `for key in spec.kwonlyargs: bound[key] = kwargs.pop(key)` (249-250) -/
def popLoop : List Name → Dict V → Dict (Value V) → Except Err (Dict V × Dict (Value V))
  | [], kw, bound => .ok (kw, bound)
  | key :: ks, kw, bound =>
    match kw.lookup key with
    | some v => popLoop ks (Dict.erase kw key) (Dict.set bound key (.one v))
    | none => .error .keyError

/-- One round of the loop that removes `__FBUILD_INNER` (257-259). -/
def dropInner (ops : Ops V) (kind : Name) (bound : Dict (Value V)) : Except Err (Dict (Value V)) :=
  match bound.lookup kind with
  | none => .ok bound
  | some (.dict d) => .ok (Dict.set bound kind (.dict (Dict.erase d inner)))
  | some (.tuple vs) => if vs.any ops.isInner then .error .attributeError else .ok bound
  | some (.one v) =>
    match ops.probe v with
    | .absent => .ok bound
    | .raises e => .error e
    | .popped v' => .ok (Dict.set bound kind (.one v'))

/-- `if name is not None: bound[name] = value` (246-247, 252-253) -/
def setOpt (bound : Dict (Value V)) (name : Option Name) (value : Value V) : Dict (Value V) :=
  match name with
  | none => bound
  | some n => Dict.set bound n value

/-- `bind_args` (215-261), for a function that is not wrapped -/
def bindArgs (ops : Ops V) (s : Sig V) (as : List V) (kws : Dict V) : Except Err (Dict (Value V)) := do
  let (args, kwargs) ← normalizeArgs s as kws
  let bound := (s.fnArgs.zip args).foldl (fun d x => Dict.set d x.1 (Value.one x.2)) []
  let bound := setOpt bound s.varargs (.tuple (args.drop s.fnArgs.length))
  let (kwargs, bound) ← popLoop s.kwonly kwargs bound
  let bound := setOpt bound s.varkw (.dict kwargs)
  let bound ← dropInner ops "kw" bound
  dropInner ops "kwargs" bound

end
end Verif.Functools
