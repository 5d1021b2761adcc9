import Verif.Functools.Core
/-!
# How Python binds arguments to parameters

Written from the language reference ("Calls"), not from `functools.py`.
-/
namespace Verif.Functools

/-- What a parameter is bound to; the dictionary of `**kwargs` does not depend on an order. -/
inductive Bound (V : Type) where
  | one (v : V)
  | tuple (vs : List V)
  | dict (d : Name → Option V)

section
variable {V : Type}

/-- The default of a positional parameter: defaults belong to the last parameters. -/
def defaultOf (ps : List Name) (defaults : List V) (k : Name) : Option V :=
  (ps.reverse.zip defaults.reverse).lookup k

/-- Python binds the positional values `as` and the keywords `kws` to the parameters of `s`, whose positional
ones are `ps`: `env` is the name space at the start of the function. -/
structure BindsTo (ps : List Name) (s : Sig V) (as : List V) (kws : Dict V) (env : Name → Option (Bound V)) :
    Prop where
  /-- no surplus positional values, unless there is `*args` -/
  notTooMany : as.length ≤ ps.length ∨ s.varargs ≠ none
  /-- no unknown keywords, unless there is `**kwargs` -/
  known : ∀ k, kws.lookup k ≠ none → k ∈ ps ∨ k ∈ s.kwonly ∨ s.varkw ≠ none
  /-- no parameter gets a positional value and a keyword -/
  notTwice : ∀ k ∈ ps.take as.length, kws.lookup k = none
  /-- positional parameters: by position, by keyword, or the default -/
  positional : ∀ k ∈ ps, ∃ v,
    (((ps.zip as).lookup k).or ((kws.lookup k).or (defaultOf ps s.defaults k))) = some v ∧ env k = some (.one v)
  /-- keyword-only parameters: by keyword, or the default -/
  keyword : ∀ k ∈ s.kwonly, ∃ v, ((kws.lookup k).or (s.kwdefaults.lookup k)) = some v ∧ env k = some (.one v)
  /-- `*args` takes the surplus values -/
  star : ∀ n, s.varargs = some n → env n = some (.tuple (as.drop ps.length))
  /-- `**kwargs` takes the unknown keywords -/
  starStar : ∀ n, s.varkw = some n →
    env n = some (.dict (fun k => if k ∈ ps ∨ k ∈ s.kwonly then none else kws.lookup k))
  /-- nothing else -/
  onlyParameters : ∀ n, n ∉ ps → n ∉ s.kwonly → s.varargs ≠ some n → s.varkw ≠ some n → env n = none

/-- A call of a function. -/
def Binds (s : Sig V) (as : List V) (kws : Dict V) (env : Name → Option (Bound V)) : Prop :=
  BindsTo s.args s as kws env

/-- the names of all parameters, as `bind_args` sees them -/
def Sig.names (s : Sig V) : List Name := s.fnArgs ++ s.kwonly ++ s.varargs.toList ++ s.varkw.toList

/-- Python accepts a definition only if the names of its parameters differ.  The name reserved by fbuild is
excluded as well. -/
structure WF (s : Sig V) : Prop where
  distinct : s.names.Nodup
  noInner : inner ∉ s.names

/-- No parameter but `**kwargs` is called `kw` or `kwargs`. -/
def Plain (s : Sig V) : Prop :=
  ∀ n ∈ s.fnArgs ++ s.kwonly ++ s.varargs.toList, n ≠ "kw" ∧ n ≠ "kwargs"

/-- Each key once. -/
def Keys (d : Dict V) : Prop := (d.map Prod.fst).Nodup

instance (d : Dict V) : Decidable (Keys d) := by unfold Keys; infer_instance

def Value.bound : Value V → Bound V
  | .one v => .one v
  | .tuple vs => .tuple vs
  | .dict d => .dict (fun k => d.lookup k)

/-- The dictionary that `bind_args` returns, without the order of its keys. -/
def sem (b : Dict (Value V)) (n : Name) : Option (Bound V) := (b.lookup n).map Value.bound

/-- Two cache keys are equal: `bound == old_bound` (cache_backend.py 152, sqlite_backend.py 290). -/
def SameKey (b b' : Dict (Value V)) : Prop := ∀ n, sem b n = sem b' n

end
end Verif.Functools
