import Verif.Options.Core
/-!
# What a command line means: specification

How an option may be written, and what a list of uses of options means.  Nothing here refers to the parser.
-/
namespace Verif.Options

/-- one use of an option -/
structure Use where
  opt : Opt
  arg : Option Str

/-- a name of an option: a dash and a letter, or two dashes and a word -/
def IsName (n : Str) : Prop :=
  '=' ∉ n ∧ n.head? = some '-' ∧ ((n.length = 2 ∧ n[1]? ≠ some '-') ∨ (3 ≤ n.length ∧ n[1]? = some '-'))

/-- a table of options of which no two have a name or a variable in common -/
structure WF (t : List Opt) : Prop where
  names : ∀ o ∈ t, ∀ n ∈ o.names, IsName n
  nodup : (t.flatMap Opt.names).Nodup
  dests : (t.map Opt.dest).Nodup

/-- a word that does not look like an option -/
def Plain (v : Str) : Prop := v.head? ≠ some '-' ∨ v = ['-']

/-- `p` is a long name of `o`, or the beginning of just one name -/
def Long (t : List Opt) (p : Str) (o : Opt) : Prop :=
  o ∈ t ∧ p.take 2 = ['-', '-'] ∧ '=' ∉ p ∧
    (p ∈ o.names ∨ 2 < p.length ∧ ∃ n ∈ o.names, p <+: n ∧ ∀ o' ∈ t, ∀ n' ∈ o'.names, p <+: n' → n' = n)

/-- `-c` is a name of `o` -/
def Short (t : List Opt) (c : Char) (o : Opt) : Prop := o ∈ t ∧ ['-', c] ∈ o.names

/-- Letters after one dash.  The last argument: the option of the last letter, if its argument is not in the same word. -/
inductive Letters (t : List Opt) : List Use → Str → Option Opt → Prop
  | last {c o} : Short t c o → Letters t [] [c] (some o)
  | attached {c o v} : Short t c o → o.kind.takes = true → v ≠ [] → v.head? ≠ some '=' →
      Letters t [⟨o, some v⟩] (c :: v) none
  | equals {c o v} : Short t c o → o.kind.takes = true → Letters t [⟨o, some v⟩] (c :: '=' :: v) none
  | more {c o us s w} : Short t c o → o.kind.takes = false → Letters t us s w → Letters t (⟨o, none⟩ :: us) (c :: s) w

/-- The words of some uses of options: `--name`, `--name value`, `--name=value`, `-n`, `-n value`, `-nvalue`, `-n=value`,
or several letters in one word. -/
inductive Writes (t : List Opt) : List Use → List Str → Prop
  | flag {p o} : Long t p o → o.kind.takes = false → Writes t [⟨o, none⟩] [p]
  | next {p o v} : Long t p o → o.kind.takes = true → Plain v → Writes t [⟨o, some v⟩] [p, v]
  | equals {p o v} : Long t p o → o.kind.takes = true → Writes t [⟨o, some v⟩] [p ++ '=' :: v]
  | letters {us s} : Letters t us s none → Writes t us ['-' :: s]
  | lettersFlag {us s o} : Letters t us s (some o) → o.kind.takes = false → Writes t (us ++ [⟨o, none⟩]) ['-' :: s]
  | lettersNext {us s o v} : Letters t us s (some o) → o.kind.takes = true → Plain v →
      Writes t (us ++ [⟨o, some v⟩]) ['-' :: s, v]

/-- the words of a list of uses of options -/
inductive Line (t : List Opt) : List Use → List Str → Prop
  | nil : Line t [] []
  | cons {us ss us' ss'} : Writes t us ss → Line t us' ss' → Line t (us ++ us') (ss ++ ss')

/-- the argument of a use is one that the option accepts -/
def Valid (e : Env) (u : Use) : Prop :=
  match u.opt.kind, u.arg with
  | .flag, none | .count, none | .value, some _ => True
  | .int, some a => ∃ i, e.int a = some i
  | .choice cs, some a => a ∈ cs
  | _, _ => False

def uses (us : List Use) (o : Opt) : List Use := us.filter fun u => u.opt = o

/-- What a list of uses gives to an option: the last use counts, `count` adds the uses, and an option that is not used has
its default. -/
def meaning (e : Env) (us : List Use) (o : Opt) : Val :=
  match (uses us o).getLast? with
  | none => o.default
  | some u => match o.kind, u.arg with
    | .flag, _ => .bool true
    | .count, _ => .num ((match o.default with | .num n => n | _ => 0) + (uses us o).length)
    | .value, some a | .choice _, some a => .str a
    | .int, some a => match e.int a with | some i => .int i | none => .none
    | _, _ => .none

end Verif.Options
