import Verif.Install.Core
/-!
# Model of installing through a privileged process (lib/fbuild/install.py 36-103, 148-178)

`Installer.install` without write access starts `pkexec python -m fbuild.install polkit` and sends it one message for each file.
There are two processes and two pipes, and the processes run in any order; the helper can end at any time (authorisation denied,
killed).  A message is one line: `base64.b64encode` gives no newlines, and `_decode` is the inverse of `_encode` (60-66).  The text
`done` is the only thing that is written to the helper's standard output after the first, empty line, since `sys.stdout` is replaced
(88-90).
-/
namespace Verif.Install
open Verif.Posix

/-- a file to install: `InstallItem` with source, target and permissions (context.py 259-279) -/
abbrev Item := Text × Text × Option Nat

/-- What `_send` is called with (install.py 41, 69, 76). -/
inductive Msg where
  | chdir (dir : Text)
  | install (file tgt : Text) (perms : Option Nat)
  | close

/-- Where the helper is in `polkit_process` (85-103). -/
inductive Helper where
  /-- before line 89 -/
  | starting
  /-- in `for line in sys.stdin` (92) -/
  | reading
  /-- before `print('done')` (103) -/
  | answering
  /-- with its return code -/
  | exited (code : Int)
  deriving DecidableEq

/-- A line of the helper's standard output. -/
inductive Line where
  | blank | done
  deriving DecidableEq

/-- Where fbuild is. -/
inductive Parent where
  /-- waiting for the first line (146) -/
  | loading
  /-- before a `_send` or a `close` -/
  | sending
  /-- in `readline` (50) -/
  | awaiting
  /-- in `proc.wait()` of `close(ask=False)` (77); with the exception that is raised again afterwards (55), or without -/
  | waiting (piped : Bool)
  /-- `Installer.install` has returned -/
  | returned
  /-- `sys.exit(code)` (82) -/
  | exit (code : Int)
  /-- `BrokenPipeError` -/
  | broken
  deriving DecidableEq

/-- Both processes, the pipes and the files. -/
structure Sys where
  fs : FS
  /-- the helper's current directory -/
  cwd : Text
  helper : Helper
  stdin : List Msg
  stdout : List Line
  parent : Parent
  /-- the messages that have not been answered -/
  todo : List Msg
  /-- `PolkitCommander.closed` -/
  closed : Bool

/-- there is a directory -/
def isDir (fs : FS) (p : Text) : Bool :=
  match real fs p with
  | some q => match fs q with
    | some .dir => true
    | _ => false
  | none => false

/-- What the helper does with a message (93-101): the files and its current directory, and whether it goes on to line 103; `inr` is
the return code otherwise (1 after an exception). -/
def obey (fs : FS) (cwd : Text) : Msg → FS × (Text ⊕ Int)
  | .chdir d => (fs, if isDir fs (join cwd d) then .inl (join cwd d) else .inr 1)
  | .install file tgt perms =>
    let r := install fs (join cwd file) (join cwd tgt) perms
    (r.fs, if r.ok then .inl cwd else .inr 1)
  | .close => (fs, .inr 0)

/-- the rest of a turn of the helper's loop -/
def Sys.after (s : Sys) (rest : List Msg) (r : FS × (Text ⊕ Int)) : Sys :=
  match r.2 with
  | .inl cwd => { s with fs := r.1, cwd := cwd, stdin := rest, helper := .answering }
  | .inr code => { s with fs := r.1, stdin := rest, helper := .exited code }

/-- A step of the helper (85-103); `none` if it waits or has ended. -/
def Sys.helperStep (s : Sys) : Option Sys :=
  match s.helper with
  | .starting => some { s with stdout := s.stdout ++ [.blank], helper := .reading }
  | .reading =>
    match s.stdin with
    | [] => none
    | m :: rest => some (s.after rest (obey s.fs s.cwd m))
  | .answering => some { s with stdout := s.stdout ++ [.done], helper := .reading }
  | .exited _ => none

/-- the helper has ended -/
def Helper.ended : Helper → Bool
  | .exited _ => true
  | _ => false

/-- the message is `close` -/
def Msg.isClose : Msg → Bool
  | .close => true
  | _ => false

/-- `proc.wait()` and what follows it in `close` and `_send` (55, 77-82) -/
def Sys.waited (s : Sys) (piped : Bool) (code : Int) : Sys :=
  if code ≠ 0 then { s with closed := true, parent := .exit code }
  else if piped then { s with closed := true, parent := .broken }
  else { s with closed := true, parent := .sending, todo := s.todo.tail }

/-- `_send(m)`, up to `readline` (43-55): writing to a process that has ended raises `EPIPE`; `close` of a closed commander does
nothing (72-73). -/
def Sys.send (s : Sys) (m : Msg) : Sys :=
  if m.isClose && s.closed then { s with parent := .returned }
  else if s.helper.ended then
    (if s.closed then { s with parent := .broken } else { s with parent := .waiting true })
  else { s with stdin := s.stdin ++ [m], parent := .awaiting }

/-- what `_send` does with the line (50, 57-58) -/
def Sys.answer (s : Sys) : Line → Sys
  | .done => { s with todo := s.todo.tail, parent := .sending }
  | .blank => { s with parent := .waiting false }

/-- A step of fbuild: `Installer.install` (163-177) with `PolkitCommander`; `none` if it waits or has ended.  `readline` of the pipe
of a process that has ended gives what is left in it, and then an empty text. -/
def Sys.parentStep (s : Sys) : Option Sys :=
  match s.parent with
  | .loading =>
    match s.stdout with
    | _ :: rest => some { s with stdout := rest, parent := .sending }
    | [] => if s.helper.ended then some { s with parent := .sending } else none
  | .sending =>
    match s.todo with
    | [] => some { s with parent := .returned }
    | m :: _ => some (s.send m)
  | .awaiting =>
    match s.stdout with
    | l :: rest => some ({ s with stdout := rest }.answer l)
    | [] => if s.helper.ended then some { s with parent := .waiting false } else none
  | .waiting piped =>
    match s.helper with
    | .exited code => some (s.waited piped code)
    | _ => none
  | _ => none

/-- One of the two processes makes a step. -/
inductive Next (s s' : Sys) : Prop where
  | helper (h : s.helperStep = some s')
  | parent (h : s.parentStep = some s')

/-- The helper is ended from outside, or cannot be started: its return code is not 0.  If it was about to install a file, the files
can be anything. -/
inductive Die (s : Sys) : Sys → Prop where
  | idle (code : Int) (hc : code ≠ 0) (h : s.helper.ended = false) : Die s { s with helper := .exited code }
  | busy (code : Int) (fs : FS) (hc : code ≠ 0) (hh : s.helper = .reading)
      (hi : ∃ file tgt perms rest, s.stdin = .install file tgt perms :: rest) :
      Die s { s with helper := .exited code, fs := fs }

/-- The beginning: the commander sends the current directory (41), then the files (112-116), then `close` (177). -/
def start (fs : FS) (rootCwd cwd : Text) (items : List Item) : Sys where
  fs := fs
  cwd := rootCwd
  helper := .starting
  stdin := []
  stdout := []
  parent := .loading
  todo := .chdir cwd :: (items.map fun i => .install i.1 i.2.1 i.2.2) ++ [.close]
  closed := false

/-- The states that can be reached; whether the helper was ended from outside. -/
inductive Reach (s₀ : Sys) : Bool → Sys → Prop where
  | refl : Reach s₀ false s₀
  | step {k s s'} (h : Reach s₀ k s) (hs : Next s s') : Reach s₀ k s'
  | die {k s s'} (h : Reach s₀ k s) (hs : Die s s') : Reach s₀ true s'

/-- fbuild has ended -/
def Parent.ended : Parent → Prop
  | .returned | .exit _ | .broken => True
  | _ => False

end Verif.Install
