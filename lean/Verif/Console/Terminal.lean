/-!
# Model of what `Log` in lib/fbuild/console.py shows on the terminal

For one thread (`threadcount == 1`, 131-133).  Messages are texts.  Left out: Windows, errors of the file and the terminal.
-/
namespace Verif.Console.Terminal

abbrev Text := List Char

/-- a call of `_write` (142) -/
structure Piece where
  msg : Text
  color : Option Text := none
  verbose : Int := 0
  deriving DecidableEq

/-- `_colorcodes` (69-78, 93-94) -/
def colorcode (c : Text) : Option Nat :=
  [("black".toList, 30), ("red".toList, 31), ("green".toList, 32), ("yellow".toList, 33), ("blue".toList, 34),
    ("magenta".toList, 35), ("cyan".toList, 36), ("white".toList, 37), ("compile".toList, 32), ("link".toList, 36)].lookup c

/-- `'%.2d' % n` for the codes there are -/
def digits (n : Nat) : Text := (if n < 10 then ['0'] else []) ++ (toString n).toList

/-- `_write_colored_str` (80-90): what `sys.stdout` gets -/
def colored (s : Text) (color : Option Text) : Text :=
  match color with
  | none => s
  | some c =>
    match colorcode c with
    | none => s
    | some n => "\x1b[01;".toList ++ digits n ++ ['m'] ++ s ++ "\x1b[0m".toList

/-- the fields of a `Log`; `file` and `terminal` are what they got so far -/
structure Log where
  verbose : Int := 0
  nocolor : Bool := false
  showThreads : Bool := false
  /-- the name of the thread (172) -/
  thread : Text := "MainThread".toList
  maxlen : Nat := 25
  file : Text := []
  terminal : Text := []

/-- `_write` (142-152) -/
def Log.write (l : Log) (p : Piece) : Log :=
  { l with
    file := l.file ++ p.msg
    terminal := l.terminal ++
      if p.verbose ≤ l.verbose then colored p.msg (if l.nocolor then none else p.color) else [] }

def Log.writes (l : Log) : List Piece → Log
  | [] => l
  | p :: ps => (l.write p).writes ps

/-- `s.ljust(n)` -/
def ljust (s : Text) (n : Nat) : Text := s ++ List.replicate (n - s.length) ' '

/-- `self.maxlen` after a message of `d` characters (174-176) -/
def widen (maxlen d : Nat) : Nat := if d ≥ maxlen then min (d + 1) 40 else maxlen

/-- the text that `check` is about (171-172) -/
def Log.label (l : Log) (msg : Text) : Text :=
  if l.showThreads then ljust l.thread 10 ++ ": ".toList ++ msg else msg

inductive Op where
  | write (msg : Text) (color : Option Text) (verbose : Int)
  | log (msg : Text) (color : Option Text) (verbose : Int)
  | check (msg : Text) (result color : Option Text) (verbose : Int)
  | passed (msg : Text := "ok".toList) (color : Option Text := some "green".toList) (verbose : Int := 0)
  | failed (msg : Text := "failed".toList) (color : Option Text := some "yellow".toList) (verbose : Int := 0)

/-- `log` (165-168) -/
def logPieces (msg : Text) (color : Option Text) (verbose : Int) : List Piece := [⟨msg, color, verbose⟩, ⟨['\n'], none, verbose⟩]

/-- `check` from line 180 on, with the text of line 178 -/
def checkPieces (msg : Text) (result color : Option Text) (verbose : Int) : List Piece :=
  match result with
  | none => [⟨msg, color, verbose⟩, ⟨['\n'], none, verbose + 1⟩]
  | some r => [⟨msg, none, verbose⟩, ⟨r, color, verbose⟩, ⟨['\n'], none, verbose⟩]

/-- the methods `write`, `log`, `check`, `passed`, `failed` (130-133, 165-192) -/
def Log.op (l : Log) : Op → Log
  | .write msg color verbose => l.write ⟨msg, color, verbose⟩
  | .log msg color verbose | .passed msg color verbose | .failed msg color verbose => l.writes (logPieces msg color verbose)
  | .check msg result color verbose =>
    let msg := l.label msg
    let l := { l with maxlen := widen l.maxlen msg.length }
    l.writes (checkPieces (ljust msg l.maxlen ++ ": ".toList) result color verbose)

def Log.run (l : Log) (ops : List Op) : Log := ops.foldl Log.op l

end Verif.Console.Terminal
