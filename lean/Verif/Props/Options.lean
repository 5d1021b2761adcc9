import Verif.Options.Lemmas
import Verif.Options.Context
import Verif.Props.CopyRegex
/-!
# The command line: properties

C135, C136.  The specification is in `Options/Spec.lean`.
-/
namespace Verif.Options
open Verif.Posix Verif.Path Verif.FileOps

/-- The options of `make_parser` have different names and variables. -/
theorem builtin_WF : WF builtin where
  names := by unfold IsName; decide +kernel
  nodup := by decide +kernel
  dests := by decide +kernel

/-! ## C135 -/

/-- **C135.**  Let the options of a command line be written in any of the ways of `Writes`, in any order, with valid
arguments, and let the targets, none of which looks like an option, be in one place between them.  Then the parser accepts
the command line, each option has what its uses mean (the last use counts, `-v` adds up, the default without a use), and the
targets are the ones given, or `build`.  This is for the options of `make_parser` and for any that the script adds with names
and variables of their own.  Missing: targets in two places (`C135_order_violated`) and an argument that looks like an option
(`C135_argument_violated`). -/
theorem C135_partial (e : Env) (t : List Opt) (h : WF t) (us1 us2 : List Use) (a1 a2 ts : List Str) (h1 : Line t us1 a1)
    (h2 : Line t us2 a2) (hp : ∀ x ∈ ts, Plain x) (hv : ∀ u ∈ us1 ++ us2, Valid e u) :
    ∃ ns, parse e t (a1 ++ ts ++ a2) = .ok ns ∧ ns.targets = (if ts = [] then ["build".toList] else ts) ∧
      ∀ o ∈ t, ns.vals.get? o.dest = some (meaning e (us1 ++ us2) o) :=
  parse_line h h1 h2 hp hv

/-- **C135**, `--`: what follows are targets, whatever it looks like. -/
theorem C135_dashes (e : Env) (t : List Opt) (h : WF t) (us : List Use) (a ts : List Str) (h1 : Line t us a)
    (hv : ∀ u ∈ us, Valid e u) :
    ∃ ns, parse e t (a ++ "--".toList :: ts) = .ok ns ∧ ns.targets = (if ts = [] then ["build".toList] else ts) ∧
      ∀ o ∈ t, ns.vals.get? o.dest = some (meaning e us o) :=
  parse_dashes h h1 hv

/-- the part of a word before the first `=` -/
def beforeEq (x : Str) : Str := x.takeWhile (· ≠ '=')

theorem partition_takeWhile (x : Str) : (partition x).1 = beforeEq x := by
  unfold beforeEq
  induction x with
  | nil => rfl
  | cons c x ih => by_cases hc : c = '=' <;> simp [partition, hc, ih]

/-- **C135**, an unknown option is not ignored: a word with two dashes that is not the beginning of the name of an option is
refused, wherever it is before a `--`, and whatever else is on the command line.  (argparse takes a word with a space, or one
that looks like a negative number, for an argument.) -/
theorem C135_unknown (e : Env) (t : List Opt) (a b : List Str) (x : Str) (hd : "--".toList ∉ a)
    (hx : "--".toList <+: x) (hl : 2 < x.length) (hs : ' ' ∉ x) (hn : e.negative x = false)
    (hu : ∀ o ∈ t, ∀ n ∈ o.names, ¬ beforeEq x <+: n) (ns : NS) : parse e t (a ++ x :: b) ≠ .ok ns := by
  obtain ⟨y, rfl⟩ := hx
  exact parse_unknown rfl hd (by simp) hl hs hn (by rw [partition_takeWhile]; exact hu) ns

/-- **C135**, an abbreviation of two names is refused. -/
theorem C135_ambiguous (e : Env) (t : List Opt) (a b : List Str) (x : Str) (hd : "--".toList ∉ a)
    (hx : "--".toList <+: x) (hl : 2 < x.length) (o1 o2 : Opt) (n1 n2 : Str) (ho1 : o1 ∈ t) (ho2 : o2 ∈ t)
    (hn1 : n1 ∈ o1.names) (hn2 : n2 ∈ o2.names) (hne : n1 ≠ n2) (hp1 : beforeEq x <+: n1) (hp2 : beforeEq x <+: n2)
    (hno : ∀ o ∈ t, x ∉ o.names ∧ beforeEq x ∉ o.names) (ns : NS) : parse e t (a ++ x :: b) ≠ .ok ns := by
  obtain ⟨y, rfl⟩ := hx
  rw [← partition_takeWhile] at hp1 hp2
  exact parse_ambiguous rfl hd (by simp) hl ho1 ho2 hn1 hn2 hne hp1 hp2 (by rw [partition_takeWhile]; exact hno) ns

/-- **C135**, an argument after `=` for an option that takes none is refused. -/
theorem C135_flag_argument (e : Env) (t : List Opt) (h : WF t) (a b : List Str) (p v : Str) (o : Opt) (hl : Long t p o)
    (ht : o.kind.takes = false) (hd : "--".toList ∉ a) (ns : NS) : parse e t (a ++ (p ++ '=' :: v) :: b) ≠ .ok ns :=
  parse_flag_argument h hl ht rfl hd ns

/-- **C135**, an unknown letter after letters of options without an argument is refused. -/
theorem C135_letter (e : Env) (t : List Opt) (h : WF t) (a b : List Str) (fs : Str) (c : Char) (s : Str) (hf : fs ≠ [])
    (hfs : ∀ c ∈ fs, ∃ o, Short t c o ∧ o.kind.takes = false) (hc : ∀ o ∈ t, ['-', c] ∉ o.names) (hd : "--".toList ∉ a)
    (ns : NS) : parse e t (a ++ ('-' :: (fs ++ c :: s)) :: b) ≠ .ok ns := by
  refine parse_letter h (s := fs ++ c :: s) ?_ rfl hd ns
  clear hd
  induction fs with
  | nil => exact absurd rfl hf
  | cons x fs ih =>
    obtain ⟨o, ho, ht⟩ := hfs x List.mem_cons_self
    by_cases hn : fs = []
    · subst hn; exact .last ho ht hc
    · exact .more ho ht (ih hn fun y hy => hfs y (List.mem_cons_of_mem _ hy))

/-- **C135**, targets in two places are refused, whatever follows. -/
theorem C135_second_refused (e : Env) (t : List Opt) (h : WF t) (us1 us2 : List Use) (a1 a2 ts1 ts2 b : List Str)
    (h1 : Line t us1 a1) (h2 : Line t us2 a2) (hp1 : ∀ x ∈ ts1, Plain x) (hp2 : ∀ x ∈ ts2, Plain x)
    (hv : ∀ u ∈ us1 ++ us2, Valid e u) (hne1 : ts1 ≠ []) (hne2 : ts2 ≠ []) (hne : a2 ≠ []) (ns : NS) :
    parse e t (a1 ++ (ts1 ++ (a2 ++ (ts2 ++ b)))) ≠ .ok ns :=
  parse_second h h1 h2 hp1 hp2 hv hne1 hne2 hne ns

/-- **C135**, a wrong argument: after options that are used well, a use of an option whose argument is not a number, or not one of the
choices, ends the process, in whichever way it is written and whatever follows.  So does an option like `--version`. -/
theorem C135_wrong (e : Env) (t : List Opt) (h : WF t) (us1 us2 : List Use) (a s b : List Str) (h1 : Line t us1 a)
    (hv : ∀ u ∈ us1, Valid e u) (h2 : Writes t us2 s) (hw : ∃ u ∈ us2, ¬ Valid e u) (ns : NS) :
    parse e t (a ++ (s ++ b)) ≠ .ok ns :=
  parse_wrong h h1 hv h2 hw b ns

namespace Ex

/-- digits only -/
def env : Env where
  negative := fun s => match s with | '-' :: c :: s => (c :: s).all Char.isDigit | _ => false
  int := fun s => if s ≠ [] ∧ s.all Char.isDigit then some (Int.ofNat (s.foldl (fun n c => n * 10 + (c.toNat - 48)) 0)) else none

def words (l : List String) : List Str := l.map String.toList

def show' : Except Stop NS → Option (List Str × List (Str × Val)) 
  | .ok ns => some (ns.targets, ns.vals)
  | .error _ => none

def jobs : Opt := opt ["-j", "--jobs"] "threadcount" .int (.int 1)
def verbose : Opt := opt ["-v", "--verbose"] "verbose" .count (.num 0)
def stateFile : Opt := opt ["--state-file"] "state_file" .value .none
def rebuild : Opt := opt ["--rebuild"] "force_rebuild" .flag (.bool false)
def engine : Opt :=
  opt ["--database-engine"] "database_engine" (.choice ["pickle".toList, "sqlite".toList, "cache".toList]) (.str "pickle".toList)

theorem long_jobs : Long builtin "--jo".toList jobs :=
  ⟨by decide +kernel, rfl, by decide +kernel, .inr ⟨by decide +kernel, "--jobs".toList, by decide +kernel, by decide +kernel,
    by decide +kernel⟩⟩
theorem long_state : Long builtin "--state-file".toList stateFile :=
  ⟨by decide +kernel, rfl, by decide +kernel, .inl (by decide +kernel)⟩
theorem long_rebuild : Long builtin "--reb".toList rebuild :=
  ⟨by decide +kernel, rfl, by decide +kernel, .inr ⟨by decide +kernel, "--rebuild".toList, by decide +kernel, by decide +kernel,
    by decide +kernel⟩⟩
theorem short_v : Short builtin 'v' verbose := ⟨by decide +kernel, by decide +kernel⟩
theorem short_j : Short builtin 'j' jobs := ⟨by decide +kernel, by decide +kernel⟩

/-- The hypotheses of `C135_partial` are met by `fbuild --jo 3 -vvj4 build tests --state-file=-x --reb -v`. -/
example : ∃ ns, parse env builtin (words ["--jo", "3", "-vvj4", "build", "tests", "--state-file=-x", "--reb", "-v"]) = .ok ns ∧
    ns.targets = words ["build", "tests"] ∧ ns.vals.get? "threadcount".toList = some (.int 4) ∧
    ns.vals.get? "verbose".toList = some (.num 3) ∧ ns.vals.get? "state_file".toList = some (.str "-x".toList) ∧
    ns.vals.get? "force_rebuild".toList = some (.bool true) ∧
    ns.vals.get? "database_engine".toList = some (.str "pickle".toList) := by
  have l1 : Line builtin _ _ := .cons (.next (v := "3".toList) long_jobs rfl (.inl (by decide +kernel)))
    (.cons (.letters (.more short_v rfl (.more short_v rfl (.attached (v := "4".toList) short_j rfl (by decide +kernel)
      (by decide +kernel))))) .nil)
  have l2 : Line builtin _ _ := .cons (.equals (v := "-x".toList) long_state rfl)
    (.cons (.flag long_rebuild rfl) (.cons (.lettersFlag (.last short_v) rfl) .nil))
  obtain ⟨ns, h1, h2, h3⟩ := C135_partial env builtin builtin_WF _ _ _ _ (words ["build", "tests"]) l1 l2
    (by unfold Plain; decide +kernel) (by
      intro u hu
      simp only [List.cons_append, List.nil_append, List.append_nil, List.mem_cons, List.not_mem_nil, or_false] at hu
      rcases hu with rfl | rfl | rfl | rfl | rfl | rfl | rfl
      · exact ⟨3, by decide +kernel⟩
      · trivial
      · trivial
      · exact ⟨4, by decide +kernel⟩
      · trivial
      · trivial
      · trivial)
  refine ⟨ns, h1, h2, ?_, ?_, ?_, ?_, ?_⟩
  · exact (h3 jobs (by decide +kernel)).trans (by decide +kernel)
  · exact (h3 verbose (by decide +kernel)).trans (by decide +kernel)
  · exact (h3 stateFile (by decide +kernel)).trans (by decide +kernel)
  · exact (h3 rebuild (by decide +kernel)).trans (by decide +kernel)
  · exact (h3 engine (by decide +kernel)).trans (by decide +kernel)

/-- The hypotheses of `C135_wrong`: `fbuild --reb -vjx build`. -/
example (ns : NS) : parse env builtin (words ["--reb"] ++ (words ["-vjx"] ++ words ["build"])) ≠ .ok ns := by
  refine C135_wrong env builtin builtin_WF [⟨rebuild, none⟩] [⟨verbose, none⟩, ⟨jobs, some "x".toList⟩] _ _ _
    (.cons (us := [⟨rebuild, none⟩]) (ss := words ["--reb"]) (us' := []) (ss' := []) (.flag long_rebuild rfl) .nil) ?_
    (.letters (.more short_v rfl (.attached (v := "x".toList) short_j rfl (by decide +kernel) (by decide +kernel))))
    ⟨⟨jobs, some "x".toList⟩, by simp, ?_⟩ ns
  · intro u hu; simp at hu; subst hu; trivial
  · rintro ⟨i, hi⟩
    revert hi
    rw [show env.int "x".toList = none by decide +kernel]
    intro hi; cases hi

/-- The hypotheses of `C135_dashes`: `fbuild -v -- --odd`. -/
example : ∃ ns, parse env builtin (words ["-v", "--", "--odd"]) = .ok ns ∧ ns.targets = words ["--odd"] := by
  obtain ⟨ns, h1, h2, _⟩ := C135_dashes env builtin builtin_WF _ _ (words ["--odd"])
    (.cons (.lettersFlag (.last short_v) rfl) .nil) (by
      intro u hu
      simp only [List.nil_append, List.append_nil, List.mem_cons, List.not_mem_nil, or_false] at hu
      subst hu; trivial)
  exact ⟨ns, h1, h2⟩

/-- The hypotheses of `C135_unknown`: `fbuild build --rebiuld`. -/
example (ns : NS) : parse env builtin (words ["build"] ++ "--rebiuld=1".toList :: words ["-v"]) ≠ .ok ns :=
  C135_unknown env builtin _ _ _ (by decide +kernel) (by decide +kernel) (by decide +kernel) (by decide +kernel)
    (by decide +kernel) (by decide +kernel) ns

/-- The hypotheses of `C135_ambiguous`: `fbuild -v --no` could be `--no-color`, `--nocolor` or `--no-warnings`. -/
example (ns : NS) : parse env builtin (words ["-v"] ++ "--no".toList :: []) ≠ .ok ns :=
  C135_ambiguous env builtin _ _ _ (by decide +kernel) (by decide +kernel) (by decide +kernel)
    (opt ["--no-color"] "no_color" .flag (.bool false)) (opt ["--nocolor"] "nocolor" .flag (.bool false))
    "--no-color".toList "--nocolor".toList (by decide +kernel) (by decide +kernel) (by decide +kernel) (by decide +kernel)
    (by decide +kernel) (by decide +kernel) (by decide +kernel) (by decide +kernel) ns

/-- The hypotheses of `C135_flag_argument`: `fbuild --reb=no`. -/
example (ns : NS) : parse env builtin ([] ++ ("--reb".toList ++ '=' :: "no".toList) :: words ["build"]) ≠ .ok ns :=
  C135_flag_argument env builtin builtin_WF _ _ _ _ rebuild long_rebuild rfl (by decide +kernel) ns

/-- The hypotheses of `C135_letter`: `fbuild -vvx`. -/
example (ns : NS) : parse env builtin ([] ++ ('-' :: ("vv".toList ++ 'x' :: [])) :: words ["build"]) ≠ .ok ns :=
  C135_letter env builtin builtin_WF _ _ _ 'x' [] (by decide +kernel)
    (by
      intro c hc
      have : c = 'v' := by simpa using hc
      subst this
      exact ⟨verbose, short_v, rfl⟩) (by decide +kernel) (by decide +kernel) ns

/-- The hypotheses of `C135_second_refused`: `fbuild configure -v build --rebuild`. -/
example (ns : NS) : parse env builtin ([] ++ (words ["configure"] ++ (words ["-v"] ++ (words ["build"] ++ words ["--rebuild"])))) ≠
    .ok ns := by
  refine C135_second_refused env builtin builtin_WF [] [⟨verbose, none⟩] _ _ _ _ _ .nil
    (.cons (ss' := []) (us' := []) (.lettersFlag (us := []) (.last short_v) rfl) .nil) (by unfold Plain; decide +kernel)
    (by unfold Plain; decide +kernel) ?_ (by decide +kernel) (by decide +kernel) (by simp) ns
  intro u hu
  simp at hu
  subst hu; trivial

/-- **C135 is violated**: `fbuild configure -v build` is refused, though both `fbuild configure build -v` and
`fbuild -v configure build` are accepted. -/
theorem C135_order_violated :
    (show' (parse env builtin (words ["configure", "-v", "build"]))).isNone ∧
    (show' (parse env builtin (words ["configure", "build", "-v"]))).isSome ∧
    (show' (parse env builtin (words ["-v", "configure", "build"]))).isSome := by decide +kernel

/-- **C135 is violated**: an argument that begins with a dash is refused after a space, and accepted after `=`. -/
theorem C135_argument_violated :
    (show' (parse env builtin (words ["--state-file", "-x"]))).isNone ∧
    (show' (parse env builtin (words ["--state-file=-x"]))).isSome := by decide +kernel

end Ex

/-! ## C136 -/

/-- The last argument that the uses give to an option with this variable. -/
def lastArg (us : List Use) (d : String) : Option Str :=
  ((us.filter fun u => u.opt.dest = d.toList).getLast?).bind Use.arg

def isUsed (us : List Use) (d : String) : Bool := us.any fun u => u.opt.dest = d.toList

theorem uses_dest {t : List Opt} (h : WF t) {us : List Use} (hu : ∀ u ∈ us, u.opt ∈ t) {o : Opt} (ho : o ∈ t) :
    uses us o = us.filter (fun u => u.opt.dest = o.dest) := by
  unfold uses
  apply List.filter_congr
  intro u hm
  by_cases hd : u.opt.dest = o.dest
  · simp [inj_of_map h.dests (hu u hm) ho hd]
  · have : u.opt ≠ o := fun h' => hd (by rw [h'])
    simp [hd, this]

theorem Line.mem {t : List Opt} {us : List Use} {ss : List Str} (hl : Line t us ss) : ∀ u ∈ us, u.opt ∈ t := by
  induction hl with
  | nil => simp
  | cons hw _ ih =>
    intro u hu
    rcases List.mem_append.1 hu with hu | hu
    · exact hw.mem u hu
    · exact ih u hu

theorem meaning_value {e : Env} {us : List Use} {o : Opt} (hk : o.kind.takes = true)
    (hi : o.kind ≠ .int) (hv : ∀ u ∈ us, Valid e u) :
    meaning e us o = match ((uses us o).getLast?).bind Use.arg with | some a => .str a | none => o.default := by
  unfold meaning
  cases hg : (uses us o).getLast? with
  | none => rfl
  | some u =>
    have hm := List.mem_of_getLast? hg
    unfold uses at hm
    simp only [List.mem_filter, decide_eq_true_eq] at hm
    have := hv u hm.1
    unfold Valid at this
    rw [hm.2] at this
    cases hk' : o.kind <;> rw [hk'] at hk this <;> cases ha : u.arg <;> rw [ha] at this <;>
      simp_all [Kind.takes]

theorem meaning_flag {e : Env} {us : List Use} {o : Opt} (hk : o.kind = .flag) (hd : o.default = .bool false) :
    meaning e us o = .bool (!(uses us o).isEmpty) := by
  unfold meaning
  cases hg : (uses us o).getLast? with
  | none =>
    have : uses us o = [] := List.getLast?_eq_none_iff.1 hg
    simp [this, hd]
  | some u =>
    have : uses us o ≠ [] := fun h' => by rw [h'] at hg; cases hg
    simp [hk, this]

theorem meaning_int {e : Env} {us : List Use} {o : Opt} (hk : o.kind = .int) {i : Int} (hd : o.default = .int i)
    (hv : ∀ u ∈ us, Valid e u) : ∃ j, meaning e us o = .int j ∧
      some j = (((uses us o).getLast?).bind Use.arg).elim (some i) e.int := by
  unfold meaning
  cases hg : (uses us o).getLast? with
  | none => exact ⟨i, hd, rfl⟩
  | some u =>
    have hm := List.mem_of_getLast? hg
    unfold uses at hm
    simp only [List.mem_filter, decide_eq_true_eq] at hm
    have := hv u hm.1
    unfold Valid at this
    rw [hm.2, hk] at this
    cases ha : u.arg with
    | none => rw [ha] at this; exact this.elim
    | some a =>
      rw [ha] at this
      obtain ⟨j, hj⟩ := this
      exact ⟨j, by simp [hk, ha, hj], by simp [ha, hj]⟩

theorem meaning_count {e : Env} {us : List Use} {o : Opt} (hk : o.kind = .count) (hd : o.default = .num 0) :
    meaning e us o = .num (uses us o).length := by
  unfold meaning
  cases hg : (uses us o).getLast? with
  | none =>
    have : uses us o = [] := List.getLast?_eq_none_iff.1 hg
    simp [this, hd]
  | some u => simp [hk, hd]

theorem isUsed_iff (us : List Use) (d : String) :
    (!(us.filter (fun u => u.opt.dest = d.toList)).isEmpty) = isUsed us d := by
  unfold isUsed
  induction us with
  | nil => rfl
  | cons u us ih => by_cases hd : u.opt.dest = d.toList <;> simp_all

/-- **C136.**  The settings of a build follow from the uses of the options on the command line: the build directory is the
last `--buildroot` or `build`; the state file is the last `--state-file`, or the default of the engine, below the build
directory unless it is absolute; the log file likewise; colors are off with `--no-color` or `--nocolor`; the old state is
dropped with `--rebuild` or `--configure`; there are as many threads as the last `--jobs` says, or one; the level of the
messages is the number of `-v`; temporary files are in `.tmp` in the build directory. -/
theorem C136_partial (e : Env) (t : List Opt) (h : WF t) (hb : ∀ o ∈ builtin, o ∈ t) (us1 us2 : List Use)
    (a1 a2 ts : List Str) (h1 : Line t us1 a1) (h2 : Line t us2 a2) (hp : ∀ x ∈ ts, Plain x)
    (hv : ∀ u ∈ us1 ++ us2, Valid e u) :
    ∃ ns s, parse e t (a1 ++ ts ++ a2) = .ok ns ∧ context ns = some s ∧
      s.buildroot = (lastArg (us1 ++ us2) "buildroot").getD "build".toList ∧
      s.engine = (lastArg (us1 ++ us2) "database_engine").getD "pickle".toList ∧
      s.stateFile = join s.buildroot ((lastArg (us1 ++ us2) "state_file").getD
        (if s.engine = "sqlite".toList then "fbuild-state.sqldb".toList else "fbuild-state.db".toList)) ∧
      s.logFile = join s.buildroot ((lastArg (us1 ++ us2) "log_file").getD "fbuild.log".toList) ∧
      s.nocolor = (isUsed (us1 ++ us2) "no_color" || isUsed (us1 ++ us2) "nocolor") ∧
      s.fresh = (isUsed (us1 ++ us2) "force_rebuild" || isUsed (us1 ++ us2) "force_configuration") ∧
      some s.threadcount = (lastArg (us1 ++ us2) "threadcount").elim (some 1) e.int ∧
      s.verbose = ((us1 ++ us2).filter fun u => u.opt.dest = "verbose".toList).length ∧
      s.tmpdir = join s.buildroot ".tmp".toList := by
  obtain ⟨ns, hns, _, hm⟩ := C135_partial e t h us1 us2 a1 a2 ts h1 h2 hp hv
  have hu := (h1.append h2).mem
  generalize us1 ++ us2 = us at hm hu hv ⊢
  have value : ∀ o ∈ t, o.kind.takes = true → o.kind ≠ .int → ∀ d : String, o.dest = d.toList →
      ns.vals.get? d.toList = some (match lastArg us d with | some a => .str a | none => o.default) := by
    intro o ho hk hi d hd
    rw [← hd, hm o ho, meaning_value hk hi hv, uses_dest h hu ho, hd]
    rfl
  have flag : ∀ o ∈ t, o.kind = .flag → o.default = .bool false → ∀ d : String, o.dest = d.toList →
      ns.flag d = isUsed us d := by
    intro o ho hk hf d hd
    unfold NS.flag
    rw [← hd, hm o ho, meaning_flag hk hf, uses_dest h hu ho, hd]
    exact isUsed_iff us d
  have str : ∀ o ∈ builtin, o.kind.takes = true → o.kind ≠ .int → ∀ d : String, o.dest = d.toList →
      ∀ x, o.default = .str x → ns.str d = some ((lastArg us d).getD x) := by
    intro o ho hk hi d hd x hx
    unfold NS.str
    rw [value o (hb o ho) hk hi d hd, hx]
    cases lastArg us d <;> rfl
  have hroot := str (opt ["--buildroot"] "buildroot" .value (.str "build".toList)) (by decide +kernel) rfl (by decide) _ rfl _ rfl
  have hlog := str (opt ["--log-file"] "log_file" .value (.str "fbuild.log".toList)) (by decide +kernel) rfl (by decide) _ rfl _ rfl
  have heng := str Ex.engine (by decide +kernel) rfl (by decide) _ rfl _ rfl
  have hstate : ns.str "state_file" = lastArg us "state_file" := by
    unfold NS.str
    rw [value Ex.stateFile (hb _ (by decide +kernel)) rfl (by decide) _ rfl]
    cases lastArg us "state_file" <;> rfl
  have hnc := flag (opt ["--no-color"] "no_color" .flag (.bool false)) (hb _ (by decide +kernel)) rfl rfl _ rfl
  have hnc' := flag (opt ["--nocolor"] "nocolor" .flag (.bool false)) (hb _ (by decide +kernel)) rfl rfl _ rfl
  have hre := flag Ex.rebuild (hb _ (by decide +kernel)) rfl rfl _ rfl
  have hco := flag (opt ["--configure"] "force_configuration" .flag (.bool false)) (hb _ (by decide +kernel)) rfl rfl _ rfl
  obtain ⟨i, hi, hi'⟩ : ∃ i, ns.int "threadcount" = some i ∧
      some i = (lastArg us "threadcount").elim (some 1) e.int := by
    have hm := hm Ex.jobs (hb _ (by decide +kernel))
    obtain ⟨i, hi, hi'⟩ := meaning_int (o := Ex.jobs) (i := 1) rfl rfl hv
    have hm : ns.vals.get? "threadcount".toList = some (.int i) := hi ▸ hm
    refine ⟨i, by unfold NS.int; rw [hm], ?_⟩
    rw [uses_dest h hu (hb _ (by decide +kernel))] at hi'
    exact hi'
  have hn : ns.num "verbose" = some (us.filter fun u => u.opt.dest = "verbose".toList).length := by
    have hm := hm Ex.verbose (hb _ (by decide +kernel))
    rw [meaning_count (o := Ex.verbose) rfl rfl, uses_dest h hu (hb _ (by decide +kernel))] at hm
    have hm : ns.vals.get? "verbose".toList = some (.num (us.filter fun u => u.opt.dest = "verbose".toList).length) := hm
    unfold NS.num; rw [hm]
  have hdef : stateFileDefault ((lastArg us "database_engine").getD "pickle".toList) =
      some (if (lastArg us "database_engine").getD "pickle".toList = "sqlite".toList then "fbuild-state.sqldb".toList
        else "fbuild-state.db".toList) := by
    have hin : (lastArg us "database_engine").getD "pickle".toList ∈ ["pickle".toList, "sqlite".toList, "cache".toList] := by
      cases hl : lastArg us "database_engine" with
      | none => exact List.mem_cons_self
      | some a =>
        unfold lastArg at hl
        obtain ⟨u, hu1, hu2⟩ := Option.bind_eq_some_iff.1 hl
        have hmem := List.mem_of_getLast? hu1
        simp only [List.mem_filter, decide_eq_true_eq] at hmem
        have heq : u.opt = Ex.engine := inj_of_map h.dests (hu u hmem.1) (hb _ (by decide +kernel)) hmem.2
        have := hv u hmem.1
        unfold Valid at this
        rw [heq, hu2] at this
        exact this
    generalize (lastArg us "database_engine").getD "pickle".toList = x at hin
    simp only [List.mem_cons, List.not_mem_nil, or_false] at hin
    rcases hin with rfl | rfl | rfl <;> decide +kernel
  generalize hE : (lastArg us "database_engine").getD "pickle".toList = engine at heng hdef
  have hst : stateName (lastArg us "state_file") engine = some ((lastArg us "state_file").getD
      (if engine = "sqlite".toList then "fbuild-state.sqldb".toList else "fbuild-state.db".toList)) := by
    cases lastArg us "state_file" with
    | none => exact hdef
    | some s => rfl
  refine ⟨ns, ⟨(lastArg us "buildroot").getD "build".toList, engine,
      join ((lastArg us "buildroot").getD "build".toList) ((lastArg us "state_file").getD
        (if engine = "sqlite".toList then "fbuild-state.sqldb".toList else "fbuild-state.db".toList)),
      join ((lastArg us "buildroot").getD "build".toList) ((lastArg us "log_file").getD "fbuild.log".toList),
      join ((lastArg us "buildroot").getD "build".toList) ".tmp".toList,
      ns.flag "nocolor" || ns.flag "no_color", ns.flag "force_rebuild" || ns.flag "force_configuration", i,
      (us.filter fun u => u.opt.dest = "verbose".toList).length⟩,
    hns, ?_, rfl, ?_, ?_, rfl, ?_, ?_, hi', rfl, rfl⟩
  · unfold context
    rw [hroot, heng, hstate, hlog, hi, hn]
    simp only [Option.bind_eq_bind, Option.bind_some, hst]
    rfl
  · rfl
  · rfl
  · rw [Bool.or_comm, ← hnc, ← hnc']
  · rw [← hre, ← hco]

/-- **C136**, with a plain file name the state file and the log file are the files of that name in the build directory. -/
theorem C136_below (cwd : Loc) (root name : Text) (hn : Name name) : loc cwd (join root name) = loc cwd root ++ [name] :=
  FileOps.loc_under cwd root [name] (by simpa using hn)

namespace Ex

/-- The hypotheses of `C136_partial`: `fbuild --state-file /tmp/s -v --reb`. -/
example : ∃ ns s, parse env builtin (words ["--state-file", "/tmp/s", "-v", "--reb"]) = .ok ns ∧ context ns = some s ∧
    s.stateFile = "/tmp/s".toList ∧ s.logFile = "build/fbuild.log".toList ∧ s.fresh = true ∧ s.nocolor = false ∧ s.verbose = 1 := by
  have l1 : Line builtin _ _ := .cons (.next (v := "/tmp/s".toList) long_state rfl (.inl (by decide +kernel)))
    (.cons (.lettersFlag (.last short_v) rfl) (.cons (.flag long_rebuild rfl) .nil))
  obtain ⟨ns, s, h1, h2, h3, h4, h5, h6, h7, h8, _, h9, _⟩ := C136_partial env builtin builtin_WF (fun _ h => h) _ [] _ [] [] l1 .nil
    (by simp) (by
      intro u hu
      simp only [List.cons_append, List.nil_append, List.append_nil, List.mem_cons, List.not_mem_nil, or_false] at hu
      rcases hu with rfl | rfl | rfl <;> trivial)
  refine ⟨ns, s, h1, h2, ?_, ?_, h8.trans (by decide +kernel), h7.trans (by decide +kernel), h9.trans (by decide +kernel)⟩
  · rw [h5, h3, h4]; decide +kernel
  · rw [h6, h3]; decide +kernel

/-- **C136 is violated** for the warnings: `--no-warn` is accepted as `--no-warnings` and the option is set, but the warnings
are shown; and a target of that name turns them off. -/
theorem C136_warnings_violated :
    ((show' (parse env builtin (words ["--no-warn"]))).map fun r => Dict.get? r.2 "no_warnings".toList) =
      some (some (.bool true)) ∧ warns (words ["fbuild", "--no-warn"]) = true ∧
    ((show' (parse env builtin (words ["--", "--no-warnings"]))).map fun r => Dict.get? r.2 "no_warnings".toList) =
      some (some (.bool false)) ∧ warns (words ["fbuild", "--", "--no-warnings"]) = false := by decide +kernel

end Ex
end Verif.Options
