import Verif.Console.Terminal
/-!
# The terminal

C130.
-/
namespace Verif.Console.Terminal

/-! ## Specification -/

/-- a message as it was passed to the logger, with the level from which on it is shown -/
abbrev Message := Text × Int

/-- `shown` is `s`, or `s` between an escape sequence that sets one of the eight colours and one that resets it -/
def Painted (s shown : Text) : Prop :=
  shown = s ∨ ∃ d ∈ "01234567".toList, shown = "\x1b[01;3".toList ++ [d] ++ "m".toList ++ s ++ "\x1b[0m".toList

/-- `shown` is these texts, painted or not -/
inductive Shows : List Text → Text → Prop
  | nil : Shows [] []
  | cons {s shown : Text} {ss : List Text} {rest : Text} : Painted s shown → Shows ss rest → Shows (s :: ss) (shown ++ rest)

/-- `line` is `msg` and blanks, `width` characters in all if there is room for it, then a colon and a blank -/
def Aligned (msg : Text) (width : Nat) (line : Text) : Prop :=
  ∃ pad, line = msg ++ pad ++ ": ".toList ∧ (∀ c ∈ pad, c = ' ') ∧ (msg.length ≤ width → (msg ++ pad).length = width) ∧
    (width ≤ msg.length → pad = [])

/-- The text of a check: with `--show-threads` the name of the thread is in front. -/
def Labelled (thread : Option Text) (msg text : Text) : Prop :=
  match thread with
  | none => text = msg
  | some t => ∃ front, Aligned t 10 front ∧ text = front ++ msg

/-- The column grows with a text that does not fit, up to 40. -/
def Grows (w n w' : Nat) : Prop := (n < w → w' = w) ∧ (w ≤ n → n < 40 → w' = n + 1) ∧ (w ≤ n → 40 ≤ n → w' = 40)

/-- What operations pass to the logger, if the column of the colons is `w` before and `w'` after them. -/
inductive Says (thread : Option Text) : Nat → List Op → List Message → Nat → Prop
  | nil (w : Nat) : Says thread w [] [] w
  | write (m : Text) (c : Option Text) (v : Int) {w ops ms w'} : Says thread w ops ms w' →
      Says thread w (.write m c v :: ops) ((m, v) :: ms) w'
  | log (m : Text) (c : Option Text) (v : Int) {w ops ms w'} : Says thread w ops ms w' →
      Says thread w (.log m c v :: ops) ((m, v) :: (['\n'], v) :: ms) w'
  | passed (m : Text) (c : Option Text) (v : Int) {w ops ms w'} : Says thread w ops ms w' →
      Says thread w (.passed m c v :: ops) ((m, v) :: (['\n'], v) :: ms) w'
  | failed (m : Text) (c : Option Text) (v : Int) {w ops ms w'} : Says thread w ops ms w' →
      Says thread w (.failed m c v :: ops) ((m, v) :: (['\n'], v) :: ms) w'
  /-- the result comes later: at the level of the check it will be in the same line -/
  | check (m : Text) (c : Option Text) (v : Int) {w ops ms w₁ w' text line} : Labelled thread m text → Grows w text.length w₁ →
      Aligned text w₁ line → Says thread w₁ ops ms w' →
      Says thread w (.check m none c v :: ops) ((line, v) :: (['\n'], v + 1) :: ms) w'
  | checked (m r : Text) (c : Option Text) (v : Int) {w ops ms w₁ w' text line} : Labelled thread m text →
      Grows w text.length w₁ → Aligned text w₁ line → Says thread w₁ ops ms w' →
      Says thread w (.check m (some r) c v :: ops) ((line, v) :: (r, v) :: (['\n'], v) :: ms) w'

/-! ## Proofs -/

theorem writes_eq (ps : List Piece) (l : Log) : l.writes ps = { l with
    file := l.file ++ ps.flatMap (·.msg)
    terminal := l.terminal ++ ps.flatMap fun p =>
      if p.verbose ≤ l.verbose then colored p.msg (if l.nocolor then none else p.color) else [] } := by
  induction ps generalizing l with
  | nil => simp [Log.writes]
  | cons p ps ih => simp [Log.writes, ih, Log.write]

theorem aligned_ljust (msg : Text) (w : Nat) : Aligned msg w (ljust msg w ++ ": ".toList) := by
  refine ⟨List.replicate (w - msg.length) ' ', rfl, ?_, ?_, ?_⟩
  · intro c hc
    exact (List.mem_replicate.mp hc).2
  · intro h
    simp only [List.length_append, List.length_replicate]
    omega
  · intro h
    rw [Nat.sub_eq_zero_of_le h]
    rfl

theorem painted_colored (s : Text) (c : Option Text) : Painted s (colored s c) := by
  cases c with
  | none => exact .inl rfl
  | some c =>
    cases h : colorcode c with
    | none => simp [colored, h, Painted]
    | some n =>
      right
      have hn : n ∈ [30, 31, 32, 33, 34, 35, 36, 37] := by
        revert h
        simp only [colorcode, List.lookup]
        repeat' split
        all_goals intro h; cases h <;> decide
      simp only [colored, h]
      have : ∀ n ∈ [30, 31, 32, 33, 34, 35, 36, 37], ∃ d ∈ "01234567".toList, digits n = ['3', d] := by decide
      obtain ⟨d, hd, hdig⟩ := this n hn
      refine ⟨d, hd, ?_⟩
      rw [hdig]
      rfl

theorem Shows.append {a b : List Text} {s t : Text} (h : Shows a s) (g : Shows b t) : Shows (a ++ b) (s ++ t) := by
  induction h with
  | nil => exact g
  | cons hp _ ih => rw [List.append_assoc]; exact .cons hp ih

theorem run_cons (l : Log) (o : Op) (ops : List Op) : l.run (o :: ops) = (l.op o).run ops := rfl

/-- the texts that are shown at a level -/
def visible (level : Int) (ms : List Message) : List Text := (ms.filter (fun m => m.2 ≤ level)).map (·.1)

/-- what pieces show -/
theorem shows_pieces (level : Int) (nocolor : Bool) (ps : List Piece) :
    Shows (visible level (ps.map fun p => (p.msg, p.verbose)))
      (ps.flatMap fun p => if p.verbose ≤ level then colored p.msg (if nocolor then none else p.color) else []) := by
  induction ps with
  | nil => exact .nil
  | cons p ps ih =>
    by_cases h : p.verbose ≤ level
    · simpa [visible, h] using Shows.cons (painted_colored p.msg (if nocolor then none else p.color)) ih
    · simpa [visible, h] using ih

theorem plain_pieces (level : Int) (ps : List Piece) :
    (ps.flatMap fun p => if p.verbose ≤ level then colored p.msg none else []) =
      (visible level (ps.map fun p => (p.msg, p.verbose))).flatten := by
  induction ps with
  | nil => rfl
  | cons p ps ih =>
    by_cases h : p.verbose ≤ level
    · simpa [visible, h, colored] using ih
    · simpa [visible, h] using ih

theorem labelled (l : Log) (m : Text) : Labelled (if l.showThreads then some l.thread else none) m (l.label m) := by
  unfold Log.label Labelled
  cases l.showThreads with
  | false => rfl
  | true => exact ⟨_, aligned_ljust _ _, by simp [List.append_assoc]⟩

theorem grows (w n : Nat) (hw : w ≤ 40) : Grows w n (widen w n) := by
  unfold Grows widen
  split <;> omega

/-- the pieces of operations -/
theorem run_pieces (ops : List Op) (l : Log) (hw : l.maxlen ≤ 40) :
    ∃ ps : List Piece, Says (if l.showThreads then some l.thread else none) l.maxlen ops (ps.map fun p => (p.msg, p.verbose))
        (l.run ops).maxlen ∧
      (l.run ops).file = l.file ++ ps.flatMap (·.msg) ∧
      (l.run ops).terminal = l.terminal ++ ps.flatMap fun p =>
        if p.verbose ≤ l.verbose then colored p.msg (if l.nocolor then none else p.color) else [] := by
  induction ops generalizing l with
  | nil => exact ⟨[], .nil _, by simp [Log.run], by simp [Log.run]⟩
  | cons o ops ih =>
    rw [run_cons]
    cases o with
    | write m c v =>
      obtain ⟨ps, h1, h2, h3⟩ := ih (l.op (.write m c v)) hw
      exact ⟨⟨m, c, v⟩ :: ps, .write m c v h1, by rw [h2]; simp [Log.op, Log.write], by rw [h3]; simp [Log.op, Log.write]⟩
    | log m c v =>
      obtain ⟨ps, h1, h2, h3⟩ := ih (l.op (.log m c v)) hw
      exact ⟨logPieces m c v ++ ps, .log m c v h1, by rw [h2]; simp [Log.op, writes_eq], by rw [h3]; simp [Log.op, writes_eq]⟩
    | passed m c v =>
      obtain ⟨ps, h1, h2, h3⟩ := ih (l.op (.passed m c v)) hw
      exact ⟨logPieces m c v ++ ps, .passed m c v h1, by rw [h2]; simp [Log.op, writes_eq], by rw [h3]; simp [Log.op, writes_eq]⟩
    | failed m c v =>
      obtain ⟨ps, h1, h2, h3⟩ := ih (l.op (.failed m c v)) hw
      exact ⟨logPieces m c v ++ ps, .failed m c v h1, by rw [h2]; simp [Log.op, writes_eq], by rw [h3]; simp [Log.op, writes_eq]⟩
    | check m r c v =>
      have hg := grows l.maxlen (l.label m).length hw
      have hw' : widen l.maxlen (l.label m).length ≤ 40 := by
        unfold widen
        split <;> omega
      obtain ⟨ps, h1, h2, h3⟩ := ih (l.op (.check m r c v)) (by simpa [Log.op, writes_eq] using hw')
      simp only [Log.op, writes_eq] at h1 h2 h3 ⊢
      refine ⟨checkPieces (ljust (l.label m) (widen l.maxlen (l.label m).length) ++ ": ".toList) r c v ++ ps, ?_, ?_, ?_⟩
      · cases r with
        | none => exact .check m c v (labelled l m) hg (aligned_ljust _ _) h1
        | some r => exact .checked m r c v (labelled l m) hg (aligned_ljust _ _) h1
      · rw [h2]; simp
      · rw [h3]; simp

/-! ## C130 -/

/-- **C130**: the log file gets every message; the terminal gets those of the level that was asked for, in the same order, each
whole and in one colour at most, and without colours if these are turned off.  The colons of the checks are in one column as
long as the texts fit. -/
theorem C130_terminal (l : Log) (hw : l.maxlen ≤ 40) (ops : List Op) :
    ∃ ms shown, Says (if l.showThreads then some l.thread else none) l.maxlen ops ms (l.run ops).maxlen ∧
      (l.run ops).file = l.file ++ (ms.map (·.1)).flatten ∧
      (l.run ops).terminal = l.terminal ++ shown ∧
      Shows ((ms.filter (fun m => m.2 ≤ l.verbose)).map (·.1)) shown ∧
      (l.nocolor = true → shown = ((ms.filter (fun m => m.2 ≤ l.verbose)).map (·.1)).flatten) := by
  obtain ⟨ps, h1, h2, h3⟩ := run_pieces ops l hw
  refine ⟨_, _, h1, ?_, h3, shows_pieces l.verbose l.nocolor ps, ?_⟩
  · rw [h2]
    simp [List.flatMap, Function.comp_def]
  · intro hn
    simp only [hn, if_true]
    exact plain_pieces l.verbose ps

/-- the column of the colons stays between 25 and 40 -/
theorem C130_column (l : Log) (h : 25 ≤ l.maxlen ∧ l.maxlen ≤ 40) (ops : List Op) :
    l.maxlen ≤ (l.run ops).maxlen ∧ (l.run ops).maxlen ≤ 40 := by
  obtain ⟨ps, h1, _⟩ := run_pieces ops l h.2
  have key : ∀ {t w ops ms w'}, Says t w ops ms w' → w ≤ 40 → w ≤ w' ∧ w' ≤ 40 := by
    intro t w ops ms w' hs
    induction hs with
    | nil => omega
    | write | log | passed | failed => assumption
    | check m c v _ hg _ _ ih | checked m r c v _ hg _ _ ih =>
      intro hw
      obtain ⟨g1, g2, g3⟩ := hg
      have := ih (by omega)
      omega
  exact key h1 h.2

/-- two logs that differ in the level only -/
structure Louder (l l' : Log) : Prop where
  verbose : l.verbose ≤ l'.verbose
  nocolor : l.nocolor = true ∧ l'.nocolor = true
  showThreads : l'.showThreads = l.showThreads
  thread : l'.thread = l.thread
  maxlen : l'.maxlen = l.maxlen
  file : l'.file = l.file
  terminal : l.terminal.Sublist l'.terminal

theorem louder_write {l l' : Log} (h : Louder l l') (p : Piece) : Louder (l.write p) (l'.write p) := by
  refine ⟨h.verbose, h.nocolor, h.showThreads, h.thread, h.maxlen, by simp [Log.write, h.file], ?_⟩
  simp only [Log.write, h.nocolor.1, h.nocolor.2, if_true]
  refine List.Sublist.append h.terminal ?_
  have := h.verbose
  split
  · rw [if_pos (by omega)]
    exact List.Sublist.refl _
  · exact List.nil_sublist _

theorem louder_writes {l l' : Log} (h : Louder l l') (ps : List Piece) : Louder (l.writes ps) (l'.writes ps) := by
  induction ps generalizing l l' with
  | nil => exact h
  | cons p ps ih => exact ih (louder_write h p)

theorem louder_op {l l' : Log} (h : Louder l l') (o : Op) : Louder (l.op o) (l'.op o) := by
  cases o with
  | write m c v => exact louder_write h _
  | log m c v => exact louder_writes h _
  | passed m c v => exact louder_writes h _
  | failed m c v => exact louder_writes h _
  | check m r c v =>
    have hl : l'.label m = l.label m := by simp [Log.label, h.showThreads, h.thread]
    have h' : Louder { l with maxlen := widen l.maxlen (l.label m).length } { l' with maxlen := widen l.maxlen (l.label m).length } :=
      ⟨h.verbose, h.nocolor, h.showThreads, h.thread, rfl, h.file, h.terminal⟩
    simp only [Log.op, hl, h.maxlen]
    exact louder_writes h' _

/-- **C130**: with `-v` more is shown and nothing less; what goes to the log file does not depend on it. -/
theorem C130_more (l : Log) (hn : l.nocolor = true) (level : Int) (hl : l.verbose ≤ level) (ops : List Op) :
    (l.run ops).terminal.Sublist ({ l with verbose := level }.run ops).terminal ∧
    ({ l with verbose := level }.run ops).file = (l.run ops).file := by
  have key : ∀ (ops : List Op) (l l' : Log), Louder l l' → Louder (l.run ops) (l'.run ops) := by
    intro ops
    induction ops with
    | nil => exact fun _ _ h => h
    | cons o ops ih => exact fun _ _ h => ih _ _ (louder_op h o)
  have := key ops l { l with verbose := level } ⟨hl, ⟨hn, hn⟩, rfl, rfl, rfl, rfl, List.Sublist.refl _⟩
  exact ⟨this.terminal, this.file⟩

/-- **C130**: a check and its result are one line on the terminal at the level of the check. -/
theorem C130_line (l : Log) (hw : l.maxlen ≤ 40) (hn : l.nocolor = true) (m r : Text) (c c' : Option Text) (o : Op)
    (ho : o = .passed r c' l.verbose ∨ o = .failed r c' l.verbose ∨ o = .log r c' l.verbose) :
    ∃ text line w, Labelled (if l.showThreads then some l.thread else none) m text ∧ Grows l.maxlen text.length w ∧
      Aligned text w line ∧
      (l.run [.check m none c l.verbose, o]).terminal = l.terminal ++ line ++ r ++ ['\n'] := by
  obtain ⟨ms, shown, h1, _, h3, _, h5⟩ := C130_terminal l hw [.check m none c l.verbose, o]
  rw [h3, h5 hn]
  cases h1 with
  | check _ _ _ hl hg ha hs =>
    refine ⟨_, _, _, hl, hg, ha, ?_⟩
    have hv : ¬ l.verbose + 1 ≤ l.verbose := by omega
    rcases ho with rfl | rfl | rfl <;> cases hs <;> rename_i hs <;> cases hs <;> simp [hv]

/-- the colours of a terminal, in the order of their codes -/
def ansi : List Text :=
  ["black".toList, "red".toList, "green".toList, "yellow".toList, "blue".toList, "magenta".toList, "cyan".toList, "white".toList]

/-- **C130**: the colour of a message is the one of that name; compilers are green and linkers are cyan; a colour that there
is not changes nothing. -/
theorem C130_colors (s : Text) :
    (∀ (i : Nat) (d : Char) (c : Text), ansi[i]? = some c → "01234567".toList[i]? = some d →
      colored s (some c) = "\x1b[01;3".toList ++ d :: 'm' :: s ++ "\x1b[0m".toList) ∧
    colored s (some "compile".toList) = colored s (some "green".toList) ∧
    colored s (some "link".toList) = colored s (some "cyan".toList) ∧
    (∀ c, c ∉ ansi → c ≠ "compile".toList → c ≠ "link".toList → colored s (some c) = s) ∧ colored s none = s := by
  have hcode : ∀ (n : Nat) (d : Char) (c : Text), colorcode c = some n → digits n = ['3', d] →
      colored s (some c) = "\x1b[01;3".toList ++ d :: 'm' :: s ++ "\x1b[0m".toList := by
    intro n d c h1 h2
    have e : "\x1b[01;3".toList = "\x1b[01;".toList ++ ['3'] := by decide +kernel
    simp only [colored, h1, h2, e, List.append_assoc, List.cons_append, List.nil_append]
  refine ⟨?_, ?_, ?_, ?_, rfl⟩
  · intro i d c hc hd
    have e : "01234567".toList = ['0', '1', '2', '3', '4', '5', '6', '7'] := by decide +kernel
    rw [e] at hd
    match i with
    | 0 => cases hc; cases hd; exact hcode 30 _ _ (by decide +kernel) (by decide +kernel)
    | 1 => cases hc; cases hd; exact hcode 31 _ _ (by decide +kernel) (by decide +kernel)
    | 2 => cases hc; cases hd; exact hcode 32 _ _ (by decide +kernel) (by decide +kernel)
    | 3 => cases hc; cases hd; exact hcode 33 _ _ (by decide +kernel) (by decide +kernel)
    | 4 => cases hc; cases hd; exact hcode 34 _ _ (by decide +kernel) (by decide +kernel)
    | 5 => cases hc; cases hd; exact hcode 35 _ _ (by decide +kernel) (by decide +kernel)
    | 6 => cases hc; cases hd; exact hcode 36 _ _ (by decide +kernel) (by decide +kernel)
    | 7 => cases hc; cases hd; exact hcode 37 _ _ (by decide +kernel) (by decide +kernel)
    | i + 8 => cases hd
  · have : colorcode "compile".toList = colorcode "green".toList := by decide +kernel
    simp only [colored, this]
  · have : colorcode "link".toList = colorcode "cyan".toList := by decide +kernel
    simp only [colored, this]
  · intro c h1 h2 h3
    have : colorcode c = none := by
      simp only [ansi, List.mem_cons, List.not_mem_nil, or_false, not_or] at h1
      obtain ⟨a1, a2, a3, a4, a5, a6, a7, a8⟩ := h1
      have hb : ∀ x : Text, c ≠ x → (c == x) = false := fun x h => beq_eq_false_iff_ne.2 h
      simp only [colorcode, List.lookup, hb _ a1, hb _ a2, hb _ a3, hb _ a4, hb _ a5, hb _ a6, hb _ a7, hb _ a8, hb _ h2, hb _ h3]
    simp only [colored, this]

/-! ## Examples -/

private abbrev t (s : String) : Text := s.toList

/-- a check that passes, one with its result, and an output of a higher level -/
example :
    let l : Log := ({} : Log).run [.check (t "looking for gcc") none none 0, .write (t "gcc 4.2") none 1, .passed,
      .check (t "cp") (some (t "a -> b")) (some (t "yellow")) 0]
    l.terminal = t "looking for gcc          : \x1b[01;32mok\x1b[0m\ncp                       : \x1b[01;33ma -> b\x1b[0m\n" ∧
    l.file = t "looking for gcc          : \ngcc 4.2ok\ncp                       : a -> b\n" := by decide +kernel

/-- the hypotheses of the theorems are met by the log that is made by default, without colours -/
example : ({ nocolor := true } : Log).maxlen ≤ 40 ∧ 25 ≤ ({ nocolor := true } : Log).maxlen ∧
    ({ nocolor := true } : Log).verbose ≤ 1 ∧
    (({ nocolor := true } : Log).run [.check (t "x") none none 0, .passed]).terminal = t "x                        : ok\n" ∧
    (({ nocolor := true, verbose := 1 } : Log).run [.check (t "x") none none 0, .passed]).terminal =
      t "x                        : \nok\n" := by decide +kernel

/-- a text that does not fit moves the column -/
example : (({} : Log).run [.check (t "checking whether the compiler works") none none 0]).maxlen = 36 := by decide +kernel

end Verif.Console.Terminal
