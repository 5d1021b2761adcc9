import Verif.Gcc.Command
import Verif.Props.Gcc
/-!
# gcc: the whole command line

C80 (options), C81 (libraries).
-/
namespace Verif.Gcc

/-! ## How gcc reads a command -/

/-- the texts behind an option of one letter, in order: `-Ifoo` gives `foo` for the letter `I` -/
def options (c : Char) : List Text → List Text
  | [] => []
  | ('-' :: d :: rest) :: ws => if d = c then rest :: options c ws else options c ws
  | _ :: ws => options c ws

/-- the word is an option of this letter -/
def IsOption (c : Char) (w : Text) : Prop := ∃ rest, w = '-' :: c :: rest

/-- whether something is wanted: what the call says, else what the builder says -/
def Wanted (own given : Option Bool) : Prop := given = some true ∨ (given = none ∧ own = some true)

/-- the words that the user gives as they are -/
def literal (b : Cc) (a : Args) : List Text :=
  [b.exe] ++ b.preFlags ++ a.preFlags ++ b.debugFlags ++ b.profileFlags ++ b.optimizeFlags ++ b.arch.toList ++ a.arch.toList
    ++ a.dst.toList ++ b.flags ++ a.flags ++ a.srcs ++ b.ldlibs ++ a.ldlibs

theorem options_append (c : Char) (xs ys : List Text) : options c (xs ++ ys) = options c xs ++ options c ys := by
  induction xs with
  | nil => rfl
  | cons w xs ih =>
    match w with
    | [] => simpa [options] using ih
    | [x] => simpa [options] using ih
    | x :: d :: rest =>
      by_cases hx : x = '-'
      · subst hx
        simp only [List.cons_append, options]
        split
        · rw [ih]; rfl
        · exact ih
      · have e : ∀ ws : List Text, options c ((x :: d :: rest) :: ws) = options c ws := by
          intro ws
          rw [options]
          intro d' r' h
          simp only [List.cons.injEq] at h
          exact absurd h.1 hx
        rw [List.cons_append, e, e, ih]

theorem mem_options (c : Char) (ws : List Text) (x : Text) : x ∈ options c ws ↔ ('-' :: c :: x) ∈ ws := by
  induction ws with
  | nil => simp [options]
  | cons w ws ih =>
    match w with
    | [] => simp [options, ih]
    | [y] => simp [options, ih]
    | y :: d :: rest =>
      by_cases hy : y = '-'
      · subst hy
        simp only [options]
        by_cases hd : d = c
        · subst hd; simp [ih]
        · simp only [hd, if_false, ih, List.mem_cons, List.cons.injEq, true_and]
          exact ⟨.inr, fun h => h.resolve_left (fun h => hd h.1.symm)⟩
      · have e : options c ((y :: d :: rest) :: ws) = options c ws := by
          rw [options]
          intro d' r' h
          simp only [List.cons.injEq] at h
          exact absurd h.1 hy
        rw [e, ih]
        simp only [List.mem_cons, List.cons.injEq]
        exact ⟨.inr, fun h => h.resolve_left (fun h => hy h.1.symm)⟩

theorem options_none (c : Char) (ws : List Text) (h : ∀ w ∈ ws, ¬ IsOption c w) : options c ws = [] := by
  cases ho : options c ws with
  | nil => rfl
  | cons x xs =>
    have : x ∈ options c ws := by rw [ho]; exact .head _
    exact absurd ⟨x, rfl⟩ (h _ ((mem_options c ws x).mp this))

theorem options_map (c d : Char) (xs : List Text) :
    options c (xs.map (['-', d] ++ ·)) = if d = c then xs else [] := by
  induction xs with
  | nil => simp [options]
  | cons x xs ih =>
    rw [List.map_cons]
    show options c (('-' :: d :: x) :: _) = _
    rw [options, ih]
    split <;> simp_all

/-- the parts of a command -/
theorem command_parts {g : LibFiles} {limit : Nat} {b : Cc} {a : Args} {cmd : List Text}
    (h : command g limit b a = some cmd) :
    ∃ s, eachLib (visit g limit) (b.libs ++ a.libs) (linkStart b a) = some s ∧
      (("-c".toList ∈ wordsBefore b a s.libpaths ∧ cmd = wordsBefore b a s.libpaths) ∨
       ("-c".toList ∉ wordsBefore b a s.libpaths ∧
        cmd = wordsBefore b a s.libpaths ++ s.names.reverse.map ("-l".toList ++ ·) ++
          s.external.map ("-l".toList ++ ·) ++ b.ldlibs ++ a.ldlibs)) := by
  unfold command at h
  split at h
  · cases h
  · rename_i s hs
    refine ⟨s, hs, ?_⟩
    simp only at h
    split at h
    · rename_i hc
      exact .inl ⟨hc, (Option.some.inj h).symm⟩
    · rename_i hc
      exact .inr ⟨hc, (Option.some.inj h).symm⟩

theorem asked_iff (own given : Option Bool) : asked own given = true ↔ Wanted own given := by
  unfold asked Wanted
  cases given with
  | none => cases own <;> simp
  | some v => simp

theorem dedup_subset (xs : List Text) : ∀ x ∈ dedup xs [], x ∈ xs := fun x hx => by
  have := ((dedup_spec xs [] (by simp)).2 x).mp hx
  simpa using this

theorem archWords_literal (own given : Option Text) :
    ∀ w ∈ archWords own given, w = "-arch".toList ∨ w ∈ own.toList ∨ w ∈ given.toList := by
  intro w hw
  unfold archWords at hw
  split at hw
  · simp at hw
  · rename_i x hx
    split at hw
    · simp at hw
    · simp only [List.mem_cons, List.not_mem_nil, or_false] at hw
      rcases hw with rfl | rfl
      · exact .inl rfl
      · split at hx
        · exact .inr (.inl (by simp [hx]))
        · exact .inr (.inr (by simp [hx]))

/-- the options of a letter in the part in front of the libraries, if no word given as it is has this letter -/
theorem options_before (c : Char) (hco : c ≠ 'o') (hca : c ≠ 'a') (b : Cc) (a : Args) (libpaths : List Text)
    (hlit : ∀ w ∈ literal b a, ¬ IsOption c w) :
    options c (wordsBefore b a libpaths) =
      options c (includeArgs leText b.includes a.includes
        (if a.includeSourceDirs then a.srcs.map (fun s => (Posix.split s).1) else [])) ++
      options c ((sortedSet a.macros b.macros).map ("-D".toList ++ ·)) ++
      options c ((sortedSet a.warnings b.warnings).map ("-W".toList ++ ·)) ++
      options c (((sorted leText libpaths).filter (· ≠ [])).map ("-L".toList ++ ·)) ++
      options c (((sortedSet a.machineFlags b.machineFlags).filter (· ≠ [])).map ("-m".toList ++ ·)) := by
  have lit : ∀ ws : List Text, (∀ w ∈ ws, w ∈ literal b a) → options c ws = [] :=
    fun ws h => options_none c ws (fun w hw => hlit w (h w hw))
  unfold literal at lit
  unfold wordsBefore
  simp only [options_append]
  rw [lit [b.exe] (by simp), lit b.preFlags (by simp +contextual), lit a.preFlags (by simp +contextual)]
  have e1 : ∀ (q : Bool) (ws : List Text), (∀ w ∈ ws, w ∈ literal b a) → options c (if q then ws else []) = [] := by
    intro q ws h
    cases q
    · rfl
    · exact lit ws h
  rw [e1 _ b.debugFlags (by simp +contextual [literal]), e1 _ b.profileFlags (by simp +contextual [literal]),
    e1 _ b.optimizeFlags (by simp +contextual [literal])]
  have e2 : options c (archWords b.arch a.arch) = [] := by
    refine options_none c _ (fun w hw => ?_)
    rcases archWords_literal _ _ w hw with rfl | h | h
    · rintro ⟨r, hr⟩
      have : 'a' = c := by
        have := congrArg (fun l : Text => l.drop 1 |>.head?) hr
        simpa using this
      exact hca this.symm
    · exact hlit w (by simp only [literal, List.mem_append]; simp [h])
    · exact hlit w (by simp only [literal, List.mem_append]; simp [h])
  have e3 : options c (dstWords a.dst) = [] := by
    cases hd : a.dst with
    | none => rfl
    | some d =>
      refine options_none c _ (fun w hw => ?_)
      simp only [dstWords, List.mem_cons, List.not_mem_nil, or_false] at hw
      rcases hw with rfl | rfl
      · rintro ⟨r, hr⟩
        have : 'o' = c := by
          have := congrArg (fun l : Text => l.drop 1 |>.head?) hr
          simpa using this
        exact hco this.symm
      · exact hlit w (by simp [literal, hd])
  have e4 : options c (dedup (b.flags ++ a.flags) []) = [] := by
    refine lit _ (fun w hw => ?_)
    have := dedup_subset _ w hw
    rw [List.mem_append] at this
    rcases this with h | h <;> simp [h]
  rw [e2, e3, e4, lit a.srcs (by simp +contextual)]
  simp

theorem sortedSet_spec (xs ys : List Text) :
    (sortedSet xs ys).Nodup ∧ ∀ x, x ∈ sortedSet xs ys ↔ x ∈ xs ∨ x ∈ ys := by
  obtain ⟨h1, h2⟩ := dedup_spec (xs ++ ys) [] (by simp)
  have hp := sorted_perm leText (dedup (xs ++ ys) [])
  exact ⟨hp.nodup_iff.mpr h1, fun x => by unfold sortedSet; rw [hp.mem_iff, h2]; simp⟩

/-- the options of a letter other than `l` in a command -/
theorem options_command (c : Char) (hco : c ≠ 'o') (hca : c ≠ 'a') (hcl : c ≠ 'l') {g : LibFiles} {limit : Nat} {b : Cc}
    {a : Args} {cmd : List Text} (hlit : ∀ w ∈ literal b a, ¬ IsOption c w) (h : command g limit b a = some cmd) :
    ∃ s, eachLib (visit g limit) (b.libs ++ a.libs) (linkStart b a) = some s ∧
      options c cmd = options c (wordsBefore b a s.libpaths) := by
  obtain ⟨s, hs, ⟨_, rfl⟩ | ⟨_, rfl⟩⟩ := command_parts h
  · exact ⟨s, hs, rfl⟩
  · refine ⟨s, hs, ?_⟩
    have e : ∀ xs : List Text, options c (xs.map ("-l".toList ++ ·)) = [] := by
      intro xs
      have := options_map c 'l' xs
      rw [if_neg (Ne.symm hcl)] at this
      exact this
    have e5 : options c b.ldlibs = [] := options_none c _ (fun w hw => hlit w (by simp [literal, hw]))
    have e6 : options c a.ldlibs = [] := options_none c _ (fun w hw => hlit w (by simp [literal, hw]))
    simp only [options_append, e, e5, e6, List.append_nil]

/-- the sections have the letters I, D, W, L, m -/
theorem options_sections (c : Char) (inc mac war lib mach : List Text) :
    options c (inc.map ("-I".toList ++ ·)) ++ options c (mac.map ("-D".toList ++ ·)) ++
      options c (war.map ("-W".toList ++ ·)) ++ options c (lib.map ("-L".toList ++ ·)) ++
      options c (mach.map ("-m".toList ++ ·)) =
    (if 'I' = c then inc else []) ++ (if 'D' = c then mac else []) ++ (if 'W' = c then war else []) ++
      (if 'L' = c then lib else []) ++ (if 'm' = c then mach else []) := by
  have := fun d xs => options_map c d xs
  rw [← this 'I', ← this 'D', ← this 'W', ← this 'L', ← this 'm']
  rfl

/-- **C80**: the compiler gets each macro, warning and machine flag of the builder and of the call exactly once, and no
other, as long as no word that is passed on as it is looks like such an option. -/
theorem C80_sets (g : LibFiles) (limit : Nat) (b : Cc) (a : Args) (cmd : List Text) (h : command g limit b a = some cmd) :
    ((∀ w ∈ literal b a, ¬ IsOption 'D' w) →
      (options 'D' cmd).Nodup ∧ ∀ x, x ∈ options 'D' cmd ↔ x ∈ b.macros ∨ x ∈ a.macros) ∧
    ((∀ w ∈ literal b a, ¬ IsOption 'W' w) →
      (options 'W' cmd).Nodup ∧ ∀ x, x ∈ options 'W' cmd ↔ x ∈ b.warnings ∨ x ∈ a.warnings) ∧
    ((∀ w ∈ literal b a, ¬ IsOption 'm' w) →
      (options 'm' cmd).Nodup ∧ ∀ x, x ∈ options 'm' cmd ↔ x ≠ [] ∧ (x ∈ b.machineFlags ∨ x ∈ a.machineFlags)) := by
  refine ⟨fun hlit => ?_, fun hlit => ?_, fun hlit => ?_⟩
  · obtain ⟨s, _, he⟩ := options_command 'D' (by decide) (by decide) (by decide) hlit h
    rw [options_before 'D' (by decide) (by decide) b a _ hlit, includeArgs, options_sections] at he
    simp only [Char.reduceEq, if_false, if_true, List.nil_append, List.append_nil] at he
    rw [he]
    obtain ⟨h1, h2⟩ := sortedSet_spec a.macros b.macros
    exact ⟨h1, fun x => (h2 x).trans Or.comm⟩
  · obtain ⟨s, _, he⟩ := options_command 'W' (by decide) (by decide) (by decide) hlit h
    rw [options_before 'W' (by decide) (by decide) b a _ hlit, includeArgs, options_sections] at he
    simp only [Char.reduceEq, if_false, if_true, List.nil_append, List.append_nil] at he
    rw [he]
    obtain ⟨h1, h2⟩ := sortedSet_spec a.warnings b.warnings
    exact ⟨h1, fun x => (h2 x).trans Or.comm⟩
  · obtain ⟨s, _, he⟩ := options_command 'm' (by decide) (by decide) (by decide) hlit h
    rw [options_before 'm' (by decide) (by decide) b a _ hlit, includeArgs, options_sections] at he
    simp only [Char.reduceEq, if_false, if_true, List.nil_append, List.append_nil] at he
    rw [he]
    obtain ⟨h1, h2⟩ := sortedSet_spec a.machineFlags b.machineFlags
    refine ⟨h1.filter _, fun x => ?_⟩
    simp only [List.mem_filter, h2 x, decide_eq_true_eq]
    exact ⟨fun h => ⟨h.2, h.1.symm⟩, fun h => ⟨h.2.symm, h.1⟩⟩

/-- **C80**, C55 for the whole command: the compiler gets each include directory exactly once, and no other. -/
theorem C80_includes_partial (g : LibFiles) (limit : Nat) (b : Cc) (a : Args) (cmd : List Text)
    (h : command g limit b a = some cmd) (hlit : ∀ w ∈ literal b a, ¬ IsOption 'I' w) :
    (options 'I' cmd).Nodup ∧ ∀ x, x ∈ options 'I' cmd ↔
      x ≠ [] ∧ (x ∈ b.includes ∨ x ∈ a.includes ∨
        (a.includeSourceDirs = true ∧ ∃ src ∈ a.srcs, x = (Posix.split src).1)) := by
  obtain ⟨s, _, he⟩ := options_command 'I' (by decide) (by decide) (by decide) hlit h
  rw [options_before 'I' (by decide) (by decide) b a _ hlit, includeArgs, options_sections] at he
  simp only [Char.reduceEq, if_false, if_true, List.nil_append, List.append_nil] at he
  rw [he]
  generalize hdirs : (if a.includeSourceDirs then a.srcs.map (fun s => (Posix.split s).1) else []) = dirs
  have hd : ∀ x, x ∈ dirs ↔ a.includeSourceDirs = true ∧ ∃ src ∈ a.srcs, x = (Posix.split src).1 := by
    intro x
    rw [← hdirs]
    cases a.includeSourceDirs
    · simp
    · simp [eq_comm]
  obtain ⟨h1, h2⟩ := dedup_spec (b.includes ++ a.includes ++ dirs) [] (by simp)
  have hp := sorted_perm leText (dedup (b.includes ++ a.includes ++ dirs) [])
  refine ⟨(hp.nodup_iff.mpr h1).filter _, fun x => ?_⟩
  simp only [List.mem_filter, hp.mem_iff, h2, List.mem_append, List.not_mem_nil, or_false, decide_eq_true_eq, hd,
    or_assoc]
  exact And.comm

/-- The words a user expects in a command that are no options of the letters I, D, W, L, m, l: the executable, the flags,
the sources, and the flags of the modes that are wanted. -/
inductive Expected (b : Cc) (a : Args) : Text → Prop
  | exe : Expected b a b.exe
  | pre {w} : w ∈ b.preFlags ∨ w ∈ a.preFlags → Expected b a w
  | debug {w} : Wanted b.debug a.debug → w ∈ b.debugFlags → Expected b a w
  | profile {w} : Wanted b.profile a.profile → w ∈ b.profileFlags → Expected b a w
  | optimize {w} : Wanted b.optimize a.optimize → w ∈ b.optimizeFlags → Expected b a w
  | arch {w x} : (a.arch = some x ∨ (a.arch = none ∧ b.arch = some x)) → x ≠ [] → (w = "-arch".toList ∨ w = x) → Expected b a w
  | dst {w d} : a.dst = some d → (w = "-o".toList ∨ w = d) → Expected b a w
  | flag {w} : w ∈ b.flags ∨ w ∈ a.flags → Expected b a w
  | src {w} : w ∈ a.srcs → Expected b a w

theorem mem_archWords (own given : Option Text) (w : Text) : w ∈ archWords own given ↔
    ∃ x, (given = some x ∨ (given = none ∧ own = some x)) ∧ x ≠ [] ∧ (w = "-arch".toList ∨ w = x) := by
  unfold archWords
  generalize "-arch".toList = A
  cases given with
  | some y =>
    by_cases hy : y = []
    · simp [hy]
    · simp [hy]
  | none =>
    cases own with
    | none => simp
    | some y =>
      by_cases hy : y = []
      · simp [hy]
      · simp [hy]

theorem mem_before {b : Cc} {a : Args} {libpaths : List Text} {w : Text}
    (hno : ∀ c, c = 'I' ∨ c = 'D' ∨ c = 'W' ∨ c = 'L' ∨ c = 'm' → ¬ IsOption c w) :
    w ∈ wordsBefore b a libpaths ↔ Expected b a w := by
  have no : ∀ (c : Char) (xs : List Text), (c = 'I' ∨ c = 'D' ∨ c = 'W' ∨ c = 'L' ∨ c = 'm') →
      w ∉ xs.map (['-', c] ++ ·) := by
    intro c xs hc hm
    obtain ⟨x, _, rfl⟩ := List.mem_map.mp hm
    exact hno c hc ⟨x, rfl⟩
  have hI := fun xs => no 'I' xs (by simp)
  have hD := fun xs => no 'D' xs (by simp)
  have hW := fun xs => no 'W' xs (by simp)
  have hL := fun xs => no 'L' xs (by simp)
  have hm := fun xs => no 'm' xs (by simp)
  have cond : ∀ (own given : Option Bool) (ws : List Text),
      w ∈ (if asked own given then ws else []) ↔ Wanted own given ∧ w ∈ ws := by
    intro own given ws
    rw [← asked_iff]
    cases asked own given <;> simp
  have hflag : w ∈ dedup (b.flags ++ a.flags) [] ↔ w ∈ b.flags ∨ w ∈ a.flags := by
    rw [(dedup_spec (b.flags ++ a.flags) [] (by simp)).2]; simp
  have hdst : w ∈ dstWords a.dst ↔ ∃ d, a.dst = some d ∧ (w = "-o".toList ∨ w = d) := by
    cases a.dst <;> simp [dstWords]
  unfold wordsBefore includeArgs
  simp only [List.mem_append, cond, mem_archWords, hflag, hdst]
  constructor
  · intro h
    rcases h with ((((((((((((((h | h) | h) | h) | h) | h) | h) | h) | h) | h) | h) | h) | h) | h) | h)
    · simp only [List.mem_singleton] at h; subst h; exact .exe
    · exact .pre (.inl h)
    · exact .pre (.inr h)
    · exact .debug h.1 h.2
    · exact .profile h.1 h.2
    · exact .optimize h.1 h.2
    · obtain ⟨x, h1, h2, h3⟩ := h; exact .arch h1 h2 h3
    · exact absurd h (hI _)
    · exact absurd h (hD _)
    · exact absurd h (hW _)
    · exact absurd h (hL _)
    · exact absurd h (hm _)
    · obtain ⟨d, h1, h2⟩ := h; exact .dst h1 h2
    · exact .flag h
    · exact .src h
  · intro h
    cases h with
    | exe => simp
    | pre h => rcases h with h | h <;> simp [h]
    | debug h1 h2 => simp [h1, h2]
    | profile h1 h2 => simp [h1, h2]
    | optimize h1 h2 => simp [h1, h2]
    | arch h1 h2 h3 => exact .inl (.inl (.inl (.inl (.inl (.inl (.inl (.inl (.inr ⟨_, h1, h2, h3⟩))))))))
    | dst h1 h2 => exact .inl (.inl (.inr ⟨_, h1, h2⟩))
    | flag h => exact .inl (.inr h)
    | src h => exact .inr h

/-- **C80**: a word that is no option of the letters I, D, W, L, m, l is in the command just if it is expected there, or if it
is one of the `ldlibs`.  In particular the flags for debugging are there just if debugging is wanted. -/
theorem C80_words (g : LibFiles) (limit : Nat) (b : Cc) (a : Args) (cmd : List Text) (h : command g limit b a = some cmd)
    (w : Text) (hno : ∀ c, c = 'I' ∨ c = 'D' ∨ c = 'W' ∨ c = 'L' ∨ c = 'm' ∨ c = 'l' → ¬ IsOption c w) :
    w ∈ cmd ↔ Expected b a w ∨ (¬ Expected b a "-c".toList ∧ (w ∈ b.ldlibs ∨ w ∈ a.ldlibs)) := by
  have hno' : ∀ c, c = 'I' ∨ c = 'D' ∨ c = 'W' ∨ c = 'L' ∨ c = 'm' → ¬ IsOption c w := fun c hc =>
    hno c (by rcases hc with h | h | h | h | h <;> simp [h])
  have hc : ∀ lp, "-c".toList ∈ wordsBefore b a lp ↔ Expected b a "-c".toList := fun lp => by
    refine mem_before (fun c hc => ?_)
    rintro ⟨r, hr⟩
    have : 'c' = c := by
      have := congrArg (fun l : Text => l.drop 1 |>.head?) hr
      simpa using this
    subst this
    simp at hc
  obtain ⟨s, _, ⟨h1, rfl⟩ | ⟨h1, rfl⟩⟩ := command_parts h
  · rw [hc] at h1
    rw [mem_before hno']
    exact ⟨.inl, fun h => h.resolve_right (fun h => h.1 h1)⟩
  · rw [hc] at h1
    have hl : ∀ xs : List Text, w ∉ xs.map ("-l".toList ++ ·) := by
      intro xs hm
      obtain ⟨x, _, rfl⟩ := List.mem_map.mp hm
      exact hno 'l' (by simp) ⟨x, rfl⟩
    simp only [List.mem_append, mem_before hno', hl, or_false]
    constructor
    · rintro ((h | h) | h)
      · exact .inl h
      · exact .inr ⟨h1, .inl h⟩
      · exact .inr ⟨h1, .inr h⟩
    · rintro (h | ⟨_, h | h⟩)
      · exact .inl (.inl h)
      · exact .inl (.inr h)
      · exact .inr h

theorem dedup_append_nodup (xs new : List Text) (h : (new ++ xs).Nodup) : dedup xs new = new ++ xs := by
  induction xs generalizing new with
  | nil => simp [dedup]
  | cons x xs ih =>
    have hx : x ∉ new := by
      intro hm
      rw [List.nodup_append] at h
      exact h.2.2 x hm x (.head _) rfl
    rw [dedup, if_neg hx, ih _ (by simpa using h)]
    simp

/-- **C80**: the flags of the builder and of the call are passed on in the order given, just in front of the sources.
Partial: no word occurs twice among them. -/
theorem C80_flags_partial (g : LibFiles) (limit : Nat) (b : Cc) (a : Args) (cmd : List Text)
    (h : command g limit b a = some cmd) (hn : (b.flags ++ a.flags).Nodup) :
    ∃ front back, cmd = front ++ b.flags ++ a.flags ++ a.srcs ++ back := by
  have e : dedup (b.flags ++ a.flags) [] = b.flags ++ a.flags := dedup_append_nodup _ [] (by simpa using hn)
  have hw : ∀ lp, ∃ front, wordsBefore b a lp = front ++ b.flags ++ a.flags ++ a.srcs := by
    intro lp
    unfold wordsBefore
    rw [e, ← List.append_assoc _ b.flags a.flags]
    exact ⟨_, rfl⟩
  obtain ⟨s, _, ⟨_, rfl⟩ | ⟨_, rfl⟩⟩ := command_parts h
  · obtain ⟨front, hf⟩ := hw s.libpaths
    exact ⟨front, [], by rw [hf]; simp⟩
  · obtain ⟨front, hf⟩ := hw s.libpaths
    exact ⟨front, _, by rw [hf]; simp only [List.append_assoc]; rfl⟩

/-- **C80**: with `-c` among the flags the sources are the last words: no library is passed.  Without it, and if no word given
as it is looks like a library, all libraries stand right of the sources. -/
theorem C80_compile (g : LibFiles) (limit : Nat) (b : Cc) (a : Args) (cmd : List Text) (h : command g limit b a = some cmd) :
    (Expected b a "-c".toList → ∃ front, cmd = front ++ a.srcs) ∧
    ((∀ w ∈ literal b a, ¬ IsOption 'l' w) → ∃ front back, cmd = front ++ a.srcs ++ back ∧
      ∀ w ∈ front ++ a.srcs, ¬ IsOption 'l' w) := by
  have hsrc : ∀ lp, ∃ front, wordsBefore b a lp = front ++ a.srcs := fun lp => ⟨_, rfl⟩
  have hc : ∀ lp, "-c".toList ∈ wordsBefore b a lp ↔ Expected b a "-c".toList := fun lp => by
    refine mem_before (fun c hc => ?_)
    rintro ⟨r, hr⟩
    have : 'c' = c := by
      have := congrArg (fun l : Text => l.drop 1 |>.head?) hr
      simpa using this
    subst this
    simp at hc
  have hlib : (∀ w ∈ literal b a, ¬ IsOption 'l' w) → ∀ lp, ∀ w ∈ wordsBefore b a lp, ¬ IsOption 'l' w := by
    rintro hlit lp w hw ⟨x, rfl⟩
    have := (mem_options 'l' _ x).mpr hw
    rw [options_before 'l' (by decide) (by decide) b a _ hlit, includeArgs, options_sections] at this
    simp at this
  obtain ⟨s, _, ⟨h1, rfl⟩ | ⟨h1, rfl⟩⟩ := command_parts h
  · obtain ⟨front, hf⟩ := hsrc s.libpaths
    refine ⟨fun _ => ⟨front, hf⟩, fun hlit => ⟨front, [], by rw [hf]; simp, ?_⟩⟩
    rw [← hf]
    exact hlib hlit _
  · obtain ⟨front, hf⟩ := hsrc s.libpaths
    refine ⟨fun he => absurd ((hc _).mpr he) h1, fun hlit => ⟨front, _, by rw [hf]; simp only [List.append_assoc]; rfl, ?_⟩⟩
    rw [← hf]
    exact hlib hlit _

/-! ### Examples and violations of C80 -/

def t (s : String) : Text := s.toList

/-- no libraries -/
def noLibs : LibFiles := ⟨fun _ => [], fun _ => false, fun _ => [], fun _ => [], fun _ => []⟩

/-- a builder with debugging switched on -/
def exCc : Cc where
  exe := t "gcc"
  flags := [t "-pipe"]
  macros := [t "A"]
  includes := [t "inc"]
  debug := some true
  optimize := some true
  ldlibs := [t "-pthread"]

def exArgs : Args where
  srcs := [t "src/x.c"]
  dst := some (t "build/x.o")
  preFlags := [t "-c"]
  flags := [t "-ansi"]
  macros := [t "B", t "A"]
  warnings := [t "all"]
  optimize := some false
  machineFlags := [t "32", t ""]

set_option maxRecDepth 20000 in
example : command noLibs 1000 exCc exArgs = some [t "gcc", t "-c", t "-g", t "-Iinc", t "-Isrc", t "-DA", t "-DB", t "-Wall",
    t "-m32", t "-o", t "build/x.o", t "-pipe", t "-ansi", t "src/x.c"] := by decide +kernel

set_option maxRecDepth 20000 in
example : command noLibs 1000 exCc { exArgs with preFlags := [], srcs := [t "x.o"] } =
    some [t "gcc", t "-g", t "-Iinc", t "-DA", t "-DB", t "-Wall", t "-m32", t "-o", t "build/x.o", t "-pipe", t "-ansi",
      t "x.o", t "-pthread"] := by decide +kernel

/-- a decidable form of the hypothesis on the words given as they are -/
def noOption (c : Char) (ws : List Text) : Bool := options c ws = []

theorem noOption_sound {c : Char} {ws : List Text} (h : noOption c ws = true) : ∀ w ∈ ws, ¬ IsOption c w := by
  rintro w hw ⟨x, rfl⟩
  have := (mem_options c ws x).mpr hw
  simp only [noOption, decide_eq_true_eq] at h
  rw [h] at this
  cases this

example : (∀ w ∈ literal exCc exArgs, ¬ IsOption 'D' w) ∧ (∀ w ∈ literal exCc exArgs, ¬ IsOption 'W' w) ∧
    (∀ w ∈ literal exCc exArgs, ¬ IsOption 'm' w) ∧ (∀ w ∈ literal exCc exArgs, ¬ IsOption 'I' w) ∧
    (∀ w ∈ literal exCc exArgs, ¬ IsOption 'l' w) ∧ (exCc.flags ++ exArgs.flags).Nodup ∧
    Expected exCc exArgs (t "-c") ∧ Wanted exCc.debug exArgs.debug ∧ ¬ Wanted exCc.optimize exArgs.optimize := by
  refine ⟨noOption_sound (by decide), noOption_sound (by decide), noOption_sound (by decide), noOption_sound (by decide),
    noOption_sound (by decide), by decide, .pre (.inr (by decide)), .inr ⟨rfl, rfl⟩, ?_⟩
  rintro (h | h) <;> simp [exArgs] at h

set_option maxRecDepth 20000 in
/-- **C80** fails for flags with an argument: the second `-include` is taken for a repetition of the first and left out, so
that `b.h` becomes a source. -/
theorem C80_flags_violated :
    command noLibs 1000 { exe := t "gcc" }
      { srcs := [t "x.c"], flags := [t "-include", t "a.h", t "-include", t "b.h"] } =
    some [t "gcc", t "-include", t "a.h", t "b.h", t "x.c"] := by decide +kernel

/-- the value that gcc gives to a macro: the last definition counts -/
def macroValue (name : Text) (cmd : List Text) : Option Text :=
  (options 'D' cmd).reverse.findSome? (fun d => if (name ++ ['=']).isPrefixOf d then some (d.drop (name.length + 1)) else none)

set_option maxRecDepth 20000 in
/-- **C80** fails for a macro that the call defines in another way than the builder: the definitions are sorted, so the larger
value counts, not the one of the call. -/
theorem C80_macro_violated :
    (command noLibs 1000 { exe := t "gcc", macros := [t "N=8"] } { srcs := [t "x.c"], macros := [t "N=16"] }).map
      (macroValue (t "N")) = some (some (t "8")) ∧
    (command noLibs 1000 { exe := t "gcc", macros := [t "N=16"] } { srcs := [t "x.c"], macros := [t "N=8"] }).map
      (macroValue (t "N")) = some (some (t "8")) := by decide +kernel

set_option maxRecDepth 20000 in
/-- **C80** fails for a flag of the call that repeats a flag of the builder in order to have the last word. -/
theorem C80_last_violated :
    command noLibs 1000 { exe := t "gcc", flags := [t "-fno-rtti", t "-frtti"] }
      { srcs := [t "x.c"], flags := [t "-fno-rtti"] } =
    some [t "gcc", t "-fno-rtti", t "-frtti", t "x.c"] := by decide +kernel

end Verif.Gcc
