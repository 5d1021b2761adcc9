import Verif.Main.Hooks
/-!
# The hooks of a script for the options (C155)
-/
namespace Verif.Main.Hooks

/-! ## Specification -/

variable {V E : Type}

/-- the function that the script has for a purpose: its name and the arguments that it is to be called with -/
inductive Has (s : Script V E) (new : Text) (newArgs : List V) (old : Text) (oldArgs : List V) :
    Option (Text × List V × (List V → Except E (Option V))) → Prop where
  | new (f) : s new = some f → Has s new newArgs old oldArgs (some (new, newArgs, f))
  | old (f) : s new = none → s old = some f → Has s new newArgs old oldArgs (some (old, oldArgs, f))
  | no : s new = none → s old = none → Has s new newArgs old oldArgs none

/-- the calls of functions of the script -/
def calls : List (Ev V) → List (Text × List V)
  | [] => []
  | .hook n a :: t => (n, a) :: calls t
  | _ :: t => calls t

/-- what a function changes a value to: what it returns, unless that is nothing or counts as false -/
def Changed (truthy : V → Bool) (v : V) (r : Option V) (v' : V) : Prop :=
  (∃ x, r = some x ∧ truthy x = true ∧ v' = x) ∨ ((∀ x, r = some x → truthy x = false) ∧ v' = v)

/-! ## Proofs -/

theorem has_all (s : Script V E) (new : Text) (newArgs : List V) (old : Text) (oldArgs : List V) :
    ∃ h, Has s new newArgs old oldArgs h := by
  cases h1 : s new with
  | some f => exact ⟨_, .new f h1⟩
  | none =>
    cases h2 : s old with
    | some f => exact ⟨_, .old f h1 h2⟩
    | none => exact ⟨_, .no h1 h2⟩

theorem orElse_changed (truthy : V → Bool) (r : Option V) (v : V) : Changed truthy v r (orElse truthy r v) := by
  unfold orElse Changed
  cases r with
  | none => simp
  | some x =>
    dsimp only
    split
    · exact Or.inl ⟨x, rfl, by assumption, rfl⟩
    · rename_i h
      refine Or.inr ⟨?_, rfl⟩
      intro y hy
      cases hy
      simpa using h

/-- **C155**: a hook is called once, with its arguments: the current one if there is one, else the deprecated one, after a warning; its
result or its exception, whatever it is, is that of the call.  Without a hook there is no call, no warning and no result. -/
theorem C155_hook (s : Script V E) (new : Text) (newArgs : List V) (old : Text) (oldArgs : List V) :
    let o := callOrDeprecated s new newArgs old oldArgs
    ∃ h, Has s new newArgs old oldArgs h ∧
      (∀ n a f, h = some (n, a, f) → calls o.1 = [(n, a)] ∧ o.2 = f a) ∧
      (h = none → o = ([], .ok none)) ∧
      (Ev.warn old new ∈ o.1 ↔ s new = none ∧ s old ≠ none) := by
  cases h1 : s new with
  | some f =>
    refine ⟨_, .new f h1, ?_, ?_, ?_⟩
    · intro n a g hg
      cases hg
      simp [callOrDeprecated, h1, calls]
    · simp
    · simp [callOrDeprecated, h1]
  | none =>
    cases h2 : s old with
    | some f =>
      refine ⟨_, .old f h1 h2, ?_, ?_, ?_⟩
      · intro n a g hg
        cases hg
        simp [callOrDeprecated, h1, h2, calls]
      · simp
      · simp [callOrDeprecated, h1, h2]
    | none =>
      refine ⟨_, .no h1 h2, ?_, ?_, ?_⟩
      · simp
      · simp [callOrDeprecated, h1, h2]
      · simp [callOrDeprecated, h1, h2]

theorem calls_append (a b : List (Ev V)) : calls (a ++ b) = calls a ++ calls b := by
  induction a with
  | nil => rfl
  | cons x a ih => cases x <;> simp [calls, ih]

/-- the calls of one stage -/
def stage (h : Option (Text × List V × (List V → Except E (Option V)))) : List (Text × List V) :=
  match h with
  | some (n, a, _) => [(n, a)]
  | none => []

/-- the outcome of one stage -/
def result (h : Option (Text × List V × (List V → Except E (Option V)))) : Except E (Option V) :=
  match h with
  | some (_, a, f) => f a
  | none => .ok none

theorem call_spec (s : Script V E) (new : Text) (newArgs : List V) (old : Text) (oldArgs : List V)
    {h} (hh : Has s new newArgs old oldArgs h) :
    calls (callOrDeprecated s new newArgs old oldArgs).1 = stage h ∧ (callOrDeprecated s new newArgs old oldArgs).2 = result h := by
  cases hh with
  | new f h1 => simp [callOrDeprecated, h1, calls, stage, result]
  | old f h1 h2 => simp [callOrDeprecated, h1, h2, calls, stage, result]
  | no h1 h2 => simp [callOrDeprecated, h1, h2, calls, stage, result]

/-- **C155**: if the arguments of fbuild are parsed then the script was asked for the parser with that of fbuild, the arguments were parsed
with the parser that came of it, and the script was asked for the arguments with both; what comes of it is the result. -/
theorem C155_parse (s : Script V E) (truthy : V → Bool) (make : V) (parse : V → Except E V) (r : V)
    (h : (parseArgs s truthy make parse).2 = .ok r) :
    ∃ h1 r1 parser args h2 r2,
      Has s "arguments".toList [make] "pre_options".toList [make] h1 ∧ result h1 = .ok r1 ∧ Changed truthy make r1 parser ∧
      parse parser = .ok args ∧
      Has s "post_arguments".toList [parser, args] "post_options".toList [args] h2 ∧ result h2 = .ok r2 ∧ Changed truthy args r2 r ∧
      calls (parseArgs s truthy make parse).1 = stage h1 ++ stage h2 := by
  obtain ⟨h1, hh1⟩ := has_all s "arguments".toList [make] "pre_options".toList [make]
  have e1 := call_spec s _ _ _ _ hh1
  revert h
  unfold parseArgs
  generalize callOrDeprecated s "arguments".toList [make] "pre_options".toList [make] = o1 at e1
  obtain ⟨t1, x1⟩ := o1
  cases x1 with
  | error e => simp
  | ok r1 =>
    dsimp only at e1 ⊢
    cases hp : parse (orElse truthy r1 make) with
    | error e => simp
    | ok args =>
      dsimp only
      obtain ⟨h2, hh2⟩ := has_all s "post_arguments".toList [orElse truthy r1 make, args] "post_options".toList [args]
      have e2 := call_spec s _ _ _ _ hh2
      generalize callOrDeprecated s "post_arguments".toList [orElse truthy r1 make, args] "post_options".toList [args] = o2 at e2
      obtain ⟨t2, x2⟩ := o2
      cases x2 with
      | error e => simp
      | ok r2 =>
        intro h
        simp only [Except.ok.injEq] at h
        refine ⟨h1, r1, orElse truthy r1 make, args, h2, r2, hh1, e1.2.symm, orElse_changed .., hp, hh2, e2.2.symm, ?_, ?_⟩
        · rw [← h]; exact orElse_changed ..
        · simp [calls_append, calls, e1.1, e2.1]

/-- **C155**: nothing that a hook or the parser raises is lost, and nothing is called after it. -/
theorem C155_raises (s : Script V E) (truthy : V → Bool) (make : V) (parse : V → Except E V) (e : E)
    (h : (parseArgs s truthy make parse).2 = .error e) :
    ∃ h1, Has s "arguments".toList [make] "pre_options".toList [make] h1 ∧
      ((result h1 = .error e ∧ calls (parseArgs s truthy make parse).1 = stage h1) ∨
       ∃ r1 parser, result h1 = .ok r1 ∧ Changed truthy make r1 parser ∧
        ((parse parser = .error e ∧ calls (parseArgs s truthy make parse).1 = stage h1) ∨
         ∃ args h2, parse parser = .ok args ∧ Has s "post_arguments".toList [parser, args] "post_options".toList [args] h2 ∧
          result h2 = .error e ∧ calls (parseArgs s truthy make parse).1 = stage h1 ++ stage h2)) := by
  obtain ⟨h1, hh1⟩ := has_all s "arguments".toList [make] "pre_options".toList [make]
  refine ⟨h1, hh1, ?_⟩
  have e1 := call_spec s _ _ _ _ hh1
  revert h
  unfold parseArgs
  generalize callOrDeprecated s "arguments".toList [make] "pre_options".toList [make] = o1 at e1
  obtain ⟨t1, x1⟩ := o1
  cases x1 with
  | error e' =>
    intro h
    simp only [Except.error.injEq] at h
    subst h
    exact Or.inl ⟨e1.2.symm, e1.1⟩
  | ok r1 =>
    dsimp only at e1 ⊢
    cases hp : parse (orElse truthy r1 make) with
    | error e' =>
      intro h
      simp only [Except.error.injEq] at h
      subst h
      exact Or.inr ⟨r1, _, e1.2.symm, orElse_changed .., Or.inl ⟨hp, by simp [calls_append, calls, e1.1]⟩⟩
    | ok args =>
      dsimp only
      obtain ⟨h2, hh2⟩ := has_all s "post_arguments".toList [orElse truthy r1 make, args] "post_options".toList [args]
      have e2 := call_spec s _ _ _ _ hh2
      generalize callOrDeprecated s "post_arguments".toList [orElse truthy r1 make, args] "post_options".toList [args] = o2 at e2
      obtain ⟨t2, x2⟩ := o2
      cases x2 with
      | error e' =>
        intro h
        simp only [Except.error.injEq] at h
        subst h
        exact Or.inr ⟨r1, _, e1.2.symm, orElse_changed .., Or.inr ⟨args, h2, hp, hh2, e2.2.symm, by simp [calls_append, calls, e1.1, e2.1]⟩⟩
      | ok r2 => simp

/-- **C155**, partial: a script that cannot be imported is reported, if the arguments are such as fbuild knows by itself.  Partial: see
`C155_import_violated`. -/
theorem C155_import_partial (truthy : V → Bool) (make : V) (parse : V → Except E V) (e : E) (args : V) (h : parse make = .ok args) :
    begin (.error e) truthy make parse = .error e := by
  simp [begin, parseArgs, callOrDeprecated, orElse, h]

/-- **C155** is false for arguments that the script would have added: the error is that of the parser, and why the script could not be
imported is not said. -/
theorem C155_import_violated (truthy : V → Bool) (make : V) (parse : V → Except E V) (e e' : E) (h : parse make = .error e')
    (hne : e ≠ e') : begin (.error e) truthy make parse = .error e' ∧ begin (.error e) truthy make parse ≠ .error e := by
  have : begin (.error e) truthy make parse = .error e' := by
    simp [begin, parseArgs, callOrDeprecated, orElse, h]
  refine ⟨this, ?_⟩
  rw [this]
  simpa using fun h => hne h.symm

/-! ## Examples -/

/-- values are texts; the script adds an option and changes nothing afterwards, with the old name -/
def exScript : Script Text Text := fun n =>
  if n = "arguments".toList then some fun a => .ok (some ((a.headD []) ++ "+x".toList))
  else if n = "post_options".toList then some fun _ => .ok none
  else none

def exParse (p : Text) : Except Text Text := if p = "p+x".toList then .ok "x=1".toList else .error "unknown".toList

theorem exParsed : parseArgs exScript (fun _ => true) "p".toList exParse =
    ([.hook "arguments".toList ["p".toList], .parse "p+x".toList, .warn "post_options".toList "post_arguments".toList,
      .hook "post_options".toList ["x=1".toList]], .ok "x=1".toList) := by
  rfl

/-- hypotheses met -/
example : (parseArgs exScript (fun _ => true) "p".toList exParse).2 = .ok "x=1".toList := by rw [exParsed]
example : (parseArgs (fun _ => none) (fun _ => true) "p".toList exParse).2 = .error "unknown".toList := by rfl
example : begin (.error "no module".toList : Except Text (Script Text Text)) (fun _ => true) "p".toList exParse = .error "unknown".toList := by
  rfl

end Verif.Main.Hooks
