import Verif.Calls.Parallel
/-!
# One task alone

The small steps of `Verif/Calls/Threads.lean`, if there is only one task, do what the interpreter of `Verif/Calls/Core.lean` does.
-/
namespace Verif.Calls
open Verif.DB
set_option linter.unusedSectionVars false

section
variable {B R : Type} [DecidableEq B] {sg : Sig B R} {script : Script B R} {clk : Nat → Nat} {limit : Nat}

/-- a number of steps of one thread -/
def steps (sg : Sig B R) (script : Script B R) (clk : Nat → Nat) (limit : Nat) : Nat → Task B R × Mach B R → Task B R × Mach B R
  | 0, q => q
  | n + 1, q => steps sg script clk limit n (q.1.step sg script clk limit q.2)

theorem steps_add (a b : Nat) (q : Task B R × Mach B R) :
    steps sg script clk limit (a + b) q = steps sg script clk limit b (steps sg script clk limit a q) := by
  induction a generalizing q with
  | zero => simp [steps]
  | succ a ih => rw [Nat.succ_add, steps, steps, ih]

/-- one task leads to the other in some steps -/
def Leads (sg : Sig B R) (script : Script B R) (clk : Nat → Nat) (limit : Nat) (q q' : Task B R × Mach B R) : Prop :=
  ∃ n, steps sg script clk limit n q = q'

theorem Leads.trans {q q1 q2 : Task B R × Mach B R} (h : Leads sg script clk limit q q1) (h' : Leads sg script clk limit q1 q2) :
    Leads sg script clk limit q q2 := by
  obtain ⟨a, ha⟩ := h
  obtain ⟨b, hb⟩ := h'
  exact ⟨a + b, by rw [steps_add, ha, hb]⟩

theorem Leads.one {t : Task B R} {m : Mach B R} {q : Task B R × Mach B R} (h : t.step sg script clk limit m = q) :
    Leads sg script clk limit (t, m) q := ⟨1, h⟩

theorem reportTo_none (fs : List (Frame B R)) : reportTo .none fs = fs := by
  unfold reportTo
  conv => rhs; rw [← List.map_id fs]
  apply List.map_congr_left
  intro f _
  simp [Reports.add, Reports.none]

theorem reportTo_add (a b : Reports) (fs : List (Frame B R)) : reportTo b (reportTo a fs) = reportTo (a.add b) fs := by
  unfold reportTo
  rw [List.map_map]
  apply List.map_congr_left
  intro f _
  simp [Reports.add]

theorem add_none (a : Reports) : a.add .none = a := by simp [Reports.add, Reports.none]
theorem none_add (a : Reports) : Reports.none.add a = a := by simp [Reports.add, Reports.none]

/-- the small steps of a program do what `runProg` does -/
theorem leads_prog {n : Nat} {fs : List (Frame B R)}
    (hcall : ∀ d f b (k : Option R → Prog B R) s m (fs' : List (Frame B R)), fs'.length = fs.length → ∃ s',
      Leads sg script clk limit (⟨.callD d f b k, fs', s⟩, m)
        (⟨k (callFn sg script clk n f b m).1, reportTo ((callFn sg script clk n f b m).2.1.add
            (deepFiles sg d f b (callFn sg script clk n f b m).1 (callFn sg script clk n f b m).2.2)) fs', s'⟩,
          (callFn sg script clk n f b m).2.2))
    (p : Prog B R) (m : Mach B R) (s : Bool) (fs' : List (Frame B R)) (hl : fs'.length = fs.length) : ∃ s',
    Leads sg script clk limit (⟨p, fs', s⟩, m)
      (⟨back (runProg sg clk (callFn sg script clk n) p m).1, reportTo (runProg sg clk (callFn sg script clk n) p m).2.1 fs', s'⟩,
        (runProg sg clk (callFn sg script clk n) p m).2.2) := by
  induction p generalizing m s fs' with
  | ret r => exact ⟨s, 0, by simp [steps, runProg, back, reportTo_none]⟩
  | raise => exact ⟨s, 0, by simp [steps, runProg, back, reportTo_none]⟩
  | callD d f b k ih =>
    obtain ⟨s1, h1⟩ := hcall d f b k s m fs' hl
    obtain ⟨s2, h2⟩ := ih _ (callFn sg script clk n f b m).2.2 s1 (reportTo ((callFn sg script clk n f b m).2.1.add
            (deepFiles sg d f b (callFn sg script clk n f b m).1 (callFn sg script clk n f b m).2.2)) fs')
            (by rw [reportTo, List.length_map]; exact hl)
    refine ⟨s2, h1.trans ?_⟩
    rw [reportTo_add] at h2
    simpa only [runProg, Reports.add, List.append_assoc] using h2
  | report srcs dsts k ih =>
    obtain ⟨s2, h2⟩ := ih m true (reportTo ⟨srcs, dsts⟩ fs') (by rw [reportTo, List.length_map]; exact hl)
    refine ⟨s2, (Leads.one rfl).trans ?_⟩
    rw [reportTo_add] at h2
    exact h2
  | read x k ih =>
    obtain ⟨s2, h2⟩ := ih (m.sys.env.fs.content x) m true fs' hl
    exact ⟨s2, (Leads.one rfl).trans h2⟩
  | write x c k ih =>
    obtain ⟨s2, h2⟩ := ih (m.writeFile sg clk x c) true fs' hl
    exact ⟨s2, (Leads.one rfl).trans h2⟩

/-- a call, given that the steps of the body do what `run` does -/
theorem leads_ask {run : Mach B R → Outcome B R} (d : Bool) (f : FunName) (b : B) (k : Option R → Prog B R) (s : Bool)
    (m : Mach B R) (fs : List (Frame B R))
    (hrun : ∀ (fr : Frame B R) (m2 : Mach B R), ∃ s', Leads sg script clk limit
      (⟨if fs.length < limit then script f ((m2.sys.env.funDigest f).getD "") b else .raise, fr :: fs, true⟩, m2)
      (⟨back (run m2).1, reportTo (run m2).2.1 (fr :: fs), s'⟩, (run m2).2.2)) : ∃ s',
    Leads sg script clk limit (⟨.callD d f b k, fs, s⟩, m)
      (⟨k (askCall sg clk run f b m).1, reportTo ((askCall sg clk run f b m).2.1.add
          (deepFiles sg d f b (askCall sg clk run f b m).1 (askCall sg clk run f b m).2.2)) fs, s'⟩,
        (askCall sg clk run f b m).2.2) := by
  have hstep : Leads sg script clk limit (⟨.callD d f b k, fs, s⟩, m) (Task.call sg script clk limit d f b k fs m) := Leads.one rfl
  have hd : ∀ m', deepFiles sg d f b none m' = .none := fun m' => by cases d <;> rfl
  rw [Task.call] at hstep
  rw [askCall]
  generalize hev : Mach.event sg (Event.prepare m.next f b) _ = q at hstep ⊢
  obtain ⟨o, m2⟩ := q
  cases o with
  | hit r => exact ⟨true, by simpa only [none_add] using hstep⟩
  | run =>
    simp only at hstep ⊢
    obtain ⟨s', hb⟩ := hrun ⟨m.next, d, f, b, k, .none⟩ { m2 with stack := [] :: m2.stack }
    have hb' := hstep.trans hb
    rw [runCall]
    generalize run { m2 with stack := [] :: m2.stack } = q at hb' ⊢
    obtain ⟨o, rep, m3⟩ := q
    rw [show reportTo rep (⟨m.next, d, f, b, k, .none⟩ :: fs) = ⟨m.next, d, f, b, k, rep⟩ :: reportTo rep fs by
      simp [reportTo, none_add]] at hb'
    cases o with
    | none =>
      refine ⟨true, hb'.trans (Leads.one ?_)⟩
      simp only [Task.step, back, hd, add_none]
    | some r =>
      have hd1 : Leads sg script clk limit _ (Task.done sg r ⟨m.next, d, f, b, k, rep⟩ (reportTo rep fs) m3) :=
        hb'.trans (Leads.one rfl)
      rw [Task.done] at hd1
      simp only at hd1 ⊢
      cases hst : m3.stack with
      | nil =>
        rw [hst] at hd1
        exact ⟨true, by simpa only [hd, add_none] using hd1⟩
      | cons deps rest =>
        rw [hst] at hd1
        simp only at hd1 ⊢
        generalize Mach.event sg (Event.complete m.next r deps rep.srcs rep.dsts) _ = q at hd1 ⊢
        obtain ⟨o, m4⟩ := q
        cases o <;> first
          | exact ⟨true, by simpa only [reportTo_add] using hd1⟩
          | exact ⟨true, by simpa only [hd, add_none] using hd1⟩
  | _ => exact ⟨true, by simpa only [hd, add_none, reportTo_none] using hstep⟩

theorem leads_call (n : Nat) (d : Bool) (f : FunName) (b : B) (k : Option R → Prog B R) (s : Bool) (m : Mach B R)
    (fs : List (Frame B R)) (hl : fs.length + n = limit) : ∃ s',
    Leads sg script clk limit (⟨.callD d f b k, fs, s⟩, m)
      (⟨k (callFn sg script clk n f b m).1, reportTo ((callFn sg script clk n f b m).2.1.add
          (deepFiles sg d f b (callFn sg script clk n f b m).1 (callFn sg script clk n f b m).2.2)) fs, s'⟩,
        (callFn sg script clk n f b m).2.2) := by
  induction n generalizing d f b k s m fs with
  | zero =>
    rw [callFn.eq_def]
    refine leads_ask d f b k s m fs fun fr m2 => ⟨true, 0, ?_⟩
    rw [if_neg (by omega), reportTo_none]
    rfl
  | succ n ih =>
    rw [callFn.eq_def]
    refine leads_ask d f b k s m fs fun fr m2 => ?_
    rw [if_pos (by omega)]
    refine leads_prog (fs := fr :: fs) ?_ _ m2 true (fr :: fs) rfl
    intro d f b k s m fs' hl'
    rw [List.length_cons] at hl'
    exact ih d f b k s m fs' (by omega)

/-- a whole program, as the only task -/
theorem leads_build (main : Prog B R) (m : Mach B R) (s : Bool) : ∃ s',
    Leads sg script clk limit (⟨main, [], s⟩, m)
      (⟨back (build sg script clk limit main m).1, [], s'⟩, (build sg script clk limit main m).2) :=
  leads_prog (fs := []) (fun d f b k s m fs' hl' => leads_call limit d f b k s m fs' (by
    rw [List.length_nil] at hl'; omega)) main m s [] rfl

theorem steps_back (o : Option R) (s : Bool) (m : Mach B R) (n : Nat) :
    steps sg script clk limit n (⟨back o, [], s⟩, m) = (⟨back o, [], s⟩, m) := by
  induction n with
  | zero => rfl
  | succ n ih => cases o <;> exact ih

/-- the only task makes steps; the numbers of other tasks in the order mean nothing -/
theorem run_alone (t : Task B R) (m : Mach B R) (order : List Nat) :
    Pool.run sg script clk limit (fun _ => []) ⟨m, [t]⟩ order =
      ⟨(steps sg script clk limit (order.count 0) (t, m)).2, [(steps sg script clk limit (order.count 0) (t, m)).1]⟩ := by
  induction order generalizing t m with
  | nil => rfl
  | cons i order ih =>
    rw [Pool.run, List.foldl_cons]
    cases i with
    | zero =>
      have : Pool.step sg script clk limit (fun _ => []) ⟨m, [t]⟩ 0 =
          ⟨(t.step sg script clk limit m).2, [(t.step sg script clk limit m).1]⟩ := by
        simp [Pool.step, Pool.ready]
      rw [this, List.count_cons_self]
      exact ih _ _
    | succ i =>
      have : Pool.step sg script clk limit (fun _ => []) ⟨m, [t]⟩ (i + 1) = ⟨m, [t]⟩ := by simp [Pool.step]
      rw [this, List.count_cons_of_ne (by simp)]
      exact ih _ _
end

end Verif.Calls
