import Verif.Calls.Group
/-!
# Processes that are killed

With the engine `pickle` the database is in memory; the state file is written when the process ends (pickle_backend.py:39-75).  A
process that is killed leaves the files it wrote, and the state file of the process before it: the event `crash`.
-/
namespace Verif.Calls
open Verif.DB CDB
set_option linter.unusedSectionVars false

variable {B R : Type} [DecidableEq B]

/-- what a process does while it builds -/
def Event.isRun : Event B R → Bool
  | .prepare _ _ _ => true
  | .complete _ _ _ _ _ => true
  | .fail _ => true
  | .edit _ _ => true
  | .tick _ => true
  | _ => false

/-- what happens to files -/
def Event.isFile : Event B R → Bool
  | .edit _ _ => true
  | .tick _ => true
  | _ => false

/-- The process does `evs`, is killed, and functions and files are deleted from the database (`dels`) by further processes. -/
def Mach.killed (sg : Sig B R) (evs dels : List (Event B R)) (ds : FunName → Option Digest) (m : Mach B R) : Mach B R :=
  { m.events sg (evs ++ .crash ds :: dels) with stack := [] }

/-- the events of a build, oldest first -/
def buildEvents (sg : Sig B R) (script : Script B R) (clk : Nat → Nat) (limit : Nat) (main : Prog B R) (m : Mach B R) :
    List (Event B R) :=
  (((build sg script clk limit main m).2.trace.take
    ((build sg script clk limit main m).2.trace.length - m.trace.length)).map Prod.snd).reverse

variable {sg : Sig B R} {script : Script B R} {ρ : Layout B} {vers : FileName → Nat → Option Content}

/-! ### A build is a list of events -/

/-- `m'` comes from `m` by events of a running process -/
def Via (sg : Sig B R) (m m' : Mach B R) : Prop :=
  ∃ evs, (∀ ev ∈ evs, Event.isRun ev = true) ∧ m'.sys = (m.events sg evs).sys ∧ m'.trace = (m.events sg evs).trace

theorem events_congr (es : List (Event B R)) {m m' : Mach B R} (h : m.sys = m'.sys) (ht : m.trace = m'.trace) :
    (m.events sg es).sys = (m'.events sg es).sys ∧ (m.events sg es).trace = (m'.events sg es).trace := by
  induction es generalizing m m' with
  | nil => exact ⟨h, ht⟩
  | cons e es ih => exact ih (by simp only [Mach.event, h]) (by simp only [Mach.event, h, ht])

theorem Via.refl (m : Mach B R) : Via sg m m := ⟨[], by simp, rfl, rfl⟩

theorem Via.trans {m m' m'' : Mach B R} (h : Via sg m m') (h' : Via sg m' m'') : Via sg m m'' := by
  obtain ⟨e, h1, h2, h3⟩ := h
  obtain ⟨e', h1', h2', h3'⟩ := h'
  refine ⟨e ++ e', ?_, ?_, ?_⟩
  · intro ev hev
    rcases List.mem_append.1 hev with hev | hev
    · exact h1 ev hev
    · exact h1' ev hev
  · rw [h2', events_append]; exact (events_congr e' h2 h3).1
  · rw [h3', events_append]; exact (events_congr e' h2 h3).2

theorem Via.event (m : Mach B R) (ev : Event B R) (h : Event.isRun ev = true) : Via sg m (m.event sg ev).2 :=
  ⟨[ev], by simpa using h, rfl, rfl⟩

/-- the call stack and the number of the next call do not matter -/
theorem Via.stack {m m' : Mach B R} (h : Via sg m m') (st : List (List FunName)) (n : Nat) :
    Via sg m { m' with stack := st, next := n } := h

theorem Via.ofStack (m m' : Mach B R) (st : List (List FunName)) (n : Nat) (h : Via sg { m with stack := st, next := n } m') :
    Via sg m m' := by
  obtain ⟨e, h1, h2, h3⟩ := h
  have := events_congr (sg := sg) e (m := { m with stack := st, next := n }) (m' := m) rfl rfl
  exact ⟨e, h1, h2.trans this.1, h3.trans this.2⟩

theorem runProg_via {clk : Nat → Nat} {callF : FunName → B → Mach B R → Outcome B R}
    (hc : ∀ f b m, Via sg m (callF f b m).2.2) (p : Prog B R) (m : Mach B R) : Via sg m (runProg sg clk callF p m).2.2 := by
  induction p generalizing m with
  | ret r => exact .refl m
  | raise => exact .refl m
  | callD d f b k ih => exact (hc f b m).trans (ih _ _)
  | report srcs dsts k ih => exact ih m
  | read x k ih => exact ih _ m
  | write x c k ih =>
    refine Via.trans ?_ (ih _)
    refine Via.ofStack _ _ m.stack (m.next + 1) ?_
    exact (Via.event _ (.tick (clk m.next)) rfl).trans (Via.event _ (.edit x (c.map fun c => ⟨clk m.next, some c⟩)) rfl)

theorem runCall_via {run : Mach B R → Outcome B R} (hr : ∀ m, Via sg m (run m).2.2) (id : Nat) (m : Mach B R) :
    Via sg m (runCall sg run id m).2.2 := by
  have h := Via.ofStack m _ ([] :: m.stack) m.next (hr { m with stack := [] :: m.stack })
  unfold runCall
  split
  · rename_i rep m1 he
    rw [he] at h
    exact h.trans (Via.event _ _ rfl)
  · rename_i r rep m1 he
    rw [he] at h
    split
    · exact h.trans (Via.event _ _ rfl)
    · rename_i deps rest _
      have h1 : Via sg m (({ m1 with stack := rest } : Mach B R).event sg (.complete id r deps rep.srcs rep.dsts)).2 :=
        (h.stack rest m1.next).trans (Via.event _ _ rfl)
      split
      · rename_i h2; rw [h2] at h1; exact h1
      · rename_i h2; rw [h2] at h1; exact h1

theorem askCall_via {clk : Nat → Nat} {run : Mach B R → Outcome B R} (hr : ∀ m, Via sg m (run m).2.2) (f : FunName) (b : B)
    (m : Mach B R) : Via sg m (askCall sg clk run f b m).2.2 := by
  unfold askCall
  have h1 : Via sg m (((({ m with stack := noteCall f m.stack, next := m.next + 1 } : Mach B R).event sg
      (.tick (clk m.next))).2.event sg (.prepare m.next f b)).2) :=
    Via.ofStack _ _ (noteCall f m.stack) (m.next + 1) ((Via.event _ (.tick (clk m.next)) rfl).trans (Via.event _ _ rfl))
  simp only
  split
  · rename_i h2; rw [h2] at h1; exact h1
  · rename_i h2; rw [h2] at h1; exact h1.trans (runCall_via hr _ _)
  · rename_i h2; rw [h2] at h1; exact h1

theorem callFn_via {clk : Nat → Nat} (n : Nat) (f : FunName) (b : B) (m : Mach B R) :
    Via sg m (callFn sg script clk n f b m).2.2 := by
  induction n generalizing f b m with
  | zero => exact askCall_via (fun m => .refl m) f b m
  | succ n ih => exact askCall_via (fun m => runProg_via (fun f b m => ih f b m) _ m) f b m

theorem build_via (clk : Nat → Nat) (limit : Nat) (main : Prog B R) (m : Mach B R) :
    Via sg m (build sg script clk limit main m).2 := runProg_via (fun f b m => callFn_via limit f b m) main m

theorem events_trace (es : List (Event B R)) (m : Mach B R) :
    ∃ new, (m.events sg es).trace = new ++ m.trace ∧ new.map Prod.snd = es.reverse := by
  induction es generalizing m with
  | nil => exact ⟨[], rfl, rfl⟩
  | cons e es ih =>
    obtain ⟨new, h1, h2⟩ := ih (m.event sg e).2
    refine ⟨new ++ [(m.sys, e)], ?_, ?_⟩
    · show ((m.event sg e).2.events sg es).trace = _
      rw [h1]
      simp [Mach.event]
    · simp [h2]

theorem buildEvents_via (clk : Nat → Nat) (limit : Nat) (main : Prog B R) (m : Mach B R) :
    (∀ ev ∈ buildEvents sg script clk limit main m, Event.isRun ev = true) ∧
      (m.events sg (buildEvents sg script clk limit main m)).sys = (build sg script clk limit main m).2.sys ∧
      (m.events sg (buildEvents sg script clk limit main m)).trace = (build sg script clk limit main m).2.trace := by
  obtain ⟨evs, h1, h2, h3⟩ := build_via (sg := sg) (script := script) clk limit main m
  obtain ⟨new, h4, h5⟩ := events_trace (sg := sg) evs m
  have h6 : buildEvents sg script clk limit main m = evs := by
    rw [buildEvents, h3, h4, List.length_append, Nat.add_sub_cancel, List.take_left, h5, List.reverse_reverse]
  rw [h6]
  exact ⟨h1, h2.symm, h3.symm⟩

/-! ### Builds do not depend on the history variables, nor on the state file -/

/-- what matters of a running call -/
def Pending.core (p : Pending B R) : FunName × Digest × B × Prep FunName (FunName × Nat) FileName R :=
  (p.fn, p.code, p.bound, p.prep)

/-- the same state of the process; the files edited in the history of `m'` were edited in the history of `m` -/
structure Same (m m' : Mach B R) : Prop where
  db : m'.sys.db = m.sys.db
  env : m'.sys.env = m.sys.env
  inflight : ∀ id, (m'.sys.inflight.get? id).map Pending.core = (m.sys.inflight.get? id).map Pending.core
  stack : m'.stack = m.stack
  next : m'.next = m.next
  edits : ∀ x st, Event.edit x st ∈ m'.trace.map Prod.snd → Event.edit x st ∈ m.trace.map Prod.snd

theorem Same.restack {m m' : Mach B R} (h : Same m m') (st : List (List FunName)) (n : Nat) :
    Same { m with stack := st, next := n } { m' with stack := st, next := n } :=
  ⟨h.db, h.env, h.inflight, rfl, rfl, h.edits⟩

theorem Same.edits_event {m m' : Mach B R} (h : Same m m') (ev : Event B R) (x : FileName) (st : Option FState)
    (hx : Event.edit x st ∈ (m'.event sg ev).2.trace.map Prod.snd) : Event.edit x st ∈ (m.event sg ev).2.trace.map Prod.snd := by
  simp only [Mach.event, List.map_cons, List.mem_cons] at hx ⊢
  exact hx.imp id (h.edits x st)

theorem Same.event {m m' : Mach B R} (h : Same m m') (ev : Event B R) (hev : Event.isRun ev = true) :
    (m'.event sg ev).1 = (m.event sg ev).1 ∧ Same (m.event sg ev).2 (m'.event sg ev).2 := by
  have hed := h.edits_event (sg := sg) ev
  cases ev with
  | edit x st => exact ⟨rfl, ⟨h.db, by simp [Mach.event, step, h.env], h.inflight, h.stack, h.next, hed⟩⟩
  | tick t => exact ⟨rfl, ⟨h.db, by simp [Mach.event, step, h.env], h.inflight, h.stack, h.next, hed⟩⟩
  | fail id =>
    refine ⟨rfl, ⟨h.db, h.env, ?_, h.stack, h.next, hed⟩⟩
    intro id'
    simp only [Mach.event, step, Dict.get?_erase]
    split
    · rfl
    · exact h.inflight id'
  | prepare id f b =>
    simp only [Mach.event, step, stepPrepare] at hed ⊢
    rw [h.env, h.db] at *
    cases hd : m.sys.env.funDigest f with
    | none =>
      simp only [hd] at hed ⊢
      exact ⟨by trivial, ⟨h.db, h.env, h.inflight, h.stack, h.next, hed⟩⟩
    | some code =>
      simp only [hd] at hed ⊢
      generalize prepare (CDB.storage B R) m.sys.env f b (sg.srcs f code b) m.sys.db = out at hed ⊢
      obtain ⟨o, db1⟩ := out
      cases o with
      | error e =>
        simp only at hed ⊢
        exact ⟨by trivial, ⟨by trivial, by first | exact h.env | rfl, h.inflight, h.stack, h.next, hed⟩⟩
      | ok p =>
        simp only at hed ⊢
        cases hh : hit m.sys.env (sg.dsts f code b) (sg.returnDsts f code) p with
        | some r =>
          simp only [hh] at hed ⊢
          exact ⟨by trivial, ⟨by trivial, by first | exact h.env | rfl, h.inflight, h.stack, h.next, hed⟩⟩
        | none =>
          simp only [hh] at hed ⊢
          refine ⟨by trivial, ⟨by trivial, by first | exact h.env | rfl, ?_, h.stack, h.next, hed⟩⟩
          intro id'
          simp only [Dict.get?_set]
          split
          · rfl
          · exact h.inflight id'
  | complete id r deps ext extDsts =>
    simp only [Mach.event, step, stepComplete] at hed ⊢
    have hi := h.inflight id
    cases h1 : m.sys.inflight.get? id with
    | none =>
      cases h2 : m'.sys.inflight.get? id with
      | none =>
        simp only [h1, h2] at hed ⊢
        exact ⟨by trivial, ⟨h.db, h.env, h.inflight, h.stack, h.next, hed⟩⟩
      | some p => rw [h1, h2] at hi; cases hi
    | some p =>
      cases h2 : m'.sys.inflight.get? id with
      | none => rw [h1, h2] at hi; cases hi
      | some p' =>
        rw [h1, h2] at hi
        obtain ⟨f, code, b, prep, fs0, start⟩ := p
        obtain ⟨f', code', b', prep', fs0', start'⟩ := p'
        simp only [Option.map_some, Pending.core, Option.some.injEq, Prod.mk.injEq] at hi
        obtain ⟨rfl, rfl, rfl, rfl⟩ := hi
        simp only [h1, h2, h.db, h.env] at hed ⊢
        have hin : ∀ id', ((m'.sys.inflight.erase id).get? id').map Pending.core =
            ((m.sys.inflight.erase id).get? id').map Pending.core := by
          intro id'
          simp only [Dict.get?_erase]
          split
          · rfl
          · exact h.inflight id'
        generalize cache (CDB.storage B R) (CDB.saveExternal m.sys.env ext extDsts) prep'.funDirty
          prep'.funId f' code' deps (prep'.found.map Prod.fst) b' r prep'.callFileDigests m.sys.db = out at hed ⊢
        obtain ⟨o, db1⟩ := out
        cases o with
        | error e => exact ⟨by trivial, ⟨by trivial, by first | exact h.env | rfl, hin, h.stack, h.next, hed⟩⟩
        | ok u => exact ⟨by trivial, ⟨by trivial, by first | exact h.env | rfl, hin, h.stack, h.next, hed⟩⟩
  | restart ds => cases hev
  | crash ds => cases hev
  | deleteFunction f => cases hev
  | deleteFile f => cases hev

def Agree (o o' : Outcome B R) : Prop := o'.1 = o.1 ∧ o'.2.1 = o.2.1 ∧ Same o.2.2 o'.2.2

theorem Same.write {m m' : Mach B R} (h : Same m m') (clk : Nat → Nat) (x : FileName) (c : Option Content) :
    Same (m.writeFile sg clk x c) (m'.writeFile sg clk x c) := by
  unfold Mach.writeFile
  have h0 : Same { m with next := m.next + 1 } { m' with next := m'.next + 1 } := by
    have := h.restack m.stack (m.next + 1)
    rw [h.next]
    have e : ({ m' with next := m.next + 1 } : Mach B R) = { m' with stack := m.stack, next := m.next + 1 } := by rw [← h.stack]
    rw [e]; exact this
  rw [h.next] at h0 ⊢
  exact ((h0.event (.tick (clk m.next)) rfl).2.event _ rfl).2

theorem runProg_same {clk : Nat → Nat} {callF : FunName → B → Mach B R → Outcome B R}
    (hc : ∀ f b m m', Same m m' → Agree (callF f b m) (callF f b m')) (p : Prog B R) {m m' : Mach B R} (h : Same m m') :
    Agree (runProg sg clk callF p m) (runProg sg clk callF p m') := by
  induction p generalizing m m' with
  | ret r => exact ⟨rfl, rfl, h⟩
  | raise => exact ⟨rfl, rfl, h⟩
  | callD d f b k ih =>
    obtain ⟨h1, h2, h3⟩ := hc f b m m' h
    have h4 := ih (callF f b m).1 h3
    have hd : deepFiles sg d f b (callF f b m).1 (callF f b m').2.2 = deepFiles sg d f b (callF f b m).1 (callF f b m).2.2 := by
      unfold deepFiles
      split
      · unfold callFiles; rw [h3.db, h3.env]
      · rfl
    simp only [runProg]
    rw [h1, h2, hd]
    exact ⟨h4.1, by rw [h4.2.1], h4.2.2⟩
  | report srcs dsts k ih =>
    obtain ⟨h1, h2, h3⟩ := ih h
    exact ⟨h1, by simp only [runProg]; rw [h2], h3⟩
  | read x k ih =>
    simp only [runProg]
    rw [h.env]
    exact ih _ h
  | write x c k ih => exact ih (h.write clk x c)

theorem runCall_same {run : Mach B R → Outcome B R} (hr : ∀ m m', Same m m' → Agree (run m) (run m')) (id : Nat) {m m' : Mach B R}
    (h : Same m m') : Agree (runCall sg run id m) (runCall sg run id m') := by
  have h0 : Same { m with stack := [] :: m.stack } { m' with stack := [] :: m'.stack } := by
    rw [h.stack]; exact ⟨h.db, h.env, h.inflight, rfl, h.next, h.edits⟩
  have h1 := hr _ _ h0
  unfold runCall
  generalize run { m with stack := [] :: m.stack } = o at h1 ⊢
  generalize run { m' with stack := [] :: m'.stack } = o' at h1 ⊢
  obtain ⟨v, rep, m1⟩ := o
  obtain ⟨v', rep', m1'⟩ := o'
  obtain ⟨e1, e2, h2⟩ := h1
  simp only at e1 e2 h2
  subst e1 e2
  cases v' with
  | none => exact ⟨rfl, rfl, (h2.event (.fail id) rfl).2⟩
  | some r =>
    simp only
    rw [h2.stack]
    cases hs : m1.stack with
    | nil => exact ⟨rfl, rfl, (h2.event (.fail id) rfl).2⟩
    | cons deps rest =>
      simp only
      have h3 : Same { m1 with stack := rest } { m1' with stack := rest } :=
        ⟨h2.db, h2.env, h2.inflight, rfl, h2.next, h2.edits⟩
      obtain ⟨e3, h4⟩ := h3.event (sg := sg) (.complete id r deps rep'.srcs rep'.dsts) rfl
      generalize ({ m1 with stack := rest } : Mach B R).event sg (.complete id r deps rep'.srcs rep'.dsts) = q at e3 h4 ⊢
      generalize ({ m1' with stack := rest } : Mach B R).event sg (.complete id r deps rep'.srcs rep'.dsts) = q' at e3 h4 ⊢
      obtain ⟨v, m2⟩ := q
      obtain ⟨v', m2'⟩ := q'
      simp only at e3 h4
      subst e3
      cases v' <;> exact ⟨rfl, rfl, h4⟩

theorem askCall_same {clk : Nat → Nat} {run : Mach B R → Outcome B R} (hr : ∀ m m', Same m m' → Agree (run m) (run m'))
    (f : FunName) (b : B) {m m' : Mach B R} (h : Same m m') : Agree (askCall sg clk run f b m) (askCall sg clk run f b m') := by
  unfold askCall
  simp only
  rw [h.stack, h.next]
  have h1 := (h.restack (noteCall f m.stack) (m.next + 1)).event (sg := sg) (.tick (clk m.next)) rfl
  obtain ⟨e3, h4⟩ := h1.2.event (sg := sg) (.prepare m.next f b) rfl
  generalize ((({ m with stack := noteCall f m.stack, next := m.next + 1 } : Mach B R).event sg
      (.tick (clk m.next))).2.event sg (.prepare m.next f b)) = q at e3 h4 ⊢
  generalize ((({ m' with stack := noteCall f m.stack, next := m.next + 1 } : Mach B R).event sg
      (.tick (clk m.next))).2.event sg (.prepare m.next f b)) = q' at e3 h4 ⊢
  obtain ⟨v, m2⟩ := q
  obtain ⟨v', m2'⟩ := q'
  simp only at e3 h4
  subst e3
  cases v' with
  | run => exact runCall_same hr _ h4
  | _ => exact ⟨rfl, rfl, h4⟩

theorem callFn_same {clk : Nat → Nat} (n : Nat) (f : FunName) (b : B) (m m' : Mach B R) (h : Same m m') :
    Agree (callFn sg script clk n f b m) (callFn sg script clk n f b m') := by
  induction n generalizing f b m m' with
  | zero => exact askCall_same (fun m m' h => ⟨rfl, rfl, h⟩) f b h
  | succ n ih =>
    refine askCall_same (fun m m' h => ?_) f b h
    rw [h.env]
    exact runProg_same (fun f b m m' h => ih f b m m' h) _ h

theorem build_same (clk : Nat → Nat) (limit : Nat) (main : Prog B R) {m m' : Mach B R} (h : Same m m') :
    (build sg script clk limit main m').1 = (build sg script clk limit main m).1 ∧
      Same (build sg script clk limit main m).2 (build sg script clk limit main m').2 := by
  have := runProg_same (sg := sg) (clk := clk) (callFn_same (sg := sg) (script := script) (clk := clk) limit) main h
  exact ⟨this.1, this.2.2⟩

/-! ### What a killed process leaves -/

/-- what a deletion does to the database -/
def delDb : Event B R → CDB B R → CDB B R
  | .deleteFunction f, db => (CDB.deleteFunction f db).2
  | .deleteFile x, db => (CDB.deleteFile x db).2
  | _, db => db

theorem deletes_sys {dels : List (Event B R)} (hd : ∀ ev ∈ dels, Event.isDelete ev = true) {m : Mach B R} (hi : m.sys.inflight = []) :
    (m.events sg dels).sys = { m.sys with db := dels.foldl (fun db d => delDb d db) m.sys.db } := by
  induction dels generalizing m with
  | nil => rfl
  | cons d dels ih =>
    have h1 : (m.event sg d).2.sys = { m.sys with db := delDb d m.sys.db } := by
      have := hd d (List.mem_cons_self ..)
      cases d with
      | deleteFunction f => simp [Mach.event, step, hi, delDb]
      | deleteFile f => simp [Mach.event, step, hi, delDb]
      | _ => cases this
    have h2 := ih (fun e he => hd e (List.mem_cons_of_mem _ he)) (m := (m.event sg d).2) (by rw [h1]; exact hi)
    show ((m.event sg d).2.events sg dels).sys = _
    rw [h2, h1]
    rfl

theorem run_env {evs : List (Event B R)} (hr : ∀ ev ∈ evs, Event.isRun ev = true) {m m' : Mach B R} (he : m.sys.env = m'.sys.env) :
    (m.events sg evs).sys.env = (m'.events sg (evs.filter Event.isFile)).sys.env ∧
      (m.events sg evs).sys.saved = m.sys.saved := by
  induction evs generalizing m m' with
  | nil => exact ⟨he, rfl⟩
  | cons e evs ih =>
    have hrest := fun e' he' => hr e' (List.mem_cons_of_mem _ he')
    have h1 := hr e (List.mem_cons_self ..)
    cases e with
    | edit x st =>
      have := ih hrest (m := (m.event sg (.edit x st)).2) (m' := (m'.event sg (.edit x st)).2)
        (by simp only [Mach.event, step]; rw [he])
      exact this
    | tick t =>
      have := ih hrest (m := (m.event sg (.tick t)).2) (m' := (m'.event sg (.tick t)).2)
        (by simp only [Mach.event, step]; rw [he])
      exact this
    | fail id => exact ih hrest (m := (m.event sg (.fail id)).2) (m' := m') he
    | prepare id f b =>
      have h2 : (m.event sg (.prepare id f b)).2.sys.env = m.sys.env ∧ (m.event sg (.prepare id f b)).2.sys.saved = m.sys.saved := by
        simp only [Mach.event, step, stepPrepare]
        split
        · exact ⟨rfl, rfl⟩
        · split
          · exact ⟨rfl, rfl⟩
          · split <;> exact ⟨rfl, rfl⟩
      have h3 := ih hrest (m := (m.event sg (.prepare id f b)).2) (m' := m') (h2.1.trans he)
      exact ⟨h3.1, h3.2.trans h2.2⟩
    | complete id r deps ext extDsts =>
      have h2 : (m.event sg (.complete id r deps ext extDsts)).2.sys.env = m.sys.env ∧
          (m.event sg (.complete id r deps ext extDsts)).2.sys.saved = m.sys.saved := by
        simp only [Mach.event, step, stepComplete]
        split
        · exact ⟨rfl, rfl⟩
        · split <;> exact ⟨rfl, rfl⟩
      have h3 := ih hrest (m := (m.event sg (.complete id r deps ext extDsts)).2) (m' := m') (h2.1.trans he)
      exact ⟨h3.1, h3.2.trans h2.2⟩
    | _ => cases h1

theorem file_sys {es : List (Event B R)} (hf : ∀ ev ∈ es, Event.isFile ev = true) (m : Mach B R) :
    (m.events sg es).sys.db = m.sys.db ∧ (m.events sg es).sys.inflight = m.sys.inflight := by
  induction es generalizing m with
  | nil => exact ⟨rfl, rfl⟩
  | cons e es ih =>
    have h1 := hf e (List.mem_cons_self ..)
    have h2 := ih (fun e' he' => hf e' (List.mem_cons_of_mem _ he')) (m.event sg e).2
    cases e with
    | edit x st => exact h2
    | tick t => exact h2
    | _ => cases h1

theorem mem_events_trace (es : List (Event B R)) (m : Mach B R) (ev : Event B R) :
    ev ∈ (m.events sg es).trace.map Prod.snd ↔ ev ∈ es ∨ ev ∈ m.trace.map Prod.snd := by
  obtain ⟨new, h1, h2⟩ := events_trace (sg := sg) es m
  rw [h1, List.map_append, h2, List.mem_append, List.mem_reverse]

theorem events_stack (es : List (Event B R)) (m : Mach B R) : (m.events sg es).stack = m.stack := by
  induction es generalizing m with
  | nil => rfl
  | cons e es ih => exact ih (m.event sg e).2

/-- The state after a process was killed is a state of a life without killed processes, in which the files were written otherwise. -/
theorem killed_life (hw : WellBehaved sg script ρ) {m : Mach B R} (h : Life sg script ρ vers m) (hs : m.sys.saved = m.sys.db)
    {evs dels : List (Event B R)} (hr : ∀ ev ∈ evs, Event.isRun ev = true) (hd : ∀ ev ∈ dels, Event.isDelete ev = true)
    {ds : FunName → Option Digest} (hds : ρ.Respects ds)
    (hl : ∀ x st, Event.edit x st ∈ evs → ρ.Left sg vers (m.killed sg evs dels ds).sys.db (.edit x st)) :
    ∃ k, Life sg script ρ vers k ∧ Same (m.killed sg evs dels ds) k := by
  have hin : m.sys.inflight = [] := by
    have := (life_ok hw h).2
    cases hq : m.sys.inflight with
    | nil => rfl
    | cons q rest =>
      have h1 := this q.1
      rw [hq] at h1
      simp [Dict.get?] at h1
  have hf : ∀ ev ∈ evs.filter Event.isFile, Event.isFile ev = true := fun ev hev => (List.mem_filter.1 hev).2
  have henv := run_env (sg := sg) hr (m := m) (m' := m) rfl
  -- the state after the crash
  have hcr : (m.events sg (evs ++ .crash ds :: dels)).sys =
      { (m.events sg evs).sys with
        db := dels.foldl (fun db d => delDb d db) m.sys.db, inflight := [],
        env := { (m.events sg evs).sys.env with funDigest := ds } } := by
    rw [events_append]
    show (((m.events sg evs).event sg (.crash ds)).2.events sg dels).sys = _
    rw [deletes_sys hd rfl]
    simp only [Mach.event, step, henv.2, hs]
  have hdb : (m.killed sg evs dels ds).sys.db = dels.foldl (fun db d => delDb d db) m.sys.db := by
    show (m.events sg (evs ++ .crash ds :: dels)).sys.db = _
    rw [hcr]
  have hdb' : (m.events sg dels).sys.db = dels.foldl (fun db d => delDb d db) m.sys.db := by rw [deletes_sys hd hin]
  have hleft : ∀ ev ∈ evs.filter Event.isFile, ρ.Left sg vers (m.events sg dels).sys.db ev := by
    intro ev hev
    obtain ⟨h1, h2⟩ := List.mem_filter.1 hev
    cases ev with
    | edit x st => have := hl x st h1; rw [hdb] at this; rw [hdb']; exact this
    | tick t => trivial
    | _ => cases h2
  have hk := Life.process (Life.killed h (evs.filter Event.isFile) dels hd hleft) ds hds
  refine ⟨_, hk, ?_⟩
  obtain ⟨f1, f2⟩ := file_sys (sg := sg) hf m
  have hks : (m.events sg (evs.filter Event.isFile ++ dels)).sys =
      { (m.events sg (evs.filter Event.isFile)).sys with db := dels.foldl (fun db d => delDb d db) m.sys.db } := by
    rw [events_append, deletes_sys hd (f2.trans hin), f1]
  constructor
  · rw [hdb]
    show (step sg (m.events sg (evs.filter Event.isFile ++ dels)).sys (.restart ds)).2.db = _
    rw [hks]
    rfl
  · show (step sg (m.events sg (evs.filter Event.isFile ++ dels)).sys (.restart ds)).2.env =
      (m.events sg (evs ++ .crash ds :: dels)).sys.env
    rw [hks, hcr]
    simp only [step]
    rw [henv.1]
  · intro id
    show ((step sg (m.events sg (evs.filter Event.isFile ++ dels)).sys (.restart ds)).2.inflight.get? id).map _ =
      ((m.events sg (evs ++ .crash ds :: dels)).sys.inflight.get? id).map _
    rw [hcr]
    rfl
  · rfl
  · show (m.events sg (evs.filter Event.isFile ++ dels)).next = (m.events sg (evs ++ .crash ds :: dels)).next
    rw [events_next, events_next]
  · intro x st hx
    have hx' : Event.edit x st ∈ ((m.events sg (evs.filter Event.isFile ++ dels)).event sg (.restart ds)).2.trace.map Prod.snd := hx
    show Event.edit x st ∈ (m.events sg (evs ++ .crash ds :: dels)).trace.map Prod.snd
    simp only [Mach.event, List.map_cons, List.mem_cons, reduceCtorEq, false_or] at hx'
    rw [mem_events_trace] at hx' ⊢
    simp only [List.mem_append, List.mem_filter, List.mem_cons] at hx' ⊢
    rcases hx' with (h1 | h1) | h1
    · exact .inl (.inl h1.1)
    · exact .inl (.inr (.inr h1))
    · exact .inr h1

theorem EditsOk.snd {tr : Trace B R} :
    EditsOk vers tr ↔ ∀ x st, Event.edit x (some st) ∈ tr.map Prod.snd → vers x st.mtime = st.content := by
  constructor
  · intro h x st hx
    obtain ⟨⟨s, ev⟩, h1, h2⟩ := List.mem_map.1 hx
    simp only at h2
    subst h2
    exact h s x st h1
  · intro h s x st hx
    exact h x st (List.mem_map.2 ⟨_, hx, rfl⟩)

end Verif.Calls
