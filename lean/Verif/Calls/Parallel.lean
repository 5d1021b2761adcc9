import Verif.Calls.Incr
/-! Tasks that run at the same time do what they do one after the other: the invariant. -/
namespace Verif.Calls
open Verif.DB CDB
set_option linter.unusedSectionVars false

variable {B R : Type} [DecidableEq B]
variable {sg : Sig B R} {script : Script B R} {ρ : Layout B} {vers : FileName → Nat → Option Content}

/-! ### Programs that look at a part of the files -/

theorem flat_agree {S : FileName → Prop} {callC callC' : FunName → B → Files → Option R × Files}
    {callT callT' : FunName → B → Files → Trail} (p : Prog B R) (hp : Flat S p) {fs fs' : Files}
    (h : ∀ x, S x → fs x = fs' x) :
    (cleanProg callC p fs).1 = (cleanProg callC' p fs').1 ∧
      (∀ x, S x → (cleanProg callC p fs).2 x = (cleanProg callC' p fs').2 x) ∧
      trail callC callT p fs = trail callC' callT' p fs' := by
  induction p generalizing fs fs' with
  | ret r => exact ⟨rfl, h, rfl⟩
  | raise => exact ⟨rfl, h, rfl⟩
  | callD d g c k ih => exact absurd hp (by simp [Flat])
  | report srcs dsts k ih =>
    obtain ⟨h1, h2, h3⟩ := ih hp.2 h
    refine ⟨h1, h2, ?_⟩
    simp only [trail, h3]
  | read x k ih =>
    have := ih (fs' x) (hp.2 _) h
    simp only [cleanProg, trail, h x hp.1]
    exact this
  | write x c k ih =>
    have h' : ∀ y, S y → setFile x c fs y = setFile x c fs' y := by
      intro y hy
      simp only [setFile]
      split
      · rfl
      · exact h y hy
    obtain ⟨h1, h2, h3⟩ := ih hp h'
    refine ⟨h1, h2, ?_⟩
    simp only [trail, h3]

theorem flat_frame {S : FileName → Prop} {callC : FunName → B → Files → Option R × Files} {f : FunName} {b : B} (p : Prog B R)
    (hp : Flat S p) (hb : ρ.Body f b p) {fs : Files} {x : FileName} (hx : ρ.owner x ≠ some (f, b)) :
    (cleanProg callC p fs).2 x = fs x := by
  induction p generalizing fs with
  | ret r => rfl
  | raise => rfl
  | callD d g c k ih => exact absurd hp (by simp [Flat])
  | report srcs dsts k ih => exact ih hp.2 hb.2
  | read y k ih => exact ih _ (hp.2 _) (hb _)
  | write y c k ih =>
    have := ih hp hb.2.2 (fs := setFile y c fs)
    rw [cleanProg, this, setFile, if_neg]
    rintro rfl
    exact hx hb.1

variable {ds : FunName → Option Digest} {f : FunName} {bs : List B} {after : Nat → List Nat}

/-- a call depends on the files it may look at -/
theorem call_agree (hw : WellBehaved sg script ρ) (hds : ρ.Respects ds) (hp : ρ.Parallel sg script ds f bs after) {i : Nat} {b : B}
    (hi : bs[i]? = some b) {fs fs' : Files} (h : ∀ x, ρ.Sees f bs after i x → fs x = fs' x) :
    (cleanCall sg script ds ρ.depth f b fs).1 = (cleanCall sg script ds ρ.depth f b fs').1 ∧
      ∀ x, ρ.Sees f bs after i x →
        (cleanCall sg script ds ρ.depth f b fs).2 x = (cleanCall sg script ds ρ.depth f b fs').2 x := by
  cases hc : ds f with
  | none =>
    rw [cleanCall_unknown hw hc, cleanCall_unknown hw hc]
    exact ⟨rfl, h⟩
  | some code =>
    rw [cleanCall_unfold hw hds hc, cleanCall_unfold hw hds hc]
    have hs : (sg.srcs f code b).all (fun x => (fs x).isSome) = (sg.srcs f code b).all (fun x => (fs' x).isSome) := by
      rw [Bool.eq_iff_iff, List.all_eq_true, List.all_eq_true]
      refine forall_congr' fun x => ?_
      refine forall_congr' fun hx => ?_
      rw [h x (hp.srcs i b code hi hc x hx)]
    rw [hs]
    split
    · obtain ⟨h1, h2, _⟩ := flat_agree (callC := cleanCall sg script ds ρ.depth) (callC' := cleanCall sg script ds ρ.depth)
        (callT := fun _ _ _ => .none) (callT' := fun _ _ _ => .none) (script f code b) (hp.body i b code hi hc) h
      exact ⟨h1, h2⟩
    · exact ⟨rfl, h⟩

theorem call_frame (hw : WellBehaved sg script ρ) (hds : ρ.Respects ds) (hp : ρ.Parallel sg script ds f bs after) {i : Nat} {b : B}
    (hi : bs[i]? = some b) {fs : Files} {x : FileName} (hx : ρ.owner x ≠ some (f, b)) :
    (cleanCall sg script ds ρ.depth f b fs).2 x = fs x := by
  cases hc : ds f with
  | none => rw [cleanCall_unknown hw hc]
  | some code =>
    rw [cleanCall_unfold hw hds hc]
    split
    · exact flat_frame (script f code b) (hp.body i b code hi hc) (hw.body f code b (hds.code hc)) hx
    · rfl

/-! ### One after the other -/

theorem cleanMap_get (c : B → Files → Option R × Files) (bs : List B) (fs : Files) {i : Nat} {b : B} (hi : bs[i]? = some b) :
    (cleanMap c (bs.take (i + 1)) fs).2 = (c b (cleanMap c (bs.take i) fs).2).2 ∧
      (cleanMap c bs fs).1[i]? = some (c b (cleanMap c (bs.take i) fs).2).1 := by
  induction bs generalizing fs i with
  | nil => simp at hi
  | cons a bs ih =>
    cases i with
    | zero =>
      simp only [List.getElem?_cons_zero, Option.some.injEq] at hi
      subst hi
      exact ⟨rfl, rfl⟩
    | succ i =>
      have := ih (c a fs).2 (i := i) (by simpa using hi)
      simpa [cleanMap] using this

theorem cleanMap_frame (c : B → Files → Option R × Files) (bs : List B) (fs : Files) {x : FileName} {i : Nat} (k : Nat)
    (h : ∀ j b, i ≤ j → j < i + k → bs[j]? = some b → ∀ fs, (c b fs).2 x = fs x) :
    (cleanMap c (bs.take (i + k)) fs).2 x = (cleanMap c (bs.take i) fs).2 x := by
  induction k with
  | zero => rfl
  | succ k ih =>
    have ih' := ih fun j b h1 h2 => h j b h1 (by omega)
    rw [← ih']
    cases hb : bs[i + k]? with
    | none =>
      have := List.getElem?_eq_none_iff.1 hb
      rw [List.take_of_length_le (by omega), List.take_of_length_le this]
    | some b =>
      rw [show i + (k + 1) = (i + k) + 1 from rfl, (cleanMap_get c bs fs hb).1]
      exact h (i + k) b (by omega) (by omega) hb _

/-- the files when task `i` begins, if the tasks run one after the other -/
abbrev before (sg : Sig B R) (script : Script B R) (ρ : Layout B) (ds : FunName → Option Digest) (f : FunName) (bs : List B)
    (F0 : Files) (i : Nat) : Files :=
  (cleanMap (cleanCall sg script ds ρ.depth f) (bs.take i) F0).2

/-- no task between `i` and `k` changes the file -/
theorem before_eq (hw : WellBehaved sg script ρ) (hds : ρ.Respects ds) (hp : ρ.Parallel sg script ds f bs after) {F0 : Files}
    {x : FileName} {i k : Nat} (hik : i ≤ k) (hx : ∀ j b, i ≤ j → j < k → bs[j]? = some b → ρ.owner x ≠ some (f, b)) :
    before sg script ρ ds f bs F0 k x = before sg script ρ ds f bs F0 i x := by
  obtain ⟨d, rfl⟩ := Nat.le.dest hik
  exact cleanMap_frame _ bs F0 d fun j b h1 h2 hj fs => call_frame hw hds hp hj (hx j b h1 h2 hj)

theorem nodup_index {i j : Nat} {b : B} (h : bs.Nodup) (hi : bs[i]? = some b) (hj : bs[j]? = some b) : i = j := by
  obtain ⟨hi', _⟩ := List.getElem?_eq_some_iff.1 hi
  exact (List.getElem?_inj hi' h).1 (hi.trans hj.symm)

/-! ### More about the database -/

theorem checkFunction_congr {env env' : Env} {db db' : CDB B R} (he : env'.funDigest = env.funDigest)
    (hf : ∀ g, db'.functions.get? g = db.functions.get? g) (n : Nat) (f : FunName) :
    checkFunction (storage B R) env' db' n f = checkFunction (storage B R) env db n f := by
  induction n generalizing f with
  | zero => rfl
  | succ n ih =>
    have hch : checkFunction (storage B R) env' db' n = checkFunction (storage B R) env db n := funext ih
    have hff : (storage B R).findFunction f db' = (storage B R).findFunction f db := by
      simp only [storage, CDB.findFunction, hf]
    simp only [checkFunction, he, hff, hch]

theorem Good.prepare_more {m : Mach B R} (h : Good sg script ρ vers m) (id : Nat) (f : FunName) (b : B) :
    (m.event sg (.prepare id f b)).2.sys.db.functions = m.sys.db.functions ∧
      (m.event sg (.prepare id f b)).2.sys.db.functionCalls = m.sys.db.functionCalls ∧
      (∀ y, Noted m.sys.env m.sys.db y → Noted m.sys.env (m.event sg (.prepare id f b)).2.sys.db y) ∧
      ∀ q, (m.event sg (.prepare id f b)).2.sys.inflight.get? id = some q → m.sys.inflight.get? id = none →
        DB.checkFunction (storage B R) m.sys.env m.sys.db m.sys.env.recursionLimit f = .ok (q.prep.funDirty, q.prep.funId) ∧
          (q.prep.found.isSome → HasSlot m.sys.db f b) := by
  have hI := reach_inv h.hist.reach
  simp only [Mach.event, step, stepPrepare]
  cases hcode : m.sys.env.funDigest f with
  | none => exact ⟨rfl, rfl, fun _ h => h, fun q h1 h2 => by rw [h2] at h1; cases h1⟩
  | some code =>
    simp only
    obtain ⟨hno, _⟩ := prepare_noting m.sys.env f b (sg.srcs f code b) m.sys.db vers hI.db.files hI.faithful
    rcases prepare_cases m.sys.env f b (sg.srcs f code b) m.sys.db vers hI.db.files hI.faithful with
      ⟨e, db', hp, ht, hf⟩ | ⟨p, db', hp, ht, hf, hcf', hdig, hsrc, hd1, hd2, hd3⟩
    · rw [hp] at hno ⊢
      exact ⟨ht.functions, ht.calls, fun y hy => (hno.noted y hy).1, fun q h1 h2 => by rw [h2] at h1; cases h1⟩
    · rw [hp] at hno ⊢
      simp only
      split
      · exact ⟨ht.functions, ht.calls, fun y hy => (hno.noted y hy).1, fun q h1 h2 => by rw [h2] at h1; cases h1⟩
      · refine ⟨ht.functions, ht.calls, fun y hy => (hno.noted y hy).1, fun q h1 h2 => ?_⟩
        simp only [Dict.get?_set, if_pos, Option.some.injEq] at h1
        subst h1
        refine ⟨hcf', fun hs => ?_⟩
        obtain ⟨⟨⟨g, i⟩, r⟩, hfo⟩ := Option.isSome_iff_exists.1 hs
        obtain ⟨_, _, ⟨datas, h3, h4⟩, _⟩ := hd3 g i r hfo
        exact ⟨datas, i, r, h3, h4⟩

theorem Good.complete_more {m : Mach B R} (h : Good sg script ρ vers m) {id : Nat} {p : Pending B R}
    (hp : m.sys.inflight.get? id = some p)
    (hsince : p.prep.found.isSome → ∀ e ∈ m.sys.log.take (m.sys.log.length - p.start), e.fn = p.fn → e.dirty = false)
    (deps : List FunName) (ext extDsts : List FileName) (r : R) :
    ∃ e, (m.event sg (.complete id r deps ext extDsts)).2.sys.log = e :: m.sys.log ∧ e.fn = p.fn ∧ e.bound = p.bound ∧
      e.dirty = p.prep.funDirty ∧
      (∀ y, Noted m.sys.env m.sys.db y → Noted m.sys.env (m.event sg (.complete id r deps ext extDsts)).2.sys.db y) ∧
      Completed p.fn p.code p.bound p.prep.funDirty p.prep.funId.isSome deps m.sys.db
        (m.event sg (.complete id r deps ext extDsts)).2.sys.db := by
  have hI := reach_inv h.hist.reach
  have hP := hI.pending id p hp
  have hal : p.prep.found.isSome → ¬ DirtySince p m.sys.log := by
    rintro hfound ⟨e, he, h1, h2⟩
    rw [hsince hfound e he h1] at h2
    cases h2
  obtain ⟨ok, out, hout, hok, hinv, hc, hfalse, htrue⟩ := complete_inv hI.db hP hI.faithful hal r deps ext extDsts
  obtain ⟨_, hcn, _⟩ := cache_alive m.sys.env p.fn p.code p.prep.funDirty p.prep.funId deps (p.prep.found.map Prod.fst)
    p.bound r p.prep.callFileDigests ext extDsts m.sys.db vers hI.db.files hI.faithful hI.db.nd (fun hd => (hP.clean hd).1) hout
  simp only [Mach.event, step, stepComplete, hp, hout]
  obtain ⟨o1, db1⟩ := out
  cases o1 with
  | error err => exact ⟨_, rfl, rfl, rfl, rfl, hcn, hc⟩
  | ok u => exact ⟨_, rfl, rfl, rfl, rfl, hcn, hc⟩

/-! ### The invariant -/

/-- a task whose function is running; `q` is what the database knows about the call -/
structure Running (sg : Sig B R) (script : Script B R) (ρ : Layout B) (ds : FunName → Option Digest) (f : FunName) (bs : List B)
    (after : Nat → List Nat) (F0 : Files) (m : Mach B R) (tasks : List (Task B R)) (i : Nat) (b : B) (p : Prog B R) (id : Nat)
    (rep : Reports) (q : Pending B R) : Prop where
  get : m.sys.inflight.get? id = some q
  fn : q.fn = f
  bound : q.bound = b
  code : ds f = some q.code
  body : ρ.Body f b p
  flat : Flat (ρ.Sees f bs after i) p
  deps : ∀ j ∈ after i, ∃ t, tasks[j]? = some t ∧ t.result.isSome
  srcs : ∀ x ∈ sg.srcs f q.code b, (q.fs0.content x).isSome
  start : ∀ x, ρ.Sees f bs after i x → q.fs0.content x = before sg script ρ ds f bs F0 i x
  res : (cleanProg (cleanCall sg script ds ρ.depth) p m.files).1 = (cleanCall sg script ds ρ.depth f b q.fs0.content).1
  own : ∀ x, ρ.owner x = some (f, b) → (cleanProg (cleanCall sg script ds ρ.depth) p m.files).2 x =
    (cleanCall sg script ds ρ.depth f b q.fs0.content).2 x
  seen : ∀ x, ρ.Sees f bs after i x → ρ.owner x ≠ some (f, b) → m.files x = q.fs0.content x
  tsrcs : ∀ x, x ∈ (footprint sg script ds ρ.depth f q.code b q.fs0.content).srcs ↔ x ∈ rep.srcs ∨
    x ∈ (trail (cleanCall sg script ds ρ.depth) (leafTrail sg script ds (cleanCall sg script ds ρ.depth)) p m.files).srcs
  tdsts : ∀ x, x ∈ (footprint sg script ds ρ.depth f q.code b q.fs0.content).dsts ↔ x ∈ rep.dsts ∨
    x ∈ (trail (cleanCall sg script ds ρ.depth) (leafTrail sg script ds (cleanCall sg script ds ρ.depth)) p m.files).dsts
  old : ∀ pre e post, m.sys.log = pre ++ e :: post → (∀ e' ∈ pre, ¬ (e'.fn = e.fn ∧ e'.bound = e.bound)) →
    ∀ ds', ρ.Respects ds' → ds' e.fn = some e.code →
    (∀ y ∈ sg.srcs e.fn e.code e.bound ++ (footprint sg script ds' ρ.depth e.fn e.code e.bound e.fs0.content).srcs,
      Alive m.sys.db e.fn e.bound y) →
    ∀ x ∈ (footprint sg script ds' ρ.depth e.fn e.code e.bound e.fs0.content).writes, ρ.owner x = some (f, b) →
      q.fs0.content x = e.fs1.content x ∨ q.fs0.content x = none
  noted : ρ.leaf f → ∀ y ∈ sg.srcs f q.code b, Noted m.sys.env m.sys.db y

inductive TaskOk (sg : Sig B R) (script : Script B R) (ρ : Layout B) (ds : FunName → Option Digest) (f : FunName) (bs : List B)
    (after : Nat → List Nat) (F0 : Files) (m : Mach B R) (tasks : List (Task B R)) (i : Nat) (b : B) : Task B R → Prop
  | fresh (hown : ∀ x, ρ.owner x = some (f, b) → m.files x = F0 x) :
      TaskOk sg script ρ ds f bs after F0 m tasks i b (Task.new (callTask f b))
  | finished (o : Option R) (ho : o = (cleanCall sg script ds ρ.depth f b (before sg script ρ ds f bs F0 i)).1)
      (hown : ∀ x, ρ.owner x = some (f, b) → m.files x = before sg script ρ ds f bs F0 (i + 1) x) :
      TaskOk sg script ρ ds f bs after F0 m tasks i b ⟨back o, [], true⟩
  | running (p : Prog B R) (id : Nat) (rep : Reports) (q : Pending B R)
      (h : Running sg script ρ ds f bs after F0 m tasks i b p id rep q) :
      TaskOk sg script ρ ds f bs after F0 m tasks i b ⟨p, [⟨id, false, f, b, back, rep⟩], true⟩

/-- either all calls that run found `f` in the same state and it is still in this state, or nothing is stored for the tasks to come -/
def Dirt (f : FunName) (bs : List B) (m : Mach B R) (tasks : List (Task B R)) : Prop :=
  (∀ id q, m.sys.inflight.get? id = some q → q.fn = f →
    (∀ e ∈ m.sys.log.take (m.sys.log.length - q.start), e.fn = f → e.dirty = false) ∧
    checkFunction (storage B R) m.sys.env m.sys.db m.sys.env.recursionLimit f = .ok (q.prep.funDirty, q.prep.funId)) ∨
  ((∀ (j : Nat) c, bs[j]? = some c → tasks[j]? = some (Task.new (callTask f c)) → ¬ HasSlot m.sys.db f c) ∧
    ∀ id q, m.sys.inflight.get? id = some q → q.fn = f → q.prep.found = none)

/-- `f` is noted `n` times -/
def noteN (f : FunName) : Nat → List (List FunName) → List (List FunName)
  | 0, st => st
  | n + 1, st => noteCall f (noteN f n st)

/-- lists on the stack of calls: one for each task that runs, with `f` only -/
def StackOk (f : FunName) (st0 : List (List FunName)) (m : Mach B R) (n : Nat) : Prop :=
  ∃ ex j, m.stack = ex ++ noteN f j st0 ∧ (∀ l ∈ ex, ∀ g ∈ l, g = f) ∧ n ≤ ex.length

def runs (tasks : List (Task B R)) : Nat := tasks.countP fun t => !t.frames.isEmpty

structure PoolOk (sg : Sig B R) (script : Script B R) (ρ : Layout B) (vers : FileName → Nat → Option Content)
    (ds : FunName → Option Digest) (f : FunName) (bs : List B) (after : Nat → List Nat) (m0 : Mach B R) (P : Pool B R) : Prop where
  good : Good sg script ρ vers P.mach
  digests : P.mach.sys.env.funDigest = ds
  len : P.tasks.length = bs.length
  foreign : ∀ x, (∀ b ∈ bs, ρ.owner x ≠ some (f, b)) → P.mach.files x = m0.files x
  tasks : ∀ (i : Nat) b, bs[i]? = some b → ∃ t, P.tasks[i]? = some t ∧ TaskOk sg script ρ ds f bs after m0.files P.mach P.tasks i b t
  /-- the calls that were running before -/
  outer : ∀ id q, m0.sys.inflight.get? id = some q → P.mach.sys.inflight.get? id = some q ∧ ρ.rank f < ρ.rank q.fn
  inflight : ∀ id q, P.mach.sys.inflight.get? id = some q → m0.sys.inflight.get? id = some q ∨
    (q.fn = f ∧ ∃ (i : Nat) (p : Prog B R) (rep : Reports), bs[i]? = some q.bound ∧
      P.tasks[i]? = some ⟨p, [⟨id, false, f, q.bound, back, rep⟩], true⟩)
  md5 : P.mach.sys.env.md5 = m0.sys.env.md5
  log : ∃ new, P.mach.sys.log = new ++ m0.sys.log ∧ (∀ e ∈ new, e.fn = f) ∧
    ∀ g c y, (∀ e ∈ new, ¬ (e.fn = g ∧ e.bound = c)) → Alive P.mach.sys.db g c y → Alive m0.sys.db g c y
  stack : StackOk f m0.stack P.mach (runs P.tasks)
  dirt : Dirt f bs P.mach P.tasks

/-- what a step of the task of `b` leaves alone -/
structure Moved (ρ : Layout B) (f : FunName) (b : B) (m m' : Mach B R) : Prop where
  ds : m'.sys.env.funDigest = m.sys.env.funDigest
  md5 : m'.sys.env.md5 = m.sys.env.md5
  files : ∀ x, ρ.owner x ≠ some (f, b) → m'.files x = m.files x
  inflight : ∀ id q, m.sys.inflight.get? id = some q → ¬ (q.fn = f ∧ q.bound = b) → m'.sys.inflight.get? id = some q
  log : ∃ new, m'.sys.log = new ++ m.sys.log ∧ (∀ e ∈ new, e.fn = f ∧ e.bound = b) ∧
    ∀ g c y, (∀ e ∈ new, ¬ (e.fn = g ∧ e.bound = c)) → Alive m'.sys.db g c y → Alive m.sys.db g c y
  noted : ∀ y, ρ.owner y ≠ some (f, b) → Noted m.sys.env m.sys.db y → Noted m'.sys.env m'.sys.db y

/-- the steps of a task do not matter to the others -/
theorem TaskOk.other {F0 : Files} {m m' : Mach B R} {tasks : List (Task B R)} {i j : Nat} {b c : B} {t t0 t' : Task B R}
    (hw : WellBehaved sg script ρ) (hp : ρ.Parallel sg script ds f bs after)
    (h : TaskOk sg script ρ ds f bs after F0 m tasks j c t) (hm : Moved ρ f b m m') (hi : bs[i]? = some b) (hj : bs[j]? = some c)
    (hij : i ≠ j) (ht : tasks[i]? = some t0) (hr : t0.result = none) :
    TaskOk sg script ρ ds f bs after F0 m' (tasks.set i t') j c t := by
  have hbc : c ≠ b := fun h => hij (nodup_index hp.distinct hi (h ▸ hj))
  have hown : ∀ x, ρ.owner x = some (f, c) → m'.files x = m.files x := by
    intro x hx
    refine hm.files x ?_
    rw [hx]
    simpa using hbc
  cases h with
  | fresh h1 => exact .fresh fun x hx => (hown x hx).trans (h1 x hx)
  | finished o h1 h2 => exact .finished o h1 fun x hx => (hown x hx).trans (h2 x hx)
  | running p id rep q h =>
    refine .running p id rep q ?_
    have hnot : i ∉ after j := by
      intro hc
      obtain ⟨t1, h1, h2⟩ := h.deps i hc
      rw [ht] at h1
      cases h1
      rw [hr] at h2
      cases h2
    have hsee : ∀ x, ρ.Sees f bs after j x → m'.files x = m.files x := by
      intro x hx
      refine hm.files x fun ho => ?_
      rcases hx i b hi ho with h1 | h1
      · exact hij h1
      · exact hnot h1
    obtain ⟨a1, a2, a3⟩ := flat_agree (callC := cleanCall sg script ds ρ.depth) (callC' := cleanCall sg script ds ρ.depth)
      (callT := leafTrail sg script ds (cleanCall sg script ds ρ.depth))
      (callT' := leafTrail sg script ds (cleanCall sg script ds ρ.depth)) p h.flat hsee
    have hself : ∀ x, ρ.owner x = some (f, c) → ρ.Sees f bs after j x := by
      intro x hx k d hk hd
      rw [hx] at hd
      simp only [Option.some.injEq, Prod.mk.injEq, true_and] at hd
      subst hd
      exact .inl (nodup_index hp.distinct hk hj)
    refine ⟨hm.inflight id q h.get (fun hc => hbc (h.bound ▸ hc.2)), h.fn, h.bound, h.code, h.body, h.flat, ?_, h.srcs, h.start,
      a1.trans h.res, fun x hx => (a2 x (hself x hx)).trans (h.own x hx), fun x hx ho => (hsee x hx).trans (h.seen x hx ho),
      fun x => by rw [a3]; exact h.tsrcs x, fun x => by rw [a3]; exact h.tdsts x, ?_, ?_⟩
    · intro k hk
      obtain ⟨t1, h1, h2⟩ := h.deps k hk
      refine ⟨t1, ?_, h2⟩
      rw [List.getElem?_set_ne]
      · exact h1
      · rintro rfl; exact hnot hk
    · intro pre e post hl hpre ds' hds' hde hal x hx hox
      obtain ⟨new, hn1, hn2, hn3⟩ := hm.log
      have : ∃ pre', m.sys.log = pre' ++ e :: post ∧ pre = new ++ pre' := by
        rw [hn1] at hl
        rcases List.append_eq_append_iff.1 hl with ⟨as, ha1, ha2⟩ | ⟨bs', hb1, hb2⟩
        · exact ⟨as, ha2, ha1⟩
        · cases bs' with
          | nil => exact ⟨[], by simpa using hb2.symm, by simpa using hb1.symm⟩
          | cons e0 bs' =>
            simp only [List.cons_append, List.cons.injEq] at hb2
            obtain ⟨rfl, _⟩ := hb2
            obtain ⟨h2, h3⟩ := hn2 e (by rw [hb1]; simp)
            rcases trail_owner (clean_frames hw hds' _) _ (hw.body _ _ e.bound (hds'.code hde)) _ hx with h4 | ⟨g, c', _, h5, h4⟩
            · rw [hox] at h4
              simp only [Option.some.injEq, Prod.mk.injEq] at h4
              exact absurd (h4.2.trans h3) hbc
            · rw [hox] at h4
              simp only [Option.some.injEq, Prod.mk.injEq] at h4
              rw [← h4.1, h2] at h5
              exact absurd h5 (Nat.lt_irrefl _)
      obtain ⟨pre', h1, h2⟩ := this
      refine h.old pre' e post h1 (fun e' he' => hpre e' (by rw [h2]; exact List.mem_append_right _ he')) ds' hds' hde ?_ x hx hox
      exact fun y hy => hn3 _ _ y (fun e' he' => hpre e' (by rw [h2]; exact List.mem_append_left _ he')) (hal y hy)
    · intro hlf y hy
      refine hm.noted y (fun ho => ?_) (h.noted hlf y hy)
      rcases hp.srcs j c q.code hj h.code y hy i b hi ho with h1 | h1
      · exact hij h1
      · exact hnot h1

/-- a step of one task -/
theorem PoolOk.move {m0 : Mach B R} {P : Pool B R} (hw : WellBehaved sg script ρ) (hp : ρ.Parallel sg script ds f bs after)
    (h : PoolOk sg script ρ vers ds f bs after m0 P) {i : Nat} {b : B} {t0 t' : Task B R} {m' : Mach B R} (hi : bs[i]? = some b)
    (ht : P.tasks[i]? = some t0) (hr : t0.result = none) (hm : Moved ρ f b P.mach m') (hg : Good sg script ρ vers m')
    (hnew : TaskOk sg script ρ ds f bs after m0.files m' (P.tasks.set i t') i b t')
    (hin : ∀ id q, m'.sys.inflight.get? id = some q → (P.mach.sys.inflight.get? id = some q ∧ ¬ (q.fn = f ∧ q.bound = b)) ∨
      (q.fn = f ∧ q.bound = b ∧ ∃ p rep, t' = ⟨p, [⟨id, false, f, b, back, rep⟩], true⟩))
    (hst : StackOk f m0.stack m' (runs (P.tasks.set i t'))) (hd : Dirt f bs m' (P.tasks.set i t')) :
    PoolOk sg script ρ vers ds f bs after m0 ⟨m', P.tasks.set i t'⟩ where
  good := hg
  digests := hm.ds.trans h.digests
  len := by simp only [List.length_set]; exact h.len
  foreign x hx := (hm.files x (hx b (List.mem_of_getElem? hi))).trans (h.foreign x hx)
  tasks j c hj := by
    by_cases hij : i = j
    · subst hij
      rw [hi] at hj
      cases hj
      refine ⟨t', ?_, hnew⟩
      obtain ⟨hlt, _⟩ := List.getElem?_eq_some_iff.1 ht
      rw [List.getElem?_set_self hlt]
    · obtain ⟨t, h1, h2⟩ := h.tasks j c hj
      exact ⟨t, by rw [List.getElem?_set_ne hij]; exact h1, h2.other hw hp hm hi hj hij ht hr⟩
  outer id q hq := by
    obtain ⟨h1, h2⟩ := h.outer id q hq
    exact ⟨hm.inflight id q h1 (fun hc => by rw [hc.1] at h2; exact Nat.lt_irrefl _ h2), h2⟩
  md5 := hm.md5.trans h.md5
  log := by
    obtain ⟨n1, a1, a2, a3⟩ := h.log
    obtain ⟨n2, b1, b2, b3⟩ := hm.log
    refine ⟨n2 ++ n1, by rw [b1, a1, List.append_assoc], fun e he => ?_, fun g c y hn ha => ?_⟩
    · rcases List.mem_append.1 he with he | he
      · exact (b2 e he).1
      · exact a2 e he
    · exact a3 g c y (fun e he => hn e (List.mem_append_right _ he)) (b3 g c y (fun e he => hn e (List.mem_append_left _ he)) ha)
  inflight id q hq := by
    rcases hin id q hq with ⟨h1, h2⟩ | ⟨h1, h2, p, rep, h3⟩
    · rcases h.inflight id q h1 with h0 | ⟨h3, j, p, rep, h4, h5⟩
      · exact .inl h0
      refine .inr ⟨h3, j, p, rep, h4, ?_⟩
      rw [List.getElem?_set_ne]
      · exact h5
      · rintro rfl
        rw [hi] at h4
        cases h4
        exact h2 ⟨h3, rfl⟩
    · refine .inr ⟨h1, i, p, rep, h2 ▸ hi, ?_⟩
      obtain ⟨hlt, _⟩ := List.getElem?_eq_some_iff.1 ht
      rw [List.getElem?_set_self hlt, h3, h2]
  stack := hst
  dirt := hd

/-- the number of tasks that run -/
theorem runs_set {tasks : List (Task B R)} {i : Nat} {t0 : Task B R} (ht : tasks[i]? = some t0) (t' : Task B R) :
    runs (tasks.set i t') + (if t0.frames.isEmpty then 0 else 1) = runs tasks + if t'.frames.isEmpty then 0 else 1 := by
  obtain ⟨hlt, he⟩ := List.getElem?_eq_some_iff.1 ht
  have h1 := List.countP_set (p := fun t : Task B R => !t.frames.isEmpty) (a := t') hlt
  rw [he] at h1
  have h2 : t0.frames.isEmpty = false → 0 < runs tasks := by
    intro h
    exact List.countP_pos_iff.2 ⟨t0, List.mem_of_getElem? ht, by rw [h]; rfl⟩
  unfold runs at *
  rw [h1]
  clear h1
  generalize List.countP (fun t : Task B R => !t.frames.isEmpty) tasks = n at h2 ⊢
  cases h3 : t0.frames.isEmpty <;> cases h4 : t'.frames.isEmpty <;> simp only [h3] at h2 ⊢ <;>
    simp at h2 ⊢ <;> omega

theorem StackOk.note {st0 : List (List FunName)} {m m' : Mach B R} {n : Nat} (h : StackOk f st0 m n)
    (hs : m'.stack = noteCall f m.stack) : StackOk f st0 m' n := by
  obtain ⟨ex, j, h1, h2, h3⟩ := h
  cases ex with
  | nil => exact ⟨[], j + 1, by rw [hs, h1]; rfl, by simp, h3⟩
  | cons l ex =>
    refine ⟨(l ++ [f]) :: ex, j, by rw [hs, h1]; rfl, ?_, by simpa using h3⟩
    intro l' hl' g hg
    rcases List.mem_cons.1 hl' with rfl | hl'
    · rcases List.mem_append.1 hg with hg | hg
      · exact h2 l List.mem_cons_self g hg
      · simpa using hg
    · exact h2 l' (List.mem_cons_of_mem _ hl') g hg

theorem StackOk.mono {st0 : List (List FunName)} {m m' : Mach B R} {n k : Nat} (h : StackOk f st0 m n)
    (hs : m'.stack = m.stack) (hk : k ≤ n) : StackOk f st0 m' k := by
  obtain ⟨ex, j, h1, h2, h3⟩ := h
  exact ⟨ex, j, hs.trans h1, h2, Nat.le_trans hk h3⟩

/-- tasks are not started any more than before -/
theorem fresh_set {tasks : List (Task B R)} {i j : Nat} {c : B} {t' : Task B R} (ht : t'.started = true)
    (h : (tasks.set i t')[j]? = some (Task.new (callTask f c))) : i ≠ j ∧ tasks[j]? = some (Task.new (callTask f c)) := by
  by_cases hij : i = j
  · subst hij
    rw [List.getElem?_set] at h
    split at h
    · split at h
      · cases h
        cases ht
      · cases h
    · exact absurd rfl ‹_›
  · rw [List.getElem?_set_ne hij] at h
    exact ⟨hij, h⟩

/-- a step that leaves the tables of functions and calls alone -/
theorem Dirt.same {m m' : Mach B R} {tasks : List (Task B R)} {i : Nat} {t' : Task B R} (h : Dirt f bs m tasks)
    (ht : t'.started = true)
    (hfun : m'.sys.db.functions = m.sys.db.functions) (hcalls : m'.sys.db.functionCalls = m.sys.db.functionCalls)
    (hlog : m'.sys.log = m.sys.log) (he : m'.sys.env.funDigest = m.sys.env.funDigest)
    (hrl : m'.sys.env.recursionLimit = m.sys.env.recursionLimit)
    (hin : ∀ id q, m'.sys.inflight.get? id = some q → m.sys.inflight.get? id = some q) : Dirt f bs m' (tasks.set i t') := by
  rcases h with h | ⟨h1, h2⟩
  · refine .inl fun id q hq hqf => ?_
    obtain ⟨h3, h4⟩ := h id q (hin id q hq) hqf
    rw [hlog, hrl]
    exact ⟨h3, by rw [checkFunction_congr (db := m.sys.db) he fun _ => by rw [hfun]]; exact h4⟩
  · refine .inr ⟨fun j c hj hc => ?_, fun id q hq hqf => h2 id q (hin id q hq) hqf⟩
    rintro ⟨datas, k, r, h3, h4⟩
    rw [hcalls] at h3
    exact h1 j c hj (fresh_set ht hc).2 ⟨datas, k, r, h3, h4⟩

theorem result_running (p : Prog B R) (fr : Frame B R) (fs : List (Frame B R)) (s : Bool) :
    (⟨p, fr :: fs, s⟩ : Task B R).result = none := by
  cases p <;> rfl

theorem result_back (o : Option R) (s : Bool) : (⟨back o, [], s⟩ : Task B R).result = some o := by
  cases o <;> rfl

theorem result_new (f : FunName) (b : B) : (Task.new (callTask f b) : Task B R).result = none := rfl

theorem sees_own (hp : ρ.Parallel sg script ds f bs after) {i : Nat} {b : B} (hi : bs[i]? = some b) {x : FileName}
    (hx : ρ.owner x = some (f, b)) : ρ.Sees f bs after i x := by
  intro k d hk hd
  rw [hx] at hd
  simp only [Option.some.injEq, Prod.mk.injEq, true_and] at hd
  subst hd
  exact .inl (nodup_index hp.distinct hk hi)

/-- a task that may begin sees the files that it would see if the tasks ran one after the other -/
theorem PoolOk.agree {m0 : Mach B R} {P : Pool B R} (hw : WellBehaved sg script ρ) (hp : ρ.Parallel sg script ds f bs after)
    (h : PoolOk sg script ρ vers ds f bs after m0 P) {i : Nat} {b : B} (hi : bs[i]? = some b)
    (ht : P.tasks[i]? = some (Task.new (callTask f b)))
    (hready : ∀ j ∈ after i, ∃ t, P.tasks[j]? = some t ∧ t.result.isSome) (x : FileName) (hx : ρ.Sees f bs after i x) :
    P.mach.files x = before sg script ρ ds f bs m0.files i x := by
  have hds : ρ.Respects ds := h.digests ▸ h.good.ds
  by_cases hex : ∃ (j : Nat) (c : B), bs[j]? = some c ∧ ρ.owner x = some (f, c)
  · obtain ⟨j, c, hj, ho⟩ := hex
    have huniq : ∀ k d, bs[k]? = some d → k ≠ j → ρ.owner x ≠ some (f, d) := by
      intro k d hk hkj hc
      rw [ho] at hc
      simp only [Option.some.injEq, Prod.mk.injEq, true_and] at hc
      subst hc
      exact hkj (nodup_index hp.distinct hk hj)
    obtain ⟨t, h1, h2⟩ := h.tasks j c hj
    rcases hx j c hj ho with rfl | hja
    · rw [ht] at h1
      cases h1
      have h3 : P.mach.files x = m0.files x := by
        generalize hT : Task.new (callTask f b) = T at h2
        cases h2 with
        | fresh h4 => exact h4 x ho
        | finished o _ _ => cases o <;> cases hT
        | running p id rep q _ => cases hT
      rw [h3]
      exact (before_eq (F0 := m0.files) hw hds hp (Nat.zero_le j) fun k d _ hk hkd => huniq k d hkd (by omega)).symm
    · obtain ⟨t2, h3, h4⟩ := hready j hja
      rw [h1] at h3
      cases h3
      have hlt := hp.order i j hja
      have h5 : P.mach.files x = before sg script ρ ds f bs m0.files (j + 1) x := by
        cases h2 with
        | fresh _ => rw [result_new] at h4; cases h4
        | finished o _ h6 => exact h6 x ho
        | running p id rep q _ => rw [result_running] at h4; cases h4
      rw [h5]
      exact (before_eq hw hds hp hlt fun k d hk _ hkd => huniq k d hkd (by omega)).symm
  · have hno : ∀ (k : Nat) d, bs[k]? = some d → ρ.owner x ≠ some (f, d) := fun k d hk ho => hex ⟨k, d, hk, ho⟩
    rw [h.foreign x fun c hc => by
      obtain ⟨k, hk⟩ := List.mem_iff_getElem?.1 hc
      exact hno k c hk]
    exact (before_eq (F0 := m0.files) hw hds hp (Nat.zero_le i) fun k d _ _ hkd => hno k d hkd).symm

/-- a task that changes nothing -/
theorem finished_same {F0 : Files} {m m' : Mach B R} {tasks : List (Task B R)} (hw : WellBehaved sg script ρ)
    (hds : ρ.Respects ds) (hp : ρ.Parallel sg script ds f bs after) {i : Nat} {b : B} (hi : bs[i]? = some b)
    (hag : ∀ x, ρ.Sees f bs after i x → m.files x = before sg script ρ ds f bs F0 i x) (hf : m'.files = m.files) {o : Option R}
    (hc : cleanCall sg script ds ρ.depth f b m.files = (o, m.files)) :
    TaskOk sg script ρ ds f bs after F0 m' tasks i b ⟨back o, [], true⟩ := by
  obtain ⟨h1, h2⟩ := call_agree hw hds hp hi hag
  refine .finished o ?_ fun x hx => ?_
  · rw [← h1, hc]
  · rw [before, (cleanMap_get _ bs F0 hi).1, ← h2 x (sees_own hp hi hx), hc, hf]

/-- a task calls the function -/
theorem PoolOk.start {m0 : Mach B R} {P : Pool B R} (hw : WellBehaved sg script ρ) (hp : ρ.Parallel sg script ds f bs after)
    (h : PoolOk sg script ρ vers ds f bs after m0 P) {i : Nat} {b : B} (hi : bs[i]? = some b)
    (ht : P.tasks[i]? = some (Task.new (callTask f b)))
    (hready : ∀ j ∈ after i, ∃ t, P.tasks[j]? = some t ∧ t.result.isSome) (clk : Nat → Nat) {limit : Nat} (hl : 0 < limit) :
    PoolOk sg script ρ vers ds f bs after m0 ⟨(Task.call sg script clk limit false f b back [] P.mach).2,
      P.tasks.set i (Task.call sg script clk limit false f b back [] P.mach).1⟩ := by
  have hds : ρ.Respects ds := h.digests ▸ h.good.ds
  have hag := h.agree hw hp hi ht hready
  have hid' : ∀ id q, P.mach.sys.inflight.get? id = some q → ρ.rank f ≤ ρ.rank q.fn ∧ ¬ (q.fn = f ∧ q.bound = b) := by
    intro id q hq
    rcases h.inflight id q hq with h0 | ⟨h1, j, p, rep, h2, h3⟩
    · have := (h.outer id q h0).2
      exact ⟨Nat.le_of_lt this, fun hc => by rw [hc.1] at this; exact Nat.lt_irrefl _ this⟩
    refine ⟨by rw [h1]; exact Nat.le_refl _, fun hc => ?_⟩
    rw [hc.2] at h2
    have := nodup_index hp.distinct hi h2
    subst this
    rw [ht] at h3
    cases h3
  have hmv := fun (t' : Task B R) (m' : Mach B R) => h.move hw hp (t' := t') (m' := m') hi ht rfl
  have hruns := fun t' => runs_set ht t'
  have hstack := h.stack
  have hdirt := h.dirt
  have hdig := h.digests
  have hgood := h.good
  obtain ⟨m, tasks⟩ := P
  simp only at *
  unfold Task.call
  simp only
  have h1 := (hgood.stack (noteCall f m.stack) (Nat.le_refl _)).tick (clk m.next)
  generalize hm1 : (({ m with stack := noteCall f m.stack } : Mach B R).event sg (.tick (clk m.next))).2 = m1 at h1
  have f1 : m1.files = m.files := by rw [← hm1]; rfl
  have d1 : m1.sys.env.funDigest = ds := by rw [← hm1]; exact hdig
  have rl1 : m1.sys.env.recursionLimit = m.sys.env.recursionLimit := by rw [← hm1]; rfl
  have md1 : m1.sys.env.md5 = m.sys.env.md5 := by rw [← hm1]; rfl
  have db1 : m1.sys.db = m.sys.db := by rw [← hm1]; rfl
  have l1 : m1.sys.log = m.sys.log := by rw [← hm1]; rfl
  have i1 : m1.sys.inflight = m.sys.inflight := by rw [← hm1]; rfl
  have n1 : m1.next = m.next := by rw [← hm1]; rfl
  have s1 : m1.stack = noteCall f m.stack := by rw [← hm1]; rfl
  have hP := h1.prepare hw f b (by rw [i1]; exact hid') (id := m.next) (by rw [n1]; exact Nat.le_refl _)
  have hM := h1.prepare_more (sg := sg) m.next f b
  have hnone : m.sys.inflight.get? m.next = none := by
    cases hq : m.sys.inflight.get? m.next with
    | none => rfl
    | some q => have := hgood.next _ q hq; omega
  generalize hm2 : Mach.event sg (.prepare m.next f b) _ = X
  have hX : X = ((m1.event sg (.prepare m.next f b)).1,
      { (m1.event sg (.prepare m.next f b)).2 with next := m.next + 1 }) := by
    rw [← hm2, ← hm1]; rfl
  clear hm2
  subst hX
  have s2 : (m1.event sg (.prepare m.next f b)).2.stack = noteCall f m.stack := s1
  have n2 : (m1.event sg (.prepare m.next f b)).2.next = m.next := n1
  have hhit := fun r => h1.hit hw f b (by rw [i1]; exact hid') (id := m.next) (r := r)
  have hal := fun g c y => h1.prepare_alive (sg := sg) m.next f b g c y
  rw [db1] at hal
  have hhit' : ∀ r, (m1.event sg (.prepare m.next f b)).1 = .hit r → _ := hhit
  clear hhit
  generalize m1.event sg (.prepare m.next f b) = Y at *
  obtain ⟨oY, m2⟩ := Y
  simp only at *
  obtain ⟨hfun, hcalls, hnot, hnewq⟩ := hM
  rw [db1] at hfun hcalls
  rw [i1] at hnewq
  -- what is the same in all cases
  have hMoved : m2.sys.log = m1.sys.log → m2.sys.env = m1.sys.env →
      (∀ id q, m.sys.inflight.get? id = some q → m2.sys.inflight.get? id = some q) → ∀ st n,
      Moved ρ f b m { m2 with stack := st, next := n } := by
    intro hlg henv hin st n
    refine ⟨by simp only [henv, d1, hdig], by simp only [henv, md1], fun x _ => ?_, fun id q hq _ => hin id q hq,
      ⟨[], by simp only [hlg, l1, List.nil_append], by simp, fun g c y _ ha => hal g c y ha⟩, fun y _ hy => ?_⟩
    · rw [← f1]
      simp only [Mach.files, henv]
    · obtain ⟨t, c, k1, k2⟩ := hnot y (by
        obtain ⟨t, c, k1, k2⟩ := hy
        exact ⟨t, c, by rw [← k1]; exact congrFun f1 y, by rw [db1, k2, md1]⟩)
      exact ⟨t, c, by simp only [henv]; exact k1, by simp only [henv]; exact k2⟩
  -- the cases without a run
  have hquick : ∀ o, m2.sys.log = m1.sys.log → m2.sys.env = m1.sys.env → m2.sys.inflight = m1.sys.inflight →
      Good sg script ρ vers m2 → cleanCall sg script ds ρ.depth f b m.files = (o, m.files) →
      PoolOk sg script ρ vers ds f bs after m0 ⟨{ m2 with next := m.next + 1 }, tasks.set i ⟨back o, [], true⟩⟩ := by
    intro o hlg henv hin hg hcl
    have hr := hruns (⟨back o, [], true⟩ : Task B R)
    simp only [Task.new, List.isEmpty_nil, if_true, Nat.add_zero] at hr
    refine hmv _ _ (hMoved hlg henv (fun id q hq => by rw [hin, i1]; exact hq) _ _) (hg.stack m2.stack (by rw [n2]; omega))
      (finished_same hw hds hp hi hag ?_ hcl) ?_ ?_ ?_
    · rw [← f1]; simp only [Mach.files, henv]
    · intro id q hq
      simp only [hin, i1] at hq
      exact .inl ⟨hq, (hid' id q hq).2⟩
    · rw [hr]
      exact hstack.note s2
    · refine hdirt.same rfl hfun hcalls (hlg.trans l1) (by simp only [henv, d1, hdig]) (by simp only [henv, rl1]) ?_
      intro id q hq
      simp only [hin, i1] at hq
      exact hq
  rcases hP with ⟨hc, e, hY, hg, hlg, henv, hin⟩ | ⟨code, hc, hlg, henv, hcases⟩
  · -- the function is unknown
    cases hY
    exact hquick none hlg henv hin hg (cleanCall_unknown hw (d1 ▸ hc) b m.files)
  · rw [d1] at hc
    rcases hcases with ⟨e, hY, ⟨x, hx, hxn⟩, hg, hin⟩ | ⟨r, hY, hg, hin⟩ | ⟨hY, hsrc, hg, q, hin, hq1, hq2, hq3, hfs0, hstart, hnoted⟩
    · -- a source is missing
      cases hY
      refine hquick none hlg henv hin hg ?_
      rw [cleanCall_unfold hw hds hc, if_neg]
      intro hall
      rw [List.all_eq_true] at hall
      have := hall x hx
      rw [← f1, hxn] at this
      cases this
    · -- the database has the answer
      cases hY
      obtain ⟨hcl, _⟩ := hhit' r rfl
      rw [d1, f1] at hcl
      exact hquick (some r) hlg henv hin hg hcl
    · -- the function runs
      cases hY
      simp only
      have hcode : (m2.sys.env.funDigest f).getD "" = code := by rw [henv, d1, hc]; rfl
      have hfiles : m2.files = m.files := by rw [← f1, Mach.files, henv]; rfl
      have hq0 : q.fs0.content = m.files := by rw [hfs0, ← f1]; rfl
      have hget : m2.sys.inflight.get? m.next = some q := by rw [hin]; simp only [Dict.get?_set, if_pos]
      rw [hcode, if_pos (by simpa using hl)]
      have hr := hruns (⟨script f code b, [⟨m.next, false, f, b, back, .none⟩], true⟩ : Task B R)
      simp only [Task.new, List.isEmpty_nil, if_true, Nat.add_zero, List.isEmpty_cons, Bool.false_eq_true, if_false] at hr
      have hinf : ∀ id q', m2.sys.inflight.get? id = some q' → (id = m.next ∧ q' = q) ∨ m.sys.inflight.get? id = some q' := by
        intro id q' hq'
        rw [hin, i1] at hq'
        simp only [Dict.get?_set] at hq'
        split at hq'
        · rename_i heq
          exact .inl ⟨heq.symm, (Option.some.inj hq').symm⟩
        · exact .inr hq'
      refine hmv _ _ (hMoved hlg henv (fun id q' hq' => ?_) _ _) (hg.stack ([] :: m2.stack) (Nat.le_refl _)) ?_ ?_ ?_ ?_
      · rw [hin, i1]
        simp only [Dict.get?_set]
        rw [if_neg]
        · exact hq'
        · rintro rfl
          rw [hnone] at hq'
          cases hq'
      · refine .running _ _ _ q ?_
        have hsrcm : ∀ x ∈ sg.srcs f code b, (m.files x).isSome := fun x hx => by rw [← f1]; exact hsrc x hx
        have hun : cleanCall sg script ds ρ.depth f b m.files =
            cleanProg (cleanCall sg script ds ρ.depth) (script f code b) m.files := by
          rw [cleanCall_unfold hw hds hc, if_pos]
          rw [List.all_eq_true]
          exact hsrcm
        refine ⟨hget, hq1, hq2, by rw [hq3]; exact hc, hw.body f code b (hds.code hc), hp.body i b code hi hc, ?_,
          by rw [hq3, hq0]; exact hsrcm, by rw [hq0]; exact hag, ?_, ?_, ?_, ?_, ?_, ?_, ?_⟩
        · intro j hj
          obtain ⟨t, h3, h4⟩ := hready j hj
          refine ⟨t, ?_, h4⟩
          rw [List.getElem?_set_ne]
          · exact h3
          · have := hp.order i j hj; omega
        · show (cleanProg _ _ m2.files).1 = _
          rw [hfiles, hq0, hun]
        · intro x _
          show (cleanProg _ _ m2.files).2 x = _
          rw [hfiles, hq0, hun]
        · intro x _ _
          show m2.files x = _
          rw [hfiles, hq0]
        · intro x
          show _ ↔ _ ∨ x ∈ (trail _ _ _ m2.files).srcs
          rw [hfiles, hq0, hq3]
          simp [Reports.none]
        · intro x
          show _ ↔ _ ∨ x ∈ (trail _ _ _ m2.files).dsts
          rw [hfiles, hq0, hq3]
          simp [Reports.none]
        · intro pre e post hlog hpre ds' hds' hde hal' x hx hox
          simp only at hlog hal'
          obtain ⟨_, ⟨ds2, w, k2, k3, k4, kW, kI, k5, k6, k7⟩, _⟩ := hgood.entries pre e post (by rw [← l1, ← hlg]; exact hlog) hpre
          rw [trail_eq hw hds' k2 hde] at hx hal'
          rw [hq0]
          have hown : ∀ id q', m.sys.inflight.get? id = some q' → ρ.owner x ≠ some (q'.fn, q'.bound) := by
            intro id q' hq' ho
            rw [hox] at ho
            simp only [Option.some.injEq, Prod.mk.injEq] at ho
            exact (hid' id q' hq').2 ⟨ho.1.symm, ho.2.symm⟩
          rcases k7 (fun y hy => hal _ _ y (hal' y hy)) x hx hown with h3 | h3
          · exact .inl h3
          · right
            simp only [Mach.files, FS.content, h3]
            rfl
        · intro _ y hy
          rw [hq3] at hy
          obtain ⟨t, c, k1, k2⟩ := hnoted y hy
          exact ⟨t, c, by simp only [henv]; exact k1, by simp only [henv]; exact k2⟩
      · intro id q' hq'
        rcases hinf id q' hq' with ⟨rfl, rfl⟩ | h3
        · exact .inr ⟨hq1, hq2, _, _, rfl⟩
        · exact .inl ⟨h3, (hid' id q' h3).2⟩
      · rw [hr]
        obtain ⟨ex, j, g1, g2, g3⟩ := hstack.note (m' := m2) s2
        refine ⟨[] :: ex, j, by simp only [g1, List.cons_append], ?_, by simpa using g3⟩
        intro l hl g hg
        rcases List.mem_cons.1 hl with rfl | hl
        · cases hg
        · exact g2 l hl g hg
      · obtain ⟨hck, hfo⟩ := hnewq q hget hnone
        rw [db1] at hck hfo
        have hcong : ∀ k, checkFunction (storage B R) m2.sys.env m2.sys.db k f =
            checkFunction (storage B R) m1.sys.env m.sys.db k f := fun k =>
          checkFunction_congr (by rw [henv]) (fun g => by rw [hfun]) k f
        have hcong' : ∀ k, checkFunction (storage B R) m1.sys.env m.sys.db k f =
            checkFunction (storage B R) m.sys.env m.sys.db k f := fun k =>
          checkFunction_congr (by rw [d1, hdig]) (fun g => rfl) k f
        rcases hdirt with hA | ⟨hB1, hB2⟩
        · refine .inl fun id q' hq' hqf => ?_
          rw [show m2.sys.env.recursionLimit = m1.sys.env.recursionLimit by rw [henv], hcong]
          rcases hinf id q' hq' with ⟨rfl, rfl⟩ | h3
          · refine ⟨?_, hck⟩
            rw [hstart, hlg]
            simp
          · obtain ⟨a1, a2⟩ := hA id q' h3 hqf
            refine ⟨by rw [hlg, l1]; exact a1, ?_⟩
            rw [hcong', rl1]
            exact a2
        · refine .inr ⟨fun j c hj hcj => ?_, fun id q' hq' hqf => ?_⟩
          · rintro ⟨datas, k, r, g3, g4⟩
            rw [hcalls] at g3
            exact hB1 j c hj (fresh_set rfl hcj).2 ⟨datas, k, r, g3, g4⟩
          · rcases hinf id q' hq' with ⟨rfl, rfl⟩ | h3
            · cases hfn : q'.prep.found with
              | none => rfl
              | some z => exact absurd (hfo (by rw [hfn]; rfl)) (hB1 i b hi ht)
            · exact hB2 id q' h3 hqf

/-- the frames of a task that runs -/
theorem Running.other {m0 : Mach B R} {P : Pool B R} (hp : ρ.Parallel sg script ds f bs after)
    (h : PoolOk sg script ρ vers ds f bs after m0 P) {i : Nat} {b : B} (hi : bs[i]? = some b) {p : Prog B R} {id : Nat}
    {rep : Reports} (ht : P.tasks[i]? = some ⟨p, [⟨id, false, f, b, back, rep⟩], true⟩) {id' : Nat} {q' : Pending B R}
    (hq' : P.mach.sys.inflight.get? id' = some q') (hne : id' ≠ id) : ¬ (q'.fn = f ∧ q'.bound = b) := by
  intro hc
  rcases h.inflight id' q' hq' with h0 | ⟨h1, j, p', rep', h2, h3⟩
  · have := (h.outer id' q' h0).2
    rw [hc.1] at this
    exact Nat.lt_irrefl _ this
  rw [hc.2] at h2
  have := nodup_index hp.distinct hi h2
  subst this
  rw [ht] at h3
  simp only [Option.some.injEq, Task.mk.injEq, List.cons.injEq, Frame.mk.injEq] at h3
  exact hne h3.2.1.1.1.symm

theorem PoolOk.get {m0 : Mach B R} {P : Pool B R} (h : PoolOk sg script ρ vers ds f bs after m0 P) {i : Nat} {b : B}
    (hi : bs[i]? = some b) {t : Task B R} (ht : P.tasks[i]? = some t) :
    TaskOk sg script ρ ds f bs after m0.files P.mach P.tasks i b t := by
  obtain ⟨t', h1, h2⟩ := h.tasks i b hi
  rw [ht] at h1
  cases h1
  exact h2

/-- a task goes on inside the function -/
theorem PoolOk.inner {m0 : Mach B R} {P : Pool B R} (hw : WellBehaved sg script ρ) (hp : ρ.Parallel sg script ds f bs after)
    (h : PoolOk sg script ρ vers ds f bs after m0 P) {i : Nat} {b : B} (hi : bs[i]? = some b) {p p' : Prog B R} {id : Nat}
    {rep rep' : Reports} {q : Pending B R} (ht : P.tasks[i]? = some ⟨p, [⟨id, false, f, b, back, rep⟩], true⟩)
    (hr : Running sg script ρ ds f bs after m0.files P.mach P.tasks i b p id rep q) {m' : Mach B R} (hg : Good sg script ρ vers m')
    (hdb : m'.sys.db = P.mach.sys.db) (hlog : m'.sys.log = P.mach.sys.log) (hin : m'.sys.inflight = P.mach.sys.inflight)
    (hds : m'.sys.env.funDigest = P.mach.sys.env.funDigest) (hmd : m'.sys.env.md5 = P.mach.sys.env.md5)
    (hrl : m'.sys.env.recursionLimit = P.mach.sys.env.recursionLimit) (hst : m'.stack = P.mach.stack)
    (hfs : ∀ x, ρ.owner x ≠ some (f, b) → m'.files x = P.mach.files x) (hbody : ρ.Body f b p')
    (hflat : Flat (ρ.Sees f bs after i) p')
    (hcl : cleanProg (cleanCall sg script ds ρ.depth) p' m'.files = cleanProg (cleanCall sg script ds ρ.depth) p P.mach.files)
    (htr : ∀ x,
      (x ∈ rep'.srcs ∨ x ∈ (trail (cleanCall sg script ds ρ.depth)
        (leafTrail sg script ds (cleanCall sg script ds ρ.depth)) p' m'.files).srcs ↔
      x ∈ rep.srcs ∨ x ∈ (trail (cleanCall sg script ds ρ.depth)
        (leafTrail sg script ds (cleanCall sg script ds ρ.depth)) p P.mach.files).srcs) ∧
      (x ∈ rep'.dsts ∨ x ∈ (trail (cleanCall sg script ds ρ.depth)
        (leafTrail sg script ds (cleanCall sg script ds ρ.depth)) p' m'.files).dsts ↔
      x ∈ rep.dsts ∨ x ∈ (trail (cleanCall sg script ds ρ.depth)
        (leafTrail sg script ds (cleanCall sg script ds ρ.depth)) p P.mach.files).dsts)) :
    PoolOk sg script ρ vers ds f bs after m0 ⟨m', P.tasks.set i ⟨p', [⟨id, false, f, b, back, rep'⟩], true⟩⟩ := by
  have hruns := runs_set ht (⟨p', [⟨id, false, f, b, back, rep'⟩], true⟩ : Task B R)
  simp only [List.isEmpty_cons, Bool.false_eq_true, if_false] at hruns
  have hnot : ∀ y, ρ.owner y ≠ some (f, b) → Noted P.mach.sys.env P.mach.sys.db y → Noted m'.sys.env m'.sys.db y := by
    rintro y hy ⟨t, c, k1, k2⟩
    exact ⟨t, c, by rw [← k1]; exact hfs y hy, by rw [hdb, hmd]; exact k2⟩
  refine h.move hw hp hi ht (result_running _ _ _ _) ⟨hds, hmd, hfs, fun id q hq _ => by rw [hin]; exact hq, ⟨[], by simpa using hlog, by simp,
    fun g c y _ ha => by rw [hdb] at ha; exact ha⟩, hnot⟩ hg ?_ ?_ (h.stack.mono hst (by omega))
    (h.dirt.same rfl (by rw [hdb]) (by rw [hdb]) hlog hds hrl fun id q hq => by rw [hin] at hq; exact hq)
  · refine .running _ _ _ q ?_
    refine ⟨by rw [hin]; exact hr.get, hr.fn, hr.bound, hr.code, hbody, hflat, ?_, hr.srcs, hr.start, by rw [hcl]; exact hr.res,
      by rw [hcl]; exact hr.own, fun x hx ho => (hfs x ho).trans (hr.seen x hx ho), fun x => (hr.tsrcs x).trans (htr x).1.symm,
      fun x => (hr.tdsts x).trans (htr x).2.symm, by rw [hlog, hdb]; exact hr.old,
      fun hlf y hy => hnot y (hp.self hlf b q.code (List.mem_of_getElem? hi) hr.code y hy) (hr.noted hlf y hy)⟩
    intro j hj
    obtain ⟨t, h3, h4⟩ := hr.deps j hj
    refine ⟨t, ?_, h4⟩
    rw [List.getElem?_set_ne]
    · exact h3
    · have := hp.order i j hj; omega
  · intro id' q' hq'
    rw [hin] at hq'
    by_cases hne : id' = id
    · subst hne
      have := hr.get
      rw [hq'] at this
      cases this
      exact .inr ⟨hr.fn, hr.bound, _, _, rfl⟩
    · exact .inl ⟨hq', Running.other hp h hi ht hq' hne⟩

/-- the function of a task raises -/
theorem PoolOk.raise {m0 : Mach B R} {P : Pool B R} (hw : WellBehaved sg script ρ) (hp : ρ.Parallel sg script ds f bs after)
    (h : PoolOk sg script ρ vers ds f bs after m0 P) {i : Nat} {b : B} (hi : bs[i]? = some b) {id : Nat}
    {rep : Reports} {q : Pending B R} (ht : P.tasks[i]? = some ⟨.raise, [⟨id, false, f, b, back, rep⟩], true⟩)
    (hr : Running sg script ρ ds f bs after m0.files P.mach P.tasks i b .raise id rep q) :
    PoolOk sg script ρ vers ds f bs after m0
      ⟨(P.mach.event sg (.fail id)).2, P.tasks.set i ⟨back none, [], true⟩⟩ := by
  have hds : ρ.Respects ds := h.digests ▸ h.good.ds
  have hruns := runs_set ht (⟨back none, [], true⟩ : Task B R)
  simp only [List.isEmpty_cons, List.isEmpty_nil, Bool.false_eq_true, if_false, if_true] at hruns
  have hnone : (cleanCall sg script ds ρ.depth f b q.fs0.content).1 = none := hr.res.symm
  have hsame : ∀ x, ρ.owner x = some (f, b) → P.mach.files x = q.fs0.content x := by
    intro x hx
    have h1 := hr.own x hx
    have h2 : (cleanCall sg script ds ρ.depth f b q.fs0.content).2 x = q.fs0.content x :=
      hw.atomic ds f b q.fs0.content _ hds (Prod.ext hnone rfl) x hx
    exact h1.trans h2
  obtain ⟨a1, a2⟩ := call_agree hw hds hp hi hr.start
  refine h.move hw hp hi ht (result_running _ _ _ _) ⟨rfl, rfl, fun _ _ => rfl, ?_, ⟨[], rfl, by simp, fun g c y _ ha => ha⟩, fun _ _ h => h⟩
    (h.good.fail hr.get ?_) ?_ ?_ (h.stack.mono rfl (by omega)) (h.dirt.same rfl rfl rfl rfl rfl rfl ?_)
  · intro id' q' hq' hne
    simp only [Mach.event, step, Dict.get?_erase]
    rw [if_neg]
    · exact hq'
    · rintro rfl
      rw [hr.get] at hq'
      cases hq'
      exact hne ⟨hr.fn, hr.bound⟩
  · intro pre e post hlog hpre ds' hds' hde hal x hx hown
    rw [hr.fn, hr.bound] at hown
    have h4 := hr.old pre e post hlog hpre ds' hds' hde hal x hx hown
    rw [← hsame x hown] at h4
    rcases h4 with h4 | h4
    · exact .inl h4
    · rcases h.good.plain x _ hown with h5 | h5
      · exact .inr h5
      · have h6 : P.mach.sys.env.fs.content x = none := h4
        rw [h6] at h5
        cases h5
  · refine .finished none ?_ fun x hx => ?_
    · rw [← a1, hnone]
    · rw [before, (cleanMap_get _ bs m0.files hi).1, ← a2 x (sees_own hp hi hx)]
      exact hr.own x hx
  · intro id' q' hq'
    simp only [Mach.event, step, Dict.get?_erase] at hq'
    split at hq'
    · cases hq'
    · rename_i hne
      exact .inl ⟨hq', Running.other hp h hi ht hq' (fun h => hne h.symm)⟩
  · intro id' q' hq'
    simp only [Mach.event, step, Dict.get?_erase] at hq'
    split at hq'
    · cases hq'
    · exact hq'

/-- the function of a task returns -/
theorem PoolOk.done {m0 : Mach B R} {P : Pool B R} (hw : WellBehaved sg script ρ) (hp : ρ.Parallel sg script ds f bs after)
    (h : PoolOk sg script ρ vers ds f bs after m0 P) {i : Nat} {b : B} (hi : bs[i]? = some b) {id : Nat} {r : R}
    {rep : Reports} {q : Pending B R} (ht : P.tasks[i]? = some ⟨.ret r, [⟨id, false, f, b, back, rep⟩], true⟩)
    (hr : Running sg script ρ ds f bs after m0.files P.mach P.tasks i b (.ret r) id rep q) :
    PoolOk sg script ρ vers ds f bs after m0 ⟨(Task.done sg r ⟨id, false, f, b, back, rep⟩ [] P.mach).2,
      P.tasks.set i (Task.done sg r ⟨id, false, f, b, back, rep⟩ [] P.mach).1⟩ ∧
    (Task.done sg r ⟨id, false, f, b, back, rep⟩ [] P.mach).1 = ⟨back (some r), [], true⟩ ∧
    (ρ.leaf f → FilesOk ρ (leafTrail sg script ds (cleanCall sg script ds ρ.depth) f b q.fs0.content)
      (callFiles sg f b r (Task.done sg r ⟨id, false, f, b, back, rep⟩ [] P.mach).2)
      (Task.done sg r ⟨id, false, f, b, back, rep⟩ [] P.mach).2.files ∧
      ∀ x ∈ rep.srcs, x ∈ (leafTrail sg script ds (cleanCall sg script ds ρ.depth) f b q.fs0.content).srcs) := by
  have hds : ρ.Respects ds := h.digests ▸ h.good.ds
  have hsome : (cleanCall sg script ds ρ.depth f b q.fs0.content).1 = some r := hr.res.symm
  obtain ⟨a1, a2⟩ := call_agree hw hds hp hi hr.start
  have hruns := runs_set ht (⟨back (some r), [], true⟩ : Task B R)
  simp only [List.isEmpty_cons, List.isEmpty_nil, Bool.false_eq_true, if_false, if_true] at hruns
  obtain ⟨ex, js, hs1, hs2, hs3⟩ := h.stack
  have hlist : ∃ l ex', ex = l :: ex' := by
    cases ex with
    | nil => simp at hs3; omega
    | cons l ex' => exact ⟨l, ex', rfl⟩
  obtain ⟨deps, ex', rfl⟩ := hlist
  -- the run in the files it began with
  have hcl : cleanCall sg script ds ρ.depth f b q.fs0.content =
      (some r, (cleanCall sg script ds ρ.depth f b q.fs0.content).2) := Prod.ext hsome rfl
  have hownf : ∀ x, ρ.owner x = some (f, b) →
      P.mach.files x = (cleanCall sg script ds ρ.depth f b q.fs0.content).2 x := hr.own
  have hfoot : ∀ x ∈ (footprint sg script ds ρ.depth f q.code b q.fs0.content).writes, ρ.owner x = some (f, b) := by
    intro x hx
    have hflat := hp.body i b q.code hi hr.code
    have key : ∀ (p : Prog B R) fs, Flat (ρ.Sees f bs after i) p → ρ.Body f b p →
        x ∈ (trail (cleanCall sg script ds ρ.depth) (leafTrail sg script ds (cleanCall sg script ds ρ.depth)) p fs).writes →
        ρ.owner x = some (f, b) := by
      intro p
      induction p with
      | ret r => intro fs _ _ h; simp [trail, Trail.none] at h
      | raise => intro fs _ _ h; simp [trail, Trail.none] at h
      | callD d g c k ih => intro fs h; exact absurd h (by simp [Flat])
      | report srcs dsts k ih => intro fs h1 h2 h3; exact ih fs h1.2 h2.2 (by simpa [trail, Trail.add] using h3)
      | read y k ih => intro fs h1 h2 h3; exact ih _ fs (h1.2 _) (h2 _) h3
      | write y c k ih =>
        intro fs h1 h2 h3
        simp only [trail, Trail.add, List.mem_append, List.mem_singleton] at h3
        rcases h3 with rfl | h3
        · exact h2.1
        · exact ih _ h1 h2.2.2 h3
    exact key _ _ hflat (hw.body f q.code b (hds.code hr.code)) hx
  have hsees : ∀ x ∈ sg.srcs f q.code b ++ (footprint sg script ds ρ.depth f q.code b q.fs0.content).srcs,
      ρ.Sees f bs after i x := by
    intro x hx
    rcases List.mem_append.1 hx with hx | hx
    · exact hp.srcs i b q.code hi hr.code x hx
    · have key : ∀ (p : Prog B R) fs, Flat (ρ.Sees f bs after i) p →
          x ∈ (trail (cleanCall sg script ds ρ.depth) (leafTrail sg script ds (cleanCall sg script ds ρ.depth)) p fs).srcs →
          ρ.Sees f bs after i x := by
        intro p
        induction p with
        | ret r => intro fs _ h; simp [trail, Trail.none] at h
        | raise => intro fs _ h; simp [trail, Trail.none] at h
        | callD d g c k ih => intro fs h; exact absurd h (by simp [Flat])
        | report srcs dsts k ih =>
          intro fs h1 h3
          simp only [trail, Trail.add, List.mem_append] at h3
          rcases h3 with h3 | h3
          · exact h1.1 x h3
          · exact ih fs h1.2 h3
        | read y k ih => intro fs h1 h3; exact ih _ fs (h1.2 _) h3
        | write y c k ih => intro fs h1 h3; exact ih _ h1 (by simpa [trail, Trail.add] using h3)
      exact key _ _ (hp.body i b q.code hi hr.code) hx
  have hin := hw.inputs ds f b q.code q.fs0.content r _ hds hr.code hcl
  have hsrcsame : ∀ x ∈ sg.srcs f q.code b ++ (footprint sg script ds ρ.depth f q.code b q.fs0.content).srcs,
      P.mach.files x = q.fs0.content x := by
    intro x hx
    by_cases ho : ρ.owner x = some (f, b)
    · rw [hownf x ho]
      have hun : cleanCall sg script ds ρ.depth f b q.fs0.content =
          cleanProg (cleanCall sg script ds ρ.depth) (script f q.code b) q.fs0.content := by
        rw [cleanCall_unfold hw hds hr.code, if_pos]
        rw [List.all_eq_true]
        exact hr.srcs
      rw [hun]
      exact cleanProg_frame (clean_frames hw hds _) _ (hw.body f q.code b (hds.code hr.code)) _ (hin x hx)
    · exact hr.seen x (hsees x hx) ho
  have hrep : ∀ x, x ∈ (footprint sg script ds ρ.depth f q.code b q.fs0.content).srcs ↔ x ∈ rep.srcs := by
    intro x
    rw [hr.tsrcs x]
    simp [trail, Trail.none]
  have hrepd : ∀ x, x ∈ (footprint sg script ds ρ.depth f q.code b q.fs0.content).dsts ↔ x ∈ rep.dsts := by
    intro x
    rw [hr.tdsts x]
    simp [trail, Trail.none]
  have hsince : q.prep.found.isSome → ∀ e ∈ P.mach.sys.log.take (P.mach.sys.log.length - q.start), e.fn = q.fn →
      e.dirty = false := by
    intro hfo e he hfn
    rcases h.dirt with hA | ⟨_, hB⟩
    · exact (hA id q hr.get hr.fn).1 e he (hfn.trans hr.fn)
    · rw [hB id q hr.get hr.fn] at hfo
      cases hfo
  have hdeps : ∀ g ∈ deps, g = q.fn := fun g hg => (hs2 deps List.mem_cons_self g hg).trans hr.fn.symm
  have hg0 := h.good.stack (ex' ++ noteN f js m0.stack) (Nat.le_refl P.mach.next)
  have hcode : q.code = q.code := rfl
  have hC := hg0.complete' hw (id := id) (p := q) hr.get hsince (deps := deps) (fun g hg => .inl (hdeps g hg)) (ext := rep.srcs)
    (extDsts := rep.dsts)
    (by
      intro x hx
      have hx' := (hrep x).2 hx
      rw [hr.fn, hr.bound]
      refine ⟨?_, ?_⟩
      · rcases trail_keep (clean_frames hw hds _) _ (hw.body f q.code b (hds.code hr.code)) _ hx' with hk | hk
        · exact .inl hk
        · exact .inr (hw.declared _ _ _ _ (hds.code hr.code) hk)
      · show (P.mach.files x).isSome
        rw [hsrcsame x (List.mem_append_right _ hx')]
        exact hw.exist ds f b q.code q.fs0.content (some r) _ hds hr.code hr.srcs hcl (.inl rfl) x hx')
    (r := r) (w := (cleanCall sg script ds ρ.depth f b q.fs0.content).2)
    (by rw [hr.fn, hr.bound]; simp only [h.digests]; exact hcl)
    (by
      rw [hr.fn, hr.bound]
      simp only [h.digests]
      exact fun x hx => (hownf x (hfoot x hx)).symm)
    (by
      rw [hr.fn, hr.bound]
      simp only [h.digests]
      exact hsrcsame)
    (by
      rw [hr.fn, hr.bound]
      simp only [h.digests]
      exact fun x hx => (hrep x).1 hx)
    (by
      rw [hr.fn, hr.bound]
      simp only [h.digests]
      exact fun x hx => (hrepd x).1 hx)
    (by
      rw [hr.fn, hr.bound]
      intro hleaf y hy
      obtain ⟨t, c, k1, k2⟩ := hr.noted hleaf y hy
      exact ⟨t, c, by rw [← hsrcsame y (List.mem_append_left _ hy)]; exact k1, k2⟩)
  have hM := hg0.complete_more (sg := sg) (id := id) (p := q) hr.get hsince deps rep.srcs rep.dsts r
  have hstk : (({ P.mach with stack := ex' ++ noteN f js m0.stack } : Mach B R).event sg (.complete id r deps rep.srcs rep.dsts)).2.stack = ex' ++ noteN f js m0.stack := rfl
  unfold Task.done
  rw [hs1]
  simp only [List.cons_append]
  simp only at hC hM
  generalize Mach.event sg (.complete id r deps rep.srcs rep.dsts) _ = Y at hC hM hstk ⊢
  obtain ⟨oY, m2⟩ := Y
  simp only at hC hM hstk
  obtain ⟨rfl, hg, henv, hinf, _, hal, ci, c9, c10, c11⟩ := hC
  obtain ⟨e, hlog, he1, he2, he3, hcn, hc⟩ := hM
  simp only [reportTo, List.map_nil]
  have hinf' : ∀ id' q', m2.sys.inflight.get? id' = some q' → id' ≠ id ∧ P.mach.sys.inflight.get? id' = some q' := by
    intro id' q' hq'
    rw [hinf, Dict.get?_erase] at hq'
    split at hq'
    · cases hq'
    · rename_i hne
      exact ⟨fun h => hne h.symm, hq'⟩
  have hfiles : ρ.leaf f → FilesOk ρ (leafTrail sg script ds (cleanCall sg script ds ρ.depth) f b q.fs0.content)
      (callFiles sg f b r m2) m2.files ∧
      ∀ x ∈ rep.srcs, x ∈ (leafTrail sg script ds (cleanCall sg script ds ρ.depth) f b q.fs0.content).srcs := by
    intro hleaf
    rw [leafTrail_foot hw hds hleaf hr.code hsome]
    rw [hr.fn, hr.bound] at c9
    rw [hr.fn] at c10 c11
    have hcf : callFiles sg f b r m2 = ⟨sg.srcs f q.code b ++ rep.srcs,
        sg.returnDsts f q.code r ++ sg.dsts f q.code b ++ rep.dsts⟩ := by
      unfold callFiles
      rw [henv]
      simp only [h.digests, hr.code]
      rw [c9]
      simp only
      rw [c10, c11]
    rw [hcf]
    simp only [Trail.add]
    refine ⟨⟨?_, ?_, ?_⟩, fun x hx => List.mem_append_right _ ((hrep x).2 hx)⟩
    · intro x hx
      rcases List.mem_append.1 hx with hx | hx
      · exact List.mem_append_left _ hx
      · exact List.mem_append_right _ ((hrep x).1 hx)
    · intro x hx
      rcases List.mem_append.1 hx with hx | hx
      · exact List.mem_append_left _ hx
      · exact List.mem_append_right _ ((hrepd x).1 hx)
    · intro x hx
      left
      rcases List.mem_append.1 hx with hx | hx
      · exact List.mem_append_left _ hx
      · exact List.mem_append_right _ ((hrep x).2 hx)
  refine ⟨?_, trivial, hfiles⟩
  refine h.move hw hp hi ht (result_running _ _ _ _) ⟨by rw [henv], by rw [henv], fun x _ => by simp only [Mach.files, henv], ?_,
    ⟨[e], by simpa using hlog, by simp [he1, he2, hr.fn, hr.bound], ?_⟩, fun y _ hy => by rw [henv]; exact hcn y hy⟩ hg ?_ ?_ ?_ ?_
  · intro id' q' hq' hne
    rw [hinf, Dict.get?_erase, if_neg]
    · exact hq'
    · rintro rfl
      rw [hr.get] at hq'
      cases hq'
      exact hne ⟨hr.fn, hr.bound⟩
  · intro g c y hn ha
    exact hal g c y (fun hx => hn e (List.mem_singleton.2 rfl) ⟨he1.trans hx.1.symm, he2.trans hx.2.symm⟩) ha
  · refine .finished (some r) ?_ fun x hx => ?_
    · rw [← a1, hsome]
    · rw [before, (cleanMap_get _ bs m0.files hi).1, ← a2 x (sees_own hp hi hx)]
      show m2.sys.env.fs.content x = _
      rw [henv]
      exact hownf x hx
  · intro id' q' hq'
    obtain ⟨h1, h2⟩ := hinf' id' q' hq'
    exact .inl ⟨h2, Running.other hp h hi ht h2 h1⟩
  · refine ⟨ex', js, hstk, fun l hl => hs2 l (List.mem_cons_of_mem _ hl), ?_⟩
    simp only [List.length_cons] at hs3
    omega
  · have hI := reach_inv h.good.hist.reach
    rw [hr.fn, hr.bound] at hc
    have hfresh : ∀ (j : Nat) c t', t'.started = true → bs[j]? = some c →
        (P.tasks.set i t')[j]? = some (Task.new (callTask f c)) → c ≠ b ∧ P.tasks[j]? = some (Task.new (callTask f c)) := by
      intro j c t' hst hj hjt
      obtain ⟨k1, k2⟩ := fresh_set hst hjt
      exact ⟨fun h => k1 (nodup_index hp.distinct hi (h ▸ hj)), k2⟩
    rcases h.dirt with hA | ⟨hB1, hB2⟩
    · cases hd : q.prep.funDirty with
      | false =>
        refine .inl fun id' q' hq' hqf => ?_
        obtain ⟨h1, h2⟩ := hinf' id' q' hq'
        obtain ⟨k1, k2⟩ := hA id' q' h2 hqf
        refine ⟨?_, ?_⟩
        · rw [hlog]
          have hst := (hI.pending id' q' h2).start
          rw [List.length_cons, Nat.succ_sub hst, List.take_succ_cons]
          intro e' he' hfn
          rcases List.mem_cons.1 he' with rfl | he'
          · rw [he3, hd]
          · exact k1 e' he' hfn
        · rw [henv]
          show checkFunction (storage B R) P.mach.sys.env m2.sys.db P.mach.sys.env.recursionLimit f = _
          rw [checkFunction_congr (db := P.mach.sys.db) rfl]
          · exact k2
          · intro g
            by_cases hgf : g = f
            · subst hgf; exact hc.fun_clean hd
            · exact hc.fun_ne g hgf
      | true =>
        obtain ⟨_, hck⟩ := hA id q hr.get hr.fn
        refine .inr ⟨fun j c hj hjt hslot => ?_, fun id' q' hq' hqf => ?_⟩
        · obtain ⟨k1, k2⟩ := hfresh j c _ rfl hj hjt
          obtain ⟨digest, _, hcase⟩ := checkFunction_cache hck
          rcases hcase with ⟨_, hn, hno⟩ | ⟨_, hs, _⟩ | ⟨hf, _⟩
          · rcases hc.slots f c hslot with ⟨datas, k, r', k3, _⟩ | k3
            · rw [hI.db.noFun f hno] at k3; cases k3
            · exact k1 k3.2
          · exact k1 (hc.drop hd (by rw [hs]; rfl) c hslot)
          · rw [hd] at hf; cases hf
        · obtain ⟨h1, h2⟩ := hinf' id' q' hq'
          obtain ⟨_, k2⟩ := hA id' q' h2 hqf
          rw [hck] at k2
          simp only [Except.ok.injEq, Prod.mk.injEq] at k2
          exact (hI.pending id' q' h2).dirty (by rw [← k2.1, hd])
    · refine .inr ⟨fun j c hj hjt hslot => ?_, fun id' q' hq' hqf => hB2 id' q' (hinf' id' q' hq').2 hqf⟩
      obtain ⟨k1, k2⟩ := hfresh j c _ rfl hj hjt
      rcases hc.slots f c hslot with k3 | k3
      · exact hB1 j c hj k2 k3
      · exact k1 k3.2

/-! ### All steps -/

theorem PoolOk.step {m0 : Mach B R} {P : Pool B R} (hw : WellBehaved sg script ρ) (hp : ρ.Parallel sg script ds f bs after)
    (h : PoolOk sg script ρ vers ds f bs after m0 P) {clk : Nat → Nat} {limit : Nat} (hl : 0 < limit) (i : Nat)
    (he : EditsOk vers (P.step sg script clk limit after i).mach.trace) :
    PoolOk sg script ρ vers ds f bs after m0 (P.step sg script clk limit after i) := by
  unfold Pool.step at he ⊢
  cases ht : P.tasks[i]? with
  | none => exact h
  | some t =>
    rw [ht] at he
    simp only at he ⊢
    split
    case isFalse => exact h
    rename_i hgo
    rw [if_pos hgo] at he
    have hilt : i < bs.length := by
      rw [← h.len]
      exact (List.getElem?_eq_some_iff.1 ht).1
    obtain ⟨b, hi⟩ : ∃ b, bs[i]? = some b := ⟨bs[i], List.getElem?_eq_getElem hilt⟩
    have hset : P.tasks.set i t = P.tasks := by
      obtain ⟨hlt, heq⟩ := List.getElem?_eq_some_iff.1 ht
      rw [← heq]
      exact List.set_getElem_self hlt
    have hT := h.get hi ht
    cases hT with
    | fresh hown =>
      have hready : ∀ j ∈ after i, ∃ t, P.tasks[j]? = some t ∧ t.result.isSome := by
        rcases hgo with hgo | hgo
        · cases hgo
        · intro j hj
          have := List.all_eq_true.1 hgo j hj
          cases hj' : P.tasks[j]? with
          | none => rw [hj'] at this; cases this
          | some t => rw [hj'] at this; exact ⟨t, rfl, this⟩
      exact h.start hw hp hi ht hready clk hl
    | finished o ho hown =>
      have hs : ∀ m, Task.step sg script clk limit (⟨back o, [], true⟩ : Task B R) m = (⟨back o, [], true⟩, m) := by
        intro m; cases o <;> rfl
      rw [hs, hset]
      exact h
    | running p id rep q hr =>
      cases p with
      | ret r => exact (h.done hw hp hi ht hr).1
      | raise => exact h.raise hw hp hi ht hr
      | callD d g c k => exact absurd hr.flat (by simp [Flat])
      | report srcs dsts k =>
        refine h.inner hw hp hi ht hr h.good rfl rfl rfl rfl rfl rfl rfl (fun _ _ => rfl) hr.body.2 hr.flat.2 rfl fun x => ?_
        simp only [Task.step, trail, Trail.add, Reports.add, List.mem_append]
        constructor <;> constructor <;> intro h <;> simp only [or_assoc] at h ⊢ <;> exact h
      | read x k =>
        exact h.inner hw hp hi ht hr h.good rfl rfl rfl rfl rfl rfl rfl (fun _ _ => rfl) (hr.body _) (hr.flat.2 _) rfl fun x => ⟨.rfl, .rfl⟩
      | write x c k =>
        have hb := hr.body
        have hst : Task.step sg script clk limit ⟨.write x c k, [⟨id, false, f, b, back, rep⟩], true⟩ P.mach =
          (⟨k, [⟨id, false, f, b, back, rep⟩], true⟩, P.mach.writeFile sg clk x c) := rfl
        rw [hst] at he ⊢
        simp only at he ⊢
        refine h.inner hw hp hi ht hr (h.good.write hw clk x c he hb.2.1 (.inr (.inr ⟨id, q, hr.get, ?_⟩))) rfl rfl rfl rfl rfl rfl rfl
          (fun y hy => ?_) hb.2.2 hr.flat ?_ fun y => ?_
        · rw [hr.fn, hr.bound]; exact hb.1
        · rw [writeFile_files, setFile, if_neg]
          rintro rfl
          exact hy hb.1
        · rw [writeFile_files]; rfl
        · rw [writeFile_files]
          simp [trail, Trail.add]

theorem event_trace (m : Mach B R) (ev : Event B R) : (m.event sg ev).2.trace = (m.sys, ev) :: m.trace := rfl

theorem taskStep_trace (clk : Nat → Nat) (limit : Nat) (t : Task B R) (m : Mach B R) :
    ∃ new, (t.step sg script clk limit m).2.trace = new ++ m.trace := by
  unfold Task.step
  cases t.cur with
  | ret r =>
    simp only
    cases t.frames with
    | nil => exact ⟨[], rfl⟩
    | cons fr fs =>
      simp only [Task.done]
      cases m.stack with
      | nil => exact ⟨[_], rfl⟩
      | cons deps rest =>
        simp only
        split
        all_goals
          rename_i m2 heq
          have h1 := congrArg (fun z => z.2.trace) heq
          simp only [event_trace] at h1
          exact ⟨[_], h1.symm⟩
  | raise =>
    simp only
    cases t.frames with
    | nil => exact ⟨[], rfl⟩
    | cons fr fs => exact ⟨[_], rfl⟩
  | callD d f b k =>
    simp only [Task.call]
    split
    all_goals
      rename_i m2 heq
      have h1 := congrArg (fun z => z.2.trace) heq
      simp only [event_trace] at h1
      exact ⟨[_, _], h1.symm⟩
  | report srcs dsts k => exact ⟨[], rfl⟩
  | read x k => exact ⟨[], rfl⟩
  | write x c k => exact ⟨[_, _], rfl⟩

theorem poolStep_trace (clk : Nat → Nat) (limit : Nat) (after : Nat → List Nat) (P : Pool B R) (i : Nat) :
    ∃ new, (P.step sg script clk limit after i).mach.trace = new ++ P.mach.trace := by
  unfold Pool.step
  cases P.tasks[i]? with
  | none => exact ⟨[], rfl⟩
  | some t =>
    simp only
    split
    · exact taskStep_trace clk limit t P.mach
    · exact ⟨[], rfl⟩

theorem poolRun_trace (clk : Nat → Nat) (limit : Nat) (after : Nat → List Nat) (order : List Nat) (P : Pool B R) :
    ∃ new, (P.run sg script clk limit after order).mach.trace = new ++ P.mach.trace := by
  induction order generalizing P with
  | nil => exact ⟨[], rfl⟩
  | cons i order ih =>
    obtain ⟨n1, h1⟩ := ih (P.step sg script clk limit after i)
    obtain ⟨n2, h2⟩ := poolStep_trace (sg := sg) (script := script) clk limit after P i
    exact ⟨n1 ++ n2, by rw [List.append_assoc, ← h2]; exact h1⟩

theorem run_ok {m0 : Mach B R} (hw : WellBehaved sg script ρ) (hp : ρ.Parallel sg script ds f bs after)
    {P : Pool B R} (h : PoolOk sg script ρ vers ds f bs after m0 P) {clk : Nat → Nat} {limit : Nat} (hl : 0 < limit)
    {order : List Nat} (he : EditsOk vers (P.run sg script clk limit after order).mach.trace) :
    PoolOk sg script ρ vers ds f bs after m0 (P.run sg script clk limit after order) := by
  induction order generalizing P with
  | nil => exact h
  | cons i order ih =>
    obtain ⟨n1, h1⟩ := poolRun_trace (sg := sg) (script := script) clk limit after order (P.step sg script clk limit after i)
    exact ih (h.step hw hp hl i (EditsOk.sub (tr' := (P.run sg script clk limit after (i :: order)).mach.trace) he h1)) he

theorem PoolOk.init {m : Mach B R} (hg : Good sg script ρ vers m)
    (hin : ∀ id q, m.sys.inflight.get? id = some q → ρ.rank f < ρ.rank q.fn) :
    PoolOk sg script ρ vers m.sys.env.funDigest f bs after m (Pool.start m (bs.map (callTask f))) where
  good := hg
  digests := rfl
  len := by simp [Pool.start]
  foreign _ _ := rfl
  tasks i b hi := ⟨Task.new (callTask f b), by simp [Pool.start, hi], .fresh fun _ _ => rfl⟩
  outer id q hq := ⟨hq, hin id q hq⟩
  inflight id q hq := .inl hq
  md5 := rfl
  log := ⟨[], rfl, by simp, fun _ _ _ _ h => h⟩
  stack := by
    refine ⟨[], 0, rfl, by simp, ?_⟩
    have : runs (Pool.start m (bs.map (callTask (R := R) f))).tasks = 0 := by
      unfold runs Pool.start
      rw [List.countP_eq_zero]
      simp [Task.new]
    rw [this]
    exact Nat.le_refl _
  dirt := .inl fun id q hq hqf => by
    have := hin id q hq
    rw [hqf] at this
    exact absurd this (Nat.lt_irrefl _)

end Verif.Calls
