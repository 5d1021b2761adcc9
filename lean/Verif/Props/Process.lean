import Verif.Main.Process
import Verif.Props.DBPickle
import Verif.Props.SqliteVersion
/-!
# A process, from the options to its exit status: properties

C94, C95, C96 and C97.
-/
namespace Verif.Main.Process

open Verif.DB

variable {σ α : Type} {K H D X : Type}

/-! ## Specification -/

/-- the step returns, with this value and in this state -/
def Returns (a : Step σ α) (s : σ) (v : α) (t : σ) : Prop := a s = (.ok v, t)

/-- Everything that was asked for was done: the buildroot removed, or the build done, its temporary files removed and the
database saved; and all threads are ended. -/
def Done (p : Steps σ) (s : σ) : Prop :=
  p.missing = none ∧ ∃ last out, Returns p.shutdown last () out ∧
    if p.clean then (if p.hasRoot s then Returns p.rmtree s () last else last = s)
    else ∃ v s1 s2 s3 s4 s5, Returns p.createBuildroot s () s1 ∧ Returns p.loadConfiguration s1 () s2 ∧
      Returns p.build s2 v s3 ∧ Returns p.clearTempDir s3 () s4 ∧ Returns p.saveConfiguration s4 () s5 ∧
      Returns p.dbShutdown s5 () last

/-- the step does not ask for the exit status 0 by `sys.exit(0)` -/
def NoQuit (a : Step σ α) : Prop := ∀ s, (a s).1 ≠ .error (.exit 0)

/-- none of the steps does -/
structure Quitless (p : Steps σ) : Prop where
  rmtree : NoQuit p.rmtree
  createBuildroot : NoQuit p.createBuildroot
  loadConfiguration : NoQuit p.loadConfiguration
  build : NoQuit p.build
  log : NoQuit p.log
  tell : NoQuit p.tell
  clearTempDir : NoQuit p.clearTempDir
  saveConfiguration : NoQuit p.saveConfiguration
  dbShutdown : NoQuit p.dbShutdown
  shutdown : NoQuit p.shutdown

/-- The state `t` after what follows a build that ended with `r` in the state `s`: temporary files are removed only if the build
returned, an error is logged, an interrupt is announced. -/
def After (p : Steps σ) (s : σ) (t : σ) : Except Exc Nat → Prop
  | .ok _ => t = (p.clearTempDir s).2
  | .error .error => t = (p.log s).2
  | .error .interrupt => t = (p.tell s).2
  | .error _ => t = s

/-- the steps `p` with the database `E` and the options `--rebuild` and `--do-not-save-database` -/
def withDb (E : Engine K H D) (rebuild doNotSave : Bool) (p : Steps (World K H X)) : Steps (World K H X) :=
  { p with loadConfiguration := load E rebuild, saveConfiguration := save E doNotSave }

/-- the step changes the database by calls only, any number of them, and may return or raise after them -/
def Uses (E : Engine K H D) (a : Step (World K H X) α) : Prop :=
  ∀ w h, w.handle = some h → ∃ fs : List (D → D),
    (a w).2.handle = some (fs.foldl (fun x f => E.change f x) (h, w.disk)).1 ∧
    (a w).2.disk = (fs.foldl (fun x f => E.change f x) (h, w.disk)).2

/-- the step does not touch the database -/
def Apart (a : Step (World K H X) α) : Prop := ∀ w, (a w).2.disk = w.disk ∧ (a w).2.handle = w.handle

/-- the steps other than loading and saving do to the database what they may -/
structure Ordinary (E : Engine K H D) (p : Steps (World K H X)) : Prop where
  createBuildroot : Apart p.createBuildroot
  build : Uses E p.build
  log : Apart p.log
  tell : Apart p.tell
  clearTempDir : Apart p.clearTempDir
  dbShutdown : Apart p.dbShutdown
  shutdown : Apart p.shutdown

/-- the tables that a process finds -/
def found (E : Engine K H D) (k : K) : Option D := (E.connect k).1.map E.view

/-! ## Proofs -/

theorem tryFinally_ok {a : Step σ α} {b : Step σ Unit} {s t : σ} {v : α} :
    tryFinally a b s = (.ok v, t) ↔ (a s).1 = .ok v ∧ b (a s).2 = (.ok (), t) := by
  unfold tryFinally
  cases h : b (a s).2 with
  | mk r u => cases r <;> simp

theorem tryFinally_snd (a : Step σ α) (b : Step σ Unit) (s : σ) : (tryFinally a b s).2 = (b (a s).2).2 := by
  unfold tryFinally
  cases h : b (a s).2 with
  | mk r u => cases r <;> simp

theorem andThen_ok {α β : Type} {a : Step σ α} {b : α → Step σ β} {s t : σ} {v : β} :
    andThen a b s = (.ok v, t) ↔ ∃ u m, a s = (.ok u, m) ∧ b u m = (.ok v, t) := by
  unfold andThen
  cases h : a s with
  | mk r m =>
    cases r with
    | error e => simp
    | ok u =>
      constructor
      · intro h; exact ⟨u, m, rfl, h⟩
      · rintro ⟨u', m', h1, h2⟩
        simp only [Prod.mk.injEq, Except.ok.injEq] at h1
        obtain ⟨rfl, rfl⟩ := h1
        exact h2

theorem built_ok {p : Steps σ} {s t : σ} {v : Nat} :
    built p s = (.ok v, t) ↔ ∃ m, p.build s = (.ok v, m) ∧ p.clearTempDir m = (.ok (), t) := by
  unfold built
  cases h : p.build s with
  | mk r m =>
    cases r with
    | ok u =>
      simp only [andThen_ok, Prod.mk.injEq, Except.ok.injEq]
      constructor
      · rintro ⟨_, m', h1, rfl, rfl⟩; exact ⟨m, ⟨rfl, rfl⟩, h1⟩
      · rintro ⟨m', ⟨rfl, rfl⟩, h1⟩; exact ⟨(), t, h1, rfl, rfl⟩
    | error e =>
      cases e <;> simp [andThen_ok, raises]

theorem main_ok {p : Steps σ} {s : σ} : (∃ v t, main p s = (.ok v, t)) ↔ Done p s := by
  unfold main Done Returns
  cases hm : p.missing with
  | some b =>
    simp only [reduceCtorEq, false_and, iff_false, not_exists, tryFinally_ok, body, hm]
    cases b <;> simp [raises]
  | none =>
    simp only [true_and, tryFinally_ok]
    by_cases hc : p.clean
    · simp only [hc, if_true, body, hm]
      by_cases hr : p.hasRoot s
      · simp only [hr, if_true]
        constructor
        · rintro ⟨v, t, h1, h2⟩
          cases h : p.rmtree s with
          | mk r m =>
            cases r with
            | error e => simp [andThen, h] at h1
            | ok u => exact ⟨m, t, by simpa [andThen, h] using h2, rfl⟩
        · rintro ⟨l, out, h1, h2⟩
          exact ⟨none, out, by simp [andThen, h2], by simpa [andThen, h2] using h1⟩
      · simp [hr]
    · simp only [hc, Bool.false_eq_true, if_false]
      constructor
      · rintro ⟨v, t, h1, h2⟩
        have hb : body p s = (.ok v, (body p s).2) := by rw [← h1]
        generalize (body p s).2 = l at hb h2
        have hb' := hb
        rw [body] at hb'
        simp only [hm, hc, Bool.false_eq_true, if_false] at hb'
        rw [andThen_ok] at hb'
        obtain ⟨_, s1, k1, hb'⟩ := hb'
        rw [andThen_ok] at hb'
        obtain ⟨_, s2, k2, hb'⟩ := hb'
        rw [andThen_ok] at hb'
        obtain ⟨u, s6, k3, hb'⟩ := hb'
        rw [tryFinally_ok, andThen_ok] at k3
        obtain ⟨k3, _, s5, k4, k5⟩ := k3
        have k6 : built p s2 = (.ok u, (built p s2).2) := by rw [← k3]
        obtain ⟨s3, k7, k8⟩ := built_ok.1 k6
        have : s6 = l := by simpa using (Prod.mk.inj hb').2
        exact ⟨l, t, h2, u, s1, s2, s3, (built p s2).2, s5, k1, k2, k7, k8, k4, this ▸ k5⟩
      · rintro ⟨l, out, h1, v, s1, s2, s3, s4, s5, k1, k2, k3, k4, k5, k6⟩
        have hbu : built p s2 = (.ok v, s4) := built_ok.2 ⟨s3, k3, k4⟩
        have hb : body p s = (.ok (some v), l) := by
          rw [body]
          simp only [hm, hc, Bool.false_eq_true, if_false]
          rw [andThen_ok]
          refine ⟨(), s1, k1, ?_⟩
          rw [andThen_ok]
          refine ⟨(), s2, k2, ?_⟩
          rw [andThen_ok]
          refine ⟨v, l, ?_, rfl⟩
          rw [tryFinally_ok, andThen_ok, hbu]
          exact ⟨rfl, (), s5, k5, k6⟩
        exact ⟨some v, out, by rw [hb], by rw [hb]; exact h1⟩

theorem NoQuit.andThen {α β : Type} {a : Step σ α} {b : α → Step σ β} (ha : NoQuit a) (hb : ∀ u, NoQuit (b u)) :
    NoQuit (andThen a b) := by
  intro s
  unfold Process.andThen
  cases h : a s with
  | mk r m =>
    cases r with
    | error e => have := ha s; rw [h] at this; simpa using this
    | ok u => exact hb u m

theorem NoQuit.tryFinally {a : Step σ α} {b : Step σ Unit} (ha : NoQuit a) (hb : NoQuit b) : NoQuit (tryFinally a b) := by
  intro s
  unfold Process.tryFinally
  cases h : b (a s).2 with
  | mk r m =>
    cases r with
    | error e => have := hb (a s).2; rw [h] at this; simpa using this
    | ok u => exact ha s

theorem NoQuit.ret {v : α} : NoQuit (fun s : σ => (Except.ok v, s)) := fun _ h => nomatch h

theorem NoQuit.built {p : Steps σ} (q : Quitless p) : NoQuit (built p) := by
  intro s
  unfold Process.built
  cases h : p.build s with
  | mk r m =>
    have hb := q.build s
    rw [h] at hb
    cases r with
    | ok v => exact NoQuit.andThen q.clearTempDir (fun _ => NoQuit.ret) m
    | error e =>
      cases e with
      | error => exact NoQuit.andThen q.log (fun _ s h => by simp [raises] at h) m
      | interrupt => exact NoQuit.andThen q.tell (fun _ s h => by simp [raises] at h) m
      | exit n => exact hb
      | other => exact hb

theorem NoQuit.main {p : Steps σ} (q : Quitless p) : NoQuit (main p) := by
  refine NoQuit.tryFinally ?_ q.shutdown
  intro s
  unfold body
  cases p.missing with
  | some b => cases b <;> simp [raises]
  | none =>
    simp only
    split
    · split
      · exact NoQuit.andThen q.rmtree (fun _ => NoQuit.ret) s
      · exact NoQuit.ret s
    · exact NoQuit.andThen q.createBuildroot (fun _ => NoQuit.andThen q.loadConfiguration (fun _ =>
        NoQuit.andThen (NoQuit.tryFinally (NoQuit.built q) (NoQuit.andThen q.saveConfiguration fun _ => q.dbShutdown))
          (fun _ => NoQuit.ret))) s

/-- **C94**: the exit status is 0 exactly if everything that was asked for was done.  The only other way to a status 0 is a
script that asks for it by `sys.exit(0)`. -/
theorem C94_status (p : Steps σ) (q : Quitless p) (s : σ) : status (main p s).1 = 0 ↔ Done p s := by
  rw [← main_ok]
  have := NoQuit.main q s
  cases h : main p s with
  | mk r t =>
    rw [h] at this
    cases r with
    | ok v => simp [status]
    | error e =>
      cases e with
      | exit n =>
        have : n ≠ 0 := fun h => this (by rw [h])
        simpa [status] using this
      | _ => simp [status]

theorem built_snd (p : Steps σ) (s : σ) : After p (p.build s).2 (built p s).2 (p.build s).1 := by
  have key : ∀ {β : Type} (a : Step σ Unit) (b : Unit → Step σ β) (_ : ∀ s, (b () s).2 = s) s, (andThen a b s).2 = (a s).2 := by
    intro β a b hb s
    unfold andThen
    cases h : a s with
    | mk r m => cases r <;> simp [hb]
  unfold built
  cases h : p.build s with
  | mk r m =>
    cases r with
    | ok v => exact key _ _ (fun _ => rfl) _
    | error e =>
      cases e with
      | error => exact key _ _ (fun _ => rfl) _
      | interrupt => exact key _ _ (fun _ => rfl) _
      | exit n => rfl
      | other => rfl

/-- **C94**: once the build was begun, the database is saved in the state in which the build left it, however it ended; then the
threads are ended, that of the database if saving did not raise. -/
theorem C94_saved (p : Steps σ) (s s1 s2 : σ) (hm : p.missing = none) (hc : p.clean = false)
    (h1 : Returns p.createBuildroot s () s1) (h2 : Returns p.loadConfiguration s1 () s2) :
    ∃ t, After p (p.build s2).2 t (p.build s2).1 ∧
      (((p.saveConfiguration t).1 = .ok () ∧ (main p s).2 = (p.shutdown (p.dbShutdown (p.saveConfiguration t).2).2).2) ∨
       ((p.saveConfiguration t).1 ≠ .ok () ∧ (main p s).1 ≠ .ok (some 0) ∧ (main p s).2 = (p.shutdown (p.saveConfiguration t).2).2)) := by
  refine ⟨(built p s2).2, built_snd p s2, ?_⟩
  have hb : body p s = andThen (tryFinally (built p) (andThen p.saveConfiguration fun _ => p.dbShutdown))
            (fun v s => (.ok (some v), s)) s2 := by
    rw [Returns] at h1 h2
    simp [body, hm, hc, andThen, h1, h2]
  have hs : (body p s).2 = ((andThen p.saveConfiguration fun _ => p.dbShutdown) (built p s2).2).2 := by
    rw [hb, ← tryFinally_snd]
    unfold andThen
    generalize tryFinally (built p) _ s2 = x
    obtain ⟨r, m⟩ := x
    cases r <;> rfl
  have hmain : (main p s).2 = (p.shutdown (body p s).2).2 := tryFinally_snd _ _ _
  cases hsv : p.saveConfiguration (built p s2).2 with
  | mk r m =>
    cases r with
    | ok u =>
      left
      refine ⟨rfl, ?_⟩
      rw [hmain, hs]
      simp [andThen, hsv]
    | error e =>
      right
      refine ⟨fun h => (nomatch h), ?_, ?_⟩
      · intro hok
        have : main p s = (.ok (some 0), (main p s).2) := by rw [← hok]
        have := (tryFinally_ok.1 this).1
        rw [hb] at this
        simp [andThen, tryFinally, hsv] at this
      · rw [hmain, hs]
        simp [andThen, hsv]

/-! ### The database -/

theorem Apart.after {E : Engine K H D} {p : Steps (World K H X)} (o : Ordinary E p) {w t : World K H X} {r : Except Exc Nat}
    (h : After p w t r) : t.disk = w.disk ∧ t.handle = w.handle := by
  cases r with
  | ok v => rw [After] at h; rw [h]; exact o.clearTempDir w
  | error e =>
    cases e with
    | error => rw [After] at h; rw [h]; exact o.log w
    | interrupt => rw [After] at h; rw [h]; exact o.tell w
    | exit n => have h : t = w := h; rw [h]; exact ⟨rfl, rfl⟩
    | other => have h : t = w := h; rw [h]; exact ⟨rfl, rfl⟩

theorem Ordinary.withDb {E : Engine K H D} {p : Steps (World K H X)} (o : Ordinary E p) (rb dns : Bool) :
    Ordinary E (withDb E rb dns p) := ⟨o.1, o.2, o.3, o.4, o.5, o.6, o.7⟩

/-- the disk and the backend after a build, if the database is saved -/
theorem saved_disk {E : Engine K H D} {p : Steps (World K H X)} (o : Ordinary E p) {rb : Bool} {w w1 w2 : World K H X}
    (hm : p.missing = none) (hc : p.clean = false)
    (h1 : Returns p.createBuildroot w () w1) (h2 : Returns (load E rb) w1 () w2) {h : H}
    (hh : (p.build w2).2.handle = some h) :
    (main (withDb E rb false p) w).2.disk = E.close h (p.build w2).2.disk := by
  obtain ⟨t, ht, hs⟩ := C94_saved (withDb E rb false p) w w1 w2 hm hc h1 h2
  obtain ⟨hd, hh'⟩ := Apart.after (o.withDb rb false) ht
  have hsv : save E false t = (.ok (), { t with disk := E.close h (p.build w2).2.disk }) := by
    have e1 : t.handle = some h := hh'.trans hh
    have e2 : t.disk = (p.build w2).2.disk := hd
    simp [save, e1, e2]
  have hsv' : (Process.withDb E rb false p).saveConfiguration t =
    (.ok (), { t with disk := E.close h (p.build w2).2.disk }) := hsv
  rcases hs with ⟨_, hs⟩ | ⟨hs, _⟩
  · rw [hs, hsv']
    exact ((o.shutdown _).1).trans (o.dbShutdown _).1
  · rw [hsv'] at hs
    exact absurd rfl hs

/-- the disk after a build, if the database is not saved -/
theorem unsaved_disk {E : Engine K H D} {p : Steps (World K H X)} (o : Ordinary E p) {rb : Bool} {w w1 w2 : World K H X}
    (hm : p.missing = none) (hc : p.clean = false)
    (h1 : Returns p.createBuildroot w () w1) (h2 : Returns (load E rb) w1 () w2) :
    (main (withDb E rb true p) w).2.disk = (p.build w2).2.disk := by
  obtain ⟨t, ht, hs⟩ := C94_saved (withDb E rb true p) w w1 w2 hm hc h1 h2
  obtain ⟨hd, _⟩ := Apart.after (o.withDb rb true) ht
  have hsv' : (withDb E rb true p).saveConfiguration t = (.ok (), t) := rfl
  rcases hs with ⟨_, hs⟩ | ⟨hs, _⟩
  · rw [hs, hsv']
    exact (((o.shutdown _).1).trans (o.dbShutdown _).1).trans hd
  · rw [hsv'] at hs
    exact absurd rfl hs

/-- the disk if the build was not begun -/
theorem early_disk {E : Engine K H D} {p : Steps (World K H X)} (o : Ordinary E p) {rb dns : Bool} {w : World K H X}
    (hc : p.clean = false) (h : ¬ (p.missing = none ∧ ∃ w1 w2, Returns p.createBuildroot w () w1 ∧ Returns (load E rb) w1 () w2)) :
    (main (withDb E rb dns p) w).2.disk = w.disk ∨
      ∃ w1 : World K H X, w1.disk = w.disk ∧ (load E rb w1).1 ≠ .ok () ∧
        (main (withDb E rb dns p) w).2.disk = (load E rb w1).2.disk := by
  have hsh : (main (withDb E rb dns p) w).2.disk = (body (withDb E rb dns p) w).2.disk := by
    rw [show (main (withDb E rb dns p) w).2 = _ from tryFinally_snd _ _ _]
    exact (o.shutdown _).1
  rw [hsh]
  cases hm : p.missing with
  | some b =>
    left
    have : (withDb E rb dns p).missing = some b := hm
    cases b <;> simp [body, this, raises]
  | none =>
    have hm' : (withDb E rb dns p).missing = none := hm
    have hc' : (withDb E rb dns p).clean = false := hc
    have hcr : (withDb E rb dns p).createBuildroot = p.createBuildroot := rfl
    have hlo : (withDb E rb dns p).loadConfiguration = load E rb := rfl
    simp only [body, hm', hc', Bool.false_eq_true, if_false, hcr, hlo]
    have hap := (o.createBuildroot w).1
    cases h1 : p.createBuildroot w with
    | mk r w1 =>
      rw [h1] at hap
      cases r with
      | error e => left; simpa [andThen, h1] using hap
      | ok u =>
        right
        refine ⟨w1, hap, ?_⟩
        cases h2 : load E rb w1 with
        | mk r w2 =>
          cases r with
          | ok u => exact absurd ⟨hm, w1, w2, h1, h2⟩ h
          | error e => exact ⟨fun h => (nomatch h), by simp [andThen, h1, h2]⟩

theorem pickle_fold {c : Pickle.Codec D} (fs : List (D → D)) (x : D × Pickle.Disk) :
    fs.foldl (fun x f => (pickle c).change f x) x = (fs.foldl (fun x f => f x) x.1, x.2) := by
  induction fs generalizing x with
  | nil => rfl
  | cons f fs ih => rw [List.foldl_cons, ih]; rfl

theorem sqlite_fold {empty : D} (fs : List (D → D)) (v : Pickle.Version) (db : SqliteVersion.Db D) (k : SqliteVersion.Disk D) :
    (fs.foldl (fun x f => (sqlite empty).change f x) ((v, db), k)).1 =
      (v, { db with tables := fs.foldl (fun x f => f x) db.tables }) ∧
    ((fs.foldl (fun x f => (sqlite empty).change f x) ((v, db), k)).2 =
        some { db with tables := fs.foldl (fun x f => f x) db.tables } ∨ (fs = [] ∧
      (fs.foldl (fun x f => (sqlite empty).change f x) ((v, db), k)).2 = k)) := by
  induction fs generalizing db k with
  | nil => exact ⟨rfl, Or.inr ⟨rfl, rfl⟩⟩
  | cons f fs ih =>
    have := ih { db with tables := f db.tables } (some { db with tables := f db.tables })
    refine ⟨this.1, Or.inl ?_⟩
    rcases this.2 with h | ⟨rfl, h⟩
    · exact h
    · exact h

/-- **C95**, pickle engine: however the build ends, the tables that it left are what the next process finds. -/
theorem C95_pickle (c : Pickle.Codec D) (hcodec : ∀ x, c.dec (c.enc Pickle.latest x) = .data (some Pickle.latest) x)
    (p : Steps (World Pickle.Disk D X)) (o : Ordinary (pickle c) p) (rebuild : Bool) (w w1 w2 : World Pickle.Disk D X)
    (hm : p.missing = none) (hc : p.clean = false)
    (h1 : Returns p.createBuildroot w () w1) (h2 : Returns (load (pickle c) rebuild) w1 () w2) :
    ∃ x, (p.build w2).2.handle = some x ∧
      found (pickle c) (main (withDb (pickle c) rebuild false p) w).2.disk = some x := by
  have hw2 : ∃ h, w2.handle = some h := by
    simp only [Returns, load] at h2
    split at h2
    · exact nomatch h2
    · simp only [Prod.mk.injEq] at h2
      exact ⟨_, by rw [← h2.2]⟩
  obtain ⟨h, hh⟩ := hw2
  obtain ⟨fs, hb, _⟩ := o.build w2 h hh
  refine ⟨_, hb, ?_⟩
  rw [saved_disk o hm hc h1 h2 hb]
  show Option.map id (Pickle.connect c (Pickle.runOps _ _)) = _
  rw [Pickle.close_complete]
  simp [Pickle.connect, Pickle.connectOps, Pickle.load, hcodec, Pickle.runOps]

/-- what is in memory after `connect` of the sqlite engine -/
theorem sqlite_connect (empty : D) (d : SqliteVersion.Disk D)
    (hd : ∀ db, d = some db → ∃ v, SqliteVersion.WrittenBy db v) :
    ∃ v db, (sqlite empty).connect d = (some (v, db), some db) ∧
      ((v = Pickle.latest ∧ db.rows = [Pickle.latest]) ∨ (v = Pickle.nullVersion ∧ db.rows = [])) := by
  cases d with
  | none =>
    refine ⟨Pickle.nullVersion, ⟨[], empty⟩, ?_, Or.inr ⟨rfl, rfl⟩⟩
    simp [sqlite, SqliteVersion.connect, SqliteVersion.setup, SqliteVersion.version, SqliteVersion.null_ne]
  | some db =>
    obtain ⟨v, hv⟩ := hd db rfl
    by_cases hl : v = Pickle.latest
    · subst hl
      have hr : db.rows = [Pickle.latest] := by
        rcases hv with ⟨h, _⟩ | ⟨_, h⟩
        · exact h
        · exact absurd h (by decide)
      exact ⟨Pickle.latest, db, by simp [sqlite, SqliteVersion.connect_latest hr], Or.inl ⟨rfl, hr⟩⟩
    · exact ⟨Pickle.nullVersion, ⟨[], empty⟩, by simp [sqlite, SqliteVersion.connect_other hv hl], Or.inr ⟨rfl, rfl⟩⟩

/-- what `load` leaves -/
theorem load_ok {E : Engine K H D} {rb : Bool} {w w2 : World K H X} (h : Returns (load E rb) w () w2) :
    ∃ h, E.connect (if rb && E.has w.disk then E.remove w.disk else w.disk) = (some h, w2.disk) ∧ w2.handle = some h := by
  simp only [Returns, load] at h
  split at h
  · exact nomatch h
  · rename_i h' k hk
    simp only [Prod.mk.injEq, true_and] at h
    subst h
    exact ⟨h', hk, rfl⟩

/-- **C95**, sqlite engine: however the build ends, the tables that it left are what the next process finds.  The file at the
beginning is missing or has a version. -/
theorem C95_sqlite (empty : D) (p : Steps (World (SqliteVersion.Disk D) (Pickle.Version × SqliteVersion.Db D) X))
    (o : Ordinary (sqlite empty) p) (rebuild : Bool)
    (w w1 w2 : World (SqliteVersion.Disk D) (Pickle.Version × SqliteVersion.Db D) X)
    (hd : ∀ db, w.disk = some db → ∃ v, SqliteVersion.WrittenBy db v)
    (hm : p.missing = none) (hc : p.clean = false)
    (h1 : Returns p.createBuildroot w () w1) (h2 : Returns (load (sqlite empty) rebuild) w1 () w2) :
    ∃ x, (p.build w2).2.handle.map (sqlite empty).view = some x ∧
      found (sqlite empty) (main (withDb (sqlite empty) rebuild false p) w).2.disk = some x := by
  have hw1 : w1.disk = w.disk := by
    have := (o.createBuildroot w).1
    rw [show p.createBuildroot w = _ from h1] at this
    exact this
  obtain ⟨⟨v', db'⟩, hcon, hh⟩ := load_ok h2
  obtain ⟨v, db, hcon', hv⟩ := sqlite_connect empty
    (if rebuild && (sqlite empty).has w1.disk then (sqlite empty).remove w1.disk else w1.disk) (by
      rw [hw1]
      split
      · intro db h; exact nomatch h
      · exact hd)
  rw [hcon'] at hcon
  simp only [Prod.mk.injEq, Option.some.injEq] at hcon
  obtain ⟨⟨rfl, rfl⟩, _⟩ := hcon
  obtain ⟨fs, hb, _⟩ := o.build w2 _ hh
  rw [(sqlite_fold fs v db w2.disk).1] at hb
  refine ⟨fs.foldl (fun x f => f x) db.tables, by rw [hb]; rfl, ?_⟩
  rw [saved_disk o hm hc h1 h2 hb]
  rcases hv with ⟨rfl, hr⟩ | ⟨rfl, hr⟩
  · show ((SqliteVersion.connect empty (some (SqliteVersion.close _ _))).2).map _ = _
    have hr' : (⟨db.rows, fs.foldl (fun x f => f x) db.tables⟩ : SqliteVersion.Db D).rows = [Pickle.latest] := hr
    rw [SqliteVersion.close_latest hr', SqliteVersion.connect_latest hr']
    rfl
  · show ((SqliteVersion.connect empty (some (SqliteVersion.close _ _))).2).map _ = _
    rw [SqliteVersion.connect_latest (by simp [SqliteVersion.close, hr])]
    simp [SqliteVersion.close, sqlite]

theorem pickle_again (c : Pickle.Codec D) (d : Pickle.Disk) :
    Pickle.connect c (Pickle.runOps d (Pickle.connectOps c d)) = Pickle.connect c d := by
  cases hl : Pickle.load c d with
  | none =>
    have : Pickle.connectOps c d = [] := by simp [Pickle.connectOps, hl]
    rw [this]; rfl
  | some vx =>
    obtain ⟨v, x⟩ := vx
    by_cases hv : v = Pickle.latest
    · have : Pickle.connectOps c d = [] := by simp [Pickle.connectOps, hl, hv]
      rw [this]; rfl
    · have h : Pickle.connectOps c d = Pickle.closeOps c d x ++ [.remove .path] := by simp [Pickle.connectOps, hl, hv]
      have hp : (Pickle.runOps d (Pickle.connectOps c d)) .path = none := by
        rw [h, Pickle.runOps_append]
        simp [Pickle.runOps, Pickle.Op.run]
      have key : Pickle.load c (Pickle.runOps d (Pickle.connectOps c d)) = some (Pickle.latest, c.empty) := by
        simp [Pickle.load, hp]
      have key2 : Pickle.connectOps c (Pickle.runOps d (Pickle.connectOps c d)) = [] := by
        rw [Pickle.connectOps, key]; rfl
      rw [Pickle.connect, Pickle.connect, key2]
      rfl

/-- **C96**, pickle engine: with `--do-not-save-database` the next process finds what this one found, whatever the state file
was and however this process ends. -/
theorem C96_pickle_partial (c : Pickle.Codec D) (p : Steps (World Pickle.Disk D X)) (o : Ordinary (pickle c) p)
    (w : World Pickle.Disk D X) (hc : p.clean = false) :
    found (pickle c) (main (withDb (pickle c) false true p) w).2.disk = found (pickle c) w.disk := by
  by_cases h : p.missing = none ∧ ∃ w1 w2, Returns p.createBuildroot w () w1 ∧ Returns (load (pickle c) false) w1 () w2
  · obtain ⟨hm, w1, w2, h1, h2⟩ := h
    rw [unsaved_disk o hm hc h1 h2]
    have hw1 : w1.disk = w.disk := by
      have := (o.createBuildroot w).1
      rw [show p.createBuildroot w = _ from h1] at this
      exact this
    obtain ⟨h, hcon, hh⟩ := load_ok h2
    obtain ⟨fs, _, hb⟩ := o.build w2 _ hh
    rw [pickle_fold] at hb
    rw [hb]
    have hd : w2.disk = Pickle.runOps w.disk (Pickle.connectOps c w.disk) := by
      have := (Prod.mk.inj hcon).2
      rw [← this, ← hw1]
      rfl
    show (Pickle.connect c w2.disk).map _ = (Pickle.connect c w.disk).map _
    rw [hd, pickle_again]
  · rcases early_disk o (rb := false) (dns := true) hc h with h | ⟨w1, hw, _, h⟩
    · rw [h]
    · rw [h]
      have : (load (pickle c) false w1).2.disk = Pickle.runOps w.disk (Pickle.connectOps c w.disk) := by
        rw [← hw]
        unfold load
        simp only [Bool.false_and, Bool.false_eq_true, if_false]
        cases hcon : (pickle c).connect w1.disk with
        | mk r k =>
          have : k = Pickle.runOps w1.disk (Pickle.connectOps c w1.disk) := (Prod.mk.inj hcon).2.symm
          cases r <;> exact this
      show (Pickle.connect c _).map _ = (Pickle.connect c w.disk).map _
      rw [this, pickle_again]

/-- **C96** is false for the sqlite engine: in a database that was closed before, everything that the build changed is found by
the next process. -/
theorem C96_sqlite_violated (empty : D) (p : Steps (World (SqliteVersion.Disk D) (Pickle.Version × SqliteVersion.Db D) X))
    (o : Ordinary (sqlite empty) p) (w w1 w2 : World (SqliteVersion.Disk D) (Pickle.Version × SqliteVersion.Db D) X)
    (db : SqliteVersion.Db D) (hd : w.disk = some db) (hr : db.rows = [Pickle.latest])
    (hm : p.missing = none) (hc : p.clean = false)
    (h1 : Returns p.createBuildroot w () w1) (h2 : Returns (load (sqlite empty) false) w1 () w2) :
    ∃ x, (p.build w2).2.handle.map (sqlite empty).view = some x ∧
      found (sqlite empty) (main (withDb (sqlite empty) false true p) w).2.disk = some x := by
  have hw1 : w1.disk = w.disk := by
    have := (o.createBuildroot w).1
    rw [show p.createBuildroot w = _ from h1] at this
    exact this
  obtain ⟨h, hcon, hh⟩ := load_ok h2
  simp only [Bool.false_and, Bool.false_eq_true, if_false] at hcon
  have hcon' : (sqlite empty).connect w1.disk = (some (Pickle.latest, db), some db) := by
    rw [hw1, hd]
    simp [sqlite, SqliteVersion.connect_latest hr]
  rw [hcon'] at hcon
  simp only [Prod.mk.injEq, Option.some.injEq] at hcon
  obtain ⟨rfl, hk⟩ := hcon
  obtain ⟨fs, hb, hb2⟩ := o.build w2 _ hh
  obtain ⟨e1, e2⟩ := sqlite_fold (empty := empty) fs Pickle.latest db w2.disk
  rw [e1] at hb
  refine ⟨fs.foldl (fun x f => f x) db.tables, by rw [hb]; rfl, ?_⟩
  rw [unsaved_disk o hm hc h1 h2, hb2]
  have key : (fs.foldl (fun x f => (sqlite empty).change f x) ((Pickle.latest, db), w2.disk)).2 =
      some { db with tables := fs.foldl (fun x f => f x) db.tables } := by
    rcases e2 with h | ⟨rfl, h⟩
    · exact h
    · rw [h, ← hk]; rfl
  rw [key]
  show ((SqliteVersion.connect empty (some _)).2).map _ = _
  have hr' : (⟨db.rows, fs.foldl (fun x f => f x) db.tables⟩ : SqliteVersion.Db D).rows = [Pickle.latest] := hr
  rw [SqliteVersion.connect_latest hr']
  rfl

/-- **C96** is false together with `--rebuild`: the state file is removed, so the next process finds empty tables. -/
theorem C96_rebuild_violated (c : Pickle.Codec D) (p : Steps (World Pickle.Disk D X)) (o : Ordinary (pickle c) p)
    (w w1 w2 : World Pickle.Disk D X) (hm : p.missing = none) (hc : p.clean = false)
    (h1 : Returns p.createBuildroot w () w1) (h2 : Returns (load (pickle c) true) w1 () w2) :
    found (pickle c) (main (withDb (pickle c) true true p) w).2.disk = some c.empty := by
  rw [unsaved_disk o hm hc h1 h2]
  obtain ⟨h, hcon, hh⟩ := load_ok h2
  obtain ⟨fs, _, hb⟩ := o.build w2 _ hh
  rw [pickle_fold] at hb
  rw [hb]
  have hk : (if true && (pickle c).has w1.disk then (pickle c).remove w1.disk else w1.disk) .path = none := by
    cases h : w1.disk .path <;> simp [pickle, h]
  have hd := (Prod.mk.inj hcon).2
  have hops : ∀ k : Pickle.Disk, k .path = none → Pickle.connectOps c k = [] := by
    intro k hk
    simp [Pickle.connectOps, Pickle.load, hk]
  have hp : w2.disk .path = none := by
    rw [← hd, hops _ hk]
    exact hk
  show (Pickle.connect c w2.disk).map _ = _
  simp [Pickle.connect, hops _ hp, Pickle.runOps, Pickle.load, hp, pickle]

/-- **C97**, pickle engine: with `--rebuild` the build begins with empty tables, whatever the state file is; it need not be
readable. -/
theorem C97_pickle (c : Pickle.Codec D) (w : World Pickle.Disk D X) :
    ∃ w2, Returns (load (pickle c) true) w () w2 ∧ w2.handle.map (pickle c).view = some c.empty := by
  have key : ∀ k : Pickle.Disk, k .path = none → (pickle c).connect k = (some c.empty, k) := by
    intro k hk
    simp [pickle, Pickle.connect, Pickle.connectOps, Pickle.load, hk, Pickle.runOps]
  have hk : (if true && (pickle c).has w.disk then (pickle c).remove w.disk else w.disk) .path = none := by
    cases h : w.disk .path <;> simp [pickle, h]
  refine ⟨_, by rw [Returns, load, key _ hk], rfl⟩

/-- **C97**, sqlite engine -/
theorem C97_sqlite (empty : D) (w : World (SqliteVersion.Disk D) (Pickle.Version × SqliteVersion.Db D) X) :
    ∃ w2, Returns (load (sqlite empty) true) w () w2 ∧ w2.handle.map (sqlite empty).view = some empty := by
  have hk : (if true && (sqlite empty).has w.disk then (sqlite empty).remove w.disk else w.disk) = none := by
    cases h : w.disk <;> simp [sqlite]
  obtain ⟨v, db, hc, hv⟩ := sqlite_connect empty none (fun _ h => nomatch h)
  have hdb : db = ⟨[], empty⟩ := by
    have := (Prod.mk.inj hc).2
    simp [SqliteVersion.connect, SqliteVersion.setup, SqliteVersion.version, SqliteVersion.null_ne] at this
    exact this.symm
  refine ⟨_, by rw [Returns, load, hk, hc], by rw [hdb]; rfl⟩

/-- **C97**, cache engine; a file that is there is left alone, unless everything is to be built again -/
theorem C97_cache (has : K → Bool) (remove : K → K) (empty : D) (rebuild : Bool) (w : World K D X) :
    ∃ w2, Returns (load (cache has remove empty) rebuild) w () w2 ∧ w2.handle = some empty ∧
      (rebuild = false ∨ has w.disk = false → w2.disk = w.disk) := by
  refine ⟨_, rfl, rfl, ?_⟩
  rintro (rfl | h)
  · rfl
  · simp [load, cache, h]

/-! ### Cases that meet the hypotheses -/

namespace Ex

/-- a build that stores four results (each adds 1 to the number in the tables), and ends in some way -/
def build (E : Engine K H Nat) (r : Except Exc Nat) : Step (World K H Unit) Nat := fun w =>
  match w.handle with
  | none => (.error .other, w)
  | some h =>
    let x := [(· + 1), (· + 1), (· + 1), (· + 1)].foldl (fun x f => E.change f x) (h, w.disk)
    (r, ⟨x.2, some x.1, ()⟩)

/-- the steps of a process in which everything else works -/
def steps (E : Engine K H Nat) (r : Except Exc Nat) : Steps (World K H Unit) where
  hasRoot _ := true
  rmtree := pass
  createBuildroot := pass
  loadConfiguration := load E false
  build := build E r
  log := pass
  tell := pass
  clearTempDir := pass
  saveConfiguration := save E false
  dbShutdown := pass
  shutdown := pass

theorem ordinary (E : Engine K H Nat) (r : Except Exc Nat) : Ordinary E (steps E r) := by
  refine ⟨fun _ => ⟨rfl, rfl⟩, ?_, fun _ => ⟨rfl, rfl⟩, fun _ => ⟨rfl, rfl⟩, fun _ => ⟨rfl, rfl⟩, fun _ => ⟨rfl, rfl⟩,
    fun _ => ⟨rfl, rfl⟩⟩
  intro w h hh
  refine ⟨[(· + 1), (· + 1), (· + 1), (· + 1)], ?_, ?_⟩ <;> simp only [steps, build, hh]

theorem quitless (E : Engine K H Nat) : Quitless (steps E (.error .interrupt)) := by
  constructor
  case loadConfiguration => intro w; simp only [steps, load]; split <;> simp
  case saveConfiguration => intro w; simp only [steps, save]; simp; split <;> simp
  case build => intro w; simp only [steps, build]; split <;> simp
  all_goals exact NoQuit.ret

/-- the pickle engine, with the number 3 stored -/
def E := pickle Pickle.Ex.codec
def start : World Pickle.Disk Nat Unit := ⟨Pickle.Ex.disk, none, ()⟩

/-- C94, C95: an interrupted build has status 1, and the next process finds its results; one that returned has status 0 -/
example : status (main (steps E (.error .interrupt)) start).1 = 1 ∧
    found E (main (steps E (.error .interrupt)) start).2.disk = some 7 ∧
    status (main (steps E (.error .error)) start).1 = 1 ∧ status (main (steps E (.ok 0)) start).1 = 0 ∧
    found E (main (steps E (.ok 0)) start).2.disk = some 7 := by
  refine ⟨?_, ?_, ?_, ?_, ?_⟩ <;> rfl

/-- `sys.exit(0)` in a target: status 0 without a build that returned -/
example : status (main (steps E (.error (.exit 0))) start).1 = 0 := rfl

/-- C96: not saved -/
example : found E (main (withDb E false true (steps E (.ok 0))) start).2.disk = some 3 ∧
    found E (main (withDb E true true (steps E (.ok 0))) start).2.disk = some 0 := by
  refine ⟨?_, ?_⟩ <;> rfl

/-- the sqlite engine, with the number 3 stored -/
def S := sqlite (0 : Nat)
def sstart : World (SqliteVersion.Disk Nat) (Pickle.Version × SqliteVersion.Db Nat) Unit := ⟨some ⟨["2"], 3⟩, none, ()⟩

/-- C95, and C96 violated -/
example : found S (main (steps S (.error .interrupt)) sstart).2.disk = some 7 ∧
    found S (main (withDb S false true (steps S (.ok 0))) sstart).2.disk = some 7 ∧ found S sstart.disk = some 3 := by
  refine ⟨?_, ?_, ?_⟩ <;> decide +kernel

/-- C97: with `--rebuild` only what this build stored is found -/
example : found S (main (withDb S true false (steps S (.ok 0))) sstart).2.disk = some 4 ∧
    found E (main (withDb E true false (steps E (.ok 0))) start).2.disk = some 4 := by
  refine ⟨by decide +kernel, rfl⟩

end Ex

end Verif.Main.Process
