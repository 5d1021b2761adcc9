import Verif.Calls.Parallel
/-! A cached function that calls another one in threads does what it does if the calls are made one after the other. -/
namespace Verif.Calls
open Verif.DB CDB
set_option linter.unusedSectionVars false

variable {B R : Type} [DecidableEq B]
variable {sg : Sig B R} {script : Script B R} {ρ : Layout B} {vers : FileName → Nat → Option Content}
variable {ds : FunName → Option Digest} {f : FunName} {bs : List B} {after : Nat → List Nat}

/-! ### Files that are kept -/

theorem prepare_files (m : Mach B R) (id : Nat) (f : FunName) (b : B) : (m.event sg (.prepare id f b)).2.files = m.files := by
  simp only [Mach.event, step, stepPrepare, Mach.files]
  split
  · rfl
  · split
    · rfl
    · split <;> rfl

theorem complete_files (m : Mach B R) (id : Nat) (r : R) (deps : List FunName) (ext extDsts : List FileName) :
    (m.event sg (.complete id r deps ext extDsts)).2.files = m.files := by
  simp only [Mach.event, step, stepComplete, Mach.files]
  split
  · rfl
  · split <;> rfl

theorem taskStep_files (clk : Nat → Nat) (limit : Nat) (t : Task B R) (m : Mach B R) (x : FileName) :
    (t.step sg script clk limit m).2.files x = m.files x ∨
      ∃ c k, t.cur = .write x c k ∧ (t.step sg script clk limit m).2.files x = c := by
  unfold Task.step
  cases hc : t.cur with
  | ret r =>
    left
    simp only
    cases t.frames with
    | nil => rfl
    | cons fr fs =>
      simp only [Task.done]
      cases m.stack with
      | nil => rfl
      | cons deps rest =>
        simp only
        have h1 := complete_files (sg := sg) ({ m with stack := rest } : Mach B R) fr.id r deps fr.rep.srcs fr.rep.dsts
        split
        all_goals
          rename_i m2 heq
          rw [heq] at h1
          exact congrFun h1 x
  | raise =>
    left
    simp only
    cases t.frames with
    | nil => rfl
    | cons fr fs => rfl
  | callD d f b k =>
    left
    simp only [Task.call]
    have h1 := prepare_files (sg := sg)
      ((({ m with stack := noteCall f m.stack, next := m.next + 1 } : Mach B R).event sg (.tick (clk m.next))).2) m.next f b
    split
    all_goals
      rename_i m2 heq
      rw [heq] at h1
      exact congrFun h1 x
  | report srcs dsts k => exact .inl rfl
  | read y k => exact .inl rfl
  | write y c k =>
    simp only
    rw [writeFile_files, setFile]
    split
    · rename_i h; subst h; exact .inr ⟨c, k, rfl, rfl⟩
    · exact .inl rfl

theorem PoolOk.keeps {m0 : Mach B R} {P : Pool B R} (h : PoolOk sg script ρ vers ds f bs after m0 P) (clk : Nat → Nat) (limit : Nat)
    (i : Nat) {x : FileName} (hx : ρ.keep x) (hs : (P.mach.files x).isSome) :
    ((P.step sg script clk limit after i).mach.files x).isSome := by
  unfold Pool.step
  cases ht : P.tasks[i]? with
  | none => exact hs
  | some t =>
    simp only
    split
    case isFalse => exact hs
    have hilt : i < bs.length := by
      rw [← h.len]
      exact (List.getElem?_eq_some_iff.1 ht).1
    have hT := h.get (List.getElem?_eq_getElem hilt) ht
    rcases taskStep_files (sg := sg) (script := script) clk limit t P.mach x with h1 | ⟨c, k, h1, h2⟩
    · simp only [h1]; exact hs
    · simp only [h2]
      cases hT with
      | fresh _ => cases h1
      | finished o _ _ => cases o <;> cases h1
      | running p id rep q hr =>
        simp only at h1
        subst h1
        exact hr.body.2.1 hx

/-! ### The files that are reported -/

theorem leafTrail_agree (hw : WellBehaved sg script ρ) (hds : ρ.Respects ds) (hp : ρ.Parallel sg script ds f bs after) {i : Nat} {b : B}
    (hi : bs[i]? = some b) {fs fs' : Files} (h : ∀ x, ρ.Sees f bs after i x → fs x = fs' x) :
    leafTrail sg script ds (cleanCall sg script ds ρ.depth) f b fs =
      leafTrail sg script ds (cleanCall sg script ds ρ.depth) f b fs' := by
  unfold leafTrail
  rw [(call_agree hw hds hp hi h).1]
  cases hc : ds f with
  | none => rfl
  | some code =>
    cases (cleanCall sg script ds ρ.depth f b fs').1 with
    | none => rfl
    | some r =>
      simp only
      rw [(flat_agree (callC := cleanCall sg script ds ρ.depth) (callC' := cleanCall sg script ds ρ.depth)
        (callT := fun _ _ _ => .none) (callT' := fun _ _ _ => .none) (script f code b) (hp.body i b code hi hc) h).2.2]

/-- a task that is answered by the database -/
theorem start_files {m : Mach B R} (h : Good sg script ρ vers m) (hw : WellBehaved sg script ρ) {b : B}
    (hid : ∀ id p, m.sys.inflight.get? id = some p → ρ.rank f ≤ ρ.rank p.fn ∧ ¬ (p.fn = f ∧ p.bound = b)) {clk : Nat → Nat}
    {limit : Nat} (hleaf : ρ.leaf f) {r : R} (hr : (Task.call sg script clk limit false f b back [] m).1.result = some (some r)) :
    FilesOk ρ (leafTrail sg script m.sys.env.funDigest (cleanCall sg script m.sys.env.funDigest ρ.depth) f b m.files)
      (callFiles sg f b r (Task.call sg script clk limit false f b back [] m).2)
      (Task.call sg script clk limit false f b back [] m).2.files := by
  have h1 := (h.stack (noteCall f m.stack) (Nat.le_succ _)).tick (clk m.next)
  have hhit := fun r => h1.hit hw f b (by exact hid) (id := m.next) (r := r)
  revert hr
  unfold Task.call
  simp only
  have hfs := prepare_files (sg := sg)
      ((({ m with stack := noteCall f m.stack, next := m.next + 1 } : Mach B R).event sg (.tick (clk m.next))).2) m.next f b
  have hhit' : ∀ r, (Mach.event sg (.prepare m.next f b)
    ((({ m with stack := noteCall f m.stack, next := m.next + 1 } : Mach B R).event sg (.tick (clk m.next))).2)).1 = .hit r → _ := hhit
  clear hhit
  generalize Mach.event sg (.prepare m.next f b) _ = X at *
  obtain ⟨o, m2⟩ := X
  simp only at hhit' hfs
  cases o with
  | hit r' =>
    intro hr
    cases hr
    simp only
    rw [hfs]
    exact (hhit' _ rfl).2 hleaf
  | run =>
    intro hr
    simp only at hr
    rw [result_running] at hr
    cases hr
  | raised e => intro hr; cases hr
  | done => intro hr; cases hr
  | deleted e => intro hr; cases hr

/-- the calls that run when a task begins -/
theorem PoolOk.ids {m0 : Mach B R} {P : Pool B R} (hp : ρ.Parallel sg script ds f bs after)
    (h : PoolOk sg script ρ vers ds f bs after m0 P) {i : Nat} {b : B} (hi : bs[i]? = some b)
    (ht : P.tasks[i]? = some (Task.new (callTask f b))) :
    ∀ id q, P.mach.sys.inflight.get? id = some q → ρ.rank f ≤ ρ.rank q.fn ∧ ¬ (q.fn = f ∧ q.bound = b) := by
  intro id q hq
  rcases h.inflight id q hq with h0 | ⟨h1, j, p, rep, h2, h3⟩
  · have := (h.outer id q h0).2
    exact ⟨Nat.le_of_lt this, fun hc => by rw [hc.1] at this; exact Nat.lt_irrefl _ this⟩
  refine ⟨by rw [h1]; exact Nat.le_refl _, fun hc => ?_⟩
  rw [hc.2] at h2
  have := nodup_index hp.distinct hi h2
  subst this
  rw [ht] at h3
  cases h3

/-- the files that are reported because of a task that returns -/
theorem PoolOk.step_files {m0 : Mach B R} {P : Pool B R} (hw : WellBehaved sg script ρ) (hp : ρ.Parallel sg script ds f bs after)
    (hleaf : ρ.leaf f) (h : PoolOk sg script ρ vers ds f bs after m0 P) {clk : Nat → Nat} {limit : Nat} {i : Nat}
    {b : B} (hi : bs[i]? = some b) {t t' : Task B R} (ht : P.tasks[i]? = some t)
    (ht' : (P.step sg script clk limit after i).tasks[i]? = some t') {r : R} (hr : t.result = none)
    (hr' : t'.result = some (some r)) (mine : Bool) :
    FilesOk ρ (leafTrail sg script ds (cleanCall sg script ds ρ.depth) f b (before sg script ρ ds f bs m0.files i))
      ((if mine then t.reported else .none).add (callFiles sg f b r (P.step sg script clk limit after i).mach))
      (P.step sg script clk limit after i).mach.files := by
  have hds : ρ.Respects ds := h.digests ▸ h.good.ds
  have hilt := (List.getElem?_eq_some_iff.1 ht).1
  unfold Pool.step at ht' ⊢
  rw [ht] at ht' ⊢
  simp only at ht' ⊢
  split at ht'
  case isFalse =>
    rw [ht] at ht'
    cases ht'
    rw [hr] at hr'
    cases hr'
  rename_i hgo
  rw [if_pos hgo]
  simp only [List.getElem?_set_self hilt, Option.some.injEq] at ht'
  subst ht'
  simp only
  have hT := h.get hi ht
  cases hT with
  | fresh hown =>
    have hready : ∀ j ∈ after i, ∃ t, P.tasks[j]? = some t ∧ t.result.isSome := by
      rcases hgo with hgo | hgo
      · cases hgo
      · intro j hj
        have := List.all_eq_true.1 hgo j hj
        cases hj' : P.tasks[j]? with
        | none => rw [hj'] at this; cases this
        | some t => rw [hj'] at this; exact ⟨t, rfl, this⟩
    have h1 := start_files h.good hw (h.ids hp hi ht) (clk := clk) (limit := limit) hleaf hr'
    rw [h.digests, leafTrail_agree hw hds hp hi (h.agree hw hp hi ht hready)] at h1
    have h2 : (if mine then (Task.new (callTask f b) : Task B R).reported else .none) = .none := by cases mine <;> rfl
    rw [h2]
    exact h1
  | finished o ho hown => rw [result_back] at hr; cases hr
  | running p id rep q hrun =>
    have hinner : ∀ (p' : Prog B R) (rep' : Reports) m',
        Task.step sg script clk limit ⟨p, [⟨id, false, f, b, back, rep⟩], true⟩ P.mach = (⟨p', [⟨id, false, f, b, back, rep'⟩], true⟩, m') →
        False := by
      intro p' rep' m' heq
      rw [heq] at hr'
      simp only [result_running] at hr'
      cases hr'
    cases p with
    | ret r0 =>
      obtain ⟨_, h1, h2⟩ := h.done hw hp hi ht hrun
      have hst : Task.step sg script clk limit ⟨.ret r0, [⟨id, false, f, b, back, rep⟩], true⟩ P.mach =
        Task.done sg r0 ⟨id, false, f, b, back, rep⟩ [] P.mach := rfl
      rw [hst] at hr' ⊢
      rw [h1, result_back] at hr'
      cases hr'
      obtain ⟨h3, h4⟩ := h2 hleaf
      rw [leafTrail_agree hw hds hp hi hrun.start] at h3 h4
      refine ⟨fun x hx => List.mem_append_right _ (h3.srcs x hx), fun x hx => List.mem_append_right _ (h3.dsts x hx), ?_⟩
      intro x hx
      rcases List.mem_append.1 hx with hx | hx
      · cases mine with
        | false => cases hx
        | true => exact .inl (h4 x hx)
      · exact h3.back x hx
    | raise => cases hr'
    | callD d g c k => exact absurd hrun.flat (by simp [Flat])
    | report srcs dsts k => exact (hinner _ _ _ rfl).elim
    | read x k => exact (hinner _ _ _ rfl).elim
    | write x c k => exact (hinner _ _ _ rfl).elim

/-- a task that has finished makes no steps -/
theorem step_finished {P : Pool B R} {clk : Nat → Nat} {limit : Nat} {i : Nat} {t : Task B R} (ht : P.tasks[i]? = some t)
    (hr : t.result.isSome) : P.step sg script clk limit after i = P := by
  unfold Pool.step
  rw [ht]
  simp only
  split
  case isFalse => rfl
  have hset : P.tasks.set i t = P.tasks := by
    obtain ⟨hlt, heq⟩ := List.getElem?_eq_some_iff.1 ht
    rw [← heq]
    exact List.set_getElem_self hlt
  have hst : Task.step sg script clk limit t P.mach = (t, P.mach) := by
    obtain ⟨cur, frames, s⟩ := t
    cases frames with
    | cons fr fs => rw [result_running] at hr; cases hr
    | nil => cases cur <;> first | rfl | cases hr
  rw [hst, hset]

/-- the other tasks -/
theorem step_other {P : Pool B R} {clk : Nat → Nat} {limit : Nat} {i j : Nat} (hij : i ≠ j) :
    (P.step sg script clk limit after i).tasks[j]? = P.tasks[j]? := by
  unfold Pool.step
  cases P.tasks[i]? with
  | none => rfl
  | some t =>
    simp only
    split
    · exact List.getElem?_set_ne hij
    · rfl

/-- the files of the tasks that have returned -/
def GotOk (sg : Sig B R) (script : Script B R) (ρ : Layout B) (ds : FunName → Option Digest) (f : FunName) (bs : List B) (F0 : Files)
    (C : Crew B R) : Prop :=
  ∀ (i : Nat) b t r, bs[i]? = some b → C.pool.tasks[i]? = some t → t.result = some (some r) →
    FilesOk ρ (leafTrail sg script ds (cleanCall sg script ds ρ.depth) f b (before sg script ρ ds f bs F0 i)) (C.got i) C.pool.mach.files

theorem Crew.step_pool (clk : Nat → Nat) (limit : Nat) (mine : Nat → Bool) (C : Crew B R) (i : Nat) :
    (C.step sg script clk limit after mine f bs i).pool = C.pool.step sg script clk limit after i := by
  unfold Crew.step
  simp only
  split <;> rfl

theorem crew_pool (clk : Nat → Nat) (limit : Nat) (mine : Nat → Bool) (order : List Nat) (C : Crew B R) :
    (order.foldl (Crew.step sg script clk limit after mine f bs) C).pool = C.pool.run sg script clk limit after order := by
  induction order generalizing C with
  | nil => rfl
  | cons i order ih =>
    rw [List.foldl_cons, ih, Crew.step_pool]
    rfl

theorem GotOk.step {m0 : Mach B R} {C : Crew B R} (hw : WellBehaved sg script ρ) (hp : ρ.Parallel sg script ds f bs after)
    (hleaf : ρ.leaf f) (h : PoolOk sg script ρ vers ds f bs after m0 C.pool) (hC : GotOk sg script ρ ds f bs m0.files C)
    (clk : Nat → Nat) (limit : Nat) (mine : Nat → Bool) (i : Nat) :
    GotOk sg script ρ ds f bs m0.files (C.step sg script clk limit after mine f bs i) := by
  intro j b t' r hj ht' hr'
  rw [Crew.step_pool] at ht' ⊢
  have hkeep : ∀ {T : Trail} {rep : Reports}, FilesOk ρ T rep C.pool.mach.files →
      FilesOk ρ T rep (C.pool.step sg script clk limit after i).mach.files := fun hF =>
    ⟨hF.srcs, hF.dsts, fun x hx => (hF.back x hx).imp_right fun hk => ⟨hk.1, h.keeps clk limit i hk.1 hk.2⟩⟩
  by_cases hij : i = j
  · subst hij
    obtain ⟨t, ht, _⟩ := h.tasks i b hj
    have hgot : (C.step sg script clk limit after mine f bs i).got i =
        (crewFiles sg f b (mine i) t t' (C.pool.step sg script clk limit after i).mach).getD (C.got i) := by
      unfold Crew.step
      simp only [ht, ht', hj, if_pos]
    rw [hgot]
    cases hres : t.result with
    | none =>
      have : crewFiles sg f b (mine i) t t' (C.pool.step sg script clk limit after i).mach =
          some ((if mine i then t.reported else .none).add (callFiles sg f b r (C.pool.step sg script clk limit after i).mach)) := by
        unfold crewFiles
        rw [hres, hr']
      rw [this]
      exact h.step_files hw hp hleaf hj ht ht' hres hr' _
    | some o =>
      have hsame := step_finished (sg := sg) (script := script) (after := after) (clk := clk) (limit := limit) ht (by rw [hres]; rfl)
      rw [hsame, ht] at ht'
      cases ht'
      have : crewFiles sg f b (mine i) t' t' (C.pool.step sg script clk limit after i).mach = none := by
        unfold crewFiles
        rw [hres]
      rw [this]
      exact hkeep (hC i b t' r hj ht hr')
  · rw [step_other hij] at ht'
    have hgot : (C.step sg script clk limit after mine f bs i).got j = C.got j := by
      unfold Crew.step
      simp only
      split
      · simp only
        rw [if_neg (fun h => hij h.symm)]
      · rfl
    rw [hgot]
    exact hkeep (hC j b t' r hj ht' hr')

theorem crew_ok {m0 : Mach B R} {C : Crew B R} (hw : WellBehaved sg script ρ) (hp : ρ.Parallel sg script ds f bs after)
    (hleaf : ρ.leaf f) (h : PoolOk sg script ρ vers ds f bs after m0 C.pool) (hC : GotOk sg script ρ ds f bs m0.files C)
    {clk : Nat → Nat} {limit : Nat} (hl : 0 < limit) {mine : Nat → Bool} {order : List Nat}
    (he : EditsOk vers (C.pool.run sg script clk limit after order).mach.trace) :
    PoolOk sg script ρ vers ds f bs after m0 (order.foldl (Crew.step sg script clk limit after mine f bs) C).pool ∧
      GotOk sg script ρ ds f bs m0.files (order.foldl (Crew.step sg script clk limit after mine f bs) C) := by
  induction order generalizing C with
  | nil => exact ⟨h, hC⟩
  | cons i order ih =>
    obtain ⟨n1, h1⟩ := poolRun_trace (sg := sg) (script := script) clk limit after order (C.pool.step sg script clk limit after i)
    have hs := h.step hw hp hl i (EditsOk.sub (tr' := (C.pool.run sg script clk limit after (i :: order)).mach.trace) he h1)
    rw [List.foldl_cons]
    refine ih ?_ (hC.step hw hp hleaf h clk limit mine i) ?_
    · rw [Crew.step_pool]; exact hs
    · rw [Crew.step_pool]; exact he

/-! ### The calls one after the other -/

/-- the results of `cleanMap`, if no call raises -/
theorem mapProg_clean (callC : FunName → B → Files → Option R × Files) (fin : List R → R) (bs : List B) (rs ss : List R) (fs : Files)
    (h : (cleanMap (callC f) bs fs).1 = ss.map some) :
    cleanProg callC (mapProg f fin bs rs) fs = (some (fin (rs ++ ss)), (cleanMap (callC f) bs fs).2) := by
  induction bs generalizing rs ss fs with
  | nil =>
    cases ss with
    | nil => simp [mapProg, cleanProg, cleanMap]
    | cons s ss => simp [cleanMap] at h
  | cons b bs ih =>
    cases ss with
    | nil => simp [cleanMap] at h
    | cons s ss =>
      simp only [cleanMap, List.map_cons, List.cons.injEq] at h
      simp only [mapProg, cleanProg, cleanMap, h.1]
      rw [ih (rs ++ [s]) ss _ h.2, List.append_assoc]
      rfl

theorem mapProg_trail (callC : FunName → B → Files → Option R × Files) (callT : FunName → B → Files → Trail) (fin : List R → R)
    (bs : List B) (rs ss : List R) (fs : Files) (h : (cleanMap (callC f) bs fs).1 = ss.map some) (x : FileName) :
    (x ∈ (trail callC callT (mapProg f fin bs rs) fs).srcs ↔
      ∃ i b, bs[i]? = some b ∧ x ∈ (callT f b (cleanMap (callC f) (bs.take i) fs).2).srcs) ∧
    (x ∈ (trail callC callT (mapProg f fin bs rs) fs).dsts ↔
      ∃ i b, bs[i]? = some b ∧ x ∈ (callT f b (cleanMap (callC f) (bs.take i) fs).2).dsts) := by
  induction bs generalizing rs ss fs with
  | nil => simp [mapProg, trail, Trail.none]
  | cons b bs ih =>
    cases ss with
    | nil => simp [cleanMap] at h
    | cons s ss =>
      simp only [cleanMap, List.map_cons, List.cons.injEq] at h
      obtain ⟨h1, h2⟩ := ih (rs ++ [s]) ss _ h.2
      have split : ∀ P : Nat → B → Prop, (∃ i c, (b :: bs)[i]? = some c ∧ P i c) ↔ P 0 b ∨ ∃ i c, bs[i]? = some c ∧ P (i + 1) c := by
        intro P
        constructor
        · rintro ⟨i, c, hi, hP⟩
          cases i with
          | zero => simp at hi; subst hi; exact .inl hP
          | succ i => exact .inr ⟨i, c, by simpa using hi, hP⟩
        · rintro (hP | ⟨i, c, hi, hP⟩)
          · exact ⟨0, b, rfl, hP⟩
          · exact ⟨i + 1, c, by simpa using hi, hP⟩
      simp only [mapProg, trail, if_true, Trail.add, List.mem_append, h.1, h1, h2]
      rw [split (fun i c => x ∈ (callT f c (cleanMap (callC f) ((b :: bs).take i) fs).2).srcs),
        split (fun i c => x ∈ (callT f c (cleanMap (callC f) ((b :: bs).take i) fs).2).dsts)]
      exact ⟨.rfl, .rfl⟩

theorem cleanMap_length (c : B → Files → Option R × Files) (bs : List B) (fs : Files) : (cleanMap c bs fs).1.length = bs.length := by
  induction bs generalizing fs with
  | nil => rfl
  | cons b bs ih => simp [cleanMap, ih]

/-! ### When all tasks have finished -/

theorem returned_map {tasks : List (Task B R)} {rs : List R} (h : returned tasks = some rs) :
    tasks.map Task.result = rs.map fun r => some (some r) := by
  induction tasks generalizing rs with
  | nil =>
    simp only [returned, Option.some.injEq] at h
    subst h
    rfl
  | cons t ts ih =>
    unfold returned at h
    split at h
    · rename_i r rs' h1 h2
      simp only [Option.some.injEq] at h
      subst h
      rw [List.map_cons, List.map_cons, h1, ih h2]
    · cases h

theorem PoolOk.results {m0 : Mach B R} {P : Pool B R} (h : PoolOk sg script ρ vers ds f bs after m0 P)
    (hf : ∀ t ∈ P.tasks, t.result.isSome) :
    P.tasks.map Task.result = (cleanMap (cleanCall sg script ds ρ.depth f) bs m0.files).1.map some := by
  apply List.ext_getElem?
  intro i
  rw [List.getElem?_map, List.getElem?_map]
  cases hb : bs[i]? with
  | none =>
    have hi := List.getElem?_eq_none_iff.1 hb
    rw [List.getElem?_eq_none (by rw [h.len]; exact hi), List.getElem?_eq_none (by rw [cleanMap_length]; exact hi)]
    rfl
  | some b =>
    obtain ⟨t, ht, hok⟩ := h.tasks i b hb
    have ho := hf t (List.mem_of_getElem? ht)
    rw [ht, (cleanMap_get _ bs m0.files hb).2]
    cases hok with
    | fresh hown => rw [result_new] at ho; cases ho
    | running p id rep q hr => rw [result_running] at ho; cases ho
    | finished o ho' hown => simp only [Option.map_some, result_back]; rw [ho']

theorem PoolOk.files {m0 : Mach B R} {P : Pool B R} (hw : WellBehaved sg script ρ) (hp : ρ.Parallel sg script ds f bs after)
    (h : PoolOk sg script ρ vers ds f bs after m0 P) (hf : ∀ t ∈ P.tasks, t.result.isSome) :
    P.mach.files = (cleanMap (cleanCall sg script ds ρ.depth f) bs m0.files).2 := by
  have hds : ρ.Respects ds := h.digests ▸ h.good.ds
  funext x
  by_cases hex : ∃ b ∈ bs, ρ.owner x = some (f, b)
  · obtain ⟨b, hb, hx⟩ := hex
    obtain ⟨i, hi⟩ := List.mem_iff_getElem?.1 hb
    obtain ⟨t, ht, hok⟩ := h.tasks i b hi
    have ho := hf t (List.mem_of_getElem? ht)
    cases hok with
    | fresh hown => rw [result_new] at ho; cases ho
    | running p id rep q hr => rw [result_running] at ho; cases ho
    | finished o ho' hown =>
      rw [hown x hx]
      have hlen := (List.getElem?_eq_some_iff.1 hi).1
      have := before_eq (F0 := m0.files) (x := x) hw hds hp (i := i + 1) (k := bs.length) (by omega) ?_
      · rw [← this, before, List.take_length]
      · intro j c h1 h2 hc hxc
        rw [hx] at hxc
        cases hxc
        have := nodup_index hp.distinct hi hc
        omega
  · have hno : ∀ b ∈ bs, ρ.owner x ≠ some (f, b) := fun b hb hx => hex ⟨b, hb, hx⟩
    rw [h.foreign x hno]
    have := before_eq (F0 := m0.files) (x := x) hw hds hp (i := 0) (k := bs.length) (by omega)
      (fun j b _ _ hb => hno b (List.mem_of_getElem? hb))
    rw [before, List.take_length] at this
    exact this.symm

theorem PoolOk.quiet {m0 : Mach B R} {P : Pool B R} (h : PoolOk sg script ρ vers ds f bs after m0 P)
    (hf : ∀ t ∈ P.tasks, t.result.isSome) (id : Nat) : P.mach.sys.inflight.get? id = m0.sys.inflight.get? id := by
  cases hq : m0.sys.inflight.get? id with
  | some q => exact (h.outer id q hq).1
  | none =>
    cases hq' : P.mach.sys.inflight.get? id with
    | none => rfl
    | some q =>
      rcases h.inflight id q hq' with h1 | ⟨_, i, p, rep, _, ht⟩
      · rw [hq] at h1; cases h1
      · have := hf _ (List.mem_of_getElem? ht)
        rw [result_running] at this
        cases this

/-! ### The function that makes the calls -/

theorem noteN_append {ex : List (List FunName)} (h : ex ≠ []) (j : Nat) (base : List (List FunName)) :
    noteN f j (ex ++ base) = noteN f j ex ++ base ∧ noteN f j ex ≠ [] := by
  induction j with
  | zero => exact ⟨rfl, h⟩
  | succ j ih =>
    refine ⟨?_, ?_⟩
    · rw [noteN, ih.1, noteCall_append ih.2]
      rfl
    · simp only [noteN]
      cases hn : noteN f j ex with
      | nil => exact absurd hn ih.2
      | cons l l' => simp [noteCall]

theorem Below.noteN {g : FunName} {ex : List (List FunName)} (h : Below ρ g ex) (hf : (ρ.lib f).isSome)
    (hr : ρ.rank f < ρ.rank g) (j : Nat) : Below ρ g (noteN f j ex) := by
  induction j with
  | zero => exact h
  | succ j ih => exact ih.note hf hr

theorem mapRun_ok (hw : WellBehaved sg script ρ) {g : FunName} {c : B} {fin : List R → R} {m : Mach B R}
    (hG : ρ.Group sg script m.sys.env.funDigest g c f bs fin after) (h : Good sg script ρ vers m)
    (hid : ∀ id q, m.sys.inflight.get? id = some q → ρ.rank g ≤ ρ.rank q.fn) {clk : Nat → Nat} {limit : Nat} (hl : 0 < limit)
    {mine : Nat → Bool} {order : List Nat}
    (hsome : (mapRun sg script clk limit after mine f bs fin order m).1.isSome)
    (he : EditsOk vers (mapRun sg script clk limit after mine f bs fin order m).2.2.trace) :
    BodyOk sg script ρ vers g c (mapProg f fin bs []) m (mapRun sg script clk limit after mine f bs fin order m) := by
  have hlib := (hw.leaf_lib f hG.leaf).1
  unfold mapRun at hsome he ⊢
  simp only at hsome he ⊢
  have hpool := crew_pool (sg := sg) (script := script) (after := after) (f := f) (bs := bs) clk limit mine order
    (⟨Pool.start m (bs.map (callTask f)), fun _ => .none⟩ : Crew B R)
  have hok := crew_ok (mine := mine) (order := order) (clk := clk) (limit := limit)
    (C := (⟨Pool.start m (bs.map (callTask f)), fun _ => .none⟩ : Crew B R)) hw hG.parallel hG.leaf
    (PoolOk.init h fun id q hq => Nat.lt_of_lt_of_le hG.rank (hid id q hq))
    (by
      intro i b t r hi ht hr
      simp only [Pool.start, List.getElem?_map, hi, Option.map_some, Option.some.injEq] at ht
      subst ht
      cases hr) hl
  rw [← hpool] at hok
  generalize order.foldl (Crew.step sg script clk limit after mine f bs) _ = C at *
  cases hret : returned C.pool.tasks with
  | none => rw [hret] at hsome; cases hsome
  | some rs =>
    rw [hret] at he
    simp only at he ⊢
    obtain ⟨hP, hC⟩ := hok he
    have hmap := returned_map hret
    have hf : ∀ t ∈ C.pool.tasks, t.result.isSome := by
      intro t ht
      have h1 : t.result ∈ C.pool.tasks.map Task.result := List.mem_map_of_mem ht
      rw [hmap] at h1
      obtain ⟨r, _, h2⟩ := List.mem_map.1 h1
      rw [← h2]
      rfl
    have hres : (cleanMap (cleanCall sg script m.sys.env.funDigest ρ.depth f) bs m.files).1 = rs.map some := by
      have h1 := hP.results hf
      rw [hmap] at h1
      have h2 : (rs.map some).map some = (cleanMap (cleanCall sg script m.sys.env.funDigest ρ.depth f) bs m.files).1.map some := by
        rw [← h1, List.map_map]
        rfl
      exact (List.map_inj_right (fun a b h => Option.some.inj h)).1 h2.symm
    have hgot : ∀ (i : Nat) b, bs[i]? = some b → FilesOk ρ
        (leafTrail sg script m.sys.env.funDigest (cleanCall sg script m.sys.env.funDigest ρ.depth) f b
          (before sg script ρ m.sys.env.funDigest f bs m.files i)) (C.got i) C.pool.mach.files := by
      intro i b hi
      obtain ⟨t, ht, _⟩ := hP.tasks i b hi
      have h1 : (C.pool.tasks.map Task.result)[i]? = some t.result := by rw [List.getElem?_map, ht]; rfl
      rw [hmap, List.getElem?_map] at h1
      cases hr : rs[i]? with
      | none => rw [hr] at h1; cases h1
      | some r =>
        rw [hr] at h1
        exact hC i b t r hi ht (Option.some.inj h1).symm
    refine ⟨⟨hP.good, hP.quiet hf, hP.digests, hP.md5, ?_⟩, ?_, ?_, ?_, ?_, ?_, ?_⟩
    · obtain ⟨new, h1, h2, h3⟩ := hP.log
      exact ⟨new, h1, fun e he => by rw [h2 e he]; exact hG.rank, h3⟩
    · rw [mapProg_clean _ fin bs [] rs m.files hres]
      simp only [List.nil_append]
      rw [hP.files hw hG.parallel hf]
    · intro ex base h1 h2 h3
      obtain ⟨ex', j, h4, h5, _⟩ := hP.stack
      obtain ⟨h6, h7⟩ := noteN_append (f := f) h2 j base
      refine ⟨ex' ++ noteN f j ex, ?_, ?_, ?_⟩
      · simp only
        rw [h4, h1, h6, List.append_assoc]
      · intro hc
        exact h7 (List.append_eq_nil_iff.1 hc).2
      · intro l hl x hx
        rcases List.mem_append.1 hl with hl | hl
        · rw [h5 l hl x hx]
          exact ⟨hlib, hG.rank⟩
        · exact (h3.noteN hlib hG.rank j) l hl x hx
    · intro x hx
      obtain ⟨i, hi, hx⟩ := List.mem_flatMap.1 hx
      have hilt : i < bs.length := List.mem_range.1 hi
      rcases (hgot i _ (List.getElem?_eq_getElem hilt)).back x hx with h1 | h1
      · exact .inl ((mapProg_trail _ _ fin bs [] rs m.files hres x).1.2 ⟨i, _, List.getElem?_eq_getElem hilt, h1⟩)
      · exact .inr (.inl h1)
    · intro x hx
      obtain ⟨i, b, hi, hx⟩ := (mapProg_trail _ _ fin bs [] rs m.files hres x).1.1 hx
      exact List.mem_flatMap.2 ⟨i, List.mem_range.2 (List.getElem?_eq_some_iff.1 hi).1, (hgot i b hi).srcs x hx⟩
    · intro x hx
      obtain ⟨i, b, hi, hx⟩ := (mapProg_trail _ _ fin bs [] rs m.files hres x).2.1 hx
      exact List.mem_flatMap.2 ⟨i, List.mem_range.2 (List.getElem?_eq_some_iff.1 hi).1, (hgot i b hi).dsts x hx⟩
    · intro h0
      have := hG.rank
      omega

/-! ### Threads that get enough steps -/

/-- a program that calls no cached functions and ends after at most so many steps -/
def Short : Prog B R → Nat → Prop
  | .ret _, _ => True
  | .raise, _ => True
  | .callD _ _ _ _, _ => False
  | .report _ _ k, n => ∃ n', n = n' + 1 ∧ Short k n'
  | .read _ k, n => ∃ n', n = n' + 1 ∧ ∀ o, Short (k o) n'
  | .write _ _ k, n => ∃ n', n = n' + 1 ∧ Short k n'

/-- the task finishes within `n` steps -/
def Left (f : FunName) (b : B) (N : Nat) (t : Task B R) (n : Nat) : Prop :=
  t.result.isSome ∨ (t = Task.new (callTask f b) ∧ N + 2 ≤ n) ∨
    ∃ p id rep k, t = ⟨p, [⟨id, false, f, b, back, rep⟩], true⟩ ∧ Short p k ∧ k + 1 ≤ n

theorem Left.result {f : FunName} {b : B} {N : Nat} {t : Task B R} (h : Left f b N t 0) : t.result.isSome := by
  rcases h with h | ⟨_, h⟩ | ⟨p, id, rep, k, _, _, h⟩
  · exact h
  · omega
  · omega

theorem Left.step {f : FunName} {b : B} {N n : Nat} {t : Task B R} (h : Left f b N t (n + 1)) (clk : Nat → Nat) (limit : Nat)
    (hs : ∀ code, Short (script f code b) N) (m : Mach B R) : Left f b N (t.step sg script clk limit m).1 n := by
  have hback : ∀ (o : Option R) (s : Bool), (⟨back o, [], s⟩ : Task B R).result.isSome := by
    intro o s
    cases o <;> rfl
  rcases h with h | ⟨rfl, h⟩ | ⟨p, id, rep, k, rfl, hp, hk⟩
  · left
    obtain ⟨cur, frames, s⟩ := t
    cases frames with
    | cons fr fs => rw [result_running] at h; cases h
    | nil => cases cur <;> first | exact h | cases h
  · show Left f b N (Task.call sg script clk limit false f b back [] m).1 n
    unfold Task.call
    simp only
    split
    · exact .inl (hback _ _)
    · refine .inr (.inr ⟨_, _, _, N, rfl, ?_, by omega⟩)
      split
      · exact hs _
      · trivial
    · exact .inl (hback _ _)
  · cases p with
    | ret r =>
      left
      show (Task.done sg r ⟨id, false, f, b, back, rep⟩ [] m).1.result.isSome
      unfold Task.done
      split
      · exact hback none true
      · split
        · exact hback (some r) true
        · exact hback none true
    | raise => exact .inl (hback none _)
    | callD d g c k => exact hp.elim
    | report srcs dsts k' =>
      obtain ⟨n', h1, h2⟩ := hp
      exact .inr (.inr ⟨_, _, _, n', rfl, h2, by omega⟩)
    | read x k' =>
      obtain ⟨n', h1, h2⟩ := hp
      exact .inr (.inr ⟨_, _, _, n', rfl, h2 _, by omega⟩)
    | write x c k' =>
      obtain ⟨n', h1, h2⟩ := hp
      exact .inr (.inr ⟨_, _, _, n', rfl, h2, by omega⟩)

theorem Left.mono {f : FunName} {b : B} {N n n' : Nat} {t : Task B R} (h : Left f b N t n) (hn : n ≤ n') : Left f b N t n' := by
  rcases h with h | ⟨h1, h⟩ | ⟨p, id, rep, k, h1, h2, h⟩
  · exact .inl h
  · exact .inr (.inl ⟨h1, by omega⟩)
  · exact .inr (.inr ⟨p, id, rep, k, h1, h2, by omega⟩)

/-- tasks that do not wait for others finish -/
theorem pool_left {clk : Nat → Nat} {limit : Nat} {N : B → Nat} (hs : ∀ b ∈ bs, ∀ code, Short (script f code b) (N b))
    (order : List Nat) (P : Pool B R) (n : Nat → Nat)
    (h : ∀ (i : Nat) b, bs[i]? = some b → ∃ t, P.tasks[i]? = some t ∧ Left f b (N b) t (n i)) (i : Nat) (b : B) (hi : bs[i]? = some b) :
    ∃ t, (P.run sg script clk limit (fun _ => []) order).tasks[i]? = some t ∧ Left f b (N b) t (n i - order.count i) := by
  induction order generalizing P n with
  | nil => exact h i b hi
  | cons j order ih =>
    have hr : P.run sg script clk limit (fun _ => []) (j :: order) =
      (P.step sg script clk limit (fun _ => []) j).run sg script clk limit (fun _ => []) order := rfl
    rw [hr]
    have := ih (P.step sg script clk limit (fun _ => []) j) (fun i => if j = i then n i - 1 else n i) ?_
    · obtain ⟨t, h1, h2⟩ := this
      refine ⟨t, h1, h2.mono ?_⟩
      rw [List.count_cons]
      by_cases hji : j = i
      · subst hji; simp; omega
      · simp [hji]
    · intro i b hi
      obtain ⟨t, ht, hl⟩ := h i b hi
      by_cases hji : j = i
      · subst hji
        have hlt := (List.getElem?_eq_some_iff.1 ht).1
        have hstep : P.step sg script clk limit (fun _ => []) j =
            ⟨(t.step sg script clk limit P.mach).2, P.tasks.set j (t.step sg script clk limit P.mach).1⟩ := by
          unfold Pool.step
          rw [ht]
          exact if_pos (.inr rfl)
        rw [hstep]
        refine ⟨_, List.getElem?_set_self hlt, ?_⟩
        simp only [if_pos]
        cases hn : n j with
        | zero =>
          rw [hn] at hl
          exact (hl.mono (Nat.zero_le 1)).step clk limit (hs b (List.mem_of_getElem? hi)) _
        | succ k =>
          rw [hn] at hl
          exact hl.step clk limit (hs b (List.mem_of_getElem? hi)) _
      · rw [step_other hji]
        exact ⟨t, ht, by simpa [hji] using hl⟩

/-- every task gets the steps it needs -/
def Fair (script : Script B R) (f : FunName) (bs : List B) (N : B → Nat) (order : List Nat) : Prop :=
  ∀ (i : Nat) b, bs[i]? = some b → (∀ code, Short (script f code b) (N b)) ∧ N b + 2 ≤ order.count i

theorem run_length (clk : Nat → Nat) (limit : Nat) (order : List Nat) (P : Pool B R) :
    (P.run sg script clk limit after order).tasks.length = P.tasks.length := by
  induction order generalizing P with
  | nil => rfl
  | cons i order ih =>
    show ((P.step sg script clk limit after i).run sg script clk limit after order).tasks.length = _
    rw [ih]
    unfold Pool.step
    cases P.tasks[i]? with
    | none => rfl
    | some t =>
      simp only
      split
      · exact List.length_set
      · rfl

theorem fair_finished {clk : Nat → Nat} {limit : Nat} {N : B → Nat} {order : List Nat} (hf : Fair script f bs N order) (m : Mach B R) :
    ∀ t ∈ ((Pool.start m (bs.map (callTask f))).run sg script clk limit (fun _ => []) order).tasks, t.result.isSome := by
  intro t ht
  obtain ⟨i, hi⟩ := List.mem_iff_getElem?.1 ht
  have hlen : ((Pool.start m (bs.map (callTask f))).run sg script clk limit (fun _ => []) order).tasks.length = bs.length := by
    rw [run_length]
    simp [Pool.start]
  have hlt : i < bs.length := hlen ▸ (List.getElem?_eq_some_iff.1 hi).1
  have hb := List.getElem?_eq_getElem hlt
  obtain ⟨t', h1, h2⟩ := pool_left (sg := sg) (script := script) (clk := clk) (limit := limit) (N := N)
    (fun b hb => by obtain ⟨k, hk⟩ := List.mem_iff_getElem?.1 hb; exact (hf k b hk).1) order
    (Pool.start m (bs.map (callTask f))) (fun i => order.count i) (by
      intro i b hi
      refine ⟨Task.new (callTask f b), by simp [Pool.start, hi], .inr (.inl ⟨rfl, (hf i b hi).2⟩)⟩) i _ hb
  rw [hi] at h1
  cases h1
  rw [Nat.sub_self] at h2
  exact h2.result

/-- the converse of `mapProg_clean` -/
theorem mapProg_some (callC : FunName → B → Files → Option R × Files) (fin : List R → R) (bs : List B) (rs : List R) (fs : Files)
    (h : (cleanProg callC (mapProg f fin bs rs) fs).1.isSome) :
    ∃ ss : List R, (cleanMap (callC f) bs fs).1 = ss.map some := by
  induction bs generalizing rs fs with
  | nil => exact ⟨[], rfl⟩
  | cons b bs ih =>
    simp only [mapProg, cleanProg] at h
    cases hc : (callC f b fs).1 with
    | none => rw [hc] at h; cases h
    | some r =>
      rw [hc] at h
      obtain ⟨ss, h1⟩ := ih _ _ h
      exact ⟨r :: ss, by simp only [cleanMap, hc, h1, List.map_cons]⟩

theorem returned_of {tasks : List (Task B R)} {rs : List R} (h : tasks.map Task.result = rs.map fun r => some (some r)) :
    returned tasks = some rs := by
  induction tasks generalizing rs with
  | nil =>
    cases rs with
    | nil => rfl
    | cons r rs => cases h
  | cons t ts ih =>
    cases rs with
    | nil => cases h
    | cons r rs =>
      simp only [List.map_cons, List.cons.injEq] at h
      unfold returned
      rw [h.1, ih h.2]

/-- A call of a function that makes its calls in threads, if it returns. -/
theorem group_ok (hw : WellBehaved sg script ρ) {g : FunName} {c : B} {fin : List R → R} {m : Mach B R}
    (hG : ρ.Group sg script m.sys.env.funDigest g c f bs fin after) (h : Good sg script ρ vers m)
    (hid : ∀ id q, m.sys.inflight.get? id = some q → ρ.rank g < ρ.rank q.fn) {clk : Nat → Nat} {limit : Nat} (hl : 0 < limit)
    {mine : Nat → Bool} {order : List Nat}
    (hsome : (groupCall sg script clk limit after mine f bs fin order g c m).1.isSome)
    (he : EditsOk vers (groupCall sg script clk limit after mine f bs fin order g c m).2.2.trace) :
    CallOk sg script ρ vers g c m (groupCall sg script clk limit after mine f bs fin order g c m) := by
  refine ask_ok hw clk _ g c m h hid he ?_
  intro m' code _ hc hd _ hg _ hidm hn hed
  rw [hG.calls code hc]
  refine mapRun_ok hw (by rw [hd]; exact hG) hg hidm hl ?_ hed
  cases ho : (mapRun sg script clk limit after mine f bs fin order m').1 with
  | some r => rfl
  | none =>
    have := hn ho
    unfold groupCall at hsome
    rw [this] at hsome
    cases hsome

/-- The function returns if all its calls do and the threads get enough steps. -/
theorem mapRun_some (hw : WellBehaved sg script ρ) {g : FunName} {c : B} {fin : List R → R} {m : Mach B R}
    (hG : ρ.Group sg script m.sys.env.funDigest g c f bs fin fun _ => []) (h : Good sg script ρ vers m)
    (hid : ∀ id q, m.sys.inflight.get? id = some q → ρ.rank g ≤ ρ.rank q.fn) {clk : Nat → Nat} {limit : Nat} (hl : 0 < limit)
    {mine : Nat → Bool} {N : B → Nat} {order : List Nat} (hfair : Fair script f bs N order)
    (hclean : (cleanProg (cleanCall sg script m.sys.env.funDigest ρ.depth) (mapProg f fin bs []) m.files).1.isSome)
    (he : EditsOk vers (mapRun sg script clk limit (fun _ => []) mine f bs fin order m).2.2.trace) :
    (mapRun sg script clk limit (fun _ => []) mine f bs fin order m).1.isSome := by
  obtain ⟨ss, hss⟩ := mapProg_some _ fin bs [] m.files hclean
  unfold mapRun at he ⊢
  simp only at he ⊢
  have hpool := crew_pool (sg := sg) (script := script) (after := fun _ => []) (f := f) (bs := bs) clk limit mine order
    (⟨Pool.start m (bs.map (callTask f)), fun _ => .none⟩ : Crew B R)
  have hfin := fair_finished (sg := sg) (clk := clk) (limit := limit) hfair m
  have hrun := run_ok (order := order) (clk := clk) (limit := limit) hw hG.parallel (PoolOk.init h fun id q hq => Nat.lt_of_lt_of_le hG.rank (hid id q hq)) hl
  simp only at hpool
  rw [← hpool] at hfin hrun
  generalize order.foldl (Crew.step sg script clk limit (fun _ => []) mine f bs) _ = C at *
  have hP := hrun (by
    cases hret : returned C.pool.tasks with
    | none => rw [hret] at he; exact he
    | some rs => rw [hret] at he; exact he)
  have hres := hP.results hfin
  rw [hss, List.map_map] at hres
  rw [returned_of (rs := ss) hres]
  rfl

/-- A call of such a function, if it returns without a database and the threads get enough steps. -/
theorem group_fair (hw : WellBehaved sg script ρ) {g : FunName} {c : B} {fin : List R → R} {m : Mach B R}
    (hG : ρ.Group sg script m.sys.env.funDigest g c f bs fin fun _ => []) (h : Good sg script ρ vers m)
    (hid : ∀ id q, m.sys.inflight.get? id = some q → ρ.rank g < ρ.rank q.fn) {clk : Nat → Nat} {limit : Nat} (hl : 0 < limit)
    {mine : Nat → Bool} {N : B → Nat} {order : List Nat} (hfair : Fair script f bs N order)
    (hclean : (cleanCall sg script m.sys.env.funDigest ρ.depth g c m.files).1.isSome)
    (he : EditsOk vers (groupCall sg script clk limit (fun _ => []) mine f bs fin order g c m).2.2.trace) :
    CallOk sg script ρ vers g c m (groupCall sg script clk limit (fun _ => []) mine f bs fin order g c m) := by
  refine ask_ok hw clk _ g c m h hid he ?_
  intro m' code _ hc hd hfs hg _ hidm hn hed
  rw [hG.calls code hc]
  have hG' : ρ.Group sg script m'.sys.env.funDigest g c f bs fin fun _ => [] := by rw [hd]; exact hG
  refine mapRun_ok hw hG' hg hidm hl (mapRun_some hw hG' hg hidm hl hfair ?_ hed) hed
  rw [cleanCall_unfold hw h.ds hc] at hclean
  split at hclean
  · rw [hG.calls code hc] at hclean
    rw [hd, hfs]
    exact hclean
  · cases hclean

/-! ### A call that fails while others return -/

/-- a call whose body raises, but may have changed files of others -/
theorem ask_failed (hw : WellBehaved sg script ρ) (clk : Nat → Nat) (run : Mach B R → Outcome B R) (f : FunName) (b : B) (m : Mach B R)
    (h : Good sg script ρ vers m)
    (hid : ∀ id p, m.sys.inflight.get? id = some p → ρ.rank f < ρ.rank p.fn)
    (he : EditsOk vers (askCall sg clk run f b m).2.2.trace) (hnone : (run (bodyAt sg clk f b m)).1 = none)
    (hrun : Good sg script ρ vers (bodyAt sg clk f b m) →
      (∀ id q, (bodyAt sg clk f b m).sys.inflight.get? id = some q → ρ.rank f ≤ ρ.rank q.fn) →
      (bodyAt sg clk f b m).sys.env.funDigest = m.sys.env.funDigest →
      ((bodyAt sg clk f b m).sys.inflight.get? m.next).isSome →
      (∀ id, id ≠ m.next → (bodyAt sg clk f b m).sys.inflight.get? id = m.sys.inflight.get? id ∧
        (run (bodyAt sg clk f b m)).2.2.sys.inflight.get? id = (askCall sg clk run f b m).2.2.sys.inflight.get? id) →
      EditsOk vers (run (bodyAt sg clk f b m)).2.2.trace →
      Ran sg script ρ vers (fun g => ρ.rank g < ρ.rank f) (bodyAt sg clk f b m) (run (bodyAt sg clk f b m)) ∧
        ∀ x, ρ.owner x = some (f, b) → (run (bodyAt sg clk f b m)).2.2.files x = (bodyAt sg clk f b m).files x) :
    Ran sg script ρ vers (fun g => ρ.rank g ≤ ρ.rank f) m (askCall sg clk run f b m) := by
  have hsame : (Mach.event sg (.prepare m.next f b) (({ m with stack := noteCall f m.stack, next := m.next + 1 } : Mach B R).event
        sg (.tick (clk m.next))).2).1 ≠ .run →
      askCall sg clk run f b m = callFn sg script clk (ρ.rank f + 1) f b m := by
    intro hno
    unfold callFn askCall
    simp only
    generalize Mach.event sg (.prepare m.next f b) _ = Y at hno ⊢
    obtain ⟨o, m2⟩ := Y
    cases o <;> first | rfl | exact absurd rfl hno
  have hother : askCall sg clk run f b m = callFn sg script clk (ρ.rank f + 1) f b m →
      Ran sg script ρ vers (fun g => ρ.rank g ≤ ρ.rank f) m (askCall sg clk run f b m) := by
    intro heq
    rw [heq] at he ⊢
    exact (call_ok hw clk _ f b m h (Nat.lt_succ_self _) hid he).toRan
  have h1 := (h.stack (noteCall f m.stack) (Nat.le_refl _)).tick (clk m.next)
  generalize hm1 : (({ m with stack := noteCall f m.stack } : Mach B R).event sg (.tick (clk m.next))).2 = m1 at h1
  have d1 : m1.sys.env.funDigest = m.sys.env.funDigest := by rw [← hm1]; rfl
  have md1 : m1.sys.env.md5 = m.sys.env.md5 := by rw [← hm1]; rfl
  have f1 : m1.files = m.files := by rw [← hm1]; rfl
  have db1 : m1.sys.db = m.sys.db := by rw [← hm1]; rfl
  have l1 : m1.sys.log = m.sys.log := by rw [← hm1]; rfl
  have i1 : m1.sys.inflight = m.sys.inflight := by rw [← hm1]; rfl
  have n1 : m1.next = m.next := by rw [← hm1]; rfl
  have hid' : ∀ id p, m.sys.inflight.get? id = some p → ρ.rank f ≤ ρ.rank p.fn ∧ ¬ (p.fn = f ∧ p.bound = b) := by
    intro id p hp
    have := hid id p hp
    refine ⟨Nat.le_of_lt this, ?_⟩
    rintro ⟨rfl, _⟩
    omega
  have hP := h1.prepare hw f b (by rw [i1]; exact hid') (id := m.next) (by rw [n1]; exact Nat.le_refl _)
  have hal := fun g c y => h1.prepare_alive (sg := sg) m.next f b g c y
  rw [db1] at hal
  have hX : Mach.event sg (.prepare m.next f b) (({ m with stack := noteCall f m.stack, next := m.next + 1 } : Mach B R).event
        sg (.tick (clk m.next))).2 = ((m1.event sg (.prepare m.next f b)).1,
      { (m1.event sg (.prepare m.next f b)).2 with next := m.next + 1 }) := by
    rw [← hm1]; rfl
  have hbs : bodyAt sg clk f b m = { (m1.event sg (.prepare m.next f b)).2 with
      next := m.next + 1, stack := [] :: (m1.event sg (.prepare m.next f b)).2.stack } := by
    rw [← hm1]; rfl
  rw [hX] at hsame
  have hnot : (m1.event sg (.prepare m.next f b)).1 ≠ .run → Ran sg script ρ vers (fun g => ρ.rank g ≤ ρ.rank f) m (askCall sg clk run f b m) := by
    intro hne
    exact hother (hsame hne)
  rcases hP with ⟨_, e, hY, _⟩ | ⟨code, hc, hl, henv, hcases⟩
  · exact hnot (by rw [hY]; exact fun h => by cases h)
  rcases hcases with ⟨e, hY, _⟩ | ⟨r, hY, _⟩ | ⟨hY, hsrc, hg, p, hin, hfn, hbd, hco, hfs0, hstart, hnoted⟩
  · exact hnot (by rw [hY]; exact fun h => by cases h)
  · exact hnot (by rw [hY]; exact fun h => by cases h)
  have hY1 : (m1.event sg (.prepare m.next f b)).1 = .run := congrArg Prod.fst hY
  -- the function runs
  have hask : askCall sg clk run f b m = (none, (run (bodyAt sg clk f b m)).2.1,
      ((run (bodyAt sg clk f b m)).2.2.event sg (.fail m.next)).2) := by
    have e1 : askCall sg clk run f b m = runCall sg run m.next { (m1.event sg (.prepare m.next f b)).2 with next := m.next + 1 } := by
      unfold askCall
      simp only [hX, hY1]
    rw [e1]
    unfold runCall
    have e2 : ({ ({ (m1.event sg (.prepare m.next f b)).2 with next := m.next + 1 } : Mach B R) with
        stack := [] :: (m1.event sg (.prepare m.next f b)).2.stack } : Mach B R) = bodyAt sg clk f b m := hbs.symm
    simp only at e2 ⊢
    rw [e2]
    generalize run (bodyAt sg clk f b m) = Z at hnone ⊢
    obtain ⟨o, rep, m4⟩ := Z
    cases hnone
    rfl
  have hsysb : (bodyAt sg clk f b m).sys = (m1.event sg (.prepare m.next f b)).2.sys := by rw [hbs]
  have hgb : Good sg script ρ vers (bodyAt sg clk f b m) := by
    rw [hbs]
    exact hg.stack _ (Nat.le_refl (m.next + 1))
  have hinb : (bodyAt sg clk f b m).sys.inflight = m.sys.inflight.set m.next p := by rw [hsysb, hin, i1]
  have hfiles : (bodyAt sg clk f b m).files = m.files := by
    rw [← f1]
    show (bodyAt sg clk f b m).sys.env.fs.content = _
    rw [hsysb, henv]
    rfl
  have hdig : (bodyAt sg clk f b m).sys.env.funDigest = m.sys.env.funDigest := by rw [hsysb, henv, d1]
  have he4 : EditsOk vers (run (bodyAt sg clk f b m)).2.2.trace := by
    rw [hask] at he
    exact EditsOk.sub (new := [((run (bodyAt sg clk f b m)).2.2.sys, .fail m.next)]) he rfl
  obtain ⟨hR, hown⟩ := hrun hgb
    (by
      intro id q hq
      rw [hinb, Dict.get?_set] at hq
      split at hq
      · cases hq; rw [hfn]; exact Nat.le_refl _
      · exact Nat.le_of_lt (hid id q hq))
    hdig (by rw [hinb, Dict.get?_set, if_pos rfl]; rfl)
    (by
      intro id hne
      refine ⟨by rw [hinb, Dict.get?_set, if_neg (by first | exact hne | exact fun h => hne h.symm)], ?_⟩
      rw [hask]
      show _ = ((run (bodyAt sg clk f b m)).2.2.sys.inflight.erase m.next).get? id
      rw [Dict.get?_erase, if_neg (by first | exact hne | exact fun h => hne h.symm)])
    he4
  have hfresh : m.sys.inflight.get? m.next = none := by
    cases hg' : m.sys.inflight.get? m.next with
    | none => rfl
    | some q => exact absurd (h.next _ q hg') (Nat.lt_irrefl _)
  have hlogb : (bodyAt sg clk f b m).sys.log = m.sys.log := by rw [hsysb, hl, l1]
  obtain ⟨new, hn1, hn2, hn3⟩ := hR.log
  rw [hlogb] at hn1
  have hin4 : (run (bodyAt sg clk f b m)).2.2.sys.inflight.get? m.next = some p := by
    rw [hR.inflight, hinb, Dict.get?_set, if_pos rfl]
  have hn3' : ∀ g c y, (∀ e ∈ new, ¬ (e.fn = g ∧ e.bound = c)) → Alive (run (bodyAt sg clk f b m)).2.2.sys.db g c y → Alive m.sys.db g c y := by
    intro g c y hn ha
    have h5 := hn3 g c y hn ha
    rw [hsysb] at h5
    exact hal g c y h5
  rw [hask]
  refine ⟨hR.good.fail hin4 ?_, ?_, hR.digests.trans hdig, hR.md5.trans ?_, new, hn1, fun e he => Nat.le_of_lt (hn2 e he), hn3'⟩
  · intro pre e post hlog hpre ds hds hde hal' x hx hxo
    rw [hfn, hbd] at hxo
    rw [show ((run (bodyAt sg clk f b m)).2.2.sys.log = pre ++ e :: post) = (new ++ m.sys.log = pre ++ e :: post) by rw [hn1]] at hlog
    have hold : ∃ pre', m.sys.log = pre' ++ e :: post ∧ pre = new ++ pre' := by
      rcases List.append_eq_append_iff.1 hlog with ⟨as, ha1, ha2⟩ | ⟨bs, hb1, hb2⟩
      · exact ⟨as, ha2, ha1⟩
      · cases bs with
        | nil => exact ⟨[], by simpa using hb2.symm, by simpa using hb1.symm⟩
        | cons e0 bs =>
          simp only [List.cons_append, List.cons.injEq] at hb2
          obtain ⟨rfl, _⟩ := hb2
          have h2 := hn2 e (by rw [hb1]; simp)
          exfalso
          rcases trail_owner (clean_frames hw hds _) _ (hw.body _ _ e.bound (hds.code hde)) _ hx with h3 | ⟨g, c, _, h4, h3⟩
          · rw [hxo] at h3
            simp only [Option.some.injEq, Prod.mk.injEq] at h3
            rw [h3.1] at h2
            omega
          · rw [hxo] at h3
            simp only [Option.some.injEq, Prod.mk.injEq] at h3
            rw [← h3.1] at h4
            omega
    obtain ⟨pre', hlog', hpre'⟩ := hold
    have hE := h.entries pre' e post hlog' (fun e' he' => hpre e' (by rw [hpre']; exact List.mem_append_right _ he'))
    obtain ⟨_, ⟨ds', _, k1, k2, _, _, _, _, _, k3⟩, _⟩ := hE
    have htr := trail_eq hw hds k1 hde e.bound e.fs0.content
    rw [htr] at hal' hx
    have k4 := k3 (fun y hy => hn3' _ _ y (fun e' he' => hpre e' (by rw [hpre']; exact List.mem_append_left _ he')) (hal' y hy))
      x hx (by
        intro id q hq ho
        have := hid id q hq
        rw [hxo] at ho
        simp only [Option.some.injEq, Prod.mk.injEq] at ho
        rw [ho.1] at this
        omega)
    have k5 : (run (bodyAt sg clk f b m)).2.2.sys.env.fs.content x = m.sys.env.fs.content x := (hown x hxo).trans (congrFun hfiles x)
    rcases k4 with k4 | k4
    · left; rw [k5]; exact k4
    · rcases hR.good.plain x _ hxo with k6 | k6
      · exact .inr k6
      · have k7 : ((run (bodyAt sg clk f b m)).2.2.sys.env.fs.content x).isSome := k6
        rw [k5, FS.content, k4] at k7
        cases k7
  · intro id
    show ((run (bodyAt sg clk f b m)).2.2.sys.inflight.erase m.next).get? id = _
    rw [Dict.get?_erase]
    split
    · rename_i heq; subst heq; exact hfresh.symm
    · rename_i hne
      rw [hR.inflight, hinb, Dict.get?_set]
      rw [if_neg (by first | exact hne | exact fun h => hne h.symm)]
  · rw [hsysb, henv, md1]

/-- A call of a function that makes its calls in threads, if all threads have finished, or if no call is running when it ends. -/
theorem group_ran (hw : WellBehaved sg script ρ) {g : FunName} {c : B} {fin : List R → R} {m : Mach B R}
    (hG : ρ.Group sg script m.sys.env.funDigest g c f bs fin after) (h : Good sg script ρ vers m)
    (hin : ∀ id, m.sys.inflight.get? id = none) {clk : Nat → Nat} {limit : Nat} (hl : 0 < limit)
    {mine : Nat → Bool} {order : List Nat}
    (hq : (∀ t ∈ ((Pool.start (bodyAt sg clk g c m) (bs.map (callTask f))).run sg script clk limit after order).tasks, t.result.isSome) ∨
      ∀ id, (groupCall sg script clk limit after mine f bs fin order g c m).2.2.sys.inflight.get? id = none)
    (he : EditsOk vers (groupCall sg script clk limit after mine f bs fin order g c m).2.2.trace) :
    Ran sg script ρ vers (fun g' => ρ.rank g' ≤ ρ.rank g) m (groupCall sg script clk limit after mine f bs fin order g c m) := by
  have hid : ∀ id q, m.sys.inflight.get? id = some q → ρ.rank g < ρ.rank q.fn := fun id q hq => by rw [hin id] at hq; cases hq
  cases hrun : (mapRun sg script clk limit after mine f bs fin order (bodyAt sg clk g c m)).1 with
  | some r =>
    refine (ask_ok hw clk _ g c m h hid he ?_).toRan
    intro m' code hm' hc hd _ hg _ hidm hn hed
    rw [hG.calls code hc]
    refine mapRun_ok hw (by rw [hd]; exact hG) hg hidm hl ?_ hed
    rw [hm', hrun]
    rfl
  | none =>
    refine ask_failed hw clk _ g c m h hid he hrun ?_
    intro hg hidm hd hsome hids hed
    unfold groupCall at hq
    generalize bodyAt sg clk g c m = m0 at *
    have hG' : ρ.Group sg script m0.sys.env.funDigest g c f bs fin after := by rw [hd]; exact hG
    have hends : (mapRun sg script clk limit after mine f bs fin order m0).2.2 =
        ((Pool.start m0 (bs.map (callTask f))).run sg script clk limit after order).mach := by
      have hpool := crew_pool (sg := sg) (script := script) (after := after) (f := f) (bs := bs) clk limit mine order
        (⟨Pool.start m0 (bs.map (callTask f)), fun _ => .none⟩ : Crew B R)
      unfold mapRun
      simp only at hpool ⊢
      rw [← hpool]
      split <;> rfl
    rw [hends] at hed
    have hP := run_ok (order := order) (clk := clk) (limit := limit) hw hG'.parallel
      (PoolOk.init hg fun id q hq => Nat.lt_of_lt_of_le hG.rank (hidm id q hq)) hl hed
    have hinf : ∀ id, (mapRun sg script clk limit after mine f bs fin order m0).2.2.sys.inflight.get? id = m0.sys.inflight.get? id := by
      intro id
      by_cases hne : id = m.next
      · subst hne
        obtain ⟨q, h1⟩ := Option.isSome_iff_exists.1 hsome
        rw [h1, hends]
        exact (hP.outer _ q h1).1
      · rw [(hids id hne).1, hin]
        rcases hq with hq | hq
        · rw [hends]
          cases hr : ((Pool.start m0 (bs.map (callTask f))).run sg script clk limit after order).mach.sys.inflight.get? id with
          | none => rfl
          | some q =>
            rcases hP.inflight id q hr with h0 | ⟨_, i, p, rep, _, ht⟩
            · rw [(hids id hne).1, hin] at h0; cases h0
            have := hq _ (List.mem_of_getElem? ht)
            rw [result_running] at this
            cases this
        · rw [(hids id hne).2, hq]
    refine ⟨⟨by rw [hends]; exact hP.good, hinf, by rw [hends]; exact hP.digests, by rw [hends]; exact hP.md5, ?_⟩, ?_⟩
    · obtain ⟨new, h1, h2, h3⟩ := hP.log
      rw [hends]
      exact ⟨new, h1, fun e he => by rw [h2 e he]; exact hG.rank, h3⟩
    · intro x hx
      rw [hends]
      refine hP.foreign x ?_
      intro b _ hb
      rw [hx] at hb
      have := hG.rank
      cases hb
      omega

/-! ### The life of a build directory -/

/-- what happens between builds -/
theorem user_ok (hw : WellBehaved sg script ρ) {m : Mach B R} {ev : Event B R} (hu : ρ.User vers ev)
    (ih : Good sg script ρ vers m ∧ ∀ id, m.sys.inflight.get? id = none) :
    Good sg script ρ vers (m.event sg ev).2 ∧ ∀ id, (m.event sg ev).2.sys.inflight.get? id = none := by
  obtain ⟨hg, hin⟩ := ih
  cases ev with
  | edit x st =>
    refine ⟨hg.edit hw x st hu.2.2 hu.2.1 ?_, hin⟩
    rcases hu.1 with h1 | h1
    · exact .inl h1
    · exact .inr (.inl h1)
  | tick t => exact ⟨hg.tick t, hin⟩
  | deleteFunction f =>
    have hh := hg.event_hist (ev := .deleteFunction f) trivial rfl
    by_cases hE : m.sys.inflight.isEmpty
    · have hs : step sg m.sys (.deleteFunction f) =
        (.deleted (CDB.deleteFunction f m.sys.db).1, { m.sys with db := (CDB.deleteFunction f m.sys.db).2 }) := by
        simp only [step, hE, if_true]
      refine ⟨hg.same hh ?_ ?_ ?_ ?_ ?_ ?_ ?_ ?_ (Nat.le_refl _), ?_⟩ <;> simp [Mach.event, hs, hg.ds, hin]
      · intro g d deps hgd
        simp only [CDB.deleteFunction, Dict.get?_erase] at hgd
        split at hgd
        · cases hgd
        · exact hgd
      · exact fun g c y => deleteFunction_alive f m.sys.db (reach_inv hg.hist.reach).db.nd
    · have hs : step sg m.sys (.deleteFunction f) = (.done, m.sys) := by simp only [step, hE]; rfl
      refine ⟨hg.same hh ?_ ?_ ?_ ?_ ?_ ?_ ?_ ?_ (Nat.le_refl _), ?_⟩ <;> simp [Mach.event, hs, hg.ds, hin]
  | deleteFile f =>
    have hh := hg.event_hist (ev := .deleteFile f) trivial rfl
    by_cases hE : m.sys.inflight.isEmpty
    · have hs : step sg m.sys (.deleteFile f) =
        (.deleted (CDB.deleteFile f m.sys.db).1, { m.sys with db := (CDB.deleteFile f m.sys.db).2 }) := by
        simp only [step, hE, if_true]
      refine ⟨hg.same hh ?_ ?_ ?_ ?_ ?_ ?_ ?_ ?_ (Nat.le_refl _), ?_⟩ <;> simp [Mach.event, hs, hg.ds, hin]
      · simp [CDB.deleteFile]
      · exact fun g c y => deleteFile_alive f m.sys.db
    · have hs : step sg m.sys (.deleteFile f) = (.done, m.sys) := by simp only [step, hE]; rfl
      refine ⟨hg.same hh ?_ ?_ ?_ ?_ ?_ ?_ ?_ ?_ (Nat.le_refl _), ?_⟩ <;> simp [Mach.event, hs, hg.ds, hin]
  | prepare id f b => exact absurd hu (by simp [Layout.User])
  | complete id r deps ext extDsts => exact absurd hu (by simp [Layout.User])
  | fail id => exact absurd hu (by simp [Layout.User])
  | restart ds => exact absurd hu (by simp [Layout.User])
  | crash ds => exact absurd hu (by simp [Layout.User])

theorem events_append (es ds : List (Event B R)) (m : Mach B R) : m.events sg (es ++ ds) = (m.events sg es).events sg ds := by
  simp [Mach.events]

theorem events_next (es : List (Event B R)) (m : Mach B R) : (m.events sg es).next = m.next := by
  induction es generalizing m with
  | nil => rfl
  | cons e es ih => exact ih (m.event sg e).2

theorem events_sys (es : List (Event B R)) {m m' : Mach B R} (h : m.sys = m'.sys) : (m.events sg es).sys = (m'.events sg es).sys := by
  induction es generalizing m m' with
  | nil => exact h
  | cons e es ih => exact ih (by simp only [Mach.event, h])

theorem isDelete_user {ev : Event B R} (h : Event.isDelete ev = true) : ρ.User vers ev := by
  cases ev <;> first | trivial | cases h

theorem deletes_ok (hw : WellBehaved sg script ρ) {dels : List (Event B R)} (hd : ∀ ev ∈ dels, Event.isDelete ev = true) {m : Mach B R}
    (ih : Good sg script ρ vers m ∧ ∀ id, m.sys.inflight.get? id = none) :
    Good sg script ρ vers (m.events sg dels) ∧ ∀ id, (m.events sg dels).sys.inflight.get? id = none := by
  induction dels generalizing m with
  | nil => exact ih
  | cons ev dels ihd =>
    exact ihd (fun e he => hd e (List.mem_cons_of_mem _ he)) (user_ok hw (isDelete_user (hd ev (List.mem_cons_self ..))) ih)

theorem left_db {db : CDB B R} {ev : Event B R} (h : ρ.Left sg vers db ev) (s : Sys B R) : (step sg s ev).2.db = s.db := by
  cases ev <;> first | rfl | cases h

theorem left_commute {db : CDB B R} {ev d : Event B R} (h : ρ.Left sg vers db ev) (hd : Event.isDelete d = true) (s : Sys B R) :
    (step sg (step sg s ev).2 d).2 = (step sg (step sg s d).2 ev).2 := by
  cases ev with
  | edit x st =>
    cases d with
    | deleteFunction f => cases hE : s.inflight.isEmpty <;> simp [step, hE]
    | deleteFile f => cases hE : s.inflight.isEmpty <;> simp [step, hE]
    | _ => cases hd
  | tick t =>
    cases d with
    | deleteFunction f => cases hE : s.inflight.isEmpty <;> simp [step, hE]
    | deleteFile f => cases hE : s.inflight.isEmpty <;> simp [step, hE]
    | _ => cases hd
  | _ => cases h

theorem left_deletes {db : CDB B R} {ev : Event B R} (h : ρ.Left sg vers db ev) {dels : List (Event B R)}
    (hd : ∀ ev ∈ dels, Event.isDelete ev = true) (m : Mach B R) :
    ((m.event sg ev).2.events sg dels).sys = ((m.events sg dels).event sg ev).2.sys := by
  induction dels generalizing m with
  | nil => rfl
  | cons d dels ih =>
    have h1 : (((m.event sg ev).2.event sg d).2.events sg dels).sys = (((m.event sg d).2.event sg ev).2.events sg dels).sys :=
      events_sys dels (left_commute h (hd d (List.mem_cons_self ..)) m.sys)
    exact h1.trans (ih (fun e he => hd e (List.mem_cons_of_mem _ he)) (m.event sg d).2)

/-- files of calls that the database does not answer are written -/
theorem left_ok (hw : WellBehaved sg script ρ) {es : List (Event B R)} {m : Mach B R} (hl : ∀ ev ∈ es, ρ.Left sg vers m.sys.db ev)
    (ih : Good sg script ρ vers m ∧ ∀ id, m.sys.inflight.get? id = none) :
    Good sg script ρ vers (m.events sg es) ∧ ∀ id, (m.events sg es).sys.inflight.get? id = none := by
  induction es generalizing m with
  | nil => exact ih
  | cons ev es ihe =>
    have h := hl ev (List.mem_cons_self ..)
    refine ihe (m := (m.event sg ev).2) (fun e he => ?_) ?_
    · have := left_db h m.sys
      simp only [Mach.event, this]
      exact hl e (List.mem_cons_of_mem _ he)
    · cases ev with
      | edit x st =>
        refine ⟨ih.1.edit hw x st h.1 h.2.1 ?_, ih.2⟩
        rcases h.2.2 with h1 | h1 | ⟨h1, h2⟩
        · exact .inl h1
        · exact .inr (.inl h1)
        · exact .inr (.inr ⟨h1, .inr h2⟩)
      | tick t => exact ⟨ih.1.tick t, ih.2⟩
      | _ => cases h

theorem left_hist {es : List (Event B R)} {db : CDB B R} (hl : ∀ ev ∈ es, ρ.Left sg vers db ev) {m : Mach B R}
    (h : History sg vers false m.trace m.sys) : History sg vers false (m.events sg es).trace (m.events sg es).sys := by
  induction es generalizing m with
  | nil => exact h
  | cons ev es ih =>
    have hev := hl ev (List.mem_cons_self ..)
    refine ih (m := (m.event sg ev).2) (fun e he => hl e (List.mem_cons_of_mem _ he)) (.step ev h ?_ ?_)
    · cases ev with
      | edit x st => exact hev.1
      | tick t => trivial
      | _ => cases hev
    · cases ev with
      | crash ds => cases hev
      | _ => intro hc; cases hc

theorem deletes_hist {dels : List (Event B R)} (hd : ∀ ev ∈ dels, Event.isDelete ev = true) {m : Mach B R}
    (h : History sg vers false m.trace m.sys) : History sg vers false (m.events sg dels).trace (m.events sg dels).sys := by
  induction dels generalizing m with
  | nil => exact h
  | cons ev dels ih =>
    have hev := hd ev (List.mem_cons_self ..)
    refine ih (m := (m.event sg ev).2) (fun e he => hd e (List.mem_cons_of_mem _ he)) (.step ev h ?_ ?_) <;>
      cases ev <;> first | trivial | (intro hc; cases hc; done) | (cases hev; done)

theorem left_deletes_sys {es dels : List (Event B R)} {db : CDB B R} (hl : ∀ ev ∈ es, ρ.Left sg vers db ev)
    (hd : ∀ ev ∈ dels, Event.isDelete ev = true) (m : Mach B R) :
    (m.events sg (es ++ dels)).sys = (m.events sg (dels ++ es)).sys := by
  induction es generalizing m with
  | nil => simp
  | cons ev es ih =>
    have h1 := ih (fun e he => hl e (List.mem_cons_of_mem _ he)) (m.event sg ev).2
    have h2 : (m.events sg (ev :: es ++ dels)).sys = ((m.event sg ev).2.events sg (es ++ dels)).sys := rfl
    rw [h2, h1, events_append, events_append]
    exact events_sys es (left_deletes (hl ev (List.mem_cons_self ..)) hd m)

theorem life_ok (hw : WellBehaved sg script ρ) {m : Mach B R} (h : Life sg script ρ vers m) :
    Good sg script ρ vers m ∧ ∀ id, m.sys.inflight.get? id = none := by
  induction h with
  | start env hv hds hlim hmd5 hplain =>
    refine ⟨⟨.init env hv, hds, hlim, hmd5, ?_, ?_, ?_, hplain⟩, fun _ => rfl⟩
    · intro f d deps hf; simp [Sys.init] at hf
    · intro id p hp; simp [Sys.init] at hp
    · intro pre e post hl; simp [Sys.init] at hl
  | build h main hmain clk limit hl he ih =>
    obtain ⟨h1, h2⟩ := main_ok hw clk hl main hmain _ ih.1 ih.2 he
    exact ⟨h1.good, fun id => (h1.inflight id).trans (ih.2 id)⟩
  | @parallel m h f bs after hp clk limit hl order hf he ih =>
    have hP := run_ok hw hp (PoolOk.init ih.1 fun id q hq => by rw [ih.2 id] at hq; cases hq) (Nat.lt_of_lt_of_le (Nat.lt_of_le_of_lt (Nat.zero_le _) (hw.rank_lt f)) hl) he
    refine ⟨hP.good, fun id => ?_⟩
    cases hq : (((Pool.start m (bs.map (callTask f))).run sg script clk limit after order).mach.sys.inflight.get? id) with
    | none => rfl
    | some q =>
      rcases hP.inflight id q hq with h0 | ⟨_, i, p, rep, _, ht⟩
      · rw [ih.2 id] at h0; cases h0
      have := hf _ (List.mem_of_getElem? ht)
      rw [result_running] at this
      cases this
  | @group m h g c f bs fin after hg clk limit hl mine order hr he ih =>
    exact ⟨(group_ran hw hg ih.1 ih.2 (Nat.lt_of_lt_of_le (Nat.lt_of_le_of_lt (Nat.zero_le _) (hw.rank_lt f)) hl) (.inr hr) he).good, hr⟩
  | @user m h ev hu ih => exact user_ok hw hu ih
  | @process m h ds hds ih =>
    obtain ⟨hg, hin⟩ := ih
    have hh := hg.event_hist (ev := .restart ds) trivial rfl
    refine ⟨Good.stack (hg.same hh rfl rfl (fun id => (hin id).symm) hds rfl rfl (fun _ _ h => h) (fun _ _ _ h => h) (Nat.le_refl _)) []
      (Nat.le_refl _), fun _ => rfl⟩
  | @killed m h es dels hd hl ih =>
    have h1 := left_ok hw hl (deletes_ok hw hd ih)
    rw [← events_append] at h1
    have h2 := left_deletes_sys hl hd m
    have h3 : (m.events sg (es ++ dels)).next = (m.events sg (dels ++ es)).next := by rw [events_next, events_next]
    have h4 := deletes_hist (dels := dels) hd (left_hist hl ih.1.hist)
    rw [← events_append] at h4
    refine ⟨⟨h4, ?_, ?_, ?_, ?_, ?_, ?_, ?_⟩, ?_⟩ <;> rw [h2]
    · exact h1.1.ds
    · exact h1.1.lim
    · exact h1.1.md5
    · exact h1.1.recs
    · rw [h3]; exact h1.1.next
    · exact h1.1.entries
    · exact h1.1.plain
    · exact h1.2

end Verif.Calls
