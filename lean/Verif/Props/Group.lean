import Verif.Props.ToolsEx
/-!
# Builds whose object files are compiled in threads

C114.
-/
namespace Verif.Calls
open Verif.DB
set_option linter.unusedSectionVars false

section
variable {B : Type} [DecidableEq B] {T : Tools B} {header : FileName → Prop}

theorem owner_eq {x : FileName} {f : FunName} {b : B} (h : (T.layout header).owner x = some (f, b)) : T.out f b = x := by
  simp only [Tools.layout] at h
  split at h
  · rename_i hx
    have := hx.choose_spec.2
    simp only [Option.some.injEq] at h
    rw [h] at this
    exact this
  · cases h

theorem groupProg_map (f : FunName) (bs : List B) (rs : List (List FileName)) :
    groupProg (bs.map fun b => (f, b)) rs.flatten = mapProg f List.flatten bs rs := by
  induction bs generalizing rs with
  | nil => rfl
  | cons b bs ih =>
    simp only [List.map_cons, groupProg, mapProg]
    congr 1
    funext o
    cases o with
    | none => rfl
    | some r =>
      simp only
      rw [← ih]
      simp

theorem tool_flat {S : FileName → Prop} {next : List (FileName × Content) → Next} {rep : Bool} {out : FileName}
    (hn : ∀ seen x, next seen = .more x → S x) (n : Nat) (seen : List (FileName × Content)) (hs : ∀ q ∈ seen, S q.1) :
    Flat S (toolProg (B := B) next rep out n seen) := by
  induction n generalizing seen with
  | zero => trivial
  | succ n ih =>
    rw [toolProg]
    cases hnext : next seen with
    | error => trivial
    | done o =>
      refine ⟨?_, trivial⟩
      intro x hx
      cases rep with
      | false => simp at hx
      | true =>
        simp only [if_true, List.mem_map] at hx
        obtain ⟨q, hq, rfl⟩ := hx
        exact hs q hq
    | more x =>
      refine ⟨hn seen x hnext, fun o => ?_⟩
      cases o with
      | none => trivial
      | some c =>
        refine ih _ fun q hq => ?_
        rcases List.mem_append.1 hq with hq | hq
        · exact hs q hq
        · simp only [List.mem_singleton] at hq
          subst hq
          exact hn seen x hnext

/-- the calls of `build_objects` may run at the same time -/
theorem tools_group (h : T.Ok header) {objects compile : FunName} {b : B} {srcs : List B} (hobj : T.group objects = true)
    (hparts : T.parts objects b = srcs.map fun s => (compile, s)) (hnd : srcs.Nodup) (hc : T.group compile = false)
    (ht : (T.text compile).isSome) (ds : FunName → Option Digest) :
    (T.layout header).Group T.sig T.script ds objects b compile srcs List.flatten fun _ => [] where
  calls code _ := by
    simp only [Tools.script, hobj, if_true, hparts]
    exact groupProg_map compile srcs []
  rank := by simp [Tools.layout, hobj, hc]
  leaf := ⟨hc, ht⟩
  parallel :=
    have hsee : ∀ (i : Nat) s, srcs[i]? = some s → ∀ x ∈ T.srcs compile s, (T.layout header).Sees compile srcs (fun _ => []) i x := by
      intro i s hi x hx j s' hj ho
      refine absurd ((h.parts objects b hobj (compile, s) ?_).2.2 x hx) (h.self objects b x ?_)
      · rw [hparts]; exact List.mem_map.2 ⟨s, List.mem_of_getElem? hi, rfl⟩
      · simp only [Tools.result, Tools.jobs, hobj, if_true, hparts]
        exact List.mem_map.2 ⟨(compile, s'), List.mem_map.2 ⟨s', List.mem_of_getElem? hj, rfl⟩, owner_eq ho⟩
    { distinct := hnd
      order := by intro i j hj; cases hj
      body := by
        intro i s code hi _
        simp only [Tools.script, hc, Bool.false_eq_true, if_false]
        refine tool_flat ?_ _ _ (by intro q hq; cases hq)
        intro seen x hx
        rcases h.reads compile code s seen x hc hx with h1 | ⟨_, h1⟩
        · exact hsee i s hi x h1
        · intro j s' _ ho
          exact absurd (owner_eq ho ▸ h1) (h.outputs compile s' hc)
      srcs := fun i s code hi _ x hx => hsee i s hi x hx
      self := by
        intro _ s code _ _ x hx ho
        refine h.self compile s x ?_ hx
        simp only [Tools.result, Tools.jobs, hc, Bool.false_eq_true, if_false, List.map_cons, List.map_nil, List.mem_singleton]
        exact (owner_eq ho).symm }

/-- **C114**: `build_exe` and `build_lib`, with the calls of `compile` made in threads.  Whatever was built before, whatever was
edited since, and in whatever order the threads make their steps: a build that succeeds gives the answer and the files of running
all tools one after the other.  Partial: see `Tools.Ok`; no source is given twice. -/
theorem C114_partial (h : T.Ok header) {vers : FileName → Nat → Option Content} {m : Mach B (List FileName)}
    (hm : Life T.sig T.script (T.layout header) vers m) {objects compile link : FunName} {b : B} {srcs : List B}
    (arg : List FileName → B) (hobj : T.group objects = true) (hparts : T.parts objects b = srcs.map fun s => (compile, s))
    (hnd : srcs.Nodup) (hc : T.group compile = false) (ht : (T.text compile).isSome)
    (clk : Nat → Nat) {limit : Nat} (hl : 2 ≤ limit) (mine : Nat → Bool) (order : List Nat)
    {q : Option (List FileName) × Mach B (List FileName)}
    (hq : T.buildThreads clk limit mine order objects b compile srcs link arg m = q)
    (he : EditsOk vers q.2.trace) (hok : q.1.isSome) :
    (q.1, q.2.files) = cleanProg (cleanCall T.sig T.script m.sys.env.funDigest 2) (makeAll (buildSteps objects b link arg) []) m.files ∧
      Life T.sig T.script (T.layout header) vers q.2 := by
  have hw := tools_wellBehaved h
  have hG := tools_group h hobj hparts hnd hc ht m.sys.env.funDigest
  obtain ⟨hg, hin⟩ := life_ok hw hm
  unfold Tools.buildThreads at hq
  generalize hgc : groupCall T.sig T.script clk limit (fun _ => []) mine compile srcs List.flatten order objects b m = g at hq
  obtain ⟨o, rep, m1⟩ := g
  cases o with
  | none =>
    subst hq
    cases hok
  | some objs =>
    simp only at hq
    subst hq
    obtain ⟨new, w⟩ := runProg_within (sg := T.sig) (clk := clk) (callFn_within T.sig T.script clk limit)
      (makeAll [(link, fun _ => arg objs)] [objs]) m1
    have he1 : EditsOk vers m1.trace := EditsOk.sub (tr' := (build T.sig T.script clk limit
      (makeAll [(link, fun _ => arg objs)] [objs]) m1).2.trace) he (by rw [build, w.trace])
    have hC := group_ok hw hG hg (fun id q hq => by rw [hin id] at hq; cases hq) (clk := clk) (limit := limit) (by omega)
      (mine := mine) (order := order) (by rw [hgc]; rfl) (by rw [hgc]; exact he1)
    have hC' := hC
    rw [hgc] at hC'
    have hm1 : Life T.sig T.script (T.layout header) vers m1 := by
      have := Life.group hm objects b compile srcs List.flatten (fun _ => []) hG clk limit hl mine order
        (by rw [hgc]; exact fun id => (hC'.inflight id).trans (hin id)) (by rw [hgc]; exact he1)
      rw [hgc] at this
      exact this
    rw [hgc] at hC
    have hds : m1.sys.env.funDigest = m.sys.env.funDigest := hC.digests
    have hcl : (some objs, m1.files) = cleanCall T.sig T.script m.sys.env.funDigest 2 objects b m.files := hC.clean
    refine ⟨?_, .build hm1 _ (makeAll_main _ _) clk limit hl he⟩
    rw [C59_partial hw hm1 (makeAll_main _ _) clk hl he, hds]
    simp only [buildSteps, makeAll, cleanProg, ← hcl]
    rfl

theorem tool_short {next : List (FileName × Content) → Next} {rep : Bool} {out : FileName} (n : Nat) (seen : List (FileName × Content)) :
    Short (toolProg (B := B) next rep out n seen) (n + 2) := by
  induction n generalizing seen with
  | zero => trivial
  | succ n ih =>
    rw [toolProg]
    cases next seen with
    | error => trivial
    | done o => exact ⟨n + 2, rfl, n + 1, rfl, trivial⟩
    | more x =>
      refine ⟨n + 2, rfl, fun o => ?_⟩
      cases o with
      | none => trivial
      | some c => exact ih _

/-- **C114**, success: if each thread gets enough steps for what its tool may read, the build succeeds exactly if running all tools
one after the other does, and then with the same answer. -/
theorem C114_succeeds_partial (h : T.Ok header) {vers : FileName → Nat → Option Content} {m : Mach B (List FileName)}
    (hm : Life T.sig T.script (T.layout header) vers m) {objects compile link : FunName} {b : B} {srcs : List B}
    (arg : List FileName → B) (hobj : T.group objects = true) (hparts : T.parts objects b = srcs.map fun s => (compile, s))
    (hnd : srcs.Nodup) (hc : T.group compile = false) (ht : (T.text compile).isSome)
    (clk : Nat → Nat) {limit : Nat} (hl : 2 ≤ limit) (mine : Nat → Bool) (order : List Nat)
    (hfair : ∀ (i : Nat) s, srcs[i]? = some s → T.most compile s + 4 ≤ order.count i)
    {q : Option (List FileName) × Mach B (List FileName)}
    (hq : T.buildThreads clk limit mine order objects b compile srcs link arg m = q) (he : EditsOk vers q.2.trace) :
    q.1 = (cleanProg (cleanCall T.sig T.script m.sys.env.funDigest 2) (makeAll (buildSteps objects b link arg) []) m.files).1 := by
  by_cases hok : q.1.isSome
  · exact congrArg Prod.fst (C114_partial h hm arg hobj hparts hnd hc ht clk hl mine order hq he hok).1
  cases hcl : (cleanProg (cleanCall T.sig T.script m.sys.env.funDigest 2) (makeAll (buildSteps objects b link arg) []) m.files).1 with
  | none => simpa using hok
  | some r =>
    exfalso
    apply hok
    have hw := tools_wellBehaved h
    have hG := tools_group h hobj hparts hnd hc ht m.sys.env.funDigest
    obtain ⟨hg, hin⟩ := life_ok hw hm
    -- `build_objects` returns without a database
    have hcall : (cleanCall T.sig T.script m.sys.env.funDigest 2 objects b m.files).1.isSome := by
      simp only [buildSteps, makeAll, cleanProg] at hcl
      cases ho : (cleanCall T.sig T.script m.sys.env.funDigest 2 objects b m.files).1 with
      | some _ => rfl
      | none => rw [ho] at hcl; cases hcl
    have hF : Fair T.script compile srcs (fun s => T.most compile s + 2) order := by
      intro i s hi
      refine ⟨fun code => ?_, hfair i s hi⟩
      simp only [Tools.script, hc, Bool.false_eq_true, if_false]
      exact tool_short _ _
    unfold Tools.buildThreads at hq
    generalize hgc : groupCall T.sig T.script clk limit (fun _ => []) mine compile srcs List.flatten order objects b m = g at hq
    obtain ⟨o, rep, m1⟩ := g
    have he1 : EditsOk vers m1.trace := by
      cases o with
      | none => subst hq; exact he
      | some objs =>
        simp only at hq
        subst hq
        obtain ⟨new, w⟩ := runProg_within (sg := T.sig) (clk := clk) (callFn_within T.sig T.script clk limit)
          (makeAll [(link, fun _ => arg objs)] [objs]) m1
        exact EditsOk.sub (tr' := (build T.sig T.script clk limit
          (makeAll [(link, fun _ => arg objs)] [objs]) m1).2.trace) he (by rw [build, w.trace])
    have hC := group_fair hw hG hg (fun id q hq => by rw [hin id] at hq; cases hq) (clk := clk) (limit := limit) (by omega)
      (mine := mine) (order := order) hF hcall (by rw [hgc]; exact he1)
    rw [hgc] at hC
    have hcl1 : (o, m1.files) = cleanCall T.sig T.script m.sys.env.funDigest 2 objects b m.files := hC.clean
    have hds : m1.sys.env.funDigest = m.sys.env.funDigest := hC.digests
    cases o with
    | none => rw [← hcl1] at hcall; cases hcall
    | some objs =>
      simp only at hq
      subst hq
      have hm1 : Life T.sig T.script (T.layout header) vers m1 := by
        have := Life.group hm objects b compile srcs List.flatten (fun _ => []) hG clk limit hl mine order
          (by rw [hgc]; exact fun id => (hC.inflight id).trans (hin id)) (by rw [hgc]; exact he1)
        rw [hgc] at this
        exact this
      have h1 := congrArg Prod.fst (C59_partial hw hm1 (makeAll_main _ _) clk hl he)
      simp only at h1
      rw [h1, hds]
      have h2 : cleanProg (cleanCall T.sig T.script m.sys.env.funDigest 2) (makeAll (buildSteps objects b link arg) []) m.files =
          cleanProg (cleanCall T.sig T.script m.sys.env.funDigest 2) (makeAll [(link, fun _ => arg objs)] [objs]) m1.files := by
        simp only [buildSteps, makeAll, cleanProg, ← hcl1]
        rfl
      rw [h2] at hcl
      exact Option.isSome_iff_exists.2 ⟨r, hcl⟩

/-- **C114**, after the build: if each thread gets enough steps for what its tool may read, then also a build that fails, in a
compiler or in the linker, leaves a state to which C59, C84 and C114 apply: what the other threads compiled is reused or compiled
again as it should. -/
theorem C114_after_partial (h : T.Ok header) {vers : FileName → Nat → Option Content} {m : Mach B (List FileName)}
    (hm : Life T.sig T.script (T.layout header) vers m) {objects compile link : FunName} {b : B} {srcs : List B}
    (arg : List FileName → B) (hobj : T.group objects = true) (hparts : T.parts objects b = srcs.map fun s => (compile, s))
    (hnd : srcs.Nodup) (hc : T.group compile = false) (ht : (T.text compile).isSome)
    (clk : Nat → Nat) {limit : Nat} (hl : 2 ≤ limit) (mine : Nat → Bool) (order : List Nat)
    (hfair : ∀ (i : Nat) s, srcs[i]? = some s → T.most compile s + 4 ≤ order.count i)
    {q : Option (List FileName) × Mach B (List FileName)}
    (hq : T.buildThreads clk limit mine order objects b compile srcs link arg m = q) (he : EditsOk vers q.2.trace) :
    Life T.sig T.script (T.layout header) vers q.2 := by
  have hw := tools_wellBehaved h
  have hG := tools_group h hobj hparts hnd hc ht m.sys.env.funDigest
  obtain ⟨hg, hin⟩ := life_ok hw hm
  have hF : Fair T.script compile srcs (fun s => T.most compile s + 2) order := by
    intro i s hi
    refine ⟨fun code => ?_, hfair i s hi⟩
    simp only [Tools.script, hc, Bool.false_eq_true, if_false]
    exact tool_short _ _
  unfold Tools.buildThreads at hq
  have key : ∀ {o rep m1}, groupCall T.sig T.script clk limit (fun _ => []) mine compile srcs List.flatten order objects b m = (o, rep, m1) →
      EditsOk vers m1.trace → Life T.sig T.script (T.layout header) vers m1 := by
    intro o rep m1 hgc he1
    have hR := group_ran hw hG hg hin (clk := clk) (limit := limit) (by omega) (mine := mine) (order := order)
      (.inl (fair_finished hF _)) (by rw [hgc]; exact he1)
    have := Life.group hm objects b compile srcs List.flatten (fun _ => []) hG clk limit hl mine order
      (fun id => (hR.inflight id).trans (hin id)) (by rw [hgc]; exact he1)
    rw [hgc] at this
    exact this
  generalize hgc : groupCall T.sig T.script clk limit (fun _ => []) mine compile srcs List.flatten order objects b m = g at hq
  obtain ⟨o, rep, m1⟩ := g
  cases o with
  | none =>
    subst hq
    exact key hgc he
  | some objs =>
    simp only at hq
    subst hq
    obtain ⟨new, w⟩ := runProg_within (sg := T.sig) (clk := clk) (callFn_within T.sig T.script clk limit)
      (makeAll [(link, fun _ => arg objs)] [objs]) m1
    have he1 : EditsOk vers m1.trace := EditsOk.sub (tr' := (build T.sig T.script clk limit
      (makeAll [(link, fun _ => arg objs)] [objs]) m1).2.trace) he (by rw [build, w.trace])
    exact .build (key hgc he1) _ (makeAll_main _ _) clk limit hl he

/-- **C114**, the files: after a build that succeeds, every object file is what the compiler makes of the sources and headers that
are there now, and the file that the linker writes is what it makes of these object files and of the other files it is given. -/
theorem C114_uptodate_partial (h : T.Ok header) {vers : FileName → Nat → Option Content} {m : Mach B (List FileName)}
    (hm : Life T.sig T.script (T.layout header) vers m) {objects compile link : FunName} {b : B} {srcs : List B}
    (arg : List FileName → B) (hobj : T.group objects = true) (hparts : T.parts objects b = srcs.map fun s => (compile, s))
    (hnd : srcs.Nodup) (hc : T.group compile = false) (ht : (T.text compile).isSome) (hlink : T.group link = false)
    (hsrc : ∀ x ∈ T.srcs objects b, x ≠ T.out link (arg (T.result (objects, b))))
    (clk : Nat → Nat) {limit : Nat} (hl : 2 ≤ limit) (mine : Nat → Bool) (order : List Nat)
    {q : Option (List FileName) × Mach B (List FileName)}
    (hq : T.buildThreads clk limit mine order objects b compile srcs link arg m = q)
    (he : EditsOk vers q.2.trace) (hok : q.1.isSome) :
    (∀ s ∈ srcs, UpToDate T m.sys.env.funDigest q.2.files (compile, s)) ∧
      UpToDate T m.sys.env.funDigest q.2.files (link, arg (srcs.map (T.out compile))) := by
  have h1 := (C114_partial h hm arg hobj hparts hnd hc ht clk hl mine order hq he hok).1
  obtain ⟨hord, hplan⟩ := build_inOrder h objects link b arg hobj hlink hsrc
  obtain ⟨r, hr⟩ := Option.isSome_iff_exists.1 hok
  rw [hr] at h1
  have hres : T.result (objects, b) = srcs.map (T.out compile) := by
    simp [Tools.result, Tools.jobs, hobj, hparts]
  have key := (makeMany_upToDate h _ (fun c hc => by
    obtain ⟨c', _, h2⟩ := List.mem_flatMap.1 hc
    exact jobs_tools h c' c h2) hord _ _ (makeAll_jobs h _ _ _ _ _ h1.symm)).1
  rw [hplan, hres] at key
  refine ⟨fun s hs => key _ (List.mem_flatMap.2 ⟨(objects, b), by simp, ?_⟩), key _ ?_⟩
  · simp only [Tools.jobs, hobj, if_true, hparts]
    exact List.mem_map.2 ⟨s, hs, rfl⟩
  · simp [Tools.jobs, hlink]

/-- **C114**, two schedules: two builds that begin with the same files and functions, whatever their databases say and however
their threads are scheduled, give the same answer and the same files if both succeed. -/
theorem C114_schedules_partial (h : T.Ok header) {vers vers' : FileName → Nat → Option Content} {m m' : Mach B (List FileName)}
    (hm : Life T.sig T.script (T.layout header) vers m) (hm' : Life T.sig T.script (T.layout header) vers' m')
    (hfs : m'.files = m.files) (hds : m'.sys.env.funDigest = m.sys.env.funDigest)
    {objects compile link : FunName} {b : B} {srcs : List B}
    (arg : List FileName → B) (hobj : T.group objects = true) (hparts : T.parts objects b = srcs.map fun s => (compile, s))
    (hnd : srcs.Nodup) (hc : T.group compile = false) (ht : (T.text compile).isSome)
    (clk clk' : Nat → Nat) {limit limit' : Nat} (hl : 2 ≤ limit) (hl' : 2 ≤ limit') (mine mine' : Nat → Bool) (order order' : List Nat)
    {q q' : Option (List FileName) × Mach B (List FileName)}
    (hq : T.buildThreads clk limit mine order objects b compile srcs link arg m = q)
    (hq' : T.buildThreads clk' limit' mine' order' objects b compile srcs link arg m' = q')
    (he : EditsOk vers q.2.trace) (he' : EditsOk vers' q'.2.trace) (hok : q.1.isSome) (hok' : q'.1.isSome) :
    q.1 = q'.1 ∧ q.2.files = q'.2.files := by
  have h1 := (C114_partial h hm arg hobj hparts hnd hc ht clk hl mine order hq he hok).1
  have h2 := (C114_partial h hm' arg hobj hparts hnd hc ht clk' hl' mine' order' hq' he' hok').1
  rw [hfs, hds, ← h1] at h2
  exact ⟨(congrArg Prod.fst h2).symm, (congrArg Prod.snd h2).symm⟩

end

/-! ## Non-vacuity -/
namespace ProjEx

/-- two files are compiled at the same time, one of them by the thread that waits -/
def order : List Nat := [0, 1, 1, 0, 0, 1, 0, 1, 1, 0, 0, 1, 0, 1, 0, 1]
def mine : Nat → Bool := fun i => i == 1

/-- the build after the header was edited and the linker function changed (`m3`), in threads -/
def m5 : Option (List FileName) × Mach (List Char) (List FileName) :=
  T.buildThreads (fun n => 100 + n) 5 mine order "objs" ['a', ' ', 'b'] "cc" [['a'], ['b']] "ld"
    (fun os => [' '].intercalate (os.map String.toList)) m3

/-- the first build, in threads -/
def m6 : Option (List FileName) × Mach (List Char) (List FileName) :=
  T.buildThreads clk 5 mine order "objs" ['a', ' ', 'b'] "cc" [['a'], ['b']] "ld"
    (fun os => [' '].intercalate (os.map String.toList)) m0

set_option maxRecDepth 20000 in
/-- the hypotheses of `C114_uptodate_partial` are met -/
example : (∀ s ∈ [['a'], ['b']], UpToDate T m3.sys.env.funDigest m5.2.files ("cc", s)) ∧
    UpToDate T m3.sys.env.funDigest m5.2.files ("ld", "a.o b.o".toList) :=
  C114_uptodate_partial ok life3 (fun os => [' '].intercalate (os.map String.toList)) (by decide) (by decide) (by decide) (by decide)
    (by decide) (by decide) (by decide +kernel) (fun n => 100 + n) (by decide) mine order rfl (editsOkB_sound (by decide +kernel))
    (by decide +kernel)

set_option maxRecDepth 20000 in
/-- the first build in threads, and its two calls of `cc` are really mixed: `b.o` is written before `a.o` -/
example : Life T.sig T.script (T.layout header) vers m6.2 ∧ m6.2.files "a.o b.o.x" = some "ld-1(cc-1-#include-H,cc-1-B,M,)" ∧
    m6.2.sys.env.fs "b.o" = some ⟨13, some "cc-1-B"⟩ ∧ m6.2.sys.env.fs "a.o" = some ⟨14, some "cc-1-#include-H"⟩ :=
  ⟨(C114_partial ok life0 (fun os => [' '].intercalate (os.map String.toList)) (by decide) (by decide) (by decide) (by decide)
    (by decide) clk (by decide) mine order rfl (editsOkB_sound (by decide +kernel)) (by decide +kernel)).2,
    by decide +kernel, by decide +kernel, by decide +kernel⟩

theorem fair (x y : List Char) (i : Nat) (s : List Char) (h : [x, y][i]? = some s) : T.most "cc" s + 4 ≤ order.count i := by
  match i, h with
  | 0, _ => exact show 3 + 4 ≤ order.count 0 by decide
  | 1, _ => exact show 3 + 4 ≤ order.count 1 by decide

set_option maxRecDepth 20000 in
/-- the hypotheses of `C114_succeeds_partial` are met, by a build that succeeds and by one that fails (`c.c` does not exist) -/
example : m5.1 = some ["a.o", "b.o", "a.o b.o.x"] ∧ (cleanProg (cleanCall T.sig T.script m3.sys.env.funDigest 2) (makeAll steps []) m3.files).1 = m5.1 :=
  ⟨by decide +kernel, (C114_succeeds_partial ok life3 (fun os => [' '].intercalate (os.map String.toList)) (by decide) (by decide)
    (by decide) (by decide) (by decide) (fun n => 100 + n) (by decide) mine order (fair _ _) rfl
    (editsOkB_sound (by decide +kernel))).symm⟩

set_option maxRecDepth 20000 in
example : (T.buildThreads clk 5 mine order "objs" ['a', ' ', 'c'] "cc" [['a'], ['c']] "ld"
    (fun os => [' '].intercalate (os.map String.toList)) m0).1 = none :=
  C114_succeeds_partial ok life0 (fun os => [' '].intercalate (os.map String.toList)) (by decide) (by decide)
    (by decide) (by decide) (by decide) clk (by decide) mine order (fair _ _) rfl
    (editsOkB_sound (by decide +kernel)) |>.trans (by decide +kernel)

/-- a build that fails in one thread, which compiles `b.c`, while the other compiles `a.c`; then `b.c` is repaired -/
def m7 : Option (List FileName) × Mach (List Char) (List FileName) :=
  T.buildThreads clk 5 mine order "objs" ['a', ' ', 'b'] "cc" [['a'], ['b']] "ld"
    (fun os => [' '].intercalate (os.map String.toList)) (m0.event T.sig (.edit "b.c" (some ⟨60, some "#error"⟩))).2
def m8 : Mach (List Char) (List FileName) := (m7.2.event T.sig (.edit "b.c" (some ⟨70, some "B"⟩))).2
def m9 : Option (List FileName) × Mach (List Char) (List FileName) :=
  T.buildThreads (fun n => 20 + n) 5 mine order "objs" ['a', ' ', 'b'] "cc" [['a'], ['b']] "ld"
    (fun os => [' '].intercalate (os.map String.toList)) m8

set_option maxRecDepth 20000 in
/-- the hypotheses of `C114_after_partial` are met by it -/
theorem life8 : Life T.sig T.script (T.layout header) vers m8 := by
  have h1 : Life T.sig T.script (T.layout header) vers (m0.event T.sig (.edit "b.c" (some ⟨60, some "#error"⟩))).2 :=
    .user life0 _ ⟨.inl (owner_none (by decide) (by decide)), by simp, by intro f hf; cases hf; rfl⟩
  have h7 : Life T.sig T.script (T.layout header) vers m7.2 :=
    C114_after_partial ok h1 (fun os => [' '].intercalate (os.map String.toList)) (by decide) (by decide)
      (by decide) (by decide) (by decide) clk (by decide) mine order (fair _ _) rfl (editsOkB_sound (by decide +kernel))
  exact .user h7 _ ⟨.inl (owner_none (by decide) (by decide)), by simp, by intro f hf; cases hf; rfl⟩

set_option maxRecDepth 20000 in
/-- `a.o` was written by the build that failed and not again by the next one, which is up to date -/
example : m7.1 = none ∧ m7.2.files "a.o" = some "cc-1-#include-H" ∧ m7.2.files "b.o" = none ∧
    m9.1 = some ["a.o", "b.o", "a.o b.o.x"] ∧ m9.2.sys.env.fs "a.o" = m7.2.sys.env.fs "a.o" ∧
    m9.2.files "a.o b.o.x" = some "ld-1(cc-1-#include-H,cc-1-B,M,)" := by decide +kernel

set_option maxRecDepth 20000 in
example : UpToDate T m8.sys.env.funDigest m9.2.files ("ld", "a.o b.o".toList) :=
  (C114_uptodate_partial ok life8 (fun os => [' '].intercalate (os.map String.toList)) (by decide) (by decide) (by decide) (by decide)
    (by decide) (by decide) (by decide +kernel) (fun n => 20 + n) (by decide) mine order rfl (editsOkB_sound (by decide +kernel))
    (by decide +kernel)).2

end ProjEx
end Verif.Calls
