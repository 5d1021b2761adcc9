import Verif.Props.Ocaml
import Verif.Props.Sched
import Verif.Props.Alias
import Verif.Props.Clean
/-!
# OCaml: linking, and what the cache does to `scan` and to `Nm.object_dependencies`

C73; and the violations of C72 and C74 that come from the cache.
-/
namespace Verif.Ocaml
open Verif.Posix Verif.Path

/-! ## C73 -/

theorem suffix_tail {e p : Text} (he : '/' ∉ e) (h : e <:+ p) : e <:+ tail p := by
  obtain ⟨t, rfl⟩ := h
  unfold tail
  rw [List.reverse_append, takeWhile_all _ _ (ne_slash he)]
  simp

theorem suffix_join {e b : Text} (r : Text) (h : e <:+ b) : e <:+ join r b := by
  unfold join
  split
  · exact h
  · split
    · exact h.trans (List.suffix_append ..)
    · exact h.trans ((List.suffix_cons ..).trans (List.suffix_append ..))

theorem suffix_addroot {e p : Text} (r : Text) (he : '/' ∉ e) (h : e <:+ p) : e <:+ addroot p r := by
  unfold addroot
  split
  · exact h
  · apply suffix_join
    split
    · exact suffix_tail he h
    · exact h

theorem objectOf_suffix (root suffix src : Text) (hs : '/' ∉ suffix) :
    (if endsWith src mli then ".cmi".toList else suffix) <:+ objectOf root suffix src := by
  unfold objectOf
  apply suffix_addroot
  · split
    · decide
    · exact hs
  · exact List.suffix_append ..

/-- the suffixes of objects: bytecode and native code -/
def ObjSuffix (s : Text) : Prop := s = ".cmo".toList ∨ s = ".cmx".toList

theorem linked_map (root suffix : Text) (hs : ObjSuffix suffix) (L : List Text) :
    linked (L.map (objectOf root suffix)) = (L.filter (fun s => !endsWith s mli)).map (objectOf root suffix) := by
  have hslash : '/' ∉ suffix := by rcases hs with rfl | rfl <;> decide
  unfold linked
  rw [List.filter_map]
  congr 1
  apply List.filter_congr
  intro s _
  simp only [Function.comp]
  have h := objectOf_suffix root suffix s hslash
  by_cases hm : endsWith s mli = true
  · rw [if_pos hm] at h
    have : endsWith (objectOf root suffix s) ".cmi".toList = true := List.isSuffixOf_iff_suffix.2 h
    rw [hm, this]
  · rw [if_neg hm] at h
    have : endsWith (objectOf root suffix s) ".cmi".toList ≠ true := by
      intro h2
      have h2 : ".cmi".toList <:+ objectOf root suffix s := List.isSuffixOf_iff_suffix.1 h2
      obtain ⟨x, hx⟩ := h
      obtain ⟨y, hy⟩ := h2
      have := congrArg List.reverse (hx.trans hy.symm)
      rcases hs with rfl | rfl <;> simp at this
    rw [Bool.eq_false_iff.2 hm, Bool.eq_false_iff.2 this]

/-- **C73**: without `pack`, the command line names the objects given by the caller and then, for each implementation among
the sources, its object, once, after the objects of the implementations of the modules that it refers to. -/
theorem C73_link_partial {E : Type} (w : World) (includes : List Text) (root suffix : Text) (hsuf : ObjSuffix suffix)
    (lp : List (Text × Text) → E) (depends compile : Text → Sched.Prog (List Text) E) (srcs given : List Text)
    (D : Text → List Text) (hD : ∀ s ∈ srcs, sourceDeps w includes root s = some (D s))
    (hdep : Sched.Depends depends id srcs D)
    (hcomp : ∀ s ∈ srcs, Sched.Computes (compile s) [objectOf root suffix s])
    (hac : ∀ s, ¬ Sched.OnLoop D srcs s) :
    ∃ L : List Text, L.Nodup ∧ (∀ s, s ∈ L ↔ s ∈ srcs ∧ ¬ ".mli".toList <:+ s) ∧
      (∀ a ∈ L, ∀ b ∈ L, ∀ ms, w.modules a = some ms → ∀ m ∈ ms, OfModule w includes m ".ml".toList b →
        (∀ names, names = w.cwd ∨ (∃ inc, w.dirs inc = some names) → ∀ n ∈ names, ∀ n' ∈ names,
          ModuleFile w m ".ml".toList n → ModuleFile w m ".ml".toList n' → n = n') →
        ∃ l k r, L = l ++ b :: k ++ a :: r) ∧
      ∀ (nw : Nat) (st : Sched.State (List Text) E) (r : Except E (List Text)),
        Sched.Reach nw (Sched.mapDepsP lp depends id compile srcs (Sched.finish List.flatten)) st → st.result = some r →
        ∃ built, r = .ok built ∧
          linked (linkObjects none given built) = linked given ++ L.map (objectOf root suffix) := by
  obtain ⟨order, horder⟩ := Sched.C29_order (V := List Text) (E := E) (S := Text)
  obtain ⟨h1, h2, h3, h4⟩ := horder lp depends id compile srcs List.flatten D (fun s => [objectOf root suffix s]) hdep hcomp hac
  generalize order D srcs = O at h1 h2 h3 h4
  refine ⟨O.filter (fun s => !endsWith s mli), h1.filter _, ?_, ?_, ?_⟩
  · intro s
    rw [List.mem_filter, h2]
    have : endsWith s mli = true ↔ ".mli".toList <:+ s := List.isSuffixOf_iff_suffix
    rw [← this]
    simp
  · intro a ha b hb ms hms m hm hof huniq
    rw [List.mem_filter] at ha hb
    obtain ⟨pre, post, hO⟩ := List.append_of_mem ha.1
    have hbD : b ∈ D a := by
      have hc := C71_complete hms (hD a ((h2 a).1 ha.1)) m hm ".ml".toList (Or.inr rfl)
      rcases hof with ⟨hb1, hb2⟩ | ⟨hno, inc, hinc, names, n, hnames, hn, hf, rfl⟩
      · obtain ⟨n', g1, g2, g3⟩ := hc.1 b hb1 hb2
        rw [huniq w.cwd (Or.inl rfl) b hb1 n' g1 hb2 g2]
        exact g3
      · obtain ⟨n', g1, g2, g3⟩ := hc.2 hno inc hinc names n hnames hn hf
        rw [huniq names (Or.inr ⟨inc, hnames⟩) n hn n' g1 hf g2]
        exact g3
    have hbpre := h3 pre a post hO b hbD ((h2 b).1 hb.1)
    obtain ⟨l, k, rfl⟩ := List.append_of_mem hbpre
    refine ⟨l.filter (fun s => !endsWith s mli), k.filter (fun s => !endsWith s mli), post.filter (fun s => !endsWith s mli), ?_⟩
    rw [hO]
    simp [List.filter_cons, show endsWith a mli = false by simpa using ha.2, show endsWith b mli = false by simpa using hb.2]
  · intro nw st r hr hres
    refine ⟨_, h4 nw st r hr hres, ?_⟩
    have : (O.map (fun s => [objectOf root suffix s])).flatten = O.map (objectOf root suffix) := by
      clear h1 h2 h3 h4
      induction O with
      | nil => rfl
      | cons a O ih => simp [ih]
    rw [this]
    simp only [linkObjects]
    have e : linked (given ++ O.map (objectOf root suffix)) = linked given ++ linked (O.map (objectOf root suffix)) := by
      simp [linked]
    rw [e, linked_map root suffix hsuf]

/-- `a.ml` refers to `B`; the sources are `a.ml`, `b.mli` and `b.ml` -/
def exLink : World where
  cwd := ["a.ml".toList, "b.ml".toList, "b.mli".toList]
  dirs := fun _ => none
  exist := fun p => p ∈ ["a.ml".toList, "b.ml".toList, "b.mli".toList]
  modules := fun p => if p = "a.ml".toList then some ["B".toList] else some []
  lower := Char.toLower
  upper := Char.toUpper

def exSrcs : List Text := ["a.ml".toList, "b.mli".toList, "b.ml".toList]
def exOf (s : Text) : List Text := (sourceDeps exLink [] "build".toList s).getD []
def exRank (s : Text) : Nat := if s = "a.ml".toList then 2 else if s = "b.ml".toList then 1 else 0

/-- the hypotheses of `C73_link_partial` are met -/
example : (∀ s ∈ exSrcs, sourceDeps exLink [] "build".toList s = some (exOf s)) ∧
    Sched.Depends (E := Unit) (fun s => .ret (exOf s)) id exSrcs exOf ∧
    (∀ s ∈ exSrcs, Sched.Computes (E := Unit) (.ret [objectOf "build".toList ".cmo".toList s])
      [objectOf "build".toList ".cmo".toList s]) ∧
    (∀ s, ¬ Sched.OnLoop exOf exSrcs s) ∧
    OfModule exLink [] "B".toList ".ml".toList "b.ml".toList ∧
    exSrcs.map (objectOf "build".toList ".cmo".toList) = ["build/a.cmo".toList, "build/b.cmi".toList, "build/b.cmo".toList] := by
  refine ⟨by decide +kernel, ?_, ?_, ?_, ?_, by decide +kernel⟩
  · intro s _ r hr
    cases hr
    exact ⟨_, rfl, rfl⟩
  · intro s _ r hr
    cases hr
    rfl
  · have hlt : ∀ a ∈ exSrcs, ∀ b ∈ exSrcs, b ∈ exOf a → exRank b < exRank a := by decide +kernel
    have key : ∀ a b, Relation.TransGen (Sched.Dep exOf exSrcs) a b → exRank b < exRank a := by
      intro a b h
      induction h with
      | single h => exact hlt _ h.1 _ h.2.1 h.2.2
      | tail _ h ih => exact Nat.lt_trans (hlt _ h.1 _ h.2.1 h.2.2) ih
    intro s h
    exact Nat.lt_irrefl _ (key s s h)
  · exact Or.inl ⟨by decide +kernel, 'B', [], rfl, Or.inl (by decide)⟩

/-- **C73** is false with `pack`: the objects given by the caller are on no command line. -/
theorem C73_pack_violated (pack : Text) (given built : List Text) (o : Text) (hp : o ≠ pack) (hb : o ∉ built) :
    o ∉ packed given built ∧ o ∉ linkObjects (some pack) given built := by
  refine ⟨fun h => hb ((List.mem_filter.1 h).1), ?_⟩
  simp [linkObjects, hp]

/-- `src/a.ml` refers to `B`, which is in `src`, and there is another `b.ml` in the current directory -/
def exShadow : World where
  cwd := ["b.ml".toList]
  dirs := fun d => if d = "src".toList then some ["a.ml".toList, "b.ml".toList] else none
  exist := fun p => p ∈ ["b.ml".toList, "src/a.ml".toList, "src/b.ml".toList]
  modules := fun p => if p = "src/a.ml".toList then some ["B".toList] else some []
  lower := Char.toLower
  upper := Char.toUpper

/-- **C73** is false if a file of the same name is in the current directory: `src/a.ml` does not count as depending on
`src/b.ml`, and so may be compiled and linked first. -/
theorem C73_shadow_violated :
    sourceDeps exShadow ["src".toList] "build".toList "src/a.ml".toList = some ["b.ml".toList] ∧
    sourceDeps { exShadow with cwd := [] } ["src".toList] "build".toList "src/a.ml".toList = some ["src/b.ml".toList] := by
  decide

/-! ## C72 and the cache -/

namespace Stale
open Verif.Calls Verif.DB

/-- `source_dependencies`, `scan` and `compile`: the argument is a declared source; the files that the first two return are
destinations of the call (ocaml/__init__.py:68-70,349-353,650-653). -/
def sg : Sig FileName (List FileName) where
  srcs := fun _ _ b => [b]
  dsts := fun _ _ _ => []
  returnDsts := fun _ _ r => r

def orRaise {R : Type} (k : R → Prog FileName (List FileName)) : Option R → Prog FileName (List FileName)
  | none => .raise
  | some s => k s

/-- the interfaces of the modules named in a file: `B` in `a.ml`, and possibly `C` in `b.mli` -/
def named (text : Content) : List FileName := if text = "B" then ["b.mli"] else if text = "C" then ["c.mli"] else []

/-- `source_dependencies` reads the file; `scan` asks for the dependencies and scans them; `compile` reads the file and
the interfaces it needs, writes the object and reports what `scan` returns. -/
def script : Script FileName (List FileName) := fun f _ b =>
  if f = "source_dependencies" then .read b (orRaise fun text => .ret (named text))
  else if f = "scan" then
    .call "source_dependencies" b (orRaise fun ds =>
      match ds with
      | [] => .ret []
      | d :: _ => .call "scan" d (orRaise fun more => .ret (d :: more)))
  else
    .read b (orRaise fun _ => .read "b.mli" (orRaise fun t => .read "c.mli" (orRaise fun u =>
      .write "a.cmo" (some (if t = "C" then "uses C " ++ u else "no C"))
        (.call "scan" b (orRaise fun ds => .report ds [] (.ret ["a.cmo"]))))))

def main : Prog FileName (List FileName) := .call "compile" "a.ml" (orRaise .ret)

def start : Mach FileName (List FileName) :=
  ⟨Sys.init {
    fs := fun x => if x = "a.ml" then some ⟨1, some "B"⟩ else if x = "b.mli" then some ⟨1, some ""⟩
      else if x = "c.mli" then some ⟨1, some "1"⟩ else none
    now := 5
    funDigest := fun _ => some "1"
    md5 := id
    recursionLimit := 10 }, [], [], 0⟩

def edit (x : FileName) (t : Nat) (c : Content) (m : Mach FileName (List FileName)) : Mach FileName (List FileName) :=
  (m.event sg (.edit x (some ⟨t, some c⟩))).2

def run (m : Mach FileName (List FileName)) : Option (List FileName) × Mach FileName (List FileName) :=
  build sg script (fun n => 100 + n) 5 main m

/-- a build; then `b.mli` is made to refer to `C`, and a build -/
def second : Mach FileName (List FileName) := (run (edit "b.mli" 150 "C" (run start).2)).2

/-- then `c.mli` is edited, and a build -/
def third : Mach FileName (List FileName) := (run (edit "c.mli" 250 "2" second)).2

end Stale

open Stale Verif.Calls in
set_option maxRecDepth 20000 in
/-- **C72** is false for values from the cache: `scan` declares only its argument as a source.  After an edit of `b.mli`
the scan of `a.ml` still returns the old list, although a scan that is executed returns `c.mli` too; so `c.mli` is no source of
`compile`, and an edit of it does not compile `a.ml` again. -/
theorem C72_stale_violated :
    (build sg script (fun n => 300 + n) 5 (.call "scan" "a.ml" (Stale.orRaise .ret)) second).1 = some ["b.mli"] ∧
    (cleanProg (cleanCall sg script second.sys.env.funDigest 5) (.call "scan" "a.ml" (Stale.orRaise .ret)) second.files).1 =
      some ["b.mli", "c.mli"] ∧
    third.files "a.cmo" = some "uses C 1" ∧
    (cleanProg (cleanCall sg script third.sys.env.funDigest 5) main third.files).2 "a.cmo" = some "uses C 2" := by
  decide +kernel

/-! ## C74 and the cache -/

open Verif.Alias in
/-- **C74** is false for values from the cache: `object_dependencies` returns an iterator, and the engines `cache` and `pickle`
keep this object.  The caller runs through it (then nothing is left in it); the next call gets it and finds no objects.  (An
object of the heap stands for what an iterator still has to give.) -/
theorem C74_iterator_violated (args out : List Text) :
    let h : Heap (List Text) := fun r => if r = 1 then args else if r = 11 then out else []
    let s := run .alias (init h) [.start 0 "object_dependencies" [1] false true, .finish 0 11]
    s.log.map (fun x => x.res) = [out] ∧
    (step .alias (step .alias s (.mutate 11 [])).2 (.start 1 "object_dependencies" [1] false true)).1 = .hit [] := by
  simp [run, step, init, findCall, saveCall, Engine.store, upd, keyIs, Stored.value]

end Verif.Ocaml
