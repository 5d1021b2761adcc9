import Mathlib.Data.List.Nodup
import Verif.Path.Search
import Verif.Props.CopyRegex
import Verif.Props.Glob
import Verif.Props.Fnmatch
/-!
# Reading files and searching directories: properties

C125 (`Path.digest`), C126 (`Path.globall`), C127 (`Path.find`).
-/
namespace Verif.Search
open Verif.Posix Verif.Path

/-! ## C125: digest -/

/-- what `hashlib` says of `update`: repeated calls are a single call with the concatenation of the arguments -/
structure Hash.Streams {σ : Type} (h : Hash σ) : Prop where
  nothing : ∀ s, h.update s [] = s
  append : ∀ s a b, h.update (h.update s a) b = h.update s (a ++ b)

theorem read_append (n : Int) (rest : List UInt8) : (read n rest).1 ++ (read n rest).2 = rest := by
  unfold read
  split <;> simp

theorem read_end {n : Int} (hn : n ≠ 0) {rest : List UInt8} (h : (read n rest).1 = []) : rest = [] := by
  unfold read at h
  split at h
  · exact h
  · simp only [List.take_eq_nil_iff] at h
    rcases h with h | h
    · omega
    · exact h

theorem digestLoop_eq {σ : Type} (h : Hash σ) (hs : h.Streams) {n : Int} (hn : n ≠ 0) (m : σ) (rest : List UInt8) :
    digestLoop h n m rest = h.update m rest := by
  rw [digestLoop]
  split
  · rename_i he
    rw [read_end hn he, hs.nothing]
  · rename_i he
    have := read_left n rest he
    rw [digestLoop_eq h hs hn, hs.append, read_append]
termination_by rest.length

/-- **C125**: the digest of a file is the hash of all of its contents, whatever the size of the chunks. -/
theorem C125_whole {σ : Type} (h : Hash σ) (hs : h.Streams) (contents : List UInt8) (chunksize : Int)
    (hn : chunksize ≠ 0) : digest h contents chunksize = h.hex (h.update h.init contents) := by
  rw [digest, digestLoop_eq h hs hn]

/-- Two files have equal digests just if the hashes of their contents are equal, whatever the sizes of the chunks with which
the two are read. -/
theorem C125_compare {σ : Type} (h : Hash σ) (hs : h.Streams) (a b : List UInt8) (m n : Int) (hm : m ≠ 0) (hn : n ≠ 0) :
    digest h a m = digest h b n ↔ h.hex (h.update h.init a) = h.hex (h.update h.init b) := by
  rw [C125_whole h hs a m hm, C125_whole h hs b n hn]

/-- a hash that is the text of the bytes itself: it tells all contents apart -/
def plainHash : Hash (List UInt8) where
  init := []
  update s d := s ++ d
  hex s := s.map fun b => Char.ofNat (b.toNat + 65)

example : plainHash.Streams := ⟨fun s => List.append_nil s, fun s a b => List.append_assoc s a b⟩

/-- three bytes in chunks of two, and in one piece -/
example : digest plainHash [1, 2, 3] 2 = digest plainHash [1, 2, 3] ∧
    digest plainHash [1, 2, 3] 2 ≠ digest plainHash [1, 2, 4] 2 := by
  have hs : plainHash.Streams := ⟨fun s => List.append_nil s, fun s a b => List.append_assoc s a b⟩
  refine ⟨(C125_compare plainHash hs _ _ _ _ (by decide) (by decide)).mpr rfl, ?_⟩
  rw [ne_eq, C125_compare plainHash hs _ _ _ _ (by decide) (by decide)]
  decide

/-! ## C127: find -/

theorem tail_join (root : Text) {c : Text} (h : FileOps.Name c) : tail (join root c) = c := by
  unfold join
  rw [FileOps.isabs_name h]
  simp only [Bool.false_eq_true, if_false]
  split
  · rename_i he
    rcases he with he | he
    · subst he; exact tail_name h.2.2
    · obtain ⟨r, rfl⟩ := Glob.snoc_of_last he
      rw [List.append_assoc]
      exact tail_slash r c h.2.2
  · exact tail_slash root c h.2.2

theorem isdir_join {cwd : FileOps.Loc} {fs : FileOps.FS} {root c : Text} (h : FileOps.Name c)
    (hf : fs (FileOps.loc cwd root ++ [c]) = some .dir) : FileOps.isdir cwd fs (join root c) = true := by
  have hne : join root c ≠ [] := by
    intro he
    have := tail_join root h
    rw [he] at this
    exact h.1 (this.symm.trans (by decide))
  simp [FileOps.isdir, FileOps.stat, hne, FileOps.loc_join cwd root h, hf]

theorem loc_isdir {cwd : FileOps.Loc} {fs : FileOps.FS} {root : Text} (h : FileOps.isdir cwd fs root = true) :
    fs (FileOps.loc cwd root) = some .dir := by
  simp only [FileOps.isdir, FileOps.stat, decide_eq_true_eq] at h
  split at h
  · exact (nomatch h)
  · split at h
    · split at h <;> exact (nomatch h)
    · simpa using h

theorem find_eq {cwd : FileOps.Loc} {fs : FileOps.FS} {ls : FileOps.Loc → List Text} (ht : FileOps.Tree fs)
    (hl : FileOps.Lists fs ls) (pat : Option Text) (incl : Bool) (n : Nat) (root : Text)
    (hr : FileOps.isdir cwd fs root = true) :
    find cwd fs ls pat incl n root = (FileOps.find cwd fs ls incl n root).filter fun p => keep pat (tail p) := by
  induction n generalizing root with
  | zero => rfl
  | succ n ih =>
    have hd := loc_isdir hr
    have hname : ∀ {c}, c ∈ ls (FileOps.loc cwd root) → FileOps.Name c := by
      intro c hc
      obtain ⟨nd, hnd⟩ := Option.isSome_iff_exists.mp ((hl _ hd c).mp hc)
      exact ht.names hnd (by simp)
    simp only [find, hr, Bool.true_eq_false, if_false, FileOps.find, List.filter_append, List.filter_map, List.filter_flatMap]
    congr 1
    · congr 1
      apply List.filter_congr
      intro c hc
      have hm : c ∈ ls (FileOps.loc cwd root) := by
        split at hc
        · rcases List.mem_append.mp hc with hc | hc <;> exact (List.mem_filter.mp hc).1
        · exact (List.mem_filter.mp hc).1
      simp only [Function.comp]
      rw [tail_join root (hname hm)]
    · apply List.flatMap_congr
      intro c hc
      obtain ⟨h1, h2⟩ := List.mem_filter.mp hc
      exact ih (join root c) (isdir_join (hname h1) (by simpa using h2))

theorem tail_under (root : Text) (rel : List Text) (c : Text) (h : FileOps.Name c) :
    tail (FileOps.under root (rel ++ [c])) = c := by
  simp only [FileOps.under, List.foldl_append, List.foldl_cons, List.foldl_nil]
  exact tail_join _ h

/-- the names in a directory are listed once each -/
def Distinct (ls : FileOps.Loc → List Text) : Prop := ∀ l, (ls l).Nodup

theorem find_nodup {cwd : FileOps.Loc} {fs : FileOps.FS} {ls : FileOps.Loc → List Text} (ht : FileOps.Tree fs)
    (hl : FileOps.Lists fs ls) (hnd : Distinct ls) (incl : Bool) (n : Nat) (root : Text)
    (hr : fs (FileOps.loc cwd root) = some .dir) :
    ((FileOps.find cwd fs ls incl n root).map (FileOps.loc cwd)).Nodup ∧
    ∀ p ∈ FileOps.find cwd fs ls incl n root, ∃ rel, rel ≠ [] ∧ FileOps.loc cwd p = FileOps.loc cwd root ++ rel := by
  induction n generalizing root with
  | zero => simp [FileOps.find]
  | succ n ih =>
    have hname : ∀ {c}, c ∈ ls (FileOps.loc cwd root) → FileOps.Name c := by
      intro c hc
      obtain ⟨nd, hnd⟩ := Option.isSome_iff_exists.mp ((hl _ hr c).mp hc)
      exact ht.names hnd (by simp)
    simp only [FileOps.find]
    generalize hX : (if incl = true then
        ((ls (FileOps.loc cwd root)).filter fun f => !decide (fs (FileOps.loc cwd root ++ [f]) = some .dir)) ++
          (ls (FileOps.loc cwd root)).filter fun f => decide (fs (FileOps.loc cwd root ++ [f]) = some .dir)
        else (ls (FileOps.loc cwd root)).filter fun f => !decide (fs (FileOps.loc cwd root ++ [f]) = some .dir)) = X
    have hXm : ∀ c ∈ X, c ∈ ls (FileOps.loc cwd root) := by
      intro c hc
      subst hX
      split at hc
      · rcases List.mem_append.mp hc with hc | hc <;> exact (List.mem_filter.mp hc).1
      · exact (List.mem_filter.mp hc).1
    have hXn : X.Nodup := by
      subst hX
      split
      · refine List.nodup_append.mpr ⟨(hnd _).filter _, (hnd _).filter _, ?_⟩
        intro a ha b hb e
        subst e
        have h1 := (List.mem_filter.mp ha).2
        have h2 := (List.mem_filter.mp hb).2
        simp [h2] at h1
      · exact (hnd _).filter _
    have hXl : (X.map (join root)).map (FileOps.loc cwd) = X.map fun c => FileOps.loc cwd root ++ [c] := by
      rw [List.map_map]
      apply List.map_congr_left
      intro c hc
      exact FileOps.loc_join cwd root (hname (hXm c hc))
    have hsub : ∀ c, c ∈ ls (FileOps.loc cwd root) → fs (FileOps.loc cwd root ++ [c]) = some .dir →
        ((FileOps.find cwd fs ls incl n (join root c)).map (FileOps.loc cwd)).Nodup ∧
        ∀ p ∈ FileOps.find cwd fs ls incl n (join root c), ∃ rel, rel ≠ [] ∧
          FileOps.loc cwd p = FileOps.loc cwd root ++ c :: rel := by
      intro c hc hcd
      have hj := FileOps.loc_join cwd root (hname hc)
      have := ih (join root c) (by rw [hj, hcd])
      rw [hj] at this
      refine ⟨this.1, fun p hp => ?_⟩
      obtain ⟨rel, h1, h2⟩ := this.2 p hp
      exact ⟨rel, h1, by simpa using h2⟩
    constructor
    · rw [List.map_append, List.map_flatMap, hXl]
      refine List.nodup_append.mpr ⟨?_, ?_, ?_⟩
      · refine List.Nodup.map ?_ hXn
        intro a b h
        simpa using h
      · refine List.nodup_flatMap.mpr ⟨?_, ?_⟩
        · intro c hc
          obtain ⟨h1, h2⟩ := List.mem_filter.mp hc
          exact (hsub c h1 (by simpa using h2)).1
        · refine ((hnd (FileOps.loc cwd root)).filter _).imp_of_mem ?_
          intro a b ha hb hab x hxa hxb
          obtain ⟨ha1, ha2⟩ := List.mem_filter.mp ha
          obtain ⟨hb1, hb2⟩ := List.mem_filter.mp hb
          obtain ⟨p, hp, rfl⟩ := List.mem_map.mp hxa
          obtain ⟨q, hq, he⟩ := List.mem_map.mp hxb
          obtain ⟨r1, _, e1⟩ := (hsub a ha1 (by simpa using ha2)).2 p hp
          obtain ⟨r2, _, e2⟩ := (hsub b hb1 (by simpa using hb2)).2 q hq
          rw [e1, e2] at he
          have := List.append_cancel_left he
          simp only [List.cons.injEq] at this
          exact hab this.1.symm
      · intro x hx y hy e
        subst e
        obtain ⟨c, _, rfl⟩ := List.mem_map.mp hx
        obtain ⟨d, hd, hy⟩ := List.mem_flatMap.mp hy
        obtain ⟨q, hq, he⟩ := List.mem_map.mp hy
        obtain ⟨hd1, hd2⟩ := List.mem_filter.mp hd
        obtain ⟨r, hrne, e2⟩ := (hsub d hd1 (by simpa using hd2)).2 q hq
        rw [e2] at he
        have := List.append_cancel_left he
        simp only [List.cons.injEq] at this
        exact hrne this.2
    · intro p hp
      rcases List.mem_append.mp hp with hp | hp
      · obtain ⟨c, hc, rfl⟩ := List.mem_map.mp hp
        exact ⟨[c], by simp, FileOps.loc_join cwd root (hname (hXm c hc))⟩
      · obtain ⟨d, hd, hp⟩ := List.mem_flatMap.mp hp
        obtain ⟨hd1, hd2⟩ := List.mem_filter.mp hd
        obtain ⟨r, _, e2⟩ := (hsub d hd1 (by simpa using hd2)).2 p hp
        exact ⟨d :: r, by simp, e2⟩

/-- **C127**: what `find` yields are the files below the directory, and the directories if they are asked for, whose own name
matches the pattern. -/
theorem C127_exact (cwd : FileOps.Loc) (fs : FileOps.FS) (ls : FileOps.Loc → List Text) (ht : FileOps.Tree fs)
    (hl : FileOps.Lists fs ls) (pattern : Option Text) (includeDirs : Bool) (depth : Nat) (root : Text)
    (hr : FileOps.isdir cwd fs root = true) (hd : FileOps.Depth fs (FileOps.loc cwd root) depth) (p : Text) :
    p ∈ find cwd fs ls pattern includeDirs depth root ↔
      ∃ dirs name node, fs (FileOps.loc cwd root ++ (dirs ++ [name])) = some node ∧
        (node = .dir → includeDirs = true) ∧ (∀ pat, pattern = some pat → Fnmatch.Fnmatchcase name pat) ∧
        p = (dirs ++ [name]).foldl join root := by
  rw [find_eq ht hl pattern includeDirs depth root hr, List.mem_filter,
    FileOps.mem_find ht hl depth root (loc_isdir hr) hd]
  have hk : ∀ name, keep pattern name = true ↔ ∀ pat, pattern = some pat → Fnmatch.Fnmatchcase name pat := by
    intro name
    cases pattern with
    | none => simp [keep]
    | some q => simp [keep]
  constructor
  · rintro ⟨⟨rel, nd, hne, hf, hi, rfl⟩, h⟩
    obtain ⟨dirs, name, rfl⟩ := (List.eq_nil_or_concat rel).resolve_left hne
    rw [List.concat_eq_append] at hf h ⊢
    have hn : FileOps.Name name := ht.names hf (by simp)
    rw [tail_under root dirs name hn] at h
    refine ⟨dirs, name, nd, hf, fun e => ?_, (hk name).mp h, rfl⟩
    cases includeDirs with
    | true => rfl
    | false => exact absurd e (hi rfl)
  · rintro ⟨dirs, name, nd, hf, hi, hm, rfl⟩
    have hn : FileOps.Name name := ht.names hf (by simp)
    refine ⟨⟨dirs ++ [name], nd, by simp, hf, ?_, rfl⟩, ?_⟩
    · intro h e
      rw [hi e] at h
      exact (nomatch h)
    · have := tail_under root dirs name hn
      rw [FileOps.under] at this
      rw [this]
      exact (hk name).mpr hm

/-- Nothing is yielded twice. -/
theorem C127_once (cwd : FileOps.Loc) (fs : FileOps.FS) (ls : FileOps.Loc → List Text) (ht : FileOps.Tree fs)
    (hl : FileOps.Lists fs ls) (hnd : Distinct ls) (pattern : Option Text) (includeDirs : Bool) (depth : Nat) (root : Text) :
    (find cwd fs ls pattern includeDirs depth root).Nodup ∧
    ((find cwd fs ls pattern includeDirs depth root).map (FileOps.loc cwd)).Nodup := by
  cases hr : FileOps.isdir cwd fs root with
  | false => cases depth <;> simp [find, hr]
  | true =>
    rw [find_eq ht hl pattern includeDirs depth root hr]
    have := (find_nodup (cwd := cwd) ht hl hnd includeDirs depth root (loc_isdir hr)).1
    have h2 := this.sublist ((List.filter_sublist (p := fun p => keep pattern (tail p))).map (FileOps.loc cwd))
    exact ⟨List.Nodup.of_map _ h2, h2⟩

/-- Where there is no directory, nothing is found. -/
theorem C127_nothing (cwd : FileOps.Loc) (fs : FileOps.FS) (ls : FileOps.Loc → List Text) (pattern : Option Text)
    (includeDirs : Bool) (depth : Nat) (root : Text) (hr : FileOps.isdir cwd fs root = false) :
    find cwd fs ls pattern includeDirs depth root = [] := by
  cases depth <;> simp [find, hr]

open FileOps.Ex in
theorem ls2_distinct : Distinct ls2 := by
  intro l
  refine List.Nodup.map_on ?_ (List.Nodup.filter _ (by decide))
  intro a ha b hb h
  simp only [List.mem_filter, Bool.and_eq_true, decide_eq_true_eq, beq_iff_eq] at ha hb
  obtain ⟨a', x, rfl⟩ := (List.eq_nil_or_concat a).resolve_left ha.2.1
  obtain ⟨b', y, rfl⟩ := (List.eq_nil_or_concat b).resolve_left hb.2.1
  simp only [List.concat_eq_append, List.dropLast_concat, List.getLast?_concat, Option.getD_some] at ha hb h ⊢
  rw [ha.2.2, hb.2.2, h]

theorem pattern_quest : Fnmatch.pattern ['?'] = [.any] := by
  simp [Fnmatch.pattern, Fnmatch.read]

open FileOps FileOps.Ex in
/-- `src` has the files `ab` and `d/c`: with the pattern `?` the directory `src/d` and the file `src/d/c` are found, and `src/ab`
is not -/
example : "src/d".toList ∈ Search.find [] fs2 ls2 (some ['?']) true 2 "src".toList ∧
    "src/d/c".toList ∈ Search.find [] fs2 ls2 (some ['?']) true 2 "src".toList ∧
    "src/d".toList ∉ Search.find [] fs2 ls2 (some ['?']) false 2 "src".toList ∧
    "src/ab".toList ∉ Search.find [] fs2 ls2 (some ['?']) true 2 "src".toList ∧
    (Search.find [] fs2 ls2 (some ['?']) true 2 "src".toList).Nodup := by
  have hr : isdir [] fs2 "src".toList = true := by decide +kernel
  have hsound : Fnmatch.Sound (Fnmatch.pattern ['?']) := by rw [pattern_quest]; simp [Fnmatch.Sound]
  have hone : ∀ x : Char, x ≠ '\n' → Fnmatch.Fnmatchcase [x] ['?'] := by
    intro x hx
    rw [(Fnmatch.C38_text_partial ['?'] [x] hsound (by simpa using fun e => hx e.symm)).1, pattern_quest]
    exact .any .nil
  have hx := fun incl => C127_exact [] fs2 ls2 fs2_ok ls2_ok (some ['?']) incl 2 "src".toList hr fs2_depth
  have hl : FileOps.loc [] "src".toList = ["src".toList] := by decide
  have huniq : ∀ {p : Text} {k : Loc} {dirs : List Text} {name : Text} {nd : Node},
      fs2 (FileOps.loc [] "src".toList ++ (dirs ++ [name])) = some nd → p = (dirs ++ [name]).foldl join "src".toList →
      FileOps.loc [] p = k → k = ["src".toList] ++ (dirs ++ [name]) := by
    rintro p k dirs name nd hf rfl rfl
    have := loc_under [] "src".toList (dirs ++ [name]) (fun c hc => fs2_ok.names hf (List.mem_append_right _ hc))
    rw [under, hl] at this
    exact this
  refine ⟨(hx true _).mpr ⟨[], ['d'], .dir, by decide +kernel, fun _ => rfl, ?_, by decide⟩,
    (hx true _).mpr ⟨[['d']], ['c'], .file 2 420, by decide +kernel, fun _ => rfl, ?_, by decide⟩, ?_, ?_,
    (C127_once [] fs2 ls2 fs2_ok ls2_ok ls2_distinct _ _ _ _).1⟩
  · rintro pat he
    cases he
    exact hone 'd' (by decide)
  · rintro pat he
    cases he
    exact hone 'c' (by decide)
  · rw [hx false]
    rintro ⟨dirs, name, nd, hf, hi, _, hp⟩
    have hk : FileOps.loc [] "src/d".toList = ["src".toList, ['d']] := by decide
    have := huniq hf hp hk
    rw [hl, ← this] at hf
    have hd : fs2 ["src".toList, ['d']] = some .dir := by decide +kernel
    rw [hd] at hf
    cases hf
    exact Bool.noConfusion (hi rfl)
  · rw [hx true]
    rintro ⟨dirs, name, nd, hf, hi, hm, hp⟩
    have hk : FileOps.loc [] "src/ab".toList = ["src".toList, ['a', 'b']] := by decide
    have := huniq hf hp hk
    have hname : name = ['a', 'b'] := by
      have := congrArg List.getLast? this
      rw [← List.append_assoc, List.getLast?_concat] at this
      simpa using this.symm
    subst hname
    have := (Fnmatch.C38_text_partial ['?'] ['a', 'b'] hsound (by decide)).1.mp (hm _ rfl)
    rw [pattern_quest] at this
    cases this with
    | any h => cases h

/-! ## C126: globall -/

/-- `pattern` is one of the texts in an argument of `globall`, at any depth -/
inductive Leaf (pattern : Text) : Arg → Prop
  | str : Leaf pattern (.str pattern)
  | item {a : Arg} {l : List Arg} : a ∈ l → Leaf pattern a → Leaf pattern (.items l)

/-- the patterns that the argument `exclude` stands for -/
def Says : Exclude → Text → Prop
  | .str q, e => e = q
  | .list l, e => e ∈ l

/-- `p` exists, one of the patterns in the arguments picks it, and no pattern in `exclude` matches it -/
def Wanted (fs : Glob.FS) (args : List Arg) (exclude : Exclude) (p : Text) : Prop :=
  fs.lexists p = true ∧
  (∃ abs cs qs, (∃ a ∈ args, Leaf (Glob.text abs cs) a) ∧ Glob.PatOk cs ∧ Glob.Picks true cs qs ∧ p = Glob.text abs qs) ∧
  ∀ e, Says exclude e → ¬ Fnmatch.Matches (Fnmatch.pattern e) p

theorem mem_igloball (fs : Glob.FS) (ex : Exclude) (args : List Arg) (p : Text) :
    p ∈ igloball fs ex args ↔ ∃ a ∈ args, p ∈ globArg fs ex a := by
  induction args with
  | nil => simp [igloball]
  | cons a rest ih => simp [igloball, ih]

theorem leaf_items (s : Text) (l : List Arg) : Leaf s (.items l) ↔ ∃ a ∈ l, Leaf s a :=
  ⟨fun h => by cases h with | item h1 h2 => exact ⟨_, h1, h2⟩, fun ⟨_, h1, h2⟩ => .item h1 h2⟩

theorem leaf_str (s t : Text) : Leaf s (.str t) ↔ s = t :=
  ⟨fun h => by cases h; rfl, fun h => by subst h; exact .str⟩

mutual
theorem globArg_plain (fs : Glob.FS) (p : Text) : ∀ a : Arg,
    p ∈ globArg fs (.list []) a ↔ ∃ s, Leaf s a ∧ p ∈ Glob.glob fs true s
  | .str s => by simp [globArg, iglob, leaf_str, Exclude.patterns]
  | .items l => by
    simp only [globArg, leaf_items]
    rw [igloball_plain fs p l]
theorem igloball_plain (fs : Glob.FS) (p : Text) : ∀ l : List Arg,
    p ∈ igloball fs (.list []) l ↔ ∃ s, (∃ a ∈ l, Leaf s a) ∧ p ∈ Glob.glob fs true s
  | [] => by simp [igloball]
  | a :: rest => by
    simp only [igloball, List.mem_append]
    rw [globArg_plain fs p a, igloball_plain fs p rest]
    constructor
    · rintro (⟨s, h1, h2⟩ | ⟨s, ⟨b, hb, h1⟩, h2⟩)
      · exact ⟨s, ⟨a, .head _, h1⟩, h2⟩
      · exact ⟨s, ⟨b, .tail _ hb, h1⟩, h2⟩
    · rintro ⟨s, ⟨b, hb, h1⟩, h2⟩
      rcases List.mem_cons.mp hb with rfl | hb
      · exact .inl ⟨s, h1, h2⟩
      · exact .inr ⟨s, ⟨b, hb, h1⟩, h2⟩
end

theorem says_iff (ex : Exclude) (e : Text) : Says ex e ↔ e ∈ ex.patterns := by
  cases ex <;> simp [Says, Exclude.patterns]

theorem mem_iglob (fs : Glob.FS) (ex : Exclude) (s p : Text) :
    p ∈ iglob fs ex s ↔ p ∈ Glob.glob fs true s ∧ ∀ e, Says ex e → ¬ Fnmatch.Fnmatchcase p e := by
  simp [iglob, says_iff]

theorem mem_globall (fs : Glob.FS) (args : List Arg) (ex : Exclude)
    (h : (∀ a ∈ args, ∃ s, a = .str s) ∨ ∀ e, ¬ Says ex e) (p : Text) :
    p ∈ globall fs args ex ↔ ∃ s, (∃ a ∈ args, Leaf s a) ∧ p ∈ Glob.glob fs true s ∧
      ∀ e, Says ex e → ¬ Fnmatch.Fnmatchcase p e := by
  rcases h with h | h
  · rw [globall, mem_igloball]
    constructor
    · rintro ⟨a, ha, hp⟩
      obtain ⟨s, rfl⟩ := h a ha
      rw [globArg, mem_iglob] at hp
      exact ⟨s, ⟨_, ha, .str⟩, hp⟩
    · rintro ⟨s, ⟨a, ha, hs⟩, hp⟩
      obtain ⟨t, rfl⟩ := h a ha
      rw [leaf_str] at hs
      subst hs
      exact ⟨_, ha, by rw [globArg, mem_iglob]; exact hp⟩
  · have hex : ex = .list [] := by
      cases ex with
      | str q => exact absurd rfl (h q)
      | list l =>
        cases l with
        | nil => rfl
        | cons e l => exact absurd (List.mem_cons_self) (h e)
    subst hex
    rw [globall, igloball_plain]
    constructor
    · rintro ⟨s, h1, h2⟩
      exact ⟨s, h1, h2, fun e he => absurd he (h e)⟩
    · rintro ⟨s, h1, h2, _⟩
      exact ⟨s, h1, h2⟩

/-- **C126**: what is returned is what one of the patterns picks and nothing in `exclude` matches.  Missing for the full claim:
patterns in lists together with `exclude`, patterns that end in `**`, paths with newlines. -/
theorem C126_exact_partial (fs : Glob.FS) (hok : fs.Ok) (args : List Arg) (exclude : Exclude)
    (hflat : (∀ a ∈ args, ∃ s, a = .str s) ∨ ∀ e, ¬ Says exclude e)
    (hpat : ∀ a ∈ args, ∀ s, Leaf s a → ∃ abs cs, s = Glob.text abs cs ∧ Glob.PatOk cs ∧ ¬ Glob.EndsRec true cs)
    (hex : ∀ e, Says exclude e → Fnmatch.Sound (Fnmatch.pattern e)) (p : Text) (hp : '\n' ∉ p) :
    p ∈ globall fs args exclude ↔ Wanted fs args exclude p := by
  have hm : (∀ e, Says exclude e → ¬ Fnmatch.Fnmatchcase p e) ↔
      ∀ e, Says exclude e → ¬ Fnmatch.Matches (Fnmatch.pattern e) p := by
    constructor <;> intro h e he
    · rw [← (Fnmatch.C38_text_partial e p (hex e he) hp).1]; exact h e he
    · rw [(Fnmatch.C38_text_partial e p (hex e he) hp).1]; exact h e he
  rw [mem_globall fs args exclude hflat, Wanted, ← hm]
  constructor
  · rintro ⟨s, ⟨a, ha, hs⟩, hg, hn⟩
    obtain ⟨abs, cs, rfl, hc, he⟩ := hpat a ha s hs
    obtain ⟨hx, qs, hq, rfl⟩ := Glob.C40_sound_partial fs hok true abs cs hc he p hg
    exact ⟨hx, ⟨abs, cs, qs, ⟨a, ha, hs⟩, hc, hq, rfl⟩, hn⟩
  · rintro ⟨hx, ⟨abs, cs, qs, hg, hc, hq, rfl⟩, hn⟩
    exact ⟨_, hg, Glob.C40_complete fs hok true abs cs hc qs hq hx, hn⟩

/-- The results come in the order of the patterns. -/
theorem C126_order (fs : Glob.FS) (exclude : Exclude) (a b : List Arg) :
    globall fs (a ++ b) exclude = globall fs a exclude ++ globall fs b exclude := by
  unfold globall
  induction a with
  | nil => simp [igloball]
  | cons x a ih => simp [igloball, ih]

theorem pick_c {x : Text} (hx : Glob.IsName x) (hd : x.head? ≠ some '.')
    (hm : Fnmatch.Matches [.star, .lit '.', .lit 'c'] x) :
    Glob.Picks true ["src".toList, "*.c".toList] ["src".toList, x] := by
  refine .plain (by simp [Glob.Plain]) (.magic (by simp [Glob.Plain]) (by simp) hx ?_ ?_ .nil)
  · rw [Glob.pattern_c]; exact hm
  · intro h; exact absurd h hd

theorem pats_ok : Glob.PatOk ["src".toList, "*.c".toList] := by
  constructor <;> simp [Fnmatch.pattern, Fnmatch.read, Fnmatch.Sound]

theorem pattern_a : Fnmatch.pattern "*a.c".toList = [.star, .lit 'a', .lit '.', .lit 'c'] := by
  simp [Fnmatch.pattern, Fnmatch.read]

theorem found_a : "src/a.c".toList ∈ Glob.glob Glob.sampleFS true "src/*.c".toList :=
  Glob.C40_complete Glob.sampleFS Glob.sample_ok true false _ pats_ok ["src".toList, "a.c".toList]
    (pick_c (by simp [Glob.IsName]) (by simp) (.star (u := ['a']) (.lit (.lit .nil)))) (by decide +kernel)

/-- `Path.globall('src/*.c', exclude='*a.c')` and `Path.globall(['src/*.c'])`: the hypotheses are met, and `src/a.c` is in the
second result only -/
example : "src/a.c".toList ∉ globall Glob.sampleFS [.str "src/*.c".toList] (.str "*a.c".toList) ∧
    "src/a.c".toList ∈ globall Glob.sampleFS [.items [.str "src/*.c".toList]] := by
  have hpat : ∀ a ∈ [Arg.items [.str "src/*.c".toList], .str "src/*.c".toList], ∀ s, Leaf s a →
      ∃ abs cs, s = Glob.text abs cs ∧ Glob.PatOk cs ∧ ¬ Glob.EndsRec true cs := by
    intro a ha s hs
    have : s = "src/*.c".toList := by
      rcases List.mem_cons.mp ha with rfl | ha
      · rw [leaf_items] at hs
        obtain ⟨b, hb, hs⟩ := hs
        rw [List.mem_singleton.mp hb, leaf_str] at hs
        exact hs
      · rw [List.mem_singleton.mp ha, leaf_str] at hs
        exact hs
    subst this
    exact ⟨false, ["src".toList, "*.c".toList], by decide, pats_ok, by simp [Glob.EndsRec]⟩
  constructor
  · rw [C126_exact_partial Glob.sampleFS Glob.sample_ok _ _ (.inl (by simp)) (fun a ha => hpat a (by simp_all))
      (by rintro e rfl; rw [pattern_a]; simp [Fnmatch.Sound]) _ (by decide)]
    rintro ⟨_, _, h⟩
    apply h _ rfl
    rw [pattern_a]
    exact .star (u := "src/".toList) (.lit (.lit (.lit .nil)))
  · rw [C126_exact_partial Glob.sampleFS Glob.sample_ok _ _ (.inr (by simp [Says])) (fun a ha => hpat a (by simp_all))
      (by simp [Says]) _ (by decide)]
    refine ⟨by decide +kernel, ⟨false, ["src".toList, "*.c".toList], ["src".toList, "a.c".toList], ?_, pats_ok,
      pick_c (by simp [Glob.IsName]) (by simp) (.star (u := ['a']) (.lit (.lit .nil))), by decide⟩, by simp [Says]⟩
    refine ⟨_, .head _, .item (.head _) ?_⟩
    rw [leaf_str]
    decide

/-- **C126 is violated**: `Path.globall(['src/*.c'], exclude='*a.c')` returns `src/a.c`, since the arguments by keyword are not
passed on for the patterns in a list. -/
theorem C126_nested_violated :
    "src/a.c".toList ∈ globall Glob.sampleFS [.items [.str "src/*.c".toList]] (.str "*a.c".toList) ∧
    Says (.str "*a.c".toList) "*a.c".toList ∧ Fnmatch.Matches (Fnmatch.pattern "*a.c".toList) "src/a.c".toList := by
  refine ⟨?_, rfl, ?_⟩
  · rw [globall, mem_igloball]
    refine ⟨_, .head _, ?_⟩
    rw [globArg, igloball_plain]
    exact ⟨_, ⟨_, .head _, .str⟩, found_a⟩
  · rw [pattern_a]
    exact .star (u := "src/".toList) (.lit (.lit (.lit .nil)))

end Verif.Search
