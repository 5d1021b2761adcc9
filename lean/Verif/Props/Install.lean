import Verif.Install.Core
import Verif.Props.Path
/-!
# Installing: properties

C45 (targets lie below the destination directory) and C46 (what installing does to the files).
-/
namespace Verif.Install
open Verif.Posix Verif.Path

/-! ## C45 -/

/-- the components of a path: its parts that are not empty -/
def comps (p : Text) : List Text := (parts p).filter (fun c => c ≠ [])

/-- The name of the installed file: what was asked for, otherwise what follows the last slash of the path. -/
def NameOf (path : Text) (rename : Option Text) (name : Text) : Prop :=
  (∃ r, rename = some r ∧ r ≠ [] ∧ name = r) ∨
  ((rename = none ∨ rename = some []) ∧ '/' ∉ name ∧ (path = name ∨ ∃ d, path = d ++ '/' :: name))

theorem comps_join (a b : Text) (hb : isabs b = false) : comps (join a b) = comps a ++ comps b := by
  unfold join comps
  simp only [hb, Bool.false_eq_true, if_false]
  split
  · rename_i h
    rcases h with h | h
    · subst h; simp [parts]
    · obtain ⟨d, rfl⟩ := snoc_of_last h
      have h1 : parts (d ++ ['/'] ++ b) = parts d ++ parts b := by
        rw [List.append_assoc, List.singleton_append, parts_slash]
      have h2 : parts (d ++ ['/']) = parts d ++ [[]] := parts_slash d []
      rw [h1, h2]
      simp
  · rw [parts_slash, List.filter_append]

theorem below_join' (r s : Text) (h : ['.', '.'] ∉ parts s) (ha : isabs s = false) : Below r (join r s) := by
  by_cases hr : r = []
  · subst hr
    have : join [] s = s := by simp [join, ha]
    rw [this]
    refine ⟨ha, place s, ?_⟩
    have : place [] = [] := by decide
    rw [this, List.append_nil]
  · exact below_join r s hr h ha

theorem below_trans {a b c : Text} (h : Below a b) (h' : Below b c) : Below a c := by
  obtain ⟨h1, i, hi⟩ := h
  obtain ⟨h2, j, hj⟩ := h'
  exact ⟨h2.trans h1, j ++ i, by rw [hj, hi, List.append_assoc]⟩

/-- A path that starts with one slash only. -/
def OneSlash (p : Text) : Prop := ¬ ['/', '/'] <+: p

theorem parts_drop {p : Text} (h : isabs p = true) : parts p = [] :: parts (p.drop 1) := by
  cases p with
  | nil => simp [isabs] at h
  | cons c p =>
    have : c = '/' := by simpa [isabs] using h
    subst this
    simp [parts]

theorem rel_drop {p : Text} (h : isabs p = true) (h1 : OneSlash p) : isabs (p.drop 1) = false := by
  cases p with
  | nil => simp [isabs] at h
  | cons c p =>
    have : c = '/' := by simpa [isabs] using h
    subst this
    cases p with
    | nil => rfl
    | cons d p =>
      by_cases hd : d = '/'
      · subst hd
        exact absurd ⟨p, rfl⟩ h1
      · simp [isabs, hd]

/-- the name is unique -/
theorem nameOf_eq {path : Text} {rename : Option Text} {name : Text} (h : NameOf path rename name) :
    nameOf path rename = name := by
  rcases h with ⟨r, rfl, hr, rfl⟩ | ⟨hr, hns, hp⟩
  · cases name with
    | nil => exact absurd rfl hr
    | cons c r => rfl
  · have htail : (split path).2 = name := by
      show tail path = name
      rcases hp with rfl | ⟨d, rfl⟩
      · exact tail_name hns
      · exact tail_slash _ _ hns
    rcases hr with rfl | rfl <;> exact htail

/-- **C45**: for directories that do not start with two slashes, a name that is not an absolute path, and no
`..`, the target lies below the destination directory; its components are those of the destination directory,
of the prefix unless the subdirectory is absolute, of the subdirectory, and the name.  Missing for the full
claim: the cases just excluded. -/
theorem C45_below_partial (destdir pre path subdir name : Text) (rename : Option Text)
    (hname : NameOf path rename name) (hrel : isabs name = false)
    (hs : OneSlash subdir) (hp : OneSlash pre)
    (hdd : ['.', '.'] ∉ parts subdir ∧ ['.', '.'] ∉ parts pre ∧ ['.', '.'] ∉ parts name) :
    Below destdir (target destdir pre path subdir rename) ∧
    comps (target destdir pre path subdir rename) =
      comps destdir ++ (if isabs subdir then [] else comps pre) ++ comps subdir ++ comps name := by
  obtain ⟨hd1, hd2, hd3⟩ := hdd
  unfold target
  simp only [nameOf_eq hname]
  by_cases ha : isabs subdir = true
  · simp only [ha, if_true]
    have h1 := rel_drop ha hs
    rw [parts_drop ha] at hd1
    refine ⟨below_trans (below_join' destdir _ (fun h => hd1 (.tail _ h)) h1) (below_join' _ _ hd3 hrel), ?_⟩
    rw [comps_join _ _ hrel, comps_join _ _ h1]
    have : comps subdir = comps (subdir.drop 1) := by
      unfold comps; rw [parts_drop ha]; simp
    rw [this]
    simp
  · have ha : isabs subdir = false := by simpa using ha
    simp only [ha, Bool.false_eq_true, if_false]
    have hpre : isabs (if isabs pre = true then pre.drop 1 else pre) = false := by
      by_cases hpa : isabs pre = true
      · rw [if_pos hpa]; exact rel_drop hpa hp
      · rw [if_neg hpa]; simpa using hpa
    have hpre' : ['.', '.'] ∉ parts (if isabs pre = true then pre.drop 1 else pre) := by
      by_cases hpa : isabs pre = true
      · rw [if_pos hpa]; rw [parts_drop hpa] at hd2; exact fun h => hd2 (.tail _ h)
      · rw [if_neg hpa]; exact hd2
    have hcp : comps (if isabs pre = true then pre.drop 1 else pre) = comps pre := by
      by_cases hpa : isabs pre = true
      · rw [if_pos hpa]
        unfold comps; conv => rhs; rw [parts_drop hpa]
        simp
      · rw [if_neg hpa]
    refine ⟨below_trans (below_trans (below_join' destdir _ hpre' hpre) (below_join' _ _ hd1 ha))
      (below_join' _ _ hd3 hrel), ?_⟩
    rw [comps_join _ _ hrel, comps_join _ _ ha, comps_join _ _ hpre, hcp]

/-- **C45** is false for a subdirectory or prefix that starts with two slashes, and for an absolute name: the
file is installed outside of the destination directory. -/
theorem C45_violated :
    target "/stage".toList "/usr".toList "x".toList "//etc".toList none = "/etc/x".toList ∧
    target "/stage".toList "//usr".toList "x".toList "bin".toList none = "/usr/bin/x".toList ∧
    target "/stage".toList "/usr".toList "x".toList "bin".toList (some "/etc/x".toList) = "/etc/x".toList ∧
    ¬ Below "/stage".toList "/etc/x".toList ∧ ¬ Below "/stage".toList "/usr/bin/x".toList := by
  refine ⟨by decide, by decide, by decide, ?_, ?_⟩
  · rintro ⟨_, inner, h⟩
    have h1 : place "/etc/x".toList = ["x".toList, "etc".toList] := by decide
    have h2 : place "/stage".toList = ["stage".toList] := by decide
    rw [h1, h2] at h
    have := congrArg List.getLast? h
    simp at this
  · rintro ⟨_, inner, h⟩
    have h1 : place "/usr/bin/x".toList = ["x".toList, "bin".toList, "usr".toList] := by decide
    have h2 : place "/stage".toList = ["stage".toList] := by decide
    rw [h1, h2] at h
    have := congrArg List.getLast? h
    simp at this

example : target "/stage".toList "/usr/local".toList "build/prog".toList "bin".toList none =
    "/stage/usr/local/bin/prog".toList ∧
    Below "/stage".toList (target "/stage".toList "/usr/local".toList "build/prog".toList "bin".toList none) :=
  ⟨by decide, (C45_below_partial "/stage".toList "/usr/local".toList "build/prog".toList "bin".toList
    "prog".toList none (.inr ⟨.inl rfl, by decide, .inr ⟨"build".toList, by decide⟩⟩) (by decide)
    (by unfold OneSlash; decide) (by unfold OneSlash; decide) (by decide)).1⟩

/-! ## C46 -/

theorem real_plain {fs : FS} {p : Text} (h : ∀ to, fs p ≠ some (.link to)) : real fs p = some p := by
  unfold real follow
  cases hp : fs p with
  | none => rfl
  | some n =>
    cases n with
    | link to => exact absurd hp (h to)
    | file c m => rfl
    | dir => rfl

/-- copying a file to a place where there is nothing or another file -/
theorem copy_file {fs : FS} {src dst : Text} {c m : Nat} (hs : fs src = some (.file c m))
    (hd : fs dst = none ∨ ∃ c' m', fs dst = some (.file c' m')) (hne : dst ≠ src) :
    copy fs src dst = ⟨fs.set dst (some (.file c m)), true⟩ := by
  have hrs : real fs src = some src := real_plain (fun to h => by rw [hs] at h; simp at h)
  have hrd : real fs dst = some dst := real_plain (fun to h => by
    rcases hd with hd | ⟨c', m', hd⟩ <;> rw [hd] at h <;> simp at h)
  have hnd : fs dst ≠ some .dir := by
    rcases hd with hd | ⟨c', m', hd⟩ <;> rw [hd] <;> simp
  unfold copy
  rw [hrs]
  simp only [hs, hrd, hnd, if_false, hne]

/-- **C46** for a file and no permissions asked for, if there is nothing at the target or another file: the
target gets content and permissions of the source, and nothing else changes.  Missing for the full claim: the
permissions, and targets that are links or directories. -/
theorem C46_copy_partial (fs : FS) (file tgt : Text) (c m : Nat) (hs : fs file = some (.file c m))
    (hd : fs tgt = none ∨ ∃ c' m', fs tgt = some (.file c' m')) (hne : tgt ≠ file) :
    (install fs file tgt none).ok = true ∧
    (install fs file tgt none).fs tgt = some (.file c m) ∧
    ∀ q, q ≠ tgt → (install fs file tgt none).fs q = fs q := by
  have : install fs file tgt none = ⟨fs.set tgt (some (.file c m)), true⟩ := by
    unfold install
    simp only [hs, copy_file hs hd hne, Res.andThen, if_true]
  rw [this]
  exact ⟨rfl, by simp [FS.set], fun q hq => by simp [FS.set, hq]⟩

/-- **C46** for a link, if there is nothing at the target, a file, or a link that leads somewhere: the target
becomes a link with the same text, and nothing else changes. -/
theorem C46_link_partial (fs : FS) (file tgt to : Text) (hs : fs file = some (.link to))
    (hd : fs tgt = none ∨ exists' fs tgt = true ∧ fs tgt ≠ some .dir) :
    (install fs file tgt none).ok = true ∧
    (install fs file tgt none).fs tgt = some (.link to) ∧
    ∀ q, q ≠ tgt → (install fs file tgt none).fs q = fs q := by
  have : ∃ fs' : FS, install fs file tgt none = ⟨fs'.set tgt (some (.link to)), true⟩ ∧ ∀ q, q ≠ tgt → fs' q = fs q := by
    unfold install
    simp only [hs]
    rcases hd with hd | ⟨hex, hnd⟩
    · have hr : real fs tgt = some tgt := real_plain (fun to h => by rw [hd] at h; simp at h)
      have hex : exists' fs tgt = false := by simp [exists', hr, hd]
      refine ⟨fs, ?_, fun _ _ => rfl⟩
      simp [hex, Res.andThen, symlink, hd]
    · refine ⟨fs.set tgt none, ?_, fun q hq => by simp [FS.set, hq]⟩
      have hrm : remove fs tgt = ⟨fs.set tgt none, true⟩ := by
        cases hn : fs tgt with
        | none =>
          have hr : real fs tgt = some tgt := real_plain (fun to h => by rw [hn] at h; simp at h)
          simp [exists', hr, hn] at hex
        | some n =>
          cases n with
          | dir => exact absurd hn hnd
          | file c m => simp [remove, hn]
          | link l => simp [remove, hn]
      have hno : (fs.set tgt none) tgt = none := by simp [FS.set]
      simp [hex, hrm, Res.andThen, symlink, hno]
  obtain ⟨fs', h, hsame⟩ := this
  rw [h]
  exact ⟨rfl, by simp [FS.set], fun q hq => by simp [FS.set, hq, hsame q hq]⟩

/-- **C46** is false for permissions, always: the target has the permissions of the source, and the source gets
those asked for. -/
theorem C46_perms_violated (fs : FS) (file tgt : Text) (c m perms : Nat) (hs : fs file = some (.file c m))
    (hd : fs tgt = none ∨ ∃ c' m', fs tgt = some (.file c' m')) (hne : tgt ≠ file) :
    (install fs file tgt (some perms)).ok = true ∧
    (install fs file tgt (some perms)).fs tgt = some (.file c m) ∧
    (install fs file tgt (some perms)).fs file = some (.file c perms) := by
  have hne' : file ≠ tgt := fun h => hne h.symm
  have hf : (fs.set tgt (some (.file c m))) file = some (.file c m) := by simp [FS.set, hne', hs]
  have hr : real (fs.set tgt (some (.file c m))) file = some file :=
    real_plain (fun to h => by rw [hf] at h; simp at h)
  have : install fs file tgt (some perms) =
      ⟨(fs.set tgt (some (.file c m))).set file (some (.file c perms)), true⟩ := by
    unfold install
    simp only [hs, copy_file hs hd hne, Res.andThen, if_true, chmod, hr, hf]
  rw [this]
  exact ⟨rfl, by simp [FS.set, hne], by simp [FS.set]⟩

/-- **C46** is false when a link is installed over a link that leads nowhere (as by installing twice a link to
something that is not there): `FileExistsError`, and the old link stays. -/
theorem C46_dangling_violated (fs : FS) (file tgt to old : Text) (hs : fs file = some (.link to))
    (hd : fs tgt = some (.link old)) (hne : exists' fs tgt = false) :
    (install fs file tgt none).ok = false ∧ (install fs file tgt none).fs tgt = some (.link old) := by
  have : install fs file tgt none = ⟨fs, false⟩ := by
    unfold install
    simp [hs, hne, Res.andThen, symlink, hd]
  rw [this]
  exact ⟨rfl, hd⟩

/-- **C46** is false if there is a directory at the target: it stays, the file gets into it under the name it has where it was built,
and no error is raised. -/
theorem C46_directory_violated (fs : FS) (file tgt : Text) (c m : Nat) (hs : fs file = some (.file c m)) (ht : fs tgt = some .dir)
    (hd : fs (join tgt (split file).2) = none ∨ ∃ c' m', fs (join tgt (split file).2) = some (.file c' m'))
    (hne : join tgt (split file).2 ≠ file) :
    (install fs file tgt none).ok = true ∧ (install fs file tgt none).fs tgt = some .dir ∧
    (install fs file tgt none).fs (join tgt (split file).2) = some (.file c m) := by
  have hrs : real fs file = some file := real_plain (fun to h => by rw [hs] at h; simp at h)
  have hrt : real fs tgt = some tgt := real_plain (fun to h => by rw [ht] at h; simp at h)
  have hrd : real fs (join tgt (split file).2) = some (join tgt (split file).2) := real_plain (fun to h => by
    rcases hd with hd | ⟨c', m', hd⟩ <;> rw [hd] at h <;> simp at h)
  have hnd : fs (join tgt (split file).2) ≠ some .dir := by
    rcases hd with hd | ⟨c', m', hd⟩ <;> rw [hd] <;> simp
  have hc : copy fs file tgt = ⟨fs.set (join tgt (split file).2) (some (.file c m)), true⟩ := by
    unfold copy
    rw [hrs]
    simp only [hs, hrt, ht, if_true, hrd, hne, if_false]
    try (split <;> first | rfl | (rename_i h; exact absurd h hnd))
  have hi : install fs file tgt none = ⟨fs.set (join tgt (split file).2) (some (.file c m)), true⟩ := by
    unfold install
    simp only [hs, hc, Res.andThen, if_true]
  have htd : tgt ≠ join tgt (split file).2 := by
    intro h
    rw [← h] at hnd
    exact hnd ht
  rw [hi]
  refine ⟨rfl, ?_, ?_⟩
  · simp [FS.set, htd, ht]
  · simp [FS.set]

/-- such a tree -/
example : ∃ fs : FS, fs "b/x".toList = some (.file 1 2) ∧ fs "/usr/bin".toList = some .dir ∧
    (install fs "b/x".toList "/usr/bin".toList none).fs "/usr/bin/x".toList = some (.file 1 2) :=
  ⟨fun p => if p = "b/x".toList then some (.file 1 2) else if p = "/usr/bin".toList then some .dir else none,
    by decide +kernel, by decide +kernel, by decide +kernel⟩

/-- **C46** for a whole installation of files without permissions: afterwards each target has content and
permissions its source had before, if no target is the source of a file and targets differ. -/
theorem C46_all_partial (fs : FS) (items : List (Text × Text))
    (hsrc : ∀ x ∈ items, ∃ c m, fs x.1 = some (.file c m))
    (htgt : ∀ x ∈ items, fs x.2 = none ∨ ∃ c' m', fs x.2 = some (.file c' m'))
    (hdis : ∀ x ∈ items, ∀ y ∈ items, x.2 ≠ y.1) (hnd : (items.map Prod.snd).Nodup) :
    (installAll fs (items.map fun x => (x.1, x.2, none))).ok = true ∧
    (∀ x ∈ items, (installAll fs (items.map fun x => (x.1, x.2, none))).fs x.2 = fs x.1) ∧
    ∀ q, (∀ x ∈ items, q ≠ x.2) → (installAll fs (items.map fun x => (x.1, x.2, none))).fs q = fs q := by
  induction items generalizing fs with
  | nil => simp [installAll]
  | cons x items ih =>
    obtain ⟨src, tgt⟩ := x
    simp only [List.map_cons, List.nodup_cons] at hnd
    obtain ⟨c, m, hs⟩ := hsrc _ (.head _)
    obtain ⟨h1, h2, h3⟩ := C46_copy_partial fs src tgt c m hs (htgt _ (.head _))
      (hdis _ (.head _) _ (.head _))
    generalize hr : install fs src tgt none = r at h1 h2 h3
    have hne : ∀ y ∈ items, y.1 ≠ tgt ∧ y.2 ≠ tgt := by
      intro y hy
      refine ⟨fun h => hdis _ (.head _) y (.tail _ hy) h.symm, ?_⟩
      intro h
      exact hnd.1 (List.mem_map.mpr ⟨y, hy, h⟩)
    obtain ⟨i1, i2, i3⟩ := ih r.fs
      (fun y hy => by rw [h3 _ (hne y hy).1]; exact hsrc y (.tail _ hy))
      (fun y hy => by rw [h3 _ (hne y hy).2]; exact htgt y (.tail _ hy))
      (fun y hy z hz => hdis y (.tail _ hy) z (.tail _ hz)) hnd.2
    have hall : installAll fs (((src, tgt) :: items).map fun x => (x.1, x.2, none)) =
        installAll r.fs (items.map fun x => (x.1, x.2, none)) := by
      simp [installAll, hr, Res.andThen, h1]
    rw [hall]
    refine ⟨i1, ?_, ?_⟩
    · intro y hy
      rcases List.mem_cons.mp hy with rfl | hy
      · rw [i3 tgt (fun z hz => (hne z hz).2.symm), h2, hs]
      · rw [i2 y hy, h3 _ (hne y hy).1]
    · intro q hq
      rw [i3 q (fun y hy => hq y (.tail _ hy)), h3 q (hq _ (.head _))]

theorem installAll_append (fs : FS) (xs ys : List (Text × Text × Option Nat)) :
    installAll fs (xs ++ ys) = (installAll fs xs).andThen fun fs => installAll fs ys := by
  induction xs generalizing fs with
  | nil => rfl
  | cons x xs ih =>
    obtain ⟨file, tgt, perms⟩ := x
    simp only [List.cons_append, installAll]
    cases h : (install fs file tgt perms).ok with
    | true => simp only [Res.andThen, h, if_true]; exact ih _
    | false => simp [Res.andThen, h]

/-- **C46**, a source that does not exist: the installation raises; what comes before it is installed, and nothing that comes after
it is touched. -/
theorem C46_missing (fs : FS) (items : List (Text × Text)) (file tgt : Text) (perms : Option Nat)
    (rest : List (Text × Text × Option Nat))
    (hsrc : ∀ x ∈ items, ∃ c m, fs x.1 = some (.file c m))
    (htgt : ∀ x ∈ items, fs x.2 = none ∨ ∃ c' m', fs x.2 = some (.file c' m'))
    (hdis : ∀ x ∈ items, ∀ y ∈ items, x.2 ≠ y.1) (hnd : (items.map Prod.snd).Nodup)
    (hno : fs file = none) (hfile : ∀ x ∈ items, file ≠ x.2) :
    (installAll fs (items.map (fun x => (x.1, x.2, none)) ++ (file, tgt, perms) :: rest)).ok = false ∧
    (∀ x ∈ items, (installAll fs (items.map (fun x => (x.1, x.2, none)) ++ (file, tgt, perms) :: rest)).fs x.2 = fs x.1) ∧
    ∀ q, (∀ x ∈ items, q ≠ x.2) →
      (installAll fs (items.map (fun x => (x.1, x.2, none)) ++ (file, tgt, perms) :: rest)).fs q = fs q := by
  obtain ⟨h1, h2, h3⟩ := C46_all_partial fs items hsrc htgt hdis hnd
  rw [installAll_append]
  generalize installAll fs (items.map fun x => (x.1, x.2, none)) = r at h1 h2 h3
  have hf : r.fs file = none := by rw [h3 file hfile, hno]
  have hr : real r.fs file = some file := real_plain (fun to h => by rw [hf] at h; cases h)
  have hi : install r.fs file tgt perms = ⟨r.fs, false⟩ := by
    unfold install
    simp [hf, copy, hr, Res.andThen]
  have : (r.andThen fun fs => installAll fs ((file, tgt, perms) :: rest)) = ⟨r.fs, false⟩ := by
    simp [Res.andThen, h1, installAll, hi]
  rw [this]
  exact ⟨rfl, h2, h3⟩

/-- **C46** is false for the permissions of a link: the link is copied, and the file that it leads to, which is not
installed at all, gets the permissions. -/
theorem C46_link_perms_violated (fs : FS) (file tgt to : Text) (c m perms : Nat) (hs : fs file = some (.link to))
    (hq : fs (linkTarget file to) = some (.file c m)) (ht : fs tgt = none) :
    (install fs file tgt (some perms)).ok = true ∧
    (install fs file tgt (some perms)).fs tgt = some (.link to) ∧
    (install fs file tgt (some perms)).fs file = some (.link to) ∧
    (install fs file tgt (some perms)).fs (linkTarget file to) = some (.file c perms) := by
  have h1 : file ≠ tgt := by rintro rfl; rw [hs] at ht; cases ht
  have h2 : linkTarget file to ≠ tgt := by intro h; rw [h, ht] at hq; cases hq
  have h3 : file ≠ linkTarget file to := by intro h; rw [← h, hs] at hq; cases hq
  have hex : exists' fs tgt = false := by
    have hr : real fs tgt = some tgt := real_plain (fun to h => by rw [ht] at h; cases h)
    simp [exists', hr, ht]
  have hr : real (fs.set tgt (some (.link to))) file = some (linkTarget file to) := by
    have e1 : (fs.set tgt (some (.link to))) file = some (.link to) := by simp [FS.set, h1, hs]
    have e2 : (fs.set tgt (some (.link to))) (linkTarget file to) = some (.file c m) := by simp [FS.set, h2, hq]
    simp only [real, follow, e1, e2]
  have hq' : (fs.set tgt (some (.link to))) (linkTarget file to) = some (.file c m) := by simp [FS.set, h2, hq]
  have : install fs file tgt (some perms) =
      ⟨(fs.set tgt (some (.link to))).set (linkTarget file to) (some (.file c perms)), true⟩ := by
    unfold install
    simp [hs, hex, Res.andThen, symlink, ht, chmod, hr, hq']
  rw [this]
  have h2' : tgt ≠ linkTarget file to := fun h => h2 h.symm
  refine ⟨rfl, ?_, ?_, ?_⟩
  · simp [FS.set, h2']
  · simp [FS.set, h3, h1, hs]
  · simp [FS.set]

/-- a program, and a link to it -/
def sample : FS := fun p =>
  if p = "b/prog".toList then some (.file 7 0o755)
  else if p = "b/link".toList then some (.link "prog".toList)
  else none

example : (install sample "b/prog".toList "/bin/prog".toList none).fs "/bin/prog".toList = some (.file 7 0o755) :=
  (C46_copy_partial sample _ _ 7 0o755 (by decide) (.inl (by decide)) (by decide)).2.1

example : (install sample "b/link".toList "/bin/link".toList none).fs "/bin/link".toList =
    some (.link "prog".toList) :=
  (C46_link_partial sample _ _ "prog".toList (by decide) (.inl (by decide))).2.1

example : (install sample "b/link".toList "/bin/link".toList (some 0o600)).fs "b/prog".toList = some (.file 7 0o600) :=
  (C46_link_perms_violated sample _ _ "prog".toList 7 0o755 0o600 (by decide) (by decide) (by decide)).2.2.2

example : (installAll sample [("b/prog".toList, "/bin/prog".toList, none), ("b/none".toList, "/bin/none".toList, none),
    ("b/prog".toList, "/bin/prog2".toList, none)]).ok = false :=
  (C46_missing sample [("b/prog".toList, "/bin/prog".toList)] "b/none".toList "/bin/none".toList none
    [("b/prog".toList, "/bin/prog2".toList, none)]
    (by simp only [List.mem_singleton]; rintro x rfl; exact ⟨7, 0o755, by decide⟩)
    (by simp only [List.mem_singleton]; rintro x rfl; exact .inl (by decide)) (by decide) (by decide) (by decide) (by decide)).1

/-- the second installation of the link fails, since nothing is at `/bin/prog` -/
example : (install (install sample "b/link".toList "/bin/link".toList none).fs "b/link".toList "/bin/link".toList
    none).ok = false :=
  (C46_dangling_violated _ _ _ "prog".toList "prog".toList (by decide) (by decide) (by decide)).1

end Verif.Install
