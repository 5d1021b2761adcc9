import Verif.Gcc.Link
import Verif.Props.GccFiles
/-!
# gcc: the objects of different programs and libraries

C103.
-/
namespace Verif.Gcc

/-- a path below another -/
def Below (d d' : Text) : Prop := ∃ r, d' = d ++ '/' :: r

theorem join_rel {a b : Text} (ha : a ≠ []) (hl : a.getLast? ≠ some '/') (hb : Posix.isabs b = false) :
    Posix.join a b = a ++ '/' :: b := by
  unfold Posix.join
  simp [ha, hl, hb]

theorem objDir_rel {root dst : Text} (hr : root ≠ []) (hl : root.getLast? ≠ some '/') (hd : Posix.isabs dst = false) :
    objDir root dst = (root ++ t "/obj/") ++ dst := by
  unfold objDir
  have h1 : Posix.join root "obj".toList = root ++ '/' :: "obj".toList := join_rel hr hl (by decide)
  have hlast : (root ++ '/' :: "obj".toList).getLast? = some 'j' := by
    rw [show '/' :: "obj".toList = ['/', 'o', 'b'] ++ ['j'] from by decide, ← List.append_assoc, List.getLast?_append]
    rfl
  rw [h1, join_rel (by simp) (by rw [hlast]; decide) hd, show t "/obj/" = '/' :: "obj".toList ++ ['/'] from by decide]
  simp

theorem targetObject_rel {root suffix dst src : Text} (hr : root ≠ []) (hl : root.getLast? ≠ some '/')
    (hd : Posix.isabs dst = false) (hd0 : dst ≠ []) (hdl : dst.getLast? ≠ some '/') (hs : Posix.isabs src = false)
    (hs' : (objDir root dst).isPrefixOf src = false) :
    targetObject root suffix dst src = (root ++ t "/obj/") ++ (dst ++ '/' :: (Posix.splitext src).1) ++ suffix := by
  obtain ⟨d, hd1, hd2⟩ := addroot_rel src (objDir root dst) hs hs'
  have hlast : (objDir root dst).getLast? ≠ some '/' := by
    rw [objDir_rel hr hl hd, List.getLast?_append]
    cases h : dst.getLast? with
    | none => exact absurd (List.getLast?_eq_none_iff.1 h) hd0
    | some c => rw [h] at hdl; simpa using hdl
  unfold targetObject objectFile Path.replaceext
  simp only [hd1 src hs hs', splitext_below]
  rw [hd2 hlast, objDir_rel hr hl hd]
  simp

theorem below_of_eq {d d' e e' : Text} (h : d ++ '/' :: e = d' ++ '/' :: e') : d = d' ∨ Below d d' ∨ Below d' d := by
  rcases List.append_eq_append_iff.1 h with ⟨a, h1, h2⟩ | ⟨a, h1, h2⟩
  · cases a with
    | nil => left; simpa using h1.symm
    | cons c a =>
      rw [List.cons_append, List.cons.injEq] at h2
      right; left
      exact ⟨a, by rw [h1, ← h2.1]⟩
  · cases a with
    | nil => left; simpa using h1
    | cons c a =>
      rw [List.cons_append, List.cons.injEq] at h2
      right; right
      exact ⟨a, by rw [h1, ← h2.1]⟩

/-- **C103**: an object file belongs to one source of one program or library.  Two sources of two targets that are compiled to
the same file are the same source of the same target.
Partial: the paths of targets and sources are relative, no target is below another, the two sources have the same extension
and do not start with the text of the directory for objects. -/
theorem C103_targets_partial {root suffix d d' s s' : Text} (hr : root ≠ []) (hl : root.getLast? ≠ some '/')
    (hd : Posix.isabs d = false) (hd0 : d ≠ []) (hdl : d.getLast? ≠ some '/')
    (hd' : Posix.isabs d' = false) (hd0' : d' ≠ []) (hdl' : d'.getLast? ≠ some '/')
    (hb : ¬ Below d d') (hb' : ¬ Below d' d)
    (hs : Posix.isabs s = false) (hp : (objDir root d).isPrefixOf s = false)
    (hs' : Posix.isabs s' = false) (hp' : (objDir root d').isPrefixOf s' = false)
    (hext : (Posix.splitext s).2 = (Posix.splitext s').2)
    (h : targetObject root suffix d s = targetObject root suffix d' s') : d = d' ∧ s = s' := by
  rw [targetObject_rel hr hl hd hd0 hdl hs hp, targetObject_rel hr hl hd' hd0' hdl' hs' hp'] at h
  have h1 := List.append_cancel_left (List.append_cancel_right h)
  rcases below_of_eq h1 with rfl | hx | hx
  · refine ⟨rfl, ?_⟩
    have h2 := List.append_cancel_left h1
    simp only [List.cons.injEq, true_and] at h2
    rw [← Path.splitext_append s, ← Path.splitext_append s', h2, hext]
  · exact absurd hx hb
  · exact absurd hx hb'

example : targetObject (t "build") (t ".o") (t "lib/a") (t "src/x.c") = t "build/obj/lib/a/src/x.o" ∧
    targetObject (t "build") (t ".o") (t "lib/b") (t "src/x.c") = t "build/obj/lib/b/src/x.o" ∧
    (objDir (t "build") (t "lib/a")).isPrefixOf (t "src/x.c") = false := by decide +kernel

/-- the hypothesis about targets is met by these two, and by any two names without slash -/
example : ¬ Below (t "lib/a") (t "lib/b") ∧ ∀ a b : Text, '/' ∉ b → ¬ Below a b := by
  constructor
  · rintro ⟨r, hr⟩
    have := congrArg (fun x => x.take 5) hr
    revert this
    rw [show t "lib/a" ++ '/' :: r = 'l' :: 'i' :: 'b' :: '/' :: 'a' :: '/' :: r from rfl]
    simp only [List.take]
    decide
  · rintro a b hb ⟨r, rfl⟩
    simp at hb

/-- **C103** fails for a target below another, for absolute targets (their objects are not in the build directory, but next to
the target), and for a program called `obj`, which is linked to the directory of the objects. -/
theorem C103_violated :
    targetObject (t "build") (t ".o") (t "a") (t "b/x.c") = targetObject (t "build") (t ".o") (t "a/b") (t "x.c") ∧
    (∀ root src, objDir root (t "/usr/bin/x") = t "/usr/bin/x" ∧
      targetObject root (t ".o") (t "/usr/bin/x") src = objectFile (t "/usr/bin/x") (t ".o") src none) ∧
    linkedFile (t "build") [] [] (t "obj") = t "build/obj" ∧
    Below (linkedFile (t "build") [] [] (t "obj")) (targetObject (t "build") (t ".o") (t "obj") (t "x.c")) := by
  refine ⟨by decide +kernel, fun root src => ?_, by decide +kernel, t "obj/x.o", by decide +kernel⟩
  have : objDir root (t "/usr/bin/x") = t "/usr/bin/x" := by
    unfold objDir
    generalize Posix.join root "obj".toList = q
    unfold Posix.join
    rw [show Posix.isabs (t "/usr/bin/x") = true from by decide]
    simp
  exact ⟨this, by unfold targetObject; rw [this]⟩

/-! ### objects and linked files -/

theorem first_slash {c c' r r' : Text} (hc : '/' ∉ c) (hc' : '/' ∉ c') (h : c ++ '/' :: r = c' ++ '/' :: r') : c = c' := by
  rcases below_of_eq h with h | ⟨x, rfl⟩ | ⟨x, rfl⟩
  · exact h
  · simp at hc'
  · simp at hc

/-- the directory of a file that is at least two levels below `d` -/
theorem dir_below (d rest : Text) (hd : d ≠ []) (hl : d.getLast? ≠ some '/') :
    ∃ x, (Posix.split (d ++ '/' :: rest)).1 = d ++ x ∧ (x = [] ∨ x.head? = some '/') := by
  have hall : ((d ++ '/' :: Posix.head rest).all (fun c => c = '/')) = false := by
    rw [List.all_eq_false]
    obtain ⟨d', c, rfl⟩ := (List.eq_nil_or_concat d).resolve_left hd
    exact ⟨c, by simp, by simpa using hl⟩
  unfold Posix.split
  rw [(tail_below d rest).2, hall]
  simp only [Bool.false_eq_true, if_false]
  obtain ⟨s, h1, h2, h3⟩ := Path.rstrip_append (d ++ '/' :: Posix.head rest)
  generalize Posix.rstrip (d ++ '/' :: Posix.head rest) = r at h1 h3 ⊢
  rcases List.append_eq_append_iff.1 h1.symm with ⟨a, ha, hb⟩ | ⟨a, ha, hb⟩
  · rcases List.eq_nil_or_concat a with rfl | ⟨a', c, rfl⟩
    · exact ⟨[], by simpa using ha.symm, .inl rfl⟩
    · exfalso
      have := h2 c (by rw [hb]; simp)
      subst this
      rw [ha, List.concat_eq_append, ← List.append_assoc, List.getLast?_append] at hl
      simp at hl
  · refine ⟨a, ha, ?_⟩
    cases a with
    | nil => exact .inl rfl
    | cons c a =>
      rw [List.cons_append, List.cons.injEq] at hb
      exact .inr (by rw [← hb.1]; rfl)

/-- **C103**: no program or library is linked to the file of an object.
Partial: relative paths, as above, and the path of the program does not begin with the directory `obj`. -/
theorem C103_linked_partial {root pre suffix osuffix p d s : Text} (hr : root ≠ []) (hl : root.getLast? ≠ some '/')
    (hpre : '/' ∉ pre) (hsuf : '/' ∉ suffix) (hp : Posix.isabs p = false) (hp' : root.isPrefixOf p = false)
    (hobj : ¬ Below (t "obj") p)
    (hd : Posix.isabs d = false) (hd0 : d ≠ []) (hdl : d.getLast? ≠ some '/') (hs : Posix.isabs s = false)
    (hs' : (objDir root d).isPrefixOf s = false) :
    linkedFile root pre suffix p ≠ targetObject root osuffix d s := by
  rw [targetObject_rel hr hl hd hd0 hdl hs hs', show root ++ t "/obj/" = root ++ '/' :: (t "obj" ++ ['/']) from by simp [t]]
  obtain ⟨e, he, he'⟩ := addroot_rel p root hp hp'
  obtain rfl := he' hl
  unfold linkedFile
  simp only [he p hp hp']
  obtain ⟨hj1, hj2⟩ := split_below e p hr hl
  rw [join_rel hj1 hj2 (Path.isabs_false hpre)]
  by_cases hsl : '/' ∈ p
  · obtain ⟨c, rest, rfl, hc⟩ := List.eq_append_cons_of_mem hsl
    have hc0 : c ≠ [] := by rintro rfl; simp [Posix.isabs] at hp
    have hlast : (e ++ '/' :: c).getLast? ≠ some '/' := by
      obtain ⟨c', a, rfl⟩ := (List.eq_nil_or_concat c).resolve_left hc0
      rw [List.concat_eq_append, ← List.cons_append, ← List.append_assoc, List.getLast?_append]
      simp only [List.concat_eq_append, List.mem_append, List.mem_singleton, not_or] at hc
      simpa using fun h => hc.2 h.symm
    obtain ⟨x, hx, hx'⟩ := dir_below (e ++ '/' :: c) rest (by simp) hlast
    rw [show e ++ '/' :: c ++ '/' :: rest = e ++ '/' :: (c ++ '/' :: rest) from by simp] at hx
    rw [hx]
    intro h
    apply hobj
    have key : ∀ y, e ++ '/' :: c ++ '/' :: y = e ++ '/' :: (t "obj" ++ ['/']) ++ (d ++ '/' :: (Posix.splitext s).1) ++ osuffix →
        Below (t "obj") (c ++ '/' :: rest) := by
      intro y hy
      simp only [List.append_assoc, List.cons_append, List.nil_append] at hy
      have h1 := List.append_cancel_left hy
      rw [List.cons.injEq] at h1
      have := first_slash hc (by decide) h1.2
      exact ⟨rest, by rw [this]⟩
    rcases hx' with rfl | hx'
    · refine key (pre ++ (Posix.split (e ++ '/' :: (c ++ '/' :: rest))).2 ++ suffix) ?_
      rw [← h]
      simp
    · cases x with
      | nil => cases hx'
      | cons a x =>
        rw [List.head?_cons, Option.some.injEq] at hx'
        subst hx'
        refine key (x ++ '/' :: (pre ++ (Posix.split (e ++ '/' :: (c ++ '/' :: rest))).2 ++ suffix)) ?_
        rw [← h]
        simp
  · intro h
    have hE : (Posix.split (e ++ '/' :: p)).1 = e := by
      unfold Posix.split
      rw [Posix.head_slash _ _ hsl, Posix.rstrip_snoc, Posix.rstrip_id hl, if_neg]
      rw [Bool.not_eq_true, List.all_eq_false]
      obtain ⟨d', c, rfl⟩ := (List.eq_nil_or_concat e).resolve_left hr
      exact ⟨c, by simp, by simpa using hl⟩
    rw [hE] at h
    simp only [List.append_assoc, List.cons_append, List.nil_append] at h
    have h1 := List.append_cancel_left h
    rw [List.cons.injEq] at h1
    have : '/' ∈ pre ++ ((Posix.split (e ++ '/' :: p)).2 ++ suffix) := by rw [h1.2]; simp
    simp only [List.mem_append] at this
    rcases this with h | h | h
    · exact hpre h
    · exact Posix.tail_noSlash _ h
    · exact hsuf h

example : linkedFile (t "build") [] [] (t "bin/x") = t "build/bin/x" ∧
    Posix.isabs (t "bin/x") = false ∧ (t "build").isPrefixOf (t "bin/x") = false ∧ (t "bin/x").take 4 ≠ t "obj/" := by decide +kernel

/-- **C103** fails for a program that is put into the directory `obj` -/
theorem C103_linked_violated :
    linkedFile (t "build") [] [] (t "obj/x/y.o") = targetObject (t "build") (t ".o") (t "x") (t "y.c") := by decide +kernel

/-! ### static and shared -/

theorem ne_of_last {a b x y : Text} (hl : x.length = y.length) (h : x ≠ y) : a ++ x ≠ b ++ y := by
  intro he
  have hr := congrArg List.reverse he
  rw [List.reverse_append, List.reverse_append] at hr
  have := (List.append_inj hr (by simp [hl])).1
  exact h (List.reverse_inj.1 this)

theorem ne_suffix {a b : Text} (s s' : Text) (n : Nat) (h1 : n ≤ s.length) (h2 : n ≤ s'.length)
    (h : s.drop (s.length - n) ≠ s'.drop (s'.length - n)) : a ++ s ≠ b ++ s' := by
  have hs : a ++ s = (a ++ s.take (s.length - n)) ++ s.drop (s.length - n) := by simp
  have hs' : b ++ s' = (b ++ s'.take (s'.length - n)) ++ s'.drop (s'.length - n) := by simp
  rw [hs, hs']
  exact ne_of_last (by simp; omega) h

/-- **C103** for the two kinds of builders: on every platform, whatever the sources, targets and directories are, an object of a
static library is never the file of an object of a shared library. -/
theorem C103_objects (p : Platform) (root root' s s' : Text) (d d' : Option Text) :
    objectFile root (staticObjSuffix p) s d ≠ objectFile root' (sharedObjSuffix p) s' d' := by
  unfold objectFile Path.replaceext staticObjSuffix sharedObjSuffix
  cases p "windows" with
  | true => exact ne_suffix _ _ 8 (by decide) (by decide) (by decide)
  | false => exact ne_suffix _ _ 1 (by decide) (by decide) (by decide)

/-- **C103**: nor is a static library the file of a shared library; the two are told apart by their last characters. -/
theorem C103_libraries (p : Platform) (root root' d d' : Text) :
    linkedFile root (staticLibPrefix p) (staticLibSuffix p) d ≠ linkedFile root' (sharedLibPrefix p) (sharedLibSuffix p) d' := by
  unfold linkedFile
  simp only
  generalize Posix.join _ (staticLibPrefix p) ++ _ = a
  generalize Posix.join _ (sharedLibPrefix p) ++ _ = b
  unfold staticLibSuffix sharedLibSuffix
  cases p "windows" <;> cases p "mingw" <;> cases p "cygwin" <;> cases p "darwin" <;>
    exact ne_suffix _ _ 1 (by decide) (by decide) (by decide)

end Verif.Gcc
