import Verif.Props.GccCommand
/-!
# gcc: the libraries of a command

C81 (the libraries on the command line, and the files the linker finds for them).
-/
namespace Verif.Gcc

/-! ## What walking the libraries does -/

theorem visit_names (g : LibFiles) (n : Nat) : ∀ lib s, (visit g n lib s).map (·.names) = walk g.libs n lib s.names := by
  induction n with
  | zero => intro lib s; rfl
  | succ n ih =>
    have heach : ∀ ls s, (eachLib (visit g n) ls s).map (·.names) = each (walk g.libs n) ls s.names := by
      intro ls
      induction ls with
      | nil => intro s; rfl
      | cons l ls ihl =>
        intro s
        have h := ih l s
        simp only [eachLib, each]
        cases hv : visit g n l s with
        | none => rw [hv] at h; simp only [Option.map_none] at h; rw [← h]; rfl
        | some s1 => rw [hv] at h; simp only [Option.map_some] at h; rw [← h]; exact ihl s1
    intro lib s
    simp only [visit, walk]
    show Option.map _ (if g.isLib lib = false ∧ g.path lib ∈ s.names then _ else _) =
      if g.isLib lib = false ∧ g.path lib ∈ s.names then _ else _
    split
    · rfl
    · have h := heach (g.deps lib)
        { s with libpaths := dedup (g.libpaths lib) s.libpaths, external := dedup (g.external lib) s.external }
      show _ = match each (walk g.libs n) (g.deps lib) s.names with | none => none | some new => _
      cases he : eachLib (visit g n) (g.deps lib)
          { s with libpaths := dedup (g.libpaths lib) s.libpaths, external := dedup (g.external lib) s.external } with
      | none => rw [he] at h; simp only [Option.map_none] at h; rw [← h]; rfl
      | some s1 => rw [he] at h; simp only [Option.map_some] at h; rw [← h]; rfl

theorem eachLib_names (g : LibFiles) (n : Nat) (ls : List Nat) (s : Link) :
    (eachLib (visit g n) ls s).map (·.names) = each (walk g.libs n) ls s.names := by
  induction ls generalizing s with
  | nil => rfl
  | cons l ls ihl =>
    have h := visit_names g n l s
    simp only [eachLib, each]
    cases hv : visit g n l s with
    | none => rw [hv] at h; simp only [Option.map_none] at h; rw [← h]; rfl
    | some s1 => rw [hv] at h; simp only [Option.map_some] at h; rw [← h]; exact ihl s1

/-- a library has left its traces -/
structure Has (g : LibFiles) (s : Link) (l : Nat) : Prop where
  name : g.name l ∈ s.names
  parent : g.parent l ∈ s.libpaths
  paths : ∀ x ∈ g.libpaths l, x ∈ s.libpaths
  external : ∀ x ∈ g.external l, x ∈ s.external

/-- what is in the lists comes from the start or from a library -/
structure From (g : LibFiles) (U : Nat → Prop) (s0 s : Link) : Prop where
  names : ∀ x ∈ s.names, ∃ l, U l ∧ x = g.name l
  paths : ∀ x ∈ s.libpaths, x ∈ s0.libpaths ∨ ∃ l, U l ∧ (x = g.parent l ∨ x ∈ g.libpaths l)
  external : ∀ x ∈ s.external, x ∈ s0.external ∨ ∃ l, U l ∧ x ∈ g.external l
  nodupPaths : s.libpaths.Nodup
  nodupExternal : s.external.Nodup

/-- nothing is lost -/
structure Grows (s s' : Link) : Prop where
  names : ∀ x ∈ s.names, x ∈ s'.names
  paths : ∀ x ∈ s.libpaths, x ∈ s'.libpaths
  external : ∀ x ∈ s.external, x ∈ s'.external

theorem Grows.trans {a b c : Link} (h : Grows a b) (h' : Grows b c) : Grows a c :=
  ⟨fun x hx => h'.1 x (h.1 x hx), fun x hx => h'.2 x (h.2 x hx), fun x hx => h'.3 x (h.3 x hx)⟩

theorem Has.grows {g : LibFiles} {s s' : Link} {l : Nat} (h : Has g s l) (hg : Grows s s') : Has g s' l :=
  ⟨hg.1 _ h.1, hg.2 _ h.2, fun x hx => hg.2 x (h.3 x hx), fun x hx => hg.3 x (h.4 x hx)⟩

theorem needed_split {g : Libs} {lib l : Nat} (h : Needed g [lib] l) :
    l = lib ∨ ∃ d ∈ g.deps lib, Needed g [d] l := by
  induction h with
  | root h => exact .inl (by simpa using h)
  | @dep l d _ hd ih =>
    right
    rcases ih with rfl | ⟨e, he, hn⟩
    · exact ⟨d, hd, .root (by simp)⟩
    · exact ⟨e, he, .dep hn hd⟩

theorem needed_of_roots {g : Libs} {roots : List Nat} {l : Nat} (h : Needed g roots l) : ∃ r ∈ roots, Needed g [r] l := by
  induction h with
  | @root l h => exact ⟨l, h, .root (by simp)⟩
  | dep _ hd ih => obtain ⟨r, hr, hn⟩ := ih; exact ⟨r, hr, .dep hn hd⟩

theorem mem_dedup (xs new : List Text) (x : Text) : x ∈ dedup xs new ↔ x ∈ xs ∨ x ∈ new := by
  induction xs generalizing new with
  | nil => simp [dedup]
  | cons y ys ih =>
    rw [dedup, ih]
    split
    · rename_i hy
      constructor
      · rintro (h | h)
        · exact .inl (.tail _ h)
        · exact .inr h
      · rintro (h | h)
        · rcases List.mem_cons.mp h with rfl | h
          · exact .inr hy
          · exact .inl h
        · exact .inr h
    · simp only [List.mem_append, List.mem_cons, List.not_mem_nil, or_false]
      constructor
      · rintro (h | h | h)
        · exact .inl (.inr h)
        · exact .inr h
        · exact .inl (.inl h)
      · rintro ((h | h) | h)
        · exact .inr (.inr h)
        · exact .inl h
        · exact .inr (.inl h)

theorem visit_ok (g : LibFiles) (U : Nat → Prop) (s0 : Link) (hU : ∀ l, U l → ∀ d ∈ g.deps l, U d)
    (hpath : ∀ l m, U l → U m → g.isLib l = false → g.path l ≠ g.name m) (n : Nat) :
    ∀ lib s s', U lib → From g U s0 s → visit g n lib s = some s' →
      From g U s0 s' ∧ Grows s s' ∧ ∀ l, Needed g.libs [lib] l → Has g s' l := by
  induction n with
  | zero => intro lib s s' _ _ h; simp [visit] at h
  | succ n ih =>
    have heach : ∀ ls s s', (∀ l ∈ ls, U l) → From g U s0 s → eachLib (visit g n) ls s = some s' →
        From g U s0 s' ∧ Grows s s' ∧ ∀ r ∈ ls, ∀ l, Needed g.libs [r] l → Has g s' l := by
      intro ls
      induction ls with
      | nil =>
        intro s s' _ hf h
        simp only [eachLib, Option.some.injEq] at h
        subst h
        exact ⟨hf, ⟨fun _ h => h, fun _ h => h, fun _ h => h⟩, by simp⟩
      | cons r ls ihl =>
        intro s s' hls hf h
        simp only [eachLib] at h
        cases hv : visit g n r s with
        | none => rw [hv] at h; simp at h
        | some s1 =>
          rw [hv] at h
          obtain ⟨f1, g1, h1⟩ := ih r s s1 (hls r (.head _)) hf hv
          obtain ⟨f2, g2, h2⟩ := ihl s1 s' (fun x hx => hls x (.tail _ hx)) f1 h
          refine ⟨f2, g1.trans g2, fun x hx l hl => ?_⟩
          rcases List.mem_cons.mp hx with rfl | hx
          · exact (h1 l hl).grows g2
          · exact h2 x hx l hl
    intro lib s s' hl hf h
    simp only [visit] at h
    split at h
    · rename_i hp
      obtain ⟨m, hm, he⟩ := hf.names _ hp.2
      exact absurd he (hpath lib m hl hm hp.1)
    · split at h
      · cases h
      · rename_i s2 he
        simp only [Option.some.injEq] at h
        subst h
        have hf1 : From g U s0 { s with libpaths := dedup (g.libpaths lib) s.libpaths,
                                        external := dedup (g.external lib) s.external } := by
          refine ⟨hf.names, ?_, ?_, (dedup_spec _ _ hf.nodupPaths).1, (dedup_spec _ _ hf.nodupExternal).1⟩
          · intro x hx
            rcases (mem_dedup _ _ x).mp hx with hx | hx
            · exact .inr ⟨lib, hl, .inr hx⟩
            · exact hf.paths x hx
          · intro x hx
            rcases (mem_dedup _ _ x).mp hx with hx | hx
            · exact .inr ⟨lib, hl, hx⟩
            · exact hf.external x hx
        obtain ⟨f2, g2, h2⟩ := heach _ _ s2 (hU lib hl) hf1 he
        have g3 : Grows s2 { names := dedup [g.name lib] s2.names, libpaths := dedup [g.parent lib] s2.libpaths,
                             external := s2.external } :=
          ⟨fun x hx => (mem_dedup _ _ x).mpr (.inr hx), fun x hx => (mem_dedup _ _ x).mpr (.inr hx), fun _ hx => hx⟩
        refine ⟨⟨?_, ?_, f2.external, (dedup_spec _ _ f2.nodupPaths).1, f2.nodupExternal⟩, ?_, ?_⟩
        · intro x hx
          rcases (mem_dedup _ _ x).mp hx with hx | hx
          · exact ⟨lib, hl, by simpa using hx⟩
          · exact f2.names x hx
        · intro x hx
          rcases (mem_dedup _ _ x).mp hx with hx | hx
          · exact .inr ⟨lib, hl, .inl (by simpa using hx)⟩
          · exact f2.paths x hx
        · refine ⟨fun x hx => g3.1 x (g2.1 x hx), fun x hx => g3.2 x (g2.2 x ((mem_dedup _ _ x).mpr (.inr hx))),
            fun x hx => g3.3 x (g2.3 x ((mem_dedup _ _ x).mpr (.inr hx)))⟩
        · intro l hn
          rcases needed_split hn with rfl | ⟨d, hd, hn⟩
          · exact ⟨(mem_dedup _ _ _).mpr (.inl (by simp)), (mem_dedup _ _ _).mpr (.inl (by simp)),
              fun x hx => g3.2 x (g2.2 x ((mem_dedup _ _ x).mpr (.inl hx))),
              fun x hx => g3.3 x (g2.3 x ((mem_dedup _ _ x).mpr (.inl hx)))⟩
          · exact (h2 d hd l hn).grows g3

theorem eachLib_ok (g : LibFiles) (U : Nat → Prop) (s0 : Link) (hU : ∀ l, U l → ∀ d ∈ g.deps l, U d)
    (hpath : ∀ l m, U l → U m → g.isLib l = false → g.path l ≠ g.name m) (n : Nat) :
    ∀ ls s s', (∀ l ∈ ls, U l) → From g U s0 s → eachLib (visit g n) ls s = some s' →
      From g U s0 s' ∧ Grows s s' ∧ ∀ r ∈ ls, ∀ l, Needed g.libs [r] l → Has g s' l := by
  intro ls
  induction ls with
  | nil =>
    intro s s' _ hf h
    simp only [eachLib, Option.some.injEq] at h
    subst h
    exact ⟨hf, ⟨fun _ h => h, fun _ h => h, fun _ h => h⟩, by simp⟩
  | cons r ls ihl =>
    intro s s' hls hf h
    simp only [eachLib] at h
    cases hv : visit g n r s with
    | none => rw [hv] at h; simp at h
    | some s1 =>
      rw [hv] at h
      obtain ⟨f1, g1, h1⟩ := visit_ok g U s0 hU hpath n r s s1 (hls r (.head _)) hf hv
      obtain ⟨f2, g2, h2⟩ := ihl s1 s' (fun x hx => hls x (.tail _ hx)) f1 h
      refine ⟨f2, g1.trans g2, fun x hx l hl => ?_⟩
      rcases List.mem_cons.mp hx with rfl | hx
      · exact (h1 l hl).grows g2
      · exact h2 x hx l hl

/-- the libraries that have to be linked: those of the builder and of the call, and what they depend on -/
abbrev Linked (g : LibFiles) (b : Cc) (a : Args) : Nat → Prop := Needed g.libs (b.libs ++ a.libs)

/-- no library given as a plain path has the name of a library as its path -/
def PathsDiffer (g : LibFiles) (b : Cc) (a : Args) : Prop :=
  ∀ l m, Linked g b a l → Linked g b a m → g.isLib l = false → g.path l ≠ g.name m

theorem link_ok {g : LibFiles} {limit : Nat} {b : Cc} {a : Args} {s : Link} (hpath : PathsDiffer g b a)
    (h : eachLib (visit g limit) (b.libs ++ a.libs) (linkStart b a) = some s) :
    From g (Linked g b a) (linkStart b a) s ∧ Grows (linkStart b a) s ∧ ∀ l, Linked g b a l → Has g s l := by
  have h0 : From g (Linked g b a) (linkStart b a) (linkStart b a) :=
    ⟨by simp [linkStart], fun x hx => .inl hx, fun x hx => .inl hx, (dedup_spec _ [] (by simp)).1,
      (dedup_spec _ [] (by simp)).1⟩
  obtain ⟨h1, h2, h3⟩ := eachLib_ok g (Linked g b a) (linkStart b a) (fun l hl d hd => .dep hl hd) hpath limit _ _ s
    (fun l hl => .root hl) h0 h
  refine ⟨h1, h2, fun l hl => ?_⟩
  obtain ⟨r, hr, hn⟩ := needed_of_roots hl
  exact h3 r hr l hn

/-! ## C81: what is on the command line -/

/-- **C81**: the command has the libraries that have to be linked, each once, each left of the libraries it depends on, then
the external libraries of the builder, the call and of the libraries, each once; and no others.  Partial: libraries have
different names, and no plain path is the name of a library. -/
theorem C81_libs_partial (g : LibFiles) (limit : Nat) (b : Cc) (a : Args) (cmd : List Text)
    (h : command g limit b a = some cmd) (hlit : ∀ w ∈ literal b a, ¬ IsOption 'l' w) (hc : "-c".toList ∉ cmd)
    (hname : ∀ l m, Linked g b a l → Linked g b a m → g.name l = g.name m → l = m) (hpath : PathsDiffer g b a) :
    ∃ names external, options 'l' cmd = names ++ external ∧ names.Nodup ∧ external.Nodup ∧
      (∀ x, x ∈ names ↔ ∃ l, Linked g b a l ∧ x = g.name l) ∧
      (∀ l, Linked g b a l → ∀ d ∈ g.deps l, ∃ left mid right, names = left ++ g.name l :: mid ++ g.name d :: right) ∧
      (∀ x, x ∈ external ↔ x ∈ b.external ∨ x ∈ a.external ∨ ∃ l, Linked g b a l ∧ x ∈ g.external l) := by
  obtain ⟨s, hs, ⟨h1, rfl⟩ | ⟨_, rfl⟩⟩ := command_parts h
  · exact absurd h1 hc
  · obtain ⟨hf, hg, hh⟩ := link_ok hpath hs
    have hw := eachLib_names g limit (b.libs ++ a.libs) (linkStart b a)
    rw [hs] at hw
    have hl : linkNames g.libs limit (b.libs ++ a.libs) = some s.names.reverse := by
      unfold linkNames
      rw [show each (walk g.libs limit) (b.libs ++ a.libs) [] = some s.names from hw.symm]
      rfl
    obtain ⟨n1, n2, n3⟩ := C54_order_partial g.libs limit (b.libs ++ a.libs) _ hname hpath hl
    refine ⟨s.names.reverse, s.external, ?_, n1, hf.nodupExternal, n2, n3, ?_⟩
    · have e5 : options 'l' b.ldlibs = [] := options_none _ _ (fun w hw => hlit w (by simp [literal, hw]))
      have e6 : options 'l' a.ldlibs = [] := options_none _ _ (fun w hw => hlit w (by simp [literal, hw]))
      have e : ∀ xs : List Text, options 'l' (xs.map ("-l".toList ++ ·)) = xs := fun xs => by
        have := options_map 'l' 'l' xs
        rw [if_pos rfl] at this
        exact this
      rw [options_append, options_append, options_append, options_append, e, e, e5, e6,
        options_before 'l' (by decide) (by decide) b a _ hlit, includeArgs, options_sections]
      simp
    · intro x
      have hst : x ∈ (linkStart b a).external ↔ x ∈ b.external ∨ x ∈ a.external := by
        simp [linkStart, mem_dedup]
      constructor
      · intro hx
        rcases hf.external x hx with hx | hx
        · rcases hst.mp hx with hx | hx
          · exact .inl hx
          · exact .inr (.inl hx)
        · exact .inr (.inr hx)
      · rintro (hx | hx | ⟨l, hl, hx⟩)
        · exact hg.external x (hst.mpr (.inl hx))
        · exact hg.external x (hst.mpr (.inr hx))
        · exact (hh l hl).external x hx

/-- **C81**: the linker searches the directories of the builder, of the call, of the libraries and the ones libraries ask for,
each once, and no others.  Partial: the empty directory is left out. -/
theorem C81_paths_partial (g : LibFiles) (limit : Nat) (b : Cc) (a : Args) (cmd : List Text)
    (h : command g limit b a = some cmd) (hlit : ∀ w ∈ literal b a, ¬ IsOption 'L' w) (hpath : PathsDiffer g b a) :
    (options 'L' cmd).Nodup ∧ ∀ x, x ∈ options 'L' cmd ↔ x ≠ [] ∧ (x ∈ b.libpaths ∨ x ∈ a.libpaths ∨
      ∃ l, Linked g b a l ∧ (x = (Posix.split (g.path l)).1 ∨ x ∈ g.libpaths l)) := by
  obtain ⟨s, hs, he⟩ := options_command 'L' (by decide) (by decide) (by decide) hlit h
  obtain ⟨hf, hg, hh⟩ := link_ok hpath hs
  rw [options_before 'L' (by decide) (by decide) b a _ hlit, includeArgs, options_sections] at he
  simp only [Char.reduceEq, if_false, if_true, List.nil_append, List.append_nil] at he
  rw [he]
  have hp := sorted_perm leText s.libpaths
  refine ⟨(hp.nodup_iff.mpr hf.nodupPaths).filter _, fun x => ?_⟩
  have hst : x ∈ (linkStart b a).libpaths ↔ x ∈ b.libpaths ∨ x ∈ a.libpaths := by
    simp [linkStart, mem_dedup]
  simp only [List.mem_filter, hp.mem_iff, decide_eq_true_eq]
  constructor
  · rintro ⟨hx, hne⟩
    refine ⟨hne, ?_⟩
    rcases hf.paths x hx with hx | hx
    · rcases hst.mp hx with hx | hx
      · exact .inl hx
      · exact .inr (.inl hx)
    · exact .inr (.inr hx)
  · rintro ⟨hne, hx | hx | ⟨l, hl, hx | hx⟩⟩
    · exact ⟨hg.paths x (hst.mpr (.inl hx)), hne⟩
    · exact ⟨hg.paths x (hst.mpr (.inr hx)), hne⟩
    · exact ⟨hx ▸ (hh l hl).parent, hne⟩
    · exact ⟨(hh l hl).paths x hx, hne⟩

/-! ## C81: what the linker finds -/

/-- How the linker looks for `-lname`: in each directory in turn, first for the shared library, then for the static one. -/
def found (isFile : Text → Bool) (name : Text) : List Text → Option Text
  | [] => none
  | d :: ds =>
    if isFile (d ++ "/lib".toList ++ name ++ ".so".toList) then some (d ++ "/lib".toList ++ name ++ ".so".toList)
    else if isFile (d ++ "/lib".toList ++ name ++ ".a".toList) then some (d ++ "/lib".toList ++ name ++ ".a".toList)
    else found isFile name ds

theorem libName_dot (x e : Text) (he : '.' ∉ e) : libName ("lib".toList ++ x ++ '.' :: e) = x := by
  unfold libName
  have h1 : ("lib".toList ++ x ++ '.' :: e).drop 3 = x ++ '.' :: e := by
    rw [List.append_assoc]; rfl
  simp only [h1]
  rw [if_pos (by simp)]
  have h2 : (x ++ '.' :: e).reverse = e.reverse ++ '.' :: x.reverse := by simp
  rw [h2]
  have h3 : ∀ l : Text, '.' ∉ l → (l ++ '.' :: x.reverse).dropWhile (· ≠ '.') = '.' :: x.reverse := by
    intro l
    induction l with
    | nil => intro _; simp
    | cons c l ih =>
      intro hl
      simp only [List.mem_cons, not_or] at hl
      rw [List.cons_append, List.dropWhile_cons, if_pos (by simpa using Ne.symm hl.1)]
      exact ih hl.2
  rw [h3 _ (by simpa using he)]
  simp

theorem split_file (d f : Text) (hd : d ≠ []) (hl : d.getLast? ≠ some '/') (hf : '/' ∉ f) :
    Posix.split (d ++ '/' :: f) = (d, f) := by
  unfold Posix.split
  rw [Posix.tail_slash d f hf, Posix.head_slash d f hf]
  obtain ⟨d', c, rfl⟩ := (List.eq_nil_or_concat d).resolve_left hd
  have hc : c ≠ '/' := by simpa using hl
  have hall : ((d' ++ [c] ++ ['/']).all (fun c => c = '/')) = false := by
    rw [List.all_eq_false]
    exact ⟨c, by simp, by simpa using hc⟩
  simp only [List.concat_eq_append] at *
  rw [hall]
  simp only [Bool.false_eq_true, if_false, Prod.mk.injEq, and_true]
  unfold Posix.rstrip
  simp [hc]

/-- **C81**: for each library that has to be linked, the linker is told the name of the library and finds the very file.
Partial: the file is `lib`NAME`.a` or `lib`NAME`.so` in a directory (not the working directory), no other directory that is
searched has a library of this name, and there is no shared library beside the static one. -/
theorem C81_found_partial (g : LibFiles) (limit : Nat) (b : Cc) (a : Args) (cmd : List Text)
    (h : command g limit b a = some cmd) (hlit : ∀ w ∈ literal b a, ¬ IsOption 'L' w) (hpath : PathsDiffer g b a)
    (isFile : Text → Bool) (l : Nat) (hl : Linked g b a l) (d name e : Text) (hfile : g.path l = d ++ "/lib".toList ++ name ++ e)
    (hd : d ≠ []) (hds : d.getLast? ≠ some '/') (hn : '/' ∉ name) (he : e = ".so".toList ∨ e = ".a".toList)
    (hthere : isFile (g.path l) = true)
    (honly : ∀ d' ∈ options 'L' cmd, ∀ e', e' = ".so".toList ∨ e' = ".a".toList →
      isFile (d' ++ "/lib".toList ++ name ++ e') = true → d' ++ "/lib".toList ++ name ++ e' = g.path l) :
    found isFile name (options 'L' cmd) = some (g.path l) ∧ ("-c".toList ∉ cmd → ("-l".toList ++ name) ∈ cmd) := by
  obtain ⟨e0, rfl, he0, he1⟩ : ∃ e0, e = '.' :: e0 ∧ '.' ∉ e0 ∧ '/' ∉ e0 := by
    rcases he with rfl | rfl
    · exact ⟨"so".toList, rfl, by decide, by decide⟩
    · exact ⟨"a".toList, rfl, by decide, by decide⟩
  have hsp : Posix.split (g.path l) = (d, "lib".toList ++ name ++ '.' :: e0) := by
    have : g.path l = d ++ '/' :: ("lib".toList ++ name ++ '.' :: e0) := by
      rw [hfile]; simp
    rw [this]
    exact split_file d _ hd hds (by
      rw [List.mem_append, List.mem_append, not_or, not_or]
      exact ⟨⟨by decide, hn⟩, by simpa using he1⟩)
  have hgn : g.name l = name := by
    unfold LibFiles.name
    rw [hsp]
    exact libName_dot name e0 he0
  have hmem : d ∈ options 'L' cmd := by
    refine ((C81_paths_partial g limit b a cmd h hlit hpath).2 d).mpr ⟨hd, .inr (.inr ⟨l, hl, .inl ?_⟩)⟩
    rw [hsp]
  refine ⟨?_, fun hc => ?_⟩
  · generalize options 'L' cmd = ds at hmem honly
    induction ds with
    | nil => cases hmem
    | cons d' ds ih =>
      rw [found]
      split
      · rename_i hx
        exact congrArg some (honly d' (.head _) _ (.inl rfl) hx)
      · rename_i hx
        split
        · rename_i hy
          exact congrArg some (honly d' (.head _) _ (.inr rfl) hy)
        · rename_i hy
          refine ih ?_ (fun d'' hd'' => honly d'' (.tail _ hd''))
          rcases List.mem_cons.mp hmem with rfl | hm
          · rw [hfile] at hthere
            rcases he with he | he
            · rw [he] at hthere; exact absurd hthere hx
            · rw [he] at hthere; exact absurd hthere hy
          · exact hm
  · obtain ⟨s, hs, ⟨h1, rfl⟩ | ⟨_, rfl⟩⟩ := command_parts h
    · exact absurd h1 hc
    · have := ((link_ok hpath hs).2.2 l hl).name
      rw [hgn] at this
      simp only [List.mem_append, List.mem_map, List.mem_reverse]
      exact .inl (.inl (.inl (.inr ⟨name, this, rfl⟩)))

/-! ### Examples and violations of C81 -/

theorem libName_sub (f : Text) : ∀ c ∈ libName f, c ∈ f := by
  intro c hc
  unfold libName at hc
  simp only at hc
  split at hc
  · rw [List.mem_reverse] at hc
    have := List.mem_of_mem_drop hc
    have := (List.dropWhile_sublist _).subset this
    rw [List.mem_reverse] at this
    exact List.mem_of_mem_drop this
  · exact List.mem_of_mem_drop hc

/-- libraries in directories are no names of libraries -/
theorem pathsDiffer_of_slash {g : LibFiles} (b : Cc) (a : Args) (h : ∀ l, g.isLib l = false → '/' ∈ g.path l) :
    PathsDiffer g b a := by
  intro l m _ _ hl he
  have h1 := h l hl
  rw [he] at h1
  have h2 : '/' ∈ (Posix.split (g.path m)).2 := libName_sub _ _ h1
  exact Posix.tail_noSlash _ h2

/-- `a` needs `b` and `z`, `b` needs `m` from elsewhere -/
def exFiles : LibFiles where
  deps := fun l => if l = 0 then [1] else []
  isLib := fun l => l < 2
  path := fun l => if l = 0 then t "build/liba.a" else if l = 1 then t "build/sub/libb.so" else t "opt/libp.a"
  libpaths := fun l => if l = 1 then [t "usr"] else []
  external := fun l => if l = 1 then [t "m"] else []

def exLink : Args where
  srcs := [t "build/x.o"]
  dst := some (t "build/x")
  libs := [0, 2]
  external := [t "z"]

def exLd : Cc := { exe := t "gcc" }

set_option maxRecDepth 20000 in
theorem exLink_cmd : command exFiles 1000 exLd exLink = some [t "gcc", t "-Ibuild", t "-Lbuild", t "-Lbuild/sub", t "-Lopt",
    t "-Lusr", t "-o", t "build/x", t "build/x.o", t "-lp", t "-la", t "-lb", t "-lz", t "-lm"] := by decide +kernel

theorem exFiles_linked (l : Nat) (h : Linked exFiles exLd exLink l) : l < 3 := by
  induction h with
  | @root l h =>
    have : l = 0 ∨ l = 2 := by simpa [exLd, exLink] using h
    omega
  | dep _ hd _ =>
    simp only [LibFiles.libs, exFiles] at hd
    split at hd
    · simp only [List.mem_singleton] at hd; omega
    · simp at hd

theorem exFiles_paths : PathsDiffer exFiles exLd exLink := by
  refine pathsDiffer_of_slash _ _ (fun l hl => ?_)
  have h0 : l ≠ 0 := by rintro rfl; simp [exFiles] at hl
  have h1 : l ≠ 1 := by rintro rfl; simp [exFiles] at hl
  simp only [exFiles, h0, h1, if_false]
  decide

set_option maxRecDepth 20000 in
/-- the hypotheses of `C81_libs_partial` -/
example : (∀ w ∈ literal exLd exLink, ¬ IsOption 'l' w) ∧
    (∀ l m, Linked exFiles exLd exLink l → Linked exFiles exLd exLink m → exFiles.name l = exFiles.name m → l = m) := by
  refine ⟨noOption_sound (by decide), fun l m hl hm => ?_⟩
  have : ∀ l, l < 3 → ∀ m, m < 3 → exFiles.name l = exFiles.name m → l = m := by decide +kernel
  exact this l (exFiles_linked l hl) m (exFiles_linked m hm)

set_option maxRecDepth 20000 in
/-- `C81_found_partial` applied to the library `b`, which is not given but needed -/
example : found (fun f => f = t "build/sub/libb.so" ∨ f = t "build/liba.a" ∨ f = t "usr/libc.so") (t "b")
    [t "build", t "build/sub", t "opt", t "usr"] = some (t "build/sub/libb.so") := by
  have h := C81_found_partial exFiles 1000 exLd exLink _ exLink_cmd (noOption_sound (by decide)) exFiles_paths
    (fun f => f = t "build/sub/libb.so" ∨ f = t "build/liba.a" ∨ f = t "usr/libc.so") 1
    (.dep (.root (by decide) : Linked exFiles exLd exLink 0) (by decide)) (t "build/sub") (t "b") (t ".so") (by decide)
    (by decide) (by decide) (by decide) (.inl rfl) (by decide) (by
      intro d' hd' e' he'
      have hd : d' ∈ [t "build", t "build/sub", t "opt", t "usr"] := hd'
      have he : e' ∈ [t ".so", t ".a"] := by rcases he' with rfl | rfl <;> decide
      have key : ∀ d' ∈ [t "build", t "build/sub", t "opt", t "usr"], ∀ e' ∈ [t ".so", t ".a"],
          decide (d' ++ "/lib".toList ++ t "b" ++ e' = t "build/sub/libb.so" ∨ d' ++ "/lib".toList ++ t "b" ++ e' = t "build/liba.a" ∨
            d' ++ "/lib".toList ++ t "b" ++ e' = t "usr/libc.so") = true →
          d' ++ "/lib".toList ++ t "b" ++ e' = exFiles.path 1 := by decide +kernel
      exact key d' hd e' he)
  exact h.1

/-- libraries given as plain paths -/
def plainLibs (paths : List Text) : LibFiles :=
  ⟨fun _ => [], fun _ => false, fun l => paths.getD l [], fun _ => [], fun _ => []⟩

set_option maxRecDepth 20000 in
/-- **C81** fails for the order: plain libraries stand in the reverse of the order given, so a user who writes `a` left of
`b` because `a` needs `b` gets them the wrong way round. -/
theorem C81_order_violated :
    (command (plainLibs [t "p/liba.a", t "p/libb.a"]) 1000 exLd { srcs := [t "x.o"], libs := [0, 1] }).map (options 'l') =
      some [t "b", t "a"] := by decide +kernel

set_option maxRecDepth 20000 in
/-- **C81** fails if another directory has a library of the same name: the directories are sorted, so the linker looks
into `a` before `p`.  Here `p/libx.a` is given, and `a/libx.a` is found, because `a/liby.a` is given too. -/
theorem C81_hidden_violated :
    (command (plainLibs [t "p/libx.a", t "a/liby.a"]) 1000 exLd { srcs := [t "x.o"], libs := [0, 1] }).map
      (fun cmd => found (fun f => f = t "p/libx.a" ∨ f = t "a/liby.a" ∨ f = t "a/libx.a") (t "x") (options 'L' cmd)) =
      some (some (t "a/libx.a")) := by decide +kernel

set_option maxRecDepth 20000 in
/-- **C81** fails for the order of the directories: `libpaths` are searched in sorted order, not in the order given. -/
theorem C81_libpaths_violated :
    (command noLibs 1000 exLd { srcs := [t "x.o"], libpaths := [t "mine", t "global"] }).map (options 'L') =
      some [t "global", t "mine"] := by decide +kernel

set_option maxRecDepth 20000 in
/-- **C81** fails if there is a shared library beside the static library that is given. -/
theorem C81_shared_violated :
    (command (plainLibs [t "p/libx.a"]) 1000 exLd { srcs := [t "x.o"], libs := [0] }).map
      (fun cmd => found (fun f => f = t "p/libx.a" ∨ f = t "p/libx.so") (t "x") (options 'L' cmd)) =
      some (some (t "p/libx.so")) := by decide +kernel

set_option maxRecDepth 20000 in
/-- **C81** fails for a library in the working directory: its directory is not searched. -/
theorem C81_cwd_violated :
    (command (plainLibs [t "libx.a"]) 1000 exLd { srcs := [t "x.o"], libs := [0] }).map
      (fun cmd => (options 'l' cmd, found (fun f => f = t "libx.a" ∨ f = t "./libx.a") (t "x") (options 'L' cmd))) =
      some ([t "x"], none) := by decide +kernel

set_option maxRecDepth 20000 in
/-- **C81** fails for files that are not called `lib`NAME`.`EXT: three letters are cut off, and only the last extension. -/
theorem C81_name_violated :
    (command (plainLibs [t "p/plugin.so", t "p/libz.so.1"]) 1000 exLd { srcs := [t "x.o"], libs := [0, 1] }).map (options 'l') =
      some [t "z.so", t "gin"] := by decide +kernel

end Verif.Gcc
