import Verif.Gcc.Core
/-!
# gcc: properties

C54 (order of libraries), C55 (include directories), C56 (dependency files).
-/
namespace Verif.Gcc

/-! ## C54 -/

/-- the libraries that have to be linked -/
inductive Needed (g : Libs) (roots : List Nat) : Nat → Prop
  | root {l : Nat} : l ∈ roots → Needed g roots l
  | dep {l d : Nat} : Needed g roots l → d ∈ g.deps l → Needed g roots d

/-- in a list under construction, each library has its libraries before it -/
def Closed (g : Libs) (U : Nat → Prop) (new : List Text) : Prop :=
  ∀ l, U l → ∀ pre post, new = pre ++ g.name l :: post → ∀ d ∈ g.deps l, g.name d ∈ pre

/-- what a visit may do -/
structure Good (g : Libs) (U : Nat → Prop) (new new' : List Text) : Prop where
  grows : ∃ more, new' = new ++ more
  nodup : new'.Nodup
  closed : Closed g U new'
  only : ∀ x ∈ new', ∃ l, U l ∧ x = g.name l

theorem append_single_eq {α} {xs pre post : List α} {a b : α} (h : xs ++ [a] = pre ++ b :: post) :
    (post = [] ∧ a = b ∧ pre = xs) ∨ ∃ post', post = post' ++ [a] ∧ xs = pre ++ b :: post' := by
  rcases List.eq_nil_or_concat post with rfl | ⟨post', c, rfl⟩
  · have := List.append_inj' h (by simp)
    simp only [List.cons.injEq, and_true] at this
    exact .inl ⟨rfl, this.2, this.1.symm⟩
  · right
    have h' : xs ++ [a] = (pre ++ b :: post') ++ [c] := by simpa using h
    have := List.append_inj' h' (by simp)
    simp only [List.cons.injEq, and_true] at this
    exact ⟨post', by simp [this.2], this.1⟩

theorem walk_good (g : Libs) (U : Nat → Prop) (hU : ∀ l, U l → ∀ d ∈ g.deps l, U d)
    (hinj : ∀ l m, U l → U m → g.name l = g.name m → l = m)
    (hpath : ∀ l m, U l → U m → g.isLib l = false → g.path l ≠ g.name m) (n : Nat) :
    ∀ lib new new', U lib → Good g U new new → walk g n lib new = some new' →
      Good g U new new' ∧ g.name lib ∈ new' := by
  induction n with
  | zero => intro lib new new' _ _ h; simp [walk] at h
  | succ n ih =>
    intro lib new new' hl hg h
    have heach : ∀ ls new1 new2, (∀ l ∈ ls, U l) → Good g U new1 new1 → each (walk g n) ls new1 = some new2 →
        Good g U new1 new2 ∧ ∀ l ∈ ls, g.name l ∈ new2 := by
      intro ls
      induction ls with
      | nil =>
        intro new1 new2 _ hg1 h1
        simp only [each, Option.some.injEq] at h1
        subst h1
        exact ⟨hg1, by simp⟩
      | cons l ls ihl =>
        intro new1 new2 hls hg1 h1
        simp only [each] at h1
        cases hw : walk g n l new1 with
        | none => rw [hw] at h1; simp at h1
        | some new3 =>
          rw [hw] at h1
          obtain ⟨g1, m1⟩ := ih l new1 new3 (hls l (.head _)) hg1 hw
          have g1' : Good g U new3 new3 := ⟨⟨[], by simp⟩, g1.nodup, g1.closed, g1.only⟩
          obtain ⟨g2, m2⟩ := ihl new3 new2 (fun x hx => hls x (.tail _ hx)) g1' h1
          obtain ⟨e1, h2⟩ := g1.grows
          obtain ⟨e2, h3⟩ := g2.grows
          refine ⟨⟨⟨e1 ++ e2, by rw [h3, h2]; simp⟩, g2.nodup, g2.closed, g2.only⟩, ?_⟩
          intro x hx
          rcases List.mem_cons.mp hx with rfl | hx
          · rw [h3]; exact List.mem_append_left _ m1
          · exact m2 x hx
    simp only [walk] at h
    split at h
    · rename_i hp
      obtain ⟨m, hm, he⟩ := hg.only _ hp.2
      exact absurd he (hpath lib m hl hm hp.1)
    · cases he : each (walk g n) (g.deps lib) new with
      | none => rw [he] at h; simp at h
      | some new1 =>
        rw [he] at h
        simp only [Option.some.injEq] at h
        obtain ⟨g1, m1⟩ := heach _ new new1 (hU lib hl) hg he
        split at h
        · rename_i hmem
          subst h
          exact ⟨g1, hmem⟩
        · rename_i hmem
          subst h
          obtain ⟨e1, h2⟩ := g1.grows
          refine ⟨⟨⟨e1 ++ [g.name lib], by rw [h2]; simp⟩, ?_, ?_, ?_⟩, by simp⟩
          · rw [List.nodup_append]
            refine ⟨g1.nodup, by simp, ?_⟩
            intro a ha b hb
            simp only [List.mem_singleton] at hb
            subst hb
            exact fun e => hmem (e ▸ ha)
          · intro l hl' pre post hpp d hd
            rcases append_single_eq hpp with ⟨rfl, hn, rfl⟩ | ⟨post', _, hpp'⟩
            · have : lib = l := hinj lib l hl hl' hn
              subst this
              exact m1 d hd
            · exact g1.closed l hl' pre post' hpp' d hd
          · intro x hx
            rcases List.mem_append.mp hx with hx | hx
            · exact g1.only x hx
            · simp only [List.mem_singleton] at hx
              exact ⟨lib, hl, hx⟩

/-- **C54**: on the command line each library needed appears once, nothing else appears, and each library stands left of
the libraries it depends on.  Partial: different libraries have different names, and no library given as a plain path
has the name of one as its path. -/
theorem C54_order_partial (g : Libs) (limit : Nat) (roots : List Nat) (names : List Text)
    (hinj : ∀ l m, Needed g roots l → Needed g roots m → g.name l = g.name m → l = m)
    (hpath : ∀ l m, Needed g roots l → Needed g roots m → g.isLib l = false → g.path l ≠ g.name m)
    (h : linkNames g limit roots = some names) :
    names.Nodup ∧ (∀ x, x ∈ names ↔ ∃ l, Needed g roots l ∧ x = g.name l) ∧
      ∀ l, Needed g roots l → ∀ d ∈ g.deps l, ∃ left mid right, names = left ++ g.name l :: mid ++ g.name d :: right := by
  unfold linkNames at h
  simp only [Option.map_eq_some_iff] at h
  obtain ⟨new, hw, rfl⟩ := h
  have hU : ∀ l, Needed g roots l → ∀ d ∈ g.deps l, Needed g roots d := fun l hl d hd => .dep hl hd
  have heach : ∀ ls new1 new2, (∀ l ∈ ls, Needed g roots l) → Good g (Needed g roots) new1 new1 →
      each (walk g limit) ls new1 = some new2 → Good g (Needed g roots) new1 new2 ∧ ∀ l ∈ ls, g.name l ∈ new2 := by
    intro ls
    induction ls with
    | nil =>
      intro new1 new2 _ hg1 h1
      simp only [each, Option.some.injEq] at h1
      subst h1
      exact ⟨hg1, by simp⟩
    | cons l ls ihl =>
      intro new1 new2 hls hg1 h1
      simp only [each] at h1
      cases hw : walk g limit l new1 with
      | none => rw [hw] at h1; simp at h1
      | some new3 =>
        rw [hw] at h1
        obtain ⟨g1, m1⟩ := walk_good g _ hU hinj hpath limit l new1 new3 (hls l (.head _)) hg1 hw
        have g1' : Good g (Needed g roots) new3 new3 := ⟨⟨[], by simp⟩, g1.nodup, g1.closed, g1.only⟩
        obtain ⟨g2, m2⟩ := ihl new3 new2 (fun x hx => hls x (.tail _ hx)) g1' h1
        obtain ⟨e1, h2⟩ := g1.grows
        obtain ⟨e2, h3⟩ := g2.grows
        refine ⟨⟨⟨e1 ++ e2, by rw [h3, h2]; simp⟩, g2.nodup, g2.closed, g2.only⟩, ?_⟩
        intro x hx
        rcases List.mem_cons.mp hx with rfl | hx
        · rw [h3]; exact List.mem_append_left _ m1
        · exact m2 x hx
  have hg0 : Good g (Needed g roots) [] [] := ⟨⟨[], rfl⟩, by simp, by intro l _ pre post h; simp at h, by simp⟩
  obtain ⟨hg, hr⟩ := heach roots [] new (fun l hl => .root hl) hg0 hw
  have hall : ∀ l, Needed g roots l → g.name l ∈ new := by
    intro l hl
    induction hl with
    | root h => exact hr _ h
    | @dep l d hl hd ih =>
      obtain ⟨pre, post, he⟩ := List.append_of_mem ih
      rw [he]
      exact List.mem_append_left _ (hg.closed l hl pre post he d hd)
  refine ⟨List.pairwise_reverse.mpr (hg.nodup.imp Ne.symm), ?_, ?_⟩
  · intro x
    rw [List.mem_reverse]
    constructor
    · exact hg.only x
    · rintro ⟨l, hl, rfl⟩
      exact hall l hl
  · intro l hl d hd
    obtain ⟨pre, post, he⟩ := List.append_of_mem (hall l hl)
    obtain ⟨p1, p2, he2⟩ := List.append_of_mem (hg.closed l hl pre post he d hd)
    refine ⟨post.reverse, p2.reverse, p1.reverse, ?_⟩
    rw [he, he2]
    simp

/-- **C54**: without cycles, and within the recursion limit, the command line is made. -/
theorem C54_total (g : Libs) (rank : Nat → Nat) (hrank : ∀ l, ∀ d ∈ g.deps l, rank d < rank l) (limit : Nat)
    (roots : List Nat) (hlim : ∀ l ∈ roots, rank l < limit) : ∃ names, linkNames g limit roots = some names := by
  have hwalk : ∀ n lib new, rank lib < n → ∃ new', walk g n lib new = some new' := by
    intro n
    induction n with
    | zero => intro lib new h; omega
    | succ n ih =>
      intro lib new h
      have heach : ∀ ls new, (∀ l ∈ ls, rank l < n) → ∃ new', each (walk g n) ls new = some new' := by
        intro ls
        induction ls with
        | nil => intro new _; exact ⟨new, rfl⟩
        | cons l ls ihl =>
          intro new hls
          obtain ⟨new1, h1⟩ := ih l new (hls l (.head _))
          obtain ⟨new2, h2⟩ := ihl new1 (fun x hx => hls x (.tail _ hx))
          exact ⟨new2, by simp only [each, h1, h2]⟩
      simp only [walk]
      split
      · exact ⟨new, rfl⟩
      · obtain ⟨new1, h1⟩ := heach (g.deps lib) new (fun d hd => by have := hrank lib d hd; omega)
        exact ⟨_, by rw [h1]⟩
  have heach : ∀ ls new, (∀ l ∈ ls, rank l < limit) → ∃ new', each (walk g limit) ls new = some new' := by
    intro ls
    induction ls with
    | nil => intro new _; exact ⟨new, rfl⟩
    | cons l ls ihl =>
      intro new hls
      obtain ⟨new1, h1⟩ := hwalk limit l new (hls l (.head _))
      obtain ⟨new2, h2⟩ := ihl new1 (fun x hx => hls x (.tail _ hx))
      exact ⟨new2, by simp only [each, h1, h2]⟩
  obtain ⟨new, h⟩ := heach roots [] hlim
  exact ⟨new.reverse, by rw [linkNames, h]; rfl⟩

/-- the program needs `a` and `b`, both need `c` -/
def exLibs : Libs where
  deps := fun l => if l = 0 then [2] else if l = 1 then [2] else []
  isLib := fun l => l < 2
  path := fun l => if l = 0 then "build/liba.a".toList else if l = 1 then "build/libb.a".toList else "build/libc.a".toList
  name := fun l => if l = 0 then "a".toList else if l = 1 then "b".toList else "c".toList

example : linkNames exLibs 1000 [0, 1] = some ["b".toList, "a".toList, "c".toList] := by decide

example : (∀ l m, Needed exLibs [0, 1] l → Needed exLibs [0, 1] m → exLibs.name l = exLibs.name m → l = m) ∧
    (∀ l m, Needed exLibs [0, 1] l → Needed exLibs [0, 1] m → exLibs.isLib l = false → exLibs.path l ≠ exLibs.name m) ∧
    ∀ l, ∀ d ∈ exLibs.deps l, (fun l => if l < 2 then 1 else 0) d < (fun l => if l < 2 then 1 else 0) l := by
  have h3 : ∀ l, Needed exLibs [0, 1] l → l < 3 := by
    intro l h
    induction h with
    | root h =>
      simp only [List.mem_cons, List.not_mem_nil, or_false] at h
      omega
    | dep _ hd ih =>
      simp only [exLibs] at hd
      split at hd
      · simp only [List.mem_singleton] at hd; omega
      · split at hd
        · simp only [List.mem_singleton] at hd; omega
        · simp at hd
  refine ⟨?_, ?_, ?_⟩
  · intro l m hl hm
    have h1 := h3 l hl
    have h2 := h3 m hm
    have : ∀ l, l < 3 → ∀ m, m < 3 → exLibs.name l = exLibs.name m → l = m := by decide
    exact this l h1 m h2
  · intro l m hl hm
    have h1 := h3 l hl
    have h2 := h3 m hm
    have : ∀ l, l < 3 → ∀ m, m < 3 → exLibs.path l ≠ exLibs.name m := by decide
    exact fun _ => this l h1 m h2
  · intro l d hd
    simp only [exLibs] at hd
    split at hd
    · simp only [List.mem_singleton] at hd
      subst hd; subst l; decide
    · split at hd
      · simp only [List.mem_singleton] at hd
        subst hd; subst l; decide
      · simp at hd

/-- **C54** fails if two libraries in different directories have the same file name: only one of the two is linked, and
`b` stands right of the `x` it depends on. -/
theorem C54_name_violated : ∃ g : Libs, g.deps 0 = [2] ∧ g.deps 1 = [] ∧ g.deps 2 = [] ∧
    g.path 0 = "p/libb.a".toList ∧ g.path 1 = "q/libx.a".toList ∧ g.path 2 = "p/libx.a".toList ∧
    (∀ l, l < 3 → g.name l = libName ((g.path l).drop 2)) ∧
    linkNames g 1000 [1, 0] = some ["b".toList, "x".toList] := by
  refine ⟨⟨fun l => if l = 0 then [2] else [], fun _ => true,
    fun l => if l = 0 then "p/libb.a".toList else if l = 1 then "q/libx.a".toList else "p/libx.a".toList,
    fun l => if l = 0 then "b".toList else "x".toList⟩, rfl, rfl, rfl, rfl, rfl, rfl, ?_, by decide⟩
  decide

/-- two libraries that depend on each other -/
def exCycle : Libs where
  deps := fun l => if l = 0 then [1] else [0]
  isLib := fun _ => true
  path := fun l => if l = 0 then "p/liba.a".toList else "p/libb.a".toList
  name := fun l => if l = 0 then "a".toList else "b".toList

/-- **C54** fails for libraries that depend on each other: at every limit there is a `RecursionError`. -/
theorem C54_cycle_violated : ∃ g : Libs, g.deps 0 = [1] ∧ g.deps 1 = [0] ∧ ∀ limit, linkNames g limit [0] = none := by
  refine ⟨exCycle, rfl, rfl, ?_⟩
  intro limit
  have h : ∀ n l, walk exCycle n l [] = none := by
    intro n
    induction n with
    | zero => intro l; rfl
    | succ n ih =>
      intro l
      have hd : ∃ d, exCycle.deps l = [d] := by
        by_cases hl : l = 0
        · exact ⟨1, if_pos hl⟩
        · exact ⟨0, if_neg hl⟩
      obtain ⟨d, hd⟩ := hd
      simp only [walk, hd, each, ih]
      exact if_neg (by simp)
  simp [linkNames, each, h]

/-! ## C55 -/

theorem dedup_spec (is new : List Text) (hn : new.Nodup) :
    (dedup is new).Nodup ∧ ∀ x, x ∈ dedup is new ↔ x ∈ is ∨ x ∈ new := by
  induction is generalizing new with
  | nil => simp [dedup, hn]
  | cons i is ih =>
    simp only [dedup]
    split
    · rename_i hi
      obtain ⟨h1, h2⟩ := ih new hn
      refine ⟨h1, fun x => ?_⟩
      rw [h2 x]
      simp only [List.mem_cons]
      constructor
      · rintro (h | h)
        · exact .inl (.inr h)
        · exact .inr h
      · rintro ((h | h) | h)
        · exact .inr (h ▸ hi)
        · exact .inl h
        · exact .inr h
    · rename_i hi
      have hn' : (new ++ [i]).Nodup := by
        rw [List.nodup_append]
        refine ⟨hn, by simp, ?_⟩
        intro a ha b hb
        simp only [List.mem_singleton] at hb
        subst hb
        exact fun e => hi (e ▸ ha)
      obtain ⟨h1, h2⟩ := ih _ hn'
      refine ⟨h1, fun x => ?_⟩
      rw [h2 x]
      simp only [List.mem_cons, List.mem_append, List.not_mem_nil, or_false]
      constructor
      · rintro (h | h | h)
        · exact .inl (.inr h)
        · exact .inr h
        · exact .inl (.inl h)
      · rintro ((h | h) | h)
        · exact .inr (.inr h)
        · exact .inl h
        · exact .inr (.inl h)

theorem insertSorted_perm (le : Text → Text → Bool) (x : Text) (xs : List Text) :
    (insertSorted le x xs).Perm (x :: xs) := by
  induction xs with
  | nil => simp [insertSorted]
  | cons y ys ih =>
    simp only [insertSorted]
    split
    · exact .refl _
    · exact (ih.cons y).trans (.swap x y ys)

theorem sorted_perm (le : Text → Text → Bool) (xs : List Text) : (sorted le xs).Perm xs := by
  induction xs with
  | nil => simp [sorted]
  | cons x xs ih => exact (insertSorted_perm le x _).trans (ih.cons x)

/-- **C55**: the compiler receives every include directory given (by the builder, by the caller, or as the directory of a
source) exactly once, and no other.  Partial: the empty directory is left out, and the order is another one. -/
theorem C55_once_partial (le : Text → Text → Bool) (own given dirs : List Text) :
    (includeArgs le own given dirs).Nodup ∧
    ∀ arg, arg ∈ includeArgs le own given dirs ↔
      ∃ d, (d ∈ own ∨ d ∈ given ∨ d ∈ dirs) ∧ d ≠ [] ∧ arg = "-I".toList ++ d := by
  obtain ⟨h1, h2⟩ := dedup_spec (own ++ given ++ dirs) [] (by simp)
  have hperm := sorted_perm le (dedup (own ++ given ++ dirs) [])
  constructor
  · unfold includeArgs
    have hn : (sorted le (dedup (own ++ given ++ dirs) [])).Nodup := hperm.nodup_iff.mpr h1
    rw [List.Nodup, List.pairwise_map]
    exact (hn.filter _).imp (fun h e => h (List.append_cancel_left e))
  · intro arg
    unfold includeArgs
    simp only [List.mem_map, List.mem_filter, hperm.mem_iff, h2, List.mem_append, List.not_mem_nil, or_false,
      decide_eq_true_eq, ne_eq, or_assoc]
    constructor
    · rintro ⟨d, ⟨hd, hne⟩, rfl⟩
      exact ⟨d, hd, hne, rfl⟩
    · rintro ⟨d, hd, hne, rfl⟩
      exact ⟨d, ⟨hd, hne⟩, rfl⟩

/-- the order of texts by their first characters, for the example -/
def exLe (a b : Text) : Bool := match a, b with
  | [], _ => true
  | _, [] => false
  | x :: _, y :: _ => x.toNat ≤ y.toNat

/-- **C55** fails for the order: the directories are sorted, so a header in `a` hides the one in `my`, although `my` was
given first. -/
theorem C55_order_violated : includeArgs exLe [] ["my".toList, "a".toList] [] = ["-Ia".toList, "-Imy".toList] := by
  decide

example : includeArgs exLe ["b".toList] ["a".toList, "b".toList] ["".toList, "c".toList] =
    ["-Ia".toList, "-Ib".toList, "-Ic".toList] := by decide

/-! ## C56: what the compiler writes -/

/-- How make wants a character of a file name to be written (as gcc does it). -/
def quote (c : Char) : Text :=
  if c = ' ' ∨ c = '\t' ∨ c = '#' then ['\\', c] else if c = '$' then ['$', '$'] else [c]

def quoteName (n : Text) : Text := n.flatMap quote

/-- the text between two names: a blank, or a new line -/
def gap (newline : Bool) : Text := if newline then " \\\n ".toList else " ".toList

/-- The dependency file for a target and the files it depends on, each with whether a new line begins before it. -/
def depFile (target : Text) (deps : List (Bool × Text)) : Text :=
  quoteName target ++ ':' :: deps.flatMap (fun d => gap d.1 ++ quoteName d.2) ++ ['\n']

/-- a name that needs no quoting -/
def PlainName (n : Text) : Prop := n ≠ [] ∧ ∀ c ∈ n, isSpace c = false ∧ c ≠ '\\' ∧ c ≠ '#' ∧ c ≠ '$'

theorem space_of_blank {c : Char} (h : isSpace c = false) : isBlank c = false := by
  unfold isSpace at h
  simp only [Bool.or_eq_false_iff] at h
  exact h.1.1.1.1.1.1.1.1.1.1

theorem quote_plain {n : Text} (h : PlainName n) : quoteName n = n := by
  have : ∀ l : Text, (∀ c ∈ l, isSpace c = false ∧ c ≠ '\\' ∧ c ≠ '#' ∧ c ≠ '$') → quoteName l = l := by
    intro l
    induction l with
    | nil => intro _; rfl
    | cons c l ih =>
      intro hl
      obtain ⟨h1, h2, h3, h4⟩ := hl c (.head _)
      have hb := space_of_blank h1
      have hs : c ≠ ' ' := by rintro rfl; simp [isBlank] at hb
      have ht : c ≠ '\t' := by rintro rfl; simp [isBlank] at hb
      have hq : quote c = [c] := by simp [quote, hs, ht, h3, h4]
      have := ih (fun c hc => hl c (.tail _ hc))
      unfold quoteName at this ⊢
      rw [List.flatMap_cons, hq, this]
      rfl
  exact this n h.2

theorem unfold_plain (xs rest : Text) (h : '\\' ∉ xs) : unfoldLines (xs ++ rest) = xs ++ unfoldLines rest := by
  induction xs with
  | nil => rfl
  | cons c xs ih =>
    simp only [List.mem_cons, not_or] at h
    rw [List.cons_append, unfoldLines]
    · rw [ih h.2]; rfl
    · intro s hc
      exact fun _ => h.1 hc.symm

/-- the names with the blanks left of the gaps -/
def flat (deps : List (Bool × Text)) : Text :=
  deps.flatMap (fun d => (if d.1 then "  ".toList else " ".toList) ++ d.2)

theorem unfold_deps (deps : List (Bool × Text)) (h : ∀ d ∈ deps, PlainName d.2) (rest : Text) :
    unfoldLines (deps.flatMap (fun d => gap d.1 ++ quoteName d.2) ++ rest) = flat deps ++ unfoldLines rest := by
  induction deps with
  | nil => rfl
  | cons d deps ih =>
    have hd := h d (.head _)
    have hbs : '\\' ∉ d.2 := fun hm => (hd.2 _ hm).2.1 rfl
    have ih' := ih (fun d hd => h d (.tail _ hd))
    simp only [List.flatMap_cons, List.append_assoc, quote_plain hd, flat]
    rw [show ∀ t, unfoldLines (gap d.1 ++ t) = (if d.1 then "  ".toList else " ".toList) ++ unfoldLines t from ?_]
    · rw [unfold_plain _ _ hbs, ih']
      simp [flat]
    · intro t
      cases d.1 with
      | true =>
        show unfoldLines (' ' :: '\\' :: '\n' :: ' ' :: t) = ' ' :: ' ' :: unfoldLines t
        rw [unfoldLines, unfoldLines, unfoldLines] <;> simp
      | false =>
        show unfoldLines (' ' :: t) = ' ' :: unfoldLines t
        rw [unfoldLines]
        simp

theorem split_word (cur n s : Text) (h : ∀ c ∈ n, isSpace c = false) :
    splitBlank cur (n ++ s) = splitBlank (cur ++ n) s := by
  induction n generalizing cur with
  | nil => simp
  | cons c n ih =>
    rw [List.cons_append, splitBlank]
    simp only [h c (.head _), Bool.false_eq_true, if_false]
    rw [ih _ (fun c hc => h c (.tail _ hc))]
    simp

theorem split_blank (s : Text) : splitBlank [] (' ' :: s) = splitBlank [] s := by
  rw [splitBlank]
  simp [isSpace, isBlank]

theorem split_after (cur : Text) (hc : cur ≠ []) (s : Text) : splitBlank cur (' ' :: s) = cur :: splitBlank [] s := by
  rw [splitBlank]
  simp [isSpace, isBlank, hc]

theorem split_flat (deps : List (Bool × Text)) (h : ∀ d ∈ deps, PlainName d.2) (cur : Text) :
    splitBlank cur (flat deps) = (if cur = [] then [] else [cur]) ++ deps.map (·.2) := by
  induction deps generalizing cur with
  | nil => simp [flat, splitBlank]
  | cons d deps ih =>
    have hd := h d (.head _)
    have ih' := ih (fun d hd => h d (.tail _ hd))
    have key : ∀ t, splitBlank cur ((if d.1 then "  ".toList else " ".toList) ++ t) =
        (if cur = [] then [] else [cur]) ++ splitBlank [] t := by
      intro t
      by_cases hc : cur = []
      · subst hc
        cases d.1 with
        | true =>
          show splitBlank [] (' ' :: ' ' :: t) = _
          rw [split_blank, split_blank]; rfl
        | false =>
          show splitBlank [] (' ' :: t) = _
          rw [split_blank]; rfl
      · simp only [hc, if_false]
        cases d.1 with
        | true =>
          show splitBlank cur (' ' :: ' ' :: t) = _
          rw [split_after _ hc, split_blank]; rfl
        | false =>
          show splitBlank cur (' ' :: t) = _
          rw [split_after _ hc]; rfl
    have hfl : flat (d :: deps) = (if d.1 then "  ".toList else " ".toList) ++ (d.2 ++ flat deps) := by
      simp [flat]
    rw [hfl, key, split_word _ _ _ (fun c hc => (hd.2 c hc).1), List.nil_append, ih']
    simp [hd.1]

theorem flat_line (deps : List (Bool × Text)) (h : ∀ d ∈ deps, PlainName d.2) : '\n' ∉ flat deps := by
  intro hm
  unfold flat at hm
  obtain ⟨d, hd, hc⟩ := List.mem_flatMap.mp hm
  rcases List.mem_append.mp hc with hc | hc
  · cases hb : d.1 <;> rw [hb] at hc <;> exact absurd hc (by decide)
  · have := space_of_blank ((h d hd).2 _ hc).1
    simp [isBlank] at this

theorem takeWhile_line (l t : Text) (h : '\n' ∉ l) :
    (l ++ '\n' :: t).takeWhile (· ≠ '\n') = l ∧ (l ++ '\n' :: t).dropWhile (· ≠ '\n') = '\n' :: t := by
  induction l with
  | nil => simp
  | cons c l ih =>
    simp only [List.mem_cons, not_or] at h
    obtain ⟨h1, h2⟩ := ih h.2
    have hc : c ≠ '\n' := Ne.symm h.1
    simp only [List.cons_append, List.takeWhile_cons, List.dropWhile_cons, hc, ne_eq, not_false_eq_true, decide_true,
      if_true]
    exact ⟨by rw [h1], h2⟩

theorem word_split (w t : Text) (c : Char) (hw : ∀ x ∈ w, isBlank x = false) (hc : isBlank c = true) :
    (w ++ c :: t).takeWhile (fun x => !isBlank x) = w ∧ (w ++ c :: t).dropWhile (fun x => !isBlank x) = c :: t := by
  induction w with
  | nil => simp [hc]
  | cons x w ih =>
    obtain ⟨h1, h2⟩ := ih (fun y hy => hw y (.tail _ hy))
    simp only [List.cons_append, List.takeWhile_cons, List.dropWhile_cons, hw x (.head _), Bool.not_false, if_true]
    exact ⟨by rw [h1], h2⟩

/-- **C56**: the files read from the dependency file are the files the compiler wrote, however it broke the lines.
Partial: the names need no quoting. -/
theorem C56_partial (target : Text) (deps : List (Bool × Text)) (ht : PlainName target) (hd : ∀ d ∈ deps, PlainName d.2) :
    readDeps (depFile target deps) = some (deps.map (·.2)) := by
  have hun : unfoldLines (depFile target deps) = target ++ ':' :: (flat deps ++ ['\n']) := by
    unfold depFile
    have hbs : '\\' ∉ target ++ [':'] := by
      intro hm
      rcases List.mem_append.mp hm with hm | hm
      · exact (ht.2 _ hm).2.1 rfl
      · exact absurd hm (by decide)
    rw [quote_plain ht]
    have : target ++ ':' :: deps.flatMap (fun d => gap d.1 ++ quoteName d.2) ++ ['\n'] =
        (target ++ [':']) ++ (deps.flatMap (fun d => gap d.1 ++ quoteName d.2) ++ ['\n']) := by simp
    rw [this, unfold_plain _ _ hbs, unfold_deps deps hd]
    have hn : unfoldLines ['\n'] = ['\n'] := by decide
    rw [hn]
    simp
  have hblank : ∀ x ∈ target ++ [':'], isBlank x = false := by
    intro x hx
    rcases List.mem_append.mp hx with hx | hx
    · exact space_of_blank (ht.2 x hx).1
    · simp only [List.mem_singleton] at hx
      subst hx
      decide
  have hlen : 2 ≤ (target ++ [':']).length := by
    have : target.length ≠ 0 := fun h => ht.1 (List.length_eq_zero_iff.mp h)
    simp only [List.length_append, List.length_singleton]
    omega
  have hdrop : ∀ t, (target ++ t).dropWhile isBlank = target ++ t := by
    intro t
    cases hta : target with
    | nil => exact absurd hta ht.1
    | cons c l =>
      have : isBlank c = false := space_of_blank (ht.2 c (by rw [hta]; exact .head _)).1
      simp [this]
  unfold readDeps matchRule
  rw [hun]
  simp only [hdrop]
  have hassoc : ∀ t, target ++ ':' :: t = (target ++ [':']) ++ t := by simp
  rw [hassoc]
  cases deps with
  | nil =>
    obtain ⟨h1, h2⟩ := word_split (target ++ [':']) [] '\n' hblank (by decide)
    have hf : flat [] ++ ['\n'] = ['\n'] := rfl
    rw [hf, h1, h2]
    simp only [List.getLast?_append, List.getLast?_singleton, Option.some_or, hlen, and_self, if_true]
    rfl
  | cons d ds =>
    obtain ⟨l, hl⟩ : ∃ l, flat (d :: ds) = ' ' :: l := by
      cases hb : d.1 with
      | true => exact ⟨' ' :: (d.2 ++ flat ds), by simp [flat, hb]⟩
      | false => exact ⟨d.2 ++ flat ds, by simp [flat, hb]⟩
    have hnl := flat_line _ hd
    rw [hl] at hnl
    simp only [List.mem_cons, not_or] at hnl
    obtain ⟨h1, h2⟩ := word_split (target ++ [':']) (l ++ ['\n']) ' ' hblank (by decide)
    obtain ⟨h3, h4⟩ := takeWhile_line l [] hnl.2
    rw [hl]
    simp only [List.cons_append, h1, h2]
    simp only [List.getLast?_append, List.getLast?_singleton, Option.some_or, hlen, and_self, if_true]
    simp only [h3, h4]
    have hsp := split_flat (d :: ds) hd []
    rw [hl, split_blank] at hsp
    simpa using hsp

example : readDeps (depFile "build/x.o".toList [(false, "x.c".toList), (true, "x.h".toList), (false, "y.h".toList)]) =
    some ["x.c".toList, "x.h".toList, "y.h".toList] := by decide

/-- **C56** fails for a header whose name has a blank: two other files are reported. -/
theorem C56_blank_violated :
    readDeps (depFile "x.o".toList [(false, "x.c".toList), (false, "my x.h".toList)]) =
      some ["x.c".toList, "my\\".toList, "x.h".toList] := by decide

/-- **C56** fails for a target whose name has a blank: there is an error. -/
theorem C56_target_violated : readDeps (depFile "my x.o".toList [(false, "x.c".toList)]) = none := by decide

/-- **C56** fails for a header whose name has a dollar. -/
theorem C56_dollar_violated :
    readDeps (depFile "x.o".toList [(false, "a$b.h".toList)]) = some ["a$$b.h".toList] := by decide

end Verif.Gcc
