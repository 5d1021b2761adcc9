import Verif.Props.FileOps
/-!
# `copy_regex`: properties

C87.
-/
namespace Verif.FileOps
open Verif.Posix Verif.Path

/-! ## Specification -/

/-- names with slashes between them -/
def relText : List Text → Text
  | [] => []
  | [c] => c
  | c :: d :: rest => c ++ '/' :: relText (d :: rest)

/-- `ls` lists the directories of `fs`. -/
def Lists (fs : FS) (ls : Loc → List Text) : Prop :=
  ∀ l, fs l = some .dir → ∀ c, c ∈ ls l ↔ (fs (l ++ [c])).isSome

/-- nothing is more than `n` levels below `l` -/
def Depth (fs : FS) (l : Loc) (n : Nat) : Prop := ∀ k, (fs (l ++ k)).isSome → k.length ≤ n

/-- `p` is below `srcdir`, is not excluded, and what it is called below `srcdir` has a match of the pattern; `d` is
where it has to go. -/
def ToCopy (cwd : Loc) (fs : FS) (srcdir dstdir : Text) (excluded : Text → Bool) (subn : Text → Text × Nat)
    (includeDirs : Bool) (p d : Text) : Prop :=
  ∃ rel n, rel ≠ [] ∧ fs (loc cwd srcdir ++ rel) = some n ∧ (includeDirs = false → n ≠ .dir) ∧
    p = srcdir ++ '/' :: relText rel ∧ excluded p = false ∧ (subn (relText rel)).2 > 0 ∧
    d = join dstdir (subn (relText rel)).1

/-! ## find -/

/-- `os.path.join` of a directory and names -/
def under (root : Text) (rel : List Text) : Text := rel.foldl join root

theorem loc_under (cwd : Loc) (root : Text) (rel : List Text) (h : ∀ c ∈ rel, Name c) :
    loc cwd (under root rel) = loc cwd root ++ rel := by
  induction rel generalizing root with
  | nil => simp [under]
  | cons c rel ih =>
    have := ih (join root c) (fun x hx => h x (.tail _ hx))
    simp only [under, List.foldl_cons] at this ⊢
    rw [this, loc_join cwd root (h c (.head _))]
    simp

theorem Tree.above {fs : FS} (ht : Tree fs) {l : Loc} (k : Loc) {c : Text} {n : Node} (h : fs (l ++ c :: k) = some n) :
    fs l = some .dir := by
  rcases List.eq_nil_or_concat k with rfl | ⟨k', d, rfl⟩
  · exact ht.up h
  · rw [List.concat_eq_append] at h
    have := ht.up (l := l ++ c :: k') (c := d) (n := n) (by simpa using h)
    exact ht.above k' this
termination_by k.length
decreasing_by simp_all

theorem mem_find {cwd : Loc} {fs : FS} {ls : Loc → List Text} {incl : Bool} (ht : Tree fs) (hl : Lists fs ls)
    (n : Nat) (root : Text) (hr : fs (loc cwd root) = some .dir) (hd : Depth fs (loc cwd root) n) (p : Text) :
    p ∈ find cwd fs ls incl n root ↔
      ∃ rel nd, rel ≠ [] ∧ fs (loc cwd root ++ rel) = some nd ∧ (incl = false → nd ≠ .dir) ∧ p = under root rel := by
  induction n generalizing root p with
  | zero =>
    simp only [find, List.not_mem_nil, false_iff]
    rintro ⟨rel, nd, hne, hf, _⟩
    have := hd rel (by rw [hf]; rfl)
    exact hne (List.length_eq_zero_iff.mp (Nat.le_zero.mp this))
  | succ n ih =>
    have hmem := hl _ hr
    have hname : ∀ {c nd}, fs (loc cwd root ++ [c]) = some nd → Name c := fun h => ht.names h (by simp)
    have hsub : ∀ c, fs (loc cwd root ++ [c]) = some .dir →
        (∀ p, p ∈ find cwd fs ls incl n (join root c) ↔ ∃ rel nd, rel ≠ [] ∧
          fs (loc cwd root ++ c :: rel) = some nd ∧ (incl = false → nd ≠ .dir) ∧ p = under root (c :: rel)) := by
      intro c hc p
      have hj := loc_join cwd root (hname hc)
      have := ih (join root c) (by rw [hj, hc])
        (by
          intro k hk
          rw [hj, List.append_assoc] at hk
          have := hd _ hk
          simpa using this) p
      rw [hj] at this
      simpa [under] using this
    simp only [find, List.mem_append, List.mem_flatMap]
    constructor
    · rintro (h | ⟨c, hc, h⟩)
      · have : ∃ c nd, fs (loc cwd root ++ [c]) = some nd ∧ (incl = false → nd ≠ .dir) ∧ p = join root c := by
          cases incl with
          | false =>
            simp only [Bool.false_eq_true, if_false, List.mem_map, List.mem_filter, hmem] at h
            obtain ⟨c, ⟨hc, hcd⟩, rfl⟩ := h
            obtain ⟨nd, hnd⟩ := Option.isSome_iff_exists.mp hc
            refine ⟨c, nd, hnd, fun _ e => ?_, rfl⟩
            simp [hnd, e] at hcd
          | true =>
            simp only [if_true, List.mem_map, List.mem_append, List.mem_filter, hmem] at h
            obtain ⟨c, hc, rfl⟩ := h
            have hc : (fs (loc cwd root ++ [c])).isSome := by
              rcases hc with hc | hc <;> exact hc.1
            obtain ⟨nd, hnd⟩ := Option.isSome_iff_exists.mp hc
            exact ⟨c, nd, hnd, by simp, rfl⟩
        obtain ⟨c, nd, h1, h2, rfl⟩ := this
        exact ⟨[c], nd, by simp, h1, h2, rfl⟩
      · simp only [List.mem_filter, decide_eq_true_eq] at hc
        obtain ⟨rel, nd, _, h2, h3, h4⟩ := (hsub c hc.2 p).mp h
        exact ⟨c :: rel, nd, by simp, h2, h3, h4⟩
    · rintro ⟨rel, nd, hne, hf, hi, rfl⟩
      cases rel with
      | nil => exact absurd rfl hne
      | cons c rel =>
        cases rel with
        | nil =>
          left
          have hm : c ∈ ls (loc cwd root) := by rw [hmem, hf]; rfl
          cases incl with
          | false =>
            simp only [Bool.false_eq_true, if_false, List.mem_map, List.mem_filter]
            refine ⟨c, ⟨hm, ?_⟩, rfl⟩
            have := hi rfl
            simpa [hf] using this
          | true =>
            simp only [if_true, List.mem_map, List.mem_append, List.mem_filter]
            refine ⟨c, ?_, rfl⟩
            cases nd with
            | dir => exact Or.inr ⟨hm, by simp [hf]⟩
            | file a b => exact Or.inl ⟨hm, by simp [hf]⟩
        | cons e rel =>
          right
          have hc : fs (loc cwd root ++ [c]) = some .dir := ht.above (l := loc cwd root ++ [c]) rel (c := e) (n := nd) (by simpa using hf)
          refine ⟨c, ?_, (hsub c hc _).mpr ⟨e :: rel, nd, by simp, hf, hi, rfl⟩⟩
          rw [List.mem_filter]
          exact ⟨by rw [hmem, hc]; rfl, by simp [hc]⟩

theorem under_text {root : Text} (hr : root ≠ []) (hl : root.getLast? ≠ some '/') (rel : List Text) (hne : rel ≠ [])
    (h : ∀ c ∈ rel, Name c) : under root rel = root ++ '/' :: relText rel := by
  induction rel generalizing root with
  | nil => exact absurd rfl hne
  | cons c rel ih =>
    have hc := h c (.head _)
    have hj : join root c = root ++ '/' :: c := by
      unfold join
      rw [isabs_name hc]
      simp [hr, hl]
    cases rel with
    | nil => simp [under, relText, hj]
    | cons d rel =>
      have hlast : (root ++ '/' :: c).getLast? ≠ some '/' := by
        rcases List.eq_nil_or_concat c with rfl | ⟨c', a, rfl⟩
        · exact absurd rfl hc.1
        · rw [List.concat_eq_append]
          have hs := hc.2.2
          rw [List.concat_eq_append] at hs
          simp only [List.mem_append, List.mem_singleton, not_or] at hs
          have : root ++ '/' :: (c' ++ [a]) = (root ++ '/' :: c') ++ [a] := by simp
          rw [this, List.getLast?_concat]
          simpa using fun e => hs.2 e.symm
      have := ih (root := root ++ '/' :: c) (by simp) hlast (by simp) (fun x hx => h x (.tail _ hx))
      simp only [under, List.foldl_cons] at this ⊢
      rw [hj, this]
      simp [relText]

/-! ## The loop -/

/-- the pairs that are copied, in order -/
def pairs (srcdir dstdir : Text) (excluded : Text → Bool) (subn : Text → Text × Nat) (ps : List Text) : List (Text × Text) :=
  ps.filterMap fun p =>
    if excluded p then none
    else if (subn (p.drop (srcdir ++ ['/']).length)).2 > 0 then
      some (p, join dstdir (subn (p.drop (srcdir ++ ['/']).length)).1)
    else none

theorem Tree.set_file {fs : FS} (ht : Tree fs) {l : Loc} {c m : Nat} (hn : ∀ x ∈ l, Name x) (hp : fs l.dropLast = some .dir)
    (hl : fs l ≠ some .dir) : Tree (fs.set l (.file c m)) := by
  have hne : l ≠ [] := by rintro rfl; exact hl ht.top
  refine ⟨?_, ?_, ?_⟩
  · simp only [FS.set]
    rw [if_neg (fun e => hne e.symm)]
    exact ht.top
  · intro k d n h
    have key : fs k = some .dir := by
      simp only [FS.set] at h
      split at h
      · rename_i he
        subst he
        simpa using hp
      · exact ht.up h
    simp only [FS.set]
    rw [if_neg, key]
    rintro rfl
    exact hl key
  · intro k n x h hx
    simp only [FS.set] at h
    split at h
    · rename_i he; subst he; exact hn x hx
    · exact ht.names h hx

/-- what a successful round of the loop leaves behind -/
theorem copyFile_round {cwd : Loc} (hc : ∀ c ∈ cwd, Name c) {fs fs1 fs2 : FS} (ht : Tree fs) {src dst : Text}
    (hmk : makedirs cwd fs (split dst).1 = (true, fs1)) (hcp : copyFile cwd fs1 src dst = (true, fs2)) :
    Tree fs2 ∧ (∀ l, fs l = some .dir → fs2 l = some .dir) ∧
    (isdir cwd fs2 dst = false →
      (∃ c m, fs (loc cwd src) = some (.file c m) ∧ fs2 (loc cwd dst) = some (.file c m)) ∧
      ∀ l, l ≠ loc cwd dst → fs2 l = fs l ∨ (fs l = none ∧ fs2 l = some .dir ∧ l <+: loc cwd dst)) := by
  obtain ⟨h1, h2, h3, _⟩ := makedirs_spec hc ht hmk
  obtain ⟨hp, hpd⟩ := h3 rfl
  have hcp' := hcp
  unfold copyFile at hcp
  generalize hd : (if isdir cwd fs1 dst then join dst (split src).2 else dst) = d at hcp
  simp only at hcp
  split at hcp
  · rename_i c m hs
    split at hcp
    · cases hcp
    · rename_i hne
      split at hcp
      · rename_i hw
        simp only [Prod.mk.injEq, true_and] at hcp
        subst hcp
        simp only [writable, Bool.and_eq_true, decide_eq_true_eq, Bool.not_eq_eq_eq_not, Bool.not_true, ne_eq,
          decide_not, decide_eq_false_iff_not] at hw
        obtain ⟨⟨⟨_, hw2⟩, hw3⟩, hw4⟩ := hw
        refine ⟨h1.set_file (fun x => loc_ok hc) hw4 hw3, ?_, ?_⟩
        · intro l hl
          have h5 := h2.dir hl
          simp only [FS.set]
          split
          · rename_i he
            subst he
            exact absurd h5 hw3
          · exact h5
        · intro hnd
          have hid : isdir cwd fs1 dst = false := by
            cases hi : isdir cwd fs1 dst with
            | false => rfl
            | true =>
              rw [isdir_iff] at hi
              rw [← Bool.not_eq_true, isdir_iff] at hnd
              exfalso
              apply hnd
              refine ⟨hi.1, ?_⟩
              simp only [FS.set]
              split
              · rename_i he
                rw [he] at hi
                exact absurd hi.2 hw3
              · exact hi.2
          rw [hid] at hd
          simp only [Bool.false_eq_true, if_false] at hd
          subst hd
          refine ⟨⟨c, m, (h2.file).mp (stat_file.mp hs).2, by simp [FS.set]⟩, ?_⟩
          intro l hl
          simp only [FS.set, if_neg hl]
          rcases h2 l with e | ⟨e1, e2, e3⟩
          · exact Or.inl e
          · refine Or.inr ⟨e1, e2, e3.trans ?_⟩
            have hN : Name (tail dst) := by
              simp only [mustDir, Bool.or_eq_false_iff, decide_eq_false_iff_not] at hw2
              exact tail_name_of hw2.1 hw2.2
            rw [loc_split cwd dst hN]
            exact List.prefix_append _ _
      · cases hcp
  · cases hcp

theorem copyFound_spec {cwd : Loc} (hc : ∀ c ∈ cwd, Name c) {srcdir dstdir : Text} {excluded : Text → Bool}
    {subn : Text → Text × Nat} (ps : List Text) {fs fs' : FS} (ht : Tree fs) {srcs dsts : List Text}
    (h : copyFound cwd srcdir dstdir excluded subn ps fs = (some (srcs, dsts), fs')) :
    srcs = (pairs srcdir dstdir excluded subn ps).map Prod.fst ∧
    dsts = (pairs srcdir dstdir excluded subn ps).map Prod.snd ∧
    (∀ l, fs l = some .dir → fs' l = some .dir) ∧
    ((∀ d ∈ dsts, isdir cwd fs' d = false) →
      (∀ l, (∀ d ∈ dsts, l ≠ loc cwd d) → fs' l = fs l ∨ (fs l = none ∧ fs' l = some .dir ∧ ∃ d ∈ dsts, l <+: loc cwd d)) ∧
      ((dsts.map (loc cwd)).Nodup → (∀ p ∈ srcs, ∀ d ∈ dsts, loc cwd p ≠ loc cwd d) →
        ∀ pd ∈ pairs srcdir dstdir excluded subn ps, ∃ c m, fs (loc cwd pd.1) = some (.file c m) ∧
          fs' (loc cwd pd.2) = some (.file c m))) := by
  induction ps generalizing fs srcs dsts with
  | nil =>
    simp only [copyFound, Prod.mk.injEq, Option.some.injEq] at h
    obtain ⟨⟨rfl, rfl⟩, rfl⟩ := h
    simp [pairs]
  | cons p ps ih =>
    simp only [copyFound] at h
    split at h
    · rename_i he
      have := ih ht h
      simpa [pairs, he] using this
    · rename_i he
      generalize hsub : subn (p.drop (srcdir ++ ['/']).length) = S at h
      obtain ⟨t, nsub⟩ := S
      simp only at h
      split at h
      · rename_i hn
        have hpairs : pairs srcdir dstdir excluded subn (p :: ps) = (p, join dstdir t) :: pairs srcdir dstdir excluded subn ps := by
          simp only [pairs, List.filterMap_cons, he, hsub, hn, if_true, Bool.false_eq_true, if_false]
        split at h
        · cases h
        · rename_i fs1 hmk
          split at h
          · cases h
          · rename_i fs2 hcp
            split at h
            · cases h
            · rename_i srcs' dsts' fs3 hrest
              simp only [Prod.mk.injEq, Option.some.injEq] at h
              obtain ⟨⟨rfl, rfl⟩, rfl⟩ := h
              obtain ⟨ht2, hdirs, hround⟩ := copyFile_round hc ht hmk hcp
              obtain ⟨i1, i2, i3, i4⟩ := ih ht2 hrest
              rw [hpairs]
              refine ⟨by simp [i1], by simp [i2], fun l hl => i3 l (hdirs l hl), ?_⟩
              intro hnd
              obtain ⟨j1, j2⟩ := i4 (fun d hd => hnd d (.tail _ hd))
              have hnd2 : isdir cwd fs2 (join dstdir t) = false := by
                have := hnd _ (.head _)
                rw [← Bool.not_eq_true, isdir_iff] at this ⊢
                exact fun e => this ⟨e.1, i3 _ e.2⟩
              obtain ⟨⟨c, m, hsrc, hdst⟩, hoth⟩ := hround hnd2
              constructor
              · intro l hl
                have a := hoth l (hl _ (.head _))
                have b := j1 l (fun d hd => hl d (.tail _ hd))
                rcases a with a | ⟨a1, a2, a3⟩
                · rcases b with b | ⟨b1, b2, d, hd, b3⟩
                  · exact Or.inl (b.trans a)
                  · exact Or.inr ⟨by rw [← a, b1], b2, d, .tail _ hd, b3⟩
                · exact Or.inr ⟨a1, i3 _ a2, _, .head _, a3⟩
              · intro hdup hsd pd hpd
                simp only [List.map_cons, List.nodup_cons] at hdup
                rcases List.mem_cons.mp hpd with rfl | hpd
                · refine ⟨c, m, hsrc, ?_⟩
                  have := j1 (loc cwd (join dstdir t)) (by
                    intro d hd e
                    exact hdup.1 (List.mem_map.mpr ⟨d, hd, e.symm⟩))
                  rcases this with e | ⟨e, _⟩
                  · rw [e, hdst]
                  · rw [hdst] at e; cases e
                · obtain ⟨c', m', h1, h2⟩ := j2 hdup.2
                    (fun q hq d hd => hsd q (.tail _ hq) d (.tail _ hd)) pd hpd
                  refine ⟨c', m', ?_, h2⟩
                  have hmem : pd.1 ∈ srcs' := by rw [i1]; exact List.mem_map_of_mem hpd
                  have := hoth (loc cwd pd.1) (hsd _ (.tail _ hmem) _ (.head _))
                  rcases this with e | ⟨_, e, _⟩
                  · rw [← e, h1]
                  · rw [h1] at e; cases e
      · rename_i hn
        have := ih ht h
        have hpairs : pairs srcdir dstdir excluded subn (p :: ps) = pairs srcdir dstdir excluded subn ps := by
          simp only [pairs, List.filterMap_cons, he, hsub, hn, Bool.false_eq_true, if_false]
        rw [hpairs]
        exact this

/-! ## C87 -/

/-- **C87**: if `copy_regex` returns, it has copied exactly the files below `srcdir` that are not excluded and match the pattern,
each to where the patterns say, with content and mode; the destinations are returned in the order in which
the sources are reported, and nothing else is changed, except that directories are made.

Partial: `srcdir` must not end in a slash (`C87_slash_violated`), the files to be copied and the destinations are apart, no two
files have the same destination, and no destination is a directory. -/
theorem C87_copy_partial {cwd : Loc} {root srcdir dstdir : Text} {fs fs' : FS} {ls : Loc → List Text} {depth : Nat}
    {excluded : Text → Bool} {subn : Text → Text × Nat} {incl : Bool} {srcs dsts : List Text}
    (ht : Tree fs) (hcwd : fs cwd = some .dir) (hls : Lists fs ls) (hdep : Depth fs (loc cwd srcdir) depth)
    (hsd : fs (loc cwd srcdir) = some .dir) (hne : srcdir ≠ []) (hslash : srcdir.getLast? ≠ some '/')
    (h : copyRegex cwd root fs ls depth srcdir dstdir excluded subn incl = (some (srcs, dsts), fs'))
    (hdir : ∀ d ∈ dsts, isdir cwd fs' d = false)
    (hdup : (dsts.map (loc cwd)).Nodup)
    (hapart : ∀ p ∈ srcs, ∀ d ∈ dsts, loc cwd p ≠ loc cwd d) :
    srcs.length = dsts.length ∧
    (∀ p d, (p, d) ∈ srcs.zip dsts ↔ ToCopy cwd fs srcdir (addroot dstdir root) excluded subn incl p d) ∧
    (∀ p d, (p, d) ∈ srcs.zip dsts → ∃ c m, fs (loc cwd p) = some (.file c m) ∧ fs' (loc cwd d) = some (.file c m)) ∧
    (∀ l, (∀ d ∈ dsts, l ≠ loc cwd d) →
      fs' l = fs l ∨ (fs l = none ∧ fs' l = some .dir ∧ ∃ d ∈ dsts, l <+: loc cwd d)) := by
  have hc : ∀ c ∈ cwd, Name c := fun c => ht.names hcwd
  unfold copyRegex at h
  generalize hps : find cwd fs ls incl depth srcdir = ps at h
  obtain ⟨i1, i2, _, i4⟩ := copyFound_spec hc ps ht h
  obtain ⟨j1, j2⟩ := i4 hdir
  have hzip : srcs.zip dsts = pairs srcdir (addroot dstdir root) excluded subn ps := by
    rw [i1, i2, List.zip_map']
    simp
  refine ⟨by rw [i1, i2]; simp, ?_, ?_, j1⟩
  · intro p d
    rw [hzip]
    simp only [pairs, List.mem_filterMap]
    have hmem := mem_find (incl := incl) ht hls depth srcdir hsd hdep
    rw [hps] at hmem
    constructor
    · rintro ⟨q, hq, he⟩
      obtain ⟨rel, nd, r1, r2, r3, rfl⟩ := (hmem q).mp hq
      have hnm : ∀ c ∈ rel, Name c := fun c hc => ht.names r2 (List.mem_append_right _ hc)
      have htx := under_text hne hslash rel r1 hnm
      have hdrop : (under srcdir rel).drop (srcdir ++ ['/']).length = relText rel := by
        rw [htx]
        have : srcdir ++ '/' :: relText rel = (srcdir ++ ['/']) ++ relText rel := by simp
        rw [this, List.drop_left]
      rw [hdrop] at he
      split at he
      · cases he
      · rename_i hex
        split at he
        · rename_i hn
          simp only [Option.some.injEq, Prod.mk.injEq] at he
          obtain ⟨rfl, rfl⟩ := he
          exact ⟨rel, nd, r1, r2, r3, htx, by simpa using hex, hn, rfl⟩
        · cases he
    · rintro ⟨rel, nd, r1, r2, r3, rfl, hex, hn, rfl⟩
      have hnm : ∀ c ∈ rel, Name c := fun c hc => ht.names r2 (List.mem_append_right _ hc)
      have htx := under_text hne hslash rel r1 hnm
      have hdrop : (srcdir ++ '/' :: relText rel).drop (srcdir ++ ['/']).length = relText rel := by
        have : srcdir ++ '/' :: relText rel = (srcdir ++ ['/']) ++ relText rel := by simp
        rw [this, List.drop_left]
      refine ⟨srcdir ++ '/' :: relText rel, (hmem _).mpr ⟨rel, nd, r1, r2, r3, htx.symm⟩, ?_⟩
      rw [hdrop]
      simp [hex, hn]
  · intro p d hpd
    rw [hzip] at hpd
    exact j2 hdup hapart _ hpd

/-- the files that are copied are no directories -/
theorem copyFound_nodir {cwd : Loc} (hc : ∀ c ∈ cwd, Name c) {srcdir dstdir : Text} {excluded : Text → Bool}
    {subn : Text → Text × Nat} (ps : List Text) {fs fs' : FS} (ht : Tree fs) {r : List Text × List Text}
    (h : copyFound cwd srcdir dstdir excluded subn ps fs = (some r, fs')) :
    ∀ pd ∈ pairs srcdir dstdir excluded subn ps, fs (loc cwd pd.1) ≠ some .dir := by
  induction ps generalizing fs r with
  | nil => simp [pairs]
  | cons p ps ih =>
    simp only [copyFound] at h
    split at h
    · rename_i he
      have := ih ht h
      simpa [pairs, he] using this
    · rename_i he
      generalize hsub : subn (p.drop (srcdir ++ ['/']).length) = S at h
      obtain ⟨t, nsub⟩ := S
      simp only at h
      split at h
      · rename_i hn
        have hpairs : pairs srcdir dstdir excluded subn (p :: ps) = (p, join dstdir t) :: pairs srcdir dstdir excluded subn ps := by
          simp only [pairs, List.filterMap_cons, he, hsub, hn, if_true, Bool.false_eq_true, if_false]
        split at h
        · cases h
        · rename_i fs1 hmk
          split at h
          · cases h
          · rename_i fs2 hcp
            split at h
            · cases h
            · rename_i srcs' dsts' fs3 hrest
              simp only [Prod.mk.injEq, Option.some.injEq] at h
              obtain ⟨_, rfl⟩ := h
              obtain ⟨ht2, hdirs, _⟩ := copyFile_round hc ht hmk hcp
              rw [hpairs]
              intro pd hpd
              rcases List.mem_cons.mp hpd with rfl | hpd
              · obtain ⟨c, m, hs⟩ := copyFile_src hcp
                have := (makedirs_spec hc ht hmk).2.1.stat.mp hs
                rw [(stat_file.mp this).2]
                simp
              · exact fun e => ih ht2 hrest pd hpd (hdirs _ e)
      · rename_i hn
        have := ih ht h
        have hpairs : pairs srcdir dstdir excluded subn (p :: ps) = pairs srcdir dstdir excluded subn ps := by
          simp only [pairs, List.filterMap_cons, he, hsub, hn, Bool.false_eq_true, if_false]
        rw [hpairs]
        exact this

/-- **C87** is false with `include_dirs=True`, which is the default: if a directory below `srcdir` matches the pattern, as
every directory does with the pattern `.*`, `copy_regex` raises. -/
theorem C87_dirs_violated {cwd : Loc} {root srcdir dstdir : Text} {fs : FS} {ls : Loc → List Text} {depth : Nat}
    {excluded : Text → Bool} {subn : Text → Text × Nat} {rel : List Text}
    (ht : Tree fs) (hcwd : fs cwd = some .dir) (hls : Lists fs ls) (hdep : Depth fs (loc cwd srcdir) depth)
    (hsd : fs (loc cwd srcdir) = some .dir) (hne : srcdir ≠ []) (hslash : srcdir.getLast? ≠ some '/')
    (hrel : rel ≠ []) (hd : fs (loc cwd srcdir ++ rel) = some .dir)
    (hex : excluded (srcdir ++ '/' :: relText rel) = false) (hsub : (subn (relText rel)).2 > 0) :
    (copyRegex cwd root fs ls depth srcdir dstdir excluded subn true).1 = none := by
  have hc : ∀ c ∈ cwd, Name c := fun c => ht.names hcwd
  cases hr : copyRegex cwd root fs ls depth srcdir dstdir excluded subn true with
  | mk r fs' =>
    cases r with
    | none => rfl
    | some r =>
      exfalso
      unfold copyRegex at hr
      have hnm : ∀ c ∈ rel, Name c := fun c hc => ht.names hd (List.mem_append_right _ hc)
      have htx := under_text hne hslash rel hrel hnm
      have hdrop : (under srcdir rel).drop (srcdir ++ ['/']).length = relText rel := by
        rw [htx]
        have : srcdir ++ '/' :: relText rel = (srcdir ++ ['/']) ++ relText rel := by simp
        rw [this, List.drop_left]
      have hmem := (mem_find (incl := true) ht hls depth srcdir hsd hdep (under srcdir rel)).mpr
        ⟨rel, .dir, hrel, hd, by simp, rfl⟩
      refine copyFound_nodir hc _ ht hr (under srcdir rel, join (addroot dstdir root) (subn (relText rel)).1)
        (List.mem_filterMap.mpr ⟨_, hmem, ?_⟩)
        (by rw [loc_under cwd srcdir rel hnm]; exact hd)
      rw [hdrop, htx]
      simp [hex, hsub]

namespace Ex

/-- `src` with the files `ab` and `d/c` -/
def es2 : List (Loc × Node) :=
  [(["src".toList], .dir), (["src".toList, "ab".toList], .file 1 420), (["src".toList, "d".toList], .dir),
   (["src".toList, "d".toList, "c".toList], .file 2 420)]

def fs2 : FS := tree es2

def ls2 (l : Loc) : List Text := ((es2.map Prod.fst).filter fun k => k ≠ [] && k.dropLast == l).map fun k => k.getLast?.getD []

/-- the pattern `.*`, replaced by itself -/
def all (t : Text) : Text × Nat := (t, 1)

def did2 (r : Option (List Text × List Text) × FS) : Option (List String × List String) :=
  r.1.map fun x => (x.1.map String.ofList, x.2.map String.ofList)

theorem fs2_ok : Tree fs2 := tree_ok (by decide)

theorem ls2_ok : Lists fs2 ls2 := by
  intro l hl c
  have key : ∀ l c, c ∈ ls2 l ↔ (es2.lookup (l ++ [c])).isSome := by
    intro l c
    have h1 : ∀ (es : List (Loc × Node)) (k : Loc), (es.lookup k).isSome ↔ k ∈ es.map Prod.fst := by
      intro es k
      induction es with
      | nil => simp
      | cons e es ih =>
        rw [List.lookup_cons]
        by_cases he : k = e.1
        · simp [he]
        · have : (k == e.1) = false := by simpa using he
          simp [this, ih, he]
    rw [h1]
    simp only [ls2, List.mem_map, List.mem_filter, Bool.and_eq_true, decide_eq_true_eq, beq_iff_eq]
    constructor
    · rintro ⟨k, ⟨hk, hne, rfl⟩, rfl⟩
      rcases List.eq_nil_or_concat k with rfl | ⟨k', d, rfl⟩
      · exact absurd rfl hne
      · simpa [List.concat_eq_append] using hk
    · rintro hk
      exact ⟨l ++ [c], ⟨hk, by simp, by simp⟩, by simp⟩
  rw [key]
  unfold fs2 tree
  rw [if_neg (by simp)]

theorem fs2_depth : Depth fs2 (loc [] "src".toList) 2 := by
  intro k hk
  obtain ⟨n, hn⟩ := Option.isSome_iff_exists.mp hk
  unfold fs2 tree at hn
  have hl : (loc [] "src".toList) = ["src".toList] := by decide
  rw [hl, if_neg (by simp)] at hn
  have := lookup_mem hn
  simp only [es2, List.mem_cons, Prod.mk.injEq, List.not_mem_nil, or_false] at this
  have hlen : ∀ m : Loc, "src".toList :: k = m → m.length ≤ 3 → k.length ≤ 2 := by
    rintro m rfl h; simpa using h
  rcases this with ⟨h, _⟩ | ⟨h, _⟩ | ⟨h, _⟩ | ⟨h, _⟩ <;> exact hlen _ h (by simp)

set_option maxRecDepth 4000 in
/-- hypotheses of C87 met: both files are copied -/
example : did2 (copyRegex [] "build".toList fs2 ls2 2 "src".toList "x".toList (fun _ => false) all false) =
      some (["src/ab", "src/d/c"], ["build/x/ab", "build/x/d/c"]) ∧
    fs2 [] = some .dir ∧ fs2 (loc [] "src".toList) = some .dir ∧
    (["build/x/ab", "build/x/d/c"].map fun d => loc [] d.toList).Nodup ∧
    (∀ d ∈ ["build/x/ab", "build/x/d/c"], isdir [] (copyRegex [] "build".toList fs2 ls2 2 "src".toList "x".toList
      (fun _ => false) all false).2 d.toList = false) ∧
    (∀ p ∈ ["src/ab", "src/d/c"], ∀ d ∈ ["build/x/ab", "build/x/d/c"], loc [] p.toList ≠ loc [] d.toList) := by
  refine ⟨?_, ?_, ?_, ?_, ?_, ?_⟩ <;> decide +kernel

/-- hypotheses of `C87_dirs_violated` met: `src/d` -/
example : fs2 (loc [] "src".toList ++ ["d".toList]) = some .dir ∧ (all (relText ["d".toList])).2 > 0 := by decide

end Ex

set_option maxRecDepth 4000 in
/-- **C87** is false for a directory that is given with a slash at the end: the first character of each name is
lost, so `src/ab` is copied to `b`; and if a directory has a name of one character, its files are copied to the top directory
of the machine. -/
theorem C87_slash_violated :
    ∃ (fs : FS) (ls : Loc → List Text), Tree fs ∧ Lists fs ls ∧
      (copyRegex [] "build".toList fs ls 2 "src/".toList "x".toList (fun _ => false) (fun t => (t, 1)) false).1 =
        some (["src/ab".toList, "src/d/c".toList], ["build/x/b".toList, "/c".toList]) ∧
      (copyRegex [] "build".toList fs ls 2 "src".toList "x".toList (fun _ => false) (fun t => (t, 1)) false).1 =
        some (["src/ab".toList, "src/d/c".toList], ["build/x/ab".toList, "build/x/d/c".toList]) :=
  ⟨Ex.fs2, Ex.ls2, Ex.fs2_ok, Ex.ls2_ok, by decide +kernel, by decide +kernel⟩

namespace Ex

/-- `copy_regex` has no declared files; the destinations are read off its result. -/
def sg2 : DB.Sig Nat (List String) := ⟨fun _ _ _ => [], fun _ _ _ => [], fun _ _ r => r⟩

def env2 : DB.Env where
  fs := fun x => if x = "src/ab" then some ⟨1, some "one"⟩ else none
  now := 5
  funDigest := fun f => if f = "copy_regex" then some "F" else none
  md5 := id
  recursionLimit := 1000

/-- the first build: `src/ab` is copied and reported (file.py 84-85) -/
def evs2 : List (DB.Event Nat (List String)) :=
  [.prepare 1 "copy_regex" 7, .edit "build/x/ab" (some ⟨3, some "one"⟩),
   .complete 1 ["build/x/ab"] [] ["src/ab"] ["build/x/ab"],
   .restart env2.funDigest, .tick 5000000000]

end Ex

set_option maxRecDepth 4000 in
/-- **C87** is false for later builds: a file that is added to `srcdir` is not noticed, the stored list is returned and the
file is not copied. -/
theorem C87_new_file_violated :
    ∃ s : DB.Sys Nat (List String), s = (DB.runEvents Ex.sg2 [] (.init Ex.env2) Ex.evs2).2 ∧
      (DB.step Ex.sg2 s (.prepare 2 "copy_regex" 7)).1 = .hit ["build/x/ab"] ∧
      (DB.step Ex.sg2 (DB.step Ex.sg2 s (.edit "src/new" (some ⟨4000000000, some "new"⟩))).2
        (.prepare 2 "copy_regex" 7)).1 = .hit ["build/x/ab"] :=
  ⟨_, rfl, by decide +kernel, by decide +kernel⟩

end Verif.FileOps
