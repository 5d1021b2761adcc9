import Verif.Path.Rel
/-!
# `Path.relpath` and the command line of `jar`: properties

C100.
-/
namespace Verif.Path.Rel
open Verif.Posix Verif.Path

/-! ## Specification -/

/-- one name on the way from a directory, which is the list of the names that lead to it -/
def go (l : List Text) (name : Text) : List Text :=
  if name = [] ∨ name = ['.'] then l else if name = ['.', '.'] then l.dropLast else l ++ [name]

/-- the way of a path, with the part of a name that was read -/
def walk (l : List Text) (name : Text) : Text → List Text
  | [] => go l name
  | c :: p => if c = '/' then walk (go l name) [] p else walk l (name ++ [c]) p

/-- where a path leads from the directory `dir`, in a tree without links; above the top directory is the top directory -/
def leads (dir : List Text) (p : Text) : List Text := walk (if p.head? = some '/' then [] else dir) [] p

/-- a name of a file -/
def Name (c : Text) : Prop := c ≠ [] ∧ c ≠ ['.'] ∧ c ≠ ['.', '.'] ∧ '/' ∉ c

/-! ## Proofs -/

theorem splitSlash_ne (p : Text) : splitSlash p ≠ [] := by
  cases p with
  | nil => simp [splitSlash]
  | cons c p =>
    rw [splitSlash]
    split
    · simp
    · split <;> simp

theorem splitSlash_cons {c : Char} (h : c ≠ '/') (p : Text) :
    ∃ d ds, splitSlash p = d :: ds ∧ splitSlash (c :: p) = (c :: d) :: ds := by
  cases hp : splitSlash p with
  | nil => exact absurd hp (splitSlash_ne p)
  | cons d ds => exact ⟨d, ds, rfl, by rw [splitSlash, if_neg h, hp]⟩

theorem walk_eq (l : List Text) (name p : Text) :
    ∃ d ds, splitSlash p = d :: ds ∧ walk l name p = ds.foldl go (go l (name ++ d)) := by
  induction p generalizing l name with
  | nil => exact ⟨[], [], rfl, by simp [walk]⟩
  | cons c p ih =>
    by_cases hc : c = '/'
    · subst hc
      obtain ⟨d, ds, h1, h2⟩ := ih (go l name) []
      refine ⟨[], d :: ds, by rw [splitSlash, if_pos rfl, h1], ?_⟩
      rw [walk, if_pos rfl, h2]
      simp
    · obtain ⟨d, ds, h1, h2⟩ := ih l (name ++ [c])
      obtain ⟨d', ds', h3, h4⟩ := splitSlash_cons hc p
      rw [h1] at h3
      simp only [List.cons.injEq] at h3
      obtain ⟨rfl, rfl⟩ := h3
      refine ⟨c :: d, ds, h4, ?_⟩
      rw [walk, if_neg hc, h2]
      simp

theorem walk_fold (l : List Text) (p : Text) : walk l [] p = (splitSlash p).foldl go l := by
  obtain ⟨d, ds, h1, h2⟩ := walk_eq l [] p
  rw [h1, h2]
  rfl

theorem splitSlash_append (a b : Text) : splitSlash (a ++ '/' :: b) = splitSlash a ++ splitSlash b := by
  induction a with
  | nil => simp [splitSlash]
  | cons c a ih =>
    by_cases hc : c = '/'
    · subst hc
      rw [List.cons_append, splitSlash, if_pos rfl, splitSlash, if_pos rfl, ih]
      rfl
    · obtain ⟨d, ds, h1, h2⟩ := splitSlash_cons hc a
      obtain ⟨d', ds', h3, h4⟩ := splitSlash_cons hc (a ++ '/' :: b)
      rw [ih, h1] at h3
      simp only [List.cons_append, List.cons.injEq] at h3
      obtain ⟨rfl, rfl⟩ := h3
      rw [List.cons_append, h4, h2]
      rfl

theorem splitSlash_noSlash (p : Text) : ∀ c ∈ splitSlash p, '/' ∉ c := by
  induction p with
  | nil => simp [splitSlash]
  | cons c p ih =>
    by_cases hc : c = '/'
    · subst hc
      rw [splitSlash, if_pos rfl]
      intro x hx
      rcases List.mem_cons.1 hx with rfl | hx
      · simp
      · exact ih x hx
    · obtain ⟨d, ds, h1, h2⟩ := splitSlash_cons hc p
      rw [h2]
      rw [h1] at ih
      intro x hx
      rcases List.mem_cons.1 hx with rfl | hx
      · have := ih d (by simp)
        simp only [List.mem_cons, not_or]
        exact ⟨fun e => hc e.symm, this⟩
      · exact ih x (by simp [hx])

theorem splitSlash_name {c : Text} (h : '/' ∉ c) : splitSlash c = [c] := by
  induction c with
  | nil => rfl
  | cons x c ih =>
    have hx : x ≠ '/' := fun e => h (by simp [e])
    obtain ⟨d, ds, h1, h2⟩ := splitSlash_cons hx c
    rw [ih (fun hc => h (by simp [hc]))] at h1
    simp only [List.cons.injEq] at h1
    obtain ⟨rfl, rfl⟩ := h1
    exact h2

theorem splitSlash_join (ps : List Text) (hne : ps ≠ []) (h : ∀ c ∈ ps, '/' ∉ c) : splitSlash (joinSlash ps) = ps := by
  induction ps with
  | nil => exact absurd rfl hne
  | cons a ps ih =>
    cases ps with
    | nil => exact splitSlash_name (h a (by simp))
    | cons b ps =>
      rw [joinSlash, splitSlash_append, splitSlash_name (h a (by simp)), ih (by simp) (fun c hc => h c (by simp [hc]))]
      rfl

theorem go_names {l : List Text} (hl : ∀ c ∈ l, Name c) {n : Text} (hn : '/' ∉ n) : ∀ c ∈ go l n, Name c := by
  unfold go
  split
  · exact hl
  · rename_i h1
    split
    · intro c hc; exact hl c (List.dropLast_subset l hc)
    · rename_i h2
      intro c hc
      rcases List.mem_append.1 hc with hc | hc
      · exact hl c hc
      · rw [List.mem_singleton.1 hc]
        exact ⟨fun e => h1 (Or.inl e), fun e => h1 (Or.inr e), h2, hn⟩

theorem fold_names {l ps : List Text} (hl : ∀ c ∈ l, Name c) (hp : ∀ c ∈ ps, '/' ∉ c) : ∀ c ∈ ps.foldl go l, Name c := by
  induction ps generalizing l with
  | nil => exact hl
  | cons a ps ih => exact ih (go_names hl (hp a (by simp))) (fun c hc => hp c (by simp [hc]))

theorem leads_names {dir : List Text} (hd : ∀ c ∈ dir, Name c) (p : Text) : ∀ c ∈ leads dir p, Name c := by
  rw [leads, walk_fold]
  refine fold_names ?_ (splitSlash_noSlash p)
  split
  · simp
  · exact hd

theorem norm_fold {l ps : List Text} (hl : ∀ c ∈ l, Name c) (hp : ∀ c ∈ ps, '/' ∉ c) :
    ps.foldl (normStep true) l = ps.foldl go l := by
  induction ps generalizing l with
  | nil => rfl
  | cons a ps ih =>
    have h1 : normStep true l a = go l a := by
      unfold normStep go
      split
      · rfl
      · have hlast : l.getLast? ≠ some ['.', '.'] := by
          intro h
          exact (hl _ (List.mem_of_getLast? h)).2.2.1 rfl
        by_cases ha : a = ['.', '.']
        · simp [ha, hlast]
        · simp [ha]
    rw [List.foldl_cons, List.foldl_cons, h1]
    exact ih (go_names hl (hp a (by simp))) (fun c hc => hp c (by simp [hc]))

theorem filter_slashes (k : Nat) (p : Text) :
    (splitSlash (List.replicate k '/' ++ p)).filter (· ≠ []) = (splitSlash p).filter (· ≠ []) := by
  induction k with
  | zero => rfl
  | succ k ih =>
    rw [List.replicate_succ, List.cons_append, splitSlash, if_pos rfl, List.filter_cons, if_neg (by simp), ih]

theorem filter_join (ps : List Text) (h : ∀ c ∈ ps, Name c) : (splitSlash (joinSlash ps)).filter (· ≠ []) = ps := by
  by_cases hne : ps = []
  · subst hne; rfl
  · rw [splitSlash_join ps hne (fun c hc => (h c hc).2.2.2)]
    exact List.filter_eq_self.2 (fun c hc => by simpa using (h c hc).1)

theorem slashes_pos {p : Text} (h : p.head? = some '/') : slashes p ≠ 0 := by
  cases p with
  | nil => simp at h
  | cons c p =>
    simp only [List.head?_cons, Option.some.injEq] at h
    subst h
    unfold slashes
    split <;> simp_all

/-- the names in a normalised absolute path -/
theorem normpath_names {p : Text} (h : p.head? = some '/') :
    (splitSlash (normpath p)).filter (· ≠ []) = leads [] p := by
  have hne : p ≠ [] := by rintro rfl; simp at h
  have hs := slashes_pos h
  have hb : (slashes p != 0) = true := by simpa using hs
  have hr : List.replicate (slashes p) '/' ++ joinSlash ((splitSlash p).foldl (normStep true) []) ≠ [] := by
    simp [hs]
  rw [normpath, if_neg hne]
  simp only [hb]
  rw [if_neg hr, norm_fold (by simp) (splitSlash_noSlash p), filter_slashes, filter_join]
  · rw [leads, if_pos h, walk_fold]
  · exact fold_names (by simp) (splitSlash_noSlash p)

theorem isabs_iff {p : Text} : isabs p = true ↔ p.head? = some '/' := by simp [isabs]

theorem abspath_names {cwd : Text} (hcwd : cwd.head? = some '/') (p : Text) :
    (splitSlash (abspath cwd p)).filter (· ≠ []) = leads (leads [] cwd) p := by
  unfold abspath
  by_cases hp : p.head? = some '/'
  · rw [if_pos (isabs_iff.2 hp), normpath_names hp, leads, leads, if_pos hp, if_pos hp]
  · have hp' : isabs p = false := by
      cases h : isabs p with
      | false => rfl
      | true => exact absurd (isabs_iff.1 h) hp
    have hne : cwd ≠ [] := by rintro rfl; simp at hcwd
    rw [if_neg (by simp [hp'])]
    have key : ∃ a, join cwd p = a ++ '/' :: p ∧ (a = cwd ∨ cwd = a ++ ['/']) := by
      unfold join
      rw [if_neg (by simp [hp'])]
      by_cases hl : cwd.getLast? = some '/'
      · obtain ⟨a, ha⟩ := List.getLast?_eq_some_iff.1 hl
        refine ⟨a, ?_, Or.inr ha⟩
        rw [if_pos (Or.inr hl), ha]
        simp
      · exact ⟨cwd, by rw [if_neg (by simp [hne, hl])], Or.inl rfl⟩
    obtain ⟨a, hj, ha⟩ := key
    have hh : (join cwd p).head? = some '/' := by
      rw [hj]
      rcases ha with rfl | ha
      · cases a with
        | nil => exact absurd rfl hne
        | cons c r => simpa using hcwd
      · rw [ha] at hcwd
        cases a with
        | nil => simp
        | cons c r => simpa using hcwd
    rw [normpath_names hh, leads, if_pos hh, walk_fold, hj, splitSlash_append, List.foldl_append]
    rw [leads, if_neg hp, walk_fold (leads [] cwd) p]
    congr 1
    rw [leads, if_pos hcwd, walk_fold]
    rcases ha with rfl | ha
    · rfl
    · rw [ha, splitSlash_append, List.foldl_append]
      simp [splitSlash, go]

theorem common_take (s q : List Text) : s.take (common s q) = q.take (common s q) ∧ common s q ≤ s.length := by
  induction s generalizing q with
  | nil => simp [common]
  | cons a s ih =>
    cases q with
    | nil => simp [common]
    | cons b q =>
      rw [common]
      split
      · rename_i h
        subst h
        have := ih q
        simp [this.1, this.2]
      · simp

theorem up (n : Nat) (s : List Text) : (List.replicate n ['.', '.']).foldl go s = s.take (s.length - n) := by
  induction n generalizing s with
  | zero => simp
  | succ n ih =>
    rw [List.replicate_succ, List.foldl_cons, ih]
    have : go s ['.', '.'] = s.dropLast := by simp [go]
    rw [this, List.dropLast_eq_take, List.take_take, List.length_take]
    congr 1
    omega

theorem down (s q : List Text) (h : ∀ c ∈ q, Name c) : q.foldl go s = s ++ q := by
  induction q generalizing s with
  | nil => simp
  | cons a q ih =>
    obtain ⟨h1, h2, h3, _⟩ := h a (by simp)
    have : go s a = s ++ [a] := by simp [go, h1, h2, h3]
    rw [List.foldl_cons, this, ih _ (fun c hc => h c (by simp [hc]))]
    simp

theorem fold_join (a : Text) (ps : List Text) (h : ∀ c ∈ a :: ps, c ≠ [] ∧ '/' ∉ c) : ps.foldl join a = joinSlash (a :: ps) := by
  have key : ∀ (ps : List Text) (a : Text), a ≠ [] → a.getLast? ≠ some '/' → (∀ c ∈ ps, c ≠ [] ∧ '/' ∉ c) →
      ps.foldl join a = joinSlash (a :: ps) := by
    intro ps
    induction ps with
    | nil => intro a _ _ _; rfl
    | cons b ps ih =>
      intro a ha hl h
      obtain ⟨hb, hs⟩ := h b (by simp)
      have hb' : isabs b = false := by
        cases b with
        | nil => exact absurd rfl hb
        | cons c r =>
          have : c ≠ '/' := fun e => hs (by simp [e])
          simp [isabs, this]
      have hj : join a b = a ++ '/' :: b := by simp [join, hb', ha, hl]
      rw [List.foldl_cons, hj, ih _ (by simp) ?_ (fun c hc => h c (by simp [hc]))]
      · cases ps with
        | nil => rfl
        | cons c ps => simp [joinSlash]
      · intro e
        have : (a ++ '/' :: b).getLast? = b.getLast? := by
          cases b with
          | nil => exact absurd rfl hb
          | cons c r => rw [List.getLast?_append, List.getLast?_cons_cons]; simp [List.getLast?_cons]
        rw [this] at e
        exact hs (List.mem_of_getLast? e)
  refine key ps a (h a (by simp)).1 (fun e => (h a (by simp)).2 (List.mem_of_getLast? e)) (fun c hc => h c (by simp [hc]))

theorem leads_join (s : List Text) (a : Text) (ps : List Text) (h : ∀ c ∈ a :: ps, c ≠ [] ∧ '/' ∉ c) :
    leads s (joinSlash (a :: ps)) = (a :: ps).foldl go s := by
  have hh : (joinSlash (a :: ps)).head? ≠ some '/' := by
    obtain ⟨ha, hs⟩ := h a (by simp)
    cases a with
    | nil => exact absurd rfl ha
    | cons c r =>
      have : c ≠ '/' := fun e => hs (by simp [e])
      cases ps <;> simp [joinSlash, this]
  rw [leads, if_neg hh, walk_fold, splitSlash_join _ (by simp) (fun c hc => (h c hc).2)]

/-- the parts of the result of `relpath` -/
theorem relpath_eq {cwd : Text} (hcwd : cwd.head? = some '/') (p start : Text) (hp : p ≠ []) :
    ∃ i, i = common (leads (leads [] cwd) start) (leads (leads [] cwd) p) ∧
      relpath cwd p start = match List.replicate ((leads (leads [] cwd) start).length - i) ['.', '.'] ++
          (leads (leads [] cwd) p).drop i with
        | [] => some ['.']
        | a :: rest => some (rest.foldl join a) := by
  refine ⟨_, rfl, ?_⟩
  rw [relpath, if_neg hp]
  simp only [abspath_names hcwd]
  generalize List.replicate _ _ ++ _ = l
  cases l <;> rfl

theorem rel_parts (n : Nat) (q : List Text) (hq : ∀ c ∈ q, Name c) : ∀ c ∈ List.replicate n ['.', '.'] ++ q, c ≠ [] ∧ '/' ∉ c := by
  intro c hc
  rcases List.mem_append.1 hc with hc | hc
  · rw [(List.mem_replicate.1 hc).2]
    exact ⟨by simp, by simp⟩
  · exact ⟨(hq c hc).1, (hq c hc).2.2.2⟩

/-- **C100**: from the directory `start`, the path that `relpath` returns leads where the path leads that was given. -/
theorem C100_relpath (cwd : Text) (hcwd : cwd.head? = some '/') (p start : Text) (hp : p ≠ []) :
    ∃ r, relpath cwd p start = some r ∧ r.head? ≠ some '/' ∧
      leads (leads (leads [] cwd) start) r = leads (leads [] cwd) p := by
  obtain ⟨i, hi, h⟩ := relpath_eq hcwd p start hp
  have hnc : ∀ c ∈ leads [] cwd, Name c := leads_names (by simp) cwd
  have hns := leads_names hnc start
  have hnp := leads_names hnc p
  generalize leads (leads [] cwd) start = s at *
  generalize leads (leads [] cwd) p = q at *
  obtain ⟨ht, hle⟩ := common_take s q
  rw [← hi] at ht hle
  have hparts := rel_parts (s.length - i) (q.drop i) (fun c hc => hnp c (List.mem_of_mem_drop hc))
  have hfold : (List.replicate (s.length - i) ['.', '.'] ++ q.drop i).foldl go s = q := by
    rw [List.foldl_append, up, down _ _ (fun c hc => hnp c (List.mem_of_mem_drop hc))]
    rw [show s.length - (s.length - i) = i by omega, ht, List.take_append_drop]
  cases hrel : List.replicate (s.length - i) ['.', '.'] ++ q.drop i with
  | nil =>
    rw [hrel] at h hfold
    refine ⟨['.'], h, by simp, ?_⟩
    have : s = q := hfold
    simp [leads, walk, go, this]
  | cons a rest =>
    rw [hrel] at h hfold hparts
    refine ⟨_, h, ?_, ?_⟩
    · rw [fold_join a rest hparts]
      obtain ⟨ha, hs⟩ := hparts a (by simp)
      cases a with
      | nil => exact absurd rfl ha
      | cons c r =>
        have : c ≠ '/' := fun e => hs (by simp [e])
        cases rest <;> simp [joinSlash, this]
    · rw [fold_join a rest hparts, leads_join s a rest hparts]
      exact hfold

/-- **C100**: a path below `start` is returned as the names below it, without dots. -/
theorem C100_below (cwd : Text) (hcwd : cwd.head? = some '/') (p start : Text) (hp : p ≠ []) (a : Text) (rest : List Text)
    (h : leads (leads [] cwd) p = leads (leads [] cwd) start ++ a :: rest) :
    relpath cwd p start = some (joinSlash (a :: rest)) := by
  obtain ⟨i, hi, hr⟩ := relpath_eq hcwd p start hp
  have hnp := leads_names (leads_names (dir := []) (by simp) cwd) p
  rw [h] at hi hr hnp
  generalize leads (leads [] cwd) start = s at *
  have hc : ∀ (s r : List Text), common s (s ++ r) = s.length := by
    intro s r
    induction s with
    | nil => simp [common]
    | cons x s ih => simp [common, ih]
  rw [hc] at hi
  subst hi
  rw [Nat.sub_self, List.drop_left] at hr
  rw [hr]
  simp only [List.replicate_zero, List.nil_append]
  rw [fold_join a rest (fun c hc => ⟨(hnp c (by simp [List.mem_cons.1 hc])).1, (hnp c (by simp [List.mem_cons.1 hc])).2.2.2⟩)]

theorem fold_filter (l ps : List Text) : (ps.filter (· ≠ [])).foldl go l = ps.foldl go l := by
  induction ps generalizing l with
  | nil => rfl
  | cons a ps ih =>
    by_cases ha : a = []
    · subst ha
      rw [List.filter_cons, if_neg (by simp), ih, List.foldl_cons]
      simp [go]
    · rw [List.filter_cons, if_pos (by simpa using ha), List.foldl_cons, List.foldl_cons, ih]

theorem normpath_head {p : Text} (h : p.head? = some '/') : (normpath p).head? = some '/' := by
  have hne : p ≠ [] := by rintro rfl; simp at h
  have hs := slashes_pos h
  obtain ⟨k, hk⟩ := Nat.exists_eq_succ_of_ne_zero hs
  rw [normpath, if_neg hne]
  simp only [hk, List.replicate_succ]
  simp

/-- what the loop of `normpath` collects for a relative path: parent directories, then names -/
def Collected (new : List Text) : Prop := ∃ k names, new = List.replicate k ['.', '.'] ++ names ∧ ∀ c ∈ names, Name c

theorem normStep_rel {new : List Text} (hn : Collected new) {a : Text} (ha : '/' ∉ a) (dir : List Text) :
    Collected (normStep false new a) ∧ (normStep false new a).foldl go dir = go (new.foldl go dir) a := by
  obtain ⟨k, names, rfl, hnames⟩ := hn
  unfold normStep
  by_cases h1 : a = [] ∨ a = ['.']
  · rw [if_pos h1]
    exact ⟨⟨k, names, rfl, hnames⟩, by rw [go, if_pos h1]⟩
  · rw [if_neg h1]
    by_cases h2 : a = ['.', '.']
    · subst h2
      rcases List.eq_nil_or_concat names with rfl | ⟨ns, n, rfl⟩
      · have hc : (List.replicate k ['.', '.'] ++ [] : List Text) = [] ∨
            (List.replicate k ['.', '.'] ++ [] : List Text).getLast? = some ['.', '.'] := by
          cases k with
          | zero => left; rfl
          | succ k => right; rw [List.append_nil, List.replicate_succ', List.getLast?_concat]
        rw [if_pos (by rcases hc with h | h
                       · exact .inr (.inl ⟨rfl, h⟩)
                       · exact .inr (.inr h))]
        refine ⟨⟨k + 1, [], by simp [List.replicate_succ'], by simp⟩, ?_⟩
        rw [List.foldl_append]
        rfl
      · rw [List.concat_eq_append] at hnames ⊢
        have hN := hnames n (by simp)
        have hne : (List.replicate k ['.', '.'] ++ (ns ++ [n]) : List Text) ≠ [] := by simp
        have hl : (List.replicate k ['.', '.'] ++ (ns ++ [n]) : List Text).getLast? = some n := by
          rw [← List.append_assoc, List.getLast?_concat]
        rw [if_neg (by
          rintro (h | ⟨_, h⟩ | h)
          · exact h rfl
          · exact hne h
          · rw [hl] at h
            exact hN.2.2.1 (Option.some.inj h))]
        have hd : (List.replicate k ['.', '.'] ++ (ns ++ [n]) : List Text).dropLast = List.replicate k ['.', '.'] ++ ns := by
          rw [← List.append_assoc, List.dropLast_concat]
        rw [hd]
        refine ⟨⟨k, ns, rfl, fun c hc => hnames c (by simp [hc])⟩, ?_⟩
        rw [← List.append_assoc, List.foldl_append (l := _ ++ ns)]
        obtain ⟨g1, g2, g3, _⟩ := hN
        simp [go, g1, g2, g3]
    · rw [if_pos (.inl h2)]
      refine ⟨⟨k, names ++ [a], by simp, ?_⟩, by rw [List.foldl_append]; rfl⟩
      intro c hc
      rcases List.mem_append.1 hc with hc | hc
      · exact hnames c hc
      · rw [List.mem_singleton.1 hc]
        exact ⟨fun e => h1 (.inl e), fun e => h1 (.inr e), h2, ha⟩

theorem norm_fold_rel {ps new : List Text} (hn : Collected new) (hp : ∀ c ∈ ps, '/' ∉ c) (dir : List Text) :
    Collected (ps.foldl (normStep false) new) ∧ (ps.foldl (normStep false) new).foldl go dir = ps.foldl go (new.foldl go dir) := by
  induction ps generalizing new with
  | nil => exact ⟨hn, rfl⟩
  | cons a ps ih =>
    obtain ⟨h1, h2⟩ := normStep_rel hn (hp a (by simp)) dir
    have := ih h1 (fun c hc => hp c (by simp [hc]))
    rw [List.foldl_cons, List.foldl_cons, ← h2]
    exact this

theorem slashes_rel {p : Text} (h : p.head? ≠ some '/') : slashes p = 0 := by
  unfold slashes
  split <;> simp_all

/-- **C100**: `normpath` leads to the same file, from every directory; and `abspath` leads there from everywhere. -/
theorem C100_normpath (dir : List Text) (p : Text) : leads dir (normpath p) = leads dir p := by
  by_cases h : p.head? = some '/'
  · rw [leads, if_pos (normpath_head h), walk_fold, ← fold_filter, normpath_names h,
      down [] _ (leads_names (by simp) p), List.nil_append, leads, leads, if_pos h, if_pos h]
  · by_cases hp : p = []
    · subst hp; simp [normpath, leads, walk, go]
    · rw [normpath, if_neg hp]
      simp only [slashes_rel h, List.replicate_zero, List.nil_append]
      have hb : ((0 : Nat) != 0) = false := rfl
      rw [hb]
      obtain ⟨⟨k, names, h1, h2⟩, h3⟩ := norm_fold_rel (ps := splitSlash p) (new := []) ⟨0, [], rfl, by simp⟩ (splitSlash_noSlash p) dir
      have hparts := rel_parts k names h2
      rw [← h1] at hparts
      have hr : leads dir p = (splitSlash p).foldl go dir := by rw [leads, if_neg h, walk_fold]
      rw [hr, show (splitSlash p).foldl go dir = (splitSlash p).foldl go (([] : List Text).foldl go dir) from rfl, ← h3]
      cases hl : (splitSlash p).foldl (normStep false) [] with
      | nil => simp [joinSlash, leads, walk, go]
      | cons a rest =>
        rw [hl] at hparts
        have hj : joinSlash (a :: rest) ≠ [] := by
          have := (hparts a (by simp)).1
          cases rest <;> simp [joinSlash, this]
        rw [if_neg hj, leads_join dir a rest hparts]

theorem C100_abspath (cwd : Text) (hcwd : cwd.head? = some '/') (dir : List Text) (p : Text) :
    (abspath cwd p).head? = some '/' ∧ leads dir (abspath cwd p) = leads (leads [] cwd) p := by
  have h1 : (abspath cwd p).head? = some '/' := by
    unfold abspath
    split
    · exact normpath_head (isabs_iff.1 ‹_›)
    · refine normpath_head ?_
      unfold join
      split
      · exact absurd ‹_› ‹_›
      · cases cwd with
        | nil => simp at hcwd
        | cons c r => split <;> simpa using hcwd
  refine ⟨h1, ?_⟩
  rw [leads, if_pos h1, walk_fold, ← fold_filter, abspath_names hcwd,
    down [] _ (leads_names (leads_names (by simp) cwd) p), List.nil_append]

example : normpath "a/./b/../../../c//d".toList = "../c/d".toList ∧ normpath "../..".toList = "../..".toList ∧
    normpath "//a/..".toList = "//".toList ∧ normpath "a/..".toList = ".".toList ∧
    abspath "/w/x".toList "../y".toList = "/w/y".toList := by
  refine ⟨?_, ?_, ?_, ?_, ?_⟩ <;> decide +kernel

theorem all_relpath {cwd : Text} (hcwd : cwd.head? = some '/') (at' : Text) (ps : List Text) (hps : [] ∉ ps) :
    ∃ xs, all (ps.map fun s => relpath cwd s at') = some xs ∧
      xs.map (leads (leads (leads [] cwd) at')) = ps.map (leads (leads [] cwd)) := by
  induction ps with
  | nil => exact ⟨[], rfl, rfl⟩
  | cons p ps ih =>
    obtain ⟨xs, h1, h2⟩ := ih (fun h => hps (by simp [h]))
    obtain ⟨r, h3, _, h4⟩ := C100_relpath cwd hcwd p at' (fun e => hps (by simp [e]))
    refine ⟨r :: xs, by simp only [List.map_cons, h3, all, h1, Option.map_some], ?_⟩
    simp only [List.map_cons, h4, h2]

/-- **C100**: `jar` is run in the directory that was asked for (or the buildroot); there its arguments are the archive and, in
their order, the files that were given. -/
theorem C100_jar (cwd exe buildroot : Text) (dir : Option Text) (dst : Text) (srcs : List Text) (hcwd : cwd.head? = some '/')
    (hne : srcs ≠ []) (hs : [] ∉ srcs) (hd : addroot dst buildroot ≠ []) :
    ∃ out args, jar cwd exe buildroot dir dst srcs none = some (dir.getD buildroot, exe :: "cf".toList :: out :: args) ∧
      (out :: args).map (leads (leads (leads [] cwd) (dir.getD buildroot))) =
        (addroot dst buildroot :: srcs).map (leads (leads [] cwd)) := by
  obtain ⟨xs, h1, h2⟩ := all_relpath hcwd (dir.getD buildroot) (addroot dst buildroot :: srcs) (by
    simp only [List.mem_cons, not_or]; exact ⟨fun e => hd e.symm, hs⟩)
  cases xs with
  | nil => simp at h2
  | cons out args =>
    refine ⟨out, args, ?_, h2⟩
    rw [jar, if_neg hne]
    simp only [List.map_cons] at h1
    simp only [List.cons_append, List.nil_append, all, h1, Option.map_some]

/-- **C100**: a manifest that was given comes before the archive. -/
theorem C100_manifest (cwd exe buildroot : Text) (dir : Option Text) (dst : Text) (srcs : List Text) (m : Text)
    (hcwd : cwd.head? = some '/') (hne : srcs ≠ []) (hs : [] ∉ srcs) (hd : addroot dst buildroot ≠ []) (hm : m ≠ []) :
    ∃ man out args, jar cwd exe buildroot dir dst srcs (some m) =
        some (dir.getD buildroot, exe :: "cmf".toList :: man :: out :: args) ∧
      (man :: out :: args).map (leads (leads (leads [] cwd) (dir.getD buildroot))) =
        (m :: addroot dst buildroot :: srcs).map (leads (leads [] cwd)) := by
  obtain ⟨xs, h1, h2⟩ := all_relpath hcwd (dir.getD buildroot) (m :: addroot dst buildroot :: srcs) (by
    simp only [List.mem_cons, not_or]; exact ⟨fun e => hm e.symm, fun e => hd e.symm, hs⟩)
  cases xs with
  | nil => simp at h2
  | cons man xs =>
    cases xs with
    | nil => simp at h2
    | cons out args =>
      refine ⟨man, out, args, ?_, h2⟩
      rw [jar, if_neg hne]
      simp only [List.map_cons] at h1
      simp only [List.cons_append, List.nil_append, all, h1, Option.map_some]

/-- **C100**: an empty path is no file; `jar` is not run then, and neither without sources. -/
theorem C100_empty (cwd exe buildroot : Text) (dir : Option Text) (dst : Text) (srcs : List Text) (manifest : Option Text)
    (h : srcs = [] ∨ [] ∈ srcs ∨ manifest = some []) : jar cwd exe buildroot dir dst srcs manifest = none := by
  have key : ∀ fs : List (Option Text), none ∈ fs → all fs = none := by
    intro fs
    induction fs with
    | nil => simp
    | cons f fs ih =>
      intro hf
      cases f with
      | none => rfl
      | some a => rw [all, ih (by simpa using hf)]; rfl
  unfold jar
  split
  · rfl
  · rename_i hne
    simp only
    rw [key]
    · rfl
    · rcases h with h | h | h
      · exact absurd h hne
      · refine List.mem_append_right _ (List.mem_cons_of_mem _ (List.mem_map.2 ⟨[], h, ?_⟩))
        simp [relpath]
      · subst h
        simp [relpath]

/-! ### Cases that meet the hypotheses -/

example : relpath "/home/u".toList "build/a/B.class".toList "build".toList = some "a/B.class".toList ∧
    relpath "/home/u".toList "../x/./y".toList "/home/u/build//z/".toList = some "../../../x/y".toList ∧
    relpath "/home/u".toList "build".toList "build/.".toList = some ".".toList ∧
    leads (leads [] "/home/u".toList) "../x/./y".toList = ["home".toList, "x".toList, "y".toList] ∧
    leads ["home".toList, "u".toList, "build".toList, "z".toList] "../../../x/y".toList =
      ["home".toList, "x".toList, "y".toList] := by
  refine ⟨?_, ?_, ?_, ?_, ?_⟩ <;> decide +kernel

example : jar "/w".toList "jar".toList "build".toList none "a.jar".toList ["build/p/A.class".toList, "../B.class".toList] none =
    some ("build".toList, ["jar", "cf", "a.jar", "p/A.class", "../../B.class"].map String.toList) := by decide +kernel

example : jar "/w".toList "jar".toList "build".toList (some "build/p".toList) "a.jar".toList ["build/p/A.class".toList]
    (some "/etc/M".toList) =
    some ("build/p".toList, ["jar", "cmf", "../../../etc/M", "../a.jar", "A.class"].map String.toList) := by decide +kernel

end Verif.Path.Rel
