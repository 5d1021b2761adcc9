import Verif.Builders.File
import Verif.Props.Path
import Verif.Props.DBCalls
/-!
# `builders/file.py`: properties

C85 (`copy`), C86 (`move`), C87 (`copy_regex`).
-/
namespace Verif.FileOps
open Verif.Posix Verif.Path

/-! ## Specification -/

/-- what a name in a directory can be -/
def Name (c : Text) : Prop := c ≠ [] ∧ c ≠ ['.'] ∧ '/' ∉ c

/-- The file system is a tree: whatever exists is in a directory. -/
structure Tree (fs : FS) : Prop where
  top : fs [] = some .dir
  up : ∀ {l c n}, fs (l ++ [c]) = some n → fs l = some .dir
  names : ∀ {l n c}, fs l = some n → c ∈ l → Name c

/-- From `fs` to `fs'` nothing changes but that directories on the way to `l` are made. -/
def Grown (fs fs' : FS) (l : Loc) : Prop :=
  ∀ k, fs' k = fs k ∨ (fs k = none ∧ fs' k = some .dir ∧ k <+: l)

/-! ## Paths and places -/

theorem pieces_eq (p : Text) : pieces p = parts p := by
  induction p with
  | nil => rfl
  | cons c p ih =>
    simp only [pieces, parts, ih]
    split
    · rfl
    · cases parts p <;> rfl

theorem names_slash (a b : Text) : names (a ++ '/' :: b) = names a ++ names b := by
  simp only [names, pieces_eq, parts_slash, List.filter_append]

theorem names_name {c : Text} (h : Name c) : names c = [c] := by
  simp only [names, pieces_eq, parts_name h.2.2]
  simp [h.1, h.2.1]

theorem names_nil : names [] = [] := by simp [names, pieces]

theorem names_snoc (a : Text) : names (a ++ ['/']) = names a := by
  rw [names_slash, names_nil, List.append_nil]

theorem names_rstrip (a : Text) : names (rstrip a) = names a := by
  induction h : a.length generalizing a with
  | zero => simp at h; subst h; rfl
  | succ n ih =>
    by_cases hl : a.getLast? = some '/'
    · obtain ⟨d, rfl⟩ := snoc_of_last hl
      rw [rstrip_snoc, ih d (by simpa using h), names_snoc]
    · rw [rstrip_id hl]

theorem names_ok {p c : Text} (h : c ∈ names p) : Name c := by
  have hp : ∀ p : Text, ∀ c ∈ parts p, '/' ∉ c := by
    intro p
    induction p with
    | nil => simp [parts]
    | cons d p ih =>
      intro c hc
      simp only [parts] at hc
      split at hc
      · rcases List.mem_cons.mp hc with rfl | hc
        · simp
        · exact ih c hc
      · rename_i hd
        cases hq : parts p with
        | nil => rw [hq] at hc; simp at hc; subst hc; simpa using fun h => hd h.symm
        | cons q qs =>
          rw [hq] at hc ih
          rcases List.mem_cons.mp hc with rfl | hc
          · have := ih q (by simp)
            simp only [List.mem_cons, not_or]
            exact ⟨fun h => hd h.symm, this⟩
          · exact ih c (List.mem_cons_of_mem _ hc)
  simp only [names, List.mem_filter, decide_eq_true_eq, pieces_eq] at h
  exact ⟨h.2.1, h.2.2, hp _ _ h.1⟩

theorem isabs_name {c : Text} (h : Name c) : isabs c = false := by
  cases c with
  | nil => rfl
  | cons a c =>
    have := h.2.2
    simp only [List.mem_cons, not_or] at this
    simp only [isabs, List.head?_cons, beq_eq_false_iff_ne, ne_eq, Option.some.injEq]
    exact fun h => this.1 h.symm

theorem loc_join (cwd : Loc) (a : Text) {c : Text} (h : Name c) : loc cwd (join a c) = loc cwd a ++ [c] := by
  unfold join
  rw [isabs_name h]
  simp only [Bool.false_eq_true, if_false]
  split
  · rename_i ha
    rcases ha with rfl | ha
    · have h0 : isabs ([] : Text) = false := rfl
      simp [loc, isabs_name h, names_name h, names_nil, h0]
    · obtain ⟨d, rfl⟩ := snoc_of_last ha
      have hi : isabs (d ++ ['/'] ++ c) = isabs (d ++ ['/']) := by
        cases d <;> rfl
      unfold loc
      rw [hi, List.append_assoc, List.singleton_append, names_slash, names_name h, names_snoc]
      split <;> simp
  · rename_i ha
    have hi : isabs (a ++ '/' :: c) = isabs a := by
      cases a with
      | nil => simp at ha
      | cons _ _ => rfl
    unfold loc
    rw [hi, names_slash, names_name h]
    split <;> simp

theorem tail_name_of {p : Text} (h1 : tail p ≠ []) (h2 : tail p ≠ ['.']) : Name (tail p) :=
  ⟨h1, h2, tail_noSlash p⟩

theorem takeWhile_true {p : Char → Bool} (l : List Char) : ∀ c ∈ l.takeWhile p, p c = true := by
  induction l with
  | nil => simp
  | cons a l ih =>
    intro c hc
    rw [List.takeWhile_cons] at hc
    split at hc
    · rcases List.mem_cons.mp hc with rfl | hc
      · assumption
      · exact ih c hc
    · simp at hc

/-- a path leads to its last name in its parent -/
theorem loc_split (cwd : Loc) (p : Text) (h : Name (tail p)) : loc cwd p = loc cwd (split p).1 ++ [tail p] := by
  have hp := head_append_tail p
  have hh : head p = [] ∨ ∃ d, head p = d ++ ['/'] := by
    unfold head
    cases hr : p.reverse.dropWhile (fun c => decide (c ≠ '/')) with
    | nil => simp
    | cons c l =>
      right
      have : c = '/' := by
        have := List.head_dropWhile_not (fun c => decide (c ≠ '/')) (w := by rw [hr]; simp)
        simp only [hr, List.head_cons] at this
        simpa using this
      exact ⟨l.reverse, by simp [this]⟩
  rcases hh with hh | ⟨d, hh⟩
  · rw [hh] at hp
    simp only [List.nil_append] at hp
    have : (split p).1 = [] := by simp [split, hh]
    rw [this]
    conv => lhs; rw [← hp]
    have h0 : isabs ([] : Text) = false := rfl
    simp [loc, isabs_name h, names_name h, names_nil, h0]
  · have hn : names p = names (head p) ++ [tail p] := by
      conv => lhs; rw [← hp]
      rw [hh, List.append_assoc, List.singleton_append, names_slash, names_name h, names_snoc]
    have hia : isabs p = isabs (head p) := by
      conv => lhs; rw [← hp]
      rw [hh]
      cases d <;> rfl
    have h1 : names (split p).1 = names (head p) := by
      simp only [split]
      split
      · rfl
      · exact names_rstrip _
    have h2 : isabs (split p).1 = isabs (head p) := by
      simp only [split]
      split
      · rfl
      · rename_i hall
        cases hq : head p with
        | nil => rw [hq] at hall; simp at hall
        | cons a q =>
          unfold isabs
          have hsuf : rstrip (a :: q) ++ (List.takeWhile (fun c => decide (c = '/')) (a :: q).reverse).reverse = a :: q := by
            unfold rstrip
            rw [← List.reverse_append, List.takeWhile_append_dropWhile, List.reverse_reverse]
          cases hr : rstrip (a :: q) with
          | nil =>
            exfalso
            rw [hr, List.nil_append] at hsuf
            apply hall
            rw [hq, ← hsuf, List.all_eq_true]
            intro c hc
            have := List.mem_reverse.mp hc
            exact takeWhile_true _ _ this
          | cons b r =>
            rw [hr] at hsuf
            simp only [List.cons_append, List.cons.injEq] at hsuf
            simp [hsuf.1]
    unfold loc
    rw [hn, hia, h1, h2]
    split <;> simp

/-! ## Making directories -/

theorem Tree.set_dir {fs : FS} (ht : Tree fs) {l : Loc} {c : Text} (hl : fs l = some .dir) (hc : Name c)
    (hn : fs (l ++ [c]) = none) : Tree (fs.set (l ++ [c]) .dir) := by
  have hln : ∀ x ∈ l ++ [c], Name x := by
    intro x hx
    rcases List.mem_append.mp hx with hx | hx
    · exact ht.names hl hx
    · simp at hx; subst hx; exact hc
  refine ⟨?_, ?_, ?_⟩
  · simp only [FS.set]
    rw [if_neg (by simp)]
    exact ht.top
  · intro k d n h
    simp only [FS.set] at h ⊢
    split at h
    · rename_i he
      have := List.append_inj' he rfl
      rw [this.1]
      split
      · rfl
      · exact hl
    · split
      · rfl
      · exact ht.up h
  · intro k n x h hx
    simp only [FS.set] at h
    split at h
    · rename_i he; subst he; exact hln x hx
    · exact ht.names h hx

theorem mkdirs_spec (rest : List Text) (hr : ∀ c ∈ rest, Name c) {fs : FS} (ht : Tree fs) {at' : Loc}
    (ha : fs at' = some .dir) {ok : Bool} {fs' : FS} (h : mkdirs fs at' rest = (ok, fs')) :
    Tree fs' ∧ Grown fs fs' (at' ++ rest) ∧ (ok = true → fs' (at' ++ rest) = some .dir) ∧
      (ok = false → ∃ k, k <+: rest ∧ ∃ c m, fs (at' ++ k) = some (.file c m)) := by
  induction rest generalizing fs at' with
  | nil =>
    simp only [mkdirs, Prod.mk.injEq] at h
    obtain ⟨rfl, rfl⟩ := h
    exact ⟨ht, fun k => Or.inl rfl, fun _ => by simpa using ha, by simp⟩
  | cons c rest ih =>
    have hr' : ∀ x ∈ rest, Name x := fun x hx => hr x (.tail _ hx)
    simp only [mkdirs] at h
    split at h
    · rename_i hd
      obtain ⟨h1, h2, h3, h4⟩ := ih hr' ht hd h
      simp only [List.append_assoc, List.singleton_append] at h2 h3 h4
      refine ⟨h1, h2, h3, fun ho => ?_⟩
      obtain ⟨k, hk, e⟩ := h4 ho
      exact ⟨c :: k, by simpa using hk, by simpa using e⟩
    · rename_i hn
      have hset : (fs.set (at' ++ [c]) .dir) (at' ++ [c]) = some .dir := by simp [FS.set]
      obtain ⟨h1, h2, h3, h4⟩ := ih hr' (ht.set_dir ha (hr c (.head _)) hn) hset h
      simp only [List.append_assoc, List.singleton_append] at h2 h3 h4
      refine ⟨h1, ?_, h3, fun ho => ?_⟩
      · intro k
        rcases h2 k with hk | ⟨hk, hk'⟩
        · simp only [FS.set] at hk
          split at hk
          · rename_i he
            subst he
            exact Or.inr ⟨hn, hk, by simp⟩
          · exact Or.inl hk
        · simp only [FS.set] at hk
          split at hk
          · cases hk
          · exact Or.inr ⟨hk, hk'⟩
      · obtain ⟨k, hk, c', m, e⟩ := h4 ho
        simp only [FS.set] at e
        split at e
        · cases e
        · exact ⟨c :: k, by simpa using hk, c', m, by simpa using e⟩
    · rename_i c' m hf
      simp only [Prod.mk.injEq] at h
      obtain ⟨rfl, rfl⟩ := h
      exact ⟨ht, fun k => Or.inl rfl, by simp, fun _ => ⟨[c], by simp, c', m, hf⟩⟩

theorem loc_ok {cwd : Loc} (hc : ∀ c ∈ cwd, Name c) {p c : Text} (h : c ∈ loc cwd p) : Name c := by
  unfold loc at h
  split at h
  · exact names_ok h
  · rcases List.mem_append.mp h with h | h
    · exact hc c h
    · exact names_ok h

theorem makedirs_spec {cwd : Loc} (hc : ∀ c ∈ cwd, Name c) {fs : FS} (ht : Tree fs) {p : Text} {ok : Bool} {fs' : FS}
    (h : makedirs cwd fs p = (ok, fs')) :
    Tree fs' ∧ Grown fs fs' (loc cwd p) ∧ (ok = true → p ≠ [] ∧ fs' (loc cwd p) = some .dir) ∧
      (ok = false → p = [] ∨ ∃ k, k <+: loc cwd p ∧ ∃ c m, fs k = some (.file c m)) := by
  unfold makedirs at h
  split at h
  · rename_i hp
    simp only [Prod.mk.injEq] at h
    obtain ⟨rfl, rfl⟩ := h
    exact ⟨ht, fun k => Or.inl rfl, by simp, fun _ => Or.inl hp⟩
  · rename_i hp
    obtain ⟨h1, h2, h3, h4⟩ := mkdirs_spec _ (fun c => loc_ok hc) ht ht.top h
    exact ⟨h1, by simpa using h2, fun ho => ⟨hp, by simpa using h3 ho⟩, fun ho => Or.inr (by simpa using h4 ho)⟩

/-! ## The destination -/

theorem Grown.file {fs fs' : FS} {l : Loc} (h : Grown fs fs' l) {k : Loc} {c m : Nat} :
    fs' k = some (.file c m) ↔ fs k = some (.file c m) := by
  rcases h k with e | ⟨e1, e2, _⟩
  · rw [e]
  · rw [e1, e2]; simp

theorem Grown.dir {fs fs' : FS} {l : Loc} (h : Grown fs fs' l) {k : Loc} (hk : fs k = some .dir) :
    fs' k = some .dir := by
  rcases h k with e | ⟨e1, _, _⟩
  · rw [e, hk]
  · rw [hk] at e1; cases e1

theorem stat_file {cwd : Loc} {fs : FS} {p : Text} {c m : Nat} :
    stat cwd fs p = some (.file c m) ↔ mustDir p = false ∧ fs (loc cwd p) = some (.file c m) := by
  unfold stat
  by_cases hp : p = []
  · subst hp
    have : mustDir [] = true := by simp [mustDir, tail]
    simp [this]
  · rw [if_neg hp]
    cases h : fs (loc cwd p) with
    | none => simp
    | some n =>
      cases n with
      | dir => simp
      | file c' m' =>
        cases hm : mustDir p <;> simp

theorem isdir_iff {cwd : Loc} {fs : FS} {p : Text} : isdir cwd fs p = true ↔ p ≠ [] ∧ fs (loc cwd p) = some .dir := by
  unfold isdir stat
  by_cases hp : p = []
  · simp [hp]
  · rw [if_neg hp]
    cases h : fs (loc cwd p) with
    | none => simp
    | some n =>
      cases n with
      | dir => simp [hp]
      | file c' m' =>
        cases hm : mustDir p <;> simp

theorem not_exists {cwd : Loc} {fs : FS} {p : Text} (h : exists' cwd fs p = false) (hm : mustDir p = false) :
    fs (loc cwd p) = none := by
  have hp : p ≠ [] := by rintro rfl; simp [mustDir, tail] at hm
  unfold exists' stat at h
  rw [if_neg hp] at h
  cases hf : fs (loc cwd p) with
  | none => rfl
  | some n => cases n <;> simp [hf, hm] at h

theorem split_snd (p : Text) : (split p).2 = tail p := rfl

theorem name_of_file {cwd : Loc} {fs : FS} {p : Text} {c m : Nat} (h : stat cwd fs p = some (.file c m)) :
    Name (tail p) := by
  have := (stat_file.mp h).1
  simp only [mustDir, Bool.or_eq_false_iff, decide_eq_false_iff_not] at this
  exact tail_name_of this.1 this.2

theorem join_tail (a : Text) {c : Text} (h : Name c) : tail (join a c) = c := by
  unfold join
  rw [isabs_name h]
  simp only [Bool.false_eq_true, if_false]
  split
  · rename_i ha
    rcases ha with rfl | ha
    · simp [tail_name h.2.2]
    · obtain ⟨d, rfl⟩ := snoc_of_last ha
      rw [List.append_assoc, List.singleton_append, tail_slash _ _ h.2.2]
  · rw [tail_slash _ _ h.2.2]

theorem join_mustDir (a : Text) {c : Text} (h : Name c) : mustDir (join a c) = false := by
  unfold mustDir
  rw [join_tail a h]
  simp [h.1, h.2.1]

theorem join_ne (a : Text) {c : Text} (h : Name c) : join a c ≠ [] := by
  intro he
  have := join_tail a h
  rw [he] at this
  exact h.1 (by rw [← this]; rfl)

theorem mustDir_of_last {p : Text} (h : p.getLast? = some '/') : mustDir p = true := by
  obtain ⟨d, rfl⟩ := snoc_of_last h
  have : tail (d ++ ['/']) = [] := tail_slash d [] (by simp)
  simp [mustDir, this]

theorem tail_ne {D : Text} (hD : D ≠ []) (hl : D.getLast? ≠ some '/') : tail D ≠ [] := by
  intro he
  have := head_append_tail D
  rw [he, List.append_nil] at this
  apply hl
  unfold head at this
  cases hr : D.reverse.dropWhile (fun c => decide (c ≠ '/')) with
  | nil => rw [hr] at this; simp at this; exact absurd this.symm (fun e => hD e.symm)
  | cons a l =>
    have ha : a = '/' := by
      have := List.head_dropWhile_not (fun c => decide (c ≠ '/')) (w := by rw [hr]; simp)
      simp only [hr, List.head_cons] at this
      simpa using this
    rw [hr] at this
    rw [← this, ha]
    simp

/-- What `place` does, for a source that is called `n`. -/
structure Placed (cwd : Loc) (fs fs1 : FS) (D n d : Text) : Prop where
  tree : Tree fs1
  grown : Grown fs fs1 (loc cwd d).dropLast
  form : d = D ∨ d = join D n
  notDir : mustDir d = false
  same : fs1 (loc cwd d) = fs (loc cwd d)
  free : fs (loc cwd d) = some .dir → d = join D n

theorem place_spec {cwd : Loc} (hc : ∀ c ∈ cwd, Name c) {root : Text} {fs : FS} (ht : Tree fs) {src dst d : Text}
    (hn : Name (tail src))
    (hdot : exists' cwd fs (addroot dst root) = true ∨ tail (addroot dst root) ≠ ['.'])
    {fs1 : FS} (h : place cwd root fs src dst = (some d, fs1)) :
    Placed cwd fs fs1 (addroot dst root) (tail src) d := by
  unfold place at h
  simp only [split_snd] at h
  generalize addroot dst root = D at *
  split at h
  · rename_i hex
    simp only [Bool.not_eq_eq_eq_not, Bool.not_true] at hex
    split at h
    · rename_i hl
      generalize hmk : makedirs cwd fs D = X at h
      obtain ⟨ok, fsx⟩ := X
      simp only [Prod.mk.injEq] at h
      obtain ⟨h, rfl⟩ := h
      cases ok with
      | false => simp at h
      | true =>
        simp only [if_true, Option.some.injEq] at h
        subst h
        obtain ⟨h1, h2, h3, _⟩ := makedirs_spec hc ht hmk
        have hlj := loc_join cwd D hn
        refine ⟨h1, by rw [hlj]; simpa using h2, Or.inr rfl, join_mustDir D hn, ?_, fun _ => rfl⟩
        rcases h2 (loc cwd (join D (tail src))) with e | ⟨_, _, e⟩
        · exact e
        · rw [hlj] at e
          have := e.length_le
          simp only [List.length_append, List.length_cons, List.length_nil] at this
          omega
    · rename_i hl
      generalize hmk : makedirs cwd fs (split D).1 = X at h
      obtain ⟨ok, fsx⟩ := X
      simp only [Prod.mk.injEq] at h
      obtain ⟨h, rfl⟩ := h
      cases ok with
      | false => simp at h
      | true =>
        simp only [if_true, Option.some.injEq] at h
        subst h
        obtain ⟨h1, h2, h3, _⟩ := makedirs_spec hc ht hmk
        have hD : D ≠ [] := by
          rintro rfl
          exact (h3 rfl).1 (by simp [split, head])
        have ht1 : tail D ≠ [] := tail_ne hD hl
        have ht2 : tail D ≠ ['.'] := by
          rcases hdot with e | e
          · rw [hex] at e; cases e
          · exact e
        have hN := tail_name_of ht1 ht2
        have hls := loc_split cwd D hN
        refine ⟨h1, by rw [hls]; simpa using h2, Or.inl rfl, by simp [mustDir, ht1, ht2], ?_,
          fun e => by rw [not_exists hex (by simp [mustDir, ht1, ht2])] at e; cases e⟩
        rcases h2 (loc cwd D) with e | ⟨_, _, e⟩
        · exact e
        · rw [hls] at e
          have := e.length_le
          simp only [List.length_append, List.length_cons, List.length_nil] at this
          omega
  · rename_i hex
    simp only [Bool.not_eq_eq_eq_not, Bool.not_true, Bool.not_eq_false] at hex
    split at h
    · simp only [Prod.mk.injEq, Option.some.injEq] at h
      obtain ⟨rfl, rfl⟩ := h
      exact ⟨ht, fun k => Or.inl rfl, Or.inr rfl, join_mustDir D hn, rfl, fun _ => rfl⟩
    · rename_i hd
      simp only [Prod.mk.injEq, Option.some.injEq] at h
      obtain ⟨rfl, rfl⟩ := h
      refine ⟨ht, fun k => Or.inl rfl, Or.inl rfl, ?_, rfl, ?_⟩
      rotate_left
      · intro e
        exfalso
        apply hd
        rw [isdir_iff]
        exact ⟨by rintro rfl; simp [exists', stat] at hex, e⟩
      unfold exists' at hex
      cases hs : stat cwd fs D with
      | none => rw [hs] at hex; cases hex
      | some n =>
        cases n with
        | dir => simp [isdir, hs] at hd
        | file c m => exact (stat_file.mp hs).1

/-! ## C85: copy -/

theorem copyOrMove_some {op : Loc → FS → Text → Text → Bool × FS} {cwd : Loc} {root : Text} {fs fs' : FS}
    {src dst d : Text} (h : copyOrMove op cwd root fs src dst = (some d, fs')) :
    ∃ fs1, place cwd root fs src dst = (some d, fs1) ∧ op cwd fs1 src d = (true, fs') := by
  unfold copyOrMove at h
  split at h
  · cases h
  · rename_i d' fs1 hp
    split at h
    · rename_i ho
      simp only [Prod.mk.injEq, Option.some.injEq] at h
      obtain ⟨rfl, rfl⟩ := h
      exact ⟨fs1, hp, ho⟩
    · cases h

theorem copyFile_true {cwd : Loc} {fs fs' : FS} {src d : Text} (hd : isdir cwd fs d = false)
    (h : copyFile cwd fs src d = (true, fs')) :
    ∃ c m, stat cwd fs src = some (.file c m) ∧ loc cwd src ≠ loc cwd d ∧ writable cwd fs d = true ∧
      fs' = fs.set (loc cwd d) (.file c m) := by
  unfold copyFile at h
  rw [hd] at h
  simp only [Bool.false_eq_true, if_false] at h
  split at h
  · rename_i c m hs
    split at h
    · cases h
    · rename_i hne
      split at h
      · rename_i hw
        simp only [Prod.mk.injEq, true_and] at h
        exact ⟨c, m, hs, hne, hw, h.symm⟩
      · cases h
  · cases h

theorem copyFile_src {cwd : Loc} {fs fs' : FS} {src d : Text} (h : copyFile cwd fs src d = (true, fs')) :
    ∃ c m, stat cwd fs src = some (.file c m) := by
  unfold copyFile at h
  simp only at h
  split at h
  · rename_i c m hs
    exact ⟨c, m, hs⟩
  · cases h

theorem place_grown {cwd : Loc} (hc : ∀ c ∈ cwd, Name c) {root : Text} {fs : FS} (ht : Tree fs) {src dst : Text}
    {r : Option Text} {fs1 : FS} (h : place cwd root fs src dst = (r, fs1)) : ∃ l, Grown fs fs1 l := by
  unfold place at h
  simp only at h
  split at h
  · split at h
    · generalize hmk : makedirs cwd fs (addroot dst root) = X at h
      obtain ⟨ok, fsx⟩ := X
      simp only [Prod.mk.injEq] at h
      rw [← h.2]
      exact ⟨_, (makedirs_spec hc ht hmk).2.1⟩
    · generalize hmk : makedirs cwd fs (split (addroot dst root)).1 = X at h
      obtain ⟨ok, fsx⟩ := X
      simp only [Prod.mk.injEq] at h
      rw [← h.2]
      exact ⟨_, (makedirs_spec hc ht hmk).2.1⟩
  · split at h
    · simp only [Prod.mk.injEq] at h
      rw [← h.2]
      exact ⟨[], fun k => Or.inl rfl⟩
    · simp only [Prod.mk.injEq] at h
      rw [← h.2]
      exact ⟨[], fun k => Or.inl rfl⟩

theorem Grown.stat {cwd : Loc} {fs fs' : FS} {l : Loc} (h : Grown fs fs' l) {p : Text} {c m : Nat} :
    stat cwd fs' p = some (.file c m) ↔ stat cwd fs p = some (.file c m) := by
  rw [stat_file, stat_file, h.file]

/-- **C85**: if `copy(src, dst)` returns `d`, then `d` is `dst` put below the build directory, or the name of `src` in
there; `d` is a file with the content and the mode of `src`; `src` is what it was; and nothing else is changed, except
that directories on the way to `d` are made.

Partial: nothing is said if there is a directory at `dst/name`, or if `dst` ends in a dot and does not exist
(`C85_dir_violated`). -/
theorem C85_copy_partial {cwd : Loc} {root src dst d : Text} {fs fs' : FS} (ht : Tree fs) (hcwd : fs cwd = some .dir)
    (hdot : exists' cwd fs (addroot dst root) = true ∨ tail (addroot dst root) ≠ ['.'])
    (hdir : stat cwd fs (join (addroot dst root) (split src).2) ≠ some .dir)
    (h : copy cwd root fs src dst = (some d, fs')) :
    (d = addroot dst root ∨ d = join (addroot dst root) (split src).2) ∧
    (∃ c m, stat cwd fs src = some (.file c m) ∧ stat cwd fs' src = some (.file c m) ∧
      stat cwd fs' d = some (.file c m)) ∧
    (∀ l, l ≠ loc cwd d → fs' l = fs l ∨ (fs l = none ∧ fs' l = some .dir ∧ l <+: loc cwd d)) := by
  have hc : ∀ c ∈ cwd, Name c := fun c => ht.names hcwd
  obtain ⟨fs1, hp, ho⟩ := copyOrMove_some h
  obtain ⟨l0, hg0⟩ := place_grown hc ht hp
  obtain ⟨c0, m0, hs0⟩ := copyFile_src ho
  have hn := name_of_file (hg0.stat.mp hs0)
  obtain ⟨_, hg, hform, hnd, hsame, hfree⟩ := place_spec hc ht hn hdot hp
  have hid : isdir cwd fs1 d = false := by
    cases hi : isdir cwd fs1 d with
    | false => rfl
    | true =>
      exfalso
      rw [isdir_iff, hsame] at hi
      have := hfree hi.2
      apply hdir
      rw [split_snd, ← this]
      have h2 : isdir cwd fs d = true := isdir_iff.mpr hi
      simpa [isdir] using h2
  obtain ⟨c, m, hs, hne, _, rfl⟩ := copyFile_true hid ho
  refine ⟨hform, ⟨c, m, hg.stat.mp hs, ?_, ?_⟩, ?_⟩
  · obtain ⟨h1, h2⟩ := stat_file.mp hs
    exact stat_file.mpr ⟨h1, by simp [FS.set, hne, h2]⟩
  · exact stat_file.mpr ⟨hnd, by simp [FS.set]⟩
  · intro l hl
    simp only [FS.set, if_neg hl]
    rcases hg l with e | ⟨e1, e2, e3⟩
    · exact Or.inl e
    · exact Or.inr ⟨e1, e2, e3.trans (List.dropLast_prefix _)⟩

theorem Tree.parent {fs : FS} (ht : Tree fs) {l : Loc} {n : Node} (hl : fs l = some n) (hn : n ≠ .dir) :
    fs l.dropLast = some .dir := by
  rcases List.eq_nil_or_concat l with rfl | ⟨k, c, rfl⟩
  · rw [ht.top] at hl
    cases hl
    exact absurd rfl hn
  · rw [List.concat_eq_append] at hl ⊢
    simpa using ht.up hl

/-- where the directory of a destination is after `place` -/
theorem place_ok {cwd : Loc} {root : Text} {fs : FS} (ht : Tree fs) (hcwd : fs cwd = some .dir)
    {src dst : Text} (hn : Name (tail src))
    (hdot : exists' cwd fs (addroot dst root) = true ∨ tail (addroot dst root) ≠ ['.'])
    (hpar : (split (addroot dst root)).1 ≠ [])
    (hfile : ∀ k, k <+: loc cwd (addroot dst root) → ∀ c m, fs k = some (.file c m) →
      k = loc cwd (addroot dst root) ∧ mustDir (addroot dst root) = false) :
    ∃ d fs1, place cwd root fs src dst = (some d, fs1) ∧ fs1 (loc cwd d).dropLast = some .dir := by
  have hc : ∀ c ∈ cwd, Name c := fun c => ht.names hcwd
  unfold place
  simp only [split_snd]
  generalize addroot dst root = D at *
  cases hex : exists' cwd fs D with
  | false =>
    simp only [Bool.not_false, if_true]
    split
    · rename_i hl
      generalize hmk : makedirs cwd fs D = X
      obtain ⟨ok, fsx⟩ := X
      obtain ⟨_, _, h3, h4⟩ := makedirs_spec hc ht hmk
      cases ok with
      | false =>
        exfalso
        rcases h4 rfl with rfl | ⟨k, hk, c, m, hf⟩
        · simp at hl
        · have := (hfile k hk c m hf).2
          rw [mustDir_of_last hl] at this
          cases this
      | true => exact ⟨_, _, rfl, by rw [loc_join cwd D hn]; simpa using (h3 rfl).2⟩
    · rename_i hl
      generalize hmk : makedirs cwd fs (split D).1 = X
      obtain ⟨ok, fsx⟩ := X
      obtain ⟨_, _, h3, h4⟩ := makedirs_spec hc ht hmk
      have hD : D ≠ [] := by
        rintro rfl
        exact hpar rfl
      have ht2 : tail D ≠ ['.'] := by
        rcases hdot with e | e
        · rw [hex] at e; cases e
        · exact e
      have hN := tail_name_of (tail_ne hD hl) ht2
      have hls := loc_split cwd D hN
      cases ok with
      | false =>
        exfalso
        rcases h4 rfl with e | ⟨k, hk, c, m, hf⟩
        · exact hpar e
        · have := (hfile k (hk.trans (by rw [hls]; exact List.prefix_append _ _)) c m hf).1
          rw [this, hls] at hk
          have := hk.length_le
          simp only [List.length_append, List.length_cons, List.length_nil] at this
          omega
      | true => exact ⟨_, _, rfl, by rw [hls]; simpa using (h3 rfl).2⟩
  | true =>
    simp only [Bool.not_true, Bool.false_eq_true, if_false]
    split
    · rename_i hd
      exact ⟨_, _, rfl, by rw [loc_join cwd D hn]; simpa using (isdir_iff.mp hd).2⟩
    · rename_i hd
      refine ⟨_, _, rfl, ?_⟩
      cases hs : stat cwd fs D with
      | none => simp [exists', hs] at hex
      | some n =>
        cases n with
        | dir => simp [isdir, hs] at hd
        | file c m => exact ht.parent (stat_file.mp hs).2 (by simp)

/-- **C85**, success: a file can be copied if no file is where a directory is needed, there is no directory at the
destination, and the destination is not the source itself.

Partial: the destination, once put below the build directory, must have a directory part (`C85_root_violated`). -/
theorem C85_copy_succeeds_partial {cwd : Loc} {root src dst : Text} {fs : FS} {c m : Nat} (ht : Tree fs)
    (hcwd : fs cwd = some .dir) (hsrc : stat cwd fs src = some (.file c m))
    (hdot : exists' cwd fs (addroot dst root) = true ∨ tail (addroot dst root) ≠ ['.'])
    (hdir : stat cwd fs (join (addroot dst root) (split src).2) ≠ some .dir)
    (hpar : (split (addroot dst root)).1 ≠ [])
    (hfile : ∀ k, k <+: loc cwd (addroot dst root) → ∀ c m, fs k = some (.file c m) →
      k = loc cwd (addroot dst root) ∧ mustDir (addroot dst root) = false)
    (hself : loc cwd src ≠ loc cwd (addroot dst root) ∧
      loc cwd src ≠ loc cwd (join (addroot dst root) (split src).2)) :
    ∃ d fs', copy cwd root fs src dst = (some d, fs') := by
  have hc : ∀ c ∈ cwd, Name c := fun c => ht.names hcwd
  have hn := name_of_file hsrc
  obtain ⟨d, fs1, hp, hup⟩ := place_ok ht hcwd hn hdot hpar hfile
  obtain ⟨_, hg, hform, hnd, hsame, hfree⟩ := place_spec hc ht hn hdot hp
  have hdn : d ≠ [] := by
    rintro rfl
    simp [mustDir, tail] at hnd
  have hne : fs1 (loc cwd d) ≠ some .dir := by
    intro e
    rw [hsame] at e
    have := hfree e
    apply hdir
    rw [split_snd, ← this]
    have h2 : isdir cwd fs d = true := isdir_iff.mpr ⟨hdn, e⟩
    simpa [isdir] using h2
  have hid : isdir cwd fs1 d = false := by
    cases hi : isdir cwd fs1 d with
    | false => rfl
    | true => exact absurd (isdir_iff.mp hi).2 hne
  have hl : loc cwd src ≠ loc cwd d := by
    rcases hform with rfl | rfl
    · exact hself.1
    · exact hself.2
  refine ⟨d, fs1.set (loc cwd d) (.file c m), ?_⟩
  unfold copy copyOrMove
  rw [hp]
  simp only
  have : copyFile cwd fs1 src d = (true, fs1.set (loc cwd d) (.file c m)) := by
    unfold copyFile
    rw [hid]
    simp only [Bool.false_eq_true, if_false]
    rw [hg.stat.mpr hsrc]
    simp only
    rw [if_neg hl, if_pos]
    simp [writable, hdn, hnd, hne, hup]
  rw [this]

/-! ## C86: move -/

theorem moveFile_true {cwd : Loc} {fs fs' : FS} {src d : Text} (hd : isdir cwd fs d = false)
    (h : moveFile cwd fs src d = (true, fs')) :
    ∃ c m, stat cwd fs src = some (.file c m) ∧
      fs' = if loc cwd src = loc cwd d then fs
        else (fs.erase (loc cwd src)).set (loc cwd d) (.file c m) := by
  unfold moveFile at h
  rw [hd] at h
  simp only [Bool.false_eq_true, if_false, Bool.false_and] at h
  split at h
  · rename_i c m hs
    split at h
    · split at h
      · rename_i he
        simp only [Prod.mk.injEq, true_and] at h
        exact ⟨c, m, hs, by rw [if_pos he, h]⟩
      · rename_i he
        simp only [Prod.mk.injEq, true_and] at h
        exact ⟨c, m, hs, by rw [if_neg he, h]⟩
    · cases h
  · cases h

theorem moveFile_src {cwd : Loc} {fs fs' : FS} {src d : Text} (h : moveFile cwd fs src d = (true, fs')) :
    ∃ c m, stat cwd fs src = some (.file c m) := by
  unfold moveFile at h
  generalize (if isdir cwd fs d then join d (split src).2 else d) = d' at h
  simp only at h
  split at h
  · cases h
  · split at h
    · rename_i c m hs
      exact ⟨c, m, hs⟩
    · cases h

/-- **C86**: if `move(src, dst)` returns `d`, then `d` is `dst` put below the build directory, or the name of `src` in
there; `d` is a file with the content and the mode that `src` had; `src` is gone, unless it is `d` itself; and nothing else is
changed, except that directories on the way to `d` are made.

Partial: as for `copy`; and it can be done only once (`C86_repeat_violated`). -/
theorem C86_move_partial {cwd : Loc} {root src dst d : Text} {fs fs' : FS} (ht : Tree fs) (hcwd : fs cwd = some .dir)
    (hdot : exists' cwd fs (addroot dst root) = true ∨ tail (addroot dst root) ≠ ['.'])
    (hdir : stat cwd fs (join (addroot dst root) (split src).2) ≠ some .dir)
    (h : move cwd root fs src dst = (some d, fs')) :
    (d = addroot dst root ∨ d = join (addroot dst root) (split src).2) ∧
    (∃ c m, stat cwd fs src = some (.file c m) ∧ stat cwd fs' d = some (.file c m)) ∧
    (loc cwd src ≠ loc cwd d → stat cwd fs' src = none) ∧
    (∀ l, l ≠ loc cwd d → l ≠ loc cwd src →
      fs' l = fs l ∨ (fs l = none ∧ fs' l = some .dir ∧ l <+: loc cwd d)) := by
  have hc : ∀ c ∈ cwd, Name c := fun c => ht.names hcwd
  obtain ⟨fs1, hp, ho⟩ := copyOrMove_some h
  obtain ⟨l0, hg0⟩ := place_grown hc ht hp
  obtain ⟨c0, m0, hs0⟩ := moveFile_src ho
  have hn := name_of_file (hg0.stat.mp hs0)
  obtain ⟨_, hg, hform, hnd, hsame, hfree⟩ := place_spec hc ht hn hdot hp
  have hid : isdir cwd fs1 d = false := by
    cases hi : isdir cwd fs1 d with
    | false => rfl
    | true =>
      exfalso
      rw [isdir_iff, hsame] at hi
      have := hfree hi.2
      apply hdir
      rw [split_snd, ← this]
      have h2 : isdir cwd fs d = true := isdir_iff.mpr hi
      simpa [isdir] using h2
  obtain ⟨c, m, hs, rfl⟩ := moveFile_true hid ho
  obtain ⟨h1, h2⟩ := stat_file.mp hs
  refine ⟨hform, ⟨c, m, hg.stat.mp hs, ?_⟩, ?_, ?_⟩
  · refine stat_file.mpr ⟨hnd, ?_⟩
    split
    · rename_i he
      rw [← he]; exact h2
    · simp [FS.set]
  · intro hne
    rw [if_neg hne]
    unfold stat
    split
    · rfl
    · simp [FS.set, FS.erase, hne]
  · intro l hl hl2
    have : (if loc cwd src = loc cwd d then fs1
        else (fs1.erase (loc cwd src)).set (loc cwd d) (.file c m)) l = fs1 l := by
      split
      · rfl
      · simp [FS.set, FS.erase, hl, hl2]
    rw [this]
    rcases hg l with e | ⟨e1, e2, e3⟩
    · exact Or.inl e
    · exact Or.inr ⟨e1, e2, e3.trans (List.dropLast_prefix _)⟩

/-- **C86** is false as far as builds are concerned: `move` is cached, and its source is a declared source.  Once it is
moved, the same call in a later build raises, whatever is in the database; so the second build of any script
that moves a file fails, unless something makes the source again.

`b` are the arguments of the call, `name` the name of the function, and `src` is declared (`src:fbuild.db.SRC`). -/
theorem C86_repeat_violated {cwd : Loc} {root src dst d : Text} {fs fs' : FS} (ht : Tree fs) (hcwd : fs cwd = some .dir)
    (hdot : exists' cwd fs (addroot dst root) = true ∨ tail (addroot dst root) ≠ ['.'])
    (hdir : stat cwd fs (join (addroot dst root) (split src).2) ≠ some .dir)
    (h : move cwd root fs src dst = (some d, fs')) (hne : loc cwd src ≠ loc cwd d)
    {B R : Type} [DecidableEq B] (sg : DB.Sig B R) (s : DB.Sys B R) (id : Nat) (name : DB.FunName) (b : B) {code : DB.Digest}
    (hcode : s.env.funDigest name = some code) (hsrc : String.ofList src ∈ sg.srcs name code b)
    (hfs : ∀ p : Text, s.env.fs (String.ofList p) = none ↔ exists' cwd fs' p = false) :
    ∃ e, (DB.step sg s (.prepare id name b)).1 = .raised e := by
  have hgone := (C86_move_partial ht hcwd hdot hdir h).2.2.1 hne
  have : s.env.fs (String.ofList src) = none := (hfs src).mpr (by simp [exists', hgone])
  obtain ⟨e, he, _⟩ := DB.C12_missing_source s id name b hcode hsrc this
  exact ⟨e, he⟩

/-! ## Cases -/

namespace Ex

/-- a file system given by a list, besides the top directory -/
def tree (es : List (Loc × Node)) : FS := fun l => if l = [] then some .dir else es.lookup l

def good (es : List (Loc × Node)) : Bool :=
  es.all fun e => tree es e.1.dropLast == some .dir && e.1.all fun c => c ≠ [] && c ≠ ['.'] && !c.contains '/'

theorem lookup_mem {es : List (Loc × Node)} {l : Loc} {n : Node} (h : es.lookup l = some n) : (l, n) ∈ es := by
  induction es with
  | nil => simp at h
  | cons e es ih =>
    obtain ⟨k, m⟩ := e
    rw [List.lookup_cons] at h
    split at h
    · rename_i he
      simp only [Option.some.injEq] at h
      rw [eq_of_beq he, h]
      simp
    · exact List.mem_cons_of_mem _ (ih h)

theorem tree_ok {es : List (Loc × Node)} (h : good es = true) : Tree (tree es) := by
  have hg : ∀ {l n}, es.lookup l = some n → tree es l.dropLast = some .dir ∧ ∀ c ∈ l, Name c := by
    intro l n hl
    have := List.all_eq_true.mp h _ (lookup_mem hl)
    simp only [Bool.and_eq_true, beq_iff_eq, List.all_eq_true, decide_eq_true_eq, Bool.not_eq_eq_eq_not, Bool.not_true] at this
    refine ⟨this.1, fun c hc => ⟨(this.2 c hc).1.1, (this.2 c hc).1.2, fun hs => ?_⟩⟩
    have h3 := (this.2 c hc).2
    rw [← Bool.not_eq_true, List.contains_iff_mem] at h3
    exact h3 hs
  refine ⟨rfl, ?_, ?_⟩
  · intro l c n hl
    unfold tree at hl
    rw [if_neg (by simp)] at hl
    simpa using (hg hl).1
  · intro l n c hl hc
    unfold tree at hl
    split at hl
    · rename_i he; subst he; simp at hc
    · exact (hg hl).2 c hc

/-- a file `a` and the build directory in the working directory `w`; there are a directory `b/a` and a directory `c`
in the build directory -/
def es : List (Loc × Node) :=
  [(["w".toList], .dir), (["w".toList, "a".toList], .file 7 420), (["w".toList, "build".toList], .dir),
   (["w".toList, "build".toList, "b".toList], .dir), (["w".toList, "build".toList, "b".toList, "a".toList], .dir),
   (["w".toList, "build".toList, "c".toList], .dir)]

def fs : FS := tree es

def cwd : Loc := ["w".toList]

theorem fs_ok : Tree fs := tree_ok (by decide)

def did (r : Option Text × FS) : Option String := r.1.map String.ofList

set_option maxRecDepth 4000 in
/-- hypotheses of C85 met: to a new place, into a directory, to a new directory -/
example : did (copy cwd "build".toList fs "a".toList "x/y".toList) = some "build/x/y" ∧
    did (copy cwd "build".toList fs "a".toList "c".toList) = some "build/c/a" ∧
    did (copy cwd "build".toList fs "a".toList "n/".toList) = some "build/n/a" := by decide +kernel

set_option maxRecDepth 4000 in
example : Tree fs ∧ fs cwd = some .dir ∧ tail (addroot "x/y".toList "build".toList) ≠ ['.'] ∧
    stat cwd fs (join (addroot "x/y".toList "build".toList) (split "a".toList).2) ≠ some .dir ∧
    did (copy cwd "build".toList fs "a".toList "x/y".toList) = some "build/x/y" ∧
    (copy cwd "build".toList fs "a".toList "x/y".toList).2 ["w".toList, "build".toList, "x".toList, "y".toList] =
      some (.file 7 420) := by
  refine ⟨fs_ok, by decide, by decide, by decide, ?_, ?_⟩ <;> decide +kernel

theorem fs_file {l : Loc} {c m : Nat} (h : fs l = some (.file c m)) : l = ["w".toList, "a".toList] := by
  unfold fs tree at h
  split at h
  · cases h
  · have := lookup_mem h
    simp [es] at this
    simp [this]

set_option maxRecDepth 4000 in
/-- hypotheses of the success met -/
example : stat cwd fs "a".toList = some (.file 7 420) ∧ (split (addroot "x/y".toList "build".toList)).1 ≠ [] ∧
    (∀ k, k <+: loc cwd (addroot "x/y".toList "build".toList) → ∀ c m, fs k = some (.file c m) →
      k = loc cwd (addroot "x/y".toList "build".toList) ∧ mustDir (addroot "x/y".toList "build".toList) = false) ∧
    loc cwd "a".toList ≠ loc cwd (addroot "x/y".toList "build".toList) ∧
    loc cwd "a".toList ≠ loc cwd (join (addroot "x/y".toList "build".toList) (split "a".toList).2) := by
  refine ⟨by decide, by decide, ?_, by decide, by decide⟩
  intro k hk c m hf
  have := fs_file hf
  subst this
  revert hk
  decide

set_option maxRecDepth 4000 in
/-- hypotheses of C86 met -/
example : did (move cwd "build".toList fs "a".toList "c".toList) = some "build/c/a" ∧
    stat cwd fs (join (addroot "c".toList "build".toList) (split "a".toList).2) ≠ some .dir ∧
    exists' cwd fs (addroot "c".toList "build".toList) = true ∧
    loc cwd "a".toList ≠ loc cwd "build/c/a".toList ∧
    exists' cwd (move cwd "build".toList fs "a".toList "c".toList).2 "a".toList = false := by
  refine ⟨?_, ?_, ?_, ?_, ?_⟩ <;> decide +kernel

/-- hypotheses of `C86_repeat_violated` met: a database that sees the file system after `fs'`, and a function `move` whose
first argument is a declared source -/
example (fs' : FS) : ∃ (sg : DB.Sig Text Nat) (s : DB.Sys Text Nat) (code : DB.Digest),
    s.env.funDigest "move" = some code ∧ String.ofList "a".toList ∈ sg.srcs "move" code "a".toList ∧
    ∀ p : Text, s.env.fs (String.ofList p) = none ↔ exists' cwd fs' p = false := by
  refine ⟨⟨fun _ _ b => [String.ofList b], fun _ _ _ => [], fun _ _ _ => []⟩,
    .init { fs := fun x => if exists' cwd fs' x.toList then some ⟨0, some ""⟩ else none, now := 0,
            funDigest := fun _ => some "F", md5 := id, recursionLimit := 10 }, "F", rfl, by simp, ?_⟩
  intro p
  simp [DB.Sys.init]

end Ex

set_option maxRecDepth 4000 in
/-- **C85** is false where a directory is at the destination: the file goes into it, but the path of the directory is
returned, and recorded as the file that was made. -/
theorem C85_dir_violated :
    ∃ (fs : FS) (cwd : Loc) (root src dst d : Text), Tree fs ∧ fs cwd = some .dir ∧
      (copy cwd root fs src dst).1 = some d ∧ stat cwd (copy cwd root fs src dst).2 d = some .dir :=
  ⟨Ex.fs, Ex.cwd, "build".toList, "a".toList, "b".toList, "build/b/a".toList, Ex.fs_ok, by decide, by decide +kernel,
    by decide +kernel⟩

set_option maxRecDepth 4000 in
/-- **C85** is false for a destination whose text starts with that of the build directory: a file cannot be copied to
`buildfoo`, although there is nothing in its way. -/
theorem C85_root_violated :
    ∃ (fs : FS) (cwd : Loc) (root src dst : Text), Tree fs ∧ fs cwd = some .dir ∧
      (stat cwd fs src).isSome ∧ stat cwd fs dst = none ∧ tail dst = dst ∧ dst ≠ [] ∧
      (copy cwd root fs src dst).1 = none :=
  ⟨Ex.fs, Ex.cwd, "build".toList, "a".toList, "buildfoo".toList, Ex.fs_ok, by decide, by decide +kernel,
    by decide +kernel, by decide, by decide, by decide +kernel⟩

end Verif.FileOps
