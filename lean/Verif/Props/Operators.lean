import Verif.Path.Operators

/-!
# C148: paths that are put together and taken apart lead where they should
-/

namespace Verif.Path.Operators

/-! ## What a path leads to -/

/-- the text between the slashes -/
def pieces : Text → List Text
  | [] => [[]]
  | c :: s => if c = '/' then [] :: pieces s else match pieces s with
    | l :: ls => (c :: l) :: ls
    | [] => [[c]]

/-- the names in a path, `//` is `/` -/
def steps (p : Text) : List Text := (pieces p).filter fun l => decide (l ≠ [])

/-- go step by step; `go d n` is the file `n` in the directory `d`, whatever the file system says it is (`..`, links) -/
def follow {D : Type} (go : D → Text → Option D) (d : D) : List Text → Option D
  | [] => some d
  | n :: ns => (go d n).bind fun e => follow go e ns

/-- the file that `p` leads to for a process in the directory `cwd` -/
def leads {D : Type} (go : D → Text → Option D) (root cwd : D) (p : Text) : Option D :=
  follow go (if p.head? = some '/' then root else cwd) (steps p)

/-! ## Lemmas -/

theorem pieces_ne (s : Text) : pieces s ≠ [] := by
  cases s with
  | nil => simp [pieces]
  | cons c s => simp only [pieces]; split <;> simp; split <;> simp

theorem pieces_slash (a b : Text) : pieces (a ++ '/' :: b) = pieces a ++ pieces b := by
  induction a with
  | nil => simp [pieces]
  | cons c a ih =>
    simp only [List.cons_append, pieces, ih]
    split
    · simp
    · cases h : pieces a with
      | nil => exact absurd h (pieces_ne a)
      | cons l ls => simp

theorem steps_slash (a b : Text) : steps (a ++ '/' :: b) = steps a ++ steps b := by
  simp [steps, pieces_slash]

theorem steps_nil : steps [] = [] := rfl

theorem steps_cons (b : Text) : steps ('/' :: b) = steps b := by
  have := steps_slash [] b
  simpa [steps_nil] using this

theorem follow_append {D : Type} (go : D → Text → Option D) (a b : List Text) : ∀ d,
    follow go d (a ++ b) = (follow go d a).bind fun e => follow go e b := by
  induction a with
  | nil => intro d; rfl
  | cons n a ih =>
    intro d
    simp only [List.cons_append, follow]
    cases go d n with
    | none => rfl
    | some e => exact ih e

theorem snoc_of_last {a : Text} (h : a.getLast? = some '/') : ∃ a', a = a' ++ ['/'] := by
  rcases List.getLast?_eq_some_iff.1 h with ⟨a', rfl⟩
  exact ⟨a', rfl⟩

theorem head_append {a : Text} (h : a ≠ []) (b : Text) : (a ++ b).head? = a.head? := by
  cases a with
  | nil => exact absurd rfl h
  | cons c a => rfl

theorem new_one (a : Text) : new [a] = a := by
  simp [new, Posix.join]

theorem new_two (a b : Text) : new [a, b] = Posix.join a b := by
  have : Posix.join [] a = a := by simp [Posix.join]
  simp [new, this]

theorem join_leads {D : Type} (go : D → Text → Option D) (root cwd : D) (a b : Text) :
    leads go root cwd (Posix.join a b) =
      if b.head? = some '/' then leads go root cwd b else (leads go root cwd a).bind fun d => leads go root d b := by
  unfold Posix.join
  by_cases hb : b.head? = some '/'
  · simp [Posix.isabs, hb]
  · rw [if_neg (by simpa [Posix.isabs] using hb), if_neg hb]
    by_cases ha : a = []
    · subst ha
      simp [leads, steps_nil, follow]
    · by_cases hl : a.getLast? = some '/'
      · rw [if_pos (.inr hl)]
        obtain ⟨a', rfl⟩ := snoc_of_last hl
        simp only [leads, head_append ha, hb, ↓reduceIte]
        rw [List.append_assoc, List.singleton_append, steps_slash, steps_slash, steps_nil, List.append_nil, follow_append]
      · rw [if_neg (by simp [ha, hl])]
        simp only [leads, head_append ha, hb, ↓reduceIte]
        rw [steps_slash, follow_append]

/-- the directory part, with or without its last slashes -/
theorem rstrip_spec (h : Text) : ∃ n, h = Posix.rstrip h ++ List.replicate n '/' := by
  refine ⟨(h.reverse.takeWhile (fun c => c = '/')).length, ?_⟩
  have : h.reverse.takeWhile (fun c => decide (c = '/')) =
      List.replicate (h.reverse.takeWhile (fun c => decide (c = '/'))).length '/' := by
    apply List.eq_replicate_iff.2
    refine ⟨rfl, ?_⟩
    intro c hc
    have hall : ∀ l : Text, ∀ c ∈ l.takeWhile (fun c => decide (c = '/')), c = '/' := by
      intro l
      induction l with
      | nil => simp
      | cons d l ih =>
        intro c hc
        rw [List.takeWhile_cons] at hc
        split at hc
        · rename_i hd
          rcases List.mem_cons.1 hc with rfl | hc
          · simpa using hd
          · exact ih c hc
        · cases hc
    exact hall _ c hc
  have h2 : h = (h.reverse.takeWhile (fun c => decide (c = '/')) ++ h.reverse.dropWhile (fun c => decide (c = '/'))).reverse := by
    rw [List.takeWhile_append_dropWhile, List.reverse_reverse]
  rw [List.reverse_append] at h2
  conv => lhs; rw [h2]
  unfold Posix.rstrip
  congr 1
  rw [this, List.reverse_replicate]
  simp

theorem steps_replicate (a : Text) : ∀ n, steps (a ++ List.replicate n '/') = steps a
  | 0 => by simp
  | n + 1 => by
    have : a ++ List.replicate (n + 1) '/' = (a ++ List.replicate n '/') ++ '/' :: [] := by
      rw [List.replicate_succ', List.append_assoc]
    rw [this, steps_slash, steps_replicate a n, steps_nil, List.append_nil]

theorem dir_leads {D : Type} (go : D → Text → Option D) (root cwd : D) (h : Text) :
    leads go root cwd (if h.all (fun c => c = '/') then h else Posix.rstrip h) = leads go root cwd h := by
  split
  · rfl
  · rename_i hn
    obtain ⟨n, hs⟩ := rstrip_spec h
    have hne : Posix.rstrip h ≠ [] := by
      intro he
      rw [he, List.nil_append] at hs
      rw [hs] at hn
      simp at hn
    have h1 : steps (Posix.rstrip h) = steps h := by
      conv => rhs; rw [hs]
      rw [steps_replicate]
    have h2 : (Posix.rstrip h).head? = h.head? := by
      conv => rhs; rw [hs]
      rw [head_append hne]
    simp only [leads, h1, h2]

theorem head_shape (p : Text) : Posix.head p = [] ∨ (Posix.head p).getLast? = some '/' := by
  unfold Posix.head
  have : ∀ l : Text, l.dropWhile (fun c => decide (c ≠ '/')) = [] ∨ (l.dropWhile (fun c => decide (c ≠ '/'))).head? = some '/' := by
    intro l
    induction l with
    | nil => simp
    | cons c l ih =>
      rw [List.dropWhile_cons]
      split
      · exact ih
      · rename_i h
        simp at h
        simp [h]
  rcases this p.reverse with h | h
  · left; rw [h]; rfl
  · right; rw [List.getLast?_reverse]; exact h

theorem head_join (p : Text) : Posix.join (Posix.head p) (Posix.tail p) = p := by
  have ht : Posix.isabs (Posix.tail p) = false := by
    have := Posix.tail_noSlash p
    cases h : Posix.tail p with
    | nil => rfl
    | cons c l =>
      rw [h] at this
      simp only [List.mem_cons, not_or] at this
      simpa [Posix.isabs] using fun e => this.1 e.symm
  unfold Posix.join
  rw [if_neg (by simp [ht]), if_pos (head_shape p), Posix.head_append_tail]

theorem noslash_head {n : Text} (h : '/' ∉ n) : n.head? ≠ some '/' := by
  cases n with
  | nil => simp
  | cons c n =>
    simp only [List.mem_cons, not_or] at h
    simpa using fun e => h.1 e.symm

/-! ## The claims -/

/-- **C148** (`/`): `a / b` leads to what `b` leads to from `a`; and to what `b` leads to by itself if `b` begins with a slash. -/
theorem C148_div {D : Type} (go : D → Text → Option D) (root cwd : D) (a b : Text) :
    leads go root cwd (div a b) =
      (if b.head? = some '/' then leads go root cwd b else (leads go root cwd a).bind fun d => leads go root d b) ∧
    rdiv a b = div a b := by
  refine ⟨?_, rfl⟩
  rw [div, new_two]
  exact join_leads go root cwd a b

/-- **C148** (`parent`, `name`): the name of a path has no slash, the name in the parent is the file itself, and `split` gives both.
-/
theorem C148_parent {D : Type} (go : D → Text → Option D) (root cwd : D) (p : Text) :
    leads go root cwd (div (parent p) (name p)) = leads go root cwd p ∧ '/' ∉ name p ∧ split p = (parent p, name p) := by
  refine ⟨?_, ?_, rfl⟩
  · have ht : ¬ (Posix.tail p).head? = some '/' := noslash_head (Posix.tail_noSlash p)
    rw [(C148_div go root cwd _ _).1]
    simp only [name, parent, new_one, Posix.split, ht, ↓reduceIte, dir_leads]
    conv => rhs; rw [← head_join p]
    rw [join_leads, if_neg ht]
  · rw [name, new_one]
    exact Posix.tail_noSlash p

/-- **C148** (`parent`, `name` of `/`): of a directory and a name in it one gets the directory and the name back. -/
theorem C148_back {D : Type} (go : D → Text → Option D) (root cwd : D) (d n : Text) (hn : '/' ∉ n) :
    name (div d n) = n ∧ leads go root cwd (parent (div d n)) = leads go root cwd d := by
  have habs : Posix.isabs n = false := by simpa [Posix.isabs] using noslash_head hn
  rw [div, new_two, name, parent, new_one, new_one]
  unfold Posix.join
  rw [if_neg (by simp [habs])]
  by_cases hd : d = []
  · subst hd
    simp only [true_or, ↓reduceIte, List.nil_append, Posix.split, Posix.tail_name hn, Posix.head_name hn, true_and]
    rfl
  · by_cases hl : d.getLast? = some '/'
    · rw [if_pos (.inr hl)]
      obtain ⟨d', rfl⟩ := snoc_of_last hl
      rw [List.append_assoc, List.singleton_append]
      simp only [Posix.split, Posix.tail_slash d' n hn, Posix.head_slash d' n hn, dir_leads, true_and]
    · rw [if_neg (by simp [hd, hl])]
      simp only [Posix.split, Posix.tail_slash d n hn, Posix.head_slash d n hn, dir_leads, true_and]
      simp only [leads, head_append hd]
      rw [show d ++ ['/'] = d ++ '/' :: [] from rfl, steps_slash, steps_nil, List.append_nil]

/-- **C148** (`splitext`): nothing is lost; the extension is empty or a dot and what has no dot and no slash; and what is in front of
it is not empty and not only dots. -/
theorem C148_ext (p : Text) : (splitext p).1 ++ (splitext p).2 = p ∧
    ((splitext p).2 = [] ∨ (∃ e, (splitext p).2 = '.' :: e ∧ '.' ∉ e ∧ '/' ∉ e) ∧ ∃ c ∈ name (splitext p).1, c ≠ '.') := by
  simp only [splitext, new_one, Posix.splitext]
  split
  · rename_i hany
    have hspec : ∀ l : Text, l.dropWhile (fun c => decide (c ≠ '.')) = [] ∨
        ∃ r, l.dropWhile (fun c => decide (c ≠ '.')) = '.' :: r := by
      intro l
      induction l with
      | nil => simp
      | cons c l ih =>
        rw [List.dropWhile_cons]
        split
        · exact ih
        · rename_i h
          simp at h
          exact .inr ⟨l, by rw [h]⟩
    have hr : (Posix.tail p).reverse.takeWhile (fun c => decide (c ≠ '.')) ++
        (Posix.tail p).reverse.dropWhile (fun c => decide (c ≠ '.')) = (Posix.tail p).reverse :=
      List.takeWhile_append_dropWhile
    rcases hspec (Posix.tail p).reverse with h | ⟨r, h⟩
    · rw [h] at hany; simp at hany
    · rw [h] at hany ⊢
      simp only [List.drop_succ_cons, List.drop_zero] at hany ⊢
      rw [h] at hr
      have htail : Posix.tail p = r.reverse ++ '.' :: ((Posix.tail p).reverse.takeWhile (fun c => decide (c ≠ '.'))).reverse := by
        have := congrArg List.reverse hr
        rw [List.reverse_reverse, List.reverse_append, List.reverse_cons, List.append_assoc] at this
        exact this.symm
      have hns := Posix.tail_noSlash p
      refine ⟨?_, .inr ⟨⟨_, rfl, ?_, ?_⟩, ?_⟩⟩
      · rw [List.append_assoc, ← htail, Posix.head_append_tail]
      · intro hm
        rw [List.mem_reverse] at hm
        have : ∀ l : Text, '.' ∉ l.takeWhile (fun c => decide (c ≠ '.')) := by
          intro l
          induction l with
          | nil => simp
          | cons c l ih =>
            rw [List.takeWhile_cons]
            split
            · rename_i hc
              simp only [List.mem_cons, not_or]
              exact ⟨fun e => by subst e; simp at hc, ih⟩
            · simp
        exact this _ hm
      · intro hm
        apply hns
        rw [htail]
        exact List.mem_append_right _ (List.mem_cons_of_mem _ hm)
      · have hrs : '/' ∉ r.reverse := fun hm => hns (by rw [htail]; exact List.mem_append_left _ hm)
        have hname : name (Posix.head p ++ r.reverse) = r.reverse := by
          rw [name, new_one, Posix.split]
          rcases head_shape p with he | he
          · rw [he, List.nil_append]; exact Posix.tail_name hrs
          · obtain ⟨h', hh⟩ := snoc_of_last he
            rw [hh, List.append_assoc, List.singleton_append]
            exact Posix.tail_slash h' _ hrs
        rw [hname]
        simp only [List.any_eq_true, decide_eq_true_eq] at hany
        obtain ⟨c, hc, hne⟩ := hany
        exact ⟨c, List.mem_reverse.2 hc, hne⟩
  · exact ⟨by simp, .inl rfl⟩

/-- **C148** (the names of libraries and programs): `dst.parent / prefix + dst.name + suffix` leads to the file in the directory of
`dst` whose name is the prefix, the name and the suffix. -/
theorem C148_target {D : Type} (go : D → Text → Option D) (root cwd : D) (dst pre suf : Text) (hp : '/' ∉ pre) (hs : '/' ∉ suf) :
    name (target dst pre suf) = pre ++ name dst ++ suf ∧
    leads go root cwd (parent (target dst pre suf)) = leads go root cwd (parent dst) := by
  have hn := (C148_parent go root cwd dst).2.1
  have hall : '/' ∉ pre ++ name dst ++ suf := by simp [hp, hs, hn]
  have h : target dst pre suf = div (parent dst) (pre ++ name dst ++ suf) := by
    simp only [target, add, new_one, div, new_two]
    have h1 : Posix.isabs pre = false := by simpa [Posix.isabs] using noslash_head hp
    have h2 : Posix.isabs (pre ++ name dst ++ suf) = false := by simpa [Posix.isabs] using noslash_head hall
    unfold Posix.join
    simp only [h1, h2, Bool.false_eq_true, ↓reduceIte]
    by_cases hc : parent dst = [] ∨ (parent dst).getLast? = some '/'
    · rw [if_pos hc, if_pos hc]
      simp only [List.append_assoc]
    · rw [if_neg hc, if_neg hc]
      simp only [List.append_assoc, List.cons_append]
  rw [h]
  exact C148_back go root cwd (parent dst) _ hall

/-- a file system of which only the names are known -/
def exGo (d : List Text) (n : Text) : Option (List Text) :=
  if n = ['.', '.'] then some d.dropLast else if n = ['.'] then some d else some (d ++ [n])

example : leads exGo [] [['h']] (div ['a', '/'] ['.', '.', '/', 'b', '.', 'c']) = some [['h'], ['b', '.', 'c']] ∧
    leads exGo [] [['h']] (div ['a'] ['/', 'b']) = some [['b']] ∧
    parent ['/', 'a', '/', '/', 'b'] = ['/', 'a'] ∧ name ['/', 'a', '/', '/', 'b'] = ['b'] ∧
    splitext ['a', '.', 'd', '/', 'b', '.', 'c'] = (['a', '.', 'd', '/', 'b'], ['.', 'c']) ∧
    splitext ['a', '.', 'd', '/', '.', 'c'] = (['a', '.', 'd', '/', '.', 'c'], []) ∧
    target ['b', '/', 'x'] ['l', 'i', 'b'] ['.', 'a'] = ['b', '/', 'l', 'i', 'b', 'x', '.', 'a'] ∧
    target ['x'] [] ['.', 'o'] = ['x', '.', 'o'] := by decide

end Verif.Path.Operators
