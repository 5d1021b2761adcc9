import Verif.Glob.Spec
import Verif.Fnmatch.Proof
/-! # `glob` picks what the pattern says -/
namespace Verif.Glob
open Verif.Posix

/-! ## Paths -/

theorem mem_dropLast {α : Type} {x : α} {l : List α} (h : x ∈ l.dropLast) : x ∈ l :=
  (List.dropLast_sublist l).subset h

theorem parts_ne (s : Text) : parts s ≠ [] := by
  cases s with
  | nil => simp [parts]
  | cons c s =>
    simp only [parts]
    split
    · simp
    · split <;> simp

theorem parts_slash (a b : Text) : parts (a ++ '/' :: b) = parts a ++ parts b := by
  induction a with
  | nil => simp [parts]
  | cons c a ih =>
    simp only [List.cons_append, parts]
    split
    · rw [ih]; rfl
    · rw [ih]
      cases hp : parts a with
      | nil => exact absurd hp (parts_ne a)
      | cons p ps => rfl

theorem parts_name {x : Text} (h : '/' ∉ x) : parts x = [x] := by
  induction x with
  | nil => rfl
  | cons c x ih =>
    simp only [List.mem_cons, not_or] at h
    simp only [parts, ih h.2]
    rw [if_neg (fun he => h.1 he.symm)]

theorem walk_append (loc : List Node) (a b : List Text) :
    walk loc (a ++ b) = (walk loc a).bind (fun l => walk l b) := by
  induction a generalizing loc with
  | nil => rfl
  | cons c a ih =>
    simp only [List.cons_append, walk]
    cases step loc c with
    | none => rfl
    | some l => exact ih l

theorem isabs_name {x : Text} (h : '/' ∉ x) : isabs x = false := by
  cases x with
  | nil => rfl
  | cons c x =>
    simp only [List.mem_cons, not_or] at h
    have : c ≠ '/' := fun he => h.1 he.symm
    simp [isabs, this]

theorem isabs_append {a : Text} (h : a ≠ []) (b : Text) : isabs (a ++ b) = isabs a := by
  cases a with
  | nil => exact absurd rfl h
  | cons c a => rfl

theorem snoc_of_last {a : Text} {c : Char} (h : a.getLast? = some c) : ∃ d, a = d ++ [c] := by
  rw [List.getLast?_eq_some_iff] at h
  exact h

theorem step_nil_bind (l : List Node) (x : Text) :
    (step l []).bind (fun l => step l x) = step l x := by
  unfold step
  split
  · simp
  · rfl

theorem resolve_join (fs : FS) {d x : Text} (hd : d ≠ []) (hx : '/' ∉ x) :
    fs.resolve (join d x) = (fs.resolve d).bind (fun l => step l x) := by
  unfold join
  rw [isabs_name hx]
  simp only [Bool.false_eq_true, if_false, hd, false_or]
  have h1 : ∀ l a, walk l (a ++ [x]) = (walk l a).bind (fun l => step l x) := by
    intro l a
    rw [walk_append]
    congr 1
    funext l
    simp only [walk]
    cases step l x <;> rfl
  split
  · rename_i hl
    obtain ⟨e, rfl⟩ := snoc_of_last hl
    unfold FS.resolve
    rw [if_neg (by simp), if_neg hd, isabs_append (by simp)]
    rw [List.append_assoc, List.singleton_append, parts_slash, parts_name hx, parts_slash]
    rw [h1, walk_append]
    simp only [parts, walk, Option.bind_assoc]
    congr 1
    funext l
    have := step_nil_bind l x
    revert this
    cases step l [] with
    | none => intro h; simpa using h.symm
    | some l' => intro h; simpa using h.symm
  · unfold FS.resolve
    rw [if_neg (by simp), if_neg hd, isabs_append hd, parts_slash, parts_name hx, h1]

/-- the location of a directory name; the empty name is the working directory -/
def FS.at (fs : FS) (d : Text) : Option (List Node) := if d = [] then some fs.cwd else fs.resolve d

theorem resolve_ok {fs : FS} (h : fs.Ok) :
    fs.resolve ['.'] = some fs.cwd := by
  obtain ⟨h1, h2⟩ := h.cwd
  cases hc : fs.cwd with
  | nil => exact absurd hc h1
  | cons n up =>
    have := (h2 n (by rw [hc]; exact .head _)).2
    cases n with
    | file => simp [Node.isDir] at this
    | dir es => simp [FS.resolve, isabs, parts, hc, walk, step]

theorem resolve_orCurdir {fs : FS} (h : fs.Ok) (d : Text) : fs.resolve (orCurdir d) = fs.at d := by
  unfold orCurdir FS.at
  split
  · exact resolve_ok h
  · rfl

theorem at_join (fs : FS) (d : Text) {x : Text} (hx : '/' ∉ x) (hne : x ≠ []) :
    fs.resolve (join d x) = (fs.at d).bind (fun l => step l x) := by
  unfold FS.at
  split
  · rename_i h
    subst h
    unfold join FS.resolve
    simp only [isabs_name hx, Bool.false_eq_true, if_false, true_or, if_true, List.nil_append, hne,
      parts_name hx, walk, Option.bind_some]
    cases step fs.cwd x <;> rfl
  · rename_i h
    exact resolve_join fs h hx

/-! ## Good locations -/

def GoodLoc (l : List Node) : Prop := l ≠ [] ∧ ∀ n ∈ l, Good n

theorem goods_mem {es : List (Text × Node)} (h : Goods es) {x : Text} {n : Node} (hm : (x, n) ∈ es) :
    IsName x ∧ '\n' ∉ x ∧ Good n := by
  induction es with
  | nil => simp at hm
  | cons e es ih =>
    obtain ⟨y, m⟩ := e
    simp only [Goods] at h
    rcases List.mem_cons.mp hm with he | he
    · simp only [Prod.mk.injEq] at he
      obtain ⟨rfl, rfl⟩ := he
      exact ⟨h.1, h.2.1, h.2.2.1⟩
    · exact ih h.2.2.2 he

theorem lookup_mem {es : List (Text × Node)} {x : Text} {n : Node} (h : es.lookup x = some n) : (x, n) ∈ es := by
  induction es with
  | nil => simp at h
  | cons e es ih =>
    obtain ⟨y, m⟩ := e
    rw [List.lookup_cons] at h
    split at h
    · rename_i hb
      simp only [beq_iff_eq] at hb
      simp only [Option.some.injEq] at h
      subst hb; subst h
      exact .head _
    · exact .tail _ (ih h)

theorem lookup_isSome {es : List (Text × Node)} {x : Text} (h : x ∈ es.map (·.1)) : (es.lookup x).isSome := by
  induction es with
  | nil => simp at h
  | cons e es ih =>
    obtain ⟨y, m⟩ := e
    rw [List.lookup_cons]
    split
    · rfl
    · rename_i hb
      simp only [List.map_cons, List.mem_cons] at h
      rcases h with h | h
      · subst h; simp at hb
      · exact ih h

theorem depth_mem {es : List (Text × Node)} {x : Text} {n : Node} (h : (x, n) ∈ es) : n.depth ≤ depths es := by
  induction es with
  | nil => simp at h
  | cons e es ih =>
    obtain ⟨y, m⟩ := e
    simp only [depths]
    rcases List.mem_cons.mp h with he | he
    · simp only [Prod.mk.injEq] at he
      obtain ⟨rfl, rfl⟩ := he
      exact Nat.le_max_left _ _
    · exact Nat.le_trans (ih he) (Nat.le_max_right _ _)

theorem GoodLoc.step {l l' : List Node} {x : Text} (h : GoodLoc l) (hs : step l x = some l') : GoodLoc l' := by
  obtain ⟨h1, h2⟩ := h
  unfold Glob.step at hs
  split at hs
  · rename_i es up
    split at hs
    · simp only [Option.some.injEq] at hs; subst hs; exact ⟨h1, h2⟩
    split at hs
    · simp only [Option.some.injEq] at hs
      subst hs
      split
      · exact ⟨h1, h2⟩
      · rename_i hu
        exact ⟨hu, fun n hn => h2 n (.tail _ hn)⟩
    · simp only [Option.map_eq_some_iff] at hs
      obtain ⟨n, hn, rfl⟩ := hs
      refine ⟨by simp, fun m hm => ?_⟩
      rcases List.mem_cons.mp hm with he | he
      · subst he
        have hg := h2 (.dir es) (.head _)
        simp only [Good] at hg
        exact (goods_mem hg (lookup_mem hn)).2.2
      · exact h2 m he
  · simp at hs

theorem GoodLoc.walk {l l' : List Node} {cs : List Text} (h : GoodLoc l) (hs : walk l cs = some l') : GoodLoc l' := by
  induction cs generalizing l with
  | nil => simp only [Glob.walk, Option.some.injEq] at hs; exact hs ▸ h
  | cons c cs ih =>
    simp only [Glob.walk, Option.bind_eq_some_iff] at hs
    obtain ⟨m, h1, h2⟩ := hs
    exact ih (h.step h1) h2

theorem good_resolve {fs : FS} (h : fs.Ok) {p : Text} {l : List Node} (hr : fs.resolve p = some l) : GoodLoc l := by
  unfold FS.resolve at hr
  split at hr
  · simp at hr
  · refine GoodLoc.walk ?_ hr
    split
    · exact ⟨by simp, by simpa using h.root.1⟩
    · exact ⟨h.cwd.1, fun n hn => (h.cwd.2 n hn).1⟩

theorem good_at {fs : FS} (h : fs.Ok) {p : Text} {l : List Node} (hr : fs.at p = some l) : GoodLoc l := by
  unfold FS.at at hr
  split at hr
  · simp only [Option.some.injEq] at hr
    exact hr ▸ ⟨h.cwd.1, fun n hn => (h.cwd.2 n hn).1⟩
  · exact good_resolve h hr

/-- the names of a directory are the names that lead on -/
theorem names_iff {l : List Node} (h : GoodLoc l) (x : Text) :
    (∃ n up names, l = n :: up ∧ n.names = some names ∧ x ∈ names) ↔
      IsName x ∧ '\n' ∉ x ∧ (step l x).isSome := by
  constructor
  · rintro ⟨n, up, names, rfl, hn, hx⟩
    cases n with
    | file => simp [Node.names] at hn
    | dir es =>
      simp only [Node.names, Option.some.injEq] at hn
      subst hn
      have hl := lookup_isSome hx
      obtain ⟨⟨y, m⟩, hm, rfl⟩ := List.mem_map.mp hx
      have hg := h.2 (.dir es) (.head _)
      simp only [Good] at hg
      obtain ⟨h1, h2, _⟩ := goods_mem hg hm
      refine ⟨h1, h2, ?_⟩
      simp only [step]
      rw [if_neg (by rintro (h | h); exact h1.1 h; exact h1.2.2.1 h), if_neg h1.2.2.2]
      simpa using hl
  · rintro ⟨h1, h2, h3⟩
    unfold step at h3
    split at h3
    · rename_i es up
      rw [if_neg (by rintro (h | h); exact h1.1 h; exact h1.2.2.1 h), if_neg h1.2.2.2] at h3
      cases hl : es.lookup x with
      | none => rw [hl] at h3; simp at h3
      | some n =>
        exact ⟨.dir es, up, _, rfl, rfl, List.mem_map.mpr ⟨(x, n), lookup_mem hl, rfl⟩⟩
    · simp at h3

theorem listdir_at {fs : FS} (h : fs.Ok) (d x : Text) :
    (∃ names, fs.listdir (orCurdir d) = some names ∧ x ∈ names) ↔
      IsName x ∧ '\n' ∉ x ∧ ((fs.at d).bind (fun l => step l x)).isSome := by
  unfold FS.listdir
  rw [resolve_orCurdir h]
  cases ha : fs.at d with
  | none => simp
  | some l =>
    have hg := good_at h ha
    rw [Option.bind_some, ← names_iff hg x]
    cases l with
    | nil => exact absurd rfl hg.1
    | cons n up =>
      constructor
      · rintro ⟨names, h1, h2⟩
        exact ⟨n, up, names, rfl, h1, h2⟩
      · rintro ⟨n', up', names, h0, h1, h2⟩
        simp only [List.cons.injEq] at h0
        obtain ⟨rfl, rfl⟩ := h0
        exact ⟨names, h1, h2⟩

/-! ## Texts -/

theorem slashed_append {a b : List Text} (ha : a ≠ []) (hb : b ≠ []) :
    slashed (a ++ b) = slashed a ++ '/' :: slashed b := by
  induction a with
  | nil => exact absurd rfl ha
  | cons x a ih =>
    cases a with
    | nil =>
      cases b with
      | nil => exact absurd rfl hb
      | cons y b => rfl
    | cons y a =>
      have := ih (by simp)
      simp only [List.cons_append, slashed] at this ⊢
      rw [this]
      simp

/-- components in front of the last -/
def Inner (qs : List Text) : Prop := ∀ q ∈ qs, q ≠ [] ∧ '/' ∉ q

theorem last_noSlash {x : Text} (h : x ≠ []) (hs : '/' ∉ x) (a : Text) : (a ++ x).getLast? ≠ some '/' := by
  intro he
  rw [List.getLast?_append] at he
  cases hx : x.getLast? with
  | none => rw [List.getLast?_eq_none_iff] at hx; exact h hx
  | some c =>
    rw [hx] at he
    simp only [Option.some_or, Option.some.injEq] at he
    subst he
    exact hs (List.mem_of_getLast? hx)

theorem slashed_last {qs : List Text} (h : Inner qs) (hne : qs ≠ []) (a : Text) :
    (a ++ slashed qs).getLast? ≠ some '/' := by
  induction qs generalizing a with
  | nil => exact absurd rfl hne
  | cons x qs ih =>
    cases qs with
    | nil => exact last_noSlash (h x (.head _)).1 (h x (.head _)).2 a
    | cons y qs =>
      have := ih (fun q hq => h q (.tail _ hq)) (by simp) (a ++ x ++ ['/'])
      simpa [slashed] using this

theorem slashed_ne {qs : List Text} (h : Inner qs) (hne : qs ≠ []) : slashed qs ≠ [] := by
  cases qs with
  | nil => exact absurd rfl hne
  | cons x qs =>
    have := (h x (.head _)).1
    cases qs with
    | nil => exact this
    | cons y qs => simp [slashed]

/-- the ways a directory is written -/
def Form (abs : Bool) (qs : List Text) (d : Text) : Prop := d = text abs qs ∨ d = text abs (qs ++ [[]])

theorem isabs_slashed {us : List Text} (h : ∀ u ∈ us, '/' ∉ u) (hf : ∀ u ∈ us.dropLast, u ≠ []) :
    isabs (slashed us) = false := by
  cases us with
  | nil => rfl
  | cons u us =>
    cases us with
    | nil => exact isabs_name (h u (.head _))
    | cons v us =>
      simp only [slashed]
      rw [isabs_append (hf u (by simp))]
      exact isabs_name (h u (.head _))

theorem join_form {abs : Bool} {qs us : List Text} {d : Text} (hf : Form abs qs d) (hq : Inner qs)
    (hu : us ≠ []) (h : ∀ u ∈ us, '/' ∉ u) (hi : ∀ u ∈ us.dropLast, u ≠ []) :
    join d (slashed us) = text abs (qs ++ us) := by
  unfold join
  rw [isabs_slashed h hi]
  simp only [Bool.false_eq_true, if_false]
  by_cases hne : qs = []
  · subst hne
    have hd : d = if abs then ['/'] else [] := by
      rcases hf with hf | hf <;> (rw [hf]; cases abs <;> rfl)
    subst hd
    cases abs <;> simp [text]
  · rcases hf with rfl | rfl
    · rw [if_neg]
      · simp only [text, slashed_append hne hu, List.append_assoc]
      · rintro (he | he)
        · simp only [text, List.append_eq_nil_iff] at he
          exact slashed_ne hq hne he.2
        · exact slashed_last hq hne _ he
    · rw [if_pos]
      · simp only [text, slashed_append hne hu, slashed_append hne (show [[]] ≠ [] by simp), slashed]
        simp
      · right
        simp only [text, slashed_append hne (show [[]] ≠ [] by simp), slashed]
        rw [← List.append_assoc]
        exact List.getLast?_concat

theorem join_form1 {abs : Bool} {qs : List Text} {d x : Text} (hf : Form abs qs d) (hq : Inner qs)
    (h : '/' ∉ x) : join d x = text abs (qs ++ [x]) :=
  join_form (us := [x]) hf hq (by simp) (by simpa using h) (by simp)

/-! ## Directories -/

/-- `d` names a directory -/
def FS.dirAt (fs : FS) (d : Text) : Option (List Node) :=
  match fs.at d with
  | some (n :: up) => if n.isDir then some (n :: up) else none
  | _ => none

theorem dirAt_step (fs : FS) (d x : Text) :
    (fs.at d).bind (fun l => step l x) = (fs.dirAt d).bind (fun l => step l x) := by
  unfold FS.dirAt
  cases fs.at d with
  | none => rfl
  | some l =>
    cases l with
    | nil => rfl
    | cons n up => cases n <;> rfl

theorem text_snoc_join {abs : Bool} {qs : List Text} (hq : Inner qs) :
    text abs (qs ++ [[]]) = join (text abs qs) [] :=
  (join_form1 (.inl rfl) hq (by simp)).symm

theorem step_nil (l : List Node) : step l [] = match l with
    | n :: up => if n.isDir then some (n :: up) else none
    | [] => none := by
  unfold step
  split
  · simp [Node.isDir]
  · rename_i h
    cases l with
    | nil => rfl
    | cons n up =>
      cases n with
      | file => rfl
      | dir es => exact absurd rfl (h es up)

theorem text_nil {abs : Bool} {qs : List Text} (hq : Inner qs) (h : text abs qs = []) : abs = false ∧ qs = [] := by
  unfold text at h
  rw [List.append_eq_nil_iff] at h
  refine ⟨?_, ?_⟩
  · cases abs with
    | true => simp at h
    | false => rfl
  · apply Classical.byContradiction
    intro hne
    exact slashed_ne hq hne h.2

theorem resolve_snoc_nil (fs : FS) {abs : Bool} {qs : List Text} (hq : Inner qs) (hne : text abs qs ≠ []) :
    fs.resolve (text abs (qs ++ [[]])) = fs.dirAt (text abs qs) := by
  rw [text_snoc_join hq, resolve_join fs hne (by simp)]
  unfold FS.dirAt FS.at
  rw [if_neg hne]
  cases fs.resolve (text abs qs) with
  | none => rfl
  | some l =>
    rw [Option.bind_some, step_nil]
    cases l <;> rfl

theorem dirAt_form (fs : FS) {abs : Bool} {qs : List Text} {d : Text} (hf : Form abs qs d) (hq : Inner qs) :
    fs.dirAt d = fs.dirAt (text abs qs) := by
  rcases hf with rfl | rfl
  · rfl
  · by_cases hne : text abs qs = []
    · obtain ⟨rfl, rfl⟩ := text_nil hq hne
      rfl
    · have h1 := resolve_snoc_nil fs hq hne
      have h2 : text abs (qs ++ [[]]) ≠ [] := by
        rw [text_snoc_join hq]
        unfold join
        simp [isabs, hne]
        split <;> simp_all
      conv => lhs; unfold FS.dirAt FS.at
      rw [if_neg h2, h1]
      cases hd : fs.dirAt (text abs qs) with
      | none => rfl
      | some l =>
        unfold FS.dirAt at hd
        split at hd
        · split at hd
          · rename_i hdir
            simp only [Option.some.injEq] at hd
            subst hd
            simp [hdir]
          · simp at hd
        · simp at hd

theorem isdir_iff (fs : FS) {d : Text} (hd : d ≠ []) : fs.isdir d = (fs.dirAt d).isSome := by
  unfold FS.isdir FS.dirAt FS.at
  rw [if_neg hd]
  cases fs.resolve d with
  | none => rfl
  | some l =>
    cases l with
    | nil => rfl
    | cons n up => cases h : n.isDir <;> simp [h]

theorem resolve_form_name (fs : FS) {abs : Bool} {qs : List Text} {d x : Text} (hf : Form abs qs d) (hq : Inner qs)
    (hx : '/' ∉ x) (hne : x ≠ []) :
    fs.resolve (text abs (qs ++ [x])) = (fs.dirAt d).bind (fun l => step l x) := by
  rw [← join_form1 hf hq hx, at_join fs d hx hne, dirAt_step]

/-! ## All levels -/

theorem walk_file (up : List Node) (us : List Text) (h : us ≠ []) : walk (.file :: up) us = none := by
  cases us with
  | nil => exact absurd rfl h
  | cons u us => rfl

theorem inner_names {us : List Text} (h : ∀ x ∈ us, IsName x ∧ x.head? ≠ some '.') : Inner us :=
  fun q hq => ⟨(h q hq).1.1, (h q hq).1.2.1⟩

theorem rlistdir_iff {fs : FS} (hok : fs.Ok) (n : Nat) : ∀ (d : Text) (nd : Node) (up : List Node),
    fs.at d = some (nd :: up) → nd.depth ≤ n → ∀ y, y ∈ rlistdir fs n d ↔
      ∃ us, us ≠ [] ∧ (∀ x ∈ us, IsName x ∧ x.head? ≠ some '.') ∧ (walk (nd :: up) us).isSome ∧
        y = slashed us := by
  induction n with
  | zero =>
    intro d nd up _ hd y
    simp only [rlistdir, List.not_mem_nil, false_iff]
    rintro ⟨us, h1, _, h2, _⟩
    cases nd with
    | file => rw [walk_file up us h1] at h2; simp at h2
    | dir es => simp [Node.depth] at hd
  | succ n ih =>
    intro d nd up ha hd y
    have hg := good_at hok ha
    have hlist : fs.listdir (orCurdir d) = nd.names := by
      unfold FS.listdir
      rw [resolve_orCurdir hok, ha]
    cases nd with
    | file =>
      simp only [rlistdir, hlist, Node.names, List.not_mem_nil, false_iff]
      rintro ⟨us, h1, _, h2, _⟩
      rw [walk_file up us h1] at h2; simp at h2
    | dir es =>
      simp only [rlistdir, hlist, Node.names, List.mem_flatMap]
      -- the step to an entry
      have hstep : ∀ x, x ∈ es.map (·.1) → ∃ m, (x, m) ∈ es ∧ step (.dir es :: up) x = some (m :: .dir es :: up) ∧
          fs.at (join (orCurdir d) x) = some (m :: .dir es :: up) := by
        intro x hx
        have h1 := (names_iff hg x).mp ⟨.dir es, up, _, rfl, rfl, hx⟩
        have h2 : step (.dir es :: up) x = (es.lookup x).map (fun n => n :: .dir es :: up) := by
          simp only [step]
          rw [if_neg (by rintro (h | h); exact h1.1.1 h; exact h1.1.2.2.1 h), if_neg h1.1.2.2.2]
        have h3 := lookup_isSome hx
        cases hl : es.lookup x with
        | none => rw [hl] at h3; simp at h3
        | some m =>
          rw [hl] at h2
          simp only [Option.map_some] at h2
          refine ⟨m, lookup_mem hl, h2, ?_⟩
          have hne : join (orCurdir d) x ≠ [] := by
            unfold join
            rw [isabs_name h1.1.2.1]
            simp only [Bool.false_eq_true, if_false]
            split <;> simp [h1.1.1]
          have hoc : orCurdir d ≠ [] := by
            unfold orCurdir; split <;> simp_all
          unfold FS.at
          rw [if_neg hne, resolve_join fs hoc h1.1.2.1, resolve_orCurdir hok, ha]
          exact h2
      constructor
      · rintro ⟨x, hx, hy⟩
        split at hy
        · simp at hy
        · rename_i hh
          have hh' : x.head? ≠ some '.' := by simpa [isHidden] using hh
          have h1 := (names_iff hg x).mp ⟨.dir es, up, _, rfl, rfl, hx⟩
          obtain ⟨m, hm, hs, hat⟩ := hstep x hx
          rcases List.mem_cons.mp hy with rfl | hy
          · exact ⟨[y], by simp, by simpa using ⟨h1.1, hh'⟩, by simp [walk, hs], rfl⟩
          · obtain ⟨z, hz, rfl⟩ := List.mem_map.mp hy
            have hdm : m.depth ≤ n := by
              have := depth_mem hm
              simp only [Node.depth] at hd
              omega
            obtain ⟨us, h2, h3, h4, rfl⟩ := (ih _ m _ hat hdm z).mp hz
            refine ⟨x :: us, by simp, ?_, ?_, ?_⟩
            · intro u hu
              rcases List.mem_cons.mp hu with rfl | hu
              · exact ⟨h1.1, hh'⟩
              · exact h3 u hu
            · simpa [walk, hs] using h4
            · have := join_form (abs := false) (qs := [x]) (us := us) (d := x) (.inl rfl)
                (by intro q hq; simp only [List.mem_singleton] at hq; subst hq; exact ⟨h1.1.1, h1.1.2.1⟩) h2
                (fun u hu => (h3 u hu).1.2.1) (fun u hu => (h3 u (mem_dropLast hu)).1.1)
              rw [this]
              rfl
      · rintro ⟨us, h1, h2, h3, rfl⟩
        cases us with
        | nil => exact absurd rfl h1
        | cons x us =>
          simp only [walk] at h3
          have hx : x ∈ es.map (·.1) := by
            cases hs : step (.dir es :: up) x with
            | none => rw [hs] at h3; simp at h3
            | some l =>
              unfold step at hs
              simp only at hs
              have hn := (h2 x (.head _)).1
              rw [if_neg (by rintro (h | h); exact hn.1 h; exact hn.2.2.1 h), if_neg hn.2.2.2] at hs
              simp only [Option.map_eq_some_iff] at hs
              obtain ⟨m, hm, _⟩ := hs
              exact List.mem_map.mpr ⟨(x, m), lookup_mem hm, rfl⟩
          obtain ⟨m, hm, hs, hat⟩ := hstep x hx
          refine ⟨x, hx, ?_⟩
          rw [if_neg (by simpa [isHidden] using (h2 x (.head _)).2)]
          cases us with
          | nil => exact .head _
          | cons u us =>
            refine List.mem_cons_of_mem _ (List.mem_map.mpr ⟨slashed (u :: us), ?_, ?_⟩)
            · have hdm : m.depth ≤ n := by
                have := depth_mem hm
                simp only [Node.depth] at hd
                omega
              refine (ih _ m _ hat hdm _).mpr ⟨u :: us, by simp, fun y hy => h2 y (.tail _ hy), ?_, rfl⟩
              rw [hs] at h3
              exact h3
            · have hn := (h2 x (.head _)).1
              have := join_form (abs := false) (qs := [x]) (us := u :: us) (d := x) (.inl rfl)
                (by intro q hq; simp only [List.mem_singleton] at hq; subst hq; exact ⟨hn.1, hn.2.1⟩) (by simp)
                (fun v hv => (h2 v (.tail _ hv)).1.2.1)
                (fun v hv => (h2 v (.tail _ (mem_dropLast hv))).1.1)
              rw [this]
              rfl

/-- `_rlistdir` below any text -/
theorem rlistdir_dirAt {fs : FS} (hok : fs.Ok) (d : Text) (y : Text) :
    y ∈ rlistdir fs (fs.levels d) d ↔
      ∃ us, us ≠ [] ∧ (∀ x ∈ us, IsName x ∧ x.head? ≠ some '.') ∧
        ((fs.dirAt d).bind (fun l => walk l us)).isSome ∧ y = slashed us := by
  cases ha : fs.at d with
  | none =>
    have : fs.levels d = 0 := by
      unfold FS.levels; rw [resolve_orCurdir hok, ha]
    rw [this]
    simp [rlistdir, FS.dirAt, ha]
  | some l =>
    have hg := good_at hok ha
    cases l with
    | nil => exact absurd rfl hg.1
    | cons nd up =>
      have hl : fs.levels d = nd.depth := by
        unfold FS.levels; rw [resolve_orCurdir hok, ha]
      rw [hl, rlistdir_iff hok _ d nd up ha (Nat.le_refl _) y]
      unfold FS.dirAt
      rw [ha]
      cases nd with
      | dir es => simp [Node.isDir]
      | file =>
        simp only [Node.isDir, Bool.false_eq_true, if_false, Option.bind_none, Option.isSome_none, false_and,
          and_false, exists_false, iff_false]
        rintro ⟨us, h1, _, h2, _⟩
        rw [walk_file up us h1] at h2; simp at h2

theorem resolve_form_walk (fs : FS) {abs : Bool} {qs us : List Text} (hq : Inner qs) (hu : Inner us)
    (hne : us ≠ []) :
    fs.resolve (text abs (qs ++ us)) = (fs.dirAt (text abs qs)).bind (fun l => walk l us) := by
  induction us generalizing qs with
  | nil => exact absurd rfl hne
  | cons u us ih =>
    have h1 := resolve_form_name fs (d := text abs qs) (.inl rfl) hq (hu u (.head _)).2 (hu u (.head _)).1
    cases us with
    | nil =>
      rw [h1]
      congr 1
      funext l
      simp only [walk]
      cases step l u <;> rfl
    | cons v us =>
      have hq' : Inner (qs ++ [u]) := by
        intro q hx
        rcases List.mem_append.mp hx with hx | hx
        · exact hq q hx
        · simp only [List.mem_singleton] at hx; subst hx; exact hu _ (.head _)
      have h2 := ih hq' (fun q hx => hu q (.tail _ hx)) (by simp)
      rw [List.append_assoc, List.singleton_append] at h2
      rw [h2]
      have hne : text abs (qs ++ [u]) ≠ [] := by
        intro h
        have := (text_nil hq' h).2
        simp at this
      conv => lhs; lhs; unfold FS.dirAt FS.at
      rw [if_neg hne, h1]
      cases fs.dirAt (text abs qs) with
      | none => rfl
      | some l =>
        simp only [Option.bind_some, walk]
        cases step l u with
        | none => rfl
        | some l' =>
          simp only [Option.bind_some]
          cases l' with
          | nil => simp [step]
          | cons n up => cases n <;> simp [Node.isDir, step]

/-! ## Patterns -/

theorem plain_iff (c : Text) : Plain c ↔ hasMagic c = false := by
  unfold Plain hasMagic
  rw [List.any_eq_false]
  simp

/-- what one component picks -/
inductive Seg (recursive : Bool) (c : Text) : List Text → Prop
  | plain : Plain c → Seg recursive c [c]
  | magic {x} : ¬ Plain c → (recursive = true → c ≠ ['*', '*']) → IsName x →
      Fnmatch.Matches (Fnmatch.pattern c) x → (x.head? = some '.' → c.head? = some '.') → Seg recursive c [x]
  | any {us} : recursive = true → c = ['*', '*'] → (∀ x ∈ us, IsName x ∧ x.head? ≠ some '.') → Seg recursive c us

/-- what components in front of the last pick -/
inductive Picks0 (recursive : Bool) : List Text → List Text → Prop
  | nil : Picks0 recursive [] []
  | cons {c cs seg qs} : Seg recursive c seg → Picks0 recursive cs qs → Picks0 recursive (c :: cs) (seg ++ qs)

theorem Picks0.snoc {r : Bool} {cs qs : List Text} {c : Text} {seg : List Text} (h : Picks0 r cs qs)
    (hs : Seg r c seg) : Picks0 r (cs ++ [c]) (qs ++ seg) := by
  induction h with
  | nil => simpa using Picks0.cons hs .nil
  | cons h1 _ ih => rw [List.append_assoc]; exact .cons h1 ih

theorem Picks0.unsnoc {r : Bool} {cs : List Text} {c : Text} {qs : List Text} (h : Picks0 r (cs ++ [c]) qs) :
    ∃ a seg, qs = a ++ seg ∧ Picks0 r cs a ∧ Seg r c seg := by
  induction cs generalizing qs with
  | nil =>
    cases h with
    | cons h1 h2 =>
      cases h2
      exact ⟨[], _, by simp, .nil, h1⟩
  | cons d cs ih =>
    cases h with
    | cons h1 h2 =>
      obtain ⟨a, seg, rfl, h3, h4⟩ := ih h2
      exact ⟨_ ++ a, seg, by simp, .cons h1 h3, h4⟩

theorem Picks0.inner {r : Bool} {cs qs : List Text} (h : Picks0 r cs qs) (hc : Inner cs) : Inner qs := by
  induction h with
  | nil => exact hc
  | cons h1 _ ih =>
    intro q hq
    rcases List.mem_append.mp hq with hq | hq
    · cases h1 with
      | plain _ => simp only [List.mem_singleton] at hq; subst hq; exact hc _ (.head _)
      | magic _ _ hn _ _ => simp only [List.mem_singleton] at hq; subst hq; exact ⟨hn.1, hn.2.1⟩
      | any _ _ hu => exact ⟨(hu q hq).1.1, (hu q hq).1.2.1⟩
    · exact ih (fun c hx => hc c (.tail _ hx)) q hq

/-- the component is `**` and is special -/
def Rec (r : Bool) (c : Text) : Prop := r = true ∧ c = ['*', '*']

theorem Seg.ne {r : Bool} {c : Text} {seg : List Text} (h : Seg r c seg) (hn : ¬ Rec r c) : ∃ x, seg = [x] := by
  cases h with
  | plain _ => exact ⟨_, rfl⟩
  | magic _ _ _ _ _ => exact ⟨_, rfl⟩
  | any h1 h2 _ => exact absurd ⟨h1, h2⟩ hn

theorem picks_iff {r : Bool} {cs : List Text} {c : Text} (qs : List Text) :
    Picks r (cs ++ [c]) qs ↔ ∃ a seg, Picks0 r cs a ∧ Seg r c seg ∧
      qs = a ++ (if seg = [] then [[]] else seg) := by
  constructor
  · intro h
    induction cs generalizing qs with
    | nil =>
      cases h with
      | plain h1 h2 => cases h2; exact ⟨[], [c], .nil, .plain h1, by simp⟩
      | magic h1 h2 h3 h4 h5 h6 => cases h6; exact ⟨[], _, .nil, .magic h1 h2 h3 h4 h5, by simp⟩
      | any h1 h2 h3 h4 =>
        cases h4
        have hne := h3.resolve_right (by simp)
        exact ⟨[], _, .nil, .any h1 rfl h2, by simp [hne]⟩
      | here h1 => exact ⟨[], [], .nil, .any h1 rfl (by simp), by simp⟩
    | cons d cs ih =>
      generalize hcs : d :: cs ++ [c] = l at h
      cases h with
      | nil => simp at hcs
      | plain h1 h2 =>
        simp only [List.cons_append, List.cons.injEq] at hcs
        obtain ⟨rfl, rfl⟩ := hcs
        obtain ⟨a, seg, h3, h4, rfl⟩ := ih _ h2
        exact ⟨d :: a, seg, .cons (seg := [d]) (.plain h1) h3, h4, by simp⟩
      | @magic _ _ x _ h1 h2 h3 h4 h5 h6 =>
        simp only [List.cons_append, List.cons.injEq] at hcs
        obtain ⟨rfl, rfl⟩ := hcs
        obtain ⟨a, seg, h7, h8, rfl⟩ := ih _ h6
        exact ⟨x :: a, seg, .cons (seg := [x]) (.magic h1 h2 h3 h4 h5) h7, h8, by simp⟩
      | any h1 h2 h3 h4 =>
        simp only [List.cons_append, List.cons.injEq] at hcs
        obtain ⟨rfl, rfl⟩ := hcs
        obtain ⟨a, seg, h7, h8, rfl⟩ := ih _ h4
        exact ⟨_ ++ a, seg, .cons (.any h1 rfl h2) h7, h8, by simp⟩
      | here h1 => simp at hcs
  · rintro ⟨a, seg, h1, h2, rfl⟩
    induction h1 with
    | nil =>
      simp only [List.nil_append]
      cases h2 with
      | plain h => simpa using Picks.plain h .nil
      | magic h1 h2 h3 h4 h5 => simpa using Picks.magic h1 h2 h3 h4 h5 .nil
      | any h1 h2 h3 =>
        subst h2
        split
        · exact .here h1
        · rename_i hne
          have := Picks.any h1 h3 (.inl hne) .nil
          simpa using this
    | cons h3 _ ih =>
      rw [List.append_assoc]
      cases h3 with
      | plain h => exact .plain h ih
      | magic h1 h2 h3 h4 h5 => exact .magic h1 h2 h3 h4 h5 ih
      | any h1 h2 h3 => subst h2; exact .any h1 h3 (.inr (by simp)) ih

/-! ## Splitting the pattern -/

theorem text_split {abs : Bool} {cs : List Text} {c : Text} (hi : Inner cs) (hc : '/' ∉ c) :
    split (text abs (cs ++ [c])) = (text abs cs, c) := by
  by_cases hne : cs = []
  · subst hne
    cases abs with
    | false => simp [split, text, slashed, head_name hc, tail_name hc]
    | true =>
      have h1 := head_slash [] c hc
      have h2 := tail_slash [] c hc
      simp only [List.nil_append] at h1 h2
      simp [split, text, slashed, h1, h2]
  · have ht : text abs (cs ++ [c]) = text abs cs ++ '/' :: c := by
      simp [text, slashed_append hne (show [c] ≠ [] by simp), slashed]
    rw [ht]
    unfold split
    rw [head_slash _ _ hc, tail_slash _ _ hc, rstrip_snoc, rstrip_id (h := text abs cs) (slashed_last hi hne _)]
    rw [if_neg]
    intro h
    rw [List.all_eq_true] at h
    have hne' := slashed_ne hi hne
    have hl := slashed_last hi hne (if abs = true then ['/'] else [])
    cases hg : (text abs cs).getLast? with
    | none =>
      rw [List.getLast?_eq_none_iff] at hg
      simp only [text, List.append_eq_nil_iff] at hg
      exact hne' hg.2
    | some d =>
      have := h d (List.mem_append_left _ (List.mem_of_getLast? hg))
      simp only [decide_eq_true_eq] at this
      subst this
      exact hl hg

theorem hasMagic_append (a b : Text) : hasMagic (a ++ b) = (hasMagic a || hasMagic b) := by
  simp [hasMagic]

theorem hasMagic_slashed (cs : List Text) : hasMagic (slashed cs) = cs.any hasMagic := by
  induction cs with
  | nil => rfl
  | cons c cs ih =>
    cases cs with
    | nil => simp [slashed]
    | cons d cs =>
      simp only [slashed] at ih ⊢
      rw [hasMagic_append]
      have : hasMagic ('/' :: slashed (d :: cs)) = hasMagic (slashed (d :: cs)) := by
        simp [hasMagic]
      rw [this, ih]
      rfl

theorem hasMagic_text (abs : Bool) (cs : List Text) : hasMagic (text abs cs) = cs.any hasMagic := by
  unfold text
  rw [hasMagic_append, hasMagic_slashed]
  cases abs <;> simp [hasMagic]

theorem picks0_plain {r : Bool} {cs qs : List Text} (h : cs.any hasMagic = false) :
    Picks0 r cs qs ↔ qs = cs := by
  constructor
  · intro hp
    induction hp with
    | nil => rfl
    | cons h1 _ ih =>
      simp only [List.any_cons, Bool.or_eq_false_iff] at h
      cases h1 with
      | plain _ => rw [ih h.2]; rfl
      | magic h2 _ _ _ _ => exact absurd ((plain_iff _).mpr h.1) h2
      | any _ h2 _ => subst h2; simp [hasMagic] at h
  · rintro rfl
    induction qs with
    | nil => exact .nil
    | cons c cs ih =>
      simp only [List.any_cons, Bool.or_eq_false_iff] at h
      exact .cons (seg := [c]) (.plain ((plain_iff c).mpr h.1)) (ih h.2)

/-! ## The last component -/

/-- what the loop body does with one directory -/
noncomputable def lastNames (fs : FS) (r : Bool) (d c : Text) : List Text :=
  if hasMagic c then
    if r && isRecursive c then glob2 fs d else glob1 fs d c
  else glob0 fs d c

theorem isRec_iff (r : Bool) (c : Text) : (r && isRecursive c) = true ↔ Rec r c := by
  simp [Rec, isRecursive]

theorem rec_magic {r : Bool} {c : Text} (h : Rec r c) : hasMagic c = true := by
  rw [h.2]; decide

theorem glob1_iff {fs : FS} (hok : fs.Ok) {c : Text} (hs : Fnmatch.Sound (Fnmatch.pattern c)) (d x : Text) :
    x ∈ glob1 fs d c ↔ IsName x ∧ '\n' ∉ x ∧ ((fs.dirAt d).bind (fun l => step l x)).isSome ∧
      Fnmatch.Matches (Fnmatch.pattern c) x ∧ (x.head? = some '.' → c.head? = some '.') := by
  have hl := listdir_at hok d x
  rw [dirAt_step] at hl
  unfold glob1
  cases hd : fs.listdir (orCurdir d) with
  | none =>
    rw [hd] at hl
    simp only [List.not_mem_nil, false_iff]
    rintro ⟨h1, h2, h3, _⟩
    obtain ⟨names, h4, _⟩ := hl.mpr ⟨h1, h2, h3⟩
    simp at h4
  | some names =>
    rw [hd] at hl
    simp only [List.mem_filter, decide_eq_true_eq]
    have hh : x ∈ (if isHidden c = true then names else names.filter (fun x => !isHidden x)) ↔
        x ∈ names ∧ (x.head? = some '.' → c.head? = some '.') := by
      split
      · rename_i h
        have : c.head? = some '.' := by simpa [isHidden] using h
        simp [this]
      · rename_i h
        have : c.head? ≠ some '.' := by simpa [isHidden] using h
        simp [this, isHidden]
    rw [hh]
    have hm : x ∈ names ↔ IsName x ∧ '\n' ∉ x ∧ ((fs.dirAt d).bind (fun l => step l x)).isSome := by
      rw [← hl]
      simp
    rw [hm]
    constructor
    · rintro ⟨⟨⟨h1, h2, h3⟩, h4⟩, h5⟩
      exact ⟨h1, h2, h3, (Fnmatch.fnmatch_read c x hs h2).mp h5, h4⟩
    · rintro ⟨h1, h2, h3, h4, h5⟩
      exact ⟨⟨⟨h1, h2, h3⟩, h5⟩, (Fnmatch.fnmatch_read c x hs h2).mpr h4⟩

theorem glob0_iff (fs : FS) {abs : Bool} {a : List Text} {d : Text} (hf : Form abs a d) (ha : Inner a) {c : Text}
    (hc : '/' ∉ c) (x : Text) :
    x ∈ glob0 fs d c ↔ x = c ∧ fs.lexists (text abs (a ++ [c])) = true := by
  unfold glob0
  by_cases he : c = []
  · subst he
    rw [if_pos rfl]
    have : fs.isdir d = fs.lexists (text abs (a ++ [[]])) := by
      by_cases hd : d = []
      · subst hd
        have : text abs (a ++ [[]]) = [] := by
          rcases hf with h | h
          · obtain ⟨rfl, rfl⟩ := text_nil ha h.symm
            rfl
          · exact h.symm
        rw [this]
        rfl
      · rw [isdir_iff fs hd, dirAt_form fs hf ha]
        by_cases hta : text abs a = []
        · obtain ⟨rfl, rfl⟩ := text_nil ha hta
          exfalso
          apply hd
          rcases hf with h | h <;> (rw [h]; rfl)
        · unfold FS.lexists
          rw [resolve_snoc_nil fs ha hta]
    rw [this]
    split <;> simp_all
  · rw [if_neg he, join_form1 hf ha hc]
    split <;> simp_all

/-- joined with a directory, the names found are what the component picks there -/
theorem last_iff {fs : FS} (hok : fs.Ok) {r : Bool} {abs : Bool} {a : List Text} {d : Text} (hf : Form abs a d)
    (ha : Inner a) {c : Text} (hc : '/' ∉ c) (hs : Fnmatch.Sound (Fnmatch.pattern c)) (p : Text) :
    p ∈ (lastNames fs r d c).map (fun x => join d x) ↔
      ∃ seg, Seg r c seg ∧ p = text abs (a ++ (if seg = [] then [[]] else seg)) ∧
        ((Rec r c ∧ seg = []) ∨ fs.lexists p = true) := by
  have hjoin : ∀ x, '/' ∉ x → join d x = text abs (a ++ [x]) := fun x hx => join_form1 hf ha hx
  rw [List.mem_map]
  unfold lastNames
  by_cases hm : hasMagic c = true
  · rw [if_pos hm]
    have hnp : ¬ Plain c := by rw [plain_iff]; simp [hm]
    by_cases hr : Rec r c
    · rw [if_pos ((isRec_iff r c).mpr hr)]
      constructor
      · rintro ⟨x, hx, rfl⟩
        rcases List.mem_cons.mp hx with rfl | hx
        · exact ⟨[], .any hr.1 hr.2 (by simp), by rw [hjoin [] (by simp)]; simp, .inl ⟨hr, rfl⟩⟩
        · obtain ⟨us, h1, h2, h3, rfl⟩ := (rlistdir_dirAt hok d x).mp hx
          have hj := join_form hf ha h1 (fun u hu => (h2 u hu).1.2.1)
            (fun u hu => (h2 u (mem_dropLast hu)).1.1)
          refine ⟨us, .any hr.1 hr.2 h2, by rw [hj]; simp [h1], .inr ?_⟩
          rw [hj]
          unfold FS.lexists
          rw [resolve_form_walk fs ha (inner_names h2) h1, ← dirAt_form fs hf ha]
          exact h3
      · rintro ⟨seg, h1, h2, h3⟩
        by_cases hse : seg = []
        · subst hse
          exact ⟨[], .head _, by rw [hjoin [] (by simp), h2]; simp⟩
        · have hu : ∀ x ∈ seg, IsName x ∧ x.head? ≠ some '.' := by
            cases h1 with
            | plain h => exact absurd h hnp
            | magic _ h _ _ _ => exact absurd hr.2 (h hr.1)
            | any _ _ h => exact h
          have h4 := h3.resolve_left (fun h => hse h.2)
          have hj := join_form hf ha hse (fun u hx => (hu u hx).1.2.1)
            (fun u hx => (hu u (mem_dropLast hx)).1.1)
          rw [if_neg hse] at h2
          refine ⟨slashed seg, List.mem_cons_of_mem _ ((rlistdir_dirAt hok d _).mpr ⟨seg, hse, hu, ?_, rfl⟩), ?_⟩
          · rw [h2] at h4
            unfold FS.lexists at h4
            rw [resolve_form_walk fs ha (inner_names hu) hse, ← dirAt_form fs hf ha] at h4
            exact h4
          · rw [hj, h2]
    · rw [if_neg (fun h => hr ((isRec_iff r c).mp h))]
      constructor
      · rintro ⟨x, hx, rfl⟩
        obtain ⟨h1, h2, h3, h4, h5⟩ := (glob1_iff hok hs d x).mp hx
        refine ⟨[x], .magic hnp (fun h he => hr ⟨h, he⟩) h1 h4 h5, by rw [hjoin x h1.2.1]; simp, .inr ?_⟩
        rw [hjoin x h1.2.1]
        unfold FS.lexists
        rw [resolve_form_name fs hf ha h1.2.1 h1.1]
        exact h3
      · rintro ⟨seg, h1, h2, h3⟩
        have h4 := h3.resolve_left (fun h => hr h.1)
        cases h1 with
        | plain h => exact absurd h hnp
        | any h6 h7 _ => exact absurd ⟨h6, h7⟩ hr
        | @magic x _ _ h6 h7 h8 =>
          simp only [List.cons_ne_nil, if_false] at h2
          subst h2
          refine ⟨x, (glob1_iff hok hs d x).mpr ?_, hjoin x h6.2.1⟩
          unfold FS.lexists at h4
          rw [resolve_form_name fs hf ha h6.2.1 h6.1] at h4
          have := (listdir_at hok d x)
          have hnl : '\n' ∉ x := by
            rw [← dirAt_step] at h4
            cases hat : fs.at d with
            | none => rw [hat] at h4; simp at h4
            | some l =>
              have hg := good_at hok hat
              rw [hat, Option.bind_some] at h4
              unfold step at h4
              split at h4
              · rename_i es up
                rw [if_neg (by rintro (h | h); exact h6.1 h; exact h6.2.2.1 h), if_neg h6.2.2.2] at h4
                cases hl : es.lookup x with
                | none => rw [hl] at h4; simp at h4
                | some n =>
                  have hgd := hg.2 (.dir es) (.head _)
                  simp only [Good] at hgd
                  exact (goods_mem hgd (lookup_mem hl)).2.1
              · simp at h4
          exact ⟨h6, hnl, h4, h7, h8⟩
  · rw [if_neg hm]
    have hp : Plain c := by rw [plain_iff]; simpa using hm
    have hr : ¬ Rec r c := fun h => hm (rec_magic h)
    constructor
    · rintro ⟨x, hx, rfl⟩
      obtain ⟨rfl, h1⟩ := (glob0_iff fs hf ha hc x).mp hx
      refine ⟨[x], .plain hp, by rw [hjoin x hc]; simp, .inr ?_⟩
      rw [hjoin x hc]; exact h1
    · rintro ⟨seg, h1, h2, h3⟩
      have h4 := h3.resolve_left (fun h => hr h.1)
      cases h1 with
      | plain h =>
        simp only [List.cons_ne_nil, if_false] at h2
        subst h2
        exact ⟨c, (glob0_iff fs hf ha hc c).mpr ⟨rfl, h4⟩, hjoin c hc⟩
      | any h6 h7 _ => exact absurd ⟨h6, h7⟩ hr
      | magic h _ _ _ _ => exact absurd hp h

/-! ## `_iglob` -/

theorem exists_snoc {cs : List Text} (h : cs ≠ []) : ∃ pre c, cs = pre ++ [c] :=
  ⟨cs.dropLast, cs.getLast h, (List.dropLast_concat_getLast h).symm⟩

/-- what `_iglob` gives -/
structure Result (fs : FS) (r abs : Bool) (cs : List Text) (res : List Text) : Prop where
  sound : ∀ p ∈ res, ∃ qs, Picks r cs qs ∧ p = text abs qs ∧
    ((∃ c, cs.getLast? = some c ∧ Rec r c) ∨ fs.lexists p = true)
  complete : ∀ qs, Picks r cs qs →
    (fs.lexists (text abs qs) = true ∨ ((∃ c, cs.getLast? = some c ∧ Rec r c) ∧ text abs qs = [])) →
    text abs qs ∈ res

/-- the directories looked at -/
theorem dirs_sound {fs : FS} {r abs : Bool} {pre res : List Text} (hne : pre ≠ []) (h : Result fs r abs pre res)
    {d : Text} (hd : d ∈ res) : ∃ a, Picks0 r pre a ∧ Form abs a d := by
  obtain ⟨qs, h1, rfl, _⟩ := h.sound d hd
  obtain ⟨p, c, rfl⟩ := exists_snoc hne
  obtain ⟨a, seg, h2, h3, rfl⟩ := (picks_iff qs).mp h1
  refine ⟨a ++ seg, h2.snoc h3, ?_⟩
  split
  · rename_i he; subst he; right; simp
  · left; rfl

theorem dirs_complete {fs : FS} {r abs : Bool} {pre res : List Text} (hne : pre ≠ []) (hi : Inner pre)
    (h : Result fs r abs pre res) {a : List Text} (ha : Picks0 r pre a)
    (hd : (fs.dirAt (text abs a)).isSome = true) : ∃ d ∈ res, Form abs a d := by
  have hia := ha.inner hi
  obtain ⟨p, c, rfl⟩ := exists_snoc hne
  obtain ⟨b, seg, rfl, h1, h2⟩ := ha.unsnoc
  have hl : (p ++ [c]).getLast? = some c := by simp
  have hex : text abs (b ++ seg) ≠ [] → fs.lexists (text abs (b ++ seg)) = true := by
    intro hne
    unfold FS.dirAt FS.at at hd
    rw [if_neg hne] at hd
    unfold FS.lexists
    cases hr : fs.resolve (text abs (b ++ seg)) with
    | none => rw [hr] at hd; simp at hd
    | some l => rfl
  by_cases hs : seg = []
  · subst hs
    simp only [List.append_nil] at *
    have hrec : Rec r c := by
      cases h2 with
      | any h3 h4 _ => exact ⟨h3, h4⟩
    refine ⟨text abs (b ++ [[]]), h.complete _ ((picks_iff _).mpr ⟨b, [], h1, h2, by simp⟩) ?_, .inr rfl⟩
    by_cases ht : text abs b = []
    · right
      obtain ⟨rfl, rfl⟩ := text_nil hia ht
      exact ⟨⟨c, hl, hrec⟩, rfl⟩
    · left
      unfold FS.lexists
      rw [resolve_snoc_nil fs hia ht]
      exact hd
  · refine ⟨text abs (b ++ seg), h.complete _ ((picks_iff _).mpr ⟨b, seg, h1, h2, by simp [hs]⟩) ?_, .inl rfl⟩
    left
    apply hex
    intro ht
    obtain ⟨_, h3⟩ := text_nil hia ht
    rw [List.append_eq_nil_iff] at h3
    exact hs h3.2

/-- a path can only exist if the directory does -/
theorem dirAt_of_lexists (fs : FS) {abs : Bool} {a seg : List Text} (ha : Inner a)
    (h0 : ∀ u ∈ seg, '/' ∉ u) (hs : (∀ u ∈ seg, u ≠ []) ∨ seg = [[]]) (hne : seg ≠ [])
    (h : fs.lexists (text abs (a ++ seg)) = true) : (fs.dirAt (text abs a)).isSome = true := by
  unfold FS.lexists at h
  by_cases hx : seg = [[]]
  · subst hx
    by_cases ht : text abs a = []
    · obtain ⟨rfl, rfl⟩ := text_nil ha ht
      simp [FS.resolve, text, slashed] at h
    · rw [resolve_snoc_nil fs ha ht] at h
      exact h
  · have hi : Inner seg := fun u hu => ⟨(hs.resolve_right hx) u hu, h0 u hu⟩
    rw [resolve_form_walk fs ha hi hne] at h
    cases hd : fs.dirAt (text abs a) with
    | none => rw [hd] at h; simp at h
    | some l => rfl

theorem seg_parts {r : Bool} {c : Text} {seg : List Text} (hc : '/' ∉ c) (h : Seg r c seg) :
    (∀ u ∈ seg, '/' ∉ u) ∧ ((∀ u ∈ seg, u ≠ []) ∨ seg = [[]]) := by
  cases h with
  | plain _ =>
    refine ⟨by simpa using hc, ?_⟩
    by_cases h : c = []
    · right; rw [h]
    · left; simpa using h
  | magic _ _ h _ _ => exact ⟨by simpa using h.2.1, .inl (by simpa using h.1)⟩
  | any _ _ h => exact ⟨fun u hu => (h u hu).1.2.1, .inl (fun u hu => (h u hu).1.1)⟩

theorem iglob_result {fs : FS} (hok : fs.Ok) (r abs : Bool) (n : Nat) : ∀ cs, PatOk cs → cs.length ≤ n →
    Result fs r abs cs (iglobFrom fs r n (text abs cs)) := by
  induction n with
  | zero =>
    intro cs h hn
    exact absurd (List.eq_nil_of_length_eq_zero (by omega)) h.nonempty
  | succ n ih =>
    intro cs h hn
    obtain ⟨pre, c, rfl⟩ := exists_snoc h.nonempty
    have hi : Inner pre := fun q hq => ⟨h.inner q (by simpa using hq), h.noSlash q (by simp [hq])⟩
    have hc : '/' ∉ c := h.noSlash c (by simp)
    have hs := h.sound c (by simp)
    have hlast : (pre ++ [c]).getLast? = some c := by simp
    have hrec : (∃ d, (pre ++ [c]).getLast? = some d ∧ Rec r d) ↔ Rec r c := by simp
    have key : ∀ dirs : List Text,
        (∀ d ∈ dirs, ∃ a, Picks0 r pre a ∧ Form abs a d) →
        (∀ a, Picks0 r pre a → (fs.dirAt (text abs a)).isSome = true → ∃ d ∈ dirs, Form abs a d) →
        Result fs r abs (pre ++ [c])
          (dirs.flatMap (fun d => (lastNames fs r d c).map (fun x => join d x))) := by
      intro dirs hd1 hd2
      constructor
      · intro p hp
        obtain ⟨d, hd, hp⟩ := List.mem_flatMap.mp hp
        obtain ⟨a, h1, h2⟩ := hd1 d hd
        obtain ⟨seg, h3, h4, h5⟩ := (last_iff hok h2 (h1.inner hi) hc hs p).mp hp
        refine ⟨_, (picks_iff _).mpr ⟨a, seg, h1, h3, rfl⟩, h4, ?_⟩
        rw [hrec]
        rcases h5 with h5 | h5
        · exact .inl h5.1
        · exact .inr h5
      · intro qs hq hx
        obtain ⟨a, seg, h1, h2, rfl⟩ := (picks_iff qs).mp hq
        have hia := h1.inner hi
        rw [hrec] at hx
        have hdir : (fs.dirAt (text abs a)).isSome = true := by
          rcases hx with hx | ⟨hx, he⟩
          · have hsp := seg_parts hc h2
            refine dirAt_of_lexists fs hia ?_ ?_ ?_ hx
            · intro u hu
              split at hu
              · simp only [List.mem_singleton] at hu; subst hu; simp
              · exact hsp.1 u hu
            · split
              · right; rfl
              · exact hsp.2
            · split
              · simp
              · assumption
          · have ha0 : abs = false ∧ a = [] := by
              by_cases hse : seg = []
              · subst hse
                simp only [if_true] at he
                rw [text_snoc_join hia] at he
                apply text_nil hia
                unfold join at he
                rw [if_neg (show ¬ isabs [] = true by decide)] at he
                split at he
                · simpa using he
                · simp at he
              · rw [if_neg hse] at he
                have hin : Inner (a ++ seg) := by
                  intro q hq
                  rcases List.mem_append.mp hq with hq | hq
                  · exact hia q hq
                  · cases h2 with
                    | plain hp => exact absurd ((plain_iff c).mp hp) (by simp [rec_magic hx])
                    | magic _ h _ _ _ => exact absurd hx.2 (h hx.1)
                    | any _ _ h => exact ⟨(h q hq).1.1, (h q hq).1.2.1⟩
                obtain ⟨h3, h4⟩ := text_nil hin he
                rw [List.append_eq_nil_iff] at h4
                exact ⟨h3, h4.1⟩
            obtain ⟨rfl, rfl⟩ := ha0
            obtain ⟨hc1, hc2⟩ := hok.cwd
            unfold FS.dirAt FS.at
            simp only [text, slashed, Bool.false_eq_true, if_false, List.append_nil, if_true]
            cases hcw : fs.cwd with
            | nil => exact absurd hcw hc1
            | cons m up =>
              have := (hc2 m (by rw [hcw]; exact .head _)).2
              simp [this]
        obtain ⟨d, hd, hf⟩ := hd2 a h1 hdir
        refine List.mem_flatMap.mpr ⟨d, hd, (last_iff hok hf hia hc hs _).mpr ⟨seg, h2, rfl, ?_⟩⟩
        rcases hx with hx | ⟨hx, he⟩
        · exact .inr hx
        · by_cases hse : seg = []
          · exact .inl ⟨hx, hse⟩
          · exfalso
            rw [if_neg hse] at he
            have hin : Inner (a ++ seg) := by
              intro q hq
              rcases List.mem_append.mp hq with hq | hq
              · exact hia q hq
              · cases h2 with
                | plain hp => exact absurd ((plain_iff c).mp hp) (by simp [rec_magic hx])
                | magic _ h _ _ _ => exact absurd hx.2 (h hx.1)
                | any _ _ h => exact ⟨(h q hq).1.1, (h q hq).1.2.1⟩
            obtain ⟨_, h4⟩ := text_nil hin he
            rw [List.append_eq_nil_iff] at h4
            exact hse h4.2
    have keyplain := key [text abs pre]
    simp only [iglobFrom, text_split hi hc]
    by_cases hm : hasMagic (text abs (pre ++ [c])) = true
    · rw [if_neg (by simp [hm])]
      have hm' := hm
      rw [hasMagic_text, List.any_append, Bool.or_eq_true] at hm'
      by_cases hd : text abs pre = []
      · obtain ⟨rfl, rfl⟩ := text_nil hi hd
        rw [if_pos hd]
        have hmc : hasMagic c = true := by
          rcases hm' with h | h
          · simp at h
          · simpa using h
        have := key [text false []] (by
            intro d hd
            simp only [List.mem_singleton] at hd
            exact ⟨[], .nil, .inl hd⟩) (by
            intro a ha _
            cases ha
            exact ⟨_, .head _, .inl rfl⟩)
        have hj : ∀ x, join (text false []) x = x := by
          intro x
          simp only [text, slashed, Bool.false_eq_true, if_false, List.append_nil, join]
          split <;> simp
        simp only [List.flatMap_cons, List.flatMap_nil, List.append_nil, hj, lastNames, hmc, if_true,
          List.map_id'] at this
        exact this
      · rw [if_neg hd]
        by_cases hmp : pre.any hasMagic = true
        · have hne : pre ≠ [] := by rintro rfl; simp at hmp
          have hcond : text abs pre ≠ text abs (pre ++ [c]) ∧ hasMagic (text abs pre) = true := by
            refine ⟨?_, by rw [hasMagic_text]; exact hmp⟩
            intro he
            have : text abs (pre ++ [c]) = text abs pre ++ '/' :: c := by
              simp [text, slashed_append hne (show [c] ≠ [] by simp), slashed]
            rw [this] at he
            have := congrArg List.length he
            simp at this
          rw [if_pos hcond]
          have hpre : PatOk pre := {
            nonempty := hne
            noSlash := fun q hq => (hi q hq).2
            inner := fun q hq => (hi q (mem_dropLast hq)).1
            sound := fun q hq => h.sound q (by simp [hq]) }
          have hres := ih pre hpre (by simp at hn; omega)
          exact key _ (fun d hd => dirs_sound hne hres hd) (fun a ha hd => dirs_complete hne hi hres ha hd)
        · rw [if_neg (by rw [hasMagic_text]; exact fun hx => hmp hx.2)]
          have hpl : pre.any hasMagic = false := by simpa using hmp
          exact keyplain (by
              intro d hd
              simp only [List.mem_singleton] at hd
              exact ⟨pre, (picks0_plain hpl).mpr rfl, .inl hd⟩) (by
              intro a ha _
              rw [picks0_plain hpl] at ha
              subst ha
              exact ⟨_, .head _, .inl rfl⟩)
    · rw [if_pos hm]
      have hm' : hasMagic (text abs (pre ++ [c])) = false := by simpa using hm
      rw [hasMagic_text, List.any_append, Bool.or_eq_false_iff] at hm'
      have hmc : hasMagic c = false := by simpa using hm'.2
      have hnr : ¬ Rec r c := fun hx => by rw [rec_magic hx] at hmc; simp at hmc
      have hres := keyplain (by
              intro d hd
              simp only [List.mem_singleton] at hd
              exact ⟨pre, (picks0_plain hm'.1).mpr rfl, .inl hd⟩) (by
              intro a ha _
              rw [picks0_plain hm'.1] at ha
              subst ha
              exact ⟨_, .head _, .inl rfl⟩)
      have hmem : ∀ p, p ∈ ([text abs pre].flatMap (fun d => (lastNames fs r d c).map (fun x => join d x))) ↔
          p = text abs (pre ++ [c]) ∧ fs.lexists p = true := by
        intro p
        simp only [List.flatMap_cons, List.flatMap_nil, List.append_nil, lastNames, hmc, Bool.false_eq_true,
          if_false, List.mem_map]
        constructor
        · rintro ⟨x, hx, rfl⟩
          obtain ⟨rfl, h2⟩ := (glob0_iff fs (.inl rfl) hi hc x).mp hx
          rw [join_form1 (.inl rfl) hi hc]
          exact ⟨rfl, h2⟩
        · rintro ⟨rfl, h2⟩
          exact ⟨c, (glob0_iff fs (.inl rfl) hi hc c).mpr ⟨rfl, h2⟩, join_form1 (.inl rfl) hi hc⟩
      have hsame : ∀ p, p ∈ (if c ≠ [] then if fs.lexists (text abs (pre ++ [c])) = true then [text abs (pre ++ [c])] else []
          else if fs.isdir (text abs pre) = true then [text abs (pre ++ [c])] else []) ↔
          p = text abs (pre ++ [c]) ∧ fs.lexists p = true := by
        intro p
        by_cases hce : c = []
        · subst hce
          have := glob0_iff fs (abs := abs) (.inl rfl) hi (c := []) (by simp) []
          simp only [glob0, if_true, true_and] at this
          simp only [ne_eq, not_true_eq_false, if_false]
          split
          · rename_i hd
            rw [if_pos hd] at this
            have hx := this.mp (.head _)
            constructor
            · intro hp
              simp only [List.mem_singleton] at hp
              subst hp
              exact ⟨rfl, hx⟩
            · rintro ⟨rfl, _⟩; exact .head _
          · rename_i hd
            rw [if_neg hd] at this
            simp only [List.not_mem_nil, false_iff] at this ⊢
            rintro ⟨rfl, hx⟩
            exact this hx
        · simp only [ne_eq, hce, not_false_eq_true, if_true]
          split
          · rename_i hx
            constructor
            · intro hp
              simp only [List.mem_singleton] at hp
              subst hp
              exact ⟨rfl, hx⟩
            · rintro ⟨rfl, _⟩; exact .head _
          · rename_i hx
            simp only [List.not_mem_nil, false_iff]
            rintro ⟨rfl, h'⟩
            exact hx h'
      constructor
      · intro p hp
        exact hres.sound p ((hmem p).mpr ((hsame p).mp hp))
      · intro qs hq hx
        exact (hsame _).mpr ((hmem _).mp (hres.complete qs hq hx))

end Verif.Glob
