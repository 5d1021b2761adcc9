import Verif.Main.Target
/-!
# Targets

C108.
-/
namespace Verif.Main.Target

/-- The name under which a use of the decorator registers its function. -/
def Use.Names (u : Use) (n : Text) : Prop := u.name = some n ∨ (u.name = none ∧ u.function.name = n)

theorem new_name {u : Use} {n : Text} : (Target.new u.function u.name u.help).name = n ↔ u.Names n := by
  unfold Target.new Use.Names
  cases u.name <;> simp

theorem get?_register (ts : Targets) (u : Use) (n : Text) :
    (register ts u).get? n = if (Target.new u.function u.name u.help).name = n then some (Target.new u.function u.name u.help)
      else ts.get? n := by
  unfold register
  simp

theorem get?_uses (uses : List Use) (n : Text) : ∀ ts : Targets,
    (∀ a u b, uses = a ++ u :: b → u.Names n → (∀ v ∈ b, ¬ v.Names n) →
      (uses.foldl register ts).get? n = some (Target.new u.function u.name u.help)) ∧
    ((∀ v ∈ uses, ¬ v.Names n) → (uses.foldl register ts).get? n = ts.get? n) := by
  induction uses with
  | nil =>
    intro ts
    refine ⟨?_, fun _ => rfl⟩
    intro a u b h
    cases a <;> simp at h
  | cons w uses ih =>
    intro ts
    obtain ⟨h1, h2⟩ := ih (register ts w)
    refine ⟨?_, ?_⟩
    · intro a u b h hu hb
      cases a with
      | nil =>
        simp only [List.nil_append, List.cons.injEq] at h
        obtain ⟨rfl, rfl⟩ := h
        rw [List.foldl_cons, h2 hb, get?_register, if_pos (new_name.2 hu)]
      | cons x a =>
        simp only [List.cons_append, List.cons.injEq] at h
        rw [List.foldl_cons]
        exact h1 a u b h.2 hu hb
    · intro h
      rw [List.foldl_cons, h2 (fun v hv => h v (.tail _ hv)), get?_register, if_neg]
      intro h'
      exact h w (.head _) (new_name.1 h')

theorem get?_main (attr : Text → Option Fn) (ts : Targets) (n : Text) :
    (registerMain attr ts).get? n =
      if n = "configure".toList ∨ n = "build".toList then
        match attr n with
        | some f => some (Target.new f (some n) none)
        | none => ts.get? n
      else ts.get? n := by
  unfold registerMain
  simp only [List.foldl_cons, List.foldl_nil]
  have key : ∀ (ts : Targets) (m : Text), (registerAttr attr ts m).get? n = if n = m then (match attr n with
        | some f => some (Target.new f (some n) none)
        | none => ts.get? n) else ts.get? n := by
    intro ts m
    unfold registerAttr
    by_cases hm : n = m
    · subst hm
      rw [if_pos rfl]
      cases attr n with
      | none => rfl
      | some f => simp [get?_register, Target.new]
    · rw [if_neg hm]
      cases attr m with
      | none => rfl
      | some f => simp [get?_register, Target.new, Ne.symm hm]
  rw [key, key]
  by_cases h1 : n = "build".toList
  · rw [if_pos h1, if_pos (Or.inr h1)]
    have h2 : n ≠ "configure".toList := by rw [h1]; decide
    rw [if_neg h2]
  · rw [if_neg h1]
    by_cases h2 : n = "configure".toList
    · rw [if_pos h2, if_pos (Or.inl h2)]
    · rw [if_neg h2, if_neg (fun h => h.elim h2 h1)]

/-- **C108**: `fbuild build` and `fbuild configure` run the functions of these names of the build script, whatever is registered. -/
theorem C108_main (uses : List Use) (attr : Text → Option Fn) (n : Text) (f : Fn)
    (hn : n = "configure".toList ∨ n = "build".toList) (hf : attr n = some f) :
    (find (targets uses attr) n).map (fun t => (t.function, t.name)) = some (f, n) := by
  unfold find targets
  rw [get?_main, if_pos hn, hf]
  rfl

/-- **C108**: any other name runs the function that was registered under it last; the help text is the one that was given, else the
docstring. -/
theorem C108_find (a b : List Use) (u : Use) (attr : Text → Option Fn) (n : Text)
    (hn : (n ≠ "configure".toList ∧ n ≠ "build".toList) ∨ attr n = none) (hu : u.Names n) (hb : ∀ v ∈ b, ¬ v.Names n) :
    ∃ t, find (targets (a ++ u :: b) attr) n = some t ∧ t.function = u.function ∧ t.name = n ∧
      (∀ h, u.help = some h → t.help = some h) ∧ (u.help = none → t.help = u.function.doc) := by
  refine ⟨Target.new u.function u.name u.help, ?_, rfl, new_name.2 hu, ?_, ?_⟩
  · unfold find targets
    rw [get?_main]
    have := (get?_uses (a ++ u :: b) n []).1 a u b rfl hu hb
    rcases hn with ⟨h1, h2⟩ | hn
    · rw [if_neg (fun h => h.elim h1 h2), this]
    · rw [hn, this]
      split <;> rfl
  · intro h hh
    simp [Target.new, hh]
  · intro hh
    simp [Target.new, hh]

/-- **C108**: a name that was not registered is an error. -/
theorem C108_unknown (uses : List Use) (attr : Text → Option Fn) (n : Text)
    (hn : (n ≠ "configure".toList ∧ n ≠ "build".toList) ∨ attr n = none) (hu : ∀ v ∈ uses, ¬ v.Names n) :
    find (targets uses attr) n = none := by
  unfold find targets
  rw [get?_main]
  have := (get?_uses uses n []).2 hu
  rcases hn with ⟨h1, h2⟩ | hn
  · rw [if_neg (fun h => h.elim h1 h2), this]; rfl
  · rw [hn, this]
    split <;> rfl

/-! ## The help text -/

/-- each target is stored under its own name, once -/
def Keyed (ts : Targets) : Prop := (∀ p ∈ ts, p.2.name = p.1) ∧ (ts.map Prod.fst).Nodup

theorem mem_set {ts : Targets} {k : Text} {v : Target} {p : Text × Target} (h : p ∈ ts.set k v) : p = (k, v) ∨ p ∈ ts := by
  induction ts with
  | nil => simpa [Dict.set] using h
  | cons q ts ih =>
    obtain ⟨k', v'⟩ := q
    rw [Dict.set] at h
    split at h
    · rcases List.mem_cons.1 h with h | h
      · exact .inl h
      · exact .inr (.tail _ h)
    · rcases List.mem_cons.1 h with h | h
      · exact .inr (h ▸ .head _)
      · rcases ih h with h | h
        · exact .inl h
        · exact .inr (.tail _ h)

theorem keyed_set {ts : Targets} (h : Keyed ts) (v : Target) : Keyed (ts.set v.name v) := by
  constructor
  · intro p hp
    rcases mem_set hp with rfl | hp
    · rfl
    · exact h.1 p hp
  · have h2 := h.2
    clear h
    induction ts with
    | nil => simp [Dict.set]
    | cons q ts ih =>
      obtain ⟨k', v'⟩ := q
      rw [List.map_cons, List.nodup_cons] at h2
      rw [Dict.set]
      split
      · rename_i hk
        rw [List.map_cons, List.nodup_cons]
        rw [hk] at h2
        exact h2
      · rename_i hk
        rw [List.map_cons, List.nodup_cons]
        refine ⟨?_, ih h2.2⟩
        intro hm
        obtain ⟨p, hp, he⟩ := List.mem_map.1 hm
        rcases mem_set hp with rfl | hp
        · exact hk he.symm
        · exact h2.1 (List.mem_map.2 ⟨p, hp, he⟩)

theorem keyed_targets (uses : List Use) (attr : Text → Option Fn) : Keyed (targets uses attr) := by
  have h1 : ∀ (uses : List Use) (ts : Targets), Keyed ts → Keyed (uses.foldl register ts) := by
    intro uses
    induction uses with
    | nil => intro ts h; exact h
    | cons u uses ih => intro ts h; exact ih _ (keyed_set h _)
  have h0 := h1 uses [] ⟨by simp, by simp⟩
  unfold targets registerMain
  simp only [List.foldl_cons, List.foldl_nil]
  have step : ∀ (ts : Targets) (m : Text), Keyed ts → Keyed (registerAttr attr ts m) := by
    intro ts m h
    unfold registerAttr
    cases attr m with
    | none => exact h
    | some f => exact keyed_set h _
  exact step _ _ (step _ _ h0)

theorem get?_of_mem {ts : Targets} (h : (ts.map Prod.fst).Nodup) {p : Text × Target} (hp : p ∈ ts) : ts.get? p.1 = some p.2 := by
  induction ts with
  | nil => exact (nomatch hp)
  | cons q ts ih =>
    obtain ⟨k, v⟩ := q
    rw [List.map_cons, List.nodup_cons] at h
    rw [Dict.get?]
    rcases List.mem_cons.1 hp with rfl | hp
    · simp
    · rw [if_neg]
      · exact ih h.2 hp
      · intro hk
        exact h.1 (List.mem_map.2 ⟨p, hp, hk.symm⟩)

theorem mem_of_get? {ts : Targets} {n : Text} {t : Target} (h : ts.get? n = some t) : (n, t) ∈ ts := by
  induction ts with
  | nil => simp at h
  | cons q ts ih =>
    obtain ⟨k, v⟩ := q
    rw [Dict.get?] at h
    split at h
    · rename_i hk
      cases h
      subst hk
      exact .head _
    · exact .tail _ (ih h)

theorem le_foldl_max (l : List Nat) : ∀ (d : Nat), d ≤ l.foldl max d ∧ ∀ x ∈ l, x ≤ l.foldl max d := by
  induction l with
  | nil => intro d; exact ⟨Nat.le_refl _, by simp⟩
  | cons y l ih =>
    intro d
    obtain ⟨h1, h2⟩ := ih (max d y)
    refine ⟨Nat.le_trans (Nat.le_max_left _ _) h1, ?_⟩
    intro x hx
    rcases List.mem_cons.1 hx with rfl | hx
    · exact Nat.le_trans (Nat.le_max_right _ _) h1
    · exact h2 x hx

theorem join_eq (ls : List Text) : join ['\n'] ls = ['\n'].intercalate ls := by
  induction ls with
  | nil => rfl
  | cons l ls ih =>
    cases ls with
    | nil => simp [join, List.intercalate, List.intersperse]
    | cons l' ls =>
      rw [join, ih]
      simp [List.intercalate, List.intersperse]

theorem insert_perm (t : Target) (l : List Target) : (insert t l).Perm (t :: l) := by
  induction l with
  | nil => exact .refl _
  | cons u l ih =>
    rw [insert]
    split
    · exact (List.Perm.cons u ih).trans (List.Perm.swap t u l)
    · exact .refl _

theorem insert_sorted (t : Target) (l : List Target) (h : l.Pairwise fun a b => a.name ≤ b.name) :
    (insert t l).Pairwise fun a b => a.name ≤ b.name := by
  induction l with
  | nil => simp [insert]
  | cons u l ih =>
    rw [List.pairwise_cons] at h
    rw [insert]
    split
    · rename_i hu
      rw [List.pairwise_cons]
      refine ⟨fun x hx => ?_, ih h.2⟩
      rcases List.mem_cons.1 ((insert_perm t l).mem_iff.1 hx) with rfl | hx
      · exact hu
      · exact h.1 x hx
    · rename_i hu
      have htu : t.name ≤ u.name := (List.le_total u.name t.name).resolve_left hu
      rw [List.pairwise_cons, List.pairwise_cons]
      refine ⟨fun x hx => ?_, h⟩
      rcases List.mem_cons.1 hx with rfl | hx
      · exact htu
      · exact List.le_trans htu (h.1 x hx)

theorem sorted_spec (l : List Target) : ∀ acc : List Target, acc.Pairwise (fun a b => a.name ≤ b.name) →
    (l.foldl (fun l t => insert t l) acc).Pairwise (fun a b => a.name ≤ b.name) ∧
      (l.foldl (fun l t => insert t l) acc).Perm (acc ++ l) := by
  induction l with
  | nil => intro acc h; exact ⟨h, by simp⟩
  | cons t l ih =>
    intro acc h
    obtain ⟨h1, h2⟩ := ih (insert t acc) (insert_sorted t acc h)
    refine ⟨h1, h2.trans ?_⟩
    refine ((insert_perm t acc).append_right l).trans ?_
    rw [List.cons_append]
    exact List.perm_middle.symm

/-- **C108**: the help text lists every target that can be run, once, in the order of the names, each with its help; all the help
begins in the same column. -/
theorem C108_help (uses : List Use) (attr : Text → Option Fn) :
    ∃ (l : List Target) (width : Nat),
      helpString (targets uses attr) = ['\n'].intercalate (l.map fun t =>
        "  ".toList ++ (t.name ++ List.replicate (width - t.name.length) ' ') ++ "\t".toList ++ t.help.getD []) ∧
      (∀ t ∈ l, t.name.length ≤ width) ∧
      l.Pairwise (fun a b => a.name < b.name) ∧
      ∀ n t, find (targets uses attr) n = some t ↔ t ∈ l ∧ t.name = n := by
  have hk := keyed_targets uses attr
  generalize targets uses attr = ts at hk ⊢
  have hperm : (sorted ts).Perm (ts.map Prod.snd) := by
    simpa [sorted] using (sorted_spec (ts.map Prod.snd) [] .nil).2
  refine ⟨sorted ts, ((sorted ts).map fun t => t.name.length).foldl max 0, ?_, ?_, ?_, ?_⟩
  · unfold helpString
    simp only
    split
    · rename_i h
      rw [h]; rfl
    · rw [join_eq]; rfl
  · intro t ht
    exact (le_foldl_max _ 0).2 _ (List.mem_map.2 ⟨t, ht, rfl⟩)
  · have h1 : (sorted ts).Pairwise (fun a b => a.name ≤ b.name) := (sorted_spec (ts.map Prod.snd) [] .nil).1
    have h2 : (sorted ts).Pairwise (fun a b => a.name ≠ b.name) := by
      have : ((sorted ts).map (·.name)).Nodup := by
        rw [(hperm.map _).nodup_iff, List.map_map]
        have he : (ts.map ((·.name) ∘ Prod.snd)) = ts.map Prod.fst := List.map_congr_left fun p hp => hk.1 p hp
        rw [he]
        exact hk.2
      exact List.pairwise_map.1 this
    refine (h1.and h2).imp ?_
    intro a b ⟨h1, h2⟩
    rcases List.le_iff_lt_or_eq.1 h1 with h | h
    · exact h
    · exact absurd h h2
  · intro n t
    rw [hperm.mem_iff]
    unfold find
    constructor
    · intro h
      have := mem_of_get? h
      exact ⟨List.mem_map.2 ⟨_, this, rfl⟩, hk.1 _ this⟩
    · rintro ⟨h, rfl⟩
      obtain ⟨p, hp, rfl⟩ := List.mem_map.1 h
      rw [hk.1 p hp]
      exact get?_of_mem hk.2 hp

/-! ## Examples -/

def fBuild : Fn := ⟨"build".toList, none, 0⟩
def fTest : Fn := ⟨"test".toList, some "Run the tests".toList, 1⟩
def fTest2 : Fn := ⟨"test2".toList, none, 2⟩
def exUses : List Use := [⟨fTest, none, none⟩, ⟨fTest2, some "build".toList, none⟩, ⟨fTest2, some "test".toList, some "x".toList⟩]
def exAttr : Text → Option Fn := fun n => if n = "build".toList then some fBuild else none

/-- `C108_main`, `C108_find`, `C108_unknown`, `C108_help` -/
example : (find (targets exUses exAttr) "build".toList).map (·.function) = some fBuild ∧
    (find (targets exUses exAttr) "test".toList).map (·.function) = some fTest2 ∧
    find (targets exUses exAttr) "test2".toList = none ∧
    helpString (targets exUses exAttr) = "  build\t\n  test \tx".toList := by
  refine ⟨?_, ?_, ?_, ?_⟩ <;> decide +kernel

end Verif.Main.Target
