import Verif.Alias.Core
/-!
# Objects in the table of calls: properties

C58: the arguments a result is stored under are those the function was called with.  C64: the result handed out from the table is
the one the function returned.  Both are violated when objects are changed; both hold while nobody changes an object that is an
argument of a running call or that the table itself contains.
-/
namespace Verif.Alias
variable {V : Type} [DecidableEq V]

/-- May the object be changed now?  Not while it is an argument of a running call, and not if the table contains the object
itself. -/
def MayChange (s : State V) (r : Ref) : Prop :=
  (∀ id p, s.pending id = some p → r ∉ p.args) ∧
  ∀ f, ∀ e ∈ s.table f, (∀ k ∈ e.key, r ∉ k.refs) ∧ r ∉ e.res.refs

/-- all changes of objects keep to `MayChange` -/
def Careful (eng : Engine) : State V → List (Event V) → Prop
  | _, [] => True
  | s, ev :: evs => (∀ r v, ev = .mutate r v → MayChange s r) ∧ Careful eng (step eng s ev).2 evs

/-- no object is changed while it is an argument of a running call -/
def ArgsKept (eng : Engine) : State V → List (Event V) → Prop
  | _, [] => True
  | s, ev :: evs => (∀ r v, ev = .mutate r v → ∀ id p, s.pending id = some p → r ∉ p.args) ∧
      ArgsKept eng (step eng s ev).2 evs

/-- the entry says what an execution did: its arguments are those of the call, its result the one returned -/
def Tells (s : State V) (f : FunName) (e : Entry V) : Prop :=
  ⟨f, e.key.map (Stored.value s.heap), e.res.value s.heap⟩ ∈ s.log

/-! ## Proof -/

/-- what holds while everybody is careful -/
structure Inv (s : State V) : Prop where
  table : ∀ f, ∀ e ∈ s.table f, Tells s f e
  ids : ∀ f, ∀ e ∈ s.table f, e.id < s.next
  uniq : ∀ f g, ∀ e ∈ s.table f, ∀ e' ∈ s.table g, e.id = e'.id → f = g ∧ e.key = e'.key
  args : ∀ id p, s.pending id = some p → p.args.map s.heap = p.vals
  old : ∀ id p i k, s.pending id = some p → p.found = some (i, k) → k < s.next
  found : ∀ id p i k, s.pending id = some p → p.found = some (i, k) →
    ∀ f, ∀ e ∈ s.table f, e.id = k → f = p.fn ∧ e.key.map (Stored.value s.heap) = p.vals

omit [DecidableEq V] in
theorem inv_init (h : Heap V) : Inv (init h) := by
  constructor <;> simp [init]

omit [DecidableEq V] in
theorem value_upd {h : Heap V} {r : Ref} {v : V} {k : Stored V} (hk : r ∉ k.refs) : k.value (upd h r v) = k.value h := by
  cases k with
  | copy => rfl
  | ref q =>
    have : q ≠ r := fun h => hk (by simp [Stored.refs, h])
    simp [Stored.value, upd, this]

omit [DecidableEq V] in
theorem values_upd {h : Heap V} {r : Ref} {v : V} {l : List (Stored V)} (hk : ∀ k ∈ l, r ∉ k.refs) :
    l.map (Stored.value (upd h r v)) = l.map (Stored.value h) :=
  List.map_congr_left fun k m => value_upd (hk k m)

omit [DecidableEq V] in
theorem map_upd {h : Heap V} {r : Ref} {v : V} {l : List Ref} (hk : r ∉ l) : l.map (upd h r v) = l.map h := by
  refine List.map_congr_left fun q m => ?_
  have : q ≠ r := fun e => hk (e ▸ m)
  simp [upd, this]

omit [DecidableEq V] in
theorem value_store (eng : Engine) (h : Heap V) (r : Ref) : (eng.store h r).value h = h r := by cases eng <;> rfl

omit [DecidableEq V] in
theorem values_store (eng : Engine) (h : Heap V) (l : List Ref) :
    (l.map (eng.store h)).map (Stored.value h) = l.map h := by
  rw [List.map_map]; exact List.map_congr_left fun r _ => value_store eng h r

theorem findCall_some {h : Heap V} {vals : List V} {t : List (Entry V)} {i : Nat} {e : Entry V}
    (hf : findCall h vals t = some (i, e)) : e ∈ t ∧ e.key.map (Stored.value h) = vals := by
  unfold findCall at hf
  split at hf
  · rename_i i' e' _ h2
    obtain ⟨rfl, rfl⟩ := Prod.mk.inj (Option.some.inj hf)
    exact ⟨List.mem_of_find?_eq_some h2, by simpa [keyIs] using List.find?_some h2⟩
  · exact nomatch hf

theorem findCall_isSome {h : Heap V} {vals : List V} {t : List (Entry V)} {e : Entry V} (he : e ∈ t)
    (hk : e.key.map (Stored.value h) = vals) : ∃ x, findCall h vals t = some x := by
  have hb : keyIs h vals e = true := by simp [keyIs, hk]
  unfold findCall
  cases h1 : t.findIdx? (keyIs h vals) with
  | none => rw [List.findIdx?_eq_none_iff] at h1; exact absurd hb (by simp [h1 e he])
  | some i =>
    cases h2 : t.find? (keyIs h vals) with
    | none => rw [List.find?_eq_none] at h2; exact absurd hb (h2 e he)
    | some x => exact ⟨_, rfl⟩

/-- an entry of the table after `save_call`: new, old, or the result of an old row replaced -/
theorem mem_saveCall {eng : Engine} {h : Heap V} {next : Nat} {found : Option (Nat × Nat)} {args : List Ref} {res : Ref}
    {t : List (Entry V)} {e : Entry V} (he : e ∈ saveCall eng h next found args res t) :
    e = ⟨next, args.map (eng.store h), eng.store h res⟩ ∨ e ∈ t ∨
    ∃ i k, found = some (i, k) ∧ ∃ e' ∈ t, e'.id = k ∧ e = { e' with res := eng.store h res } := by
  unfold saveCall at he
  cases found with
  | none =>
    have he : e ∈ t ++ [⟨next, args.map (eng.store h), eng.store h res⟩] := by cases eng <;> exact he
    rcases List.mem_append.1 he with m | m
    · exact .inr (.inl m)
    · exact .inl (List.mem_singleton.1 m)
  | some x =>
    obtain ⟨i, k⟩ := x
    cases eng with
    | alias =>
      simp only at he
      split at he
      · exact .inl (List.mem_singleton.1 he)
      · rcases List.mem_or_eq_of_mem_set he with m | m
        · exact .inr (.inl m)
        · exact .inl m
    | copy =>
      simp only [List.mem_map] at he
      obtain ⟨e', m, rfl⟩ := he
      split
      · exact .inr (.inr ⟨i, k, rfl, e', m, by assumption, rfl⟩)
      · exact .inr (.inl m)

theorem inv_finish {eng : Engine} {s : State V} (hi : Inv s) {id : Nat} {p : Pending V} (hp : s.pending id = some p)
    (res : Ref) : Inv { s with
        table := upd s.table p.fn (saveCall eng s.heap s.next p.found p.args res (if p.dirty then [] else s.table p.fn))
        next := s.next + 1
        pending := upd s.pending id none
        log := ⟨p.fn, p.vals, s.heap res⟩ :: s.log } := by
  -- every entry of the new table: the new one, an old one, or an old one with the new result
  have key : ∀ f e, e ∈ upd s.table p.fn (saveCall eng s.heap s.next p.found p.args res
        (if p.dirty then [] else s.table p.fn)) f →
      (f = p.fn ∧ e = ⟨s.next, p.args.map (eng.store s.heap), eng.store s.heap res⟩) ∨ e ∈ s.table f ∨
      (f = p.fn ∧ ∃ e' ∈ s.table p.fn, e'.key.map (Stored.value s.heap) = p.vals ∧
        e = { e' with res := eng.store s.heap res }) := by
    intro f e he
    unfold upd at he
    split at he
    · rename_i hf
      subst hf
      have hsub : ∀ x, x ∈ (if p.dirty then [] else s.table p.fn) → x ∈ s.table p.fn := by
        intro x hx; split at hx
        · exact absurd hx (by simp)
        · exact hx
      rcases mem_saveCall he with m | m | ⟨i, k, hfk, e', m, hk, rfl⟩
      · exact .inl ⟨rfl, m⟩
      · exact .inr (.inl (hsub _ m))
      · exact .inr (.inr ⟨rfl, e', hsub _ m, (hi.found id p i k hp hfk p.fn e' (hsub _ m) hk).2, rfl⟩)
    · exact .inr (.inl he)
  have pend : ∀ j q, upd s.pending id none j = some q → s.pending j = some q := by
    intro j q hq; unfold upd at hq; split at hq
    · exact nomatch hq
    · exact hq
  -- identity and key of an entry of the new table: new or as before
  have ik : ∀ f e, e ∈ upd s.table p.fn (saveCall eng s.heap s.next p.found p.args res
        (if p.dirty then [] else s.table p.fn)) f →
      (f = p.fn ∧ e.id = s.next ∧ e.key = p.args.map (eng.store s.heap)) ∨
      ∃ e' ∈ s.table f, e.id = e'.id ∧ e.key = e'.key := by
    intro f e he
    rcases key f e he with ⟨rfl, rfl⟩ | m | ⟨rfl, e', m, _, rfl⟩
    · exact .inl ⟨rfl, rfl, rfl⟩
    · exact .inr ⟨e, m, rfl, rfl⟩
    · exact .inr ⟨e', m, rfl, rfl⟩
  refine ⟨?_, ?_, ?_, ?_, ?_, ?_⟩
  · intro f e he
    rcases key f e he with ⟨rfl, rfl⟩ | m | ⟨rfl, e', m, hk, rfl⟩
    · refine List.mem_cons.2 (.inl ?_)
      simp only [values_store, value_store, hi.args id p hp]
    · exact List.mem_cons_of_mem _ (hi.table f e m)
    · refine List.mem_cons.2 (.inl ?_)
      simp only [value_store, hk]
  · intro f e he
    rcases ik f e he with ⟨_, h, _⟩ | ⟨e', m, h, _⟩
    · simp only [h]; omega
    · have := hi.ids f e' m; simp only [h]; omega
  · intro f g e he e' he' hid
    rcases ik f e he with ⟨rfl, h, hk⟩ | ⟨x, m, h, hk⟩ <;> rcases ik g e' he' with ⟨rfl, h', hk'⟩ | ⟨x', m', h', hk'⟩
    · exact ⟨rfl, hk.trans hk'.symm⟩
    · have := hi.ids g x' m'; omega
    · have := hi.ids f x m; omega
    · have := hi.uniq f g x m x' m' (by omega)
      exact ⟨this.1, by rw [hk, hk', this.2]⟩
  · intro j q hq; exact hi.args j q (pend j q hq)
  · intro j q i k hq hf; have := hi.old j q i k (pend j q hq) hf; simp only; omega
  · intro j q i k hq hf f e he hid
    rcases ik f e he with ⟨rfl, h, hk⟩ | ⟨x, m, h, hk⟩
    · have := hi.old j q i k (pend j q hq) hf; omega
    · have := hi.found j q i k (pend j q hq) hf f x m (by omega)
      exact ⟨this.1, by simp only [hk]; exact this.2⟩

theorem inv_start {s : State V} (hi : Inv s) (id : Nat) (f : FunName) (args : List Ref) (dirty : Bool)
    (found : Option (Nat × Entry V))
    (hf : ∀ i e, found = some (i, e) → e ∈ s.table f ∧ e.key.map (Stored.value s.heap) = args.map s.heap) :
    Inv { s with
      pending := upd s.pending id (some ⟨f, args, args.map s.heap, dirty, found.map fun x => (x.1, x.2.id)⟩) } := by
  have pend : ∀ j q, upd s.pending id (some ⟨f, args, args.map s.heap, dirty, found.map fun x => (x.1, x.2.id)⟩) j = some q →
      q = ⟨f, args, args.map s.heap, dirty, found.map fun x => (x.1, x.2.id)⟩ ∨ s.pending j = some q := by
    intro j q hq; unfold upd at hq; split at hq
    · exact .inl (Option.some.inj hq).symm
    · exact .inr hq
  refine ⟨hi.table, hi.ids, hi.uniq, ?_, ?_, ?_⟩
  · intro j q hq
    rcases pend j q hq with rfl | h
    · rfl
    · exact hi.args j q h
  · intro j q i k hq hk
    rcases pend j q hq with rfl | h
    · cases found with
      | none => exact nomatch hk
      | some x =>
        obtain ⟨i', e⟩ := x
        have := (Prod.mk.inj (Option.some.inj hk)).2
        have hm := hi.ids f e (hf i' e rfl).1
        simp only at this ⊢; omega
    · exact hi.old j q i k h hk
  · intro j q i k hq hk g e' he' hid
    rcases pend j q hq with rfl | h
    · cases found with
      | none => exact nomatch hk
      | some x =>
        obtain ⟨i', e⟩ := x
        have hke := (Prod.mk.inj (Option.some.inj hk)).2
        have hm := hf i' e rfl
        have := hi.uniq g f e' he' e hm.1 (by simp only at hke; omega)
        exact ⟨this.1, by simp only [this.2]; exact hm.2⟩
    · exact hi.found j q i k h hk g e' he' hid

theorem inv_step {eng : Engine} {s : State V} (hi : Inv s) (ev : Event V)
    (hc : ∀ r v, ev = .mutate r v → MayChange s r) : Inv (step eng s ev).2 := by
  cases ev with
  | start id f args dirty usable =>
    have hf : ∀ i e, (if dirty then none else findCall s.heap (args.map s.heap) (s.table f)) = some (i, e) →
        e ∈ s.table f ∧ e.key.map (Stored.value s.heap) = args.map s.heap := by
      intro i e h; split at h
      · exact nomatch h
      · exact findCall_some h
    have := inv_start hi id f args dirty _ hf
    simp only [step]
    split
    · exact hi
    · exact this
  | finish id res =>
    simp only [step]
    split
    · exact hi
    · exact inv_finish hi (by assumption) res
  | fail id =>
    have pend : ∀ j q, upd s.pending id none j = some q → s.pending j = some q := by
      intro j q hq; unfold upd at hq; split at hq
      · exact nomatch hq
      · exact hq
    exact ⟨hi.table, hi.ids, hi.uniq, fun j q h => hi.args j q (pend j q h), fun j q i k h => hi.old j q i k (pend j q h),
      fun j q i k h => hi.found j q i k (pend j q h)⟩
  | mutate r v =>
    obtain ⟨h1, h2⟩ := hc r v rfl
    refine ⟨?_, hi.ids, hi.uniq, ?_, hi.old, ?_⟩
    · intro f e he
      have := hi.table f e he
      unfold Tells at this ⊢
      simp only [step]
      rw [values_upd (h2 f e he).1, value_upd (h2 f e he).2]; exact this
    · intro j q hq
      simp only [step]
      rw [map_upd (h1 j q hq)]; exact hi.args j q hq
    · intro j q i k hq hk f e he hid
      simp only [step]
      rw [values_upd (h2 f e he).1]; exact hi.found j q i k hq hk f e he hid
  | forget f =>
    have sub : ∀ g e, e ∈ upd s.table f [] g → e ∈ s.table g := by
      intro g e he; unfold upd at he; split at he
      · exact absurd he (by simp)
      · exact he
    exact ⟨fun g e he => hi.table g e (sub g e he), fun g e he => hi.ids g e (sub g e he),
      fun g g' e he e' he' => hi.uniq g g' e (sub g e he) e' (sub g' e' he'), hi.args, hi.old,
      fun j q i k hq hk g e he => hi.found j q i k hq hk g e (sub g e he)⟩
  | reload =>
    refine ⟨?_, ?_, ?_, ?_, ?_, ?_⟩
    · intro f e he
      simp only [step, List.mem_map] at he
      obtain ⟨e', m, rfl⟩ := he
      have := hi.table f e' m
      unfold Tells at this ⊢
      have hk : (e'.key.map fun k => Stored.copy (k.value s.heap)).map (Stored.value s.heap) =
          e'.key.map (Stored.value s.heap) := by rw [List.map_map]; rfl
      simp only [step, hk]; exact this
    · intro f e he
      simp only [step, List.mem_map] at he
      obtain ⟨e', m, rfl⟩ := he
      exact hi.ids f e' m
    · intro f g e he e' he' hid
      simp only [step, List.mem_map] at he he'
      obtain ⟨x, m, rfl⟩ := he
      obtain ⟨x', m', rfl⟩ := he'
      have := hi.uniq f g x m x' m' hid
      exact ⟨this.1, by simp only [this.2]⟩
    all_goals (intros; rename_i h; simp [step] at *)

theorem inv_run {eng : Engine} (evs : List (Event V)) : ∀ {s : State V}, Inv s → Careful eng s evs → Inv (run eng s evs) := by
  induction evs with
  | nil => intro s hi _; exact hi
  | cons ev evs ih => intro s hi hc; exact ih (inv_step hi ev hc.1) hc.2

/-- the table contains copies only -/
def Copies (s : State V) : Prop := ∀ f, ∀ e ∈ s.table f, (∀ k ∈ e.key, k.refs = []) ∧ e.res.refs = []

theorem copies_step {s : State V} (hc : Copies s) (ev : Event V) : Copies (step .copy s ev).2 := by
  cases ev with
  | start id f args dirty usable => simp only [step]; split <;> exact hc
  | finish id res =>
    simp only [step]
    split
    · exact hc
    · rename_i p hp
      intro f e he
      simp only [upd] at he
      split at he
      · rename_i hf
        subst hf
        have hsub : ∀ x, x ∈ (if p.dirty then [] else s.table p.fn) → x ∈ s.table p.fn := by
          intro x hx; split at hx
          · exact absurd hx (by simp)
          · exact hx
        rcases mem_saveCall he with rfl | m | ⟨i, k, _, e', m, _, rfl⟩
        · refine ⟨?_, rfl⟩
          intro k hk
          obtain ⟨r, _, rfl⟩ := List.mem_map.1 hk
          rfl
        · exact hc _ e (hsub _ m)
        · exact ⟨(hc _ e' (hsub _ m)).1, rfl⟩
      · exact hc f e he
  | fail id => exact hc
  | mutate r v => exact hc
  | forget f =>
    intro g e he
    simp only [step, upd] at he
    split at he
    · exact absurd he (by simp)
    · exact hc g e he
  | reload =>
    intro f e he
    simp only [step, List.mem_map] at he
    obtain ⟨e', m, rfl⟩ := he
    refine ⟨?_, rfl⟩
    intro k hk
    obtain ⟨r, _, rfl⟩ := List.mem_map.1 hk
    rfl

theorem careful_of_argsKept (evs : List (Event V)) : ∀ {s : State V}, Copies s → ArgsKept .copy s evs →
    Careful .copy s evs := by
  induction evs with
  | nil => intros; trivial
  | cons ev evs ih =>
    intro s hc ha
    refine ⟨?_, ih (copies_step hc ev) ha.2⟩
    intro r v h
    refine ⟨ha.1 r v h, ?_⟩
    intro f e he
    have := hc f e he
    exact ⟨fun k hk => by simp [this.1 k hk], by simp [this.2]⟩

/-! ## Theorems -/

/-- **C58, C64** (partial: only if nobody changes an object that the table contains or that is an argument of a running call):
whatever calls start, finish, fail and overlap, every entry of the table is what an execution of its function did: the stored
arguments equal those it was called with, the stored result equals the one it returned. -/
theorem C58_partial (eng : Engine) (h : Heap V) (evs : List (Event V)) (hc : Careful eng (init h) evs) (f : FunName)
    (e : Entry V) (he : e ∈ (run eng (init h) evs).table f) : Tells (run eng (init h) evs) f e :=
  (inv_run evs (inv_init h) hc).table f e he

/-- **C58** for the engine `sqlite` (partial: arguments must not change while a function runs; between calls all objects may
change). -/
theorem C58_sqlite_partial (h : Heap V) (evs : List (Event V)) (hc : ArgsKept .copy (init h) evs) (f : FunName)
    (e : Entry V) (he : e ∈ (run .copy (init h) evs).table f) : Tells (run .copy (init h) evs) f e :=
  C58_partial .copy h evs (careful_of_argsKept evs (by intro f e he; exact absurd he (by simp [init])) hc) f e he

/-- A result from the table belongs to an execution that was called with arguments equal to those of this call, and is equal to
what that execution returned. -/
theorem C64_hit_partial (eng : Engine) (h : Heap V) (evs : List (Event V)) (hc : Careful eng (init h) evs)
    (id : Nat) (f : FunName) (args : List Ref) (dirty usable : Bool) (v : V)
    (hv : (step eng (run eng (init h) evs) (.start id f args dirty usable)).1 = .hit v) :
    ⟨f, args.map (run eng (init h) evs).heap, v⟩ ∈ (run eng (init h) evs).log := by
  have hi := inv_run evs (inv_init h) hc
  generalize run eng (init h) evs = s at *
  simp only [step] at hv
  split at hv
  · rename_i i e he
    split at he
    · exact nomatch he
    · have hm := findCall_some he
      have := hi.table f e hm.1
      unfold Tells at this
      rw [hm.2] at this
      injection hv with hv
      rw [← hv]; exact this
  · exact nomatch hv

/-- The result of a call that was not in the table is found by the next call with equal arguments. -/
theorem C58_found_partial (eng : Engine) (h : Heap V) (evs : List (Event V)) (hc : Careful eng (init h) evs)
    (id : Nat) (p : Pending V) (res : Ref) (hp : (run eng (init h) evs).pending id = some p) (hn : p.found = none)
    (id' : Nat) (args : List Ref) (ha : args.map (run eng (init h) evs).heap = p.vals) :
    ∃ v, (step eng (run eng (init h) (evs ++ [.finish id res])) (.start id' p.fn args false true)).1 = .hit v := by
  have hi := inv_run evs (inv_init h) hc
  have hr : run eng (init h) (evs ++ [.finish id res]) = (step eng (run eng (init h) evs) (.finish id res)).2 := by
    simp [run]
  rw [hr]
  generalize run eng (init h) evs = s at *
  have hst : (step eng s (.finish id res)).2 = { s with
        table := upd s.table p.fn (saveCall eng s.heap s.next p.found p.args res (if p.dirty then [] else s.table p.fn))
        next := s.next + 1
        pending := upd s.pending id none
        log := ⟨p.fn, p.vals, s.heap res⟩ :: s.log } := by simp only [step, hp]
  rw [hst, hn]
  have hmem : (⟨s.next, p.args.map (eng.store s.heap), eng.store s.heap res⟩ : Entry V) ∈
      saveCall eng s.heap s.next none p.args res (if p.dirty then [] else s.table p.fn) := by
    cases eng <;> simp [saveCall]
  obtain ⟨⟨i, e⟩, hx⟩ := findCall_isSome (h := s.heap) (vals := args.map s.heap) hmem
    (by simp only [values_store]; rw [hi.args id p hp, ha])
  refine ⟨e.res.value s.heap, ?_⟩
  simp only [step, upd, if_true, Bool.false_eq_true, if_false, hx]

/-- what the first entry with these arguments says -/
theorem findCall_snd (h : Heap V) (vals : List V) (t : List (Entry V)) :
    (findCall h vals t).map (·.2) = t.find? (keyIs h vals) := by
  unfold findCall
  cases h1 : t.find? (keyIs h vals) with
  | none =>
    have : t.findIdx? (keyIs h vals) = none := by
      rw [List.findIdx?_eq_none_iff]
      intro x hx
      have := List.find?_eq_none.1 h1 x hx
      simpa using this
    rw [this]; rfl
  | some e =>
    have h2 := List.find?_some h1
    have h3 := List.mem_of_find?_eq_some h1
    cases h4 : t.findIdx? (keyIs h vals) with
    | none =>
      have := (List.findIdx?_eq_none_iff.1 h4) e h3
      rw [h2] at this; cases this
    | some i => rfl

theorem start_out (eng : Engine) (s : State V) (id : Nat) (f : FunName) (args : List Ref) (usable : Bool) :
    (step eng s (.start id f args false usable)).1 =
      match (s.table f).find? (keyIs s.heap (args.map s.heap)), usable with
      | some e, true => .hit (e.res.value s.heap)
      | _, _ => .run := by
  rw [← findCall_snd]
  simp only [step, Bool.false_eq_true, if_false]
  cases findCall s.heap (args.map s.heap) (s.table f) with
  | none => rfl
  | some x => cases usable <;> rfl

omit [DecidableEq V] in
theorem find?_set_other {t : List (Entry V)} {p : Entry V → Bool} {i : Nat} {new : Entry V} (hn : p new = false)
    (hi : ∀ e, t[i]? = some e → p e = false) : (t.set i new).find? p = t.find? p := by
  induction t generalizing i with
  | nil => rfl
  | cons a t ih =>
    cases i with
    | zero =>
      have ha := hi a rfl
      simp [List.find?, hn, ha]
    | succ i => simp only [List.set_cons_succ, List.find?_cons, ih (fun e he => hi e (by simpa using he))]

omit [DecidableEq V] in
theorem find?_set_same {t : List (Entry V)} {p : Entry V → Bool} {i : Nat} {new : Entry V} (hn : p new = true)
    (hi : t.findIdx? p = some i) : (t.set i new).find? p = some new := by
  induction t generalizing i with
  | nil => simp at hi
  | cons a t ih =>
    rw [List.findIdx?_cons] at hi
    by_cases ha : p a = true
    · rw [if_pos ha] at hi
      cases hi
      simp [List.find?, hn]
    · rw [if_neg ha] at hi
      obtain ⟨j, hj, rfl⟩ := Option.map_eq_some_iff.1 hi
      simp only [List.set_cons_succ, List.find?_cons, ha, ih hj]

/-- **C58, C64** (partial, as `C58_partial`): when a call that had to run again has returned, the next call with equal arguments gets
the new result, and calls of other functions or with other arguments get what they would have got before. -/
theorem C58_rerun_partial (eng : Engine) (h : Heap V) (evs : List (Event V)) (hc : Careful eng (init h) evs) (id : Nat)
    (f : FunName) (args : List Ref) (usable : Bool) (res : Ref) {s s' : State V} (hs : run eng (init h) evs = s)
    (hrun : (step eng s (.start id f args false usable)).1 = .run)
    (hs' : run eng (init h) (evs ++ [.start id f args false usable, .finish id res]) = s') :
    (∀ id' args', args'.map s.heap = args.map s.heap → (step eng s' (.start id' f args' false true)).1 = .hit (s.heap res)) ∧
    ∀ id' g args' u, g ≠ f ∨ args'.map s.heap ≠ args.map s.heap →
      (step eng s' (.start id' g args' false u)).1 = (step eng s (.start id' g args' false u)).1 := by
  have hi := inv_run evs (inv_init h) hc
  rw [hs] at hi
  have hr : s' = (step eng (step eng s (.start id f args false usable)).2 (.finish id res)).2 := by
    rw [← hs', ← hs]; simp [run]
  have hst : s'.heap = s.heap ∧ s'.table = upd s.table f (saveCall eng s.heap s.next
      ((findCall s.heap (args.map s.heap) (s.table f)).map fun x => (x.1, x.2.id)) args res (s.table f)) := by
    rw [hr]
    simp only [step, Bool.false_eq_true, if_false] at hrun ⊢
    cases hf : findCall s.heap (args.map s.heap) (s.table f) with
    | none => simp [upd]
    | some x =>
      rw [hf] at hrun
      cases usable with
      | true => simp at hrun
      | false => simp [upd]
  have hnew : ∀ (n : Nat) (args' : List Ref), keyIs s.heap (args'.map s.heap) (⟨n, args.map (eng.store s.heap), eng.store s.heap res⟩ : Entry V) =
      decide (args.map s.heap = args'.map s.heap) := by
    intro n args'
    rw [Bool.eq_iff_iff]; simp only [keyIs, values_store, beq_iff_eq, decide_eq_true_eq]
  constructor
  · intro id' args' ha
    rw [start_out, hst.1, hst.2, ha]
    simp only [upd, if_true]
    generalize hvals : args.map s.heap = vals at *
    have hnew1 : ∀ n, keyIs s.heap vals (⟨n, args.map (eng.store s.heap), eng.store s.heap res⟩ : Entry V) = true := by
      intro n; have := hnew n args; rw [hvals] at this; simpa using this
    cases hf : findCall s.heap vals (s.table f) with
    | none =>
      have h1 : (s.table f).find? (keyIs s.heap vals) = none := by rw [← findCall_snd, hf]; rfl
      have : saveCall eng s.heap s.next none args res (s.table f) =
          s.table f ++ [⟨s.next, args.map (eng.store s.heap), eng.store s.heap res⟩] := by cases eng <;> rfl
      simp only [Option.map_none, this, List.find?_append, h1, Option.none_or, List.find?_cons, hnew1, value_store]
    | some x =>
      obtain ⟨i, e⟩ := x
      have h1 : (s.table f).find? (keyIs s.heap vals) = some e := by rw [← findCall_snd, hf]; rfl
      have h2 : (s.table f).findIdx? (keyIs s.heap vals) = some i := by
        unfold findCall at hf
        rw [h1] at hf
        cases h3 : (s.table f).findIdx? (keyIs s.heap vals) with
        | none => rw [h3] at hf; simp at hf
        | some j => rw [h3] at hf; simp at hf; rw [hf]
      have hne : (s.table f).isEmpty = false := by
        cases ht : s.table f with
        | nil => rw [ht] at h1; simp at h1
        | cons => rfl
      cases eng with
      | alias =>
        simp only [Option.map_some, saveCall, hne, Bool.false_eq_true, if_false]
        rw [find?_set_same (hnew1 _) h2]
        simp only [value_store]
      | copy =>
        simp only [Option.map_some, saveCall]
        rw [List.find?_map]
        have : (keyIs s.heap vals ∘ fun e' : Entry V => if e'.id = e.id then { e' with res := Engine.store .copy s.heap res } else e') =
            keyIs s.heap vals := by
          funext e'
          simp only [Function.comp]
          split <;> rfl
        rw [this, h1]
        simp [value_store]
  · intro id' g args' u hg
    rw [start_out, start_out, hst.1, hst.2]
    by_cases hgf : g = f
    · subst hgf
      have ha : args'.map s.heap ≠ args.map s.heap := hg.resolve_left (fun h => h rfl)
      simp only [upd, if_true]
      have hnew1 : ∀ n, keyIs s.heap (args'.map s.heap) (⟨n, args.map (eng.store s.heap), eng.store s.heap res⟩ : Entry V) = false := by
        intro n; rw [hnew]; simpa using fun h => ha h.symm
      cases hf : findCall s.heap (args.map s.heap) (s.table g) with
      | none =>
        have : saveCall eng s.heap s.next none args res (s.table g) =
            s.table g ++ [⟨s.next, args.map (eng.store s.heap), eng.store s.heap res⟩] := by cases eng <;> rfl
        simp only [Option.map_none, this, List.find?_append, List.find?_cons, hnew1, List.find?_nil, Option.or_none]
      | some x =>
        obtain ⟨i, e⟩ := x
        have h1 : (s.table g).find? (keyIs s.heap (args.map s.heap)) = some e := by rw [← findCall_snd, hf]; rfl
        have hke := List.find?_some h1
        have hme := List.mem_of_find?_eq_some h1
        have hne : (s.table g).isEmpty = false := by
          cases ht : s.table g with
          | nil => rw [ht] at h1; simp at h1
          | cons => rfl
        have hke' : ∀ e', e'.key.map (Stored.value s.heap) = args.map s.heap → keyIs s.heap (args'.map s.heap) e' = false := by
          intro e' he'
          simp only [keyIs, he', beq_eq_false_iff_ne]
          exact fun h => ha h.symm
        have hke2 : e.key.map (Stored.value s.heap) = args.map s.heap := by simpa [keyIs] using hke
        cases eng with
        | alias =>
          simp only [Option.map_some, saveCall, hne, Bool.false_eq_true, if_false]
          rw [find?_set_other (hnew1 _)]
          intro e' he'
          have h2 : (s.table g).findIdx? (keyIs s.heap (args.map s.heap)) = some i := by
            unfold findCall at hf
            rw [h1] at hf
            cases h3 : (s.table g).findIdx? (keyIs s.heap (args.map s.heap)) with
            | none => rw [h3] at hf; simp at hf
            | some j => rw [h3] at hf; simp at hf; rw [hf]
          obtain ⟨hlt, hp, _⟩ := List.findIdx?_eq_some_iff_getElem.1 h2
          rw [List.getElem?_eq_getElem hlt] at he'
          cases he'
          exact hke' _ (by simpa [keyIs] using hp)
        | copy =>
          simp only [Option.map_some, saveCall]
          rw [List.find?_map]
          have : (keyIs s.heap (args'.map s.heap) ∘ fun e' : Entry V =>
              if e'.id = e.id then { e' with res := Engine.store .copy s.heap res } else e') = keyIs s.heap (args'.map s.heap) := by
            funext e'
            simp only [Function.comp]
            split <;> rfl
          rw [this]
          cases h4 : (s.table g).find? (keyIs s.heap (args'.map s.heap)) with
          | none => rfl
          | some e2 =>
            have hk2 := List.find?_some h4
            have : e2.id ≠ e.id := by
              intro he
              have := (hi.uniq g g e2 (List.mem_of_find?_eq_some h4) e hme he).2
              rw [hke' e2 (by rw [this]; exact hke2)] at hk2
              cases hk2
            simp [this]
    · simp only [upd, hgf, if_false]

/-! ## The hypotheses can be met -/

/-- objects `[n]` -/
def h0 : Heap (List Nat) := fun r => [r]

/-- Two overlapping calls of `f`, then a change of an object that is not stored, and a call that must run again. -/
def good : List (Event (List Nat)) :=
  [.start 0 "f" [1] false true, .start 1 "f" [2] false true, .finish 1 12, .finish 0 11, .mutate 5 [1],
   .start 2 "f" [5] false false, .finish 2 13]

/-- For `sqlite` the caller may also change the arguments and the results afterwards. -/
def goodCopy : List (Event (List Nat)) := good ++ [.mutate 1 [7], .mutate 13 [7], .mutate 5 [7]]

theorem good_table (eng : Engine) (f : FunName) (e : Entry (List Nat))
    (he : e ∈ (run eng (init h0) (good.take 4)).table f) :
    e = ⟨0, [eng.store h0 2], eng.store h0 12⟩ ∨ e = ⟨1, [eng.store h0 1], eng.store h0 11⟩ := by
  by_cases hf : f = "f"
  · subst hf
    have : (run eng (init h0) (good.take 4)).table "f" =
        [⟨0, [eng.store h0 2], eng.store h0 12⟩, ⟨1, [eng.store h0 1], eng.store h0 11⟩] := by cases eng <;> rfl
    rw [this] at he
    simpa using he
  · have : (run eng (init h0) (good.take 4)).table f = [] := by
      have h1 : ∀ t t' : List (Entry (List Nat)),
          upd (upd (fun _ => []) "f" t) "f" t' f = [] := by intros; simp [upd, hf]
      cases eng <;> exact h1 _ _
    rw [this] at he
    exact absurd he (by simp)

theorem good_pending (eng : Engine) (id : Nat) : (run eng (init h0) (good.take 4)).pending id = none := by
  have h1 : ∀ a b : Option (Pending (List Nat)),
      upd (upd (upd (upd (fun _ => none) 0 a) 1 b) 1 none) 0 none id = none := by
    intros; simp only [upd]; split <;> first | rfl | (split <;> simp_all)
  cases eng <;> exact h1 _ _

theorem careful_good (eng : Engine) : Careful eng (init h0) good := by
  refine ⟨(fun _ _ h => nomatch h), (fun _ _ h => nomatch h), (fun _ _ h => nomatch h), (fun _ _ h => nomatch h), ?_,
    (fun _ _ h => nomatch h), (fun _ _ h => nomatch h), trivial⟩
  intro r v h
  injection h with hr _
  subst hr
  change MayChange (run eng (init h0) (good.take 4)) 5
  refine ⟨fun id p hp => ?_, fun f e he => ?_⟩
  · rw [good_pending] at hp; exact nomatch hp
  · rcases good_table eng f e he with rfl | rfl <;> cases eng <;> simp [Engine.store, Stored.refs]

example : (step .alias (run .alias (init h0) good) (.start 3 "f" [1] false true)).1 = .hit [13] := by decide +kernel
example : (run .copy (init h0) good).log.length = 3 := by decide +kernel
/-- the next call with equal arguments finds a new result -/
example (eng : Engine) : ∃ p, (run eng (init h0) (good.take 2)).pending 0 = some p ∧ p.found = none ∧
    [5].map (run eng (init (upd h0 5 [1])) (good.take 2)).heap = p.vals := by cases eng <;> exact ⟨_, rfl, rfl, rfl⟩

theorem argsKept_goodCopy : ArgsKept .copy (init h0) goodCopy := by
  have h4 := good_pending .copy
  have h7 : ∀ id, (run .copy (init h0) good).pending id = none := by
    intro id
    have h1 : ∀ (g : Nat → Option (Pending (List Nat))) (a : Option (Pending (List Nat))), (∀ j, g j = none) →
        upd (upd g 2 a) 2 none id = none := by
      intro g a hg; simp only [upd]; split
      · rfl
      · exact hg id
    exact h1 _ _ h4
  refine ⟨(fun _ _ h => nomatch h), (fun _ _ h => nomatch h), (fun _ _ h => nomatch h), (fun _ _ h => nomatch h), ?_,
    (fun _ _ h => nomatch h), (fun _ _ h => nomatch h), ?_, ?_, ?_, trivial⟩
  · intro r v _ id p hp; exact absurd ((h4 id).symm.trans hp) (by simp)
  all_goals (intro r v _ id p hp; exact absurd ((h7 id).symm.trans hp) (by simp))

/-- after all the changes `sqlite` still finds the results -/
example : (step .copy (run .copy (init h0) goodCopy) (.start 3 "f" [2] false true)).1 = .hit [12] := by decide +kernel

/-- of two stored calls the second has to run again: then it has the new result and the first the old one -/
example (eng : Engine) : let s' := run eng (init h0) good
    (step eng s' (.start 3 "f" [1] false true)).1 = .hit [13] ∧ (step eng s' (.start 3 "f" [2] false true)).1 = .hit [12] := by
  have hc : Careful eng (init h0) (good.take 5) := by
    have := careful_good eng
    refine ⟨this.1, this.2.1, this.2.2.1, this.2.2.2.1, this.2.2.2.2.1, trivial⟩
  have h := C58_rerun_partial eng h0 (good.take 5) hc 2 "f" [5] false 13 rfl (by cases eng <;> decide +kernel) rfl
  refine ⟨(h.1 3 [1] (by cases eng <;> decide +kernel)).trans (by cases eng <;> decide +kernel), ?_⟩
  exact (h.2 3 "f" [2] true (.inr (by cases eng <;> decide +kernel))).trans (by cases eng <;> decide +kernel)

/-! ## Violations -/

/-- the function changes its argument from `[1]` to `[9]` while it runs -/
def changes : List (Event (List Nat)) := [.start 0 "f" [1] false true, .mutate 1 [9], .finish 0 11]

/-- **C58 is violated** by every engine if the function changes its argument: the result of `f([1])` is stored under `[9]` and
handed out for `f([9])`, which was never run. -/
theorem C58_function_violated (eng : Engine) :
    (step eng (run eng (init h0) changes) (.start 1 "f" [9] false true)).1 = .hit [11] ∧
    ∀ x ∈ (run eng (init h0) changes).log, x.args ≠ [[9]] := by cases eng <;> decide +kernel

/-- … and `f([1])` itself is not found -/
theorem C58_function_lost_violated (eng : Engine) :
    (step eng (run eng (init (upd h0 4 [1])) changes) (.start 1 "f" [4] false true)).1 = .run := by
  cases eng <;> decide +kernel

/-- the caller changes the object that it passed after the call -/
def later : List (Event (List Nat)) := [.start 0 "f" [1] false true, .finish 0 11, .mutate 1 [9]]

/-- **C58 is violated** by `cache` and `pickle` also if the caller changes the object after the call: the second call with the
changed object is not run. -/
theorem C58_caller_violated :
    (step .alias (run .alias (init h0) later) (.start 1 "f" [1] false true)).1 = .hit [11] ∧
    (∀ x ∈ (run .alias (init h0) later).log, x.args ≠ [[9]]) ∧
    (step .copy (run .copy (init h0) later) (.start 1 "f" [1] false true)).1 = .run := by decide +kernel

/-- the caller changes the result -/
def changesResult : List (Event (List Nat)) := [.start 0 "f" [1] false true, .finish 0 11, .mutate 11 [9]]

/-- **C64 is violated** by `cache` and `pickle` if the caller changes the result: the next call gets the changed object, which no
execution returned. -/
theorem C64_result_violated :
    (step .alias (run .alias (init h0) changesResult) (.start 1 "f" [1] false true)).1 = .hit [9] ∧
    (∀ x ∈ (run .alias (init h0) changesResult).log, x.res ≠ [9]) ∧
    (step .copy (run .copy (init h0) changesResult) (.start 1 "f" [1] false true)).1 = .hit [11] := by decide +kernel

end Verif.Alias
