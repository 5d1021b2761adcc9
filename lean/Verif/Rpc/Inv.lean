import Verif.Rpc.Core

/-! # Invariants of the RPC server -/
namespace Verif.Rpc

variable {Q S V E : Type}

/-- The requests are handled one after the other: the outcomes and the final state. -/
def serial (h : Q → S → Outcome V E × S) : S → List Q → List (Outcome V E) × S
  | s, [] => ([], s)
  | s, q :: qs => ((h q s).1 :: (serial h (h q s).2 qs).1, (serial h (h q s).2 qs).2)

theorem serial_append (h : Q → S → Outcome V E × S) (s : S) (a b : List Q) :
    serial h s (a ++ b) = ((serial h s a).1 ++ (serial h (serial h s a).2 b).1,
      (serial h (serial h s a).2 b).2) := by
  induction a generalizing s with
  | nil => simp [serial]
  | cons q a ih => simp [serial, ih]

theorem serial_length (h : Q → S → Outcome V E × S) (s : S) (a : List Q) :
    (serial h s a).1.length = a.length := by
  induction a generalizing s with
  | nil => rfl
  | cons q a ih => simp [serial, ih]

/-- the requests in the queue -/
def calls (q : List (Msg Q)) : List (Nat × Nat × Q) :=
  q.filterMap (fun m => match m with
    | .call c k r => some (c, k, r)
    | .null => none)

theorem calls_append (a b : List (Msg Q)) : calls (a ++ b) = calls a ++ calls b := by
  simp [calls, List.filterMap_append]

/-- the request being handled and the ones in the queue -/
def open_ (s : State Q S V E) : List (Nat × Nat × Q) :=
  (match s.phase with
    | .handling c k r => [(c, k, r)]
    | _ => []) ++ calls s.queue

/-- number a list from `n` on -/
def numbered (n : Nat) : List (Nat × Q) → List (Nat × Nat × Q)
  | [] => []
  | (c, r) :: l => (c, n, r) :: numbered (n + 1) l

theorem numbered_append (n : Nat) (a b : List (Nat × Q)) :
    numbered n (a ++ b) = numbered n a ++ numbered (n + a.length) b := by
  induction a generalizing n with
  | nil => rfl
  | cons x a ih =>
    obtain ⟨c, r⟩ := x
    simp [numbered, ih, Nat.add_assoc, Nat.add_comm 1]

theorem numbered_mem {n : Nat} {l : List (Nat × Q)} {c k : Nat} {r : Q} (h : (c, k, r) ∈ numbered n l) :
    n ≤ k ∧ l[k - n]? = some (c, r) := by
  induction l generalizing n with
  | nil => simp [numbered] at h
  | cons x l ih =>
    obtain ⟨c', r'⟩ := x
    simp only [numbered, List.mem_cons, Prod.mk.injEq] at h
    rcases h with ⟨rfl, rfl, rfl⟩ | h
    · simp
    · obtain ⟨h1, h2⟩ := ih h
      refine ⟨by omega, ?_⟩
      rw [show k - n = (k - (n + 1)) + 1 by omega]
      simpa using h2

structure Inv (h : Q → S → Outcome V E × S) (s0 : S) (s : State Q S V E) : Prop where
  done_le : s.log.length ≤ s.asked.length
  /-- the requests not handled yet -/
  rest : open_ s = numbered s.log.length (s.asked.drop s.log.length)
  /-- what was handled was handled in order -/
  serial : serial h s0 ((s.asked.take s.log.length).map Prod.snd) = (s.log, s.st)
  result : ∀ k, k < s.asked.length → s.result k = s.log[k]?
  /-- a client with an open request waits for it -/
  waits : ∀ c k r, (c, k, r) ∈ open_ s → s.client c = .waiting k ∧ s.event c = false
  /-- a waiting client has asked, and is told when it was answered -/
  asked : ∀ c k, s.client c = .waiting k → (∃ r, s.asked[k]? = some (c, r)) ∧
    (k < s.log.length → s.event c = true)
  answers : ∀ c k a, (c, k, a) ∈ s.answers → (∃ r, s.asked[k]? = some (c, r)) ∧
    ∃ o, s.log[k]? = some o ∧ a = o.answer
  /-- every request is answered at most once -/
  once : (s.answers.map (fun x => x.2.1)).Nodup ∧
    ∀ c k, s.client c = .waiting k → ∀ c' a, (c', k, a) ∉ s.answers

theorem Inv.init (h : Q → S → Outcome V E × S) (s0 : S) : Inv h s0 (Rpc.init s0) := by
  refine ⟨by simp [Rpc.init], rfl, rfl, ?_, ?_, ?_, ?_, ?_⟩ <;> simp [Rpc.init, open_, calls]

theorem set_self {α : Type} (f : Nat → α) (i : Nat) (v : α) : set f i v i = v := by simp [set]

theorem set_ne {α : Type} (f : Nat → α) {i j : Nat} (v : α) (h : j ≠ i) : set f i v j = f j := by
  simp [set, h]

/-- Only the parts that the invariant does not look at change. -/
theorem Inv.same {h : Q → S → Outcome V E × S} {s0 : S} {s s' : State Q S V E} (hi : Inv h s0 s)
    (h1 : open_ s' = open_ s) (h2 : s'.log = s.log) (h3 : s'.asked = s.asked) (h4 : s'.st = s.st)
    (h5 : s'.result = s.result) (h6 : s'.event = s.event) (h7 : s'.answers = s.answers)
    (h8 : ∀ c k, s'.client c = .waiting k ↔ s.client c = .waiting k) : Inv h s0 s' := by
  refine ⟨?_, ?_, ?_, ?_, ?_, ?_, ?_, ?_⟩
  · rw [h2, h3]; exact hi.done_le
  · rw [h1, h2, h3]; exact hi.rest
  · rw [h2, h3, h4]; exact hi.serial
  · rw [h2, h3, h5]; exact hi.result
  · rw [h1, h6]
    intro c k r hm
    obtain ⟨a, b⟩ := hi.waits c k r hm
    exact ⟨(h8 c k).mpr a, b⟩
  · rw [h3, h2, h6]
    intro c k hc
    exact hi.asked c k ((h8 c k).mp hc)
  · rw [h7, h3, h2]; exact hi.answers
  · rw [h7]
    exact ⟨hi.once.1, fun c k hc => hi.once.2 c k ((h8 c k).mp hc)⟩

theorem Inv.step {h : Q → S → Outcome V E × S} {s0 : S} {s s' : State Q S V E} (hi : Inv h s0 s)
    {e : Event Q} (hs : Rpc.step h s e = some s') : Inv h s0 s' := by
  cases e with
  | server =>
    simp only [Rpc.step, server] at hs
    split at hs
    · rename_i hp
      simp only [Option.some.injEq] at hs
      subst hs
      exact hi.same (by simp [open_, hp]) rfl rfl rfl rfl rfl rfl (fun _ _ => Iff.rfl)
    · rename_i hp
      split at hs
      · simp at hs
      · rename_i q hq
        simp only [Option.some.injEq] at hs
        subst hs
        exact hi.same (by simp [open_, hp, hq, calls]) rfl rfl rfl rfl rfl rfl (fun _ _ => Iff.rfl)
      · rename_i c k r q hq
        simp only [Option.some.injEq] at hs
        subst hs
        exact hi.same (by simp [open_, hp, hq, calls]) rfl rfl rfl rfl rfl rfl (fun _ _ => Iff.rfl)
    · rename_i c k r hp
      simp only [Option.some.injEq] at hs
      have hrest := hi.rest
      have hopen : open_ s = (c, k, r) :: calls s.queue := by simp [open_, hp]
      rw [hopen] at hrest
      -- it is the first request not handled yet
      have hlt : s.log.length < s.asked.length := by
        apply Classical.byContradiction
        intro hn
        rw [List.drop_eq_nil_of_le (by omega)] at hrest
        simp [numbered] at hrest
      have hdrop : s.asked.drop s.log.length = s.asked[s.log.length] :: s.asked.drop (s.log.length + 1) :=
        List.drop_eq_getElem_cons hlt
      rw [hdrop] at hrest
      have hel : s.asked[s.log.length] = (s.asked[s.log.length].1, s.asked[s.log.length].2) := rfl
      rw [hel] at hrest
      simp only [numbered, List.cons.injEq, Prod.mk.injEq] at hrest
      obtain ⟨⟨hc, hk, hr⟩, hq⟩ := hrest
      obtain ⟨hw, he⟩ := hi.waits c k r (by rw [hopen]; exact .head _)
      have hopen' : open_ s' = calls s.queue := by
        subst hs
        cases (h r s.st).1 <;> simp [open_]
      have hlog : s'.log = s.log ++ [(h r s.st).1] := by rw [← hs]
      have hasked : s'.asked = s.asked := by rw [← hs]
      have hst : s'.st = (h r s.st).2 := by rw [← hs]
      have hres : s'.result = set s.result k (some (h r s.st).1) := by rw [← hs]
      have hev : s'.event = set s.event c true := by rw [← hs]
      have hcl : s'.client = s.client := by rw [← hs]
      have han : s'.answers = s.answers := by rw [← hs]
      clear hs
      have huniq : ∀ k', s.client c = .waiting k' → k' = k := by
        intro k' hk'
        rw [hw] at hk'
        simp only [Client.waiting.injEq] at hk'
        exact hk'.symm
      refine ⟨?_, ?_, ?_, ?_, ?_, ?_, ?_, ?_⟩
      · rw [hlog, hasked]; simp; omega
      · rw [hopen', hlog, hasked]
        simpa using hq
      · rw [hlog, hasked, hst]
        rw [List.length_append, List.length_singleton, List.take_add_one, List.map_append,
          serial_append, hi.serial]
        rw [List.getElem?_eq_getElem hlt]
        simp [Rpc.serial, hr]
      · intro k' hk'
        rw [hasked] at hk'
        rw [hres, hlog]
        by_cases ek : k' = k
        · subst ek
          rw [set_self, hk]
          simp
        · rw [set_ne _ _ ek, hi.result k' hk', List.getElem?_append]
          split
          · rfl
          · rename_i hge
            rw [List.getElem?_eq_none (by omega), List.getElem?_eq_none]
            simp; omega
      · intro c' k' r' hm
        rw [hopen'] at hm
        rw [hcl, hev]
        obtain ⟨h1, h2⟩ := hi.waits c' k' r' (by rw [hopen]; exact .tail _ hm)
        refine ⟨h1, ?_⟩
        have : c' ≠ c := by
          intro hcc
          subst hcc
          have := huniq k' h1
          rw [hq] at hm
          obtain ⟨h3, -⟩ := numbered_mem hm
          omega
        rw [set_ne _ _ this]
        exact h2
      · intro c' k' hc'
        rw [hcl] at hc'
        rw [hasked, hlog, hev]
        obtain ⟨h1, h2⟩ := hi.asked c' k' hc'
        refine ⟨h1, ?_⟩
        intro hlt'
        by_cases ec : c' = c
        · subst ec; exact set_self _ _ _
        · rw [set_ne _ _ ec]
          apply h2
          simp only [List.length_append, List.length_singleton] at hlt'
          rcases Nat.lt_or_ge k' s.log.length with h | h
          · exact h
          · exfalso
            have hk' : k' = s.log.length := by omega
            obtain ⟨r', hr'⟩ := h1
            rw [hk', List.getElem?_eq_getElem hlt] at hr'
            simp only [Option.some.injEq] at hr'
            rw [hr'] at hc
            exact ec hc.symm
      · intro c' k' a hm
        rw [han] at hm
        rw [hasked, hlog]
        obtain ⟨h1, o, h2, h3⟩ := hi.answers c' k' a hm
        refine ⟨h1, o, ?_, h3⟩
        rw [List.getElem?_append_left]
        · exact h2
        · exact (List.getElem?_eq_some_iff.mp h2).1
      · rw [han, hcl]; exact hi.once
    · rename_i hp
      simp only [Option.some.injEq] at hs
      subst hs
      exact hi.same (by simp [open_, hp]) rfl rfl rfl rfl rfl rfl (fun _ _ => Iff.rfl)
    · simp at hs
  | call c r =>
    simp only [Rpc.step] at hs
    split at hs
    rotate_left
    · simp at hs
    rename_i hcond
    obtain ⟨hidle, hlock⟩ := hcond
    split at hs
    rotate_left
    · simp only [Option.some.injEq] at hs
      subst hs
      exact hi.same rfl rfl rfl rfl rfl rfl rfl (fun _ _ => Iff.rfl)
    simp only [Option.some.injEq] at hs
    have hopen' : open_ s' = open_ s ++ [(c, s.asked.length, r)] := by
      subst hs
      simp only [open_, calls_append, List.append_assoc]
      rfl
    have hlog : s'.log = s.log := by rw [← hs]
    have hasked : s'.asked = s.asked ++ [(c, r)] := by rw [← hs]
    have hst : s'.st = s.st := by rw [← hs]
    have hres : s'.result = set s.result s.asked.length none := by rw [← hs]
    have hev : s'.event = set s.event c false := by rw [← hs]
    have hcl : s'.client = set s.client c (.waiting s.asked.length) := by rw [← hs]
    have han : s'.answers = s.answers := by rw [← hs]
    clear hs
    have hle := hi.done_le
    have hgrow : ∀ {k : Nat} {x : Nat × Q}, s.asked[k]? = some x → (s.asked ++ [(c, r)])[k]? = some x := by
      intro k x hx
      rw [List.getElem?_append_left]
      · exact hx
      · exact (List.getElem?_eq_some_iff.mp hx).1
    refine ⟨?_, ?_, ?_, ?_, ?_, ?_, ?_, ?_⟩
    · rw [hlog, hasked]; simp; omega
    · rw [hopen', hlog, hasked, hi.rest, List.drop_append_of_le_length hle, numbered_append]
      simp [numbered]
      omega
    · rw [hlog, hasked, hst, List.take_append_of_le_length hle]
      exact hi.serial
    · intro k hk
      rw [hres, hlog]
      by_cases ek : k = s.asked.length
      · subst ek
        rw [set_self, List.getElem?_eq_none hle]
      · rw [set_ne _ _ ek]
        rw [hasked] at hk
        exact hi.result k (by simp at hk; omega)
    · intro c' k' r' hm
      rw [hopen'] at hm
      rw [hcl, hev]
      rcases List.mem_append.mp hm with hm | hm
      · obtain ⟨h1, h2⟩ := hi.waits c' k' r' hm
        have : c' ≠ c := by
          intro hcc
          subst hcc
          rw [hidle] at h1
          simp at h1
        rw [set_ne _ _ this, set_ne _ _ this]
        exact ⟨h1, h2⟩
      · simp only [List.mem_singleton, Prod.mk.injEq] at hm
        obtain ⟨rfl, rfl, rfl⟩ := hm
        rw [set_self, set_self]
        exact ⟨rfl, rfl⟩
    · intro c' k' hc'
      rw [hcl] at hc'
      rw [hasked, hlog, hev]
      by_cases ec : c' = c
      · subst ec
        rw [set_self] at hc'
        simp only [Client.waiting.injEq] at hc'
        subst hc'
        refine ⟨⟨r, by simp⟩, ?_⟩
        intro hlt
        omega
      · rw [set_ne _ _ ec] at hc' ⊢
        obtain ⟨⟨r', h1⟩, h2⟩ := hi.asked c' k' hc'
        exact ⟨⟨r', hgrow h1⟩, h2⟩
    · intro c' k' a hm
      rw [han] at hm
      rw [hasked, hlog]
      obtain ⟨⟨r', h1⟩, h2⟩ := hi.answers c' k' a hm
      exact ⟨⟨r', hgrow h1⟩, h2⟩
    · rw [han, hcl]
      refine ⟨hi.once.1, ?_⟩
      intro c' k' hc' c'' a hm
      by_cases ec : c' = c
      · subst ec
        rw [set_self] at hc'
        simp only [Client.waiting.injEq] at hc'
        subst hc'
        obtain ⟨⟨r', h1⟩, -⟩ := hi.answers _ _ _ hm
        rw [List.getElem?_eq_none (Nat.le_refl _)] at h1
        simp at h1
      · rw [set_ne _ _ ec] at hc'
        exact hi.once.2 c' k' hc' c'' a hm
  | wake c =>
    simp only [Rpc.step] at hs
    split at hs
    rotate_left
    · simp at hs
    rename_i k hk
    split at hs
    rotate_left
    · simp at hs
    rename_i he
    split at hs
    · simp at hs
    rename_i o ho
    simp only [Option.some.injEq] at hs
    obtain ⟨⟨r, hr⟩, hd⟩ := hi.asked c k hk
    have hklt : k < s.asked.length := (List.getElem?_eq_some_iff.mp hr).1
    rw [hi.result k hklt] at ho
    subst hs
    refine ⟨hi.done_le, hi.rest, hi.serial, hi.result, ?_, ?_, ?_, ?_⟩
    · intro c' k' r' hm
      obtain ⟨h1, h2⟩ := hi.waits c' k' r' hm
      have : c' ≠ c := by
        intro hcc
        subst hcc
        rw [he] at h2
        simp at h2
      simp only
      rw [set_ne _ _ this]
      exact ⟨h1, h2⟩
    · intro c' k' hc'
      simp only at hc'
      by_cases ec : c' = c
      · subst ec
        rw [set_self] at hc'
        simp at hc'
      · rw [set_ne _ _ ec] at hc'
        exact hi.asked c' k' hc'
    · intro c' k' a hm
      simp only [List.mem_cons, Prod.mk.injEq] at hm
      rcases hm with ⟨rfl, rfl, rfl⟩ | hm
      · exact ⟨⟨r, hr⟩, o, ho, rfl⟩
      · exact hi.answers c' k' a hm
    · refine ⟨?_, ?_⟩
      · simp only [List.map_cons, List.nodup_cons]
        refine ⟨?_, hi.once.1⟩
        intro hm
        obtain ⟨⟨c', k', a⟩, hx, hk'⟩ := List.mem_map.mp hm
        simp only at hk'
        subst hk'
        exact hi.once.2 c k' hk c' a hx
      · intro c' k' hc' c'' a hm
        simp only at hc'
        by_cases ec : c' = c
        · subst ec
          rw [set_self] at hc'
          simp at hc'
        · rw [set_ne _ _ ec] at hc'
          simp only [List.mem_cons, Prod.mk.injEq] at hm
          rcases hm with ⟨rfl, rfl, rfl⟩ | hm
          · obtain ⟨⟨r', hr'⟩, -⟩ := hi.asked c' k' hc'
            rw [hr] at hr'
            simp only [Option.some.injEq, Prod.mk.injEq] at hr'
            exact ec hr'.1.symm
          · exact hi.once.2 c' k' hc' c'' a hm
  | join c =>
    have key : ∀ (x : Client), (∀ k, x ≠ .waiting k) → (∀ k, s.client c ≠ .waiting k) →
        ∀ c' k, set s.client c x c' = .waiting k ↔ s.client c' = .waiting k := by
      intro x hx hc c' k
      by_cases ec : c' = c
      · subst ec
        rw [set_self]
        exact ⟨fun h => absurd h (hx k), fun h => absurd h (hc k)⟩
      · rw [set_ne _ _ ec]
    simp only [Rpc.step] at hs
    split at hs
    · rename_i hc
      split at hs
      · simp only [Option.some.injEq] at hs
        subst hs
        exact hi.same rfl rfl rfl rfl rfl rfl rfl (key _ (by simp) (by simp [hc]))
      · simp only [Option.some.injEq] at hs
        subst hs
        exact hi
    · rename_i hc
      split at hs
      · simp only [Option.some.injEq] at hs
        subst hs
        refine hi.same ?_ rfl rfl rfl rfl rfl rfl (key _ (by simp) (by simp [hc]))
        simp only [open_, calls_append]
        simp [calls]
      · simp at hs
    · rename_i hc
      split at hs
      · simp only [Option.some.injEq] at hs
        subst hs
        exact hi.same rfl rfl rfl rfl rfl rfl rfl (key _ (by simp) (by simp [hc]))
      · simp at hs
    · simp at hs

theorem Reach.inv {h : Q → S → Outcome V E × S} {s0 : S} {s : State Q S V E} (hr : Reach h s0 s) :
    Inv h s0 s := by
  induction hr with
  | init => exact .init h s0
  | step e _ hs ih => exact ih.step hs

/-! ## The end of the server -/

/-- no request stands behind `_NULL` -/
def NullLast : List (Msg Q) → Prop
  | [] => True
  | .call _ _ _ :: q => NullLast q
  | .null :: q => calls q = []

theorem NullLast.null {l : List (Msg Q)} (h : NullLast l) : NullLast (l ++ [.null]) := by
  induction l with
  | nil => rfl
  | cons m l ih =>
    cases m with
    | call c k r => exact ih h
    | null =>
      simp only [NullLast, List.cons_append] at h ⊢
      rw [calls_append, h]
      rfl

theorem NullLast.call {l : List (Msg Q)} (h : .null ∉ l) (c k : Nat) (r : Q) :
    NullLast (l ++ [.call c k r]) := by
  induction l with
  | nil => trivial
  | cons m l ih =>
    cases m with
    | call c k r => exact ih (fun hm => h (.tail _ hm))
    | null => exact absurd (.head _) h

/-- The end of the server, when the handler does not end it. -/
structure Tail (s : State Q S V E) : Prop where
  last : NullLast s.queue
  /-- a server that has left the loop leaves no request behind -/
  left : s.phase = .leaving ∨ s.phase = .ended → calls s.queue = []
  /-- while `_NULL` is on its way no request can be put -/
  locked : .null ∈ s.queue ∨ s.phase = .leaving → s.lock ≠ none ∨ s.phase = .ended
  ended : s.phase = .ended → s.running = false
  starting : s.phase = .starting →
    s.running = false ∧ s.queue = [] ∧ s.lock = none ∧ ∀ c, s.client c ≠ .joinWant

theorem Tail.init (s0 : S) : Tail (Rpc.init s0 : State Q S V E) := by
  refine ⟨trivial, ?_, ?_, ?_, ?_⟩ <;> simp [Rpc.init]

theorem Tail.step {h : Q → S → Outcome V E × S} (hf : ∀ q s e, (h q s).1 ≠ .fatal e)
    {s s' : State Q S V E} (ht : Tail s) {e : Event Q} (hs : Rpc.step h s e = some s') : Tail s' := by
  cases e with
  | server =>
    simp only [Rpc.step, server] at hs
    split at hs
    · rename_i hp
      simp only [Option.some.injEq] at hs
      subst hs
      obtain ⟨-, h1, h2, h3⟩ := ht.starting hp
      refine ⟨ht.last, by simp, ?_, by simp, by simp⟩
      intro hx; simp [h1] at hx
    · rename_i hp
      split at hs
      · simp at hs
      · rename_i q hq
        simp only [Option.some.injEq] at hs
        subst hs
        have hl := ht.last
        rw [hq] at hl
        refine ⟨?_, fun _ => hl, ?_, by simp, by simp⟩
        · cases q with
          | nil => trivial
          | cons m q =>
            cases m with
            | null => exact hl
            | call c k r => simp [NullLast, calls] at hl
        · intro _
          rcases ht.locked (.inl (by rw [hq]; exact .head _)) with h | h
          · exact .inl h
          · rw [hp] at h; simp at h
      · rename_i c k r q hq
        simp only [Option.some.injEq] at hs
        subst hs
        have hl := ht.last
        rw [hq] at hl
        refine ⟨hl, by simp, ?_, by simp, by simp⟩
        intro hx
        simp only [or_false, reduceCtorEq] at hx
        rcases ht.locked (.inl (by rw [hq]; exact .tail _ hx)) with h | h
        · exact .inl h
        · rw [hp] at h; simp at h
    · rename_i c k r hp
      simp only [Option.some.injEq] at hs
      have hph : s'.phase = .get := by
        subst hs
        have := hf r s.st
        cases ho : (h r s.st).1 with
        | fatal e => exact absurd ho (this e)
        | _ => simp
      have h1 : s'.queue = s.queue := by rw [← hs]
      have h2 : s'.lock = s.lock := by rw [← hs]
      clear hs
      refine ⟨by rw [h1]; exact ht.last, by simp [hph], ?_, by simp [hph], by simp [hph]⟩
      rw [h1, h2, hph]
      intro hx
      rcases ht.locked (.inl (by simpa using hx)) with h | h
      · exact .inl h
      · rw [hp] at h; simp at h
    · rename_i hp
      simp only [Option.some.injEq] at hs
      subst hs
      exact ⟨ht.last, fun _ => ht.left (.inl hp), fun _ => .inr rfl, fun _ => rfl, by simp⟩
    · simp at hs
  | call c r =>
    simp only [Rpc.step] at hs
    split at hs
    rotate_left
    · simp at hs
    rename_i hcond
    obtain ⟨hidle, hlock⟩ := hcond
    split at hs
    rotate_left
    · simp only [Option.some.injEq] at hs
      subst hs
      exact ⟨ht.last, ht.left, ht.locked, ht.ended, ht.starting⟩
    rename_i hrun
    simp only [Option.some.injEq] at hs
    have hne : s.phase ≠ .ended := by
      intro h; rw [ht.ended h] at hrun; simp at hrun
    have hnn : ¬ (.null ∈ s.queue ∨ s.phase = .leaving) := by
      intro hx
      rcases ht.locked hx with h | h
      · exact h hlock
      · exact hne h
    subst hs
    refine ⟨NullLast.call (fun hm => hnn (.inl hm)) _ _ _, ?_, ?_, ht.ended, ?_⟩
    · intro hx
      exfalso
      rcases hx with hx | hx
      · exact hnn (.inr hx)
      · exact hne hx
    · intro hx
      exfalso
      rcases hx with hx | hx
      · rcases List.mem_append.mp hx with h | h
        · exact hnn (.inl h)
        · simp at h
      · exact hnn (.inr hx)
    · intro hp
      rw [(ht.starting hp).1] at hrun
      simp at hrun
  | wake c =>
    simp only [Rpc.step] at hs
    split at hs
    rotate_left
    · simp at hs
    rename_i k hk
    split at hs
    rotate_left
    · simp at hs
    split at hs
    · simp at hs
    simp only [Option.some.injEq] at hs
    subst hs
    refine ⟨ht.last, ht.left, ht.locked, ht.ended, ?_⟩
    intro hp
    obtain ⟨h0, h1, h2, h3⟩ := ht.starting hp
    refine ⟨h0, h1, h2, ?_⟩
    intro c'
    simp only [set]
    split
    · simp
    · exact h3 c'
  | join c =>
    simp only [Rpc.step] at hs
    split at hs
    · rename_i hc
      split at hs
      · rename_i hrun
        simp only [Option.some.injEq] at hs
        subst hs
        refine ⟨ht.last, ht.left, ht.locked, ht.ended, ?_⟩
        intro hp
        rw [(ht.starting hp).1] at hrun
        simp at hrun
      · simp only [Option.some.injEq] at hs
        subst hs
        exact ht
    · rename_i hc
      split at hs
      · rename_i hlock
        simp only [Option.some.injEq] at hs
        subst hs
        refine ⟨ht.last.null, ?_, fun _ => .inl (by simp), ht.ended, ?_⟩
        · intro hx
          simp only [calls_append, ht.left hx]
          rfl
        · intro hp
          exact absurd hc ((ht.starting hp).2.2.2 c)
      · simp at hs
    · rename_i hc
      split at hs
      · rename_i hcond
        simp only [Option.some.injEq] at hs
        subst hs
        refine ⟨ht.last, ht.left, fun _ => .inr hcond.2, ht.ended, ?_⟩
        intro hp
        rw [hcond.2] at hp
        simp at hp
      · simp at hs
    · simp at hs

theorem Reach.tail {h : Q → S → Outcome V E × S} (hf : ∀ q s e, (h q s).1 ≠ .fatal e) {s0 : S}
    {s : State Q S V E} (hr : Reach h s0 s) : Tail s := by
  induction hr with
  | init => exact .init s0
  | step e _ hs ih => exact ih.step hf hs

/-! ## Waiting for an answer -/

/-- steps the server needs at most to answer request `k` -/
def need (s : State Q S V E) (k : Nat) : Nat :=
  if k < s.log.length then 0
  else 2 * (k + 1 - s.log.length) + (match s.phase with
    | .starting => 1
    | .get => 0
    | _ => 0) - (match s.phase with
    | .handling _ _ _ => 1
    | _ => 0)

/-- An open request keeps the server going. -/
theorem server_need {h : Q → S → Outcome V E × S} {s0 : S} {s : State Q S V E} (hi : Inv h s0 s)
    (ht : Tail s) {k : Nat} (hk : k < s.asked.length) (ho : s.log.length ≤ k) :
    ∃ s', Rpc.step h s .server = some s' ∧ need s' k < need s k := by
  have hne : open_ s ≠ [] := by
    rw [hi.rest, List.drop_eq_getElem_cons (by omega)]
    simp [numbered]
  simp only [Rpc.step, server]
  split
  · rename_i hp
    refine ⟨_, rfl, ?_⟩
    simp only [need, hp]
    split <;> omega
  · rename_i hp
    cases hq : s.queue with
    | nil => simp [open_, hp, hq, calls] at hne
    | cons m q =>
      cases m with
      | null =>
        have hl := ht.last
        rw [hq] at hl
        simp only [NullLast] at hl
        simp only [open_, hp, hq, List.nil_append] at hne
        exact absurd (by simpa [calls] using hl) hne
      | call c k' r =>
        refine ⟨_, rfl, ?_⟩
        simp only [need, hp]
        split <;> omega
  · rename_i c k' r hp
    refine ⟨_, rfl, ?_⟩
    simp only [need, hp, List.length_append, List.length_singleton]
    have : ¬ k < s.log.length := by omega
    simp only [this, if_false]
    split
    · omega
    · cases (h r s.st).1 <;> simp <;> omega
  · rename_i hp
    exfalso
    apply hne
    simp only [open_, hp, List.nil_append]
    exact ht.left (.inl hp)
  · rename_i hp
    exfalso
    apply hne
    simp only [open_, hp, List.nil_append]
    exact ht.left (.inr hp)

/-- The server is not set back by the others. -/
theorem other_need {h : Q → S → Outcome V E × S} {s s' : State Q S V E} {e : Event Q}
    (hs : Rpc.step h s e = some s') (he : e ≠ .server) (k : Nat) :
    need s' k = need s k ∧ s'.log = s.log := by
  have key : s'.log = s.log ∧ s'.phase = s.phase := by
    cases e with
    | server => exact absurd rfl he
    | call c r =>
      simp only [Rpc.step] at hs
      split at hs
      · split at hs <;> (simp only [Option.some.injEq] at hs; subst hs; exact ⟨rfl, rfl⟩)
      · simp at hs
    | wake c =>
      simp only [Rpc.step] at hs
      split at hs
      · split at hs
        · split at hs
          · simp at hs
          · simp only [Option.some.injEq] at hs; subst hs; exact ⟨rfl, rfl⟩
        · simp at hs
      · simp at hs
    | join c =>
      simp only [Rpc.step] at hs
      split at hs
      · split at hs <;> (simp only [Option.some.injEq] at hs; subst hs; exact ⟨rfl, rfl⟩)
      · split at hs
        · simp only [Option.some.injEq] at hs; subst hs; exact ⟨rfl, rfl⟩
        · simp at hs
      · split at hs
        · simp only [Option.some.injEq] at hs; subst hs; exact ⟨rfl, rfl⟩
        · simp at hs
      · simp at hs
  simp only [need, key.1, key.2, and_self]

theorem other_phase {h : Q → S → Outcome V E × S} {s s' : State Q S V E} {e : Event Q}
    (hs : Rpc.step h s e = some s') (he : e ≠ .server) : s'.phase = s.phase := by
  cases e with
  | server => exact absurd rfl he
  | call c r =>
    simp only [Rpc.step] at hs
    split at hs
    · split at hs <;> (simp only [Option.some.injEq] at hs; subst hs; rfl)
    · simp at hs
  | wake c =>
    simp only [Rpc.step] at hs
    split at hs
    · split at hs
      · split at hs
        · simp at hs
        · simp only [Option.some.injEq] at hs; subst hs; rfl
      · simp at hs
    · simp at hs
  | join c =>
    simp only [Rpc.step] at hs
    split at hs
    · split at hs <;> (simp only [Option.some.injEq] at hs; subst hs; rfl)
    · split at hs
      · simp only [Option.some.injEq] at hs; subst hs; rfl
      · simp at hs
    · split at hs
      · simp only [Option.some.injEq] at hs; subst hs; rfl
      · simp at hs
    · simp at hs

/-- nothing that was asked or logged is forgotten -/
theorem step_grows {h : Q → S → Outcome V E × S} {s s' : State Q S V E} {e : Event Q}
    (hs : Rpc.step h s e = some s') :
    s.asked <+: s'.asked ∧ s.log <+: s'.log ∧
    ∀ c k, s.client c = .waiting k → s'.client c = .waiting k ∨ ∃ a, (c, k, a) ∈ s'.answers := by
  cases e with
  | server =>
    simp only [Rpc.step, server] at hs
    split at hs
    · simp only [Option.some.injEq] at hs; subst hs
      exact ⟨List.prefix_rfl, List.prefix_rfl, fun _ _ h => .inl h⟩
    · split at hs
      · simp at hs
      · simp only [Option.some.injEq] at hs; subst hs
        exact ⟨List.prefix_rfl, List.prefix_rfl, fun _ _ h => .inl h⟩
      · simp only [Option.some.injEq] at hs; subst hs
        exact ⟨List.prefix_rfl, List.prefix_rfl, fun _ _ h => .inl h⟩
    · simp only [Option.some.injEq] at hs; subst hs
      exact ⟨List.prefix_rfl, List.prefix_append _ _, fun _ _ h => .inl h⟩
    · simp only [Option.some.injEq] at hs; subst hs
      exact ⟨List.prefix_rfl, List.prefix_rfl, fun _ _ h => .inl h⟩
    · simp at hs
  | call c r =>
    simp only [Rpc.step] at hs
    split at hs
    rotate_left
    · simp at hs
    rename_i hc
    split at hs
    · simp only [Option.some.injEq] at hs; subst hs
      refine ⟨List.prefix_append _ _, List.prefix_rfl, ?_⟩
      intro c' k hk
      left
      have : c' ≠ c := by
        intro he; subst he; rw [hc.1] at hk; simp at hk
      simp only
      rw [set_ne _ _ this]
      exact hk
    · simp only [Option.some.injEq] at hs; subst hs
      exact ⟨List.prefix_rfl, List.prefix_rfl, fun _ _ h => .inl h⟩
  | wake c =>
    simp only [Rpc.step] at hs
    split at hs
    rotate_left
    · simp at hs
    rename_i k hk
    split at hs
    rotate_left
    · simp at hs
    split at hs
    · simp at hs
    simp only [Option.some.injEq] at hs; subst hs
    refine ⟨List.prefix_rfl, List.prefix_rfl, ?_⟩
    intro c' k' hk'
    by_cases ec : c' = c
    · subst ec
      rw [hk] at hk'
      simp only [Client.waiting.injEq] at hk'
      subst hk'
      exact .inr ⟨_, .head _⟩
    · left
      simp only
      rw [set_ne _ _ ec]
      exact hk'
  | join c =>
    have key : ∀ (x : Client), (∀ k, s.client c ≠ .waiting k) →
        ∀ c' k, s.client c' = .waiting k → set s.client c x c' = .waiting k := by
      intro x hc c' k hk
      by_cases ec : c' = c
      · subst ec; exact absurd hk (hc k)
      · rw [set_ne _ _ ec]; exact hk
    simp only [Rpc.step] at hs
    split at hs
    · rename_i hc
      split at hs
      · simp only [Option.some.injEq] at hs; subst hs
        exact ⟨List.prefix_rfl, List.prefix_rfl, fun c' k h => .inl (key _ (by simp [hc]) c' k h)⟩
      · simp only [Option.some.injEq] at hs; subst hs
        exact ⟨List.prefix_rfl, List.prefix_rfl, fun _ _ h => .inl h⟩
    · rename_i hc
      split at hs
      · simp only [Option.some.injEq] at hs; subst hs
        exact ⟨List.prefix_rfl, List.prefix_rfl, fun c' k h => .inl (key _ (by simp [hc]) c' k h)⟩
      · simp at hs
    · rename_i hc
      split at hs
      · simp only [Option.some.injEq] at hs; subst hs
        exact ⟨List.prefix_rfl, List.prefix_rfl, fun c' k h => .inl (key _ (by simp [hc]) c' k h)⟩
      · simp at hs
    · simp at hs

theorem step_answers {h : Q → S → Outcome V E × S} {s s' : State Q S V E} {e : Event Q}
    (hs : Rpc.step h s e = some s') {x : Nat × Nat × Except E V} (hx : x ∈ s.answers) :
    x ∈ s'.answers := by
  cases e with
  | server =>
    simp only [Rpc.step, server] at hs
    split at hs
    · simp only [Option.some.injEq] at hs; subst hs; exact hx
    · split at hs
      · simp at hs
      · simp only [Option.some.injEq] at hs; subst hs; exact hx
      · simp only [Option.some.injEq] at hs; subst hs; exact hx
    · simp only [Option.some.injEq] at hs; subst hs; exact hx
    · simp only [Option.some.injEq] at hs; subst hs; exact hx
    · simp at hs
  | call c r =>
    simp only [Rpc.step] at hs
    split at hs
    · split at hs <;> (simp only [Option.some.injEq] at hs; subst hs; exact hx)
    · simp at hs
  | wake c =>
    simp only [Rpc.step] at hs
    split at hs
    · split at hs
      · split at hs
        · simp at hs
        · simp only [Option.some.injEq] at hs; subst hs; exact .tail _ hx
      · simp at hs
    · simp at hs
  | join c =>
    simp only [Rpc.step] at hs
    split at hs
    · split at hs <;> (simp only [Option.some.injEq] at hs; subst hs; exact hx)
    · split at hs
      · simp only [Option.some.injEq] at hs; subst hs; exact hx
      · simp at hs
    · split at hs
      · simp only [Option.some.injEq] at hs; subst hs; exact hx
      · simp at hs
    · simp at hs

/-- the steps of the server in a schedule -/
def turns (es : List (Event Q)) : Nat :=
  (es.filter (fun e => match e with | .server => true | _ => false)).length

theorem run_answered {h : Q → S → Outcome V E × S} (hf : ∀ q s e, (h q s).1 ≠ .fatal e) {s0 : S}
    {s : State Q S V E} (hr : Reach h s0 s) {k : Nat} (hk : k < s.asked.length)
    (es : List (Event Q)) (hn : need s k ≤ turns es) : k < (run h s es).log.length := by
  induction es generalizing s with
  | nil =>
    simp only [turns, List.filter_nil, List.length_nil, Nat.le_zero] at hn
    simp only [need] at hn
    split at hn
    · assumption
    · exfalso
      cases hp : s.phase <;> simp [hp] at hn <;> omega
  | cons e es ih =>
    simp only [run]
    have hmono : ∀ {s' : State Q S V E}, Rpc.step h s e = some s' → k < s'.asked.length := by
      intro s' hs'
      exact Nat.lt_of_lt_of_le hk (step_grows hs').1.length_le
    rcases Nat.lt_or_ge k s.log.length with hlt | hge
    · have hz : ∀ {t : State Q S V E}, k < t.log.length → need t k ≤ turns es := by
        intro t htl; simp [need, htl]
      cases hs : Rpc.step h s e with
      | none => exact ih hr hk (hz hlt)
      | some s' =>
        exact ih (.step e hr hs) (hmono hs) (hz (Nat.lt_of_lt_of_le hlt (step_grows hs).2.1.length_le))
    · by_cases he : e = .server
      · subst he
        obtain ⟨s', hs', hd⟩ := server_need hr.inv (hr.tail hf) hk hge
        rw [hs']
        refine ih (.step _ hr hs') (hmono hs') ?_
        simp only [turns, List.filter_cons_of_pos, List.length_cons] at hn ⊢
        simp only [Option.getD_some]
        omega
      · have ht : turns (e :: es) = turns es := by
          cases e <;> simp_all [turns]
        rw [ht] at hn
        cases hs : Rpc.step h s e with
        | none => exact ih hr hk hn
        | some s' =>
          refine ih (.step e hr hs) (hmono hs) ?_
          simp only [Option.getD_some]
          rw [(other_need hs he k).1]
          exact hn

theorem run_waits {h : Q → S → Outcome V E × S} {s : State Q S V E} {c k : Nat}
    (hw : s.client c = .waiting k ∨ ∃ a, (c, k, a) ∈ s.answers) (es : List (Event Q)) :
    (run h s es).client c = .waiting k ∨ ∃ a, (c, k, a) ∈ (run h s es).answers := by
  induction es generalizing s with
  | nil => exact hw
  | cons e es ih =>
    simp only [run]
    cases hs : Rpc.step h s e with
    | none => exact ih hw
    | some s' =>
      apply ih
      rcases hw with hw | ⟨a, ha⟩
      · exact (step_grows hs).2.2 c k hw
      · exact .inr ⟨a, step_answers hs ha⟩

/-! ## One thread shuts the server down -/

/-- `_NULL` is the last message -/
def Ends : List (Msg Q) → Prop
  | [] => True
  | .call _ _ _ :: q => Ends q
  | .null :: q => q = []

theorem Ends.append {l : List (Msg Q)} (h : .null ∉ l) (m : Msg Q) : Ends (l ++ [m]) := by
  induction l with
  | nil => cases m <;> simp [Ends]
  | cons x l ih =>
    cases x with
    | call c k r => exact ih (fun hm => h (.tail _ hm))
    | null => exact absurd (.head _) h

/-- Only client `j` calls `join`, and the handler does not end the server. -/
structure Solo (j : Nat) (s : State Q S V E) : Prop where
  ends : Ends s.queue
  others : ∀ c, c ≠ j → s.client c ≠ .joinWant ∧ s.client c ≠ .joinWait
  want : s.client j = .joinWant → .null ∉ s.queue ∧ s.phase ≠ .leaving ∧ s.phase ≠ .ended
  wait : s.client j = .joinWait → s.lock = some j ∧
    (.null ∈ s.queue ∨ s.phase = .leaving ∨ s.phase = .ended)
  null : .null ∈ s.queue ∨ s.phase = .leaving → s.client j = .joinWait
  left : s.phase = .leaving ∨ s.phase = .ended → s.queue = []
  ended : s.phase = .ended → s.running = false
  holder : ∀ c, s.lock = some c → s.client c = .joinWait
  starting : s.phase = .starting → s.running = false ∧ s.queue = [] ∧ s.client j ≠ .joinWant
  tasks : s.unfinished = s.queue.length + (match s.phase with | .handling _ _ _ => 1 | _ => 0)

theorem Solo.init (j : Nat) (s0 : S) : Solo j (Rpc.init s0 : State Q S V E) := by
  refine ⟨trivial, ?_, ?_, ?_, ?_, ?_, ?_, ?_, ?_, ?_⟩ <;> simp [Rpc.init]

theorem Solo.step {h : Q → S → Outcome V E × S} (hf : ∀ q s e, (h q s).1 ≠ .fatal e) {j : Nat}
    {s s' : State Q S V E} (ht : Solo j s) {e : Event Q} (he : ∀ c, e = .join c → c = j)
    (hs : Rpc.step h s e = some s') : Solo j s' := by
  cases e with
  | server =>
    simp only [Rpc.step, server] at hs
    split at hs
    · rename_i hp
      simp only [Option.some.injEq] at hs
      subst hs
      obtain ⟨-, h1, h3⟩ := ht.starting hp
      refine ⟨ht.ends, ht.others, fun h => absurd h h3, ?_, ?_, ?_, ?_, ht.holder, ?_, ?_⟩
      · intro hw
        obtain ⟨hw1, hw2⟩ := ht.wait hw
        rw [hp, h1] at hw2
        simp at hw2
      · simp [h1]
      · simp
      · simp
      · simp
      · simpa [hp] using ht.tasks
    · rename_i hp
      split at hs
      · simp at hs
      · rename_i q hq
        simp only [Option.some.injEq] at hs
        subst hs
        have hl := ht.ends
        rw [hq] at hl
        simp only [Ends] at hl
        subst hl
        have hj := ht.null (.inl (by rw [hq]; exact .head _))
        refine ⟨trivial, ht.others, ?_, ?_, fun _ => hj, fun _ => rfl, by simp, ht.holder, by simp, ?_⟩
        · intro hw
          simp only [hj] at hw
          simp at hw
        · intro _
          exact ⟨(ht.wait hj).1, .inr (.inl rfl)⟩
        · have := ht.tasks
          simp [hp, hq] at this
          simp [this]
      · rename_i c k r q hq
        simp only [Option.some.injEq] at hs
        subst hs
        have hl := ht.ends
        rw [hq] at hl
        refine ⟨hl, ht.others, ?_, ?_, ?_, by simp, by simp, ht.holder, by simp, ?_⟩
        · intro hw
          obtain ⟨h1, -, -⟩ := ht.want hw
          rw [hq] at h1
          exact ⟨fun hm => h1 (.tail _ hm), by simp, by simp⟩
        · intro hw
          obtain ⟨h1, h2⟩ := ht.wait hw
          refine ⟨h1, .inl ?_⟩
          rw [hq, hp] at h2
          simpa using h2
        · intro hx
          apply ht.null
          rw [hq]
          simp only [or_false, reduceCtorEq] at hx
          exact .inl (.tail _ hx)
        · have := ht.tasks
          simp [hp, hq] at this
          simp [this]
    · rename_i c k r hp
      simp only [Option.some.injEq] at hs
      have hph : s'.phase = .get := by
        subst hs
        have := hf r s.st
        cases ho : (h r s.st).1 with
        | fatal e => exact absurd ho (this e)
        | _ => simp
      have h1 : s'.queue = s.queue := by rw [← hs]
      have h2 : s'.lock = s.lock := by rw [← hs]
      have h3 : s'.client = s.client := by rw [← hs]
      have h4 : s'.unfinished = s.unfinished - 1 := by rw [← hs]
      clear hs
      refine ⟨by rw [h1]; exact ht.ends, by rw [h3]; exact ht.others, ?_, ?_, ?_, by simp [hph],
        by simp [hph], by rw [h2, h3]; exact ht.holder, by simp [hph], ?_⟩
      · rw [h3, h1, hph]
        intro hw
        exact ⟨(ht.want hw).1, by simp, by simp⟩
      · rw [h3, h1, h2, hph]
        intro hw
        obtain ⟨h1, h2⟩ := ht.wait hw
        rw [hp] at h2
        exact ⟨h1, by simpa using h2⟩
      · rw [h3, h1, hph]
        intro hx
        exact ht.null (.inl (by simpa using hx))
      · have := ht.tasks
        rw [h4, h1, hph, this]
        simp [hp]
    · rename_i hp
      simp only [Option.some.injEq] at hs
      subst hs
      have hq := ht.left (.inl hp)
      refine ⟨ht.ends, ht.others, ?_, ?_, ?_, fun _ => hq, fun _ => rfl, ht.holder, by simp, ?_⟩
      · intro hw
        exact absurd hp (ht.want hw).2.1
      · intro hw
        exact ⟨(ht.wait hw).1, .inr (.inr rfl)⟩
      · intro hx
        exact ht.null (.inr hp)
      · have := ht.tasks
        simpa [hp] using this
    · simp at hs
  | call c r =>
    simp only [Rpc.step] at hs
    split at hs
    rotate_left
    · simp at hs
    rename_i hcond
    obtain ⟨hidle, hlock⟩ := hcond
    split at hs
    rotate_left
    · simp only [Option.some.injEq] at hs
      subst hs
      exact ⟨ht.ends, ht.others, ht.want, ht.wait, ht.null, ht.left, ht.ended, ht.holder, ht.starting,
        ht.tasks⟩
    rename_i hrun
    simp only [Option.some.injEq] at hs
    have hne : s.phase ≠ .ended := by
      intro h; rw [ht.ended h] at hrun; simp at hrun
    have hnj : s.client j ≠ .joinWait := by
      intro hw
      have := (ht.wait hw).1
      rw [hlock] at this
      simp at this
    have hnn : ¬ (.null ∈ s.queue ∨ s.phase = .leaving) := fun hx => hnj (ht.null hx)
    have hnull : ¬ (.null ∈ s.queue ++ [.call c s.asked.length r]) := by
      intro hx
      rcases List.mem_append.mp hx with h | h
      · exact hnn (.inl h)
      · simp at h
    have hset : ∀ c' x, (∀ k, x ≠ Client.waiting k) →
        set s.client c (.waiting s.asked.length) c' = x → s.client c' = x := by
      intro c' x hx hc'
      by_cases ec : c' = c
      · subst ec
        rw [set_self] at hc'
        exact absurd hc'.symm (hx _)
      · rwa [set_ne _ _ ec] at hc'
    subst hs
    refine ⟨Ends.append (fun hm => hnn (.inl hm)) _, ?_, ?_, ?_, ?_, ?_, ht.ended, ?_, ?_, ?_⟩
    · intro c' hc'
      obtain ⟨h1, h2⟩ := ht.others c' hc'
      exact ⟨fun h => h1 (hset _ _ (by simp) h), fun h => h2 (hset _ _ (by simp) h)⟩
    · intro hw
      exact ⟨hnull, fun h => hnn (.inr h), hne⟩
    · intro hw
      exact absurd (hset _ _ (by simp) hw) hnj
    · intro hx
      exfalso
      rcases hx with hx | hx
      · exact hnull hx
      · exact hnn (.inr hx)
    · intro hx
      exfalso
      rcases hx with hx | hx
      · exact hnn (.inr hx)
      · exact hne hx
    · intro c' hc'
      simp only [hlock] at hc'
      simp at hc'
    · intro hp
      rw [(ht.starting hp).1] at hrun
      simp at hrun
    · have := ht.tasks
      simp only [this, List.length_append, List.length_singleton]
      omega
  | wake c =>
    simp only [Rpc.step] at hs
    split at hs
    rotate_left
    · simp at hs
    rename_i k hk
    split at hs
    rotate_left
    · simp at hs
    split at hs
    · simp at hs
    simp only [Option.some.injEq] at hs
    have hset : ∀ c' x, x ≠ Client.idle → (set s.client c .idle c' = x ↔ s.client c' = x ∧ c' ≠ c) := by
      intro c' x hx
      by_cases ec : c' = c
      · subst ec
        rw [set_self]
        simp [hx.symm]
      · rw [set_ne _ _ ec]
        simp [ec]
    have hkeep : ∀ c', s.client c' = .joinWait → set s.client c .idle c' = .joinWait := by
      intro c' hc'
      rw [set_ne]
      · exact hc'
      · intro ec; subst ec; rw [hk] at hc'; simp at hc'
    subst hs
    refine ⟨ht.ends, ?_, ?_, ?_, fun hx => hkeep j (ht.null hx), ht.left, ht.ended, 
      fun c' hc' => hkeep c' (ht.holder c' hc'), ?_, ht.tasks⟩
    · intro c' hc'
      obtain ⟨h1, h2⟩ := ht.others c' hc'
      exact ⟨fun h => h1 ((hset _ _ (by simp)).mp h).1, fun h => h2 ((hset _ _ (by simp)).mp h).1⟩
    · intro hw
      exact ht.want ((hset _ _ (by simp)).mp hw).1
    · intro hw
      exact ht.wait ((hset _ _ (by simp)).mp hw).1
    · intro hp
      obtain ⟨h0, h1, h2⟩ := ht.starting hp
      exact ⟨h0, h1, fun hw => h2 ((hset _ _ (by simp)).mp hw).1⟩
  | join c =>
    obtain rfl := he c rfl
    simp only [Rpc.step] at hs
    split at hs
    · rename_i hc
      split at hs
      · rename_i hrun
        simp only [Option.some.injEq] at hs
        have hnn : ¬ (.null ∈ s.queue ∨ s.phase = .leaving) := by
          intro hx
          have := ht.null hx
          rw [hc] at this
          simp at this
        have hne : s.phase ≠ .ended := by
          intro h; rw [ht.ended h] at hrun; simp at hrun
        subst hs
        refine ⟨ht.ends, ?_, ?_, ?_, ?_, ht.left, ht.ended, ?_, ?_, ht.tasks⟩
        · intro c' hc'
          simp only
          rw [set_ne _ _ hc']
          exact ht.others c' hc'
        · intro _
          exact ⟨fun h => hnn (.inl h), fun h => hnn (.inr h), hne⟩
        · intro hw
          simp only [set_self] at hw
          simp at hw
        · intro hx
          exact absurd hx hnn
        · intro c' hc'
          have := ht.holder c' hc'
          have hcc : c' ≠ c := by
            intro ec; subst ec; rw [hc] at this; simp at this
          simp only
          rw [set_ne _ _ hcc]
          exact this
        · intro hp
          rw [(ht.starting hp).1] at hrun
          simp at hrun
      · simp only [Option.some.injEq] at hs
        subst hs
        exact ht
    · rename_i hc
      split at hs
      · rename_i hlock
        simp only [Option.some.injEq] at hs
        obtain ⟨h1, h2, h3⟩ := ht.want hc
        subst hs
        refine ⟨Ends.append h1 _, ?_, ?_, ?_, ?_, ?_, ht.ended, ?_, ?_, ?_⟩
        · intro c' hc'
          simp only
          rw [set_ne _ _ hc']
          exact ht.others c' hc'
        · intro hw
          simp only [set_self] at hw
          simp at hw
        · intro _
          exact ⟨rfl, .inl (by simp)⟩
        · intro _
          exact set_self _ _ _
        · intro hx
          exfalso
          rcases hx with hx | hx
          · exact h2 hx
          · exact h3 hx
        · intro c' hc'
          simp only [Option.some.injEq] at hc'
          subst hc'
          exact set_self _ _ _
        · intro hp
          exact absurd hc ((ht.starting hp).2.2)
        · have := ht.tasks
          simp only [this, List.length_append, List.length_singleton]
          omega
      · simp at hs
    · rename_i hc
      split at hs
      · rename_i hcond
        simp only [Option.some.injEq] at hs
        have hq := ht.left (.inr hcond.2)
        subst hs
        refine ⟨ht.ends, ?_, ?_, ?_, ?_, ht.left, ht.ended, by simp, ?_, ht.tasks⟩
        · intro c' hc'
          simp only
          rw [set_ne _ _ hc']
          exact ht.others c' hc'
        · intro hw
          simp only [set_self] at hw
          simp at hw
        · intro hw
          simp only [set_self] at hw
          simp at hw
        · intro hx
          exfalso
          simp only [hq, hcond.2] at hx
          simp at hx
        · intro hp
          simp only [hcond.2] at hp
          simp at hp
      · simp at hs
    · simp at hs

theorem run_solo {h : Q → S → Outcome V E × S} (hf : ∀ q s e, (h q s).1 ≠ .fatal e) {j : Nat}
    {s : State Q S V E} (ht : Solo j s) (es : List (Event Q)) (he : ∀ c, .join c ∈ es → c = j) :
    Solo j (run h s es) := by
  induction es generalizing s with
  | nil => exact ht
  | cons e es ih =>
    simp only [run]
    have he' : ∀ c, .join c ∈ es → c = j := fun c hc => he c (.tail _ hc)
    cases hs : Rpc.step h s e with
    | none => exact ih ht he'
    | some s' =>
      refine ih (ht.step hf ?_ hs) he'
      intro c hc
      exact he c (by rw [hc]; exact .head _)

/-- steps to the end of the server -/
def remaining (s : State Q S V E) : Nat :=
  2 * s.queue.length + (match s.phase with
    | .starting => 2
    | .get => 1
    | .handling _ _ _ => 2
    | .leaving => 1
    | .ended => 0)

/-- While `join` waits, the server comes closer to its end. -/
theorem run_ends {h : Q → S → Outcome V E × S} (hf : ∀ q s e, (h q s).1 ≠ .fatal e) {j : Nat}
    {s : State Q S V E} (ht : Solo j s) (hw : s.client j = .joinWait ∨ s.phase = .ended)
    (es : List (Event Q)) (he : ∀ c, .join c ∈ es → c = j) (hn : remaining s ≤ turns es) :
    (run h s es).phase = .ended := by
  induction es generalizing s with
  | nil =>
    simp only [turns, List.filter_nil, List.length_nil, Nat.le_zero] at hn
    simp only [run]
    simp only [remaining] at hn
    cases hp : s.phase <;> simp [hp] at hn <;> rfl
  | cons e es ih =>
    simp only [run]
    have he' : ∀ c, .join c ∈ es → c = j := fun c hc => he c (.tail _ hc)
    have he1 : ∀ c, e = .join c → c = j := fun c hc => he c (by rw [hc]; exact .head _)
    by_cases hended : s.phase = .ended
    · have hz : ∀ {t : State Q S V E}, Solo j t → t.phase = .ended → remaining t ≤ turns es := by
        intro t ht' hp
        simp [remaining, hp, ht'.left (.inr hp)]
      cases hs : Rpc.step h s e with
      | none => exact ih ht (.inr hended) he' (hz ht hended)
      | some s' =>
        have hp' : s'.phase = .ended := by
          by_cases hes : e = .server
          · subst hes
            simp [Rpc.step, server, hended] at hs
          · have hk := (other_need hs hes 0)
            exact other_phase hs hes ▸ hended
        exact ih (ht.step hf he1 hs) (.inr hp') he' (hz (ht.step hf he1 hs) hp')
    · have hw : s.client j = .joinWait := by
        rcases hw with h | h
        · exact h
        · exact absurd h hended
      obtain ⟨hlock, hnull⟩ := ht.wait hw
      by_cases hes : e = .server
      · subst hes
        have : ∃ s', Rpc.step h s .server = some s' ∧ remaining s' < remaining s ∧
            s'.client j = .joinWait := by
          simp only [Rpc.step, server]
          split
          · rename_i hp
            exact ⟨_, rfl, by simp [remaining, hp], hw⟩
          · rename_i hp
            cases hq : s.queue with
            | nil => simp [hq, hp] at hnull
            | cons m q =>
              cases m with
              | null => exact ⟨_, rfl, by simp [remaining, hp, hq], hw⟩
              | call c k r => exact ⟨_, rfl, by simp [remaining, hp, hq]; omega, hw⟩
          · rename_i c k r hp
            refine ⟨_, rfl, ?_, hw⟩
            simp only [remaining, hp]
            cases (h r s.st).1 <;> simp
          · rename_i hp
            exact ⟨_, rfl, by simp [remaining, hp], hw⟩
          · rename_i hp
            exact absurd hp hended
        obtain ⟨s', hs', hd, hw'⟩ := this
        rw [hs']
        refine ih (ht.step hf (by simp) hs') (.inl hw') he' ?_
        simp only [turns, List.filter_cons_of_pos, List.length_cons] at hn ⊢
        simp only [Option.getD_some]
        omega
      · have htn : turns (e :: es) = turns es := by
          cases e <;> simp_all [turns]
        rw [htn] at hn
        cases hs : Rpc.step h s e with
        | none => exact ih ht (.inl hw) he' hn
        | some s' =>
          have hkeep : s'.client j = .joinWait ∧ s'.queue = s.queue := by
            cases e with
            | server => exact absurd rfl hes
            | call c r =>
              simp [Rpc.step, hlock] at hs
            | wake c =>
              simp only [Rpc.step] at hs
              split at hs
              rotate_left
              · simp at hs
              rename_i k hk
              split at hs
              rotate_left
              · simp at hs
              split at hs
              · simp at hs
              simp only [Option.some.injEq] at hs
              subst hs
              refine ⟨?_, rfl⟩
              simp only
              rw [set_ne]
              · exact hw
              · intro ec; subst ec; rw [hk] at hw; simp at hw
            | join c =>
              obtain rfl := he1 c rfl
              simp [Rpc.step, hw, hended] at hs
          refine ih (ht.step hf he1 hs) (.inl hkeep.1) he' ?_
          simp only [remaining, Option.getD_some, hkeep.2, other_phase hs hes] at hn ⊢
          exact hn

end Verif.Rpc
