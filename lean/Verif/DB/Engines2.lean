import Verif.DB.Engines
/-!
# The tables of the two engines say the same: storing a result
-/
namespace Verif.DB
namespace Engines
set_option linter.unusedSectionVars false
variable {B R : Type} [DecidableEq B]

theorem inj_of_nodup {α β : Type} {f : α → β} {l : List α} (h : (l.map f).Nodup) {a b : α} (ha : a ∈ l) (hb : b ∈ l)
    (he : f a = f b) : a = b := by
  induction l with
  | nil => cases ha
  | cons x l ih =>
    simp only [List.map_cons, List.nodup_cons, List.mem_map, not_exists, not_and] at h
    rcases List.mem_cons.1 ha with rfl | ha' <;> rcases List.mem_cons.1 hb with rfl | hb'
    · rfl
    · exact absurd he.symm (h.1 b hb')
    · exact absurd he (h.1 a ha')
    · exact ih h.2 ha' hb'

/-- The functions with a property and their calls are still there, the files are the same. -/
structure Grow (P : FunName → Prop) (s s' : SDB B R) : Prop where
  funs : ∀ g ∈ s.functions, P g.name → ∃ g' ∈ s'.functions, g'.id = g.id ∧ g'.name = g.name
  calls : ∀ g ∈ s.functions, P g.name → ∀ (i : Nat) (k : CallRow B R), (rows s g.id)[i]? = some k →
    ∃ k' : CallRow B R, (rows s' g.id)[i]? = some k' ∧ k'.id = k.id ∧ k'.bound = k.bound
  files : s'.files = s.files
  last : s'.lastFile = s.lastFile

theorem Grow.refl (P : FunName → Prop) (s : SDB B R) : Grow P s s :=
  ⟨fun g hg _ => ⟨g, hg, rfl, rfl⟩, fun _ _ _ _ k hk => ⟨k, hk, rfl, rfl⟩, rfl, rfl⟩

theorem Grow.trans {P : FunName → Prop} {a b d : SDB B R} (h1 : Grow P a b) (h2 : Grow P b d) : Grow P a d where
  funs g hg hp := by
    obtain ⟨g', h3, h4, h5⟩ := h1.funs g hg hp
    obtain ⟨g'', h6, h7, h8⟩ := h2.funs g' h3 (h5 ▸ hp)
    exact ⟨g'', h6, h7.trans h4, h8.trans h5⟩
  calls g hg hp i k hk := by
    obtain ⟨g', h3, h4, h5⟩ := h1.funs g hg hp
    obtain ⟨k', h6, h7, h8⟩ := h1.calls g hg hp i k hk
    rw [← h4] at h6
    obtain ⟨k'', h9, h10, h11⟩ := h2.calls g' h3 (h5 ▸ hp) i k' h6
    rw [h4] at h9
    exact ⟨k'', h9, h10.trans h7, h11.trans h8⟩
  files := h2.files.trans h1.files
  last := h2.last.trans h1.last

theorem Grow.mono {P Q : FunName → Prop} {a b : SDB B R} (h : Grow P a b) (hq : ∀ f, Q f → P f) : Grow Q a b :=
  ⟨fun g hg hp => h.funs g hg (hq _ hp), fun g hg hp => h.calls g hg (hq _ hp), h.files, h.last⟩

theorem Grow.digests {P : FunName → Prop} {s s' : SDB B R} (h : Grow P s s') {a b} (hd : SameDigests s a b) : SameDigests s' a b := by
  refine ⟨hd.1, fun t ht => ?_⟩
  have := hd.2 t ht
  unfold Good at *
  rw [h.files, h.last]
  exact this

theorem Grow.found {P : FunName → Prop} {s s' : SDB B R} (h : Grow P s s') {f : FunName} (hp : P f) {b : B}
    {a : Option ((FunName × Nat) × R)} {d : Option (Nat × R)} (hf : SameFound s f b a d) : SameFound s' f b a d := by
  match a, d, hf with
  | none, none, _ => trivial
  | some ((f', i), r), some (kid, r'), ⟨h1, h6, g, h2, h3, k, h4, h5, h7⟩ =>
    obtain ⟨g', h8, h9, h10⟩ := h.funs g h2 (h3 ▸ hp)
    obtain ⟨k', h11, h12, h13⟩ := h.calls g h2 (h3 ▸ hp) i k h4
    exact ⟨h1, h6, g', h8, h10.trans h3, k', by rw [h9]; exact h11, h12.trans h5, h13.trans h7⟩

theorem Grow.prep {P : FunName → Prop} {s s' : SDB B R} (h : Grow P s s') {f : FunName} {b : B}
    {p : Prep FunName (FunName × Nat) FileName R} {q : Prep Nat Nat Nat R} (hs : SamePrep s f b p q)
    (hp : q.funDirty = false → P f) : SamePrep s' f b p q := by
  refine { hs with clean := ?_, found := ?_, digests := h.digests hs.digests }
  · intro hd
    obtain ⟨h1, g, h2, h3, h4⟩ := hs.clean hd
    obtain ⟨g', h5, h6, h7⟩ := h.funs g h2 (h3 ▸ hp hd)
    exact ⟨h1, g', h5, h7.trans h3, by rw [h6]; exact h4⟩
  · cases hd : q.funDirty with
    | false => exact h.found (hp hd) hs.found
    | true =>
      obtain ⟨h1, h2⟩ := hs.dirtyFound hd
      rw [h1, h2]
      trivial

/-! ### Functions -/

theorem Rel.deleteFunction {c : CDB B R} {s : SDB B R} (h : Rel c s) (f : FunName) :
    Rel (CDB.deleteFunction f c).2 (SDB.deleteFunction f s).2 ∧ Grow (fun g => g ≠ f) s (SDB.deleteFunction f s).2 ∧
      ∀ g ∈ (SDB.deleteFunction f s).2.functions, g.name ≠ f := by
  have hd := deleteFunction_drop f c h.cfKeys
  have hmem : ∀ g, g ∈ (SDB.deleteFunction f s).2.functions ↔ g ∈ s.functions ∧ g.name ≠ f := by
    intro g
    simp [SDB.deleteFunction]
  have hcall : ∀ k, k ∈ (SDB.deleteFunction f s).2.calls ↔ k ∈ s.calls ∧ ∀ g ∈ s.functions, g.name = f → g.id ≠ k.fn := by
    intro k
    simp [SDB.deleteFunction]
  have hrows : ∀ g ∈ s.functions, g.name ≠ f → rows (SDB.deleteFunction f s).2 g.id = rows s g.id := by
    intro g hg hne
    unfold rows
    simp only [SDB.deleteFunction, List.filter_filter]
    refine List.filter_congr fun k hk => ?_
    by_cases hkg : k.fn = g.id
    · simp only [hkg, decide_true, Bool.true_and, decide_eq_true_eq]
      intro hin
      obtain ⟨g', h1, h2⟩ := List.mem_map.1 hin
      obtain ⟨h3, h4⟩ := List.mem_filter.1 h1
      have := h.funIds g' h3 g hg h2
      subst this
      exact hne (by simpa using h4)
    · simp [hkg]
  have hkeep : ∀ t ∈ s.callFiles, ∀ k ∈ (SDB.deleteFunction f s).2.calls, t.1 = k.id →
      t ∈ (SDB.deleteFunction f s).2.callFiles := by
    intro t ht k hk he
    simp only [SDB.deleteFunction, List.mem_filter, decide_eq_true_eq]
    refine ⟨ht, fun hin => ?_⟩
    obtain ⟨k', h1, h2⟩ := List.mem_map.1 hin
    obtain ⟨h3, h4⟩ := List.mem_filter.1 h1
    obtain ⟨hk1, hk2⟩ := (hcall k).1 hk
    have hkk : k' = k := by
      have hn := h.callIds
      have := inj_of_nodup hn h3 hk1 (h2.trans he)
      exact this
    subst hkk
    simp only [List.mem_map, List.mem_filter, decide_eq_true_eq] at h4
    obtain ⟨g, ⟨h5, h6⟩, h7⟩ := h4
    exact hk2 g h5 h6 h7
  refine ⟨{ h with
      funNames := fun g hg g' hg' => h.funNames g ((hmem g).1 hg).1 g' ((hmem g').1 hg').1
      funIds := fun g hg g' hg' => h.funIds g ((hmem g).1 hg).1 g' ((hmem g').1 hg').1
      funLe := fun g hg => h.funLe g ((hmem g).1 hg).1
      fn := ?_
      callIds := List.Sublist.nodup (List.Sublist.map _ List.filter_sublist) h.callIds
      callLe := fun k hk => h.callLe k ((hcall k).1 hk).1
      callFn := ?_, calls := ?_, noCalls := ?_
      file := fun x => by rw [hd.files]; exact h.file x
      cfKeys := hd.nd, cf := ?_, cfFile := ?_, cfFun := ?_, refs := ?_
      csrcs := fun cid => by rw [hd.esrcs]; split <;> simp [h.csrcs]
      cdsts := fun cid => by rw [hd.edsts]; split <;> simp [h.cdsts]
      ssrcs := by simp [SDB.deleteFunction, h.ssrcs]
      sdsts := by simp [SDB.deleteFunction, h.sdsts] }, ?_, fun g hg => ((hmem g).1 hg).2⟩
  · intro g
    rw [hd.functions]
    have : (SDB.deleteFunction f s).2.functions = s.functions.filter (fun r => ¬ r.name = f) := rfl
    rw [this, List.find?_filter]
    split
    · rename_i he
      subst he
      rw [List.find?_eq_none.2]
      · rfl
      · intro r _; simp
    · rename_i he
      rw [h.fn g]
      congr 2
      funext r
      by_cases hr : r.name = g
      · simp [hr, Ne.symm he]
      · simp [hr]
  · intro k hk
    obtain ⟨h1, h2⟩ := (hcall k).1 hk
    obtain ⟨g, h3, h4⟩ := h.callFn k h1
    exact ⟨g, (hmem g).2 ⟨h3, fun he => h2 g h3 he h4⟩, h4⟩
  · intro g hg
    obtain ⟨h1, h2⟩ := (hmem g).1 hg
    rw [hd.calls, if_neg (Ne.symm h2), hrows g h1 h2]
    exact h.calls g h1
  · intro g hg
    rw [hd.calls]
    split
    · rfl
    · rename_i hne
      exact h.noCalls g fun r hr he => hg r ((hmem r).2 ⟨hr, fun h' => hne (h'.symm.trans he)⟩) he
  · intro g hg i k hk r hr
    obtain ⟨h1, h2⟩ := (hmem g).1 hg
    have hkm : k ∈ (SDB.deleteFunction f s).2.calls := (List.mem_filter.1 (List.mem_of_getElem? hk)).1
    rw [hrows g h1 h2] at hk
    rw [hd.cf, if_neg (Ne.symm h2), h.cf g h1 i k hk r hr]
    refine (findCallFile_filter (s := s) rfl (fun t ht h3 h4 => ?_) rfl).symm
    have := hkeep t ht k hkm h3
    exact (List.mem_filter.1 this).2
  · intro x g i hx
    rw [hd.cf]
    split
    · rfl
    · exact h.cfFile x g i hx
  · intro x g i hx
    rw [hd.cf] at hx
    split at hx
    · exact absurd rfl hx
    · rename_i hne
      obtain ⟨r, h1, h2, h3⟩ := h.cfFun x g i hx
      have h4 : r.name ≠ f := fun he => hne (he.symm.trans h2)
      exact ⟨r, (hmem r).2 ⟨h1, h4⟩, h2, by rw [hrows r h1 h4]; exact h3⟩
  · intro t ht
    obtain ⟨ht1, ht2⟩ := List.mem_filter.1 ht
    obtain ⟨⟨k, h1, h2⟩, h3⟩ := h.refs t ht1
    refine ⟨⟨k, (hcall k).2 ⟨h1, fun g hg hgf hgk => ?_⟩, h2⟩, h3⟩
    simp only [decide_eq_true_eq, List.mem_map, List.mem_filter] at ht2
    exact ht2 ⟨k, ⟨h1, g, ⟨hg, hgf⟩, hgk⟩, h2⟩
  · exact ⟨fun g hg hne => ⟨g, (hmem g).2 ⟨hg, hne⟩, rfl, rfl⟩,
      fun g hg hne i k hk => ⟨k, by rw [hrows g hg hne]; exact hk, rfl, rfl⟩, rfl, rfl⟩

theorem Rel.saveFunction {c : CDB B R} {s : SDB B R} (h : Rel c s) {f : FunName} (hf : ∀ g ∈ s.functions, g.name ≠ f) (d : Digest)
    (deps : List FunName) :
    Rel { c with functions := c.functions.set f (d, deps) }
      { s with functions := s.functions ++ [⟨s.lastFun + 1, f, d, deps⟩], lastFun := s.lastFun + 1 } ∧
    Grow (fun _ => True) s { s with functions := s.functions ++ [⟨s.lastFun + 1, f, d, deps⟩], lastFun := s.lastFun + 1 } := by
  have hrows : ∀ i, rows { s with functions := s.functions ++ [⟨s.lastFun + 1, f, d, deps⟩], lastFun := s.lastFun + 1 } i = rows s i :=
    fun _ => rfl
  have hempty : rows s (s.lastFun + 1) = [] := by
    refine List.filter_eq_nil_iff.2 fun k hk he => ?_
    obtain ⟨g, h1, h2⟩ := h.callFn k hk
    have := h.funLe g h1
    simp at he
    omega
  refine ⟨{ h with funNames := ?_, funIds := ?_, funLe := ?_, fn := ?_, callFn := ?_, calls := ?_, noCalls := ?_, cf := ?_, cfFun := ?_ },
    ⟨fun g hg _ => ⟨g, List.mem_append_left _ hg, rfl, rfl⟩, fun g _ _ i k hk => ⟨k, hk, rfl, rfl⟩, rfl, rfl⟩⟩
  · intro g hg g' hg' he
    simp only [List.mem_append, List.mem_singleton] at hg hg'
    rcases hg with hg | rfl <;> rcases hg' with hg' | rfl
    · exact h.funNames g hg g' hg' he
    · exact absurd he (hf g hg)
    · exact absurd he.symm (hf g' hg')
    · rfl
  · intro g hg g' hg' he
    simp only [List.mem_append, List.mem_singleton] at hg hg'
    rcases hg with hg | rfl <;> rcases hg' with hg' | rfl
    · exact h.funIds g hg g' hg' he
    · have := h.funLe g hg; simp at he; omega
    · have := h.funLe g' hg'; simp at he; omega
    · rfl
  · intro g hg
    simp only [List.mem_append, List.mem_singleton] at hg
    rcases hg with hg | rfl
    · have := h.funLe g hg; show _ ≤ s.lastFun + 1; omega
    · exact Nat.le_refl _
  · intro g
    simp only [Dict.get?_set, List.find?_append, List.find?_cons, List.find?_nil]
    by_cases he : f = g
    · subst he
      have : s.functions.find? (fun r => decide (r.name = f)) = none := List.find?_eq_none.2 fun r hr => by simpa using hf r hr
      simp [this]
    · simp [he, h.fn g]
  · intro k hk
    obtain ⟨g, h1, h2⟩ := h.callFn k hk
    exact ⟨g, List.mem_append_left _ h1, h2⟩
  · intro g hg
    simp only [List.mem_append, List.mem_singleton] at hg
    rcases hg with hg | rfl
    · exact h.calls g hg
    · show (c.functionCalls.get? f).getD [] = (rows s (s.lastFun + 1)).map _
      rw [h.noCalls f hf, hempty]
      rfl
  · intro g hg
    exact h.noCalls g fun r hr => hg r (List.mem_append_left _ hr)
  · intro g hg i k hk
    simp only [List.mem_append, List.mem_singleton] at hg
    rcases hg with hg | rfl
    · exact h.cf g hg i k hk
    · have hk' : (rows s (s.lastFun + 1))[i]? = some k := hk
      rw [hempty] at hk'
      cases hk'
  · intro x g i hx
    obtain ⟨r, h1, h2, h3⟩ := h.cfFun x g i hx
    exact ⟨r, List.mem_append_left _ h1, h2, h3⟩

/-! ### Calls -/

theorem Rel.saveCall_none {c : CDB B R} {s : SDB B R} (h : Rel c s) {g : FunRow} (hg : g ∈ s.functions) (b : B) (r : R) :
    ∃ c' i, CDB.saveCall none g.name b r c = (.ok (g.name, i), c') ∧
      SDB.saveCall none g.id b r s = (.ok (s.lastCall + 1), { s with
        calls := s.calls ++ [⟨s.lastCall + 1, g.id, b, r⟩], lastCall := s.lastCall + 1 }) ∧
      Rel c' { s with calls := s.calls ++ [⟨s.lastCall + 1, g.id, b, r⟩], lastCall := s.lastCall + 1 } ∧
      Grow (fun _ => True) s { s with calls := s.calls ++ [⟨s.lastCall + 1, g.id, b, r⟩], lastCall := s.lastCall + 1 } ∧
      SameCall { s with calls := s.calls ++ [⟨s.lastCall + 1, g.id, b, r⟩], lastCall := s.lastCall + 1 } g.name i (s.lastCall + 1) := by
  have hC : CDB.saveCall none g.name b r c = (.ok (g.name, (rows s g.id).length), { c with
      functionCalls := c.functionCalls.set g.name ((rows s g.id).map (fun k => (k.bound, k.result)) ++ [(b, r)]) }) := by
    have h1 := h.calls g hg
    unfold CDB.saveCall
    cases hc : c.functionCalls.get? g.name with
    | none =>
      rw [hc] at h1
      have h2 : (rows s g.id).map (fun k => (k.bound, k.result)) = [] := h1.symm
      have h3 : rows s g.id = [] := List.map_eq_nil_iff.1 h2
      simp [h3]
    | some l =>
      rw [hc] at h1
      have h2 : l = (rows s g.id).map (fun k => (k.bound, k.result)) := h1
      simp [h2]
  have hS : SDB.saveCall none g.id b r s = (.ok (s.lastCall + 1), { s with
        calls := s.calls ++ [⟨s.lastCall + 1, g.id, b, r⟩], lastCall := s.lastCall + 1 }) := by
    unfold SDB.saveCall
    have : s.functions.any (fun f => f.id = g.id) = true := List.any_eq_true.2 ⟨g, hg, by simp⟩
    simp [this]
  have hrow : ∀ i, rows { s with calls := s.calls ++ [⟨s.lastCall + 1, g.id, b, r⟩], lastCall := s.lastCall + 1 } i =
      rows s i ++ (if g.id = i then [⟨s.lastCall + 1, g.id, b, r⟩] else []) := by
    intro i
    unfold rows
    simp only [List.filter_append]
    congr 1
    by_cases hi : g.id = i <;> simp [hi]
  generalize hs' : ({ s with calls := s.calls ++ [⟨s.lastCall + 1, g.id, b, r⟩], lastCall := s.lastCall + 1 } : SDB B R) = s' at *
  have hfun : s'.functions = s.functions := by rw [← hs']
  have hcalls : s'.calls = s.calls ++ [⟨s.lastCall + 1, g.id, b, r⟩] := by rw [← hs']
  have hlast : s'.lastCall = s.lastCall + 1 := by rw [← hs']
  have hfiles : s'.files = s.files := by rw [← hs']
  have hcf : s'.callFiles = s.callFiles := by rw [← hs']
  have hfc : ∀ a b, SDB.findCallFile a b s' = SDB.findCallFile a b s := by intro a b; unfold SDB.findCallFile; rw [hcf]
  have hno : ∀ t ∈ s.callFiles, t.1 ≠ s.lastCall + 1 := by
    intro t ht he
    obtain ⟨⟨k, h1, h2⟩, _⟩ := h.refs t ht
    have := h.callLe k h1
    omega
  refine ⟨_, _, hC, hS, ?_, ?_, ?_⟩
  · refine {
        funNames := ?_, funIds := ?_, funLe := ?_, fn := ?_, callIds := ?_, callLe := ?_, callFn := ?_
        calls := ?_, noCalls := ?_, fileNames := ?_, fileIds := ?_, fileLe := ?_, file := ?_, cfKeys := h.cfKeys
        cf := ?_, cfFile := ?_, cfFun := ?_, refs := ?_, csrcs := h.csrcs, cdsts := h.cdsts, ssrcs := ?_, sdsts := ?_ }
    · rw [hfun]; exact h.funNames
    · rw [hfun]; exact h.funIds
    · rw [hfun, ← hs']; exact h.funLe
    · rw [hfun]; exact h.fn
    · rw [hcalls, List.map_append, List.nodup_append]
      refine ⟨h.callIds, by simp, ?_⟩
      intro x hx y hy he
      obtain ⟨k, h1, h2⟩ := List.mem_map.1 hx
      have := h.callLe k h1
      simp at hy
      omega
    · intro k hk
      rw [hcalls] at hk
      rw [hlast]
      rcases List.mem_append.1 hk with hk | hk
      · have := h.callLe k hk; omega
      · rw [List.mem_singleton.1 hk]; exact Nat.le_refl _
    · intro k hk
      rw [hcalls] at hk
      rw [hfun]
      rcases List.mem_append.1 hk with hk | hk
      · exact h.callFn k hk
      · rw [List.mem_singleton.1 hk]; exact ⟨g, hg, rfl⟩
    · intro g' hg'
      rw [hfun] at hg'
      rw [hrow]
      simp only [Dict.get?_set]
      by_cases he : g.id = g'.id
      · have := h.funIds g hg g' hg' he
        subst this
        simp
      · have hne : g.name ≠ g'.name := fun hh => he (by rw [h.funNames g hg g' hg' hh])
        simp [he, hne, h.calls g' hg']
    · intro f hf
      rw [hfun] at hf
      simp only [Dict.get?_set, hf g hg, if_false]
      exact h.noCalls f hf
    · rw [hfiles]; exact h.fileNames
    · rw [hfiles]; exact h.fileIds
    · rw [hfiles, ← hs']; exact h.fileLe
    · rw [hfiles]; exact h.file
    · intro g' hg' i k hk q hq
      rw [hfun] at hg'
      rw [hfiles] at hq
      rw [hfc]
      rw [hrow, List.getElem?_append] at hk
      split at hk
      · exact h.cf g' hg' i k hk q hq
      · rename_i hlen
        split at hk
        · rename_i he
          have := h.funIds g hg g' hg' he
          subst this
          have hi : k = ⟨s.lastCall + 1, g.id, b, r⟩ := by
            have := List.mem_of_getElem? hk
            simpa using this
          have hR : SDB.findCallFile k.id q.id s = none := by
            unfold SDB.findCallFile
            rw [List.find?_eq_none.2]
            · rfl
            · intro t ht
              have := hno t ht
              simp [hi, this]
          rw [hR]
          cases hv : CDB.callFile _ q.name g.name i with
          | none => rfl
          | some v =>
            have hv' : c.callFile q.name g.name i ≠ none := by
              have : c.callFile q.name g.name i = some v := hv
              rw [this]; simp
            obtain ⟨g2, h1, h2, h3⟩ := h.cfFun _ _ _ hv'
            have := h.funNames g2 h1 g hg h2
            subst this
            exact absurd h3 hlen
        · cases hk
    · rw [hfiles]; exact h.cfFile
    · intro x f i hx
      obtain ⟨g2, h1, h2, h3⟩ := h.cfFun x f i hx
      rw [hfun]
      refine ⟨g2, h1, h2, ?_⟩
      rw [hrow, List.length_append]
      omega
    · intro t ht
      rw [hcf] at ht
      obtain ⟨⟨k, h1, h2⟩, h3⟩ := h.refs t ht
      rw [hfiles]
      exact ⟨⟨k, by rw [hcalls]; exact List.mem_append_left _ h1, h2⟩, h3⟩
    · rw [← hs']; exact h.ssrcs
    · rw [← hs']; exact h.sdsts
  · refine ⟨fun g' hg' _ => ⟨g', by rw [hfun]; exact hg', rfl, rfl⟩, fun g' _ _ i k hk => ⟨k, ?_, rfl, rfl⟩, hfiles, by rw [← hs']⟩
    rw [hrow, List.getElem?_append, if_pos (List.getElem?_eq_some_iff.1 hk).1]
    exact hk
  · refine ⟨g, by rw [hfun]; exact hg, rfl, ⟨s.lastCall + 1, g.id, b, r⟩, ?_, rfl⟩
    rw [hrow]
    simp

theorem Rel.saveCall_some {c : CDB B R} {s : SDB B R} (h : Rel c s) {g : FunRow} (hg : g ∈ s.functions) {i : Nat} {k : CallRow B R}
    (hk : (rows s g.id)[i]? = some k) (b : B) (hb : k.bound = b) (r : R) (f0 : FunName) :
    ∃ c', CDB.saveCall (some (f0, i)) g.name b r c = (.ok (g.name, i), c') ∧
      Rel c' (SDB.saveCall (some k.id) g.id b r s).2 ∧
      Grow (fun _ => True) s (SDB.saveCall (some k.id) g.id b r s).2 ∧
      SameCall (SDB.saveCall (some k.id) g.id b r s).2 g.name i k.id := by
  have hlen := (List.getElem?_eq_some_iff.1 hk).1
  have hkm : k ∈ s.calls ∧ k.fn = g.id := by
    have := List.mem_filter.1 (List.mem_of_getElem? hk)
    simpa using this
  have hC : CDB.saveCall (some (f0, i)) g.name b r c = (.ok (g.name, i), { c with
      functionCalls := c.functionCalls.set g.name (((rows s g.id).map (fun k => (k.bound, k.result))).set i (b, r)) }) := by
    have h1 := h.calls g hg
    unfold CDB.saveCall
    cases hc : c.functionCalls.get? g.name with
    | none =>
      rw [hc] at h1
      have h2 : (rows s g.id).map (fun k => (k.bound, k.result)) = [] := h1.symm
      have h3 : rows s g.id = [] := List.map_eq_nil_iff.1 h2
      rw [h3] at hlen
      cases hlen
    | some l =>
      rw [hc] at h1
      have h2 : l = (rows s g.id).map (fun k => (k.bound, k.result)) := h1
      simp [h2, hlen]
  have hrow : ∀ j, rows (SDB.saveCall (some k.id) g.id b r s).2 j =
      (rows s j).map fun q => if q.id = k.id then { q with result := r } else q := by
    intro j
    unfold rows
    simp only [SDB.saveCall, List.filter_map]
    congr 1
    refine List.filter_congr fun q _ => ?_
    simp only [Function.comp]
    split <;> rfl
  have huniq : ∀ q ∈ s.calls, q.id = k.id → q = k := fun q hq he => inj_of_nodup h.callIds hq hkm.1 he
  have hnd : ∀ j, ((rows s j).map (·.id)).Nodup := fun j => List.Sublist.nodup (List.Sublist.map _ List.filter_sublist) h.callIds
  have hfc : ∀ a b', SDB.findCallFile a b' (SDB.saveCall (some k.id) g.id b r s).2 = SDB.findCallFile a b' s := fun _ _ => rfl
  have hget : ∀ (j n : Nat) (q : CallRow B R), (rows (SDB.saveCall (some k.id) g.id b r s).2 j)[n]? = some q →
      ∃ q0 : CallRow B R, (rows s j)[n]? = some q0 ∧ q0.id = q.id ∧ q0.bound = q.bound := by
    intro j n q hq
    rw [hrow, List.getElem?_map] at hq
    cases hq0 : (rows s j)[n]? with
    | none => rw [hq0] at hq; cases hq
    | some q0 =>
      rw [hq0] at hq
      simp only [Option.map_some, Option.some.injEq] at hq
      refine ⟨q0, rfl, ?_⟩
      rw [← hq]
      split <;> exact ⟨rfl, rfl⟩
  have hback : ∀ (j n : Nat) (q0 : CallRow B R), (rows s j)[n]? = some q0 →
      ∃ q : CallRow B R, (rows (SDB.saveCall (some k.id) g.id b r s).2 j)[n]? = some q ∧ q.id = q0.id ∧ q.bound = q0.bound := by
    intro j n q0 hq
    rw [hrow, List.getElem?_map, hq]
    refine ⟨_, rfl, ?_⟩
    by_cases hh : q0.id = k.id <;> simp [hh]
  have hids : (SDB.saveCall (some k.id) g.id b r s).2.calls.map (·.id) = s.calls.map (·.id) := by
    simp only [SDB.saveCall, List.map_map]
    refine List.map_congr_left fun q _ => ?_
    simp only [Function.comp]
    split <;> rfl
  have hmemc : ∀ q ∈ (SDB.saveCall (some k.id) g.id b r s).2.calls, ∃ q0 ∈ s.calls, q0.id = q.id ∧ q0.fn = q.fn := by
    intro q hq
    simp only [SDB.saveCall] at hq
    obtain ⟨q0, h1, h2⟩ := List.mem_map.1 hq
    refine ⟨q0, h1, ?_⟩
    rw [← h2]
    split <;> exact ⟨rfl, rfl⟩
  refine ⟨_, hC, ?_, ?_, ?_⟩
  · refine { h with callIds := ?_, callLe := ?_, callFn := ?_, calls := ?_, noCalls := ?_, cf := ?_, cfFun := ?_, refs := ?_ }
    · rw [hids]; exact h.callIds
    · intro q hq
      obtain ⟨q0, h1, h2, _⟩ := hmemc q hq
      rw [← h2]
      exact h.callLe q0 h1
    · intro q hq
      obtain ⟨q0, h1, _, h2⟩ := hmemc q hq
      rw [← h2]
      exact h.callFn q0 h1
    · intro g' hg'
      have hg'' : g' ∈ s.functions := hg'
      rw [hrow]
      simp only [Dict.get?_set]
      by_cases he : g.name = g'.name
      · have := h.funNames g hg g' hg'' he
        subst this
        simp only [if_true, Option.getD_some]
        apply List.ext_getElem?
        intro n
        rw [List.getElem?_set, List.getElem?_map, List.getElem?_map]
        by_cases hn : i = n
        · subst hn
          simp only [if_true, List.length_map, hlen, List.getElem?_map, hk, Option.map_some, hb]
        · simp only [hn, if_false]
          rw [List.getElem?_map]
          cases hq : (rows s g.id)[n]? with
          | none => rfl
          | some q =>
            have hne : q.id ≠ k.id := by
              intro heq
              have hqm := (List.mem_filter.1 (List.mem_of_getElem? hq)).1
              have := huniq q hqm heq
              subst this
              obtain ⟨h1, h2⟩ := List.getElem?_eq_some_iff.1 hk
              obtain ⟨h3, h4⟩ := List.getElem?_eq_some_iff.1 hq
              have hnd' := hnd g.id
              have := (List.getElem_inj (h₀ := by simpa using h1) (h₁ := by simpa using h3) hnd').1 (by simp [h2, h4])
              exact hn this
            simp [hne]
      · simp only [he, if_false]
        rw [h.calls g' hg'']
        symm
        rw [List.map_map]
        refine List.map_congr_left fun q hq => ?_
        have hqm := List.mem_filter.1 hq
        have hne : q.id ≠ k.id := by
          intro heq
          have := huniq q hqm.1 heq
          subst this
          have h1 : q.fn = g'.id := by simpa using hqm.2
          exact he (by rw [h.funIds g hg g' hg'' (hkm.2.symm.trans h1)])
        simp [hne]
    · intro f hf
      simp only [Dict.get?_set, if_neg (hf g hg)]
      exact h.noCalls f hf
    · intro g' hg' n q hq x hx
      obtain ⟨q0, h1, h2, _⟩ := hget _ _ _ hq
      rw [hfc, ← h2]
      exact h.cf g' hg' n q0 h1 x hx
    · intro x f n hx
      obtain ⟨g2, h1, h2, h3⟩ := h.cfFun x f n hx
      exact ⟨g2, h1, h2, by rw [hrow, List.length_map]; exact h3⟩
    · intro t ht
      obtain ⟨⟨q, h1, h2⟩, h3⟩ := h.refs t ht
      refine ⟨?_, h3⟩
      have : t.1 ∈ (SDB.saveCall (some k.id) g.id b r s).2.calls.map (·.id) := by
        rw [hids]; exact h2 ▸ List.mem_map_of_mem (f := (·.id)) h1
      obtain ⟨q', h4, h5⟩ := List.mem_map.1 this
      exact ⟨q', h4, h5⟩
  · exact ⟨fun g' hg' _ => ⟨g', hg', rfl, rfl⟩, fun g' _ _ n q hq => hback _ _ _ hq, rfl, rfl⟩
  · obtain ⟨q, h1, h2, _⟩ := hback _ _ _ hk
    exact ⟨g, hg, rfl, q, h1, h2⟩

/-! ### The files of a call -/

theorem findCallFile_save {s : SDB B R} {cid fid : Nat} {d : Digest} {s' : SDB B R}
    (hs : s'.callFiles = s.callFiles.filter (fun t => ¬ (t.1 = cid ∧ t.2.1 = fid)) ++ [(cid, fid, d)]) (c2 f2 : Nat) :
    SDB.findCallFile c2 f2 s' = if cid = c2 ∧ fid = f2 then some d else SDB.findCallFile c2 f2 s := by
  unfold SDB.findCallFile
  rw [hs, List.find?_append, List.find?_filter]
  by_cases h : cid = c2 ∧ fid = f2
  · obtain ⟨rfl, rfl⟩ := h
    rw [List.find?_eq_none.2]
    · simp
    · intro t _
      by_cases h1 : t.1 = cid ∧ t.2.1 = fid <;> simp [h1]
  · rw [if_neg h]
    have h2 : ([(cid, fid, d)] : List (Nat × Nat × Digest)).find? (fun t => decide (t.1 = c2 ∧ t.2.1 = f2)) = none := by
      simp only [List.find?_cons, List.find?_nil, h, decide_false]
    rw [h2, Option.or_none]
    congr 2
    funext t
    by_cases h1 : t.1 = c2 ∧ t.2.1 = f2
    · have : ¬ (t.1 = cid ∧ t.2.1 = fid) := fun h3 => h ⟨h3.1.symm.trans h1.1, h3.2.symm.trans h1.2⟩
      rw [decide_eq_true h1, decide_eq_true this]
      simp
    · rw [decide_eq_false h1]
      simp

theorem Rel.saveCallFile {c : CDB B R} {s : SDB B R} (h : Rel c s) {f : FunName} {i kid : Nat} (hk : SameCall s f i kid) {fid : Nat}
    {x : FileName} (hg : Good s fid x) (d : Digest) {s' : SDB B R} (hs : SDB.saveCallFile kid fid d s = (.ok (), s')) :
    Rel (CDB.saveCallFile (f, i) x d c).2 s' ∧ Grow (fun _ => True) s s' ∧ SameCall s' f i kid := by
  unfold SDB.saveCallFile at hs
  split at hs
  · rename_i hr
    simp only [SDB.refsOk, Bool.and_eq_true, List.any_eq_true, decide_eq_true_eq] at hr
    obtain ⟨⟨k, hk1, hk2⟩, r, hr1, hr2⟩ := hr
    simp only [Prod.mk.injEq, true_and] at hs
    have hx : r.name = x := hg.2 r hr1 hr2
    obtain ⟨g, hg1, hg2, q, hq1, hq2⟩ := hk
    have hqk : q = k := inj_of_nodup h.callIds (List.mem_filter.1 (List.mem_of_getElem? hq1)).1 hk1 (hq2.trans hk2.symm)
    subst hqk
    have hqg : q.fn = g.id := by simpa using (List.mem_filter.1 (List.mem_of_getElem? hq1)).2
    subst hg2 hx hr2 hk2
    subst hs
    have hC := callFile_saveCallFile g.name i r.name d c
    refine ⟨{ h with cfKeys := Dict.nodup_set _ _ h.cfKeys, cf := ?_, cfFile := ?_, cfFun := ?_, refs := ?_ },
      ⟨fun g' hg' _ => ⟨g', hg', rfl, rfl⟩, fun _ _ _ _ q hq => ⟨q, hq, rfl, rfl⟩, rfl, rfl⟩, ⟨g, hg1, rfl, q, hq1, rfl⟩⟩
    · intro g' hg' i' k' hk' r' hr'
      rw [hC, findCallFile_save rfl, h.cf g' hg' i' k' hk' r' hr']
      have hk'' : (rows s g'.id)[i']? = some k' := hk'
      have hiff : (r.name = r'.name ∧ g.name = g'.name ∧ i = i') ↔ (q.id = k'.id ∧ r.id = r'.id) := by
        constructor
        · rintro ⟨h1, h2, rfl⟩
          have := h.funNames g hg1 g' hg' h2
          subst this
          rw [hq1] at hk''
          cases hk''
          exact ⟨rfl, by rw [h.fileNames r hr1 r' hr' h1]⟩
        · rintro ⟨h1, h2⟩
          have hm := List.mem_filter.1 (List.mem_of_getElem? hk'')
          have := inj_of_nodup h.callIds hk1 hm.1 h1
          subst this
          have h3 : q.fn = g'.id := by simpa using hm.2
          have := h.funIds g hg1 g' hg' (hqg.symm.trans h3)
          subst this
          refine ⟨by rw [h.fileIds r hr1 r' hr' h2], rfl, ?_⟩
          obtain ⟨a1, a2⟩ := List.getElem?_eq_some_iff.1 hq1
          obtain ⟨a3, a4⟩ := List.getElem?_eq_some_iff.1 hk''
          have hnd : ((rows s g.id).map (·.id)).Nodup := List.Sublist.nodup (List.Sublist.map _ List.filter_sublist) h.callIds
          exact (List.getElem_inj (h₀ := by simpa using a1) (h₁ := by simpa using a3) hnd).1 (by simp [a2, a4])
      by_cases hh : q.id = k'.id ∧ r.id = r'.id
      · rw [if_pos hh, if_pos (hiff.2 hh)]
      · rw [if_neg hh, if_neg fun h' => hh (hiff.1 h')]
    · intro y f' i' hy
      rw [hC, if_neg]
      · exact h.cfFile y f' i' hy
      · rintro ⟨h1, _⟩
        exact hy r hr1 h1
    · intro y f' i' hy
      rw [hC] at hy
      split at hy
      · rename_i h1
        obtain ⟨_, rfl, rfl⟩ := h1
        exact ⟨g, hg1, rfl, (List.getElem?_eq_some_iff.1 hq1).1⟩
      · exact h.cfFun y f' i' hy
    · intro t ht
      rcases List.mem_append.1 ht with ht | ht
      · exact h.refs t (List.mem_filter.1 ht).1
      · rw [List.mem_singleton.1 ht]
        exact ⟨⟨q, hk1, rfl⟩, r, hr1, rfl⟩
  · cases hs

theorem Rel.saveCallFiles {c : CDB B R} {s : SDB B R} (h : Rel c s) {f : FunName} {i kid : Nat} (hk : SameCall s f i kid) {a b}
    (hd : SameDigests s a b) {s' : SDB B R} (hs : saveCallFiles (SDB.storage B R) kid b s = (.ok (), s')) :
    ∃ c', Verif.DB.saveCallFiles (CDB.storage B R) (f, i) a c = (.ok (), c') ∧ Rel c' s' ∧ Grow (fun _ => True) s s' ∧
      SameCall s' f i kid := by
  induction b generalizing a c s with
  | nil =>
    rw [hd.1]
    simp only [Verif.DB.saveCallFiles, Prod.mk.injEq, true_and] at hs
    subst hs
    exact ⟨c, rfl, h, .refl _ _, hk⟩
  | cons t b ih =>
    obtain ⟨fid, x, d⟩ := t
    rw [hd.1]
    simp only [List.map_cons]
    unfold Verif.DB.saveCallFiles at hs ⊢
    have h1 : (SDB.storage B R).saveCallFile kid fid d s = SDB.saveCallFile kid fid d s := rfl
    rw [h1] at hs
    have h2 : (CDB.storage B R).saveCallFile (f, i) x d c = (.ok (), (CDB.saveCallFile (f, i) x d c).2) := rfl
    rw [h2]
    match hm : SDB.saveCallFile kid fid d s, hs with
    | (.error e, s1), hs => cases hs
    | (.ok (), s1), hs =>
      obtain ⟨k1, k2, k3⟩ := h.saveCallFile hk (hd.2 (fid, x, d) List.mem_cons_self) d hm
      have hd' : SameDigests s1 (b.map fun t => (t.2.1, t.2.1, t.2.2)) b :=
        k2.digests ⟨rfl, fun t ht => hd.2 t (List.mem_cons_of_mem _ ht)⟩
      obtain ⟨c', k4, k5, k6, k7⟩ := ih k1 k3 hd' hs
      exact ⟨c', k4, k5, k2.trans k6, k7⟩

theorem Rel.saveExternal {c : CDB B R} {s : SDB B R} (h : Rel c s) (env : Env) (f : FunName) (i kid : Nat) :
    ∃ c', CDB.saveExternal env [] [] (f, i) c = (.ok (), c') ∧ SDB.saveExternal env [] [] kid s = (.ok (), s) ∧ Rel c' s := by
  have hfind : ∀ (t : Dict FunName (Dict Nat (List FileName))), (∀ cid, CDB.findExt t cid = []) → ∀ cid,
      CDB.findExt (CDB.setExt t (f, i) []) cid = [] := by
    intro t ht cid
    have h0 := ht cid
    simp only [CDB.findExt, CDB.setExt, Dict.get?_set] at h0 ⊢
    by_cases hf : f = cid.1
    · subst hf
      simp only [if_true, Dict.get?_set]
      split
      · rfl
      · cases hc : t.get? cid.1 with
        | none => simp
        | some m => rw [hc] at h0; simpa using h0
    · simp only [hf, if_false]
      exact h0
  have hS : SDB.saveExternal env [] [] kid s = (.ok (), s) := by
    have e1 : s.externalSrcs.filter (fun t => ¬ t.1 = kid) = [] := by simp [h.ssrcs]
    have e2 : s.externalDsts.filter (fun t => ¬ t.1 = kid) = [] := by simp [h.sdsts]
    unfold SDB.saveExternal
    simp only [e1, e2, SDB.checkAll, List.map_nil, SDB.insertExternal, SDB.saveDirty, List.filter_nil]
    have a1 := h.ssrcs
    have a2 := h.sdsts
    cases s
    simp only at a1 a2
    subst a1 a2
    rfl
  exact ⟨_, rfl, hS, { h with csrcs := hfind _ h.csrcs, cdsts := hfind _ h.cdsts }⟩

/-! ### cache -/

section
variable {σ I J K : Type} (st : Storage σ I J K B R) (ext : J → σ → Except Err Unit × σ)

/-- the part of `cache` after `save_function` -/
def storeRest (fid : I) (cid : Option J) (b : B) (r : R) (files : List (K × FileName × Digest)) (s : σ) : Except Err Unit × σ :=
  match st.saveCall cid fid b r s with
  | (.error e, s2) => (.error e, s2)
  | (.ok c, s2) =>
    match saveCallFiles st c files s2 with
    | (.error e, s3) => (.error e, s3)
    | (.ok (), s3) => ext c s3

theorem cache_clean (fid : I) (f : FunName) (code : Digest) (deps : List FunName) (cid : Option J) (b : B) (r : R)
    (files : List (K × FileName × Digest)) (s : σ) :
    cache st ext false (some fid) f code deps cid b r files s = storeRest st ext fid cid b r files s := by
  unfold cache storeRest
  simp only [Bool.false_eq_true, if_false]
  rfl

theorem cache_dirty (i : Option I) (f : FunName) (code : Digest) (deps : List FunName) (cid : Option J) (b : B) (r : R)
    (files : List (K × FileName × Digest)) (s : σ) :
    cache st ext true i f code deps cid b r files s =
      match st.saveFunction none f code deps (if i.isSome then (st.deleteFunction f s).2 else s) with
      | (.error e, s2) => (.error e, s2)
      | (.ok fid, s2) => storeRest st ext fid cid b r files s2 := by
  unfold cache storeRest
  simp only [if_true]
  cases st.saveFunction none f code deps (if i.isSome then (st.deleteFunction f s).2 else s) with
  | mk o s2 => cases o <;> rfl
end

theorem Rel.cache {c : CDB B R} {s : SDB B R} (h : Rel c s) (env : Env) {f : FunName} {b : B}
    {p : Prep FunName (FunName × Nat) FileName R} {q : Prep Nat Nat Nat R} (hp : SamePrep s f b p q) (code : Digest)
    (deps : List FunName) (r : R) {s' : SDB B R}
    (hs : cache (SDB.storage B R) (SDB.saveExternal env [] []) q.funDirty q.funId f code deps (q.found.map Prod.fst) b r
      q.callFileDigests s = (.ok (), s')) :
    ∃ c', Verif.DB.cache (CDB.storage B R) (CDB.saveExternal env [] []) p.funDirty p.funId f code deps (p.found.map Prod.fst) b r
        p.callFileDigests c = (.ok (), c') ∧ Rel c' s' ∧ Grow (fun g => q.funDirty = true → g ≠ f) s s' := by
  -- the function
  have step : ∃ c1 s1 g, Rel c1 s1 ∧ g ∈ s1.functions ∧ g.name = f ∧ Grow (fun g => q.funDirty = true → g ≠ f) s s1 ∧
      SameFound s1 f b p.found q.found ∧
      Verif.DB.cache (CDB.storage B R) (CDB.saveExternal env [] []) p.funDirty p.funId f code deps (p.found.map Prod.fst) b r
        p.callFileDigests c = storeRest (CDB.storage B R) (CDB.saveExternal env [] []) f (p.found.map Prod.fst) b r
          p.callFileDigests c1 ∧
      storeRest (SDB.storage B R) (SDB.saveExternal env [] []) g.id (q.found.map Prod.fst) b r q.callFileDigests s1 = (.ok (), s') := by
    rw [hp.dirty]
    cases hd : q.funDirty with
    | false =>
      obtain ⟨h1, g, h2, h3, h4⟩ := hp.clean hd
      rw [hd, h4, cache_clean] at hs
      rw [h1, cache_clean]
      exact ⟨c, s, g, h, h2, h3, .refl _ _, hp.found, rfl, hs⟩
    | true =>
      rw [hd, cache_dirty] at hs
      rw [cache_dirty]
      obtain ⟨f1, f2⟩ := hp.dirtyFound hd
      have hdel : ∃ c0 s0, (if p.funId.isSome then ((CDB.storage B R).deleteFunction f c).2 else c) = c0 ∧
          (if q.funId.isSome then ((SDB.storage B R).deleteFunction f s).2 else s) = s0 ∧ Rel c0 s0 ∧ Grow (fun g => g ≠ f) s s0 := by
        rw [hp.isSome]
        cases q.funId.isSome with
        | true =>
          obtain ⟨k1, k2, _⟩ := h.deleteFunction f
          exact ⟨_, _, rfl, rfl, k1, k2⟩
        | false => exact ⟨_, _, rfl, rfl, h, .refl _ _⟩
      obtain ⟨c0, s0, e1, e2, hR, hG⟩ := hdel
      rw [e1]
      rw [e2] at hs
      have hsave : (SDB.storage B R).saveFunction none f code deps s0 = if s0.functions.any (fun r => r.name = f) then
          (.error .integrity, s0) else (.ok (s0.lastFun + 1), { s0 with
            functions := s0.functions ++ [⟨s0.lastFun + 1, f, code, deps⟩], lastFun := s0.lastFun + 1 }) := rfl
      rw [hsave] at hs
      by_cases hany : s0.functions.any (fun r => r.name = f) = true
      · rw [if_pos hany] at hs
        cases hs
      · rw [if_neg hany] at hs
        have hno : ∀ g ∈ s0.functions, g.name ≠ f := by
          intro g hg he
          exact hany (List.any_eq_true.2 ⟨g, hg, by simp [he]⟩)
        obtain ⟨k1, k2⟩ := hR.saveFunction hno code deps
        refine ⟨_, _, ⟨s0.lastFun + 1, f, code, deps⟩, k1, by simp, rfl,
          (hG.trans (k2.mono fun _ _ => trivial)).mono (fun g hg => hg rfl), ?_, rfl, hs⟩
        rw [f1, f2]
        trivial
  obtain ⟨c1, s1, g, h1, h2, h3, h4, h5, h6, h7⟩ := step
  rw [h6]
  subst h3
  have hdig : SameDigests s1 p.callFileDigests q.callFileDigests := h4.digests hp.digests
  -- the call
  have call : ∃ c2 s2 i kid, (CDB.storage B R).saveCall (p.found.map Prod.fst) g.name b r c1 = (.ok (g.name, i), c2) ∧
      (SDB.storage B R).saveCall (q.found.map Prod.fst) g.id b r s1 = (.ok kid, s2) ∧ Rel c2 s2 ∧ Grow (fun _ => True) s1 s2 ∧
      SameCall s2 g.name i kid := by
    generalize p.found = a at h5
    generalize q.found = d at h5
    match a, d, h5 with
    | none, none, _ =>
      obtain ⟨c2, i, k1, k2, k3, k4, k5⟩ := h1.saveCall_none h2 b r
      exact ⟨c2, _, i, _, k1, k2, k3, k4, k5⟩
    | some ((f', i), r0), some (kid, r'), h5 =>
      obtain ⟨_, _, g', a1, a2, k, a3, a4, a5⟩ := h5
      have := h1.funNames g' a1 g h2 a2
      subst this
      subst a4
      obtain ⟨c2, k1, k2, k3, k4⟩ := h1.saveCall_some h2 a3 b a5 r f'
      exact ⟨c2, _, i, _, k1, rfl, k2, k3, k4⟩
  obtain ⟨c2, s2, i, kid, k1, k2, k3, k4, k5⟩ := call
  unfold storeRest at h7 ⊢
  rw [k1]
  rw [k2] at h7
  simp only at h7 ⊢
  match hm : Verif.DB.saveCallFiles (SDB.storage B R) kid q.callFileDigests s2, h7 with
  | (.error e, s3), h7 => cases h7
  | (.ok (), s3), h7 =>
    obtain ⟨c3, m1, m2, m3, m4⟩ := k3.saveCallFiles k5 (k4.digests hdig) hm
    rw [m1]
    obtain ⟨c4, n1, n2, n3⟩ := m2.saveExternal env g.name i kid
    simp only at h7
    rw [n2] at h7
    simp only [Prod.mk.injEq, true_and] at h7
    subst h7
    exact ⟨c4, n1, n3, (h4.trans (k4.mono fun _ _ => trivial)).trans (m3.mono fun _ _ => trivial)⟩

end Engines
end Verif.DB
