import Verif.Sched.Maps

/-! # Dependency graphs: loops and the depth first order -/
namespace Verif.Sched

variable {V E S : Type}

open Relation (TransGen)

/-- `a` depends on `b`, both being among the given sources -/
def Dep (d : S → List S) (srcs : List S) (a b : S) : Prop := a ∈ srcs ∧ b ∈ srcs ∧ b ∈ d a

/-- the source lies on a loop of dependencies -/
def OnLoop (d : S → List S) (srcs : List S) (s : S) : Prop := TransGen (Dep d srcs) s s

/-! ## The depth first order -/

theorem mem_keys [DecidableEq S] (srcs : List S) (s : S) : s ∈ keys srcs ↔ s ∈ srcs := by
  induction srcs with
  | nil => simp [keys]
  | cons a l ih =>
    simp only [keys, List.mem_cons, List.mem_filter, ih]
    by_cases h : s = a <;> simp [h]

theorem keys_nodup [DecidableEq S] (srcs : List S) : (keys srcs).Nodup := by
  induction srcs with
  | nil => simp [keys]
  | cons a l ih =>
    simp only [keys, List.nodup_cons]
    exact ⟨by simp, ih.filter _⟩

/-- the keys that have not been visited -/
def unvisited [DecidableEq S] (ks vis : List S) : Nat := (ks.filter (fun x => x ∉ vis)).length

theorem unvisited_cons [DecidableEq S] {ks vis : List S} {t : S} (ht : t ∈ ks) (hv : t ∉ vis)
    (hn : ks.Nodup) : unvisited ks (t :: vis) + 1 ≤ unvisited ks vis := by
  have h1 : (t :: ks.filter (fun x => x ∉ t :: vis)).Nodup := by
    rw [List.nodup_cons]
    exact ⟨by simp, hn.filter _⟩
  have h2 : (t :: ks.filter (fun x => x ∉ t :: vis)) ⊆ ks.filter (fun x => x ∉ vis) := by
    intro x hx
    rcases List.mem_cons.mp hx with rfl | hx
    · simp [ht, hv]
    · simp only [List.mem_filter, List.mem_cons, not_or, decide_eq_true_eq] at hx ⊢
      exact ⟨hx.1, hx.2.2⟩
  have := h1.length_le_of_subset h2
  simpa [unvisited] using this

theorem unvisited_mono [DecidableEq S] {ks vis vis' : List S} (hn : ks.Nodup)
    (h : ∀ x, x ∈ vis → x ∈ vis') : unvisited ks vis' ≤ unvisited ks vis := by
  apply List.Nodup.length_le_of_subset (hn.filter _)
  intro x hx
  simp only [List.mem_filter, decide_eq_true_eq] at hx ⊢
  exact ⟨hx.1, fun hv => hx.2 (h x hv)⟩

/-- What holds of `visited` and `results` while the tasks of `gray` are being visited. -/
structure DfsOk (d : S → List S) (ks gray : List S) (st : List S × List S) : Prop where
  vis : ∀ x, x ∈ st.1 ↔ x ∈ st.2 ∨ x ∈ gray
  disj : ∀ x, x ∈ st.2 → x ∉ gray
  nodup : st.2.Nodup
  sub : ∀ x, x ∈ st.2 → x ∈ ks
  topo : ∀ a x b, st.2 = a ++ x :: b → ∀ y ∈ d x, y ∈ a

theorem visit_ok [DecidableEq S] {d : S → List S} {srcs : List S}
    (hac : ∀ s, ¬ OnLoop d srcs s) (hd : ∀ s, s ∈ srcs → ∀ y ∈ d s, y ∈ srcs) (fuel : Nat) :
    ∀ (t : S) (gray : List S) (st : List S × List S), t ∈ srcs → DfsOk d (keys srcs) gray st →
      (∀ g ∈ gray, TransGen (Dep d srcs) g t) → unvisited (keys srcs) st.1 + 1 ≤ fuel →
      DfsOk d (keys srcs) gray (visit d fuel st t) ∧ t ∈ (visit d fuel st t).2 ∧
      (∀ x, x ∈ st.1 → x ∈ (visit d fuel st t).1) ∧ (∀ x, x ∈ st.2 → x ∈ (visit d fuel st t).2) := by
  induction fuel with
  | zero => intro t gray st _ _ _ hf; omega
  | succ fuel ih =>
    intro t gray st ht hok hg hf
    have htg : t ∉ gray := fun h => hac t (hg t h)
    simp only [visit]
    by_cases hv : t ∈ st.1
    · rw [if_pos hv]
      exact ⟨hok, ((hok.vis t).mp hv).resolve_right htg, fun _ h => h, fun _ h => h⟩
    · rw [if_neg hv]
      -- the dependencies
      have hfold : ∀ (l : List S) (st1 : List S × List S), (∀ y ∈ l, y ∈ d t) →
          DfsOk d (keys srcs) (t :: gray) st1 → unvisited (keys srcs) st1.1 + 1 ≤ fuel →
          DfsOk d (keys srcs) (t :: gray) (l.foldl (visit d fuel) st1) ∧
          (∀ y ∈ l, y ∈ (l.foldl (visit d fuel) st1).2) ∧
          (∀ x, x ∈ st1.1 → x ∈ (l.foldl (visit d fuel) st1).1) ∧
          (∀ x, x ∈ st1.2 → x ∈ (l.foldl (visit d fuel) st1).2) := by
        intro l
        induction l with
        | nil => intro st1 _ h1 _; exact ⟨h1, by simp, fun _ h => h, fun _ h => h⟩
        | cons y l ihl =>
          intro st1 hy h1 h2
          have hyt : Dep d srcs t y := ⟨ht, hd t ht y (hy y (by simp)), hy y (by simp)⟩
          obtain ⟨k1, k2, k3, k4⟩ := ih y (t :: gray) st1 hyt.2.1 h1
            (by
              intro g hgm
              rcases List.mem_cons.mp hgm with rfl | hgm
              · exact .single hyt
              · exact .tail (hg g hgm) hyt) h2
          have hu := unvisited_mono (keys_nodup srcs) k3
          obtain ⟨l1, l2, l3, l4⟩ := ihl (visit d fuel st1 y) (fun z hz => hy z (by simp [hz])) k1
            (by omega)
          simp only [List.foldl_cons]
          refine ⟨l1, ?_, fun x hx => l3 x (k3 x hx), fun x hx => l4 x (k4 x hx)⟩
          intro z hz
          rcases List.mem_cons.mp hz with rfl | hz
          · exact l4 z k2
          · exact l2 z hz
      have hnotin : t ∉ st.2 := fun h => hv ((hok.vis t).mpr (.inl h))
      have h1 : DfsOk d (keys srcs) (t :: gray) (t :: st.1, st.2) := by
        refine ⟨?_, ?_, hok.nodup, hok.sub, hok.topo⟩
        · intro x
          simp only [List.mem_cons, hok.vis]
          grind
        · intro x hx hm
          rcases List.mem_cons.mp hm with rfl | hm
          · exact hnotin hx
          · exact hok.disj x hx hm
      have hu := unvisited_cons ((mem_keys srcs t).mpr ht) hv (keys_nodup srcs)
      obtain ⟨k1, k2, k3, k4⟩ := hfold (d t) (t :: st.1, st.2) (fun _ h => h) h1 (by simp only; omega)
      generalize (d t).foldl (visit d fuel) (t :: st.1, st.2) = st2 at *
      have htn : t ∉ st2.2 := fun h => k1.disj t h (by simp)
      refine ⟨⟨?_, ?_, ?_, ?_, ?_⟩, by simp, fun x hx => k3 x (by simp [hx]),
        fun x hx => List.mem_append_left _ (k4 x hx)⟩
      · intro x
        simp only [k1.vis, List.mem_append, List.mem_cons, List.not_mem_nil, or_false]
        grind
      · intro x hx hm
        simp only [List.mem_append, List.mem_cons, List.not_mem_nil, or_false] at hx
        rcases hx with hx | rfl
        · exact k1.disj x hx (by simp [hm])
        · exact htg hm
      · rw [List.nodup_append]
        refine ⟨k1.nodup, by simp, ?_⟩
        intro a ha b hb e
        simp at hb
        subst hb; subst e
        exact htn ha
      · intro x hx
        simp only [List.mem_append, List.mem_cons, List.not_mem_nil, or_false] at hx
        rcases hx with hx | rfl
        · exact k1.sub x hx
        · exact (mem_keys srcs x).mpr ht
      · intro a x b hab y hy
        rcases List.eq_nil_or_concat b with rfl | ⟨b', z, rfl⟩
        · obtain ⟨e1, e2⟩ := List.append_inj' hab rfl
          simp at e2
          subst e2
          subst e1
          exact k2 y hy
        · have : st2.2 ++ [t] = (a ++ x :: b') ++ [z] := by
            rw [show st2.2 ++ [t] = _ from hab]; simp
          obtain ⟨e1, e2⟩ := List.append_inj' this rfl
          exact k1.topo a x b' e1 y hy

/-- Without a loop, the depth first order lists each given source once, after its dependencies. -/
theorem dfs_spec [DecidableEq S] {d : S → List S} {srcs : List S}
    (hac : ∀ s, ¬ OnLoop d srcs s) (hd : ∀ s, s ∈ srcs → ∀ y ∈ d s, y ∈ srcs) :
    (dfs d srcs).Nodup ∧ (∀ s, s ∈ dfs d srcs ↔ s ∈ srcs) ∧
      ∀ a x b, dfs d srcs = a ++ x :: b → ∀ y ∈ d x, y ∈ a := by
  have key : ∀ (l : List S) (st : List S × List S), (∀ s ∈ l, s ∈ srcs) →
      DfsOk d (keys srcs) [] st →
      DfsOk d (keys srcs) [] (l.foldl (visit d ((keys srcs).length + 1)) st) ∧
      (∀ s ∈ l, s ∈ (l.foldl (visit d ((keys srcs).length + 1)) st).2) ∧
      (∀ x, x ∈ st.2 → x ∈ (l.foldl (visit d ((keys srcs).length + 1)) st).2) := by
    intro l
    induction l with
    | nil => intro st _ h; exact ⟨h, by simp, fun _ h => h⟩
    | cons t l ih =>
      intro st hl h
      have hlen : unvisited (keys srcs) st.1 ≤ (keys srcs).length := List.length_filter_le _ _
      obtain ⟨k1, k2, k3, k4⟩ := visit_ok hac hd ((keys srcs).length + 1) t [] st (hl t (by simp)) h
        (by simp) (by omega)
      obtain ⟨l1, l2, l3⟩ := ih _ (fun s hs => hl s (by simp [hs])) k1
      refine ⟨l1, ?_, fun x hx => l3 x (k4 x hx)⟩
      intro s hs
      rcases List.mem_cons.mp hs with rfl | hs
      · exact l3 s k2
      · exact l2 s hs
  obtain ⟨h1, h2, -⟩ := key srcs ([], []) (fun _ h => h) ⟨by simp, by simp, by simp, by simp, by simp⟩
  exact ⟨h1.nodup, fun s => ⟨fun h => (mem_keys srcs s).mp (h1.sub s h), h2 s⟩, h1.topo⟩

/-! ## Loops -/

/-- If every element of a finite nonempty set has a successor in it, there is a loop. -/
theorem loop_of_succ {R : Nat → Nat → Prop} {n : Nat} {P : Nat → Prop} (hP : ∀ i, P i → i < n)
    (hs : ∀ i, P i → ∃ j, P j ∧ R i j) {i0 : Nat} (h0 : P i0) : ∃ i, P i ∧ TransGen R i i := by
  classical
  -- a chain of successors, longest first
  have chain : ∀ m, ∃ l : List Nat, l.length = m + 1 ∧ (∀ i ∈ l, P i) ∧
      l.Pairwise (fun a b => TransGen R b a) := by
    intro m
    induction m with
    | zero => exact ⟨[i0], rfl, by simpa using h0, by simp⟩
    | succ m ih =>
      obtain ⟨l, h1, h2, h3⟩ := ih
      cases l with
      | nil => simp at h1
      | cons a l =>
        obtain ⟨j, hj, hR⟩ := hs a (h2 a (by simp))
        refine ⟨j :: a :: l, by simpa using h1, ?_, ?_⟩
        · intro i hi
          rcases List.mem_cons.mp hi with rfl | hi
          · exact hj
          · exact h2 i hi
        · rw [List.pairwise_cons]
          refine ⟨?_, h3⟩
          intro b hb
          rcases List.mem_cons.mp hb with rfl | hb
          · exact .single hR
          · exact .tail ((List.pairwise_cons.mp h3).1 b hb) hR
  obtain ⟨l, h1, h2, h3⟩ := chain n
  have hnd : ¬ l.Nodup := by
    intro hnd
    have := hnd.length_le_of_subset (fun i hi => List.mem_range.mpr (hP i (h2 i hi)) : l ⊆ List.range n)
    simp at this
    omega
  have : ∀ l : List Nat, (∀ i ∈ l, P i) → l.Pairwise (fun a b => TransGen R b a) → ¬ l.Nodup →
      ∃ i, P i ∧ TransGen R i i := by
    intro l
    induction l with
    | nil => intro _ _ h; simp at h
    | cons a l ih =>
      intro k1 k2 k3
      rw [List.pairwise_cons] at k2
      rw [List.nodup_cons] at k3
      by_cases ha : a ∈ l
      · exact ⟨a, k1 a (by simp), k2.1 a ha⟩
      · exact ih (fun i hi => k1 i (by simp [hi])) k2.2 (fun h => k3 ⟨ha, h⟩)
  exact this l h2 h3 hnd

/-- An evaluation that reports a loop has one. -/
theorem Outcome.loop_cycle {n : Nat} {deps : Nat → List Nat} {R : Nat → Except E V → Prop}
    {named : List (Nat × Nat)} (h : Outcome n deps R (.loop named : EvalOut V E)) :
    ∃ i, TransGen (fun a b => a < n ∧ b < n ∧ b ∈ deps a) i i := by
  obtain ⟨rs, h1, ⟨i, h2, h3⟩, h4, -⟩ := h
  obtain ⟨i, -, hi⟩ := loop_of_succ (R := fun a b => a < n ∧ b < n ∧ b ∈ deps a)
    (P := fun i => i < n ∧ i ∉ rs.map Prod.fst) (fun i h => h.1)
    (by
      rintro i ⟨hi, hni⟩
      obtain ⟨d, hd, hdn, hdr⟩ := h4 i hi hni
      exact ⟨d, ⟨hdn, hdr⟩, hi, hdn, hd⟩) ⟨h2, h3⟩
  exact ⟨i, hi⟩

/-- The order in which tasks ran shows that there is no loop among them. -/
theorem Runs.acyclic {n : Nat} {deps : Nat → List Nat} {R : Nat → Except E V → Prop}
    {rs : List (Nat × V)} (h : Runs n deps R rs) {i : Nat} (hi : i ∈ rs.map Prod.fst) :
    ¬ TransGen (fun a b => a < n ∧ b < n ∧ b ∈ deps a) i i := by
  -- everything reachable from a task of a prefix lies in the prefix before it
  have key : ∀ a x b, rs = a ++ x :: b → ∀ j,
      TransGen (fun a b => a < n ∧ b < n ∧ b ∈ deps a) x.1 j → j ∈ a.map Prod.fst := by
    intro a x b hab j hj
    induction hj with
    | single hR => exact h.order a x b hab _ hR.2.2 hR.2.1
    | tail _ hR ih =>
      obtain ⟨y, hy, hyx⟩ := List.mem_map.mp ih
      obtain ⟨a1, a2, rfl⟩ := List.append_of_mem hy
      rw [← hyx] at hR
      have := h.order a1 y (a2 ++ x :: b) (by rw [hab]; simp) _ hR.2.2 hR.2.1
      simp only [List.map_append, List.mem_append]
      exact .inl this
  intro hc
  obtain ⟨x, hx, rfl⟩ := List.mem_map.mp hi
  obtain ⟨a, b, hab⟩ := List.append_of_mem hx
  have h1 := key a x b hab x.1 hc
  have h2 := h.nodup
  rw [hab] at h2
  simp only [List.map_append, List.map_cons, List.nodup_append, List.mem_cons] at h2
  exact h2.2.2 _ h1 _ (.inl rfl) rfl

/-! ## `map_with_dependencies` -/

theorem idxOf_keys [DecidableEq S] {srcs : List S} {s : S} (h : s ∈ srcs) :
    (keys srcs)[(keys srcs).idxOf s]? = some s := by
  have h' := (mem_keys srcs s).mpr h
  rw [List.getElem?_eq_getElem (List.idxOf_lt_length_iff.mpr h'), List.getElem_idxOf]

theorem keys_idxOf [DecidableEq S] {srcs : List S} {i : Nat} (h : i < (keys srcs).length) :
    (keys srcs).idxOf (keys srcs)[i] = i := by
  exact (keys_nodup srcs).idxOf_getElem i h

theorem mem_depList [DecidableEq S] (decode : V → List S) (srcs : List S) (rs : List (Nat × V))
    (s y : S) : y ∈ depList decode srcs rs s ↔
      y ∈ srcs ∧ ∃ x ∈ rs, srcs[x.1]? = some s ∧ y ∈ decode x.2 := by
  simp only [depList, List.mem_flatMap]
  constructor
  · rintro ⟨x, hx, hy⟩
    split at hy
    · rename_i hs
      simp only [List.mem_filter, decide_eq_true_eq, mem_keys] at hy
      exact ⟨hy.2, x, hx, hs, hy.1⟩
    · simp at hy
  · rintro ⟨h1, x, hx, hs, hy⟩
    refine ⟨x, hx, ?_⟩
    rw [if_pos hs]
    simp [List.mem_filter, mem_keys, h1, hy]

/-- the dependencies between the numbers of the keys -/
def keyDeps [DecidableEq S] (D : S → List S) (ks : List S) (i : Nat) : List Nat :=
  match ks[i]? with
  | some s => (D s).map (fun d => ks.idxOf d)
  | none => []

theorem keyDeps_rel [DecidableEq S] {D : S → List S} {srcs : List S}
    (hD : ∀ s, ∀ y ∈ D s, y ∈ srcs) {a b : S} (h : Dep D srcs a b) :
    (keys srcs).idxOf a < (keys srcs).length ∧ (keys srcs).idxOf b < (keys srcs).length ∧
      (keys srcs).idxOf b ∈ keyDeps D (keys srcs) ((keys srcs).idxOf a) := by
  obtain ⟨h1, h2, h3⟩ := h
  refine ⟨List.idxOf_lt_length_iff.mpr ((mem_keys srcs a).mpr h1),
    List.idxOf_lt_length_iff.mpr ((mem_keys srcs b).mpr h2), ?_⟩
  simp only [keyDeps, idxOf_keys h1]
  exact List.mem_map.mpr ⟨b, h3, rfl⟩

theorem keyDeps_rel' [DecidableEq S] {D : S → List S} {srcs : List S}
    (hD : ∀ s, ∀ y ∈ D s, y ∈ srcs) {i j : Nat} (hi : i < (keys srcs).length)
    (hj : j < (keys srcs).length) (h : j ∈ keyDeps D (keys srcs) i) :
    Dep D srcs (keys srcs)[i] (keys srcs)[j] := by
  simp only [keyDeps, List.getElem?_eq_getElem hi] at h
  obtain ⟨y, hy, rfl⟩ := List.mem_map.mp h
  refine ⟨(mem_keys srcs _).mp (List.getElem_mem hi), (mem_keys srcs _).mp (List.getElem_mem hj), ?_⟩
  rw [List.getElem_idxOf]
  exact hy

theorem loop_keys [DecidableEq S] {D : S → List S} {srcs : List S}
    (hD : ∀ s, ∀ y ∈ D s, y ∈ srcs) :
    (∃ s, OnLoop D srcs s) ↔
      ∃ i, TransGen (fun a b => a < (keys srcs).length ∧ b < (keys srcs).length ∧
        b ∈ keyDeps D (keys srcs) a) i i := by
  constructor
  · rintro ⟨s, hs⟩
    refine ⟨(keys srcs).idxOf s, ?_⟩
    have : ∀ a b, TransGen (Dep D srcs) a b → TransGen (fun a b => a < (keys srcs).length ∧
        b < (keys srcs).length ∧ b ∈ keyDeps D (keys srcs) a) ((keys srcs).idxOf a)
          ((keys srcs).idxOf b) := by
      intro a b h
      induction h with
      | single h => exact .single (keyDeps_rel hD h)
      | tail _ h ih => exact .tail ih (keyDeps_rel hD h)
    exact this s s hs
  · rintro ⟨i, hi⟩
    have : ∀ a b, TransGen (fun a b => a < (keys srcs).length ∧
        b < (keys srcs).length ∧ b ∈ keyDeps D (keys srcs) a) a b →
        ∃ (ha : a < (keys srcs).length) (hb : b < (keys srcs).length),
          TransGen (Dep D srcs) (keys srcs)[a] (keys srcs)[b] := by
      intro a b h
      induction h with
      | single h => exact ⟨h.1, h.2.1, .single (keyDeps_rel' hD h.1 h.2.1 h.2.2)⟩
      | tail _ h ih =>
        obtain ⟨ha, hb, ht⟩ := ih
        exact ⟨ha, h.2.1, .tail ht (keyDeps_rel' hD hb h.2.1 h.2.2)⟩
    obtain ⟨ha, hb, hl⟩ := this i i hi
    exact ⟨_, hl⟩

theorem lookup_of_mem {rs : List (Nat × V)} (hn : (rs.map Prod.fst).Nodup) {x : Nat × V}
    (hx : x ∈ rs) : rs.lookup x.1 = some x.2 := by
  induction rs with
  | nil => simp at hx
  | cons y rs ih =>
    simp only [List.map_cons, List.nodup_cons] at hn
    rcases List.mem_cons.mp hx with rfl | hx'
    · simp [List.lookup]
    · have hne : x.1 ≠ y.1 := by
        intro e
        exact hn.1 (e ▸ List.mem_map.mpr ⟨x, hx', rfl⟩)
      obtain ⟨y1, y2⟩ := y
      simp only [List.lookup]
      have : (x.1 == y1) = false := by simpa using hne
      rw [this]
      exact ih hn.2 hx'

/-- The results `map_with_dependencies` may have. -/
theorem den_mapDeps [DecidableEq S] {lp : List (S × S) → E} {depends : S → Prog V E}
    {decode : V → List S} {f : S → Prog V E} {srcs : List S}
    {k : Except E (List V) → Prog V E} {r : Except E V}
    (h : Den (mapDepsP lp depends decode f srcs k) r) :
    -- an exception in a call of `depends`
    (∃ s ∈ srcs, ∃ x, Den (depends s) (.error x) ∧ Den (k (.error x)) r) ∨
    -- or one result of `depends` for each source
    ∃ rs : List (Nat × V), Runs srcs.length (fun _ => []) (fun i => Den (nth lp depends srcs i)) rs ∧
      (∀ i, i < srcs.length → i ∈ rs.map Prod.fst) ∧
      -- and then an exception in a task
      ((∃ s ∈ srcs, ∃ x, Den (f s) (.error x) ∧ Den (k (.error x)) r) ∨
      -- or a loop
      ((∃ s, OnLoop (depList decode srcs rs) srcs s) ∧
        ∃ named, (∀ a b, (a, b) ∈ named ↔ Dep (depList decode srcs rs) srcs a b ∧
            Dep (depList decode srcs rs) srcs b a) ∧ Den (k (.error (lp named))) r) ∨
      -- or the results in the depth first order
      ((∀ s, ¬ OnLoop (depList decode srcs rs) srcs s) ∧ ∃ vs : List V,
        vs.length = (dfs (depList decode srcs rs) srcs).length ∧
        (∀ x ∈ (dfs (depList decode srcs rs) srcs).zip vs, Den (f x.1) (.ok x.2)) ∧
        Den (k (.ok vs)) r)) := by
  obtain ⟨out, ho, hr⟩ := h
  cases out with
  | raised x =>
    left
    obtain ⟨rs, i, h1, h2, h3, h4⟩ := ho
    simp only [nth, List.getElem?_eq_getElem h2] at h4
    exact ⟨srcs[i], List.getElem_mem h2, x, h4, hr⟩
  | loop named =>
    obtain ⟨rs, h1, ⟨i, h2, h3⟩, h4, -⟩ := ho
    obtain ⟨d, hd, -⟩ := h4 i h2 h3
    simp at hd
  | done rs =>
    right
    refine ⟨rs, ho.1, ho.2, ?_⟩
    have hD : ∀ s, ∀ y ∈ depList decode srcs rs s, y ∈ srcs :=
      fun s y hy => ((mem_depList _ _ _ _ _).mp hy).1
    obtain ⟨out2, ho2, hr2⟩ := hr
    change Outcome (keys srcs).length (keyDeps (depList decode srcs rs) (keys srcs)) _ out2 at ho2
    generalize depList decode srcs rs = D at *
    cases out2 with
    | raised x =>
      left
      obtain ⟨rs2, i, h1, h2, h3, h4⟩ := ho2
      simp only [nth, List.getElem?_eq_getElem h2] at h4
      exact ⟨(keys srcs)[i], (mem_keys srcs _).mp (List.getElem_mem h2), x, h4, hr2⟩
    | loop named =>
      right; left
      refine ⟨(loop_keys hD).mpr ho2.loop_cycle, names (keys srcs) named, ?_, hr2⟩
      obtain ⟨rs2, hruns, -, -, hn⟩ := ho2
      intro a b
      constructor
      · intro hx
        simp only [names, List.mem_filterMap] at hx
        obtain ⟨y, hy, hxy⟩ := hx
        obtain ⟨h1, h2, -, h4, h5⟩ := (hn y.1 y.2).mp hy
        simp only [List.getElem?_eq_getElem h1, List.getElem?_eq_getElem h2, Option.some.injEq,
          Prod.mk.injEq] at hxy
        obtain ⟨rfl, rfl⟩ := hxy
        exact ⟨keyDeps_rel' hD h1 h2 h4, keyDeps_rel' hD h2 h1 h5⟩
      · rintro ⟨h1, h2⟩
        have a1 := keyDeps_rel hD h1
        have a2 := keyDeps_rel hD h2
        simp only [names, List.mem_filterMap]
        refine ⟨((keys srcs).idxOf a, (keys srcs).idxOf b), ?_, ?_⟩
        · refine (hn _ _).mpr ⟨a1.1, a1.2.1, ?_, a1.2.2, a2.2.2⟩
          intro hm
          exact hruns.acyclic hm (.tail (.single a1) a2)
        · simp only [idxOf_keys h1.1, idxOf_keys h1.2.1]
    | done rs2 =>
      right; right
      have hac : ∀ s, ¬ OnLoop D srcs s := by
        intro s hs
        obtain ⟨i, hi⟩ := (loop_keys hD).mp ⟨s, hs⟩
        have hlt : i < (keys srcs).length := by
          cases hi with
          | single h => exact h.1
          | tail _ h => exact h.2.1
        exact ho2.1.acyclic (ho2.2 i hlt) hi
      refine ⟨hac, ?_⟩
      have hres : ∀ s, s ∈ srcs → ∃ v, rs2.lookup ((keys srcs).idxOf s) = some v ∧ Den (f s) (.ok v) := by
        intro s hs
        have hlt : (keys srcs).idxOf s < (keys srcs).length :=
          List.idxOf_lt_length_iff.mpr ((mem_keys srcs s).mpr hs)
        obtain ⟨x, hx, hxi⟩ := List.mem_map.mp (ho2.2 _ hlt)
        have h1 := ho2.1.res x hx
        have h2 := lookup_of_mem ho2.1.nodup hx
        rw [hxi] at h1 h2
        simp only [nth, idxOf_keys hs] at h1
        exact ⟨x.2, h2, h1⟩
      have hsub : ∀ s ∈ dfs D srcs, s ∈ srcs :=
        fun s hs => ((dfs_spec hac (fun s _ => hD s)).2.1 s).mp hs
      refine ⟨_, ?_, ?_, hr2⟩
      · generalize dfs D srcs = l at hsub
        induction l with
        | nil => rfl
        | cons s l ih =>
          obtain ⟨v, hv, -⟩ := hres s (hsub s (by simp))
          simp only [List.filterMap_cons, hv, List.length_cons]
          rw [ih (fun x hx => hsub x (by simp [hx]))]
      · generalize dfs D srcs = l at hsub
        induction l with
        | nil => simp
        | cons s l ih =>
          obtain ⟨v, hv, hd⟩ := hres s (hsub s (by simp))
          intro x hx
          simp only [List.filterMap_cons, hv, List.zip_cons_cons, List.mem_cons] at hx
          rcases hx with rfl | hx
          · exact hd
          · exact ih (fun x hx => hsub x (by simp [hx])) x hx

/-! ## Repeated sources -/

theorem foldl_visit_mono [DecidableEq S] (d : S → List S) (fuel : Nat)
    (hv : ∀ st t x, x ∈ st.1 → x ∈ (visit d fuel st t).1) (l : List S) (st : List S × List S) (x : S)
    (hx : x ∈ st.1) : x ∈ (l.foldl (visit d fuel) st).1 := by
  induction l generalizing st with
  | nil => exact hx
  | cons a l ih => exact ih _ (hv st a x hx)

theorem visit_mono [DecidableEq S] (d : S → List S) (fuel : Nat) (st : List S × List S) (t x : S)
    (hx : x ∈ st.1) : x ∈ (visit d fuel st t).1 := by
  induction fuel generalizing st t x with
  | zero => exact hx
  | succ fuel ih =>
    simp only [visit]
    split
    · exact hx
    · exact foldl_visit_mono d fuel (fun st t x => ih st t x) _ _ x (by simp [hx])

theorem visit_self [DecidableEq S] (d : S → List S) (fuel : Nat) (st : List S × List S) (t : S) :
    t ∈ (visit d (fuel + 1) st t).1 := by
  simp only [visit]
  split
  · assumption
  · exact foldl_visit_mono d fuel (fun st t x => visit_mono d fuel st t x) _ _ t (by simp)

/-- Sources that have been visited are passed over. -/
theorem foldl_visit_skip [DecidableEq S] (d : S → List S) (fuel : Nat) (l : List S)
    (st : List S × List S) (h : ∀ x ∈ l, x ∈ st.1) : l.foldl (visit d fuel) st = st := by
  induction l with
  | nil => rfl
  | cons a l ih =>
    have : visit d fuel st a = st := by
      cases fuel with
      | zero => rfl
      | succ fuel => simp [visit, h a (by simp)]
    rw [List.foldl_cons, this]
    exact ih (fun x hx => h x (by simp [hx]))

theorem foldl_visit_mem [DecidableEq S] (d : S → List S) (fuel : Nat) (l : List S)
    (st : List S × List S) (x : S) (hx : x ∈ l) : x ∈ (l.foldl (visit d (fuel + 1)) st).1 := by
  induction l generalizing st with
  | nil => simp at hx
  | cons a l ih =>
    rw [List.foldl_cons]
    rcases List.mem_cons.mp hx with rfl | hx
    · exact foldl_visit_mono d _ (fun st t x => visit_mono d _ st t x) _ _ _ (visit_self d fuel st x)
    · exact ih _ hx

theorem foldl_visit_zero [DecidableEq S] (d : S → List S) (l : List S) (st : List S × List S) :
    l.foldl (visit d 0) st = st := by
  induction l with
  | nil => rfl
  | cons a l ih => rw [List.foldl_cons]; exact ih

/-- Several copies of a list of dependencies are visited like one. -/
theorem foldl_visit_copies [DecidableEq S] (d : S → List S) (fuel : Nat) (l : List S) (m : Nat)
    (st : List S × List S) :
    (List.replicate (m + 1) l).flatten.foldl (visit d fuel) st = l.foldl (visit d fuel) st := by
  cases fuel with
  | zero => rw [foldl_visit_zero, foldl_visit_zero]
  | succ fuel =>
    rw [List.replicate_succ, List.flatten_cons, List.foldl_append]
    apply foldl_visit_skip
    intro x hx
    obtain ⟨l', hl', hx'⟩ := List.mem_flatten.mp hx
    obtain ⟨-, rfl⟩ := List.mem_replicate.mp hl'
    exact foldl_visit_mem d fuel _ st x hx'

theorem visit_copies [DecidableEq S] {d d' : S → List S} {srcs : List S}
    (h : ∀ s ∈ srcs, ∃ m, d' s = (List.replicate (m + 1) (d s)).flatten)
    (hd : ∀ s, ∀ y ∈ d s, y ∈ srcs) (fuel : Nat) (st : List S × List S) (t : S) (ht : t ∈ srcs) :
    visit d' fuel st t = visit d fuel st t := by
  induction fuel generalizing st t with
  | zero => rfl
  | succ fuel ih =>
    have hf : ∀ (l : List S) st, (∀ x ∈ l, x ∈ srcs) →
        l.foldl (visit d' fuel) st = l.foldl (visit d fuel) st := by
      intro l
      induction l with
      | nil => intro st _; rfl
      | cons a l ih2 =>
        intro st hl
        rw [List.foldl_cons, List.foldl_cons, ih st a (hl a (by simp))]
        exact ih2 _ (fun x hx => hl x (by simp [hx]))
    simp only [visit]
    obtain ⟨m, hm⟩ := h t ht
    rw [hm, hf _ _ (by
      intro x hx
      obtain ⟨l', hl', hx'⟩ := List.mem_flatten.mp hx
      obtain ⟨-, rfl⟩ := List.mem_replicate.mp hl'
      exact hd t x hx'), foldl_visit_copies]

theorem dfs_copies [DecidableEq S] {d d' : S → List S} {srcs : List S}
    (h : ∀ s ∈ srcs, ∃ m, d' s = (List.replicate (m + 1) (d s)).flatten)
    (hd : ∀ s, ∀ y ∈ d s, y ∈ srcs) : dfs d' srcs = dfs d srcs := by
  have hf : ∀ (l : List S) st, (∀ x ∈ l, x ∈ srcs) →
      l.foldl (visit d' ((keys srcs).length + 1)) st = l.foldl (visit d ((keys srcs).length + 1)) st := by
    intro l
    induction l with
    | nil => intro st _; rfl
    | cons a l ih2 =>
      intro st hl
      rw [List.foldl_cons, List.foldl_cons, visit_copies h hd _ st a (hl a (by simp))]
      exact ih2 _ (fun x hx => hl x (by simp [hx]))
  simp only [dfs, hf srcs _ (fun x hx => hx)]

/-- What `depends` returned, if it is a function of the source. -/
theorem depList_copies [DecidableEq S] {lp : List (S × S) → E} {depends : S → Prog V E}
    {decode : V → List S} {srcs : List S} {rs : List (Nat × V)} {D : S → List S}
    (hp : ∀ s ∈ srcs, ∀ v, Den (depends s) (.ok v) → decode v = D s)
    (hr : Runs srcs.length (fun _ => []) (fun i => Den (nth lp depends srcs i)) rs)
    (ha : ∀ i, i < srcs.length → i ∈ rs.map Prod.fst) (s : S) (hs : s ∈ srcs) :
    ∃ m, depList decode srcs rs s = (List.replicate (m + 1) ((D s).filter (· ∈ srcs))).flatten := by
  have hdec : ∀ x ∈ rs, srcs[x.1]? = some s → decode x.2 = D s := by
    intro x hx hxs
    have := hr.res x hx
    simp only [nth, hxs] at this
    exact hp s hs _ this
  have hex : ∃ x ∈ rs, srcs[x.1]? = some s := by
    obtain ⟨i, hi, rfl⟩ := List.mem_iff_getElem.mp hs
    obtain ⟨x, hx, hxi⟩ := List.mem_map.mp (ha i hi)
    exact ⟨x, hx, by rw [hxi]; exact List.getElem?_eq_getElem hi⟩
  have hfil : ∀ l : List S, l.filter (· ∈ keys srcs) = l.filter (· ∈ srcs) := by
    intro l
    apply List.filter_congr
    intro x _
    simp [mem_keys]
  have key : ∀ l : List (Nat × V), (∀ x ∈ l, srcs[x.1]? = some s → decode x.2 = D s) →
      depList decode srcs l s = (List.replicate (l.countP (fun x => srcs[x.1]? = some s))
        ((D s).filter (· ∈ srcs))).flatten := by
    intro l
    induction l with
    | nil => intro _; rfl
    | cons x l ih =>
      intro h
      have ih' := ih (fun y hy => h y (by simp [hy]))
      simp only [depList, List.flatMap_cons] at ih' ⊢
      by_cases hx : srcs[x.1]? = some s
      · rw [if_pos hx, List.countP_cons_of_pos (by simp [hx]), List.replicate_succ,
          List.flatten_cons, ih', h x (by simp) hx, hfil]
      · rw [if_neg hx, List.countP_cons_of_neg (by simp [hx]), ih', List.nil_append]
  have hc : 0 < rs.countP (fun x => srcs[x.1]? = some s) := by
    rw [List.countP_pos_iff]
    obtain ⟨x, hx, hxs⟩ := hex
    exact ⟨x, hx, by simp [hxs]⟩
  obtain ⟨m, hm⟩ := Nat.exists_eq_succ_of_ne_zero (Nat.ne_of_gt hc)
  exact ⟨m, by rw [key rs hdec, hm]⟩

theorem onLoop_congr {d d' : S → List S} {srcs : List S} (h : ∀ a ∈ srcs, ∀ b, b ∈ d' a ↔ b ∈ d a)
    (s : S) : OnLoop d' srcs s ↔ OnLoop d srcs s := by
  have : Dep d' srcs = Dep d srcs := by
    funext a b
    apply propext
    simp only [Dep]
    constructor
    · rintro ⟨h1, h2, h3⟩; exact ⟨h1, h2, (h a h1 b).mp h3⟩
    · rintro ⟨h1, h2, h3⟩; exact ⟨h1, h2, (h a h1 b).mpr h3⟩
  simp only [OnLoop, this]

end Verif.Sched
