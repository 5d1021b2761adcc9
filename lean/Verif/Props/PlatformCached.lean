import Verif.Platform.Cached
import Verif.Props.Platform
import Verif.Props.Files
/-!
# C124: cached methods with platform options

The specification speaks about `env'`, the name space with which Python starts the method after the options were applied, and
compares it with what the database was told.
-/
namespace Verif.Platform
open Functools (Name Sig Annot Bound Binds Keys WF Plain InnerOk Fits Named Declared srcAnnots dstAnnots Value)

/-! ## Specification -/

/-- the platform the options are for: the one that is given, else that of the system -/
def ForPlatform (guess : List Text) (kws : Keywords) (p : List Text) : Prop :=
  kws.lookup "platform" = some (.set p) ∨
    (kws.lookup "platform" = Option.none ∨ kws.lookup "platform" = some .none) ∧ p = guess

/-- The option `o` is among those given, in an entry that matches the platform. -/
def Asked (guess : List Text) (read : Nat → Options) (kws : Keywords) (o : Text × Val) : Prop :=
  ∃ p n e, ForPlatform guess kws p ∧ kws.lookup "platform_options" = some (.other n) ∧ e ∈ read n ∧
    Spec.Matches p e.1 ∧ o ∈ e.2

/-- The option `k` is about the argument `n`. -/
def About (k : Text) (n : Name) : Prop := k = n.toList ∨ k = n.toList ++ ['+'] ∨ k = n.toList ++ ['-']

/-! ## Lookups -/

theorem lookup_toDict (kw : Keywords) (n : Name) : (toDict kw).lookup n.toList = kw.lookup n := by
  induction kw with
  | nil => rfl
  | cons x kw ih =>
    obtain ⟨k, v⟩ := x
    simp only [toDict, List.map_cons, List.lookup_cons] at ih ⊢
    by_cases h : n = k
    · subst h; simp
    · have h1 : (n == k) = false := by simp [h]
      have h2 : (n.toList == k.toList) = false := by
        simp only [beq_eq_false_iff_ne, ne_eq]
        intro h3; exact h (String.toList_inj.1 h3)
      rw [h1, h2]; exact ih

theorem lookup_ofDict (d : Dict) (n : Name) : (ofDict d).lookup n = d.lookup n.toList := by
  induction d with
  | nil => rfl
  | cons x d ih =>
    obtain ⟨k, v⟩ := x
    simp only [ofDict, List.map_cons, List.lookup_cons] at ih ⊢
    by_cases h : n.toList = k
    · subst h; simp
    · have h1 : (n.toList == k) = false := by simp [h]
      have h2 : (n == String.ofList k) = false := by
        simp only [beq_eq_false_iff_ne, ne_eq]
        intro h3; exact h (by rw [h3]; simp)
      rw [h1, h2]; exact ih

theorem dropLast_getLast {k : Text} {c : Char} (h : k.getLast? = some c) : k = k.dropLast ++ [c] := by
  obtain ⟨ys, hl⟩ := List.getLast?_eq_some_iff.mp h
  rw [hl]; simp

theorem option_lookup {kw kw' : Dict} {h h' : Heap} {k : Text} {m : Val} (e : option kw h k m = .ok (kw', h'))
    {n : Name} (hn : ¬ About k n) : kw'.lookup n.toList = kw.lookup n.toList := by
  unfold option at e
  split at e
  · cases e
  · rename_i c hc
    by_cases hpm : c = '+' ∨ c = '-'
    · have hk : n.toList ≠ k.dropLast := by
        intro h1
        have := dropLast_getLast hc
        rw [← h1] at this
        rcases hpm with rfl | rfl
        · exact hn (.inr (.inl this))
        · exact hn (.inr (.inr this))
      rw [if_pos hpm] at e
      split at e
      · simp only at e
        split at e
        · cases e
        · cases e
          rw [lookup_set, if_neg hk]
      · cases e
    · rw [if_neg hpm] at e
      cases e
      rw [lookup_set, if_neg (fun h1 => hn (.inl h1.symm))]

theorem options_lookup (opts : List (Text × Val)) : ∀ {kw kw' : Dict} {h h' : Heap},
    options opts kw h = .ok (kw', h') → ∀ {n : Name}, (∀ o ∈ opts, ¬ About o.1 n) →
    kw'.lookup n.toList = kw.lookup n.toList := by
  induction opts with
  | nil => intro kw kw' h h' e n _; simp only [options] at e; cases e; rfl
  | cons o opts ih =>
    intro kw kw' h h' e n hn
    obtain ⟨k, m⟩ := o
    simp only [options] at e
    split at e
    · cases e
    · rename_i kw1 h1 he
      rw [ih e (fun o ho => hn o (.tail _ ho)), option_lookup he (hn _ (.head _))]

theorem lookup_marked (kws : Keywords) {n : Name} (h : n ≠ Functools.inner) : (marked kws).lookup n = kws.lookup n := by
  rw [marked, Functools.lookup_set, if_neg h]

theorem erase_marked (kws : Keywords) (h : kws.lookup Functools.inner = Option.none) :
    Functools.Dict.erase (marked kws) Functools.inner = kws := by
  have h0 := Functools.lookup_none.1 h
  have h1 : marked kws = kws ++ [(Functools.inner, .other 0)] := by
    simp [marked, Functools.Dict.set, h]
  rw [h1]
  simp only [Functools.Dict.erase, List.filter_append]
  have h2 : List.filter (fun x => decide (x.1 ≠ Functools.inner)) kws = kws := by
    rw [List.filter_eq_self]
    intro x hx
    simp only [ne_eq, decide_eq_true_eq]
    intro hxi
    exact h0 (List.mem_map.2 ⟨x, hx, hxi⟩)
  rw [h2]; simp

theorem keys_marked {kws : Keywords} (hk : Keys kws) (h : kws.lookup Functools.inner = Option.none) : Keys (marked kws) := by
  have h0 := Functools.lookup_none.1 h
  have h1 : marked kws = kws ++ [(Functools.inner, .other 0)] := by
    simp [marked, Functools.Dict.set, h]
  rw [h1]
  unfold Keys at hk ⊢
  rw [List.map_append, List.nodup_append]
  refine ⟨hk, by simp, ?_⟩
  intro a ha b hb
  simp only [List.map_cons, List.map_nil, List.mem_singleton] at hb
  subst hb
  rintro rfl
  exact h0 ha

/-- What the method is given, in terms of the options. -/
theorem given_eq {guess : List Text} {read : Nat → Options} {pass : Bool} {kws kws' : Keywords} {h h' : Heap}
    (hin : kws.lookup Functools.inner = Option.none) (hg : given guess read pass kws h = .ok (kws', h')) :
    ∃ opts kw2, (∀ o, o ∈ opts ↔ Asked guess read kws o) ∧
      options opts (toDict (Functools.Dict.erase kws "platform_options")) h = .ok (kw2, h') ∧
      ∀ n, n ≠ "platform" → kws'.lookup n = kw2.lookup n.toList := by
  unfold given enter at hg
  simp only [erase_marked kws hin] at hg
  split at hg
  · cases hg
  · cases hg
  · rename_i p po hp hpo
    split at hg
    · cases hg
    · rename_i kw2 h2 he
      cases hg
      rw [parse_eq] at he
      have hfp : ∀ q, ForPlatform guess kws q ↔ q = p := by
        intro q
        unfold platformOf at hp
        unfold ForPlatform
        split at hp <;> rename_i hl <;> cases hp <;> simp [hl, eq_comm]
      refine ⟨_, kw2, ?_, he, ?_⟩
      · intro o
        unfold Asked matching
        simp only [List.mem_flatten, List.mem_map, List.mem_filter, hfp]
        unfold optionsOf at hpo
        split at hpo <;> rename_i hl <;> cases hpo
        · simp [hl]
        · simp only [hl, Option.some.injEq, Val.other.injEq]
          constructor
          · rintro ⟨l, ⟨e, ⟨h1, h2⟩, rfl⟩, h3⟩
            exact ⟨p, _, e, rfl, rfl, h1, (C47_match _ _).1 h2, h3⟩
          · rintro ⟨_, _, e, rfl, rfl, h1, h2, h3⟩
            exact ⟨_, ⟨e, ⟨h1, (C47_match _ _).2 h2⟩, rfl⟩, h3⟩
      · intro n hn
        split
        · exact lookup_ofDict _ _
        · rw [Functools.lookup_erase, if_neg hn, lookup_ofDict]

/-- a list object keeps its contents unless an option adds to it -/
theorem given_list {guess : List Text} {read : Nat → Options} {pass : Bool} {kws kws' : Keywords} {h h' : Heap}
    (hin : kws.lookup Functools.inner = Option.none) (hg : given guess read pass kws h = .ok (kws', h'))
    {r : Nat} (hr : r < h.length)
    (hown : ∀ k v, Asked guess read kws (k ++ ['+'], v) → kws.lookup (String.ofList k) ≠ some (.list r))
    (hopt : ∀ k, ¬ Asked guess read kws (k, .list r)) :
    h'.getD r [] = h.getD r [] := by
  obtain ⟨opts, kw2, h1, h2, _⟩ := given_eq hin hg
  apply Classical.byContradiction
  intro hne
  obtain ⟨k, h3, h4⟩ := options_frame _ _ _ _ _ h2 r hr hne
  obtain ⟨o, ho, hok⟩ := List.mem_map.1 h3
  have h5 : Asked guess read kws (k ++ ['+'], o.2) := (h1 _).1 (by rw [← hok]; exact ho)
  rcases h4 with h4 | h4
  · refine hown k o.2 h5 ?_
    rw [← String.toList_ofList (l := k), lookup_toDict, Functools.lookup_erase] at h4
    split at h4
    · cases h4
    · exact h4
  · exact hopt k ((h1 _).1 h4)

theorem binds_same {s : Sig Val} {as : List Val} {kws kws' : Keywords} {env env'} (hb : Binds s as kws env)
    (hb' : Binds s as kws' env') {n : Name} {b : Bound Val} (hl : kws'.lookup n = kws.lookup n) (hn : env n = some b)
    (hd : ∀ d, b ≠ .dict d) : env' n = some b := by
  by_cases h1 : n ∈ s.args
  · obtain ⟨v, h2, h3⟩ := hb.positional n h1
    obtain ⟨v', h4, h5⟩ := hb'.positional n h1
    rw [hl, h2] at h4
    cases h4
    rw [h5, ← h3, hn]
  by_cases h2 : n ∈ s.kwonly
  · obtain ⟨v, h2, h3⟩ := hb.keyword n h2
    obtain ⟨v', h4, h5⟩ := hb'.keyword n ‹_›
    rw [hl, h2] at h4
    cases h4
    rw [h5, ← h3, hn]
  by_cases h3 : s.varargs = some n
  · rw [hb'.star n h3, ← hb.star n h3, hn]
  by_cases h4 : s.varkw = some n
  · rw [hb.starStar n h4] at hn
    cases hn
    exact absurd rfl (hd _)
  · rw [hb.onlyParameters n h1 h2 h3 h4] at hn
    cases hn

theorem named_same {h h' : Heap} {a : Annot} {b : Bound Val} {x : Val}
    (e : ∀ r, b = .one (.list r) → h'.getD r [] = h.getD r []) :
    Named (fileOps h') a b x ↔ Named (fileOps h) a b x := by
  have hi : ∀ v, b = .one v → (fileOps h').iter v = (fileOps h).iter v := by
    intro v hv
    cases v with
    | list r => simp only [fileOps, iter, e r hv]
    | _ => rfl
  cases b with
  | one v =>
    have h1 := hi v rfl
    cases a <;> simp only [Named, h1] <;> exact Iff.rfl
  | tuple vs => cases a <;> exact Iff.rfl
  | dict d => cases a <;> exact Iff.rfl

/-- **C124** (partial).  A cached method with `**kwargs` is called with platform options.  If no option that matches is about a
parameter with an annotation, and no option adds to a list that is given for such a parameter, then the files that the database
is told are exactly those that the annotated parameters name when the method is started. -/
theorem C124_declared_partial (s : Sig Val) (hf : s.method = false) (hwf : WF s) (hpl : Plain s)
    (hvk : s.varkw = some "kwargs" ∨ s.varkw = some "kw") (as : List Val) (kws : Keywords) (h : Heap) (hk : Keys kws)
    (hin : kws.lookup Functools.inner = Option.none)
    (guess : List Text) (read : Nat → Options) (pass : Bool) (kws' : Keywords) (h' : Heap)
    (hg : given guess read pass kws h = .ok (kws', h'))
    (env env' : Name → Option (Bound Val)) (hb : Binds s as kws env) (hb' : Binds s as kws' env')
    (ann : List (Name × Annot))
    (hann : ∀ n a, (n, a) ∈ ann → n ≠ "return" → ∃ b, env n = some b ∧ Fits (fileOps h) a b)
    (hres : ∀ n a, (n, a) ∈ ann → n ≠ "platform" ∧ n ≠ "platform_options")
    (habout : ∀ n a o, (n, a) ∈ ann → n ≠ "return" → Asked guess read kws o → ¬ About o.1 n)
    (hlist : ∀ n a r, (n, a) ∈ ann → env n = some (.one (.list r)) → r < h.length ∧
      (∀ k v, Asked guess read kws (k ++ ['+'], v) → kws.lookup (String.ofList k) ≠ some (.list r)) ∧
      ∀ k, ¬ Asked guess read kws (k, .list r)) :
    ∃ key srcs dsts ret, declare s ann as kws h = .ok (key, srcs, dsts, ret) ∧
      (∀ i, i ∈ srcs ↔ ∃ x, i = .one x ∧ Declared (fileOps h') ann srcAnnots env' x) ∧
      (∀ i, i ∈ dsts ↔ ∃ x, i = .one x ∧ Declared (fileOps h') ann dstAnnots env' x) := by
  have hI : InnerOk s (marked kws) := by
    intro _
    refine ⟨?_, ?_⟩
    · intro h0
      rcases hvk with h1 | h1 <;> simp [Functools.Sig.names, h1] at h0
    · rcases hvk with h1 | h1
      · exact .inr (.inr h1)
      · exact .inr (.inl h1)
  obtain ⟨key, srcs, dsts, ret, h1, _, h2, h3⟩ := Functools.C70_declared_partial (argOps h) (fileOps h) s hf hwf hpl as
    (marked kws) (keys_marked hk hin) hI env (by rw [erase_marked kws hin]; exact hb) ann hann
  refine ⟨key, srcs, dsts, ret, h1, ?_, ?_⟩
  all_goals
    intro i
    first | rw [h2] | rw [h3]
    have hsame : ∀ (p : List Annot) x, Declared (fileOps h) ann p env x ↔ Declared (fileOps h') ann p env' x := by
      obtain ⟨opts, kw2, g1, g2, g3⟩ := given_eq hin hg
      intro p x
      have key : ∀ n a, (n, a) ∈ ann → n ≠ "return" → a ≠ .cls → ∃ b, env n = some b ∧ env' n = some b ∧
          (Named (fileOps h') a b x ↔ Named (fileOps h) a b x) := by
        intro n a hm hr hc
        obtain ⟨b, hb1, hfit⟩ := hann n a hm hr
        obtain ⟨hn1, hn2⟩ := hres n a hm
        have hl : kws'.lookup n = kws.lookup n := by
          rw [g3 n hn1, options_lookup _ g2 (fun o ho => habout n a o hm hr ((g1 o).1 ho)), lookup_toDict,
            Functools.lookup_erase, if_neg hn2]
        have hnc : ∀ d, b ≠ .dict d := by
          rintro d rfl
          cases a <;> first | exact hc rfl | exact hfit
        refine ⟨b, hb1, binds_same hb hb' hl hb1 hnc, named_same ?_⟩
        rintro r rfl
        obtain ⟨hr1, hr2, hr3⟩ := hlist n a r hm hb1
        exact given_list hin hg hr1 hr2 hr3
      constructor
      · rintro ⟨n, a, b, q1, q2, q3, q4, q5⟩
        obtain ⟨b', k1, k2, k3⟩ := key n a q1 q2 (by rintro rfl; cases b <;> exact q5)
        rw [q4] at k1; cases k1
        exact ⟨n, a, b, q1, q2, q3, k2, k3.2 q5⟩
      · rintro ⟨n, a, b, q1, q2, q3, q4, q5⟩
        obtain ⟨b', k1, k2, k3⟩ := key n a q1 q2 (by rintro rfl; cases b <;> exact q5)
        rw [q4] at k2; cases k2
        exact ⟨n, a, b, q1, q2, q3, k1, k3.1 q5⟩
    simp only [hsame]

/-- **C124**, the arguments (partial).  If no option adds to a list that the caller gives, then the values in the key under which
the result is stored are, when the method is started, those under which the result was looked up. -/
theorem C124_key_partial (kws : Keywords) (h : Heap) (hin : kws.lookup Functools.inner = Option.none)
    (guess : List Text) (read : Nat → Options) (pass : Bool) (kws' : Keywords) (h' : Heap)
    (hg : given guess read pass kws h = .ok (kws', h'))
    (hown : ∀ k v r, Asked guess read kws (k ++ ['+'], v) → kws.lookup (String.ofList k) ≠ some (.list r))
    (v : Val) (hv : ∀ r, v = .list r → r < h.length ∧ ∀ k, ¬ Asked guess read kws (k, .list r)) :
    denote h' v = denote h v := by
  refine denote_ext ?_
  rintro r rfl
  obtain ⟨h1, h2⟩ := hv r rfl
  exact given_list hin hg h1 (fun k v hk => hown k v r hk) h2

theorem lookup_platform {guess : List Text} {read : Nat → Options} {kws kws' : Keywords} {h h' : Heap}
    (hg : given guess read false kws h = .ok (kws', h')) : kws'.lookup "platform" = Option.none := by
  unfold given enter at hg
  simp only at hg
  split at hg
  · cases hg
  · cases hg
  · split at hg
    · cases hg
    · cases hg
      simp [Functools.lookup_erase]

/-- **C124**, the arguments of the method: an argument that no matching option is about is passed on as it is, `platform_options`
is not passed on, and `platform` only if that is asked for.  (What the options do is C48.) -/
theorem C124_given (kws : Keywords) (h : Heap) (hin : kws.lookup Functools.inner = Option.none)
    (guess : List Text) (read : Nat → Options) (pass : Bool) (kws' : Keywords) (h' : Heap)
    (hg : given guess read pass kws h = .ok (kws', h')) :
    (∀ n, (∀ o, Asked guess read kws o → ¬ About o.1 n) → n ≠ "platform" → n ≠ "platform_options" →
      kws'.lookup n = kws.lookup n) ∧
    ((∀ o, Asked guess read kws o → ¬ About o.1 "platform_options") → kws'.lookup "platform_options" = Option.none) ∧
    (pass = false → kws'.lookup "platform" = Option.none) := by
  obtain ⟨opts, kw2, g1, g2, g3⟩ := given_eq hin hg
  refine ⟨?_, ?_, ?_⟩
  · intro n hn h1 h2
    rw [g3 n h1, options_lookup _ g2 (fun o ho => hn o ((g1 o).1 ho)), lookup_toDict, Functools.lookup_erase, if_neg h2]
  · intro hn
    rw [g3 _ (by decide), options_lookup _ g2 (fun o ho => hn o ((g1 o).1 ho)), lookup_toDict, Functools.lookup_erase, if_pos rfl]
  · rintro rfl
    exact lookup_platform hg

/-! ## Cases -/
namespace CachedEx

/-- `def link_exe(self, dst, srcs: SRCS, *args, libs: SRCS = (), **kwargs) -> DST` -/
def linkExe : Sig Val :=
  { args := ["self", "dst", "srcs"], varargs := some "args", kwonly := ["libs"], kwdefaults := [("libs", .tuple [])],
    varkw := some "kwargs" }
def ann : List (Name × Annot) := [("srcs", .srcs), ("libs", .srcs), ("return", .dst)]

def linux : List Text := ["posix".toList, "linux".toList]

/-- the lists: `["a.o"]`, `["-g"]`, `["-pthread"]` -/
def heap : Heap := [["a.o".toList], ["-g".toList], ["-pthread".toList]]

/-- object 1: flags for Linux; object 2: a library for Linux -/
def read : Nat → Options
  | 1 => [(["linux".toList], [("flags+".toList, .list 2)])]
  | 2 => [(["linux".toList], [("libs+".toList, .tuple ["lib/libm.a".toList])])]
  | _ => []

/-- `link_exe("a", ["a.o"], platform_options=...)` -/
def args : List Val := [.other 7, .str "a".toList, .list 0]

end CachedEx

/-- Python accepts the call, and the method gets the sources at index 0 and the libraries `libs` -/
theorem CachedEx.binds (kws : Keywords) (hk : Keys kws) (hin : kws.lookup Functools.inner = Option.none)
    (hok : ∃ b, Functools.bindArgs (argOps heap) linkExe args kws = .ok b)
    (libs : Val) (hl : ((kws.lookup "libs").or (some (.tuple []))) = some libs) :
    ∃ env, Binds linkExe args kws env ∧ env "srcs" = some (.one (.list 0)) ∧ env "libs" = some (.one libs) := by
  obtain ⟨env, h⟩ := (Functools.C25_rejects_partial (argOps heap) linkExe rfl ⟨by decide, by decide⟩ (by unfold Plain; decide)
    args kws hk hin (.inr (.inl (by decide)))).2.mp hok
  refine ⟨env, h, ?_, ?_⟩
  · obtain ⟨v, h1, h2⟩ := h.positional "srcs" (by decide)
    have : ((linkExe.args.zip args).lookup "srcs") = some (.list 0) := by decide
    rw [this] at h1
    cases h1
    exact h2
  · obtain ⟨v, h1, h2⟩ := h.keyword "libs" (by decide)
    have : linkExe.kwdefaults.lookup "libs" = some (.tuple []) := by decide
    rw [this, hl] at h1
    cases h1
    exact h2

theorem CachedEx.asked {n : Nat} {kws : Keywords} (hkw : kws.lookup "platform_options" = some (.other n)) {o : Text × Val}
    (h : Asked linux CachedEx.read kws o) : o ∈ ((CachedEx.read n).map (·.2)).flatten := by
  obtain ⟨p, m, e, _, h2, h3, _, h5⟩ := h
  rw [hkw] at h2
  cases h2
  exact List.mem_flatten.2 ⟨_, List.mem_map.2 ⟨e, h3, rfl⟩, h5⟩

open CachedEx in
/-- the hypotheses are met: a flag for Linux is added, the sources are those of the call -/
example : ∃ env env', Binds linkExe args [("platform_options", .other 1)] env ∧
    given linux CachedEx.read false [("platform_options", .other 1)] heap =
      .ok ([("flags", .list 3)], heap ++ [["-pthread".toList]]) ∧
    Binds linkExe args [("flags", .list 3)] env' ∧
    (∃ key srcs dsts ret, declare linkExe ann args [("platform_options", .other 1)] heap = .ok (key, srcs, dsts, ret) ∧
      (∀ i, i ∈ srcs ↔ ∃ x, i = .one x ∧ Declared (fileOps (heap ++ [["-pthread".toList]])) ann srcAnnots env' x) ∧
      srcs = [.one (.str "a.o".toList)]) := by
  obtain ⟨env, h1, h2, h3⟩ := CachedEx.binds [("platform_options", .other 1)] (by decide) (by decide) ⟨_, rfl⟩ (.tuple []) rfl
  obtain ⟨env', h1', h2', h3'⟩ := CachedEx.binds [("flags", .list 3)] (by decide) (by decide) ⟨_, rfl⟩ (.tuple []) rfl
  refine ⟨env, env', h1, rfl, h1', ?_⟩
  have hex : ∃ key ret, declare linkExe ann args [("platform_options", .other 1)] heap =
    .ok (key, [.one (.str "a.o".toList)], [], ret) := ⟨_, _, rfl⟩
  obtain ⟨key, ret, hex⟩ := hex
  obtain ⟨key', srcs, dsts, ret', q1, q2, q3⟩ := C124_declared_partial linkExe rfl ⟨by decide, by decide⟩ (by unfold Plain; decide)
    (.inl rfl) args [("platform_options", .other 1)] heap (by decide) (by decide) linux CachedEx.read false _ _ rfl env env' h1 h1'
    ann (by
      intro n a hm hr
      simp only [ann, List.mem_cons, Prod.mk.injEq, List.not_mem_nil, or_false] at hm
      rcases hm with ⟨rfl, rfl⟩ | ⟨rfl, rfl⟩ | ⟨rfl, rfl⟩
      · refine ⟨_, h2, [.str "a.o".toList], rfl, ?_⟩
        intro x hx; simp only [List.mem_singleton] at hx; subst hx; rfl
      · exact ⟨_, h3, [], rfl, fun x hx => nomatch hx⟩
      · exact absurd rfl hr)
    (by
      intro n a hm
      simp only [ann, List.mem_cons, Prod.mk.injEq, List.not_mem_nil, or_false] at hm
      rcases hm with ⟨rfl, rfl⟩ | ⟨rfl, rfl⟩ | ⟨rfl, rfl⟩ <;> decide)
    (by
      intro n a o hm hr ho
      have := CachedEx.asked rfl ho
      simp only [CachedEx.read, List.map_cons, List.map_nil, List.flatten_cons, List.flatten_nil, List.append_nil,
        List.mem_singleton] at this
      subst this
      simp only [ann, List.mem_cons, Prod.mk.injEq, List.not_mem_nil, or_false] at hm
      rcases hm with ⟨rfl, rfl⟩ | ⟨rfl, rfl⟩ | ⟨rfl, rfl⟩ <;> (unfold About; decide))
    (by
      intro n a r hm hr
      refine ⟨?_, ?_, ?_⟩
      · simp only [ann, List.mem_cons, Prod.mk.injEq, List.not_mem_nil, or_false] at hm
        rcases hm with ⟨rfl, rfl⟩ | ⟨rfl, rfl⟩ | ⟨rfl, rfl⟩
        · rw [h2] at hr; cases hr; decide
        · rw [h3] at hr; cases hr
        · rw [h1.onlyParameters "return" (by decide) (by decide) (by decide) (by decide)] at hr; cases hr
      · intro k v _ hk
        simp only [List.lookup_cons, List.lookup_nil] at hk
        split at hk <;> cases hk
      · intro k hk
        have := CachedEx.asked rfl hk
        simp only [CachedEx.read, List.map_cons, List.map_nil, List.flatten_cons, List.flatten_nil, List.append_nil,
          List.mem_singleton, Prod.mk.injEq, Val.list.injEq] at this
        obtain ⟨rfl, rfl⟩ := this
        simp only [ann, List.mem_cons, Prod.mk.injEq, List.not_mem_nil, or_false] at hm
        rcases hm with ⟨rfl, rfl⟩ | ⟨rfl, rfl⟩ | ⟨rfl, rfl⟩
        · rw [h2] at hr; cases hr
        · rw [h3] at hr; cases hr
        · rw [h1.onlyParameters "return" (by decide) (by decide) (by decide) (by decide)] at hr; cases hr)
  rw [hex] at q1
  cases q1
  exact ⟨_, _, _, _, hex, q2, rfl⟩

open CachedEx in
/-- The hypotheses of the other two are met as well: the flags of Linux are given by an option, those of the caller for other
things. -/
example : given linux CachedEx.read false [("warnings", .list 1), ("platform_options", .other 1)] heap =
      .ok ([("warnings", .list 1), ("flags", .list 3)], heap ++ [["-pthread".toList]]) ∧
    denote (heap ++ [["-pthread".toList]]) (.list 1) = denote heap (.list 1) := by
  refine ⟨rfl, C124_key_partial [("warnings", .list 1), ("platform_options", .other 1)] heap (by decide) linux CachedEx.read false _
    _ rfl ?_ _ ?_⟩
  · intro k v r hk
    have := CachedEx.asked (n := 1) rfl hk
    simp only [CachedEx.read, List.map_cons, List.map_nil, List.flatten_cons, List.flatten_nil, List.append_nil,
      List.mem_singleton, Prod.mk.injEq] at this
    have h2 : k = "flags".toList := (List.append_inj_left' this.1 rfl : k = "flags".toList)
    subst h2
    have h3 : ([("warnings", Val.list 1), ("platform_options", Val.other 1)] : Keywords).lookup
      (String.ofList "flags".toList) = Option.none := by decide
    rw [h3]
    exact fun h => nomatch h
  · rintro r h1
    cases h1
    refine ⟨by decide, ?_⟩
    intro k hk
    have := CachedEx.asked (n := 1) rfl hk
    simp [CachedEx.read] at this

open CachedEx in
/-- an optional source that is `None` is no file -/
example : ∃ key ret, declare { linkExe with kwonly := ["map"], kwdefaults := [("map", .none)] }
    [("srcs", .srcs), ("map", .optionalSrc)] args [] heap = .ok (key, [.one (.str "a.o".toList)], [], ret) := ⟨_, _, rfl⟩

open CachedEx in
/-- **C124** is false for an option about an annotated parameter: a library that is added for a platform is linked, but it is no
source of the call.  So the program is not linked again when the library changes (C01 and C02 are about declared sources). -/
theorem C124_declared_violated : ∃ env', Binds linkExe args [("libs", .tuple ["lib/libm.a".toList])] env' ∧
    given linux CachedEx.read false [("platform_options", .other 2)] heap =
      .ok ([("libs", .tuple ["lib/libm.a".toList])], heap) ∧
    Declared (fileOps heap) ann srcAnnots env' (.str "lib/libm.a".toList) ∧
    ∃ key srcs dsts ret, declare linkExe ann args [("platform_options", .other 2)] heap = .ok (key, srcs, dsts, ret) ∧
      .one (.str "lib/libm.a".toList) ∉ srcs := by
  obtain ⟨env', h1, h2, h3⟩ := CachedEx.binds [("libs", .tuple ["lib/libm.a".toList])] (by decide) (by decide) ⟨_, rfl⟩
    (.tuple ["lib/libm.a".toList]) rfl
  refine ⟨env', h1, rfl, ?_, _, _, _, _, rfl, by decide⟩
  exact ⟨"libs", .srcs, _, by decide, by decide, by decide, h3, _, rfl, by decide⟩

open CachedEx in
/-- **C124** is false for a list of the caller that an option adds to: `link_exe("a", ["a.o"], flags=["-g"], platform_options=...)`
is looked up under `["-g"]`, but stored under `["-g", "-pthread"]`, so that the same call is never answered from the database. -/
theorem C124_key_violated :
    given linux CachedEx.read false [("flags", .list 1), ("platform_options", .other 1)] heap =
      .ok ([("flags", .list 1)], heap.set 1 ["-g".toList, "-pthread".toList]) ∧
    denote heap (.list 1) = .list ["-g".toList] ∧
    denote (heap.set 1 ["-g".toList, "-pthread".toList]) (.list 1) = .list ["-g".toList, "-pthread".toList] ∧
    ∃ key srcs dsts ret d, declare linkExe ann args [("flags", .list 1), ("platform_options", .other 1)] heap =
      .ok (key, srcs, dsts, ret) ∧ key.lookup "kwargs" = some (.dict d) ∧ d.lookup "flags" = some (.list 1) :=
  ⟨rfl, rfl, rfl, _, _, _, _, _, rfl, rfl, rfl⟩

end Verif.Platform
