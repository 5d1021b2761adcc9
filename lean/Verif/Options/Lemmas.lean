import Verif.Options.Spec
namespace Verif.Options

variable {e : Env} {t : List Opt}

def Use.pair (u : Use) : Opt × Option Str := (u.opt, u.arg)

theorem IsName.ne {n : Str} (h : IsName n) : n ≠ ['-', '-'] := by
  rintro rfl; simp [IsName] at h

theorem uniq {t : List Opt} (h : (t.flatMap Opt.names).Nodup) {o o' : Opt} {n : Str} (ho : o ∈ t) (ho' : o' ∈ t)
    (hn : n ∈ o.names) (hn' : n ∈ o'.names) : o = o' := by
  induction t with
  | nil => cases ho
  | cons a t ih =>
    rw [List.flatMap_cons, List.nodup_append] at h
    obtain ⟨_, h2, h3⟩ := h
    rcases List.mem_cons.1 ho with ho1 | ho1 <;> rcases List.mem_cons.1 ho' with ho2 | ho2
    · rw [ho1, ho2]
    · subst ho1; exact absurd rfl (h3 n hn n (List.mem_flatMap.2 ⟨o', ho2, hn'⟩))
    · subst ho2; exact absurd rfl (h3 n hn' n (List.mem_flatMap.2 ⟨o, ho1, hn⟩))
    · exact ih h2 ho1 ho2

theorem find_some (h : WF t) {o : Opt} {n : Str} (ho : o ∈ t) (hn : n ∈ o.names) : find t n = some o := by
  unfold find
  cases hf : t.find? (fun o => decide (n ∈ o.names)) with
  | none =>
    have := List.find?_eq_none.1 hf o ho
    simp [hn] at this
  | some o' =>
    have h1 := List.mem_of_find?_eq_some hf
    have h2 := List.find?_some hf
    simp only [decide_eq_true_eq] at h2
    rw [uniq h.nodup ho h1 hn h2]

theorem find_none {n : Str} (hn : ∀ o ∈ t, n ∉ o.names) : find t n = none := by
  unfold find
  rw [List.find?_eq_none]
  intro o ho
  simpa using hn o ho

theorem partition_none {s : Str} (h : '=' ∉ s) : partition s = (s, none) := by
  induction s with
  | nil => rfl
  | cons c s ih =>
    have h1 : c ≠ '=' := fun h' => h (by simp [h'])
    have h2 : '=' ∉ s := fun h' => h (by simp [h'])
    simp [partition, h1, ih h2]

theorem partition_some {s v : Str} (h : '=' ∉ s) : partition (s ++ '=' :: v) = (s, some v) := by
  induction s with
  | nil => simp [partition]
  | cons c s ih =>
    have h1 : c ≠ '=' := fun h' => h (by simp [h'])
    have h2 : '=' ∉ s := fun h' => h (by simp [h'])
    simp [partition, h1, ih h2]

theorem allNames_snd (t : List Opt) : (allNames t).map Prod.snd = t.flatMap Opt.names := by
  unfold allNames
  induction t with
  | nil => rfl
  | cons o t ih => simp [List.flatMap_cons, ih, Function.comp_def]

theorem mem_allNames {o : Opt} {n : Str} : (o, n) ∈ allNames t ↔ o ∈ t ∧ n ∈ o.names := by
  unfold allNames
  simp only [List.mem_flatMap, List.mem_map, Prod.mk.injEq]
  constructor
  · rintro ⟨o', h1, n', h2, rfl, rfl⟩; exact ⟨h1, h2⟩
  · rintro ⟨h1, h2⟩; exact ⟨o, h1, n, h2, rfl, rfl⟩

/-- a function that gives a value for one element of a list only -/
theorem filterMap_single {α β : Type} {l : List α} {f : α → Option β} {x : α} {y : β} (hx : x ∈ l) (hy : f x = some y)
    (hn : l.Nodup) (h : ∀ z ∈ l, z ≠ x → f z = none) : l.filterMap f = [y] := by
  induction l with
  | nil => cases hx
  | cons a l ih =>
    rw [List.nodup_cons] at hn
    rcases List.mem_cons.1 hx with rfl | hx
    · have : l.filterMap f = [] := by
        rw [List.filterMap_eq_nil_iff]
        intro z hz
        exact h z (List.mem_cons_of_mem _ hz) (fun h' => hn.1 (h' ▸ hz))
      simp [hy, this]
    · have ha : f a = none := h a List.mem_cons_self (fun h' => hn.1 (h' ▸ hx))
      rw [List.filterMap_cons, ha]
      exact ih hx hn.2 (fun z hz => h z (List.mem_cons_of_mem _ hz))

theorem nodup_of_map {α β : Type} {l : List α} (f : α → β) (h : (l.map f).Nodup) : l.Nodup := by
  induction l with
  | nil => exact List.nodup_nil
  | cons a l ih =>
    rw [List.map_cons, List.nodup_cons] at h
    rw [List.nodup_cons]
    exact ⟨fun h' => h.1 (List.mem_map_of_mem (f := f) h'), ih h.2⟩

theorem inj_of_map {α β : Type} {l : List α} {f : α → β} (h : (l.map f).Nodup) {x y : α} (hx : x ∈ l) (hy : y ∈ l)
    (hf : f x = f y) : x = y := by
  induction l with
  | nil => cases hx
  | cons a l ih =>
    rw [List.map_cons, List.nodup_cons] at h
    rcases List.mem_cons.1 hx with h1 | h1 <;> rcases List.mem_cons.1 hy with h2 | h2
    · rw [h1, h2]
    · subst h1; exact absurd (List.mem_map.2 ⟨y, h2, hf.symm⟩) h.1
    · subst h2; exact absurd (List.mem_map.2 ⟨x, h1, hf⟩) h.1
    · exact ih h.2 h1 h2

theorem allNames_nodup (h : WF t) : (allNames t).Nodup :=
  nodup_of_map Prod.snd (by rw [allNames_snd]; exact h.nodup)

theorem tuples_long (h : WF t) {o : Opt} {s p n : Str} {a : Option Str} (hs : s.take 2 = ['-', '-'])
    (hp : partition s = (p, a)) (ho : o ∈ t) (hn : n ∈ o.names) (hpre : p <+: n)
    (hu : ∀ o' ∈ t, ∀ n' ∈ o'.names, p <+: n' → n' = n) : optionTuples t s = [⟨some o, n, a.isSome, a⟩] := by
  unfold optionTuples
  rw [if_pos hs, hp, ← List.filterMap_eq_map, List.filterMap_filter]
  refine filterMap_single (x := (o, n)) (mem_allNames.2 ⟨ho, hn⟩) ?_ (allNames_nodup h) ?_
  · simp [hpre]
  · rintro ⟨o', n'⟩ hm hne
    have hm := mem_allNames.1 hm
    by_cases hp' : p <+: n'
    · have := hu o' hm.1 n' hm.2 hp'
      subst this
      exact absurd (by rw [uniq h.nodup ho hm.1 hn hm.2]) hne
    · simp [hp']

theorem head_take {s : Str} {x y : Char} (h : s.take 2 = [x, y]) : ∃ r, s = x :: y :: r := by
  match s with
  | [] => simp at h
  | [a] => simp at h
  | a :: b :: r => simp at h; exact ⟨r, by rw [h.1, h.2]⟩

theorem long_word (h : WF t) {p : Str} {o : Opt} (hl : Long t p o) : ∃ n, n.take 2 = ['-', '-'] ∧
    p ≠ ['-', '-'] ∧ parseOptional e t p = .ok (some ⟨some o, n, false, none⟩) ∧
    ∀ v, p ++ '=' :: v ≠ ['-', '-'] ∧ parseOptional e t (p ++ '=' :: v) = .ok (some ⟨some o, n, true, some v⟩) := by
  obtain ⟨ho, hd, he, hl⟩ := hl
  obtain ⟨r, rfl⟩ := head_take hd
  have hnm : ∀ v, find t ('-' :: '-' :: r ++ '=' :: v) = none := by
    intro v
    refine find_none fun o' ho' hn' => ?_
    exact (h.names o' ho' _ hn').1 (by simp)
  by_cases hin : ('-' :: '-' :: r) ∈ o.names
  · refine ⟨_, hd, (h.names o ho _ hin).ne, ?_, fun v => ⟨?_, ?_⟩⟩
    · simp [parseOptional, find_some h ho hin]
    · simp
    · unfold parseOptional
      rw [hnm v, partition_some he]
      simp [find_some h ho hin]
  · rcases hl with hl | ⟨hlen, n, hn, hpre, hu⟩
    · exact absurd hl hin
    · have hf : find t ('-' :: '-' :: r) = none := by
        refine find_none fun o' ho' hn' => hin ?_
        have := hu o' ho' _ hn' (List.prefix_refl _)
        rw [this]; exact hn
      obtain ⟨x, hx⟩ := hpre
      refine ⟨n, by rw [← hx]; simp, ?_, ?_, fun v => ⟨?_, ?_⟩⟩
      · intro h'; rw [h'] at hlen; simp at hlen
      · unfold parseOptional
        rw [hf, partition_none he, tuples_long h hd (partition_none he) ho hn ⟨x, hx⟩ hu]
        simp
      · simp
      · unfold parseOptional
        rw [hnm v, tuples_long h (by simp) (partition_some he) ho hn ⟨x, hx⟩ hu, partition_some he]
        simp [hf]

theorem Short.ne (h : WF t) {c : Char} {o : Opt} (hs : Short t c o) : c ≠ '-' ∧ c ≠ '=' := by
  have := h.names o hs.1 _ hs.2
  simp [IsName] at this
  exact ⟨this.2, fun h' => this.1 h'.symm⟩

theorem not_name (h : WF t) {c d : Char} {r : Str} (hc : c ≠ '-') {o : Opt} (ho : o ∈ t) :
    ('-' :: c :: d :: r) ∉ o.names := by
  intro hn
  have := h.names o ho _ hn
  simp [IsName] at this
  exact hc this.2

theorem short_word (h : WF t) {c : Char} {o : Opt} (hs : Short t c o) :
    parseOptional e t ['-', c] = .ok (some ⟨some o, ['-', c], false, none⟩) := by
  simp [parseOptional, find_some h hs.1 hs.2]

theorem short_equals (h : WF t) {c : Char} {o : Opt} (hs : Short t c o) (v : Str) :
    parseOptional e t ('-' :: c :: '=' :: v) = .ok (some ⟨some o, ['-', c], true, some v⟩) := by
  have hc := hs.ne h
  have h1 : find t ('-' :: c :: '=' :: v) = none := find_none fun o' ho' => not_name h hc.1 ho'
  have h2 : partition ('-' :: c :: '=' :: v) = (['-', c], some v) :=
    partition_some (s := ['-', c]) (by simp; exact fun h' => hc.2 h'.symm)
  unfold parseOptional
  rw [h1, h2, find_some h hs.1 hs.2]
  simp

theorem short_attached (h : WF t) {c d : Char} {o : Opt} (hs : Short t c o) {r : Str} (hd : d ≠ '=') :
    parseOptional e t ('-' :: c :: d :: r) = .ok (some ⟨some o, ['-', c], false, some (d :: r)⟩) := by
  have hc := hs.ne h
  have h1 : ∀ r', find t ('-' :: c :: d :: r') = none := fun r' => find_none fun o' ho' => not_name h hc.1 ho'
  have h2 : (partition ('-' :: c :: d :: r)).1 = '-' :: c :: d :: (partition r).1 := by
    simp [partition, hc.2, hd]
  have h3 : optionTuples t ('-' :: c :: d :: r) = [⟨some o, ['-', c], false, some (d :: r)⟩] := by
    unfold optionTuples
    rw [if_neg (by simp [hc.1])]
    refine filterMap_single (x := (o, ['-', c])) (mem_allNames.2 hs) (by simp) (allNames_nodup h) ?_
    rintro ⟨o', n'⟩ hm hne
    have hm := mem_allNames.1 hm
    have h4 : n' ≠ ['-', c] := by
      rintro rfl
      exact hne (by rw [uniq h.nodup hs.1 hm.1 hs.2 hm.2])
    have h5 : ¬ ('-' :: c :: d :: r) <+: n' := by
      rintro ⟨x, rfl⟩
      exact not_name h hc.1 hm.1 hm.2
    have h5' : List.isPrefixOf ('-' :: c :: d :: r) n' = false := by
      cases hb : List.isPrefixOf ('-' :: c :: d :: r) n'
      · rfl
      · exact absurd (List.isPrefixOf_iff_prefix.1 hb) h5
    simp [h4, h5']
  unfold parseOptional
  rw [h1, h2, h1, h3]
  simp

theorem Letters.ne_nil {us : List Use} {s : Str} {w : Option Opt} (hl : Letters t us s w) : s ≠ [] := by
  cases hl <;> simp

theorem Letters.spec (h : WF t) {us : List Use} {s : Str} {w : Option Opt} (hl : Letters t us s w) :
    ∃ c o s', s = c :: s' ∧ Short t c o ∧
      ((s' = [] ∧ us = [] ∧ w = some o) ∨
       (∃ v, s' = '=' :: v ∧ o.kind.takes = true ∧ us = [⟨o, some v⟩] ∧ w = none) ∨
       (∃ d a, s' = d :: a ∧ d ≠ '=' ∧ letters t (d :: a) o false = .ok ⟨us.map Use.pair, [], w⟩)) := by
  induction hl with
  | last hs => exact ⟨_, _, _, rfl, hs, .inl ⟨rfl, rfl, rfl⟩⟩
  | @attached c o v hs ht hv hv' =>
    refine ⟨_, _, _, rfl, hs, .inr (.inr ?_)⟩
    match v, hv with
    | [d], _ => exact ⟨d, [], rfl, by simpa using hv', by simp [letters, ht, Use.pair]⟩
    | d :: b :: a, _ => exact ⟨d, b :: a, rfl, by simpa using hv', by simp [letters, ht, Use.pair]⟩
  | equals hs ht => exact ⟨_, _, _, rfl, hs, .inr (.inl ⟨_, rfl, ht, rfl, rfl⟩)⟩
  | @more c o us s w hs ht _ ih =>
    obtain ⟨c2, o2, s2, rfl, hs2, ih⟩ := ih
    have hc := hs2.ne h
    refine ⟨_, _, _, rfl, hs, .inr (.inr ⟨c2, s2, rfl, hc.2, ?_⟩)⟩
    rcases ih with ⟨rfl, rfl, rfl⟩ | ⟨v, rfl, ht2, rfl, rfl⟩ | ⟨d, a, rfl, hd, hla⟩
    · simp [letters, ht, hc.1, find_some h hs2.1 hs2.2, Use.pair]
    · have hv : letters t v o2 true = .ok ⟨[(o2, some v)], [], none⟩ := by
        match v with
        | [] => simp [letters, ht2]
        | [a] => simp [letters, ht2]
        | a :: b :: r => simp [letters, ht2]
      rw [letters]
      simp [ht, hc.1, find_some h hs2.1 hs2.2, Use.pair, hv]
    · rw [letters]
      simp [ht, hc.1, find_some h hs2.1 hs2.2, Use.pair, hd, hla]

theorem Letters.word (h : WF t) {us : List Use} {s : Str} {w : Option Opt} (hl : Letters t us s w) :
    ∃ hit, '-' :: s ≠ ['-', '-'] ∧ parseOptional e t ('-' :: s) = .ok (some hit) ∧
      consume t ('-' :: s) hit = .ok ⟨us.map Use.pair, [], w⟩ := by
  obtain ⟨c, o, s', rfl, hs, hh⟩ := hl.spec h
  have hc := hs.ne h
  have hne : '-' :: c :: s' ≠ ['-', '-'] := by
    intro h'; injection h' with _ h'; injection h' with h' _; exact hc.1 h'
  rcases hh with ⟨rfl, rfl, rfl⟩ | ⟨v, rfl, ht, rfl, rfl⟩ | ⟨d, a, rfl, hd, hla⟩
  · exact ⟨_, hne, short_word h hs, rfl⟩
  · refine ⟨_, hne, short_equals h hs v, ?_⟩
    have hv : letters t v o true = .ok ⟨[(o, some v)], [], none⟩ := by
      match v with
      | [] => simp [letters, ht]
      | [a] => simp [letters, ht]
      | a :: b :: r => simp [letters, ht]
    simp [consume, hc.1, hv, Use.pair]
  · refine ⟨_, hne, short_attached h hs hd, ?_⟩
    simp [consume, hc.1, hla]

theorem Writes.word (h : WF t) {us : List Use} {ss : List Str} (hw : Writes t us ss) (e : Env) :
    ∃ s hit f, s ≠ ['-', '-'] ∧ parseOptional e t s = .ok (some hit) ∧ consume t s hit = .ok f ∧ f.extras = [] ∧
      ((ss = [s] ∧ f.waits = none ∧ us.map Use.pair = f.acts) ∨
       (∃ o, ss = [s] ∧ f.waits = some o ∧ o.kind.takes = false ∧ us.map Use.pair = f.acts ++ [(o, none)]) ∨
       (∃ o v, ss = [s, v] ∧ Plain v ∧ f.waits = some o ∧ o.kind.takes = true ∧
          us.map Use.pair = f.acts ++ [(o, some v)])) := by
  cases hw with
  | @flag p o hl ht =>
    obtain ⟨n, hn, hne, hp, _⟩ := long_word (e := e) h hl
    exact ⟨p, _, _, hne, hp, rfl, rfl, .inr (.inl ⟨o, rfl, rfl, ht, rfl⟩)⟩
  | @next p o v hl ht hv =>
    obtain ⟨n, hn, hne, hp, _⟩ := long_word (e := e) h hl
    exact ⟨p, _, _, hne, hp, rfl, rfl, .inr (.inr ⟨o, v, rfl, hv, rfl, ht, rfl⟩)⟩
  | @equals p o v hl ht =>
    obtain ⟨n, hn, _, _, hp⟩ := long_word (e := e) h hl
    refine ⟨p ++ '=' :: v, _, ⟨[(o, some v)], [], none⟩, (hp v).1, (hp v).2, ?_, rfl, .inl ⟨rfl, rfl, rfl⟩⟩
    simp [consume, hn, ht]
  | @letters us s hl =>
    obtain ⟨hit, hne, hp, hc⟩ := hl.word (e := e) h
    exact ⟨_, hit, _, hne, hp, hc, rfl, .inl ⟨rfl, rfl, rfl⟩⟩
  | @lettersFlag us s o hl ht =>
    obtain ⟨hit, hne, hp, hc⟩ := hl.word (e := e) h
    exact ⟨_, hit, _, hne, hp, hc, rfl, .inr (.inl ⟨o, rfl, rfl, ht, by simp [Use.pair]⟩)⟩
  | @lettersNext us s o v hl ht hv =>
    obtain ⟨hit, hne, hp, hc⟩ := hl.word (e := e) h
    exact ⟨_, hit, _, hne, hp, hc, rfl, .inr (.inr ⟨o, v, rfl, hv, rfl, ht, by simp [Use.pair]⟩)⟩

theorem plain_word (h : WF t) {v : Str} (hv : Plain v) : v ≠ ['-', '-'] ∧ parseOptional e t v = .ok none := by
  rcases hv with hv | rfl
  · exact ⟨by rintro rfl; simp at hv, by unfold parseOptional; rw [if_pos hv]⟩
  · refine ⟨by simp, ?_⟩
    have : find t ['-'] = none := find_none fun o ho hn => by
      have := h.names o ho _ hn
      simp [IsName] at this
    simp [parseOptional, this]

theorem classify_opt {s : Str} {ss : List Str} {hit : Hit} {r : List (Str × Tok)} (hne : s ≠ ['-', '-'])
    (hp : parseOptional e t s = .ok (some hit)) (hr : classify e t ss = .ok r) :
    classify e t (s :: ss) = .ok ((s, .opt hit) :: r) := by
  rw [classify, if_neg hne, hp, hr]

theorem classify_arg {s : Str} {ss : List Str} {r : List (Str × Tok)} (h : WF t) (hp : Plain s)
    (hr : classify e t ss = .ok r) : classify e t (s :: ss) = .ok ((s, .arg) :: r) := by
  rw [classify, if_neg (plain_word (e := e) h hp).1, (plain_word h hp).2, hr]

/-- the words of options: how they are classified, and what the loop does with them -/
theorem Writes.step (h : WF t) {us : List Use} {ss : List Str} (hw : Writes t us ss) (e : Env) :
    ∃ toks, toks ≠ [] ∧ (∀ r, (toks ++ r).head?.any (fun p => p.2.isOpt)) ∧
      (∀ rest r, classify e t rest = .ok r → classify e t (ss ++ rest) = .ok (toks ++ r)) ∧
      ∀ n r done extras ns ns1, takeAll e (us.map Use.pair) ns = .ok ns1 →
        loop e t (n + 1) (toks ++ r) done extras ns = loop e t n r done extras ns1 := by
  obtain ⟨s, hit, f, hne, hp, hc, hx, hh⟩ := hw.word h e
  rcases hh with ⟨rfl, hf, hu⟩ | ⟨o, rfl, hf, ht, hu⟩ | ⟨o, v, rfl, hv, hf, ht, hu⟩
  · refine ⟨[(s, .opt hit)], by simp, fun r => by simp [Tok.isOpt], fun rest r hr => classify_opt hne hp hr, ?_⟩
    intro n r done extras ns ns1 hns
    rw [hu] at hns
    simp [loop, Tok.isOpt, hc, hf, hns, hx]
  · refine ⟨[(s, .opt hit)], by simp, fun r => by simp [Tok.isOpt], fun rest r hr => classify_opt hne hp hr, ?_⟩
    intro n r done extras ns ns1 hns
    rw [hu] at hns
    simp [loop, Tok.isOpt, hc, hf, ht, hns, hx]
  · refine ⟨[(s, .opt hit), (v, .arg)], by simp, fun r => by simp [Tok.isOpt],
      fun rest r hr => classify_opt hne hp (classify_arg h hv hr), ?_⟩
    intro n r done extras ns ns1 hns
    rw [hu] at hns
    simp [loop, Tok.isOpt, hc, hf, ht, hns, hx]

/-! ## What the actions do -/

/-- the namespace holds what the uses mean -/
def Tracks (e : Env) (t : List Opt) (us : List Use) (ns : NS) : Prop :=
  ∀ o ∈ t, ns.vals.get? o.dest = some (meaning e us o)

theorem uses_append (us : List Use) (u : Use) (o : Opt) :
    uses (us ++ [u]) o = if u.opt = o then uses us o ++ [u] else uses us o := by
  unfold uses
  by_cases h : u.opt = o <;> simp [List.filter_append, h]

theorem meaning_other (us : List Use) {u : Use} {o : Opt} (h : u.opt ≠ o) : meaning e (us ++ [u]) o = meaning e us o := by
  simp [meaning, uses_append, h]

theorem take_tracks (h : WF t) {us : List Use} {u : Use} {ns : NS} (hu : u.opt ∈ t) (hv : Valid e u)
    (ht : Tracks e t us ns) : ∃ ns1, take e u.opt u.arg ns = .ok ns1 ∧ ns1.targets = ns.targets ∧
      Tracks e t (us ++ [u]) ns1 := by
  obtain ⟨o, a⟩ := u
  simp only at hu
  have key : ∀ v, v = meaning e (us ++ [⟨o, a⟩]) o → Tracks e t (us ++ [⟨o, a⟩]) { ns with vals := ns.vals.set o.dest v } := by
    rintro v rfl o' ho'
    simp only [Dict.get?_set]
    by_cases hd : o.dest = o'.dest
    · have : o = o' := inj_of_map h.dests hu ho' hd
      subst this
      simp
    · rw [if_neg hd, meaning_other _ (fun h' : o = o' => hd (by rw [h'])), ht o' ho']
  unfold Valid at hv
  unfold take
  simp only at hv
  cases hk : o.kind with
  | flag =>
    refine ⟨_, rfl, rfl, key _ ?_⟩
    simp [meaning, uses_append, hk]
  | count =>
    refine ⟨_, rfl, rfl, key _ ?_⟩
    rw [ht o hu]
    simp only [meaning, uses_append, hk, if_true]
    cases hg : (uses us o).getLast? with
    | none =>
      have : uses us o = [] := List.getLast?_eq_none_iff.1 hg
      simp only [this]
      cases o.default <;> simp
    | some u =>
      simp only [List.getLast?_append, List.getLast?_singleton, List.length_append, List.length_singleton]
      simp [Nat.add_assoc]
  | value =>
    rw [hk] at hv
    cases a with
    | none => exact (hv).elim
    | some a => exact ⟨_, rfl, rfl, key _ (by simp [meaning, uses_append, hk])⟩
  | int =>
    rw [hk] at hv
    cases a with
    | none => exact (hv).elim
    | some a =>
      obtain ⟨i, hi⟩ := hv
      simp only [hi]
      exact ⟨_, rfl, rfl, key _ (by simp [meaning, uses_append, hk, hi])⟩
  | choice cs =>
    rw [hk] at hv
    cases a with
    | none => exact (hv).elim
    | some a =>
      have hv : a ∈ cs := hv
      simp only [if_pos hv]
      exact ⟨_, rfl, rfl, key _ (by simp [meaning, uses_append, hk])⟩
  | exit =>
    rw [hk] at hv
    exact (hv).elim

theorem takeAll_tracks (h : WF t) {us' : List Use} (hv : ∀ u ∈ us', Valid e u) (hu : ∀ u ∈ us', u.opt ∈ t) :
    ∀ {us : List Use} {ns : NS}, Tracks e t us ns → ∃ ns1, takeAll e (us'.map Use.pair) ns = .ok ns1 ∧
      ns1.targets = ns.targets ∧ Tracks e t (us ++ us') ns1 := by
  induction us' with
  | nil => intro us ns ht; exact ⟨ns, rfl, rfl, by simpa using ht⟩
  | cons u us' ih =>
    intro us ns ht
    obtain ⟨ns1, h1, h2, h3⟩ := take_tracks h (hu u List.mem_cons_self) (hv u List.mem_cons_self) ht
    obtain ⟨ns2, h4, h5, h6⟩ := ih (fun u h' => hv u (List.mem_cons_of_mem _ h'))
      (fun u h' => hu u (List.mem_cons_of_mem _ h')) h3
    refine ⟨ns2, ?_, h5.trans h2, by simpa using h6⟩
    simp only [List.map_cons, takeAll]
    have : take e u.pair.1 u.pair.2 ns = .ok ns1 := h1
    simp only [this, h4]

theorem Letters.mem {us : List Use} {s : Str} {w : Option Opt} (hl : Letters t us s w) :
    (∀ u ∈ us, u.opt ∈ t) ∧ ∀ o, w = some o → o ∈ t := by
  induction hl with
  | last hs => exact ⟨by simp, fun o h => by cases h; exact hs.1⟩
  | attached hs => exact ⟨by simp [hs.1], by simp⟩
  | equals hs => exact ⟨by simp [hs.1], by simp⟩
  | more hs _ _ ih =>
    refine ⟨fun u hu => ?_, ih.2⟩
    rcases List.mem_cons.1 hu with rfl | hu
    · exact hs.1
    · exact ih.1 u hu

theorem Writes.mem {us : List Use} {ss : List Str} (hw : Writes t us ss) : ∀ u ∈ us, u.opt ∈ t := by
  cases hw with
  | flag hl => simpa using hl.1
  | next hl => simpa using hl.1
  | equals hl => simpa using hl.1
  | letters hl => exact hl.mem.1
  | lettersFlag hl =>
    intro u hu
    rcases List.mem_append.1 hu with hu | hu
    · exact hl.mem.1 u hu
    · simp at hu; subst hu; exact hl.mem.2 _ rfl
  | lettersNext hl =>
    intro u hu
    rcases List.mem_append.1 hu with hu | hu
    · exact hl.mem.1 u hu
    · simp at hu; subst hu; exact hl.mem.2 _ rfl

/-- the words of a list of options: how they are classified, and what the loop does with them -/
theorem Line.step (h : WF t) {us : List Use} {ss : List Str} (hl : Line t us ss) (hv : ∀ u ∈ us, Valid e u) :
    ∃ toks : List (Str × Tok), (toks = [] ∨ ∀ r, (toks ++ r).head?.any (fun p => p.2.isOpt)) ∧
      (∀ rest r, classify e t rest = .ok r → classify e t (ss ++ rest) = .ok (toks ++ r)) ∧
      ∃ k, k ≤ toks.length ∧ ∀ us0 ns, Tracks e t us0 ns → ∃ ns1 : NS, ns1.targets = ns.targets ∧ Tracks e t (us0 ++ us) ns1 ∧
        ∀ n r done extras, loop e t (n + k) (toks ++ r) done extras ns = loop e t n r done extras ns1 := by
  induction hl with
  | nil => exact ⟨[], .inl rfl, fun rest r hr => hr, 0, Nat.le_refl _, fun us0 ns ht =>
      ⟨ns, rfl, by simpa using ht, fun _ _ _ _ => rfl⟩⟩
  | @cons us ss us' ss' hw _ ih =>
    obtain ⟨toks, hne, ho, hc, hs⟩ := hw.step h e
    obtain ⟨toks', _, hc', k, hk, hs'⟩ := ih (fun u hu => hv u (List.mem_append_right _ hu))
    refine ⟨toks ++ toks', .inr fun r => ?_, fun rest r hr => ?_, k + 1, ?_, fun us0 ns ht => ?_⟩
    · rw [List.append_assoc]; exact ho _
    · rw [List.append_assoc, List.append_assoc]; exact hc _ _ (hc' _ _ hr)
    · have := List.length_pos_iff.2 hne
      simp only [List.length_append]; omega
    · obtain ⟨ns1, h1, h2, h3⟩ := takeAll_tracks h (fun u hu => hv u (List.mem_append_left _ hu)) hw.mem ht
      obtain ⟨ns2, h4, h5, h6⟩ := hs' _ _ h3
      refine ⟨ns2, h4.trans h2, by rw [← List.append_assoc]; exact h5, fun n r done extras => ?_⟩
      rw [List.append_assoc, ← Nat.add_assoc, hs _ _ _ _ _ _ h1, h6]

theorem Line.append {us us' : List Use} {ss ss' : List Str} (h1 : Line t us ss) (h2 : Line t us' ss') :
    Line t (us ++ us') (ss ++ ss') := by
  induction h1 with
  | nil => exact h2
  | cons hw _ ih => rw [List.append_assoc, List.append_assoc]; exact .cons hw ih

theorem classify_args (h : WF t) {ts : List Str} (hp : ∀ x ∈ ts, Plain x) {rest : List Str} {r : List (Str × Tok)}
    (hr : classify e t rest = .ok r) : classify e t (ts ++ rest) = .ok (ts.map (fun x => (x, .arg)) ++ r) := by
  induction ts with
  | nil => exact hr
  | cons x ts ih => exact classify_arg h (hp x List.mem_cons_self) (ih fun y hy => hp y (List.mem_cons_of_mem _ hy))

/-- the namespace with the defaults -/
def start (t : List Opt) : NS := ⟨t.map fun o => (o.dest, o.default), []⟩

theorem start_tracks (h : WF t) : Tracks e t [] (start t) := by
  intro o ho
  have hd := h.dests
  show Dict.get? (t.map fun o => (o.dest, o.default)) o.dest = some o.default
  clear h
  induction t with
  | nil => cases ho
  | cons a t ih =>
    rw [List.map_cons, List.nodup_cons] at hd
    simp only [List.map_cons, Dict.get?]
    rcases List.mem_cons.1 ho with rfl | ho
    · simp
    · have : a.dest ≠ o.dest := fun h' => hd.1 (h' ▸ List.mem_map_of_mem (f := Opt.dest) ho)
      rw [if_neg this]
      exact ih ho hd.2

theorem no_opt (ts : List Str) : (ts.map (fun x => ((x, .arg) : Str × Tok))).any (fun p => p.2.isOpt) = false := by
  induction ts with
  | nil => rfl
  | cons x ts ih => simp [Tok.isOpt]

theorem takeWhile_args (ts : List Str) {r : List (Str × Tok)} (hr : r.head?.any (fun p => p.2.isOpt)) :
    (ts.map (fun x => ((x, .arg) : Str × Tok)) ++ r).takeWhile (fun p => !p.2.isOpt) = ts.map (fun x => (x, .arg)) ∧
    (ts.map (fun x => ((x, .arg) : Str × Tok)) ++ r).dropWhile (fun p => !p.2.isOpt) = r := by
  induction ts with
  | nil =>
    cases r with
    | nil => simp at hr
    | cons p r => simp at hr; simp [hr]
  | cons x ts ih => simp [Tok.isOpt]; simpa [Tok.isOpt] using ih

theorem targetsOf_args {ts : List Str} (hne : ts ≠ []) (hp : ∀ x ∈ ts, Plain x) : targetsOf ts = ts := by
  have : ts.erase ['-', '-'] = ts := List.erase_of_not_mem fun h' => by
    rcases hp _ h' with h' | h' <;> simp at h'
  simp [targetsOf, this, hne]

/-- one step of the loop at words that are not options -/
theorem loop_args {ts : List Str} (hne : ts ≠ []) (hp : ∀ x ∈ ts, Plain x) {r : List (Str × Tok)}
    (hr : r.head?.any (fun p => p.2.isOpt)) (n : Nat) (extras : List Str) (ns : NS) :
    loop e t (n + 1) (ts.map (fun x => (x, .arg)) ++ r) false extras ns = loop e t n r true extras { ns with targets := ts } := by
  have ha : (ts.map (fun x => ((x, .arg) : Str × Tok)) ++ r).any (fun p => p.2.isOpt) = true := by
    cases r with
    | nil => simp at hr
    | cons p r => simp at hr; simp [hr]
  have hw := takeWhile_args ts hr
  match ts, hne with
  | x :: ts, _ =>
    conv => lhs; unfold loop
    rw [if_pos ha]
    simp only [List.map_cons, List.cons_append] at hw ⊢
    simp only [hw.1, hw.2]
    have h2 : List.map Prod.fst ((x, Tok.arg) :: ts.map (fun x => ((x, .arg) : Str × Tok))) = x :: ts := by
      simp [Function.comp_def]
    rw [h2, targetsOf_args (by simp) hp]
    simp

theorem loop_end {ts : List Str} (n : Nat) (ns : NS) (hp : ∀ x ∈ ts, Plain x) :
    loop e t (n + 1) (ts.map (fun x => (x, .arg))) false [] ns =
      .ok { ns with targets := if ts = [] then ["build".toList] else ts } := by
  have h2 : List.map Prod.fst (ts.map (fun x => ((x, .arg) : Str × Tok))) = ts := by simp [Function.comp_def]
  unfold loop
  rw [no_opt, h2]
  by_cases hne : ts = []
  · subst hne; simp [targetsOf]
  · simp [targetsOf_args hne hp, hne]

theorem loop_end_done (n : Nat) (ns : NS) : loop e t (n + 1) [] true [] ns = .ok ns := by
  simp [loop]

theorem parse_line (h : WF t) {us1 us2 : List Use} {a1 a2 ts : List Str} (h1 : Line t us1 a1) (h2 : Line t us2 a2)
    (hp : ∀ x ∈ ts, Plain x) (hv : ∀ u ∈ us1 ++ us2, Valid e u) :
    ∃ ns, parse e t (a1 ++ ts ++ a2) = .ok ns ∧ ns.targets = (if ts = [] then ["build".toList] else ts) ∧
      Tracks e t (us1 ++ us2) ns := by
  unfold parse
  by_cases hne : ts = []
  · subst hne
    obtain ⟨toks, _, hc, k, hk, hs⟩ := (h1.append h2).step h hv
    obtain ⟨ns1, _, ht, hl⟩ := hs [] (start t) (start_tracks h)
    have hc := hc [] [] rfl
    rw [List.append_nil] at hc
    simp only [List.append_nil, hc]
    have hf : toks.length + 1 = (toks.length - k) + 1 + k := by omega
    have := hl (toks.length - k + 1) [] false []
    rw [List.append_nil] at this
    have h0 := loop_end (e := e) (t := t) (ts := []) (toks.length - k) ns1 (by simp)
    rw [List.map_nil] at h0
    rw [h0] at this
    refine ⟨_, by rw [hf]; exact this, rfl, ?_⟩
    exact ht
  · obtain ⟨toks, _, hc, k, hk, hs⟩ := h1.step h (fun u hu => hv u (List.mem_append_left _ hu))
    obtain ⟨toks', hh, hc', k', hk', hs'⟩ := h2.step h (fun u hu => hv u (List.mem_append_right _ hu))
    obtain ⟨ns1, _, ht, hl⟩ := hs [] (start t) (start_tracks h)
    obtain ⟨ns2, hns2, ht2, hl2⟩ := hs' us1 { ns1 with targets := ts } ht
    have hc2 := hc _ _ (classify_args h hp (hc' [] [] rfl))
    rw [List.append_nil, List.append_nil, ← List.append_assoc] at hc2
    simp only [hc2]
    have hpos := List.length_pos_iff.2 hne
    rcases hh with rfl | hh
    · simp only [List.append_nil, List.length_append, List.length_map]
      have hf : toks.length + ts.length + 1 = (toks.length + ts.length - k) + 1 + k := by omega
      refine ⟨{ ns1 with targets := ts }, ?_, by simp [hne], ?_⟩
      · rw [hf]
        refine (hl _ _ _ _).trans ?_
        rw [loop_end _ _ hp]; simp [hne]
      · have hk0 : k' = 0 := by simpa using hk'
        subst hk0
        have := hl2 1 [] true []
        simp only [Nat.add_zero, List.append_nil, loop_end_done] at this
        injection this with this
        rw [this]; exact ht2
    · have hh := hh []
      rw [List.append_nil] at hh
      simp only [List.length_append, List.length_map]
      obtain ⟨m, hm⟩ : ∃ m, toks.length + (ts.length + toks'.length) + 1 = m + 1 + k' + 1 + k := 
        ⟨toks.length + (ts.length + toks'.length) - (k' + k + 1), by omega⟩
      refine ⟨ns2, ?_, by rw [hns2]; simp [hne], ht2⟩
      rw [hm]
      refine (hl _ _ _ _).trans ?_
      rw [loop_args hne hp hh]
      have := hl2 (m + 1) [] true []
      rw [List.append_nil] at this
      rw [this, loop_end_done]

theorem parse_dashes (h : WF t) {us : List Use} {a ts : List Str} (h1 : Line t us a) (hv : ∀ u ∈ us, Valid e u) :
    ∃ ns, parse e t (a ++ ['-', '-'] :: ts) = .ok ns ∧ ns.targets = (if ts = [] then ["build".toList] else ts) ∧
      Tracks e t us ns := by
  unfold parse
  obtain ⟨toks, _, hc, k, hk, hs⟩ := h1.step h hv
  obtain ⟨ns1, _, ht, hl⟩ := hs [] (start t) (start_tracks h)
  have hd : classify e t (['-', '-'] :: ts) = .ok ((['-', '-'], .dashes) :: ts.map fun x => (x, .arg)) := by
    simp [classify]
  simp only [hc _ _ hd, List.length_append, List.length_cons, List.length_map]
  have hf : toks.length + (ts.length + 1) + 1 = (toks.length + ts.length - k + 1) + 1 + k := by omega
  refine ⟨{ ns1 with targets := if ts = [] then ["build".toList] else ts }, ?_, rfl, ht⟩
  rw [hf]
  refine (hl _ _ _ _).trans ?_
  unfold loop
  simp [Tok.isOpt, targetsOf, Function.comp_def]

/-! ## A wrong argument, or an option that ends the process -/

theorem take_wrong {u : Use} (hf : u.opt.kind.takes = false → u.arg = none) (h : ¬ Valid e u) (ns : NS) :
    ∃ x, take e u.opt u.arg ns = .error x := by
  obtain ⟨o, a⟩ := u
  unfold Valid at h
  unfold take
  simp only at h hf ⊢
  cases hk : o.kind with
  | flag => rw [hk] at h hf; rw [hf rfl] at h; exact absurd trivial h
  | count => rw [hk] at h hf; rw [hf rfl] at h; exact absurd trivial h
  | value =>
    cases a with
    | none => exact ⟨_, rfl⟩
    | some a => rw [hk] at h; exact absurd trivial h
  | int =>
    cases a with
    | none => exact ⟨_, rfl⟩
    | some a =>
      rw [hk] at h
      cases hi : e.int a with
      | none => exact ⟨.error, by simp only [hi]⟩
      | some i => exact absurd ⟨i, hi⟩ h
  | choice cs =>
    cases a with
    | none => exact ⟨_, rfl⟩
    | some a => rw [hk] at h; exact ⟨.error, if_neg h⟩
  | exit => exact ⟨_, rfl⟩

theorem takeAll_wrong {us : List Use} (hf : ∀ u ∈ us, u.opt.kind.takes = false → u.arg = none) (h : ∃ u ∈ us, ¬ Valid e u) :
    ∀ ns, ∃ x, takeAll e (us.map Use.pair) ns = .error x := by
  induction us with
  | nil => obtain ⟨u, hu, _⟩ := h; cases hu
  | cons u us ih =>
    intro ns
    simp only [List.map_cons, takeAll, Use.pair]
    cases ht : take e u.opt u.arg ns with
    | error x => exact ⟨x, rfl⟩
    | ok ns1 =>
      refine ih (fun v hv => hf v (List.mem_cons_of_mem _ hv)) ?_ ns1
      obtain ⟨v, hv, hw⟩ := h
      rcases List.mem_cons.1 hv with rfl | hv
      · obtain ⟨x, hx⟩ := take_wrong (hf _ List.mem_cons_self) hw ns
        rw [ht] at hx; cases hx
      · exact ⟨v, hv, hw⟩

theorem classify_error {s : Str} {ss : List Str} (hne : s ≠ ['-', '-']) (hr : classify e t ss = .error ()) :
    classify e t (s :: ss) = .error () := by
  rw [classify, if_neg hne, hr]
  cases parseOptional e t s <;> rfl

/-- the words of options that are used wrongly -/
theorem Writes.stop (h : WF t) {us : List Use} {ss : List Str} (hw : Writes t us ss) (e : Env) :
    ∃ toks, (∀ rest, classify e t rest = .error () → classify e t (ss ++ rest) = .error ()) ∧
      (∀ rest r, classify e t rest = .ok r → classify e t (ss ++ rest) = .ok (toks ++ r)) ∧
      ∀ n r done extras ns x, takeAll e (us.map Use.pair) ns = .error x →
        loop e t (n + 1) (toks ++ r) done extras ns = .error x := by
  obtain ⟨s, hit, f, hne, hp, hc, hx, hh⟩ := hw.word h e
  rcases hh with ⟨rfl, hf, hu⟩ | ⟨o, rfl, hf, ht, hu⟩ | ⟨o, v, rfl, hv, hf, ht, hu⟩
  · refine ⟨[(s, .opt hit)], fun rest hr => classify_error hne hr, fun rest r hr => classify_opt hne hp hr, ?_⟩
    intro n r done extras ns x hns
    rw [hu] at hns
    simp [loop, Tok.isOpt, hc, hf, hns]
  · refine ⟨[(s, .opt hit)], fun rest hr => classify_error hne hr, fun rest r hr => classify_opt hne hp hr, ?_⟩
    intro n r done extras ns x hns
    rw [hu] at hns
    simp [loop, Tok.isOpt, hc, hf, ht, hns]
  · refine ⟨[(s, .opt hit), (v, .arg)], fun rest hr => classify_error hne (classify_error (plain_word (e := e) h hv).1 hr),
      fun rest r hr => classify_opt hne hp (classify_arg h hv hr), ?_⟩
    intro n r done extras ns x hns
    rw [hu] at hns
    simp [loop, Tok.isOpt, hc, hf, ht, hns]

theorem Line.classify_error (h : WF t) {us : List Use} {ss : List Str} (hl : Line t us ss) {rest : List Str}
    (hr : classify e t rest = .error ()) : classify e t (ss ++ rest) = .error () := by
  induction hl with
  | nil => exact hr
  | cons hw _ ih =>
    obtain ⟨_, h1, _⟩ := hw.stop h e
    rw [List.append_assoc]
    exact h1 _ ih

theorem Letters.plain {us : List Use} {s : Str} {w : Option Opt} (hl : Letters t us s w) :
    ∀ u ∈ us, u.opt.kind.takes = false → u.arg = none := by
  induction hl with
  | last => simp
  | attached _ ht => intro u hu h; simp at hu; subst hu; rw [ht] at h; cases h
  | equals _ ht => intro u hu h; simp at hu; subst hu; rw [ht] at h; cases h
  | more _ _ _ ih =>
    intro u hu h
    rcases List.mem_cons.1 hu with rfl | hu
    · rfl
    · exact ih u hu h

theorem Writes.plain {us : List Use} {ss : List Str} (hw : Writes t us ss) : ∀ u ∈ us, u.opt.kind.takes = false → u.arg = none := by
  cases hw with
  | flag => intro u hu _; simp at hu; subst hu; rfl
  | next _ ht => intro u hu h; simp at hu; subst hu; rw [ht] at h; cases h
  | equals _ ht => intro u hu h; simp at hu; subst hu; rw [ht] at h; cases h
  | letters hl => exact hl.plain
  | lettersFlag hl =>
    intro u hu h
    rcases List.mem_append.1 hu with hu | hu
    · exact hl.plain u hu h
    · simp at hu; subst hu; rfl
  | lettersNext hl ht =>
    intro u hu h
    rcases List.mem_append.1 hu with hu | hu
    · exact hl.plain u hu h
    · simp at hu; subst hu; rw [ht] at h; cases h

theorem parse_wrong (h : WF t) {us1 us2 : List Use} {a s : List Str} (h1 : Line t us1 a) (hv : ∀ u ∈ us1, Valid e u)
    (h2 : Writes t us2 s) (hw : ∃ u ∈ us2, ¬ Valid e u) (b : List Str) (ns : NS) : parse e t (a ++ (s ++ b)) ≠ .ok ns := by
  unfold parse
  obtain ⟨toks', he, hc', hs'⟩ := h2.stop h e
  cases hb : classify e t b with
  | error u =>
    cases u
    rw [h1.classify_error h (he _ hb)]
    intro hc; cases hc
  | ok r =>
    obtain ⟨toks, _, hc, k, hk, hs⟩ := h1.step h hv
    obtain ⟨ns1, _, ht, hl⟩ := hs [] (start t) (start_tracks h)
    rw [hc _ _ (hc' _ _ hb)]
    obtain ⟨x, hx⟩ := takeAll_wrong h2.plain hw ns1
    obtain ⟨m, hm⟩ : ∃ m, (toks ++ (toks' ++ r)).length + 1 = m + 1 + k :=
      ⟨(toks ++ (toks' ++ r)).length - k, by simp only [List.length_append]; omega⟩
    simp only
    rw [hm]
    intro hc
    have h3 := hl (m + 1) (toks' ++ r) false []
    rw [hs' _ _ _ _ _ _ hx] at h3
    exact absurd (h3.symm.trans hc) (by simp)

/-! ## What is not an option is not ignored -/

theorem mem_takeWhile {α : Type} {p : α → Bool} {l : List α} {x : α} (h : x ∈ l.takeWhile p) : p x = true := by
  induction l with
  | nil => simp at h
  | cons a l ih =>
    rw [List.takeWhile_cons] at h
    split at h
    · rcases List.mem_cons.1 h with rfl | h
      · assumption
      · exact ih h
    · cases h

/-- if the loop ends well then every word that looks like an option is one, and nothing was left -/
theorem loop_extras {n : Nat} : ∀ {toks : List (Str × Tok)} {done : Bool} {extras : List Str} {ns ns1 : NS},
    loop e t n toks done extras ns = .ok ns1 → extras = [] ∧
      ∀ p ∈ toks, ∀ h : Hit, p.2 = .opt h → ∃ f, consume t p.1 h = .ok f ∧ f.extras = [] := by
  induction n with
  | zero => intro toks done extras ns ns1 h; simp [loop] at h
  | succ n ih =>
    intro toks done extras ns ns1 h
    unfold loop at h
    split at h
    · split at h
      · rename_i s hit rest _
        split at h
        · cases h
        · rename_i f hf
          have key : ∀ rest' ns2, loop e t n rest' done (extras ++ f.extras) ns2 = .ok ns1 →
              (∀ p ∈ rest, ∀ h : Hit, p.2 = .opt h → p ∈ rest') →
              extras = [] ∧ ∀ p ∈ (s, Tok.opt hit) :: rest, ∀ h : Hit, p.2 = .opt h →
                ∃ f, consume t p.1 h = .ok f ∧ f.extras = [] := by
            intro rest' ns2 hl hsub
            obtain ⟨h1, h2⟩ := ih hl
            rw [List.append_eq_nil_iff] at h1
            refine ⟨h1.1, fun p hp hh hph => ?_⟩
            rcases List.mem_cons.1 hp with rfl | hp
            · injection hph with hph
              subst hph
              exact ⟨f, hf, h1.2⟩
            · exact h2 p (hsub p hp hh hph) hh hph
          split at h
          · split at h
            · cases h
            · exact key _ _ h (fun p hp _ _ => hp)
          · split at h
            · split at h
              · split at h
                · cases h
                · refine key _ _ h (fun p hp hh hph => ?_)
                  rcases List.mem_cons.1 hp with rfl | hp
                  · cases hph
                  · exact hp
              · cases h
            · split at h
              · cases h
              · exact key _ _ h (fun p hp _ _ => hp)
      · have hdrop : ∀ p ∈ toks, ∀ h : Hit, p.2 = .opt h → p ∈ toks.dropWhile (fun p => !p.2.isOpt) := by
          intro p hp hh hph
          rw [← List.takeWhile_append_dropWhile (p := fun p : Str × Tok => !p.2.isOpt) (l := toks)] at hp
          rcases List.mem_append.1 hp with hp | hp
          · have := mem_takeWhile hp
            rw [hph] at this
            simp [Tok.isOpt] at this
          · exact hp
        simp only at h
        split at h
        · obtain ⟨h1, h2⟩ := ih h
          rw [List.append_eq_nil_iff] at h1
          exact ⟨h1.1, fun p hp hh hph => h2 p (hdrop p hp hh hph) hh hph⟩
        · obtain ⟨h1, h2⟩ := ih h
          exact ⟨h1, fun p hp hh hph => h2 p (hdrop p hp hh hph) hh hph⟩
    · rename_i hany
      have hno : ∀ p ∈ toks, ∀ h : Hit, p.2 = .opt h → ∃ f, consume t p.1 h = .ok f ∧ f.extras = [] := fun p hp hh hph =>
        absurd (List.any_eq_true.2 ⟨p, hp, by rw [hph]; rfl⟩) hany
      cases done with
      | false =>
        by_cases hx : extras = []
        · exact ⟨hx, hno⟩
        · simp [hx] at h
      | true =>
        by_cases hx : extras = []
        · exact ⟨hx, hno⟩
        · simp [hx] at h

theorem partition_prefix (x : Str) : (partition x).1 <+: x := by
  induction x with
  | nil => simp [partition]
  | cons c x ih =>
    rw [partition]
    split
    · simp
    · simpa using ih

theorem classify_mem {argv : List Str} {toks : List (Str × Tok)} (h : classify e t argv = .ok toks) {a b : List Str}
    {x : Str} (hab : argv = a ++ x :: b) (hd : ['-', '-'] ∉ a ++ [x]) :
    ∃ r : Option Hit, parseOptional e t x = .ok r ∧ ∀ hit, r = some hit → (x, Tok.opt hit) ∈ toks := by
  induction a generalizing argv toks with
  | nil =>
    subst hab
    rw [List.nil_append, classify, if_neg (by simpa using fun h' => hd (by simp [h']))] at h
    split at h
    · cases h
    · rename_i r hr
      refine ⟨r, hr, fun hit hh => ?_⟩
      split at h
      · cases h
      · injection h with h
        subst hh
        rw [← h]; simp
  | cons y a ih =>
    subst hab
    rw [List.cons_append, classify, if_neg (by simpa using fun h' => hd (by simp [h']))] at h
    split at h
    · cases h
    · split at h
      · cases h
      · rename_i r hr
        injection h with h
        obtain ⟨r', h1, h2⟩ := ih hr rfl (fun h' => hd (by simp at h' ⊢; exact .inr h'))
        exact ⟨r', h1, fun hit hh => by rw [← h]; exact List.mem_cons_of_mem _ (h2 hit hh)⟩

/-- if a command line is accepted then every word before `--` is an argument or consists of options -/
theorem parse_word {argv a b : List Str} {x : Str} (hab : argv = a ++ x :: b) (hd : ['-', '-'] ∉ a ++ [x]) {ns : NS}
    (h : parse e t argv = .ok ns) : ∃ r, parseOptional e t x = .ok r ∧
      ∀ hit, r = some hit → ∃ f, consume t x hit = .ok f ∧ f.extras = [] := by
  unfold parse at h
  split at h
  · cases h
  · rename_i toks hc
    obtain ⟨r, hr, hm⟩ := classify_mem hc hab hd
    exact ⟨r, hr, fun hit hh => (loop_extras h).2 _ (hm hit hh) hit rfl⟩

theorem parse_unknown {argv a b : List Str} {x : Str} (hab : argv = a ++ x :: b) (hd : ['-', '-'] ∉ a)
    (hx : x.take 2 = ['-', '-']) (hl : 2 < x.length) (hs : ' ' ∉ x)
    (hn : e.negative x = false) (hu : ∀ o ∈ t, ∀ n ∈ o.names, ¬ (partition x).1 <+: n) (ns : NS) :
    parse e t argv ≠ .ok ns := by
  intro h
  have hne : x ≠ ['-', '-'] := by rintro rfl; simp at hl
  obtain ⟨r, hr, hm⟩ := parse_word hab (by simp [hd, Ne.symm hne]) h
  have hpre := partition_prefix x
  have h1 : find t x = none := find_none fun o ho hn' => hu o ho x hn' hpre
  have h2 : find t (partition x).1 = none := find_none fun o ho hn' => hu o ho _ hn' (List.prefix_refl _)
  have h3 : optionTuples t x = [] := by
    unfold optionTuples
    rw [if_pos hx, List.map_eq_nil_iff, List.filter_eq_nil_iff]
    rintro ⟨o, n⟩ hm
    have hm := mem_allNames.1 hm
    have := hu o hm.1 n hm.2
    simpa using this
  obtain ⟨y, rfl⟩ := head_take hx
  have : parseOptional e t ('-' :: '-' :: y) = .ok (some ⟨none, '-' :: '-' :: y, false, none⟩) := by
    unfold parseOptional
    rw [h1, h2, h3, hn]
    simp at hs ⊢
    exact hs
  rw [this] at hr
  injection hr with hr
  obtain ⟨f, hf, hx⟩ := hm _ hr.symm
  simp only [consume] at hf
  injection hf with hf
  rw [← hf] at hx
  simp at hx

theorem two_of_filter {α : Type} {l : List α} {p : α → Bool} {x y : α} (hx : x ∈ l) (hy : y ∈ l) (hne : x ≠ y)
    (hpx : p x = true) (hpy : p y = true) : ∃ a b r, l.filter p = a :: b :: r := by
  have h1 : x ∈ l.filter p := List.mem_filter.2 ⟨hx, hpx⟩
  have h2 : y ∈ l.filter p := List.mem_filter.2 ⟨hy, hpy⟩
  match l.filter p, h1, h2 with
  | [a], h1, h2 => simp at h1 h2; exact absurd (h1.trans h2.symm) hne
  | a :: b :: r, _, _ => exact ⟨a, b, r, rfl⟩

theorem parse_ambiguous {argv a b : List Str} {x : Str} (hab : argv = a ++ x :: b) (hd : ['-', '-'] ∉ a)
    (hx : x.take 2 = ['-', '-']) (hl : 2 < x.length) {o1 o2 : Opt} {n1 n2 : Str} (ho1 : o1 ∈ t) (ho2 : o2 ∈ t)
    (hn1 : n1 ∈ o1.names) (hn2 : n2 ∈ o2.names) (hne : n1 ≠ n2) (hp1 : (partition x).1 <+: n1) (hp2 : (partition x).1 <+: n2)
    (hno : ∀ o ∈ t, x ∉ o.names ∧ (partition x).1 ∉ o.names) (ns : NS) : parse e t argv ≠ .ok ns := by
  intro h
  have hne' : x ≠ ['-', '-'] := by rintro rfl; simp at hl
  obtain ⟨r, hr, _⟩ := parse_word hab (by simp [hd, Ne.symm hne']) h
  have h1 : find t x = none := find_none fun o ho => (hno o ho).1
  have h2 : find t (partition x).1 = none := find_none fun o ho => (hno o ho).2
  obtain ⟨p, q, l, h3⟩ := two_of_filter (p := fun p : Opt × Str => (partition x).1.isPrefixOf p.2)
    (mem_allNames.2 ⟨ho1, hn1⟩) (mem_allNames.2 ⟨ho2, hn2⟩) (by simp [hne]) (by simpa using hp1) (by simpa using hp2)
  have h4 : optionTuples t x = ((p :: q :: l).map fun p =>
      ⟨some p.1, p.2, (partition x).2.isSome, (partition x).2⟩) := by
    unfold optionTuples
    rw [if_pos hx, h3]
  obtain ⟨y, rfl⟩ := head_take hx
  unfold parseOptional at hr
  rw [h1, h2, h4] at hr
  simp at hr

theorem parse_flag_argument (h : WF t) {argv a b : List Str} {p v : Str} {o : Opt} (hl : Long t p o)
    (ht : o.kind.takes = false) (hab : argv = a ++ (p ++ '=' :: v) :: b) (hd : ['-', '-'] ∉ a) (ns : NS) :
    parse e t argv ≠ .ok ns := by
  intro hp
  obtain ⟨n, hn, _, _, hw⟩ := long_word (e := e) h hl
  obtain ⟨r, hr, hm⟩ := parse_word hab (by simp [hd, Ne.symm (hw v).1]) hp
  rw [(hw v).2] at hr
  injection hr with hr
  obtain ⟨f, hf, _⟩ := hm _ hr.symm
  simp [consume, hn, ht] at hf

/-- letters of flags, and then a letter that is not an option -/
inductive BadLetters (t : List Opt) : Str → Prop
  | last {c o d s} : Short t c o → o.kind.takes = false → (∀ o ∈ t, ['-', d] ∉ o.names) → BadLetters t (c :: d :: s)
  | more {c o s} : Short t c o → o.kind.takes = false → BadLetters t s → BadLetters t (c :: s)

theorem BadLetters.spec (h : WF t) {s : Str} (hb : BadLetters t s) : ∃ c o d s', s = c :: d :: s' ∧ Short t c o ∧
    o.kind.takes = false ∧ (d = '=' ∨ ∀ f, letters t (d :: s') o false = .ok f → f.extras ≠ []) := by
  induction hb with
  | @last c o d s hs ht hd =>
    refine ⟨c, o, d, s, rfl, hs, ht, .inr fun f hf => ?_⟩
    by_cases hdash : d = '-'
    · cases s <;> simp [letters, ht, hdash] at hf
    · cases s <;> simp [letters, ht, hdash, find_none hd] at hf <;> (subst hf; simp)
  | @more c o s hs ht hb ih =>
    obtain ⟨c2, o2, d, s', rfl, hs2, ht2, ih⟩ := ih
    have hc := hs2.ne h
    refine ⟨c, o, c2, d :: s', rfl, hs, ht, .inr fun f hf => ?_⟩
    rw [letters] at hf
    simp only [ht, hc.1, find_some h hs2.1 hs2.2, decide_false, Bool.or_self, Bool.false_eq_true, if_false] at hf
    by_cases hd : d = '='
    · rw [if_pos hd] at hf
      have : ∀ f, letters t s' o2 true ≠ .ok f := by
        intro f
        match s' with
        | [] => simp [letters, ht2]
        | [a] => simp [letters, ht2]
        | a :: b :: r => simp [letters, ht2]
      split at hf
      · cases hf
      · rename_i f' hf'
        exact absurd hf' (this f')
    · rw [if_neg hd] at hf
      split at hf
      · cases hf
      · rename_i f' hf'
        injection hf with hf
        rw [← hf]
        exact (ih.resolve_left hd) f' hf'

theorem parse_letter (h : WF t) {argv a b : List Str} {s : Str} (hb : BadLetters t s)
    (hab : argv = a ++ ('-' :: s) :: b) (hd : ['-', '-'] ∉ a) (ns : NS) : parse e t argv ≠ .ok ns := by
  intro hp
  obtain ⟨c, o, d, s', rfl, hs, ht, hh⟩ := hb.spec h
  have hc := hs.ne h
  obtain ⟨r, hr, hm⟩ := parse_word hab (by
    simp only [List.mem_append, List.mem_singleton, hd, false_or]
    intro h'; injection h' with _ h'; injection h' with _ h'; cases h') hp
  by_cases hde : d = '='
  · subst hde
    rw [short_equals h hs] at hr
    injection hr with hr
    obtain ⟨f, hf, _⟩ := hm _ hr.symm
    have : ∀ f, letters t s' o true ≠ .ok f := by
      intro f
      match s' with
      | [] => simp [letters, ht]
      | [a] => simp [letters, ht]
      | a :: b :: r => simp [letters, ht]
    simp only [consume] at hf
    rw [if_neg (by simp [hc.1])] at hf
    exact this f hf
  · rw [short_attached h hs hde] at hr
    injection hr with hr
    obtain ⟨f, hf, hx⟩ := hm _ hr.symm
    simp only [consume] at hf
    rw [if_neg (by simp [hc.1])] at hf
    exact (hh.resolve_left hde) f hf hx

theorem Line.no_dashes (h : WF t) {us : List Use} {ss : List Str} (hl : Line t us ss) : ['-', '-'] ∉ ss := by
  induction hl with
  | nil => simp
  | cons hw _ ih =>
    obtain ⟨s, hit, f, hne, _, _, _, hh⟩ := hw.word h ⟨fun _ => false, fun _ => none⟩
    have hpl := fun (v : Str) (hv : Plain v) => (plain_word (e := ⟨fun _ => false, fun _ => none⟩) h hv).1
    rcases hh with ⟨rfl, _⟩ | ⟨o, rfl, _⟩ | ⟨o, v, rfl, hv, _⟩
    · simp [ih, Ne.symm hne]
    · simp [ih, Ne.symm hne]
    · simp [ih, Ne.symm hne, Ne.symm (hpl v hv)]

theorem parse_second (h : WF t) {us1 us2 : List Use} {a1 a2 ts1 ts2 b : List Str} (h1 : Line t us1 a1) (h2 : Line t us2 a2)
    (hp1 : ∀ x ∈ ts1, Plain x) (hp2 : ∀ x ∈ ts2, Plain x) (hv : ∀ u ∈ us1 ++ us2, Valid e u) (hne1 : ts1 ≠ [])
    (hne2 : ts2 ≠ []) (hne : a2 ≠ []) (ns : NS) : parse e t (a1 ++ (ts1 ++ (a2 ++ (ts2 ++ b)))) ≠ .ok ns := by
  intro hp
  unfold parse at hp
  obtain ⟨toks, _, hc, k, hk, hs⟩ := h1.step h (fun u hu => hv u (List.mem_append_left _ hu))
  obtain ⟨toks', hh, hc', k', hk', hs'⟩ := h2.step h (fun u hu => hv u (List.mem_append_right _ hu))
  obtain ⟨ns1, _, ht, hl⟩ := hs [] (start t) (start_tracks h)
  obtain ⟨ns2, hns2, ht2, hl2⟩ := hs' us1 { ns1 with targets := ts1 } ht
  have hne' : toks' ≠ [] := by
    rintro rfl
    have h0 := hc' [] [] rfl
    cases a2 with
    | nil => exact hne rfl
    | cons x a2 =>
      rw [List.append_nil, classify] at h0
      split at h0
      · simp at h0
      · split at h0
        · cases h0
        · split at h0
          · cases h0
          · simp at h0
  have hh := hh.resolve_left hne'
  cases hb : classify e t b with
  | error x =>
    have ha : ∀ l : List Str, ∀ r, classify e t (l ++ b) = .ok r → ['-', '-'] ∉ l → False := by
      intro l
      induction l with
      | nil => intro r hr _; rw [List.nil_append, hb] at hr; cases hr
      | cons y l ih =>
        intro r hr hn
        rw [List.cons_append, classify, if_neg (fun h' => hn (by simp [h']))] at hr
        split at hr
        · cases hr
        · split at hr
          · cases hr
          · rename_i r' hr'
            exact ih r' hr' (fun h' => hn (List.mem_cons_of_mem _ h'))
    have hd1 := h1.no_dashes h
    have hd2 := h2.no_dashes h
    have hd3 := fun h' : ['-', '-'] ∈ ts1 => (plain_word (e := e) h (hp1 _ h')).1 rfl
    have hd4 := fun h' : ['-', '-'] ∈ ts2 => (plain_word (e := e) h (hp2 _ h')).1 rfl
    split at hp
    · cases hp
    · rename_i r hr
      have : a1 ++ (ts1 ++ (a2 ++ (ts2 ++ b))) = (a1 ++ ts1 ++ a2 ++ ts2) ++ b := by simp
      rw [this] at hr
      exact ha _ r hr (by simp only [List.mem_append, not_or]; exact ⟨⟨⟨hd1, hd3⟩, hd2⟩, hd4⟩)
  | ok r =>
    rw [hc _ _ (classify_args h hp1 (hc' _ _ (classify_args h hp2 hb)))] at hp
    simp only at hp
    have hpos1 := List.length_pos_iff.2 hne1
    have hpos2 := List.length_pos_iff.2 hne2
    simp only [List.length_append, List.length_map] at hp
    obtain ⟨m, hm⟩ : ∃ m, toks.length + (ts1.length + (toks'.length + (ts2.length + r.length))) + 1 = m + 1 + k' + 1 + k :=
      ⟨toks.length + (ts1.length + (toks'.length + (ts2.length + r.length))) - (k' + k + 1), by omega⟩
    rw [hm] at hp
    have hp := (hl _ _ _ _).symm.trans hp
    rw [loop_args hne1 hp1 (hh _)] at hp
    rw [hl2] at hp
    match ts2, hne2 with
    | x :: ts2, _ =>
      unfold loop at hp
      split at hp
      · simp only [List.map_cons, List.cons_append] at hp
        rw [if_pos trivial] at hp
        have := (loop_extras hp).1
        simp [Tok.isOpt] at this
      · simp at hp

end Verif.Options
