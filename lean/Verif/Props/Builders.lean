import Verif.Builders.Core
/-!
# Version checks and the search for programs: properties

C49 and C50.
-/
namespace Verif.Builders

/-! ## C49 -/

/-- The order of version numbers: the first number that differs decides; a version that goes on is later. -/
inductive Earlier : List Int → List Int → Prop
  | more (n : Int) (ns : List Int) : Earlier [] (n :: ns)
  | head {a b : Int} (as bs : List Int) : a < b → Earlier (a :: as) (b :: bs)
  | tail (a : Int) {as bs : List Int} : Earlier as bs → Earlier (a :: as) (a :: bs)

theorem tupleLt_iff (less : Text → Text → Bool) (as bs : List Int) :
    ∃ t, tupleLt less (as.map .num) (bs.map .num) = some t ∧ (t = true ↔ Earlier as bs) := by
  induction as generalizing bs with
  | nil =>
    cases bs with
    | nil => exact ⟨false, rfl, by simp; intro h; cases h⟩
    | cons b bs => exact ⟨true, rfl, by simp; exact .more _ _⟩
  | cons a as ih =>
    cases bs with
    | nil => exact ⟨false, rfl, by simp; intro h; cases h⟩
    | cons b bs =>
      simp only [List.map_cons, tupleLt, Part.num.injEq]
      by_cases hab : a = b
      · subst hab
        simp only [if_true]
        obtain ⟨t, h1, h2⟩ := ih bs
        refine ⟨t, h1, h2.trans ⟨.tail a, ?_⟩⟩
        intro h
        cases h with
        | head _ _ h => exact absurd h (Int.lt_irrefl _)
        | tail _ h => exact h
      · simp only [hab, if_false, Part.lt]
        refine ⟨_, rfl, ?_⟩
        simp only [decide_eq_true_eq]
        constructor
        · exact .head _ _
        · intro h
          cases h with
          | head _ _ h => exact h
          | tail _ h => exact absurd rfl hab

theorem map_num_inj {as bs : List Int} (h : as.map Part.num = bs.map Part.num) : as = bs := by
  induction as generalizing bs with
  | nil => cases bs <;> simp_all
  | cons a as ih =>
    cases bs with
    | nil => simp at h
    | cons b bs =>
      simp only [List.map_cons, List.cons.injEq, Part.num.injEq] at h
      rw [h.1, ih h.2]

/-- the parts of a version with dots between them -/
def dotted : List Text → Text
  | [] => []
  | [p] => p
  | p :: q :: ps => p ++ '.' :: dotted (q :: ps)

theorem splitDot_plain (p : Text) (h : '.' ∉ p) : splitDot p = [p] := by
  induction p with
  | nil => rfl
  | cons c p ih =>
    simp only [List.mem_cons, not_or] at h
    simp [splitDot, Ne.symm h.1, ih h.2]

theorem splitDot_dot (p : Text) (h : '.' ∉ p) (s : Text) : splitDot (p ++ '.' :: s) = p :: splitDot s := by
  induction p with
  | nil => simp [splitDot]
  | cons c p ih =>
    simp only [List.mem_cons, not_or] at h
    simp [splitDot, Ne.symm h.1, ih h.2]

theorem splitDot_dotted (ps : List Text) (hne : ps ≠ []) (h : ∀ p ∈ ps, '.' ∉ p) : splitDot (dotted ps) = ps := by
  match ps, hne, h with
  | [p], _, h => exact splitDot_plain p (h p (.head _))
  | p :: q :: ps, _, h =>
    rw [dotted, splitDot_dot p (h p (.head _)),
      splitDot_dotted (q :: ps) (by simp) (fun x hx => h x (.tail _ hx))]

/-- **C49**: `check_version` succeeds exactly when the version equals, is at least and is at most the required ones, and
raises `ConfigFailed` otherwise.  Partial: all parts of the version and of the required versions are numbers. -/
theorem C49_partial (int : Text → Option Int) (less : Text → Text → Bool) (ps : List Text) (v : List Int)
    (hne : ps ≠ []) (hdot : ∀ p ∈ ps, '.' ∉ p) (hv : ps.map int = v.map some) (exactly atLeast atMost : Option (List Int)) (o : Outcome)
    (ho : o = checkVersion int less ⟨exactly.map (·.map .num), atLeast.map (·.map .num), atMost.map (·.map .num)⟩ (dotted ps)) :
    (o = .ok ↔ (∀ r, exactly = some r → v = r) ∧ (∀ r, atLeast = some r → ¬ Earlier v r) ∧
      (∀ r, atMost = some r → ¬ Earlier r v)) ∧
    (o ≠ .ok → o = .configFailed) := by
  have hver : version int (dotted ps) = v.map .num := by
    unfold version
    rw [splitDot_dotted ps hne hdot]
    clear ho hne hdot
    induction ps generalizing v with
    | nil =>
      cases v with
      | nil => rfl
      | cons x v => simp at hv
    | cons p ps ih =>
      cases v with
      | nil => simp at hv
      | cons x v =>
        simp only [List.map_cons, List.cons.injEq] at hv ⊢
        exact ⟨by rw [hv.1], ih v hv.2⟩
  subst ho
  unfold checkVersion
  rw [hver]
  split
  · rename_i hnone
    simp only [Bool.and_eq_true, Option.isNone_iff_eq_none, Option.map_eq_none_iff] at hnone
    obtain ⟨⟨rfl, rfl⟩, rfl⟩ := hnone
    simp
  · -- each of the three tests
    have h1 : (refuse ((exactly.map (·.map Part.num)).map (fun x => some (decide (x ≠ v.map .num)))) = .ok ∧
          ∀ r, exactly = some r → v = r) ∨
        (refuse ((exactly.map (·.map Part.num)).map (fun x => some (decide (x ≠ v.map .num)))) = .configFailed ∧
          ¬ ∀ r, exactly = some r → v = r) := by
      cases exactly with
      | none => exact .inl ⟨rfl, by simp⟩
      | some r =>
        by_cases hr : r = v
        · subst hr
          exact .inl ⟨by simp [refuse], by simp⟩
        · right
          constructor
          · have : r.map Part.num ≠ v.map Part.num := fun e => hr (map_num_inj e)
            simp [refuse, this]
          · intro h; exact hr (h r rfl).symm
    have h2 : (refuse ((atLeast.map (·.map Part.num)).map (fun x => tupleLt less (v.map .num) x)) = .ok ∧
          ∀ r, atLeast = some r → ¬ Earlier v r) ∨
        (refuse ((atLeast.map (·.map Part.num)).map (fun x => tupleLt less (v.map .num) x)) = .configFailed ∧
          ¬ ∀ r, atLeast = some r → ¬ Earlier v r) := by
      cases atLeast with
      | none => exact .inl ⟨rfl, by simp⟩
      | some r =>
        obtain ⟨t, e, ht⟩ := tupleLt_iff less v r
        simp only [Option.map_some, e]
        cases t with
        | true => exact .inr ⟨rfl, fun h => h r rfl (ht.mp rfl)⟩
        | false =>
          refine .inl ⟨rfl, ?_⟩
          intro r' hr' h
          simp only [Option.some.injEq] at hr'
          subst hr'
          exact absurd (ht.mpr h) (by simp)
    have h3 : (refuse ((atMost.map (·.map Part.num)).map (fun x => tupleLt less x (v.map .num))) = .ok ∧
          ∀ r, atMost = some r → ¬ Earlier r v) ∨
        (refuse ((atMost.map (·.map Part.num)).map (fun x => tupleLt less x (v.map .num))) = .configFailed ∧
          ¬ ∀ r, atMost = some r → ¬ Earlier r v) := by
      cases atMost with
      | none => exact .inl ⟨rfl, by simp⟩
      | some r =>
        obtain ⟨t, e, ht⟩ := tupleLt_iff less r v
        simp only [Option.map_some, e]
        cases t with
        | true => exact .inr ⟨rfl, fun h => h r rfl (ht.mp rfl)⟩
        | false =>
          refine .inl ⟨rfl, ?_⟩
          intro r' hr' h
          simp only [Option.some.injEq] at hr'
          subst hr'
          exact absurd (ht.mpr h) (by simp)
    rcases h1 with ⟨e1, p1⟩ | ⟨e1, p1⟩
    · rcases h2 with ⟨e2, p2⟩ | ⟨e2, p2⟩
      · rcases h3 with ⟨e3, p3⟩ | ⟨e3, p3⟩
        · simp only [e1, e2, e3]
          exact ⟨⟨fun _ => ⟨p1, p2, p3⟩, fun _ => trivial⟩, fun h => absurd rfl h⟩
        · simp only [e1, e2, e3]
          exact ⟨⟨by simp, fun h => absurd h.2.2 p3⟩, fun _ => trivial⟩
      · simp only [e1, e2]
        exact ⟨⟨by simp, fun h => absurd h.2.1 p2⟩, fun _ => trivial⟩
    · simp only [e1]
      exact ⟨⟨by simp, fun h => absurd h.1 p1⟩, fun _ => trivial⟩

/-! ### Versions with words in them -/

/-- The order of versions of numbers and words: the first part that differs decides; a version that goes on is later. -/
inductive Before (less : Text → Text → Bool) : List Part → List Part → Prop
  | more (p : Part) (ps : List Part) : Before less [] (p :: ps)
  | num {a b : Int} (as bs : List Part) : a < b → Before less (.num a :: as) (.num b :: bs)
  | text {a b : Text} (as bs : List Part) : a ≠ b → less a b = true → Before less (.text a :: as) (.text b :: bs)
  | tail (p : Part) {as bs : List Part} : Before less as bs → Before less (p :: as) (p :: bs)

/-- up to the first part that differs, numbers are compared with numbers and words with words -/
inductive Alike : List Part → List Part → Prop
  | left (bs : List Part) : Alike [] bs
  | right (as : List Part) : Alike as []
  | num (a b : Int) (as bs : List Part) : a ≠ b → Alike (.num a :: as) (.num b :: bs)
  | text (a b : Text) (as bs : List Part) : a ≠ b → Alike (.text a :: as) (.text b :: bs)
  | same (p : Part) {as bs : List Part} : Alike as bs → Alike (p :: as) (p :: bs)

/-- the parts of a version: numbers where there are numbers, and words -/
inductive Parts (int : Text → Option Int) : List Text → List Part → Prop
  | nil : Parts int [] []
  | num {p : Text} {n : Int} {ps : List Text} {v : List Part} : int p = some n → Parts int ps v → Parts int (p :: ps) (.num n :: v)
  | text {p : Text} {ps : List Text} {v : List Part} : int p = none → Parts int ps v → Parts int (p :: ps) (.text p :: v)

theorem tupleLt_alike (less : Text → Text → Bool) {as bs : List Part} (h : Alike as bs) :
    ∃ t, tupleLt less as bs = some t ∧ (t = true ↔ Before less as bs) := by
  induction h with
  | left bs =>
    cases bs with
    | nil => exact ⟨false, rfl, by simp; intro h; cases h⟩
    | cons b bs => exact ⟨true, rfl, by simp; exact .more _ _⟩
  | right as =>
    cases as with
    | nil => exact ⟨false, rfl, by simp; intro h; cases h⟩
    | cons b bs => exact ⟨false, rfl, by simp; intro h; cases h⟩
  | num a b as bs hab =>
    refine ⟨decide (a < b), by simp [tupleLt, hab, Part.lt], ?_⟩
    rw [decide_eq_true_eq]
    refine ⟨.num _ _, fun h => ?_⟩
    cases h with
    | num _ _ h => exact h
    | tail _ _ => exact absurd rfl hab
  | text a b as bs hab =>
    refine ⟨less a b, by simp [tupleLt, hab, Part.lt], ?_⟩
    refine ⟨.text _ _ hab, fun h => ?_⟩
    cases h with
    | text _ _ _ h => exact h
    | tail _ _ => exact absurd rfl hab
  | same p _ ih =>
    obtain ⟨t, h1, h2⟩ := ih
    refine ⟨t, by simp [tupleLt, h1], h2.trans ⟨.tail p, fun h => ?_⟩⟩
    cases h with
    | num _ _ h => exact absurd h (Int.lt_irrefl _)
    | text _ _ h _ => exact absurd rfl h
    | tail _ h => exact h

/-- **C49**, with words in the versions: `check_version` succeeds exactly when the version equals, is at least and is at most the
required ones, and raises `ConfigFailed` otherwise.  Partial: a number is never compared with a word (`C49_text_violated`). -/
theorem C49_words_partial (int : Text → Option Int) (less : Text → Text → Bool) (ps : List Text) (v : List Part)
    (hne : ps ≠ []) (hdot : ∀ p ∈ ps, '.' ∉ p) (hv : Parts int ps v) (exactly atLeast atMost : Option (List Part))
    (ha : ∀ r, atLeast = some r → Alike v r) (hb : ∀ r, atMost = some r → Alike r v) (o : Outcome)
    (ho : o = checkVersion int less ⟨exactly, atLeast, atMost⟩ (dotted ps)) :
    (o = .ok ↔ (∀ r, exactly = some r → v = r) ∧ (∀ r, atLeast = some r → ¬ Before less v r) ∧
      (∀ r, atMost = some r → ¬ Before less r v)) ∧
    (o ≠ .ok → o = .configFailed) := by
  have hver : version int (dotted ps) = v := by
    unfold version
    rw [splitDot_dotted ps hne hdot]
    clear ho hne hdot ha hb
    induction hv with
    | nil => rfl
    | num h _ ih => rw [List.map_cons, ih]; simp only [h]
    | text h _ ih => rw [List.map_cons, ih]; simp only [h]
  subst ho
  unfold checkVersion
  rw [hver]
  split
  · rename_i hnone
    simp only [Bool.and_eq_true, Option.isNone_iff_eq_none] at hnone
    obtain ⟨⟨rfl, rfl⟩, rfl⟩ := hnone
    simp
  · have h1 : (refuse (exactly.map (fun x => some (decide (x ≠ v)))) = .ok ∧ ∀ r, exactly = some r → v = r) ∨
        (refuse (exactly.map (fun x => some (decide (x ≠ v)))) = .configFailed ∧ ¬ ∀ r, exactly = some r → v = r) := by
      cases exactly with
      | none => exact .inl ⟨rfl, by simp⟩
      | some r =>
        by_cases hr : r = v
        · subst hr
          exact .inl ⟨by simp [refuse], by simp⟩
        · exact .inr ⟨by simp [refuse, hr], fun h => hr (h r rfl).symm⟩
    have test : ∀ (req : Option (List Part)) (f g : List Part → List Part) (_ : ∀ r, req = some r → Alike (f r) (g r)),
        (refuse (req.map (fun x => tupleLt less (f x) (g x))) = .ok ∧ ∀ r, req = some r → ¬ Before less (f r) (g r)) ∨
        (refuse (req.map (fun x => tupleLt less (f x) (g x))) = .configFailed ∧
          ¬ ∀ r, req = some r → ¬ Before less (f r) (g r)) := by
      intro req f g hreq
      cases req with
      | none => exact .inl ⟨rfl, by simp⟩
      | some r =>
        obtain ⟨t, e, ht⟩ := tupleLt_alike less (hreq r rfl)
        simp only [Option.map_some, e]
        cases t with
        | true => exact .inr ⟨rfl, fun h => h r rfl (ht.mp rfl)⟩
        | false =>
          refine .inl ⟨rfl, ?_⟩
          intro r' hr' h
          simp only [Option.some.injEq] at hr'
          subst hr'
          exact absurd (ht.mpr h) (by simp)
    have h2 := test atLeast (fun _ => v) id ha
    have h3 := test atMost id (fun _ => v) hb
    simp only [id_eq] at h2 h3
    rcases h1 with ⟨e1, p1⟩ | ⟨e1, p1⟩
    · rcases h2 with ⟨e2, p2⟩ | ⟨e2, p2⟩
      · rcases h3 with ⟨e3, p3⟩ | ⟨e3, p3⟩
        · simp only [e1, e2, e3]
          exact ⟨⟨fun _ => ⟨p1, p2, p3⟩, fun _ => trivial⟩, fun h => absurd rfl h⟩
        · simp only [e1, e2, e3]
          exact ⟨⟨by simp, fun h => absurd h.2.2 p3⟩, fun _ => trivial⟩
      · simp only [e1, e2]
        exact ⟨⟨by simp, fun h => absurd h.2.1 p2⟩, fun _ => trivial⟩
    · simp only [e1]
      exact ⟨⟨by simp, fun h => absurd h.1 p1⟩, fun _ => trivial⟩

/-- `int` on texts of digits -/
def exInt (s : Text) : Option Int :=
  if s ≠ [] ∧ s.all (fun c => '0' ≤ c ∧ c ≤ '9') then
    some (s.foldl (fun n c => 10 * n + ((c.toNat : Int) - 48)) 0)
  else none

def exLess (_ _ : Text) : Bool := false

example : checkVersion exInt exLess ⟨none, some [.num 4, .num 9], some [.num 5]⟩ "4.10.2".toList = .ok := by decide

example : checkVersion exInt exLess ⟨none, some [.num 4, .num 9], none⟩ "4.10".toList = .ok :=
  ((C49_partial exInt exLess ["4".toList, "10".toList] [4, 10] (by decide) (by decide) (by decide) none (some [4, 9]) none _ rfl).1).mpr
    ⟨by simp, by
      intro r hr h
      simp only [Option.some.injEq] at hr
      subst hr
      cases h with
      | head _ _ h => exact absurd h (by decide)
      | tail _ h =>
        cases h with
        | head _ _ h => exact absurd h (by decide), by simp⟩

/-- `C49_words_partial`: 4.rc2 is at least 4.rc1 -/
example : Parts exInt ["4".toList, "rc2".toList] [.num 4, .text "rc2".toList] ∧
    Alike [.num 4, .text "rc2".toList] [.num 4, .text "rc1".toList] ∧
    checkVersion exInt (fun a b => a = "rc1".toList ∧ b = "rc2".toList) ⟨none, some [.num 4, .text "rc1".toList], none⟩ "4.rc2".toList = .ok ∧
    checkVersion exInt (fun a b => a = "rc1".toList ∧ b = "rc2".toList) ⟨none, some [.num 4, .text "rc2".toList], none⟩ "4.rc1".toList =
      .configFailed :=
  ⟨.num (by decide +kernel) (.text (by decide +kernel) .nil), .same _ (.text _ _ _ _ (by decide +kernel)), by decide +kernel, by decide +kernel⟩

/-- **C49** fails if a part of the version is no number: version 4.8.rc1 and at least 4.8.0 give a `TypeError`. -/
theorem C49_text_violated :
    checkVersion exInt exLess ⟨none, some [.num 4, .num 8, .num 0], none⟩ "4.8.rc1".toList = .typeError := by decide

/-! ## C50 -/

/-- The candidates in the order asked for: names in order, for each name the search directories in order. -/
def candidates (join : Text → Text → Text) (names paths : List Text) : List Text :=
  names.flatMap (fun n => paths.map (fun p => join p n))

/-- The candidates `find_program` tries: for each name first the name itself. -/
def tried (join : Text → Text → Text) (names paths : List Text) : List Text :=
  names.flatMap (fun n => n :: paths.map (fun p => join p n))

theorem inPaths_eq (isFile : Text → Bool) (join : Text → Text → Text) (n : Text) (paths : List Text) :
    inPaths isFile join n paths = (paths.map (fun p => join p n)).find? isFile := by
  induction paths with
  | nil => rfl
  | cons p ps ih =>
    simp only [inPaths, List.map_cons, List.find?_cons]
    cases isFile (join p n) <;> simp [ih]

theorem search_eq (isFile : Text → Bool) (join : Text → Text → Text) (names paths : List Text) :
    search isFile join paths names = (tried join names paths).find? isFile := by
  induction names with
  | nil => rfl
  | cons n ns ih =>
    simp only [search, tried, List.flatMap_cons, List.cons_append, List.find?_cons, inPaths_eq]
    cases isFile n with
    | true => simp
    | false =>
      simp only [Bool.false_eq_true, if_false, List.find?_append]
      cases (paths.map (fun p => join p n)).find? isFile with
      | some f => simp
      | none =>
        simp only [Option.none_or]
        exact ih

/-- **C50**: what `find_program` returns is a file, and all candidates before it (names in order, for each name the name
itself and then the search directories in order) are no files; it raises `MissingProgram` only if no candidate is a
file. -/
theorem C50_tried (isFile : Text → Bool) (join : Text → Text → Text) (names paths : List Text) :
    (∀ f, findProgram false isFile join names paths = some f → isFile f = true ∧
      ∃ before after, tried join names paths = before ++ f :: after ∧ ∀ g ∈ before, isFile g = false) ∧
    (findProgram false isFile join names paths = none → ∀ g ∈ tried join names paths, isFile g = false) := by
  unfold findProgram
  simp only [Bool.false_eq_true, if_false, search_eq]
  constructor
  · intro f hf
    rw [List.find?_eq_some_iff_append] at hf
    obtain ⟨h1, as, bs, h2, h3⟩ := hf
    exact ⟨h1, as, bs, h2, fun g hg => by simpa using h3 g hg⟩
  · intro hn g hg
    have := List.find?_eq_none.mp hn g hg
    simpa using this

theorem find_skip (isFile : Text → Bool) (join : Text → Text → Text) (names paths : List Text)
    (h : ∀ n ∈ names, isFile n = false) :
    (tried join names paths).find? isFile = (candidates join names paths).find? isFile := by
  induction names with
  | nil => rfl
  | cons n ns ih =>
    simp only [tried, candidates, List.flatMap_cons, List.cons_append, List.find?_cons, h n (.head _),
      List.find?_append]
    rw [show (ns.flatMap fun n => n :: paths.map fun p => join p n).find? isFile =
      (ns.flatMap fun n => paths.map fun p => join p n).find? isFile from ih (fun m hm => h m (.tail _ hm))]

/-- **C50**: `find_program` returns the first name that exists in some search directory, and there the first directory.
Partial: no name is itself the name of a file (absolute, or in the current directory), and the system is not
Windows. -/
theorem C50_partial (isFile : Text → Bool) (join : Text → Text → Text) (names paths : List Text)
    (h : ∀ n ∈ names, isFile n = false) :
    (∀ f, findProgram false isFile join names paths = some f → isFile f = true ∧
      ∃ before after, candidates join names paths = before ++ f :: after ∧ ∀ g ∈ before, isFile g = false) ∧
    (findProgram false isFile join names paths = none → ∀ g ∈ candidates join names paths, isFile g = false) := by
  unfold findProgram
  simp only [Bool.false_eq_true, if_false, search_eq]
  rw [find_skip isFile join names paths h]
  constructor
  · intro f hf
    rw [List.find?_eq_some_iff_append] at hf
    obtain ⟨h1, as, bs, h2, h3⟩ := hf
    exact ⟨h1, as, bs, h2, fun g hg => by simpa using h3 g hg⟩
  · intro hn g hg
    have := List.find?_eq_none.mp hn g hg
    simpa using this

def exJoin (p n : Text) : Text := p ++ '/' :: n

example : findProgram false (fun f => f = "/b/cc".toList) exJoin ["gcc".toList, "cc".toList] ["/a".toList, "/b".toList] =
    some "/b/cc".toList ∧ (∀ n ∈ ["gcc".toList, "cc".toList], decide (n = "/b/cc".toList) = false) := by
  constructor
  · rfl
  · decide

/-- **C50** fails if the current directory has a file of that name: it is taken although it is in no search
directory. -/
theorem C50_current_violated :
    ∃ isFile f, findProgram false isFile exJoin ["gcc".toList] ["/usr/bin".toList] = some f ∧
      isFile "/usr/bin/gcc".toList = true ∧ f ∉ candidates exJoin ["gcc".toList] ["/usr/bin".toList] :=
  ⟨fun f => f = "gcc".toList || f = "/usr/bin/gcc".toList, "gcc".toList, rfl, rfl, by decide⟩

/-- **C50** on Windows: also for a name that has a suffix other suffixes are tried before the name. -/
theorem C50_windows_violated :
    ∃ isFile, findProgram true isFile exJoin ["cl.exe".toList] ["bin".toList] = some "bin/cl.exe.exe".toList ∧
      isFile "bin/cl.exe".toList = true :=
  ⟨fun f => f = "bin/cl.exe".toList || f = "bin/cl.exe.exe".toList, rfl, rfl⟩

/-- the names that Windows may give to a program -/
def winSuffixes : List Text := [".exe".toList, ".cmd".toList, ".bat".toList, []]

theorem winNames_mem (names : List Text) (m : Text) :
    m ∈ winNames names ↔ ∃ n ∈ names, ∃ suf ∈ winSuffixes, m = n ++ suf := by
  induction names with
  | nil => simp [winNames]
  | cons n ns ih =>
    simp only [winNames, List.mem_cons, ih, winSuffixes, List.not_mem_nil, or_false]
    constructor
    · rintro (h | h | h | h | ⟨n', h1, h2⟩)
      · exact ⟨n, .inl rfl, _, .inl rfl, h⟩
      · exact ⟨n, .inl rfl, _, .inr (.inl rfl), h⟩
      · exact ⟨n, .inl rfl, _, .inr (.inr (.inl rfl)), h⟩
      · exact ⟨n, .inl rfl, _, .inr (.inr (.inr rfl)), by simpa using h⟩
      · exact ⟨n', .inr h1, h2⟩
    · rintro ⟨n', rfl | h1, suf, h2, h3⟩
      · rcases h2 with rfl | rfl | rfl | rfl
        · exact .inl h3
        · exact .inr (.inl h3)
        · exact .inr (.inr (.inl h3))
        · exact .inr (.inr (.inr (.inl (by simpa using h3))))
      · exact .inr (.inr (.inr (.inr ⟨n', h1, suf, h2, h3⟩)))

/-- **C50** on Windows: what is returned is a file and one of the names, possibly with one of the suffixes, itself or in
one of the directories; `MissingProgram` is raised only if none of these is a file. -/
theorem C50_windows_partial (isFile : Text → Bool) (join : Text → Text → Text) (names paths : List Text) :
    (∀ f, findProgram true isFile join names paths = some f → isFile f = true ∧
      ∃ n ∈ names, ∃ suf ∈ winSuffixes, f = n ++ suf ∨ ∃ p ∈ paths, f = join p (n ++ suf)) ∧
    (findProgram true isFile join names paths = none → ∀ n ∈ names, ∀ suf ∈ winSuffixes,
      isFile (n ++ suf) = false ∧ ∀ p ∈ paths, isFile (join p (n ++ suf)) = false) := by
  unfold findProgram
  simp only [if_true, search_eq]
  have hmem : ∀ g, g ∈ tried join (winNames names) paths ↔
      ∃ n ∈ names, ∃ suf ∈ winSuffixes, g = n ++ suf ∨ ∃ p ∈ paths, g = join p (n ++ suf) := by
    intro g
    simp only [tried, List.mem_flatMap, List.mem_cons, List.mem_map, winNames_mem]
    constructor
    · rintro ⟨m, ⟨n, h1, suf, h2, rfl⟩, h | ⟨p, h3, rfl⟩⟩
      · exact ⟨n, h1, suf, h2, .inl h⟩
      · exact ⟨n, h1, suf, h2, .inr ⟨p, h3, rfl⟩⟩
    · rintro ⟨n, h1, suf, h2, h | ⟨p, h3, rfl⟩⟩
      · exact ⟨_, ⟨n, h1, suf, h2, rfl⟩, .inl h⟩
      · exact ⟨_, ⟨n, h1, suf, h2, rfl⟩, .inr ⟨p, h3, rfl⟩⟩
  constructor
  · intro f hf
    exact ⟨by simpa using List.find?_some hf, (hmem f).1 (List.mem_of_find?_eq_some hf)⟩
  · intro hn n h1 suf h2
    have hall := List.find?_eq_none.1 hn
    refine ⟨by simpa using hall _ ((hmem _).2 ⟨n, h1, suf, h2, .inl rfl⟩), fun p hp => ?_⟩
    simpa using hall _ ((hmem _).2 ⟨n, h1, suf, h2, .inr ⟨p, hp, rfl⟩⟩)

example : findProgram true (fun f => f = "bin/cl".toList) exJoin ["cl".toList] ["bin".toList] = some "bin/cl".toList := rfl

end Verif.Builders
