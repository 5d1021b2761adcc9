import Verif.Calls.Clean
/-! Runs without a database: independence of fuel and of the texts of other functions, what stays unchanged. -/
namespace Verif.Calls
open Verif.DB
set_option linter.unusedSectionVars false

variable {B R : Type} {ρ : Layout B} {sg : Sig B R} {script : Script B R}

theorem cleanProg_congr {callC callC' : FunName → B → Files → Option R × Files} {callT callT' : FunName → B → Files → Trail}
    {f : FunName} {b : B} (h : ∀ g, (ρ.lib g).isSome → ρ.rank g < ρ.rank f → ∀ c fs, callC g c fs = callC' g c fs)
    (ht : ∀ g, ρ.leaf g → ρ.rank g < ρ.rank f → ∀ c fs, callT g c fs = callT' g c fs) (p : Prog B R)
    (hb : ρ.Body f b p) (fs : Files) :
    cleanProg callC p fs = cleanProg callC' p fs ∧ trail callC callT p fs = trail callC' callT' p fs := by
  induction p generalizing fs with
  | ret r => exact ⟨rfl, rfl⟩
  | raise => exact ⟨rfl, rfl⟩
  | callD d g c k ih =>
    obtain ⟨h1, h2, h3, _, h5⟩ := hb
    simp only [cleanProg, trail]
    rw [h g h1 h2 c fs]
    obtain ⟨k1, k2⟩ := ih (callC' g c fs).1 (h5 _) (callC' g c fs).2
    refine ⟨k1, ?_⟩
    cases d with
    | true => simp only [if_true]; rw [ht g (h3.1 rfl) h2 c fs, k2]
    | false => exact k2
  | report srcs dsts k ih =>
    obtain ⟨h1, h2⟩ := ih hb.2 fs
    simp only [cleanProg, trail]
    rw [h1, h2]
    exact ⟨rfl, rfl⟩
  | read x k ih => exact ih _ (hb _) fs
  | write x c k ih =>
    obtain ⟨h1, h2⟩ := ih hb.2.2 (setFile x c fs)
    simp only [cleanProg, trail]
    rw [h1, h2]
    exact ⟨rfl, rfl⟩

theorem Layout.Respects.code {ds : FunName → Option Digest} (h : ρ.Respects ds) {f : FunName} {code : Digest}
    (hc : ds f = some code) : ∀ d, ρ.lib f = some d → code = d := by
  intro d hd
  have := h f d hd
  rw [hc] at this
  exact Option.some.inj this

theorem Layout.Respects.lib {ds ds' : FunName → Option Digest} (h : ρ.Respects ds) (h' : ρ.Respects ds') {g : FunName}
    (hg : (ρ.lib g).isSome) : ds g = ds' g := by
  obtain ⟨d, hd⟩ := Option.isSome_iff_exists.1 hg
  rw [h g d hd, h' g d hd]

/-- a call depends only on the text of its function (and the library), not on the fuel -/
theorem cleanCall_eq (hw : WellBehaved sg script ρ) {ds ds' : FunName → Option Digest} (h : ρ.Respects ds)
    (h' : ρ.Respects ds') {n n' : Nat} {f : FunName} (hn : ρ.rank f < n) (hn' : ρ.rank f < n') (hf : ds f = ds' f) (b : B)
    (fs : Files) : cleanCall sg script ds n f b fs = cleanCall sg script ds' n' f b fs := by
  induction n generalizing n' f b fs with
  | zero => omega
  | succ n ih =>
    cases n' with
    | zero => omega
    | succ n' =>
      unfold cleanCall
      rw [← hf]
      cases hc : ds f with
      | none => rfl
      | some code =>
        simp only
        have := (cleanProg_congr (callC := cleanCall sg script ds n) (callC' := cleanCall sg script ds' n')
          (callT := fun _ _ _ => .none) (callT' := fun _ _ _ => .none)
          (fun g h1 h2 c fs => ih (by omega) (by omega) (h.lib h' h1) c fs) (fun _ _ _ _ _ => rfl) (script f code b)
          (hw.body f code b (h.code hc)) fs).1
        rw [this]

theorem cleanCall_unfold (hw : WellBehaved sg script ρ) {ds : FunName → Option Digest} (h : ρ.Respects ds) {f : FunName}
    {code : Digest} (hc : ds f = some code) (b : B) (fs : Files) :
    cleanCall sg script ds ρ.depth f b fs =
      if (sg.srcs f code b).all (fun x => (fs x).isSome) then
        cleanProg (cleanCall sg script ds ρ.depth) (script f code b) fs
      else (none, fs) := by
  have hr := hw.rank_lt f
  rw [cleanCall_eq hw h h (n' := ρ.depth + 1) hr (by omega) rfl b fs]
  rw [cleanCall, hc]

theorem cleanCall_unknown (hw : WellBehaved sg script ρ) {ds : FunName → Option Digest} {f : FunName}
    (hc : ds f = none) (b : B) (fs : Files) : cleanCall sg script ds ρ.depth f b fs = (none, fs) := by
  have hr := hw.rank_lt f
  obtain ⟨d, hd⟩ : ∃ d, ρ.depth = d + 1 := ⟨ρ.depth - 1, by omega⟩
  rw [hd, cleanCall, hc]

theorem leafTrail_eq (hw : WellBehaved sg script ρ) {ds ds' : FunName → Option Digest} (h : ρ.Respects ds)
    (h' : ρ.Respects ds') {g : FunName} (hg : ρ.leaf g) (c : B) (fs : Files) :
    leafTrail sg script ds (cleanCall sg script ds ρ.depth) g c fs =
      leafTrail sg script ds' (cleanCall sg script ds' ρ.depth) g c fs := by
  obtain ⟨hl, hr⟩ := hw.leaf_lib g hg
  have hd := h.lib h' hl
  unfold leafTrail
  rw [← hd, cleanCall_eq hw h h' (hw.rank_lt g) (hw.rank_lt g) hd c fs]
  cases hc : ds g with
  | none => rfl
  | some code =>
    cases (cleanCall sg script ds' ρ.depth g c fs).1 with
    | none => rfl
    | some r =>
      simp only
      congr 1
      exact (cleanProg_congr (fun g' _ h2 _ _ => by omega) (fun g' _ h2 _ _ => by omega) (script g code c)
        (hw.body g code c (h.code hc)) fs).2

/-- the footprint of a call does not depend on the texts of functions outside the library -/
theorem trail_eq (hw : WellBehaved sg script ρ) {ds ds' : FunName → Option Digest} (h : ρ.Respects ds)
    (h' : ρ.Respects ds') {f : FunName} {code : Digest} (hc : ds f = some code) (b : B) (fs : Files) :
    footprint sg script ds ρ.depth f code b fs = footprint sg script ds' ρ.depth f code b fs :=
  (cleanProg_congr (fun g h1 _ c fs => cleanCall_eq hw h h' (hw.rank_lt g) (hw.rank_lt g) (h.lib h' h1) c fs)
    (fun g h1 _ c fs => leafTrail_eq hw h h' h1 c fs) (script f code b) (hw.body f code b (h.code hc)) fs).2

/-- functions of the library that are not leaves change no file -/
theorem lib_keeps (hw : WellBehaved sg script ρ) {ds : FunName → Option Digest} (h : ρ.Respects ds) (n : Nat) {f : FunName}
    (hf : (ρ.lib f).isSome) (hnl : ¬ ρ.leaf f) (b : B) (fs : Files) : (cleanCall sg script ds n f b fs).2 = fs := by
  induction n generalizing f b fs with
  | zero => rfl
  | succ n ih =>
    rw [cleanCall]
    cases hc : ds f with
    | none => rfl
    | some code =>
      simp only
      split
      · have hb := hw.body f code b (h.code hc)
        generalize script f code b = p at hb
        induction p generalizing fs with
        | ret r => rfl
        | raise => rfl
        | callD d g c k ihk =>
          obtain ⟨h1, h2, h3, h4, h5⟩ := hb
          have hgl : ¬ ρ.leaf g := by
            intro hgl
            have := (h4 (h3.2 hgl)).1
            rw [this] at hf
            cases hf
          simp only [cleanProg]
          rw [ih h1 hgl c fs]
          exact ihk _ fs (by assumption) (h5 _)
        | report srcs dsts k ihk => exact ihk fs (by assumption) hb.2
        | read x k ihk => exact ihk _ fs (by assumption) (hb _)
        | write x c k ihk =>
          rcases hw.pure x f b hb.1 with this | this
          · rw [this] at hf
            cases hf
          · exact absurd this hnl
      · rfl

variable {callC : FunName → B → Files → Option R × Files} {callT : FunName → B → Files → Trail} {f : FunName} {b : B}

/-- what is known about calls of functions whose rank is below `r` -/
structure Frames (ρ : Layout B) (r : Nat) (callC : FunName → B → Files → Option R × Files)
    (callT : FunName → B → Files → Trail) : Prop where
  pure : ∀ g, ρ.rank g < r → (ρ.lib g).isSome → ¬ ρ.leaf g → ∀ c fs, (callC g c fs).2 = fs
  frame : ∀ g, ρ.rank g < r → ρ.leaf g → ∀ c fs x, x ∉ (callT g c fs).writes → (callC g c fs).2 x = fs x
  owner : ∀ g, ρ.rank g < r → ρ.leaf g → ∀ c fs, ∀ x ∈ (callT g c fs).writes, ρ.owner x = some (g, c)
  ok : ∀ g, ρ.rank g < r → ρ.leaf g → ∀ c fs, ∀ x ∈ (callT g c fs).writes, (callC g c fs).1.isSome
  keep : ∀ g, ρ.rank g < r → ρ.leaf g → ∀ c fs x, ρ.keep x → (fs x).isSome → ((callC g c fs).2 x).isSome
  srcs : ∀ g, ρ.rank g < r → ρ.leaf g → ∀ c fs, ∀ x ∈ (callT g c fs).srcs, ρ.keep x ∨ ρ.decl g c x

theorem cleanProg_frame (hl : Frames ρ (ρ.rank f) callC callT) (p : Prog B R) (hb : ρ.Body f b p)
    (fs : Files) {x : FileName} (hx : x ∉ (trail callC callT p fs).writes) : (cleanProg callC p fs).2 x = fs x := by
  induction p generalizing fs with
  | ret r => rfl
  | raise => rfl
  | callD d g c k ih =>
    obtain ⟨h1, h2, h3, h4, h5⟩ := hb
    rw [cleanProg]
    cases d with
    | true =>
      simp only [trail, if_true, Trail.add, List.mem_append, not_or] at hx
      rw [ih _ (h5 _) _ hx.2, hl.frame g h2 (h3.1 rfl) c fs x hx.1]
    | false =>
      simp only [trail, Bool.false_eq_true, if_false] at hx
      rw [ih _ (h5 _) _ hx, hl.pure g h2 h1 (fun hg => by have := h3.2 hg; cases this)]
  | report srcs dsts k ih => exact ih hb.2 fs (by simpa [trail, Trail.add] using hx)
  | read y k ih => exact ih _ (hb _) fs hx
  | write y c k ih =>
    simp only [trail, Trail.add, List.mem_append, List.mem_singleton, not_or] at hx
    rw [cleanProg, ih hb.2.2 _ hx.2, setFile, if_neg hx.1]

theorem trail_owner (hl : Frames ρ (ρ.rank f) callC callT) (p : Prog B R) (hb : ρ.Body f b p) (fs : Files) {x : FileName}
    (hx : x ∈ (trail callC callT p fs).writes) :
    ρ.owner x = some (f, b) ∨ ∃ g c, ρ.leaf g ∧ ρ.rank g < ρ.rank f ∧ ρ.owner x = some (g, c) := by
  induction p generalizing fs with
  | ret r => simp [trail, Trail.none] at hx
  | raise => simp [trail, Trail.none] at hx
  | callD d g c k ih =>
    obtain ⟨h1, h2, h3, h4, h5⟩ := hb
    cases d with
    | true =>
      simp only [trail, if_true, Trail.add, List.mem_append] at hx
      rcases hx with hx | hx
      · exact .inr ⟨g, c, h3.1 rfl, h2, hl.owner g h2 (h3.1 rfl) c fs x hx⟩
      · exact ih _ (h5 _) _ hx
    | false => exact ih _ (h5 _) _ hx
  | report srcs dsts k ih => exact ih hb.2 fs (by simpa [trail, Trail.add] using hx)
  | read y k ih => exact ih _ (hb _) fs hx
  | write y c k ih =>
    simp only [trail, Trail.add, List.mem_append, List.mem_singleton] at hx
    rcases hx with rfl | hx
    · exact .inl hb.1
    · exact ih hb.2.2 _ hx

/-- what a function writes that is not its own was written by a call whose sources it reports -/
theorem trail_leaf {ds : FunName → Option Digest} (hl : Frames ρ (ρ.rank f) callC (leafTrail sg script ds callC))
    {p : Prog B R} (hb : ρ.Body f b p) {fs : Files} {x : FileName}
    (hx : x ∈ (trail callC (leafTrail sg script ds callC) p fs).writes) :
    ρ.owner x = some (f, b) ∨ ∃ g c code, ρ.leaf g ∧ ρ.owner x = some (g, c) ∧
      ∀ y ∈ sg.srcs g code c, y ∈ (trail callC (leafTrail sg script ds callC) p fs).srcs := by
  induction p generalizing fs with
  | ret r => simp [trail, Trail.none] at hx
  | raise => simp [trail, Trail.none] at hx
  | callD d g c k ih =>
    obtain ⟨h1, h2, h3, h4, h5⟩ := hb
    cases d with
    | true =>
      simp only [trail, if_true, Trail.add, List.mem_append] at hx ⊢
      rcases hx with hx | hx
      · right
        have hown := hl.owner g h2 (h3.1 rfl) c fs x hx
        unfold leafTrail at hx ⊢
        split at hx
        · rename_i code r hc hr
          refine ⟨g, c, code, h3.1 rfl, hown, fun y hy => .inl ?_⟩
          exact List.mem_append_left _ hy
        · simp [Trail.none] at hx
      · rcases ih _ (h5 _) hx with h | ⟨g', c', code, hg, h, hs⟩
        · exact .inl h
        · exact .inr ⟨g', c', code, hg, h, fun y hy => .inr (hs y hy)⟩
    | false => exact ih _ (h5 _) hx
  | report srcs dsts k ih =>
    rcases ih hb.2 (fs := fs) (by simpa [trail, Trail.add] using hx) with h | ⟨g', c', code, hg, h, hs⟩
    · exact .inl h
    · exact .inr ⟨g', c', code, hg, h, fun y hy => List.mem_append_right _ (hs y hy)⟩
  | read y k ih => exact ih _ (hb _) hx
  | write y c k ih =>
    simp only [trail, Trail.add, List.mem_append, List.mem_singleton] at hx
    rcases hx with rfl | hx
    · exact .inl hb.1
    · rcases ih hb.2.2 hx with h | ⟨g', c', code, hg, h, hs⟩
      · exact .inl h
      · exact .inr ⟨g', c', code, hg, h, fun y hy => List.mem_append_right _ (hs y hy)⟩

theorem trail_keep (hl : Frames ρ (ρ.rank f) callC callT) (p : Prog B R) (hb : ρ.Body f b p) (fs : Files) {x : FileName}
    (hx : x ∈ (trail callC callT p fs).srcs) : ρ.keep x ∨ ρ.decl f b x := by
  induction p generalizing fs with
  | ret r => simp [trail, Trail.none] at hx
  | raise => simp [trail, Trail.none] at hx
  | callD d g c k ih =>
    obtain ⟨h1, h2, h3, h4, h5⟩ := hb
    cases d with
    | true =>
      simp only [trail, if_true, Trail.add, List.mem_append] at hx
      rcases hx with hx | hx
      · rcases hl.srcs g h2 (h3.1 rfl) c fs x hx with hk | hk
        · exact .inl hk
        · exact (h4 rfl).2 x hk
      · exact ih _ (h5 _) _ hx
    | false => exact ih _ (h5 _) _ hx
  | report srcs dsts k ih =>
    simp only [trail, Trail.add, List.mem_append] at hx
    rcases hx with hx | hx
    · exact (hb.1 x hx).imp id And.right
    · exact ih hb.2 fs hx
  | read y k ih => exact ih _ (hb _) fs hx
  | write y c k ih =>
    simp only [trail, Trail.add, List.nil_append] at hx
    exact ih hb.2.2 _ hx

theorem cleanProg_keep (hl : Frames ρ (ρ.rank f) callC callT) (p : Prog B R) (hb : ρ.Body f b p)
    (fs : Files) {x : FileName} (hx : ρ.keep x) (hs : (fs x).isSome) : ((cleanProg callC p fs).2 x).isSome := by
  induction p generalizing fs with
  | ret r => exact hs
  | raise => exact hs
  | callD d g c k ih =>
    obtain ⟨h1, h2, h3, h4, h5⟩ := hb
    rw [cleanProg]
    refine ih _ (h5 _) _ ?_
    cases d with
    | true => exact hl.keep g h2 (h3.1 rfl) c fs x hx hs
    | false => rw [hl.pure g h2 h1 (fun hg => by have := h3.2 hg; cases this)]; exact hs
  | report srcs dsts k ih => exact ih hb.2 fs hs
  | read y k ih => exact ih _ (hb _) fs hs
  | write y c k ih =>
    rw [cleanProg]
    refine ih hb.2.2 _ ?_
    rw [setFile]
    split
    · rename_i h; subst h; exact hb.2.1 hx
    · exact hs

theorem Frames.zero : Frames ρ 0 callC callT where
  pure _ h := by omega
  frame _ h := by omega
  owner _ h := by omega
  ok _ h := by omega
  keep _ h := by omega
  srcs _ h := by omega

/-- what leaves do -/
theorem clean_frames (hw : WellBehaved sg script ρ) {ds : FunName → Option Digest} (h : ρ.Respects ds) (r : Nat) :
    Frames ρ r (cleanCall sg script ds ρ.depth) (leafTrail sg script ds (cleanCall sg script ds ρ.depth)) := by
  have leaf : ∀ g, ρ.leaf g → ∀ (c : B) code, ds g = some code →
      Frames ρ (ρ.rank g) (cleanCall sg script ds ρ.depth) (fun _ _ _ => Trail.none) ∧ ρ.Body g c (script g code c) := by
    intro g hg c code hc
    rw [(hw.leaf_lib g hg).2]
    exact ⟨Frames.zero, hw.body g code c (h.code hc)⟩
  have own : ∀ g, ρ.leaf g → ∀ (c : B) code, ds g = some code → ∀ fs,
      ∀ x ∈ (trail (cleanCall sg script ds ρ.depth) (fun _ _ _ => Trail.none) (script g code c) fs).writes,
        ρ.owner x = some (g, c) := by
    intro g hg c code hc fs x hx
    obtain ⟨h1, h2⟩ := leaf g hg c code hc
    rcases trail_owner h1 _ h2 fs hx with h3 | ⟨g', c', _, h3, _⟩
    · exact h3
    · rw [(hw.leaf_lib g hg).2] at h3; omega
  have frame : ∀ g, ρ.leaf g → ∀ (c : B) fs x, x ∉ (leafTrail sg script ds (cleanCall sg script ds ρ.depth) g c fs).writes →
      (cleanCall sg script ds ρ.depth g c fs).2 x = fs x := by
    intro g hg c fs x hx
    cases hc : ds g with
    | none => rw [cleanCall_unknown hw hc]
    | some code =>
      obtain ⟨h1, h2⟩ := leaf g hg c code hc
      have hu := cleanCall_unfold hw h hc c fs
      unfold leafTrail at hx
      rw [hc] at hx
      cases ho : (cleanCall sg script ds ρ.depth g c fs).1 with
      | some r =>
        rw [ho] at hx
        simp only [Trail.add, List.nil_append] at hx
        rw [hu]
        split
        · exact cleanProg_frame h1 _ h2 fs hx
        · rfl
      | none =>
        by_cases hown : ρ.owner x = some (g, c)
        · exact hw.atomic ds g c fs _ h (Prod.ext ho rfl) x hown
        · rw [hu]
          split
          · exact cleanProg_frame h1 _ h2 fs fun hx' => hown (own g hg c code hc fs x hx')
          · rfl
  refine ⟨fun g _ hg hn c fs => lib_keeps hw h _ hg hn c fs, fun g _ => frame g, ?_, ?_, ?_, ?_⟩
  · intro g _ hg c fs x hx
    unfold leafTrail at hx
    cases hc : ds g with
    | none => rw [hc] at hx; simp [Trail.none] at hx
    | some code =>
      rw [hc] at hx
      cases ho : (cleanCall sg script ds ρ.depth g c fs).1 with
      | none => rw [ho] at hx; simp [Trail.none] at hx
      | some r =>
        rw [ho] at hx
        simp only [Trail.add, List.nil_append] at hx
        exact own g hg c code hc fs x hx
  · intro g _ hg c fs x hx
    unfold leafTrail at hx
    cases ho : (cleanCall sg script ds ρ.depth g c fs).1 with
    | some r => rfl
    | none =>
      rw [ho] at hx
      cases hc : ds g <;> rw [hc] at hx <;> simp [Trail.none] at hx
  · intro g _ hg c fs x hx hs
    cases hc : ds g with
    | none => rw [cleanCall_unknown hw hc]; exact hs
    | some code =>
      obtain ⟨h1, h2⟩ := leaf g hg c code hc
      rw [cleanCall_unfold hw h hc c fs]
      split
      · exact cleanProg_keep h1 _ h2 fs hx hs
      · exact hs
  · intro g _ hg c fs x hx
    unfold leafTrail at hx
    cases hc : ds g with
    | none => rw [hc] at hx; simp [Trail.none] at hx
    | some code =>
      rw [hc] at hx
      cases ho : (cleanCall sg script ds ρ.depth g c fs).1 with
      | none => rw [ho] at hx; simp [Trail.none] at hx
      | some r =>
        rw [ho] at hx
        simp only [Trail.add, List.mem_append] at hx
        rcases hx with hx | hx
        · exact .inr (hw.leaf_declared g code c x (h.code hc) hg hx)
        · obtain ⟨h1, h2⟩ := leaf g hg c code hc
          exact trail_keep h1 _ h2 fs hx

theorem trail_keep_lib (hlib : (ρ.lib f).isSome) (p : Prog B R) (hb : ρ.Body f b p) (fs : Files) {x : FileName}
    (hx : x ∈ (trail callC callT p fs).srcs) : ρ.keep x ∨ (ρ.leaf f ∧ ρ.decl f b x) := by
  induction p generalizing fs with
  | ret r => simp [trail, Trail.none] at hx
  | raise => simp [trail, Trail.none] at hx
  | callD d g c k ih =>
    obtain ⟨h1, h2, h3, h4, h5⟩ := hb
    cases d with
    | true => rw [(h4 rfl).1] at hlib; cases hlib
    | false => exact ih _ (h5 _) _ hx
  | report srcs dsts k ih =>
    simp only [trail, Trail.add, List.mem_append] at hx
    rcases hx with hx | hx
    · rcases hb.1 x hx with h | ⟨h | h, h'⟩
      · exact .inl h
      · rw [h] at hlib; cases hlib
      · exact .inr ⟨h, h'⟩
    · exact ih hb.2 fs hx
  | read y k ih => exact ih _ (hb _) fs hx
  | write y c k ih =>
    simp only [trail, Trail.add, List.nil_append] at hx
    exact ih hb.2.2 _ hx

theorem leafTrail_foot (hw : WellBehaved sg script ρ) {ds : FunName → Option Digest} (h : ρ.Respects ds) {g : FunName}
    (hg : ρ.leaf g) {code : Digest} (hc : ds g = some code) {c : B} {fs : Files} {r : R}
    (ho : (cleanCall sg script ds ρ.depth g c fs).1 = some r) :
    leafTrail sg script ds (cleanCall sg script ds ρ.depth) g c fs =
      Trail.add ⟨sg.srcs g code c, sg.returnDsts g code r ++ sg.dsts g code c, []⟩
        (footprint sg script ds ρ.depth g code c fs) := by
  have hr := (hw.leaf_lib g hg).2
  unfold leafTrail
  rw [hc, ho]
  simp only
  congr 1
  exact (cleanProg_congr (callC := cleanCall sg script ds ρ.depth) (fun g' _ h2 _ _ => rfl) (fun g' _ h2 _ _ => by omega)
    (script g code c) (hw.body g code c (h.code hc)) fs).2

/-- A file of a leaf that a function has written has the content that the last call of the leaf gave it. -/
theorem deep_call (hl : Frames ρ (ρ.rank f) callC callT) (p : Prog B R) (hb : ρ.Body f b p) (fs : Files) {x : FileName}
    (hx : x ∈ (trail callC callT p fs).writes) {g : FunName} {c : B} (ho : ρ.owner x = some (g, c)) (hne : (g, c) ≠ (f, b)) :
    ∃ fsa, ρ.leaf g ∧ x ∈ (callT g c fsa).writes ∧ (cleanProg callC p fs).2 x = (callC g c fsa).2 x ∧
      (∀ y ∈ (callT g c fsa).srcs, y ∈ (trail callC callT p fs).srcs) ∧
      ∀ y, y ∉ (trail callC callT p fs).writes → fsa y = fs y := by
  induction p generalizing fs with
  | ret r => simp [trail, Trail.none] at hx
  | raise => simp [trail, Trail.none] at hx
  | callD d g' c' k ih =>
    obtain ⟨h1, h2, h3, h4, h5⟩ := hb
    cases d with
    | false =>
      simp only [trail, Bool.false_eq_true, if_false] at hx ⊢
      have hp := hl.pure g' h2 h1 (fun hg => by have := h3.2 hg; cases this) c' fs
      obtain ⟨fsa, k1, k2, k3, k4, k5⟩ := ih _ (h5 _) _ hx
      exact ⟨fsa, k1, k2, k3, k4, fun y hy => by rw [k5 y hy, hp]⟩
    | true =>
      have hleaf := h3.1 rfl
      simp only [trail, if_true, Trail.add, List.mem_append] at hx ⊢
      by_cases hr : x ∈ (trail callC callT (k (callC g' c' fs).1) (callC g' c' fs).2).writes
      · obtain ⟨fsa, k1, k2, k3, k4, k5⟩ := ih _ (h5 _) _ hr
        refine ⟨fsa, k1, k2, k3, fun y hy => .inr (k4 y hy), ?_⟩
        intro y hy
        rw [not_or] at hy
        rw [k5 y hy.2, hl.frame g' h2 hleaf c' fs y hy.1]
      · have hx' := hx.resolve_right hr
        have := hl.owner g' h2 hleaf c' fs x hx'
        rw [ho] at this
        simp only [Option.some.injEq, Prod.mk.injEq] at this
        obtain ⟨rfl, rfl⟩ := this
        refine ⟨fs, hleaf, hx', ?_, fun y hy => .inl hy, fun _ _ => rfl⟩
        rw [cleanProg]
        exact cleanProg_frame hl _ (h5 _) _ hr
  | report srcs dsts k ih =>
    simp only [trail, Trail.add, List.nil_append] at hx ⊢
    obtain ⟨fsa, k1, k2, k3, k4, k5⟩ := ih hb.2 fs hx
    exact ⟨fsa, k1, k2, k3, fun y hy => List.mem_append_right _ (k4 y hy), k5⟩
  | read y k ih => exact ih _ (hb _) fs hx
  | write y c k ih =>
    simp only [trail, Trail.add, List.nil_append, List.mem_append, List.mem_singleton] at hx ⊢
    rcases hx with rfl | hx
    · rw [hb.1] at ho
      simp only [Option.some.injEq] at ho
      exact absurd ho.symm hne
    · obtain ⟨fsa, k1, k2, k3, k4, k5⟩ := ih hb.2.2 _ hx
      refine ⟨fsa, k1, k2, k3, k4, ?_⟩
      intro z hz
      rw [not_or] at hz
      rw [k5 z hz.2, setFile, if_neg hz.1]

end Verif.Calls
