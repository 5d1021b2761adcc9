import Verif.DB.Pickling
/-!
# Values that are stored (C146)
-/
namespace Verif.DB.Pickling

/-! ## The notions of the statements -/

mutual
/-- the value in another process: its context in place of that of the old one -/
def moved (old new : Nat) : Val → Val
  | .atom t => .atom t
  | .ctx n => .ctx (if n = old then new else n)
  | .opaque n => .opaque n
  | .node tag xs => .node tag (movedAll old new xs)
def movedAll (old new : Nat) : Vals → Vals
  | .nil => .nil
  | .cons n v vs => .cons n (moved old new v) (movedAll old new vs)
end

mutual
/-- the classes of the objects in a value, from the outside to the inside -/
def classes : Val → List Text
  | .atom _ => []
  | .ctx _ => []
  | .opaque _ => []
  | .node (.inst c) xs => c :: classesAll xs
  | .node (.objId c) xs => c :: classesAll xs
  | .node .list xs => classesAll xs
  | .node .tuple xs => classesAll xs
  | .node .set xs => classesAll xs
  | .node .dict xs => classesAll xs
def classesAll : Vals → List Text
  | .nil => []
  | .cons _ v vs => classes v ++ classesAll vs
end

mutual
/-- there is nothing in it that cannot be pickled: no lambda, and no context but that of the process -/
def Plain (ctx : Nat) : Val → Prop
  | .atom _ => True
  | .ctx n => n = ctx
  | .opaque _ => False
  | .node tag xs => (∀ c, tag ≠ .objId c) ∧ PlainAll ctx xs
def PlainAll (ctx : Nat) : Vals → Prop
  | .nil => True
  | .cons _ v vs => Plain ctx v ∧ PlainAll ctx vs
end

/-- all classes of a list can be found -/
def There (av : Text → Avail) (cs : List Text) : Prop := ∀ c ∈ cs, av c = .there

/-! ## Dumping and loading -/

theorem tag_classes (tag : Tag) (xs : Vals) : classes (.node tag xs) = tag.cls.toList ++ classesAll xs := by
  cases tag <;> rfl

theorem usable_iff (av : Text → Avail) (tag : Tag) : usable av tag = true ↔ There av tag.cls.toList := by
  unfold usable There
  cases tag.cls <;> simp

mutual
theorem dump_some (ctx : Nat) (av : Text → Avail) : ∀ v : Val, Plain ctx v → There av (classes v) → ∃ ops, dump ctx av v = some ops
  | .atom t, _, _ => ⟨_, rfl⟩
  | .ctx n, h, _ => by
    have h : n = ctx := h
    exact ⟨_, by rw [dump, if_pos h]⟩
  | .opaque _, h, _ => by cases h
  | .node tag xs, h, hc => by
    rw [tag_classes] at hc
    obtain ⟨ops, ho⟩ := dumpAll_some ctx av xs h.2 (fun c hx => hc c (List.mem_append_right _ hx))
    refine ⟨.mark tag :: (ops ++ [.build]), ?_⟩
    rw [dump, if_pos ((usable_iff av tag).2 fun c hx => hc c (List.mem_append_left _ hx)), ho]
    rfl
theorem dumpAll_some (ctx : Nat) (av : Text → Avail) : ∀ vs : Vals, PlainAll ctx vs → There av (classesAll vs) → ∃ ops, dumpAll ctx av vs = some ops
  | .nil, _, _ => ⟨_, rfl⟩
  | .cons n v vs, h, hc => by
    obtain ⟨a, ha⟩ := dump_some ctx av v h.1 (fun c hx => hc c (List.mem_append_left _ hx))
    obtain ⟨b, hb⟩ := dumpAll_some ctx av vs h.2 (fun c hx => hc c (List.mem_append_right _ hx))
    exact ⟨_, by rw [dumpAll, ha, hb]; rfl⟩
end

theorem execAll_append (ctx : Nat) (av : Text → Avail) (a b : List Op) (st : List Item) :
    execAll ctx av (a ++ b) st = match execAll ctx av a st with
      | .error e => .error e
      | .ok st1 => execAll ctx av b st1 := by
  induction a generalizing st with
  | nil => rfl
  | cons op a ih =>
    rw [List.cons_append, execAll, execAll]
    cases exec ctx av op st with
    | error e => rfl
    | ok st1 => exact ih st1

/-- the parts as they lie on the stack -/
def onStack : Vals → List Item → List Item
  | .nil, st => st
  | .cons n v vs, st => onStack vs (.val v :: .name n :: st)

def addAll : Vals → Vals → Vals
  | .nil, acc => acc
  | .cons n v vs, acc => .cons n v (addAll vs acc)

theorem collect_onStack (tag : Tag) (vs : Vals) (st : List Item) (acc : Vals) :
    ∃ k : List Item, onStack vs (.mark tag :: st) = k ++ .mark tag :: st ∧
    ∀ st', collect (k ++ st') acc = collect st' (addAll vs acc) := by
  suffices h : ∀ (vs : Vals) (base : List Item), ∃ k : List Item, (∀ b, onStack vs (base ++ b) = k ++ (base ++ b)) ∧
      ∀ st' acc, collect (k ++ st') acc = collect st' (addAll vs acc) by
    obtain ⟨k, h1, h2⟩ := h vs []
    exact ⟨k, h1 _, fun st' => h2 st' acc⟩
  intro vs base
  match vs with
  | .nil => exact ⟨[], fun b => rfl, fun st' acc => rfl⟩
  | .cons n v vs =>
    obtain ⟨k, h1, h2⟩ := collect_aux vs
    refine ⟨k ++ [.val v, .name n], fun b => ?_, fun st' acc => ?_⟩
    · rw [onStack, h1]
      simp
    · rw [List.append_assoc, h2]
      rfl
where
  collect_aux : ∀ vs : Vals, ∃ k : List Item, (∀ b, onStack vs b = k ++ b) ∧ ∀ st' acc, collect (k ++ st') acc = collect st' (addAll vs acc)
    | .nil => ⟨[], fun b => rfl, fun st' acc => rfl⟩
    | .cons n v vs => by
      obtain ⟨k, h1, h2⟩ := collect_aux vs
      refine ⟨k ++ [.val v, .name n], fun b => ?_, fun st' acc => ?_⟩
      · rw [onStack, h1]
        simp
      · rw [List.append_assoc, h2]
        rfl

theorem addAll_nil : ∀ vs : Vals, addAll vs .nil = vs
  | .nil => rfl
  | .cons n v vs => by rw [addAll, addAll_nil vs]

theorem build_onStack (tag : Tag) (vs : Vals) (st : List Item) : collect (onStack vs (.mark tag :: st)) .nil = .ok (.val (.node tag vs) :: st) := by
  obtain ⟨k, h1, h2⟩ := collect_onStack tag vs st .nil
  rw [h1, h2, addAll_nil]
  rfl

theorem exec_mark {ctx : Nat} {av : Text → Avail} {tag : Tag} {st : List Item} (h : There av tag.cls.toList) :
    exec ctx av (.mark tag) st = .ok (.mark tag :: st) := by
  cases hc : tag.cls with
  | none => simp only [exec, hc]
  | some c =>
    have : av c = .there := h c (by rw [hc]; simp)
    simp only [exec, hc, this]

mutual
theorem load_dump (old new : Nat) (av av' : Text → Avail) : ∀ (v : Val) (ops : List Op), dump old av v = some ops →
    There av' (classes v) → ∀ st, execAll new av' ops st = .ok (.val (moved old new v) :: st)
  | .atom t, ops, h, _, st => by cases h; rfl
  | .ctx n, ops, h, _, st => by
    rw [dump] at h
    split at h
    · rename_i he
      cases h
      subst he
      simp [execAll, exec, moved]
    · cases h
  | .opaque _, _, h, _, _ => by cases h
  | .node tag xs, ops, h, hc, st => by
    rw [dump] at h
    split at h
    · rw [Option.map_eq_some_iff] at h
      obtain ⟨body, hb, rfl⟩ := h
      rw [tag_classes] at hc
      rw [execAll, exec_mark fun c hx => hc c (List.mem_append_left _ hx)]
      simp only
      rw [execAll_append, loadAll_dump old new av av' xs body hb (fun c hx => hc c (List.mem_append_right _ hx))]
      simp only [execAll, exec, build_onStack, moved]
    · cases h
theorem loadAll_dump (old new : Nat) (av av' : Text → Avail) : ∀ (vs : Vals) (ops : List Op), dumpAll old av vs = some ops →
    There av' (classesAll vs) → ∀ st, execAll new av' ops st = .ok (onStack (movedAll old new vs) st)
  | .nil, ops, h, _, st => by cases h; rfl
  | .cons n v vs, ops, h, hc, st => by
    rw [dumpAll] at h
    cases ha : dump old av v with
    | none => rw [ha] at h; cases h
    | some a =>
      rw [ha] at h
      simp only [Option.map_eq_some_iff] at h
      obtain ⟨b, hb, rfl⟩ := h
      rw [execAll]
      simp only [exec]
      rw [execAll_append, load_dump old new av av' v a ha (fun c hx => hc c (List.mem_append_left _ hx))]
      simp only
      rw [loadAll_dump old new av av' vs b hb (fun c hx => hc c (List.mem_append_right _ hx))]
      rfl
end

/-- the error for a class that cannot be found -/
def missing : Avail → Option LoadErr
  | .there => none
  | .noMember => some .attribute
  | .noModule => some .module

theorem exec_missing {ctx : Nat} {av : Text → Avail} {tag : Tag} {st : List Item} {c : Text} {e : LoadErr} (hc : tag.cls = some c)
    (he : missing (av c) = some e) : exec ctx av (.mark tag) st = .error e := by
  cases h : av c <;> rw [h] at he <;> cases he <;> simp only [exec, hc, h]

mutual
/-- the first class that is missing decides -/
theorem load_missing (old new : Nat) (av av' : Text → Avail) : ∀ (v : Val) (ops : List Op), dump old av v = some ops →
    ∀ (pre : List Text) (c : Text) (post : List Text) (e : LoadErr), classes v = pre ++ c :: post → There av' pre → missing (av' c) = some e →
    ∀ st, execAll new av' ops st = .error e
  | .atom t, _, _, pre, c, post, e, h, _, _, _ => by cases pre <;> cases h
  | .ctx n, _, _, pre, c, post, e, h, _, _, _ => by cases pre <;> cases h
  | .opaque _, _, h, _, _, _, _, _, _, _, _ => by cases h
  | .node tag xs, ops, h, pre, c, post, e, hcl, hpre, he, st => by
    rw [dump] at h
    split at h
    · rw [Option.map_eq_some_iff] at h
      obtain ⟨body, hb, rfl⟩ := h
      rw [tag_classes] at hcl
      cases ht : tag.cls with
      | none =>
        rw [ht] at hcl
        rw [execAll, exec_mark (by rw [ht]; intro c hx; cases hx)]
        simp only
        rw [execAll_append, loadAll_missing old new av av' xs body hb pre c post e hcl hpre he]
      | some c' =>
        rw [ht] at hcl
        cases pre with
        | nil =>
          simp only [Option.toList_some, List.singleton_append, List.nil_append, List.cons.injEq] at hcl
          obtain ⟨rfl, _⟩ := hcl
          rw [execAll, exec_missing ht he]
        | cons p pre =>
          simp only [Option.toList_some, List.singleton_append, List.cons_append, List.cons.injEq] at hcl
          obtain ⟨rfl, hcl⟩ := hcl
          rw [execAll, exec_mark (by rw [ht]; intro c hx; simp only [Option.toList_some, List.mem_singleton] at hx; subst hx; exact hpre c (.head _))]
          simp only
          rw [execAll_append, loadAll_missing old new av av' xs body hb pre c post e hcl (fun x hx => hpre x (.tail _ hx)) he]
    · cases h
theorem loadAll_missing (old new : Nat) (av av' : Text → Avail) : ∀ (vs : Vals) (ops : List Op), dumpAll old av vs = some ops →
    ∀ (pre : List Text) (c : Text) (post : List Text) (e : LoadErr), classesAll vs = pre ++ c :: post → There av' pre → missing (av' c) = some e →
    ∀ st, execAll new av' ops st = .error e
  | .nil, _, _, pre, c, post, e, h, _, _, _ => by cases pre <;> cases h
  | .cons n v vs, ops, h, pre, c, post, e, hcl, hpre, he, st => by
    rw [dumpAll] at h
    cases ha : dump old av v with
    | none => rw [ha] at h; cases h
    | some a =>
      rw [ha] at h
      simp only [Option.map_eq_some_iff] at h
      obtain ⟨b, hb, rfl⟩ := h
      rw [execAll]
      simp only [exec]
      rw [execAll_append]
      rw [classesAll] at hcl
      rcases List.append_eq_append_iff.1 hcl with ⟨m, rfl, hm⟩ | ⟨m, hm, hm2⟩
      · rw [load_dump old new av av' v a ha (fun x hx => hpre x (List.mem_append_left _ hx))]
        simp only
        exact loadAll_missing old new av av' vs b hb m c post e hm (fun x hx => hpre x (List.mem_append_right _ hx)) he _
      · cases m with
        | nil =>
          rw [List.append_nil] at hm
          simp only [List.nil_append] at hm2
          rw [load_dump old new av av' v a ha (by rw [hm]; exact hpre)]
          simp only
          exact loadAll_missing old new av av' vs b hb [] c post e hm2.symm (by intro x hx; cases hx) he _
        | cons m0 m =>
          simp only [List.cons_append, List.cons.injEq] at hm2
          obtain ⟨rfl, _⟩ := hm2
          rw [load_missing old new av av' v a ha pre c m e hm hpre he]
end

/-! ## The pickle engine -/

/-- **C146**, pickle: what a process has stored is there in the next one, with the context of the next one.  Partial: everything can be
pickled, and the classes are still there. -/
theorem C146_pickle_partial (old new : Nat) (av av' : Text → Avail) (tables : Vals) (file : Option (List Op)) (hp : PlainAll old tables)
    (h : There av (classesAll tables)) (h' : There av' (classesAll tables)) :
    (close old av tables file).1 = true ∧ connect new av' (close old av tables file).2 = .ok (movedAll old new tables) := by
  obtain ⟨ops, ho⟩ := dump_some old av (.node .tuple tables) ⟨by simp, hp⟩ h
  unfold close
  rw [ho]
  refine ⟨rfl, ?_⟩
  simp only [connect, load, load_dump old new av av' _ ops ho h', moved]

/-- **C146**, pickle: if a class has been removed from its module (and no module of a class before it is missing) then the build begins with
an empty database. -/
theorem C146_removed_class (old new : Nat) (av av' : Text → Avail) (tables : Vals) (file : Option (List Op)) (hp : PlainAll old tables)
    (h : There av (classesAll tables)) (pre : List Text) (c : Text) (post : List Text) (hc : classesAll tables = pre ++ c :: post)
    (hpre : There av' pre) (hm : av' c = .noMember) : connect new av' (close old av tables file).2 = .ok .nil := by
  obtain ⟨ops, ho⟩ := dump_some old av (.node .tuple tables) ⟨by simp, hp⟩ h
  unfold close
  rw [ho]
  simp only [connect, load, load_missing old new av av' _ ops ho pre c post .attribute hc hpre (by rw [hm]; rfl)]

/-- **C146** is false if the module of a class is gone: the database cannot be opened, in this build and in all that follow. -/
theorem C146_module_violated (old new : Nat) (av av' : Text → Avail) (tables : Vals) (file : Option (List Op)) (hp : PlainAll old tables)
    (h : There av (classesAll tables)) (pre : List Text) (c : Text) (post : List Text) (hc : classesAll tables = pre ++ c :: post)
    (hpre : There av' pre) (hm : av' c = .noModule) : connect new av' (close old av tables file).2 = .error .module := by
  obtain ⟨ops, ho⟩ := dump_some old av (.node .tuple tables) ⟨by simp, hp⟩ h
  unfold close
  rw [ho]
  simp only [connect, load, load_missing old new av av' _ ops ho pre c post .module hc hpre (by rw [hm]; rfl)]

mutual
/-- a lambda, or something else that cannot be pickled, is in the value -/
def Holds : Val → Prop
  | .atom _ => False
  | .ctx _ => False
  | .opaque _ => True
  | .node _ xs => HoldsAll xs
def HoldsAll : Vals → Prop
  | .nil => False
  | .cons _ v vs => Holds v ∨ HoldsAll vs
end

mutual
theorem dump_holds (ctx : Nat) (av : Text → Avail) : ∀ v : Val, Holds v → dump ctx av v = none
  | .atom _, h => by cases h
  | .ctx _, h => by cases h
  | .opaque _, _ => rfl
  | .node tag xs, h => by
    rw [dump, dumpAll_holds ctx av xs h]
    simp
theorem dumpAll_holds (ctx : Nat) (av : Text → Avail) : ∀ vs : Vals, HoldsAll vs → dumpAll ctx av vs = none
  | .nil, h => by cases h
  | .cons n v vs, h => by
    rw [dumpAll]
    rcases h with h | h
    · rw [dump_holds ctx av v h]
    · rw [dumpAll_holds ctx av vs h]
      cases dump ctx av v <;> rfl
end

/-- **C146** is false for the pickle engine: one value that cannot be pickled, such as a lambda that was returned, and all results of the
build are lost: the next one begins with the state file from before. -/
theorem C146_lost_violated (old : Nat) (av : Text → Avail) (tables : Vals) (file : Option (List Op)) (h : HoldsAll tables) :
    close old av tables file = (false, file) := by
  unfold close
  rw [dump_holds old av (.node .tuple tables) h]

/-! ## The sqlite engine -/

mutual
theorem persist_plain (ps : Text → Bool) (ctx : Nat) : ∀ v : Val, Plain ctx v → unpersist (persist ps v) = v
  | .atom _, _ => rfl
  | .ctx _, _ => rfl
  | .opaque _, h => by cases h
  | .node (.inst c) xs, h => by
    rw [persist]
    split
    · rw [unpersist, persistAll_plain ps ctx xs h.2]
    · rfl
  | .node (.objId c) xs, h => absurd rfl (h.1 c)
  | .node .list xs, _ => rfl
  | .node .tuple xs, _ => rfl
  | .node .set xs, _ => rfl
  | .node .dict xs, _ => rfl
theorem persistAll_plain (ps : Text → Bool) (ctx : Nat) : ∀ vs : Vals, PlainAll ctx vs → unpersistAll (persistAll ps vs) = vs
  | .nil, _ => rfl
  | .cons n v vs, h => by rw [persistAll, unpersistAll, persist_plain ps ctx v h.1, persistAll_plain ps ctx vs h.2]
end

mutual
theorem persist_classes (ps : Text → Bool) : ∀ v : Val, classes (persist ps v) = classes v
  | .atom _ => rfl
  | .ctx _ => rfl
  | .opaque _ => rfl
  | .node (.inst c) xs => by
    rw [persist]
    split
    · rw [classes, classes, persistAll_classes ps xs]
    · rfl
  | .node (.objId c) xs => rfl
  | .node .list xs => rfl
  | .node .tuple xs => rfl
  | .node .set xs => rfl
  | .node .dict xs => rfl
theorem persistAll_classes (ps : Text → Bool) : ∀ vs : Vals, classesAll (persistAll ps vs) = classesAll vs
  | .nil => rfl
  | .cons n v vs => by rw [persistAll, classesAll, classesAll, persist_classes ps v, persistAll_classes ps vs]
end

mutual
theorem persist_moved (ps : Text → Bool) (old new : Nat) : ∀ v : Val, moved old new (persist ps v) = persist ps (moved old new v)
  | .atom _ => rfl
  | .ctx _ => rfl
  | .opaque _ => rfl
  | .node (.inst c) xs => by
    rw [moved, persist, persist]
    split
    · rw [moved, persistAll_moved ps old new xs]
    · rfl
  | .node (.objId c) xs => rfl
  | .node .list xs => rfl
  | .node .tuple xs => rfl
  | .node .set xs => rfl
  | .node .dict xs => rfl
theorem persistAll_moved (ps : Text → Bool) (old new : Nat) : ∀ vs : Vals, movedAll old new (persistAll ps vs) = persistAll ps (movedAll old new vs)
  | .nil => rfl
  | .cons n v vs => by rw [persistAll, movedAll, movedAll, persistAll, persist_moved ps old new v, persistAll_moved ps old new vs]
end

mutual
/-- dumping what `persist` makes of a value works if dumping the value does -/
theorem persist_dump (ps : Text → Bool) (ctx : Nat) (av : Text → Avail) : ∀ v : Val, Plain ctx v → There av (classes v) →
    ∃ ops, dump ctx av (persist ps v) = some ops
  | .atom _, _, _ => ⟨_, rfl⟩
  | .ctx n, h, hc => dump_some ctx av (.ctx n) h hc
  | .opaque _, h, _ => by cases h
  | .node (.inst c) xs, h, hc => by
    rw [persist]
    split
    · obtain ⟨ops, ho⟩ := persistAll_dump ps ctx av xs h.2 (fun x hx => hc x (.tail _ hx))
      refine ⟨.mark (.objId c) :: (ops ++ [.build]), ?_⟩
      rw [dump, if_pos ((usable_iff av _).2 fun x hx => ?_), ho]
      · rfl
      · have : x = c := by simpa [Tag.cls] using hx
        subst this
        exact hc x (.head _)
    · exact dump_some ctx av _ h hc
  | .node (.objId c) xs, h, _ => absurd rfl (h.1 c)
  | .node .list xs, h, hc => dump_some ctx av _ h hc
  | .node .tuple xs, h, hc => dump_some ctx av _ h hc
  | .node .set xs, h, hc => dump_some ctx av _ h hc
  | .node .dict xs, h, hc => dump_some ctx av _ h hc
theorem persistAll_dump (ps : Text → Bool) (ctx : Nat) (av : Text → Avail) : ∀ vs : Vals, PlainAll ctx vs → There av (classesAll vs) →
    ∃ ops, dumpAll ctx av (persistAll ps vs) = some ops
  | .nil, _, _ => ⟨_, rfl⟩
  | .cons n v vs, h, hc => by
    obtain ⟨a, ha⟩ := persist_dump ps ctx av v h.1 (fun c hx => hc c (List.mem_append_left _ hx))
    obtain ⟨b, hb⟩ := persistAll_dump ps ctx av vs h.2 (fun c hx => hc c (List.mem_append_right _ hx))
    exact ⟨_, by rw [persistAll, dumpAll, ha, hb]; rfl⟩
end

mutual
theorem moved_plain (old new : Nat) : ∀ v : Val, Plain old v → Plain new (moved old new v)
  | .atom _, _ => trivial
  | .ctx n, h => by
    have h : n = old := h
    subst h
    show (if n = n then new else n) = new
    simp
  | .opaque _, h => by cases h
  | .node tag xs, h => ⟨h.1, movedAll_plain old new xs h.2⟩
theorem movedAll_plain (old new : Nat) : ∀ vs : Vals, PlainAll old vs → PlainAll new (movedAll old new vs)
  | .nil, _ => trivial
  | .cons _ v vs, h => ⟨moved_plain old new v h.1, movedAll_plain old new vs h.2⟩
end

theorem sqlLoad_dump {old new : Nat} {av av' : Text → Avail} {ps : Text → Bool} {v : Val} {ops : List Op} (hp : Plain old v)
    (ho : sqlDump old av ps v = some ops) (h' : There av' (classes v)) : sqlLoad new av' ops = .ok (moved old new v) := by
  unfold sqlLoad load
  rw [load_dump old new av av' _ ops ho (by rw [persist_classes]; exact h')]
  simp only
  rw [persist_moved, persist_plain ps new _ (moved_plain old new v hp)]

/-- the calls that were stored one after the other -/
def saveAll (ctx : Nat) (av : Text → Avail) (ps : Text → Bool) : List (Val × Val) → List (List Op × List Op) → List (List Op × List Op)
  | [], rows => rows
  | (b, r) :: calls, rows => saveAll ctx av ps calls (save ctx av ps b r rows).2

theorem save_ok {ctx : Nat} {av : Text → Avail} {ps : Text → Bool} {b r : Val} (hb : Plain ctx b ∧ There av (classes b))
    (hr : Plain ctx r ∧ There av (classes r)) (rows : List (List Op × List Op)) :
    ∃ x y, sqlDump ctx av ps b = some x ∧ sqlDump ctx av ps r = some y ∧ save ctx av ps b r rows = (true, rows ++ [(x, y)]) := by
  obtain ⟨x, hx⟩ := persist_dump ps ctx av b hb.1 hb.2
  obtain ⟨y, hy⟩ := persist_dump ps ctx av r hr.1 hr.2
  have hx : sqlDump ctx av ps b = some x := hx
  have hy : sqlDump ctx av ps r = some y := hy
  exact ⟨x, y, hx, hy, by rw [save, hx, hy]⟩

/-- a stored call that can be stored and loaded -/
def Fine (ctx : Nat) (av av' : Text → Avail) (q : Val × Val) : Prop :=
  (Plain ctx q.1 ∧ There av (classes q.1) ∧ There av' (classes q.1)) ∧ Plain ctx q.2 ∧ There av (classes q.2) ∧ There av' (classes q.2)

/-- a call whose arguments or result cannot be pickled -/
def Bad (q : Val × Val) : Prop := Holds q.1 ∨ Holds q.2

mutual
theorem persist_holds (ps : Text → Bool) : ∀ v : Val, Holds v → Holds (persist ps v)
  | .atom _, h => h
  | .ctx _, h => h
  | .opaque _, h => h
  | .node (.inst c) xs, h => by
    rw [persist]
    split
    · exact persistAll_holds ps xs h
    · exact h
  | .node (.objId c) xs, h => h
  | .node .list xs, h => h
  | .node .tuple xs, h => h
  | .node .set xs, h => h
  | .node .dict xs, h => h
theorem persistAll_holds (ps : Text → Bool) : ∀ vs : Vals, HoldsAll vs → HoldsAll (persistAll ps vs)
  | .nil, h => h
  | .cons _ v vs, h => h.imp (persist_holds ps v) (persistAll_holds ps vs)
end

/-- The answer: the result of the first of the calls that were stored with these arguments. -/
inductive Answer (eq : Val → Val → Bool) (old new : Nat) (bound : Val) : List (Val × Val) → Option Val → Prop
  | none : Answer eq old new bound [] none
  | here {b r : Val} {l : List (Val × Val)} : eq bound (moved old new b) = true → Answer eq old new bound ((b, r) :: l) (some (moved old new r))
  | next {b r : Val} {l : List (Val × Val)} {a : Option Val} : eq bound (moved old new b) = false → Answer eq old new bound l a →
      Answer eq old new bound ((b, r) :: l) a

/-- `good` are the calls of `calls` that can be stored -/
inductive Stored (ctx : Nat) (av av' : Text → Avail) : List (Val × Val) → List (Val × Val) → Prop
  | nil : Stored ctx av av' [] []
  | bad {q : Val × Val} {calls good : List (Val × Val)} : Bad q → Stored ctx av av' calls good → Stored ctx av av' (q :: calls) good
  | good {q : Val × Val} {calls good : List (Val × Val)} : Fine ctx av av' q → Stored ctx av av' calls good →
      Stored ctx av av' (q :: calls) (q :: good)

theorem find_append {ctx : Nat} {av : Text → Avail} {eq : Val → Val → Bool} {bound : Val} {a b : List (List Op × List Op)}
    (h : find ctx av eq bound a = .ok none) : find ctx av eq bound (a ++ b) = find ctx av eq bound b := by
  induction a with
  | nil => rfl
  | cons q a ih =>
    obtain ⟨x, y⟩ := q
    rw [find] at h
    rw [List.cons_append, find]
    cases hx : sqlLoad ctx av x with
    | error e => rw [hx] at h; cases h
    | ok old =>
      rw [hx] at h
      simp only at h ⊢
      split at h
      · cases hy : sqlLoad ctx av y <;> rw [hy] at h <;> cases h
      · rename_i he
        rw [if_neg he]
        exact ih h

theorem find_append_some {ctx : Nat} {av : Text → Avail} {eq : Val → Val → Bool} {bound : Val} {a b : List (List Op × List Op)} {v : Val}
    (h : find ctx av eq bound a = .ok (some v)) : find ctx av eq bound (a ++ b) = .ok (some v) := by
  induction a with
  | nil => cases h
  | cons q a ih =>
    obtain ⟨x, y⟩ := q
    rw [find] at h
    rw [List.cons_append, find]
    cases hx : sqlLoad ctx av x with
    | error e => rw [hx] at h; cases h
    | ok old =>
      rw [hx] at h
      simp only at h ⊢
      split at h
      · rename_i he
        rw [if_pos he]
        exact h
      · rename_i he
        rw [if_neg he]
        exact ih h

theorem save_bad {ctx : Nat} {av : Text → Avail} {ps : Text → Bool} {b r : Val} (h : Bad (b, r)) (rows : List (List Op × List Op)) :
    save ctx av ps b r rows = (false, rows) := by
  have key : ∀ v, Holds v → sqlDump ctx av ps v = none := fun v hv => dump_holds ctx av _ (persist_holds ps v hv)
  unfold save
  rcases h with h | h <;> rw [key _ h]
  cases sqlDump ctx av ps r <;> rfl

/-- **C146**, sqlite: calls are stored one by one; those that cannot be pickled are not stored, and every other call is answered in another
process with its own result, with the context of that process.  Partial: the classes are still there. -/
theorem C146_sqlite_partial (eq : Val → Val → Bool) (old new : Nat) (av av' : Text → Avail) (ps : Text → Bool) (bound : Val)
    (calls good : List (Val × Val)) (hsub : Stored old av av' calls good) :
    ∃ a, Answer eq old new bound good a ∧ find new av' eq bound (saveAll old av ps calls []) = .ok a := by
  suffices h : ∀ rows, find new av' eq bound rows = .ok none →
      ∃ a, Answer eq old new bound good a ∧ find new av' eq bound (saveAll old av ps calls rows) = .ok a from h [] rfl
  induction hsub with
  | nil => exact fun rows hr => ⟨none, .none, hr⟩
  | @bad q calls good hq _ ih =>
    obtain ⟨b, r⟩ := q
    intro rows hr
    rw [saveAll, save_bad hq]
    exact ih rows hr
  | @good q calls good hq _ ih =>
    obtain ⟨b, r⟩ := q
    intro rows hr
    obtain ⟨⟨hb1, hb2, hb3⟩, hr1, hr2, hr3⟩ := hq
    obtain ⟨x, y, hx, hy, hs⟩ := save_ok (ps := ps) ⟨hb1, hb2⟩ ⟨hr1, hr2⟩ rows
    rw [saveAll, hs]
    simp only
    have hone : find new av' eq bound [(x, y)] = if eq bound (moved old new b) then .ok (some (moved old new r)) else .ok none := by
      rw [find, sqlLoad_dump hb1 hx hb3]
      simp only
      split
      · rw [sqlLoad_dump hr1 hy hr3]
      · rfl
    cases he : eq bound (moved old new b) with
    | true =>
      refine ⟨_, .here he, ?_⟩
      have h1 : find new av' eq bound (rows ++ [(x, y)]) = .ok (some (moved old new r)) := by
        rw [find_append hr, hone, he]
        rfl
      have hmore : ∀ (calls : List (Val × Val)) rows, ∃ more, saveAll old av ps calls rows = rows ++ more := by
        intro calls
        induction calls with
        | nil => exact fun rows => ⟨[], by rw [saveAll, List.append_nil]⟩
        | cons q calls ih =>
          intro rows
          obtain ⟨m, hm⟩ := ih (save old av ps q.1 q.2 rows).2
          have : ∃ m', (save old av ps q.1 q.2 rows).2 = rows ++ m' := by
            unfold save
            split
            · exact ⟨_, rfl⟩
            · exact ⟨[], by simp⟩
          obtain ⟨m', hm'⟩ := this
          refine ⟨m' ++ m, ?_⟩
          rw [saveAll, hm, hm', List.append_assoc]
      obtain ⟨more, hm⟩ := hmore calls (rows ++ [(x, y)])
      rw [hm]
      exact find_append_some h1
    | false =>
      have h1 : find new av' eq bound (rows ++ [(x, y)]) = .ok none := by
        rw [find_append hr, hone, he]
        rfl
      obtain ⟨a, ha, hf⟩ := ih (rows ++ [(x, y)]) h1
      exact ⟨a, .next he ha, hf⟩

/-- **C146** is false for the sqlite engine if a class is gone that is in the arguments of a call that was stored: no call of the function can be
looked up any more, whatever its arguments (if the calls before it have other arguments and can be loaded). -/
theorem C146_sqlite_violated (eq : Val → Val → Bool) (old new : Nat) (av av' : Text → Avail) (ps : Text → Bool) (bound b r : Val)
    (rows more : List (List Op × List Op)) (hrows : find new av' eq bound rows = .ok none) (hb : Plain old b ∧ There av (classes b))
    (hr : Plain old r ∧ There av (classes r)) (pre : List Text) (c : Text) (post : List Text) (hc : classes b = pre ++ c :: post)
    (hpre : There av' pre) (hm : av' c = .noMember ∨ av' c = .noModule) :
    ∃ e, find new av' eq bound ((save old av ps b r rows).2 ++ more) = .error e := by
  obtain ⟨x, y, hx, _, hs⟩ := save_ok (ps := ps) hb hr rows
  have he : ∃ e, missing (av' c) = some e := by
    rcases hm with hm | hm <;> rw [hm] <;> exact ⟨_, rfl⟩
  obtain ⟨e, he⟩ := he
  refine ⟨e, ?_⟩
  rw [hs, List.append_assoc, find_append hrows, List.singleton_append, find]
  unfold sqlLoad load
  rw [load_missing old new av av' _ x hx pre c post e (by rw [persist_classes]; exact hc) hpre he]

/-! ### An object with the context, and a lambda -/

/-- a builder as it is stored: an object with the context and a list of flags -/
def exObj : Val := .node (.inst "build.Cc") (.cons "ctx" (.ctx 1) (.cons "flags" (.node .list (.cons "" (.atom "-O2") .nil)) .nil))
def exAv : Text → Avail := fun _ => .there
def exGone : Text → Avail := fun c => if c = "build.Cc" then .noModule else .there
def exRemoved : Text → Avail := fun c => if c = "build.Cc" then .noMember else .there
def exTables : Vals := .cons "" exObj (.cons "" (.atom "5") .nil)

theorem exObj_plain : Plain 1 exObj := ⟨by simp, rfl, ⟨by simp, trivial, trivial⟩, trivial⟩

/-- `C146_pickle_partial` -/
example : PlainAll 1 exTables ∧ There exAv (classesAll exTables) ∧
    connect 2 exAv (close 1 exAv exTables none).2 = .ok (.cons "" (.node (.inst "build.Cc")
      (.cons "ctx" (.ctx 2) (.cons "flags" (.node .list (.cons "" (.atom "-O2") .nil)) .nil))) (.cons "" (.atom "5") .nil)) :=
  ⟨⟨exObj_plain, trivial, trivial⟩, fun _ _ => rfl, by rfl⟩

/-- `C146_removed_class` and `C146_module_violated` -/
example : classesAll exTables = [] ++ "build.Cc" :: [] ∧ connect 2 exRemoved (close 1 exAv exTables none).2 = .ok .nil ∧
    connect 2 exGone (close 1 exAv exTables none).2 = .error .module := ⟨by rfl, by rfl, by rfl⟩

/-- `C146_lost_violated`: a lambda beside the object -/
example : HoldsAll (.cons "" (.opaque 0) exTables) := .inl trivial

/-- `C146_sqlite_partial`: the call with a lambda is not stored, the other one is -/
example : Stored 1 exAv exAv [(.opaque 0, exObj), (.atom "7", exObj)] [(.atom "7", exObj)] :=
  .bad (.inl trivial) (.good ⟨⟨trivial, fun _ h => (by cases h), fun _ h => (by cases h)⟩, exObj_plain, fun _ _ => rfl, fun _ _ => rfl⟩ .nil)

/-- `C146_sqlite_violated` -/
example : classes exObj = [] ++ "build.Cc" :: [] ∧
    find 2 exGone (fun _ _ => false) (.atom "8") ((save 1 exAv (fun _ => true) exObj (.atom "5") []).2 ++ []) = .error .module :=
  ⟨by rfl, by rfl⟩

end Verif.DB.Pickling
