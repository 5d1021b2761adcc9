import Verif.DB.Pickle
/-!
# C18-C21: the state file of the pickle engine
-/
namespace Verif.DB.Pickle

variable {D : Type} {c : Codec D} {d : Disk} {x : D}

@[simp] theorem put_self (d : Disk) (n : Name) (v : Option Bytes) : d.put n v n = v := by
  simp [Disk.put]

theorem put_ne (d : Disk) {n m : Name} (v : Option Bytes) (h : m ≠ n) : d.put n v m = d m := by
  simp [Disk.put, h]

theorem runOps_append (d : Disk) (a b : List Op) : runOps d (a ++ b) = runOps (runOps d a) b :=
  List.foldl_append ..

/-- appending bytes to a file -/
theorem runOps_appends (d : Disk) (n : Name) (bs acc : Bytes) (h : d n = some acc) :
    runOps d (bs.map (.append n)) = d.put n (some (acc ++ bs)) := by
  induction bs generalizing d acc with
  | nil =>
    funext m
    by_cases hm : m = n
    · subst hm; simp [runOps, h]
    · simp [runOps, Disk.put, hm]
  | cons b bs ih =>
    simp only [List.map_cons, runOps, List.foldl_cons]
    have := ih (Op.run d (.append n b)) (acc ++ [b]) (by simp [Op.run, h])
    simp only [runOps] at this
    rw [this]
    funext m
    by_cases hm : m = n
    · subst hm; simp
    · simp [Op.run, Disk.put, hm]

/-- the first part of `close`: writing the temporary file -/
def writeOps (c : Codec D) (x : D) : List Op :=
  .create .tmp :: (c.enc latest x).map (.append .tmp)

theorem write_prefix (d : Disk) (bs : Bytes) (n : Nat) :
    ∀ m, m ≠ .tmp → runOps d ((.create .tmp :: bs.map (.append .tmp)).take n) m = d m := by
  intro m hm
  cases n with
  | zero => rfl
  | succ n =>
    rw [List.take_succ_cons, ← List.map_take]
    have : runOps d (.create .tmp :: (bs.take n).map (.append .tmp)) =
        runOps (d.put .tmp (some [])) ((bs.take n).map (.append .tmp)) := rfl
    rw [this, runOps_appends _ _ _ [] (by simp)]
    rw [put_ne _ _ hm, put_ne _ _ hm]

theorem write_all (d : Disk) (bs : Bytes) :
    runOps d (.create .tmp :: bs.map (.append .tmp)) = d.put .tmp (some bs) := by
  have : runOps d (.create .tmp :: bs.map (.append .tmp)) =
      runOps (d.put .tmp (some [])) (bs.map (.append .tmp)) := rfl
  rw [this, runOps_appends _ _ _ [] (by simp)]
  funext m
  by_cases hm : m = .tmp
  · subst hm; simp
  · rw [put_ne _ _ hm, put_ne _ _ hm, put_ne _ _ hm]; 

/-- Every crash point of `close`. -/
theorem close_crash (c : Codec D) (d : Disk) (x : D) (n : Nat) :
    (runOps d ((closeOps c d x).take n) .path = d .path) ∨
    (runOps d ((closeOps c d x).take n) .path = some (c.enc latest x)) ∨
    (runOps d ((closeOps c d x).take n) .path = none ∧ (d .path).isSome ∧
      runOps d ((closeOps c d x).take n) .old = d .path ∧
      runOps d ((closeOps c d x).take n) .tmp = some (c.enc latest x)) := by
  unfold closeOps
  rw [List.take_append, runOps_append]
  by_cases hn : n ≤ (Op.create .tmp :: (c.enc latest x).map (Op.append .tmp)).length
  · rw [Nat.sub_eq_zero_of_le hn, List.take_zero]
    left
    exact write_prefix d _ n .path (by simp)
  · rw [List.take_of_length_le (by omega), write_all]
    obtain ⟨k, hk⟩ : ∃ k, n - (Op.create .tmp :: (c.enc latest x).map (Op.append .tmp)).length
        = k := ⟨_, rfl⟩
    rw [hk]
    cases hp : d .path with
    | none =>
      simp only [Option.isSome_none, Bool.false_eq_true, if_false, List.nil_append, Bool.or_false]
      match k with
      | 0 => left; simp [runOps, Disk.put, hp]
      | k + 1 =>
        right; left
        simp only [List.take_succ_cons]
        split
        · cases k <;> simp [runOps, Op.run, Disk.put]
        · simp [runOps, Op.run, Disk.put]
    | some bytes =>
      simp only [Option.isSome_some, if_true, Bool.or_true, List.cons_append, List.nil_append]
      match k with
      | 0 => left; simp [runOps, Disk.put, hp]
      | 1 => right; right; simp [runOps, Op.run, Disk.put, hp]
      | 2 => right; left; simp [runOps, Op.run, Disk.put]
      | k + 3 => right; left; simp [runOps, Op.run, Disk.put]

/-- **C18**.  Whatever is on disk (also leftovers of earlier crashes), if the process is killed at any
point of saving, the state file afterwards is byte for byte the one that was there, the complete
new one, or missing. -/
theorem C18_not_torn (c : Codec D) (d : Disk) (x : D) (n : Nat) :
    runOps d ((closeOps c d x).take n) .path ∈ [d .path, some (c.enc latest x), none] := by
  rcases close_crash c d x n with h | h | h
  · rw [h]; simp
  · rw [h]; simp
  · rw [h.1]; simp

/-- What the next start then reads: the old state, the new state, or an empty database. -/
theorem C18_next_start (c : Codec D) (hc : c.dec (c.enc latest x) = .data (some latest) x)
    (d : Disk) (n : Nat) :
    connect c (runOps d ((closeOps c d x).take n)) ∈
      [connect c d, some x, some c.empty] := by
  have key : ∀ d1 d2 : Disk, d1 .path = d2 .path → connect c d1 = connect c d2 := by
    intro d1 d2 h
    have hl : load c d1 = load c d2 := by simp only [load, h]
    unfold connect connectOps
    rw [hl]
    cases hld : load c d2 with
    | none => simp only [runOps, List.foldl_nil]; rw [hl]
    | some q =>
      obtain ⟨v, y⟩ := q
      simp only
      split
      · simp only [runOps, List.foldl_nil]; rw [hl]
      · rw [runOps_append, runOps_append]
        have : ∀ e : Disk, runOps e [.remove .path] .path = none := by
          intro e; simp [runOps, Op.run]
        simp only [load, this]
  rcases close_crash c d x n with h | h | h
  · rw [key _ _ h]; simp
  · have : connect c (runOps d ((closeOps c d x).take n)) = some x := by
      rw [key _ (fun _ => some (c.enc latest x)) h]
      simp [connect, connectOps, load, hc, runOps]
    rw [this]; simp
  · have : connect c (runOps d ((closeOps c d x).take n)) = some c.empty := by
      rw [key _ (fun _ => none) h.1]
      simp [connect, connectOps, load, runOps]
    rw [this]; simp

/-- **C19** (partial): at every crash point the complete old or the complete new state is on disk,
under the name of the state file or under the two auxiliary names.  Missing (and false): that the
next start reads it. -/
theorem C19_on_disk_partial (c : Codec D) (d : Disk) (x : D) (n : Nat) :
    runOps d ((closeOps c d x).take n) .path ∈ [d .path, some (c.enc latest x)] ∨
    (runOps d ((closeOps c d x).take n) .old = d .path ∧
      runOps d ((closeOps c d x).take n) .tmp = some (c.enc latest x)) := by
  rcases close_crash c d x n with h | h | h
  · rw [h]; simp
  · rw [h]; simp
  · exact Or.inr h.2.2

/-- **C19** (partial): the first save, when there is no state file yet, loses nothing. -/
theorem C19_first_save_partial (c : Codec D) (d : Disk) (x : D) (hd : d .path = none) (n : Nat) :
    runOps d ((closeOps c d x).take n) .path ∈ [d .path, some (c.enc latest x)] := by
  rcases close_crash c d x n with h | h | h
  · rw [h]; simp
  · rw [h]; simp
  · rw [hd] at h; simp at h

/-- If nothing interrupts it, saving leaves exactly the new state and no auxiliary file. -/
theorem close_complete (c : Codec D) (d : Disk) (x : D) :
    runOps d (closeOps c d x) = fun n => if n = .path then some (c.enc latest x) else none := by
  unfold closeOps
  rw [runOps_append, write_all]
  funext m
  cases hp : d .path <;> cases ho : d .old <;> cases m <;>
    simp [runOps, Op.run, Disk.put, hp, ho]

namespace Ex
/-- a codec for natural numbers: the version is one byte -/
def codec : Codec Nat where
  enc v x := (if v = latest then 2 else 1) :: List.replicate x 7
  dec bs := match bs with
    | [] => .broken
    | v :: rest => .data (some (if v = 2 then latest else "1")) rest.length
  empty := 0

theorem codec_ok (x : Nat) : codec.dec (codec.enc latest x) = .data (some latest) x := by
  simp [codec]

/-- a state file with content 3 -/
def disk : Disk := fun n => if n = .path then some (codec.enc latest 3) else none
/-- a state file with content 3 in an older format -/
def oldDisk : Disk := fun n => if n = .path then some (codec.enc "1" 3) else none
end Ex

/-- saving 2 over 3: what the next start reads for every crash point -/
example : (List.range 8).map (fun n =>
    connect Ex.codec (runOps Ex.disk ((closeOps Ex.codec Ex.disk 2).take n))) =
    [some 3, some 3, some 3, some 3, some 3, some 0, some 2, some 2] := by rfl

/-- **C19** is false: killed between the two renames, the next start finds no state file and begins
with an empty database; when it saves, the old state is gone for good. -/
theorem C19_lost_violated :
    ∃ n d, d = runOps Ex.disk ((closeOps Ex.codec Ex.disk 2).take n) ∧
      connect Ex.codec Ex.disk = some 3 ∧ connect Ex.codec d = some 0 ∧
      runOps d (closeOps Ex.codec d 0) = fun n => if n = .path then some (Ex.codec.enc latest 0) else none :=
  ⟨5, _, rfl, rfl, rfl, close_complete ..⟩

/-- **C20** (partial): connecting to a state file of another version, uninterrupted, starts with an
empty database, and no file is left.  Missing (and false): crashes during the upgrade. -/
theorem C20_connect_partial (c : Codec D) (d : Disk) (v : Version) (y : D)
    (hl : load c d = some (v, y)) (hv : v ≠ latest) :
    connect c d = some c.empty ∧ runOps d (connectOps c d) = fun _ => none := by
  have h : runOps d (connectOps c d) = fun _ => none := by
    unfold connectOps
    rw [hl]
    simp only [if_neg hv]
    rw [runOps_append, close_complete]
    funext m
    cases m <;> simp [runOps, Op.run, Disk.put]
  exact ⟨by simp [connect, h, load], h⟩

example : load Ex.codec Ex.oldDisk = some ("1", 3) ∧ ("1" : Version) ≠ latest := ⟨rfl, by decide⟩

/-- **C20**, classes that have moved: if the state file refers to a class or attribute that does not exist any more, the database
is empty, and the file is left as it is until the database is saved. -/
theorem C20_moved (c : Codec D) (d : Disk) (bytes : Bytes) (hf : d .path = some bytes) (hm : c.dec bytes = .moved) :
    connect c d = some c.empty ∧ runOps d (connectOps c d) = d := by
  have h : connectOps c d = [] := by simp [connectOps, load, hf, hm]
  exact ⟨by simp [connect, h, runOps, load, hf, hm], by rw [h]; rfl⟩

/-- the codec above after a refactoring: files that begin with 9 refer to a class that is gone.  Such a file is kept, and the
database is empty; the same bytes without the 9 are read as 3 -/
example :
    let c : Codec Nat := { Ex.codec with dec := fun bs => if bs.head? = some 9 then .moved else Ex.codec.dec bs }
    let gone : Disk := fun n => if n = .path then some [9, 2, 7, 7, 7] else none
    (c.dec [9, 2, 7, 7, 7] = .moved ∧ connect c gone = some 0 ∧ runOps gone (connectOps c gone) .path = some [9, 2, 7, 7, 7]) ∧
    connect c Ex.disk = some 3 := ⟨⟨rfl, rfl, rfl⟩, rfl⟩

/-- **C20** (partial), crashes: killed at any point of the upgrade, the next start begins with an empty
database, or sees the old file again, or (this is the defect) takes the old tables for current ones;
the last only if it was killed after the save and before the removal. -/
theorem C20_crash_partial (c : Codec D) (d : Disk) (v : Version) (y : D)
    (hl : load c d = some (v, y)) (hv : v ≠ latest) (n : Nat)
    (hn : n ≤ (closeOps c d y).length - 2 ∨ n > (closeOps c d y).length) :
    connect c (runOps d ((connectOps c d).take n)) = some c.empty := by
  have key : ∀ e : Disk, e .path = d .path ∨ e .path = none → connect c e = some c.empty := by
    rintro e (he | he)
    · have : load c e = some (v, y) := by rw [← hl]; simp only [load, he]
      exact (C20_connect_partial c e v y this hv).1
    · simp [connect, connectOps, load, he, runOps]
  have hops : connectOps c d = closeOps c d y ++ [.remove .path] := by
    unfold connectOps; rw [hl]; simp only [if_neg hv]
  rw [hops]
  apply key
  have hps : (d .path).isSome := by
    cases hp : d .path with
    | none => simp [load, hp] at hl; exact absurd hl.1.symm hv
    | some _ => rfl
  have hcl : closeOps c d y = writeOps c y ++ [.rename .path .old, .rename .tmp .path, .remove .old] := by
    simp [closeOps, writeOps, hps]
  rcases hn with hn | hn
  · rw [hcl] at hn ⊢
    simp only [List.length_append, List.length_cons, List.length_nil] at hn
    rw [List.append_assoc, List.take_append, runOps_append]
    by_cases hw : n ≤ (writeOps c y).length
    · rw [Nat.sub_eq_zero_of_le hw, List.take_zero]
      left
      exact write_prefix d _ n .path (by simp)
    · have : n - (writeOps c y).length = 1 := by omega
      rw [this]
      right
      simp [runOps, Op.run]
  · rw [List.take_of_length_le (by simp; omega), runOps_append]
    right; simp [runOps, Op.run]

/-- **C20** is false: killed after the old tables were saved under the new version and before the file
was removed, the next start takes the tables of the other version for its own. -/
theorem C20_crash_violated :
    ∃ n, load Ex.codec Ex.oldDisk = some ("1", 3) ∧ connect Ex.codec Ex.oldDisk = some 0 ∧
      connect Ex.codec (runOps Ex.oldDisk ((connectOps Ex.codec Ex.oldDisk).take n)) = some 3 :=
  ⟨7, rfl, rfl, rfl⟩

/-- `k` times: save, end the process, start again and load -/
def cycles (c : Codec D) : Nat → Disk → D → Option (Disk × D)
  | 0, d, x => some (d, x)
  | k + 1, d, x =>
    let d1 := runOps d (closeOps c d x)
    match connect c d1 with
    | none => none
    | some y => cycles c k (runOps d1 (connectOps c d1)) y

/-- **C21**.  After any number of save/load cycles, starting from any disk, the tables are the ones
that were saved (given that pickle reads back what it wrote); equal tables answer every call equally. -/
theorem C21_survives (c : Codec D) (hc : ∀ x, c.dec (c.enc latest x) = .data (some latest) x)
    (k : Nat) (d : Disk) (x : D) : ∃ d', cycles c k d x = some (d', x) := by
  induction k generalizing d with
  | zero => exact ⟨d, rfl⟩
  | succ k ih =>
    unfold cycles
    have : connect c (runOps d (closeOps c d x)) = some x := by
      rw [close_complete]
      simp [connect, connectOps, load, hc, runOps]
    simp only [this]
    exact ih _

example : ∀ x, Ex.codec.dec (Ex.codec.enc latest x) = .data (some latest) x := Ex.codec_ok

/-- An interrupted session: work from the tables `x`, arriving at `y`, and a crash at point `n` of the
save, any number of times.  Every start reads one of the states some earlier session had (or an
empty database), never anything else. -/
def sessions (c : Codec D) : List ((D → D) × Nat) → Disk → Option Disk
  | [], d => some d
  | (work, n) :: rest, d =>
    match connect c d with
    | none => none
    | some x =>
      let d1 := runOps d (connectOps c d)
      sessions c rest (runOps d1 ((closeOps c d1 (work x)).take n))

/-- the states that can be read: reached by the work of some of the sessions from the empty one -/
inductive Made (c : Codec D) (ws : List ((D → D) × Nat)) : D → Prop
  | empty : Made c ws c.empty
  | work (q : (D → D) × Nat) (x : D) : q ∈ ws → Made c ws x → Made c ws (q.1 x)

/-- **C18** over any number of sessions, each possibly killed while saving: the tables read by the
next start are made by the work of sessions, from an empty database. -/
theorem C18_sessions (c : Codec D) (hc : ∀ x, c.dec (c.enc latest x) = .data (some latest) x)
    (all ws : List ((D → D) × Nat)) (hsub : ∀ q ∈ ws, q ∈ all) (d : Disk)
    (hd : d .path = none ∨ ∃ x, d .path = some (c.enc latest x) ∧ Made c all x) :
    ∃ d' x, sessions c ws d = some d' ∧ connect c d' = some x ∧ Made c all x := by
  have key : ∀ d : Disk, (d .path = none ∨ ∃ x, d .path = some (c.enc latest x) ∧ Made c all x) →
      ∃ x, connect c d = some x ∧ Made c all x ∧ connectOps c d = [] := by
    rintro d (h | ⟨x, h, hm⟩)
    · exact ⟨c.empty, by simp [connect, connectOps, load, h, runOps], .empty,
        by simp [connectOps, load, h]⟩
    · exact ⟨x, by simp [connect, connectOps, load, h, hc, runOps], hm,
        by simp [connectOps, load, h, hc]⟩
  induction ws generalizing d with
  | nil =>
    obtain ⟨x, h1, h2, _⟩ := key d hd
    exact ⟨d, x, rfl, h1, h2⟩
  | cons q ws ih =>
    obtain ⟨work, n⟩ := q
    obtain ⟨x, h1, h2, h3⟩ := key d hd
    simp only [sessions, h1, h3, runOps, List.foldl_nil]
    apply ih (fun q hq => hsub q (List.mem_cons_of_mem _ hq))
    have hw : Made c all (work x) := .work (work, n) x (hsub _ (List.mem_cons_self ..)) h2
    rcases close_crash c d (work x) n with h | h | h
    · simp only [runOps] at h; rw [h]; exact hd
    · right; exact ⟨work x, h, hw⟩
    · left; exact h.1

/-- two sessions adding 2 and 3, the first killed while saving over an existing file, or not at all -/
example : sessions Ex.codec [((· + 2), 100), ((· + 3), 6)] (fun _ => none) ≠ none ∧
    ((sessions Ex.codec [((· + 2), 100), ((· + 3), 8)] (fun _ => none)).bind (connect Ex.codec)) = some 0 ∧
    ((sessions Ex.codec [((· + 2), 100), ((· + 3), 100)] (fun _ => none)).bind (connect Ex.codec)) = some 5 := by
  refine ⟨by simp [sessions, connect, load, connectOps, Ex.codec, runOps, latest, closeOps, Op.run, Disk.put], rfl, rfl⟩

end Verif.DB.Pickle
