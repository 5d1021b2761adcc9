/-!
# How a program reads its command line

Small specification that the properties of command lines (C116-C118) are stated with: some options take the next word as their
argument, other words with a dash in front are switches, and the rest are files.
-/
namespace Verif.Reader

abbrev Text := List Char

/-- what a word or two are to the program -/
inductive Word where
  | option (name arg : Text)
  | switch (w : Text)
  | file (w : Text)
  deriving DecidableEq

/-- Reading a command line (without the name of the program); `takes` are the options that have an argument. -/
def read (takes : List Text) : List Text → List Word
  | [] => []
  | [w] => [if w.head? = some '-' then .switch w else .file w]
  | w :: v :: rest =>
    if w ∈ takes then .option w v :: read takes rest
    else (if w.head? = some '-' then .switch w else .file w) :: read takes (v :: rest)

/-- The arguments of an option, in order. -/
def argsOf (o : Text) (ws : List Word) : List Text :=
  ws.filterMap fun
    | .option n v => if n = o then some v else none
    | _ => none

/-- The files, in order. -/
def filesOf (ws : List Word) : List Text :=
  ws.filterMap fun
    | .file w => some w
    | _ => none

/-- The switches, in order. -/
def switchesOf (ws : List Word) : List Text :=
  ws.filterMap fun
    | .switch w => some w
    | _ => none

/-- No argument is missing at the end. -/
def whole (takes : List Text) : List Text → Bool
  | [] => true
  | [w] => !decide (w ∈ takes)
  | w :: v :: rest => if w ∈ takes then whole takes rest else whole takes (v :: rest)

/-- The word is a switch. -/
def Switch (takes : List Text) (w : Text) : Prop := w.head? = some '-' ∧ w ∉ takes

/-- The word is a file. -/
def File (takes : List Text) (w : Text) : Prop := w.head? ≠ some '-' ∧ w ∉ takes

@[simp] theorem argsOf_nil (o) : argsOf o [] = [] := rfl
@[simp] theorem filesOf_nil : filesOf [] = [] := rfl
@[simp] theorem switchesOf_nil : switchesOf [] = [] := rfl
@[simp] theorem argsOf_append (o a b) : argsOf o (a ++ b) = argsOf o a ++ argsOf o b := by simp [argsOf]
@[simp] theorem filesOf_append (a b) : filesOf (a ++ b) = filesOf a ++ filesOf b := by simp [filesOf]
@[simp] theorem switchesOf_append (a b) : switchesOf (a ++ b) = switchesOf a ++ switchesOf b := by simp [switchesOf]

theorem read_append (takes : List Text) (a b : List Text) (h : whole takes a = true) :
    read takes (a ++ b) = read takes a ++ read takes b := by
  fun_induction whole takes a with
  | case1 => rfl
  | case2 w =>
    have hw : w ∉ takes := by simpa using h
    cases b with
    | nil => simp [read]
    | cons v b => simp [read, hw]
  | case3 w v rest hw ih => simp only [List.cons_append, read, hw, if_true]; rw [ih h]
  | case4 w v rest hw ih =>
    have := ih h
    simp only [List.cons_append, read, hw, if_false] at this ⊢
    rw [this]

theorem whole_append (takes : List Text) (a b : List Text) (h : whole takes a = true) (hb : whole takes b = true) :
    whole takes (a ++ b) = true := by
  fun_induction whole takes a with
  | case1 => exact hb
  | case2 w =>
    have hw : w ∉ takes := by simpa using h
    cases b with
    | nil => simpa [whole] using hw
    | cons v b => simp only [List.cons_append, List.nil_append, whole, hw, if_false]; exact hb
  | case3 w v rest hw ih => simp only [List.cons_append, whole, hw, if_true]; exact ih h
  | case4 w v rest hw ih =>
    simp only [List.cons_append, whole, hw, if_false] at ih ⊢
    exact ih h

theorem read_option {takes : List Text} {o : Text} (ho : o ∈ takes) (v : Text) :
    whole takes [o, v] = true ∧ read takes [o, v] = [.option o v] := by
  simp [whole, read, ho]

theorem read_pairs {takes : List Text} {o : Text} (ho : o ∈ takes) (xs : List Text) :
    whole takes (xs.flatMap fun x => [o, x]) = true ∧
    read takes (xs.flatMap fun x => [o, x]) = xs.map (Word.option o) := by
  induction xs with
  | nil => exact ⟨rfl, rfl⟩
  | cons x xs ih =>
    simp only [List.flatMap_cons, List.cons_append, List.nil_append, whole, read, ho, if_true, ih.1, ih.2, List.map_cons, and_self]

theorem read_switches {takes : List Text} (xs : List Text) (h : ∀ w ∈ xs, Switch takes w) :
    whole takes xs = true ∧ read takes xs = xs.map Word.switch := by
  induction xs with
  | nil => exact ⟨rfl, rfl⟩
  | cons x xs ih =>
    obtain ⟨h1, h2⟩ := h x (.head _)
    have ih := ih (fun w hw => h w (.tail _ hw))
    cases xs with
    | nil => simp [whole, read, h1, h2]
    | cons y ys =>
      simp only [whole, read, h2, if_false, h1, if_true]
      exact ⟨ih.1, by rw [ih.2]; rfl⟩

theorem read_files {takes : List Text} (xs : List Text) (h : ∀ w ∈ xs, File takes w) :
    whole takes xs = true ∧ read takes xs = xs.map Word.file := by
  induction xs with
  | nil => exact ⟨rfl, rfl⟩
  | cons x xs ih =>
    obtain ⟨h1, h2⟩ := h x (.head _)
    have ih := ih (fun w hw => h w (.tail _ hw))
    cases xs with
    | nil => simp [whole, read, h1, h2]
    | cons y ys =>
      simp only [whole, read, h2, if_false, h1]
      exact ⟨ih.1, by rw [ih.2]; rfl⟩

@[simp] theorem argsOf_switches (o : Text) (xs : List Text) : argsOf o (xs.map Word.switch) = [] := by simp [argsOf]
@[simp] theorem argsOf_files (o : Text) (xs : List Text) : argsOf o (xs.map Word.file) = [] := by simp [argsOf]
@[simp] theorem filesOf_switches (xs : List Text) : filesOf (xs.map Word.switch) = [] := by simp [filesOf]
@[simp] theorem filesOf_options (o : Text) (xs : List Text) : filesOf (xs.map (Word.option o)) = [] := by simp [filesOf]
@[simp] theorem switchesOf_files (xs : List Text) : switchesOf (xs.map Word.file) = [] := by simp [switchesOf]
@[simp] theorem switchesOf_options (o : Text) (xs : List Text) : switchesOf (xs.map (Word.option o)) = [] := by simp [switchesOf]
@[simp] theorem filesOf_files (xs : List Text) : filesOf (xs.map Word.file) = xs := by
  induction xs with
  | nil => rfl
  | cons x xs ih => simp only [List.map_cons, filesOf, List.filterMap_cons_some]; exact congrArg _ ih
@[simp] theorem switchesOf_switches (xs : List Text) : switchesOf (xs.map Word.switch) = xs := by
  induction xs with
  | nil => rfl
  | cons x xs ih => simp only [List.map_cons, switchesOf, List.filterMap_cons_some]; exact congrArg _ ih
theorem argsOf_options (o n : Text) (xs : List Text) :
    argsOf o (xs.map (Word.option n)) = if n = o then xs else [] := by
  induction xs with
  | nil => simp [argsOf]
  | cons x xs ih =>
    by_cases h : n = o
    · subst h
      simp only [if_true] at ih ⊢
      simp only [List.map_cons, argsOf, List.filterMap_cons, if_true]
      exact congrArg _ ih
    · simp only [h, if_false] at ih ⊢
      simp only [List.map_cons, argsOf, List.filterMap_cons, h, if_false]
      exact ih

end Verif.Reader
