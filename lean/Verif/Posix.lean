/-!
# `os.path` on POSIX

The functions of Python's `posixpath` that fbuild uses, on texts as lists of characters.
-/
namespace Verif.Posix

/-- `os.path.isabs` -/
def isabs (p : List Char) : Bool := p.head? == some '/'

/-- `os.path.join(a, b)` -/
def join (a b : List Char) : List Char :=
  if isabs b then b
  else if a = [] ∨ a.getLast? = some '/' then a ++ b
  else a ++ '/' :: b

/-- what follows the last slash -/
def tail (p : List Char) : List Char := (p.reverse.takeWhile (fun c => c ≠ '/')).reverse

/-- up to and with the last slash -/
def head (p : List Char) : List Char := (p.reverse.dropWhile (fun c => c ≠ '/')).reverse

/-- `p.rstrip('/')` -/
def rstrip (p : List Char) : List Char := (p.reverse.dropWhile (fun c => c = '/')).reverse

/-- `os.path.split` -/
def split (p : List Char) : List Char × List Char :=
  (if (head p).all (fun c => c = '/') then head p else rstrip (head p), tail p)

/-- `os.path.splitext`: the last dot of the file name, if something but dots is in front of it -/
def splitext (p : List Char) : List Char × List Char :=
  let rev := (tail p).reverse
  let stem := rev.dropWhile (fun c => c ≠ '.')
  if (stem.drop 1).any (fun c => c ≠ '.') then
    (head p ++ (stem.drop 1).reverse, '.' :: (rev.takeWhile (fun c => c ≠ '.')).reverse)
  else (p, [])

theorem head_append_tail (p : List Char) : head p ++ tail p = p := by
  unfold head tail
  rw [← List.reverse_append, List.takeWhile_append_dropWhile, List.reverse_reverse]

theorem tail_noSlash (p : List Char) : '/' ∉ tail p := by
  unfold tail
  intro h
  rw [List.mem_reverse] at h
  have h : ∀ l : List Char, '/' ∈ l.takeWhile (fun c => c ≠ '/') → False := by
    intro l
    induction l with
    | nil => simp
    | cons c l ih =>
      rw [List.takeWhile_cons]
      split
      · rename_i hc
        simp only [List.mem_cons, not_or]
        rintro (he | he)
        · subst he; simp at hc
        · exact ih he
      · simp
  exact h _ ‹_›

theorem takeWhile_all {p : Char → Bool} (a b : List Char) (h : ∀ c ∈ a, p c = true) :
    (a ++ b).takeWhile p = a ++ b.takeWhile p := by
  induction a with
  | nil => rfl
  | cons c a ih => simp [h c (.head _), ih (fun d hd => h d (.tail _ hd))]

theorem dropWhile_all {p : Char → Bool} (a b : List Char) (h : ∀ c ∈ a, p c = true) :
    (a ++ b).dropWhile p = b.dropWhile p := by
  induction a with
  | nil => rfl
  | cons c a ih => simp [h c (.head _), ih (fun d hd => h d (.tail _ hd))]

theorem ne_slash {c : List Char} (h : '/' ∉ c) : ∀ d ∈ c.reverse, (fun c => decide (c ≠ '/')) d = true := by
  intro d hd
  simp only [ne_eq, decide_not, Bool.not_eq_eq_eq_not, Bool.not_true, decide_eq_false_iff_not]
  intro he
  subst he
  exact h (List.mem_reverse.mp hd)

theorem tail_slash (h c : List Char) (hc : '/' ∉ c) : tail (h ++ '/' :: c) = c := by
  unfold tail
  rw [List.reverse_append, List.reverse_cons, List.append_assoc, takeWhile_all _ _ (ne_slash hc)]
  simp

theorem head_slash (h c : List Char) (hc : '/' ∉ c) : head (h ++ '/' :: c) = h ++ ['/'] := by
  unfold head
  rw [List.reverse_append, List.reverse_cons, List.append_assoc, dropWhile_all _ _ (ne_slash hc)]
  simp

theorem tail_name {c : List Char} (hc : '/' ∉ c) : tail c = c := by
  unfold tail
  have := takeWhile_all c.reverse [] (ne_slash hc)
  rw [List.append_nil] at this
  rw [this]; simp

theorem head_name {c : List Char} (hc : '/' ∉ c) : head c = [] := by
  unfold head
  have := dropWhile_all c.reverse [] (ne_slash hc)
  rw [List.append_nil] at this
  rw [this]; simp

theorem rstrip_snoc (h : List Char) : rstrip (h ++ ['/']) = rstrip h := by
  unfold rstrip
  rw [List.reverse_append]
  simp

theorem rstrip_id {h : List Char} (hl : h.getLast? ≠ some '/') : rstrip h = h := by
  unfold rstrip
  have : h.reverse.head? ≠ some '/' := by rwa [List.head?_reverse]
  cases hr : h.reverse with
  | nil => simp at hr; simp [hr]
  | cons c l =>
    rw [hr] at this
    simp only [List.head?_cons, ne_eq, Option.some.injEq] at this
    rw [List.dropWhile_cons, if_neg (by simpa using this), ← hr, List.reverse_reverse]

end Verif.Posix
