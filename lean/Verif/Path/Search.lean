import Verif.Builders.File
import Verif.Glob.Core
/-!
# Model of the methods of lib/fbuild/path.py that read files and search directories

`digest`, `glob`, `iglob`, `globall`, `igloball` and `find` with a pattern.  `glob` and `fnmatch` are those of `Glob/` and
`Fnmatch/`, `find` works on the files of `Builders/File.lean`.  Left out: links, directories that cannot be read (`os.walk` and
`os.listdir` in glob.py pass over them), changes of the files during a call, `normcase` (nothing on POSIX).
-/
namespace Verif.Search
open Verif.Posix Verif.Path

/-! ## digest -/

/-- a hash of `hashlib`: the object that is made, `update`, `hexdigest` -/
structure Hash (σ : Type) where
  init : σ
  update : σ → List UInt8 → σ
  hex : σ → Text

/-- `f.read(chunksize)` of a file opened in the mode `rb`, at a place with `rest` before the end: what is returned, and what is
left.  A negative size reads everything. -/
def read (chunksize : Int) (rest : List UInt8) : List UInt8 × List UInt8 :=
  if chunksize < 0 then (rest, []) else (rest.take chunksize.toNat, rest.drop chunksize.toNat)

theorem read_left (n : Int) (rest : List UInt8) (h : (read n rest).1 ≠ []) :
    (read n rest).2.length < rest.length := by
  unfold read at h ⊢
  split at h
  · simp only [ne_eq] at h
    simpa [*] using List.length_pos_iff.mpr h
  · rename_i hn
    rw [if_neg hn]
    simp only [ne_eq, List.take_eq_nil_iff, not_or] at h
    have := List.length_pos_iff.mpr h.2
    simp only [List.length_drop]
    omega

/-- the loop of `digest` (path.py 299-303) -/
def digestLoop {σ : Type} (h : Hash σ) (chunksize : Int) (m : σ) (rest : List UInt8) : σ :=
  if _hd : (read chunksize rest).1 = [] then m
  else digestLoop h chunksize (h.update m (read chunksize rest).1) (read chunksize rest).2
termination_by rest.length
decreasing_by exact read_left _ _ _hd

/-- `Path.digest` (path.py 295-304) of a file with these contents -/
def digest {σ : Type} (h : Hash σ) (contents : List UInt8) (chunksize : Int := 65536) : Text :=
  h.hex (digestLoop h chunksize h.init contents)

/-! ## glob -/

/-- the argument `exclude`: a text, or a list of texts -/
inductive Exclude where
  | str (pattern : Text)
  | list (patterns : List Text)

/-- `if isinstance(exclude, str): exclude = [exclude]` (path.py 238-239) -/
def Exclude.patterns : Exclude → List Text
  | .str p => [p]
  | .list ps => ps

open Classical in
/-- `Path.iglob` and `Path.glob` (path.py 233-246).  A pattern in `exclude` that is no pattern raises an exception in the code
and matches nothing here. -/
noncomputable def iglob (fs : Glob.FS) (exclude : Exclude) (self : Text) : List Text :=
  (Glob.glob fs true self).filter fun path => !exclude.patterns.any fun pattern => decide (Fnmatch.Fnmatchcase path pattern)

/-- an argument of `Path.globall`: a text, or something that can be iterated over -/
inductive Arg where
  | str (pattern : Text)
  | items (l : List Arg)

mutual
/-- the loop of `igloball` (path.py 527-536); `**kwargs` are not passed on to the call for the items (531) -/
noncomputable def igloball (fs : Glob.FS) (exclude : Exclude) : List Arg → List Text
  | [] => []
  | a :: rest => globArg fs exclude a ++ igloball fs exclude rest
/-- `paths` for one argument (path.py 528-533) -/
noncomputable def globArg (fs : Glob.FS) (exclude : Exclude) : Arg → List Text
  | .str s => iglob fs exclude s
  | .items l => igloball fs (.list []) l
end

/-- `Path.globall` (path.py 519-520) -/
noncomputable def globall (fs : Glob.FS) (patterns : List Arg) (exclude : Exclude := .list []) : List Text :=
  igloball fs exclude patterns

/-! ## find -/

open Classical in
/-- `pattern is not None and not Path.fnmatch(f, pattern)` does not hold (path.py 196) -/
noncomputable def keep (pattern : Option Text) (f : Text) : Bool :=
  match pattern with
  | none => true
  | some p => decide (Fnmatch.Fnmatchcase f p)

/-- `Path.find` (path.py 188-199), `os.walk` from the top down.  `ls` lists a directory; the number bounds the depth. -/
noncomputable def find (cwd : FileOps.Loc) (fs : FileOps.FS) (ls : FileOps.Loc → List Text) (pattern : Option Text)
    (includeDirs : Bool) : Nat → Text → List Text
  | 0, _ => []
  | n + 1, root =>
    if FileOps.isdir cwd fs root = false then [] else
    let isDir (f : Text) : Bool := fs (FileOps.loc cwd root ++ [f]) = some .dir
    let dirs := (ls (FileOps.loc cwd root)).filter isDir
    let files := (ls (FileOps.loc cwd root)).filter fun f => !isDir f
    ((if includeDirs then files ++ dirs else files).filter (keep pattern)).map (join root) ++
      dirs.flatMap fun d => find cwd fs ls pattern includeDirs n (join root d)

end Verif.Search
