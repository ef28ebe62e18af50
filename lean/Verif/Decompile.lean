/-!
# `decompile` and `recompile`
(`/repo/src/psygnal/utils.py:123-144`)

The files below the directory of the package, with their contents.  A file name is the list of its parts between dots.
-/
namespace Psygnal.Decomp

/-- Parts of names: the extensions of compiled files and of their backups, the empty part, and others
(`/repo/src/psygnal/utils.py:123-124`). -/
inductive Part
  | so
  | pyd
  | soBak
  | pydBak
  | empty
  | other (n : Nat)
  deriving DecidableEq, Repr

/-- A file: its directory and its name (`/repo/src/psygnal/utils.py:133`). -/
structure Path where
  dir : Nat
  name : List Part
  deriving DecidableEq, Repr

/-- The files with their contents (`/repo/src/psygnal/utils.py:133-134`). -/
abbrev Files := List (Path × Nat)

/-- `path.match("*.ext")` (`/repo/src/psygnal/utils.py:133,143`): the pattern of `rglob` also matches names that begin with the dot. -/
def Path.isExt (p : Path) (e : Part) : Bool := decide (2 ≤ p.name.length) && decide (p.name.getLast? = some e)

/-- Whether a name has a suffix in the sense of `pathlib`: something before the last dot and something after it
(`/repo/src/psygnal/utils.py:134,144`). -/
def Path.hasSuffix (p : Path) : Bool :=
  decide (2 ≤ p.name.length) && decide (p.name.dropLast ≠ [.empty]) && decide (p.name.getLast? ≠ some .empty)

/-- `path.with_suffix(".ext")` (`/repo/src/psygnal/utils.py:134,144`). -/
def Path.withSuffix (p : Path) (e : Part) : Path :=
  { p with name := (if p.hasSuffix then p.name.dropLast else p.name) ++ [e] }

/-- `path.rename(target)` on POSIX: an existing file is replaced (`/repo/src/psygnal/utils.py:134,144`). -/
def rename (p q : Path) (fs : Files) : Files :=
  if p = q then fs else (fs.filter fun f => f.1 ≠ q).map fun f => if f.1 = p then (q, f.2) else f

/-- Renaming all files with one extension (`/repo/src/psygnal/utils.py:133-134`); `rglob` lists the files first. -/
def renameAll (e b : Part) (fs : Files) : Files :=
  ((fs.map (·.1)).filter (·.isExt e)).foldl (fun fs p => rename p (p.withSuffix b) fs) fs

/-- `decompile` (`/repo/src/psygnal/utils.py:127-134`). -/
def decompile (fs : Files) : Files := renameAll .pyd .pydBak (renameAll .so .soBak fs)

/-- `recompile` (`/repo/src/psygnal/utils.py:137-144`). -/
def recompile (fs : Files) : Files := renameAll .pydBak .pyd (renameAll .soBak .so fs)

end Psygnal.Decomp
