/-!
# The PyInstaller hook

Model of `/repo/src/psygnal/_pyinstaller_util/hook-psygnal.py`.  File names are lists of characters; a path is the list of its
components.  What the system says (the record of the installed files, the entries of two directories) is input.
-/
namespace Psygnal.Hook

/-- A string (`/repo/src/psygnal/_pyinstaller_util/hook-psygnal.py:19`). -/
abbrev Str := List Char

/-- `PurePath.suffix` of a file name: from its last dot on, if that is neither the first nor the last character (Python's `pathlib`;
used at `/repo/src/psygnal/_pyinstaller_util/hook-psygnal.py:16`). -/
def suffix (n : Str) : Str :=
  let r := n.reverse.takeWhile (· ≠ '.')
  if r = [] ∨ n.length ≤ r.length + 1 then [] else '.' :: r.reverse

/-- The test of `binary_files` (`/repo/src/psygnal/_pyinstaller_util/hook-psygnal.py:15-16`); `file.suffix` is that of the last component. -/
def binary (p : List Str) : Bool :=
  match p.getLast? with
  | none => false
  | some n => suffix n = ['.', 's', 'o'] ∨ suffix n = ['.', 'p', 'y', 'd']

/-- `str(path)`: the components with separators between them (Python's `pathlib`; used at
`/repo/src/psygnal/_pyinstaller_util/hook-psygnal.py:44`); `sep` is that of the system. -/
def str (sep : Char) : List Str → Str
  | [] => []
  | [n] => n
  | n :: p => n ++ sep :: str sep p

/-- `str(module).split(".")[0].replace("/", ".").replace("\\", ".")`
(`/repo/src/psygnal/_pyinstaller_util/hook-psygnal.py:44`). -/
def name (sep : Char) (p : List Str) : Str :=
  (((str sep p).takeWhile (· ≠ '.')).map (fun c => if c = '/' then '.' else c)).map (fun c => if c = '\\' then '.' else c)

/-- What the system says: the record of the installed files (outer `none`: `PackageNotFoundError`, `:24`; inner `none`: there is no record,
`:27`), the name of the package directory and the names in it and in the directory that contains it (`:35-40`). -/
structure Sys where
  sep : Char
  record : Option (Option (List (List Str)))
  pkg : Str
  inPkg : List Str
  inSrc : List Str

/-- `res` (`/repo/src/psygnal/_pyinstaller_util/hook-psygnal.py:20`). -/
def fixed : List Str := ["queue".toList, "mypy_extensions".toList, "__future__".toList]

/-- `create_hiddenimports` (`/repo/src/psygnal/_pyinstaller_util/hook-psygnal.py:19-46`). -/
def create (y : Sys) : List Str :=
  match y.record with
  | none => fixed
  | some none => fixed
  | some (some files) =>
    let modules := files.filter binary
    let modules := if modules.length < 2 then
        (y.inPkg.filter (fun n => binary [n])).map (fun n => [y.pkg, n]) ++ (y.inSrc.filter (fun n => binary [n])).map (fun n => [n])
      else modules
    fixed ++ modules.map (name y.sep)

end Psygnal.Hook
