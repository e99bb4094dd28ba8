import Verif.Model.Noise

/-!
# Model of filesystem.h

`dirname_2` and `ensure_directory_structure`. /repo/source/c/foreign/sph-sc-lib/sph-sp/filesystem.h
Simplified: a path is whether it begins with a slash and the list of its names, so that there are no repeated slashes and no slash at the end;
names are not `.` or `..`. `dirname` is that of the GNU C library: it shortens the given string and returns it, except if the string has no slash, then
it returns a constant string `.`. The allocation of the copy succeeds. Nobody else changes the file system at the same time.
-/

namespace Sp

/-- A path: the names from the last to the first. The empty list is `/` or `.`. -/
structure FilePath where
  absolute : Bool
  names : List (List UInt8)
deriving DecidableEq

/-- What a path has as its parent. -/
def FilePath.parent (p : FilePath) : FilePath := { p with names := p.names.tail }

/-- What the functions of the system see: which paths exist, which can be created if their parent exists, and the variable `errno`, for which only
matters if it is `EEXIST`. -/
structure FileWorld where
  exist : FilePath → Bool
  errnoExists : Bool
  mem : Live

/-- `access(path, F_OK) == -1` negated: `file_exists`. On failure `errno` is set, and not to `EEXIST`. filesystem.h:8 -/
def fileExists (p : FilePath) (w : FileWorld) : Bool × FileWorld :=
  if w.exist p then (true, w) else (false, { w with errnoExists := false })

/-- `dirname_2`: the path and where it is in memory; `none` is a constant string, which is not on the heap. If the path has no slash, then the copy
is not used any more. filesystem.h:11-14 -/
def dirname2 (p : FilePath) (w : FileWorld) : (FilePath × Option Nat) × FileWorld :=
  let (copy, mem) := w.mem.malloc
  if p.absolute ∨ 2 ≤ p.names.length then ((p.parent, some copy), { w with mem := mem })
  else ((p.parent, none), { w with mem := mem })

/-- `free` of such a pointer. Freeing a constant string is undefined. -/
def freePath (a : Option Nat) (w : FileWorld) : C FileWorld :=
  match a with
  | some a => do
    let mem ← w.mem.free (some a)
    return { w with mem := mem }
  | none => .error .doubleFree

/-- `mkdir`: whether it succeeded. `may` says where directories can be created. A call that succeeds does not change `errno`. -/
def makeDir (may : FilePath → Bool) (p : FilePath) (w : FileWorld) : Bool × FileWorld :=
  if w.exist p then (false, { w with errnoExists := true })
  else if w.exist p.parent ∧ may p then (true, { w with exist := fun q => if q = p then true else w.exist q })
  else (false, { w with errnoExists := false })

/-- `ensure_directory_structure`. The C function recurses without end if `/` or `.` does not exist; `fuel` bounds the depth of the recursion.
filesystem.h:17-26 -/
def ensureDirectories (may : FilePath → Bool) : Nat → FilePath → FileWorld → C (Bool × FileWorld)
  | 0, _, _ => .error .nonTermination
  | fuel + 1, p, w => do
    let (e, w) := fileExists p w
    if e then return (true, w)
    else
      let ((parent, address), w) := dirname2 p w
      let (status, w) ← ensureDirectories may fuel parent w
      let w ← freePath address w
      if status then
        if w.errnoExists then return (true, w)
        else return makeDir may p w
      else return (false, w)

end Sp
