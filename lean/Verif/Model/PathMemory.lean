import Verif.Model.Noise

/-!
# Model of spline-path.c: the memory of paths inside of paths

`spline_path_path` allocates a copy of the contained path and stores its address in the `data` of the segment. Only this memory is modelled, see
`Verif.Model.PathNest` for the values. `Live` is the set of live allocations. The arrays of segments belong to the caller and are taken to stay alive.

Line numbers without a file are for /repo/source/c/foreign/sph-sc-lib/sph-sp/spline-path.c.
-/

namespace Sp

/-- The segments of a path: one without data and the remaining ones, or one with data, which is a copy of the contained path, and the remaining ones.
spline-path.h:46-61 -/
inductive MSegs
  | nil
  | plain (rest : MSegs)
  | path (data : Nat) (inner rest : MSegs)

/-- The accesses to `data` in `spline_path_set`: `spline_path_path_prepare` reads it. 58-61, 69-95 -/
def MSegs.set (m : Live) : MSegs → C Unit
  | .nil => .ok ()
  | .plain rest => rest.set m
  | .path data _ rest => if m.live data then rest.set m else .error .useAfterFree

/-- The accesses to `data` in `spline_path_get`: `spline_path_path_generate` changes it and reads the contained path. Simplified: all segments are
generated, also those outside of the range. 19-44, 157 -/
def MSegs.get (m : Live) : MSegs → C Unit
  | .nil => .ok ()
  | .plain rest => rest.get m
  | .path data inner rest =>
    if m.live data then do
      inner.get m
      rest.get m
    else .error .useAfterFree

/-- `spline_path_free`. 120-129 -/
def MSegs.free (m : Live) : MSegs → C Live
  | .nil => .ok m
  | .plain rest => rest.free m
  | .path data _ rest => do
    let m ← m.free (some data)
    rest.free m

/-- `spline_path_path`: the segment in front of `rest`; a constant if the allocation fails (`ok` is false). 246-259 -/
def splinePathPath (ok : Bool) (inner : MSegs) (m : Live) : (MSegs → MSegs) × Live :=
  if ok then (.path m.malloc.1 inner, m.malloc.2) else (.plain, m)

/-- `spline_path_segments_get`. 108-116 -/
def MSegs.segmentsGet (m : Live) (segs : MSegs) : C Live := do
  segs.set m
  segs.get m
  segs.free m

end Sp
