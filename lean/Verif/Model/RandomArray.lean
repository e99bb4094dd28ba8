import Verif.Model.Random

/-!
# Model of the functions that fill arrays with random numbers (random.c)

Doubles are rational numbers with a rounding function as in Model/Random.lean.
-/

namespace Sp

/-- The loop body of all of the functions: a number is drawn and written. /repo/source/c/foreign/sph-sc-lib/sph-sp/random.c:92-94, 97-99, 102-104, 107-109,
114-116, 119-121, 127-129, 135-137 -/
def drawBody {σ α : Type} (draw : σ → C (α × σ)) (i : Nat) (s : σ × Buf α) : C (σ × Buf α) := do
  let (x, g) ← draw s.1
  let out ← wr s.2 i x
  return (g, out)

/-- The loop of all of the functions, for an array that is given by a pointer to its first element. -/
def drawArray {σ α : Type} (draw : σ → C (α × σ)) (g : σ) (size : Nat) (out : Buf α) : C (σ × Buf α) := forRange 0 size (drawBody draw) (g, out)

/-- `sph_random_u32`, also `sp_time_random`. /repo/source/c/foreign/sph-sc-lib/sph-sp/random.c:111, sph-sp.h:68, main.h:73 -/
def randomU32 (s : RandomState) : Nat × RandomState := (((randomU64 s).1 >>> 32).toNat, (randomU64 s).2)

/-- `sph_random_u64_array`. /repo/source/c/foreign/sph-sc-lib/sph-sp/random.c:91-95 -/
def randomU64Array (s : RandomState) (size : Nat) (out : Buf U64) : C (RandomState × Buf U64) := drawArray (fun s => .ok (randomU64 s)) s size out

/-- `sph_random_u64_bounded_array`. /repo/source/c/foreign/sph-sc-lib/sph-sp/random.c:96-100 -/
def randomU64BoundedArray (fuel : Nat) (s : RandomState) (range size : Nat) (out : Buf Nat) : C (RandomState × Buf Nat) :=
  drawArray (randomU64Bounded fuel range) s size out

/-- `sph_random_f64_array`. /repo/source/c/foreign/sph-sc-lib/sph-sp/random.c:101-105 -/
def randomF64Array (rnd : ℚ → ℚ) (s : RandomState) (size : Nat) (out : Buf ℚ) : C (RandomState × Buf ℚ) :=
  drawArray (fun s => .ok (randomF64 rnd s)) s size out

/-- `sph_random_f64_bounded_array`, also `sp_samples_random_bounded`. /repo/source/c/foreign/sph-sc-lib/sph-sp/random.c:106-110, sph-sp.h:41, main.h:78 -/
def samplesRandomBounded (rnd : ℚ → ℚ) (s : RandomState) (range : ℚ) (size : Nat) (out : Buf ℚ) : C (RandomState × Buf ℚ) :=
  drawArray (fun s => .ok (randomF64Bounded rnd range s)) s size out

/-- `sph_random_u32_array`, also `sp_times_random`. /repo/source/c/foreign/sph-sc-lib/sph-sp/random.c:113-117, sph-sp.h:74, main.h:74 -/
def timesDraw (s : RandomState) (size : Nat) (out : Buf Nat) : C (RandomState × Buf Nat) := drawArray (fun s => .ok (randomU32 s)) s size out

/-- `sph_random_u32_bounded_array`, also `sp_times_random_bounded`. /repo/source/c/foreign/sph-sc-lib/sph-sp/random.c:118-122, sph-sp.h:71, main.h:77 -/
def timesDrawBounded (fuel : Nat) (s : RandomState) (range size : Nat) (out : Buf Nat) : C (RandomState × Buf Nat) :=
  drawArray (randomU32Bounded fuel range) s size out

/-- `sph_random_f64_array_1to1`, also `sp_samples_random` and `sp_noise`. /repo/source/c/foreign/sph-sc-lib/sph-sp/random.c:126-130, sph-sp.h:44, main.h:7, 75 -/
def samplesRandom (rnd : ℚ → ℚ) (s : RandomState) (size : Nat) (out : Buf ℚ) : C (RandomState × Buf ℚ) :=
  drawArray (fun s => .ok (randomF64_1to1 rnd s)) s size out

/-- `sph_random_f64_array_0to1`, also `sp_units_random`. /repo/source/c/foreign/sph-sc-lib/sph-sp/random.c:134-138, sph-sp.h:83, main.h:76 -/
def unitsRandom (rnd : ℚ → ℚ) (s : RandomState) (size : Nat) (out : Buf ℚ) : C (RandomState × Buf ℚ) :=
  drawArray (fun s => .ok (randomF64_0to1 rnd s)) s size out

end Sp
