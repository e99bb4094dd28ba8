import Verif.C

/-!
# Model of quicksort (quicksort.h)

Indices are `ssize_t`, that is integers. The comparison and the exchange functions are those of the
array of the model: comparison of the elements at two indices by `lt`, and exchange of the elements.
The numbers `n` (for loops) and `depth` (for the recursion) bound the number of steps.
-/

namespace Sp
variable {α : Type}

/-- `array[i]` for a signed index. -/
def rdI (b : Buf α) (i : Int) : C α := if i < 0 then .error .outOfBounds else rd b i.toNat

/-- `array[i] = v` for a signed index. -/
def wrI (b : Buf α) (i : Int) (v : α) : C (Buf α) := if i < 0 then .error .outOfBounds else wr b i.toNat v

/-- `sp_times_sort_less`, for an arbitrary comparison.
/repo/source/c-precompiled/sph-sp/arrays-template.c:10 -/
def sortLess (lt : α → α → Bool) (b : Buf α) (i j : Int) : C Bool := do
  let x ← rdI b i
  let y ← rdI b j
  return lt x y

/-- `sp_times_sort_swap`. /repo/source/c-precompiled/sph-sp/arrays-template.c:4-9 -/
def sortSwap (b : Buf α) (i j : Int) : C (Buf α) := do
  let d ← rdI b i
  let y ← rdI b j
  let b ← wrI b i y
  wrI b j d

/-- `while (less_p(array, l, pivot)) { l = 1 + l; }`.
/repo/source/c/foreign/sph-sc-lib/sph-sp/quicksort.h:16-18 -/
def scanLeft (lt : α → α → Bool) (b : Buf α) (pivot : Int) : Nat → Int → C Int
  | 0, _ => .error .nonTermination
  | n + 1, l => do
    let t ← sortLess lt b l pivot
    if t then scanLeft lt b pivot n (1 + l) else return l

/-- `while (less_p(array, pivot, r)) { r = r - 1; }`.
/repo/source/c/foreign/sph-sc-lib/sph-sp/quicksort.h:19-21 -/
def scanRight (lt : α → α → Bool) (b : Buf α) (pivot : Int) : Nat → Int → C Int
  | 0, _ => .error .nonTermination
  | n + 1, r => do
    let t ← sortLess lt b pivot r
    if t then scanRight lt b pivot n (r - 1) else return r

/-- The pivot index after the exchange of `l` and `r`. quicksort.h:25-29 -/
def nextPivot (pivot l r : Int) : Int := if pivot = l then r else if pivot = r then l else pivot

/-- The partition loop; returns array, `l` and `r`.
/repo/source/c/foreign/sph-sc-lib/sph-sp/quicksort.h:15-33 -/
def partitionLoop (lt : α → α → Bool) (scan : Nat) : Nat → Buf α → Int → Int → Int → C (Buf α × Int × Int)
  | 0, _, _, _, _ => .error .nonTermination
  | n + 1, b, pivot, l, r => do
    let l ← scanLeft lt b pivot scan l
    let r ← scanRight lt b pivot scan r
    if l > r then return (b, l, r)
    else do
      let b ← sortSwap b l r
      partitionLoop lt scan n b (nextPivot pivot l r) (1 + l) (r - 1)

/-- `quicksort`. The division is that of nonnegative numbers.
/repo/source/c/foreign/sph-sc-lib/sph-sp/quicksort.h:8-36 -/
def quicksort (lt : α → α → Bool) (n : Nat) : Nat → Buf α → Int → Int → C (Buf α)
  | 0, _, _, _ => .error .nonTermination
  | depth + 1, b, left, right =>
    if right ≤ left then .ok b
    else do
      let (b, l, r) ← partitionLoop lt n n b (left + (right - left) / 2) left right
      let b ← quicksort lt n depth b left r
      quicksort lt n depth b l right

end Sp
