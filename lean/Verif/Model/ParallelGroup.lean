import Verif.Model.BlockAdder

/-!
# Model of parallel groups: `sp_group_generate_parallel` (sequencer.c:383)

A parallel group has the functions of a group except that its generate function calls `sp_seq_parallel`. What comes of such a call
depends on the schedule of the threads. It is a relation here (`ParCall`), and the functions of a parallel group are given for any function `run`
that gives one of the results for each call.

Simplified as in `Verif.Model.SeqParallel`: the list of the group is represented by the list of its elements.
-/

namespace Sp
variable {D S : Type} [Add S] [Zero S]

/-- What can come of the call `sp_seq_parallel(x, y, out, l)`: status, remaining events and output, or a fault. -/
inductive ParCall (cb : Callbacks D (Buf (Buf S))) (x y : Nat) (l : List (Addr × Event D)) (out : Buf (Buf S)) :
    C (Nat × List (Addr × Event D) × Buf (Buf S)) → Prop
  | returned {s : Par D S} {st : Nat} : ParReach (blockAdder cb (List.length out)) x y l out s → s.main = .returned st →
      ParCall cb x y l out (.ok (st, s.events, s.out))
  | fault {s : Par D S} {f : Fault} : ParReach (blockAdder cb (List.length out)) x y l out s →
      ParStep (blockAdder cb (List.length out)) x y s (.error f) → ParCall cb x y l out (.error f)

omit [Add S] [Zero S] in
/-- `sp_block_with_offset`: the sample pointers are moved. /repo/source/c-precompiled/sph-sp/main.c:156-161 -/
def blockFrom (off : Nat) (w : Buf (Buf S)) : Buf (Buf S) := w.map (List.drop off)

/-- The memory of the block `w` after that of `blockFrom off w` has become `part`. -/
def blockBack (off : Nat) (w part : Buf (Buf S)) : Buf (Buf S) := List.zipWith (fun row new => row.take off ++ new) w part

/-- The functions of a parallel group whose events have the functions `cb`; `run` tells what comes of each call of `sp_seq_parallel`. The block for
the group begins at `off`, as in `Callbacks`. `sp_group_prepare` reverses the list. The free functions do not get a block, as in `blockAdder`.
/repo/source/c-precompiled/sph-sp/sequencer.c:377-391 -/
def parallelGroupCb (cb : Callbacks D (Buf (Buf S)))
    (run : Nat → Nat → List (Addr × Event D) → Buf (Buf S) → C (Nat × List (Addr × Event D) × Buf (Buf S))) :
    Callbacks (List (Addr × Event D)) (Buf (Buf S)) where
  prepare e w := .ok (0, { e with data := e.data.reverse, hasFree := true }, w)
  generate x y off e w := do
    let (st, l, out) ← run x y e.data (blockFrom off w)
    return (st, { e with data := l }, blockBack off w out)
  free e w := do
    let (w, _) ← freeList (blockAdder cb (List.length w)).callbacks e.data w
    return w

end Sp
