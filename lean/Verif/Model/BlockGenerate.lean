import Verif.C

/-!
# Model of `sp_event_block_generate` (sequencer.c)

The generate function is arbitrary: it gets length, offset in the block and offset in the event, and
changes a state `σ` (event and output block). The number returned is the status id.
-/

namespace Sp
variable {σ : Type}

/-- The loop. /repo/source/c-precompiled/sph-sp/sequencer.c:219-221. Returns also the loop counter at
the end. The fuel bounds the number of iterations. -/
def blockGenerateLoop (gen : Nat → Nat → Nat → σ → C (Nat × σ)) (resolution initial start : Nat) :
    Nat → Nat → σ → C (Nat × Nat × σ)
  | 0, _, _ => .error .nonTermination
  | fuel + 1, i, s =>
    if i < initial then do
      let (st, s) ← gen resolution i (u32 (i + start)) s
      if st ≠ 0 then return (st, i, s)
      else blockGenerateLoop gen resolution initial start fuel (u32 (i + resolution)) s
    else .ok (0, i, s)

/-- `sp_event_block_generate`. /repo/source/c-precompiled/sph-sp/sequencer.c:205-227 -/
def eventBlockGenerate (fuel : Nat) (gen : Nat → Nat → Nat → σ → C (Nat × σ))
    (resolution start stop : Nat) (s : σ) : C (Nat × σ) := do
  let duration := sub32 stop start
  let resolution := if duration < resolution then duration else resolution
  if resolution = 0 then .error .divByZero
  else
    let blockCount := duration / resolution
    let blockInitial := u32 (blockCount * resolution)
    let blockRest := duration % resolution
    let (st, i, s) ← blockGenerateLoop gen resolution blockInitial start fuel 0 s
    if st ≠ 0 then return (st, s)
    else if blockRest ≠ 0 then gen blockRest i (u32 (i + start)) s
    else return (0, s)

end Sp
