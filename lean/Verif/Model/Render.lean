import Verif.Model.EventTree
import Verif.Model.File

/-!
# Model of rendering functions (main.c)

The world of the event functions is the sample arrays of the block that is rendered to, as in
`Verif.Model.EventTree`.
Simplified: memory allocation succeeds, so that a new block is a block of zeros; freeing the block at
the end is left out (see `Verif.Model.Block` for `sp_block_new` and `sp_block_free`); the display of
progress is left out.
-/

namespace Sp
variable {D S F : Type}

/-- `sp_render_config_t` without `display_progress`. /repo/source/c-precompiled/sph-sp/main2.h:1-6 -/
structure RenderConfig where
  channelCount : Nat
  rate : Nat
  blockSize : Nat

/-- The samples of a block from `sp_block_new`. /repo/source/c-precompiled/sph-sp/main.c:130-146 -/
def newSamples [Zero S] (nch size : Nat) : Buf (Buf S) := List.replicate nch (List.replicate size 0)

/-- `sp_block_zero` on the sample arrays. /repo/source/c-precompiled/sph-sp/main.c:162-166 -/
def zeroSamples [Zero S] (nch size : Nat) (w : Buf (Buf S)) : C (Buf (Buf S)) :=
  forRange 0 nch (fun i w => do
    let row ← rd w i
    let row ← memzero row 0 size
    wr w i row) w

/-- The loop of `sp_render_range_file`. The first number bounds the iterations. Returns status, the
variable `i`, the state of the sequencer and the file.
/repo/source/c-precompiled/sph-sp/main.c:347-354 -/
def renderLoop [Zero S] (cb : Callbacks D (Buf (Buf S))) (fmt : FloatFmt S F) (fuel : Nat)
    (c : RenderConfig) (blockEnd : Nat) : Nat → Nat → SeqState D (Buf (Buf S)) → SpFile →
    C (Nat × Nat × SeqState D (Buf (Buf S)) × SpFile)
  | 0, _, _, _ => .error .nonTermination
  | n + 1, i, s, file =>
    if i < blockEnd then do
      let (st, s) ← seq cb fuel i (u32 (i + c.blockSize)) 0 s
      if st ≠ 0 then return (st, i, s, file)
      else
        let (st, file) ← fileWrite fmt file s.world c.blockSize
        if st ≠ 0 then return (st, i, s, file)
        else
          let w ← zeroSamples c.channelCount c.blockSize s.world
          renderLoop cb fmt fuel c blockEnd n (u32 (i + c.blockSize)) { s with world := w } file
    else return (0, i, s, file)

/-- The part of `sp_render_range_file` after the file has been opened, up to the label `exit`. Returns
the status, the state of the sequencer and the file.
/repo/source/c-precompiled/sph-sp/main.c:345-359 -/
def renderRange [Zero S] (cb : Callbacks D (Buf (Buf S))) (fmt : FloatFmt S F) (fuel start stop : Nat)
    (c : RenderConfig) (s : SeqState D (Buf (Buf S))) (file : SpFile) :
    C (Nat × SeqState D (Buf (Buf S)) × SpFile) :=
  if c.blockSize = 0 then .error .divByZero
  else do
    let remainder := sub32 stop start % c.blockSize
    let blockEnd := u32 (c.blockSize * (sub32 stop start / c.blockSize))
    let (st, i, s, file) ← renderLoop cb fmt fuel c blockEnd (blockEnd + 1) 0 s file
    if st ≠ 0 then return (st, s, file)
    else
      let (st, s, file) ← (if remainder ≠ 0 then do
          let (st, s) ← seq cb fuel i (u32 (i + remainder)) 0 s
          if st ≠ 0 then return (st, s, file)
          else
            let (st, file) ← fileWrite fmt file s.world remainder
            return (st, s, file)
        else return (0, s, file) : C (Nat × SeqState D (Buf (Buf S)) × SpFile))
      if st ≠ 0 then return (st, s, file)
      else
        let s ← seqFreeLoop cb fuel s s.head
        return (0, { s with head := none }, file)

/-- `sp_render_range_file`. `header`: the unset bytes of the file header array, `errno`: the result of
opening the file, `new`: the address of the new list element. Returns the status, the content of the
file when it has been closed and the state of the sequencer.
/repo/source/c-precompiled/sph-sp/main.c:334-364 -/
def renderRangeFile [Zero S] (cb : Callbacks D (Buf (Buf S))) (fmt : FloatFmt S F) (fuel : Nat)
    (header : Buf Nat) (errno : Option Nat) (new : Addr) (e : Event D) (start stop : Nat)
    (c : RenderConfig) : C (Nat × List Nat × SeqState D (Buf (Buf S))) := do
  let (heap, head) ← eventListAdd Event.start fuel new e (fun _ => none) none
  let s : SeqState D (Buf (Buf S)) := ⟨heap, head, newSamples c.channelCount c.blockSize, []⟩
  let (st, file) ← fileOpenWrite header errno c.channelCount c.rate
  let (st, s, file) ← (if st ≠ 0 then return (st, s, file)
    else renderRange cb fmt fuel start stop c s file : C (Nat × SeqState D (Buf (Buf S)) × SpFile))
  let content ← fileCloseWrite file
  return (st, content, s)

/-- `sp_render_range_block`. Returns the status, the samples and the state of the sequencer.
/repo/source/c-precompiled/sph-sp/main.c:369-380 -/
def renderRangeBlock [Zero S] (cb : Callbacks D (Buf (Buf S))) (fuel : Nat) (new : Addr) (e : Event D)
    (start stop : Nat) (c : RenderConfig) : C (Nat × Buf (Buf S) × SeqState D (Buf (Buf S))) := do
  let (heap, head) ← eventListAdd Event.start fuel new e (fun _ => none) none
  let s : SeqState D (Buf (Buf S)) := ⟨heap, head, newSamples c.channelCount (sub32 stop start), []⟩
  let (st, s) ← seq cb fuel start stop 0 s
  if st ≠ 0 then return (st, s.world, s)
  else
    let s ← seqFreeLoop cb fuel s s.head
    return (0, s.world, { s with head := none })

/-- `sp_render_file`. `channelCount` and `rate` are the global variables `sp_channel_count` and
`sp_rate`. /repo/source/c-precompiled/sph-sp/main.c:384-393 and config `sp_render_block_seconds` 4 -/
def renderFile [Zero S] (cb : Callbacks D (Buf (Buf S))) (fmt : FloatFmt S F) (fuel : Nat)
    (header : Buf Nat) (errno : Option Nat) (new : Addr) (e : Event D) (channelCount rate : Nat) :
    C (Nat × List Nat) := do
  let (st, e, _, _) ← (if e.stop = 0 then prepareOptional cb new e [] else .ok (0, e, [], []))
  if st ≠ 0 then return (st, [])
  else
    let (st, content, _) ← renderRangeFile cb fmt fuel header errno new e 0 e.stop
      ⟨channelCount, rate, u32 (4 * rate)⟩
    return (st, content)

end Sp
