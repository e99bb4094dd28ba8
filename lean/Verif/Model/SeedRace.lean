import Verif.Model.ThreadPool

/-!
# Model of how noise events take their seeds in `sp_seq_parallel`

`sp_noise_event_prepare` takes a number from `sp_random_state`, a variable of the library that all threads share, without a mutex
(sequencer.c:620). In `sp_seq_parallel` it is called by the futures (sequencer.c:288-292), which are evaluated by the threads of the pool.

Simplified: the four words of the random state are read at once and written at once (random.c:29-43). With words that are read and written
one by one there are further outcomes, so the negative results hold of the code as well. Memory is sequentially consistent.
-/

namespace Sp
variable {G ρ : Type}

/-- What the future of a noise event that is to be prepared has done. -/
inductive SeedFuture (G ρ : Type)
  | new
  /-- it has read the random state of the library -/
  | loaded (g : G)
  /-- it has written the next state and made the random state of the event. main.c:413-419 -/
  | seeded (r : ρ)

/-- The random state of the library and the futures. -/
structure SeedShared (G ρ : Type) where
  lib : G
  fut : Nat → SeedFuture G ρ

/-- The state when `n` futures have been made and none has been started. -/
def SeedShared.init (g : G) : SeedShared G ρ := ⟨g, fun _ => .new⟩

/-- The steps of `n` futures. `draw` is `sp_time_random_primitive` followed by `sp_random_state_new`.
/repo/source/c-precompiled/sph-sp/sequencer.c:620 -/
inductive SeedStep (draw : G → ρ × G) (n : Nat) : SeedShared G ρ → SeedShared G ρ → Prop
  | load {s : SeedShared G ρ} {i : Nat} : i < n → s.fut i = .new → SeedStep draw n s { s with fut := upd s.fut i (.loaded s.lib) }
  | store {s : SeedShared G ρ} {i : Nat} {g : G} : i < n → s.fut i = .loaded g →
      SeedStep draw n s ⟨(draw g).2, upd s.fut i (.seeded (draw g).1)⟩

/-- States that can be reached. -/
inductive SeedReach (draw : G → ρ × G) (n : Nat) (g : G) : SeedShared G ρ → Prop
  | init : SeedReach draw n g (.init g)
  | step {s s' : SeedShared G ρ} : SeedReach draw n g s → SeedStep draw n s s' → SeedReach draw n g s'

/-- The same if reading and writing can not be interrupted, as it would be with a mutex. This is not in the code. -/
inductive SeedReachLocked (draw : G → ρ × G) (n : Nat) (g : G) : SeedShared G ρ → Prop
  | init : SeedReachLocked draw n g (.init g)
  | draw {s : SeedShared G ρ} {i : Nat} : SeedReachLocked draw n g s → i < n → s.fut i = .new →
      SeedReachLocked draw n g ⟨(draw s.lib).2, upd s.fut i (.seeded (draw s.lib).1)⟩

end Sp
