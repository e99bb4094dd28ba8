import Verif.Model.Status

/-!
# C132: names and descriptions of status values
-/

namespace Sp

/-- The failures that functions of the library set with the group of the library: invalid file write, invalid file read,
format not implemented, end of file, memory, invalid argument (main.h:9,15-26; file.c:30,60,74,77,84,87,105,108;
sequencer.c:629). -/
def OwnFailure (a : Status) : Prop := a.group = "sp" ∧ (a.id = 2 ∨ a.id = 3 ∨ a.id = 4 ∨ a.id = 5 ∨ a.id = 8 ∨ a.id = 9)

/-- **C132.** The name and the description of a failure that the library sets in its own group are there, and tell failures
apart: two failures with the same name, or the same description, are the same failure.
Missing for the full property: failures of other groups and other numbers, see `C132_names_false`,
`C132_memory_undefined`. -/
theorem C132_own_failures_partial :
    (∀ a, OwnFailure a → ∃ n d, statusName a = .ok n ∧ statusDescription a = .ok d ∧ n ≠ "" ∧ n ≠ "unknown" ∧ d ≠ "") ∧
    (∀ a b, OwnFailure a → OwnFailure b → statusName a = statusName b ∨ statusDescription a = statusDescription b → a = b) := by
  refine ⟨?_, ?_⟩
  · rintro ⟨id, g⟩ ⟨rfl, h⟩
    simp only at h
    rcases h with rfl | rfl | rfl | rfl | rfl | rfl <;> exact ⟨_, _, rfl, rfl, by decide, by decide, by decide⟩
  · rintro ⟨id, g⟩ ⟨id', g'⟩ ⟨rfl, h⟩ ⟨rfl, h'⟩ e
    simp only at h h'
    rcases h with rfl | rfl | rfl | rfl | rfl | rfl <;> rcases h' with rfl | rfl | rfl | rfl | rfl | rfl <;>
      simp [statusName, statusDescription] at e ⊢

/-- **C132, other status values**: for every status with a group other than that of the library the name says unknown, and for
every one that is also not of the group sph the description is empty. Errors of the operating system (group libc) are
not described. -/
theorem C132_other_groups (a : Status) (h : a.group ≠ "sp") :
    statusName a = .ok "unknown" ∧ (a.group ≠ "sph" → statusDescription a = .ok "") := by
  refine ⟨if_neg h, fun h2 => ?_⟩
  unfold statusDescription
  rw [if_neg h, if_neg h2]

/-- **C132 is false for names of all numbers that the library defines**: two that are defined in main.h have the same name
(format not implemented, not implemented), one has none (end of file, 6), and two have the same description. -/
theorem C132_names_false :
    statusName ⟨4, "sp"⟩ = statusName ⟨10, "sp"⟩ ∧ statusName ⟨6, "sp"⟩ = .ok "unknown" ∧
      statusDescription ⟨5, "sp"⟩ = statusDescription ⟨6, "sp"⟩ := ⟨rfl, rfl, rfl⟩

/-- **C132 is false for the group sph**, which failed allocations have: describing any such status is undefined. -/
theorem C132_memory_undefined (id : Int) : statusDescription ⟨id, "sph"⟩ = .error .uninitialized := rfl

example : OwnFailure ⟨5, "sp"⟩ ∧ statusName ⟨5, "sp"⟩ = .ok "end-of-file" ∧ ¬ OwnFailure ⟨2, "libc"⟩ := by
  refine ⟨by simp [OwnFailure], rfl, by simp [OwnFailure]⟩

end Sp
