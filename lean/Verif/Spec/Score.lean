import Mathlib.Analysis.SpecialFunctions.Trigonometric.Basic
import Verif.C

/-!
# Scores: tones together and one after the other, to any depth, and what they sound like
-/

namespace Sp

/-- What a user writes down: a tone with onset, duration, frequency and envelope; parts that play together; parts that play one after the other.
The onset is counted from the start of what the part belongs to. -/
inductive Score
  | tone (onset duration frq : Nat) (env : List ℝ)
  | together (onset : Nat) (parts : List Score)
  | sequence (onset : Nat) (parts : List Score)

mutual
/-- Time at which the score ends. -/
def Score.stop : Score → Nat
  | .tone onset duration _ _ => onset + duration
  | .together onset parts => onset + longest parts
  | .sequence onset parts => onset + total parts
/-- End of the part that ends last. -/
def longest : List Score → Nat
  | [] => 0
  | p :: rest => max p.stop (longest rest)
/-- Sum of the lengths of the parts, each with the silence before its onset. -/
def total : List Score → Nat
  | [] => 0
  | p :: rest => p.stop + total rest
end

mutual
/-- Sample of the score at time `t`. -/
noncomputable def Score.sample (rate : Nat) : Score → Nat → ℝ
  | .tone onset duration frq env, t =>
    if onset ≤ t ∧ t < onset + duration then env.getD (t - onset) 0 * Real.sin (2 * Real.pi * frq * ((t - onset : Nat) : ℝ) / rate) else 0
  | .together onset parts, t => if onset ≤ t then sumOf rate parts (t - onset) else 0
  | .sequence onset parts, t => if onset ≤ t then sumInTurn rate parts (t - onset) else 0
/-- Sample of parts that play together. -/
noncomputable def sumOf (rate : Nat) : List Score → Nat → ℝ
  | [], _ => 0
  | p :: rest, t => p.sample rate t + sumOf rate rest t
/-- Sample of parts that play one after the other: the others begin when the first has ended. -/
noncomputable def sumInTurn (rate : Nat) : List Score → Nat → ℝ
  | [], _ => 0
  | p :: rest, t => p.sample rate t + if p.stop ≤ t then sumInTurn rate rest (t - p.stop) else 0
end

mutual
/-- The tones that sound at time `t`: frequency, value of the envelope, and time since the onset. -/
def Score.sounding : Score → Nat → List (Nat × ℝ × Nat)
  | .tone onset duration frq env, t => if onset ≤ t ∧ t < onset + duration then [(frq, env.getD (t - onset) 0, t - onset)] else []
  | .together onset parts, t => if onset ≤ t then soundingOf parts (t - onset) else []
  | .sequence onset parts, t => if onset ≤ t then soundingInTurn parts (t - onset) else []
/-- The tones of parts that play together. -/
def soundingOf : List Score → Nat → List (Nat × ℝ × Nat)
  | [], _ => []
  | p :: rest, t => p.sounding t ++ soundingOf rest t
/-- The tones of parts that play one after the other. -/
def soundingInTurn : List Score → Nat → List (Nat × ℝ × Nat)
  | [], _ => []
  | p :: rest, t => p.sounding t ++ if p.stop ≤ t then soundingInTurn rest (t - p.stop) else []
end

mutual
/-- Tones have a duration, envelopes are long enough, there are no empty groups, and groups have fewer than `size` parts. -/
def Score.Valid (rate size : Nat) : Score → Prop
  | .tone _ duration frq env => 0 < duration ∧ duration ≤ env.length ∧ rate + frq ≤ 4294967296
  | .together _ parts => parts ≠ [] ∧ parts.length < size ∧ AllValid rate size parts
  | .sequence _ parts => parts ≠ [] ∧ parts.length < size ∧ AllValid rate size parts
def AllValid (rate size : Nat) : List Score → Prop
  | [] => True
  | p :: rest => p.Valid rate size ∧ AllValid rate size rest
end

mutual
/-- How deep groups are in groups. -/
def Score.depth : Score → Nat
  | .tone .. => 0
  | .together _ parts => deepest parts + 1
  | .sequence _ parts => deepest parts + 1
def deepest : List Score → Nat
  | [] => 0
  | p :: rest => max p.depth (deepest rest)
end

end Sp
