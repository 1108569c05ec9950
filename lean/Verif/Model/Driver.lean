import Mathlib.Data.Real.Basic
/-!
# The time loop of the driver

`/repo/src/drivers/serac.cpp` 391-420.

`rnd` is the rounding applied to every arithmetic result; `id` gives exact arithmetic.  Modelled: the time, the cycle counter and the step sizes
passed to `advanceTimestep`.  Not modelled: the physics module, output.
-/

noncomputable section
namespace Serac.Driver

/-- The variables of the loop, lines 335-338 and 392; `steps` lists the sizes passed to `advanceTimestep` so far. -/
structure State where
  t : ℝ
  cycle : ℤ
  steps : List ℝ

/-- One pass through the body, lines 398-419. -/
def body (rnd : ℝ → ℝ) (dt tf : ℝ) (s : State) : State :=
  let dtReal := min dt (rnd (tf - s.t))
  { t := rnd (s.t + dtReal), cycle := s.cycle + 1, steps := s.steps ++ [dtReal] }

/-- `last_step`, line 416. -/
def last (rnd : ℝ → ℝ) (dt tf t : ℝ) : Prop := t ≥ rnd (tf - rnd (1 / 10 ^ 8 * dt))

open Classical in
/-- `while (!last_step)`, line 393.  `none`: still running after `fuel` passes. -/
def loop (rnd : ℝ → ℝ) (dt tf : ℝ) : ℕ → State → Option State
  | 0, _ => none
  | fuel + 1, s =>
    let s' := body rnd dt tf s
    if last rnd dt tf s'.t then some s' else loop rnd dt tf fuel s'

end Serac.Driver
