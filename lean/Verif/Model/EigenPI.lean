import Verif.Model.Material

/-!
# Model of power iteration: `EigenPI` (solvers/eigen)

The multigroup solver is a parameter: it maps the group sources set up by the fission source and the flux of the
state to a new flux.  Printing (with the Aitken estimate, which is only printed) is not modelled.
-/

namespace Detran.EigenPI

open Detran.Util Detran.Material

variable {K : Type} [Field K] [LinearOrder K]

/-- A power iteration: the fission source, the multigroup solver, `eigen_max_iters` (as a natural number: without
    effect below one), `eigen_tolerance` and `eigen_pi_omega`. -/
structure PI (K : Type) where
  x : Src K
  solve : (Nat → Nat → K) → (Nat → Nat → K) → Nat → Nat → K
  maxIt : Nat
  tol : K
  omega : K

/-- Locals and state during the iteration; `error` is uninitialised before the first one. -/
structure PIState (K : Type) where
  dens : Nat → K
  phi : Nat → Nat → K
  keff : K
  error : Option K

/-- A cell vector. -/
def PI.vec (p : PI K) (f : Nat → K) : List K := (List.range p.x.N).map f

/-- Before the loop, EigenPI.i.hh:28-36. -/
def PI.start (p : PI K) (phi : Nat → Nat → K) : PIState K :=
  ⟨fun c => p.x.initDensity.getD c 0, phi, 1, none⟩

/-- The density used for the estimate, EigenPI.i.hh:67-74. -/
def PI.relaxed (p : PI K) (new old : Nat → K) : Nat → K :=
  if p.omega ≠ 1 then fun i => p.omega * new i + (1 - p.omega) * old i else new

/-- One iteration, EigenPI.i.hh:50-80. -/
def PI.iterate (p : PI K) (s : PIState K) : PIState K :=
  let q := p.x.setupOuter (1 / s.keff) s.dens
  let phi := p.solve q s.phi
  let dens := p.x.density phi
  let fd := p.relaxed dens s.dens
  { dens := dens
    phi := phi
    keff := s.keff * normL1 (p.vec fd) / normL1 (p.vec s.dens)
    error := some (normResL1 (p.vec fd) (p.vec s.dens)) }

/-- `error < d_tolerance`, EigenPI.i.hh:97. -/
def PI.stops (p : PI K) (s : PIState K) : Bool := s.error.any fun e => decide (e < p.tol)

/-- The loop, EigenPI.i.hh:48-99, with `n` iterations left. -/
def PI.loop (p : PI K) : Nat → PIState K → PIState K
  | 0, s => s
  | n + 1, s => if p.stops (p.iterate s) then p.iterate s else PI.loop p n (p.iterate s)

/-- What a solve leaves: the eigenvalue stored in the state, whether the warning is given, and the last locals. -/
structure Report (K : Type) where
  keff : K
  warned : Bool
  last : PIState K

/-- `EigenPI::solve`, EigenPI.i.hh:20-116; `none`: the uninitialised `error` is read, EigenPI.i.hh:109. -/
def PI.run (p : PI K) (phi : Nat → Nat → K) : Option (Report K) :=
  let s := p.loop p.maxIt (p.start phi)
  s.error.map fun e => ⟨s.keff, decide (e > p.tol), s⟩

end Detran.EigenPI
