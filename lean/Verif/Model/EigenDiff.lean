import Verif.Model.DiffSolve

/-!
# Model of the diffusion eigenvalue solver `EigenDiffusion` (solvers/eigen)

The eigenvalue solver of callow is a parameter: a statement about `solve` takes any eigenpair it may return.
-/

namespace Detran.Diffusion

variable {K : Type} [Field K]

/-- `d_adjoint` of a multigroup solver, MGSolver.cc:36-37, from the entry `adjoint` of the database. -/
def mgAdjoint (input : Option Int) : Bool := input.any fun a => a ≠ 0

/-- `d_adjoint` of an eigenvalue solver: set by the default constructor of the base class, Solver.hh:152-159, and
    never changed; the constructor Eigensolver.cc:16-40 does not read the entry. -/
def eigenAdjoint (_input : Option Int) : Bool := false

/-- The loss operator taken from the multigroup solver, EigenDiffusion.cc:20-36 and MGDiffusionSolver.cc:42-50; the
    manager makes that solver without fission, EigenvalueManager.cc:48, 70. -/
def eigenLoss (L : Loss K) (input : Option Int) : Loss K :=
  FixedSrc.init { L with adjoint := mgAdjoint input, fission := false }

/-- The gain operator, EigenDiffusion.cc:37. -/
def eigenGain (L : Loss K) (input : Option Int) (srt : List (Matrix.Trip K) → List (Matrix.Trip K)) :
    Matrix.Out (Option (Matrix.CSR K) × List Bool) :=
  gain L.mat L.mmap L.M.size (eigenAdjoint input) srt

/-- What `solve` leaves behind. -/
structure EigenResult (K : Type) where
  keff : K
  phi : Nat → Nat → K
  dens : Nat → K

/-- `EigenDiffusion::solve`, EigenDiffusion.cc:52-68, when the eigenvalue solver returns `k` and `v`; the fission source
    reads the entry `adjoint` itself, FissionSource.cc:35-36. -/
def eigenDiffusion (L : Loss K) (input : Option Int) (k : K) (v : Nat → K) (phi : Nat → Nat → K) : EigenResult K :=
  let phi := fillState L.mat.G L.M.size v phi
  ⟨k, phi, (⟨L.mat, L.M.size, L.mmap, mgAdjoint input⟩ : Material.Src K).density phi⟩

end Detran.Diffusion
