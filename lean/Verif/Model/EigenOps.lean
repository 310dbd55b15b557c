import Verif.Model.MGSolve

/-!
# Model of the eigenvalue solvers built on callow: `EigenArnoldi`, `EnergyIndependentEigenOperator`, `EigenGD`,
`EnergyDependentEigenLHS` (solvers/eigen) and `MGSweepOperator` (solvers/mg)

The callow eigensolver itself is modelled in `Model/EigenSolve.lean`; here it is what it is given and what is done
with its result.  As in `Model/MGSolve.lean` the sweep of a group is an arbitrary map, and the values on
reflecting sides only count in the sizes.  Preconditioners and printing are not modelled.
-/

namespace Detran.EigenOps

open Detran.Material Detran.MGSolve

variable {K : Type} [Field K] [LinearOrder K]

/-! ## EigenArnoldi -/

/-- The fission source, moments per cell (State.cc:43-52), the multigroup solver (sources of
    `setup_outer` and present flux to new flux) and `Vector::norm(L2)`. -/
structure Arn (K : Type) where
  x : Src K
  moments : Nat
  solve : (Nat → Nat → K) → (Nat → Nat → K) → Nat → Nat → K
  norm : (Nat → K) → K

/-- `number_rows()`, EnergyIndependentEigenOperator.cc:29: `moments_size()` is that of one
    group of the state, cells times moments. -/
def Arn.rows (a : Arn K) : Nat := a.x.N * a.moments

/-- `memcpy` of `number_rows()` values into the density or out of it, which has one value per cell
    (FissionSource.cc:32): `none` when it runs past the end.  Fewer rows than cells leave the rest of `old`. -/
def Arn.copy (a : Arn K) (v old : Nat → K) : Option (Nat → K) :=
  if a.x.N < a.rows then none else some fun c => if c < a.rows then v c else old c

/-- `EnergyIndependentEigenOperator::multiply`, EnergyIndependentEigenOperator.cc:43-60: flux of the state and
    result; `dens` is the density before, `y` the vector written. -/
def Arn.multiply (a : Arn K) (dens : Nat → K) (phi : Nat → Nat → K) (v y : Nat → K) :
    Option ((Nat → Nat → K) × (Nat → K)) :=
  (a.copy v dens).bind fun d =>
    let phi := a.solve (a.x.setupOuter 1 d) phi
    (a.copy (a.x.density phi) y).map fun y => (phi, y)

/-- The initial guess, EigenArnoldi.i.hh:30-34 (`d_x0` is created with zeros, EigenArnoldi.cc:27). -/
def Arn.guess (a : Arn K) : Option (Nat → K) :=
  (a.copy (fun c => a.x.initDensity.getD c 0) (fun _ => 0)).map fun v => fun c => (1 / a.norm v) * v c

/-- What a solve leaves in the state and in the fission source. -/
structure Left (K : Type) where
  keff : K
  phi : Nat → Nat → K
  dens : Nat → K

/-- After the eigensolver, EigenArnoldi.i.hh:40-49: `k` and `v` are its eigenvalue and vector, `phi` and `dens`
    what its last product left. -/
def Arn.finish (a : Arn K) (k : K) (v dens : Nat → K) (phi : Nat → Nat → K) : Option (Left K) :=
  (a.copy v dens).map fun d => ⟨k, a.solve (a.x.setupOuter 1 d) phi, d⟩

/-! ## EigenGD -/

/-- What becomes of creating and running `EigenGD`. -/
inductive Setup where
  /-- an `Insist` fails while the multigroup solver is created -/
  | error
  /-- there is no multigroup operator and its null pointer is dereferenced -/
  | null
  /-- the two operators have different sizes: vectors of one are used with the other, out of bounds -/
  | overrun
  /-- both operators have the same size; the Krylov cutoff -/
  | ok (k : Int)
  deriving DecidableEq

/-- Size of the left-hand operator, EnergyDependentEigenLHS.cc:41-49 and MGSweepOperator.cc:59-73: no cutoff, and
    forward order since `FixedSourceManager::adjoint()` is always false (FixedSourceManager.cc:40 and 63). -/
def lhsSize (G ms bs : Nat) : Nat := opSize G false 0 ms bs

/-- EigenGD.cc:25-37: the operator of the multigroup solver exists only with active groups
    (MGSolverGMRES.cc:84-96); all vectors have its size, and `EnergyDependentEigenLHS::multiply` (lines 66-79) and
    the copy into the state (EigenGD.cc:134-141) run over all groups of the left-hand operator. -/
def setup (c : Cfg) (ms bs : Nat) : Setup :=
  match c.cutoff with
  | none => .error
  | some k =>
    if active c.G c.adjoint k = 0 then .null
    else if opSize c.G c.adjoint k ms bs ≠ lhsSize c.G ms bs then .overrun
    else .ok k

/-- `MGScatterFissionOperator::multiply` with fission only and no cutoff, MGScatterFissionOperator.cc:60-89. -/
def fission (P : Prob K) (x : Nat → K) : Nat → K :=
  let groups := krylovGroups P.x.mat.G false 0
  let phi := unpack false 0 P.x.N groups (fun _ _ => 0) x
  groups.foldl (fun y g =>
    setBlock y (gIndex false 0 g * P.x.N).toNat P.x.N (P.x.fissionTotal P.scale phi g fun _ => 0)) (fun _ => 0)

/-- `MGSweepOperator::multiply` without cutoff, MGSweepOperator.cc:78-144 (no reflecting side): the vector is the
    fixed source; the boundary is cleared, the discrete-source flag is not touched. -/
def sweepOp (P : Prob K) (x : Nat → K) : Nat → K :=
  (krylovGroups P.x.mat.G false 0).foldl (fun y g =>
    setBlock y (gIndex false 0 g * P.x.N).toNat P.x.N
      (P.sweep true false g (fun i => x ((momentPos false 0 P.x.N g i).toNat)) fun _ => 0)) (fun _ => 0)

/-- `EnergyDependentEigenLHS::multiply`, EnergyDependentEigenLHS.cc:66-79. -/
def lhs (P : Prob K) (x : Nat → K) : Nat → K := sweepOp P (fission P x)

/-- The flux put into the state, EigenGD.cc:133-141. -/
def fill (P : Prob K) (x : Nat → K) (phi : Nat → Nat → K) : Nat → Nat → K :=
  fun g i => if g < P.x.mat.G ∧ i < P.x.N then x (g * P.x.N + i) else phi g i

end Detran.EigenOps
