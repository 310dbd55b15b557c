import Verif.Model.Matrix
import Verif.Model.Diffusion
import Verif.Model.Coarse

/-!
# Model of `solvers/mg/MGCoarseMeshPreconditioner` and the operator sizes of `MGCMDSA`
-/

namespace Detran.Restrict

open Detran.Matrix

variable {K : Type} [Field K]

/-- What the preconditioner is built from: fine and coarse cell numbers and volumes, the `COARSEMESH` map,
    fine groups per coarse group, active groups, cutoff, mode, and all groups' spectrum by region with the
    region of each cell. -/
structure Data (K : Type) where
  nf : Nat
  nc : Nat
  cmap : Nat → Nat
  vf : Nat → K
  vc : Nat → K
  fpc : List Nat
  G : Nat
  cutoff : Nat
  adjoint : Bool
  spec : Nat → Nat → K
  key : Nat → Nat

/-- `d_number_active_groups`, MGPreconditioner.cc:46-48. -/
def Data.active (D : Data K) : Nat :=
  ((if D.adjoint then (-1 : Int) else D.G) - D.cutoff).natAbs

/-- The values the double loop assigns to `d_f2c_group_map[0..]`, MGCoarseMeshPreconditioner.cc:73-76. -/
def f2cList (fpc : List Nat) : List Nat := fpc.zipIdx.flatMap fun e => List.replicate e.1 e.2

/-- `d_f2c_group_map[g]` (zero where the loop does not write, line 36). -/
def Data.f2c (D : Data K) (g : Nat) : Nat := (f2cList D.fpc).getD g 0

/-- `vec_max`, MathUtilities.hh (C04). -/
def maxOf (l : List Nat) : Nat := l.foldl max 0

/-- `nnz`, MGCoarseMeshPreconditioner.cc:271-272. -/
def Data.nnz (D : Data K) : Nat := (D.nf / D.nc + 1) * maxOf D.fpc

/-- The loop of `build_restrict`, MGCoarseMeshPreconditioner.cc:276-288. -/
def Data.restrictOps (D : Data K) : List (Matrix.One K) :=
  (List.range D.active).flatMap fun g => (List.range D.nf).map fun i =>
    ⟨D.f2c g * D.nc + D.cmap i, g * D.nf + i, D.vf i / D.vc (D.cmap i), false⟩

/-- `build_restrict`, MGCoarseMeshPreconditioner.cc:268-290. -/
def Data.restrict (D : Data K) (srt : List (Trip K) → List (Trip K)) : Out (Option (CSR K) × List Bool) :=
  (runOnes (preallocate (D.fpc.length * D.nc) (D.active * D.nf) (fun _ => D.nnz)) D.restrictOps).bind
    fun r => .ok (r.1.assemble srt, r.2)

/-- The coarse spectrum loop, MGCoarseMeshPreconditioner.cc:181-194: `d_coarse_spectrum` keeps what it held
    (`prev`: zeros the first time, `resize` changes nothing later), and the fine group starts at the cutoff
    in both modes (`0 ? d_adjoint : d_group_cutoff`).  `none`: a row past the spectrum is read. -/
def Data.condense (D : Data K) (prev : Nat → Nat → K) : Option (Nat → Nat → K) :=
  if D.fpc.sum = 0 ∨ D.cutoff + D.fpc.sum ≤ D.G then
    some fun cg r => (f2cList D.fpc).zipIdx.foldl
      (fun s e => if e.1 = cg then s + D.spec (D.cutoff + e.2) r else s) (prev cg r)
  else none

/-- `shape`, MGCoarseMeshPreconditioner.cc:330-350 (every option but the unimplemented state one). -/
def Data.shape (D : Data K) (cs : Nat → Nat → K) (i g : Nat) : K :=
  D.spec (if D.adjoint then g else g + D.cutoff) (D.key i) / cs (D.f2c g) (D.key i)

/-- The loop of `build_prolong`, MGCoarseMeshPreconditioner.cc:312-325. -/
def Data.prolongOps (D : Data K) (cs : Nat → Nat → K) : List (Matrix.One K) :=
  (List.range D.active).flatMap fun g => (List.range D.nf).map fun i =>
    ⟨i + g * D.nf, D.cmap i + D.f2c g * D.nc, D.shape cs i g, false⟩

/-- `build_prolong`, MGCoarseMeshPreconditioner.cc:305-327. -/
def Data.prolong (D : Data K) (cs : Nat → Nat → K) (srt : List (Trip K) → List (Trip K)) :
    Out (Option (CSR K) × List Bool) :=
  (runOnes (preallocate (D.active * D.nf) (D.fpc.length * D.nc) (fun _ => 1)) (D.prolongOps cs)).bind
    fun r => .ok (r.1.assemble srt, r.2)

/-- `d_size_coarse`, MGCoarseMeshPreconditioner.cc:79: the length of the restricted vectors. -/
def Data.sizeCoarse (D : Data K) : Nat := D.fpc.length * D.nc

/-- Unknowns of the coarse diffusion operator MGCMDSA.cc:91-97 builds: a material of the coarse groups with
    the cutoff given in fine groups; number of groups from DiffusionLossOperator.cc:42-50. -/
def Data.operatorSize (D : Data K) : Nat :=
  (Util.range D.cutoff (if D.adjoint then (-1 : Int) else D.fpc.length) false).length * D.nc

end Detran.Restrict
