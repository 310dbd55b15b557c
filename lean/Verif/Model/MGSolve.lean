import Verif.Model.Material
import Verif.Model.Mesh

/-!
# Model of the multigroup solvers' group blocks and sources: `MGSolverGMRES`, `MGTransportOperator`,
`MGScatterFissionOperator`, `MGSolverGS` (solvers/mg), `WGTransportOperator`, `WGSolverGMRES`, `WGSolverSI`
(solvers/wg), and the source builders of `SweepSource`

Transport sweeps enter as an arbitrary map from cell sources to fluxes; reflecting boundaries (and so the
boundary part of the Krylov vectors beyond its layout) are not modelled here; see `Model/WGReflect`.
-/

namespace Detran.MGSolve

open Detran.Material

/-- Conversion of an `int` to `size_t` (unsigned int). -/
def sz (i : Int) : Nat := (i % 4294967296).toNat

/-- `range<size_t>(a, b)`, MathUtilities.hh:226-240, with the conversion of the elements. -/
def groupRange (a b : Int) : List Nat := (Util.range a b false).map sz

/-- What the constructor of `MGSolverGMRES` reads: groups, material cutoff for the mode, the entry
    `outer_krylov_group_cutoff`, multiplying flag, mode. -/
structure Cfg where
  G : Nat
  mat : Nat
  over : Option Int
  multiply : Bool
  adjoint : Bool

/-- `d_krylov_group_cutoff`, MGSolverGMRES.cc:45-67; `none` when an `Insist` fails.  The comparisons with
    `size_t` values are unsigned. -/
def Cfg.cutoff (c : Cfg) : Option Int :=
  (match c.over with
    | none => some (c.mat : Int)
    | some k =>
      if c.adjoint then (if sz k ≤ c.G ∧ c.mat ≤ sz k then some k else none)
      else if 0 ≤ k ∧ sz k ≤ c.mat then some k else none).map fun k =>
    if c.multiply then (if c.adjoint then (c.G : Int) - 1 else 0) else k

/-- `d_lower`, MGSolverGMRES.cc:31 and 69-73, MGSolverGS.cc:25 and 44-49. -/
def lower (G : Nat) (adjoint : Bool) : Int := if adjoint then (G : Int) - 1 else 0

/-- `d_upper`, same lines. -/
def upper (G : Nat) (adjoint : Bool) : Int := if adjoint then -1 else G

/-- Groups solved one at a time, MGSolverGMRES.i.hh:53. -/
def gsGroups (G : Nat) (adjoint : Bool) (k : Int) : List Nat := groupRange (lower G adjoint) k

/-- Groups of the Krylov block, MGSolverGMRES.i.hh:66 and 169, MGTransportOperator.cc:67. -/
def krylovGroups (G : Nat) (adjoint : Bool) (k : Int) : List Nat := groupRange k (upper G adjoint)

/-- `d_number_active_groups`, MGSolverGMRES.cc:75. -/
def active (G : Nat) (adjoint : Bool) (k : Int) : Nat := (upper G adjoint - k).natAbs

/-- `g_index`, MGTransportOperator.cc:108 and 118, MGSolverGMRES.i.hh:92, 104 and 174. -/
def gIndex (adjoint : Bool) (k : Int) (g : Nat) : Int := if adjoint then (g : Int) else (g : Int) - k

/-- Size of the multigroup operator, MGTransportOperator.cc:73 (`ms` moments and `bs` boundary values per
    group; the number of groups is the length of the group list). -/
def opSize (G : Nat) (adjoint : Bool) (k : Int) (ms bs : Nat) : Nat :=
  (krylovGroups G adjoint k).length * (ms + bs)

/-- Position of moment `i` of group `g`, MGTransportOperator.cc:109-111 and 120. -/
def momentPos (adjoint : Bool) (k : Int) (ms g i : Nat) : Int := gIndex adjoint k g * ms + i

/-- Position of boundary value `a` of group `g`, MGTransportOperator.cc:122-123. -/
def boundaryPos (G : Nat) (adjoint : Bool) (k : Int) (ms bs g a : Nat) : Int :=
  (krylovGroups G adjoint k).length * ms + gIndex adjoint k g * bs + a

/-- Position used by `MGScatterFissionOperator`, MGScatterFissionOperator.cc:73 and 87: unsigned
    arithmetic, the same in both modes. -/
def scatterPos (k ms g i : Nat) : Nat := sz (((g : Int) - k) * ms + i)

/-! ## Sources and operators -/

variable {K : Type} [Field K] [LinearOrder K]

/-- A fixed-source problem: source builder data, external moment source plus any explicit fission source
    (`build_fixed`, SweepSource.i.hh:23-48), implicit fission and its scale, the group sweeps (zero incident
    flux, moment-to-discrete factor included), and what discrete external sources and fixed boundary
    conditions add to a sweep. -/
structure Prob (K : Type) where
  x : Src K
  q : Nat → Nat → K
  implicit : Bool
  scale : K
  T : Nat → (Nat → K) → Nat → K
  disc : Nat → Nat → K
  bnd : Nat → Nat → K

/-- `build_fixed_with_scatter`, SweepSource.i.hh:53-62. -/
def Prob.fixedWithScatter (P : Prob K) (phi : Nat → Nat → K) (g : Nat) : Nat → K :=
  let s := P.x.inScatter phi g (P.q g)
  if P.implicit then P.x.fissionIn P.scale phi g s else s

/-- `build_fixed_with_downscatter`, SweepSource.i.hh:67-75. -/
def Prob.fixedWithDown (P : Prob K) (phi : Nat → Nat → K) (g k : Nat) : Nat → K :=
  P.x.downScatter phi g k (P.q g)

/-- `build_within_group_scatter`, SweepSource.i.hh:80-89. -/
def Prob.withinScatter (P : Prob K) (g : Nat) (f : Nat → K) : Nat → K :=
  let s := P.x.withinGroup g f (fun _ => 0)
  if P.implicit then P.x.fissionWithin P.scale g f s else s

/-- `build_total_scatter`, SweepSource.i.hh:94-109. -/
def Prob.totalScatter (P : Prob K) (phi : Nat → Nat → K) (g k : Nat) : Nat → K :=
  let s := P.x.totalGroup phi g k (fun _ => 0)
  if P.implicit then P.x.fissionTotal P.scale phi g s else s

/-- A sweep of group `g` with fixed source `f` and scatter source `s`; `disc` is the discrete-source flag and
    `bc` says whether fixed boundary conditions were set (`d_boundary->set`) or cleared. -/
def Prob.sweep (P : Prob K) (disc bc : Bool) (g : Nat) (f s : Nat → K) : Nat → K := fun c =>
  P.T g (fun c => f c + s c) c + (if disc then P.disc g c else 0) + (if bc then P.bnd g c else 0)

/-- `WGTransportOperator::multiply`, WGTransportOperator.cc:73-115: the discrete-source flag is left on. -/
def Prob.wgOp (P : Prob K) (g : Nat) (x : Nat → K) : Nat → K := fun c =>
  x c - P.sweep true false g (fun _ => 0) (P.withinScatter g x) c

/-- `WGSolverGMRES::build_rhs`, WGSolverGMRES.i.hh:110-165. -/
def Prob.wgRhs (P : Prob K) (phi : Nat → Nat → K) (g : Nat) : Nat → K :=
  P.sweep true true g (P.fixedWithScatter phi g) (fun _ => 0)

/-- `WGSolverGMRES::solve`, WGSolverGMRES.i.hh:22-58, given what the linear solver returns for an operator
    and a right-hand side (the zero right-hand side is returned unsolved, line 52). -/
def Prob.wgGmres (P : Prob K) (lin : ((Nat → K) → Nat → K) → (Nat → K) → Nat → K) (phi : Nat → Nat → K)
    (g : Nat) : Nat → K :=
  if 0 < (List.range P.x.N).foldl (fun s c => s + |P.wgRhs phi g c|) 0 then lin (P.wgOp g) (P.wgRhs phi g)
  else P.wgRhs phi g

/-- One pass of source iteration, WGSolverSI.i.hh:30-73: sweep of the fixed source plus the within-group
    source of the previous flux. -/
def Prob.siStep (P : Prob K) (phi : Nat → Nat → K) (g : Nat) (f : Nat → K) : Nat → K :=
  P.sweep true true g (P.fixedWithScatter phi g) (P.withinScatter g f)

/-- `for g in groups: d_wg_solver->solve(g)`, each solve replacing the group flux of the state. -/
def passes (wg : (Nat → Nat → K) → Nat → Nat → K) (groups : List Nat) (phi : Nat → Nat → K) : Nat → Nat → K :=
  groups.foldl (fun phi g => fun g' => if g' = g then wg phi g else phi g') phi

/-- Writing `n` values at an offset of a Krylov vector. -/
def setBlock (y : Nat → K) (off n : Nat) (v : Nat → K) : Nat → K :=
  fun p => if off ≤ p ∧ p < off + n then v (p - off) else y p

/-- Group fluxes of a Krylov vector put in place of the state's, MGTransportOperator.cc:103-112 and
    MGSolverGMRES.i.hh:90-97. -/
def unpack (adjoint : Bool) (k : Int) (ms : Nat) (groups : List Nat) (phi : Nat → Nat → K) (x : Nat → K) :
    Nat → Nat → K :=
  groups.foldl (fun phi g => fun g' => if g' = g then (fun i => x ((momentPos adjoint k ms g i).toNat)) else phi g') phi

/-- `MGTransportOperator::multiply`, MGTransportOperator.cc:92-170 (no reflecting side): the state's flux with
    the Krylov groups overwritten, one sweep per group with the discrete sources off. -/
def Prob.mgOp (P : Prob K) (k : Int) (phi : Nat → Nat → K) (x : Nat → K) : Nat → K :=
  let groups := krylovGroups P.x.mat.G P.x.adjoint k
  let f := unpack P.x.adjoint k P.x.N groups phi x
  groups.foldl (fun y g =>
    setBlock y (gIndex P.x.adjoint k g * P.x.N).toNat P.x.N fun i =>
      x ((momentPos P.x.adjoint k P.x.N g i).toNat)
        - P.sweep false false g (fun _ => 0) (P.totalScatter f g k.toNat) i) (fun _ => 0)

/-- `build_rhs` and `group_sweep`, MGSolverGMRES.i.hh:149-196. -/
def Prob.mgRhs (P : Prob K) (k : Int) (phi : Nat → Nat → K) : Nat → K :=
  (krylovGroups P.x.mat.G P.x.adjoint k).foldl (fun y g =>
    setBlock y (gIndex P.x.adjoint k g * P.x.N).toNat P.x.N
      (P.sweep true true g (P.fixedWithDown phi g k.toNat) (fun _ => 0))) (fun _ => 0)

/-- `MGSolverGMRES::solve`, MGSolverGMRES.i.hh:23-145, from the Gauss-Seidel block to the copy into the
    state, given the within-group solver and the linear solver. -/
def Prob.mgSolve (P : Prob K) (wg : (Nat → Nat → K) → Nat → Nat → K)
    (lin : ((Nat → K) → Nat → K) → (Nat → K) → Nat → K) (k : Int) (phi : Nat → Nat → K) : Nat → Nat → K :=
  let phi1 := passes wg (gsGroups P.x.mat.G P.x.adjoint k) phi
  if active P.x.mat.G P.x.adjoint k = 0 then phi1
  else unpack P.x.adjoint k P.x.N (krylovGroups P.x.mat.G P.x.adjoint k) phi1 (lin (P.mgOp k phi1) (P.mgRhs k phi1))

/-- Lower end of the iteration block of `MGSolverGS`, MGSolverGS.cc:26, 47 and 52. -/
def gsLowerUp (G mat : Nat) (adjoint multiply : Bool) : Int := if multiply then lower G adjoint else mat

/-- `MGSolverGS::solve`, MGSolverGS.i.hh:22-84: one pass over all groups, then `n` passes over the iteration
    block (`n` is where the loop stops, zero when it does not iterate). -/
def Prob.gsSolve (P : Prob K) (wg : (Nat → Nat → K) → Nat → Nat → K) (mat : Nat) (multiply : Bool) (n : Nat)
    (phi : Nat → Nat → K) : Nat → Nat → K :=
  (passes wg (groupRange (gsLowerUp P.x.mat.G mat P.x.adjoint multiply) (upper P.x.mat.G P.x.adjoint)))^[n]
    (passes wg (groupRange (lower P.x.mat.G P.x.adjoint) (upper P.x.mat.G P.x.adjoint)) phi)

end Detran.MGSolve
