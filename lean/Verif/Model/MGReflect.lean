import Verif.Model.WGReflect
import Verif.Model.MGSolve

/-!
# Model of the multigroup Krylov solve with a discrete-ordinates boundary: `MGTransportOperator` and
`MGSolverGMRES` (solvers/mg)

One flux moment.  The sources of `Model/MGSolve` and the sweeps and boundary of `Model/WGReflect`.  The linear
solver is not run: the theorems are about every vector it could return.  The operator sweeps with
`d_update_boundary` off, which is so whenever a side reflects (MGSolverGMRES.i.hh:231 runs before).
-/

namespace Detran.MGReflect

open Detran.Sweep (St)
open Detran.MGSolve (krylovGroups gsGroups gIndex momentPos boundaryPos unpack setBlock active)

/-- A problem: source builders (the sweep parts of `MGSolve.Prob` are not used) and, for each group, the sweeps,
    side conditions and discrete sources (`scat` and `fixed` of `WGReflect.Prob` are not used). -/
structure Prob (F K : Type) where
  M : MGSolve.Prob K
  W : Nat → WGReflect.Prob F K

/-- One group's state replaced. -/
def upd {A : Type} (S : Nat → A) (g : Nat) (s : A) : Nat → A := fun g' => if g' = g then s else S g'

variable {F K : Type} [Field K] [LinearOrder K]

/-- `d_groups`, MGTransportOperator.cc:67, MGSolverGMRES.i.hh:66 and 169. -/
def Prob.groups (P : Prob F K) (k : Nat) : List Nat := krylovGroups P.M.x.mat.G P.M.x.adjoint k

/-- `d_boundary_size`, MGTransportOperator.cc:46-54: one number for all groups. -/
def Prob.bs (P : Prob F K) : Nat := (P.W 0).bsize

/-- The parts of a Krylov vector that belong to group `g`, moments first: offsets of MGTransportOperator.cc:118-123,
    MGSolverGMRES.i.hh:92-93 and 104-106. -/
def Prob.view (P : Prob F K) (k : Nat) (x : Nat → K) (g : Nat) : Nat → K := fun i =>
  if i < P.M.x.N then x (momentPos P.M.x.adjoint k P.M.x.N g i).toNat
  else x (boundaryPos P.M.x.mat.G P.M.x.adjoint k P.M.x.N P.bs g (i - P.M.x.N)).toNat

/-- The group as the operator sweeps it, MGTransportOperator.cc:136-146: total scatter of the given fluxes,
    discrete sources off. -/
def Prob.opGroup (P : Prob F K) (k : Nat) (f : Nat → Nat → K) (g : Nat) : WGReflect.Prob F K :=
  { P.W g with scat := fun _ => P.M.totalScatter f g k, disc := [] }

/-- `MGTransportOperator::multiply`, MGTransportOperator.cc:92-170: what it leaves in boundary and fluxes, and the
    vector `y` (entries it does not write are taken to be zero). -/
def Prob.multiply (P : Prob F K) (k : Nat) (phi : Nat → Nat → K) (S : Nat → St F K) (x : Nat → K) :
    (Nat → St F K) × (Nat → K) :=
  let f := unpack P.M.x.adjoint k P.M.x.N (P.groups k) phi x
  (P.groups k).foldl (fun r g =>
    let m := (P.opGroup k f g).multiply (r.1 g) (P.view k x g)
    let y := setBlock r.2 (gIndex P.M.x.adjoint k g * P.M.x.N).toNat P.M.x.N m.2
    (upd r.1 g m.1,
      if (P.W g).hasRefl then
        setBlock y (boundaryPos P.M.x.mat.G P.M.x.adjoint k P.M.x.N P.bs g 0).toNat P.bs fun a => m.2 (P.M.x.N + a)
      else y)) (S, fun _ => 0)

/-- The group as `group_sweep` sweeps it, MGSolverGMRES.i.hh:187-188. -/
def Prob.rhsGroup (P : Prob F K) (k : Nat) (phi : Nat → Nat → K) (g : Nat) : WGReflect.Prob F K :=
  { P.W g with fixed := P.M.fixedWithDown phi g k }

/-- One group of `group_sweep`, MGSolverGMRES.i.hh:171-195, with `solve_wg_reflection`, 199-232. -/
def Prob.rhsState (P : Prob F K) (k : Nat) (tol : K) (phi : Nat → Nat → K) (g : Nat) (s : St F K) : St F K :=
  let Q := P.rhsGroup k phi g
  let s0 : St F K := ⟨Boundary.set Q.dim Q.na Q.bc (Q.clear s.bdy), fun _ => 0, s.psi⟩
  let src := Q.source Q.fixed (fun _ => 0)
  if Q.hasRefl then Q.loop src tol 2000 s0 else Q.sweep false src s0

/-- `build_rhs`, MGSolverGMRES.i.hh:148-161: boundary and fluxes after it, and `d_b`, whose boundary part keeps the
    zeros of its construction (MGSolverGMRES.cc:101). -/
def Prob.rhs (P : Prob F K) (k : Nat) (tol : K) (phi : Nat → Nat → K) (S : Nat → St F K) :
    (Nat → St F K) × (Nat → K) :=
  (P.groups k).foldl (fun r g =>
    let s := P.rhsState k tol phi g (r.1 g)
    (upd r.1 g s, setBlock r.2 (gIndex P.M.x.adjoint k g * P.M.x.N).toNat P.M.x.N s.phi)) (S, fun _ => 0)

/-- The group as it is swept after the solve, MGSolverGMRES.i.hh:121-125. -/
def Prob.endGroup (P : Prob F K) (f : Nat → Nat → K) (g : Nat) : WGReflect.Prob F K :=
  { P.W g with fixed := P.M.fixedWithScatter f g, scat := fun _ => P.M.withinScatter g (f g) }

/-- After the linear solve, MGSolverGMRES.i.hh:89-128, from the states the last operator application left: the
    fluxes of the state and, by group, the boundary.  `ang` is `d_update_angular_flux`. -/
def Prob.finish (P : Prob F K) (k : Nat) (ang : Bool) (tol : K) (phi : Nat → Nat → K) (S : Nat → St F K)
    (x : Nat → K) : (Nat → Nat → K) × (Nat → St F K) :=
  let f := unpack P.M.x.adjoint k P.M.x.N (P.groups k) phi x
  let S1 := (P.groups k).foldl (fun S g =>
    if (P.W g).hasRefl then upd S g { S g with bdy := (P.W g).setIn (P.view k x g) (S g).bdy } else S) S
  if ang then
    (f, (P.groups k).foldl (fun S g =>
      let Q := P.endGroup f g
      upd S g (Q.loop (Q.source Q.fixed (P.M.withinScatter g (f g))) tol 2000
        ⟨Boundary.set Q.dim Q.na Q.bc (S g).bdy, f g, (S g).psi⟩)) S1)
  else (f, S1)

/-! ## Repeated solves with source iteration in the groups -/

/-- Boundary and angular fluxes by group, scalar fluxes, and `d_update_boundary` of the sweeper, which
    `MGSolverGMRES` shares with the within-group solver (MGSolverGMRES.cc:81). -/
structure Run (F K : Type) where
  S : Nat → St F K
  phi : Nat → Nat → K
  flag : Bool

/-- A pass of `WGSolverSI::solve` (WGSolverSI.i.hh:52-71) with the sweeper's flag as it is. -/
def siPass (Q : WGReflect.Prob F K) (flag : Bool) (s : St F K) : St F K :=
  Q.sweep flag (Q.source Q.fixed (Q.scat (Q.moments s.phi))) s

/-- Its loop, WGSolverSI.i.hh:49-73. -/
def siLoop (Q : WGReflect.Prob F K) (flag : Bool) (tol : K) : Nat → St F K → St F K
  | 0, s => s
  | n + 1, s => let s' := siPass Q flag s; if Q.close tol s.phi s'.phi then s' else siLoop Q flag tol n s'

/-- The group as `WGSolverSI` sweeps it, WGSolverSI.i.hh:37-44. -/
def Prob.siGroup (P : Prob F K) (phi : Nat → Nat → K) (g : Nat) : WGReflect.Prob F K :=
  { P.W g with fixed := P.M.fixedWithScatter phi g, scat := P.M.withinScatter g }

/-- `WGSolverSI::solve`, WGSolverSI.i.hh:20-90. -/
def Prob.siSolve (P : Prob F K) (tol : K) (n : Nat) (r : Run F K) (g : Nat) : Run F K :=
  let Q := P.siGroup r.phi g
  let s := siLoop Q r.flag tol n ⟨Boundary.set Q.dim Q.na Q.bc (r.S g).bdy, r.phi g, (r.S g).psi⟩
  ⟨upd r.S g s, upd r.phi g s.phi, r.flag⟩

/-- `MGSolverGMRES::solve`, MGSolverGMRES.i.hh:22-145, with source iteration inside.  `lin` is the linear solve: from
    boundary and fluxes and the right-hand side to the vector and what its operator applications leave.
    `solve_wg_reflection` ends with `set_update_boundary(false)` (line 231). -/
def Prob.solve (P : Prob F K) (k : Nat) (ang : Bool) (tol : K) (n : Nat)
    (lin : (Nat → St F K) → (Nat → K) → (Nat → St F K) × (Nat → K)) (r : Run F K) : Run F K :=
  let r1 := (gsGroups P.M.x.mat.G P.M.x.adjoint k).foldl (P.siSolve tol n) r
  if active P.M.x.mat.G P.M.x.adjoint k = 0 then r1
  else
    let b := P.rhs k tol r1.phi r1.S
    let l := lin b.1 b.2
    let e := P.finish k ang tol r1.phi l.1 l.2
    ⟨e.2, e.1, if (P.W 0).hasRefl || ang then false else r1.flag⟩

end Detran.MGReflect
