import Verif.Model.Boundary
import Verif.Model.Util

/-!
# Model of the within-group solves with a discrete-ordinates boundary: `WGTransportOperator`, `WGSolverGMRES`,
`WGSolverSI` (solvers/wg)

One group, one flux moment.  The sweep is the octant and angle loop of `Model/Sweep` over a directional sweep
`step`; the boundary is that of `Model/Boundary`.  The within-group scatter source and the fixed source of the
group are arbitrary functions here (they are modelled in `Model/MGSolve`).  The linear solver is not run: the
theorems are about every vector it could return.  Face values of the 1-D, 2-D and 3-D containers are reached
through `get` and `face`.
-/

namespace Detran.WGReflect

open Detran.Sweep (St sweepWith sweepSource)
open Detran.Boundary (Bd BC Loc locs fluxSize)

/-- What a within-group solve reads: dimension, angles per octant, cells, cells per axis, boundary conditions,
    face access, directional sweep (with or without `d_update_boundary`), octant order, within-group source
    builder (`build_within_group_scatter`), fixed source (`build_fixed_with_scatter`), moment-to-discrete
    factor, discrete sources. -/
structure Prob (F K : Type) where
  dim : Nat
  na : Nat
  N : Nat
  n : Nat → Nat
  bc : Nat → BC F
  get : F → Nat → Nat → K
  face : (Nat → Nat → K) → F
  step : Bool → (Nat → Nat → Nat → K) → St F K → Nat → Nat → St F K
  order : List Nat
  scat : (Nat → K) → Nat → K
  fixed : Nat → K
  mtod : Nat → Nat → K
  disc : List (Nat → Nat → Nat → K)

variable {F K : Type} [Field K]

/-- `d_is_reflective[side]`, BoundarySN.cc:45-60. -/
def Prob.refl (P : Prob F K) (side : Nat) : Bool :=
  match P.bc side with
  | .reflect => true
  | _ => false

/-- `has_reflective()`, BoundarySN.cc:51-55. -/
def Prob.hasRefl (P : Prob F K) : Bool := (List.range (2 * P.dim)).any P.refl

/-- `d_boundary_size`, WGTransportOperator.cc:39-47. -/
def Prob.bsize (P : Prob F K) : Nat :=
  (List.range (2 * P.dim)).foldl (fun s side => if P.refl side then s + fluxSize P.dim P.na side P.n / 2 else s) 0

/-- The container seen entry by entry. -/
def Prob.flat (P : Prob F K) (b : Bd F) : Loc → K := fun l => P.get (b l.side l.octant l.angle) l.i l.j

/-- The container holding given entries. -/
def Prob.unflat (P : Prob F K) (f : Loc → K) : Bd F := fun side o a => P.face fun i j => f ⟨side, o, a, i, j⟩

/-- Entries visited by `psi(g, v, IN, ·, true)`, BoundarySN.i.hh:115-225. -/
def Prob.locs (P : Prob F K) : List Loc := Boundary.locs P.dim P.na P.n false true P.refl

/-- `d_boundary->clear(g)`, BoundarySN.i.hh:74-101. -/
def Prob.clear (P : Prob F K) (b : Bd F) : Bd F := P.unflat (Boundary.clear P.dim P.na P.n (P.flat b))

/-- `d_boundary->psi(g, v, IN, SET, true)` with `v` the entries of a vector from `off` on
    (WGTransportOperator.cc:84-86, WGSolverGMRES.i.hh:63-67). -/
def Prob.setIn (P : Prob F K) (x : Nat → K) (b : Bd F) : Bd F :=
  P.unflat (Boundary.setPsi P.locs ((List.range P.bsize).map fun k => x (P.N + k)) (P.flat b))

/-- `d_sweeper->sweep(phi)` with a given source; `upd` is `d_update_boundary`. -/
def Prob.sweep (P : Prob F K) (upd : Bool) (src : Nat → Nat → Nat → K) (s : St F K) : St F K :=
  sweepWith P.order P.na (P.step upd src) s

/-- Source of a sweep with given fixed and scatter parts, SweepSource.i.hh:113-159. -/
def Prob.source (P : Prob F K) (fixed scatter : Nat → K) : Nat → Nat → Nat → K :=
  sweepSource fixed scatter P.mtod P.disc

/-- The moments part of a Krylov vector (WGTransportOperator.cc:77-79, WGSolverGMRES.i.hh:58-60). -/
def Prob.moments (P : Prob F K) (x : Nat → K) : Nat → K := fun i => if i < P.N then x i else 0

/-- `WGTransportOperator::multiply`, WGTransportOperator.cc:73-115: what it leaves in boundary and fluxes, and
    the vector `y`. -/
def Prob.multiply (P : Prob F K) (s : St F K) (x : Nat → K) : St F K × (Nat → K) :=
  let b0 := P.clear s.bdy
  let b1 := if P.hasRefl then P.setIn x b0 else b0
  let s1 := P.sweep false (P.source (fun _ => 0) (P.scat (P.moments x))) { s with bdy := b1 }
  if P.hasRefl then
    let b2 := Boundary.update P.dim P.na P.bc s1.bdy
    let psi := Boundary.getPsi P.locs (P.flat b2)
    ({ s1 with bdy := b2 },
      fun i => if i < P.N then x i - s1.phi i else x i - psi.getD (i - P.N) 0)
  else (s1, fun i => x i - s1.phi i)

section order
variable [LinearOrder K]

/-- `norm_residual(old, new, "Linf") < tol` (WGSolverGMRES.i.hh:87-88 and 152-153, WGSolverSI.i.hh:59-65).  With
    no cells the norm reads outside its arguments; the test is then taken to fail. -/
def Prob.close (P : Prob F K) (tol : K) (old new : Nat → K) : Bool :=
  match Util.normResLinf ((List.range P.N).map old) ((List.range P.N).map new) with
  | some e => decide (e < tol)
  | none => false

/-- The reflection loops, WGSolverGMRES.i.hh:82-89 and 143-158: `update(g)`, sweep with `d_update_boundary`, stop
    when the cell fluxes settle.  The flux of the previous pass is the one held before the sweep. -/
def Prob.loop (P : Prob F K) (src : Nat → Nat → Nat → K) (tol : K) : Nat → St F K → St F K
  | 0, s => s
  | k + 1, s =>
    let s' := P.sweep true src { s with bdy := Boundary.update P.dim P.na P.bc s.bdy }
    if P.close tol s.phi s'.phi then s' else P.loop src tol k s'

/-- `WGSolverGMRES::build_rhs`, WGSolverGMRES.i.hh:111-161: what it leaves in boundary and `B`. -/
def Prob.rhsState (P : Prob F K) (tol : K) (s : St F K) : St F K :=
  let b := Boundary.set P.dim P.na P.bc (P.clear s.bdy)
  let s0 : St F K := ⟨b, fun _ => 0, s.psi⟩
  let src := P.source P.fixed (fun _ => 0)
  if P.hasRefl then P.loop src tol 1000 s0 else P.sweep false src s0

/-- `d_b` after `build_rhs`, WGSolverGMRES.i.hh:115 and 163-166. -/
def Prob.rhs (P : Prob F K) (tol : K) (s : St F K) : Nat → K :=
  fun i => if i < P.N then (P.rhsState tol s).phi i else 0

/-- After the linear solve, WGSolverGMRES.i.hh:58-92, from the state `s` the last operator application left:
    the state's flux (first component) and boundary.  `upd` is `d_update_angular_flux`, `tol` stands for
    `1e-9`. -/
def Prob.finish (P : Prob F K) (upd : Bool) (tol : K) (s : St F K) (x : Nat → K) : (Nat → K) × St F K :=
  let s1 : St F K := if P.hasRefl then { s with bdy := P.setIn x s.bdy } else s
  if upd then
    let s2 : St F K := ⟨Boundary.set P.dim P.na P.bc s1.bdy, P.moments x, s1.psi⟩
    (P.moments x, P.loop (P.source P.fixed (P.scat (P.moments x))) tol 1000 s2)
  else (P.moments x, s1)

/-- One pass of `WGSolverSI::solve`, WGSolverSI.i.hh:52-71, with the boundary as `d_boundary->set` and earlier
    passes left it; `d_update_boundary` is on (WGSolverSI.cc:25). -/
def Prob.siPass (P : Prob F K) (s : St F K) : St F K :=
  P.sweep true (P.source P.fixed (P.scat (P.moments s.phi))) s

/-- The passes of `WGSolverSI::solve`, WGSolverSI.i.hh:30-73: stop when the fluxes settle. -/
def Prob.siLoop (P : Prob F K) (tol : K) : Nat → St F K → St F K
  | 0, s => s
  | k + 1, s =>
    let s' := P.siPass s
    if P.close tol s.phi s'.phi then s' else P.siLoop tol k s'

end order

/-! ## The three geometries -/

open Detran.Sweep

/-- `d_update_boundary`: the boundary update made before each angle (e.g. Sweeper1D.i.hh:82). -/
def bupOf {F : Type} (dim : Nat) (bc : Nat → BC F) (upd : Bool) (b : Bd F) (o a : Nat) : Bd F :=
  if upd then Boundary.updateAngle dim bc b o a else b

/-- Faces are single values in 1-D (BoundarySN.cc:194-207). -/
def prob1 (sch : Nat → Nat → K → K → K × K) (w : Nat → K) (nx na : Nat) (up : Bool) (bc : Nat → BC K)
    (order : List Nat) (scat : (Nat → K) → Nat → K) (fixed : Nat → K) (mtod : Nat → Nat → K)
    (disc : List (Nat → Nat → Nat → K)) : Prob K K where
  dim := 1
  na := na
  N := nx
  n := fun _ => nx
  bc := bc
  get := fun v _ _ => v
  face := fun f => f 0 0
  step := fun upd src => angle1 (fun a q i => sch a i (q i)) src w nx up (bupOf 1 bc upd)
  order := order
  scat := scat
  fixed := fixed
  mtod := mtod
  disc := disc

/-- Faces are rows of values in 2-D (BoundarySN.cc:168-189). -/
def prob2 (sch : Nat → Nat → Nat → K → K × K → K × (K × K)) (w : Nat → K) (nx ny na : Nat) (up : Bool)
    (bc : Nat → BC (Nat → K)) (order : List Nat) (scat : (Nat → K) → Nat → K) (fixed : Nat → K)
    (mtod : Nat → Nat → K) (disc : List (Nat → Nat → Nat → K)) : Prob (Nat → K) K where
  dim := 2
  na := na
  N := nx * ny
  n := fun d => if d = 0 then nx else ny
  bc := bc
  get := fun v i _ => v i
  face := fun f i => f i 0
  step := fun upd src => angle2 (fun a q i j => sch a i j (q (i + j * nx))) src w nx ny up (bupOf 2 bc upd)
  order := order
  scat := scat
  fixed := fixed
  mtod := mtod
  disc := disc

/-- Faces are tables of values in 3-D (BoundarySN.cc:137-164). -/
def prob3 (sch : Nat → Nat → Nat → Nat → K → K × K × K → K × (K × K × K)) (w : Nat → K) (nx ny nz na : Nat)
    (up : Bool) (bc : Nat → BC (Nat → Nat → K)) (order : List Nat) (scat : (Nat → K) → Nat → K)
    (fixed : Nat → K) (mtod : Nat → Nat → K) (disc : List (Nat → Nat → Nat → K)) : Prob (Nat → Nat → K) K where
  dim := 3
  na := na
  N := nx * ny * nz
  n := fun d => if d = 0 then nx else if d = 1 then ny else nz
  bc := bc
  get := fun v i j => v i j
  face := fun f => f
  step := fun upd src =>
    angle3 (fun a q i j k => sch a i j k (q (i + j * nx + k * nx * ny))) src w nx ny nz up (bupOf 3 bc upd)
  order := order
  scat := scat
  fixed := fixed
  mtod := mtod
  disc := disc

end Detran.WGReflect
