import Verif.Model.MGReflect

/-!
# Model of `MGSolverGS` (solvers/mg) with source iteration in the groups and a discrete-ordinates boundary

One flux moment.  The group solves are `Prob.siSolve` of `Model/MGReflect`.  Only the default norm "Linf" of
`outer_norm_type` (MGSolverGS.cc:29-32) is modelled.  The sweeper's boundary updates are on after the construction of
`WGSolverSI` (WGSolverSI.cc:25) and nothing in `MGSolverGS` turns them off; the field `flag` of `Run` says so.
-/

namespace Detran.MGReflect

open Detran.MGSolve (groupRange lower upper gsLowerUp)

variable {F K : Type} [Field K] [LinearOrder K]

/-- `d_iterate`, MGSolverGS.cc:28 and 34-38. -/
def gsIterate (G : Nat) (downscatter multiply : Bool) (max : Nat) : Bool :=
  (!downscatter && decide (0 < max) && decide (1 < G)) || multiply

/-- `for g in groups: d_wg_solver->solve(g)`, MGSolverGS.i.hh:43-46 and 63-67. -/
def Prob.gsPass (P : Prob F K) (tolI : K) (n : Nat) (groups : List Nat) (r : Run F K) : Run F K :=
  groups.foldl (P.siSolve tolI n) r

/-- `nres`, MGSolverGS.i.hh:34, 57 and 68: zero for groups outside the block.  (Reading an empty flux vector is
    undefined; taken to be zero here.) -/
def Prob.gsNres (P : Prob F K) (groups : List Nat) (old new : Nat → Nat → K) : List K :=
  (List.range P.M.x.mat.G).map fun g =>
    if g ∈ groups then
      (Util.normResLinf ((List.range P.M.x.N).map (new g)) ((List.range P.M.x.N).map (old g))).getD 0
    else 0

/-- `nres_tot`, MGSolverGS.i.hh:70. -/
def Prob.gsError (P : Prob F K) (groups : List Nat) (old new : Nat → Nat → K) : K :=
  (Util.normLinf (P.gsNres groups old new)).getD 0

/-- The upscatter iterations, MGSolverGS.i.hh:55-78: the run and the last `nres_tot`. -/
def Prob.gsLoop (P : Prob F K) (tolI : K) (n : Nat) (groups : List Nat) (tol : K) : Nat → Run F K → K → Run F K × K
  | 0, r, e => (r, e)
  | k + 1, r, _ =>
    let r' := P.gsPass tolI n groups r
    let e := P.gsError groups r.phi r'.phi
    if e < tol then (r', e) else P.gsLoop tolI n groups tol k r' e

/-- `MGSolverGS::solve`, MGSolverGS.i.hh:22-95, with the group bounds of MGSolverGS.cc:25-27 and 44-52: the run, and
    whether the warning of lines 80-84 is printed.  `cut` is the material's upscatter cutoff. -/
def Prob.gs (P : Prob F K) (cut : Nat) (downscatter multiply : Bool) (tolI : K) (n : Nat) (tol : K) (max : Nat)
    (r : Run F K) : Run F K × Bool :=
  let r1 := P.gsPass tolI n (groupRange (lower P.M.x.mat.G P.M.x.adjoint) (upper P.M.x.mat.G P.M.x.adjoint)) r
  if gsIterate P.M.x.mat.G downscatter multiply max then
    let o := P.gsLoop tolI n
      (groupRange (gsLowerUp P.M.x.mat.G cut P.M.x.adjoint multiply) (upper P.M.x.mat.G P.M.x.adjoint)) tol max r1 0
    (o.1, decide (tol < o.2))
  else (r1, false)

end Detran.MGReflect
