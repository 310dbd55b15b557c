import Verif.Model.Managers
import Verif.Model.Parser
import Verif.Model.Sources

/-!
# Model of the executable: `drivers/Execute.cc` and `drivers/detran.cc`

The parser's results (database, dimension of the mesh) are the input; the managers are those of `Model/Managers`.
Entries that only the managers read (`equation`, `outer_solver`, `inner_solver`, `eigen_solver`) are taken to be strings
where they exist.  Banner, timing, profiling and Silo files are left out.
-/

namespace Detran.Exec

open Detran.Util Detran.Parser Detran.Sources Detran.Managers

variable {K E Dn : Type} [Field K] [AddCommMonoid E]

/-- What the objects of a run compute: the fixed-source problem, an eigenvalue solver (flux and eigenvalue from those in
    the state before), and whether the factories of quadratures and boundaries accept the input. -/
structure World (K E Dn : Type) where
  P : Phys K (Ext K) E Dn
  eig : EKind → E × K → E × K
  quadOk : Bool
  bcOk : Bool
  meshDim : Nat

/-- Entries the managers read. -/
def World.opts (w : World K E Dn) (d : InputDB K) : Db :=
  ⟨d.dataStr.find "equation", d.dataStr.find "outer_solver", d.dataStr.find "inner_solver", d.dataStr.find "eigen_solver",
   w.quadOk, w.bcOk⟩

/-- What a run prints. -/
inductive Msg (K : Type)
  | noSourceType
  | notReady
  | solved
  | eigenvalue (k : K)
  | exception
deriving DecidableEq, Repr

/-- How a run ends: exit code, messages and the flux in the state (what the output would show), or undefined. -/
inductive Outcome (K E : Type)
  | exit (code : Int) (msgs : List (Msg K)) (flux : Option E)
  | ub

/-- `d_input->get<T>(key)`. -/
def getStr (d : InputDB K) (key : String) : Except Fail String := orUB (d.get .str key)
/-- The same. -/
def getInt (d : InputDB K) (key : String) : Except Fail Int := orUB (d.get .int key)
/-- The same. -/
def getDbl (d : InputDB K) (key : String) : Except Fail K := orUB (d.get .dbl key)
/-- The same. -/
def getInts (d : InputDB K) (key : String) : Except Fail (List Int) := orUB (d.get .vecInt key)
/-- The same. -/
def getDbls (d : InputDB K) (key : String) : Except Fail (List K) := orUB (d.get .vecDbl key)

/-- The source in the input, Execute.cc:84-118.  `G` is `d_number_groups`.  The test for the default strength asks for the
    wrong key.  Division by zero groups is undefined, a negative number of groups makes the vector throw. -/
def describe (d : InputDB K) (G : Int) : Except Fail (Ext K) := do
  let t ← getStr d "source_type"
  if t = "constant" then
    let s ← if d.check "source_type" then getDbl d "source_strength" else .ok 1
    pure (.constant s)
  else if t = "isotropic" then
    insist (d.check "source_spectra")
    let v ← getDbls d "source_spectra"
    if G = 0 then .error .ub
    else if G < 0 then .error .insist
    else
      let n := v.length / G.toNat
      let sp := (List.range n).map fun k => (List.range G.toNat).map fun g => v.getD (k * G.toNat + g) 0
      insist (d.check "source_spectra_map")
      let m ← getInts d "source_spectra_map"
      pure (.isotropic sp m)
  else .error .insist

/-- `d_problem_type`, Execute.cc:37-39: an entry of another type is undefined. -/
def problemType (d : InputDB K) : Except Fail String :=
  if d.check "problem_type" then getStr d "problem_type" else .ok ""

/-- The scaling factor, Execute.cc:73-75. -/
def scaling (d : InputDB K) : Except Fail K :=
  if d.check "fixed_scaling_factor" then getDbl d "fixed_scaling_factor" else .ok 1

/-- `Execute::solve`, fixed-source branch, Execute.cc:60-129: messages and flux.  There is no call of `set_solver`. -/
def solveFixed (w : World K E Dn) (d : InputDB K) (dim : Nat) (G : Int) (type : String) :
    Except Fail (List (Msg K) × E) := do
  let msg : List (Msg K) := if d.check "source_type" then [] else [.noSourceType]
  let k ← scaling d
  insist (w.meshDim = dim)
  match ((Mgr.fresh w.P dim (type = "multiply") false).setup w.P (w.opts d) : Ret K × Mgr (Ext K) E Dn) with
  | (.threw, _) => .error .insist
  | (_, m) =>
    let s ← describe d G
    match (m.setSource (some s)).solve w.P k with
    | (.flag true, m') => pure (msg ++ [.solved], m'.phi)
    | (.ub, _) => .error .ub
    | (_, m') => pure (msg ++ [.notReady], m'.phi)

/-- `Execute::solve`, eigenvalue branch, Execute.cc:135-148.  The truth value of `EigenvalueManager::solve` is not looked
    at; a new state has eigenvalue zero (State.cc:26). -/
def solveEigen (w : World K E Dn) (d : InputDB K) (dim : Nat) : Except Fail (List (Msg K) × E) := do
  insist (w.meshDim = dim)
  match (eigenManager w.P (w.opts d) dim : Option (Mgr (Ext K) E Dn)) with
  | none => .error .insist
  | some m =>
    match eigenChoice (w.opts d) m.disc with
    | none => pure ([.eigenvalue 0], m.phi)
    | some kind => let r := w.eig kind (m.phi, 0); pure ([.eigenvalue r.2], r.1)

/-- Constructor and call of `solve<D>`: Execute.cc:22-45, detran.cc:38-44. -/
def execute (w : World K E Dn) (d : InputDB K) : Except Fail (List (Msg K) × E) := do
  let dim ← getInt d "dimension"
  let type ← problemType d
  let G ← getInt d "number_groups"
  let D := if dim = 1 then 1 else if dim = 2 then 2 else 3
  if type ≠ "eigenvalue" then solveFixed w d D G type else solveEigen w d D

/-- `main`, detran.cc:23-64: both handlers return zero. -/
def main (w : World K E Dn) (d : InputDB K) : Outcome K E :=
  match execute w d with
  | .error .insist => .exit 0 [.exception] none
  | .error .ub => .ub
  | .ok (msgs, phi) => .exit 0 msgs (some phi)

end Detran.Exec
