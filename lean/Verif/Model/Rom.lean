import Verif.Model.Dense

/-!
# Model of `solvers/rom`: `ROMBasis`, `OperatorProjection` and `ROMSolver`

The full operators are functions from vectors to vectors that overwrite their output, and the reduced eigenvalue solver is a
parameter.  The `int` product of the basis sizes is exact; printing is left out, as is what building the transport
managers does to the input.
-/

namespace Detran.Rom

open Detran.Dense

variable {K : Type} [Field K] [LinearOrder K]

/-- `ROMBasis::GetBasis`, ROMBasis.cc:21-52: `file` is the list of numbers in the file, `none` when it cannot be opened
    (31-34).  Numbers that the file does not hold are uninitialised memory (37-39): the result is `none`. -/
def getBasis (file : Option (List K)) (U : Dense K) : Option (Dense K) :=
  match file with
  | none => some U
  | some B => loop (fun V c => (B[c]?).bind fun b => V.insert (c / U.n) (c % U.n) b false) U (List.range (U.n * U.m))

/-- The column `i` of the basis as a vector of `d_n` numbers, OperatorProjection.cc:50-53. -/
def column (U : Dense K) (i : Nat) : Nat → K :=
  fun j => if j < U.m then (U.get j i).getD 0 else 0

/-- `OperatorProjection::SetOperators` and `Project`, OperatorProjection.cc:23-61; `A v` is `d_A->multiply(v, y)`. -/
def project (A : (Nat → K) → Nat → K) (U : Dense K) (Ar : Dense K) : Option (Dense K) :=
  loop (fun R i => R.insertCol i (U.multiplyTranspose (A (column U i))) false) Ar (List.range U.n)

/-- The values of `d_operator`. -/
inductive Kind where
  | diffusion
  | energyIndependent
  | energyDependent
deriving DecidableEq

/-- The choice of the operator in the constructor, ROMSolver.cc:23-35; `none` is an input without the key. -/
def chooseKind (o : Option String) : Kind :=
  match o with
  | none => .energyDependent
  | some s =>
    if s = "diffusion" then .diffusion
    else if s = "energy-independent" then .energyIndependent
    else if s = "energy-dependent" then .energyDependent
    else .energyDependent

/-- The three entries of the input that the solvers read. -/
structure Keys where
  outerSolver : Option String
  cutoff : Option Int
  eigenSolver : Option String
deriving DecidableEq

/-- What `Set_FullOperators` writes into the caller's input, ROMSolver.cc:56-58. -/
def setKeys (k : Kind) (d : Keys) : Keys :=
  match k with
  | .energyDependent => ⟨some "GMRES", some 0, some "GD"⟩
  | _ => d

/-- The loop that corrects the direction, ROMSolver.cc:125-131. -/
def fixSign (n : Nat) (s : Nat → K) : Nat → K :=
  (List.range n).foldl (fun t i => if t i < 0 then fun j => if j = i then t i * (-1) else t j else t) s

/-- `ROMSolver::Solve`, ROMSolver.cc:84-133: the vector and the eigenvalue.  `eig P Q x0` is what the eigenvalue solver finds
    for `P x = λ Q x` (or `P x = λ x`) from `x0`. -/
def solve (k : Kind) (A B : (Nat → K) → Nat → K) (eig : Dense K → Option (Dense K) → (Nat → K) → (Nat → K) × K) (U : Dense K) :
    Option ((Nat → K) × K) :=
  (project A U (Dense.new U.n U.n 0)).bind fun Ar =>
    let found : Option ((Nat → K) × K) := match k with
      | .energyIndependent => some (eig Ar none fun _ => 1)
      | _ => (project B U (Dense.new U.n U.n 0)).map fun Br => eig Br (some Ar) fun _ => 1
    found.map fun r => (fixSign U.m (U.multiply r.1), r.2)

end Detran.Rom
