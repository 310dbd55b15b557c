import Verif.Model.Gmres

/-!
# Model of callow's eigenvalue solvers

`src/callow/solver/EigenSolver.{hh,cc}`, `PowerIteration.i.hh`, `Davidson.{hh,cc}`, `Eispack.cc`,
`EigenSolverCreator.cc` and `LinearSolverCreator.cc`.

Vectors are elements of a module `E` over exact numbers `K`; `Vector::norm(L1)` is `nrm`,
`Vector::dot` is `dot`, `std::sqrt` is `sq`.  Divisions by zero (NaN in the code) and writes outside
an array are the outcome `none`.  Printing is not modelled.  The Fortran routines `rg`/`rgg` of
Eispack are a parameter.
-/

namespace Detran.EigenSolve

open Detran.Solver (Status)
open Detran.Gmres (set)

variable {K E : Type} [Field K] [LinearOrder K] [AddCommGroup E] [Module K E]

/-! ## Operators -/

/-- What `set_operators` stores: `d_A`, `d_B`; the linear solver exists exactly when `d_B` does. -/
structure Ops (E : Type) where
  A : Option (E → E)
  B : Option (E → E)

/-- `EigenSolver::set_operators`, EigenSolver.cc:35-54, and `Eispack::set_operators`, Eispack.cc:32-47: an absent `B`
    leaves the one held. -/
def Ops.set (o : Ops E) (A : E → E) (B : Option (E → E)) : Ops E :=
  { A := some A, B := match B with | some B => some B | none => o.B }

/-- `Davidson::set_operators`, Davidson.cc:38-68: an absent `B` is replaced by the identity. -/
def Ops.setDavidson (_ : Ops E) (A : E → E) (B : Option (E → E)) : Ops E :=
  { A := some A, B := some (match B with | some B => B | none => id) }

/-- `EigenSolver::set_preconditioner`, EigenSolver.cc:108-112, passes on to the linear solver, a null
    pointer without `B`. -/
def Ops.setPreconditioner (o : Ops E) : Option Unit := o.B.map fun _ => ()

/-! ## Monitor -/

/-- Tolerance and limit (`set_tolerances` changes both), and the length of `d_residual_norm`, which only
    the constructor sets (to its limit plus one), EigenSolver.cc:18-32, EigenSolver.hh:123-129. -/
structure Par (K : Type) where
  tol : K
  maxit : Nat
  len : Nat

/-- The constructor. -/
def Par.new (tol : K) (maxit : Nat) : Par K := ⟨tol, maxit, maxit + 1⟩

/-- `set_tolerances`, EigenSolver.hh:123-129. -/
def Par.setTolerances (p : Par K) (tol : K) (maxit : Nat) : Par K := { p with tol := tol, maxit := maxit }

/-- Data the monitor changes. -/
structure Log (K : Type) where
  status : Status
  numIt : Nat
  res : Nat → K

/-- `monitor`, EigenSolver.cc:77-104. -/
def monitor (p : Par K) (s : Log K) (it : Nat) (r : K) : Option (Log K × Bool) :=
  if it < p.len then
    let s : Log K := { s with numIt := it, res := set s.res it r }
    if it = p.maxit then some ({ s with status := .maxit }, true)
    else if r < p.tol then some ({ s with status := .success }, true)
    else some (s, false)
  else none

/-! ## Power iteration -/

/-- The operator of one iteration, PowerIteration.i.hh:50-57: `A x0`, then the solve of `B` started from the
    vector `temp`. -/
def power (A : E → E) (B : Option (E → E → E)) (x0 temp : E) : E × E :=
  match B with
  | some s => let t := s (A x0) temp; (t, t)
  | none => (A x0, temp)

/-- What the loop carries. -/
structure PSt (K E : Type) where
  x : E
  x0 : E
  temp : E
  lam : K
  log : Log K

/-- One pass, PowerIteration.i.hh:45-73; the flag is the monitor's. -/
def pass (par : Par K) (nrm : E → K) (A : E → E) (B : Option (E → E → E)) (i : Nat) (s : PSt K E) :
    Option (PSt K E × Bool) :=
  let q := power A B s.x0 s.temp
  let lam := nrm q.1
  let err := nrm ((-s.lam) • s.x0 + q.1)
  if lam = 0 then none
  else
    let x := (1 / lam) • q.1
    (monitor par s.log i err).map fun m => ({ x := x, x0 := x, temp := q.2, lam := lam, log := m.1 }, m.2)

/-- The loop, PowerIteration.i.hh:42-75, with `n` passes left. -/
def passes (par : Par K) (nrm : E → K) (A : E → E) (B : Option (E → E → E)) : Nat → Nat → PSt K E → Option (PSt K E)
  | 0, _, s => some s
  | n + 1, i, s =>
    match pass par nrm A B i s with
    | none => none
    | some (s', true) => some s'
    | some (s', false) => passes par nrm A B n (i + 1) s'

/-- `solve`, EigenSolver.cc:59-73 around PowerIteration.i.hh:18-80.  `guess` is `none` for an empty
    vector, which becomes `ones`; `log` is what an earlier solve left. -/
def powerSolve (par : Par K) (nrm : E → K) (A : E → E) (B : Option (E → E → E)) (ones : E) (x : E) (guess : Option E)
    (log : Log K) : Option (PSt K E) :=
  let g := guess.getD ones
  let lam := nrm g
  if lam = 0 then none
  else passes par nrm A B par.maxit 0 ⟨x, (1 / lam) • g, g, lam, { log with status := .maxit }⟩

/-! ## Eispack -/

/-- The selection loop, Eispack.cc:111-122, over the real parts `er` of `m` eigenvalues. -/
def pick (which : Int) (er : Nat → K) (m : Nat) : K × Nat :=
  (List.range (m - 1)).foldl
    (fun w j =>
      let i := j + 1
      if (er i > w.1 ∧ which = 1) ∨ (er i < w.1 ∧ which = 0) then (er i, i) else w)
    (er 0, 0)

/-- `Eispack::solve_impl` under `EigenSolver::solve`, Eispack.cc:95-131: eigenvalue, vector, status.  `er` are
    the real parts (already divided by `E_D` for a generalised problem), `v` the columns of the eigenvector array,
    `nrm` the L2 norm. -/
def eispack (nrm : E → K) (which : Int) (m : Nat) (er : Nat → K) (v : Nat → E) : Option (K × E × Status) :=
  let w := pick which er m
  if nrm (v w.2) = 0 then none else some (w.1, (1 / nrm (v w.2)) • v w.2, .maxit)

/-! ## Davidson -/

/-- The parts of a Davidson solver: operators, inner product, square root, the solver of the
    projected problem (order, both matrices to vector and eigenvalue), and the preconditioner (which may look at
    the current eigenvalue; it is given the residual and the contents of the vector it overwrites). -/
structure Dav (K E : Type) where
  A : E → E
  B : E → E
  dot : E → E → K
  sq : K → K
  proj : Nat → (Nat → Nat → K) → (Nat → Nat → K) → (Nat → K) × K
  pc : K → E → E → E

def Dav.norm (d : Dav K E) (v : E) : K := d.sq (d.dot v v)

/-- What the loops carry: the bases `V`, `V_a`, `V_b`, the vectors `u`, `t`, the eigenvalue, the
    counter, and the monitor's data. -/
structure DSt (K E : Type) where
  V : Nat → E
  Va : Nat → E
  Vb : Nat → E
  u : E
  t : E
  lam : K
  it : Nat
  log : Log K

/-- `w.add_a_times_x(a[j], V[j])` for `j < k` from zero, Davidson.cc:135-137. -/
def comb (k : Nat) (a : Nat → K) (V : Nat → E) : E := (List.range k).foldl (fun w j => w + a j • V j) 0

/-- The Ritz pair and residual of one inner iteration, Davidson.cc:112-145. -/
def Dav.ritz (d : Dav K E) (i : Nat) (s : DSt K E) : (Nat → K) × K × E × E :=
  let y := d.proj (i + 1) (fun r c => d.dot (s.V r) (s.Va c)) (fun r c => d.dot (s.V r) (s.Vb c))
  let u := comb (i + 1) y.1 s.V
  let r := (List.range (i + 1)).foldl (fun w j => w + y.1 j • s.Va j + (-y.2 * y.1 j) • s.Vb j) 0
  (y.1, y.2, u, r)

/-- The new basis vector before normalisation, Davidson.cc:160-165: the coefficients are all formed
    before any is used. -/
def Dav.direction (d : Dav K E) (i : Nat) (V : Nat → E) (lam : K) (r u : E) : E :=
  let w := d.pc lam r u
  let y := fun j => d.dot (V j) w
  (List.range (i + 1)).foldl (fun w j => w + (-y j) • V j) w

/-- The inner loop, Davidson.cc:108-172, with `n` passes left; the flag says that the monitor stopped it. -/
def Dav.inner (d : Dav K E) (par : Par K) : Nat → Nat → DSt K E → Option (DSt K E × Bool)
  | 0, _, s => some (s, false)
  | n + 1, i, s =>
    let q := d.ritz i s
    match monitor par s.log s.it (d.norm q.2.2.2) with
    | none => none
    | some (log, true) => some ({ s with u := q.2.2.1, lam := q.2.1, log := log }, true)
    | some (log, false) =>
      let s : DSt K E := { s with u := q.2.2.1, t := q.2.2.1, lam := q.2.1, log := log }
      if n = 0 then some (s, false)
      else
        let w := d.direction i s.V s.lam q.2.2.2 s.u
        if d.norm w = 0 then none
        else
          let v := (1 / d.norm w) • w
          d.inner par n (i + 1)
            { s with u := v, V := set s.V (i + 1) v, Va := set s.Va (i + 1) (d.A v),
                     Vb := set s.Vb (i + 1) (d.B v), it := s.it + 1 }

/-- A restart, Davidson.cc:178-186. -/
def Dav.restart (d : Dav K E) (s : DSt K E) : DSt K E :=
  { s with V := fun j => if j = 0 then s.t else 0, Va := fun j => if j = 0 then d.A s.t else 0,
           Vb := fun j => if j = 0 then d.B s.t else 0 }

/-- The outer loop, Davidson.cc:106-188, with `n` passes left. -/
def Dav.outer (d : Dav K E) (par : Par K) (size : Nat) : Nat → DSt K E → Option (DSt K E)
  | 0, s => some s
  | n + 1, s =>
    match d.inner par size 0 s with
    | none => none
    | some (s', true) => some s'
    | some (s', false) => d.outer par size n (d.restart s')

/-- `solve`, EigenSolver.cc:59-73 around Davidson.cc:78-189: subspace size `size`, first entry `l0` of the
    vector passed in, guess `x0`. -/
def Dav.solve (d : Dav K E) (par : Par K) (size : Nat) (l0 : K) (x0 : E) (log : Log K) : Option (DSt K E) :=
  if size = 0 ∨ d.norm x0 = 0 then none
  else
    let v := (1 / d.norm x0) • x0
    d.outer par size (par.maxit / size + 1)
      { V := fun j => if j = 0 then v else 0, Va := fun j => if j = 0 then d.A v else 0,
        Vb := fun j => if j = 0 then d.B v else 0, u := x0, t := 0, lam := l0, it := 1,
        log := { log with status := .maxit } }

/-! ## Creators -/

/-- The entries of the database that the creators read, by name; `none` for an absent entry. -/
structure Db (K : Type) where
  str : String → Option String
  int : String → Option Int
  dbl : String → Option K

/-- The linear solvers that can be built, with their parameters. -/
inductive LinKind (K : Type) where
  | richardson (omega : K)
  | jacobi
  | gaussSeidel (omega : K)
  | gmres (restart : Int)
deriving DecidableEq

/-- A linear solver as built. -/
structure LinSolver (K : Type) where
  kind : LinKind K
  atol : K
  rtol : K
  maxit : Int
  diverge : Bool
  level : Int
deriving DecidableEq

/-- The value of an entry or its default, `if (db->check(..)) x = db->get(..)`. -/
def look {α : Type} (db : Option (Db K)) (f : Db K → Option α) (dflt : α) : α := (db.bind f).getD dflt

/-- `LinearSolverCreator::Create`, LinearSolverCreator.cc:23-124, without PETSc; `none` is the error.  The
    default relaxation of Gauss–Seidel is 1, GaussSeidel.hh:63-66. -/
def createLinear (db : Option (Db K)) : Option (LinSolver K) :=
  let type := look db (·.str "linear_solver_type") "gmres"
  let atol := look db (·.dbl "linear_solver_atol") (1 / 10 ^ 8)
  let rtol := look db (·.dbl "linear_solver_rtol") (1 / 10 ^ 8)
  let maxit := look db (·.int "linear_solver_maxit") 100
  let level := look db (·.int "linear_solver_monitor_level") 0
  let diverge := decide (look db (·.int "linear_solver_monitor_diverge") 0 ≠ 0)
  let kind : Option (LinKind K) :=
    if type = "richardson" then some (.richardson (look db (·.dbl "linear_solver_richardson_omega") 1))
    else if type = "jacobi" then some .jacobi
    else if type = "gauss-seidel" then some (.gaussSeidel 1)
    else if type = "sor" then some (.gaussSeidel (look db (·.dbl "linear_solver_sor_omega") 1))
    else if type = "gmres" then
      let restart := look db (·.int "linear_solver_gmres_restart") 30
      if restart > 2 then some (.gmres restart) else none
    else none
  kind.map fun k => ⟨k, atol, rtol, maxit, diverge, level⟩

/-- The eigenvalue solvers that can be built. -/
inductive EigKind where
  | power
  | davidson (size : Int)
  | eispack (which : Int)
deriving DecidableEq

/-- An eigenvalue solver as built. -/
structure EigSolver (K : Type) where
  kind : EigKind
  tol : K
  maxit : Int
  level : Int
deriving DecidableEq

/-- `EigenSolverCreator::Create`, EigenSolverCreator.cc:24-82, without SLEPc. -/
def createEigen (db : Option (Db K)) : Option (EigSolver K) :=
  let type := look db (·.str "eigen_solver_type") "power"
  let tol := look db (·.dbl "eigen_solver_tol") (1 / 10 ^ 5)
  let maxit := look db (·.int "eigen_solver_maxit") 100
  let level := look db (·.int "eigen_solver_monitor_level") 0
  let kind : Option EigKind :=
    if type = "power" then some .power
    else if type = "gd" then some (.davidson (look db (·.int "eigen_solver_subspace_size") 20))
    else if type = "eispack" then some (.eispack 1)
    else none
  kind.map fun k => ⟨k, tol, maxit, level⟩

end Detran.EigenSolve
