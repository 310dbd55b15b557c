import Verif.Model.Matrix
import Mathlib.Algebra.Order.Field.Basic

/-!
# Model of the callow preconditioners and stationary linear solvers

Vectors are functions `Nat → K`.  Matrices are assembled `CSR` storage; the diagonal pointer of
a row that has none is read as 0 (square assembled matrices always have one, `C09_shape`).
Division is field division; the theorems assume the divisors nonzero.
-/

namespace Detran.Solver

open Detran.Matrix

variable {K : Type} [Field K]

/-- `y[i] = v`. -/
def upd {α : Type} (y : Nat → α) (i : Nat) (v : α) : Nat → α := fun k => if k = i then v else y k

/-- `for (p = lo; p < hi; ++p)`. -/
def seg (lo hi : Nat) : List Nat := List.range' lo (hi - lo)

/-- `d_P->diagonal(i)`. -/
def dg (A : CSR K) (i : Nat) : Nat := (A.diagonal i).getD 0
/-- `d_P->column(p)` used as an index. -/
def cl (A : CSR K) (p : Nat) : Nat := (A.column p).toNat

/-! ## Preconditioners -/

/-- Construction of the Jacobi preconditioner, PCJacobi.cc:26-39. -/
def pcJacobi [DecidableEq K] (A : CSR K) (i : Nat) : K :=
  if A.value (dg A i) = 0 then 1 else 1 / A.value (dg A i)

/-- `PCJacobi::apply`, PCJacobi.i.hh:15-22. -/
def pcJacobiApply [DecidableEq K] (A : CSR K) (b : Nat → K) (i : Nat) : K := b i * pcJacobi A i

/-- Forward substitution, PCILU0.i.hh:28-42 and PCILUT.cc:168-184. -/
def forward (P : CSR K) (b y0 : Nat → K) : Nat → K :=
  (List.range P.m).foldl (fun y i =>
    (seg (P.start i) (dg P i)).foldl (fun y p => upd y i (y i - P.value p * y (cl P p)))
      (upd y i (b i))) y0

/-- Backward substitution.  `off = 0` is PCILU0.i.hh:47-62 (`p = d`), `off = 1` is
    PCILUT.cc:189-204 (`p = d+1`). -/
def backward (off : Nat) (P : CSR K) (y x0 : Nat → K) : Nat → K :=
  (List.range P.m).reverse.foldl (fun x i =>
    let x' := (seg (dg P i + off) (P.stop i)).foldl
      (fun x p => upd x i (x i - P.value p * x (cl P p))) (upd x i (y i))
    upd x' i (x' i / P.value (dg P i))) x0

/-- `PCILU0::apply`, PCILU0.i.hh:19-64 (`y0` is the old content of `d_y`, `x0` that of `x`). -/
def ilu0Apply (P : CSR K) (b y0 x0 : Nat → K) : Nat → K := backward 0 P (forward P b y0) x0

/-- `PCILUT::apply`, PCILUT.cc:159-205. -/
def ilutApply (P : CSR K) (b x0 : Nat → K) : Nat → K :=
  backward 1 P (forward P b (fun _ => 0)) x0

/-- Column pointers of the strictly lower part of row `i`, PCILU0.cc:60-61. -/
def iw (A : CSR K) (i : Nat) : Nat → Option Nat :=
  (seg (A.start i) (dg A i)).foldl (fun w p => upd w (cl A p) (some p)) (fun _ => none)

/-- One subtraction, PCILU0.cc:75-77. -/
def iluUpd (A : CSR K) (i : Nat) (val : K) (lu : Nat → K) (q : Nat) : Nat → K :=
  match iw A i (cl A q) with
  | some pp => upd lu pp (lu pp - val * lu q)
  | none => lu

/-- Elimination of one entry `p` of row `i`, PCILU0.cc:66-78. -/
def iluElim (A : CSR K) (i : Nat) (lu : Nat → K) (p : Nat) : Nat → K :=
  let val := lu p / lu (dg A (cl A p))
  (seg (dg A (cl A p) + 1) (A.stop (cl A p))).foldl (iluUpd A i val) (upd lu p val)

/-- Elimination of row `i`, PCILU0.cc:64-79. -/
def iluRow (A : CSR K) (i : Nat) (lu : Nat → K) : Nat → K :=
  (seg (A.start i) (dg A i)).foldl (iluElim A i) lu

/-- Loop over rows with the zero-pivot test, PCILU0.cc:55-89; `none` is the exception. -/
def iluRows [DecidableEq K] (A : CSR K) (lu : Nat → K) : List Nat → Option (Nat → K)
  | [] => some lu
  | i :: l =>
    let lu' := iluRow A i lu
    if lu' (dg A i) = 0 then none else iluRows A lu' l

/-- `PCILU0::PCILU0`, PCILU0.cc:15-96: the stored values over the pattern of `A`. -/
def ilu0 [DecidableEq K] (A : CSR K) : Option (Nat → K) :=
  iluRows A A.value (List.range' 1 (A.m - 1))

/-- The preconditioner's matrix, with the pattern of `A`. -/
def ilu0Matrix (A : CSR K) (lu : Nat → K) : CSR K :=
  { A with vals := (List.range A.vals.length).map lu }

/-! ## Stationary iterations -/

/-- One Jacobi update of one row, Jacobi.i.hh:61-72. -/
def jacobiRow (A : CSR K) (ω : K) (b x0 : Nat → K) (i : Nat) : K :=
  let v := (seg (A.start i) (dg A i)).foldl (fun v p => v + A.value p * x0 (cl A p)) 0
  let v := (seg (dg A i + 1) (A.stop i)).foldl (fun v p => v + A.value p * x0 (cl A p)) v
  ω * (b i - v) / A.value (dg A i) + (1 - ω) * x0 i

/-- One Jacobi sweep, Jacobi.i.hh:59-73 (`x1` is the old content of the scratch vector). -/
def jacobiStep (A : CSR K) (ω : K) (b x0 x1 : Nat → K) : Nat → K :=
  (List.range A.m).foldl (fun x i => upd x i (jacobiRow A ω b x0 i)) x1

/-- One Gauss-Seidel sweep before relaxation, GaussSeidel.i.hh:54-67. -/
def gsSweep (A : CSR K) (b x0 x1 : Nat → K) : Nat → K :=
  (List.range A.m).foldl (fun x1 i =>
    let v := (seg (A.start i) (dg A i)).foldl (fun v p => v + A.value p * x1 (cl A p)) 0
    let v := (seg (dg A i + 1) (A.stop i)).foldl (fun v p => v + A.value p * x0 (cl A p)) v
    upd x1 i ((b i - v) / A.value (dg A i))) x1

/-- One relaxed Gauss-Seidel sweep, GaussSeidel.i.hh:54-79. -/
def gsStep [DecidableEq K] (A : CSR K) (ω : K) (b x0 x1 : Nat → K) : Nat → K :=
  if ω ≠ 1 then fun i => ω * gsSweep A b x0 x1 i + (1 - ω) * x0 i
  else gsSweep A b x0 x1

/-- One Richardson update, Richardson.i.hh:26-36 and 60-78, for an operator `mul` and an optional
    left preconditioner `P`. -/
def richardsonStep (mul : (Nat → K) → (Nat → K)) (P : Option ((Nat → K) → (Nat → K))) (ω : K)
    (b x0 : Nat → K) : Nat → K :=
  let B := match P with
    | some P => P b
    | none => fun i => b i * ω
  let x1 := match P with
    | some P => P (mul x0)
    | none => fun i => mul x0 i * ω
  fun i => (x1 i - x0 i - B i) * (-1)

/-! ## Convergence monitor -/

/-- `CallowDefinitions.hh` solver status. -/
inductive Status where
  | running | success | maxit | diverge
deriving DecidableEq

/-- Parameters, LinearSolver.hh:166-178. -/
structure Par (R : Type) where
  atol : R
  rtol : R
  maxit : Nat
  diverge : Bool

/-- Changing data of a solver, LinearSolver.hh:199-224. -/
structure LS (R : Type) where
  status : Status
  numIt : Nat
  res : Nat → R

variable {R : Type} [Field R] [LinearOrder R]

/-- `monitor_init`, LinearSolver.cc:115-131. -/
def monitorInit (c : Par R) (s : LS R) (r : R) : LS R × Bool :=
  let s := { s with res := upd s.res 0 r }
  if r < c.atol then ({ s with status := .success }, true) else (s, false)

/-- `monitor`, LinearSolver.cc:134-170 (`it == d_maximum_iterations - 1` on signed integers). -/
def monitor (c : Par R) (s : LS R) (it : Nat) (r : R) : LS R × Bool :=
  let s : LS R := { s with numIt := it, res := upd s.res it r }
  if r < max (c.rtol * s.res 0) c.atol then ({ s with status := .success }, true)
  else if c.diverge = true ∧ it > 1 ∧ r - s.res (it - 1) > 0 then
    ({ s with status := .diverge }, true)
  else if it + 1 = c.maxit then ({ s with status := .maxit }, true)
  else ({ s with status := .running }, false)

/-- Which solver: the ones that return when `monitor_init` succeeds (Richardson), those that
    ignore it (GaussSeidel), and the one whose loop counter is the reported count (Jacobi). -/
inductive Kind where
  | richardson | gaussSeidel | jacobi
deriving DecidableEq

/-- The iteration loop, Jacobi.i.hh:50-105, GaussSeidel.i.hh:46-110, Richardson.i.hh:52-99;
    `r it` is the residual norm computed in iteration `it`, `k` the iterations still allowed.
    Also returns the number of iterations carried out. -/
def iterate (c : Par R) (kd : Kind) (r : Nat → R) : Nat → Nat → LS R → LS R × Nat
  | 0, it, s => (if kd = .jacobi then { s with numIt := it } else s, it - 1)
  | k + 1, it, s =>
    match monitor c s it (r it) with
    | (s', true) => (s', it)
    | (s', false) => iterate c kd r k (it + 1) s'

/-- `solve`, LinearSolver.cc:95-111 around `solve_impl`.  The initial data `s` is whatever an
    earlier solve left. -/
def solve (c : Par R) (kd : Kind) (r : Nat → R) (s : LS R) : LS R × Nat :=
  match monitorInit c { s with status := .running } (r 0) with
  | (s', true) => if kd = .richardson then (s', 0) else iterate c kd r c.maxit 1 s'
  | (s', false) => iterate c kd r c.maxit 1 s'

end Detran.Solver
