import Verif.Model.Solver
import Mathlib.Algebra.Module.Defs
import Mathlib.Algebra.Order.Group.Abs

/-!
# Model of the restarted GMRES solver

`src/callow/solver/GMRES.cc`, `src/callow/solver/GMRES.i.hh` and the parts of
`src/callow/solver/LinearSolver.cc` they use.

Vectors are elements of an arbitrary module `E` over the number type `K` of exact numbers, with
`Vector::dot` given by `dot` and `std::sqrt` by `sq`; the matrix and the preconditioner are
functions `E → E`.  The arrays `d_H`, `d_c`, `d_s`, `g`, `y` are functions of their indices.
A division by a zero `rho` or `nu` (a NaN in the code, which has no check that survives a release
build) is the outcome `none`.  Printing is not modelled.
-/
namespace Detran.Gmres

open Detran.Solver

variable {K E : Type} [Field K] [LinearOrder K] [AddCommGroup E] [Module K E]

/-- `a[i] = b` on an array of vectors or numbers. -/
def set {α : Type} (f : Nat → α) (i : Nat) (a : α) : Nat → α := fun j => if j = i then a else f j

/-- `LinearSolver::NONE/LEFT/RIGHT`, LinearSolver.hh:80-83. -/
inductive Side where
  | none | left | right
deriving DecidableEq

/-- The operators held by the solver: `d_A`, `d_P` (absent or present) and `d_pc_side`,
    LinearSolver.hh:211-216. -/
structure Sys (E : Type) where
  A : E → E
  P : Option (E → E)
  side : Side

/-- `if (d_P && d_pc_side == side) d_P->apply`, GMRES.cc:93-97, 139-155, 254-258. -/
def pc (S : Sys E) (sd : Side) (w : E) : E :=
  match S.P with
  | some P => if S.side = sd then P w else w
  | none => w

/-- `v[k+1] <-- inv(P_L)*A*inv(P_R) * v[k]`, GMRES.cc:139-155. -/
def op (S : Sys E) (w : E) : E := pc S .left (S.A (pc S .right w))

/-- The residual of an outer iteration, GMRES.cc:88-97. -/
def residual (S : Sys E) (b x : E) : E := pc S .left (-(S.A x - b))

/-- The solver data that the inner iterations change: the Krylov vectors, `d_H`, `d_c`, `d_s`
    and `g`. -/
structure Cyc (K E : Type) where
  v : Nat → E
  H : Nat → Nat → K
  c : Nat → K
  s : Nat → K
  g : Nat → K

/-- Modified Gram–Schmidt, GMRES.cc:162-166: the vector `v[k+1]` and the column `d_H[.][k]`. -/
def mgs (dot : E → E → K) (v : Nat → E) (k : Nat) (w : E) (h : Nat → K) : E × (Nat → K) :=
  (List.range (k + 1)).foldl
    (fun p j => let a := dot p.1 (v j); (p.1 + (-a) • v j, set p.2 j a)) (w, h)

/-- The second pass, GMRES.cc:183-188; its loop stops before `j = k`. -/
def reorth (dot : E → E → K) (v : Nat → E) (k : Nat) (p : E × (Nat → K)) : E × (Nat → K) :=
  (List.range k).foldl
    (fun p j => let hr := dot (v j) p.1; (p.1 + (-hr) • v j, set p.2 j (p.2 j + hr))) p

/-- `apply_givens`, GMRES.i.hh:26-36, on the column `d_H[.][k]`. -/
def givens (c s : Nat → K) (k : Nat) (h : Nat → K) : Nat → K :=
  (List.range k).foldl
    (fun h i => set (set h i (c i * h i - s i * h (i + 1))) (i + 1) (s i * h i + c i * h (i + 1)))
    h

/-- Orthogonalisation of one vector, GMRES.cc:161-190: the result and the column, whose entry
    `k+1` is its norm.  `re` is `d_reorthog` (1 as constructed, GMRES.cc:21). -/
def ortho (dot : E → E → K) (sq : K → K) (re : Nat) (v : Nat → E) (k : Nat) (w : E)
    (h : Nat → K) : E × (Nat → K) :=
  let nAv := sq (dot w w)
  let p := mgs dot v k w h
  let n2 := sq (dot p.1 p.1)
  let p : E × (Nat → K) := (p.1, set p.2 (k + 1) n2)
  if (re = 1 ∧ nAv + 1 / 1000 * n2 = nAv) ∨ re = 2 then
    let p := reorth dot v k p
    (p.1, set p.2 (k + 1) (sq (dot p.1 p.1)))
  else p

/-- One inner iteration, GMRES.cc:139-220 (without the counter and the monitor). -/
def step (S : Sys E) (dot : E → E → K) (sq : K → K) (re : Nat) (z : Cyc K E) (k : Nat) :
    Option (Cyc K E) :=
  let p := ortho dot sq re z.v k (op S (z.v k)) (fun i => z.H i k)
  let w := if p.2 (k + 1) ≠ 0 then (1 / p.2 (k + 1)) • p.1 else p.1
  let h := if k > 0 then givens z.c z.s k p.2 else p.2
  let nu := sq (h k * h k + h (k + 1) * h (k + 1))
  if nu = 0 then none
  else
    let c := h k / nu
    let s := -h (k + 1) / nu
    let h' := set (set h k (c * h k - s * h (k + 1))) (k + 1) 0
    some
      { v := set z.v (k + 1) w
        H := fun i j => if j = k then h' i else z.H i j
        c := set z.c k c
        s := set z.s k s
        g := set (set z.g k (c * z.g k - s * z.g (k + 1))) (k + 1)
              (s * z.g k + c * z.g (k + 1)) }

/-- `compute_y`, GMRES.i.hh:38-58.  `y` is the vector of the previous call. -/
def computeY (H : Nat → Nat → K) (g : Nat → K) (k : Nat) (y : Nat → K) : Nat → K :=
  (List.range k).foldl
    (fun y m =>
      let i := k - 1 - m
      set y i (((List.range (k - (i + 1))).foldl
        (fun a t => a - H i (i + 1 + t) * y (i + 1 + t)) (g i)) / H i i)) y

/-- The start of an outer iteration, GMRES.cc:83-84 and 117-120, when the residual `r` has norm
    `rho`. -/
def start (restart : Nat) (z : Cyc K E) (r : E) (rho : K) : Cyc K E :=
  { z with
    v := set (fun i => if i < restart then 0 else z.v i) 0 ((1 / rho) • r)
    g := set (fun _ => 0) 0 rho }

/-- Where the inner loop stopped. -/
structure Inner (K E : Type) where
  k : Nat
  it : Nat
  done : Bool
  ls : LS K
  z : Cyc K E

/-- The inner loop, GMRES.cc:124-239; the first argument counts the passes left
    (`d_restart - k`).  The test `iteration >= d_maximum_iterations-1` is on signed integers. -/
def inner (par : Par K) (S : Sys E) (dot : E → E → K) (sq : K → K) (re : Nat) :
    Nat → Nat → Nat → LS K → Cyc K E → Option (Inner K E)
  | 0, k, it, ls, z => some ⟨k, it, false, ls, z⟩
  | n + 1, k, it, ls, z =>
    if par.maxit ≤ it + 1 + 1 then some ⟨k, it + 1, true, ls, z⟩
    else
      match step S dot sq re z k with
      | none => none
      | some z' =>
        match monitor par ls (it + 1) |z'.g (k + 1)| with
        | (ls', true) => some ⟨k + 1, it + 1, true, ls', z'⟩
        | (ls', false) => inner par S dot sq re n (k + 1) (it + 1) ls' z'

/-- The new iterate, GMRES.cc:245-263. -/
def update (S : Sys E) (z : Cyc K E) (k : Nat) (y : Nat → K) (x0 : E) : E :=
  pc S .right ((List.range k).foldl (fun x i => x + y i • z.v i) 0) + x0

/-- The outer loop, GMRES.cc:79-265.  The first argument bounds the number of passes; each pass
    raises `iteration`, so `maxit + 1` is never exhausted (`outer_spec`).  `x` and `x0` hold the
    same vector at the head of the loop.  The second result is the value of `iteration`. -/
def outer (par : Par K) (restart : Nat) (S : Sys E) (dot : E → E → K) (sq : K → K) (re : Nat)
    (b : E) : Nat → Nat → LS K → Cyc K E → (Nat → K) → E → Option (E × LS K × Nat)
  | 0, it, ls, _, _, x => some (x, ls, it)
  | f + 1, it, ls, z, y, x =>
    if it < par.maxit then
      let r := residual S b x
      let rho := sq (dot r r)
      let m := if it = 0 then monitorInit par ls rho else (ls, false)
      if m.2 then some (x, m.1, it)
      else if rho = 0 then none
      else
        match inner par S dot sq re restart 0 it m.1 (start restart z r rho) with
        | none => none
        | some q =>
          let y := computeY q.z.H q.z.g q.k y
          let x := update S q.z q.k y x
          if q.done then some (x, q.ls, q.it)
          else outer par restart S dot sq re b f q.it q.ls q.z y x
    else some (x, ls, it)

/-- `solve`, LinearSolver.cc:95-111 around GMRES.cc:48-271, on an object whose arrays and status
    data are whatever construction or an earlier solve left. -/
def solve (par : Par K) (restart : Nat) (S : Sys E) (dot : E → E → K) (sq : K → K) (re : Nat)
    (b x0 : E) (ls : LS K) (z : Cyc K E) : Option (E × LS K × Nat) :=
  outer par restart S dot sq re b (par.maxit + 1) 0 { ls with status := .running }
    { z with v := fun _ => 0, c := fun _ => 0, s := fun _ => 0 } (fun _ => 0) x0

/-- The constructor, GMRES.cc:15-35: `none` is the `Insist` failure. -/
def create (restart : Nat) : Option (Cyc K E) :=
  if restart > 2 then some ⟨fun _ => 0, fun _ _ => 0, fun _ => 0, fun _ => 0, fun _ => 0⟩ else none

/-- `set_operators`, LinearSolver.cc:41-80: what the solver holds afterwards, when the database
    asks for the preconditioner `P` (its construction is modelled elsewhere) on side `sd`.  The
    side is read into a local variable only. -/
def setOperators (S : Sys E) (A : E → E) (P : Option (E → E)) (_sd : Option Side) : Sys E :=
  { A := A, P := match P with | some P => some P | none => S.P, side := S.side }

/-- `set_preconditioner`, LinearSolver.hh:123-127. -/
def setPreconditioner (S : Sys E) (P : E → E) (sd : Side) : Sys E :=
  { S with P := some P, side := sd }

/-- The solver as constructed: no operators, `d_pc_side(NONE)`, LinearSolver.cc:29. -/
def empty : Sys E := ⟨id, none, .none⟩

end Detran.Gmres
