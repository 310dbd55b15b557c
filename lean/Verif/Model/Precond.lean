import Verif.Model.MGSolve
import Verif.Model.Diffusion
import Mathlib.Algebra.Module.Defs

/-!
# Model of the diffusion preconditioners of the transport solvers

`src/solvers/wg/PC_DSA.i.hh` (within one group), `src/solvers/mg/MGDSA.cc` (all groups of the Krylov
block), `src/solvers/mg/MGCMDSA.cc` (coarse mesh), `src/solvers/mg/MGTCDSA.cc` (transport-corrected).

Vectors of the first two are functions of the position: the flux moments first, boundary values after
them.  The last two are written for arbitrary modules; their restriction, prolongation and source
operators are modelled elsewhere (`Model/Restrict.lean`, `Model/MGSolve.lean`).  What the linear solver of
the diffusion problem returns is an argument (its guess is the zero vector, newly allocated at each
call).  Whether fission is included is an argument too (MGDSA.cc:29-31, MGCMDSA.cc:34-35).  Counters and printing
are not modelled.
-/

namespace Detran.Precond

open Detran.Material Detran.MGSolve

variable {K : Type} [Field K] [LinearOrder K]

/-- `PC_DSA::apply`, PC_DSA.i.hh:16-65, in group `g`: `sol` is `d_solver[d_group]->solve`.  The source is
    built from a copy of the moments (35-42), the whole input is copied to the output (58) and the
    diffusion flux added to its moments (60-61). -/
def wgDsa (x : Src K) (g : Nat) (sol : (Nat → K) → Nat → K) (v : Nat → K) : Nat → K :=
  let s := x.withinGroup g v (fun _ => 0)
  let t := sol s
  fun p => if p < x.N then v p + t p else v p

/-- The multigroup flux of `MGDSA::apply`, MGDSA.cc:69-73: zero below the cutoff, in both modes. -/
def mgFlux (G N k : Nat) (v : Nat → K) (g i : Nat) : K :=
  if k ≤ g ∧ g < G ∧ i < N then v ((g - k) * N + i) else 0

/-- The source of one group, MGDSA.cc:82-87. -/
def mgGroupSource (x : Src K) (k : Nat) (fis : Bool) (scale : K) (phi : Nat → Nat → K) (g : Nat) : Nat → K :=
  let s := x.totalGroup phi g k (fun _ => 0)
  if fis then x.fissionTotal scale phi g s else s

/-- `S_V`, MGDSA.cc:79-90. -/
def mgSource (x : Src K) (k : Nat) (fis : Bool) (scale : K) (v : Nat → K) : Nat → K :=
  (List.range' k (x.mat.G - k)).foldl
    (fun y g => setBlock y ((g - k) * x.N) x.N
      (mgGroupSource x k fis scale (mgFlux x.mat.G x.N k v) g)) (fun _ => 0)

/-- `d_number_active_groups`, MGPreconditioner.cc:46-48. -/
def activeGroups (G : Nat) (adjoint : Bool) (k : Nat) : Nat := active G adjoint k

/-- `MGDSA::apply`, MGDSA.cc:62-105, on vectors of length `n`: the output is set to zero (66) and only the
    moments are written (105-106).  `none`: an index past the end of the input or of `S_V`
    (73, 89), whose lengths are `n` and the number of active groups times the number of cells. -/
def mgDsa (x : Src K) (k : Nat) (fis : Bool) (scale : K) (n : Nat) (sol : (Nat → K) → Nat → K)
    (v : Nat → K) : Option (Nat → K) :=
  let m := x.N * activeGroups x.mat.G x.adjoint k
  if (x.mat.G - k) * x.N ≤ n ∧ (x.mat.G - k) * x.N ≤ m ∧ m ≤ n then
    let t := sol (mgSource x k fis scale v)
    some fun p => if p < m then v p + t p else 0
  else none

/-! ## Coarse mesh and transport correction -/

section
variable {M B H E : Type} [AddCommGroup M] [AddCommGroup E] [Module K E]

/-- `MGCMDSA::apply`, MGCMDSA.cc:115-170: moments and boundary values of the fine vector, `SF` the
    scatter and fission operator, `R` and `P` restriction and prolongation, `sol` the coarse solver and
    `smooth` the smoothing solver (right-hand side, starting vector). -/
def cmDsa (SF : M → M) (R : M → H) (sol : H → H) (P : H → M) (smooth : Option (M → M → M)) (v : M × B) :
    M × B :=
  let s := SF v.1
  let t := P (sol (R s))
  let t := match smooth with
    | some f => f s t
    | none => t
  (v.1 + t, v.2)

/-- The recursive `MGTCDSA::apply(x_in, x_out, k)`, MGTCDSA.cc:124-143. -/
def tcCoarse (K : Type) [Field K] [Module K E] (At P : E → E) : Nat → E → E
  | 0, x => P x
  | k + 1, x =>
    let out := tcCoarse K At P k x
    let y := At out
    let y := y + (-2 : K) • x
    let y := (-1 : K) • y
    tcCoarse K At P k y

/-- `MGTCDSA::apply(b, x)`, MGTCDSA.cc:88-105: `n` is `d_number_coarse_corrections` and `fine` is
    `d_use_fine_correction`. -/
def tcDsa (K : Type) [Field K] [Module K E] (A At P : E → E) (n : Nat) (fine : Bool) (b : E) : E :=
  let x := tcCoarse K At P n b
  if fine then
    let y := A x
    let y := y + (-2 : K) • b
    let y := (-1 : K) • y
    tcCoarse K At P n y
  else x

end

/-- A preconditioner on vectors of length `n`. -/
def onFin (n : Nat) (f : (Nat → K) → Nat → K) (v : Fin n → K) : Fin n → K := fun i =>
  f (fun p => if h : p < n then v ⟨p, h⟩ else 0) i

end Detran.Precond
