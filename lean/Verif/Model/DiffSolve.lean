import Verif.Model.Diffusion

/-!
# Model of the multigroup fixed-source diffusion solver `MGDiffusionSolver` (solvers/mg)

The linear solve itself (`d_solver->solve`) is not part of this file: a statement about the solver takes
any vector `x` with `M x = Q`.  Vectors are functions of the row.  Boundary currents are functions of
side, group and the two indices along the side; `BoundaryValue<D>::value` (boundary/BoundaryTraits.hh)
ignores the indices the dimension does not have, and those are always zero here because the mesh has one
cell along the unused axes.
-/

namespace Detran.Diffusion

variable {K : Type} [Field K]

/-- What the solver holds: the data of its loss operator (whose `fission` is the flag `d_multiply`), the
    external sources (`none` for a null pointer), the fission source (`source(g)[cell]`, `none` for a null
    pointer) and the incident partial currents by side, group and position. -/
structure FixedSrc (K : Type) where
  L : Loss K
  ext : List (Option (Nat → Nat → K))
  fsrc : Option (Nat → Nat → K)
  jin : Nat → Nat → Nat → Nat → K

/-- The operator the constructor asks for, MGDiffusionSolver.cc:42-50: full energy range, eigenvalue one.
    `al` and `sf` do not depend on the solver. -/
def FixedSrc.init (L : Loss K) : Loss K :=
  { L with cutoff := if L.adjoint then L.mat.G - 1 else 0, keff := 1, sf := 0 }

/-- `refresh`, MGDiffusionSolver.cc:81-89: the cutoff is the constant zero. -/
def FixedSrc.refresh (L : Loss K) (keff : K) : Loss K := { L with cutoff := 0, keff := keff, sf := 0 }

/-- The operator in force during `solve(keff)`, MGDiffusionSolver.cc:93-100. -/
def FixedSrc.operator [DecidableEq K] (L : Loss K) (keff : K) : Loss K :=
  if L.keff ≠ keff then FixedSrc.refresh L keff else L

/-- One addition `(*d_Q)[row] += v`. -/
def addAt (Q : Nat → K) (e : Nat × K) : Nat → K := fun p => if p = e.1 then Q p + e.2 else Q p

/-- Additions of one source over groups and cells, MGDiffusionSolver.cc:138-150, 159-171. -/
def perCell (n G : Nat) (q : Nat → Nat → K) : List (Nat × K) :=
  (List.range G).flatMap fun g => (List.range n).map fun c => (c + g * n, q c g)

/-- `build_volume_source`, MGDiffusionSolver.cc:130-174. -/
def FixedSrc.volume (S : FixedSrc K) : List (Nat × K) :=
  (S.ext.flatMap fun o => match o with
    | none => []
    | some q => perCell S.L.M.size S.L.mat.G q)
  ++ match S.fsrc with
    | none => []
    | some f => if S.L.fission then [] else perCell S.L.M.size S.L.mat.G (fun c g => f g c)

/-- `remdims`, MGDiffusionSolver.cc:186. -/
def remdims (d : Nat) : Nat × Nat := if d = 0 then (1, 2) else if d = 1 then (0, 2) else (0, 1)

/-- `ijk` with `ijk[d] = s`, `ijk[dim1] = u`, `ijk[dim2] = v`, as a cell, MGDiffusionSolver.cc:189-226. -/
def faceCell (M : Grid K) (d s u v : Nat) : Nat :=
  if d = 0 then M.index s u v else if d = 1 then M.index u s v else M.index u v s

/-- `bound[dir]`, MGDiffusionSolver.cc:201. -/
def bound (M : Grid K) (d dir : Nat) : Nat := if dir = 0 then 0 else M.count d - 1

/-- `build_boundary_source`, MGDiffusionSolver.cc:178-249. -/
def FixedSrc.surface (S : FixedSrc K) : List (Nat × K) :=
  (List.range S.L.M.dim).flatMap fun d => (List.range 2).flatMap fun dir =>
    (List.range (S.L.M.count (remdims d).1)).flatMap fun u =>
      (List.range (S.L.M.count (remdims d).2)).flatMap fun v =>
        (List.range S.L.mat.G).map fun g =>
          let cell := faceCell S.L.M d (bound S.L.M d dir) u v
          let W := S.L.M.h d (bound S.L.M d dir)
          let DC := S.L.dc g cell
          (cell + g * S.L.M.size, (8 * DC * S.jin (2 * d + dir) g u v) / ((4 * DC + W) * W))

/-- The right hand side of one `solve`, MGDiffusionSolver.cc:102-105. -/
def FixedSrc.rhs (S : FixedSrc K) : Nat → K :=
  (S.volume ++ S.surface).foldl addAt (fun _ => 0)

/-- One assignment of `fill_state`, `phi_g[cell] = (*d_phi)[row]` and `++row`, MGDiffusionSolver.cc:259-262. -/
def fillStep (x : Nat → K) (g : Nat) (s : (Nat → Nat → K) × Nat) (c : Nat) : (Nat → Nat → K) × Nat :=
  (fun g' c' => if g' = g ∧ c' = c then x s.2 else s.1 g' c', s.2 + 1)

/-- `fill_state`, MGDiffusionSolver.cc:252-263: the flux of the state afterwards, `phi` before. -/
def fillState (G n : Nat) (x : Nat → K) (phi : Nat → Nat → K) : Nat → Nat → K :=
  ((List.range G).foldl (fun s g => (List.range n).foldl (fillStep x g) s) (phi, 0)).1

/-- `fill_boundary`, MGDiffusionSolver.cc:376-447: the outgoing partial current stored for a side, group
    and position. -/
def FixedSrc.jout (S : FixedSrc K) (x : Nat → K) (surface g u v : Nat) : K :=
  let d := surface / 2
  let cell := faceCell S.L.M d (bound S.L.M d (surface % 2)) u v
  let W := S.L.M.h d (bound S.L.M d (surface % 2))
  let DC := S.L.dc g cell
  (2 * DC * x (cell + g * S.L.M.size) + (W - 4 * DC) * S.jin surface g u v) / (4 * DC + W)

/-- `J[leak]` in `fill_current`, MGDiffusionSolver.cc:309-353; `dir_idx` is 0 for even and 1 for odd
    faces. -/
def Loss.storedFace (D : Loss K) (phi : Nat → Nat → K) (g c leak : Nat) : K :=
  if D.M.onBoundary c leak then D.dtilde g c leak * phi g c
  else ((leak % 2 : Nat) : K) * D.dtilde g c leak * (phi g (D.M.neighbour c leak) - phi g c)

/-- The three components, MGDiffusionSolver.cc:357-363. -/
def Loss.storedComp (D : Loss K) (phi : Nat → Nat → K) (g c axis : Nat) : K :=
  let hx := D.M.width c 0
  let hy := D.M.width c 1
  let hz := D.M.width c 2
  let A := (hy * hz + hx * hz + hx * hy) * (1 / 6)
  let J := D.storedFace phi g c
  if axis = 0 then (J 0 + J 1) * hy * hz / A
  else if axis = 1 then (J 2 + J 3) * hx * hz / A
  else (J 4 + J 5) * hx * hy / A

/-- `fill_current`, MGDiffusionSolver.cc:273-372: the value stored in the state for a group and cell. -/
def Loss.storedCurrent (D : Loss K) (sqrt : K → K) (phi : Nat → Nat → K) (g c : Nat) : K :=
  sqrt (D.storedComp phi g c 0 * D.storedComp phi g c 0 + D.storedComp phi g c 1 * D.storedComp phi g c 1
    + D.storedComp phi g c 2 * D.storedComp phi g c 2)

end Detran.Diffusion
