import Verif.Model.Util
import Mathlib.Algebra.Order.Field.Basic

/-!
# Model of `geometry/Mesh`
-/

namespace Detran.Mesh

open Detran.Util

/-- Arithmetic of `unsigned int` (the library's `size_t`, utilities/Definitions.hh). -/
def u32 (n : Nat) : Nat := n % 4294967296

/-- `d_number_cells`, Mesh.cc:178. -/
def numberCells (nx ny nz : Nat) : Nat := u32 (u32 (nx * ny) * nz)

/-- `Mesh::index(i,j,k)`, Mesh.i.hh:120-129, in 32-bit arithmetic. -/
def index (nx ny i j k : Nat) : Nat :=
  u32 (u32 (i + u32 (j * nx)) + u32 (u32 (k * nx) * ny))

/-- `Mesh::cell_to_i`, Mesh.i.hh:132-139.  `none`: remainder by zero. -/
def cellToI (nx c : Nat) : Option Nat := if nx = 0 then none else some (c % nx)

/-- `Mesh::cell_to_j`, Mesh.i.hh:140-149.  The floored `double` quotient of two 32-bit
    integers equals the integer quotient (both are exactly representable and the
    quotient's fractional gap `1/nx` exceeds the rounding error), so it is modelled by
    integer division.  `none`: remainder or quotient by zero. -/
def cellToJ (nx ny c : Nat) : Option Nat :=
  if u32 (nx * ny) = 0 ∨ nx = 0 then none else some (c % u32 (nx * ny) / nx)

/-- `Mesh::cell_to_k`, Mesh.i.hh:150-158.  `none`: division by zero. -/
def cellToK (nx ny c : Nat) : Option Nat :=
  if u32 (nx * ny) = 0 then none else some (c / u32 (nx * ny))

/-! ## Coarse-to-fine maps -/

/-- The placeholder bookkeeping shared by Mesh.cc:73-110 and 195-228: for each coarse
    cell `c` the pair of fine limits `[save, save + fm[c])`; afterwards
    `save = accumulate(fm.begin(), fm.begin() + c + 1)`. -/
def segsFrom (fm : List Nat) : Nat → Nat → List Nat → List (Nat × Nat × Nat)
  | _, _, [] => []
  | c, save, f :: rest =>
      (c, save, save + f) :: segsFrom fm (c + 1) ((fm.take (c + 1)).sum) rest

/-- All coarse cells of one direction with their fine ranges; `save` starts at 0. -/
def segs (fm : List Nat) : List (Nat × Nat × Nat) := segsFrom fm 0 0 fm

/-- `for (ii = lo; ii < hi; ++ii)`. -/
def upTo (lo hi : Nat) : List Nat := (List.range (hi - lo)).map (lo + ·)

/-- Assignments `arr[p] = v` carried out in order.  `none`: write out of range, or the
    value itself was read out of range (undefined behaviour). -/
def applyWrites {V : Type} : List V → List (Nat × Option V) → Option (List V)
  | arr, [] => some arr
  | arr, (p, some v) :: ws => if p < arr.length then applyWrites (arr.set p v) ws else none
  | _, (_, none) :: _ => none

/-- The assignments of the six nested loops of `add_coarse_mesh_map`, Mesh.cc:73-110, in
    order.  (Index arithmetic in `Nat`: the cell count is assumed to fit `size_t`, see
    C01.) -/
def coarseWrites (xfm yfm zfm : List Nat) (mMap : List Int) : List (Nat × Option Int) :=
  let nx := xfm.sum
  let ny := yfm.sum
  (segs zfm).flatMap fun (k, k1, k2) =>
    (segs yfm).flatMap fun (j, j1, j2) =>
      (segs xfm).flatMap fun (i, i1, i2) =>
        (upTo k1 k2).flatMap fun kk =>
          (upTo j1 j2).flatMap fun jj =>
            (upTo i1 i2).map fun ii =>
              (ii + jj * nx + kk * nx * ny,
               mMap[i + j * xfm.length + k * xfm.length * yfm.length]?)

/-- `Mesh::add_coarse_mesh_map`, Mesh.cc:64-114: the fine map handed to `add_mesh_map`. -/
def coarseToFine (xfm yfm zfm : List Nat) (mMap : List Int) : Option (List Int) :=
  applyWrites (List.replicate (xfm.sum * yfm.sum * zfm.sum) 0) (coarseWrites xfm yfm zfm mMap)

/-- `Mesh::add_mesh_map`, Mesh.cc:117-131 (erase, then insert). -/
def addMeshMap (m : SMap (List Int)) (key : String) (v : List Int) : SMap (List Int) :=
  SMap.set (m.filter (fun e => e.1 ≠ key)) key v

/-- `Mesh::mesh_map`, Mesh.cc:145-149; `.error` is the `Insist` failure. -/
def meshMap (m : SMap (List Int)) (key : String) : Except String (List Int) :=
  match m.find key with
  | some v => .ok v
  | none => .error ("Mesh map key not found:" ++ key)

/-! ## Widths -/

section
variable {K : Type} [Field K]

/-- Assignments of one "Discretize" loop, Mesh.cc:195-205 (and 206-218, 219-228). -/
def widthWrites (edges : List K) (fm : List Nat) : List (Nat × Option K) :=
  (segs fm).flatMap fun (c, lo, hi) =>
    (upTo lo hi).map fun ii =>
      (ii, do
        let e1 ← edges[c + 1]?
        let e0 ← edges[c]?
        let f ← fm[c]?
        pure ((e1 - e0) / (f : K)))

/-- `d_dx` (`d_dy`, `d_dz`) after `setup`, Mesh.cc:180-228. -/
def widths (edges : List K) (fm : List Nat) : Option (List K) :=
  applyWrites (List.replicate fm.sum 0) (widthWrites edges fm)

/-- `d_total_width_x`, Mesh.cc:186; `none` when there are no edges. -/
def totalWidth (edges : List K) : Option K := do
  let last ← edges[edges.length - 1]?
  let first ← edges[0]?
  pure (last - first)

/-- `Mesh::volume(cell)`, Mesh.i.hh:89-97. -/
def volume (dx dy dz : List K) (c : Nat) : Option K := do
  let i ← cellToI dx.length c
  let j ← cellToJ dx.length dy.length c
  let k ← cellToK dx.length dy.length c
  let a ← dx[i]?
  let b ← dy[j]?
  let d ← dz[k]?
  pure (a * b * d)

end

/-! ## Point location -/

section
variable {K : Type} [Field K] [LinearOrder K]

/-- Inner loop of `find_cell`, Mesh.i.hh:180-191: first cell whose upper edge is not
    below `x`.  `none`: no such cell, `ijk[d]` keeps its initial 0. -/
def scan (x : K) : List K → K → Nat → Option Nat
  | [], _, _ => none
  | w :: ws, edge, i => if x ≤ edge + w then some i else scan x ws (edge + w) (i + 1)

/-- Data of a mesh used by `find_cell`. -/
structure Loc (K : Type) where
  dim : Nat
  dx : List K
  dy : List K
  dz : List K
  wx : K
  wy : K
  wz : K

/-- `ijk[d]` after the search in direction `d` (0 when inactive or not found),
    Mesh.i.hh:175-192. -/
def Loc.find1 (active : Bool) (ws : List K) (x : K) : Nat :=
  if active then (scan x ws 0 0).getD 0 else 0

/-- `Mesh::find_cell`, Mesh.i.hh:161-195. -/
def Loc.findCell (m : Loc K) (x y z : K) : Int :=
  if x < 0 ∨ m.wx < x ∨ y < 0 ∨ m.wy < y ∨ z < 0 ∨ m.wz < z then -1
  else
    let i := Loc.find1 (0 < m.dim) m.dx x
    let j := Loc.find1 (1 < m.dim) m.dy y
    let k := Loc.find1 (2 < m.dim) m.dz z
    (index m.dx.length m.dy.length i j k : Int)

end

end Detran.Mesh
