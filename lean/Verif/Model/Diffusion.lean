import Verif.Model.Matrix
import Verif.Model.Material

/-!
# Model of the multigroup diffusion operators: `DiffusionLossOperator`, `DiffusionGainOperator`,
`CMFDLossOperator` (solvers/mg) and `WGDiffusionLossOperator` (solvers/wg)

The `build` functions are lists of `insert` calls on the preallocated matrix, in program order.
Cell indices are natural numbers (32-bit overflow is treated in C01).
-/

namespace Detran.Diffusion

open Detran.Matrix

variable {K : Type} [Field K]

/-- Mesh data used: dimension, cells per axis, widths per axis. -/
structure Grid (K : Type) where
  dim : Nat
  nx : Nat
  ny : Nat
  nz : Nat
  h : Nat → Nat → K

/-- `number_cells()`, Mesh.cc:178. -/
def Grid.size (M : Grid K) : Nat := M.nx * M.ny * M.nz

/-- Cells along an axis: `nxyz[axis][1] + 1`, DiffusionLossOperator.cc:166-168. -/
def Grid.count (M : Grid K) : Nat → Nat
  | 0 => M.nx
  | 1 => M.ny
  | _ => M.nz

/-- `cell_to_i`, `cell_to_j`, `cell_to_k`, Mesh.i.hh:132-158 (see `Mesh.cellToI` etc., C01). -/
def Grid.coord (M : Grid K) (c : Nat) : Nat → Nat
  | 0 => c % M.nx
  | 1 => c % (M.nx * M.ny) / M.nx
  | _ => c / (M.nx * M.ny)

/-- `Mesh::index`, Mesh.i.hh:120-129. -/
def Grid.index (M : Grid K) (i j k : Nat) : Nat := i + j * M.nx + k * M.nx * M.ny

/-- `cell_hxyz[axis]`, DiffusionLossOperator.cc:159. -/
def Grid.width (M : Grid K) (c axis : Nat) : K := M.h axis (M.coord c axis)

/-- `Mesh::volume(cell)`, Mesh.i.hh:89-97. -/
def Grid.volume (M : Grid K) (c : Nat) : K := M.width c 0 * M.width c 1 * M.width c 2

/-- `bound[leak] == nxyz[xyz_idx][dir_idx]`, DiffusionLossOperator.cc:165-168, 184-187, 204:
    axis `leak / 2`, low side for even `leak`. -/
def Grid.onBoundary (M : Grid K) (c leak : Nat) : Bool :=
  decide (M.coord c (leak / 2) = if leak % 2 = 0 then 0 else M.count (leak / 2) - 1)

/-- The shifted index along `axis`, DiffusionLossOperator.cc:191-197. -/
def shifted (leak axis i : Nat) : Nat :=
  if axis = leak / 2 then (if leak % 2 = 0 then i - 1 else i + 1) else i

/-- `neig_cell`, DiffusionLossOperator.cc:191-197, 217. -/
def Grid.neighbour (M : Grid K) (c leak : Nat) : Nat :=
  M.index (shifted leak 0 (M.coord c 0)) (shifted leak 1 (M.coord c 1)) (shifted leak 2 (M.coord c 2))

/-- Coupling at a boundary face, DiffusionLossOperator.cc:207-209. -/
def dBoundary (dc albedo h : K) : K :=
  (2 * dc * (1 - albedo)) / (4 * dc * (1 + albedo) + (1 - albedo) * h)

/-- Coupling between two cells, DiffusionLossOperator.cc:227-229. -/
def dInterior (dc dn h hn : K) : K := (2 * dc * dn) / (hn * dc + h * dn)

/-! ## The loop skeleton shared by the loss operators -/

/-- What one `build` inserts: for group `g` and cell `c` the neighbour entries, the diagonal, the
    scatter entries for the groups `scat g`, and in a second pass the fission entries.
    `gi` is the position of a group in the vector. -/
structure Sys (K : Type) where
  size : Nat
  groups : List Nat
  gi : Nat → Nat
  cap : Nat
  nb : Nat → Nat → List (Nat × K)
  diag : Nat → Nat → K
  scat : Nat → List Nat
  sc : Nat → Nat → Nat → K
  fis : Option (Nat → Nat → Nat → K)

/-- Row of a cell and group, DiffusionLossOperator.cc:140, CMFDLossOperator.cc:162. -/
def Sys.row (S : Sys K) (g c : Nat) : Nat := c + S.gi g * S.size

/-- One pass of the cell loop, DiffusionLossOperator.cc:135-285, CMFDLossOperator.cc:159-326. -/
def Sys.insOps (S : Sys K) (g c : Nat) : List (Matrix.One K) :=
  (S.nb g c).map (fun e => ⟨S.row g c, S.row g e.1, e.2, false⟩)
    ++ [⟨S.row g c, S.row g c, S.diag g c, false⟩]
    ++ (S.scat g).map (fun gp => ⟨S.row g c, S.row gp c, S.sc g gp c, false⟩)

/-- The fission loop, DiffusionLossOperator.cc:307-331, CMFDLossOperator.cc:346-371. -/
def Sys.addOps (S : Sys K) (g c : Nat) : List (Matrix.One K) :=
  match S.fis with
  | none => []
  | some f => S.groups.map (fun gp => ⟨S.row g c, S.row gp c, f g gp c, true⟩)

/-- All calls of one `build`. -/
def Sys.ops (S : Sys K) : List (Matrix.One K) :=
  S.groups.flatMap (fun g => (List.range S.size).flatMap (S.insOps g))
    ++ S.groups.flatMap (fun g => (List.range S.size).flatMap (S.addOps g))

/-- Number of unknowns, DiffusionLossOperator.cc:49-50. -/
def Sys.m (S : Sys K) : Nat := S.groups.length * S.size

/-- Preallocation and build; the assembled matrix is `none` when assembly is undefined. -/
def Sys.make (S : Sys K) (srt : List (Trip K) → List (Trip K)) :
    Out (Option (CSR K) × List Bool) :=
  (runOnes (preallocate S.m S.m (fun _ => S.cap)) S.ops).bind fun r => .ok (r.1.assemble srt, r.2)

/-! ## Diffusion loss operator -/

/-- `albedo`, DiffusionLossOperator.cc:54, 61-98 (also CMFDLossOperator.cc:58-102): `bc side` is the input
    string for a side if present.  With an `"albedo"` entry in the input every side keeps the default
    one.  The group index plays no role. -/
def albedo (dim : Nat) (hasAlbedo zeroFlux : Bool) (bc : Nat → Option String) (side : Nat) : K :=
  if hasAlbedo then 1
  else if side < 2 * dim then
    match bc side with
    | none => 0
    | some s => if s = "reflect" then 1 else if zeroFlux then -1 else 0
  else 1

/-- Data of a `DiffusionLossOperator`. -/
structure Loss (K : Type) where
  M : Grid K
  mat : Material.Mat K
  mmap : Nat → Nat
  al : Nat → K
  adjoint : Bool
  cutoff : Nat
  fission : Bool
  sf : Nat
  keff : K

/-- `d_groups`, DiffusionLossOperator.cc:43-44. -/
def Loss.groups (D : Loss K) : List Nat :=
  (Util.range D.cutoff (if D.adjoint then -1 else D.mat.G) false).map Int.toNat

/-- Index in the active range, DiffusionLossOperator.cc:132. -/
def Loss.gi (D : Loss K) (g : Nat) : Nat := if D.adjoint then g else g - D.cutoff

/-- `diff_coef(mat_map[cell], g)`. -/
def Loss.dc (D : Loss K) (g c : Nat) : K := D.mat.diff g (D.mmap c)

/-- `jo[leak]`, DiffusionLossOperator.cc:202-242. -/
def Loss.dtilde (D : Loss K) (g c leak : Nat) : K :=
  if D.M.onBoundary c leak then dBoundary (D.dc g c) (D.al leak) (D.M.width c (leak / 2))
  else dInterior (D.dc g c) (D.dc g (D.M.neighbour c leak)) (D.M.width c (leak / 2))
    (D.M.width (D.M.neighbour c leak) (leak / 2))

/-- The off-diagonal call for a face, DiffusionLossOperator.cc:217, 232-237. -/
def Loss.nbOf (D : Loss K) (g c leak : Nat) : Option (Nat × K) :=
  if D.M.onBoundary c leak then none
  else some (D.M.neighbour c leak, - D.dtilde g c leak / D.M.width c (leak / 2))

/-- `jnet`, DiffusionLossOperator.cc:247-249. -/
def Loss.jnet (D : Loss K) (g c : Nat) : K :=
  (D.dtilde g c 1 + D.dtilde g c 0) / D.M.width c 0 +
  (D.dtilde g c 3 + D.dtilde g c 2) / D.M.width c 1 +
  (D.dtilde g c 5 + D.dtilde g c 4) / D.M.width c 2

/-- `cell_sr`, DiffusionLossOperator.cc:150-151. -/
def Loss.removal (D : Loss K) (g c : Nat) : K :=
  D.mat.sigT g (D.mmap c) - (if D.sf = 0 then D.mat.sigS g g (D.mmap c) else 0)

/-- The scatter group loop, DiffusionLossOperator.cc:262-275. -/
def Loss.scat (D : Loss K) (g : Nat) : List Nat :=
  if D.sf = 0 then
    let lower := if D.adjoint then min (D.mat.lower g D.adjoint) D.cutoff
      else max (D.mat.lower g D.adjoint) D.cutoff
    ((Util.range lower (D.mat.upper g D.adjoint) true).map Int.toNat).filter (· ≠ g)
  else []

/-- Scatter coefficient, DiffusionLossOperator.cc:278-279. -/
def Loss.sc (D : Loss K) (g gp c : Nat) : K :=
  if D.adjoint then - D.mat.sigS gp g (D.mmap c) else - D.mat.sigS g gp (D.mmap c)

/-- Fission coefficient, DiffusionLossOperator.cc:318-326. -/
def Loss.fis (D : Loss K) (g gp c : Nat) : K :=
  if D.adjoint then - D.mat.nuSigF g (D.mmap c) * D.mat.chi gp (D.mmap c) / D.keff
  else - D.mat.nuSigF gp (D.mmap c) * D.mat.chi g (D.mmap c) / D.keff

/-- `DiffusionLossOperator::build`, DiffusionLossOperator.cc:116-339, with the preallocation of the
    constructor (58-59). -/
def Loss.sys (D : Loss K) : Sys K where
  size := D.M.size
  groups := D.groups
  gi := D.gi
  cap := 1 + 2 * D.M.dim + D.groups.length
  nb := fun g c => (List.range 6).filterMap (D.nbOf g c)
  diag := fun g c => D.jnet g c + D.removal g c
  scat := D.scat
  sc := D.sc
  fis := if D.fission && decide (D.sf = 0) then some D.fis else none

/-- `DiffusionLossOperator::construct`, DiffusionLossOperator.cc:104-109: `build` runs again on a matrix
    whose row buffers were swapped out by the assembly (Matrix.cc:221, `d_aij.clear()`), so the first
    `insert` indexes an empty vector. -/
def Loss.reconstruct (D : Loss K) (srt : List (Trip K) → List (Trip K)) :
    Out (Option (CSR K) × List Bool) :=
  (runOnes (⟨D.sys.m, D.sys.m, []⟩ : Coo K) D.sys.ops).bind fun r => .ok (r.1.assemble srt, r.2)

/-! ## Within-group loss operator -/

/-- `WGDiffusionLossOperator::build`, WGDiffusionLossOperator.cc:78-212: the same faces (`jo` carries the
    sign of the direction, which `jnet` undoes), no coupling between groups, capacity `1 + 2*dim`. -/
def wgSys (D : Loss K) (g : Nat) : Sys K where
  size := D.M.size
  groups := [g]
  gi := fun _ => 0
  cap := 1 + 2 * D.M.dim
  nb := fun _ c => (List.range 6).filterMap (D.nbOf g c)
  diag := fun _ c =>
    (D.dtilde g c 1 - (- D.dtilde g c 0)) / D.M.width c 0 +
    (D.dtilde g c 3 - (- D.dtilde g c 2)) / D.M.width c 1 +
    (D.dtilde g c 5 - (- D.dtilde g c 4)) / D.M.width c 2 +
    (D.mat.sigT g (D.mmap c) - D.mat.sigS g g (D.mmap c))
  scat := fun _ => []
  sc := fun _ _ _ => 0
  fis := none

/-! ## Diffusion gain operator -/

/-- Entry, DiffusionGainOperator.cc:91-95. -/
def gainVal (mat : Material.Mat K) (mmap : Nat → Nat) (adjoint : Bool) (g gp c : Nat) : K :=
  if adjoint then mat.nuSigF g (mmap c) * mat.chi gp (mmap c)
  else mat.nuSigF gp (mmap c) * mat.chi g (mmap c)

/-- `DiffusionGainOperator::build`, DiffusionGainOperator.cc:65-105. -/
def gainOps (mat : Material.Mat K) (mmap : Nat → Nat) (size : Nat) (adjoint : Bool) : List (Matrix.One K) :=
  (List.range mat.G).flatMap fun g => (List.range size).flatMap fun c =>
    (List.range mat.G).map fun gp => ⟨c + g * size, c + gp * size, gainVal mat mmap adjoint g gp c, false⟩

/-- Constructor, DiffusionGainOperator.cc:15-48. -/
def gain (mat : Material.Mat K) (mmap : Nat → Nat) (size : Nat) (adjoint : Bool)
    (srt : List (Trip K) → List (Trip K)) : Out (Option (CSR K) × List Bool) :=
  (runOnes (preallocate (mat.G * size) (mat.G * size) (fun _ => mat.G))
    (gainOps mat mmap size adjoint)).bind fun r => .ok (r.1.assemble srt, r.2)

/-- `DiffusionGainOperator::construct(mat)`, DiffusionGainOperator.cc:51-58, on an assembled matrix. -/
def gainConstruct (A : CSR K) (mat : Material.Mat K) (mmap : Nat → Nat) (size : Nat) (adjoint : Bool)
    (srt : List (Trip K) → List (Trip K)) : Out (Option (CSR K) × List Bool) :=
  (runOnes A.clear (gainOps mat mmap size adjoint)).bind fun r => .ok (r.1.assemble srt, r.2)

/-! ## CMFD loss operator -/

/-- Data of a `CMFDLossOperator`: the diffusion data (`cutoff` and `sf` unused), the net positive
    current `J+ − J−` tallied on the face `(i, j, k)` of an axis (`net g axis i j k`), the flux, the relaxation factor in force, the previous correction factors and
    the outcome of the test `abs(dhat) > abs(dtilde) && d_correct` at each face (arbitrary: the
    unqualified `abs` may be the integer one). -/
structure Cmfd (K : Type) where
  L : Loss K
  net : Nat → Nat → Nat → Nat → Nat → K
  phi : Nat → Nat → K
  alpha : K
  old : Nat → Nat → Nat → K
  fix : Nat → Nat → Nat → Bool

/-- `d_groups`, CMFDLossOperator.cc:49-51. -/
def Cmfd.groups (D : Cmfd K) : List Nat :=
  (Util.range (if D.L.adjoint then (D.L.mat.G : Int) - 1 else 0)
    (if D.L.adjoint then -1 else D.L.mat.G) false).map Int.toNat

/-- `surf_idx`, CMFDLossOperator.cc:226-230. -/
def Grid.surf (M : Grid K) (c leak axis : Nat) : Nat :=
  if axis = leak / 2 then M.coord c axis + leak % 2 else M.coord c axis

/-- `J`, CMFDLossOperator.cc:225-233. -/
def Cmfd.J (D : Cmfd K) (g c leak : Nat) : K :=
  D.net g (leak / 2) (D.L.M.surf c leak 0) (D.L.M.surf c leak 1) (D.L.M.surf c leak 2)
    * ((if leak % 2 = 0 then -1 else 1) * D.L.M.width c (leak / 2) / D.L.M.volume c)

/-- `dtilde` as first computed, CMFDLossOperator.cc:241-243, 262-264. -/
def Cmfd.dt0 (D : Cmfd K) (g c leak : Nat) : K := D.L.dtilde g c leak

/-- `dtilde` and `dhat` before relaxation, CMFDLossOperator.cc:238-273. -/
def Cmfd.pair (D : Cmfd K) (g c leak : Nat) : K × K :=
  let J := D.J g c leak
  let pc := D.phi g c
  if D.L.M.onBoundary c leak then (D.dt0 g c leak, (J - D.dt0 g c leak * pc) / pc)
  else if D.fix g c leak then (1 / 2 * J / pc, 1 / 2 * J / pc)
  else
    let pn := D.phi g (D.L.M.neighbour c leak)
    (D.dt0 g c leak, (J - D.dt0 g c leak * (pc - pn)) / (pn + pc))

/-- `d_d_hat[g][cell][leak]` after relaxation, CMFDLossOperator.cc:247-248, 276-277. -/
def Cmfd.dhat (D : Cmfd K) (g c leak : Nat) : K :=
  D.alpha * (D.pair g c leak).2 + (1 - D.alpha) * D.old g c leak

/-- `jo[leak]`, CMFDLossOperator.cc:180, 288; zero for faces not visited (`leak < D::dimension*2`). -/
def Cmfd.jo (D : Cmfd K) (g c leak : Nat) : K :=
  if leak < 2 * D.L.M.dim then (D.pair g c leak).1 + D.dhat g c leak else 0

/-- Off-diagonal call, CMFDLossOperator.cc:280-284. -/
def Cmfd.nbOf (D : Cmfd K) (g c leak : Nat) : Option (Nat × K) :=
  if D.L.M.onBoundary c leak then none
  else some (D.L.M.neighbour c leak,
    (D.dhat g c leak - (D.pair g c leak).1) / D.L.M.width c (leak / 2))

/-- The scatter group loop, CMFDLossOperator.cc:307-317. -/
def Cmfd.scat (D : Cmfd K) (g : Nat) : List Nat :=
  ((Util.range (D.L.mat.lower g D.L.adjoint) (D.L.mat.upper g D.L.adjoint) true).map Int.toNat).filter
    (· ≠ g)

/-- `CMFDLossOperator::build`, CMFDLossOperator.cc:146-378, with the preallocation of the constructor
    (62-63). -/
def Cmfd.sys (D : Cmfd K) : Sys K where
  size := D.L.M.size
  groups := D.groups
  gi := id
  cap := 1 + 2 * D.L.M.dim + D.L.mat.G
  nb := fun g c => (List.range (D.L.M.dim * 2)).filterMap (D.nbOf g c)
  diag := fun g c =>
    ((D.jo g c 1 + D.jo g c 0) / D.L.M.width c 0 +
     (D.jo g c 3 + D.jo g c 2) / D.L.M.width c 1 +
     (D.jo g c 5 + D.jo g c 4) / D.L.M.width c 2) +
    (D.L.mat.sigT g (D.L.mmap c) - D.L.mat.sigS g g (D.L.mmap c))
  scat := D.scat
  sc := D.L.sc
  fis := if D.L.fission then some D.L.fis else none

/-- `construct` on a matrix assembled before, CMFDLossOperator.cc:119-138: `clear()` gives every row the
    capacity it used last time. -/
def Cmfd.reconstruct (D : Cmfd K) (A : CSR K) (srt : List (Trip K) → List (Trip K)) :
    Out (Option (CSR K) × List Bool) :=
  (runOnes A.clear D.sys.ops).bind fun r => .ok (r.1.assemble srt, r.2)

end Detran.Diffusion
