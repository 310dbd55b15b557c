import Verif.Model.Mesh
import Mathlib.Algebra.Order.Field.Basic

/-!
# Model of `transport/CoarseMesh` and of the coarse-surface current tally
-/

namespace Detran.Coarse

open Detran.Mesh

variable {K : Type} [Field K]

/-! ## Coarse mesh -/

/-- `for (i = 0; i < remainder; i++) number_fine_coarse[i] += 1`, CoarseMesh.cc:66-69; `none` when an
    index is outside the vector. -/
def distribute : List Nat → Nat → Option (List Nat)
  | ks, 0 => some ks
  | ks, r + 1 =>
    match distribute ks r with
    | none => none
    | some ks => if r < ks.length then some (ks.set r (ks.getD r 0 + 1)) else none

/-- `number_fine_coarse[d]`, CoarseMesh.cc:51-70; `none` for the remainder by a zero level and for
    the write outside the vector. -/
def counts (n level : Nat) : Option (List Nat) :=
  if level = 0 then none
  else
    let r := n % level
    let nc := (n - r) / level
    let ks := List.replicate nc level
    if nc = 1 then some (ks.set 0 (ks.getD 0 0 + r)) else distribute ks r

/-- Tables of one direction. -/
structure Axis (K : Type) where
  f2c : List Nat
  flag : List Int
  edges : List K
deriving DecidableEq

/-- Loop over the fine cells of coarse cell `c`, CoarseMesh.cc:87-91. -/
def inner (w : Nat → K) (c : Nat) : List Nat → K → List Nat → Option (K × List Nat)
  | [], e, m => some (e, m)
  | f :: fs, e, m => if f < m.length then inner w c fs (e + w f) (m.set f c) else none

/-- Loop over coarse cells, CoarseMesh.cc:81-98, from cell `c` on; `start` is `f_start = f_stop` at the
    head of the loop and `edge_flag = c + 1`. -/
def fill (w : Nat → K) : List Nat → Nat → Nat → Axis K → Option (Axis K)
  | [], _, _, a => some a
  | k :: ks, c, start, a =>
    match a.edges[c]? with
    | none => none
    | some e0 =>
      match inner w c (upTo start (start + k)) e0 a.f2c with
      | none => none
      | some (e, m) =>
        if c + 1 < a.edges.length ∧ start + k < a.flag.length then
          fill w ks (c + 1) (start + k)
            ⟨m, a.flag.set (start + k) ((c : Int) + 1), a.edges.set (c + 1) e⟩
        else none

/-- One pass of the dimension loop, CoarseMesh.cc:48-100: `n` fine cells of widths `w`. -/
def axis (n level : Nat) (w : Nat → K) : Option (Axis K) :=
  match counts n level with
  | none => none
  | some ks =>
    fill w ks 0 0 ⟨List.replicate n 0, (List.replicate (n + 1) (-1 : Int)).set 0 0,
      List.replicate (ks.length + 1) 0⟩

/-- The tables of a direction the problem does not have: `d_fine_to_coarse[d].resize(1, 0)`,
    CoarseMesh.cc:40-46. -/
def flat (n : Nat) : Axis K := ⟨[0], List.replicate (n + 1) (-1), []⟩

/-- `f2c_mesh_map`, CoarseMesh.cc:126-143 (`cx`, `cy` coarse cell numbers). -/
def mapWrites (nx ny nz cx cy : Nat) (fx fy fz : List Nat) : List (Nat × Option Nat) :=
  (List.range nz).flatMap fun k => (List.range ny).flatMap fun j => (List.range nx).map fun i =>
    (i + j * nx + k * nx * ny, do
      let ii ← fx[i]?
      let jj ← fy[j]?
      let kk ← fz[k]?
      pure (ii + jj * cx + kk * cx * cy))

/-- The map stored as `COARSEMESH`. -/
def coarseMap (nx ny nz cx cy : Nat) (fx fy fz : List Nat) : Option (List Nat) :=
  applyWrites (List.replicate (nx * ny * nz) 0) (mapWrites nx ny nz cx cy fx fy fz)

/-! ## Current tally -/

/-- `BoundaryTally::index`, BoundaryTally.hh:162-183. -/
def surf (cx cy i j k axis : Nat) : Nat :=
  if axis = 0 then i + j * (cx + 1) + k * (cx + 1) * cy
  else if axis = 1 then i + j * cx + k * cx * (cy + 1)
  else i + j * cx + k * cx * cy

/-- Sizes of the partial-current vectors, CurrentTally.cc:26-28. -/
def slots (cx cy cz axis : Nat) : Nat :=
  if axis = 0 then (cx + 1) * cy * cz else if axis = 1 then cx * (cy + 1) * cz
  else cx * cy * (cz + 1)

/-- `d_octant_shift`, BoundaryTally.hh:203-230. -/
def shift (d o : Nat) : Nat :=
  if d = 0 then (if o = 0 ∨ o = 3 ∨ o = 4 ∨ o = 7 then 1 else 0)
  else if d = 1 then (if o = 0 ∨ o = 1 ∨ o = 4 ∨ o = 5 then 1 else 0)
  else (if o < 4 then 1 else 0)

/-- `d_perpendicular_index`, BoundaryTally.hh:233-238. -/
def perp (d : Nat) : Nat × Nat := if d = 0 then (1, 2) else if d = 1 then (0, 2) else (0, 1)

/-- What the tally knows of the coarse mesh: fine widths, the tables of the three directions and the
    numbers of coarse cells. -/
structure Coarsener (K : Type) where
  w : Nat → Nat → K
  ax : Nat → Axis K
  cn : Nat → Nat

/-- `d_partial_current[axis][g][sense]` for the group being swept. -/
abbrev Currents (K : Type) := Nat → Nat → Nat → K

/-- The common body of the tally functions, CurrentTally.i.hh:58-88 and 139-167: fine edge `f` of
    direction `d0` beside fine cell `cell`, sense `s`, value `v` = flux times cosine times weight.
    `none`: an index outside a vector.  (The one-dimensional specialisation 94-118 is the case of one
    cell of unit width in the other directions.) -/
def bump (C : Coarsener K) (d0 f : Nat) (cell : Nat → Nat) (s : Nat) (v : K) (J : Currents K) :
    Option (Currents K) :=
  match (C.ax d0).flag[f]? with
  | none => none
  | some e =>
    if e < 0 then some J
    else
      match (C.ax (perp d0).1).f2c[cell (perp d0).1]?, (C.ax (perp d0).2).f2c[cell (perp d0).2]? with
      | some a, some b =>
        let c : Nat → Nat := fun d => if d = d0 then e.toNat else if d = (perp d0).1 then a else b
        let idx := surf (C.cn 0) (C.cn 1) (c 0) (c 1) (c 2) d0
        let area := C.w (perp d0).1 (cell (perp d0).1) * C.w (perp d0).2 (cell (perp d0).2)
        if idx < slots (C.cn 0) (C.cn 1) (C.cn 2) d0 then
          some fun d t i => if d = d0 ∧ t = s ∧ i = idx then J d t i + v * area else J d t i
        else none
      | _, _ => none

/-- `CurrentTally::tally` inside the mesh, CurrentTally.i.hh:42-88; `psi d` the value for
    direction `d`. -/
def tally (dim : Nat) (C : Coarsener K) (cell : Nat → Nat) (o : Nat) (psi : Nat → K)
    (J : Currents K) : Option (Currents K) :=
  (List.range dim).foldlM (fun J d => bump C d (cell d + shift d o) cell (shift d o) (psi d) J) J

/-- The fine edge of the incident tally, CurrentTally.i.hh:135-141, in 32-bit arithmetic. -/
def incidentEdge (cell : Nat → Nat) (d0 o : Nat) : Nat :=
  if cell d0 = 0 then u32 (cell d0 + shift d0 o + 4294967295) else u32 (cell d0 + shift d0 o + 1)

/-- `CurrentTally::tally` on an incident boundary, CurrentTally.i.hh:120-168. -/
def tallyIn (C : Coarsener K) (cell : Nat → Nat) (o d0 : Nat) (v : K) (J : Currents K) :
    Option (Currents K) :=
  bump C d0 (incidentEdge cell d0 o) cell (shift d0 o) v J

/-- The cell from which a two-dimensional sweep tallies incident flux, Sweeper2D.i.hh:97-99 and
    111-112; Sweeper1D.i.hh:88 for octants 0 and 1. -/
def entryCell (n : Nat → Nat) (o d : Nat) : Nat :=
  if d = 0 then (if o = 1 ∨ o = 2 then n 0 - 1 else 0) else (if 1 < o then n 1 - 1 else 0)

/-- The tally calls a two-dimensional sweep makes for one octant and angle, Sweeper2D.i.hh:94-119 and
    145: incident calls `(cell, direction, value)` for both faces; `pv`, `ph` the incident values, `out`
    the values leaving cell `(i, j)`. -/
def sweepTally2 (C : Coarsener K) (n : Nat → Nat) (o : Nat) (pv ph : Nat → K)
    (order : List (Nat × Nat)) (out : Nat → Nat → Nat → K) (J : Currents K) : Option (Currents K) := do
  let J ← (List.range (n 1)).foldlM (fun J jj =>
    let j := if 1 < o then n 1 - jj - 1 else jj
    tallyIn C (fun d => if d = 0 then entryCell n o 0 else if d = 1 then j else 0) o 0 (pv j) J) J
  let J ← (List.range (n 0)).foldlM (fun J ii =>
    let i := if o = 1 ∨ o = 2 then n 0 - ii - 1 else ii
    tallyIn C (fun d => if d = 0 then i else if d = 1 then entryCell n o 1 else 0) o 1 (ph i) J) J
  order.foldlM (fun J ij =>
    tally 2 C (fun d => if d = 0 then ij.1 else if d = 1 then ij.2 else 0) o (out ij.1 ij.2) J) J

/-- The tally calls of a one-dimensional sweep, Sweeper1D.i.hh:84-106. -/
def sweepTally1 (C : Coarsener K) (n : Nat → Nat) (o : Nat) (pin : K) (order : List Nat)
    (out : Nat → K) (J : Currents K) : Option (Currents K) := do
  let J ← tallyIn C (fun d => if d = 0 then entryCell n o 0 else 0) o 0 pin J
  order.foldlM (fun J i => tally 1 C (fun d => if d = 0 then i else 0) o (fun _ => out i) J) J

/-- The tally calls of a three-dimensional sweep, Sweeper3D.i.hh:56-150: none (line 120 holds a
    reminder comment where they would be). -/
def sweepTally3 (_ : Coarsener K) (_ : Nat → Nat) (_ : Nat) (_ : List (Nat × Nat × Nat))
    (_ : Nat → Nat → Nat → Nat → K) (J : Currents K) : Option (Currents K) := some J

end Detran.Coarse
