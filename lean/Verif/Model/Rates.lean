import Mathlib.Algebra.Field.Basic
import Mathlib.Order.Lattice

/-!
# Model of region edits: `ReactionRates` (postprocess)

Map entries are `int`s in the code; negative ones (undefined there) are not modelled.  `none` is undefined
behaviour: a map shorter than the cells that are read, or the largest element of an empty map.
-/

namespace Detran.Rates

variable {K : Type}

/-- What the edits read: cell counts and widths, the region map, and per group the flux and the fission cross
    section in each cell (`b_material->sigma_f(mat_map[cell], g)`). -/
structure Edit (K : Type) where
  nx : Nat
  ny : Nat
  nz : Nat
  dx : Nat → K
  dy : Nat → K
  dz : Nat → K
  G : Nat
  phi : Nat → Nat → K
  sigF : Nat → Nat → K

/-- `Mesh::index`, Mesh.i.hh. -/
def Edit.index (e : Edit K) (i j k : Nat) : Nat := i + e.nx * (j + e.ny * k)

/-- `number = 1 + *max_element(map)`, ReactionRates.cc:58 and 111. -/
def number : List Nat → Option Nat
  | [] => none
  | r :: rs => some (1 + rs.foldl max r)

/-- The cells in the order of the loops with their volumes, ReactionRates.cc:63-71 and 116-124. -/
def Edit.cells [Mul K] (e : Edit K) : List (Nat × K) :=
  (List.range e.nz).flatMap fun k => (List.range e.ny).flatMap fun j => (List.range e.nx).map fun i =>
    (e.index i j k, e.dx i * e.dy j * e.dz k)

/-- `v[r] += x`. -/
def addAt [Add K] (v : Nat → K) (r : Nat) (x : K) : Nat → K := fun r' => if r' = r then v r' + x else v r'

/-- The accumulation loops, ReactionRates.cc:61-80 and 113-131: `v[map[cell]] += w(cell, volume)`. -/
def Edit.accumulate [Add K] [Mul K] [Zero K] (e : Edit K) (map : List Nat) (w : Nat × K → K) : Option (Nat → K) :=
  e.cells.foldlM (fun v p => (map[p.1]?).map fun r => addAt v r (w p)) fun _ => 0

/-- The fission rate, ReactionRates.cc:39-49. -/
def Edit.fissionRate [Add K] [Mul K] [Zero K] (e : Edit K) (c : Nat) : K :=
  (List.range e.G).foldl (fun s g => s + e.phi g c * e.sigF g c) 0

/-- `region_power`, ReactionRates.cc:30-95 (the map exists). -/
def Edit.regionPower [Field K] [LT K] [DecidableLT K] (e : Edit K) (map : List Nat) (scale : K) : Option (List K) := do
  let n ← number map
  let power ← e.accumulate map fun p => p.2 * e.fissionRate p.1
  let total := e.cells.foldl (fun s p => s + p.2 * e.fissionRate p.1) 0
  pure ((List.range n).map fun r => if scale > 0 then power r * (scale / total) else power r)

/-- The mean loop, ReactionRates.cc:133-135: entry `map[cell]` is divided for the first `n` *cells*. -/
def meanLoop [Div K] (map : List Nat) (vol : Nat → K) (n : Nat) (v : Nat → K) : Option (Nat → K) :=
  (List.range n).foldlM (fun v cell => (map[cell]?).map fun r => fun r' => if r' = r then v r' / vol r else v r') v

/-- `edit`, ReactionRates.cc:98-138 (the map exists, the function has a value in every cell). -/
def Edit.edit [Field K] (e : Edit K) (map : List Nat) (f : Nat → K) (mean : Bool) : Option (List K) := do
  let n ← number map
  let s ← e.accumulate map fun p => p.2 * f p.1
  let vol ← e.accumulate map fun p => p.2
  let s ← if mean then meanLoop map vol n s else pure s
  pure ((List.range n).map s)

end Detran.Rates
