import Verif.Model.Mesh
import Mathlib.Algebra.Order.Floor.Defs

/-!
# Model of `geometry/PinCell`, `geometry/Assembly`, `geometry/Core`
-/

namespace Detran.Lattice

open Detran.Mesh

/-- What an assembly needs from a pin mesh (or a core from an assembly mesh). -/
structure Piece (K : Type) where
  nx : Nat
  ny : Nat
  dy : List K
  mat : List Int
  reg : List Int
  pins : List Int

section
variable {K : Type} [Field K]

/-- The edge loop, Assembly.cc:109-114 and Core.cc:121-126: consecutive
    `edges[jj+1] = edges[jj] + dy`.  `none`: access out of range. -/
def edgeLoop : List K → Nat → List (Option K) → Option (List K)
  | e, _, [] => some e
  | e, jj, some d :: ds =>
      match e[jj]? with
      | some a => if jj + 1 < e.length then edgeLoop (e.set (jj + 1) (a + d)) (jj + 1) ds
                  else none
      | none => none
  | _, _, none :: _ => none

/-- `comps[map[p]]`; a map entry that is negative or too large is out of range. -/
def pick (comps : List (Piece K)) (map : List Int) (p : Nat) : Option (Piece K) := do
  let m ← map[p]?
  if m < 0 then none else comps[m.toNat]?

/-- The cells visited for component position `(i,j)`, in order, with `count` the position
    in this list (Assembly.cc:142-153, Core.cc:150-165).  `i_save` and `j_save`, sums of
    equal increments in the code, are written as products. -/
def block (n m ncx i j : Nat) : List (Nat × Nat) :=
  ((upTo (j * m) (j * m + m)).flatMap fun jj =>
    (upTo (i * n) (i * n + n)).map fun ii => ii + jj * ncx).zipIdx

/-- One combined map: `val p piece count` is the value stored for component position `p`
    (`none`: read out of range); rows `j`, columns `i`, Assembly.cc:102-160,
    Core.cc:114-172. -/
def tile (comps : List (Piece K)) (map : List Int) (R n m : Nat)
    (val : Nat → Piece K → Nat → Option Int) : Option (List Int) :=
  applyWrites (List.replicate (n * R * (n * R)) 0)
    ((List.range R).flatMap fun j => (List.range R).flatMap fun i =>
      (block n m (n * R) i j).map fun (cell, count) =>
        (cell, do let c ← pick comps map (i + j * R); val (i + j * R) c count))

/-- Fine edges used for both axes, Assembly.cc:91, 102-114. -/
def tileEdges (comps : List (Piece K)) (map : List Int) (R n m : Nat) : Option (List K) :=
  edgeLoop (List.replicate (n * R + 1) 0) 0
    ((List.range R).flatMap fun j => (List.range m).map fun t => do
      let c ← pick comps map (j * R)
      c.dy[t]?)

/-- The combined mesh. -/
structure Tiled (K : Type) where
  edges : List K
  mat : List Int
  reg : List Int
  pins : List Int
  ass : List Int
deriving DecidableEq

/-- Outcomes of a finalize call. -/
inductive Res (α : Type) where
  | ok (a : α)
  | insist
  | ub
deriving DecidableEq

def Res.ofOption {α : Type} : Option α → Res α
  | some a => .ok a
  | none => .ub

/-- `Assembly::finalize`, Assembly.cc:56-169, for an `nx × ny` assembly.
    `std::sqrt(size)` converted to `int` is the integer square root. -/
def assembly (nx ny : Nat) (pinsList : List (Piece K)) (map : List Int) : Res (Tiled K) :=
  match pinsList with
  | [] => if map.length = nx * ny then .ub else .insist
  | p0 :: rest =>
      if rest.any (fun p => p.nx ≠ p0.nx ∨ p.ny ≠ p0.ny) then .insist
      else if map.length ≠ nx * ny then .insist
      else
        let R := Nat.sqrt map.length
        .ofOption do
          let e ← tileEdges pinsList map R p0.nx p0.ny
          let mat ← tile pinsList map R p0.nx p0.ny (fun _ c k => c.mat[k]?)
          let reg ← tile pinsList map R p0.nx p0.ny (fun _ c k => c.reg[k]?)
          let pn ← tile pinsList map R p0.nx p0.ny (fun p _ _ => some (p : Int))
          pure ⟨e, mat, reg, pn, []⟩

/-- `Core::finalize`, Core.cc:44-180, for a `d × d` core; `pinDim` is the number of pins
    per row of the first assembly.  The local `core_pins` table (70-94) is written but
    never read and is left out. -/
def core (d pinDim : Nat) (asms : List (Piece K)) (map : List Int) : Res (Tiled K) :=
  if map.length ≠ d * d then .insist
  else
    match asms with
    | [] => .ub
    | a0 :: _ =>
        let R := Nat.sqrt map.length
        .ofOption do
          let e ← tileEdges asms map R a0.nx a0.ny
          let mat ← tile asms map R a0.nx a0.ny (fun _ c k => c.mat[k]?)
          let reg ← tile asms map R a0.nx a0.ny (fun _ c k => c.reg[k]?)
          let pn ← tile asms map R a0.nx a0.ny
            (fun p c k => (c.pins[k]?).map (· + (p : Int) * ((pinDim * pinDim : Nat) : Int)))
          let as ← tile asms map R a0.nx a0.ny (fun p _ _ => some (p : Int))
          pure ⟨e, mat, reg, pn, as⟩

end

/-! ## Pin cells -/

section
variable {K : Type} [Field K] [LinearOrder K]

/-- Loop of `PinCell::find_region`, PinCell.cc:225-232.  The comparison
    `sqrt(d²) < r` is written `d² < r²`, equivalent because radii are positive. -/
def regionLoop (d2 : K) : List K → Nat → Nat → Nat
  | [], _, outer => outer
  | r :: rs, p, outer => if d2 < r * r then p else regionLoop d2 rs (p + 1) outer

/-- `PinCell::find_region`, PinCell.cc:218-234. -/
def findRegion (pitch : K) (radii : List K) (i j : Nat) (width : K) : Nat :=
  let x := ((i : K) + 1 / 2) * width
  let y := ((j : K) + 1 / 2) * width
  let hp := 1 / 2 * pitch
  regionLoop ((x - hp) * (x - hp) + (y - hp) * (y - hp)) radii 0 radii.length

/-- The uniform branch of `PinCell::meshify`, PinCell.cc:70-110: edges, material map and
    region map.  `pitch.y` and the pin centre are not used by the code. -/
def meshifyUniform (pitch : K) (radii : List K) (matMap : List Int) (n : Nat) :
    Option (List K × List Int × List Int) := do
  let width := pitch / (n : K)
  let e ← Detran.Lattice.edgeLoop (List.replicate (n + 1) 0) 0 (List.replicate n (some width))
  let cells := (List.range n).flatMap fun j => (List.range n).map fun i => (i, j)
  let mat ← applyWrites (List.replicate (n * n) 1)
    (cells.map fun (i, j) => (i + j * n, matMap[findRegion pitch radii i j width]?))
  let reg ← applyWrites (List.replicate (n * n) 1)
    (cells.map fun (i, j) => (i + j * n, some (findRegion pitch radii i j width : Int)))
  pure (e, mat, reg)

variable [FloorRing K]

/-- Fine-mesh counts of the best-fit branch. -/
structure Counts where
  mod : Int
  delta : Int
  l4 : Int
  l2 : Int

def Counts.total (c : Counts) : Int := 2 * c.mod + 2 * c.delta + 2 * c.l4 + c.l2

/-- Best-fit parameters `L` and `delta`, PinCell.cc:115-116. -/
def bestL (r : K) : K := 160496875 / 100000000 * r
def bestDelta (r : K) : K := 176223981031790 / 1000000000000000 * r
def bestMod (pitch r : K) : K := 1 / 2 * pitch - 1 / 2 * bestL r - bestDelta r

/-- Initial counts, PinCell.cc:123-131. -/
def bestInit (pitch r : K) (n : Int) : Counts :=
  let hp := 1 / 2 * pitch
  let mod := max ⌊1 / 2 * (n : K) * bestMod pitch r / hp⌋ 1
  let delta := max ⌊1 / 2 * (n : K) * bestDelta r / hp⌋ 1
  let l4 := max ⌊1 / 2 * (n : K) * (1 / 4 * bestL r) / hp⌋ 1
  let l2 := max (⌊1 / 4 * (n : K) * bestL r / hp⌋ - 1) (n - 2 * (mod + delta + l4))
  ⟨mod, delta, l4, l2⟩

/-- The five adjustments, PinCell.cc:140-164. -/
def bestFix (n : Int) (c : Counts) : Counts :=
  let c := if n - c.total > 0 then { c with l2 := c.l2 + 1 } else c
  let c := if n - c.total > 1 then { c with l4 := c.l4 + 1 } else c
  let c := if n - c.total > 1 then { c with mod := c.mod + 1 } else c
  let c := if n - c.total > 1 then { c with delta := c.delta + 1 } else c
  if n - c.total > 0 then { c with l2 := c.l2 + 1 } else c

def bestCounts (pitch r : K) (n : Int) : Counts := bestFix n (bestInit pitch r n)

/-- `coarse` edges, PinCell.cc:190-197. -/
def bestEdges (pitch r : K) : List K :=
  let wm := bestMod pitch r
  let d := bestDelta r
  let L := bestL r
  let e1 := wm
  let e2 := e1 + d
  let e3 := e2 + 1 / 4 * L
  let e4 := e3 + 1 / 2 * L
  let e5 := e4 + 1 / 4 * L
  let e6 := e5 + d
  let e7 := e6 + wm
  [0, e1, e2, e3, e4, e5, e6, e7]

/-- `fuel_index`, PinCell.cc:202: coarse cells holding fuel, in the 7 by 7 map. -/
def fuelIndex : List Nat := [10, 16, 17, 18, 22, 23, 24, 25, 26, 30, 31, 32, 38]

/-- Coarse material map, PinCell.cc:177, 203-207. -/
def bestMaterial (fuel moderator : Int) : List Int :=
  (List.range 49).map fun c => if c ∈ fuelIndex then fuel else moderator

end

end Detran.Lattice
