import Mathlib.Algebra.Order.Floor.Defs
import Mathlib.Data.Rat.Floor
import Verif.Model.Mesh
import Verif.Model.Util

/-!
# Model of the pictures of `ioutils`: PPMOutput.cc, PPMPlotter.cc, ColorMap.cc

A picture is the sequence of colours written after the header, row by row from the top, `nx` to a row.  Numbers of pixels
are taken to fit their type.  Colour map `COOLWARM` (trigonometric functions) and the messages about missing cells are
left out; `tiny` and `big` are the starting values of `vec_max` and `vec_min`.
-/

namespace Detran.Ppm

open Detran.Mesh Detran.Util

/-! ## Which cell each pixel shows -/

/-- `d_cells.resize(n)`. -/
def resize (old : List Int) (n : Nat) : List Int := old.take n ++ List.replicate (n - old.length) 0

/-- The loops that fill `d_cells`, PPMOutput.cc:49-62 and 82-96 (`flip`): the cell at point `(i, j)` goes to
    `i + j * d_ny`.  `none`: a write past the end. -/
def fill (old : List Int) (nx ny : Nat) (flip : Bool) (find : Nat → Nat → Int) : Option (List Int) :=
  applyWrites (resize old (nx * ny))
    ((List.range ny).flatMap fun j => (List.range nx).map fun i =>
      (i + (if flip then ny - j - 1 else j) * ny, some (find i j)))

section
variable {K : Type} [Field K] [LinearOrder K] [FloorRing K]

/-- Pixel size, PPMOutput.cc:40-42. -/
def pixel (big : K) (m : Loc K) : K := min (vecMin big m.dx) (vecMin big m.dy)

/-- Resolution along one side, PPMOutput.cc:44-46. -/
def resolution (n : Nat) (w d : K) : Nat := n * ⌈w / d⌉₊

/-- `initialize(mesh, n)`, PPMOutput.cc:29-68: numbers of pixels and cells. -/
def initMesh (big : K) (old : List Int) (m : Loc K) (n : Nat) : Option (Nat × Nat × List Int) :=
  let nx := resolution n m.wx (pixel big m)
  let ny := resolution n m.wy (pixel big m)
  let xs := linspace 0 m.wx nx
  let ys := linspace 0 m.wy ny
  (fill old nx ny false fun i j => m.findCell (xs.getD i 0) (ys.getD j 0) 0).map fun c => (nx, ny, c)

/-- `initialize(geo, delta)`, PPMOutput.cc:71-100; `find` is that of the geometry, `wx` and `wy` its widths. -/
def initGeo (old : List Int) (wx wy delta : K) (find : K → K → Int) : Option (Nat × Nat × List Int) :=
  let d := min (min delta (wx / 5)) (wy / 5)
  let nx := max ⌈wx / d⌉₊ 5
  let ny := max ⌈wy / d⌉₊ 5
  let xs := linspaceCenter 0 wx nx
  let ys := linspaceCenter 0 wy ny
  (fill old nx ny true fun i j => find (xs.getD i 0) (ys.getD j 0)).map fun c => (nx, ny, c)

end

/-! ## Values -/

/-- `v[i]` for an `int` index. -/
def at? {V : Type} (v : List V) (i : Int) : Option V := if i < 0 then none else v[i.toNat]?

/-- The values of `write_mesh_map` and `write_scalar_flux`, PPMOutput.cc:113-118, 134-139. -/
def values {V : Type} (field : List V) (cells : List Int) : Option (List V) := cells.mapM (at? field)

/-- The values of `draw_geometry`, PPMOutput.cc:152-161. -/
def regions {K : Type} [Field K] (flag : Bool) (material : Nat → Int) (cells : List Int) : List K :=
  cells.map fun (c : Int) => if c < 0 then -1 else if flag then (c : K) else (material c.toNat : K)

/-! ## Colours -/

/-- `rgb_t`. -/
structure Rgb where
  r : Nat
  g : Nat
  b : Nat
deriving DecidableEq, Repr

/-- `hex_to_rgb`, ColorMap.cc:184-191. -/
def hexToRgb (hex : Nat) : Rgb := ⟨(hex >>> 16) &&& 0xFF, (hex >>> 8) &&& 0xFF, hex &&& 0xFF⟩

section
variable {K : Type} [Field K] [LinearOrder K] [FloorRing K]

/-- Conversion of a `double` to `unsigned char`: truncation, undefined outside the range. -/
def toByte (x : K) : Option Nat := if -1 < x ∧ x < 256 then some ⌊x⌋₊ else none

/-- `colors_function` with map `DEFAULT` for one value, ColorMap.cc:52-73.  The colour of a negative value is not set: the
    vector was made of zeros.  Zero over zero is undefined as a colour. -/
def defaultColor (mn mx x : K) : Option Rgb :=
  if 0 ≤ x then
    if mx - mn = 0 then none
    else do
      let v := (x - mn) / (mx - mn)
      let r ← toByte (255 * (2 * v - v * v))
      let g ← toByte (255 * (4 * v - 4 * v * v))
      let b ← toByte (255 * (1 - v * v))
      pure ⟨r, g, b⟩
  else some ⟨0, 0, 0⟩

/-- `colors_function` with map `DEFAULT`, ColorMap.cc:44-75. -/
def defaultColors (tiny big : K) (vals : List K) : Option (List Rgb) :=
  vals.mapM (defaultColor (vecMin big vals) (vecMax tiny vals))

/-- Distance of two colours, ColorMap.cc:148-151; `sqrt` is the square root. -/
def distance (sqrt : K → K) (c0 c1 : Rgb) : K :=
  sqrt (((c1.r : K) - c0.r) ^ 2 + ((c1.b : K) - c0.b) ^ 2 + ((c1.g : K) - c0.g) ^ 2)

/-- The loop ColorMap.cc:145-152 from position `a` of colour `c0` on. -/
def edges (sqrt : K → K) (a : K) (c0 : Rgb) : List Rgb → List K
  | [] => [a]
  | c1 :: cs => a :: edges sqrt (a + distance sqrt c0 c1) c1 cs

/-- Positions of the colours, ColorMap.cc:144-154. -/
def nodes (sqrt : K → K) : List Rgb → List K
  | [] => []
  | c0 :: cs =>
    let d := edges sqrt 0 c0 cs
    vecScale d (1 / d.getLastD 0)

/-- One component between two nodes, ColorMap.cc:175-177. -/
def between (c0 c1 : Nat) (t : K) : Option Nat := toByte ((c0 : K) + ((c1 : K) - (c0 : K)) * t)

/-- `colors_interp` for one value, ColorMap.cc:158-179, for the colours `cs` at the positions `d`;
    equal neighbouring positions would divide by zero. -/
def interpColor (cs : List Rgb) (d : List K) (x : K) : Option Rgb :=
  let j := d.findIdx fun y => decide (x ≤ y)
  if j = 0 then cs[0]?
  else if j = d.length then cs[cs.length - 1]?
  else do
    let c0 ← cs[j - 1]?
    let c1 ← cs[j]?
    let d0 ← d[j - 1]?
    let d1 ← d[j]?
    if d1 - d0 = 0 then none
    else do
      let r ← between c0.r c1.r ((x - d0) / (d1 - d0))
      let g ← between c0.g c1.g ((x - d0) / (d1 - d0))
      let b ← between c0.b c1.b ((x - d0) / (d1 - d0))
      pure ⟨r, g, b⟩

/-- The colours of `JET`, `HOT` and `COOL`, ColorMap.cc:118-142, ColorMap.hh:86-110. -/
def jet : List Rgb :=
  [0x00008B, 0x0000FF, 0x007FFF, 0x00FFFF, 0x90EE90, 0xFFFF00, 0xFFA500, 0xFF0000, 0x8B0000].map hexToRgb
def hot : List Rgb := [0x000000, 0xFF0000, 0xFFFF00, 0xFFFFFF].map hexToRgb
def cool : List Rgb := [0x00FFFF, 0xFF00FF].map hexToRgb

/-- The scaling of `color` for the interpolated maps, ColorMap.cc:33-38. -/
def scaled (tiny big : K) (vals : List K) : List K :=
  let mn := vecMin big vals
  let mx := vecMax tiny vals
  vals.map fun x => if 0 < mx - mn then (x - mn) * (1 / (mx - mn)) else x - mn

/-- `color` for the interpolated maps. -/
def interpColors (tiny big : K) (cs : List Rgb) (d : List K) (vals : List K) : Option (List Rgb) :=
  (scaled tiny big vals).mapM (interpColor cs d)

/-- `colors_random`, ColorMap.cc:78-109: the colours of the values in order, three random numbers each; `rnd` is the
    sequence drawn, `sort` a realisation of `std::sort`. -/
def randomColors (sort : List K → List K) (rnd : Nat → K) (vals : List K) : Option (List Rgb) :=
  let u := vecUnique sort vals
  vals.mapM fun x =>
    let i := u.findIdx (· == x)
    if i = u.length then none
    else do
      let r ← toByte (255 * rnd (3 * i))
      let g ← toByte (255 * rnd (3 * i + 1))
      let b ← toByte (255 * rnd (3 * i + 2))
      pure ⟨r, g, b⟩

end

/-! ## The file -/

/-- The plotter: `initialize` and `set_pixels`, PPMPlotter.cc:28-43, PPMPlotter.hh:66-72.  `resize` keeps what an older
    picture left; all of it is overwritten.  `none`: values missing. -/
def image {K : Type} [Field K] (old : List K) (nx ny : Nat) (vals : List K) : Option (List K) :=
  let im := old.take (nx * ny) ++ List.replicate (nx * ny - old.length) (-1)
  applyWrites im ((List.range (nx * ny)).map fun i => (i, vals[i]?))

/-- `write`, PPMPlotter.cc:52-71: size and pixels. -/
def write (nx ny : Nat) (colors : List Rgb) : Option (Nat × Nat × List Rgb) :=
  ((List.range (nx * ny)).mapM fun i => colors[i]?).map fun p => (nx, ny, p)

section
variable {K : Type} [Field K] [LinearOrder K] [FloorRing K]

/-- The plotter run on given values: `initialize`, `set_pixels`, `write`. -/
def plot (colors : List K → Option (List Rgb)) (nx ny : Nat) (vals : List K) : Option (Nat × Nat × List Rgb) := do
  let im ← image [] nx ny vals
  let cs ← colors im
  write nx ny cs

/-- `initialize(mesh, n)` and then `write_mesh_map` or one pass of the loop of `write_scalar_flux`, PPMOutput.cc:29-68,
    103-144, for the values `field` of the cells; `old` is what an earlier `initialize` left in `d_cells`. -/
def meshPicture (tiny big : K) (old : List Int) (m : Loc K) (n : Nat) (field : List K) : Option (Nat × Nat × List Rgb) := do
  let (nx, ny, cells) ← initMesh big old m n
  let vals ← values field cells
  plot (defaultColors tiny big) nx ny vals

/-- `initialize(geo, delta)` and then `draw_geometry`, PPMOutput.cc:71-100, 147-166. -/
def geoPicture (colors : List K → Option (List Rgb)) (old : List Int) (wx wy delta : K) (find : K → K → Int) (flag : Bool)
    (material : Nat → Int) : Option (Nat × Nat × List Rgb) := do
  let (nx, ny, cells) ← initGeo old wx wy delta find
  plot colors nx ny (regions flag material cells)

end

/-- What a viewer shows in column `a` of row `b` from the top. -/
def shown (pic : Nat × Nat × List Rgb) (a b : Nat) : Option Rgb :=
  if a < pic.1 ∧ b < pic.2.1 then pic.2.2[a + b * pic.1]? else none

end Detran.Ppm
