import Mathlib.Algebra.Order.Field.Basic
import Mathlib.Algebra.Order.Ring.Abs
import Mathlib.Data.List.Dedup

/-!
# Model of `geometry/`: points, quadratic surfaces, CSG trees, regions, tracks

Doubles are elements of an ordered field `K`; `std::sqrt` is a function `sq`, whose defining
property is a hypothesis of the theorems that use it.
-/

namespace Detran.Geom

variable {K : Type} [Field K] [LinearOrder K]

/-! ## Points -/

/-- `Point`, Point.hh. -/
@[ext] structure Pt (K : Type) where
  x : K
  y : K
  z : K
deriving DecidableEq

/-- `Point::operator+`, Point.hh. -/
def Pt.add (p q : Pt K) : Pt K := ⟨p.x + q.x, p.y + q.y, p.z + q.z⟩
/-- `Point::operator-`. -/
def Pt.sub (p q : Pt K) : Pt K := ⟨p.x - q.x, p.y - q.y, p.z - q.z⟩
/-- `operator*(double, Point)`, Point.cc:47-50. -/
def Pt.smul (s : K) (p : Pt K) : Pt K := ⟨p.x * s, p.y * s, p.z * s⟩
/-- `Point::operator-(double)` and `operator+(double)`. -/
def Pt.shift (p : Pt K) (s : K) : Pt K := ⟨p.x + s, p.y + s, p.z + s⟩

/-- The radicand of `distance`, Point.cc:53-59. -/
def dist2 (p q : Pt K) : K :=
  (q.x - p.x) * (q.x - p.x) + (q.y - p.y) * (q.y - p.y) + (q.z - p.z) * (q.z - p.z)

/-- `operator<=`, Point.cc:81-85. -/
def Pt.le (p q : Pt K) : Bool := decide (p.x ≤ q.x) && decide (p.y ≤ q.y) && decide (p.z ≤ q.z)
/-- `operator<`, Point.cc:73-78. -/
def Pt.lt (p q : Pt K) : Bool := if p = q then true else p.le q
/-- `operator>=`, Point.cc:94-97. -/
def Pt.ge (p q : Pt K) : Bool := q.lt p
/-- `operator>`, Point.cc:88-91: `P1 >= P0`. -/
def Pt.gt (p q : Pt K) : Bool := q.ge p

/-! ## Quadratic surfaces -/

/-- `QuadraticSurface`: the ten coefficients. -/
structure Quad (K : Type) where
  A : K
  B : K
  C : K
  D : K
  E : K
  F : K
  G : K
  H : K
  I : K
  J : K

/-- `QuadraticSurface::f`, QuadraticSurface.cc:34-39. -/
def Quad.f (q : Quad K) (r : Pt K) : K :=
  q.A * r.x * r.x + q.B * r.y * r.y + q.C * r.z * r.z + q.D * r.x * r.y + q.E * r.x * r.z +
    q.F * r.y * r.z + q.G * r.x + q.H * r.y + q.I * r.z + q.J

/-- `Surface::sense`, Surface.hh:56-59. -/
def Quad.sense (q : Quad K) (r : Pt K) : Bool := decide (0 ≤ q.f r)

/-- `m[]`, QuadraticSurface.cc:24-27; `d_M` stores it column by column. -/
def Quad.m (q : Quad K) : List K :=
  [2 * q.A, q.D, q.E, q.G, q.D, 2 * q.B, q.F, q.H, q.E, q.F, 2 * q.C, q.I, q.G, q.H, q.I, 2 * q.J]

/-- `d_M.multiply(v, y)` (C13), 4 by 4 column-major. -/
def Quad.mul (q : Quad K) (v : List K) : List K :=
  (List.range 4).map fun i => (List.range 4).foldl (fun s j => s + q.m.getD (i + 4 * j) 0 * v.getD j 0) 0

/-- `Vector::dot`. -/
def dot4 (u v : List K) : K := (List.range 4).foldl (fun s i => s + u.getD i 0 * v.getD i 0) 0

/-- A ray: origin and direction, Ray.hh. -/
structure Ray (K : Type) where
  o : Pt K
  d : Pt K

/-- The point at parameter `t`. -/
def Ray.at (r : Ray K) (t : K) : Pt K := r.o.add (Pt.smul t r.d)

/-- The coefficients `a, b, c` of QuadraticSurface.cc:46-51. -/
def Quad.abc (q : Quad K) (r : Ray K) : K × K × K :=
  let R := [r.o.x, r.o.y, r.o.z, 1]
  let D := [r.d.x, r.d.y, r.d.z, 0]
  (dot4 D (q.mul D), dot4 D (q.mul R) + dot4 R (q.mul D), dot4 R (q.mul R))

/-- The threshold `1.0e-13`. -/
def tiny : K := 1 / 10 ^ 13

/-- `t[0], t[1]`, QuadraticSurface.cc:52-63. -/
def Quad.roots (sq : K → K) (q : Quad K) (r : Ray K) : K × K :=
  let (a, b, c) := q.abc r
  if |a| < tiny then
    (if tiny < |b| then -c / b else 0, 0)
  else if 4 * a * c < b * b then
    ((-b + sq (b * b - 4 * a * c)) / (2 * a), (-b - sq (b * b - 4 * a * c)) / (2 * a))
  else (0, 0)

/-- `QuadraticSurface::intersections`, QuadraticSurface.cc:42-76: the ray parameters kept, in the
    order of the loop. -/
def Quad.hits (sq : K → K) (q : Quad K) (r : Ray K) (maxT : K) : List K :=
  let t := q.roots sq r
  let first := if t.2 ≤ t.1 then t.2 else t.1
  let second := if t.1 < t.2 then t.2 else t.1
  [first, second].filter fun tt => decide (0 < tt) && (decide (maxT < 0) || decide (tt ≤ maxT))

/-- `points.push_back(r.origin + tt*r.direction)`. -/
def Quad.intersections (sq : K → K) (q : Quad K) (r : Ray K) (maxT : K) : List (Pt K) :=
  (q.hits sq r maxT).map r.at

/-! ### `QuadraticSurfaceFactory` -/

/-- QuadraticSurfaceFactory.hh:36-39. -/
def planeX (x : K) : Quad K := ⟨0, 0, 0, 0, 0, 0, 1, 0, 0, -x⟩
/-- QuadraticSurfaceFactory.hh:41-44. -/
def planeY (y : K) : Quad K := ⟨0, 0, 0, 0, 0, 0, 0, 1, 0, -y⟩
/-- QuadraticSurfaceFactory.hh:46-49. -/
def planeZ (z : K) : Quad K := ⟨0, 0, 0, 0, 0, 0, 0, 0, 1, -z⟩
/-- QuadraticSurfaceFactory.hh:52-55. -/
def plane (a b c d : K) : Quad K := ⟨0, 0, 0, 0, 0, 0, a, b, c, -d⟩
/-- QuadraticSurfaceFactory.hh:58-61. -/
def cylX (y0 z0 r : K) : Quad K :=
  ⟨0, 1, 1, 0, 0, 0, 0, -2 * y0, -2 * z0, y0 * y0 + z0 * z0 - r * r⟩
/-- QuadraticSurfaceFactory.hh:64-67. -/
def cylY (x0 z0 r : K) : Quad K :=
  ⟨1, 0, 1, 0, 0, 0, -2 * x0, 0, -2 * z0, x0 * x0 + z0 * z0 - r * r⟩
/-- QuadraticSurfaceFactory.hh:70-73. -/
def cylZ (x0 y0 r : K) : Quad K :=
  ⟨1, 1, 0, 0, 0, 0, -2 * x0, -2 * y0, 0, x0 * x0 + y0 * y0 - r * r⟩
/-- QuadraticSurfaceFactory.hh:76-79. -/
def sphere (x0 y0 z0 r : K) : Quad K :=
  ⟨1, 1, 1, 0, 0, 0, -2 * x0, -2 * y0, -2 * z0, x0 * x0 + y0 * y0 + z0 * z0 - r * r⟩

/-! ## CSG trees -/

/-- The node classes of CSG.hh. -/
inductive Node (K : Type) where
  | prim (s : Quad K) (sense : Bool)
  | union (L R : Node K)
  | inter (L R : Node K)
  | diff (L R : Node K)
  | trans (n : Node K) (t : Pt K)

/-- `contains`, CSG.cc:28-31, 80-83, 97-100, 114-119, 145-148. -/
def Node.contains : Node K → Pt K → Bool
  | .prim s b, r => s.sense r == b
  | .union L R, r => L.contains r || R.contains r
  | .inter L R, r => L.contains r && R.contains r
  | .diff L R, r => L.contains r && !R.contains r
  | .trans n t, r => n.contains (r.sub t)

/-- `intersections`, CSG.cc:34-38, 54-66, 134-142.  `sort o` stands for `std::sort` by distance from
    `o`. -/
def Node.intersections (sq : K → K) (sort : Pt K → List (Pt K) → List (Pt K)) :
    Node K → Ray K → K → List (Pt K)
  | .prim s _, r, m => s.intersections sq r m
  | .union L R, r, m => sort r.o (L.intersections sq sort r m ++ R.intersections sq sort r m)
  | .inter L R, r, m => sort r.o (L.intersections sq sort r m ++ R.intersections sq sort r m)
  | .diff L R, r, m => sort r.o (L.intersections sq sort r m ++ R.intersections sq sort r m)
  | .trans n t, r, m => (n.intersections sq sort ⟨r.o.sub t, r.d⟩ m).map (·.add t)

/-! ## Regions -/

/-- `Region`: node, bounds and material. -/
structure Region (K : Type) where
  node : Option (Node K)
  lo : Pt K
  hi : Pt K
  mat : Nat

/-- `Region::Region`, Region.cc:15-31: `d_have_bound` (a positive distance). -/
def Region.haveBound (g : Region K) : Bool := decide (0 < dist2 g.lo g.hi)
/-- `d_have_bound_z`. -/
def Region.haveZ (g : Region K) : Bool := g.haveBound && decide (g.lo.z < g.hi.z)

/-- `Region::append(node, op)`, Region.cc:42-46, 103-119; operators 0 union, 1 intersection,
    2 difference; other values leave the node unchanged. -/
def Region.append (g : Region K) (n : Node K) (op : Nat) : Region K :=
  match g.node with
  | none => { g with node := some n }
  | some c =>
    if op = 0 then { g with node := some (.union c n) }
    else if op = 1 then { g with node := some (.inter c n) }
    else if op = 2 then { g with node := some (.diff c n) }
    else g

/-- `Region::append(surface, sense)`, Region.cc:49-55. -/
def Region.appendSurface (g : Region K) (s : Quad K) (b : Bool) : Region K := g.append (.prim s b) 1

/-- `Region::contains`, Region.cc:58-67; `none` is the dereference of a null node. -/
def Region.contains (g : Region K) (r : Pt K) : Option Bool :=
  g.node.map fun n =>
    if g.haveBound then
      if r.gt g.lo && r.lt g.hi then n.contains r else n.contains r
    else n.contains r

/-- A double that may be an infinity or NaN. -/
inductive Ext (K : Type) where
  | fin (x : K)
  | pinf
  | ninf
  | nan
deriving DecidableEq

/-- IEEE `>`. -/
def Ext.gt : Ext K → Ext K → Bool
  | .nan, _ => false
  | _, .nan => false
  | .fin x, .fin y => decide (y < x)
  | .pinf, .pinf => false
  | .pinf, _ => true
  | .fin _, .ninf => true
  | _, _ => false

/-- `x * (1.0 / d)`, with `1.0 / 0.0 = inf` (a direction component of negative zero is not
    distinguished). -/
def mulInv (x d : K) : Ext K :=
  if d = 0 then (if 0 < x then .pinf else if x < 0 then .ninf else .nan) else .fin (x * (1 / d))

/-- Entry and exit parameters of one slab, Region.cc:77-80: `r.sign` selects the bound. -/
def slab (lo hi o d : K) : Ext K × Ext K :=
  if 1 / d < 0 then (mulInv (hi - o) d, mulInv (lo - o) d)
  else (mulInv (lo - o) d, mulInv (hi - o) d)

/-- `Region::intersects_bounding_box`, Region.cc:70-100. -/
def Region.hitsBox (g : Region K) (r : Ray K) (len : K) : Bool :=
  let sx := slab g.lo.x g.hi.x r.o.x r.d.x
  let sy := slab g.lo.y g.hi.y r.o.y r.d.y
  if sx.1.gt sy.2 || sy.1.gt sx.2 then false
  else
    let t0 := if sy.1.gt sx.1 then sy.1 else sx.1
    let t1 := if sx.2.gt sy.2 then sy.2 else sx.2
    if g.haveZ then
      let sz := slab g.lo.z g.hi.z r.o.z r.d.z
      if t0.gt sz.2 || sz.1.gt t1 then false
      else
        let t0' := if sz.1.gt t0 then sz.1 else t0
        let t1' := if t1.gt sz.2 then sz.2 else t1
        (Ext.fin len).gt t0' && t1'.gt (.fin 0)
    else (Ext.fin len).gt t0 && t1.gt (.fin 0)

/-! ## Geometry -/

/-- `Geometry::find`, Geometry.cc:99-111: the first region containing the point, −1 if none;
    `none` if a region without a node is asked. -/
def find (gs : List (Region K)) (r : Pt K) : Option Int :=
  let rec go : List (Region K) → Nat → Option Int
    | [], _ => some (-1)
    | g :: gs, i => match g.contains r with
      | none => none
      | some true => some i
      | some false => go gs (i + 1)
  go gs 0

/-- `edges[d][i]`, Geometry.cc:47-60: running sum of the widths. -/
def edge (w : Nat → K) (i : Nat) : K := (List.range i).foldl (fun e k => e + w k) 0

/-- The region of one mesh cell, Geometry.cc:69-79 (`w d` the widths). -/
def cellRegion (dim : Nat) (w : Nat → Nat → K) (mat : Nat) (i j k : Nat) : Region K :=
  let g : Region K := ⟨none,
    Pt.shift ⟨edge (w 0) i, edge (w 1) j, edge (w 2) k⟩ (-(1 / 10 ^ 5)),
    Pt.shift ⟨edge (w 0) (i + 1), edge (w 1) (j + 1), edge (w 2) (k + 1)⟩ (1 / 10 ^ 5), mat⟩
  let g := g.appendSurface (plane 1 0 0 (edge (w 0) i)) true
  let g := g.appendSurface (plane 1 0 0 (edge (w 0) (i + 1))) false
  let g := g.appendSurface (plane 0 1 0 (edge (w 1) j)) true
  let g := g.appendSurface (plane 0 1 0 (edge (w 1) (j + 1))) false
  let g := if dim = 3 then g.appendSurface (plane 0 0 1 (edge (w 2) k)) true else g
  if dim = 3 then g.appendSurface (plane 0 0 1 (edge (w 2) (k + 1))) false else g

/-- `Geometry::Geometry(mesh)`, Geometry.cc:26-80: the regions, cells in storage order. -/
def ofMesh (dim : Nat) (n : Nat → Nat) (w : Nat → Nat → K) (mat : Nat → Nat) : List (Region K) :=
  (List.range (n 2)).flatMap fun k => (List.range (n 1)).flatMap fun j =>
    (List.range (n 0)).map fun i => cellRegion dim w (mat (i + n 0 * (j + n 1 * k))) i j k

/-! ## Pin cells -/

/-- `PinCell` data used by the region factory; `div` 0 none, 1 HV, 2 DIAG, 3 HV_DIAG. -/
structure Pin (K : Type) where
  pitch : Pt K
  center : Pt K
  radii : List K
  mats : List Nat
  div : Nat

/-- Partitioning planes with `left_sense`, RegionFactory.cc:45-69. -/
def Pin.partitions (p : Pin K) : List (Quad K × Bool) :=
  let hv := p.div = 1 ∨ p.div = 3
  let diag := p.div = 2 ∨ p.div = 3
  (if hv then [(planeY (1 / 2 * p.pitch.y - p.center.y), true)] else []) ++
  (if diag then [(plane (p.pitch.y / p.pitch.x) (-1) 0 0, false)] else []) ++
  (if hv then [(planeX (1 / 2 * p.pitch.x - p.center.x), false)] else []) ++
  (if diag then [(plane (p.pitch.y / p.pitch.x) 1 0 p.pitch.y, false)] else [])

/-- `bounds[b]`, RegionFactory.cc:33-43; `none` is a null pointer. -/
def Pin.bounds (p : Pin K) : List (Option (Quad K)) :=
  [some (planeX 0), some (planeX p.pitch.x), some (planeY 0), some (planeY p.pitch.y),
   if 0 < p.pitch.z then some (planeZ 0) else none,
   if 0 < p.pitch.z then some (planeZ p.pitch.z) else none]

/-- `cylinders[i]`, RegionFactory.cc:71-76. -/
def Pin.cyl (p : Pin K) (i : Nat) : Quad K :=
  cylZ (p.center.x + p.pitch.x * (1 / 2)) (p.center.y + p.pitch.y * (1 / 2)) (p.radii.getD i 0)

/-- `b0`, RegionFactory.cc:119. -/
def sense0 (ps : List (Quad K × Bool)) (a : Nat) : Bool :=
  let l := (ps.map Prod.snd).getD (a % ps.length) false
  if a / ps.length ≠ 0 then !l else l

/-- `b1`, RegionFactory.cc:120. -/
def sense1 (ps : List (Quad K × Bool)) (a : Nat) : Bool :=
  let l := (ps.map Prod.snd).getD ((a + 1) % ps.length) false
  if (a + 1) / ps.length % 2 ≠ 0 then l else !l

/-- Outer bounding surfaces, RegionFactory.cc:111-112. -/
def Pin.addBounds (p : Pin K) (g : Region K) : Region K :=
  (p.bounds.zipIdx).foldl (fun g b => match b.1 with
    | some s => g.appendSurface s (decide ((b.2 + 1) % 2 ≠ 0))
    | none => g) g

/-- Partitioning planes of division `a`, RegionFactory.cc:115-129. -/
def addSector (ps : List (Quad K × Bool)) (a : Nat) (g : Region K) : Region K :=
  if ps.length ≠ 0 then
    match ps[a % ps.length]?, ps[(a + 1) % ps.length]? with
    | some s0, some s1 => (g.appendSurface s0.1 (sense0 ps a)).appendSurface s1.1 (sense1 ps a)
    | _, _ => g
  else g

/-- The region of annulus `r` and division `a`, RegionFactory.cc:98-131. -/
def Pin.region (p : Pin K) (r a : Nat) : Region K :=
  let eps : K := 1 / 10 ^ 8
  let g : Region K := ⟨none, Pt.shift ⟨0, 0, 0⟩ (-eps), p.pitch.shift eps, p.mats.getD r 0⟩
  let g := if r < p.radii.length then g.appendSurface (p.cyl r) false else g
  let g := if 0 < r ∧ 0 < p.radii.length then g.appendSurface (p.cyl (r - 1)) true else g
  let g := if r = p.radii.length then p.addBounds g else g
  addSector p.partitions a g

/-- `RegionFactory::CreatePinCell`, RegionFactory.cc:18-137 (the pin's pitch in y is positive, as the
    `PinCell` constructor ensures). -/
def Pin.regions (p : Pin K) : List (Region K) :=
  (List.range (p.radii.length + 1)).flatMap fun r =>
    (List.range (max 1 (2 * p.partitions.length))).map fun a => p.region r a

/-- `RegionFactory::CreateTranslatedRegion`, RegionFactory.cc:204-213. -/
def translated (g : Region K) (o : Pt K) : Option (Region K) :=
  g.node.map fun n =>
    Region.append ⟨none, g.lo.sub o, g.hi.sub o, g.mat⟩ (.trans n o) 1

/-- The regions of the pin at `(i, j)`, RegionFactory.cc:159-164. -/
def assemblyPin (pins : List (Pin K)) (nx : Nat) (map : Nat → Nat) (i j : Nat) :
    List (Option (Region K)) :=
  match pins[map (i + j * nx)]?, pins[0]? with
  | some p, some p0 => p.regions.map fun g => translated g ⟨p0.pitch.x * i, p0.pitch.y * j, 0⟩
  | _, _ => [none]

/-- `RegionFactory::CreateAssembly`, RegionFactory.cc:140-169: pins visited column by column, the
    pitch of the first pin used for every origin.  `none` where a region has no node or the map names
    no pin. -/
def assembly (pins : List (Pin K)) (nx ny : Nat) (map : Nat → Nat) : List (Option (Region K)) :=
  (List.range nx).flatMap fun i => (List.range ny).flatMap fun j => assemblyPin pins nx map i j

/-! ## Tracks -/

/-- `Segment`. -/
structure Seg (K : Type) where
  region : Nat
  length : K
deriving DecidableEq

/-- A track: end points as stored, weight, direction flag and the segment vector it refers to
    (`d_segments`; a reversed track refers to the vector of the track it was made from). -/
structure Trk (K : Type) where
  enter_ : Pt K
  exit_ : Pt K
  w : K
  rev : Bool
  store : Nat

/-- `Track::enter`, Track.cc:51-56. -/
def Trk.enter (t : Trk K) : Pt K := if t.rev then t.exit_ else t.enter_
/-- `Track::exit`, Track.cc:59-64. -/
def Trk.exit (t : Trk K) : Pt K := if t.rev then t.enter_ else t.exit_
/-- `Track::reverse`, Track.cc:31-48: always marked reversed. -/
def Trk.reverse (t : Trk K) : Trk K := ⟨t.enter, t.exit, t.w, true, t.store⟩
/-- Segments in order of traversal (`begin()` to `end()`, or `segment(i)` for increasing `i`),
    Track.cc:80-89, Track.hh:70-75. -/
def Trk.path (segs : Nat → List (Seg K)) (t : Trk K) : List (Seg K) :=
  if t.rev then (segs t.store).reverse else segs t.store

/-- `TrackDB`: per (octant, angle) the weight of the angle and its tracks, in map order. -/
abbrev DB (K : Type) := List (K × List (Trk K))

/-- Accumulated `volume_appx[r]` and `total_angle_weight`, TrackDB.cc:29-49. -/
def volumeSum (segs : Nat → List (Seg K)) (db : DB K) (r : Nat) : K :=
  db.foldl (fun s at_ => at_.2.foldl (fun s t =>
    (segs t.store).foldl (fun s g => if g.region = r then s + g.length * t.w * at_.1 else s) s) s) 0

/-- `total_angle_weight`. -/
def totalWeight (db : DB K) : K := db.foldl (fun s at_ => s + at_.1) 0

/-- Regions met by any segment (the keys of `volume_appx`). -/
def met (segs : Nat → List (Seg K)) (db : DB K) : List Nat :=
  (db.flatMap fun at_ => at_.2.flatMap fun t => (segs t.store).map Seg.region).dedup

/-- `TrackDB::volume`, TrackDB.cc:26-61; `none` is an out-of-range write (a region number not below
    the number of regions met). -/
def volume (segs : Nat → List (Seg K)) (db : DB K) : Option (List K) :=
  let n := (met segs db).length
  if (met segs db).all (· < n) then
    some ((List.range n).map fun r => volumeSum segs db r / totalWeight db)
  else none

/-- The scaling loop body for one track, TrackDB.cc:80-88. -/
def scaleTrack (ratio : Nat → K) (segs : Nat → List (Seg K)) (t : Trk K) : Nat → List (Seg K) :=
  fun s => if s = t.store then (segs s).map fun g => ⟨g.region, g.length * ratio g.region⟩ else segs s

/-- `TrackDB::normalize`, TrackDB.cc:65-88: every track of the map scales the vector it refers to. -/
def normalize (ref : Nat → K) (segs : Nat → List (Seg K)) (db : DB K) :
    Option (Nat → List (Seg K)) :=
  (volume segs db).map fun v =>
    db.foldl (fun segs at_ => at_.2.foldl (scaleTrack fun r => ref r / v.getD r 0) segs) segs

/-! ## Segmentation -/

/-- `soft_equiv(x, 0.0)`, SoftEquivalence.hh:42-59, for a nonnegative `x`. -/
def softZero (x : K) : Bool := decide (|x| < 1 / 10 ^ 12)

/-- The loop over consecutive points, Tracker.cc:446-463: kept pieces as (first point, second
    point).  `none` when there is no point at all: `points.size() - 1` wraps and the loop reads past
    the end. -/
def pieces (dist : Pt K → Pt K → K) (inside : Pt K → Bool) :
    List (Pt K) → Option (List (Pt K × Pt K))
  | [] => none
  | [_] => some []
  | p :: q :: ps =>
    (pieces dist inside (q :: ps)).map fun rest =>
      if softZero (dist p q) then rest
      else if inside (Pt.smul (1 / 2) (p.add q)) then (p, q) :: rest
      else rest

/-- The ray of a track, Tracker.cc:405-416: it starts `1e-9` behind the entrance. -/
def trackRay (dist : Pt K → Pt K → K) (p0 p1 : Pt K) : Ray K :=
  let d := Pt.smul (1 / dist p0 p1) (p1.sub p0)
  ⟨p0.sub (Pt.smul (1 / 10 ^ 9) d), d⟩

/-- `ray_length`, Tracker.cc:416. -/
def trackLen (dist : Pt K → Pt K → K) (p0 p1 : Pt K) : K := dist p0 p1 + 2 * (1 / 10 ^ 9)

/-- The pieces of one region, Tracker.cc:425-463; `none` for the read past the end of an empty point
    list, or a region without node. -/
def regionPieces (sq : K → K) (sort : Pt K → List (Pt K) → List (Pt K)) (dist : Pt K → Pt K → K)
    (g : Region K) (r : Ray K) (len : K) : Option (List (Pt K × Pt K)) :=
  if g.hitsBox r len then
    g.node.bind fun n => pieces dist n.contains (n.intersections sq sort r len)
  else some []

/-- The loop over regions, Tracker.cc:423-464, from region number `i` on: (midpoint, segment)
    pairs. -/
def regionSegs (sq : K → K) (sort : Pt K → List (Pt K) → List (Pt K)) (dist : Pt K → Pt K → K)
    (r : Ray K) (len : K) : List (Region K) → Nat → Option (List (Pt K × Seg K))
  | [], _ => some []
  | g :: gs, i =>
    match regionPieces sq sort dist g r len, regionSegs sq sort dist r len gs (i + 1) with
    | some ps, some rest =>
      some (ps.map (fun pq => (Pt.smul (1 / 2) (pq.1.add pq.2), ⟨i, dist pq.1 pq.2⟩)) ++ rest)
    | _, _ => none

/-- `Tracker::segmentize` on an unreversed track, Tracker.cc:397-483: (midpoint, segment) pairs in
    the order added.  `msort o` is `std::sort` by distance of the midpoint from `o`. -/
def segmentize (sq : K → K) (sort : Pt K → List (Pt K) → List (Pt K)) (dist : Pt K → Pt K → K)
    (msort : Pt K → List (Pt K × Seg K) → List (Pt K × Seg K)) (gs : List (Region K))
    (p0 p1 : Pt K) : Option (List (Pt K × Seg K)) :=
  (regionSegs sq sort dist (trackRay dist p0 p1) (trackLen dist p0 p1) gs 0).map (msort p0)

/-- `Tracker::find_exit`, Tracker.cc:96-129 (all three planes hit; `distance` compared squared).  The
    plane called `Z_plane_top` is a plane of constant y. -/
def findExit (sq : K → K) (X Y Z : K) (e d : Pt K) : Option (Pt K) :=
  match (planeX X).intersections sq ⟨e, d⟩ (-1), (planeY Y).intersections sq ⟨e, d⟩ (-1) with
  | px :: _, py :: _ =>
    let s := if dist2 py e < dist2 px e then py else px
    if d.z ≠ 0 then
      match (planeY Z).intersections sq ⟨e, d⟩ (-1) with
      | pz :: _ => some (if dist2 pz e < dist2 s e then pz else s)
      | [] => none
    else some s
  | _, _ => none

end Detran.Geom
