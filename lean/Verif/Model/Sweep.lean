import Verif.Model.Solver

/-!
# Model of the spatial equations and the transport sweeps

One group is modelled at a time (`d_g` is fixed during a sweep).  Doubles are elements of a
field `K`; `std::exp` is an arbitrary function `ex` (the theorems that need its properties use
`Real.exp`).  Boundary fluxes are functions of side, octant and angle.  The OpenMP branch (a
private copy of the moments per thread) is modelled in `Model/Threads`.  The current tally, which only reads
the sweep's fluxes, is modelled separately.
-/

namespace Detran.Sweep

open Detran.Solver (upd)

variable {K : Type} [Field K]

/-! ## Spatial equations: cell data and incident fluxes to centre and outgoing fluxes -/

/-- `Equation_DD_1D`, Equation_DD_1D.i.hh:19-58: (centre, outgoing).  The coefficient
    `d_coef_x[i] = 2 mu / dx(i)` is formed in `setup_angle` (19-28). -/
def dd1 (mu dx sigt s pin : K) : K × K :=
  let cx := 2 * mu / dx
  let coef := 1 / (sigt + cx)
  let c := coef * (s + cx * pin)
  (c, 2 * c - pin)

/-- `Equation_SD_1D`, Equation_SD_1D.i.hh:19-60. -/
def sd1 (mu dx sigt s pin : K) : K × K :=
  let cx := mu / dx
  let coef := 1 / (sigt + cx)
  let c := coef * (s + cx * pin)
  (c, c)

/-- `Equation_SC_1D`, Equation_SC_1D.i.hh:19-61. -/
def sc1 (ex : K → K) (mu dx sigt s pin : K) : K × K :=
  let tau := sigt * dx / mu
  let A := ex (-tau)
  (pin * (1 - A) / tau + s * (sigt * dx + mu * (A - 1)) / (sigt * sigt * dx),
   A * pin + s * (1 - A) / sigt)

/-- `Equation_DD_2D`, Equation_DD_2D.cc:42-56 and Equation_DD_2D.i.hh:17-50: incident and
    outgoing fluxes are (vertical, horizontal). -/
def dd2 (mu eta dx dy sigt s : K) (pin : K × K) : K × (K × K) :=
  let cx := 2 * mu / dx
  let cy := 2 * eta / dy
  let coef := 1 / (sigt + cx + cy)
  let c := coef * (s + cx * pin.1 + cy * pin.2)
  (c, (2 * c - pin.1, 2 * c - pin.2))

/-- `Equation_SD_2D`, Equation_SD_2D.cc:44-59 and Equation_SD_2D.i.hh:19-50. -/
def sd2 (mu eta dx dy sigt s : K) (pin : K × K) : K × (K × K) :=
  let cx := mu / dx
  let cy := eta / dy
  let coef := 1 / (sigt + cx + cy)
  let c := coef * (s + cx * pin.1 + cy * pin.2)
  (c, (c, c))

/-- `Equation_SC_2D`, Equation_SC_2D.cc:44-58 and Equation_SC_2D.i.hh:21-85. -/
def sc2 [LE K] [DecidableLE K] (ex : K → K) (mu eta dx dy sigt s : K) (pin : K × K) :
    K × (K × K) :=
  let Q := s / sigt
  let alpha := sigt * (dx / mu)
  let beta := sigt * (dy / eta)
  let rho := alpha / beta
  let v := pin.1 - Q
  let h := pin.2 - Q
  let out : K × K :=
    if rho ≤ 1 then
      let e := ex (-alpha)
      let o := (1 - e) / alpha
      (Q + v * (1 - rho) * e + h * rho * o, Q + v * o)
    else
      let e := ex (-beta)
      let o := (1 - e) / beta
      (Q + h * o, Q + v * o / rho + h * (1 - 1 / rho) * e)
  (Q - (out.1 - pin.1) / alpha - (out.2 - pin.2) / beta, out)

/-- `Equation_DD_3D`, Equation_DD_3D.cc:43-63 and Equation_DD_3D.i.hh:17-48: fluxes are
    (YZ, XZ, XY). -/
def dd3 (mu eta xi dx dy dz sigt s : K) (pin : K × K × K) : K × (K × K × K) :=
  let cx := 2 * mu / dx
  let cy := 2 * eta / dy
  let cz := 2 * xi / dz
  let coef := 1 / (sigt + cx + cy + cz)
  let c := coef * (s + cx * pin.1 + cy * pin.2.1 + cz * pin.2.2)
  (c, (2 * c - pin.1, 2 * c - pin.2.1, 2 * c - pin.2.2))

/-! ## Loop bounds and tables -/

/-- `oct`, Sweeper.cc:135. -/
def posOctants : Nat → List Nat
  | 0 => [0, 3, 4, 7]
  | 1 => [0, 1, 4, 5]
  | _ => [0, 1, 2, 3]

/-- `d_space_ranges[o][dim]`, Sweeper.cc:125-153: first index and increment. -/
def spaceRange (n dim o : Nat) : Int × Int :=
  if o ∈ posOctants dim then (0, 1) else ((n : Int) - 1, -1)

/-- The indices visited by `for (ii = 0; ii < n; ++ii, i += di)` with `int i`
    (Sweeper1D.i.hh:88-96, Sweeper2D.i.hh:122-133, Sweeper3D.i.hh:91-99). -/
def walk (start di : Int) : Nat → List Int
  | 0 => []
  | n + 1 => start :: walk (start + di) di n

/-- The same loop with `size_t i, di` (Sweeper3D.i.hh:105-107): 32-bit wrap-around. -/
def walkU (start di : Nat) : Nat → List Nat
  | 0 => []
  | n + 1 => start :: walkU ((start + di) % 2 ^ 32) di n

/-- Indices of one direction as used to address arrays (`int` loop variable). -/
def cells (n dim o : Nat) : List Nat :=
  (walk (spaceRange n dim o).1 (spaceRange n dim o).2 n).map Int.toNat

/-- Indices of the `size_t` x loop of the 3-D sweep. -/
def cellsU (n dim o : Nat) : List Nat :=
  walkU ((spaceRange n dim o).1 % 2 ^ 32).toNat ((spaceRange n dim o).2 % 2 ^ 32).toNat n

/-- `d_face_index[o][VERT][IN]`, 1-D, Sweeper.t.hh:74-84 (WEST = 0, EAST = 1). -/
def in1 (o : Nat) : Nat := [0, 1].getD o 0
/-- `d_face_index[o][VERT][OUT]`, 1-D. -/
def out1 (o : Nat) : Nat := [1, 0].getD o 0

/-- `d_face_index[o][VERT/HORZ][IN]`, 2-D, Sweeper.t.hh:53-70. -/
def in2 (o : Nat) : Nat × Nat := [(0, 2), (1, 2), (1, 3), (0, 3)].getD o (0, 0)
/-- `d_face_index[o][VERT/HORZ][OUT]`, 2-D. -/
def out2 (o : Nat) : Nat × Nat := [(1, 3), (0, 3), (0, 2), (1, 2)].getD o (0, 0)

/-- `d_face_index[o][YZ/XZ/XY][IN]`, 3-D, Sweeper.t.hh:28-49. -/
def in3 (o : Nat) : Nat × Nat × Nat :=
  [(0, 2, 4), (1, 2, 4), (1, 3, 4), (0, 3, 4),
   (0, 2, 5), (1, 2, 5), (1, 3, 5), (0, 3, 5)].getD o (0, 0, 0)
/-- `d_face_index[o][YZ/XZ/XY][OUT]`, 3-D. -/
def out3 (o : Nat) : Nat × Nat × Nat :=
  [(1, 3, 5), (0, 3, 5), (0, 2, 5), (1, 2, 5),
   (1, 3, 4), (0, 3, 4), (0, 2, 4), (1, 2, 4)].getD o (0, 0, 0)

/-- `d_octant_sign`, Quadrature.cc:40-72. -/
def octantSign (o d : Nat) : Int :=
  ([[1, 1, 1], [-1, 1, 1], [-1, -1, 1], [1, -1, 1],
    [1, 1, -1], [-1, 1, -1], [-1, -1, -1], [1, -1, -1]].getD o []).getD d 0

/-- `d_incident_octants[side]`, Quadrature.cc:74-119. -/
def incidentOctants (dim side : Nat) : List Nat :=
  match dim with
  | 1 => [[0], [1]].getD side []
  | 2 => [[3, 0], [1, 2], [0, 1], [2, 3]].getD side []
  | 3 => [[7, 4, 3, 0], [5, 6, 1, 2], [4, 5, 0, 1], [6, 7, 2, 3],
          [0, 1, 2, 3], [4, 5, 6, 7]].getD side []
  | _ => []

/-- `d_outgoing_octants[side]`, Quadrature.cc:74-119. -/
def outgoingOctants (dim side : Nat) : List Nat :=
  match dim with
  | 1 => [[1], [0]].getD side []
  | 2 => [[1, 2], [3, 0], [2, 3], [0, 1]].getD side []
  | 3 => [[5, 6, 1, 2], [7, 4, 3, 0], [6, 7, 2, 3], [4, 5, 0, 1],
          [4, 5, 6, 7], [0, 1, 2, 3]].getD side []
  | _ => []

/-! ## Octant ordering -/

/-- The staggered default, Sweeper.cc:161-167. -/
def staggered (no : Nat) : List Nat :=
  (List.range (no / 2)).foldl (fun l i => (l.set (2 * i) i).set (2 * i + 1) (no / 2 + i))
    (List.replicate no 0)

/-- `count`, Sweeper.cc:176-181: the number of non-reflective sides an octant enters through. -/
def vacuumCount (dim : Nat) (refl : Nat → Bool) : List Nat :=
  (List.range (2 * dim)).foldl (fun cnt side =>
    if refl side then cnt
    else (incidentOctants dim side).foldl (fun cnt o => cnt.set o (cnt.getD o 0 + 1)) cnt)
    (List.replicate (2 ^ dim) 0)

/-- One comparison of the exchange sort, Sweeper.cc:186-194, on (octants, counts). -/
def exchange (i j : Nat) (p : List Nat × List Nat) : List Nat × List Nat :=
  if p.2.getD j 0 < p.2.getD i 0 then
    ((p.1.set j (p.1.getD i 0)).set i (p.1.getD j 0),
     (p.2.set j (p.2.getD i 0)).set i (p.2.getD j 0))
  else p

/-- The exchange sort, Sweeper.cc:184-194. -/
def exchangeSort (no : Nat) (p : List Nat × List Nat) : List Nat × List Nat :=
  (List.range no).foldl (fun p i => (List.range no).foldl (fun p j => exchange i j p) p) p

/-- `Sweeper::setup_octant_indices`, Sweeper.cc:157-203.  `user` is the database entry
    `sweeper_ordered_octants`; `none` is the failed `Insist`. -/
def orderOctants (dim : Nat) (hasRefl hasVac : Bool) (refl : Nat → Bool)
    (user : Option (List Nat)) : Option (List Nat) :=
  let no := 2 ^ dim
  let base := if hasRefl && hasVac then
      (exchangeSort no (List.range no, vacuumCount dim refl)).1
    else staggered no
  match user with
  | none => some base
  | some oo => if oo.length = no then some oo else none

/-! ## Sweeps -/

/-- What a sweep changes: boundary fluxes by side, octant and angle; scalar flux by cell;
    stored angular flux by octant, angle and cell. -/
structure St (F K : Type) where
  bdy : Nat → Nat → Nat → F
  phi : Nat → K
  psi : Nat → Nat → Nat → K

/-- `b(face, o, a, d_g) = v`. -/
def setB {F : Type} (b : Nat → Nat → Nat → F) (f o a : Nat) (v : F) : Nat → Nat → Nat → F :=
  fun f' o' a' => if f' = f ∧ o' = o ∧ a' = a then v else b f' o' a'

/-- `d_state->psi(d_g, o, a) = v`. -/
def setPsi (p : Nat → Nat → Nat → K) (o a : Nat) (v : Nat → K) : Nat → Nat → Nat → K :=
  fun o' a' => if o' = o ∧ a' = a then v else p o' a'

/-- Running values inside a directional sweep: travelling edge flux, stored edge fluxes,
    scalar flux, angular flux. -/
structure Run (E K : Type) where
  edge : E
  phi : Nat → K
  psi : Nat → K

/-- Flux moment and angular flux updates shared by all `solve` functions
    (e.g. Equation_DD_1D.i.hh:53-56). -/
def record (up : Bool) (w : K) (cell : Nat) (c : K) (phi psi : Nat → K) :
    (Nat → K) × (Nat → K) :=
  (upd phi cell (phi cell + w * c), if up then upd psi cell c else psi)

/-- Body of the x loop, Sweeper1D.i.hh:96-108. -/
def cell1 (eq : Nat → K → K × K) (up : Bool) (w : K) (r : Run K K) (i : Nat) : Run K K :=
  let res := eq i r.edge
  let rec' := record up w i res.1 r.phi r.psi
  ⟨res.2, rec'.1, rec'.2⟩

/-- One angle of `Sweeper1D::sweep`, Sweeper1D.i.hh:71-114.  `eq a s` is the spatial equation of
    angle `a` with cell sources `s`, `src` is `SweepSource::source`, `bup` is `b.update` (the
    identity unless `d_update_boundary`). -/
def angle1 (eq : Nat → (Nat → K) → Nat → K → K × K) (src : Nat → Nat → Nat → K) (w : Nat → K)
    (nx : Nat) (up : Bool) (bup : (Nat → Nat → Nat → K) → Nat → Nat → Nat → Nat → Nat → K)
    (s : St K K) (o a : Nat) : St K K :=
  let b := bup s.bdy o a
  let r := (cells nx 0 o).foldl (cell1 (eq a (src o a)) up (w a))
    ⟨b (in1 o) o a, s.phi, s.psi o a⟩
  ⟨setB b (out1 o) o a r.edge, r.phi, if up then setPsi s.psi o a r.psi else s.psi⟩

/-- The octant and angle loops shared by the three sweepers (e.g. Sweeper1D.i.hh:59-119) after
    the flux moments are reset (line 27). -/
def sweepWith {F : Type} (order : List Nat) (na : Nat)
    (step : St F K → Nat → Nat → St F K) (s : St F K) : St F K :=
  order.foldl (fun s o => (List.range na).foldl (fun s a => step s o a) s)
    { s with phi := fun _ => 0 }

/-- Edge fluxes of the 2-D sweep: travelling vertical flux, stored vertical and horizontal. -/
structure Edge2 (K : Type) where
  cur : K
  v : Nat → K
  h : Nat → K

/-- Body of the x loop, Sweeper2D.i.hh:133-147; the cell is `index(i,j)`. -/
def cell2 (eq : Nat → Nat → K × K → K × (K × K)) (up : Bool) (w : K) (nx j : Nat)
    (r : Run (Edge2 K) K) (i : Nat) : Run (Edge2 K) K :=
  let res := eq i j (r.edge.cur, r.edge.h i)
  let rec' := record up w (i + j * nx) res.1 r.phi r.psi
  ⟨⟨res.2.1, r.edge.v, upd r.edge.h i res.2.2⟩, rec'.1, rec'.2⟩

/-- Body of the y loop, Sweeper2D.i.hh:124-152. -/
def row2 (eq : Nat → Nat → K × K → K × (K × K)) (up : Bool) (w : K) (nx : Nat) (is : List Nat)
    (r : Run (Edge2 K) K) (j : Nat) : Run (Edge2 K) K :=
  let r1 := is.foldl (cell2 eq up w nx j) { r with edge := { r.edge with cur := r.edge.v j } }
  { r1 with edge := { r1.edge with v := upd r1.edge.v j r1.edge.cur } }

/-- One angle of `Sweeper2D::sweep`, Sweeper2D.i.hh:73-159. -/
def angle2 (eq : Nat → (Nat → K) → Nat → Nat → K × K → K × (K × K)) (src : Nat → Nat → Nat → K)
    (w : Nat → K) (nx ny : Nat) (up : Bool)
    (bup : (Nat → Nat → Nat → Nat → K) → Nat → Nat → Nat → Nat → Nat → Nat → K)
    (s : St (Nat → K) K) (o a : Nat) : St (Nat → K) K :=
  let b := bup s.bdy o a
  let r := (cells ny 1 o).foldl (row2 (eq a (src o a)) up (w a) nx (cells nx 0 o))
    ⟨⟨0, b (in2 o).1 o a, b (in2 o).2 o a⟩, s.phi, s.psi o a⟩
  ⟨setB (setB b (out2 o).1 o a r.edge.v) (out2 o).2 o a r.edge.h, r.phi,
    if up then setPsi s.psi o a r.psi else s.psi⟩

/-- Edge fluxes of the 3-D sweep. -/
structure Edge3 (K : Type) where
  cur : K
  yz : Nat → Nat → K
  xz : Nat → Nat → K
  xy : Nat → Nat → K

/-- `m[k][i] = v`. -/
def upd2 (m : Nat → Nat → K) (k i : Nat) (v : K) : Nat → Nat → K := upd m k (upd (m k) i v)

/-- Body of the x loop, Sweeper3D.i.hh:107-122. -/
def cell3 (eq : Nat → Nat → Nat → K × K × K → K × (K × K × K)) (up : Bool) (w : K)
    (nx ny k j : Nat) (r : Run (Edge3 K) K) (i : Nat) : Run (Edge3 K) K :=
  let res := eq i j k (r.edge.cur, r.edge.xz k i, r.edge.xy j i)
  let rec' := record up w (i + j * nx + k * nx * ny) res.1 r.phi r.psi
  ⟨⟨res.2.1, r.edge.yz, upd2 r.edge.xz k i res.2.2.1, upd2 r.edge.xy j i res.2.2.2⟩,
    rec'.1, rec'.2⟩

/-- Body of the y loop, Sweeper3D.i.hh:99-127. -/
def row3 (eq : Nat → Nat → Nat → K × K × K → K × (K × K × K)) (up : Bool) (w : K)
    (nx ny : Nat) (is : List Nat) (k : Nat) (r : Run (Edge3 K) K) (j : Nat) : Run (Edge3 K) K :=
  let r1 := is.foldl (cell3 eq up w nx ny k j)
    { r with edge := { r.edge with cur := r.edge.yz k j } }
  { r1 with edge := { r1.edge with yz := upd2 r1.edge.yz k j r1.edge.cur } }

/-- Body of the z loop, Sweeper3D.i.hh:93-128. -/
def plane3 (eq : Nat → Nat → Nat → K × K × K → K × (K × K × K)) (up : Bool) (w : K)
    (nx ny : Nat) (is js : List Nat) (r : Run (Edge3 K) K) (k : Nat) : Run (Edge3 K) K :=
  js.foldl (row3 eq up w nx ny is k) r

/-- One angle of `Sweeper3D::sweep`, Sweeper3D.i.hh:68-136. -/
def angle3 (eq : Nat → (Nat → K) → Nat → Nat → Nat → K × K × K → K × (K × K × K))
    (src : Nat → Nat → Nat → K) (w : Nat → K) (nx ny nz : Nat) (up : Bool)
    (bup : (Nat → Nat → Nat → Nat → Nat → K) → Nat → Nat → Nat → Nat → Nat → Nat → Nat → K)
    (s : St (Nat → Nat → K) K) (o a : Nat) : St (Nat → Nat → K) K :=
  let b := bup s.bdy o a
  let r := (cells nz 2 o).foldl
    (plane3 (eq a (src o a)) up (w a) nx ny (cellsU nx 0 o) (cells ny 1 o))
    ⟨⟨0, b (in3 o).1 o a, b (in3 o).2.1 o a, b (in3 o).2.2 o a⟩, s.phi, s.psi o a⟩
  ⟨setB (setB (setB b (out3 o).1 o a r.edge.yz) (out3 o).2.1 o a r.edge.xz)
      (out3 o).2.2 o a r.edge.xy, r.phi,
    if up then setPsi s.psi o a r.psi else s.psi⟩

/-- Per-cell equations of a mesh: `eq a s i = scheme mu_a dx_i sigt_cell s_cell`. -/
def mesh1 (scheme : K → K → K → K → K → K × K) (mu : Nat → K) (dx sigt : Nat → K)
    (a : Nat) (s : Nat → K) (i : Nat) : K → K × K :=
  scheme (mu a) (dx i) (sigt i) (s i)

/-- Per-cell equations of a 2-D mesh; `sigt` is indexed by cell. -/
def mesh2 (scheme : K → K → K → K → K → K → K × K → K × (K × K)) (mu eta : Nat → K)
    (dx dy sigt : Nat → K) (nx a : Nat) (s : Nat → K) (i j : Nat) : K × K → K × (K × K) :=
  scheme (mu a) (eta a) (dx i) (dy j) (sigt (i + j * nx)) (s (i + j * nx))

/-- Per-cell equations of a 3-D mesh. -/
def mesh3 (scheme : K → K → K → K → K → K → K → K → K × K × K → K × (K × K × K))
    (mu eta xi : Nat → K) (dx dy dz sigt : Nat → K) (nx ny a : Nat) (s : Nat → K)
    (i j k : Nat) : K × K × K → K × (K × K × K) :=
  scheme (mu a) (eta a) (xi a) (dx i) (dy j) (dz k) (sigt (i + j * nx + k * nx * ny))
    (s (i + j * nx + k * nx * ny))

/-- `SweepSource::source`, SweepSource.i.hh:113-159: the isotropic part times the
    moment-to-discrete factor plus the discrete external sources. -/
def sweepSource (fixed scatter : Nat → K) (mtod : Nat → Nat → K)
    (disc : List (Nat → Nat → Nat → K)) (o a cell : Nat) : K :=
  disc.foldl (fun v d => v + d o a cell) ((fixed cell + scatter cell) * mtod o a)

end Detran.Sweep
