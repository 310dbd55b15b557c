import Verif.Model.Sweep
import Verif.Model.Mesh
import Mathlib.Algebra.Field.Rat

/-!
# Model of `angle/`: octant signs, angle numbering, product quadratures, moments
-/

namespace Detran.Angle

open Detran.Sweep

/-! ## Adjoint switch -/

/-- `d_adjoint` and `d_octant_sign`. -/
structure Signs where
  adj : Bool
  sgn : Nat → Nat → Int

/-- The constructor's table, Quadrature.cc:40-72. -/
def Signs.init : Signs := ⟨false, octantSign⟩

/-- `Quadrature::set_adjoint`, Quadrature.cc:130-144. -/
def Signs.setAdjoint (s : Signs) (v : Bool) : Signs :=
  if v = s.adj then s
  else ⟨v, fun o d => if o < 8 ∧ d < 3 then s.sgn o d * (-1) else s.sgn o d⟩

/-- `Quadrature::mu/eta/xi (o, a)`, Quadrature.i.hh:87-106: component `d` of direction `(o, a)`;
    `cs d a` is the positive cosine table. -/
def Signs.cosine {K : Type} [Ring K] (s : Signs) (cs : Nat → Nat → K) (o a d : Nat) : K :=
  (s.sgn o d : K) * cs d a

/-! ## Angle numbering -/

/-- `Quadrature::index`, Quadrature.i.hh:43-50. -/
def index (nao o a : Nat) : Nat := a + o * nao

/-- `Quadrature::valid_index`, Quadrature.i.hh:117-127. -/
def validIndex (dim nao o a : Nat) : Bool := decide (o < 2 ^ dim) && decide (a < nao)

/-- `ProductQuadrature::angle`, ProductQuadrature.cc:266-271. -/
def angle (np a p : Nat) : Nat := p + a * np

/-- `ProductQuadrature::azimuth`, ProductQuadrature.cc:274-280. -/
def azimuth (nao np n : Nat) : Nat := (n % nao) / np

/-- `ProductQuadrature::polar`, ProductQuadrature.cc:283-289. -/
def polar (np n : Nat) : Nat := n % np

/-! ## Product quadratures -/

section
variable {K : Type} [Field K]

/-- The tables filled by `ProductQuadrature::build`. -/
structure Prod (K : Type) where
  n : Nat
  mu : Nat → K
  eta : Nat → K
  xi : Nat → K
  wt : Nat → K
  tot : K

/-- Body of the polar loop of `build`, ProductQuadrature.cc:304-312. -/
def buildPolar (scale : K) (cosp sinp aw cost sint pw : Nat → K) (a : Nat) (q : Prod K) (p : Nat) :
    Prod K :=
  let w := scale * pw p * aw a
  ⟨q.n + 1, Solver.upd q.mu q.n (sint p * cosp a), Solver.upd q.eta q.n (sint p * sinp a),
    Solver.upd q.xi q.n (cost p), Solver.upd q.wt q.n w, q.tot + w⟩

/-- `ProductQuadrature::build`, ProductQuadrature.cc:293-327 (without `verify`): azimuth cosines,
    sines and weights, polar cosines, sines and weights.  `tot` is `wt_tot`, including the final
    multiplication by the number of octants. -/
def build (dim na np : Nat) (cosp sinp aw cost sint pw : Nat → K) : Prod K :=
  let scale : K := if dim = 2 then 2 else 1
  let q := (List.range na).foldl (fun q a =>
    (List.range np).foldl (buildPolar scale cosp sinp aw cost sint pw a) q)
    ⟨0, fun _ => 0, fun _ => 0, fun _ => 0, fun _ => 0, 0⟩
  { q with tot := q.tot * (2 ^ dim : Nat) }

/-- `ProductQuadrature::verify`, ProductQuadrature.cc:330-346: `false` is a failed `Insist`. -/
def verify [LinearOrder K] (na np : Nat) (cost mu : Nat → K) : Bool :=
  ((List.range np).foldl (fun (st : Bool × K) p =>
    (st.1 && decide (st.2 < cost p) &&
      ((List.range na).foldl (fun (t : Bool × K) a =>
        (t.1 && decide (mu (angle np a p) < t.2), mu (angle np a p))) (true, 1)).1, cost p))
    (true, 0)).1

end

/-! ## Directions on a side of a product quadrature -/

/-- `d_number_azimuths[s]`, ProductQuadrature.cc:43-54. -/
def numAzi (na s : Nat) : Nat := if s < 4 then 2 * na else 4 * na

/-- `d_number_polar[s]`, ProductQuadrature.cc:43-54. -/
def numPol (dim np s : Nat) : Nat := if s < 4 then (if dim = 2 then np else 2 * np) else np

/-- Polar slot of an octant on a vertical side, ProductQuadrature.cc:69-77. -/
def polV (dim np o p : Nat) : Nat :=
  if dim = 3 then (if o ≤ 3 then np - p - 1 else p + np) else p

/-- Azimuth slot on a horizontal side, ProductQuadrature.cc:147-154. -/
def aziH (na o a : Nat) : Nat :=
  if o = 0 ∨ o = 4 then a
  else if o = 1 ∨ o = 5 then 2 * na - a - 1
  else if o = 2 ∨ o = 6 then 2 * na + a
  else if o = 3 ∨ o = 7 then 4 * na - a - 1
  else a

/-- Azimuth and polar slot of the incident direction (octant `o`, azimuth `a`, polar `p`) on side
    `s`, ProductQuadrature.cc:65-154. -/
def incSlot (dim na np s o a p : Nat) : Nat × Nat :=
  if s < 4 then
    (if s = 0 then (if o = 3 ∨ o = 7 then na - a - 1 else a + na)
     else if s = 1 then (if o = 1 ∨ o = 5 then na - a - 1 else a + na)
     else if s = 2 then (if o = 1 ∨ o = 5 then 2 * na - a - 1 else a)
     else (if o = 3 ∨ o = 7 then 2 * na - a - 1 else a), polV dim np o p)
  else (aziH na o a, if s = 4 then np - p - 1 else p)

/-- The same for the outgoing direction.  On the south side the code assigns
    `azi_out = azi_inc * 1` in the last case (line 116), so the incident octant `oi` of the same
    position enters. -/
def outSlot (dim na np s oi o a p : Nat) : Nat × Nat :=
  if s < 4 then
    (if s = 0 then (if o = 1 ∨ o = 5 then na - a - 1 else a + na)
     else if s = 1 then (if o = 3 ∨ o = 7 then na - a - 1 else a + na)
     else if s = 2 then
       (if o = 3 ∨ o = 7 then 2 * na - a - 1 else (incSlot dim na np s oi a p).1)
     else (if o = 1 ∨ o = 5 then 2 * na - a - 1 else a), polV dim np o p)
  else (aziH na o a, if s = 4 then p else np - p - 1)

/-- An entry of `d_incident_indices` or `d_outgoing_indices`: octant, angle, position of the
    octant in the side's list. -/
structure Entry where
  octant : Nat
  angle : Nat
  io : Nat
deriving DecidableEq

/-- `t[azi][pol] = e`. -/
def putSlot (t : Nat → Nat → Option Entry) (k : Nat × Nat) (e : Entry) : Nat → Nat → Option Entry :=
  fun i j => if i = k.1 ∧ j = k.2 then some e else t i j

/-- `d_incident_indices[s]` after the constructor, ProductQuadrature.cc:55-170.  `none` marks an
    entry never assigned. -/
def incTable (dim na np s : Nat) : Nat → Nat → Option Entry :=
  (List.range ((dim - 1) * 2)).foldl (fun t oo =>
    (List.range (na * np)).foldl (fun t n =>
      putSlot t (incSlot dim na np s ((incidentOctants dim s).getD oo 0)
        (azimuth (na * np) np n) (polar np n)) ⟨(incidentOctants dim s).getD oo 0, n, oo⟩) t)
    (fun _ _ => none)

/-- `d_outgoing_indices[s]`. -/
def outTable (dim na np s : Nat) : Nat → Nat → Option Entry :=
  (List.range ((dim - 1) * 2)).foldl (fun t oo =>
    (List.range (na * np)).foldl (fun t n =>
      putSlot t (outSlot dim na np s ((incidentOctants dim s).getD oo 0)
        ((outgoingOctants dim s).getD oo 0) (azimuth (na * np) np n) (polar np n))
        ⟨(outgoingOctants dim s).getD oo 0, n, oo⟩) t)
    (fun _ _ => none)

/-! ## One-dimensional base quadratures -/

section
variable {K : Type} [Field K]

/-- The loop `v[i] = v[i-1] + dx` of `linspace_center`. -/
def stepFrom (dx : K) : K → Nat → List K
  | _, 0 => []
  | x, n + 1 => x :: stepFrom dx (x + dx) n

/-- `linspace_center`, MathUtilities.hh:202-214. -/
def linspaceCenter (a b : K) (n : Nat) : List K :=
  let dx := if n ≤ 1 then b - a else (b - a) / n
  stepFrom dx (a + 1 / 2 * dx) n

/-- `BaseQuadrature::scale_and_shift`, BaseQuadrature.hh:128-138. -/
def scaleShift (a0 b0 a1 b1 : K) (q : List K × List K) : List K × List K :=
  let scale := (b1 - a1) / (b0 - a0)
  let shift := a1 - a0 * scale
  (q.1.map (fun x => x * scale + shift), q.2.map (· * scale))

/-- `BaseUniform::build_impl`, BaseUniform.hh:31-36. -/
def baseUniform (a b : K) (m : Nat) : List K × List K :=
  (linspaceCenter a b m, List.replicate m ((b - a) / m))

/-- `BaseSimpson::build_impl`, BaseUniform.hh:87-99: weights before scaling.  (`d_w` starts at zero.) -/
def simpsonWeights (m : Nat) : List K :=
  let w0 : K := 9 / 8 / m
  let w1 : K := 3 / 4 / m
  let w := (List.range (m - m % 3)).foldl
    (fun w i => w.set i (if (i % 3) % 2 = 0 then w0 else w1)) (List.replicate m 0)
  if m % 3 = 2 then w.set (m - 2) (1 / m)
  else if m % 3 ≠ 0 then w.set (m - 1) (1 / m)
  else w

/-- `BaseSimpson::build_impl`. -/
def baseSimpson (a b : K) (m : Nat) : List K × List K :=
  scaleShift 0 1 a b (linspaceCenter 0 1 m, simpsonWeights m)

/-- The doubling loop shared by `BaseDGL` (BaseGL.hh) and `BaseDGC` (BaseGC.hh): a set `(xh, wh)`
    on [-1, 1] is moved to [0, 1], mirrored, and moved to [a, b]. -/
def doubled (a b : K) (m : Nat) (h : List K × List K) : List K × List K :=
  let s := scaleShift (-1) 1 0 1 h
  let q := (List.range (m / 2)).foldl (fun (q : List K × List K) i =>
    ((q.1.set (i + m / 2) (s.1.getD i 0)).set (m / 2 - i - 1) (-(s.1.getD i 0)),
     (q.2.set (i + m / 2) (s.2.getD i 0)).set (m / 2 - i - 1) (s.2.getD i 0)))
    (List.replicate m 0, List.replicate m 0)
  scaleShift (-1) 1 a b q

end

/-! ## Moment numbering -/

/-- `for (m = -l; m <= l; ++m)`. -/
def mRange (l : Nat) : List Int := (List.range (2 * l + 1)).map (fun i : Nat => (i : Int) - l)

/-- `d_m_index[l]`, MomentIndexer.cc:55-83. -/
def mIndex (dim l : Nat) : List Int :=
  match dim with
  | 1 => [0]
  | 2 => (mRange l).filter (fun m => (m + l) % 2 = 0)
  | _ => mRange l

/-- `d_number_moments`, MomentIndexer.cc:57, 66, 76. -/
def numMoments (dim L : Nat) : Nat :=
  match dim with
  | 1 => L + 1
  | 2 => (L + 1) * (L + 2) / 2
  | _ => (L + 1) * (L + 1)

/-- `d_l` and `d_m` after the constructor, MomentIndexer.cc:28-39: the pairs in the order written,
    padded with the initial zeros; `none` if more are written than allocated. -/
def moments (dim L : Nat) : Option (List (Nat × Int)) :=
  let t := (List.range (L + 1)).flatMap (fun l => (mIndex dim l).map (fun m => (l, m)))
  if t.length ≤ numMoments dim L then
    some (t ++ List.replicate (numMoments dim L - t.length) (0, 0))
  else none

/-- `MomentIndexer::index`, MomentIndexer.i.hh:36-51: linear search, `number_moments` if absent. -/
def momentIndex (t : List (Nat × Int)) (l : Nat) (m : Int) : Nat :=
  t.findIdx (fun e => e.1 = l && e.2 = m)

/-! ## Spherical harmonics -/

/-- The decimal constants of `get_Y_lm`, SphericalHarmonics.cc:99-124, in order of appearance. -/
structure YConst (K : Type) where
  r3 : K       -- 1.732050807568877
  r3h : K      -- 0.8660254037844385
  c33 : K      -- 0.7905694150420948
  r15 : K      -- 3.872983346207417
  c31 : K      -- 0.6123724356957945
  r15h : K     -- 1.936491673103708

/-- The constants as written. -/
def yDecimals : YConst ℚ :=
  ⟨1732050807568877 / 10 ^ 15, 8660254037844385 / 10 ^ 16, 7905694150420948 / 10 ^ 16,
    3872983346207417 / 10 ^ 15, 6123724356957945 / 10 ^ 16, 1936491673103708 / 10 ^ 15⟩

/-- `SphericalHarmonics::get_Y_lm`, SphericalHarmonics.cc:62-147, degrees 0 to 3; `none` is the
    `THROW` for higher degrees (built without Boost). -/
def ylm {K : Type} [Field K] (c : YConst K) (l : Nat) (m : Int) (mu eta xi : K) : Option K :=
  match l with
  | 0 => some 1
  | 1 => some (if m = -1 then eta else if m = 0 then xi else if m = 1 then mu else 0)
  | 2 => some (if m = -2 then c.r3 * mu * eta else if m = -1 then c.r3 * xi * eta
      else if m = 0 then 3 / 2 * xi * xi - 1 / 2 else if m = 1 then c.r3 * xi * mu
      else if m = 2 then c.r3h * (mu * mu - eta * eta) else 0)
  | 3 => some (if m = -3 then c.c33 * eta * (3 * mu * mu - eta * eta)
      else if m = -2 then c.r15 * xi * mu * eta
      else if m = -1 then c.c31 * eta * (5 * xi * xi - 1)
      else if m = 0 then 5 / 2 * xi * xi * xi - 3 / 2 * xi
      else if m = 1 then c.c31 * mu * (5 * xi * xi - 1)
      else if m = 2 then c.r15h * xi * (mu * mu - eta * eta)
      else if m = 3 then c.c33 * mu * (mu * mu - 3 * eta * eta) else 0)
  | _ => none

/-- A row of `MomentToDiscrete`, MomentToDiscrete.i.hh:61-112: coefficient of moment `(l, m)` in
    direction `(mu, eta, xi)`.  `norm` is `0.5` in 1-D (where the caller passes the single cosine
    as `xi` with `mu = eta = 0`) and `inv_four_pi` otherwise. -/
def mtod {K : Type} [Field K] (c : YConst K) (norm : K) (l : Nat) (m : Int) (mu eta xi : K) :
    Option K :=
  (ylm c l m mu eta xi).map (fun y => (2 * l + 1) * norm * y)

end Detran.Angle
