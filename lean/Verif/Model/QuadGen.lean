import Verif.Model.Angle
import Mathlib.Analysis.SpecialFunctions.Trigonometric.Basic

/-!
# One-dimensional Gauss generators and equal-weight sets

`src/angle/BaseGL.hh`, `src/angle/BaseGC.hh`, `src/angle/BaseUniform.hh`, `src/angle/UniformEqual.cc`,
`src/angle/PolarQuadrature.t.hh` and `src/angle/AzimuthalQuadrature.t.hh`.

Doubles are exact.  The Newton iteration of `BaseGL` is written over any linearly ordered field, with
the initial guess as a parameter, so that it can be run on rationals; the tables that need cosines,
square roots and π are over the reals.
-/

namespace Detran.QuadGen

open Detran.Angle

section
variable {K : Type} [Field K]

/-- One pass of the recurrence loop, BaseGL.hh:65-67: `(p1, p2)` before pass `j` becomes the pair after
    it (`p3 = p2; p2 = p1; p1 = ((2 j - 1) z p2 - (j - 1) p3) / j`). -/
def legStep (z : K) (p : K × K) (j : Nat) : K × K :=
  (((2 * (j : K) - 1) * z * p.1 - ((j : K) - 1) * p.2) / j, p.1)

/-- The recurrence loop `for (j = 1; j <= m; j++)`, BaseGL.hh:60-68. -/
def legLoop (m : Nat) (z : K) : K × K :=
  (List.range m).foldl (fun p k => legStep z p (k + 1)) (1, 0)

/-- `pp`, BaseGL.hh:72. -/
def slope (m : Nat) (z : K) : K :=
  (m : K) * (z * (legLoop m z).1 - (legLoop m z).2) / (z * z - 1)

/-- One body of the do-while loop, BaseGL.hh:60-74: the new `z` and the `pp` it used. -/
def newton (m : Nat) (z : K) : K × K :=
  (z - (legLoop m z).1 / slope m z, slope m z)

variable [LinearOrder K]

/-- The do-while loop, BaseGL.hh:58-75, from iterate `z`, with `n` further bodies allowed after this
    one (`++count < 200` is evaluated only while the step exceeds the tolerance): the last `z` and
    `pp`. -/
def refine (tol : K) (m : Nat) : Nat → K → K × K
  | 0, z => newton m z
  | n + 1, z => if tol < |(newton m z).1 - z| then refine tol m n (newton m z).1 else newton m z

/-- The abscissa and weight stored for one initial guess, BaseGL.hh:54-78. -/
def glPoint (tol : K) (m : Nat) (z0 : K) : K × K :=
  let r := refine tol m 199 z0
  (-r.1, 2 / ((1 - r.1 * r.1) * r.2 * r.2))

/-- `generate_gl_parameters`, BaseGL.hh:46-80, for given initial guesses. -/
def glSet (tol : K) (m : Nat) (z0 : Nat → K) : List K × List K :=
  ((List.range m).map fun i => (glPoint tol m (z0 i)).1,
   (List.range m).map fun i => (glPoint tol m (z0 i)).2)

end

noncomputable section
open Real

/-- The initial guess, BaseGL.hh:54: `cos(pi * (i - 0.25) / (m + 0.5))` with `i` counted from one. -/
def guess (m i : Nat) : ℝ := cos (π * ((i : ℝ) + 1 - 1 / 4) / (m + 1 / 2))

/-- `BaseGL::build_impl`, BaseGL.hh:84-90. -/
def baseGL (a b : ℝ) (m : Nat) : List ℝ × List ℝ :=
  scaleShift (-1) 1 a b (glSet (1 / 10 ^ 15) m (guess m))

/-- `BaseDGL::build_impl`, BaseGL.hh:110-127; an odd number of points is rejected. -/
def baseDGL (a b : ℝ) (m : Nat) : Option (List ℝ × List ℝ) :=
  if m % 2 = 0 then some (doubled a b m (glSet (1 / 10 ^ 15) (m / 2) (guess (m / 2)))) else none

/-- `generate_gc_parameters`, BaseGC.hh:48-69.  (`w_tot` is not used.) -/
def gcSet (m : Nat) : List ℝ × List ℝ :=
  let x := (List.range m).map fun i : Nat => - cos (((i : ℝ) + 1 - 1 / 2) * π / m)
  (x, x.map fun x => π / m * √(1 - x * x))

/-- `BaseGC::build_impl`, BaseGC.hh:73-79. -/
def baseGC (a b : ℝ) (m : Nat) : List ℝ × List ℝ := scaleShift (-1) 1 a b (gcSet m)

/-- `BaseDGC::build_impl`, BaseGC.hh:99-116; an odd number of points is rejected. -/
def baseDGC (a b : ℝ) (m : Nat) : Option (List ℝ × List ℝ) :=
  if m % 2 = 0 then some (doubled a b m (gcSet (m / 2))) else none

/-- What a transport quadrature keeps of a base set. -/
structure Half where
  x : List ℝ
  w : List ℝ

/-- `vec_scale(w, c / vec_sum(w))`, the optional normalisation. -/
def normalised (normalize : Bool) (c : ℝ) (w : List ℝ) : List ℝ :=
  if normalize then w.map (· * (c / w.sum)) else w

/-- `PolarQuadrature::PolarQuadrature`, PolarQuadrature.t.hh:20-54: the upper half of a base set of
    `2 np` points on [-1, 1] gives the polar cosines and weights. -/
def polar (np : Nat) (normalize : Bool) (q : List ℝ × List ℝ) : Half :=
  ⟨(List.range np).map fun i => q.1.getD (i + np) 0,
   normalised normalize 1 ((List.range np).map fun i => q.2.getD (i + np) 0)⟩

/-- `AzimuthalQuadrature::AzimuthalQuadrature`, AzimuthalQuadrature.t.hh:20-47: a base set of `na`
    points on [0, π/2] gives the azimuths and their weights. -/
def azimuthal (normalize : Bool) (q : List ℝ × List ℝ) : Half :=
  ⟨q.1, normalised normalize (π / 2) q.2⟩

/-- One direction of a set: cosines and weight. -/
structure Dir where
  mu : ℝ
  eta : ℝ
  xi : ℝ
  w : ℝ

/-- `UniformEqual::UniformEqual`, UniformEqual.cc:19-84: the directions of the first octant, in order.
    The Quadrature base has `2^dim · order²` angles, `order²` in each octant. -/
def uniformEqual (order dim : Nat) : List Dir :=
  let numXi : Nat := 2 * order
  let numOmega : Nat := 2 * numXi
  let angles : Nat := 2 ^ dim * order * order
  let xi (i : Nat) : ℝ := 2 / (numXi : ℝ) * ((i : ℝ) + 1 / 2 + 1 / 2 * (numXi : ℝ)) - 1
  let coef : ℝ := 4 * π / ((order * order : Nat) * 8 * (xi 1 - xi 0))
  let wt : ℝ := 4 * π / angles
  (List.range (numOmega / 4)).flatMap fun j : Nat =>
    (List.range (numXi / 2)).map fun i : Nat =>
      ⟨cos (coef * ((j : ℝ) + 1 / 2)) * √(1 - xi i * xi i),
       sin (coef * ((j : ℝ) + 1 / 2)) * √(1 - xi i * xi i), xi i, wt⟩

end

end Detran.QuadGen
