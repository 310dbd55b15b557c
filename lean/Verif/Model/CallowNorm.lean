import Mathlib.Algebra.Order.Field.Basic
import Mathlib.Algebra.Order.Group.Abs

/-!
# Model of the products and norms of `callow::Vector`

`src/callow/vector/Vector.i.hh`, compiled without PETSc.  A vector is its size `n` and its elements `x 0`, ...,
`x (n - 1)`; `sq` is `std::sqrt`.  The vector passed in has at least the size of the vector it is passed to.  Division by
zero gives zero here and infinities or NaN in the code: the theorems exclude it.
-/

namespace Detran.CallowNorm

variable {K : Type} [Field K] [LinearOrder K]

/-- CallowDefinitions.hh:40-43. -/
inductive Kind where
  | l1 | l2 | linf | l1grid | l2grid | l1rel | l2rel | linfrel
  deriving DecidableEq

/-- `val += f(i)` over all elements. -/
def accum (n : Nat) (f : Nat → K) : K := (List.range n).foldl (fun val i => val + f i) 0

/-- `val = std::max(val, f(i))` over all elements. -/
def largest (n : Nat) (f : Nat → K) : K := (List.range n).foldl (fun val i => max val (f i)) 0

/-- `dot`, Vector.i.hh:189-200. -/
def dot (n : Nat) (x y : Nat → K) : K := accum n fun i => x i * y i

/-- The loops of `norm`, Vector.i.hh:74-102; the kinds of the last three are not looked for. -/
def raw (sq : K → K) (t : Kind) (n : Nat) (x : Nat → K) : K :=
  match t with
  | .l1 => accum n fun i => |x i|
  | .l1grid => accum n fun i => |x i|
  | .l2 => sq (accum n fun i => x i * x i)
  | .l2grid => sq (accum n fun i => x i * x i)
  | .linf => largest n fun i => |x i|
  | .l1rel => 0
  | .l2rel => 0
  | .linfrel => 0

/-- `norm`, Vector.i.hh:72-106. -/
def norm (sq : K → K) (t : Kind) (n : Nat) (x : Nat → K) : K :=
  if t = .l1grid then raw sq t n x / (n : K)
  else if t = .l2grid then raw sq t n x / sq (n : K)
  else raw sq t n x

/-- `norm_residual`, Vector.i.hh:109-158, of `x` with the argument `y`; `none` is the exception. -/
def normResidual (sq : K → K) (t : Kind) (n : Nat) (x y : Nat → K) : Option K :=
  match t with
  | .l1 => some (accum n fun i => |x i - y i|)
  | .l2 => some (sq (accum n fun i => (x i - y i) * (x i - y i)))
  | .linf => some (largest n fun i => |x i - y i|)
  | .l1rel => some (accum n fun i => |(x i - y i) / x i|)
  | .l2rel => some (sq (accum n fun i => (x i - y i) / x i * ((x i - y i) / x i)))
  | .linfrel => some (largest n fun i => |x i - y i|)
  | _ => none

end Detran.CallowNorm
