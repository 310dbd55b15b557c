import Mathlib.Algebra.Field.Basic
import Mathlib.Data.Rat.Cast.Defs
import Mathlib.Analysis.SpecialFunctions.Trigonometric.Basic

/-!
# Model of `orthog/`

A basis matrix is a function of row (position) and column (order); `MatrixDense` stores columns
contiguously, so the `Vector`s wrapped round `&(*d_basis)(0, i)` are its columns (see C31 for the matrix
itself).  Doubles are elements of a field; the square root is a parameter `sq`.
-/

namespace Detran.Orthog

variable {K : Type} [Field K]

/-- Sum accumulated by a loop from zero. -/
def acc (n : Nat) (f : Nat → K) : K := (List.range n).foldl (fun s i => s + f i) 0

/-- An `OrthogonalBasis`: `size` rows, `order + 1` columns; null pointers are `none`. -/
structure Basis (K : Type) where
  size : Nat
  order : Nat
  P : Nat → Nat → K
  w : Option (Nat → K)
  a : Option (Nat → K)

/-- Pointwise product with an optional vector. -/
def times (w : Option (Nat → K)) (f : Nat → K) (j : Nat) : K :=
  match w with
  | none => f j
  | some w => f j * w j

/-- `val` of `OrthogonalBasis::compute_a`, OrthogonalBasis.cc:80-86. -/
def Basis.val (B : Basis K) (i : Nat) : K :=
  1 / acc B.size fun j => times B.w (fun j => B.P j i) j * B.P j i

/-- `OrthogonalBasis::compute_a`, OrthogonalBasis.cc:70-100.  Columns are normalised one by one; `val` of a
    column does not involve other columns. -/
def Basis.computeA (sq : K → K) (orthonormal : Bool) (B : Basis K) : Basis K :=
  if orthonormal then
    { B with P := fun j i => if i ≤ B.order then B.P j i * sq (B.val i) else B.P j i
             a := some fun _ => 1 }
  else { B with a := some B.val }

/-- `OrthogonalBasis::transform`, OrthogonalBasis.i.hh:68-74: entry `l` of the result
    (`multiply_transpose`). -/
def Basis.transform (B : Basis K) (f : Nat → K) (l : Nat) : K :=
  acc B.size fun j => times B.w f j * B.P j l

/-- `OrthogonalBasis::fold`, OrthogonalBasis.i.hh:16-27. -/
def Basis.fold (B : Basis K) (l : Nat) (f : Nat → K) : K :=
  acc B.size fun j => B.P j l * times B.w f j

/-- `OrthogonalBasis::inverse`, OrthogonalBasis.i.hh:89-98: `d_a` is read even when it is null. -/
def Basis.inverse (B : Basis K) (c : Nat → K) : Option (Nat → K) :=
  match B.a with
  | none => none
  | some a => some fun j => acc (B.order + 1) fun l => c l * a l * B.P j l

/-- `OrthogonalBasis::inverse` on shared pointers, OrthogonalBasis.i.hh:100-103: calls the other with the
    arguments exchanged.  Returns what the two vectors hold afterwards: `(ftilde, f)`. -/
def Basis.inversePtr (B : Basis K) (ftilde f : Nat → K) : Option ((Nat → K) × (Nat → K)) :=
  (B.inverse f).map fun r => (r, f)

/-- `OrthogonalBasis::unfold`, OrthogonalBasis.i.hh:41-54: the assignment sets the whole vector, so after
    the loop every entry is the last value read; rows are as many as `size`.  `none`: a read past the end
    of the matrix. -/
def Basis.unfold (B : Basis K) (row : Nat) (c : Nat → K) : Option K :=
  if B.order + 1 < B.size then none
  else some (acc B.size fun i => B.P row (B.size - 1) * times B.a c i)

/-- `operator()`, OrthogonalBasis.i.hh:113-119. -/
def Basis.at (B : Basis K) (i j : Nat) : K :=
  match B.a with
  | none => B.P i j
  | some a => B.P i j * a j

/-! ## Discrete bases -/

/-- `DLP::DLP`, DLP.cc:19-39: column `i`, row `x`, for vectors of `N` entries.  (The three integer
    coefficients are taken as exact; they are 32-bit.) -/
def dlp (N x : K) : Nat → K
  | 0 => 1
  | 1 => (N - 1 - 2 * x) / (N - 1)
  | i + 2 =>
    ((2 * ((i : K) + 2) - 1) * (N - 1 - 2 * x) * dlp N x (i + 1) -
      (((i : K) + 2) - 1) * (N - 1 + ((i : K) + 2)) * dlp N x i) / (((i : K) + 2) * (N - ((i : K) + 2)))

/-- The Legendre basis. -/
def dlpBasis (sq : K → K) (size order : Nat) (orthonormal : Bool) (w : Option (Nat → K)) : Basis K :=
  Basis.computeA sq orthonormal ⟨size, order, fun j i => dlp (size : K) (j : K) i, w, none⟩

/-- First entry of column `i`, DCP.cc:32-34. -/
def dcpFirst (sq : K → K) (N : K) : Nat → K
  | 0 => 1
  | i + 1 => -sq ((N - (i + 1)) / (N + (i + 1))) * sq ((2 * ((i : K) + 1) + 1) / (2 * ((i : K) + 1) - 1)) *
      dcpFirst sq N i

/-- Rows of the first half of column `i`, DCP.cc:34-46, from the first entry `c`. -/
def dcpLow (N c : K) (i : Nat) : Nat → K
  | 0 => c
  | 1 => (1 + (i : K) * ((i : K) + 1) / (1 - N)) * c
  | k + 2 =>
    let j : K := (k : K) + 2
    (-((i : K) * ((i : K) + 1)) - (2 * j - 1) * (j - N - 1) - j) / (j * (N - j)) * dcpLow N c i (k + 1) +
      (j - 1) * (j - N - 1) / (j * (N - j)) * dcpLow N c i k

/-- `mid`, DCP.cc:29. -/
def mid (size : Nat) : Nat := if size % 2 ≠ 0 then (size + 1) / 2 else size / 2

/-- A row read by the mirroring loop, DCP.cc:48-49: computed by the loops before, or still the initial
    one of the matrix (:22). -/
def dcpRead (sq : K → K) (size i r : Nat) : K :=
  if r < 2 ∨ r < mid size then dcpLow (size : K) (dcpFirst sq (size : K) i) i r else 1

/-- Entries of the matrix, DCP.cc:24-50: the second half by symmetry. -/
def dcp (sq : K → K) (size j i : Nat) : K :=
  if i = 0 then 1
  else if j < mid size then dcpLow (size : K) (dcpFirst sq (size : K) i) i j
  else (if i % 2 = 1 then -1 else 1) * dcpRead sq size i (size - j - 1)

/-- The Chebyshev basis. -/
def dcpBasis (sq : K → K) (size order : Nat) (orthonormal : Bool) (w : Option (Nat → K)) : Basis K :=
  Basis.computeA sq orthonormal ⟨size, order, dcp sq size, w, none⟩

/-- `DCT::DCT`, DCT.cc:23-29. -/
noncomputable def dct (size j i : Nat) : ℝ := Real.cos (Real.pi / size * (j + 1 / 2) * i)

/-- The cosine basis. -/
noncomputable def dctBasis (size order : Nat) (orthonormal : Bool) (w : Option (Nat → ℝ)) : Basis ℝ :=
  Basis.computeA Real.sqrt orthonormal ⟨size, order, dct size, w, none⟩

/-- `DDF::DDF`, DDF.cc:16-26: `none` is the exception; normalisation is never set up. -/
def ddfBasis (size order : Nat) (w : Option (Nat → K)) : Option (Basis K) :=
  if order + 1 = size then
    some ⟨size, order, fun j i => if j = i ∧ i < order + 1 then 1 else 0, w, none⟩
  else none

/-- `UserBasis::UserBasis`, UserBasis.cc:16-35: the vectors `vec0`, `vec1`, ... of the input. -/
def userBasis (sq : K → K) (size order : Nat) (vec : Nat → Nat → K) (w : Option (Nat → K)) : Basis K :=
  Basis.computeA sq true ⟨size, order, fun j i => vec i j, w, none⟩

/-! ## The transformed basis -/

/-- Dot product of `n` entries. -/
def dot (n : Nat) (u v : Nat → K) : K := acc n fun j => u j * v j

/-- Division by the norm, TransformedBasis.cc:47, 66. -/
def normalise (sq : K → K) (n : Nat) (u : Nat → K) (j : Nat) : K := u j * (1 / sq (dot n u u))

/-- One orthogonalisation, TransformedBasis.cc:62-64. -/
def against (n : Nat) (b u : Nat → K) (j : Nat) : K := u j + -(dot n b u) * b j

/-- Column `l`, TransformedBasis.cc:50-67, from the columns `done` before it, in order. -/
def nextCol (sq : K → K) (n option : Nat) (done : List (Nat → K)) (u : Nat → K) : Nat → K :=
  let u' := if option = 1 then fun j => u j * (done.headD fun _ => 0) j else u
  normalise sq n (done.foldl (fun v b => against n b v) u')

/-- All columns, TransformedBasis.cc:41-67: `x` multiplies the zeroth column of the original `P`. -/
def transformedCols (sq : K → K) (n option : Nat) (x : Nat → K) (P : Nat → Nat → K) : Nat → List (Nat → K)
  | 0 => [normalise sq n fun j => P j 0 * x j]
  | l + 1 =>
    let done := transformedCols sq n option x P l
    done ++ [nextCol sq n option done fun j => P j (l + 1)]

/-- `TransformedBasis::TransformedBasis`, TransformedBasis.cc:20-70, from the matrix `P` of the original
    basis. -/
def transformedBasis (sq : K → K) (size order option : Nat) (x : Nat → K) (P : Nat → Nat → K)
    (w : Option (Nat → K)) : Basis K :=
  Basis.computeA sq true
    ⟨size, order, fun j i => ((transformedCols sq size option x P order).getD i fun _ => 0) j, w, none⟩

/-! ## Continuous bases -/

/-- The abscissa mapped to the unit interval, CLP.cc:44, ChebyshevU.cc:31, Jacobi01.cc:47. -/
def mapped (lo hi x : K) : K := 2 * (x - lo) / (hi - lo) - 1

/-- `LP`, CLP.cc:16-24. -/
def LP (x : K) : Nat → K
  | 0 => 1
  | 1 => x
  | l + 2 => ((2 * (((l : K) + 2) - 1) + 1) * x * LP x (l + 1) - (((l : K) + 2) - 1) * LP x l) / ((l : K) + 2)

/-- `CLP::CLP`, CLP.cc:31-59. -/
def clpBasis (size order : Nat) (lo hi : K) (x qw : Nat → K) : Basis K :=
  ⟨size, order, fun i l => LP (mapped lo hi (x i)) l, some qw, some fun l => (2 * (l : K) + 1) / 2⟩

/-- `ChebyshevU::cheby_u`, ChebyshevU.cc:46-74. -/
def chebyU (x : K) : Nat → K
  | 0 => 1
  | 1 => 2 * x
  | 2 => -1 + 4 * x * x
  | 3 => 8 * x ^ 3 - 4 * x
  | 4 => 1 + 16 * x ^ 4 - 12 * x * x
  | 5 => 32 * x ^ 5 - 32 * x ^ 3 + 6 * x
  | 6 => -1 + 64 * x ^ 6 - 80 * x ^ 4 + 24 * x * x
  | 7 => 128 * x ^ 7 - 192 * x ^ 5 + 80 * x ^ 3 - 8 * x
  | 8 => 1 + 256 * x ^ 8 - 448 * x ^ 6 + 240 * x ^ 4 - 40 * x * x
  | l + 9 => 2 * chebyU x (l + 8) - chebyU x (l + 7)

/-- `ChebyshevU::ChebyshevU`, ChebyshevU.cc:15-43. -/
def chebyBasis (sq : K → K) (size order : Nat) (even orthonormal : Bool) (lo hi : K) (x qw : Nat → K) :
    Basis K :=
  Basis.computeA sq orthonormal
    ⟨size, order, fun i l => chebyU (mapped lo hi (x i)) ((if even then 2 else 1) * l),
      some fun i => qw i * sq (1 - mapped lo hi (x i) * mapped lo hi (x i)), none⟩

/-- `jacobi_coefs`, Jacobi01.cc:15-26. -/
def jacobiRows : List (List ℚ) :=
  [[1, 0, 0, 0, 0, 0, 0, 0],
   [-1/2, 3/2, 0, 0, 0, 0, 0, 0],
   [-1/2, -1, 5/2, 0, 0, 0, 0, 0],
   [375/1000, -1875/1000, -1875/1000, 4375/1000, 0, 0, 0, 0],
   [375/1000, 15/10, -525/100, -35/10, 7875/1000, 0, 0, 0],
   [-3125/10000, 21875/10000, 4375/1000, -131250/10000, -65625/10000, 144375/10000, 0, 0],
   [-3125/10000, -1875/1000, 84375/10000, 1125/100, -309375/10000, -123750/10000, 268125/10000, 0],
   [2734375/10000000, -24609375/10000000, -73828125/10000000, 2707031250/100000000, 270703125/10000000,
    -703828125/10000000, -234609375/10000000, 5027343750/100000000]]

/-- `jacobi_coefs[l][j]`. -/
def jacobiCoef (l j : Nat) : ℚ := (jacobiRows.getD l []).getD j 0

/-- `Jacobi01::Jacobi01`, Jacobi01.cc:29-64: `none` is the exception for orders above seven. -/
def jacobiBasis (sq : K → K) (size order : Nat) (orthonormal : Bool) (lo hi : K) (x qw : Nat → K) :
    Option (Basis K) :=
  if order < 8 then
    some (Basis.computeA sq orthonormal
      ⟨size, order, fun i l => acc (l + 1) fun j =>
          (jacobiCoef l j : K) * mapped lo hi (x i) ^ j * sq ((l : K) + 1),
        some fun i => qw i * (1 / 2) * (mapped lo hi (x i) + 1), none⟩)
  else none

end Detran.Orthog
