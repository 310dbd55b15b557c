import Verif.Model.Matrix
import Verif.Model.Dense

/-!
# Model of `print_matlab` of callow's matrices, operators and vectors

Files are lists of characters.  How a double is written by `%.16e` is a parameter `pv`; the field width is modelled.  `fopen` is
taken to succeed.
-/

namespace Detran.Matlab

variable {K : Type} [Field K]

/-- Decimal digits, at most `k + 1` of them. -/
def decAux : Nat → Nat → List Char
  | 0, n => [Nat.digitChar n]
  | k + 1, n => if n < 10 then [Nat.digitChar n] else decAux k (n / 10) ++ [Nat.digitChar (n % 10)]

/-- Decimal digits. -/
def dec (n : Nat) : List Char := decAux n n

/-- What `%i` writes. -/
def decInt : Int → List Char
  | .ofNat n => dec n
  | .negSucc n => '-' :: dec (n + 1)

/-- A field width: `%8i`, `%23.16e`. -/
def wide (w : Nat) (t : List Char) : List Char := List.replicate (w - t.length) ' ' ++ t

/-- `fprintf(f, "%8i   %8i    %23.16e \n", i+1, j+1, v)`, Matrix.cc:273 and MatrixDense.cc:111. -/
def entry (pv : K → List Char) (i j : Int) (v : K) : List Char :=
  wide 8 (decInt (i + 1)) ++ List.replicate 3 ' ' ++ wide 8 (decInt (j + 1)) ++ List.replicate 4 ' ' ++ wide 23 (pv v) ++ [' ', '\n']

/-- `Matrix::print_matlab`, Matrix.cc:262-278. -/
def printCSR (pv : K → List Char) (A : Matrix.CSR K) : List Char :=
  ((List.range A.m).flatMap fun (i : Nat) => (A.ptrs i).flatMap fun p => entry pv i (A.column p) (A.value p)) ++ ['\n']

/-- `MatrixDense::print_matlab`, MatrixDense.cc:101-116; `none` if it reads outside the storage. -/
def printDense (pv : K → List Char) (A : Dense.Dense K) : Option (List Char) :=
  ((List.range A.m).mapM fun (i : Nat) => ((List.range A.n).mapM fun (j : Nat) => (A.get i j).map (entry pv i j)).map List.flatten).map
    fun l => l.flatten ++ ['\n']

/-- The dense matrix that `MatrixShell::print_matlab` fills, MatrixShell.cc:61-68: `multiply` of the `j`-th unit vector writes to the
    `d_m` values from `j * d_m` on.  `MatrixDense A(d_m, d_n)` starts from zeros (MatrixDense.hh:55).  Simplified: `multiply` is a
    function of its input vector. -/
def explicit (mult : (Nat → K) → Nat → K) (m n : Nat) : Option (Dense.Dense K) :=
  Dense.loop (fun A j => Dense.loop (fun (B : Dense.Dense K) r =>
    if r + j * m < B.vals.length then some { B with vals := B.vals.set (r + j * m) (mult (fun k => if k = j then 1 else 0) r) } else none)
    A (List.range m)) (Dense.Dense.new m n 0) (List.range n)

/-- `MatrixShell::print_matlab`, MatrixShell.cc:58-73. -/
def printShell (pv : K → List Char) (mult : (Nat → K) → Nat → K) (m n : Nat) : Option (List Char) :=
  (explicit mult m n).bind (printDense pv)

/-- `Vector::print_matlab`, Vector.cc:218-228. -/
def printVector (pv : K → List Char) (v : List K) : List Char :=
  (v.flatMap fun x => wide 23 (pv x) ++ [' ', '\n']) ++ ['\n']

end Detran.Matlab
