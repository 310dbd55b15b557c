import Verif.Model.Dense
import Verif.Model.Solver

/-!
# Model of the construction of `callow::PCILUT`

Columns are integers and positions in a row are natural numbers.  `sv` and `sc` are `std::sort` with the two comparisons.
Reading a column that is not stored is a read of `d_elements[-1]`: the parameter `stray` is what `drop_t` finds there, `none`
for undefined behaviour.  Every other such read is undefined.
-/

namespace Detran.Ilut

open Detran.Dense Detran.Matrix

variable {K : Type} [Field K] [LinearOrder K]

/-- `drop_t`, PCILUT.cc:24-32: the position `idx` is used as a column to read and as a position to delete. -/
def dropT (stray : Option K) (r : SRow K) (idx : Nat) (t : K) : Option (SRow K × Bool) :=
  ((r.at (idx : Int)).or stray).bind fun v =>
    if |v| < t then (r.deleteValue idx).map fun r => (r, false) else some (r, true)

/-- The loop over the small values, PCILUT.cc:39-42; `fuel` is the number of passes, at most the number of values. -/
def dropSmall (stray : Option K) (t : K) : Nat → Nat → SRow K → Option (SRow K)
  | 0, _, r => some r
  | fuel + 1, idx, r =>
    if idx < r.els.length then (dropT stray r idx t).bind fun s => dropSmall stray t fuel (idx + 1) s.1 else some r

/-- `std::sort` on the elements between the iterators of `range(a, b)`, PCILUT.cc:61-64. -/
def sortRange (sv : List (Int × K) → List (Int × K)) (r : SRow K) (a b : Int) : SRow K :=
  let start := r.els.length - (rangeBegin a b r.els).length
  let len := (r.range a b).length
  { r with els := r.els.take start ++ sv ((r.els.drop start).take len) ++ r.els.drop (start + len) }

/-- The number of stored columns before `d`, PCILUT.cc:45-54. -/
def countLower (r : SRow K) (d : Int) : Nat := (r.els.filter fun e => e.1 < d).length

/-- The part of `drop_p` that limits the number of values, PCILUT.cc:44-82. -/
def limit (sv sc : List (Int × K) → List (Int × K)) (r : SRow K) (d p : Nat) : SRow K :=
  let cL := countLower r d
  let cU : Int := (r.els.length : Int) - 1 - cL
  let q := sortRange sv r 0 d
  let q := sortRange sv q (d + 1) r.n
  let (q, cL) := if cL > p then ({ q with els := q.els.drop (cL - p) }, p) else (q, cL)
  let q : SRow K := if cU > p then
    { q with els := q.els.take (cL + 1) ++ q.els.drop (cL + 1 + (cU - p).toNat) } else q
  { q with els := sc q.els }

/-- `drop_p`, PCILUT.cc:34-83. -/
def dropP (stray : Option K) (sv sc : List (Int × K) → List (Int × K)) (r : SRow K) (d p : Nat) (t : K) : Option (SRow K) :=
  (if 0 < t then dropSmall stray t r.els.length 0 r else some r).map fun r => limit sv sc r d p

/-- One pass of the elimination of a row, PCILUT.cc:111-131. -/
def elim (stray : Option K) (n : Nat) (t : K) (rows : List (SRow K)) (row : SRow K) (k : Nat) : Option (SRow K) :=
  match row.find (k : Int) with
  | none => some row
  | some p =>
    (rows[k]?).bind fun ru => (ru.at (k : Int)).bind fun diag => (row.els[p]?).bind fun e =>
      (dropT stray { row with els := row.els.set p (e.1, e.2 / diag) } p t).bind fun s =>
        if s.2 then (s.1.els[p]?).map fun e => (s.1.insertRange ((k : Int) + 1) n ru (-e.2) true).1 else some s.1

/-- The row `i` of the factors from the row of the matrix and the rows before, PCILUT.cc:110-132. -/
def factorRow (stray : Option K) (sv sc : List (Int × K) → List (Int × K)) (n p : Nat) (t : K) (rows : List (SRow K))
    (row : SRow K) : Option (SRow K) :=
  (loop (elim stray n t rows) row (List.range rows.length)).bind fun r => dropP stray sv sc r rows.length p t

/-- The loop over the rows, PCILUT.cc:106-135; `A` holds the rows that `SparseRow(*B, i)` copies (SparseRow.cc:34-48). -/
def factor (stray : Option K) (sv sc : List (Int × K) → List (Int × K)) (n p : Nat) (t : K) (A : Nat → SRow K) :
    Option (List (SRow K)) :=
  loop (fun rows i => (factorRow stray sv sc n p t rows (A i)).map fun r => rows ++ [r]) [] (List.range n)

/-- The insertions that copy the rows into the stored matrix, PCILUT.cc:139-145. -/
def copyOps (rows : List (SRow K)) : List (Matrix.One K) :=
  (List.range rows.length).flatMap fun i => ((rows[i]?.map (·.els)).getD []).map fun e => ⟨i, e.1.toNat, e.2, false⟩

/-- `PCILUT::PCILUT`, PCILUT.cc:86-149; `none` for undefined behaviour. -/
def ilut (stray : Option K) (sv sc : List (Int × K) → List (Int × K)) (srt : List (Trip K) → List (Trip K)) (n p : Nat) (t : K)
    (A : Nat → SRow K) : Option (CSR K) :=
  (factor stray sv sc n p t A).bind fun rows =>
    match runOnes (preallocate n n fun _ => 2 * p + 1) (copyOps rows) with
    | .ok B => B.1.assemble srt
    | _ => none

/-- The levels and the threshold that the linear solver takes from its options, LinearSolver.cc:64-70. -/
def options (levels : Option Nat) (thresh : Option K) : Nat × K := (levels.getD 0, thresh.getD 100000000)

end Detran.Ilut
