import Mathlib.Algebra.Field.Basic
import Mathlib.Data.Rat.Defs

/-!
# Model of `callow::MatrixDense` and `callow::SparseRow`

`Require` is compiled out, so an access outside the storage is undefined (`none`).
-/

namespace Detran.Dense

variable {K : Type} [Field K]

/-- Data of `MatrixDense`, MatrixDense.hh:108-117. -/
structure Dense (K : Type) where
  m : Nat
  n : Nat
  vals : List K
deriving DecidableEq

/-- `MatrixDense(m, n, v)`, MatrixDense.cc:15-33. -/
def Dense.new (m n : Nat) (v : K) : Dense K := ⟨m, n, List.replicate (m * n) v⟩

/-- `MDIDX(i, j)` with `MATRIXDENSE_COLMAJ`, MatrixDense.i.hh:15-16. -/
def Dense.idx (A : Dense K) (i j : Nat) : Nat := i + j * A.m

/-- `operator()(i, j)`, MatrixDense.i.hh:26-40. -/
def Dense.get (A : Dense K) (i j : Nat) : Option K := A.vals[A.idx i j]?

/-- `insert(i, j, v, type)`, MatrixDense.i.hh:120-133. -/
def Dense.insert (A : Dense K) (i j : Nat) (v : K) (add : Bool) : Option (Dense K) :=
  (A.vals[A.idx i j]?).map fun o =>
    { A with vals := A.vals.set (A.idx i j) (if add then o + v else v) }

/-- Sequencing of a loop whose body may be undefined. -/
def loop {S : Type} (f : S → Nat → Option S) (s : S) (l : List Nat) : Option S :=
  l.foldl (fun acc k => acc.bind fun s => f s k) (some s)

/-- `insert_row(i, v, type)`, MatrixDense.i.hh:136-145. -/
def Dense.insertRow (A : Dense K) (i : Nat) (v : Nat → K) (add : Bool) : Option (Dense K) :=
  loop (fun B j => B.insert i j (v j) add) A (List.range A.n)

/-- `insert_col(j, v, type)`, MatrixDense.i.hh:148-157. -/
def Dense.insertCol (A : Dense K) (j : Nat) (v : Nat → K) (add : Bool) : Option (Dense K) :=
  loop (fun B i => B.insert i j (v i) add) A (List.range A.m)

/-- `clear()`, MatrixDense.cc:119-128. -/
def Dense.clear (A : Dense K) : Option (Dense K) :=
  loop (fun B i => loop (fun C j => C.insert i j 0 false) B (List.range A.n)) A (List.range A.m)

/-- `multiply`, MatrixDense.i.hh:64-86 (without PETSc); state is the running pointer `p`
    and the output vector.  `v_out.scale(0)` is the zero vector in exact arithmetic. -/
def Dense.multiply (A : Dense K) (x : Nat → K) : Nat → K :=
  ((List.range A.n).foldl (fun (st : Nat × (Nat → K)) j =>
    (List.range A.m).foldl (fun (st : Nat × (Nat → K)) i =>
      (st.1 + 1, fun k => if k = i then st.2 k + x j * A.vals.getD st.1 0 else st.2 k)) st)
    (0, fun _ => 0)).2

/-- `multiply_transpose`, MatrixDense.i.hh:89-113 (without PETSc). -/
def Dense.multiplyTranspose (A : Dense K) (x : Nat → K) : Nat → K :=
  ((List.range A.n).foldl (fun (st : Nat × (Nat → K)) j =>
    let t := (List.range A.m).foldl (fun (t : Nat × K) i =>
      (t.1 + 1, t.2 + x i * A.vals.getD t.1 0)) (st.1, 0)
    (t.1, fun k => if k = j then t.2 else st.2 k))
    (0, fun _ => 0)).2

/-- Copy constructor, MatrixDense.cc:36-57. -/
def Dense.copy (A : Dense K) : Dense K := ⟨A.m, A.n, A.vals.take (A.m * A.n)⟩

/-- `SparseRow`, SparseRow.hh:133-136. -/
structure SRow (K : Type) where
  n : Nat
  els : List (Int × K)
deriving DecidableEq

/-- The search-and-insert loop of `SparseRow::insert`, SparseRow.cc:84-112. -/
def insLoop [DecidableEq K] (i : Int) (v : K) (add : Bool) : List (Int × K) → List (Int × K) × Bool
  | [] => ([(i, v)], true)
  | e :: l =>
    if i < e.1 then ((i, v) :: e :: l, true)
    else if i = e.1 then
      if add then (if v + e.2 = 0 then (l, false) else ((e.1, v + e.2) :: l, true))
      else ((e.1, v) :: l, true)
    else ((e :: (insLoop i v add l).1), (insLoop i v add l).2)

/-- `SparseRow::insert(i, v, type)`, SparseRow.cc:78-113. -/
def SRow.insert [DecidableEq K] (r : SRow K) (i : Int) (v : K) (add : Bool) : SRow K × Bool :=
  if !add && decide (v = 0) then (r, true)
  else ({ r with els := (insLoop i v add r.els).1 }, (insLoop i v add r.els).2)

/-- `SparseRow::find`, SparseRow.cc:216-226 (`none` is the return value −1). -/
def SRow.find (r : SRow K) (i : Int) : Option Nat := r.els.findIdx? (fun e => e.1 = i)

/-- `SparseRow::operator[]`, SparseRow.cc:176-193: `none` is the read of `d_elements[-1]`. -/
def SRow.at (r : SRow K) (i : Int) : Option K :=
  (r.find i).bind fun p => (r.els[p]?).map (·.2)

/-- First loop of `range`: the iterator `_begin` as the remaining list, SparseRow.cc:240-249. -/
def rangeBegin (a b : Int) : List (Int × K) → List (Int × K)
  | [] => []
  | e :: l => if e.1 > b then [] else if e.1 ≥ a then e :: l else rangeBegin a b l

/-- `SparseRow::range(a, b)`, SparseRow.cc:237-280, as the list of visited elements. -/
def SRow.range (r : SRow K) (a b : Int) : List (Int × K) :=
  match rangeBegin a b r.els with
  | [] => []
  | e :: l => e :: l.takeWhile (fun x => x.1 < b)

/-- `SparseRow::insert(a, b, r, v, t)`, SparseRow.cc:116-132; the return value is always
    `true`. -/
def SRow.insertRange [DecidableEq K] (q : SRow K) (a b : Int) (r : SRow K) (v : K) (add : Bool) :
    SRow K × Bool :=
  ((r.range a b).foldl (fun acc e => (acc.insert e.1 (e.2 * v) add).1) q, true)

/-- `SparseRow(const double*, n)`, SparseRow.cc:51-64 (`abs(a[j]) > 0` as `a[j] ≠ 0`, that is
    with the floating-point overload of `abs`). -/
def SRow.ofArray [DecidableEq K] (n : Nat) (a : Nat → K) : SRow K :=
  ⟨n, (List.range n).filterMap fun j => if a j ≠ 0 then some ((j : Int), a j) else none⟩

/-- `verify`, SparseRow.cc:67-75. -/
def SRow.verify (r : SRow K) : Bool :=
  (List.range (r.els.length - 1)).all fun i =>
    match r.els[i]?, r.els[i + 1]? with
    | some x, some y => !decide (y.1 ≤ x.1)
    | _, _ => true

/-- `delete_value(p)`, SparseRow.cc:230-234 (erasing at or past the end is undefined). -/
def SRow.deleteValue (r : SRow K) (p : Nat) : Option (SRow K) :=
  if p < r.els.length then some { r with els := r.els.eraseIdx p } else none

end Detran.Dense
