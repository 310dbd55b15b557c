import Mathlib.Algebra.Field.Basic
import Mathlib.Data.Rat.Defs

/-!
# Model of `callow::Matrix` (compressed sparse row matrix)

Vectors are functions `Nat → K`, of which only the entries below the size are meaningful.
The parallel arrays `d_aij[i]` and `d_counter[i]` are kept as one record per row.
`Require`/`Ensure`/`Assert` are compiled out; `Insist` throws.
-/

namespace Detran.Matrix

variable {K : Type} [Field K]

/-- Outcome of a call: normal, a failed `Insist`, or undefined behaviour. -/
inductive Out (α : Type) where
  | ok (a : α)
  | insist
  | ub
deriving DecidableEq

/-- Sequencing of outcomes. -/
def Out.bind {α β : Type} (x : Out α) (f : α → Out β) : Out β :=
  match x with
  | .ok a => f a
  | .insist => .insist
  | .ub => .ub

/-- `callow::triplet`, Triplet.hh:19-28. -/
structure Trip (K : Type) where
  i : Int
  j : Int
  v : K
deriving DecidableEq

/-- Default-constructed triplet, Triplet.hh:25. -/
def pad : Trip K := ⟨-1, -1, 0⟩

/-- `compare_triplet`, Triplet.hh:31-38. -/
def cmp (x y : Trip K) : Bool :=
  if x.j = -1 then false else if y.j = -1 then true else decide (x.j < y.j)

/-- What `std::sort` with `compare_triplet` guarantees: a sorted permutation (the order of
    equivalent elements is unspecified). -/
def IsSort (srt : List (Trip K) → List (Trip K)) : Prop :=
  ∀ l, (srt l).Perm l ∧ (srt l).Pairwise (fun a b => cmp b a = false)

/-- `d_aij[i]` together with `d_counter[i]`, Matrix.hh:189-191. -/
structure RowBuf (K : Type) where
  slots : List (Trip K)
  cnt : Nat
deriving DecidableEq

/-- Compressed row storage, Matrix.hh:177-185; an entry of `diags` that assembly never
    wrote is `none`. -/
structure CSR (K : Type) where
  m : Nat
  n : Nat
  rows : List Nat
  cols : List Int
  vals : List K
  diags : List (Option Nat)
deriving DecidableEq

/-- A matrix that is allocated but not assembled. -/
structure Coo (K : Type) where
  m : Nat
  n : Nat
  aij : List (RowBuf K)
deriving DecidableEq

/-- `preallocate(int* nnzrows)` on a fresh matrix, Matrix.cc:104-117. -/
def preallocate (m n : Nat) (nnz : Nat → Nat) : Coo K :=
  ⟨m, n, (List.range m).map fun i => ⟨List.replicate (nnz i) pad, 0⟩⟩

/-- `preallocate(const int nnzrow)`, Matrix.cc:92-101. -/
def preallocateConst (m n nnzrow : Nat) : Coo K :=
  ⟨m, n, List.replicate m ⟨List.replicate nnzrow pad, 0⟩⟩

/-- The search loop of ADD, Matrix.i.hh:165-172 and 196-204: adds to the first slot whose
    column is `j`. -/
def addTo (j : Int) (v : K) : List (Trip K) → Option (List (Trip K))
  | [] => none
  | t :: l => if t.j = j then some ({ t with v := t.v + v } :: l)
              else (addTo j v l).map (t :: ·)

/-- `d_aij[i][d_counter[i]] = (i,j,v); ++d_counter[i]`, Matrix.i.hh:177-180;
    a write past the end of the row is undefined. -/
def RowBuf.put (r : RowBuf K) (i : Nat) (j : Int) (v : K) : Option (RowBuf K) :=
  if r.cnt < r.slots.length then some ⟨r.slots.set r.cnt ⟨i, j, v⟩, r.cnt + 1⟩ else none

/-- `insert(i, j, v, type)` on one row, Matrix.i.hh:156-182. -/
def RowBuf.insert (r : RowBuf K) (i : Nat) (j : Int) (v : K) (add : Bool) : RowBuf K × Bool :=
  match (if add then addTo j v r.slots else none) with
  | some s => ({ r with slots := s }, true)
  | none =>
    match r.put i j v with
    | some r' => (r', true)
    | none => (r, false)

/-- `insert(int i, int j, double v, type)`, Matrix.i.hh:156-182. -/
def Coo.insert (A : Coo K) (i : Nat) (j : Int) (v : K) (add : Bool) : Out (Coo K × Bool) :=
  match A.aij[i]? with
  | none => .ub
  | some r => .ok ({ A with aij := A.aij.set i (r.insert i j v add).1 }, (r.insert i j v add).2)

/-- The ADD loop over a row segment, Matrix.i.hh:193-208. -/
def RowBuf.addLoop (r : RowBuf K) (i : Nat) : List (Int × K) → RowBuf K × Bool
  | [] => (r, true)
  | (j, v) :: l =>
    match r.insert i j v true with
    | (r', true) => r'.addLoop i l
    | (r', false) => (r', false)

/-- The INSERT loop over a row segment, Matrix.i.hh:215-222. -/
def RowBuf.putLoop (r : RowBuf K) (i : Nat) : List (Int × K) → Option (RowBuf K)
  | [] => some r
  | (j, v) :: l => (r.put i j v).bind fun r' => r'.putLoop i l

/-- `insert(int i, int *j, double *v, int n, type)`, Matrix.i.hh:185-224. -/
def Coo.insertRow (A : Coo K) (i : Nat) (jv : List (Int × K)) (add : Bool) :
    Out (Coo K × Bool) :=
  match A.aij[i]? with
  | none => .ub
  | some r =>
    if add then
      .ok ({ A with aij := A.aij.set i (r.addLoop i jv).1 }, (r.addLoop i jv).2)
    else if r.cnt + jv.length > r.slots.length then .ok (A, false)
    else match r.putLoop i jv with
      | some r' => .ok ({ A with aij := A.aij.set i r' }, true)
      | none => .ub

/-- The storage check of the column and triplet forms, Matrix.i.hh:234-239, 259-265. -/
def Coo.room (A : Coo K) : List (Nat × Int × K) → Out Bool
  | [] => .ok true
  | (i, _, _) :: l =>
    match A.aij[i]? with
    | none => .ub
    | some r => if r.cnt + 1 > r.slots.length then .ok false else A.room l

/-- The write loop of the column and triplet forms, Matrix.i.hh:241-247, 267-273. -/
def Coo.putAll (A : Coo K) : List (Nat × Int × K) → Out (Coo K)
  | [] => .ok A
  | (i, j, v) :: l =>
    match A.aij[i]? with
    | none => .ub
    | some r =>
      match r.put i j v with
      | none => .ub
      | some r' => Coo.putAll { A with aij := A.aij.set i r' } l

/-- `insert(int *i, int *j, double *v, int n, type)`, Matrix.i.hh:252-275. -/
def Coo.insertTrip (A : Coo K) (l : List (Nat × Int × K)) (add : Bool) : Out (Coo K × Bool) :=
  if add then .insist
  else (A.room l).bind fun b =>
    if b then (A.putAll l).bind fun A' => .ok (A', true) else .ok (A, false)

/-- `insert(int *i, int j, double *v, int n, type)`, Matrix.i.hh:227-249. -/
def Coo.insertCol (A : Coo K) (iv : List (Nat × K)) (j : Int) (add : Bool) : Out (Coo K × Bool) :=
  if add then .insist
  else
    let l := iv.map fun e => (e.1, j, e.2)
    (A.room l).bind fun b =>
      if b then (A.putAll l).bind fun A' => .ok (A', true) else .ok (A, false)

/-- `while ((end()-1)->j == -1) pop_back()`, Matrix.cc:155-156; `none` when the row
    runs empty (reads before the beginning of the array). -/
def trim (l : List (Trip K)) : Option (List (Trip K)) :=
  match l.reverse.dropWhile (fun t => t.j = -1) with
  | [] => none
  | t :: r => some (t :: r).reverse

/-- The diagonal search, Matrix.cc:164-179: final value of `d` before `--d`, where `d`
    counts the elements already passed. -/
def diagSearch : List (Trip K) → Nat → Nat
  | [], d => d
  | t :: l, d => if t.j = t.i then 0 else if t.j > t.i then d + 1 else diagSearch l (d + 1)

/-- Sorting, trimming and diagonal insertion for one row, Matrix.cc:145-193. -/
def assembleRow (srt : List (Trip K) → List (Trip K)) (n i : Nat) (row : List (Trip K)) :
    Option (List (Trip K)) :=
  (trim (srt row)).map fun r =>
    if i < n then
      match diagSearch r 0 with
      | 0 => r
      | d + 1 => srt (r.insertIdx d ⟨i, i, 0⟩)
    else r

/-- State of the filling loop, Matrix.cc:201-219. -/
structure Fill (K : Type) where
  p : Nat
  rows : List Nat
  cols : List Int
  vals : List K
  diags : List (Option Nat)

/-- Inner loop, Matrix.cc:209-215 (`d` is the slot `d_diagonals[i]`). -/
def fillRow (i : Nat) : List (Trip K) → Nat → List Int → List K → Option Nat →
    Nat × List Int × List K × Option Nat
  | [], p, cols, vals, d => (p, cols, vals, d)
  | t :: l, p, cols, vals, d =>
    fillRow i l (p + 1) (cols ++ [t.j]) (vals ++ [t.v]) (if t.j = i then some p else d)

/-- Outer loop body, Matrix.cc:206-219. -/
def fillStep (st : Fill K) (e : List (Trip K) × Nat) : Fill K :=
  let r := fillRow e.2 e.1 st.p st.cols st.vals none
  ⟨r.1, st.rows ++ [r.1], r.2.1, r.2.2.1, st.diags ++ [r.2.2.2]⟩

/-- The filling loops, Matrix.cc:195-219. -/
def fill (m n : Nat) (aij : List (List (Trip K))) : CSR K :=
  let st := aij.zipIdx.foldl fillStep ⟨0, [0], [], [], []⟩
  ⟨m, n, st.rows, st.cols, st.vals, st.diags⟩

/-- Assembly of every row, `none` if one of them is undefined. -/
def assembleRows (srt : List (Trip K) → List (Trip K)) (n : Nat) :
    Nat → List (RowBuf K) → Option (List (List (Trip K)))
  | _, [] => some []
  | i, r :: l =>
    (assembleRow srt n i r.slots).bind fun r' =>
      (assembleRows srt n (i + 1) l).map (r' :: ·)

/-- `Matrix::assemble`, Matrix.cc:126-230 (the two `Insist`s hold by construction of
    `Coo`). -/
def Coo.assemble (srt : List (Trip K) → List (Trip K)) (A : Coo K) : Option (CSR K) :=
  (assembleRows srt A.n 0 A.aij).map (fill A.m A.n)

/-- `start(i)`, Matrix.i.hh:29-34. -/
def CSR.start (A : CSR K) (i : Nat) : Nat := A.rows.getD i 0
/-- `end(i)`, Matrix.i.hh:45-50. -/
def CSR.stop (A : CSR K) (i : Nat) : Nat := A.rows.getD (i + 1) 0
/-- `diagonal(i)`, Matrix.i.hh:37-42. -/
def CSR.diagonal (A : CSR K) (i : Nat) : Option Nat := A.diags.getD i none
/-- `column(p)`, Matrix.i.hh:53-58. -/
def CSR.column (A : CSR K) (p : Nat) : Int := A.cols.getD p 0
/-- `operator[](p)`, Matrix.i.hh:61-66. -/
def CSR.value (A : CSR K) (p : Nat) : K := A.vals.getD p 0

/-- `for (p = d_rows[i]; p < d_rows[i+1]; ++p)`. -/
def CSR.ptrs (A : CSR K) (i : Nat) : List Nat := List.range' (A.start i) (A.stop i - A.start i)

/-- `Matrix::multiply`, Matrix.i.hh:96-123 (without PETSc). -/
def CSR.multiply (A : CSR K) (x : Nat → K) (i : Nat) : K :=
  (A.ptrs i).foldl (fun temp p => temp + x (A.column p).toNat * A.value p) 0

/-- `Matrix::multiply_transpose`, Matrix.i.hh:126-149 (without PETSc). -/
def CSR.multiplyTranspose (A : CSR K) (x : Nat → K) : Nat → K :=
  (List.range A.m).foldl (fun y i =>
    (A.ptrs i).foldl (fun y p =>
      fun k => if k = (A.column p).toNat then y k + x i * A.value p else y k) y) (fun _ => 0)

/-- `for (k = lo; k < hi; k++) if (d_columns[k] == j) return d_values[k]; … return 0`. -/
def CSR.search (A : CSR K) (j : Nat) (lo hi : Nat) : K :=
  match (List.range' lo (hi - lo)).find? (fun k => A.column k = j) with
  | some k => A.value k
  | none => 0

/-- `Matrix::operator()(i, j)`, Matrix.i.hh:69-89; `none` when the diagonal pointer was
    never written. -/
def CSR.get (A : CSR K) (i j : Nat) : Option K :=
  (A.diagonal i).map fun d =>
    if i = j then A.value d
    else if i < j then A.search j (A.start i) d
    else A.search j (d + 1) (A.stop i)

/-- Copy constructor, Matrix.cc:51-77. -/
def CSR.copy (A : CSR K) : CSR K := ⟨A.m, A.n, A.rows, A.cols, A.vals, A.diags⟩

/-- `Matrix::clear` on an assembled matrix, Matrix.cc:281-310. -/
def CSR.clear (A : CSR K) : Coo K :=
  preallocate A.m A.n (fun i => A.stop i - A.start i)

/-- One call `insert(row, col, val, add ? ADD : INSERT)`. -/
structure One (K : Type) where
  row : Nat
  col : Nat
  val : K
  add : Bool
deriving DecidableEq

/-- A sequence of calls with their return values. -/
def runOnes : Coo K → List (One K) → Out (Coo K × List Bool)
  | A, [] => .ok (A, [])
  | A, o :: l => (A.insert o.row o.col o.val o.add).bind fun r =>
      (runOnes r.1 l).bind fun q => .ok (q.1, r.2 :: q.2)

end Detran.Matrix
