import Mathlib.Algebra.Field.Defs

/-!
# Model of `callow::Vector`: storage and elementwise operations

`src/callow/vector/Vector.hh`, `Vector.cc` and `Vector.i.hh`, compiled without PETSc.

Memory is a heap of blocks; a pointer is a block and an offset.  An address is never handed out twice, so that any use
of a block after its release is seen as undefined.  Values may be indeterminate (`none`), as those of
`new double[n]`.  Sizes are natural numbers (a negative size makes `new` throw).  A program is a list of
instructions on named vectors and on arrays of the caller (a `std::vector` or a plain array);
a name stands for one object at a time.  Norms and products are in `Model/CallowNorm.lean`; printing is not modelled.
-/

namespace Detran.CallowVector

variable {K : Type} [Field K]

/-- Result of an operation. -/
inductive Out (α : Type) where
  | ok (a : α)
  /-- an exception -/
  | err
  /-- undefined behaviour -/
  | ub

def Out.bind {α β : Type} (x : Out α) (f : α → Out β) : Out β :=
  match x with
  | .ok a => f a
  | .err => .err
  | .ub => .ub

/-- Lengths of the live blocks, their values and the next unused block. -/
structure Heap (K : Type) where
  len : Nat → Option Nat
  cell : Nat → Nat → Option K
  next : Nat

/-- Does `(b, i)` exist? -/
def Heap.valid (h : Heap K) (b i : Nat) : Bool :=
  match h.len b with
  | some n => decide (i < n)
  | none => false

/-- `new double[n]`. -/
def Heap.alloc (h : Heap K) (n : Nat) : Heap K :=
  { len := fun b => if b = h.next then some n else h.len b,
    cell := fun b i => if b = h.next then none else h.cell b i,
    next := h.next + 1 }

/-- `delete []`. -/
def Heap.free (h : Heap K) : Option (Nat × Nat) → Out (Heap K)
  | some (b, 0) => if (h.len b).isSome then .ok { h with len := fun c => if c = b then none else h.len c } else .ub
  | _ => .ub

def Heap.write (h : Heap K) (b i : Nat) (v : K) : Heap K :=
  { h with cell := fun c j => if c = b ∧ j = i then some v else h.cell c j }

/-- A vector: `d_size`, `d_value` (`none` for a null pointer or one never set) and `d_temporary`,
    Vector.hh:141-150. -/
structure Vec where
  size : Nat
  ptr : Option (Nat × Nat)
  temp : Bool

/-- The loops over one vector, Vector.i.hh:167-186. -/
inductive Un (K : Type) where
  | set (v : K)
  | scale (v : K)

/-- The loops over two vectors, Vector.i.hh:209-310. -/
inductive Bin (K : Type) where
  | add
  | subtract
  | multiply
  | divide
  | copy
  | axpy (a : K)

/-- The new value of an element; `none` if an indeterminate value is used. -/
def Un.val : Un K → Option K → Option K
  | .set v, _ => some v
  | .scale v, x => x.map fun x => x * v

/-- The same with the element `y` of the other vector. -/
def Bin.val : Bin K → Option K → K → Option K
  | .add, x, y => x.map fun x => x + y
  | .subtract, x, y => x.map fun x => x - y
  | .multiply, x, y => x.map fun x => x * y
  | .divide, x, y => x.map fun x => x / y
  | .copy, _, y => some y
  | .axpy a, x, y => x.map fun x => x + a * y

/-- One pass of a loop over one vector. -/
def unPass (u : Un K) (p : Option (Nat × Nat)) (i : Nat) (h : Heap K) : Out (Heap K) :=
  match p with
  | none => .ub
  | some (b, o) =>
    if h.valid b (o + i) then
      match u.val (h.cell b (o + i)) with
      | some v => .ok (h.write b (o + i) v)
      | none => .ub
    else .ub

/-- One pass of a loop over two vectors. -/
def binPass (f : Bin K) (p q : Option (Nat × Nat)) (i : Nat) (h : Heap K) : Out (Heap K) :=
  match p, q with
  | some (b, o), some (c, r) =>
    if h.valid b (o + i) ∧ h.valid c (r + i) then
      match (h.cell c (r + i)).bind (f.val (h.cell b (o + i))) with
      | some v => .ok (h.write b (o + i) v)
      | none => .ub
    else .ub
  | _, _ => .ub

/-- `for (int i = 0; i < n; i++)`. -/
def loop (pass : Nat → Heap K → Out (Heap K)) : Nat → Heap K → Out (Heap K)
  | 0, h => .ok h
  | n + 1, h => (loop pass n h).bind (pass n)

/-- The live vectors and arrays (block of each array) and the number of arrays made. -/
structure State (K : Type) where
  heap : Heap K
  vec : Nat → Option Vec
  arr : Nat → Option Nat
  arrays : Nat

def State.init : State K :=
  { heap := { len := fun _ => none, cell := fun _ _ => none, next := 0 }, vec := fun _ => none, arr := fun _ => none,
    arrays := 0 }

/-- What a caller does with vectors. -/
inductive Instr (K : Type) where
  /-- `Vector x;` -/
  | dflt (x : Nat)
  /-- `Vector x(n, v);` -/
  | make (x n : Nat) (v : K)
  /-- `Vector x(y);` -/
  | dup (x y : Nat)
  /-- `Vector x(a);` for a `std::vector` -/
  | wrap (x a : Nat)
  /-- `Vector x(n, &a[o]);` -/
  | wrapPtr (x n a o : Nat)
  /-- the end of the life of `x` -/
  | destroy (x : Nat)
  | resize (x n : Nat) (v : K)
  | un (x : Nat) (u : Un K)
  | bin (x : Nat) (f : Bin K) (y : Nat)
  /-- `x = y;` -/
  | assign (x y : Nat)
  /-- the caller makes an array; the first has the name 0, the next 1 and so on -/
  | newArr (l : List K)
  /-- the caller releases it -/
  | freeArr (a : Nat)

def State.put (s : State K) (x : Nat) (v : Option Vec) : State K :=
  { s with vec := fun y => if y = x then v else s.vec y }

/-- A constructor needs an unused name. -/
def State.fresh (s : State K) (x : Nat) (k : Out (State K)) : Out (State K) :=
  match s.vec x with
  | none => k
  | some _ => .ub

def State.live (s : State K) (x : Nat) (k : Vec → Out (State K)) : Out (State K) :=
  match s.vec x with
  | none => .ub
  | some v => k v

/-- `Vector()`, Vector.cc:19-26. -/
def State.dflt (s : State K) (x : Nat) : Out (State K) :=
  s.fresh x (.ok (s.put x (some ⟨0, none, false⟩)))

/-- `Vector(n, v)`, Vector.cc:29-51. -/
def State.make (s : State K) (x n : Nat) (v : K) : Out (State K) :=
  s.fresh x
    (let p : Option (Nat × Nat) := some (s.heap.next, 0)
     (loop (unPass (.set v) p) n (s.heap.alloc n)).bind fun h =>
       .ok ({ s with heap := h }.put x (some ⟨n, p, false⟩)))

/-- `Vector(const Vector&)`, Vector.cc:55-76. -/
def State.dup (s : State K) (x y : Nat) : Out (State K) :=
  s.live y fun w =>
    s.fresh x
      (if w.size = 0 then .ok (s.put x (some ⟨0, none, false⟩))
       else
        let p : Option (Nat × Nat) := some (s.heap.next, 0)
        (loop (unPass (.set 0) p) w.size (s.heap.alloc w.size)).bind fun h =>
          (loop (binPass .add p w.ptr) w.size h).bind fun h =>
            .ok ({ s with heap := h }.put x (some ⟨w.size, p, false⟩)))

/-- `Vector(const std::vector<double>&)`, Vector.cc:103-118; `&x[0]` of an empty one is undefined. -/
def State.wrap (s : State K) (x a : Nat) : Out (State K) :=
  s.fresh x
    (match s.arr a with
     | none => .ub
     | some b =>
      match s.heap.len b with
      | none => .ub
      | some 0 => .ub
      | some n => .ok (s.put x (some ⟨n, some (b, 0), true⟩)))

/-- `Vector(n, double*)`, Vector.cc:121-136. -/
def State.wrapPtr (s : State K) (x n a o : Nat) : Out (State K) :=
  s.fresh x
    (match s.arr a with
     | none => .ub
     | some b => .ok (s.put x (some ⟨n, some (b, o), true⟩)))

/-- The destructor, Vector.cc:155-169. -/
def State.destroy (s : State K) (x : Nat) : Out (State K) :=
  s.live x fun w =>
    if w.size = 0 then .ok (s.put x none)
    else if w.temp = false then
      (s.heap.free w.ptr).bind fun h => .ok ({ s with heap := h }.put x none)
    else .ok (s.put x none)

/-- `resize`, Vector.cc:172-195. -/
def State.resize (s : State K) (x n : Nat) (v : K) : Out (State K) :=
  s.live x fun w =>
    if w.temp then .err
    else
      (if w.size = 0 then .ok s.heap else s.heap.free w.ptr).bind fun h =>
        let p : Option (Nat × Nat) := if n = 0 then w.ptr else some (h.next, 0)
        let h := if n = 0 then h else h.alloc n
        (loop (unPass (.set v) p) n h).bind fun h => .ok ({ s with heap := h }.put x (some ⟨n, p, false⟩))

/-- One instruction.  `assign` is the assignment the compiler supplies, since Vector.hh declares none: it copies the
    members. -/
def State.step (s : State K) : Instr K → Out (State K)
  | .dflt x => s.dflt x
  | .make x n v => s.make x n v
  | .dup x y => s.dup x y
  | .wrap x a => s.wrap x a
  | .wrapPtr x n a o => s.wrapPtr x n a o
  | .destroy x => s.destroy x
  | .resize x n v => s.resize x n v
  | .un x u => s.live x fun w => (loop (unPass u w.ptr) w.size s.heap).bind fun h => .ok { s with heap := h }
  | .bin x f y => s.live x fun w => s.live y fun z =>
      (loop (binPass f w.ptr z.ptr) w.size s.heap).bind fun h => .ok { s with heap := h }
  | .assign x y => s.live x fun _ => s.live y fun z => .ok (s.put x (some z))
  | .newArr l =>
    let h := s.heap.alloc l.length
    .ok { s with heap := { h with cell := fun b i => if b = s.heap.next then l[i]? else h.cell b i },
                 arr := fun a => if a = s.arrays then some s.heap.next else s.arr a, arrays := s.arrays + 1 }
  | .freeArr a =>
    match s.arr a with
    | none => .ub
    | some b => (s.heap.free (some (b, 0))).bind fun h => .ok { s with heap := h }

/-- A program, from the first instruction. -/
def run : State K → List (Instr K) → Out (State K)
  | s, [] => .ok s
  | s, i :: l => (s.step i).bind fun s => run s l

/-! ## What the caller can see -/

/-- `x.size()`. -/
def State.size (s : State K) (x : Nat) : Option Nat := (s.vec x).map Vec.size

/-- `x[i]`, Vector.i.hh:25-65. -/
def State.get (s : State K) (x i : Nat) : Option K :=
  (s.vec x).bind fun w => w.ptr.bind fun p =>
    if s.heap.valid p.1 (p.2 + i) then s.heap.cell p.1 (p.2 + i) else none

/-- Element `i` of the caller's array `a`. -/
def State.getArr (s : State K) (a i : Nat) : Option K :=
  (s.arr a).bind fun b => if s.heap.valid b i then s.heap.cell b i else none

end Detran.CallowVector
