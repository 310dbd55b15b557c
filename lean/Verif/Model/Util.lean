import Mathlib.Algebra.Order.Field.Basic
import Mathlib.Algebra.Order.Group.Abs

/-!
# Model of `utilities/` : MathUtilities, InputDB, Factory, Iterators

`double` is an arbitrary (linearly ordered) field `K`; `int` is `Int` (no overflow).
-/

namespace Detran.Util

/-! ## MathUtilities.hh -/

/-- The filling loop of `range`, MathUtilities.hh:233-238: `*it = i; ++it; i += del`
    until `size` elements are written. -/
def rangeLoop : Nat → Int → Int → List Int
  | 0, _, _ => []
  | n + 1, i, del => i :: rangeLoop n (i + del) del

/-- `range<T>(a, b, inclusive)`, MathUtilities.hh:226-240.
    Simplification: the conversion of each element to `T` is omitted (identity for
    `T = int`, and for `T = size_t` on non-negative elements). -/
def range (a b : Int) (inclusive : Bool) : List Int :=
  let size := (a - b).natAbs + (if inclusive then 1 else 0)
  let del : Int := if a < b then 1 else -1
  rangeLoop size a del

section
variable {K : Type} [Field K]

/-- Loop `v[i] = v[i-1] + dx` of `linspace`, MathUtilities.hh:196-197. -/
def stepLoop (dx : K) : Nat → K → List K
  | 0, _ => []
  | n + 1, x => x :: stepLoop dx n (x + dx)

/-- `linspace(a, b, n)`, MathUtilities.hh:187-199 (`n` non-negative). -/
def linspace (a b : K) (n : Nat) : List K :=
  let dx := if n ≤ 1 then b - a else (b - a) / ((n : K) - 1)
  stepLoop dx n a

/-- `linspace_center(a, b, n)`, MathUtilities.hh:202-214. -/
def linspaceCenter (a b : K) (n : Nat) : List K :=
  let dx := if n ≤ 1 then b - a else (b - a) / (n : K)
  stepLoop dx n (a + dx / 2)

/-- `vec_sum`, MathUtilities.hh:157-164. -/
def vecSum (v : List K) : K := v.foldl (fun s x => s + x) 0

/-- `vec_scale`, MathUtilities.hh:55-59. -/
def vecScale (x : List K) (s : K) : List K := x.map (fun y => y * s)

/-- `vec_plus_a`, MathUtilities.hh:167-172. -/
def vecPlusA (x : List K) (a : K) : List K := x.map (fun y => y + a)

end

section
variable {K : Type} [Field K] [LinearOrder K]

/-- `norm(x, "L1")`, MathUtilities.hh:36-40. -/
def normL1 (x : List K) : K := x.foldl (fun v y => v + |y|) 0

/-- The sum of squares under the root in `norm(x, "L2")`, MathUtilities.hh:32-33.
    The square root itself is applied in `Props/Util.lean` over `ℝ`. -/
def normL2sq (x : List K) : K := x.foldl (fun v y => v + y * y) 0

/-- `norm(x, "Linf")`, MathUtilities.hh:41-46: starts from `x[0]` *without* taking the
    absolute value.  `none`: `x[0]` of an empty vector is undefined behaviour. -/
def normLinf : List K → Option K
  | [] => none
  | x0 :: xs => some (xs.foldl (fun v y => max |y| v) x0)

/-- `norm_residual(x, y, "Linf")`, MathUtilities.hh:88-94.  `none`: undefined
    behaviour (empty vectors, or `y` shorter than `x`). -/
def normResLinf : List K → List K → Option K
  | x0 :: xs, y0 :: ys =>
      if xs.length ≤ ys.length then
        some ((List.zip xs ys).foldl (fun v p => max |p.1 - p.2| v) |x0 - y0|)
      else none
  | _, _ => none

/-- `norm_residual(x, y, "L1")`, MathUtilities.hh:82-87 (equal lengths). -/
def normResL1 (x y : List K) : K :=
  (List.zip x y).foldl (fun v p => v + |p.1 - p.2|) 0

/-- `norm_relative_residual(x, y, "Linf")`, MathUtilities.hh:122-128: the first term
    is not divided by `y[0]`. -/
def normRelResLinf : List K → List K → Option K
  | x0 :: xs, y0 :: ys =>
      if xs.length ≤ ys.length then
        some ((List.zip xs ys).foldl (fun v p => max |(p.1 - p.2) / p.2| v) |x0 - y0|)
      else none
  | _, _ => none

end

/-- `vec_max<T>`, MathUtilities.hh:147-154; `m0` is `std::numeric_limits<T>::min()`
    (the most negative value for integers, the smallest *positive* normal number for
    `double`). -/
def vecMax {T : Type} [LT T] [DecidableLT T] (m0 : T) (v : List T) : T :=
  v.foldl (fun m x => if m < x then x else m) m0

/-- `vec_min<T>`, MathUtilities.hh:137-144; `m0` is `std::numeric_limits<T>::max()`. -/
def vecMin {T : Type} [LT T] [DecidableLT T] (m0 : T) (v : List T) : T :=
  v.foldl (fun m x => if x < m then x else m) m0

/-- `std::unique` keeps the first of each run of equal neighbours. -/
def stdUnique {T : Type} [DecidableEq T] : List T → List T
  | [] => []
  | [x] => [x]
  | x :: y :: l => if x = y then stdUnique (y :: l) else x :: stdUnique (y :: l)

/-- `vec_unique`, MathUtilities.hh:175-184, for a given realisation `sort` of
    `std::sort`. -/
def vecUnique {T : Type} [DecidableEq T] (sort : List T → List T) (v : List T) : List T :=
  stdUnique (sort v)

/-! ## InputDB -/

/-- The six value types, InputDB.hh:53-61. -/
inductive Ty | int | dbl | str | vecInt | vecDbl | db
  deriving DecidableEq, Repr

/-- Value carried by each type.  `D` stands for `double`; a nested database is
    represented by its address (`Nat`), since `put` stores a shared pointer. -/
def Ty.Val (D : Type) : Ty → Type
  | .int => Int
  | .dbl => D
  | .str => String
  | .vecInt => List Int
  | .vecDbl => List D
  | .db => Nat

/-- `std::map<std::string, V>` as an association list with at most one entry per key.
    Simplification: key order is not modelled (only `display` shows it). -/
abbrev SMap (V : Type) := List (String × V)

/-- `map::find`. -/
def SMap.find {V : Type} (m : SMap V) (k : String) : Option V :=
  match m with
  | [] => none
  | (k', v) :: r => if k' = k then some v else SMap.find r k

/-- `map[key] = value`: overwrite or create. -/
def SMap.set {V : Type} (m : SMap V) (k : String) (v : V) : SMap V :=
  match m with
  | [] => [(k, v)]
  | (k', v') :: r => if k' = k then (k, v) :: r else (k', v') :: SMap.set r k v

/-- Data members of `InputDB`, InputDB.hh:130-143. -/
structure InputDB (D : Type) where
  dataInt : SMap Int
  dataDbl : SMap D
  dataVecInt : SMap (List Int)
  dataVecDbl : SMap (List D)
  dataStr : SMap String
  dataDb : SMap Nat

/-- Constructor, InputDB.cc:16-19. -/
def InputDB.empty (D : Type) : InputDB D := ⟨[], [], [], [], [], []⟩

/-- `InputDB::put<T>`, InputDB.i.hh:126-161 (six specialisations). -/
def InputDB.put {D : Type} (b : InputDB D) (t : Ty) (k : String) (v : t.Val D) : InputDB D :=
  match t, v with
  | .int, v => { b with dataInt := b.dataInt.set k v }
  | .dbl, v => { b with dataDbl := b.dataDbl.set k v }
  | .vecInt, v => { b with dataVecInt := b.dataVecInt.set k v }
  | .vecDbl, v => { b with dataVecDbl := b.dataVecDbl.set k v }
  | .str, v => { b with dataStr := b.dataStr.set k v }
  | .db, v => { b with dataDb := b.dataDb.set k v }

/-- `InputDB::get<T>`, InputDB.i.hh:86-121 (release build: `Requirev` is a no-op).
    `none`: dereferencing `end()`, undefined behaviour. -/
def InputDB.get {D : Type} (b : InputDB D) (t : Ty) (k : String) : Option (t.Val D) :=
  match t with
  | .int => b.dataInt.find k
  | .dbl => b.dataDbl.find k
  | .vecInt => b.dataVecInt.find k
  | .vecDbl => b.dataVecDbl.find k
  | .str => b.dataStr.find k
  | .db => b.dataDb.find k

/-- `InputDB::check`, InputDB.i.hh:20-81: the six guarded searches in order. -/
def InputDB.check {D : Type} (b : InputDB D) (k : String) : Bool :=
  if (b.dataInt.find k).isSome then true
  else if (b.dataDbl.find k).isSome then true
  else if (b.dataVecInt.find k).isSome then true
  else if (b.dataVecDbl.find k).isSome then true
  else if (b.dataStr.find k).isSome then true
  else if (b.dataDb.find k).isSome then true
  else false

/-- `InputDB::size(type)`, InputDB.cc:94-112 (valid type codes). -/
def InputDB.size {D : Type} (b : InputDB D) (t : Ty) : Nat :=
  match t with
  | .int => b.dataInt.length
  | .dbl => b.dataDbl.length
  | .str => b.dataStr.length
  | .vecInt => b.dataVecInt.length
  | .vecDbl => b.dataVecDbl.length
  | .db => b.dataDb.length

/-- A `put` call: type, key, value. -/
structure PutOp (D : Type) where
  ty : Ty
  key : String
  val : ty.Val D

/-- A history of `put` calls on a fresh database. -/
def InputDB.run {D : Type} (ops : List (PutOp D)) : InputDB D :=
  ops.foldl (fun b o => b.put o.ty o.key o.val) (InputDB.empty D)

/-! ## Factory -/

/-- `Factory::d_callbacks`, Factory.hh:70; `F` is the creator type. -/
abbrev Factory (F : Type) := SMap F

/-- `Factory::Register`, Factory.i.hh:28-31, 71-74: `map::insert(...).second`, which
    does not overwrite. -/
def Factory.register {F : Type} (f : Factory F) (k : String) (c : F) : Factory F × Bool :=
  match SMap.find f k with
  | some _ => (f, false)
  | none => (f ++ [(k, c)], true)

/-- `Factory::IsRegistered`, Factory.i.hh:35-39. -/
def Factory.isRegistered {F : Type} (f : Factory F) (k : String) : Bool :=
  (SMap.find f k).isSome

/-- `Factory::GetCreateFunction`, Factory.i.hh:42-52; `.error` is `THROW`. -/
def Factory.getCreate {F : Type} (f : Factory F) (k : String) : Except String F :=
  match SMap.find f k with
  | none => .error ("Unknown key: " ++ k)
  | some c => .ok c

/-- A history of registrations from program start; returns the results too. -/
def Factory.run {F : Type} : Factory F → List (String × F) → Factory F × List Bool
  | f, [] => (f, [])
  | f, (k, c) :: r =>
      let (f1, b) := f.register k c
      let (f2, bs) := Factory.run f1 r
      (f2, b :: bs)

/-! ## Iterators -/

/-- `Reversible<C>`, Iterators.hh:88-91: position relative to `begin()` and increment. -/
structure Rev where
  pos : Int
  inc : Int
  deriving DecidableEq, Repr

/-- Constructor, Iterators.i.hh:17-30 (container of `n` elements). -/
def Rev.mk' (n : Nat) (d : Bool) : Rev := if d then ⟨0, 1⟩ else ⟨(n : Int) - 1, -1⟩

/-- `begin()`, Iterators.hh:55-66. -/
def Rev.begin_ (n : Nat) (r : Rev) : Rev :=
  if r.inc = -1 then { r with pos := (n : Int) - 1 } else { r with pos := 0 }

/-- `end()`, Iterators.hh:67-78. -/
def Rev.end_ (n : Nat) (r : Rev) : Rev :=
  if r.inc = 1 then { r with pos := (n : Int) } else { r with pos := -1 }

/-- `operator++`, Iterators.i.hh:42-54 (both forms advance and return `*this`). -/
def Rev.next (r : Rev) : Rev := { r with pos := r.pos + r.inc }

/-- `operator*`, Iterators.i.hh:72-75; `none` is an out-of-range read. -/
def Rev.deref {T : Type} (l : List T) (r : Rev) : Option T :=
  if 0 ≤ r.pos then l[r.pos.toNat]? else none

/-- `for (it = r.begin(); it != e; ++it) visit(*it)` with `fuel` as a step bound.
    `none` means an out-of-range read or fuel exhausted.
    Note: for the reversed direction the end position is `begin()-1`, an address that
    is only compared, never read. -/
def Rev.walk {T : Type} (l : List T) (e : Rev) : Nat → Rev → Option (List T)
  | 0, it => if it.pos = e.pos then some [] else none
  | f + 1, it =>
      if it.pos = e.pos then some []
      else match it.deref l with
        | none => none
        | some x => (Rev.walk l e f it.next).map (x :: ·)

/-- The whole loop over a container `l` in direction `d`. -/
def Rev.traverse {T : Type} (l : List T) (d : Bool) : Option (List T) :=
  let r := Rev.mk' l.length d
  Rev.walk l (r.end_ l.length) l.length (r.begin_ l.length)

end Detran.Util
