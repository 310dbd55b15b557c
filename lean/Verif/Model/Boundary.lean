import Verif.Model.Sweep
import Verif.Model.Angle

/-!
# Model of `boundary/`: discrete-ordinates boundary conditions

One group.  A boundary flux container is a function of side, octant and angle within the octant
(`d_boundary_flux[side][g][index(o, a)]`; that `index` is a bijection is C36) with values in the
face type `F` (a number in 1-D, a vector in 2-D, a matrix in 3-D).
-/

namespace Detran.Boundary

open Detran.Sweep

/-- A boundary flux container for one group. -/
abbrev Bd (F : Type) := Nat → Nat → Nat → F

/-! ## Reflection -/

/-- `Reflective::setup_octant`, Reflective.i.hh:80-218: pairs `(IN, OUT)`. -/
def reflPairs (dim side : Nat) : List (Nat × Nat) :=
  match dim with
  | 1 => [[(0, 1)], [(1, 0)]].getD side []
  | 2 => [[(0, 1), (3, 2)], [(2, 3), (1, 0)], [(1, 2), (0, 3)], [(3, 0), (2, 1)]].getD side []
  | 3 => [[(7, 6), (4, 5), (3, 2), (0, 1)], [(5, 4), (6, 7), (1, 0), (2, 3)],
          [(5, 6), (1, 2), (4, 7), (0, 3)], [(6, 5), (7, 4), (2, 1), (3, 0)],
          [(2, 6), (3, 7), (1, 5), (0, 4)], [(7, 3), (6, 2), (4, 0), (5, 1)]].getD side []
  | _ => []

/-- `Reflective::update(g)`, Reflective.i.hh:19-32; `na` angles per octant. -/
def reflUpdate {F : Type} (dim na side : Nat) (b : Bd F) : Bd F :=
  (reflPairs dim side).foldl (fun b p =>
    (List.range na).foldl (fun b a => setB b side p.1 a (b side p.2 a)) b) b

/-- The search loop of `Reflective::update(g, o, a)`, Reflective.i.hh:39-46: the last match wins. -/
def reflOut (dim side o : Nat) : Option Nat :=
  (reflPairs dim side).foldl (fun r p => if p.1 = o then some p.2 else r) none

/-- `Reflective::update(g, o, a)`, Reflective.i.hh:36-55. -/
def reflUpdateAngle {F : Type} (dim side : Nat) (b : Bd F) (o a : Nat) : Bd F :=
  match reflOut dim side o with
  | some o' => setB b side o a (b side o' a)
  | none => b

/-! ## Periodic -/

/-- `d_periodic_side`, Periodic.hh:61-72. -/
def opposite (side : Nat) : Nat :=
  if side = 0 then 1 else if side = 1 then 0 else if side = 2 then 3 else if side = 3 then 2
  else if side = 4 then 5 else 4

/-- `Periodic::update(g)`, Periodic.i.hh:17-29; the pair table is inherited from `Reflective`. -/
def perUpdate {F : Type} (dim na side : Nat) (b : Bd F) : Bd F :=
  (reflPairs dim side).foldl (fun b p =>
    (List.range na).foldl (fun b a => setB b (opposite side) p.1 a (b side p.2 a)) b) b

/-- `Periodic::update(g, o, a)`, Periodic.i.hh:32-44. -/
def perUpdateAngle {F : Type} (dim side : Nat) (b : Bd F) (o a : Nat) : Bd F :=
  (reflPairs dim side).foldl (fun b p =>
    if p.2 = o then setB b (opposite side) o a (b side o a) else b) b

/-! ## Fixed and vacuum -/

/-- `FixedBoundary::set(g)`, FixedBoundary.i.hh:35-47; `psi io a` is `d_psi[g][io][a]`. -/
def fixedSet {F : Type} (dim na side : Nat) (psi : Nat → Nat → F) (b : Bd F) : Bd F :=
  (incidentOctants dim side).zipIdx.foldl (fun b p =>
    (List.range na).foldl (fun b a => setB b side p.1 a (psi p.2 a)) b) b

/-- A boundary condition: `Vacuum`, `Reflective`, `FixedBoundary`, `Periodic`. -/
inductive BC (F : Type) where
  | vacuum
  | reflect
  | fixed (psi : Nat → Nat → F)
  | periodic

/-- `BoundaryFactory::build`, BoundaryFactory.t.hh:88-119: the name given for a side (`none` if the
    input has no entry); `none` is the `THROW`.  A fixed condition starts from the face stored at
    construction, `z`. -/
def bcOf {F : Type} (z : F) (name : Option String) : Option (BC F) :=
  match name.getD "vacuum" with
  | "vacuum" => some .vacuum
  | "reflect" => some .reflect
  | "fixed" => some (.fixed fun _ _ => z)
  | "periodic" => some .periodic
  | _ => none

/-- `d_is_reflective[side]`, BoundarySN.cc:45-60. -/
def isReflective (name : Option String) : Bool := name.getD "vacuum" == "reflect"

/-- `d_bc[side]->update(g)`; vacuum and fixed do nothing. -/
def bcUpdate {F : Type} (dim na side : Nat) (bc : BC F) (b : Bd F) : Bd F :=
  match bc with
  | .reflect => reflUpdate dim na side b
  | .periodic => perUpdate dim na side b
  | _ => b

/-- `d_bc[side]->update(g, o, a)`. -/
def bcUpdateAngle {F : Type} (dim side : Nat) (bc : BC F) (b : Bd F) (o a : Nat) : Bd F :=
  match bc with
  | .reflect => reflUpdateAngle dim side b o a
  | .periodic => perUpdateAngle dim side b o a
  | _ => b

/-- `d_bc[side]->set(g)`; only fixed does anything. -/
def bcSet {F : Type} (dim na side : Nat) (bc : BC F) (b : Bd F) : Bd F :=
  match bc with
  | .fixed psi => fixedSet dim na side psi b
  | _ => b

/-- `BoundarySN::update(g)`, BoundarySN.i.hh:56-61. -/
def update {F : Type} (dim na : Nat) (bc : Nat → BC F) (b : Bd F) : Bd F :=
  (List.range (2 * dim)).foldl (fun b side => bcUpdate dim na side (bc side) b) b

/-- `BoundarySN::update(g, o, a)`, BoundarySN.i.hh:64-71. -/
def updateAngle {F : Type} (dim : Nat) (bc : Nat → BC F) (b : Bd F) (o a : Nat) : Bd F :=
  (List.range (2 * dim)).foldl (fun b side => bcUpdateAngle dim side (bc side) b o a) b

/-- `BoundarySN::set(g)`, BoundarySN.i.hh:48-53. -/
def set {F : Type} (dim na : Nat) (bc : Nat → BC F) (b : Bd F) : Bd F :=
  (List.range (2 * dim)).foldl (fun b side => bcSet dim na side (bc side) b) b

/-! ## Flattened boundary fluxes -/

/-- Numbers of rows and columns of a face, BoundarySN.cc:137-208 (`n` the cells per direction; one
    row or column where the dimension has none). -/
def faceSize (dim side : Nat) (n : Nat → Nat) : Nat × Nat :=
  match dim with
  | 1 => (1, 1)
  | 2 => if side < 2 then (n 1, 1) else (n 0, 1)
  | _ => if side < 2 then (n 2, n 1) else if side < 4 then (n 2, n 0) else (n 1, n 0)

/-- `d_boundary_flux_size[side]`, BoundarySN.cc:159-164, 186-189, 206-207. -/
def fluxSize (dim nao side : Nat) (n : Nat → Nat) : Nat :=
  (2 ^ dim * nao) * (faceSize dim side n).1 * (faceSize dim side n).2

/-- A place in the boundary container. -/
structure Loc where
  side : Nat
  octant : Nat
  angle : Nat
  i : Nat
  j : Nat
deriving DecidableEq

/-- The order in which `BoundarySN::psi` visits its entries, BoundarySN.i.hh:115-225: sides, octants
    of the side's incident or outgoing list, angles, rows, columns. -/
def locs (dim nao : Nat) (n : Nat → Nat) (out onlyref : Bool) (refl : Nat → Bool) : List Loc :=
  (List.range (2 * dim)).flatMap fun side =>
    if !onlyref || (onlyref && refl side) then
      (if out then outgoingOctants dim side else incidentOctants dim side).flatMap fun o =>
        (List.range nao).flatMap fun a =>
          (List.range (faceSize dim side n).1).flatMap fun i =>
            (List.range (faceSize dim side n).2).map fun j => ⟨side, o, a, i, j⟩
    else []

/-- `psi(g, v, inout, GET)`: the values written through the pointer. -/
def getPsi {K : Type} (l : List Loc) (b : Loc → K) : List K := l.map b

/-- `psi(g, v, inout, SET)`: the pointer advances with each entry. -/
def setPsi {K : Type} : List Loc → List K → (Loc → K) → (Loc → K)
  | [], _, b => b
  | _ :: _, [], b => b
  | l :: ls, v :: vs, b => setPsi ls vs (fun l' => if l' = l then v else b l')

/-- `BoundarySN::clear(g)`, BoundarySN.i.hh:74-101: every stored entry becomes zero. -/
def clear {K : Type} [Zero K] (dim nao : Nat) (n : Nat → Nat) (b : Loc → K) : Loc → K :=
  fun l => if l.side < 2 * dim ∧ l.octant < 2 ^ dim ∧ l.angle < nao ∧
      l.i < (faceSize dim l.side n).1 ∧ l.j < (faceSize dim l.side n).2 then 0 else b l

end Detran.Boundary
