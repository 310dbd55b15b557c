import Verif.Model.Angle

/-!
# Model of the external sources (external_source/) and of how the transport solvers use them

A vector access outside its range is undefined behaviour and gives `none`.
-/

namespace Detran.Sources

variable {K : Type} [Field K]

/-- The constant, isotropic and discrete sources: strength; spectra by material and group with the map from
    cells; spectra by material, group and cardinal angle with the map.  Both maps hold `int`s.
    ConstantSource.cc:15-25, IsotropicSource.cc:15-30, DiscreteSource.cc:15-30. -/
inductive Ext (K : Type) where
  | constant (strength : K)
  | isotropic (spectra : List (List K)) (map : List Int)
  | discrete (spectra : List (List (List K))) (map : List Int)

/-- `v[i]` for an `int` index. -/
def at? {α : Type} (v : List α) (i : Int) : Option α := if i < 0 then none else v[i.toNat]?

/-- `ExternalSource::is_discrete`, ExternalSource.hh:82 with the flags the constructors pass. -/
def Ext.isDiscrete : Ext K → Bool
  | .constant _ => false
  | .isotropic _ _ => false
  | .discrete _ _ => true

/-- `Quadrature::angular_norm`, Quadrature.i.hh:108-115; `i4p` is `inv_four_pi`. -/
def angularNorm (i4p : K) (dim : Nat) : K := if dim = 1 then 1 / 2 else i4p

/-- What the sources and the sweep need from the quadrature: octants, angles per octant, weights. -/
structure Quad (K : Type) where
  no : Nat
  na : Nat
  w : Nat → K

/-- The directions in loop order: octants outside, angles inside. -/
def Quad.dirs (q : Quad K) : List (Nat × Nat) :=
  (List.range q.no).flatMap fun o => (List.range q.na).map fun a => (o, a)

/-- `source(cell, group, angle)`: ConstantSource.hh:57-63, IsotropicSource.hh:68-77,
    DiscreteSource.hh:76-84; `norm` is the angular norm of the mesh dimension. -/
def Ext.angular (norm : K) : Ext K → Nat → Nat → Nat → Option K
  | .constant s, _, _, _ => some (s * norm)
  | .isotropic sp map, cell, g, _ =>
    (map[cell]?).bind fun m => (at? sp m).bind fun row => (row[g]?).map (· * norm)
  | .discrete sp map, cell, g, angle =>
    (map[cell]?).bind fun m => (at? sp m).bind fun row => (row[g]?).bind fun r => r[angle]?

/-- `source(cell, group)`: ConstantSource.hh:50-55, IsotropicSource.hh:59-66, DiscreteSource.hh:59-74. -/
def Ext.moment (q : Quad K) : Ext K → Nat → Nat → Option K
  | .constant s, _, _ => some s
  | .isotropic sp map, cell, g => (map[cell]?).bind fun m => (at? sp m).bind fun row => row[g]?
  | .discrete sp map, cell, g =>
    q.dirs.foldlM (fun v d =>
      ((map[cell]?).bind fun m => (at? sp m).bind fun row => (row[g]?).bind fun r =>
        r[Angle.index q.na d.1 d.2]?).map fun s => v + s * q.w d.2) 0

/-- The two containers of the sweep source after the `WGSolver` constructor: moment sources and discrete
    sources, null pointers left out.  WGSolver.cc:69-79, SweepSource.hh:141-163. -/
def route (qe : List (Option (Ext K))) : List (Ext K) × List (Ext K) :=
  qe.foldl (fun r o => match o with
    | none => r
    | some s => if !s.isDiscrete then (r.1 ++ [s], r.2) else (r.1, r.2 ++ [s])) ([], [])

/-- `build_fixed` in one cell, SweepSource.i.hh:23-48; `qf` is the fission source of the group if there is
    one and it is not implicit. -/
def buildFixed (q : Quad K) (ms : List (Ext K)) (qf : Option K) (cell g : Nat) : Option K :=
  (ms.foldlM (fun v (s : Ext K) => (s.moment q cell g).map fun x => v + x) 0).map fun v =>
    match qf with
    | none => v
    | some f => v + f

/-- `SweepSource::source` in one cell, SweepSource.i.hh:113-140. -/
def sweep (q : Quad K) (norm mtod : K) (flag : Bool) (ds : List (Ext K)) (fixed scatter : K)
    (g o a cell : Nat) : Option K :=
  if flag then
    ds.foldlM (fun v (s : Ext K) => (s.angular norm cell g (Angle.index q.na o a)).map fun x => v + x)
      ((fixed + scatter) * mtod)
  else some ((fixed + scatter) * mtod)

end Detran.Sources
