import Verif.Model.Angle
import Verif.Model.Solver

/-!
# Model of the characteristics equation (transport/Equation_SC_MOC, Sweeper2DMOC)

One object of `Equation_SC_MOC` with the mesh, material and product quadrature it refers to.
Doubles are elements of a field; `std::exp` is an arbitrary function.  A division by zero is the
outcome `none`.
-/

namespace Detran.Moc

open Detran.Solver (upd)

variable {K : Type} [Field K] [DecidableEq K]

/-- What the constructor is given, Equation_MOC.hh:60-80 and Equation_SC_MOC.cc:16-28: total cross
    section by material and group, material of a region, volume of a region, sine of a polar angle,
    weight of an angle within the octant, number of polar angles, and whether `psi` is kept. -/
structure Data (K : Type) where
  sigt : Nat → Nat → K
  mat : Nat → Nat
  vol : Nat → K
  sin : Nat → K
  weight : Nat → K
  np : Nat
  keepPsi : Bool

/-- Indices set by the `setup_` functions, Equation_MOC.hh:142-165 and Equation_SC_MOC.hh:93-103; `none` before
    the first call (`-1` or uninitialised). -/
structure Setup where
  g : Option Nat
  azimuth : Option Nat
  polar : Option Nat
  angle : Option Nat

/-- A new object. -/
def Setup.new : Setup := ⟨none, none, none, none⟩

/-- `setup_group`, Equation_SC_MOC.cc:31-35. -/
def Setup.setGroup (s : Setup) (g : Nat) : Setup := { s with g := some g }

/-- `setup_azimuth`, Equation_SC_MOC.cc:45-54 (the weights stored there are not used anywhere). -/
def Setup.setAzimuth (s : Setup) (a : Nat) : Setup := { s with azimuth := some a }

/-- `setup_polar`, Equation_SC_MOC.cc:57-62: the angle is formed from the azimuth set before. -/
def Setup.setPolar (d : Data K) (s : Setup) (p : Nat) : Setup :=
  { s with polar := some p, angle := s.azimuth.map fun a => Angle.angle d.np a p }

/-- The three coefficients and the averages of one segment, Equation_SC_MOC.i.hh:39-62: outgoing flux
    and segment average for cross section, length over sine, source and incident flux. -/
def segment (ex : K → K) (sigma l q pin : K) : K × K :=
  let A := ex (-sigma * l)
  let B := (1 - A) / sigma
  let C := (l / sigma) * (1 - B / l)
  (A * pin + B * q, (1 / l) * (B * pin + C * q))

/-- Arrays written by `solve`. -/
structure Flux (K : Type) where
  out : K
  phi : Nat → K
  psi : Nat → K

/-- `solve`, Equation_SC_MOC.i.hh:19-88; the outer `none` is an index used before it was set or a
    division by zero. -/
def solve (ex : K → K) (d : Data K) (s : Setup) (region : Nat) (length width : K) (source : Nat → K) (pin : K)
    (f : Flux K) : Option (Flux K) :=
  match s.g, s.polar, s.angle with
  | some g, some p, some a =>
    let sigma := d.sigt (d.mat region) g
    let invSin := 1 / d.sin p
    let l := length * invSin
    if d.sin p = 0 ∨ sigma = 0 ∨ l = 0 ∨ d.vol region = 0 then none
    else
      let r := segment ex sigma l (source region) pin
      let avg := r.2 * (width * length * (1 / d.vol region))
      some { out := r.1
             phi := upd f.phi region (f.phi region + d.weight a * avg)
             psi := if d.keepPsi then upd f.psi region (f.psi region + avg) else f.psi }
  | _, _, _ => none

/-- A segment of a track as a client passes it: region, length in the plane, track width. -/
structure Seg (K : Type) where
  region : Nat
  length : K
  width : K

/-- `solve` called along a track, each outgoing flux being the next incident one (the use for which
    the interface is made, Sweeper2DMOC.cc:150-190, where it is commented out). -/
def along (ex : K → K) (d : Data K) (s : Setup) (source : Nat → K) : List (Seg K) → Flux K → Option (Flux K)
  | [], f => some f
  | g :: gs, f => (solve ex d s g.region g.length g.width source f.out f).bind (along ex d s source gs)

/-- `Sweeper2DMOC::sweep`, Sweeper2DMOC.cc:54-242: an assertion that a release build drops, and a
    return. -/
def sweep (phi : Nat → K) : Nat → K := phi

end Detran.Moc
