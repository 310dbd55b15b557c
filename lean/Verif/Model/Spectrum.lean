import Verif.Model.Material
import Verif.Model.Restrict

/-!
# Model of `solvers/mg/SpectrumGS`, `SpectrumFS` and `SpectrumPinCell`

The dense eigenvalue solver, the linear solver, the norm and the pin cell calculations are parameters.  Matrices and spectra
are functions of their indices; printing is left out.
-/

namespace Detran.Spectrum

open Detran.Material

variable {K : Type} [Field K] [LinearOrder K]

/-- The matrices of `SpectrumGS::spectrum` for material `m`, SpectrumGS.cc:47-68, filled entry by entry from zeros. -/
def gsU (x : Mat K) (fission : Bool) (m g gp : Nat) : K :=
  if g + 1 ≤ gp ∧ gp < x.G then x.sigS g gp m + (if fission then x.chi g m * x.sigF gp m else 0) else 0

def gsL (x : Mat K) (fission : Bool) (m g gp : Nat) : K :=
  if gp ≤ g then
    (if gp = g then x.sigT g m else 0) - x.sigS g gp m - (if fission then x.chi g m * x.sigF gp m else 0)
  else 0

/-- `SpectrumGS::spectrum`, SpectrumGS.cc:24-77: the loop makes one pass, `m = 0`; `eig U L` is the vector the dense solver
    finds. -/
def gs (eig : (Nat → Nat → K) → (Nat → Nat → K) → Nat → K) (x : Mat K) (fission : Bool) : Nat → Nat → K :=
  (List.range 1).foldl (fun xi m =>
    let v := eig (gsU x fission m) (gsL x fission m)
    fun g r => if r = m ∧ g < x.G then v g else xi g r) fun _ _ => 0

/-- The matrix of `SpectrumFS::spectrum` for material `m`, SpectrumFS.cc:56-70. -/
def fsA (x : Mat K) (fission : Bool) (k : K) (m g gp : Nat) : K :=
  -x.sigS g gp m - (if fission then x.chi g m * x.sigF gp m / k else 0) + (if g = gp then x.sigT g m else 0)

/-- `SpectrumFS::spectrum`, SpectrumFS.cc:24-83: `source` is the entry `mgpc_spectrum_fixed_source`; `solve A b x` is what
    the linear solver makes of the guess `x`, which is the scaled solution of the material before.  `none`: the
    exception of line 49. -/
def fs (solve : (Nat → Nat → K) → (Nat → K) → (Nat → K) → Nat → K) (norm : (Nat → K) → K) (x : Mat K) (fission : Bool) (k : K)
    (source : Option (Nat → K)) : Option (Nat → Nat → K) :=
  source.map fun b =>
    ((List.range x.M).foldl (fun (s : (Nat → K) × (Nat → Nat → K)) m =>
      let y := solve (fsA x fission k m) b s.1
      let z := fun g => y g * (1 / norm y)
      (z, fun g r => if r = m ∧ g < x.G then z g else s.2 g r)) (fun _ => 0, fun _ _ => 0)).2

/-- The material of `SpectrumPinCell::spectrum`, SpectrumPinCell.cc:78-86: `set_sigma_f` on a copy, which is not finalized
    again. -/
def pinMaterial (x : Mat K) (k : K) : Mat K :=
  { x with sigF := fun g m => if m < x.M ∧ g < x.G then x.nuSigF g m / k else x.sigF g m }

/-- `SpectrumPinCell::spectrum`, SpectrumPinCell.cc:68-107: `np` pins with `cells p` cells of volume `vol p i`; `flux y p g i`
    is what the eigenvalue manager finds with material `y`. -/
def pinCell (flux : Mat K → Nat → Nat → Nat → K) (norm : (Nat → K) → K) (np : Nat) (cells : Nat → Nat) (vol : Nat → Nat → K)
    (x : Mat K) (k : K) : Nat → Nat → K :=
  (List.range np).foldl (fun xi p =>
    let v := fun g => (List.range (cells p)).foldl (fun s i => s + flux (pinMaterial x k) p g i * vol p i) 0
    let z := fun g => v g * (1 / norm v)
    fun g r => if r = p ∧ g < x.G then z g else xi g r) fun _ _ => 0

end Detran.Spectrum
