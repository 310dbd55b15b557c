import Mathlib.Data.Rat.Cast.Defs
import Verif.Model.Kinetics

/-!
# Model of `solvers/time/LRA`: the material of the LRA benchmark

Tables are the decimal literals.  `n` is the number of cells, each its own material; `region` is the map `COARSEMESH`, with
values 0 to 5 (other values read outside the tables; here they read zero).  `sqrt` is the square root.
-/

namespace Detran.Lra

open Detran.Kin

/-! ## Tables, LRA.hh:23-48 -/

def T1 : List ℚ := [0.265604249667995, 0.262881177707676, 0.264760391845380, 0.264760391845380, 0.265181649429859, 0.264760391845380]
def T2 : List ℚ := [1.579778830963665, 1.752541184717841, 1.594133588394707, 1.594133588394707, 2.093802345058626, 1.594133588394707]
def A1 : List ℚ := [0.008252000000000, 0.007181000000000, 0.008002000000000, 0.008002000000000, 0.000602400000000, 0.008002000000000]
def A2 : List ℚ := [0.100300000000000, 0.070470000000000, 0.083440000000000, 0.073324000000000, 0.019110000000000, 0.083440000000000]
def F1 : List ℚ := [0.001893827160494, 0.001896707818930, 0.001918930041152, 0.001918930041152, 0.000000000000000, 0.001918930041152]
def F2 : List ℚ := [0.044897119341564, 0.035699588477366, 0.042016460905350, 0.042016460905350, 0.000000000000000, 0.042016460905350]
def S11 : List ℚ := [0.232022249667995, 0.228030177707676, 0.230588391845380, 0.230588391845380, 0.21703924942985, 0.230588391845380]
def S21 : List ℚ := [0.025330000000000, 0.027670000000000, 0.026170000000000, 0.026170000000000, 0.047540000000000, 0.026170000000000]
def S22 : List ℚ := [1.479478830963665, 1.682071184717841, 1.510693588394707, 1.520809588394707, 2.074692345058626, 1.510693588394707]
def D1 : List ℚ := [1.255000000000000, 1.268000000000000, 1.259000000000000, 1.259000000000000, 1.257000000000000, 1.259000000000000]
def D2 : List ℚ := [0.211000000000000, 0.190200000000000, 0.209100000000000, 0.209100000000000, 0.159200000000000, 0.209100000000000]
def mu0 : List ℚ := [0, 0, 0, 0, 0, 0]
def mu1 : List ℚ := [0, 0, 0, 0, 0, 0]
def NU : ℚ := 2.43
def B : ℚ := 0.0001
def ALPHA : ℚ := 3.830e-11
def GAMMA : ℚ := 3.034e-3
def KAPPA : ℚ := 3.204e-11
def LAMBDA : List ℚ := [0.0654, 1.35]
def BETA : List ℚ := [0.0054, 0.0010873]
def VELOCITY : List ℚ := [3.0e7, 3.0e5]
def ROD : Nat := 5
def REFLECTOR : Nat := 4

/-! ## The object -/

variable {K : Type} [Field K] [LinearOrder K]

/-- `table[m]`. -/
def tab (l : List ℚ) (m : Nat) : K := ((l.getD m 0 : ℚ) : K)

/-- Members of `LRA` (LRA.hh:90-111) with the data of its bases; `T` is variable 0 of `d_physics`, `dT` is `d_T`. -/
structure Lra (K : Type) where
  n : Nat
  region : Nat → Nat
  transport : Bool
  steady : Bool
  mat : KMat K
  kcrit : K
  T : Nat → K
  dT : Nat → K
  P : Nat → K
  area : K

/-- `set(i, g, v)` for all cells `i < n` and one group. -/
def setAll (n : Nat) (a : Nat → Nat → K) (g : Nat) (v : Nat → K) : Nat → Nat → K :=
  fun i g' => if i < n ∧ g' = g then v i else a i g'

/-- The same for an entry with two further indices. -/
def setAll2 (n : Nat) (a : Nat → Nat → Nat → K) (g gp : Nat) (v : Nat → K) : Nat → Nat → Nat → K :=
  fun i g' gp' => if i < n ∧ g' = g ∧ gp' = gp then v i else a i g' gp'

/-- `initialize_materials` before `finalize`, LRA.cc:60-101: the loop over the cells, then the data common to all.  In the
    diffusion case the entries on the diagonal of the scattering matrix are not set. -/
def fillMat (n : Nat) (region : Nat → Nat) (transport : Bool) (M : KMat K) : KMat K :=
  let t (l : List ℚ) (i : Nat) : K := tab l (region i)
  let b : K := (B : K)
  let st := if transport
    then setAll n (setAll n M.st 0 fun i => t T1 i + b * t D1 i) 1 fun i => t T2 i + b * t D2 i
    else setAll n (setAll n M.st 0 fun i => t A1 i + t S21 i + b * t D1 i) 1 fun i => t A2 i + b * t D2 i
  let ss := if transport
    then setAll2 n (setAll2 n M.ss 0 0 fun i => t S11 i / (1 + t mu0 i)) 1 1 fun i => t S22 i / (1 + t mu1 i)
    else M.ss
  { M with
    st := st
    ss := setAll2 n ss 1 0 fun i => t S21 i
    sa := setAll n (setAll n M.sa 0 fun i => t A1 i + b * t D1 i) 1 fun i => t A2 i + b * t D2 i
    sf := setAll n (setAll n M.sf 0 (t F1)) 1 (t F2)
    nu := setAll n (setAll n M.nu 0 fun _ => (NU : K)) 1 fun _ => (NU : K)
    chi := setAll n M.chi 0 fun _ => 1
    dc := setAll n (setAll n M.dc 0 (t D1)) 1 (t D2)
    chid := setAll2 n (setAll2 n M.chid 0 0 fun _ => 1) 1 0 fun _ => 1
    beta := setAll n (setAll n M.beta 0 fun _ => tab BETA 0) 1 fun _ => tab BETA 1
    lambda := fun i => if i < 2 then tab LAMBDA i else M.lambda i
    velocity := fun g => if g < 2 then tab VELOCITY g else M.velocity g }

/-- Thermal absorption of the rod, LRA.cc:118-119. -/
def rod (t : K) : K := if t ≤ 2 then tab A2 ROD * (1 - ((0.0606184 : ℚ) : K) * t) else ((0.878763 : ℚ) : K) * tab A2 ROD

/-- `update_impl`, LRA.cc:107-173.  The call of `finalize` inside `initialize_materials` is left in as `setNsf`; its checks
    pass, the constants being positive. -/
def impl (sqrt : K → K) (n : Nat) (region : Nat → Nat) (transport steady : Bool) (T : Nat → K) (t : K) (M : KMat K) :
    KMat K :=
  let M := setNsf (fillMat n region transport M)
  if steady then M
  else
    let e (l : List ℚ) (i : Nat) : K := tab l (region i)
    let b : K := (B : K)
    let sa2 (i : Nat) : K := if region i = ROD then rod t else e A2 i
    let del2 (i : Nat) : K := if region i = ROD then rod t - tab A2 ROD else 0
    let sa1 (i : Nat) : K :=
      if region i ≠ REFLECTOR then e A1 i * (1 + (GAMMA : K) * (sqrt (T i) - sqrt 300)) else e A1 i
    { M with
      st := if transport
        then setAll n (setAll n M.st 1 fun i => e T2 i + b * e D2 i + del2 i) 0
          fun i => e T1 i + b * e D1 i + (sa1 i - e A1 i)
        else setAll n (setAll n M.st 1 fun i => sa2 i + b * e D2 i) 0 fun i => sa1 i + b * e D1 i + e S21 i
      sa := setAll n (setAll n M.sa 1 fun i => sa2 i + b * e D2 i) 0 fun i => sa1 i + b * e D1 i
      chi := setAll n M.chi 0 fun _ => 1
      sf := setAll n (setAll n M.sf 0 (e F1)) 1 (e F2) }

/-- The data after the base constructors, Material.cc:24-49, KineticsMaterial.cc:18-33. -/
def blank : KMat K where
  st := fun _ _ => 0
  sa := fun _ _ => 0
  sf := fun _ _ => 0
  nu := fun _ _ => 1
  nsf := fun _ _ => 0
  chi := fun _ _ => 0
  dc := fun _ _ => 0
  ss := fun _ _ _ => 0
  velocity := fun _ => 0
  lambda := fun _ => 0
  beta := fun _ _ => 0
  chid := fun _ _ _ => 0

/-- Constructor, LRA.cc:18-50; `volume` is that of a cell. -/
def Lra.new (n : Nat) (region : Nat → Nat) (volume : Nat → K) (transport steady : Bool) : Lra K where
  n := n
  region := region
  transport := transport
  steady := steady
  mat := setNsf (fillMat n region transport blank)
  kcrit := 1
  T := fun _ => 300
  dT := fun _ => 300
  P := fun _ => 0
  area := (List.range n).foldl (fun a i => if region i ≠ REFLECTOR then a + volume i else a) 0

/-- `update(t, dt, order, synthetic)`, TimeDependentMaterial.cc:31-89. -/
def Lra.update (sqrt : K → K) (x : Lra K) (t dt : K) (order : Nat) (synthetic : Bool) : Option (Lra K) :=
  (Kin.update 2 2 order dt x.kcrit synthetic (impl sqrt x.n x.region x.transport x.steady x.T t) x.mat).map
    fun M => { x with mat := M }

/-- `update_P_and_T(t, dt)`, LRA.cc:176-194, with the fluxes `phi0`, `phi1` of the state.  (`T[0]` is printed.) -/
def Lra.updatePT (x : Lra K) (t : K) (phi0 phi1 : Nat → K) : Lra K :=
  let f (i : Nat) : K := x.mat.sf i 0 * phi0 i + x.mat.sf i 1 * phi1 i
  { x with
    P := fun i => if i < x.n then (KAPPA : K) * f i else x.P i
    T := fun i => if i < x.n ∧ 0 < t then (ALPHA : K) * f i else x.T i }

/-- Calls a client can make: the two updates, writing the temperatures (the stepper does so through `physics()`) and
    setting the eigenvalue. -/
inductive Call (K : Type)
  | update (t dt : K) (order : Nat) (synthetic : Bool)
  | updatePT (t : K) (phi0 phi1 : Nat → K)
  | setT (T : Nat → K)
  | setK (k : K)

/-- One call. -/
def Lra.step (sqrt : K → K) (x : Lra K) : Call K → Option (Lra K)
  | .update t dt order syn => x.update sqrt t dt order syn
  | .updatePT t phi0 phi1 => some (x.updatePT t phi0 phi1)
  | .setT T => some { x with T := T }
  | .setK k => some { x with kcrit := k }

/-- A sequence of calls. -/
def Lra.run (sqrt : K → K) (x : Lra K) : List (Call K) → Option (Lra K)
  | [] => some x
  | c :: cs => (x.step sqrt c).bind fun y => y.run sqrt cs

/-- What `T()` returns, LRA.hh:80. -/
def Lra.getT (x : Lra K) (i : Nat) : K := x.dT i

end Detran.Lra
