import Mathlib.Algebra.Field.Basic
import Mathlib.Algebra.Order.Floor.Defs
import Mathlib.Order.Defs.LinearOrder

/-!
# Model of `kinetics/` and `solvers/time/TimeStepper`

Doubles are elements of an exact field.  Material data are functions of the indices the accessors take
(`m` material, `g` group, `i` precursor group); loops that fill an array entry by entry from the entry's
own indices are written as the function they compute.
-/

namespace Detran.Kin

variable {K : Type} [Field K]

/-! ## Backward differences -/

/-- `bdf_coefs`, BDFCoefficients.hh:21-29. -/
def bdfRows : List (List K) :=
  [[1, 1, 0, 0, 0, 0, 0],
   [3 / 2, 4 / 2, -1 / 2, 0, 0, 0, 0],
   [11 / 6, 18 / 6, -9 / 6, 2 / 6, 0, 0, 0],
   [25 / 12, 48 / 12, -36 / 12, 16 / 12, -3 / 12, 0, 0],
   [137 / 60, 300 / 60, -300 / 60, 200 / 60, -75 / 60, 12 / 60, 0],
   [147 / 60, 360 / 60, -450 / 60, 400 / 60, -225 / 60, 72 / 60, -10 / 60]]

/-- `bdf_coefs[order-1][j]`. -/
def bdf (order j : Nat) : K := ((bdfRows (K := K)).getD (order - 1) []).getD j 0

/-! ## Interpolation in time -/

section
variable [LinearOrder K]

/-- Two indices and their factors: `iA`, `iB`, `A`, `B`. -/
structure Weights (K : Type) where
  iA : Nat
  iB : Nat
  A : K
  B : K
deriving DecidableEq

/-- The search `for (i = 1; i < n; ++i) if (t > t[i-1] && t <= t[i]) index_B = i`,
    LinearMaterial.cc:83-85, LinearExternalSource.i.hh:69-71. -/
def searchB (times : List K) (t : K) : Nat :=
  (List.range (times.length - 1)).foldl
    (fun b k => if times.getD k 0 < t ∧ t ≤ times.getD (k + 1) 0 then k + 1 else b) 0

/-- `LinearMaterial::update_impl`, LinearMaterial.cc:63-98 and `LinearExternalSource::set_time`,
    LinearExternalSource.i.hh:47-76 (the same text).  `none`: an index outside the table, when the table
    is empty or when the search finds nothing and `index_A` wraps below zero. -/
def weights (times : List K) (t : K) : Option (Weights K) :=
  if times.length = 0 then none
  else if t ≤ times.getD 0 0 then some ⟨0, 0, 1, 0⟩
  else if times.getD (times.length - 1) 0 < t then some ⟨times.length - 1, times.length - 1, 1, 0⟩
  else
    let iB := searchB times t
    if iB = 0 then none
    else
      let B := (t - times.getD (iB - 1) 0) / (times.getD iB 0 - times.getD (iB - 1) 0)
      some ⟨iB - 1, iB, 1 - B, B⟩

end

/-- `cA * x_A + cB * x_B`: an interpolated entry, LinearMaterial.cc:114-128, or source value,
    LinearExternalSource.i.hh:24-27, 40-43. -/
def Weights.apply (w : Weights K) (f : Nat → K) : K := w.A * f w.iA + w.B * f w.iB

/-! ## Pulsed sources -/

/-- The factor of `PulsedExternalSource::set_time`, PulsedExternalSource.i.hh:44-51, with the exponential
    a parameter. -/
def pulse (exp : K → K) (peak fwhm t : K) : K :=
  let den := 2 * (fwhm / (2354820045030949 / 1000000000000000)) ^ 2
  exp (-((t - peak) ^ 2) / den)

/-! ## Kinetics materials -/

/-- The data of a `KineticsMaterial`; `nsf` is set by `finalize`. -/
structure KMat (K : Type) where
  st : Nat → Nat → K
  sa : Nat → Nat → K
  sf : Nat → Nat → K
  nu : Nat → Nat → K
  nsf : Nat → Nat → K
  chi : Nat → Nat → K
  dc : Nat → Nat → K
  /-- `sigma_s(m, g, gp)` -/
  ss : Nat → Nat → Nat → K
  velocity : Nat → K
  lambda : Nat → K
  /-- `beta(m, i)` -/
  beta : Nat → Nat → K
  /-- `chi_d(m, i, g)` -/
  chid : Nat → Nat → Nat → K

/-- `KineticsMaterial::beta_total`, KineticsMaterial.i.hh:39-46, for `np` precursor groups. -/
def KMat.betaTotal (M : KMat K) (np m : Nat) : K := (List.range np).foldl (fun v i => v + M.beta m i) 0

/-- `LinearMaterial::update_material`, LinearMaterial.cc:101-133, on the material `M` being filled:
    velocities and decay constants keep the values the constructor took from the first table entry,
    and `nu_sigma_f` is left to `finalize`. -/
def mix (M : KMat K) (tab : Nat → KMat K) (w : Weights K) : KMat K :=
  { M with
    st := fun m g => w.apply fun k => (tab k).st m g
    sa := fun m g => w.apply fun k => (tab k).sa m g
    sf := fun m g => w.apply fun k => (tab k).sf m g
    nu := fun m g => w.apply fun k => (tab k).nu m g
    dc := fun m g => w.apply fun k => (tab k).dc m g
    ss := fun m g gp => w.apply fun k => (tab k).ss m g gp
    chid := fun m i g => w.apply fun k => (tab k).chid m i g
    chi := fun m g => w.apply fun k => (tab k).chi m g
    beta := fun m i => w.apply fun k => (tab k).beta m i }

/-- `TimeIndependentMaterial::update_impl`, TimeIndependentMaterial.cc: everything is copied from the
    material wrapped. -/
def wrapped (km : KMat K) (_ : KMat K) : KMat K := km

/-- The part of `TimeDependentMaterial::update` after `update_impl` and before `finalize`,
    TimeDependentMaterial.cc:49-87, with leading coefficient `a0`. -/
def adjust (np : Nat) (a0 dt k : K) (synthetic : Bool) (M : KMat K) : KMat K :=
  if synthetic then
    { M with
      st := fun m g => M.st m g + a0 / (M.velocity g * dt)
      chi := fun m g => (List.range np).foldl
        (fun c i => c + M.lambda i * M.chid m i g * dt * M.beta m i / (a0 + dt * M.lambda i))
        ((1 - M.betaTotal np m) * M.chi m g)
      sf := fun m g => M.sf m g / k }
  else { M with sf := fun m g => M.sf m g / k }

/-- The data part of `Material::finalize`, Material.cc:351: `nu_sigma_f = nu * sigma_f`. -/
def setNsf (M : KMat K) : KMat K := { M with nsf := fun m g => M.nu m g * M.sf m g }

section
variable [LinearOrder K]

/-- The checks of `KineticsMaterial::finalize`, KineticsMaterial.cc:77-84: decay constants and velocities
    positive, otherwise an exception (`none`).  (The spectrum checks after them are `Assert`s.) -/
def finalize (np G : Nat) (M : KMat K) : Option (KMat K) :=
  if (∀ i, i < np → 0 < M.lambda i) ∧ (∀ g, g < G → 0 < M.velocity g) then some (setNsf M) else none

/-- `TimeDependentMaterial::update`, TimeDependentMaterial.cc:32-91, for a subclass whose `update_impl`
    is `impl` (a function of the data held before). -/
def update (np G order : Nat) (dt k : K) (synthetic : Bool) (impl : KMat K → KMat K) (M : KMat K) :
    Option (KMat K) :=
  finalize np G (adjust np (bdf order 0) dt k synthetic (impl M))

end

/-! ## Synthetic sources -/

/-- One term `j` of `SyntheticMomentSource::build`, SyntheticMomentSource.i.hh:81-116, added to the entry
    of group `g` in a cell of material `m`: `phi j` and `C j i` are the stored flux (of that group) and
    concentrations in that cell. `np` is zero when no precursors are stored. -/
def momentTerm (M : KMat K) (np order : Nat) (dt : K) (m g : Nat) (phi : Nat → K) (C : Nat → Nat → K)
    (s : K) (j : Nat) : K :=
  (List.range np).foldl (fun s i => s + bdf order (j + 1) * M.lambda i /
      (bdf order 0 + dt * M.lambda i) * M.chid m i g * C j i)
    (s + bdf order (j + 1) / dt / M.velocity g * phi j)

/-- `SyntheticMomentSource::build`, SyntheticMomentSource.i.hh:41-122. -/
def momentSource (M : KMat K) (np order : Nat) (dt : K) (m g : Nat) (phi : Nat → K)
    (C : Nat → Nat → K) : K :=
  (List.range order).foldl (momentTerm M np order dt m g phi C) 0

/-- One term of `SyntheticDiscreteSource::build`, SyntheticDiscreteSource.i.hh:102-142. -/
def discreteTerm (M : KMat K) (np order : Nat) (dt norm : K) (m g : Nat) (psi : Nat → K)
    (C : Nat → Nat → K) (s : K) (j : Nat) : K :=
  (List.range np).foldl (fun s i => s + bdf order (j + 1) * norm * M.lambda i /
      (bdf order 0 + dt * M.lambda i) * M.chid m i g * C j i)
    (s + bdf order (j + 1) / dt / M.velocity g * psi j)

/-- `SyntheticDiscreteSource::build`, SyntheticDiscreteSource.i.hh:51-145, for one angle: `psi j` is the
    stored angular flux of that angle, `norm` is `Quadrature::angular_norm`. -/
def discreteSource (M : KMat K) (np order : Nat) (dt norm : K) (m g : Nat) (psi : Nat → K)
    (C : Nat → Nat → K) : K :=
  (List.range order).foldl (discreteTerm M np order dt norm m g psi C) 0

/-- `SyntheticDiscreteSource::source(cell, group)`, SyntheticDiscreteSource.i.hh:17-35: integral over
    `no` octants of `na` angles, `q o a` being the stored source. -/
def integrate (no na : Nat) (w : Nat → K) (q : Nat → Nat → K) : K :=
  (List.range no).foldl (fun v o => (List.range na).foldl (fun v a => v + q o a * w a) v) 0

/-! ## Precursors -/

/-- `FissionSource::update`, FissionSource.i.hh:32-45, in one cell of material `m`. -/
def fissionDensity (M : KMat K) (G m : Nat) (phi : Nat → K) : K :=
  (List.range G).foldl (fun d g => d + phi g * M.nsf m g) 0

/-- `TimeStepper::initialize_precursors`, TimeStepper.cc:337-346. -/
def initPrecursor (lambda beta fd : K) : K := 1 / lambda * beta * fd

/-- `TimeStepper::update_precursors`, TimeStepper.cc:379-399: `C j` is the concentration stored `j + 1`
    steps ago. -/
def updatePrecursor (order : Nat) (dt lambda beta fd : K) (C : Nat → K) : K :=
  (List.range order).foldl
    (fun v k => v + dt / (bdf order 0 + dt * lambda) / dt * bdf order (k + 1) * C k)
    (0 + dt / (bdf order 0 + dt * lambda) * beta * fd)

/-- `TimeStepper::update_multiphysics`, TimeStepper.cc:427-434, for one element: `rhs` is what the user's
    function left in the working vector. -/
def updatePhysics (order : Nat) (dt rhs : K) (P : Nat → K) : K :=
  (List.range order).foldl (fun v k => v + bdf order (k + 1) * P k) (dt * rhs) / bdf order 0

/-- `TimeStepper::extrapolate`, TimeStepper.cc:543-544, 555-556, 567-568: one entry. -/
def extrap (x x0 : K) : K := 2 * x - x0

/-- `TimeStepper::extrapolate`, TimeStepper.cc:511-535, with angular fluxes (no fix-up): the scalar flux
    is rebuilt from the extrapolated angular fluxes. -/
def extrapPhi (no na : Nat) (w : Nat → K) (psi psi0 : Nat → Nat → K) : K :=
  (List.range no).foldl (fun v o => (List.range na).foldl
    (fun v a => v + w a * extrap (psi o a) (psi0 o a)) v) 0

/-! ## The stepper -/

/-- `d_order` from `ts_scheme`, TimeStepper.cc:120-124 (0 is the implicit midpoint scheme). -/
def orderOf (scheme : Nat) : Nat := if scheme = 0 then scheme + 1 else scheme

/-- The order of step `i`, TimeStepper.cc:230-231. -/
def stepOrder (dOrder i : Nat) : Nat := if i < dOrder then i else dOrder

/-- The extrapolation flag, TimeStepper.cc:236-239. -/
def flag (scheme dOrder order : Nat) (noExtrap : Bool) : Bool :=
  let f := scheme = 0 || (order = 1 && decide (1 < dOrder))
  if noExtrap && !(scheme = 0) then false else f

/-- The number of steps, TimeStepper.cc:111-117: `n` is `ceil(final/dt)`. -/
def numberSteps (n : Nat) (maxSteps : Option Nat) : Nat :=
  match maxSteps with
  | none => n
  | some k => if k < n then k else n

/-- Where step `i` evaluates materials and sources, and with which step size, TimeStepper.cc:227,
    242-243, 286-287; `t` accumulates the step size. -/
def stepTime (dt : K) (flag : Bool) (i : Nat) : K × K :=
  let t := (List.range i).foldl (fun t _ => t + dt) 0
  if flag then (t - 1 / 2 * dt, 1 / 2 * dt) else (t, dt)

/-- The stored solutions: `slots` are the shared pointers `d_states` (addresses), `heap` the objects. -/
structure Hist (V : Type) where
  slots : List Nat
  heap : Nat → V

variable {V : Type}

/-- The constructor, TimeStepper.cc:139-149: one object per slot. -/
def Hist.new (dOrder : Nat) (v : V) : Hist V := ⟨List.range dOrder, fun _ => v⟩

/-- Contents of the slots. -/
def Hist.contents (h : Hist V) : List V := h.slots.map h.heap

/-- `*d_states[0] = *d_state`, TimeStepper.cc:208, 265. -/
def Hist.store (h : Hist V) (v : V) : Hist V :=
  ⟨h.slots, fun a => if a = h.slots.getD 0 0 then v else h.heap a⟩

/-- `TimeStepper::cycle_states_precursors`, TimeStepper.cc:440-477 (states, precursors and physics are
    moved in the same way). -/
def Hist.cycle (h : Hist V) : Hist V :=
  let d := h.slots.length
  let tmp := h.slots.getD (d - 1) 0
  let moved := (List.range (d - 1)).foldl
    (fun s i => s.set (d - i - 1) (s.getD (d - i - 1 - 1) 0)) h.slots
  ⟨moved.set 0 tmp, h.heap⟩

/-- One pass of the loop over time steps, TimeStepper.cc:225-272: `adv i order hist` is the solution
    found in step `i` from the stored solutions it reads, the first `order`. -/
def Hist.step (adv : Nat → Nat → List V → V) (h : Hist V) (i : Nat) : Hist V :=
  let order := stepOrder h.slots.length i
  let v := adv i order (h.contents.take order)
  h.cycle.store v

/-- `TimeStepper::solve`, TimeStepper.cc:194-274, after `n` steps from the initial solution. -/
def Hist.run (dOrder : Nat) (adv : Nat → Nat → List V → V) (junk init : V) (n : Nat) : Hist V :=
  (List.range n).foldl (fun h k => h.step adv (k + 1)) ((Hist.new dOrder junk).store init)

/-- The fixed-point iterations of a step, TimeStepper.cc:246-261: returns the last iterate and the number
    of iterations made.  `iter` performs `step`, `conv old new` is `check_convergence`. -/
def iterate (iter : V → V) (conv : V → V → Bool) : Nat → V → Nat → V × Nat
  | 0, v, k => (v, k)
  | n + 1, v, k =>
    let v' := iter v
    if conv v v' || n = 0 then (v', k + 1) else iterate iter conv n v' (k + 1)

/-- `check_convergence`, TimeStepper.cc:575-594, on the member `d_residual_norm`: the value computed goes
    into a local variable of the same name.  Returns the verdict and the member afterwards. -/
def checkConvergence [LinearOrder K] (member tol res : K) : Bool × K := (decide (res < tol), member)

end Detran.Kin
