import Verif.Model.Kinetics

/-!
# Model of a whole transient: `TimeStepper::solve` and `step`

The parts are those of `Model/Kinetics`; here they are put together.  Parameters: what the material's `update_impl` leaves
(a function of the time, of the solution it can see and of the data held before), the external sources at a time,
the multigroup solve (`FixedSourceManager::solve`, from the solution held before), the user's physics function and the
convergence test (`check_convergence`, TimeStepper.cc:575-594, on the fluxes before and after a pass).  One flux moment.
Angles are numbered over all octants; in diffusion there is one, of weight one.  Output and the monitor's printing are left
out, solver options are taken to be accepted, the order to be at most six, and the fix-up of negative angular fluxes
(TimeStepper.cc:530) is off: nothing turns it on.
-/

namespace Detran.Kin

variable {K : Type} [Field K]

/-- What one time level holds: flux `phi g i`, angular flux `psi g a i`, precursors `C p i`, physics variables `P v e`. -/
structure Sol (K : Type) where
  phi : Nat → Nat → K
  psi : Nat → Nat → Nat → K
  C : Nat → Nat → K
  P : Nat → Nat → K

/-- What a stepper is made of: numbers of groups, cells, precursor groups, angles and physics variables, material map,
    weights, `Quadrature::angular_norm`, `d_multiply`, `d_discrete`, `d_no_extrapolation`, `ts_scheme`, step size,
    `d_kcrit`, `d_maximum_iterations`, and the parameters named above. -/
structure Sys (K : Type) where
  G : Nat
  N : Nat
  np : Nat
  A : Nat
  NV : Nat
  mt : Nat → Nat
  w : Nat → K
  norm : K
  multiply : Bool
  discrete : Bool
  noExtrap : Bool
  scheme : Nat
  dt : K
  k : K
  maxIter : Nat
  impl : K → Sol K → KMat K → KMat K
  ext : K → Nat → Nat → Nat → K
  solve : KMat K → (Nat → Nat → Nat → K) → Sol K → (Nat → Nat → K) × (Nat → Nat → Nat → K)
  rhs : K → K → Sol K → Nat → Nat → K
  conv : Sol K → Sol K → Bool

/-- The stepper between two calls: material, current solution (`d_solver->state()`, `d_precursor`, `d_multiphysics`) and the
    stored ones. -/
structure Run (K : Type) where
  mat : KMat K
  cur : Sol K
  hist : Hist (Sol K)

/-- `*d_states[j]`. -/
def Run.at (r : Run K) (j : Nat) : Sol K := r.hist.heap (r.hist.slots.getD j 0)

/-- Whether precursors are followed, TimeStepper.cc:322, 358, 549. -/
def Sys.delayed (x : Sys K) : Bool := x.multiply && decide (x.np ≠ 0)

/-- `update_sources`, TimeStepper.cc:480-503, in one direction: the synthetic source (`d_precursors` is empty unless
    `d_multiply`, TimeStepper.cc:140) and the external ones. A moment source reaches each direction times the norm. -/
def Sys.source (x : Sys K) (S : KMat K) (order : Nat) (h t : K) (old : Nat → Sol K) (g a i : Nat) : K :=
  let np := if x.multiply then x.np else 0
  let C := fun j p => (old j).C p i
  (if x.discrete then discreteSource S np order h x.norm (x.mt i) g (fun j => (old j).psi g a i) C
   else x.norm * momentSource S np order h (x.mt i) g (fun j => (old j).phi g i) C) + x.ext t g a i

/-- `extrapolate`, TimeStepper.cc:506-572. -/
def Sys.extrapolate (x : Sys K) (s s0 : Sol K) : Sol K where
  phi := fun g i =>
    if x.discrete then (List.range x.A).foldl (fun v a => v + x.w a * extrap (s.psi g a i) (s0.psi g a i)) 0
    else extrap (s.phi g i) (s0.phi g i)
  psi := fun g a i => if x.discrete then extrap (s.psi g a i) (s0.psi g a i) else s.psi g a i
  C := fun p i => if x.delayed then extrap (s.C p i) (s0.C p i) else s.C p i
  P := fun v e => if v < x.NV then extrap (s.P v e) (s0.P v e) else s.P v e

/-- `update_multiphysics`, TimeStepper.cc:403-437. -/
def Sys.physics (x : Sys K) (order : Nat) (h t : K) (old : Nat → Sol K) (s : Sol K) : Sol K :=
  { s with P := fun v e =>
      if v < x.NV then updatePhysics order h (x.rhs t h s v e) (fun j => (old j).P v e) else s.P v e }

/-- The precursor loops of `update_precursors`, TimeStepper.cc:367-399, with the material `M`. -/
def Sys.precursors (x : Sys K) (M : KMat K) (order : Nat) (h : K) (old : Nat → Sol K) (s : Sol K) : Sol K :=
  { s with
    C := fun p i =>
      updatePrecursor order h (M.lambda p) (M.beta (x.mt i) p)
        (fissionDensity M x.G (x.mt i) fun g => s.phi g i) (fun j => (old j).C p i) }

section
variable [LinearOrder K]

/-- `step`, TimeStepper.cc:277-312.  `none`: the material refuses its data. -/
def Sys.pass (x : Sys K) (t h : K) (order : Nat) (flag : Bool) (r : Run K) : Option (Run K) := do
  let te := if flag then t - h else t
  let m1 ← update x.np x.G order h x.k true (x.impl te r.cur) r.mat
  let u := x.solve m1 (x.source m1 order h te r.at) r.cur
  let s1 : Sol K := { r.cur with phi := u.1, psi := u.2 }
  let (m2, s2) ←
    if x.delayed then (update x.np x.G order h x.k false (x.impl te s1) m1).map fun m2 => (m2, x.precursors m2 order h r.at s1)
    else some (m1, s1)
  let s3 := x.physics order h te r.at s2
  pure ⟨m2, if flag then x.extrapolate s3 (r.at 0) else s3, r.hist⟩

/-- The fixed-point iterations of a step, TimeStepper.cc:246-261. -/
def Sys.passes (x : Sys K) (t h : K) (order : Nat) (flag : Bool) : Nat → Run K → Option (Run K)
  | 0, r => some r
  | n + 1, r => do
    let r' ← x.pass t h order flag r
    if x.conv r.cur r'.cur || n = 0 then some r' else x.passes t h order flag n r'

/-- One pass of the loop over time steps, TimeStepper.cc:225-272. -/
def Sys.step (x : Sys K) (i : Nat) (r : Run K) : Option (Run K) := do
  let dOrder := orderOf x.scheme
  let t := (List.range i).foldl (fun t _ => t + x.dt) 0
  let order := stepOrder dOrder i
  let fl := flag x.scheme dOrder order x.noExtrap
  let r' ← x.passes t (if fl then 1 / 2 * x.dt else x.dt) order fl x.maxIter r
  pure { r' with hist := r'.hist.cycle.store r'.cur }

/-- Before the first step, TimeStepper.cc:203-210: the material is updated while it still sees the old solution, then the
    given fluxes are taken over, and the precursors are those in equilibrium with them. -/
def Sys.start (x : Sys K) (phi : Nat → Nat → K) (psi : Nat → Nat → Nat → K) (r : Run K) : Option (Run K) := do
  let m0 ← update x.np x.G 1 0 x.k false (x.impl 0 r.cur) r.mat
  let s0 : Sol K := { r.cur with phi := phi, psi := psi }
  let s1 : Sol K :=
    if x.delayed then
      { s0 with
        C := fun p i => initPrecursor (m0.lambda p) (m0.beta (x.mt i) p)
          (fissionDensity m0 x.G (x.mt i) fun g => s0.phi g i) }
    else s0
  pure ⟨m0, s1, r.hist.store s1⟩

/-- `solve`, TimeStepper.cc:194-274, with `n` steps: the stepper afterwards and the solutions a monitor sees at the end of
    the steps, newest first. -/
def Sys.transient (x : Sys K) (phi : Nat → Nat → K) (psi : Nat → Nat → Nat → K) (r : Run K) :
    Nat → Option (Run K × List (Sol K))
  | 0 => (x.start phi psi r).map fun r => (r, [r.cur])
  | n + 1 => do
    let (r, l) ← x.transient phi psi r n
    let r' ← x.step (n + 1) r
    pure (r', r'.cur :: l)

end

/-- The stepper as constructed, TimeStepper.cc:139-159: everything zero. -/
def Sys.new (x : Sys K) (M : KMat K) (P : Nat → Nat → K) : Run K :=
  let s : Sol K := ⟨fun _ _ => 0, fun _ _ _ => 0, fun _ _ => 0, P⟩
  ⟨M, s, Hist.new (orderOf x.scheme) s⟩

end Detran.Kin
