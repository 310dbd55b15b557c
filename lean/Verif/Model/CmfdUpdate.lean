import Verif.Model.Diffusion
import Verif.Model.DiffSolve
import Verif.Model.Homog
import Verif.Model.Sources

/-!
# Model of the CMFD-accelerated solvers: `MGSolverCMFD` (solvers/mg) and `EigenCMFD` (solvers/eigen)

The transport sweep, the current tally (C37), the linear solver and the eigenvalue solver are parameters.
-/

namespace Detran.CmfdUpd

open Detran.Diffusion Detran.Matrix

variable {K : Type} [Field K] [LinearOrder K]

/-- What an update reads: groups, fine cells with volumes, coarse-cell map (`"COARSEMESH"`), materials; the coarse mesh;
    boundary albedos; the options. -/
structure Prob (K : Type) where
  G : Nat
  n : Nat
  vol : Nat → K
  map : Nat → Nat
  mat : Nat → Nat
  fm : Homog.Mat K
  M : Grid K
  al : Nat → K
  multiply : Bool
  adjoint : Bool
  dcw : Nat
  omega : K

/-- Arguments of `Homogenize::homogenize(state, mesh, "COARSEMESH")`, MGSolverCMFD.cc:150-151: every group its own coarse
    group; the weighting current is the flux unless current weighting is on and the state stores a current
    (Homogenize.cc:42-43, 212-229), which is then `cur`. -/
def Prob.input (p : Prob K) (phi : Nat → Nat → K) (cur : Option (Nat → Nat → K)) : Homog.Input K where
  G := p.G
  cells := p.n
  reg := p.map
  mat := p.mat
  vol := p.vol
  phi := phi
  cur := if p.dcw = 1 then cur.getD phi else phi
  cg := Homog.coarseGroups p.G [] []
  g0 := Homog.firstGroup []
  m := p.fm

/-- The weighting option in force, Homogenize.cc:42-43. -/
def Prob.opt (p : Prob K) (cur : Option (Nat → Nat → K)) : Nat := if p.dcw = 1 ∧ cur.isNone then 0 else p.dcw

/-- The homogenised material as an object of class `Material`, Homogenize.cc:96-187; unset entries keep the value of the
    constructor.  The coarse cells all occur in the map, so `vec_max + 1` is their number. -/
def coarseMat (I : Homog.Input K) (o cells : Nat) : Material.Mat K :=
  Material.Mat.finalize
    { (Material.Mat.new cells I.cg.length : Material.Mat K) with
      sigT := fun g m => (Homog.coarse I o).st m g
      sigA := fun g m => (Homog.coarse I o).sa m g
      sigF := fun g m => (Homog.coarse I o).sf m g
      nuSigF := fun g m => (Homog.coarse I o).nsf m g
      nu := fun g m => if 0 < Homog.rate I I.m.st g m ∧ 0 < Homog.rate I I.m.sf g m then
        Homog.rate I I.m.nsf g m / Homog.rate I I.m.sf g m else 1
      chi := fun g m => (Homog.coarse I o).chi m g
      sigS := fun g gp m => (Homog.coarse I o).ss m g gp
      diff := fun g m => (Homog.coarse I o).dc m g }

/-- The coarse operator, MGSolverCMFD.cc:155-162 with CMFDLossOperator.cc:24-138, CMFDLossOperator.hh:87-90: `keff` goes to the
    constructor, but `construct(phi)` has a default argument one which replaces it; the first build of an operator does
    not relax.  Each coarse cell is its own material (CoarseMesh.cc:107-110). -/
def Prob.cmfd (p : Prob K) (phi : Nat → Nat → K) (cur : Option (Nat → Nat → K)) (net : Nat → Nat → Nat → Nat → Nat → K)
    (fix : Nat → Nat → Nat → Bool) (_keff : K) : Cmfd K where
  L :=
    { M := p.M
      mat := coarseMat (p.input phi cur) (p.opt cur) p.M.size
      mmap := fun c => c
      al := p.al
      adjoint := p.adjoint
      cutoff := if p.adjoint then p.G - 1 else 0
      fission := p.multiply
      sf := 0
      keff := 1 }
  net := net
  phi := fun g c => Homog.coarseFlux (p.input phi cur) g c
  alpha := 1
  old := fun _ _ _ => 0
  fix := fix

/-- The accumulation over groups and cells `x[ci] += v(g, i) * v_ratio`, MGSolverCMFD.cc:165-181,
    EigenCMFD.cc:147-157. -/
def Prob.coarsen (p : Prob K) (v : Nat → Nat → K) : Nat → K :=
  ((List.range p.G).flatMap fun g => (List.range p.n).map fun i =>
    (p.map i + g * p.M.size, v g i * (p.vol i / p.M.volume (p.map i)))).foldl addAt (fun _ => 0)

/-- Scaling of the fluxes, MGSolverCMFD.cc:190-197, EigenCMFD.cc:173-180 (each entry is visited once). -/
def Prob.scale (p : Prob K) (x x0 : Nat → K) (phi : Nat → Nat → K) : Nat → Nat → K := fun g i =>
  if g < p.G ∧ i < p.n then
    phi g i * (p.omega * x (p.map i + g * p.M.size) / x0 (p.map i + g * p.M.size) + (1 - p.omega))
  else phi g i

/-- The source taken for the coarse problem, MGSolverCMFD.cc:170-173: what `build_fixed` leaves, in exact arithmetic and
    without undefined reads. -/
def fixedSource (q : Sources.Quad K) (qe : List (Option (Sources.Ext K))) (qf : Option (Nat → Nat → K)) (g i : Nat) : K :=
  (Sources.buildFixed q (Sources.route qe).1 (qf.map fun f => f g i) i g).getD 0

/-- `MGSolverCMFD::update`, MGSolverCMFD.cc:143-199; `lin C b x` is what the linear solver returns for the matrix, the
    right hand side and the guess. -/
def Prob.update (p : Prob K) (srt : List (Trip K) → List (Trip K)) (lin : CSR K → (Nat → K) → (Nat → K) → (Nat → K))
    (q : Nat → Nat → K) (net : Nat → Nat → Nat → Nat → Nat → K) (fix : Nat → Nat → Nat → Bool)
    (cur : Option (Nat → Nat → K)) (keff : K) (phi : Nat → Nat → K) : Option (Nat → Nat → K) :=
  match (p.cmfd phi cur net fix keff).sys.make srt with
  | .ok (some C, _) =>
    let b := p.coarsen q
    let x0 := p.coarsen phi
    some (p.scale (lin C b x0) x0 phi)
  | _ => none

/-! ## The outer loops -/

/-- What the loop of `MGSolverCMFD::solve` needs: the state of the problem (fluxes, boundary fluxes, tally), one sweep
    through the groups, one update, the change of the flux between two states. -/
structure Loop (S K : Type) where
  sweep : S → S
  update : S → S
  change : S → S → K
  tol : K
  max : Nat

/-- What is left behind: the state, the last change, the iteration count printed, whether the test stopped the loop. -/
structure LoopOut (S K : Type) where
  s : S
  err : K
  it : Nat
  stopped : Bool

/-- The loop, MGSolverCMFD.cc:94-118, with `left` passes to go. -/
def Loop.go {S : Type} (l : Loop S K) : Nat → Nat → S → K → LoopOut S K
  | 0, it, s, err => ⟨s, err, it, false⟩
  | left + 1, it, s, _ =>
    let s' := l.sweep s
    let err := l.change s' s
    if err < l.tol then ⟨s', err, it, true⟩ else l.go left (it + 1) (l.update s') err

/-- `MGSolverCMFD::solve`, MGSolverCMFD.cc:79-127: `iteration <= d_maximum_iterations` from zero. -/
def Loop.solve {S : Type} (l : Loop S K) (s : S) : LoopOut S K := l.go (l.max + 1) 0 s 0

/-! ## The current used for weighting -/

/-- `compute_current`, MGSolverCMFD.cc:203-225 (the same EigenCMFD.cc:187-210), in one group and cell before the square
    root: components summed over octants and angles with `cosines(d)[a]`, which are those of the first octant. -/
def current (dim : Nat) (q : Sources.Quad K) (cosines : Nat → Nat → K) (psi : Nat → Nat → K) (d : Nat) : K :=
  if d < dim then q.dirs.foldl (fun J oa => J + q.w oa.2 * psi oa.1 oa.2 * cosines d oa.2) 0 else 0

/-- The value stored, up to the square root. -/
def currentSq (dim : Nat) (q : Sources.Quad K) (cosines : Nat → Nat → K) (psi : Nat → Nat → K) : K :=
  current dim q cosines psi 0 * current dim q cosines psi 0 + current dim q cosines psi 1 * current dim q cosines psi 1
    + current dim q cosines psi 2 * current dim q cosines psi 2

/-! ## The eigenvalue solver -/

/-- The problem as the eigenvalue solver sees it: weighting by flux, no fission in the loss operator, `d_adjoint` false
    (see `Diffusion.eigenAdjoint`). -/
def Prob.forEigen (p : Prob K) : Prob K := { p with dcw := 0, adjoint := false, multiply := false }

/-- The loss operator of one `cmfd_update`, EigenCMFD.cc:111-131; it keeps its correction factors `old` and relaxes with
    `relax` from the second update on. -/
def Prob.eigenLoss (p : Prob K) (phi : Nat → Nat → K) (net : Nat → Nat → Nat → Nat → Nat → K)
    (fix : Nat → Nat → Nat → Bool) (first : Bool) (relax : K) (old : Nat → Nat → Nat → K) : Cmfd K :=
  { p.forEigen.cmfd phi none net fix 1 with alpha := if first then 1 else relax, old := old }

/-- The gain operator, EigenCMFD.cc:134-144. -/
def Prob.eigenGain (p : Prob K) (phi : Nat → Nat → K) (srt : List (Trip K) → List (Trip K)) :
    Out (Option (CSR K) × List Bool) :=
  gain (coarseMat (p.forEigen.input phi none) (p.forEigen.opt none) p.M.size) (fun c => c) p.M.size false srt

/-- `EigenCMFD::cmfd_update`, EigenCMFD.cc:101-183: the eigenvalue and the new fluxes.  `nrm` is the Euclidean norm,
    `eig F M x` the pair the eigenvalue solver returns for gain, loss and guess.  The matrices are made from scratch: on
    an assembled matrix the same entries result as long as the scattering structure stays (C52). -/
def Prob.eigenUpdate (p : Prob K) (srt : List (Trip K) → List (Trip K)) (nrm : (Nat → K) → K)
    (eig : CSR K → CSR K → (Nat → K) → K × (Nat → K)) (net : Nat → Nat → Nat → Nat → Nat → K)
    (fix : Nat → Nat → Nat → Bool) (first : Bool) (relax : K) (old : Nat → Nat → Nat → K) (phi : Nat → Nat → K) :
    Option (K × (Nat → Nat → K)) :=
  match (p.eigenLoss phi net fix first relax old).sys.make srt, p.eigenGain phi srt with
  | .ok (some M, _), .ok (some F, _) =>
    let x := p.coarsen phi
    let x0 := fun r => x r * (1 / nrm x)
    let kv := eig F M x0
    some (kv.1, p.scale (fun r => kv.2 r * (1 / nrm kv.2)) x0 phi)
  | _, _ => none

/-- What the loop of `EigenCMFD::solve` needs: density from state, state after setting a density and one sweep through the
    groups, the update, normalisation, change. -/
structure ELoop (S D K : Type) where
  dens : S → D
  sweep : D → S → S
  update : S → K × S
  normed : D → D
  change : D → D → K
  tol : K
  max : Nat

/-- What is left behind. -/
structure ELoopOut (S D K : Type) where
  keff : K
  s : S
  d : D
  it : Nat
  stopped : Bool

/-- The loop, EigenCMFD.cc:55-82. -/
def ELoop.go {S D : Type} (l : ELoop S D K) : Nat → Nat → K → S → D → ELoopOut S D K
  | 0, it, k, s, d => ⟨k, s, d, it, false⟩
  | left + 1, it, _, s, d =>
    let ks := l.update (l.sweep d s)
    let d' := l.normed (l.dens ks.2)
    if l.change d' d < l.tol then ⟨ks.1, ks.2, d', it, true⟩ else l.go left (it + 1) ks.1 ks.2 d'

/-- `EigenCMFD::solve`, EigenCMFD.cc:35-97, from the initial density. -/
def ELoop.solve {S D : Type} (l : ELoop S D K) (s : S) (d : D) : ELoopOut S D K := l.go l.max 1 1 s d

end Detran.CmfdUpd
