import Mathlib.Algebra.BigOperators.Group.List.Basic
import Verif.Model.EigenPI

/-!
# Model of `FixedSourceManager` and `EigenvalueManager` (solvers)

The managers are state machines driven by the client.  What the objects compute is a parameter (`Phys`); which
objects exist, which options they were built with and which sources they hold is modelled.  Further entries that
constructors of solvers read (preconditioners, cutoffs, tolerances) are taken to be acceptable.
-/

namespace Detran.Managers

/-- `EQTYPES`, FixedSourceManager.hh:43-46. -/
inductive Disc | sn | moc | diff
deriving DecidableEq, Repr

/-- The type of the boundary container. -/
inductive Bnd | sn | diffusion
deriving DecidableEq, Repr

/-- The multigroup solvers that `set_solver` builds. -/
inductive Kind | diffusion | gs | cmfd | gmres
deriving DecidableEq, Repr

/-- The entries of the input database the managers read; `quadOk` and `bcOk` tell whether the quadrature factory
    and the boundary factory accept theirs (they throw otherwise). -/
structure Db where
  equation : Option String
  outer : Option String
  inner : Option String
  eigen : Option String
  quadOk : Bool
  bcOk : Bool
deriving DecidableEq, Repr

/-- `setup`, FixedSourceManager.cc:84-91. -/
def discOf (db : Db) : Disc :=
  let eq := db.equation.getD "dd"
  if eq = "scmoc" ∨ eq = "ddmoc" then .moc else if eq = "diffusion" then .diff else .sn

/-- A multigroup solver: what it is, the equation of its sweeper, its own copy of the list of external sources,
    the set-up whose state, boundary and fission source it points to, and the type of that boundary. -/
structure Solver (Src : Type) where
  kind : Kind
  eqn : String
  sources : List Src
  epoch : Nat
  bnd : Option Bnd
deriving DecidableEq, Repr

/-- A fixed-source manager.  `epoch` counts completed set-ups and stands for the identity of the objects made
    there; `phi`, `dens` and `fsrc` are the contents of the state and of the fission source. -/
structure Mgr (Src E Dn : Type) where
  dim : Nat
  multiply : Bool
  fission : Bool
  disc : Disc
  isSetup : Bool
  ready : Bool
  epoch : Nat
  quad : Bool
  bnd : Option Bnd
  fobj : Bool
  sources : List Src
  solver : Option (Solver Src)
  phi : E
  dens : Dn
  fsrc : E

/-- What the objects compute: the moments of an external source, the fission density of a flux
    (`FissionSource::update`), the group sources of a density at scale one (`FissionSource::setup_outer()`), a
    multigroup solve (kind, `d_multiply`, `keff`, fixed source, flux before) and the L2 distance that `iterate`
    returns. -/
structure Phys (K Src E Dn : Type) where
  src : Src → E
  zeroD : Dn
  density : E → Dn
  emit : Dn → E
  run : Kind → Bool → K → E → E → E
  dist : E → E → K

variable {K Src E Dn : Type} [AddCommMonoid E]

/-- The constructors, FixedSourceManager.cc:28-76, `Require` and `Insist` on the arguments aside.  The contents of
    the objects that do not exist yet are zero here and never read. -/
def Mgr.fresh (P : Phys K Src E Dn) (dim : Nat) (multiply fission : Bool) : Mgr Src E Dn :=
  { dim := dim, multiply := multiply, fission := multiply || fission, disc := .sn, isSetup := false, ready := false,
    epoch := 0, quad := false, bnd := none, fobj := false, sources := [], solver := none, phi := 0,
    dens := P.zeroD, fsrc := 0 }

/-- What a call gives back: nothing, a truth value, a number, an exception, undefined behaviour. -/
inductive Ret (K : Type)
  | unit
  | flag (b : Bool)
  | value (r : K)
  | threw
  | ub
deriving DecidableEq, Repr

/-- `setup`, FixedSourceManager.cc:81-157.  The state is made anew with zero flux (State.cc), the fission source with
    zero density and zero group sources (FissionSource.cc:17-37). -/
def Mgr.setup (P : Phys K Src E Dn) (db : Db) (m : Mgr Src E Dn) : Ret K × Mgr Src E Dn :=
  let d := discOf db
  let q := m.quad || decide (d ≠ .diff)
  if d ≠ .diff ∧ db.quadOk = false then (.threw, { m with disc := d })
  else if d = .sn ∧ db.bcOk = false then (.threw, { m with disc := d, quad := q })
  else (.unit, { m with
    disc := d
    quad := q
    bnd := some (if d = .sn then Bnd.sn else Bnd.diffusion)
    phi := 0
    fobj := m.fobj || m.fission
    dens := if m.fission then P.zeroD else m.dens
    fsrc := if m.fission then 0 else m.fsrc
    isSetup := true
    ready := false
    epoch := m.epoch + 1 })

/-- `set_source`, FixedSourceManager.cc:161-170; `none` is a null pointer. -/
def Mgr.setSource (q : Option Src) (m : Mgr Src E Dn) : Mgr Src E Dn :=
  match q with
  | none => m
  | some q => { m with sources := m.sources ++ [q] }

/-- `set_sweep`, WGSolver.cc:107-190: the equations there are sweepers for. -/
def sweepable (dim : Nat) (eqn : String) : Bool :=
  eqn = "dd" || (decide (dim ≤ 2) && (eqn = "sc" || eqn = "sd"))

/-- The name of the multigroup transport solver, FixedSourceManager.cc:195-222. -/
def outerKind (name : String) : Option Kind :=
  if name = "GS" then some .gs else if name = "CMFD" then some .cmfd
  else if name = "GMRES" then some .gmres else none

/-- Whether the constructor of a transport solver throws: MGTransportSolver.cc:33-53 (inner solver) and
    WGSolver.cc:85-98 (equation). -/
def transportThrows (db : Db) (dim : Nat) : Bool :=
  !(db.inner.getD "SI" = "SI" || db.inner.getD "SI" = "GMRES") || !sweepable dim (db.equation.getD "dd")

/-- `set_solver`, FixedSourceManager.cc:174-226. -/
def Mgr.setSolver (db : Db) (m : Mgr Src E Dn) : Ret K × Mgr Src E Dn :=
  if m.isSetup = false then (.flag false, m)
  else if m.disc = .diff then
    (.flag true, { m with solver := some ⟨.diffusion, "diffusion", m.sources, m.epoch, m.bnd⟩, ready := true })
  else
    match outerKind (db.outer.getD "GS") with
    | none => (.flag false, m)
    | some k =>
      if transportThrows db m.dim then (.threw, m)
      else (.flag true,
        { m with solver := some ⟨k, db.equation.getD "dd", m.sources, m.epoch, m.bnd⟩, ready := true })

/-- The fixed source a solver sees: its external sources and the group sources of the fission source, the latter
    unless fission is implicit (SweepSource.i.hh:40-46, MGDiffusionSolver.cc:157-170). -/
def Mgr.fixedSource (P : Phys K Src E Dn) (m : Mgr Src E Dn) (s : Solver Src) : E :=
  (s.sources.map P.src).sum + (if m.fobj ∧ m.multiply = false then m.fsrc else 0)

/-- `d_solver->solve(keff)`; null dereferenced: `none`. -/
def Mgr.runSolver (P : Phys K Src E Dn) (k : K) (m : Mgr Src E Dn) : Option (Mgr Src E Dn) :=
  m.solver.map fun s => { m with phi := P.run s.kind m.multiply k (m.fixedSource P s) m.phi }

/-- `solve`, FixedSourceManager.cc:229-243. -/
def Mgr.solve (P : Phys K Src E Dn) (k : K) (m : Mgr Src E Dn) : Ret K × Mgr Src E Dn :=
  if m.ready = false then (.flag false, m)
  else match m.runSolver P k with
    | none => (.ub, m)
    | some m' => (.flag true, m')

/-- `iterate`, FixedSourceManager.cc:244-297.  `one` is the default `keff`.  Called before a solver is ready it is
    outside its stated preconditions (undefined here). -/
def Mgr.iterate (P : Phys K Src E Dn) (one : K) (db : Db) (gen : Int) (m : Mgr Src E Dn) :
    Ret K × Mgr Src E Dn :=
  if m.ready = false ∨ m.fobj = false then (.ub, m)
  else if gen = 0 then
    match m.runSolver P one with
    | none => (.ub, m)
    | some m1 =>
      let m2 := { m1 with sources := [] }
      match (m2.setSolver db : Ret K × Mgr Src E Dn) with
      | (.threw, m3) => (.threw, m3)
      | (_, m3) => (.value (P.dist m3.phi m.phi), m3)
  else
    let m1 := { m with dens := P.density m.phi }
    match ({ m1 with phi := 0 } : Mgr Src E Dn).runSolver P one with
    | none => (.ub, m)
    | some m2 => (.value (P.dist m2.phi m.phi), m2)

/-- `fissionsource()->update(); fissionsource()->setup_outer();` by the client, FissionSource.i.hh:16-45. -/
def Mgr.refreshFission (P : Phys K Src E Dn) (m : Mgr Src E Dn) : Ret K × Mgr Src E Dn :=
  if m.fobj = false then (.ub, m)
  else (.unit, { m with dens := P.density m.phi, fsrc := P.emit (P.density m.phi) })

/-- What a client can do. -/
inductive Call (K Src : Type)
  | put (db : Db)
  | setup
  | setSource (q : Option Src)
  | setSolver
  | solve (k : K)
  | iterate (gen : Int)
  | refreshFission

/-- One call: what it returns, the database and the manager afterwards. -/
def step (P : Phys K Src E Dn) (one : K) (w : Db × Mgr Src E Dn) : Call K Src → Ret K × (Db × Mgr Src E Dn)
  | .put db => (.unit, (db, w.2))
  | .setup => let r := w.2.setup P w.1; (r.1, (w.1, r.2))
  | .setSource q => (.unit, (w.1, w.2.setSource q))
  | .setSolver => let r := (w.2.setSolver w.1 : Ret K × Mgr Src E Dn); (r.1, (w.1, r.2))
  | .solve k => let r := w.2.solve P k; (r.1, (w.1, r.2))
  | .iterate g => let r := w.2.iterate P one w.1 g; (r.1, (w.1, r.2))
  | .refreshFission => let r := (w.2.refreshFission P : Ret K × Mgr Src E Dn); (r.1, (w.1, r.2))

/-- A history: the calls with what they returned, and where they lead. -/
def trace (P : Phys K Src E Dn) (one : K) (w : Db × Mgr Src E Dn) (h : List (Call K Src)) :
    List (Call K Src × Ret K) × (Db × Mgr Src E Dn) :=
  h.foldl (fun s c => let r := step P one s.2 c; (s.1 ++ [(c, r.1)], r.2)) ([], w)

/-! ## `EigenvalueManager` -/

/-- The eigenvalue solvers. -/
inductive EKind | pi | diffusion | arnoldi | cmfd | gd
deriving DecidableEq, Repr

/-- The constructors, EigenvalueManager.cc:32-76: the result of `set_solver` is not looked at.  `none`: an exception
    leaves the constructor. -/
def eigenManager (P : Phys K Src E Dn) (db : Db) (dim : Nat) : Option (Mgr Src E Dn) :=
  match (Mgr.fresh P dim false true).setup P db with
  | (.threw, _) => none
  | (_, m) => match (m.setSolver db : Ret K × Mgr Src E Dn) with
    | (.threw, _) => none
    | (_, m) => some m

/-- `EigenvalueManager::solve`, EigenvalueManager.cc:81-137: the solver that is built and run, `none` if the answer
    is false.  The discretisation is the one found at construction. -/
def eigenChoice (db : Db) (d : Disc) : Option EKind :=
  let name := db.eigen.getD "PI"
  if name = "PI" then some .pi
  else if name = "diffusion" then (if d ≠ .diff then none else some .diffusion)
  else if name = "arnoldi" then some .arnoldi
  else if name = "cmfd" then some .cmfd
  else if name = "GD" then (if d = .diff then none else some .gd)
  else none

/-- The truth value `EigenvalueManager::solve` returns. -/
def eigenReturns (db : Db) (d : Disc) : Bool := (eigenChoice db d).isSome

end Detran.Managers
