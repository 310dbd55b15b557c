import Verif.Model.Util
import Verif.Model.EigenSolve
import Verif.Model.Managers

/-!
# Model of what making solvers does to the input

The constructors of `src/solvers/wg/WGSolverGMRES.cc`, `src/solvers/mg/MGSolverGMRES.cc`,
`src/solvers/mg/MGDiffusionSolver.cc`, `src/solvers/mg/MGTCDSA.cc`, `src/solvers/eigen/EigenGD.cc`,
`src/solvers/eigen/EigenArnoldi.cc`, `src/solvers/eigen/EigenDiffusion.cc` and `src/solvers/rom/ROMSolver.cc`,
as far as they read and write databases.  Databases live in a store, since they hold shared pointers to one another;
the address of a new database is chosen by the allocator and is an argument here.

Left out: everything else the constructors do (operators, vectors, printing), the databases that preconditioners read,
and entries whose values do not decide which linear or eigenvalue solver is built.  An entry of the wrong type in a
solver database counts as undefined even where the creator would not come to read it.
-/

namespace Detran.SolverDb

open Detran.Util Detran.EigenSolve

variable {K : Type} [Field K]

/-- The databases there are, by address. -/
abbrev Store (K : Type) := Nat → Option (InputDB K)

/-- A database written at an address. -/
def Store.set (h : Store K) (a : Nat) (b : InputDB K) : Store K := fun p => if p = a then some b else h p

/-- How an attempt can end badly: undefined behaviour, an exception, or the answer `false`. -/
inductive Fail | ub | threw | refused
deriving DecidableEq, Repr

/-- `if (db->check(key)) x = db->get<T>(key);` with the value of `x` before; `none`: the entry has another type,
    undefined (InputDB.i.hh:20-81, 86-121). -/
def read (b : InputDB K) (t : Ty) (key : String) (x : t.Val K) : Option (t.Val K) :=
  if b.check key then b.get t key else some x

/-- A string entry. -/
def readStr (b : InputDB K) (key x : String) : Option String := read b .str key x

/-- An integer entry. -/
def readInt (b : InputDB K) (key : String) (x : Int) : Option Int := read b .int key x

/-- A floating-point entry. -/
def readDbl (b : InputDB K) (key : String) (x : K) : Option K := read b .dbl key x

/-- An integer entry that may be missing. -/
def readOpt (b : InputDB K) (key : String) : Option (Option Int) :=
  if b.check key then (show Option Int from b.get .int key).map some else some none

/-- Tolerance, iteration limit and print level of a solver: MGSolver.cc:28-33 (`outer_`) and WGSolver.cc:39-44
    (`inner_`); the values before are those of Solver.cc:28-30.  The limit is stored unsigned and later put as a
    signed integer again, which gives back the same number. -/
def settings (b : InputDB K) (pre : String) : Option (K × Int × Int) :=
  match readInt b (pre ++ "_max_iters") 100, readDbl b (pre ++ "_tolerance") (1 / 10 ^ 5),
      readInt b (pre ++ "_print_level") 2 with
  | some m, some t, some l => some (t, m, l)
  | _, _, _ => none

/-- The database made when there is none, WGSolverGMRES.cc:50-53, MGSolverGMRES.cc:113-116,
    MGDiffusionSolver.cc:60-64. -/
def madeDb (s : K × Int × Int) : InputDB K :=
  ((((InputDB.empty K).put .dbl "linear_solver_rtol" s.1).put .dbl "linear_solver_atol" s.1).put .int
    "linear_solver_maxit" s.2.1).put .int "linear_solver_monitor_level" s.2.2

/-- The solver database of an input: the one it holds, or a new one which is put into the input,
    WGSolverGMRES.cc:43-55, MGSolverGMRES.cc:106-118, MGDiffusionSolver.cc:53-66.  `new` is the address of a new one;
    `none`: undefined. -/
def own (key pre : String) (h : Store K) (a new : Nat) : Option (Nat × Store K) :=
  match h a with
  | none => none
  | some b => match settings b pre with
    | none => none
    | some s =>
      if b.check key then
        match (b.get .db key : Option Nat) with
        | some p => some (p, h)
        | none => none
      else
        some (new, (h.set new (madeDb s)).set a (b.put .db key new))

/-- The entries of a database as the creators see them. -/
def view (b : InputDB K) : Db K := ⟨fun k => b.get .str k, fun k => b.get .int k, fun k => b.get .dbl k⟩

/-- Entries the creator of linear solvers reads, LinearSolverCreator.cc:39-65. -/
def linearKeys : List (Ty × String) :=
  [(.str, "linear_solver_type"), (.dbl, "linear_solver_atol"), (.dbl, "linear_solver_rtol"),
   (.int, "linear_solver_maxit"), (.int, "linear_solver_monitor_level"), (.int, "linear_solver_monitor_diverge"),
   (.dbl, "linear_solver_richardson_omega"), (.dbl, "linear_solver_sor_omega"), (.int, "linear_solver_gmres_restart")]

/-- Entries the creator of eigenvalue solvers reads, EigenSolverCreator.cc:39-48, 67-74. -/
def eigenKeys : List (Ty × String) :=
  [(.str, "eigen_solver_type"), (.dbl, "eigen_solver_tol"), (.int, "eigen_solver_maxit"),
   (.int, "eigen_solver_monitor_level"), (.int, "eigen_number_values"), (.int, "eigen_solver_subspace_size")]

/-- Every entry read has the type it is read with. -/
def typed (keys : List (Ty × String)) (b : InputDB K) : Bool :=
  keys.all fun tk => !b.check tk.2 || (b.get tk.1 tk.2).isSome

/-- `LinearSolverCreator::Create(db)`, LinearSolverCreator.cc:23-124, for a database that is there. -/
def create (h : Store K) (p : Nat) : Except Fail (LinSolver K) :=
  match h p with
  | none => .error .ub
  | some d =>
    if typed linearKeys d then
      match createLinear (some (view d)) with
      | none => .error .threw
      | some s => .ok s
    else .error .ub

/-- The database of a linear solver and the solver made from it, WGSolverGMRES.cc:43-57, MGSolverGMRES.cc:106-120,
    MGDiffusionSolver.cc:53-69. -/
def linear (key pre : String) (h : Store K) (a new : Nat) : Except Fail (LinSolver K) × Store K :=
  match own key pre h a new with
  | none => (.error .ub, h)
  | some (p, h') => (create h' p, h')

/-- What the rest of the problem decides: the dimension, and whether any group is left to the Krylov solver, given the
    entries `outer_krylov_group_cutoff` and `adjoint` (MGSolverGMRES.cc:45-75; `none`: an `Insist` fails). -/
structure Env where
  dim : Nat
  block : Option Int → Option Int → Option Bool

/-- The linear solvers made: within the groups, over the groups, and over the groups in the coarse problem of the
    transport-corrected preconditioner. -/
structure Made (K : Type) where
  inner : Option (LinSolver K)
  outer : Option (LinSolver K)
  coarse : Option (LinSolver K)
deriving DecidableEq

/-- The solver within the groups, MGTransportSolver.cc:33-53, WGSolver.cc:85-98, WGSolverGMRES.cc:29-57. -/
def makeInner (e : Env) (h : Store K) (a new : Nat) : Except Fail (Option (LinSolver K)) × Store K :=
  match h a with
  | none => (.error .ub, h)
  | some b => match readStr b "inner_solver" "SI", readStr b "equation" "dd" with
    | some w, some q =>
      if w = "SI" ∨ w = "GMRES" then
        if Managers.sweepable e.dim q then
          if w = "SI" then (.ok none, h)
          else match linear "inner_solver_db" "inner" h a new with
            | (.ok s, h') => (.ok (some s), h')
            | (.error f, h') => (.error f, h')
        else (.error .threw, h)
      else (.error .threw, h)
    | _, _ => (.error .ub, h)

/-- The input of the coarse problem, MGTCDSA.cc:57-67: a copy, which shares the databases inside. -/
def coarseInput (b : InputDB K) : Option (InputDB K) :=
  match readInt b "mgpc_number_polar_octant" 1,
      readInt b "mgpc_number_azimuth_octant" 1 with
  | some np, some na =>
    some (((b.put .int "quad_number_azimuth_octant" na).put .int "quad_number_polar_octant" np).put .str
      "outer_pc_type" "none")
  | _, _ => none

/-- `setup` and `set_solver` of a new manager, FixedSourceManager.cc:87-94, 174-222, with the constructors of the solvers:
    MGDiffusionSolver.cc:52-69; MGSolverGMRES.cc:45-192 after MGTransportSolver.cc:33-53; MGTCDSA.cc:55-81.  `n1`, `n2`, `n3`
    are the addresses of the databases that may be made (inner, outer, copy of the input); the problem in the copy
    finds both solver databases there.  The depth bounds how far problems may be nested in problems (nested too far:
    the stack overflows, undefined). -/
def setSolver (e : Env) (n1 n2 n3 : Nat) : Nat → Store K → Nat → Except Fail (Made K) × Store K
  | 0, h, _ => (.error .ub, h)
  | depth + 1, h, a =>
    match h a with
    | none => (.error .ub, h)
    | some b => match readStr b "equation" "dd", readStr b "outer_solver" "GS" with
      | some q, some o =>
        if q = "diffusion" then
          match linear "outer_solver_db" "outer" h a n2 with
          | (.ok s, h') => (.ok ⟨none, some s, none⟩, h')
          | (.error f, h') => (.error f, h')
        else if o = "GS" ∨ o = "CMFD" then
          match makeInner e h a n1 with
          | (.ok i, h') => (.ok ⟨i, none, none⟩, h')
          | (.error f, h') => (.error f, h')
        else if o = "GMRES" then
          match makeInner e h a n1 with
          | (.error f, h') => (.error f, h')
          | (.ok i, h') =>
            match readOpt b "outer_krylov_group_cutoff",
                readOpt b "adjoint" with
            | some cut, some adj => match e.block cut adj with
              | none => (.error .threw, h')
              | some false => (.ok ⟨i, none, none⟩, h')
              | some true => match linear "outer_solver_db" "outer" h' a n2 with
                | (.error f, h'') => (.error f, h'')
                | (.ok s, h'') => match h'' a with
                  | none => (.error .ub, h'')
                  | some b' => match readStr b' "outer_pc_type" "none" with
                    | none => (.error .ub, h'')
                    | some pc =>
                      if pc = "mgtcdsa" then
                        match coarseInput b' with
                        | none => (.error .ub, h'')
                        | some c =>
                          match setSolver e n1 n2 n3 depth (h''.set n3 c) n3 with
                          | (.ok m, h3) => (.ok ⟨i, some s, m.outer⟩, h3)
                          | (.error f, h3) => (.error f, h3)
                      else (.ok ⟨i, some s, none⟩, h'')
            | _, _ => (.error .ub, h')
        else (.error .refused, h)
      | _, _ => (.error .ub, h)

/-- `EigenSolverCreator::Create(db)`, EigenSolverCreator.cc:24-82; `none` for a null pointer. -/
def createEig (d : Option (InputDB K)) : Except Fail (EigSolver K) :=
  if d.all (typed eigenKeys) then
    match createEigen (d.map view) with
    | none => .error .threw
    | some s => .ok s
  else .error .ub

/-- The eigenvalue solvers that read `eigen_solver_db`. -/
inductive Eig | arnoldi | diffusion | gd
deriving DecidableEq, Repr

/-- The callow eigenvalue solver made: EigenArnoldi.cc:29-35, EigenDiffusion.cc:42-46, EigenGD.cc:39-52 (which writes into
    the database it is given). -/
def makeEigen (h : Store K) (k : Eig) (a : Nat) : Except Fail (EigSolver K) × Store K :=
  match h a with
  | none => (.error .ub, h)
  | some b =>
    if b.check "eigen_solver_db" then
      match (b.get .db "eigen_solver_db" : Option Nat) with
      | none => (.error .ub, h)
      | some p => match h p with
        | none => (.error .ub, h)
        | some d =>
          if k = .gd then
            let d' := (d.put .str "eigen_solver_type" "gd").put .int "eigen_solver_which_value" (1 : Int)
            (createEig (some d'), h.set p d')
          else (createEig (some d), h)
    else if k = .gd then
      (createEig (some (((InputDB.empty K).put .str "eigen_solver_type" "gd").put .int "eigen_solver_which_value" (1 : Int))), h)
    else (createEig none, h)

/-- `ROMSolver`'s constructor, ROMSolver.cc:23-82. -/
def makeRom (e : Env) (h : Store K) (a n1 n2 n3 : Nat) : Except Fail (Made K) × Store K :=
  match h a with
  | none => (.error .ub, h)
  | some b => match readStr b "operator" "energy-dependent" with
    | none => (.error .ub, h)
    | some o =>
      if o = "diffusion" then (.ok ⟨none, none, none⟩, h)
      else if o = "energy-independent" then setSolver e n1 n2 n3 2 h a
      else setSolver e n1 n2 n3 2
        (h.set a (((b.put .str "outer_solver" "GMRES").put .int "outer_krylov_group_cutoff" (0 : Int)).put .str
          "eigen_solver" "GD")) a

/-- What a program does: makes databases, puts entries, copies one database over another, makes solvers. -/
inductive Act (K : Type)
  | new (a : Nat)
  | put (a : Nat) (o : PutOp K)
  | copy (a b : Nat)
  | solver (a n1 n2 n3 : Nat)
  | eigen (k : Eig) (a : Nat)
  | rom (a n1 n2 n3 : Nat)

/-- What it gets. -/
inductive Got (K : Type)
  | unit
  | solver (r : Except Fail (Made K))
  | eigen (r : Except Fail (EigSolver K))

/-- One action. -/
def step (e : Env) (h : Store K) : Act K → Got K × Store K
  | .new a => (.unit, h.set a (InputDB.empty K))
  | .put a o => match h a with
    | some b => (.unit, h.set a (b.put o.ty o.key o.val))
    | none => (.unit, h)
  | .copy a b => match h b with
    | some d => (.unit, h.set a d)
    | none => (.unit, h)
  | .solver a n1 n2 n3 => let r := setSolver e n1 n2 n3 2 h a; (.solver r.1, r.2)
  | .eigen k a => let r := makeEigen h k a; (.eigen r.1, r.2)
  | .rom a n1 n2 n3 => let r := makeRom e h a n1 n2 n3; (.solver r.1, r.2)

/-- The store after a program. -/
def run (e : Env) (h : Store K) (H : List (Act K)) : Store K := H.foldl (fun h x => (step e h x).2) h

/-- Before anything is made. -/
def nothing : Store K := fun _ => none

end Detran.SolverDb
