import Verif.Model.Parser

/-!
# Model of `ioutils/IO_HDF5`: input, material and mesh in a file

The library is modelled by what its documentation says of the calls made: a file is a tree of groups with attributes and
data; creating a link that exists, or in a file opened for reading, fails and changes nothing; operations on the result of
a failed one fail too; data come back as they were put in; closing a file leaves it open as long as an object in it is
(`H5F_CLOSE_WEAK`), and truncating an open file fails.  All return codes but that of the open calls are ignored by the code.
Names of databases and materials, which `display` prints, are not modelled; nested databases form a tree.
-/

namespace Detran.Hdf5

open Detran.Util Detran.Mesh Detran.Material Detran.Parser

variable {K : Type}

/-- `c_str()` as the library reads it: up to the first null character. -/
def cstr (s : String) : String := String.ofList (s.toList.takeWhile (· ≠ '\x00'))

/-! ## Databases -/

mutual
/-- An `InputDB` with its nested databases, InputDB.hh:130-143. -/
inductive DB (K : Type) where
  | mk (ints : SMap Int) (dbls : SMap K) (strs : SMap String) (vints : SMap (List Int)) (vdbls : SMap (List K))
      (dbs : DBs K)
/-- The map from names to nested databases. -/
inductive DBs (K : Type) where
  | nil
  | cons (key : String) (db : DB K) (rest : DBs K)
end

/-- `map::find`. -/
def DBs.find : DBs K → String → Option (DB K)
  | .nil, _ => none
  | .cons k' d r, k => if k' = k then some d else r.find k

/-- `map[key] = value`. -/
def DBs.set : DBs K → String → DB K → DBs K
  | .nil, k, v => .cons k v .nil
  | .cons k' d r, k, v => if k' = k then .cons k v r else .cons k' d (r.set k v)

/-! ## Files -/

/-- The data sets written: tables of keys and values, and arrays. -/
inductive Table (K : Type) where
  | ints (l : List (String × Int))
  | dbls (l : List (String × K))
  | strs (l : List (String × String))
  | vints (l : List (String × List Int))
  | vdbls (l : List (String × List K))
  | vec (l : List K)

mutual
/-- An object in a file. -/
inductive Node (K : Type) where
  | data (t : Table K)
  | group (attrs : SMap Int) (kids : Kids K)
/-- The links of a group. -/
inductive Kids (K : Type) where
  | nil
  | cons (name : String) (n : Node K) (rest : Kids K)
end

/-- The object at a link. -/
def Kids.find : Kids K → String → Option (Node K)
  | .nil, _ => none
  | .cons k' d r, k => if k' = k then some d else r.find k

/-- A link at the end. -/
def Kids.snoc : Kids K → String → Node K → Kids K
  | .nil, k, v => .cons k v .nil
  | .cons k' d r, k, v => .cons k' d (r.snoc k v)

/-- The link a name stands for: the library splits names at slashes and skips empty parts and dots.  `none`: no link in
    this group; where a longer path leads elsewhere, what is created there is not modelled. -/
def linkName (s : String) : Option String :=
  match ((cstr s).toList.splitOn '/').filter fun c => c ≠ [] ∧ c ≠ ['.'] with
  | [c] => if s.toList.head? = some '/' then none else some (String.ofList c)
  | _ => none

/-- Create an object in a group; nothing happens if that fails. -/
def Kids.add (ks : Kids K) (name : String) (n : Node K) : Kids K :=
  match linkName name with
  | none => ks
  | some k => if (ks.find k).isSome then ks else ks.snoc k n

/-- `set_value` of the key, IO_HDF5.t.hh:144-151, IO_HDF5_Traits.hh:77-90. -/
def table {V : Type} (m : SMap V) : List (String × V) := m.map fun e => (cstr e.1, e.2)

/-- The same for string values. -/
def stable (m : SMap String) : List (String × String) := m.map fun e => (cstr e.1, cstr e.2)

mutual
/-- The group made by `write(SP_input, name, root)`, IO_HDF5.cc:61-80. -/
def DB.encode : DB K → Node K
  | .mk i d s vi vd dbs =>
    .group [] ((((((Kids.nil.add "int_data" (.data (.ints (table i)))).add "dbl_data" (.data (.dbls (table d)))).add
      "str_data" (.data (.strs (stable s)))).add "vec_int_data" (.data (.vints (table vi)))).add
      "vec_dbl_data" (.data (.vdbls (table vd)))).add "db_data" (.group [] (dbs.encode .nil)))
/-- `write_map<SP_input>`, IO_HDF5.t.hh:186-210: one group per nested database. -/
def DBs.encode : DBs K → Kids K → Kids K
  | .nil, ks => ks
  | .cons k db r, ks => r.encode (ks.add k db.encode)
end

/-- The loop of `read_data` and `read_map`, IO_HDF5.t.hh:105-111, 243-249. -/
def putAll {V : Type} (l : List (String × V)) : SMap V := l.foldl (fun m e => m.set e.1 e.2) []

/-- `read_data<T>`, IO_HDF5.t.hh:71-121.  A data set that is missing leaves its size uninitialised; one of another type
    than the code writes is counted as undefined too. -/
def readTable {V : Type} (sel : Table K → Option (List (String × V))) (ks : Kids K) (name : String) :
    Except Fail (SMap V) :=
  match ks.find name with
  | some (.data t) => (orUB (sel t)).map putAll
  | _ => .error .ub

def Table.int? : Table K → Option (List (String × Int)) | .ints l => some l | _ => none
def Table.dbl? : Table K → Option (List (String × K)) | .dbls l => some l | _ => none
def Table.str? : Table K → Option (List (String × String)) | .strs l => some l | _ => none
def Table.vint? : Table K → Option (List (String × List Int)) | .vints l => some l | _ => none
def Table.vdbl? : Table K → Option (List (String × List K)) | .vdbls l => some l | _ => none

mutual
/-- `read_input(root, name)`, IO_HDF5.cc:224-250, of the object found there. -/
def Node.decode : Node K → Except Fail (DB K)
  | .data _ => .error .ub
  | .group _ ks => do
    let i ← readTable Table.int? ks "int_data"
    let d ← readTable Table.dbl? ks "dbl_data"
    let s ← readTable Table.str? ks "str_data"
    let vi ← readTable Table.vint? ks "vec_int_data"
    let vd ← readTable Table.vdbl? ks "vec_dbl_data"
    let dbs ← ks.nested
    pure (.mk i d s vi vd dbs)
/-- `read_data<SP_input>`, IO_HDF5.cc:431-461: looks for `db_data`. -/
def Kids.nested : Kids K → Except Fail (DBs K)
  | .nil => .ok .nil
  | .cons name n r => if name = "db_data" then n.members else r.nested
/-- The group of nested databases. -/
def Node.members : Node K → Except Fail (DBs K)
  | .data _ => .error .ub
  | .group _ ks => ks.collect .nil
/-- The loop over the nested groups, IO_HDF5.cc:453-458; the names of links differ, so their order does not matter.  The
    check for other objects is made before the loop, IO_HDF5.cc:410-428; here it is made on the way. -/
def Kids.collect : Kids K → DBs K → Except Fail (DBs K)
  | .nil, acc => .ok acc
  | .cons name n r, acc =>
    match n with
    | .data _ => .error .insist
    | .group _ _ => do
      let d ← n.decode
      r.collect (acc.set name d)
end

/-! ## Materials -/

section
variable [Field K] [LinearOrder K]

/-- `mat->sigma_t(m)` and such: the values of one material over the groups. -/
def groupVec (x : Mat K) (a : Nat → Nat → K) (m : Nat) : List K := (List.range x.G).map fun g => a g m

/-- The name of the group of a material, IO_HDF5.cc:117-121, 292-296. -/
def matName (m : Nat) : String := "material" ++ toString m

/-- The group of one material, IO_HDF5.cc:123-157. -/
def encodeMat1 (x : Mat K) (m : Nat) : Node K :=
  .group [] (((((((Kids.nil.add "sigma_t" (.data (.vec (groupVec x x.sigT m)))).add
    "sigma_a" (.data (.vec (groupVec x x.sigA m)))).add
    "sigma_f" (.data (.vec (groupVec x x.sigF m)))).add
    "nu" (.data (.vec (groupVec x x.nu m)))).add
    "chi" (.data (.vec (groupVec x x.chi m)))).add
    "diff_coef" (.data (.vec (groupVec x x.sigA m)))).add
    "sigma_s" (.data (.vec ((List.range x.G).flatMap fun g => (List.range x.G).map fun gp => x.sigS g gp m))))

/-- `write(SP_material)`, IO_HDF5.cc:83-162. -/
def encodeMat (x : Mat K) : Node K :=
  .group [("number_groups", (x.G : Int)), ("number_materials", (x.M : Int))]
    ((List.range x.M).foldl (fun ks m => ks.add (matName m) (encodeMat1 x m)) .nil)

/-- `read_vec`, IO_HDF5.t.hh:287-313, into a vector of size `n`: `none` if the data set is missing; the buffer has the size
    of the vector, not of the data set. -/
def readVec (ks : Kids K) (name : String) (n : Nat) : Except Fail (Option (List K)) :=
  match ks.find name with
  | none => .ok none
  | some (.data (.vec l)) => if l.length = n then .ok (some l) else .error .ub
  | some _ => .error .ub

/-- `set_sigma_t(m, v)` and such, Material.cc:134-204. -/
def setGroups (G : Nat) (a : Nat → Nat → K) (m : Nat) (v : List K) : Nat → Nat → K :=
  fun g m' => if m' = m ∧ g < G then v.getD g 0 else a g m'

/-- A value set only if it was read. -/
def setIf (G : Nat) (a : Nat → Nat → K) (m : Nat) : Option (List K) → Nat → Nat → K
  | none => a
  | some v => setGroups G a m v

/-- The scattering matrix, IO_HDF5.cc:314-323. -/
def readScatter (ks : Kids K) (G : Nat) : Except Fail (List K) :=
  match ks.find "sigma_s" with
  | some (.data (.vec l)) => if l.length = G * G then .ok l else .error .ub
  | _ => .error .ub

/-- One pass of the loop of `read_material`, IO_HDF5.cc:290-327. -/
def decodeMat1 (G : Nat) (ks : Kids K) (x : Mat K) (m : Nat) : Except Fail (Mat K) :=
  match ks.find (matName m) with
  | none => .error .insist
  | some (.data _) => .error .insist
  | some (.group _ mk) => do
    let t ← readVec mk "sigma_t" G
    insist t.isSome
    let a ← readVec mk "sigma_a" G
    let f ← readVec mk "sigma_f" G
    let nu ← readVec mk "nu" G
    let chi ← readVec mk "chi" G
    let dc ← readVec mk "diff_coef" G
    let ss ← readScatter mk G
    pure { x with
      sigT := setIf G x.sigT m t, sigA := setIf G x.sigA m a, sigF := setIf G x.sigF m f, nu := setIf G x.nu m nu
      chi := setIf G x.chi m chi, diff := setIf G x.diff m dc
      sigS := fun g gp m' => if m' = m ∧ g < G ∧ gp < G then ss.getD (gp + g * G) 0 else x.sigS g gp m' }

/-- `read_scalar_attribute`, IO_HDF5.t.hh:335-343: answers true always; a missing attribute leaves the variable as it is,
    uninitialised at the callers. -/
def readAttr (attrs : SMap Int) (name : String) : Except Fail Int := orUB (attrs.find name)

/-- `read_material` of the object found, IO_HDF5.cc:253-335.  Negative numbers, which no material has, are read as zero. -/
def decodeMat : Node K → Except Fail (Mat K)
  | .data _ => .error .ub
  | .group attrs ks => do
    let ng ← readAttr attrs "number_groups"
    let nm ← readAttr attrs "number_materials"
    let x ← (List.range nm.toNat).foldlM (decodeMat1 ng.toNat ks) (Mat.new nm.toNat ng.toNat)
    pure x.finalize

/-! ## Meshes -/

/-- A mesh as far as it is written: dimension, widths and maps (`mat` in `Built` is the entry `MATERIAL` of the maps). -/
structure MeshData (K : Type) where
  dim : Nat
  dx : List K
  dy : List K
  dz : List K
  maps : SMap (List Int)

/-- `write(SP_mesh)`, IO_HDF5.cc:165-196. -/
def encodeMesh (x : MeshData K) : Node K :=
  .group [("dimension", (x.dim : Int)), ("number_cells_x", (x.dx.length : Int)), ("number_cells_y", (x.dy.length : Int)),
      ("number_cells_z", (x.dz.length : Int))]
    ((((Kids.nil.add "dx" (.data (.vec x.dx))).add "dy" (.data (.vec x.dy))).add "dz" (.data (.vec x.dz))).add
      "mesh_map" (.data (.vints (table x.maps))))

/-- `ex[i + 1] = ex[i] + dx[i]`, IO_HDF5.cc:370-371. -/
def edges (dx : List K) : List K := dx.foldl (fun e w => e ++ [e.getLastD 0 + w]) [0]

/-- `Insist(read_vec(..))`. -/
def needVec (ks : Kids K) (name : String) (n : Nat) : Except Fail (List K) := do
  let v ← readVec ks name n
  match v with
  | none => .error .insist
  | some l => pure l

/-- The constructor called, IO_HDF5.cc:390-393, Mesh1D.cc:34-47, Mesh2D.cc:33-43, Mesh3D.cc:31-39. -/
def buildMesh (dim : Int) (ex ey ez : List K) (mt : List Int) : Except Fail (Built K) :=
  if dim = 1 then mesh1Fine ex mt
  else if dim = 2 then (fineMesh 2 ex ey [0, 0] mt).map fun b => b.unitZ
  else fineMesh 3 ex ey ez mt

/-- `read_mesh` of the object found, IO_HDF5.cc:338-407. -/
def decodeMesh : Node K → Except Fail (MeshData K)
  | .data _ => .error .ub
  | .group attrs ks => do
    let dim ← readAttr attrs "dimension"
    let nx ← readAttr attrs "number_cells_x"
    let ny ← readAttr attrs "number_cells_y"
    let nz ← readAttr attrs "number_cells_z"
    insist (decide (0 < nx ∧ 0 < ny ∧ 0 < nz))
    insist (decide (dim = 1 ∨ dim = 2 ∨ dim = 3))
    let dx ← needVec ks "dx" nx.toNat
    let dy ← needVec ks "dy" ny.toNat
    let dz ← needVec ks "dz" nz.toNat
    let map ←
      match ks.find "mesh_map" with
      | some (.data (.vints l)) => if l.isEmpty then .error .insist else .ok (putAll l)
      | none => .error .insist
      | _ => .error .ub
    let b ← buildMesh dim (edges dx) (edges dy) (edges dz) ((map.find "MATERIAL").getD [])
    pure ⟨b.dim, b.dx, b.dy, b.dz,
      map.foldl (fun m e => if e.1 ≠ "MATERIAL" then addMeshMap m e.1 e.2 else m) [("MATERIAL", b.mat)]⟩

/-! ## The object -/

/-- How the file is open. -/
inductive Access where
  | ro | rw
  deriving DecidableEq

/-- File and object: content of the file if there is one, whether the library still has it open because of objects left
    open, and how this object has it open. -/
structure State (K : Type) where
  disk : Option (Kids K)
  held : Bool
  mode : Option Access

/-- Calls. -/
inductive Call (K : Type) where
  | writeInput (db : DB K)
  | writeMaterial (x : Mat K)
  | writeMesh (x : MeshData K)
  | close
  | readInput
  | readMaterial
  | readMesh

/-- Answers. -/
inductive Reply (K : Type) where
  | unit
  | input (db : DB K)
  | material (x : Mat K)
  | mesh (x : MeshData K)

/-- `if (!d_open) open(HDF5_OVERWRITE)`, IO_HDF5.cc:40-50, 56. -/
def State.openWrite (s : State K) : Except Fail (State K) :=
  if s.mode.isSome then .ok s
  else if s.held then .error .insist
  else .ok { s with disk := some .nil, mode := some .rw }

/-- `if (!d_open) open(HDF5_READ_ONLY)`. -/
def State.openRead (s : State K) : Except Fail (State K) :=
  if s.mode.isSome then .ok s
  else if s.disk.isNone then .error .insist
  else .ok { s with mode := some .ro }

/-- Create a group of the root; `leaves` says that an object in it is left open.  A file opened for reading while the
    library still has it open for writing is taken to refuse writes as well. -/
def State.create (s : State K) (name : String) (n : Node K) (leaves : Bool) : State K :=
  match s.mode, s.disk with
  | some .rw, some root =>
    if (root.find name).isSome then s else { s with disk := some (root.add name n), held := s.held || leaves }
  | _, _ => s

/-- A group of the root. -/
def State.look (s : State K) (name : String) : Option (Node K) := s.disk.bind fun root => root.find name

/-- One call; an exception leaves the object as it was when it was thrown.  `write(SP_input)` leaves the group `db_data`
    open (IO_HDF5.t.hh:192-209), `write(SP_mesh)` its own (IO_HDF5.cc:172-196), reading an input `db_data` again
    (IO_HDF5.cc:440); a read of a material or a mesh that throws leaves the group open. -/
def State.step (s : State K) : Call K → State K × Except Fail (Reply K)
  | .writeInput db =>
    match s.openWrite with
    | .error e => (s, .error e)
    | .ok s' => (s'.create "input" db.encode true, .ok .unit)
  | .writeMaterial x =>
    match s.openWrite with
    | .error e => (s, .error e)
    | .ok s' => (s'.create "material" (encodeMat x) false, .ok .unit)
  | .writeMesh x =>
    match s.openWrite with
    | .error e => (s, .error e)
    | .ok s' => (s'.create "mesh" (encodeMesh x) true, .ok .unit)
  | .close => ({ s with mode := none }, .ok .unit)
  | .readInput =>
    match s.openRead with
    | .error e => (s, .error e)
    | .ok s' =>
      match s'.look "input" with
      | none => (s', .error .insist)
      | some n => ({ s' with held := true }, n.decode.map .input)
  | .readMaterial =>
    match s.openRead with
    | .error e => (s, .error e)
    | .ok s' =>
      match s'.look "material" with
      | none => (s', .error .insist)
      | some n =>
        match decodeMat n with
        | .error e => ({ s' with held := true }, .error e)
        | .ok x => (s', .ok (.material x))
  | .readMesh =>
    match s.openRead with
    | .error e => (s, .error e)
    | .ok s' =>
      match s'.look "mesh" with
      | none => (s', .error .insist)
      | some n =>
        match decodeMesh n with
        | .error e => ({ s' with held := true }, .error e)
        | .ok x => (s', .ok (.mesh x))

/-- A sequence of calls with their answers. -/
def State.run (s : State K) : List (Call K) → State K × List (Except Fail (Reply K))
  | [] => (s, [])
  | c :: r =>
    let (s', a) := s.step c
    let (s'', as) := s'.run r
    (s'', a :: as)

end

end Detran.Hdf5
