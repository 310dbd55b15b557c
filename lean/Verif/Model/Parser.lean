import Verif.Model.Util
import Verif.Model.Mesh
import Verif.Model.Material

/-!
# Model of the text input: `StupidParser` (drivers), with the mesh constructors it calls (geometry)

Text is a list of characters.  The conversions of the standard library (`istringstream >> int`, `>> double`,
`double` to `int`) are parameters.
-/

namespace Detran.Parser

open Detran.Util Detran.Mesh Detran.Material

/-- How a call can fail: an `Insist` or `THROW`, or undefined behaviour. -/
inductive Fail where
  | insist
  | ub
  deriving DecidableEq, Repr

/-- `Insist(b, ..)`. -/
def insist (b : Bool) : Except Fail Unit := if b then .ok () else .error .insist

/-- A value that exists, or undefined behaviour. -/
def orUB {α : Type} : Option α → Except Fail α
  | some a => .ok a
  | none => .error .ub

/-! ## Lines and words -/

/-- One replacement of `remove_white_space`, StupidParser.hh:393-397: the first two adjacent blanks become
    one; `none` when there are none. -/
def collapse1 : List Char → Option (List Char)
  | [] => none
  | c :: r =>
    match c, r with
    | ' ', ' ' :: r' => some (' ' :: r')
    | c, r => (collapse1 r).map (c :: ·)

/-- `remove_white_space` with at most `n` replacements. -/
def collapseN : Nat → List Char → List Char
  | 0, s => s
  | n + 1, s => match collapse1 s with
    | some t => collapseN n t
    | none => s

/-- `StupidParser::remove_white_space`, StupidParser.hh:391-403 (every replacement removes a character, so the
    length bounds the recursion). -/
def removeWS (s : List Char) : List Char := collapseN s.length s

/-- `getline(iss, s, ' ')`: the next word and the rest of the stream; `none` at the end. -/
def getWord : List Char → Option (List Char × List Char)
  | [] => none
  | s => some (s.takeWhile (· ≠ ' '), (s.dropWhile (· ≠ ' ')).drop 1)

/-- `while (getline(iss, s, ' '))`, StupidParser.hh:411, at most `n` rounds. -/
def wordsN : Nat → List Char → List (List Char)
  | 0, _ => []
  | n + 1, s => match getWord s with
    | none => []
    | some (w, r) => w :: wordsN n r

/-- All words of a stream (every round removes a character). -/
def words (s : List Char) : List (List Char) := wordsN s.length s

/-- Conversions: `>> int`, `>> double` and `double` to `int`. -/
structure Conv (K : Type) where
  int : List Char → Int
  dbl : List Char → K
  trunc : K → Int

variable {K : Type}

/-- `read_scalar`, StupidParser.hh:423-433: the next word, empty at the end of the stream. -/
def scalar (ws : List (List Char)) : List Char × List (List Char) := (ws.headD [], ws.tail)

/-- `tmp >> val` for a string: without surrounding white space and up to the first one (only tabs and such can
    occur; blanks are the separators). -/
def strVal (w : List Char) : String :=
  String.ofList ((w.dropWhile Char.isWhitespace).takeWhile fun c => !c.isWhitespace)

/-- One line of `parse_input_text`, StupidParser.hh:215-262: the call of `put` it makes, if any. -/
def inputLine (cv : Conv K) (line : List Char) : Option (PutOp K) :=
  let s := removeWS line
  if s.head? = some '#' then none
  else match words s with
    | [] => none
    | word :: r =>
      let (k, vals) := scalar r
      let key := strVal k
      if word = "int".toList then some ⟨.int, key, cv.int (scalar vals).1⟩
      else if word = "dbl".toList then some ⟨.dbl, key, cv.dbl (scalar vals).1⟩
      else if word = "str".toList then some ⟨.str, key, strVal (scalar vals).1⟩
      else if word = "vec_int".toList then some ⟨.vecInt, key, vals.map fun w => cv.trunc (cv.dbl w)⟩
      else if word = "vec_dbl".toList then some ⟨.vecDbl, key, vals.map cv.dbl⟩
      else none

/-- `parse_input_text`, StupidParser.hh:201-265. -/
def inputText (cv : Conv K) (lines : List (List Char)) : InputDB K :=
  InputDB.run (lines.filterMap (inputLine cv))

/-! ## Materials -/

/-- The words of a `material` line after its first word, StupidParser.hh:293-302 and 323-331; `none` for
    other lines and comments. -/
def materialWords (line : List Char) : Option (List (List Char)) :=
  let s := removeWS line
  if s.head? = some '#' then none
  else match words s with
    | [] => none
    | word :: r => if word = "material".toList then some r else none

/-- First pass, StupidParser.hh:291-314: number of materials and downscatter flag (the last line of each
    kind counts). -/
def header (cv : Conv K) (lines : List (List Char)) : Int × Bool :=
  lines.foldl (fun s line => match materialWords line with
    | none => s
    | some r =>
      if strVal (scalar r).1 = "number_materials" then (cv.int (scalar (scalar r).2).1, s.2)
      else if strVal (scalar r).1 = "downscatter" then (s.1, decide (cv.int (scalar (scalar r).2).1 ≠ 0))
      else s) (0, false)

/-- Setting a row of group values of material `m`, Material.cc:134-204. -/
def setRow (a : Nat → Nat → K) (G m : Nat) (v : List K) : Nat → Nat → K :=
  fun g m' => if m' = m ∧ g < G then (v[g]?).getD (a g m') else a g m'

/-- Setting the row of scattering into group `g`, Material.cc:188-195. -/
def setScat (a : Nat → Nat → Nat → K) (G m g : Nat) (v : List K) : Nat → Nat → Nat → K :=
  fun g' gp m' => if g' = g ∧ m' = m ∧ gp < G then (v[gp]?).getD (a g' gp m') else a g' gp m'

/-- An index read as `int` and used as `size_t`; out of range is undefined behaviour (the `Require` of the
    setters is absent from a release build). -/
def idx (i : Int) (n : Nat) : Except Fail Nat := if 0 ≤ i ∧ i < n then .ok i.toNat else .error .ub

/-- One line of the second pass, StupidParser.hh:321-385. -/
def materialLine (cv : Conv K) (x : Mat K) (line : List Char) : Except Fail (Mat K) :=
  match materialWords line with
  | none => .ok x
  | some r =>
    let (val, r1) := scalar r
    let kind := strVal val
    let (m, r2) := scalar r1
    let v := r2.map cv.dbl
    let row (f : Nat → Mat K) : Except Fail (Mat K) := do
      insist (v.length = x.G)
      let m ← idx (cv.int m) x.M
      pure (f m)
    if kind = "sigma_t" then row fun m => { x with sigT := setRow x.sigT x.G m v }
    else if kind = "sigma_a" then row fun m => { x with sigA := setRow x.sigA x.G m v }
    else if kind = "sigma_f" then row fun m => { x with sigF := setRow x.sigF x.G m v }
    else if kind = "nu" then row fun m => { x with nu := setRow x.nu x.G m v }
    else if kind = "chi" then row fun m => { x with chi := setRow x.chi x.G m v }
    else if kind = "diff_coef" then row fun m => { x with diff := setRow x.diff x.G m v }
    else if kind = "sigma_s" then do
      let (g, r3) := scalar r2
      let v := r3.map cv.dbl
      insist (v.length = x.G)
      let m ← idx (cv.int m) x.M
      let g ← idx (cv.int g) x.G
      pure { x with sigS := setScat x.sigS x.G m g v }
    else .ok x

/-- `parse_material_text`, StupidParser.hh:268-388; `number_groups` comes from the input database.  A negative
    number of materials is not modelled. -/
def materialText [Field K] [LinearOrder K] (cv : Conv K) (G : Nat) (lines : List (List Char)) :
    Except Fail (Mat K) := do
  let h := header cv lines
  let x : Mat K := (Mat.new h.1.toNat G).setDownscatter h.2 false
  let y ← lines.foldlM (materialLine cv) x
  pure y.finalize

/-! ## Meshes -/

/-- What a mesh constructor leaves: dimension, fine widths and the fine material map. -/
structure Built (K : Type) where
  dim : Nat
  dx : List K
  dy : List K
  dz : List K
  mat : List Int
  deriving DecidableEq

/-- Counts as `size_t`; a negative count is treated as undefined behaviour (it becomes a huge unsigned
    value). -/
def counts (fm : List Int) : Except Fail (List Nat) :=
  if fm.all (fun f => decide (0 ≤ f)) then .ok (fm.map Int.toNat) else .error .ub

/-- `Mesh::Mesh` from coarse cells, Mesh.cc:17-39. -/
def coarseMesh [Field K] (dim : Nat) (xfm yfm zfm : List Int) (xe ye ze : List K) (mat : List Int) :
    Except Fail (Built K) := do
  let x ← counts xfm
  let y ← counts yfm
  let z ← counts zfm
  let dx ← orUB (widths xe x)
  let dy ← orUB (widths ye y)
  let dz ← orUB (widths ze z)
  let m ← orUB (coarseToFine x y z mat)
  pure ⟨dim, dx, dy, dz, m⟩

/-- `Mesh::Mesh` from fine edges, Mesh.cc:42-61: one fine cell per interval, the map used as it is. -/
def fineMesh [Field K] (dim : Nat) (xe ye ze : List K) (mat : List Int) : Except Fail (Built K) := do
  let dx ← orUB (widths xe (List.replicate (xe.length - 1) 1))
  let dy ← orUB (widths ye (List.replicate (ye.length - 1) 1))
  let dz ← orUB (widths ze (List.replicate (ze.length - 1) 1))
  pure ⟨dim, dx, dy, dz, mat⟩

/-- `d_dy[0] = 1.0`, Mesh1D.cc:27 and 43. -/
def Built.unitY [One K] (b : Built K) : Built K := { b with dy := b.dy.set 0 1 }

/-- `d_dz[0] = 1.0`, Mesh1D.cc:30 and 46, Mesh2D.cc:29 and 42. -/
def Built.unitZ [One K] (b : Built K) : Built K := { b with dz := b.dz.set 0 1 }

/-- `Mesh1D` from coarse cells, Mesh1D.cc:15-31. -/
def mesh1 [Field K] (xfm : List Int) (xe : List K) (mat : List Int) : Except Fail (Built K) :=
  (coarseMesh 1 xfm [1] [1] xe [0, 0] [0, 0] mat).map fun b => b.unitY.unitZ

/-- `Mesh1D` from fine edges, Mesh1D.cc:34-47. -/
def mesh1Fine [Field K] (xe : List K) (mat : List Int) : Except Fail (Built K) :=
  (fineMesh 1 xe [0, 0] [0, 0] mat).map fun b => b.unitY.unitZ

/-- `Mesh2D` from coarse cells, Mesh2D.cc:15-30. -/
def mesh2 [Field K] (xfm yfm : List Int) (xe ye : List K) (mat : List Int) : Except Fail (Built K) :=
  (coarseMesh 2 xfm yfm [1] xe ye [0, 0] mat).map fun b => b.unitZ

/-- `Mesh3D` from coarse cells, Mesh3D.cc:15-28. -/
def mesh3 [Field K] (xfm yfm zfm : List Int) (xe ye ze : List K) (mat : List Int) : Except Fail (Built K) :=
  coarseMesh 3 xfm yfm zfm xe ye ze mat

/-- What is collected in one direction: edges, counts, number of cells of the material map. -/
structure Dir (K : Type) where
  e : List K
  fm : List Int
  n : Int

/-- First direction, StupidParser.cc:102-116, with the flag `coarse`.  (`xme.size()-1` of an empty vector
    becomes -1 when it is stored in an `int`.) -/
def xDir (b : InputDB K) : Except Fail (Bool × Dir K) :=
  if b.check "mesh_xcme" then do
    let e ← orUB (b.get .vecDbl "mesh_xcme")
    insist (b.check "mesh_xfm")
    let fm : List Int ← orUB (b.get .vecInt "mesh_xfm")
    insist (decide (List.length (α := K) e = fm.length + 1))
    pure (true, ⟨e, fm, fm.length⟩)
  else do
    insist (b.check "mesh_xfme")
    let e ← orUB (b.get .vecDbl "mesh_xfme")
    pure (false, ⟨e, [], (List.length (α := K) e : Int) - 1⟩)

/-- Second direction, StupidParser.cc:118-139: the count is compared with the first direction's edges, and
    the fine branch checks for `mesh_xfme`. -/
def yDir (b : InputDB K) (coarse : Bool) (xe : List K) : Except Fail (Dir K) :=
  if coarse then do
    insist (b.check "mesh_ycme")
    let e ← orUB (b.get .vecDbl "mesh_ycme")
    insist (b.check "mesh_yfm")
    let fm : List Int ← orUB (b.get .vecInt "mesh_yfm")
    insist (decide (xe.length = fm.length + 1))
    pure ⟨e, fm, fm.length⟩
  else do
    insist (b.check "mesh_xfme")
    let e ← orUB (b.get .vecDbl "mesh_yfme")
    pure ⟨e, [], (List.length (α := K) e : Int) - 1⟩

/-- Third direction, StupidParser.cc:140-161. -/
def zDir (b : InputDB K) (coarse : Bool) : Except Fail (Dir K) :=
  if coarse then do
    insist (b.check "mesh_zcme")
    let e ← orUB (b.get .vecDbl "mesh_zcme")
    insist (b.check "mesh_zfm")
    let fm : List Int ← orUB (b.get .vecInt "mesh_zfm")
    insist (decide (List.length (α := K) e = fm.length + 1))
    pure ⟨e, fm, fm.length⟩
  else do
    insist (b.check "mesh_zfme")
    let e ← orUB (b.get .vecDbl "mesh_zfme")
    pure ⟨e, [], (List.length (α := K) e : Int) - 1⟩

/-- An unused direction: empty vectors, factor one. -/
def Dir.none : Dir K := ⟨[], [], 1⟩

/-- The constructor calls, StupidParser.cc:166-184: the counts handed to `Mesh3D` are `yfm, zfm, zfm`. -/
def construct [Field K] (dim : Int) (coarse : Bool) (x y z : Dir K) (mat : List Int) : Except Fail (Built K) :=
  if dim = 1 then (if coarse then mesh1 x.fm x.e mat else mesh1Fine x.e mat)
  else if dim = 2 ∧ coarse = true then mesh2 x.fm y.fm x.e y.e mat
  else if dim = 3 ∧ coarse = true then mesh3 y.fm z.fm z.fm x.e y.e z.e mat
  else .error .insist

/-- `parse_mesh_text`, StupidParser.cc:84-187 (sizes below the range of `int`). -/
def parseMesh [Field K] (b : InputDB K) : Except Fail (Built K) := do
  insist (b.check "dimension")
  let dim : Int ← orUB (b.get .int "dimension")
  let (coarse, x) ← xDir b
  let y ← if dim > 1 then yDir b coarse x.e else pure Dir.none
  let z ← if dim > 2 then zDir b coarse else pure Dir.none
  insist (b.check "mesh_mat_map")
  let mat : List Int ← orUB (b.get .vecInt "mesh_mat_map")
  insist (decide ((mat.length : Int) = x.n * y.n * z.n))
  construct dim coarse x y z mat

end Detran.Parser
