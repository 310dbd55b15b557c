import Verif.Model.Util

/-!
# Model of `material/Material`, `transport/ScatterSource`, `transport/FissionSource`

Arrays `[g][m]` and `[g][gp][m]` are functions of their indices; only entries with
`g, gp < G` and `m < M` are ever read by the loops below.
-/

namespace Detran.Material

variable {K : Type} [Field K] [LinearOrder K]

/-- Data members of `Material`, Material.hh:207-235. -/
structure Mat (K : Type) where
  G : Nat
  M : Nat
  sigT : Nat → Nat → K
  sigA : Nat → Nat → K
  nuSigF : Nat → Nat → K
  sigF : Nat → Nat → K
  nu : Nat → Nat → K
  chi : Nat → Nat → K
  sigS : Nat → Nat → Nat → K
  diff : Nat → Nat → K
  b0 : Nat → Nat
  b1 : Nat → Nat
  b2 : Nat → Nat
  b3 : Nat → Nat
  cut0 : Nat
  cut1 : Nat
  down0 : Bool
  down1 : Bool
  finalized : Bool

/-- Constructor, Material.cc:24-49. -/
def Mat.new (M G : Nat) : Mat K where
  G := G
  M := M
  sigT := fun _ _ => 0
  sigA := fun _ _ => 0
  nuSigF := fun _ _ => 0
  sigF := fun _ _ => 0
  nu := fun _ _ => 1
  chi := fun _ _ => 0
  sigS := fun _ _ _ => 0
  diff := fun _ _ => 0
  b0 := fun _ => 0
  b1 := fun _ => 0
  b2 := fun _ => 0
  b3 := fun _ => 0
  cut0 := G
  cut1 := 0
  down0 := false
  down1 := false
  finalized := false

/-- `a[g][m] = v`. -/
def set2 (a : Nat → Nat → K) (g m : Nat) (v : K) : Nat → Nat → K :=
  fun g' m' => if g' = g ∧ m' = m then v else a g' m'

/-- `a[g][gp][m] = v`. -/
def set3 (a : Nat → Nat → Nat → K) (g gp m : Nat) (v : K) : Nat → Nat → Nat → K :=
  fun g' gp' m' => if g' = g ∧ gp' = gp ∧ m' = m then v else a g' gp' m'

/-- One scan of finalize, Material.cc:284-294: `lower` over `gp < g`, `upper` over all
    groups, `s gp m` being the entry tested. -/
def scanBounds (G M g : Nat) (s : Nat → Nat → K) : Nat × Nat :=
  (List.range M).foldl (fun lu m =>
    let lo := (List.range g).foldl (fun lo gp => if s gp m > 0 then min gp lo else lo) lu.1
    let up := (List.range G).foldl (fun up gp => if s gp m > 0 then max gp up else up) lu.2
    (lo, up)) (g, g)

/-- `Material::finalize`, Material.cc:271-354. -/
def Mat.finalize (x : Mat K) : Mat K :=
  let b0 := fun g => (scanBounds x.G x.M g (fun gp m => x.sigS g gp m)).1
  let b1 := fun g => (scanBounds x.G x.M g (fun gp m => x.sigS g gp m)).2
  let b2 := fun gp => (scanBounds x.G x.M gp (fun g m => x.sigS g gp m)).2
  let b3 := fun gp => (scanBounds x.G x.M gp (fun g m => x.sigS g gp m)).1
  let cut0 := match (List.range x.G).find? (fun g => b1 g > g) with
    | some g => g
    | none => x.cut0
  let cut1 := match (List.range x.G).reverse.find? (fun g => b3 g < g) with
    | some g => g
    | none => x.cut1
  { x with
    b0 := b0, b1 := b1, b2 := b2, b3 := b3, cut0 := cut0, cut1 := cut1
    down0 := if cut0 = x.G then true else x.down0
    down1 := if cut1 = x.G then true else x.down1
    nuSigF := fun g m => x.nu g m * x.sigF g m
    finalized := true }

/-- `Material::set_downscatter`, Material.hh:79-84. -/
def Mat.setDownscatter (x : Mat K) (v tran : Bool) : Mat K :=
  let y := { x with down1 := if tran then v else x.down1, down0 := v }
  if y.finalized then y.finalize else y

/-- `Material::lower(g, tran)`, Material.cc:211-217. -/
def Mat.lower (x : Mat K) (g : Nat) (tran : Bool) : Nat := if tran then x.b2 g else x.b0 g

/-- `Material::upper(g, tran)`, Material.cc:220-226. -/
def Mat.upper (x : Mat K) (g : Nat) (tran : Bool) : Nat := if tran then x.b3 g else x.b1 g

/-- `Material::downscatter(tran)`, Material.cc:229-233. -/
def Mat.downscatter (x : Mat K) (tran : Bool) : Bool := if tran then x.down1 else x.down0

/-- `Material::upscatter_cutoff(tran)`, Material.cc:236-240. -/
def Mat.upscatterCutoff (x : Mat K) (tran : Bool) : Nat := if tran then x.cut1 else x.cut0

/-- `Material::compute_sigma_a`, Material.cc:243-255. -/
def Mat.computeSigmaA (x : Mat K) : Mat K :=
  { x with sigA := fun g m =>
      if g < x.G ∧ m < x.M then
        (List.range x.G).foldl (fun sa gp => sa - x.sigS gp g m) (x.sigT g m)
      else x.sigA g m }

/-- `Material::compute_diff_coef`, Material.cc:258-268. -/
def Mat.computeDiffCoef (x : Mat K) : Mat K :=
  { x with diff := fun g m => if g < x.G ∧ m < x.M then 1 / 3 / x.sigT g m else x.diff g m }

/-- The calls a client can make on a material. -/
inductive Op (K : Type) where
  | setSigS (m g gp : Nat) (v : K)
  | setSigF (m g : Nat) (v : K)
  | setNu (m g : Nat) (v : K)
  | setNuSigF (m g : Nat) (v : K)
  | setSigT (m g : Nat) (v : K)
  | setChi (m g : Nat) (v : K)
  | setDown (v tran : Bool)
  | finalize

/-- Effect of one call, Material.cc:58-129 (single-value setters), Material.hh:79-84. -/
def Mat.step (x : Mat K) : Op K → Mat K
  | .setSigS m g gp v => { x with sigS := set3 x.sigS g gp m v }
  | .setSigF m g v => { x with sigF := set2 x.sigF g m v }
  | .setNu m g v => { x with nu := set2 x.nu g m v }
  | .setNuSigF m g v => { x with nuSigF := set2 x.nuSigF g m v }
  | .setSigT m g v => { x with sigT := set2 x.sigT g m v }
  | .setChi m g v => { x with chi := set2 x.chi g m v }
  | .setDown v tran => x.setDownscatter v tran
  | .finalize => x.finalize

/-- A history of calls. -/
def Mat.run (x : Mat K) (ops : List (Op K)) : Mat K := ops.foldl Mat.step x

/-! ## ScatterSource -/

/-- `for (cell = 0; cell < N; ++cell) s[cell] += f(cell)`. -/
def addCells (N : Nat) (f : Nat → K) (s : Nat → K) : Nat → K :=
  fun c => if c < N then s c + f c else s c

/-- What a source builder reads: material, cell count, `MATERIAL` map and mode. -/
structure Src (K : Type) where
  mat : Mat K
  N : Nat
  mmap : Nat → Nat
  adjoint : Bool

/-- `sigma_s(m, g_to(g,gp), g_from(g,gp))`, ScatterSource.i.hh:46, 108-119. -/
def Src.ker (x : Src K) (g gp c : Nat) : K :=
  if x.adjoint then x.mat.sigS gp g (x.mmap c) else x.mat.sigS g gp (x.mmap c)

/-- `groups(a, b, inc)`, ScatterSource.i.hh:122-127: `range<size_t>`. -/
def groups (a b : Nat) (inc : Bool) : List Nat :=
  (Detran.Util.range (a : Int) (b : Int) inc).map Int.toNat

/-- `build_within_group_source`, ScatterSource.i.hh:16-28. -/
def Src.withinGroup (x : Src K) (g : Nat) (phi : Nat → K) (s : Nat → K) : Nat → K :=
  addCells x.N (fun c => phi c * x.mat.sigS g g (x.mmap c)) s

/-- `build_in_scatter_source`, ScatterSource.i.hh:31-49; `phi gp cell` is the state. -/
def Src.inScatter (x : Src K) (phi : Nat → Nat → K) (g : Nat) (s : Nat → K) : Nat → K :=
  (groups (x.mat.lower g x.adjoint) (x.mat.upper g x.adjoint) true).foldl
    (fun s gp => if g = gp then s else addCells x.N (fun c => phi gp c * x.ker g gp c) s) s

/-- `build_downscatter_source`, ScatterSource.i.hh:52-71. -/
def Src.downScatter (x : Src K) (phi : Nat → Nat → K) (g cutoff : Nat) (s : Nat → K) : Nat → K :=
  (groups (x.mat.lower g x.adjoint) cutoff false).foldl
    (fun s gp => addCells x.N (fun c => phi gp c * x.ker g gp c) s) s

/-- `build_total_group_source`, ScatterSource.i.hh:74-93. -/
def Src.totalGroup (x : Src K) (phi : Nat → Nat → K) (g cutoff : Nat) (s : Nat → K) : Nat → K :=
  (groups cutoff (x.mat.upper g x.adjoint) true).foldl
    (fun s gp => addCells x.N (fun c => phi gp c * x.ker g gp c) s) s

/-! ## FissionSource -/

/-- `FissionSource::update`, FissionSource.i.hh:32-45. -/
def Src.density (x : Src K) (phi : Nat → Nat → K) : Nat → K :=
  (List.range x.mat.G).foldl
    (fun d g => addCells x.N (fun c => phi g c *
      (if x.adjoint then x.mat.chi g (x.mmap c) else x.mat.nuSigF g (x.mmap c))) d) (fun _ => 0)

/-- `FissionSource::setup_outer`, FissionSource.i.hh:16-28: entries `g < G`, `c < N` of
    `d_source` (others are not touched). -/
def Src.setupOuter (x : Src K) (scale : K) (dens : Nat → K) (g c : Nat) : K :=
  scale * dens c * (if x.adjoint then x.mat.nuSigF g (x.mmap c) else x.mat.chi g (x.mmap c))

/-- `chi(m, g_to) * nu_sigma_f(m, g_from)` times scale, FissionSource.i.hh:103-105. -/
def Src.fker (x : Src K) (g gp c : Nat) : K :=
  if x.adjoint then x.mat.chi gp (x.mmap c) * x.mat.nuSigF g (x.mmap c)
  else x.mat.chi g (x.mmap c) * x.mat.nuSigF gp (x.mmap c)

/-- `FissionSource::build_within_group_source`, FissionSource.i.hh:72-86. -/
def Src.fissionWithin (x : Src K) (scale : K) (g : Nat) (phi : Nat → K) (s : Nat → K) : Nat → K :=
  addCells x.N (fun c => phi c * scale * x.mat.chi g (x.mmap c) * x.mat.nuSigF g (x.mmap c)) s

/-- `FissionSource::build_in_fission_source`, FissionSource.i.hh:89-108. -/
def Src.fissionIn (x : Src K) (scale : K) (phi : Nat → Nat → K) (g : Nat) (s : Nat → K) : Nat → K :=
  (List.range x.mat.G).foldl
    (fun s gp => if gp = g then s
      else addCells x.N (fun c => phi gp c * scale * x.fker g gp c) s) s

/-- `FissionSource::build_total_group_source`, FissionSource.i.hh:111-129. -/
def Src.fissionTotal (x : Src K) (scale : K) (phi : Nat → Nat → K) (g : Nat) (s : Nat → K) :
    Nat → K :=
  (List.range x.mat.G).foldl
    (fun s gp => addCells x.N (fun c => phi gp c * scale * x.fker g gp c) s) s

/-- `FissionSource::initialize`, FissionSource.cc:40-59. -/
def Src.initDensity (x : Src K) : List K :=
  let d := (List.range x.N).map fun c =>
    (List.range x.mat.G).foldl (fun a g => a + x.mat.nuSigF g (x.mmap c)) 0
  Detran.Util.vecScale d (1 / Detran.Util.normL1 d)

end Detran.Material
