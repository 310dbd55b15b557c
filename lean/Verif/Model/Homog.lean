import Mathlib.Algebra.Order.Field.Basic

/-!
# Model of `transport/State` (scale, clear) and `transport/Homogenize`
-/

namespace Detran.Homog

variable {K : Type} [Field K]

/-! ## State -/

/-- What `State` stores per group: moments (cells times moments), angular flux per angle, current. -/
structure State (K : Type) where
  cells : Nat
  moments : List (List K)
  psi : List (List (List K))
  storePsi : Bool
  current : List (List K)

/-- `State::State`, State.cc:18-81: `G` groups, `n` cells, `nm` moments, `na` angles. -/
def State.init (G n nm na : Nat) (storePsi storeCurrent : Bool) : State K :=
  ⟨n, List.replicate G (List.replicate (n * nm) 0),
   if storePsi then List.replicate G (List.replicate na (List.replicate n 0)) else [], storePsi,
   if storeCurrent then List.replicate G (List.replicate n 0) else []⟩

/-- The loop `for (i = 0; i < number_cells; ++i) v[i] = f(v[i])`, State.cc:88-95 and
    107-114. -/
def firstCells (n : Nat) (f : K → K) (v : List K) : List K :=
  (List.range n).foldl (fun v i => v.set i (f (v.getD i 0))) v

/-- `State::clear`, State.cc:84-100. -/
def State.clear (s : State K) : State K :=
  { s with
    moments := s.moments.map (firstCells s.cells fun _ => 0)
    psi := if s.storePsi then s.psi.map fun g => g.map (firstCells s.cells fun _ => 0) else s.psi }

/-- `State::scale`, State.cc:103-119. -/
def State.scale (f : K) (s : State K) : State K :=
  { s with
    moments := s.moments.map (firstCells s.cells (· * f))
    psi := if s.storePsi then s.psi.map fun g => g.map (firstCells s.cells (· * f)) else s.psi }

/-! ## Homogenisation -/

/-- Fine-group material data read by `homogenize`: `ss m g gp` scatters from `gp` to `g`. -/
structure Mat (K : Type) where
  st : Nat → Nat → K
  sa : Nat → Nat → K
  sf : Nat → Nat → K
  nsf : Nat → Nat → K
  chi : Nat → Nat → K
  dc : Nat → Nat → K
  ss : Nat → Nat → Nat → K

/-- Inputs: group count, cells, region and material maps, cell volumes, weighting flux and current
    (`spectrum(g, cell)`, `current(g, cell)`), fine groups per coarse group and the first group. -/
structure Input (K : Type) where
  G : Nat
  cells : Nat
  reg : Nat → Nat
  mat : Nat → Nat
  vol : Nat → K
  phi : Nat → Nat → K
  cur : Nat → Nat → K
  cg : List Nat
  g0 : Nat
  m : Mat K

/-- Defaults for the group arguments, Homogenize.cc:71-78: `groups` empty means all groups, a
    decreasing list is reversed; `groups[0]` is what is used later.  Coarse groups default to one fine
    group each. -/
def firstGroup (groups : List Nat) : Nat :=
  if groups.isEmpty then 0
  else if groups.getLastD 0 < groups.headD 0 then groups.reverse.headD 0 else groups.headD 0

/-- Homogenize.cc:72. -/
def coarseGroups (G : Nat) (coarse groups : List Nat) : List Nat :=
  let n := if groups.isEmpty then G else groups.length
  if coarse.isEmpty then List.replicate n 1 else coarse

/-- `fg_to_cg`, Homogenize.cc:81-85: groups not reached keep 0.  (No out-of-range write as long as the
    coarse group sizes sum to at most the number of groups.) -/
def fgToCg (cg : List Nat) (g : Nat) : Nat :=
  let rec go : List Nat → Nat → Nat → Nat
    | [], _, _ => 0
    | k :: ks, c, start => if start ≤ g ∧ g < start + k then c else go ks (c + 1) (start + k)
  go cg 0 0

/-- The values of `fg` in coarse group `c`, Homogenize.cc:127. -/
def block (cg : List Nat) (c : Nat) : List Nat :=
  (List.range (cg.getD c 0)).map ((cg.take c).sum + ·)

/-- An accumulation `x[ci] += v(fg, fi)` over the fine groups of coarse group `c` and all cells,
    Homogenize.cc:126-158 (every accumulator is a separate array, so the loops are written once per
    accumulator). -/
def acc (I : Input K) (c : Nat) (v : Nat → Nat → K) (ci : Nat) : K :=
  (block I.cg c).foldl (fun s fg => (List.range I.cells).foldl (fun s fi =>
    if I.reg fi = ci then s + v fg fi else s) s) 0

/-- `phi_vol[ci]`. -/
def phiVol (I : Input K) (c ci : Nat) : K := acc I c (fun fg fi => I.phi fg fi * I.vol fi) ci
/-- `vol[ci]`, accumulated once per fine group. -/
def volAcc (I : Input K) (c ci : Nat) : K := acc I c (fun _ fi => I.vol fi) ci
/-- `cur_vol[ci]`. -/
def curVol (I : Input K) (c ci : Nat) : K := acc I c (fun fg fi => I.cur fg fi * I.vol fi) ci
/-- `sigma_t[ci]` and its likes: `pv * x(m, group)` with `group = fg + groups[0]`. -/
def rate (I : Input K) (x : Nat → Nat → K) (c ci : Nat) : K :=
  acc I c (fun fg fi => I.phi fg fi * I.vol fi * x (I.mat fi) (fg + I.g0)) ci
/-- `diff_coef[ci]`. -/
def dcAcc (I : Input K) (c ci : Nat) : K :=
  acc I c (fun fg fi => I.cur fg fi * I.vol fi * I.m.dc (I.mat fi) (fg + I.g0)) ci

/-- `temp_fd`, Homogenize.cc:148-150: an assignment inside the loop over groups. -/
def tempFd (I : Input K) (fi : Nat) : K :=
  (List.range I.G).foldl (fun _ gp => I.phi gp fi * I.m.nsf (I.mat fi) gp * I.vol fi) 0

/-- `fd[ci]`, Homogenize.cc:151: added for the first fine group only. -/
def fdAcc (I : Input K) (c ci : Nat) : K :=
  if 0 < I.cg.getD c 0 then
    (List.range I.cells).foldl (fun s fi => if I.reg fi = ci then s + tempFd I fi else s) 0
  else 0

/-- `chi[ci]`, Homogenize.cc:152. -/
def chiAcc (I : Input K) (c ci : Nat) : K :=
  acc I c (fun fg fi => tempFd I fi * I.m.chi (I.mat fi) (fg + I.g0)) ci

/-- `sigma_s[ci][cgp]`, Homogenize.cc:153-154. -/
def ssAcc (I : Input K) (cgp c ci : Nat) : K :=
  acc I c (fun fg fi => (List.range I.G).foldl (fun s gp =>
    if fgToCg I.cg gp = cgp then s + I.phi fg fi * I.vol fi * I.m.ss (I.mat fi) gp (fg + I.g0)
    else s) 0) ci

variable [LinearOrder K]

/-- The coarse material, Homogenize.cc:161-182, after `finalize` (which resets the fission production
    to `nu * sigma_f`, Material.cc:351, see C62); unset entries are zero.  `dcOpt`: 0 flux, 1 current, 2 transport
    weighting. -/
def coarse (I : Input K) (dcOpt : Nat) : Mat K where
  st ci c := if 0 < rate I I.m.st c ci then rate I I.m.st c ci / phiVol I c ci else 0
  sa ci c := if 0 < rate I I.m.st c ci then rate I I.m.sa c ci / phiVol I c ci else 0
  sf ci c := if 0 < rate I I.m.st c ci ∧ 0 < rate I I.m.sf c ci then
    rate I I.m.sf c ci / phiVol I c ci else 0
  nsf ci c := if 0 < rate I I.m.st c ci ∧ 0 < rate I I.m.sf c ci then
    rate I I.m.nsf c ci / rate I I.m.sf c ci * (rate I I.m.sf c ci / phiVol I c ci) else 0
  chi ci c := if 0 < rate I I.m.st c ci ∧ 0 < rate I I.m.sf c ci then
    chiAcc I c ci / fdAcc I c ci else 0
  dc ci c := if 0 < rate I I.m.st c ci then
    (if dcOpt = 0 ∨ dcOpt = 1 then dcAcc I c ci / curVol I c ci
     else 1 / (3 * (rate I I.m.st c ci / phiVol I c ci))) else 0
  ss ci cgp c := if 0 < rate I I.m.st c ci then ssAcc I cgp c ci / phiVol I c ci else 0

/-- `d_coarse_mesh_flux[cg][ci]`, Homogenize.cc:184. -/
def coarseFlux (I : Input K) (c ci : Nat) : K := phiVol I c ci / volAcc I c ci

end Detran.Homog
