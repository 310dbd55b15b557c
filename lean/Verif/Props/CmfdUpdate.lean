import Verif.Model.CmfdUpdate
import Verif.Props.Cmfd
import Verif.Props.Homog
import Verif.Props.DiffSolve
import Verif.Props.Sources

/-!
# C107 and C108: coarse-mesh acceleration of transport solves
-/

namespace Detran.CmfdUpd

open Detran.Diffusion Detran.Matrix Finset

variable {K : Type} [Field K] [LinearOrder K] [IsStrictOrderedRing K]

/-! ## Specification -/

/-- Fine cells of a coarse cell. -/
def Prob.cells (p : Prob K) (c : Nat) : Finset Nat := (range p.n).filter fun i => p.map i = c

/-- A problem as the library makes it, and a positive flux: the coarse cells are made of fine cells. -/
structure Prob.Good (p : Prob K) (phi : Nat → Nat → K) : Prop where
  grid : p.M.WF
  h : ∀ a i, 0 < p.M.h a i
  G : 0 < p.G
  vol : ∀ i < p.n, 0 < p.vol i
  map : ∀ i < p.n, p.map i < p.M.size
  onto : ∀ c < p.M.size, ∃ i < p.n, p.map i = c
  volume : ∀ c < p.M.size, p.M.volume c = ∑ i ∈ p.cells c, p.vol i
  st : ∀ m g, 0 < p.fm.st m g
  ss : ∀ m g gp, 0 ≤ p.fm.ss m g gp
  phi : ∀ g < p.G, ∀ i < p.n, 0 < phi g i

/-- Removal less scattering and fission in a fine cell, per volume; `k` divides fission.  In adjoint mode the group
    transfers are transposed. -/
def Prob.net (p : Prob K) (k : K) (fission : Bool) (phi : Nat → Nat → K) (g i : Nat) : K :=
  p.fm.st (p.mat i) g * phi g i
    - ∑ gp ∈ range p.G, (if p.adjoint then p.fm.ss (p.mat i) gp g else p.fm.ss (p.mat i) g gp) * phi gp i
    - if fission then 1 / k * ∑ gp ∈ range p.G, (if p.adjoint then p.fm.chi (p.mat i) gp * p.fm.nsf (p.mat i) g
        else p.fm.chi (p.mat i) g * p.fm.nsf (p.mat i) gp) * phi gp i else 0

/-- Current tallied out of a coarse cell: along an axis `net g axis i j k` counts the positive direction. -/
def Prob.leak (p : Prob K) (J : Nat → Nat → Nat → Nat → Nat → K) (g c : Nat) : K :=
  let i := p.M.coord c 0
  let j := p.M.coord c 1
  let k := p.M.coord c 2
  (if 0 < p.M.dim then J g 0 (i + 1) j k - J g 0 i j k else 0)
  + (if 1 < p.M.dim then J g 1 i (j + 1) k - J g 1 i j k else 0)
  + (if 2 < p.M.dim then J g 2 i j (k + 1) - J g 2 i j k else 0)

/-- Particle balance of a transport solution over every coarse cell and group: leakage by the tallied currents plus
    removal less scattering and fission is the source. -/
def Prob.Balance (p : Prob K) (k : K) (fission : Bool) (J : Nat → Nat → Nat → Nat → Nat → K) (phi Q : Nat → Nat → K) :
    Prop :=
  ∀ g < p.G, ∀ c < p.M.size,
    p.leak J g c + ∑ i ∈ p.cells c, p.net k fission phi g i * p.vol i = ∑ i ∈ p.cells c, Q g i * p.vol i

/-- The linear solver returns a solution, and there is only one. -/
def Exact (N : Nat) (lin : CSR K → (Nat → K) → (Nat → K) → (Nat → K)) (C : CSR K) : Prop :=
  (∀ b x, ∀ r < N, C.multiply (lin C b x) r = b r) ∧
  ∀ x y, (∀ r < N, C.multiply x r = C.multiply y r) → ∀ r < N, x r = y r

/-! ## Coarse vectors -/

theorem coarsen_eq (p : Prob K) (hm : ∀ i < p.n, p.map i < p.M.size) (v : Nat → Nat → K) {g c : Nat} (hg : g < p.G)
    (hc : c < p.M.size) :
    p.coarsen v (c + g * p.M.size) = (∑ i ∈ p.cells c, v g i * p.vol i) / p.M.volume c := by
  unfold Prob.coarsen
  rw [foldl_addAt, zero_add, sum_flatMap_map, Material.sum_map_range]
  have : ∀ g' ∈ range p.G, (((List.range p.n).map fun i =>
      (p.map i + g' * p.M.size, v g' i * (p.vol i / p.M.volume (p.map i)))).map
      fun e : Nat × K => if c + g * p.M.size = e.1 then e.2 else 0).sum
      = if g' = g then (∑ i ∈ p.cells c, v g i * p.vol i) / p.M.volume c else 0 := by
    intro g' _
    rw [List.map_map, Material.sum_map_range]
    by_cases h : g' = g
    · subst h
      rw [if_pos rfl, Finset.sum_div, Prob.cells, Finset.sum_filter]
      refine Finset.sum_congr rfl fun i hi => ?_
      simp only [Function.comp_apply]
      by_cases hic : p.map i = c
      · rw [if_pos (by rw [hic]), if_pos hic, hic, mul_div_assoc]
      · rw [if_neg (fun h => hic (pos_inj hc (hm i (mem_range.1 hi)) h).1.symm), if_neg hic]
    · rw [if_neg h]
      refine Finset.sum_eq_zero fun i hi => ?_
      simp only [Function.comp_apply]
      exact if_neg fun h2 => h (pos_inj hc (hm i (mem_range.1 hi)) h2).2.symm
  rw [Finset.sum_congr rfl this, Finset.sum_ite_eq' (range p.G) g, if_pos (mem_range.2 hg)]

theorem cg_ones (p : Prob K) (phi cur) : (p.input phi cur).cg = List.replicate p.G 1 := by
  simp [Prob.input, Homog.coarseGroups]

omit [Field K] [IsStrictOrderedRing K] [LinearOrder K] in
theorem groupsOf_ones (G g : Nat) (hg : g < G) : Homog.groupsOf (List.replicate G 1) g = {g} := by
  unfold Homog.groupsOf
  have : (List.take g (List.replicate G 1)).sum = g := by
    rw [List.take_replicate, List.sum_replicate, smul_eq_mul, mul_one]; omega
  rw [this, List.getD_eq_getElem?_getD, List.getElem?_replicate, if_pos hg]
  ext x
  simp only [mem_Ico, Option.getD_some, mem_singleton]
  omega

theorem groupsOf_out (G g : Nat) (hg : G ≤ g) : Homog.groupsOf (List.replicate G 1) g = ∅ := by
  unfold Homog.groupsOf
  rw [List.getD_eq_getElem?_getD, List.getElem?_replicate, if_neg (by omega)]
  simp

theorem flux_one (p : Prob K) (phi : Nat → Nat → K) (cur) {g : Nat} (hg : g < p.G) (c : Nat) :
    Homog.flux (p.input phi cur) g c = ∑ i ∈ p.cells c, phi g i * p.vol i := by
  unfold Homog.flux
  rw [cg_ones, groupsOf_ones _ _ hg, Finset.sum_singleton]
  rfl

theorem reaction_one (p : Prob K) (phi : Nat → Nat → K) (cur) (x : Nat → Nat → K) {g : Nat} (hg : g < p.G) (c : Nat) :
    Homog.reaction (p.input phi cur) x g c = ∑ i ∈ p.cells c, x (p.mat i) g * phi g i * p.vol i := by
  unfold Homog.reaction
  rw [cg_ones, groupsOf_ones _ _ hg, Finset.sum_singleton]
  rfl

theorem mem_cells (p : Prob K) {i c : Nat} : i ∈ p.cells c ↔ i < p.n ∧ p.map i = c := by
  simp [Prob.cells]

theorem cells_ne (p : Prob K) {phi} (hp : p.Good phi) {c : Nat} (hc : c < p.M.size) : (p.cells c).Nonempty := by
  obtain ⟨i, hi, h⟩ := hp.onto c hc
  exact ⟨i, (mem_cells p).2 ⟨hi, h⟩⟩

theorem sum_pos (p : Prob K) {phi} (hp : p.Good phi) {c : Nat} (hc : c < p.M.size) (f : Nat → K)
    (hf : ∀ i < p.n, 0 < f i) : 0 < ∑ i ∈ p.cells c, f i :=
  Finset.sum_pos (fun i hi => hf i ((mem_cells p).1 hi).1) (cells_ne p hp hc)

theorem flux_pos (p : Prob K) {phi} (hp : p.Good phi) (cur) {g c : Nat} (hg : g < p.G) (hc : c < p.M.size) :
    0 < Homog.flux (p.input phi cur) g c := by
  rw [flux_one p phi cur hg]
  exact sum_pos p hp hc _ fun i hi => mul_pos (hp.phi g hg i hi) (hp.vol i hi)

theorem total_pos (p : Prob K) {phi} (hp : p.Good phi) (cur) {g c : Nat} (hg : g < p.G) (hc : c < p.M.size) :
    0 < Homog.reaction (p.input phi cur) p.fm.st g c := by
  rw [reaction_one p phi cur _ hg]
  exact sum_pos p hp hc _ fun i hi => mul_pos (mul_pos (hp.st _ _) (hp.phi g hg i hi)) (hp.vol i hi)

theorem volume_pos (p : Prob K) {phi} (hp : p.Good phi) {c : Nat} (hc : c < p.M.size) : 0 < p.M.volume c := by
  rw [hp.volume c hc]
  exact sum_pos p hp hc _ hp.vol

/-- The coarse flux of the homogenisation is the coarsened flux. -/
theorem coarsen_phi (p : Prob K) {phi} (hp : p.Good phi) (cur) {g c : Nat} (hg : g < p.G) (hc : c < p.M.size) :
    p.coarsen phi (c + g * p.M.size) = Homog.coarseFlux (p.input phi cur) g c := by
  have hv := volume_pos p hp hc
  have hcell : ∑ i ∈ Homog.cellsOf (p.input phi cur) c, (p.input phi cur).vol i = p.M.volume c := (hp.volume c hc).symm
  have hcg : ((p.input phi cur).cg.getD g 0 : K) = 1 := by
    rw [cg_ones, List.getD_eq_getElem?_getD, List.getElem?_replicate, if_pos hg]
    simp
  have e := Homog.C44_flux_partial (p.input phi cur) g c (by rw [hcg, one_mul, hcell]; exact hv.ne')
  rw [hcg, one_mul, hcell, flux_one p phi cur hg] at e
  rw [coarsen_eq p hp.map phi hg hc, ← e, mul_div_assoc, div_self hv.ne', mul_one]

theorem coarsen_pos (p : Prob K) {phi} (hp : p.Good phi) {g c : Nat} (hg : g < p.G) (hc : c < p.M.size) :
    0 < p.coarsen phi (c + g * p.M.size) := by
  rw [coarsen_eq p hp.map phi hg hc]
  exact div_pos (sum_pos p hp hc _ fun i hi => mul_pos (hp.phi g hg i hi) (hp.vol i hi)) (volume_pos p hp hc)

/-! ## What an update does to the flux -/

/-- **C107 (shape).** An update keeps the shape of the flux inside each coarse cell: two cells of one coarse cell are
    scaled alike. -/
theorem C107_shape (p : Prob K) (x x0 : Nat → K) (phi : Nat → Nat → K) (g i j : Nat) (hi : i < p.n) (hj : j < p.n)
    (hm : p.map i = p.map j) : p.scale x x0 phi g i * phi g j = p.scale x x0 phi g j * phi g i := by
  unfold Prob.scale
  by_cases hg : g < p.G
  · rw [if_pos ⟨hg, hi⟩, if_pos ⟨hg, hj⟩, hm]; ring
  · rw [if_neg fun h => hg h.1, if_neg fun h => hg h.1]; ring

/-- **C107 (coarse flux).** After an update the coarse flux is the relaxed combination of the coarse solution and the old
    coarse flux. -/
theorem C107_restricted (p : Prob K) {phi} (hp : p.Good phi) (x : Nat → K) {g c : Nat} (hg : g < p.G)
    (hc : c < p.M.size) :
    p.coarsen (p.scale x (p.coarsen phi) phi) (c + g * p.M.size)
      = p.omega * x (c + g * p.M.size) + (1 - p.omega) * p.coarsen phi (c + g * p.M.size) := by
  have h0 := coarsen_pos p hp hg hc
  have e := coarsen_eq p hp.map phi hg hc
  rw [coarsen_eq p hp.map _ hg hc]
  have : ∀ i ∈ p.cells c, p.scale x (p.coarsen phi) phi g i * p.vol i = (phi g i * p.vol i) *
      (p.omega * x (c + g * p.M.size) / p.coarsen phi (c + g * p.M.size) + (1 - p.omega)) := by
    intro i hi
    obtain ⟨hi, hic⟩ := (mem_cells p).1 hi
    unfold Prob.scale
    rw [if_pos ⟨hg, hi⟩, hic]
    ring
  rw [Finset.sum_congr rfl this, ← Finset.sum_mul, mul_div_right_comm, ← e]
  field_simp

/-- **C107 (diffusion coefficients).** The diffusion coefficient of a coarse cell is the mean of those of its cells,
    weighted with the flux, or with the stored current if asked for and there is one; or it comes from the mean total
    cross section. -/
theorem C107_diffusion (p : Prob K) {phi} (hp : p.Good phi) (cur : Option (Nat → Nat → K)) {g c : Nat} (hg : g < p.G)
    (hc : c < p.M.size) :
    (coarseMat (p.input phi cur) (p.opt cur) p.M.size).diff g c =
      if p.dcw = 0 ∨ (p.dcw = 1 ∧ cur = none) then
        (∑ i ∈ p.cells c, phi g i * p.vol i * p.fm.dc (p.mat i) g) / ∑ i ∈ p.cells c, phi g i * p.vol i
      else if p.dcw = 1 then
        (∑ i ∈ p.cells c, (cur.getD phi) g i * p.vol i * p.fm.dc (p.mat i) g) / ∑ i ∈ p.cells c, (cur.getD phi) g i * p.vol i
      else 1 / (3 * ((∑ i ∈ p.cells c, p.fm.st (p.mat i) g * phi g i * p.vol i) / ∑ i ∈ p.cells c, phi g i * p.vol i)) := by
  have hacc : ∀ v : Nat → Nat → K, Homog.acc (p.input phi cur) g v c = ∑ i ∈ p.cells c, v g i := by
    intro v
    rw [Homog.acc_eq, cg_ones, groupsOf_ones _ _ hg, Finset.sum_singleton]
    rfl
  have hg0 : (p.input phi cur).g0 = 0 := rfl
  have ht : 0 < Homog.rate (p.input phi cur) p.fm.st g c := by
    rw [Homog.rate_eq _ hg0]
    exact total_pos p hp cur hg hc
  have hr : Homog.rate (p.input phi cur) p.fm.st g c = ∑ i ∈ p.cells c, p.fm.st (p.mat i) g * phi g i * p.vol i := by
    rw [Homog.rate_eq _ hg0]
    exact reaction_one p phi cur _ hg c
  have hf : Homog.phiVol (p.input phi cur) g c = ∑ i ∈ p.cells c, phi g i * p.vol i := hacc _
  have hd : Homog.dcAcc (p.input phi cur) g c =
      ∑ i ∈ p.cells c, (p.input phi cur).cur g i * p.vol i * p.fm.dc (p.mat i) g := hacc _
  have hv : Homog.curVol (p.input phi cur) g c = ∑ i ∈ p.cells c, (p.input phi cur).cur g i * p.vol i := hacc _
  have e : (coarseMat (p.input phi cur) (p.opt cur) p.M.size).diff g c =
      if p.opt cur = 0 ∨ p.opt cur = 1 then
        (∑ i ∈ p.cells c, (p.input phi cur).cur g i * p.vol i * p.fm.dc (p.mat i) g) /
          ∑ i ∈ p.cells c, (p.input phi cur).cur g i * p.vol i
      else 1 / (3 * ((∑ i ∈ p.cells c, p.fm.st (p.mat i) g * phi g i * p.vol i) / ∑ i ∈ p.cells c, phi g i * p.vol i)) := by
    show (if 0 < Homog.rate (p.input phi cur) p.fm.st g c then _ else _) = _
    rw [if_pos ht, ← hd, ← hv, ← hr, ← hf]
    rfl
  rw [e]
  have hcur : (p.input phi cur).cur = if p.dcw = 1 then cur.getD phi else phi := rfl
  rw [hcur, Prob.opt]
  by_cases h0 : p.dcw = 0
  · simp [h0]
  · by_cases h1 : p.dcw = 1
    · cases cur <;> simp [h1]
    · simp [h0, h1]

/-- **C107 (positivity).** A positive coarse solution keeps a positive flux positive. -/
theorem C107_positive (p : Prob K) {phi} (hp : p.Good phi) (h0 : 0 ≤ p.omega) (h1 : p.omega ≤ 1) (x : Nat → K)
    (hx : ∀ g < p.G, ∀ c < p.M.size, 0 < x (c + g * p.M.size)) (g i : Nat) (hg : g < p.G) (hi : i < p.n) :
    0 < p.scale x (p.coarsen phi) phi g i := by
  unfold Prob.scale
  rw [if_pos ⟨hg, hi⟩]
  refine mul_pos (hp.phi g hg i hi) ?_
  have hc := hp.map i hi
  have a := div_pos (hx g hg _ hc) (coarsen_pos p hp hg hc)
  rw [mul_div_assoc]
  rcases h0.eq_or_lt with h | h
  · rw [← h]; norm_num
  · have := mul_pos h a
    linarith

/-- **C107 (no change).** If the coarse solution is the coarse flux the update does nothing. -/
theorem C107_identity (p : Prob K) {phi} (hp : p.Good phi) (x : Nat → K)
    (hx : ∀ r < p.G * p.M.size, x r = p.coarsen phi r) : p.scale x (p.coarsen phi) phi = phi := by
  funext g i
  unfold Prob.scale
  split
  · rename_i h
    have hc := hp.map i h.2
    have hlt : p.map i + g * p.M.size < p.G * p.M.size := by
      calc p.map i + g * p.M.size < (g + 1) * p.M.size := by rw [Nat.add_mul]; omega
        _ ≤ p.G * p.M.size := Nat.mul_le_mul_right _ h.1
    have := (coarsen_pos p hp h.1 hc).ne'
    rw [hx _ hlt, mul_div_assoc, div_self this]
    ring
  · rfl

/-! ## Consistency of the coarse problem -/

theorem input_g0 (p : Prob K) (phi cur) : (p.input phi cur).g0 = 0 := rfl

theorem acc_nonneg (p : Prob K) {phi} (hp : p.Good phi) (cur) (v : Nat → Nat → K)
    (hv : ∀ g < p.G, ∀ i < p.n, 0 ≤ v g i) (g c : Nat) : 0 ≤ Homog.acc (p.input phi cur) g v c := by
  rw [Homog.acc_eq, cg_ones]
  refine Finset.sum_nonneg fun g' hg' => Finset.sum_nonneg fun i hi => ?_
  by_cases hg : g < p.G
  · rw [groupsOf_ones _ _ hg, mem_singleton] at hg'
    subst hg'
    exact hv _ hg i ((mem_cells p).1 hi).1
  · rw [groupsOf_out _ _ (by omega)] at hg'
    simp at hg'

theorem ss_nonneg (p : Prob K) {phi} (hp : p.Good phi) (cur) (o g gp c : Nat) :
    0 ≤ (Homog.coarse (p.input phi cur) o).ss c g gp := by
  unfold Homog.coarse
  simp only
  split
  · refine div_nonneg (acc_nonneg p hp cur _ ?_ _ _) (acc_nonneg p hp cur _ ?_ _ _)
    · intro g' hg' i hi
      rw [Homog.foldl_if_sum, zero_add]
      refine Finset.sum_nonneg fun x _ => ?_
      exact mul_nonneg (mul_nonneg (hp.phi g' hg' i hi).le (hp.vol i hi).le) (hp.ss _ _ _)
    · intro g' hg' i hi
      exact mul_nonneg (hp.phi g' hg' i hi).le (hp.vol i hi).le
  · exact le_rfl

theorem cmfd_full (p : Prob K) {phi} (hp : p.Good phi) (cur) (net) (fix) (k : K) : (p.cmfd phi cur net fix k).Full := by
  have hG : (p.cmfd phi cur net fix k).L.mat.G = p.G := by
    show (p.input phi cur).cg.length = p.G
    rw [cg_ones, List.length_replicate]
  refine ⟨⟨hp.grid, ⟨_, rfl⟩, ?_, ?_, ?_⟩, ?_, ?_, rfl⟩
  · intro g gp m
    exact ss_nonneg p hp cur (p.opt cur) g gp m
  · intro c hc
    exact hc
  · have hadj : (p.cmfd phi cur net fix k).L.adjoint = p.adjoint := rfl
    have hcut : (p.cmfd phi cur net fix k).L.cutoff = if p.adjoint then p.G - 1 else 0 := rfl
    have := hp.G
    rw [hadj, hcut, hG]
    cases p.adjoint
    · simp
    · simp only [if_true]; omega
  · rw [hG]; exact hp.G
  · rw [hG]; rfl

theorem cmfd_nz (p : Prob K) {phi} (hp : p.Good phi) (cur) (net) (fix) (k : K) : (p.cmfd phi cur net fix k).NZ := by
  have hG : (p.cmfd phi cur net fix k).L.mat.G = p.G := by
    show (p.input phi cur).cg.length = p.G
    rw [cg_ones, List.length_replicate]
  have hpos : ∀ g < p.G, ∀ c < p.M.size, 0 < (p.cmfd phi cur net fix k).phi g c := by
    intro g hg c hc
    show 0 < Homog.coarseFlux (p.input phi cur) g c
    rw [← coarsen_phi p hp cur hg hc]
    exact coarsen_pos p hp hg hc
  refine ⟨fun a i => (hp.h a i).ne', ?_, ?_⟩
  · intro g hg c hc
    rw [hG] at hg
    exact (hpos g hg c hc).ne'
  · intro g hg c hc leak hl hb
    rw [hG] at hg
    have hl6 : leak < 6 := by
      have := hp.grid.dim_le
      have hl' : leak < 2 * p.M.dim := hl
      omega
    exact (add_pos (hpos g hg c hc) (hpos g hg _ (neighbour_spec p.M hc hl6 hb).1)).ne'

theorem leak_out (p : Prob K) {phi} (hp : p.Good phi) (cur) (J) (fix) (k : K) (g c : Nat) :
    ∑ leak ∈ range (2 * p.M.dim), (p.cmfd phi cur J fix k).out g c leak = p.leak J g c := by
  have hd := hp.grid.dim_le
  unfold Prob.leak
  have o0 : (p.cmfd phi cur J fix k).out g c 0 = - J g 0 (p.M.coord c 0) (p.M.coord c 1) (p.M.coord c 2) := rfl
  have o1 : (p.cmfd phi cur J fix k).out g c 1 = J g 0 (p.M.coord c 0 + 1) (p.M.coord c 1) (p.M.coord c 2) := rfl
  have o2 : (p.cmfd phi cur J fix k).out g c 2 = - J g 1 (p.M.coord c 0) (p.M.coord c 1) (p.M.coord c 2) := rfl
  have o3 : (p.cmfd phi cur J fix k).out g c 3 = J g 1 (p.M.coord c 0) (p.M.coord c 1 + 1) (p.M.coord c 2) := rfl
  have o4 : (p.cmfd phi cur J fix k).out g c 4 = - J g 2 (p.M.coord c 0) (p.M.coord c 1) (p.M.coord c 2) := rfl
  have o5 : (p.cmfd phi cur J fix k).out g c 5 = J g 2 (p.M.coord c 0) (p.M.coord c 1) (p.M.coord c 2 + 1) := rfl
  generalize p.M.dim = d at hd ⊢
  have hd3 : d = 0 ∨ d = 1 ∨ d = 2 ∨ d = 3 := by omega
  rcases hd3 with rfl | rfl | rfl | rfl
  · simp
  · simp [Finset.sum_range_succ, o0, o1]; ring
  · simp [Finset.sum_range_succ, o0, o1, o2, o3]; ring
  · simp [Finset.sum_range_succ, o0, o1, o2, o3, o4, o5]; ring

/-- Production of the coarse material: `nu * sigma_f` after `finalize`. -/
theorem coarseMat_nsf (I : Homog.Input K) (o n g m : Nat) :
    (coarseMat I o n).nuSigF g m = (Homog.coarse I o).nsf m g := by
  show (if _ then _ else _) * (if _ then _ else _) = if _ then _ else _
  split
  · rfl
  · rw [mul_zero]

/-- Total removal and scattering of the coarse problem are those of the fine one. -/
theorem coarse_rates (p : Prob K) {phi} (hp : p.Good phi) (cur) (o : Nat) {g c : Nat} (hg : g < p.G)
    (hc : c < p.M.size) :
    (Homog.coarse (p.input phi cur) o).st c g * p.coarsen phi (c + g * p.M.size)
      = (∑ i ∈ p.cells c, p.fm.st (p.mat i) g * phi g i * p.vol i) / p.M.volume c ∧
    ∀ gp < p.G, (Homog.coarse (p.input phi cur) o).ss c g gp * p.coarsen phi (c + gp * p.M.size)
      = (∑ i ∈ p.cells c, p.fm.ss (p.mat i) g gp * phi gp i * p.vol i) / p.M.volume c := by
  have hv := (volume_pos p hp hc).ne'
  constructor
  · rw [coarsen_eq p hp.map phi hg hc, ← flux_one p phi cur hg, ← mul_div_assoc,
      (Homog.C44_total (p.input phi cur) o rfl g c (flux_pos p hp cur hg hc).ne' (total_pos p hp cur hg hc)).1,
      reaction_one p phi cur _ hg]
    rfl
  · intro gp hgp
    have hcg : (p.input phi cur).cg.sum = (p.input phi cur).G := by
      rw [cg_ones, List.sum_replicate]
      show p.G * 1 = p.G
      omega
    have hlen : g < (p.input phi cur).cg.length := by rw [cg_ones, List.length_replicate]; exact hg
    rw [coarsen_eq p hp.map phi hgp hc, ← flux_one p phi cur hgp, ← mul_div_assoc,
      Homog.C44_scatter (p.input phi cur) o rfl hcg gp g c hlen (flux_pos p hp cur hgp hc).ne'
        (total_pos p hp cur hgp hc)]
    rw [cg_ones, groupsOf_ones _ _ hg, Finset.sum_singleton, reaction_one p phi cur _ hgp]
    rfl

/-- Fission of the coarse problem per cell and group, as integral over the cell. -/
def Prob.coarseFission (p : Prob K) (phi : Nat → Nat → K) (cur : Option (Nat → Nat → K)) (g c : Nat) : K :=
  (Homog.coarse (p.input phi cur) (p.opt cur)).chi c g *
    ∑ gp ∈ range p.G, (Homog.coarse (p.input phi cur) (p.opt cur)).nsf c gp * Homog.flux (p.input phi cur) gp c

theorem local_eq (p : Prob K) {phi} (hp : p.Good phi) (ha : p.adjoint = false) (cur) (J) (fix) (k : K) {g c : Nat}
    (hg : g < p.G) (hc : c < p.M.size) :
    (p.cmfd phi cur J fix k).L.local (p.coarsen phi) g c =
      ((∑ i ∈ p.cells c, (p.fm.st (p.mat i) g * phi g i - ∑ gp ∈ range p.G, p.fm.ss (p.mat i) g gp * phi gp i) * p.vol i)
        - if p.multiply then p.coarseFission phi cur g c else 0) / p.M.volume c := by
  have hG : (p.cmfd phi cur J fix k).L.mat.G = p.G := by
    show (p.input phi cur).cg.length = p.G
    rw [cg_ones, List.length_replicate]
  have hadj : (p.cmfd phi cur J fix k).L.adjoint = false := ha
  have hcut : (p.cmfd phi cur J fix k).L.cutoff = 0 := by
    show (if p.adjoint then p.G - 1 else 0) = 0
    rw [ha]; rfl
  have hact : (p.cmfd phi cur J fix k).L.active = range p.G := by
    unfold Loss.active
    rw [hadj, hcut, hG]
    ext; simp
  have hpos : ∀ g c, (p.cmfd phi cur J fix k).L.pos g c = c + g * p.M.size := by
    intro g c
    unfold Loss.pos
    rw [hadj, hcut]
    rfl
  have hv := (volume_pos p hp hc).ne'
  obtain ⟨r1, r2⟩ := coarse_rates p hp cur (p.opt cur) hg hc
  unfold Loss.local
  rw [hact]
  simp only [hpos, Loss.scatXs, Loss.fisXs, hadj, Bool.false_eq_true, if_false]
  have e1 : (p.cmfd phi cur J fix k).L.mat.sigT g ((p.cmfd phi cur J fix k).L.mmap c)
      = (Homog.coarse (p.input phi cur) (p.opt cur)).st c g := rfl
  have e2 : ∀ gp, (p.cmfd phi cur J fix k).L.mat.sigS g gp ((p.cmfd phi cur J fix k).L.mmap c)
      = (Homog.coarse (p.input phi cur) (p.opt cur)).ss c g gp := fun _ => rfl
  have e3 : (p.cmfd phi cur J fix k).L.mat.chi g ((p.cmfd phi cur J fix k).L.mmap c)
      = (Homog.coarse (p.input phi cur) (p.opt cur)).chi c g := rfl
  have e4 : ∀ gp, (p.cmfd phi cur J fix k).L.mat.nuSigF gp ((p.cmfd phi cur J fix k).L.mmap c)
      = (Homog.coarse (p.input phi cur) (p.opt cur)).nsf c gp := fun gp => coarseMat_nsf _ _ _ _ _
  have e5 : (p.cmfd phi cur J fix k).L.sf = 0 := rfl
  have e6 : (p.cmfd phi cur J fix k).L.fission = p.multiply := rfl
  have e7 : (p.cmfd phi cur J fix k).L.keff = 1 := rfl
  simp only [e1, e2, e3, e4, e5, e6, e7, if_true, and_true, div_one]
  rw [r1, Finset.sum_congr rfl fun gp hgp => r2 gp (mem_range.1 hgp), ← Finset.sum_div, Finset.sum_comm, ← sub_div,
    ← Finset.sum_sub_distrib]
  have hin : ∑ i ∈ p.cells c, (p.fm.st (p.mat i) g * phi g i * p.vol i
        - ∑ gp ∈ range p.G, p.fm.ss (p.mat i) g gp * phi gp i * p.vol i)
      = ∑ i ∈ p.cells c, (p.fm.st (p.mat i) g * phi g i - ∑ gp ∈ range p.G, p.fm.ss (p.mat i) g gp * phi gp i)
          * p.vol i := by
    refine Finset.sum_congr rfl fun i _ => ?_
    rw [sub_mul, Finset.sum_mul]
  rw [hin, sub_div]
  congr 1
  cases p.multiply with
  | false => simp
  | true =>
    simp only [if_true]
    unfold Prob.coarseFission
    rw [mul_div_assoc, Finset.sum_div, Finset.mul_sum]
    refine Finset.sum_congr rfl fun gp hgp => ?_
    rw [coarsen_eq p hp.map phi (mem_range.1 hgp) hc, ← flux_one p phi cur (mem_range.1 hgp)]
    ring

/-- When the spectra of the fissile cells of a coarse cell are the same and every group has fission, the coarse problem
    has the fission of the fine one. -/
theorem coarse_fission (p : Prob K) {phi} (hp : p.Good phi) (cur) {c : Nat} (hc : c < p.M.size) (X : Nat → K)
    (hX : ∀ i ∈ p.cells c, ∀ g < p.G, p.fm.chi (p.mat i) g = X g)
    (hsf : ∀ g < p.G, 0 < ∑ i ∈ p.cells c, p.fm.sf (p.mat i) g * phi g i * p.vol i)
    (hl : ∑ i ∈ p.cells c, phi (p.G - 1) i * p.fm.nsf (p.mat i) (p.G - 1) * p.vol i ≠ 0) {g : Nat} (hg : g < p.G) :
    p.coarseFission phi cur g c = ∑ i ∈ p.cells c,
      (∑ gp ∈ range p.G, p.fm.chi (p.mat i) g * p.fm.nsf (p.mat i) gp * phi gp i) * p.vol i := by
  have hG := hp.G
  have hsf' : ∀ g < p.G, 0 < Homog.reaction (p.input phi cur) p.fm.sf g c := by
    intro g hg
    rw [reaction_one p phi cur _ hg]
    exact hsf g hg
  have htemp : ∀ i, Homog.tempFd (p.input phi cur) i = phi (p.G - 1) i * p.fm.nsf (p.mat i) (p.G - 1) * p.vol i := by
    intro i
    unfold Homog.tempFd
    have : (p.input phi cur).G = (p.G - 1) + 1 := by show p.G = _; omega
    rw [this, List.range_succ, List.foldl_append]
    rfl
  have hchi : (Homog.coarse (p.input phi cur) (p.opt cur)).chi c g = X g := by
    show (if _ then _ else _) = _
    rw [Homog.rate_eq _ rfl, Homog.rate_eq _ rfl, if_pos ⟨total_pos p hp cur hg hc, hsf' g hg⟩]
    have h1 : Homog.chiAcc (p.input phi cur) g c = (∑ i ∈ p.cells c,
        phi (p.G - 1) i * p.fm.nsf (p.mat i) (p.G - 1) * p.vol i) * X g := by
      unfold Homog.chiAcc
      rw [Homog.acc_eq, cg_ones, groupsOf_ones _ _ hg, Finset.sum_singleton, Finset.sum_mul]
      refine Finset.sum_congr rfl fun i hi => ?_
      rw [htemp]
      congr 1
      exact hX i hi g hg
    have h2 : Homog.fdAcc (p.input phi cur) g c = ∑ i ∈ p.cells c,
        phi (p.G - 1) i * p.fm.nsf (p.mat i) (p.G - 1) * p.vol i := by
      unfold Homog.fdAcc
      rw [cg_ones, List.getD_eq_getElem?_getD, List.getElem?_replicate, if_pos hg, Option.getD_some, if_pos one_pos,
        Homog.foldl_if_sum, zero_add]
      exact Finset.sum_congr rfl fun i _ => htemp i
    rw [h1, h2, mul_div_assoc, mul_comm, div_mul_cancel₀ _ hl]
  unfold Prob.coarseFission
  rw [hchi]
  have hn : ∀ gp ∈ range p.G, (Homog.coarse (p.input phi cur) (p.opt cur)).nsf c gp * Homog.flux (p.input phi cur) gp c
      = ∑ i ∈ p.cells c, p.fm.nsf (p.mat i) gp * phi gp i * p.vol i := by
    intro gp hgp
    rw [mem_range] at hgp
    rw [(Homog.C44_fission (p.input phi cur) (p.opt cur) rfl gp c (flux_pos p hp cur hgp hc).ne'
      (total_pos p hp cur hgp hc) (hsf' gp hgp)).2, reaction_one p phi cur _ hgp]
    rfl
  rw [Finset.sum_congr rfl hn, Finset.sum_comm, Finset.mul_sum]
  refine Finset.sum_congr rfl fun i hi => ?_
  rw [Finset.mul_sum, Finset.sum_mul]
  refine Finset.sum_congr rfl fun gp _ => ?_
  rw [hX i hi g hg]
  ring

/-- Where the fission of the coarse problem is that of the fine one: none at all, or k one, one spectrum per coarse cell
    and fission in every group. -/
def Prob.FissionOK (p : Prob K) (k : K) (phi : Nat → Nat → K) : Prop :=
  p.multiply = false ∨ (k = 1 ∧ ∀ c < p.M.size, (∃ X : Nat → K, ∀ i ∈ p.cells c, ∀ g < p.G, p.fm.chi (p.mat i) g = X g) ∧
    (∀ g < p.G, 0 < ∑ i ∈ p.cells c, p.fm.sf (p.mat i) g * phi g i * p.vol i) ∧
    ∑ i ∈ p.cells c, phi (p.G - 1) i * p.fm.nsf (p.mat i) (p.G - 1) * p.vol i ≠ 0)

/-- **C107 (consistency), partial.** A transport solution satisfies the coarse problem built from it: the operator is made
    with every insertion accepted, and applied to the coarse flux it gives the coarse source.  What is missing: adjoint
    mode, discrete sources (`C107_discrete_dropped`), fission with k other than one (`C107_claim_fails`) or with
    spectra that the homogenisation gets wrong (C44). -/
theorem C107_consistent_partial (p : Prob K) {phi} (hp : p.Good phi) (ha : p.adjoint = false) (k : K)
    (hf : p.FissionOK k phi) (J) (Q : Nat → Nat → K) (hb : p.Balance k p.multiply J phi Q) (cur) (fix)
    (srt : List (Trip K) → List (Trip K)) (hs : IsSort srt) :
    ∃ C bs, (p.cmfd phi cur J fix k).sys.make srt = .ok (some C, bs) ∧ (∀ b ∈ bs, b = true) ∧
      ∀ r < p.G * p.M.size, C.multiply (p.coarsen phi) r = p.coarsen Q r := by
  have hG : (p.cmfd phi cur J fix k).L.mat.G = p.G := by
    show (p.input phi cur).cg.length = p.G
    rw [cg_ones, List.length_replicate]
  obtain ⟨C, h1, _, _⟩ := C52_rows (p.cmfd phi cur J fix k) (cmfd_full p hp cur J fix k) (cmfd_nz p hp cur J fix k)
    srt hs
  refine ⟨C, _, h1, by simp, ?_⟩
  have hbal := C52_balance (p.cmfd phi cur J fix k) (cmfd_full p hp cur J fix k) (cmfd_nz p hp cur J fix k) rfl srt hs C _
    h1 (p.coarsen phi) (by
      intro g hg c hc
      rw [hG] at hg
      exact coarsen_phi p hp cur hg hc)
  intro r hr
  have hn : 0 < p.M.size := by
    by_contra h
    rw [Nat.eq_zero_of_not_pos h, Nat.mul_zero] at hr
    omega
  obtain ⟨g, hg, c, hc, rfl⟩ : ∃ g < p.G, ∃ c < p.M.size, r = c + g * p.M.size :=
    ⟨r / p.M.size, Nat.div_lt_of_lt_mul (by rw [Nat.mul_comm]; exact hr), r % p.M.size, Nat.mod_lt _ hn, by
      rw [Nat.mul_comm]; exact (Nat.mod_add_div r p.M.size).symm⟩
  have e := hbal g (by rw [hG]; exact hg) c hc
  have e0 : (p.cmfd phi cur J fix k).L.M = p.M := rfl
  rw [e0, leak_out p hp cur J fix k g c, local_eq p hp ha cur J fix k hg hc] at e
  rw [e, coarsen_eq p hp.map Q hg hc, ← hb g hg c hc, ← add_div]
  congr 2
  unfold Prob.net
  simp only [ha, Bool.false_eq_true, if_false]
  rcases hf with hm | ⟨rfl, hm⟩
  · simp only [hm, Bool.false_eq_true, if_false, sub_zero]
  · cases hmul : p.multiply with
    | false => simp only [Bool.false_eq_true, if_false, sub_zero]
    | true =>
      obtain ⟨⟨X, hX⟩, h2, h3⟩ := hm c hc
      simp only [if_true]
      rw [coarse_fission p hp cur hc X hX h2 h3 hg, ← Finset.sum_sub_distrib]
      refine Finset.sum_congr rfl fun i _ => ?_
      ring

/-- Source density of a list of sources with known moments and of a fission source. -/
def totalSource (str : Sources.Ext K → Nat → Nat → K) (qe : List (Option (Sources.Ext K)))
    (qf : Option (Nat → Nat → K)) (g i : Nat) : K :=
  ((qe.filterMap id).map fun s => str s g i).sum + (qf.map fun f => f g i).getD 0

theorem foldlM_some {α : Type} (l : List α) (f : α → Option K) (h : α → K) (hf : ∀ s ∈ l, f s = some (h s)) : ∀ v : K,
    l.foldlM (fun v s => (f s).map fun x => v + x) v = some (v + (l.map h).sum) := by
  induction l with
  | nil => intro v; simp
  | cons a l ih =>
    intro v
    rw [List.foldlM_cons, hf a (List.mem_cons_self ..)]
    simp only [Option.map_some, Option.bind_eq_bind, Option.bind_some]
    rw [ih (fun s hs => hf s (List.mem_cons_of_mem _ hs)), List.map_cons, List.sum_cons, add_assoc]

theorem filter_iso (qe : List (Option (Sources.Ext K))) :
    (qe.filter fun o => o.any fun s => !s.isDiscrete).filterMap id = (qe.filterMap id).filter fun s => !s.isDiscrete := by
  induction qe with
  | nil => rfl
  | cons o qe ih =>
    cases o with
    | none => simpa using ih
    | some s => cases hs : s.isDiscrete <;> simpa [List.filter_cons, hs] using ih

theorem filter_all (qe : List (Option (Sources.Ext K))) (hiso : ∀ s, some s ∈ qe → s.isDiscrete = false) :
    (qe.filter fun o => o.any fun s => !s.isDiscrete).filterMap id = qe.filterMap id := by
  rw [filter_iso, List.filter_eq_self]
  intro s hs
  obtain ⟨o, ho, h⟩ := List.mem_filterMap.1 hs
  simp only [id_eq] at h
  subst h
  rw [hiso s ho]
  rfl

theorem fixedSource_eq (q : Sources.Quad K) (qe : List (Option (Sources.Ext K))) (qf : Option (Nat → Nat → K))
    (str : Sources.Ext K → Nat → Nat → K) (g i : Nat)
    (hstr : ∀ s, some s ∈ qe → s.moment q i g = some (str s g i)) :
    fixedSource q qe qf g i = totalSource str (qe.filter fun o => o.any fun s => !s.isDiscrete) qf g i := by
  have hr := Sources.route_spec qe ([], [])
  change Sources.route qe = _ at hr
  unfold fixedSource Sources.buildFixed totalSource
  rw [hr, filter_iso]
  simp only [List.nil_append]
  rw [foldlM_some _ (fun s : Sources.Ext K => s.moment q i g) (fun s => str s g i) (by
    intro s hs
    rw [List.mem_filter, List.mem_filterMap] at hs
    obtain ⟨⟨o, ho, h⟩, _⟩ := hs
    simp only [id_eq] at h
    subst h
    exact hstr s ho)]
  cases qf <;> simp

/-- **C107, full statement.** An update leaves a transport solution alone: whatever the sources, the multiplication factor
    and the mode, if the flux satisfies the balance of the tallied currents, fluxes and all sources over the coarse
    cells, and the coarse problem is solved exactly, the flux does not change. -/
def C107Claim (K : Type) [Field K] [LinearOrder K] [IsStrictOrderedRing K] : Prop :=
  ∀ (p : Prob K) (phi : Nat → Nat → K), p.Good phi → ∀ (k : K), 0 < k → ∀ J quad qe qf str,
    (∀ s, some s ∈ qe → ∀ g < p.G, ∀ i < p.n, s.moment quad i g = some (str s g i)) →
    p.Balance k p.multiply J phi (totalSource str qe qf) →
    ∀ cur fix srt, IsSort srt → ∀ lin, (∀ C bs, (p.cmfd phi cur J fix k).sys.make srt = .ok (some C, bs) →
      Exact (p.G * p.M.size) lin C) →
    p.update srt lin (fixedSource quad qe qf) J fix cur k phi = some phi

/-- **C107 (transport solutions are fixed points), partial.** It holds in forward mode when every external source is
    isotropic and fission is absent or as in `Prob.FissionOK`.  What is missing: see `C107_consistent_partial`. -/
theorem C107_fixed_point_partial (p : Prob K) {phi} (hp : p.Good phi) (ha : p.adjoint = false) (k : K)
    (hf : p.FissionOK k phi) (J) (quad : Sources.Quad K) (qe) (qf) (str : Sources.Ext K → Nat → Nat → K)
    (hstr : ∀ s, some s ∈ qe → ∀ g < p.G, ∀ i < p.n, s.moment quad i g = some (str s g i))
    (hiso : ∀ s, some s ∈ qe → s.isDiscrete = false) (hb : p.Balance k p.multiply J phi (totalSource str qe qf))
    (cur) (fix) (srt : List (Trip K) → List (Trip K)) (hs : IsSort srt) (lin)
    (hlin : ∀ C bs, (p.cmfd phi cur J fix k).sys.make srt = .ok (some C, bs) → Exact (p.G * p.M.size) lin C) :
    p.update srt lin (fixedSource quad qe qf) J fix cur k phi = some phi := by
  obtain ⟨C, bs, h1, _, h2⟩ := C107_consistent_partial p hp ha k hf J _ hb cur fix srt hs
  obtain ⟨x1, x2⟩ := hlin C bs h1
  unfold Prob.update
  rw [h1]
  simp only [Option.some.injEq]
  refine C107_identity p hp _ ?_
  have hq : ∀ r < p.G * p.M.size, p.coarsen (fixedSource quad qe qf) r = p.coarsen (totalSource str qe qf) r := by
    intro r hr
    have hn : 0 < p.M.size := by
      by_contra h
      rw [Nat.eq_zero_of_not_pos h, Nat.mul_zero] at hr
      omega
    obtain ⟨g, hg, c, hc, rfl⟩ : ∃ g < p.G, ∃ c < p.M.size, r = c + g * p.M.size :=
      ⟨r / p.M.size, Nat.div_lt_of_lt_mul (by rw [Nat.mul_comm]; exact hr), r % p.M.size, Nat.mod_lt _ hn, by
        rw [Nat.mul_comm]; exact (Nat.mod_add_div r p.M.size).symm⟩
    rw [coarsen_eq p hp.map _ hg hc, coarsen_eq p hp.map _ hg hc]
    congr 1
    refine Finset.sum_congr rfl fun i hi => ?_
    rw [fixedSource_eq quad qe qf str g i fun s hs => hstr s hs g hg i ((mem_cells p).1 hi).1]
    congr 1
    unfold totalSource
    rw [filter_all qe hiso]
  refine x2 _ _ fun r hr => ?_
  rw [x1 _ _ r hr, h2 r hr, hq r hr]

/-- **C107 (discrete sources).** The coarse source contains no discrete source: with them or without them the update is
    the same. -/
theorem C107_discrete_dropped (p : Prob K) (srt lin) (quad : Sources.Quad K) (qe : List (Option (Sources.Ext K)))
    (qf : Option (Nat → Nat → K)) (J fix cur k phi) :
    p.update srt lin (fixedSource quad qe qf) J fix cur k phi
      = p.update srt lin (fixedSource quad (qe.filter fun o => o.any fun s => !s.isDiscrete) qf) J fix cur k phi := by
  have : fixedSource quad qe qf = fixedSource quad (qe.filter fun o => o.any fun s => !s.isDiscrete) qf := by
    funext g i
    unfold fixedSource
    have h1 := Sources.route_spec qe ([], [])
    have h2 := Sources.route_spec (qe.filter fun o => o.any fun s => !s.isDiscrete) ([], [])
    change Sources.route _ = _ at h1 h2
    rw [h1, h2]
    simp only [List.nil_append, filter_iso, List.filter_filter, Bool.and_self]
  rw [this]

/-- **C107 (multiplication factor).** The coarse problem does not depend on the multiplication factor asked for. -/
theorem C107_keff_ignored (p : Prob K) (srt lin q J fix cur) (k k' : K) (phi) :
    p.update srt lin q J fix cur k phi = p.update srt lin q J fix cur k' phi := rfl

/-! ## The outer loop -/

section
omit [IsStrictOrderedRing K]
variable {S : Type}

/-- The state after `m` passes that did not stop: sweep, then update. -/
def Loop.pass (l : Loop S K) (s : S) : Nat → S
  | 0 => s
  | m + 1 => l.update (l.sweep (l.pass s m))

/-- The change seen in pass `m`. -/
def Loop.seen (l : Loop S K) (s : S) (m : Nat) : K := l.change (l.sweep (l.pass s m)) (l.pass s m)

theorem go_spec (l : Loop S K) (s : S) : ∀ (left it : Nat) (err : K),
    (∃ m < left, l.go left it (l.pass s it) err = ⟨l.sweep (l.pass s (it + m)), l.seen s (it + m), it + m, true⟩ ∧
      l.seen s (it + m) < l.tol ∧ ∀ j < m, l.tol ≤ l.seen s (it + j)) ∨
    (l.go left it (l.pass s it) err = ⟨l.pass s (it + left), if left = 0 then err else l.seen s (it + left - 1), it + left,
        false⟩ ∧ ∀ j < left, l.tol ≤ l.seen s (it + j)) := by
  intro left
  induction left with
  | zero => intro it err; exact Or.inr ⟨rfl, by omega⟩
  | succ left ih =>
    intro it err
    unfold Loop.go
    simp only
    change (∃ m < left + 1, (if l.seen s it < l.tol then _ else _) = _ ∧ _) ∨ ((if l.seen s it < l.tol then _ else _) = _ ∧ _)
    by_cases h : l.seen s it < l.tol
    · exact Or.inl ⟨0, by omega, by rw [if_pos h]; rfl, h, by omega⟩
    · have hle := not_lt.1 h
      have e : l.update (l.sweep (l.pass s it)) = l.pass s (it + 1) := rfl
      rw [if_neg h, e]
      rcases ih (it + 1) (l.change (l.sweep (l.pass s it)) (l.pass s it)) with ⟨m, hm, h1, h2, h3⟩ | ⟨h1, h2⟩
      · refine Or.inl ⟨m + 1, by omega, ?_, ?_, ?_⟩
        · rw [h1, show it + 1 + m = it + (m + 1) by omega]
        · rw [show it + (m + 1) = it + 1 + m by omega]; exact h2
        · intro j hj
          rcases Nat.eq_zero_or_pos j with rfl | hj0
          · exact hle
          · have := h3 (j - 1) (by omega)
            rwa [show it + 1 + (j - 1) = it + j by omega] at this
      · refine Or.inr ⟨?_, ?_⟩
        · rw [h1, show it + 1 + left = it + (left + 1) by omega, if_neg (by omega : left + 1 ≠ 0)]
          congr 1
          by_cases h0 : left = 0
          · subst h0
            rw [if_pos rfl]
            rfl
          · rw [if_neg h0]
        · intro j hj
          rcases Nat.eq_zero_or_pos j with rfl | hj0
          · exact hle
          · have := h2 (j - 1) (by omega)
            rwa [show it + 1 + (j - 1) = it + j by omega] at this

/-- **C107 (outer loop).** The loop makes at most one sweep more than the limit.  It stops at the first sweep that changes
    the flux by less than the tolerance, and leaves the result of that sweep; otherwise it leaves the last updated flux,
    which no sweep has seen. -/
theorem C107_loop (l : Loop S K) (s : S) :
    (∃ m ≤ l.max, l.solve s = ⟨l.sweep (l.pass s m), l.seen s m, m, true⟩ ∧ l.seen s m < l.tol ∧
      ∀ j < m, l.tol ≤ l.seen s j) ∨
    (l.solve s = ⟨l.pass s (l.max + 1), l.seen s l.max, l.max + 1, false⟩ ∧ ∀ j ≤ l.max, l.tol ≤ l.seen s j) := by
  rcases go_spec l s (l.max + 1) 0 0 with ⟨m, hm, h1, h2, h3⟩ | ⟨h1, h2⟩
  · refine Or.inl ⟨m, by omega, ?_, ?_, ?_⟩
    · have : l.solve s = l.go (l.max + 1) 0 (l.pass s 0) 0 := rfl
      rw [this, h1, Nat.zero_add]
    · rwa [Nat.zero_add] at h2
    · intro j hj
      have := h3 j hj
      rwa [Nat.zero_add] at this
  · refine Or.inr ⟨?_, ?_⟩
    · have : l.solve s = l.go (l.max + 1) 0 (l.pass s 0) 0 := rfl
      rw [this, h1, if_neg (by omega), Nat.zero_add, Nat.add_sub_cancel]
    · intro j hj
      have := h2 j (by omega)
      rwa [Nat.zero_add] at this

/-- **C107 (a solution is kept).** From a state that a sweep does not change the loop stops at once and leaves it. -/
theorem C107_kept (l : Loop S K) (s : S) (hs : l.sweep s = s) (hc : l.change s s = 0) (ht : 0 < l.tol) :
    l.solve s = ⟨s, 0, 0, true⟩ := by
  unfold Loop.solve Loop.go
  simp only [hs, hc, if_pos ht]

end

/-! ## A problem where the answer is wrong -/

/-- One closed cell, one group: total cross section two, production one, unit spectrum, no scattering. -/
def pot : Prob ℚ where
  G := 1
  n := 1
  vol := fun _ => 1
  map := fun _ => 0
  mat := fun _ => 0
  fm := ⟨fun _ _ => 2, fun _ _ => 2, fun _ _ => 1, fun _ _ => 1, fun _ _ => 1, fun _ _ => 1, fun _ _ _ => 0⟩
  M := ⟨1, 1, 1, 1, fun _ _ => 1⟩
  al := fun _ => 1
  multiply := true
  adjoint := false
  dcw := 0
  omega := 1

theorem pot_cells : pot.cells 0 = {0} := by decide

theorem pot_good (phi : Nat → Nat → ℚ) (h : 0 < phi 0 0) : pot.Good phi where
  grid := ⟨show 1 ≤ 3 by decide, by
    intro a h1 h2
    have h1' : 1 ≤ a := h1
    interval_cases a <;> rfl⟩
  h := fun _ _ => one_pos
  G := one_pos
  vol := fun _ _ => one_pos
  map := fun _ _ => one_pos
  onto := fun c hc => ⟨0, one_pos, (Nat.lt_one_iff.1 hc).symm⟩
  volume := by
    intro c hc
    rw [Nat.lt_one_iff.1 hc, pot_cells, Finset.sum_singleton]
    decide +kernel
  st := fun _ _ => two_pos
  ss := fun _ _ _ => le_rfl
  phi := by
    intro g hg i hi
    rw [Nat.lt_one_iff.1 hg, Nat.lt_one_iff.1 hi]
    exact h

theorem pot_fission (phi : Nat → Nat → ℚ) (h : 0 < phi 0 0) : pot.FissionOK 1 phi := by
  refine Or.inr ⟨rfl, fun c hc => ?_⟩
  rw [Nat.lt_one_iff.1 hc, pot_cells]
  refine ⟨⟨fun _ => 1, fun _ _ _ _ => rfl⟩, ?_, ?_⟩
  · intro g hg
    rw [Nat.lt_one_iff.1 hg, Finset.sum_singleton]
    show 0 < 1 * phi 0 0 * 1
    simpa using h
  · rw [Finset.sum_singleton]
    show phi 0 0 * 1 * 1 ≠ 0
    simpa using h.ne'

theorem pot_coarsen (phi : Nat → Nat → ℚ) : pot.coarsen phi 0 = phi 0 0 := by
  have := coarsen_eq pot (fun _ _ => one_pos) phi (g := 0) (c := 0) one_pos one_pos
  rw [pot_cells, Finset.sum_singleton] at this
  have e : pot.M.volume 0 = 1 := by decide +kernel
  rw [e] at this
  simpa [pot] using this

/-- The matrix of the problem without currents: removal less production with k one. -/
theorem pot_matrix (phi : Nat → Nat → ℚ) (h : 0 < phi 0 0) (cur fix) (k : ℚ) (C : CSR ℚ) (bs)
    (hC : (pot.cmfd phi cur (fun _ _ _ _ _ => 0) fix k).sys.make insSort = .ok (some C, bs)) (x : Nat → ℚ) :
    C.multiply x 0 = x 0 := by
  have hp := pot_good phi h
  obtain ⟨C', bs', h1, _, h2⟩ := C107_consistent_partial pot hp rfl 1 (pot_fission phi h) (fun _ _ _ _ _ => 0) phi (by
    intro g hg c hc
    rw [Nat.lt_one_iff.1 hg, Nat.lt_one_iff.1 hc, pot_cells, Finset.sum_singleton, Finset.sum_singleton]
    have : pot.leak (fun _ _ _ _ _ => (0 : ℚ)) 0 0 = 0 := by simp [Prob.leak]
    rw [this]
    simp [Prob.net, pot]
    ring) cur fix insSort insSort_isSort
  have hk : pot.cmfd phi cur (fun _ _ _ _ _ => 0) fix k = pot.cmfd phi cur (fun _ _ _ _ _ => 0) fix 1 := rfl
  rw [hk] at hC
  rw [h1, Out.ok.injEq, Prod.mk.injEq, Option.some.injEq] at hC
  obtain ⟨rfl, _⟩ := hC
  have e1 := h2 0 (by decide)
  rw [pot_coarsen] at e1
  -- the one row is proportional to the one entry
  obtain ⟨C'', r1, _, _, r2⟩ := cmfd_rows (pot.cmfd phi cur (fun _ _ _ _ _ => 0) fix 1)
    (cmfd_full pot hp cur _ fix 1) insSort insSort_isSort
  rw [h1, Out.ok.injEq, Prod.mk.injEq, Option.some.injEq] at r1
  obtain ⟨rfl, _⟩ := r1
  have hG : (pot.cmfd phi cur (fun _ _ _ _ _ => 0) fix 1).L.mat.G = 1 := rfl
  have hM : (pot.cmfd phi cur (fun _ _ _ _ _ => 0) fix 1).L.M.size = 1 := rfl
  have lin : ∃ a, ∀ y : Nat → ℚ, C'.multiply y 0 = a * y 0 := by
    refine ⟨C'.multiply (fun _ => 1) 0, fun y => ?_⟩
    have q1 := r2 y 0 one_pos 0 one_pos
    have q2 := r2 (fun _ => 1) 0 one_pos 0 one_pos
    simp only [hM, mul_one, zero_add] at q1 q2
    have hact : (pot.cmfd phi cur (fun _ _ _ _ _ => 0) fix 1).L.active = {0} := rfl
    have hpos : ∀ g c, (pot.cmfd phi cur (fun _ _ _ _ _ => 0) fix 1).L.pos g c = c + (g - 0) * 1 := fun _ _ => rfl
    rw [q1, q2, add_mul, Finset.sum_mul]
    congr 1
    · refine Finset.sum_congr rfl fun leak hl => ?_
      have hl' : leak < 2 := mem_range.1 hl
      have hb : (pot.cmfd phi cur (fun _ _ _ _ _ => 0) fix 1).L.M.onBoundary 0 leak = true := by
        interval_cases leak <;> rfl
      unfold Cmfd.faceApply
      rw [if_pos hb, if_pos hb]
      ring
    · unfold Loss.local
      rw [hact]
      simp only [Finset.sum_singleton, hpos]
      split <;> split <;> ring
  obtain ⟨a, ha⟩ := lin
  have e2 : a = 1 := by
    have := ha (pot.coarsen phi)
    rw [e1, pot_coarsen] at this
    have hne := h.ne'
    field_simp at this
    linarith
  rw [ha x, e2, one_mul]

/-- With multiplication factor two and source 3/2 the flux of this problem is one; the update gives 3/2 whatever the flux
    was. -/
theorem pot_update (phi : Nat → Nat → ℚ) (h : 0 < phi 0 0) (k : ℚ) :
    ∃ phi', pot.update insSort (fun _ b _ => b) (fun _ _ => 3 / 2) (fun _ _ _ _ _ => 0) (fun _ _ _ => false) none k phi
      = some phi' ∧ phi' 0 0 = 3 / 2 := by
  obtain ⟨C, h1, _⟩ := cmfd_rows (pot.cmfd phi none (fun _ _ _ _ _ => 0) (fun _ _ _ => false) k)
    (cmfd_full pot (pot_good phi h) none _ _ k) insSort insSort_isSort
  unfold Prob.update
  rw [h1]
  refine ⟨_, rfl, ?_⟩
  unfold Prob.scale
  rw [if_pos ⟨one_pos, one_pos⟩]
  have e : pot.map 0 + 0 * pot.M.size = 0 := rfl
  rw [e]
  simp only [pot_coarsen]
  have := h.ne'
  simp only [pot]
  field_simp
  ring

/-- The full statement fails: with multiplication factor two the solution is changed to that of factor one. -/
theorem C107_claim_fails : ¬ C107Claim ℚ := by
  intro h
  have hpos : (0 : ℚ) < (fun _ _ => 1 : Nat → Nat → ℚ) 0 0 := one_pos
  have hfix : fixedSource (⟨1, 1, fun _ => 1⟩ : Sources.Quad ℚ) [some (.constant (3 / 2))] none = fun _ _ => (3 / 2 : ℚ) := by
    funext g i
    have := fixedSource_eq (⟨1, 1, fun _ => 1⟩ : Sources.Quad ℚ) [some (.constant (3 / 2))] none (fun _ _ _ => 3 / 2) g i (by
      intro s hs
      simp only [List.mem_singleton, Option.some.injEq] at hs
      subst hs
      rfl)
    rw [this]
    simp [totalSource, Sources.Ext.isDiscrete]
  have := h pot (fun _ _ => 1) (pot_good _ hpos) 2 two_pos (fun _ _ _ _ _ => 0) ⟨1, 1, fun _ => 1⟩
    [some (.constant (3 / 2))] none (fun _ _ _ => 3 / 2) (by
      intro s hs g _ i _
      simp only [List.mem_singleton, Option.some.injEq] at hs
      subst hs
      rfl) (by
      intro g hg c hc
      rw [Nat.lt_one_iff.1 hg, Nat.lt_one_iff.1 hc, pot_cells, Finset.sum_singleton, Finset.sum_singleton]
      have : pot.leak (fun _ _ _ _ _ => (0 : ℚ)) 0 0 = 0 := by simp [Prob.leak]
      rw [this]
      simp [Prob.net, pot, totalSource]
      norm_num) none (fun _ _ _ => false) insSort insSort_isSort (fun _ b _ => b) (by
      intro C bs hC
      have hm := pot_matrix _ hpos none (fun _ _ _ => false) 2 C bs hC
      refine ⟨?_, ?_⟩
      · intro b x r hr
        have hr' : r < 1 := hr
        rw [Nat.lt_one_iff.1 hr']
        exact hm b
      · intro x y hxy r hr
        have hr' : r < 1 := hr
        have := hxy 0 (by decide)
        rw [hm, hm] at this
        rw [Nat.lt_one_iff.1 hr']
        exact this)
  obtain ⟨phi', h1, h2⟩ := pot_update (fun _ _ => 1) hpos 2
  rw [hfix, h1, Option.some.injEq] at this
  rw [this] at h2
  norm_num at h2

/-- The loop on this problem with multiplication factor two: a sweep solves for the flux with scattering and fission taken
    from the old one. -/
def potLoop (tol : ℚ) (max : Nat) : Loop (Nat → Nat → ℚ) ℚ where
  sweep := fun phi _ _ => (3 / 2 + 1 / 2 * phi 0 0) / 2
  update := fun phi => (pot.update insSort (fun _ b _ => b) (fun _ _ => 3 / 2) (fun _ _ _ _ _ => 0) (fun _ _ _ => false)
    none 2 phi).getD phi
  change := fun a b => |a 0 0 - b 0 0|
  tol := tol
  max := max

/-- **C107 (wrong answer).** On this problem the loop never stops unless it starts at the solution to within the tolerance:
    it leaves 3/2 instead of one, at any limit and without a word. -/
theorem C107_wrong_answer (tol : ℚ) (ht : tol ≤ 3 / 8) (max : Nat) (phi : Nat → Nat → ℚ) (h0 : 0 < phi 0 0)
    (h1 : tol ≤ |3 / 4 * (1 - phi 0 0)|) :
    ((potLoop tol max).solve phi).stopped = false ∧ ((potLoop tol max).solve phi).s 0 0 = 3 / 2 := by
  have upd : ∀ phi : Nat → Nat → ℚ, 0 < phi 0 0 → (potLoop tol max).update phi 0 0 = 3 / 2 := by
    intro phi h
    obtain ⟨phi', e1, e2⟩ := pot_update phi h 2
    show ((pot.update _ _ _ _ _ _ _ _).getD phi) 0 0 = _
    rw [e1]
    exact e2
  have hpass : ∀ m, (potLoop tol max).pass phi (m + 1) 0 0 = 3 / 2 := by
    intro m
    induction m with
    | zero =>
      refine upd _ ?_
      show 0 < (3 / 2 + 1 / 2 * phi 0 0) / 2
      positivity
    | succ m ih =>
      refine upd _ ?_
      show 0 < (3 / 2 + 1 / 2 * (potLoop tol max).pass phi (m + 1) 0 0) / 2
      rw [ih]
      norm_num
  have hseen : ∀ m, tol ≤ (potLoop tol max).seen phi m := by
    intro m
    cases m with
    | zero =>
      show tol ≤ |(3 / 2 + 1 / 2 * phi 0 0) / 2 - phi 0 0|
      rw [show (3 / 2 + 1 / 2 * phi 0 0) / 2 - phi 0 0 = 3 / 4 * (1 - phi 0 0) by ring]
      exact h1
    | succ m =>
      show tol ≤ |(3 / 2 + 1 / 2 * (potLoop tol max).pass phi (m + 1) 0 0) / 2 - (potLoop tol max).pass phi (m + 1) 0 0|
      rw [hpass m]
      norm_num
      linarith
  rcases C107_loop (potLoop tol max) phi with ⟨m, _, _, h2, _⟩ | ⟨e, _⟩
  · exact absurd h2 (not_lt.2 (hseen m))
  · rw [e]
    exact ⟨rfl, hpass max⟩

-- Tolerance 1/1000, start at flux 5: the hypotheses hold.
example : ((potLoop (1 / 1000) 100).solve fun _ _ => 5).s 0 0 = 3 / 2 :=
  (C107_wrong_answer (1 / 1000) (by norm_num) 100 (fun _ _ => 5) (by norm_num) (by norm_num)).2

-- With factor one the hypotheses of `C107_fixed_point_partial` hold: source 1, flux 1.
example : pot.Good (fun _ _ => 1) ∧ pot.FissionOK 1 (fun _ _ => 1) ∧
    pot.Balance 1 pot.multiply (fun _ _ _ _ _ => 0) (fun _ _ => 1) (fun _ _ => 1) := by
  refine ⟨pot_good _ one_pos, pot_fission _ one_pos, ?_⟩
  intro g hg c hc
  rw [Nat.lt_one_iff.1 hg, Nat.lt_one_iff.1 hc, pot_cells, Finset.sum_singleton, Finset.sum_singleton]
  have : pot.leak (fun _ _ _ _ _ => (0 : ℚ)) 0 0 = 0 := by simp [Prob.leak]
  rw [this]
  simp [Prob.net, pot]
  norm_num

/-! ## The weighting current -/

section
omit [LinearOrder K] [IsStrictOrderedRing K]

/-- Component `d` of the net current: every direction with its own sign in its octant. -/
def netCurrent (q : Sources.Quad K) (cosines : Nat → Nat → K) (sgn : Nat → Nat → K) (psi : Nat → Nat → K) (d : Nat) : K :=
  ∑ o ∈ range q.no, ∑ a ∈ range q.na, q.w a * psi o a * (sgn o d * cosines d a)

/-- The full statement: the weighting current has the components of the net current. -/
def C107CurrentClaim (K : Type) [Field K] : Prop :=
  ∀ (dim : Nat) (q : Sources.Quad K) (cosines sgn psi : Nat → Nat → K) (d : Nat), d < dim →
    (∀ o d, sgn o d = 1 ∨ sgn o d = -1) → (∀ d, sgn 0 d = 1) →
    current dim q cosines psi d = netCurrent q cosines sgn psi d

/-- **C107 (weighting current).** Each component counts all octants with the sign of the first. -/
theorem C107_current (dim : Nat) (q : Sources.Quad K) (cosines psi : Nat → Nat → K) (d : Nat) :
    current dim q cosines psi d =
      if d < dim then ∑ o ∈ range q.no, ∑ a ∈ range q.na, q.w a * psi o a * cosines d a else 0 := by
  unfold current
  split
  · have key : ∀ (l : List (Nat × Nat)) (v : K), l.foldl (fun J oa => J + q.w oa.2 * psi oa.1 oa.2 * cosines d oa.2) v
        = v + (l.map fun oa => q.w oa.2 * psi oa.1 oa.2 * cosines d oa.2).sum := by
      intro l
      induction l with
      | nil => intro v; simp
      | cons x l ih => intro v; rw [List.foldl_cons, ih, List.map_cons, List.sum_cons, add_assoc]
    rw [key, zero_add]
    exact Sources.dirs_sum q fun o a => q.w a * psi o a * cosines d a
  · rfl

/-- **C107 (weighting current), partial.** It is the net current when nothing streams outside the first octant.  Missing:
    every other case, see `C107_current_claim_fails`. -/
theorem C107_current_partial (dim : Nat) (q : Sources.Quad K) (cosines sgn psi : Nat → Nat → K) {d : Nat} (hd : d < dim)
    (h0 : sgn 0 d = 1) (h : ∀ o, 0 < o → o < q.no → ∀ a < q.na, psi o a = 0) :
    current dim q cosines psi d = netCurrent q cosines sgn psi d := by
  rw [C107_current, if_pos hd]
  unfold netCurrent
  refine Finset.sum_congr rfl fun o ho => Finset.sum_congr rfl fun a ha => ?_
  rcases Nat.eq_zero_or_pos o with rfl | h1
  · rw [h0, one_mul]
  · rw [h o h1 (mem_range.1 ho) a (mem_range.1 ha)]
    ring

end

/-- The full statement fails: an isotropic flux in one dimension has no net current, the weighting current is not zero. -/
theorem C107_current_claim_fails : ¬ C107CurrentClaim ℚ := by
  intro h
  have := h 1 ⟨2, 1, fun _ => 1⟩ (fun _ _ => 1) (fun o _ => if o = 0 then 1 else -1) (fun _ _ => 1) 0 one_pos
    (by intro o _; split <;> simp) (fun _ => rfl)
  exact absurd this (by decide +kernel)

example : current 1 (⟨2, 1, fun _ => 1⟩ : Sources.Quad ℚ) (fun _ _ => 1 / 2) (fun o _ => if o = 0 then 3 else 0) 0
    = netCurrent ⟨2, 1, fun _ => 1⟩ (fun _ _ => 1 / 2) (fun o _ => if o = 0 then 1 else -1)
        (fun o _ => if o = 0 then 3 else 0) 0 :=
  C107_current_partial 1 _ _ _ _ one_pos rfl fun o h _ _ _ => if_neg h.ne'

end Detran.CmfdUpd
