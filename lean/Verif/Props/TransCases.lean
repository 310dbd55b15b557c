import Verif.Props.TransSigns
import Verif.Props.DiffSigns
import Verif.Props.Positive
import Mathlib.Tactic.IntervalCases

/-!
# Backward Euler transients of diffusion and transport (C135)
-/

namespace Detran.Kin

open Finset

section main
variable {K : Type} [Field K] [LinearOrder K] [IsStrictOrderedRing K]

/-! ## Specification -/

/-- The material handed to the multigroup solver, of `nm` materials. -/
def matOf (nm G : Nat) (S : KMat K) : Material.Mat K :=
  ({ Material.Mat.new nm G with
    sigT := fun g m => S.st m g
    sigS := fun g gp m => S.ss m g gp
    nu := fun g m => S.nu m g
    sigF := fun g m => S.sf m g
    chi := fun g m => S.chi m g
    diff := fun g m => S.dc m g } : Material.Mat K).finalize

/-- Signs of the data and material map in range. -/
structure Nuclear (x : Sys K) (nm : Nat) (D : KMat K) : Prop extends Physical x D where
  scatter : ∀ m g gp, 0 ≤ D.ss m g gp
  spectrum : ∀ g < x.G, ∀ i < x.N, 0 ≤ D.chi (x.mt i) g
  fraction : ∀ i < x.N, ∑ p ∈ range x.np, D.beta (x.mt i) p ≤ 1
  map : ∀ i < x.N, x.mt i < nm

/-- Everything that comes into group `g` from group `gp` with the material of a step. -/
def gain (x : Sys K) (S : KMat K) (g gp i : Nat) : K :=
  S.ss (x.mt i) g gp + if x.multiply then S.chi (x.mt i) g * S.nsf (x.mt i) gp else 0

/-- The diffusion problem of a step: mesh `M`, albedos `al`. -/
def lossOf (x : Sys K) (M : Diffusion.Grid K) (al : Nat → K) (nm : Nat) (S : KMat K) : Diffusion.Loss K where
  M := M
  mat := matOf nm x.G S
  mmap := x.mt
  al := al
  adjoint := false
  cutoff := 0
  fission := x.multiply
  sf := 0
  keff := 1

/-- With source `q`; nothing comes in from outside. -/
def diffOf (x : Sys K) (M : Diffusion.Grid K) (al : Nat → K) (nm : Nat) (S : KMat K) (q : Nat → Nat → Nat → K) :
    Diffusion.FixedSrc K :=
  ⟨lossOf x M al nm S, [some fun c g => q g 0 c], none, fun _ _ _ _ => 0⟩

/-- A mesh with vacuum and reflecting sides, for diffusion. -/
structure DiffMesh (x : Sys K) (M : Diffusion.Grid K) (al : Nat → K) (data : K → (Nat → Nat → K) → KMat K) : Prop where
  one : x.A = 1
  norm : x.norm = 1
  scalar : x.discrete = false
  cells : x.N = M.size
  grid : M.WF
  width : ∀ a i, 0 < M.h a i
  side : ∀ leak < 2 * M.dim, al leak = 0 ∨ al leak = 1
  flat : ∀ leak, 2 * M.dim ≤ leak → al leak = 1
  dc : ∀ t P m g, 0 < (data t P).dc m g

/-- `f` is what `MGDiffusionSolver` leaves in a state with flux `phi` if its linear solver solves the system of source `q`. -/
def DiffFlux (x : Sys K) (M : Diffusion.Grid K) (al : Nat → K) (nm : Nat) (S : KMat K) (q : Nat → Nat → Nat → K)
    (phi f : Nat → Nat → K) : Prop :=
  ∃ srt, Matrix.IsSort srt ∧ ∃ C bs z, (lossOf x M al nm S).sys.make srt = .ok (some C, bs) ∧
    (∀ p < x.G * M.size, C.multiply z p = (diffOf x M al nm S q).rhs p) ∧ f = Diffusion.fillState x.G M.size z phi

/-- Multigroup solves are those of `MGDiffusionSolver`. -/
structure DiffSys (x : Sys K) (M : Diffusion.Grid K) (al : Nat → K) (nm : Nat) (data : K → (Nat → Nat → K) → KMat K) : Prop extends
    DiffMesh x M al data where
  solve : ∀ t P q s, let S := stepMat x.np 1 x.dt x.k true (data t P)
    DiffFlux x M al nm S q s.phi (x.solve S q s).1

/-- The transport problem of a step with isotropic source `q`. -/
def probOf (x : Sys K) (nm : Nat) (S : KMat K) (q : Nat → Nat → Nat → K) : MGSolve.Prob K :=
  ⟨⟨matOf nm x.G S, x.N, x.mt, false⟩, fun g c => q g 0 c / x.norm, x.multiply, 1, fun _ _ _ => 0, fun _ _ => 0, fun _ _ => 0⟩

/-- Multigroup solves are those of transport problems `Pr` with a scheme of C132, with vacuum and reflecting sides; angular
    fluxes are not stored. -/
structure SnSys {F : Type} (x : Sys K) (nm : Nat) (data : K → (Nat → Nat → K) → KMat K)
    (Pr : KMat K → (Nat → Nat → Nat → K) → MGReflect.Prob F K) (w : Nat → K)
    (Sl : KMat K → Nat → (Nat → K) → Nat → Nat → (Nat → F) → (Nat → K) → Prop) : Prop where
  scalar : x.discrete = false
  dirs : 0 < x.A
  src : ∀ S q, (Pr S q).M = probOf x nm S q
  side : ∀ S q g side, ((Pr S q).W g).bc side = .vacuum ∨ ((Pr S q).W g).bc side = .reflect
  damped : ∀ t P q u th, let S := stepMat x.np 1 x.dt x.k true (data t P)
    (probOf x nm S q).OK → MGReflect.Tame (probOf x nm S q) (fun g c => S.st (x.mt c) g) u th →
      MGReflect.OK (Pr S q) w (Sl S) ∧ MGReflect.Damped (Pr S q) w (Sl S) (fun g c => S.st (x.mt c) g) u x.norm th
  solve : ∀ t P q s, let S := stepMat x.np 1 x.dt x.k true (data t P)
    MGReflect.MGFlux (Pr S q) w (Sl S) (x.solve S q s).1

/-- At all times the media by themselves would let `v` and `W`, fed by `E`, grow at most at the rate `om`, and steps are
    shorter than its inverse. -/
structure Rate (x : Sys K) (data : K → (Nat → Nat → K) → KMat K) (om : K) (v : Nat → K) (W : Nat → Nat → K)
    (E : Nat → Nat → Nat → K) : Prop where
  short : om * x.dt < 1
  flux : ∀ g < x.G, 0 < v g
  prec : x.multiply = true → ∀ p < x.np, ∀ i < x.N, 0 ≤ W p i
  fed : ∀ g < x.G, ∀ i < x.N, 0 ≤ E g 0 i
  slower : ∀ t P, Slower x (data t P) om v W E

/-- The solutions of a transient from the flux `phi` and angular flux `psi`: `sol n` after `n` steps. -/
def Gives (x : Sys K) (phi : Nat → Nat → K) (psi : Nat → Nat → Nat → K) (r : Run K) (sol : Nat → Sol K) : Prop :=
  ∀ n, ∃ r', x.transient phi psi r n = some (r', (List.range (n + 1)).reverse.map sol) ∧ r'.cur = sol n

/-! ## The material of a step -/

omit [LinearOrder K] [IsStrictOrderedRing K] in
theorem step_chi (x : Sys K) (D : KMat K) (h : K) (m g : Nat) : (stepMat x.np 1 h x.k true D).chi m g =
    (1 - ∑ p ∈ range x.np, D.beta m p) * D.chi m g +
      ∑ p ∈ range x.np, D.lambda p * D.chid m p g * h * D.beta m p / (1 + h * D.lambda p) := by
  unfold stepMat setNsf adjust
  simp only [if_true]
  rw [foldl_sum, betaTotal_eq, bdf10]

theorem gain_nonneg {x : Sys K} {nm : Nat} {D : KMat K} (hN : Nuclear x nm D) {h : K} (hh : 0 < h) (hk : 0 < x.k) {g gp i : Nat}
    (hg : g < x.G) (hgp : gp < x.G) (hi : i < x.N) : 0 ≤ gain x (stepMat x.np 1 h x.k true D) g gp i := by
  refine add_nonneg (hN.scatter _ _ _) ?_
  split
  · refine mul_nonneg ?_ ?_
    · rw [step_chi]
      refine add_nonneg (mul_nonneg (by linarith [hN.fraction i hi]) (hN.spectrum g hg i hi)) (sum_nonneg fun p hp => ?_)
      have hp := mem_range.1 hp
      have h1 := hN.lambda p hp
      have h2 := hN.beta p hp i hi
      have h3 := hN.chid p hp g hg i hi
      positivity
    · show 0 ≤ D.nu (x.mt i) gp * (D.sf (x.mt i) gp / x.k)
      rw [← mul_div_assoc]
      exact div_nonneg (hN.fission gp hgp i hi) hk.le
  · exact le_rfl

omit [LinearOrder K] [IsStrictOrderedRing K] in
theorem surplus_gain (x : Sys K) (S : KMat K) (q : Nat → Nat → Nat → K) (v : Nat → K) (g a i : Nat) :
    surplus x S q v g a i = x.norm * (S.st (x.mt i) g * v g - ∑ gp ∈ range x.G, gain x S g gp i * v gp) - q g a i := by
  unfold surplus resid gain
  cases x.multiply
  · simp only [Bool.false_eq_true, if_false, add_zero]
    ring
  · simp only [if_true, add_mul, sum_add_distrib, mul_sum]
    have : ∀ gp, S.chi (x.mt i) g * S.nsf (x.mt i) gp * v gp = S.chi (x.mt i) g * (S.nsf (x.mt i) gp * v gp) := fun gp => mul_assoc _ _ _
    simp only [this]
    ring

/-- The step is short against the rate at which the media let fluxes grow: less comes in than collides, the time absorption
    counted. -/
theorem step_weak {x : Sys K} {D : KMat K} (hD : Physical x D) {h om : K} (hh : 0 < h) (hom : om * h < 1) (hn : 0 < x.norm)
    (hA : 0 < x.A) {v : Nat → K} {W : Nat → Nat → K} {E : Nat → Nat → Nat → K} (hv : ∀ g < x.G, 0 < v g)
    (hW : x.multiply = true → ∀ p < x.np, ∀ i < x.N, 0 ≤ W p i) (hE : ∀ g < x.G, ∀ i < x.N, 0 ≤ E g 0 i)
    (hpk : Slower x D om v W E) {g i : Nat} (hg : g < x.G) (hi : i < x.N) :
    ∑ gp ∈ range x.G, gain x (stepMat x.np 1 h x.k true D) g gp i * v gp <
      (stepMat x.np 1 h x.k true D).st (x.mt i) g * v g := by
  have e1 := surplus_eq x D hh.ne' 0 (fun _ => ⟨fun _ _ => 0, fun _ _ _ => 0, fun _ _ => 0, fun _ _ => 0⟩) 1 v g 0 i
  simp only [one_mul] at e1
  rw [surplus_gain] at e1
  have e2 : x.source (stepMat x.np 1 h x.k true D) 1 h 0
      (fun _ => ⟨fun _ _ => 0, fun _ _ _ => 0, fun _ _ => 0, fun _ _ => 0⟩) g 0 i = x.ext 0 g 0 i := by
    rw [source_eq, discreteSource_eq]
    simp [past]
  rw [e2] at e1
  have hV := hD.velocity g hg
  have hp : past x ⟨fun _ _ => 0, fun _ _ _ => 0, fun _ _ => 0, fun _ _ => 0⟩ g 0 i = (0 : K) := by simp [past]
  rw [hp, sub_zero] at e1
  have h1 := hpk.flux g hg 0 hA i hi
  have h2 := hE g hg i hi
  have h3 : x.norm * (om / D.velocity g * v g) < x.norm * v g / (D.velocity g * h) := by
    rw [lt_div_iff₀ (by positivity)]
    have : x.norm * (om / D.velocity g * v g) * (D.velocity g * h) = x.norm * v g * (om * h) := by field_simp
    rw [this]
    exact mul_lt_of_lt_one_right (mul_pos hn (hv g hg)) hom
  have key : 0 < x.norm * ((stepMat x.np 1 h x.k true D).st (x.mt i) g * v g -
      ∑ gp ∈ range x.G, gain x (stepMat x.np 1 h x.k true D) g gp i * v gp) := by
    unfold feed at h1
    cases hm : x.multiply with
    | false =>
      simp only [hm, Bool.false_eq_true, if_false, add_zero] at h1 e1
      linarith
    | true =>
      simp only [hm, if_true] at h1 e1
      have h4 : ∑ p ∈ range x.np, D.lambda p * D.chid (x.mt i) p g * newC x D 1 h
          (fun _ => ⟨fun _ _ => 0, fun _ _ _ => 0, fun _ _ => 0, fun _ _ => 0⟩) (fun g _ => v g) p i ≤
          ∑ p ∈ range x.np, D.lambda p * D.chid (x.mt i) p g * W p i := by
        refine sum_le_sum fun p hp => mul_le_mul_of_nonneg_left ?_ ?_
        · have hp := mem_range.1 hp
          have hl := hD.lambda p hp
          rw [newC_one x D hh.ne', div_le_iff₀ (by positivity)]
          have h5 := mul_le_mul_of_nonneg_left (hpk.prec hm p hp i hi) hh.le
          have h6 := mul_le_mul_of_nonneg_right hom.le (hW hm p hp i hi)
          dsimp only
          linarith
        · have hp := mem_range.1 hp
          exact mul_nonneg (hD.lambda p hp) (hD.chid p hp g hg i hi)
      have h7 := mul_le_mul_of_nonneg_left h4 hn.le
      linarith
  have := (mul_pos_iff_of_pos_left hn).1 key
  linarith

/-! ## Diffusion -/

section
variable {x : Sys K} {M : Diffusion.Grid K} {al : Nat → K} {nm : Nat} {data : K → (Nat → Nat → K) → KMat K}

theorem diff_inXs (S : KMat K) (hS : ∀ m g, S.nsf m g = S.nu m g * S.sf m g) (g gp c : Nat) :
    (lossOf x M al nm S).inXs g gp c = gain x S g gp c := by
  unfold gain
  rw [hS]
  simp [Diffusion.Loss.inXs, Diffusion.Loss.scatXs, Diffusion.Loss.fisXs, lossOf, matOf, Material.Mat.finalize]

variable (hs : DiffMesh x M al data) {t : K} {P : Nat → Nat → K} (hN : Nuclear x nm (data t P)) (h1 : Euler x) {u : Nat → K}
  (hu : ∀ g < x.G, 0 < u g)
  (hw : ∀ g < x.G, ∀ i < x.N, ∑ gp ∈ range x.G, gain x (stepMat x.np 1 x.dt x.k true (data t P)) g gp i * u gp <
    (stepMat x.np 1 x.dt x.k true (data t P)).st (x.mt i) g * u g)
include hs hN

theorem diff_ok (q : Nat → Nat → Nat → K) : (diffOf x M al nm (stepMat x.np 1 x.dt x.k true (data t P)) q).OK :=
  ⟨⟨hs.grid, ⟨_, rfl⟩, fun _ _ _ => hN.scatter _ _ _, fun c hc => hN.map c (by rw [hs.cells]; exact hc), Nat.zero_le _⟩, rfl,
    fun leak hl => (hs.side leak hl).imp_right fun h => ⟨h, fun _ _ _ => rfl⟩, fun leak hl _ => hs.flat leak hl⟩

omit hN in
theorem diff_pos : (lossOf x M al nm (stepMat x.np 1 x.dt x.k true (data t P))).Pos :=
  ⟨hs.width, fun g m => hs.dc t P m g, fun s => by
    show -1 ≤ al s ∧ al s ≤ 1
    have : al s = 0 ∨ al s = 1 := by
      by_cases h : s < 2 * M.dim
      · exact hs.side s h
      · exact .inr (hs.flat s (by omega))
    rcases this with e | e <;> rw [e] <;> norm_num⟩

include h1 hu hw in
theorem diff_weak : (lossOf x M al nm (stepMat x.np 1 x.dt x.k true (data t P))).Weak u := by
  have act : (lossOf x M al nm (stepMat x.np 1 x.dt x.k true (data t P))).active = range x.G :=
    (diff_ok hs hN fun _ _ _ => 0).active
  refine ⟨?_, ?_, ?_⟩ <;> rw [act]
  · exact fun g hg => hu g (mem_range.1 hg)
  · intro g hg gp hgp c hc
    rw [diff_inXs _ fun _ _ => rfl]
    exact gain_nonneg hN h1.dt h1.k (mem_range.1 hg) (mem_range.1 hgp) (by rw [hs.cells]; exact hc)
  · intro g hg c hc
    have e2 : ∀ gp, (lossOf x M al nm (stepMat x.np 1 x.dt x.k true (data t P))).inXs g gp c = gain x _ g gp c :=
      fun gp => diff_inXs _ (fun _ _ => rfl) g gp c
    simp only [e2]
    exact hw g (mem_range.1 hg) c (by rw [hs.cells]; exact hc)

include h1 hu hw in
/-- There is such a flux. -/
theorem diff_exists (q : Nat → Nat → Nat → K) (phi : Nat → Nat → K) :
    ∃ f, DiffFlux x M al nm (stepMat x.np 1 x.dt x.k true (data t P)) q phi f := by
  obtain ⟨C, hC, _⟩ := Diffusion.rows _ (diff_ok hs hN q).op Matrix.insSort Matrix.insSort_isSort
  obtain ⟨z, hz, _⟩ := Diffusion.C132_diffusion_one _ (diff_ok hs hN q) (diff_pos hs) _ Matrix.insSort_isSort C _ hC
    (diff_weak hs hN h1 hu hw)
  exact ⟨_, _, Matrix.insSort_isSort, C, _, z, hC, hz, rfl⟩

omit [IsStrictOrderedRing K] hs hN in
theorem diff_given (S : KMat K) (q : Nat → Nat → Nat → K) (g c : Nat) : (diffOf x M al nm S q).given g c = q g 0 c := by
  simp [Diffusion.FixedSrc.given, diffOf]

end

section
variable {x : Sys K} {M : Diffusion.Grid K} {al : Nat → K} {nm : Nat} {data : K → (Nat → Nat → K) → KMat K}
  (hs : DiffSys x M al nm data) {t : K} {P : Nat → Nat → K} (hN : Nuclear x nm (data t P)) (h1 : Euler x) {u : Nat → K}
  (hu : ∀ g < x.G, 0 < u g)
  (hw : ∀ g < x.G, ∀ i < x.N, ∑ gp ∈ range x.G, gain x (stepMat x.np 1 x.dt x.k true (data t P)) g gp i * u gp <
    (stepMat x.np 1 x.dt x.k true (data t P)).st (x.mt i) g * u g)
include hs hN h1 hu hw

theorem diff_compares : Compares x (stepMat x.np 1 x.dt x.k true (data t P)) where
  pos := fun q s _ hq => by
    obtain ⟨srt, hsr, C, bs, z, hC, hz, e⟩ := hs.solve t P q s
    refine ⟨fun g hg i hi => ?_, fun hd => by rw [hs.scalar] at hd; exact absurd hd Bool.false_ne_true⟩
    rw [hs.cells] at hi
    rw [e, (Diffusion.C101_flux x.G M.size z s.phi).1 g hg i hi]
    refine Diffusion.C132_diffusion_positive _ (diff_ok hs.toDiffMesh hN q) (diff_pos hs.toDiffMesh) srt hsr C bs hC (diff_weak hs.toDiffMesh hN h1 hu hw)
      ⟨fun g hg c hc => ?_, fun _ _ _ _ _ _ => le_rfl⟩ z hz hg hi
    rw [diff_given]
    exact hq g hg 0 (by rw [hs.one]; exact one_pos) c (by rw [hs.cells]; exact hc)
  above := fun q s v _ hv hq => by
    obtain ⟨srt, hsr, C, bs, z, hC, hz, e⟩ := hs.solve t P q s
    refine ⟨fun g hg i hi => ?_, fun hd => by rw [hs.scalar] at hd; exact absurd hd Bool.false_ne_true⟩
    rw [hs.cells] at hi
    rw [e, (Diffusion.C101_flux x.G M.size z s.phi).1 g hg i hi]
    refine Diffusion.C132_diffusion_ceiling _ (diff_ok hs.toDiffMesh hN q) (diff_pos hs.toDiffMesh) srt hsr C bs hC (diff_weak hs.toDiffMesh hN h1 hu hw) v
      (fun g hg c hc => ?_) (fun leak _ _ g hg _ _ => div_nonneg (hv g hg) (by norm_num)) z hz hg hi
    rw [diff_given]
    have := hq g hg 0 (by rw [hs.one]; exact one_pos) c (by rw [hs.cells]; exact hc)
    rw [surplus_gain, hs.norm, one_mul] at this
    have e2 : ∀ gp, (diffOf x M al nm (stepMat x.np 1 x.dt x.k true (data t P)) q).L.inXs g gp c = gain x _ g gp c :=
      fun gp => diff_inXs _ (fun _ _ => rfl) g gp c
    simp only [e2]
    exact sub_nonneg.1 (by rw [show ∀ a b c : K, a - (b + c) = a - c - b from fun a b c => by ring]; exact this)

theorem diff_closed (hm : ∀ leak < 2 * M.dim, al leak = 1) : Closed x (stepMat x.np 1 x.dt x.k true (data t P)) := fun q s v _ hv hq => by
  obtain ⟨srt, hsr, C, bs, z, hC, hz, e⟩ := hs.solve t P q s
  refine ⟨fun g hg i hi => ?_, fun hd => by rw [hs.scalar] at hd; exact absurd hd Bool.false_ne_true⟩
  rw [hs.cells] at hi
  rw [e, (Diffusion.C101_flux x.G M.size z s.phi).1 g hg i hi]
  refine Diffusion.C132_diffusion_floor _ (diff_ok hs.toDiffMesh hN q) (diff_pos hs.toDiffMesh) srt hsr C bs hC (diff_weak hs.toDiffMesh hN h1 hu hw) v
    (fun g hg c hc => ?_) (fun leak hl h0 => absurd ((hm leak hl).symm.trans h0) one_ne_zero) z hz hg hi
  rw [diff_given]
  have := hq g hg 0 (by rw [hs.one]; exact one_pos) c (by rw [hs.cells]; exact hc)
  rw [surplus_gain, hs.norm, one_mul] at this
  have e2 : ∀ gp, (diffOf x M al nm (stepMat x.np 1 x.dt x.k true (data t P)) q).L.inXs g gp c = gain x _ g gp c :=
    fun gp => diff_inXs _ (fun _ _ => rfl) g gp c
  simp only [e2]
  exact sub_nonpos.1 (by rw [show ∀ a b c : K, a - (b + c) = a - c - b from fun a b c => by ring]; exact this)

end

/-! ## Transport -/

section
variable {F : Type} [Nonempty F] {x : Sys K} {nm : Nat} {data : K → (Nat → Nat → K) → KMat K}
  {Pr : KMat K → (Nat → Nat → Nat → K) → MGReflect.Prob F K} {w : Nat → K}
  {Sl : KMat K → Nat → (Nat → K) → Nat → Nat → (Nat → F) → (Nat → K) → Prop}

omit [IsStrictOrderedRing K] in
theorem prob_couple (S : KMat K) (hS : ∀ m g, S.nsf m g = S.nu m g * S.sf m g) (q : Nat → Nat → Nat → K) (g gp c : Nat) :
    MGReflect.couple (probOf x nm S q) g gp c = gain x S g gp c := by
  unfold gain
  rw [hS]
  simp [MGReflect.couple, probOf, matOf, Material.Mat.finalize, Material.xs, MGSolve.fissionXs]

variable {t : K} {P : Nat → Nat → K} (hN : Nuclear x nm (data t P)) (h1 : Euler x) {u : Nat → K} (hu : ∀ g < x.G, 0 < u g)
  (hw : ∀ g < x.G, ∀ i < x.N, ∑ gp ∈ range x.G, gain x (stepMat x.np 1 x.dt x.k true (data t P)) g gp i * u gp <
    (stepMat x.np 1 x.dt x.k true (data t P)).st (x.mt i) g * u g)
include hN

theorem prob_ok (q : Nat → Nat → Nat → K) : (probOf x nm (stepMat x.np 1 x.dt x.k true (data t P)) q).OK where
  fin := by
    unfold probOf matOf Material.Src.ready
    simp only
    rw [Material.C22_finalize_idempotent]
  nn := fun _ _ _ => hN.scatter _ _ _
  map := fun c hc => hN.map c hc
  add := fun _ _ _ _ => (add_zero 0).symm
  loc := fun _ _ _ _ _ _ => rfl

include h1 hu hw

theorem prob_tame (q : Nat → Nat → Nat → K) : ∃ th, MGReflect.Tame (probOf x nm (stepMat x.np 1 x.dt x.k true (data t P)) q)
    (fun g c => (stepMat x.np 1 x.dt x.k true (data t P)).st (x.mt c) g) u th := by
  set S := stepMat x.np 1 x.dt x.k true (data t P) with hS
  have e : ∀ g gp c, MGReflect.couple (probOf x nm S q) g gp c = gain x S g gp c := fun g gp c => prob_couple S (fun _ _ => rfl) q g gp c
  have rn : ∀ g < x.G, ∀ i < x.N, 0 ≤ ∑ gp ∈ range x.G, gain x S g gp i * u gp := fun g hg i hi => sum_nonneg fun gp hgp =>
    mul_nonneg (gain_nonneg hN h1.dt h1.k hg (mem_range.1 hgp) hi) (hu gp (mem_range.1 hgp)).le
  have tp : ∀ g < x.G, ∀ i < x.N, 0 < S.st (x.mt i) g * u g := fun g hg i hi => (rn g hg i hi).trans_lt (hw g hg i hi)
  have tot : ∀ g < x.G, ∀ i < x.N, 0 < S.st (x.mt i) g := fun g hg i hi => (mul_pos_iff_of_pos_right (hu g hg)).1 (tp g hg i hi)
  obtain ⟨th, h0, hl, hr⟩ : ∃ th, 0 ≤ th ∧ th < 1 ∧ ∀ g < x.G, ∀ i < x.N,
      ∑ gp ∈ range x.G, gain x S g gp i * u gp ≤ th * (S.st (x.mt i) g * u g) := by
    by_cases hne : (range x.G ×ˢ range x.N).Nonempty
    · obtain ⟨⟨g, c⟩, hm, hmax⟩ := exists_max_image (range x.G ×ˢ range x.N)
        (fun p => (∑ gp ∈ range x.G, gain x S p.1 gp p.2 * u gp) / (S.st (x.mt p.2) p.1 * u p.1)) hne
      obtain ⟨hg, hc⟩ := mem_product.1 hm
      have hg := mem_range.1 hg
      have hc := mem_range.1 hc
      refine ⟨_, div_nonneg (rn g hg c hc) (tp g hg c hc).le, (div_lt_one (tp g hg c hc)).2 (hw g hg c hc), fun g' hg' i hi => ?_⟩
      have := hmax (g', i) (mem_product.2 ⟨mem_range.2 hg', mem_range.2 hi⟩)
      exact (div_le_iff₀ (tp g' hg' i hi)).1 this
    · exact ⟨0, le_rfl, one_pos, fun g hg i hi => absurd ⟨(g, i), mem_product.2 ⟨mem_range.2 hg, mem_range.2 hi⟩⟩ hne⟩
  refine ⟨th, tot, fun g hg gp hgp c hc => ?_, hu, fun g hg c hc => ?_, h0, hl⟩
  · rw [e]
    exact gain_nonneg hN h1.dt h1.k hg hgp hc
  · simp only [e]
    exact hr g hg c hc

variable (hs : SnSys x nm data Pr w Sl)
include hs

theorem sn_compares : Compares x (stepMat x.np 1 x.dt x.k true (data t P)) where
  pos := fun q s _ hq => by
    obtain ⟨th, hT⟩ := prob_tame hN h1 hu hw q
    obtain ⟨ok, hD⟩ := hs.damped t P q u th (prob_ok hN q) hT
    obtain ⟨bd, psi, hf⟩ := MGReflect.solves_of_flux (hs.solve t P q s)
    have e := hs.src (stepMat x.np 1 x.dt x.k true (data t P)) q
    refine ⟨fun g hg i hi => ?_, fun hd => by rw [hs.scalar] at hd; exact absurd hd Bool.false_ne_true⟩
    refine (MGReflect.C132_positive_partial ok hD ⟨fun g hg c hc => ?_, fun g hg side _ ps hb => ?_⟩ hf g (by rw [e]; exact hg) i
      (by rw [e]; exact hi)).1
    · rw [e] at hg hc ⊢
      exact div_nonneg (hq g hg 0 hs.dirs c hc) h1.norm.le
    · rcases hs.side (stepMat x.np 1 x.dt x.k true (data t P)) q g side with h | h <;> rw [h] at hb <;> exact absurd hb (by simp)
  above := fun q s v _ hv hq => by
    obtain ⟨th, hT⟩ := prob_tame hN h1 hu hw q
    obtain ⟨ok, hD⟩ := hs.damped t P q u th (prob_ok hN q) hT
    obtain ⟨bd, psi, hf⟩ := MGReflect.solves_of_flux (hs.solve t P q s)
    have e := hs.src (stepMat x.np 1 x.dt x.k true (data t P)) q
    refine ⟨fun g hg i hi => ?_, fun hd => by rw [hs.scalar] at hd; exact absurd hd Bool.false_ne_true⟩
    refine (MGReflect.C132_ceiling ok hD ⟨fun g hg c hc => ?_, fun g hg _ _ _ => ?_, fun g hg side _ ps hb => ?_⟩ hf g
      (by rw [e]; exact hg) i (by rw [e]; exact hi)).1
    · rw [e] at hg hc ⊢
      have := hq g hg 0 hs.dirs c hc
      rw [surplus_gain] at this
      simp only [prob_couple (nm := nm) (x := x) (stepMat x.np 1 x.dt x.k true (data t P)) (fun _ _ => rfl) q]
      have h2 : q g 0 c / x.norm ≤ _ := (div_le_iff₀' h1.norm).2 (sub_nonneg.1 this)
      exact (add_le_add_left h2 _).trans_eq (sub_add_cancel _ _)
    · rw [e] at hg
      exact hv g hg
    · rcases hs.side (stepMat x.np 1 x.dt x.k true (data t P)) q g side with h | h <;> rw [h] at hb <;> exact absurd hb (by simp)

theorem sn_closed (hm : ∀ S q g side, ((Pr S q).W g).bc side = .reflect) :
    Closed x (stepMat x.np 1 x.dt x.k true (data t P)) := fun q s v _ hv hq => by
  obtain ⟨th, hT⟩ := prob_tame hN h1 hu hw q
  obtain ⟨ok, hD⟩ := hs.damped t P q u th (prob_ok hN q) hT
  obtain ⟨bd, psi, hf⟩ := MGReflect.solves_of_flux (hs.solve t P q s)
  have e := hs.src (stepMat x.np 1 x.dt x.k true (data t P)) q
  refine ⟨fun g hg i hi => ?_, fun hd => by rw [hs.scalar] at hd; exact absurd hd Bool.false_ne_true⟩
  refine (MGReflect.C132_floor ok hD ⟨fun g hg c hc => ?_, fun g hg side _ hb => ?_, fun g hg side _ ps hb => ?_⟩ hf g
    (by rw [e]; exact hg) i (by rw [e]; exact hi)).1
  · rw [e] at hg hc ⊢
    have := hq g hg 0 hs.dirs c hc
    rw [surplus_gain] at this
    simp only [prob_couple (nm := nm) (x := x) (stepMat x.np 1 x.dt x.k true (data t P)) (fun _ _ => rfl) q]
    have h2 : _ ≤ q g 0 c / x.norm := (le_div_iff₀' h1.norm).2 (sub_nonpos.1 this)
    exact (sub_add_cancel _ _).symm.trans_le (add_le_add_left h2 _)
  · rw [hm] at hb; exact absurd hb (by simp)
  · rw [hm] at hb; exact absurd hb (by simp)

end

/-! ## Theorems -/

open Detran.Boundary (BC)
open Detran.Sweep (dd1 sd1 sc1 sd2 sc2 Solves1 Solves2)

section
variable {x : Sys K} (h1 : Euler x) {nm : Nat} {data : K → (Nat → Nat → K) → KMat K} {M : Diffusion.Grid K} {al : Nat → K}
  {V L : Nat → K} {om : K} {v : Nat → K} {W : Nat → Nat → K} {E : Nat → Nat → Nat → K} (hs : DiffSys x M al nm data)
  (hN : ∀ t P, Nuclear x nm (data t P)) (hR : Rate x data om v W E) (hx : Timed x data V L)
  (hV : ∀ g, g < x.G → 0 < V g) (hL : ∀ p, p < x.np → 0 < L p) {r : Run K} (hr : Ready x V L r) {phi : Nat → Nat → K}
  (psi : Nat → Nat → Nat → K)
include h1 hs hN hR hx hV hL hr

/-- **C135 (diffusion).**  Nothing negative to begin with and in the sources, nothing negative ever. -/
theorem C135_diffusion_nonneg (he : ∀ t, ∀ g < x.G, ∀ a < x.A, ∀ i < x.N, 0 ≤ x.ext t g a i)
    (hphi : ∀ g < x.G, ∀ i < x.N, 0 ≤ phi g i) : ∃ sol, Gives x phi psi r sol ∧ ∀ n, (sol n).NonNeg x :=
  C135_nonneg x h1 data V L hx hV hL (fun t P => (hN t P).toPhysical) phi psi r hr
    (fun t P => diff_compares hs (hN t P) h1 hR.flux fun g hg i hi => step_weak (hN t P).toPhysical h1.dt hR.short h1.norm (by rw [hs.one]; exact one_pos) hR.flux hR.prec hR.fed (hR.slower t P) hg hi)
    he hphi fun hd => absurd hd (by rw [hs.scalar]; exact Bool.false_ne_true)

/-- **C135 (diffusion).**  Never above `v` and `W` times the growth at that rate. -/
theorem C135_diffusion_above
    (he : ∀ n : Nat, ∀ g < x.G, ∀ a < x.A, ∀ i < x.N, x.ext (((n + 1 : Nat) : K) * x.dt) g a i ≤ (1 / (1 - om * x.dt)) ^ (n + 1) * E g a i)
    (hW : x.multiply = true → ∀ p < x.np, ∀ i < x.N,
      (data 0 r.cur.P).beta (x.mt i) p * production x (data 0 r.cur.P) (fun g _ => v g) i ≤ L p * W p i)
    (hphi : ∀ g < x.G, ∀ i < x.N, phi g i ≤ v g) :
    ∃ sol, Gives x phi psi r sol ∧ ∀ n, (sol n).Under x v W ((1 / (1 - om * x.dt)) ^ n) :=
  C135_above x h1 data V L hx hV hL (fun t P => (hN t P).toPhysical) phi psi r hr
    (fun t P => diff_compares hs (hN t P) h1 hR.flux fun g hg i hi => step_weak (hN t P).toPhysical h1.dt hR.short h1.norm (by rw [hs.one]; exact one_pos) hR.flux hR.prec hR.fed (hR.slower t P) hg hi)
    hR.short (fun g hg => (hR.flux g hg).le) hR.slower he hW hphi fun hd => absurd hd (by rw [hs.scalar]; exact Bool.false_ne_true)

/-- **C135 (diffusion).**  Between mirrors, never below others that the media let grow at least at some rate. -/
theorem C135_diffusion_below (hm : ∀ leak < 2 * M.dim, al leak = 1) {om' : K} (hom : om' * x.dt < 1) {v' : Nat → K}
    {W' : Nat → Nat → K} {E' : Nat → Nat → Nat → K} (hv : ∀ g < x.G, 0 ≤ v' g) (hpk : ∀ t P, Faster x (data t P) om' v' W' E')
    (he : ∀ n : Nat, ∀ g < x.G, ∀ a < x.A, ∀ i < x.N, (1 / (1 - om' * x.dt)) ^ (n + 1) * E' g a i ≤ x.ext (((n + 1 : Nat) : K) * x.dt) g a i)
    (hW : x.multiply = true → ∀ p < x.np, ∀ i < x.N,
      L p * W' p i ≤ (data 0 r.cur.P).beta (x.mt i) p * production x (data 0 r.cur.P) (fun g _ => v' g) i)
    (hphi : ∀ g < x.G, ∀ i < x.N, v' g ≤ phi g i) :
    ∃ sol, Gives x phi psi r sol ∧ ∀ n, (sol n).Over x v' W' ((1 / (1 - om' * x.dt)) ^ n) :=
  C135_below x h1 data V L hx hV hL (fun t P => (hN t P).toPhysical) phi psi r hr
    (fun t P => diff_closed hs (hN t P) h1 hR.flux (fun g hg i hi => step_weak (hN t P).toPhysical h1.dt hR.short h1.norm (by rw [hs.one]; exact one_pos) hR.flux hR.prec hR.fed (hR.slower t P) hg hi) hm)
    hom hv hpk he hW hphi fun hd => absurd hd (by rw [hs.scalar]; exact Bool.false_ne_true)

end

section
variable {x : Sys K} (h1 : Euler x) {nm : Nat} {data : K → (Nat → Nat → K) → KMat K} {F : Type} [Nonempty F] {Pr : KMat K → (Nat → Nat → Nat → K) → MGReflect.Prob F K} {w : Nat → K}
  {Sl : KMat K → Nat → (Nat → K) → Nat → Nat → (Nat → F) → (Nat → K) → Prop}
  {V L : Nat → K} {om : K} {v : Nat → K} {W : Nat → Nat → K} {E : Nat → Nat → Nat → K} (hs : SnSys x nm data Pr w Sl)
  (hN : ∀ t P, Nuclear x nm (data t P)) (hR : Rate x data om v W E) (hx : Timed x data V L)
  (hV : ∀ g, g < x.G → 0 < V g) (hL : ∀ p, p < x.np → 0 < L p) {r : Run K} (hr : Ready x V L r) {phi : Nat → Nat → K}
  (psi : Nat → Nat → Nat → K)
include h1 hs hN hR hx hV hL hr

/-- **C135 (transport).**  Nothing negative to begin with and in the sources, nothing negative ever. -/
theorem C135_transport_nonneg (he : ∀ t, ∀ g < x.G, ∀ a < x.A, ∀ i < x.N, 0 ≤ x.ext t g a i)
    (hphi : ∀ g < x.G, ∀ i < x.N, 0 ≤ phi g i) : ∃ sol, Gives x phi psi r sol ∧ ∀ n, (sol n).NonNeg x :=
  C135_nonneg x h1 data V L hx hV hL (fun t P => (hN t P).toPhysical) phi psi r hr
    (fun t P => sn_compares (hN t P) h1 hR.flux (fun g hg i hi => step_weak (hN t P).toPhysical h1.dt hR.short h1.norm hs.dirs hR.flux hR.prec hR.fed (hR.slower t P) hg hi) hs)
    he hphi fun hd => absurd hd (by rw [hs.scalar]; exact Bool.false_ne_true)

/-- **C135 (transport).**  Never above `v` and `W` times the growth at that rate. -/
theorem C135_transport_above
    (he : ∀ n : Nat, ∀ g < x.G, ∀ a < x.A, ∀ i < x.N, x.ext (((n + 1 : Nat) : K) * x.dt) g a i ≤ (1 / (1 - om * x.dt)) ^ (n + 1) * E g a i)
    (hW : x.multiply = true → ∀ p < x.np, ∀ i < x.N,
      (data 0 r.cur.P).beta (x.mt i) p * production x (data 0 r.cur.P) (fun g _ => v g) i ≤ L p * W p i)
    (hphi : ∀ g < x.G, ∀ i < x.N, phi g i ≤ v g) :
    ∃ sol, Gives x phi psi r sol ∧ ∀ n, (sol n).Under x v W ((1 / (1 - om * x.dt)) ^ n) :=
  C135_above x h1 data V L hx hV hL (fun t P => (hN t P).toPhysical) phi psi r hr
    (fun t P => sn_compares (hN t P) h1 hR.flux (fun g hg i hi => step_weak (hN t P).toPhysical h1.dt hR.short h1.norm hs.dirs hR.flux hR.prec hR.fed (hR.slower t P) hg hi) hs)
    hR.short (fun g hg => (hR.flux g hg).le) hR.slower he hW hphi fun hd => absurd hd (by rw [hs.scalar]; exact Bool.false_ne_true)

/-- **C135 (transport).**  Between mirrors, never below others that the media let grow at least at some rate. -/
theorem C135_transport_below (hm : ∀ S q g side, ((Pr S q).W g).bc side = .reflect) {om' : K} (hom : om' * x.dt < 1) {v' : Nat → K}
    {W' : Nat → Nat → K} {E' : Nat → Nat → Nat → K} (hv : ∀ g < x.G, 0 ≤ v' g) (hpk : ∀ t P, Faster x (data t P) om' v' W' E')
    (he : ∀ n : Nat, ∀ g < x.G, ∀ a < x.A, ∀ i < x.N, (1 / (1 - om' * x.dt)) ^ (n + 1) * E' g a i ≤ x.ext (((n + 1 : Nat) : K) * x.dt) g a i)
    (hW : x.multiply = true → ∀ p < x.np, ∀ i < x.N,
      L p * W' p i ≤ (data 0 r.cur.P).beta (x.mt i) p * production x (data 0 r.cur.P) (fun g _ => v' g) i)
    (hphi : ∀ g < x.G, ∀ i < x.N, v' g ≤ phi g i) :
    ∃ sol, Gives x phi psi r sol ∧ ∀ n, (sol n).Over x v' W' ((1 / (1 - om' * x.dt)) ^ n) :=
  C135_below x h1 data V L hx hV hL (fun t P => (hN t P).toPhysical) phi psi r hr
    (fun t P => sn_closed (hN t P) h1 hR.flux (fun g hg i hi => step_weak (hN t P).toPhysical h1.dt hR.short h1.norm hs.dirs hR.flux hR.prec hR.fed (hR.slower t P) hg hi) hs hm)
    hom hv hpk he hW hphi fun hd => absurd hd (by rw [hs.scalar]; exact Bool.false_ne_true)

end

/-- 1-D: step differencing, step characteristics, and diamond differencing in cells no thicker than twice the cosine with the
    time absorption counted. -/
theorem C135_transport_1D {x : Sys K} {nm : Nat} {data : K → (Nat → Nat → K) → KMat K} (hd : x.discrete = false) (hA : 0 < x.A)
    (hN : 0 < x.N) (ex : K → K) (hex : WGReflect.Attenuates ex) (mu w dx : Nat → K) (na : Nat) (up : Bool)
    (bc : Nat → BC K) (order : List Nat) (hord : order.Perm (List.range 2))
    (sch : KMat K → Nat → Nat → Nat → K → K → K × K)
    (hsch : ∀ t P, let S := stepMat x.np 1 x.dt x.k true (data t P)
      ∀ g a i, sch S g a i = dd1 (mu a) (dx i) (S.st (x.mt i) g) ∧ S.st (x.mt i) g * dx i ≤ 2 * mu a ∨
        sch S g a i = sd1 (mu a) (dx i) (S.st (x.mt i) g) ∨ sch S g a i = sc1 ex (mu a) (dx i) (S.st (x.mt i) g))
    (hmu : ∀ a < na, 0 < mu a) (hw : ∀ a < na, 0 ≤ w a) (hm : x.norm * ∑ _o ∈ range 2, ∑ a ∈ range na, w a = 1)
    (hdx : ∀ i < x.N, 0 < dx i) (hb : ∀ s, bc s = .vacuum ∨ bc s = .reflect)
    (hsol : ∀ t P q s, let S := stepMat x.np 1 x.dt x.k true (data t P)
      MGReflect.MGFlux (MGReflect.mg1 (probOf x nm S q) (sch S) w x.N na up (fun _ => bc) order (fun _ _ => x.norm) (fun _ => [])) w
        (fun g q o a b p => Solves1 x.N (fun i => sch S g a i (q i)) o b p) (x.solve S q s).1) :
    SnSys x nm data (fun S q => MGReflect.mg1 (probOf x nm S q) (sch S) w x.N na up (fun _ => bc) order (fun _ _ => x.norm) (fun _ => []))
      w fun S g q o a b p => Solves1 x.N (fun i => sch S g a i (q i)) o b p where
  scalar := hd
  dirs := hA
  src := fun _ _ => rfl
  side := fun _ _ _ side => hb side
  damped := fun t P q u th hok hT => MGReflect.C132_1D _ hok ex hex mu w dx _ u x.norm th hT hN na up (fun _ => bc) order hord _
    (hsch t P) hmu hw hm hdx (fun _ _ => Iff.rfl) fun _ s _ => by rcases hb s with h | h <;> rw [h] <;> simp
  solve := hsol

/-- 2-D: step differencing and step characteristics. -/
theorem C135_transport_2D {x : Sys K} {nm : Nat} {data : K → (Nat → Nat → K) → KMat K} (hd : x.discrete = false) (hA : 0 < x.A)
    (nx ny : Nat) (hx0 : 0 < nx) (hy0 : 0 < ny) (hN : nx * ny = x.N) (ex : K → K) (hex : WGReflect.Attenuates ex)
    (mu eta w dx dy : Nat → K) (na : Nat) (up : Bool) (bc : Nat → BC (Nat → K)) (order : List Nat) (hord : order.Perm (List.range 4))
    (sch : KMat K → Nat → Nat → Nat → Nat → K → K × K → K × (K × K))
    (hsch : ∀ t P, let S := stepMat x.np 1 x.dt x.k true (data t P)
      ∀ g a i j, sch S g a i j = sd2 (mu a) (eta a) (dx i) (dy j) (S.st (x.mt (i + j * nx)) g) ∨
        sch S g a i j = sc2 ex (mu a) (eta a) (dx i) (dy j) (S.st (x.mt (i + j * nx)) g))
    (hmu : ∀ a < na, 0 < mu a) (heta : ∀ a < na, 0 < eta a) (hw : ∀ a < na, 0 ≤ w a)
    (hm : x.norm * ∑ _o ∈ range 4, ∑ a ∈ range na, w a = 1) (hdx : ∀ i < nx, 0 < dx i) (hdy : ∀ j < ny, 0 < dy j)
    (hb : ∀ s, bc s = .vacuum ∨ bc s = .reflect)
    (hsol : ∀ t P q s, let S := stepMat x.np 1 x.dt x.k true (data t P)
      MGReflect.MGFlux (MGReflect.mg2 (probOf x nm S q) (sch S) w nx ny na up (fun _ => bc) order (fun _ _ => x.norm) (fun _ => [])) w
        (fun g q o a b p => Solves2 nx ny (fun i j => sch S g a i j (q (i + j * nx))) o b p) (x.solve S q s).1) :
    SnSys x nm data (fun S q => MGReflect.mg2 (probOf x nm S q) (sch S) w nx ny na up (fun _ => bc) order (fun _ _ => x.norm) (fun _ => []))
      w fun S g q o a b p => Solves2 nx ny (fun i j => sch S g a i j (q (i + j * nx))) o b p where
  scalar := hd
  dirs := hA
  src := fun _ _ => rfl
  side := fun _ _ _ side => hb side
  damped := fun t P q u th hok hT => MGReflect.C132_2D _ hok ex hex mu eta w dx dy _ u x.norm th hT nx ny na hx0 hy0 hN up (fun _ => bc)
    order hord _ (hsch t P) hmu heta hw hm hdx hdy (fun _ _ => Iff.rfl) fun _ s _ => by rcases hb s with h | h <;> rw [h] <;> simp
  solve := hsol

end main

/-! ## Cases -/

section cases
variable (K : Type) [Field K]

/-- Fuel (material 0) and moderator in two groups, with one group of precursors. -/
def rodData : KMat K where
  st := fun _ _ => 1
  sa := fun _ _ => 0
  sf := fun m g => if g = 1 ∧ m = 0 then 1 / 4 else 0
  nu := fun _ _ => 2
  nsf := fun _ _ => 0
  chi := fun _ g => if g = 0 then 1 else 0
  dc := fun m g => if g = m then 1 else 1 / 2
  ss := fun _ g gp => if g = gp then 1 / 2 else if g = 1 then 1 / 4 else 0
  velocity := fun g => if g = 0 then 2 else 1
  lambda := fun _ => 1 / 10
  beta := fun _ _ => 1 / 100
  chid := fun _ _ g => if g = 0 then 1 else 0

/-- Arranged in any way in `N` cells; the eigenvalue is that of fuel by itself. -/
def rod (mm : Nat → Nat) (N : Nat) (norm : K)
    (solve : KMat K → (Nat → Nat → Nat → K) → Sol K → (Nat → Nat → K) × (Nat → Nat → Nat → K)) : Sys K where
  G := 2
  N := N
  np := 1
  A := 1
  NV := 0
  mt := mm
  w := fun _ => 1
  norm := norm
  multiply := true
  discrete := false
  noExtrap := false
  scheme := 1
  dt := 3
  k := 1 / 2
  maxIter := 2
  impl := fun _ _ _ => rodData K
  ext := fun _ _ _ _ => 0
  solve := solve
  rhs := fun _ _ _ _ _ => 0
  conv := fun _ _ => true

/-- Fluxes two and one. -/
def rodFlux (g : Nat) : K := if g = 0 then 2 else 1

variable {K} [LinearOrder K] [IsStrictOrderedRing K] (mm : Nat → Nat) (N : Nat) {norm : K} (hn : 0 < norm)
  (solve : KMat K → (Nat → Nat → Nat → K) → Sol K → (Nat → Nat → K) × (Nat → Nat → Nat → K))

include hn in
theorem rod_euler : Euler (rod K mm N norm solve) where
  scheme := rfl
  dt := by show (0 : K) < 3; norm_num
  iter := by show 1 ≤ 2; decide
  norm := hn
  k := by show (0 : K) < 1 / 2; norm_num
  fits := fun _ _ _ _ _ _ _ _ => rfl

theorem rod_timed : Timed (rod K mm N norm solve) (fun _ _ => rodData K) (fun g => if g = 0 then 2 else 1) (fun _ => 1 / 10) :=
  ⟨fun _ _ _ _ _ => rfl, fun _ _ => rfl, fun _ _ => rfl⟩

theorem rod_ready : Ready (rod K mm N norm solve) (fun g => if g = 0 then 2 else 1) (fun _ => 1 / 10)
    ((rod K mm N norm solve).new (rodData K) fun _ _ => 0) := by
  refine ⟨rfl, rfl, ?_, List.nodup_range⟩
  show (List.range (orderOf 1)).length = _
  rw [List.length_range, orderOf_eq]; rfl

theorem rod_nuclear (hm : ∀ i, mm i < 2) : Nuclear (rod K mm N norm solve) 2 (rodData K) where
  fission := fun g _ i _ => by
    show (0 : K) ≤ 2 * if g = 1 ∧ mm i = 0 then 1 / 4 else 0
    split <;> norm_num
  velocity := fun g _ => by
    show (0 : K) < if g = 0 then 2 else 1
    split <;> norm_num
  lambda := fun _ _ => by show (0 : K) ≤ 1 / 10; norm_num
  beta := fun _ _ _ _ => by show (0 : K) ≤ 1 / 100; norm_num
  chid := fun _ _ g _ _ _ => by
    show (0 : K) ≤ if g = 0 then 1 else 0
    split <;> norm_num
  scatter := fun m g gp => by
    show (0 : K) ≤ if g = gp then 1 / 2 else if g = 1 then 1 / 4 else 0
    split_ifs <;> norm_num
  spectrum := fun g _ _ _ => by
    show (0 : K) ≤ if g = 0 then 1 else 0
    split <;> norm_num
  fraction := fun i _ => by
    show ∑ _p ∈ range 1, (1 / 100 : K) ≤ 1
    rw [sum_range_one]; norm_num
  map := fun i _ => hm i

theorem rod_production (i : Nat) : production (rod K mm N norm solve) (rodData K) (fun g _ => rodFlux K g) i = if mm i = 0 then 1 else 0 := by
  show (∑ g ∈ range 2, 2 * (if g = 1 ∧ mm i = 0 then 1 / 4 else 0) * rodFlux K g) / (1 / 2) = _
  rw [sum_range_succ, sum_range_one]
  by_cases h : mm i = 0 <;> simp [h, rodFlux] <;> norm_num

/-- Their precursors. -/
def rodPrec (mm : Nat → Nat) (_ i : Nat) : K := if mm i = 0 then 1 / 10 else 0

theorem rod_feed {g : Nat} (hg : g < 2) (i : Nat) : feed (rod K mm N norm solve) (rodData K) (rodFlux K) (rodPrec mm) g i =
    rodFlux K g - if g = 0 ∧ mm i ≠ 0 then 1 else 0 := by
  unfold feed
  rw [rod_production]
  show ∑ g' ∈ range 2, (if g = g' then 1 / 2 else if g = 1 then 1 / 4 else 0) * rodFlux K g' +
    ((1 - ∑ _p ∈ range 1, 1 / 100) * (if g = 0 then 1 else 0) * (if mm i = 0 then 1 else 0) +
      ∑ _p ∈ range 1, 1 / 10 * (if g = 0 then 1 else 0) * (if mm i = 0 then 1 / 10 else 0)) = _
  rw [sum_range_succ, sum_range_one, sum_range_one, sum_range_one]
  by_cases h : mm i = 0 <;> interval_cases g <;> simp [h, rodFlux] <;> norm_num

include hn in
theorem rod_rate : Rate (rod K mm N norm solve) (fun _ _ => rodData K) 0 (rodFlux K) (rodPrec mm) fun _ _ _ => 0 where
  short := by rw [zero_mul]; exact one_pos
  flux := fun g _ => by unfold rodFlux; split <;> norm_num
  prec := fun _ _ _ _ _ => by unfold rodPrec; split <;> norm_num
  fed := fun _ _ _ _ => le_rfl
  slower := fun _ _ => by
    refine ⟨fun g hg _ _ i _ => ?_, fun _ _ _ i _ => ?_⟩
    · rw [rod_feed mm N solve hg, zero_div, add_zero, add_zero]
      show norm * _ ≤ norm * (1 * _)
      rw [one_mul]
      exact mul_le_mul_of_nonneg_left (sub_le_self _ (by split <;> norm_num)) hn.le
    · rw [rod_production]
      show (1 / 100 : K) * (if mm i = 0 then 1 else 0) ≤ (1 / 10 + 0) * if mm i = 0 then 1 / 10 else 0
      split <;> norm_num

theorem rod_steady (P : Nat → Nat → K) (p i : Nat) : (rodData K).beta (mm i) p *
    production (rod K mm N norm solve) (rodData K) (fun g _ => rodFlux K g) i = 1 / 10 * rodPrec mm p i := by
  rw [rod_production]
  show (1 / 100 : K) * _ = 1 / 10 * if mm i = 0 then 1 / 10 else 0
  split <;> norm_num

/-- The mesh: 3 by 2, unequal widths. -/
def rodMesh : Diffusion.Grid K := ⟨2, 3, 2, 1, fun _ i => 1 + i⟩

/-- The same albedo on its four sides. -/
def rodAlbedo (al : K) (s : Nat) : K := if s < 4 then al else 1

open Classical in
/-- Solved by diffusion. -/
noncomputable def rodDiff (al : K) : Sys K := rod K mm 6 1 fun S q s =>
  (if h : ∃ f, DiffFlux (rod K mm 6 1 fun _ _ _ => (fun _ _ => 0, fun _ _ _ => 0)) rodMesh (rodAlbedo al) 2 S q s.phi f then h.choose
    else fun _ _ => 0, fun _ _ _ => 0)

theorem rodDiff_sys (hm : ∀ i, mm i < 2) (al : K) (ha : al = 0 ∨ al = 1) :
    DiffSys (rodDiff mm al) rodMesh (rodAlbedo al) 2 fun _ _ => rodData K := by
  have mesh : DiffMesh (rodDiff mm al) rodMesh (rodAlbedo al) fun _ _ => rodData K := by
    refine ⟨rfl, rfl, rfl, rfl, ⟨show 2 ≤ 3 by decide, ?_⟩, fun _ i => ?_, fun leak hl => ?_, fun leak hl => ?_, fun _ _ m g => ?_⟩
    · intro a h1 h2
      have : a = 2 := by
        have : 2 ≤ a := h1
        omega
      subst this
      rfl
    · show (0 : K) < 1 + (i : K)
      positivity
    · have hl : leak < 4 := hl
      unfold rodAlbedo
      rw [if_pos hl]
      exact ha
    · have hl : 4 ≤ leak := hl
      unfold rodAlbedo
      rw [if_neg (by omega)]
    · show (0 : K) < if g = m then 1 else 1 / 2
      split <;> norm_num
  refine ⟨mesh, fun t P q s => ?_⟩
  intro S
  have hR := rod_rate mm 6 (one_pos (α := K)) (rodDiff mm al).solve
  have hN := rod_nuclear (K := K) (norm := 1) mm 6 (rodDiff mm al).solve hm
  have hE := rod_euler mm 6 (one_pos (α := K)) (rodDiff mm al).solve
  have h : ∃ f, DiffFlux (rodDiff mm al) rodMesh (rodAlbedo al) 2 S q s.phi f :=
    diff_exists (data := fun _ _ => rodData K) (t := 0) (P := fun _ _ => 0) mesh hN hE hR.flux
      (fun g hg i hi => step_weak hN.toPhysical hE.dt hR.short hE.norm (by show 0 < 1; decide) hR.flux hR.prec hR.fed
        (hR.slower 0 fun _ _ => 0) hg hi) q s.phi
  have e : ((rodDiff mm al).solve S q s).1 = h.choose := dif_pos h
  rw [e]
  exact h.choose_spec

/-- Fuel and moderator in any arrangement with vacuum or mirrors outside: started between zero and fluxes two and one, the
    fluxes stay there, whatever the number of steps. -/
example (hm : ∀ i, mm i < 2) (al : K) (ha : al = 0 ∨ al = 1) (phi : Nat → Nat → K) (psi : Nat → Nat → Nat → K)
    (h0 : ∀ g < 2, ∀ i < 6, 0 ≤ phi g i) (h1 : ∀ g < 2, ∀ i < 6, phi g i ≤ rodFlux K g) :
    let r := (rodDiff mm al).new (rodData K) fun _ _ => 0
    (∃ sol, Gives (rodDiff mm al) phi psi r sol ∧ ∀ n, (sol n).NonNeg (rodDiff mm al)) ∧
    ∃ sol, Gives (rodDiff mm al) phi psi r sol ∧ ∀ n, (sol n).Under (rodDiff mm al) (rodFlux K) (rodPrec mm) 1 := by
  intro r
  have hE := rod_euler mm 6 (one_pos (α := K)) (rodDiff mm al).solve
  have hR := rod_rate mm 6 (one_pos (α := K)) (rodDiff mm al).solve
  have hN := rod_nuclear (K := K) (norm := 1) mm 6 (rodDiff mm al).solve hm
  have hV : ∀ g, g < 2 → (0 : K) < if g = 0 then 2 else 1 := fun g _ => by split <;> norm_num
  refine ⟨C135_diffusion_nonneg hE (rodDiff_sys mm hm al ha) (fun _ _ => hN) hR (rod_timed mm 6 _) hV (fun _ _ => by norm_num)
    (rod_ready mm 6 _) psi (fun _ _ _ _ _ _ _ => le_rfl) h0, ?_⟩
  obtain ⟨sol, a, b⟩ := C135_diffusion_above hE (rodDiff_sys mm hm al ha) (fun _ _ => hN) hR (rod_timed mm 6 _) hV
    (fun _ _ => by norm_num) (rod_ready mm 6 _) psi (fun _ _ _ _ _ _ _ => by rw [mul_zero]; exact le_rfl)
    (fun _ p _ i _ => (rod_steady mm 6 _ (fun _ _ => 0) p i).le) h1
  refine ⟨sol, a, fun n => ?_⟩
  have := b n
  rwa [zero_mul, sub_zero, div_one, one_pow] at this

/-- Fuel between mirrors: started above fluxes two and one, it stays above. -/
example (phi : Nat → Nat → K) (psi : Nat → Nat → Nat → K) (h1 : ∀ g < 2, ∀ i < 6, rodFlux K g ≤ phi g i) :
    ∃ sol, Gives (rodDiff (fun _ => 0) 1) phi psi ((rodDiff (fun _ => 0) 1).new (rodData K) fun _ _ => 0) sol ∧
      ∀ n, (sol n).Over (rodDiff (fun _ => 0) 1) (rodFlux K) (rodPrec fun _ => 0) 1 := by
  have hm : ∀ _ : Nat, 0 < 2 := fun _ => by decide
  have hE := rod_euler (fun _ => 0) 6 (one_pos (α := K)) (rodDiff (fun _ => 0) 1).solve
  have hR := rod_rate (fun _ => 0) 6 (one_pos (α := K)) (rodDiff (fun _ => 0) 1).solve
  have hN := rod_nuclear (K := K) (norm := 1) (fun _ => 0) 6 (rodDiff (fun _ => 0) 1).solve hm
  have hV : ∀ g, g < 2 → (0 : K) < if g = 0 then 2 else 1 := fun g _ => by split <;> norm_num
  obtain ⟨sol, a, b⟩ := C135_diffusion_below hE (rodDiff_sys _ hm 1 (.inr rfl)) (fun _ _ => hN) hR (rod_timed _ 6 _) hV
    (fun _ _ => by norm_num) (rod_ready _ 6 _) psi (fun leak hl => if_pos hl) hR.short (fun g hg => (hR.flux g hg).le)
    (fun _ _ => ⟨fun g hg _ _ i _ => by
      rw [rod_feed _ 6 _ hg, zero_div, add_zero, add_zero, if_neg (by simp), sub_zero]
      show 1 * (1 * _) ≤ 1 * _
      rw [one_mul], fun _ p _ i _ => by
      rw [add_zero]
      exact (rod_steady (fun _ => 0) 6 _ (fun _ _ => 0) p i).ge⟩)
    (fun _ _ _ _ _ _ _ => by rw [mul_zero]; exact le_rfl)
    (fun _ p _ i _ => (rod_steady (fun _ => 0) 6 _ (fun _ _ => 0) p i).ge) h1
  refine ⟨sol, a, fun n => ?_⟩
  have := b n
  rwa [zero_mul, sub_zero, div_one, one_pow] at this

end cases

open Detran.Boundary (BC)
open Detran.Sweep (sd1 Solves1)

/-- The transport problem of a step: step differencing, one angle per direction. -/
noncomputable def rodProb (mm : Nat → Nat) (bc : Nat → BC ℝ) (S : KMat ℝ) (q : Nat → Nat → Nat → ℝ) : MGReflect.Prob ℝ ℝ :=
  MGReflect.mg1 (probOf (rod ℝ mm 6 (1 / 2) fun _ _ _ => (fun _ _ => 0, fun _ _ _ => 0)) 2 S q) (fun g a i => sd1 ((fun _ => 1 / 2) a) ((fun _ => 1) i) (S.st (mm i) g)) (fun _ => 1) 6 1 true
    (fun _ => bc) [0, 1] (fun _ _ => 1 / 2) (fun _ => [])

open Classical in
/-- Solved by transport. -/
noncomputable def rodSn (mm : Nat → Nat) (bc : Nat → BC ℝ) : Sys ℝ := rod ℝ mm 6 (1 / 2) fun S q _ =>
  (if h : ∃ f, MGReflect.MGFlux (rodProb mm bc S q) (fun _ => 1)
      (fun g q o a b p => Solves1 6 (fun i => sd1 ((fun _ => 1 / 2) a) ((fun _ => 1) i) (S.st (mm i) g) (q i)) o b p) f then h.choose
    else fun _ _ => 0, fun _ _ _ => 0)

theorem rodSn_sys (mm : Nat → Nat) (hm : ∀ i, mm i < 2) (bc : Nat → BC ℝ) (hb : ∀ s, bc s = .vacuum ∨ bc s = .reflect) :
    SnSys (rodSn mm bc) 2 (fun _ _ => rodData ℝ) (rodProb mm bc) (fun _ => 1)
      fun S g q o a b p => Solves1 6 (fun i => sd1 ((fun _ => 1 / 2) a) ((fun _ => 1) i) (S.st (mm i) g) (q i)) o b p := by
  have hn : (0 : ℝ) < 1 / 2 := by norm_num
  refine C135_transport_1D (x := rodSn mm bc) (nm := 2) (data := fun _ _ => rodData ℝ) rfl (by show 0 < 1; decide)
    (by show 0 < 6; decide) Real.exp WGReflect.attenuates_exp (fun _ => 1 / 2) (fun _ => 1) (fun _ => 1) 1 true bc [0, 1]
    (List.Perm.refl _) (fun S g a i => sd1 ((fun _ => 1 / 2) a) ((fun _ => 1) i) (S.st (mm i) g)) (fun _ _ _ _ _ => .inr (.inl rfl)) (fun _ _ => hn)
    (fun _ _ => zero_le_one) ?_ (fun _ _ => one_pos) hb fun t P q s => ?_
  · show (1 / 2 : ℝ) * ∑ _o ∈ range 2, ∑ _a ∈ range 1, 1 = 1
    norm_num
  · intro S
    have hR := rod_rate mm 6 hn (rodSn mm bc).solve
    have hN := rod_nuclear (K := ℝ) (norm := 1 / 2) mm 6 (rodSn mm bc).solve hm
    have hE := rod_euler mm 6 hn (rodSn mm bc).solve
    obtain ⟨th, hT⟩ := prob_tame (data := fun _ _ => rodData ℝ) (t := 0) (P := fun _ _ => 0) hN hE hR.flux
      (fun g hg i hi => step_weak hN.toPhysical hE.dt hR.short hE.norm (by show 0 < 1; decide) hR.flux hR.prec hR.fed
        (hR.slower 0 fun _ _ => 0) hg hi) q
    obtain ⟨phi, hphi, -⟩ := MGReflect.C132_settles_1D _ (prob_ok (data := fun _ _ => rodData ℝ) (t := 0) (P := fun _ _ => 0) hN q)
      (fun _ => 1 / 2) (fun _ => 1) (fun _ => 1) _ _ (1 / 2) th hT (by show 0 < 6; decide) 1 true (fun _ => bc) [0, 1] (List.Perm.refl _)
      (fun g a i => sd1 ((fun _ => 1 / 2) a) ((fun _ => 1) i) (S.st (mm i) g)) (fun _ _ _ => .inr (.inl rfl)) (fun _ _ => hn) (fun _ _ => one_pos)
      (by
        show (1 / 2 : ℝ) * ∑ _o ∈ range 2, ∑ _a ∈ range 1, 1 = 1
        norm_num) (fun _ _ => one_pos) (fun _ _ => Iff.rfl) fun _ s _ => by rcases hb s with h | h <;> rw [h] <;> simp
    have h : ∃ f, MGReflect.MGFlux (rodProb mm bc S q) (fun _ => 1)
      (fun g q o a b p => Solves1 6 (fun i => sd1 ((fun _ => 1 / 2) a) ((fun _ => 1) i) (S.st (mm i) g) (q i)) o b p) f := ⟨phi, hphi⟩
    have e : ((rodSn mm bc).solve S q s).1 = h.choose := dif_pos h
    rw [e]
    exact h.choose_spec

/-- The same for transport. -/
example (mm : Nat → Nat) (hm : ∀ i, mm i < 2) (bc : Nat → BC ℝ) (hb : ∀ s, bc s = .vacuum ∨ bc s = .reflect) (phi : Nat → Nat → ℝ)
    (psi : Nat → Nat → Nat → ℝ) (h0 : ∀ g < 2, ∀ i < 6, 0 ≤ phi g i) (h1 : ∀ g < 2, ∀ i < 6, phi g i ≤ rodFlux ℝ g) :
    let r := (rodSn mm bc).new (rodData ℝ) fun _ _ => 0
    (∃ sol, Gives (rodSn mm bc) phi psi r sol ∧ ∀ n, (sol n).NonNeg (rodSn mm bc)) ∧
    ∃ sol, Gives (rodSn mm bc) phi psi r sol ∧ ∀ n, (sol n).Under (rodSn mm bc) (rodFlux ℝ) (rodPrec mm) 1 := by
  intro r
  have hn : (0 : ℝ) < 1 / 2 := by norm_num
  have hE := rod_euler mm 6 hn (rodSn mm bc).solve
  have hR := rod_rate mm 6 hn (rodSn mm bc).solve
  have hN := rod_nuclear (K := ℝ) (norm := 1 / 2) mm 6 (rodSn mm bc).solve hm
  have hV : ∀ g, g < 2 → (0 : ℝ) < if g = 0 then 2 else 1 := fun g _ => by split <;> norm_num
  refine ⟨C135_transport_nonneg hE (rodSn_sys mm hm bc hb) (fun _ _ => hN) hR (rod_timed mm 6 _) hV (fun _ _ => by norm_num)
    (rod_ready mm 6 _) psi (fun _ _ _ _ _ _ _ => le_rfl) h0, ?_⟩
  obtain ⟨sol, a, b⟩ := C135_transport_above hE (rodSn_sys mm hm bc hb) (fun _ _ => hN) hR (rod_timed mm 6 _) hV
    (fun _ _ => by norm_num) (rod_ready mm 6 _) psi (fun _ _ _ _ _ _ _ => by rw [mul_zero]; exact le_rfl)
    (fun _ p _ i _ => (rod_steady mm 6 _ (fun _ _ => 0) p i).le) h1
  refine ⟨sol, a, fun n => ?_⟩
  have := b n
  rwa [zero_mul, sub_zero, div_one, one_pow] at this

/-! ## Other schemes and long steps -/

/-- Full statement for signs and the scheme `sc` of given order: if the multigroup solves give no negative flux for sources
    without negative values, no step does. -/
def C135ClaimFor (sc : Nat) : Prop := ∀ (x : Sys ℚ) (data : ℚ → (Nat → Nat → ℚ) → KMat ℚ) (V L : Nat → ℚ), x.scheme = sc →
  0 < x.dt → 1 ≤ x.maxIter → 0 < x.norm → 0 < x.k → (∀ t, Fits x (x.ext t)) → Timed x data V L → (∀ g, g < x.G → 0 < V g) →
  (∀ p, p < x.np → 0 < L p) → (∀ t P, Physical x (data t P)) →
  (∀ o h t P, 1 ≤ o → o ≤ 6 → 0 < h → Compares x (stepMat x.np o h x.k true (data t P))) →
  (∀ t, ∀ g < x.G, ∀ a < x.A, ∀ i < x.N, 0 ≤ x.ext t g a i) → ∀ phi psi r, Ready x V L r →
  (∀ g < x.G, ∀ i < x.N, 0 ≤ phi g i) → (∀ g < x.G, ∀ a < x.A, ∀ i < x.N, 0 ≤ psi g a i) →
  ∀ n r' l, x.transient phi psi r n = some (r', l) → ∀ g < x.G, ∀ i < x.N, 0 ≤ r'.cur.phi g i

/-- One cell of a pure absorber. -/
def decay (scheme : Nat) (noExtrap : Bool) (dt : ℚ) : Sys ℚ where
  G := 1
  N := 1
  np := 0
  A := 1
  NV := 0
  mt := fun _ => 0
  w := fun _ => 1
  norm := 1
  multiply := false
  discrete := false
  noExtrap := noExtrap
  scheme := scheme
  dt := dt
  k := 1
  maxIter := 1
  impl := fun _ _ => wrapped slabData
  ext := fun _ _ _ _ => 0
  solve := fun S q _ => (fun g i => q g 0 i / S.st 0 g, fun g a i => q g a i / S.st 0 g)
  rhs := fun _ _ _ _ _ => 0
  conv := fun _ _ => true

theorem decay_compares (sc : Nat) (e : Bool) (dt : ℚ) (o : Nat) (h : ℚ) (h1 : 1 ≤ o) (h6 : o ≤ 6) (hh : 0 < h) :
    Compares (decay sc e dt) (stepMat 0 o h 1 true slabData) := by
  have hst : 0 < (stepMat 0 o h 1 true slabData).st 0 0 := by
    show (0 : ℚ) < 1 + bdf o 0 / (1 * h)
    have : (0 : ℚ) < bdf o 0 / (1 * h) := div_pos (bdf_pos o h1 h6) (by linarith)
    linarith
  refine ⟨fun q s _ hq => ⟨fun g hg i hi => ?_, fun hd => absurd hd Bool.false_ne_true⟩,
    fun q s v _ _ hq => ⟨fun g hg i hi => ?_, fun hd => absurd hd Bool.false_ne_true⟩⟩
  · obtain rfl : g = 0 := Nat.lt_one_iff.1 hg
    exact div_nonneg (hq 0 hg 0 (by show 0 < 1; decide) i hi) hst.le
  · obtain rfl : g = 0 := Nat.lt_one_iff.1 hg
    have := hq 0 hg 0 (by show 0 < 1; decide) i hi
    rw [surplus_gain] at this
    have e0 : ∑ gp ∈ range 1, gain (decay sc e dt) (stepMat 0 o h 1 true slabData) 0 gp i * v gp = 0 := by
      rw [sum_range_one]
      show (0 + 0) * v 0 = (0 : ℚ)
      rw [add_zero, zero_mul]
    have this : 0 ≤ 1 * ((stepMat 0 o h 1 true slabData).st 0 0 * v 0 - ∑ gp ∈ range 1, gain (decay sc e dt) (stepMat 0 o h 1 true slabData) 0 gp i * v gp) - q 0 0 i := this
    rw [e0, sub_zero, one_mul] at this
    exact (div_le_iff₀' hst).2 (sub_nonneg.1 this)

theorem decay_ready (sc : Nat) (e : Bool) (dt : ℚ) :
    Ready (decay sc e dt) (fun _ => 1) (fun _ => 1) ((decay sc e dt).new slabData fun _ _ => 0) := by
  refine ⟨rfl, rfl, ?_, List.nodup_range⟩
  show (List.range (orderOf sc)).length = _
  rw [List.length_range, orderOf_eq]; rfl

/-- Its flux after `n` steps, from one. -/
def decayLast (sc : Nat) (e : Bool) (dt : ℚ) (n : Nat) : Option ℚ :=
  ((decay sc e dt).transient (fun _ _ => 1) (fun _ _ _ => 1) ((decay sc e dt).new slabData fun _ _ => 0) n).map fun o => o.1.cur.phi 0 0

/-- The midpoint scheme extrapolates below zero in long steps, and so do the first steps of the schemes of order two to six;
    without extrapolation these subtract earlier fluxes in the second. -/
theorem decay_negative : ∀ sc < 7, sc ≠ 1 → ∀ e, decayLast sc e 10 1 = some (-2 / 3) ∨ decayLast sc e 10 2 = some (-7 / 253) := by
  decide +kernel

/-- **C135.**  It holds for backward Euler only. -/
theorem C135_scheme (sc : Nat) (h6 : sc ≤ 6) : C135ClaimFor sc ↔ sc = 1 := by
  constructor
  · intro h
    by_contra hne
    have key : ∀ n v, decayLast sc false 10 n = some v → 0 ≤ v := by
      intro n v hv
      unfold decayLast at hv
      obtain ⟨⟨r', l⟩, h1, h2⟩ := Option.map_eq_some_iff.1 hv
      rw [← h2]
      exact h (decay sc false 10) (fun _ _ => slabData) (fun _ => 1) (fun _ => 1) rfl (by show (0 : ℚ) < 10; norm_num)
        (by show 1 ≤ 1; decide) one_pos one_pos (fun _ _ _ _ _ _ _ _ => rfl) ⟨fun _ _ _ _ _ => rfl, fun _ _ => rfl, fun _ _ => rfl⟩
        (fun _ _ => one_pos) (fun _ _ => one_pos)
        (fun _ _ => ⟨fun _ _ _ _ => by show (0 : ℚ) ≤ 0 * 0; norm_num, fun _ _ => one_pos, fun _ _ => zero_le_one, fun _ _ _ _ => le_rfl,
          fun _ _ _ _ _ _ => le_rfl⟩) (fun o hh _ _ h1 h6 hp => decay_compares sc false 10 o hh h1 h6 hp)
        (fun _ _ _ _ _ _ _ => le_rfl) _ _ _ (decay_ready sc false 10) (fun _ _ _ _ => zero_le_one) (fun _ _ _ _ _ _ => zero_le_one)
        n r' l h1 0 (by show 0 < 1; decide) 0 (by show 0 < 1; decide)
    rcases decay_negative sc (by omega) hne false with h | h
    · have := key 1 _ h
      norm_num at this
    · have := key 2 _ h
      norm_num at this
  · rintro rfl x data V L hs hdt hi hn hk hf hx hV hL hD hC he phi psi r hr hphi hpsi n r' l ht g hg i hi'
    obtain ⟨sol, h1, h2⟩ := C135_nonneg x ⟨hs, hdt, hi, hn, hk, hf⟩ data V L hx hV hL hD phi psi r hr
      (fun t P => hC 1 x.dt t P le_rfl (by decide) hdt) he hphi fun _ => hpsi
    obtain ⟨r'', e1, e2⟩ := h1 n
    rw [ht, Option.some.injEq, Prod.mk.injEq] at e1
    rw [e1.1, e2]
    exact (h2 n).phi g hg i hi'

/-- One cell in which scattering is twice the collisions. -/
def swell (dt : ℚ) : Sys ℚ := { decay 1 false dt with
  impl := fun _ _ _ => { slabData with ss := fun _ _ _ => 2 }
  solve := fun S q _ => (fun g i => q g 0 i / (S.st 0 g - S.ss 0 g g), fun g a i => q g a i / (S.st 0 g - S.ss 0 g g)) }

/-- **C135.**  The restriction of the step is needed: fluxes here grow at the rate one, and a step of two, solved exactly, makes
    them negative. -/
theorem C135_long_step : ∃ (x : Sys ℚ) (D : KMat ℚ) (V L : Nat → ℚ) (r : Run ℚ), Euler x ∧ Timed x (fun _ _ => D) V L ∧ Physical x D ∧
    Ready x V L r ∧ (∀ q s, ∀ g < x.G, ∀ a < x.A, ∀ i < x.N, let S := stepMat x.np 1 x.dt x.k true D
      resid x (fun _ _ _ _ _ => 0) S q (x.solve S q s).1 (x.solve S q s).2 g a i = 0) ∧
    Slower x D 1 (fun _ => 1) (fun _ _ => 0) (fun _ _ _ => 0) ∧ Faster x D 1 (fun _ => 1) (fun _ _ => 0) (fun _ _ _ => 0) ∧
    (x.transient (fun _ _ => 1) (fun _ _ _ => 1) r 1).map (fun o => o.1.cur.phi 0 0) = some (-1) := by
  refine ⟨swell 2, { slabData with ss := fun _ _ _ => 2 }, fun _ => 1, fun _ => 1,
    (swell 2).new { slabData with ss := fun _ _ _ => 2 } fun _ _ => 0, ⟨rfl, by show (0 : ℚ) < 2; norm_num, le_rfl, one_pos, one_pos,
      fun _ _ _ _ _ _ _ _ => rfl⟩, ⟨fun _ _ _ _ _ => rfl, fun _ _ => rfl, fun _ _ => rfl⟩,
    ⟨fun _ _ _ _ => by show (0 : ℚ) ≤ 0 * 0; norm_num, fun _ _ => one_pos, fun _ _ => zero_le_one, fun _ _ _ _ => le_rfl,
      fun _ _ _ _ _ _ => le_rfl⟩, ?_, fun q s g hg a ha i hi => ?_, ?_, ?_, by decide +kernel⟩
  · refine ⟨rfl, rfl, ?_, List.nodup_range⟩
    show (List.range (orderOf 1)).length = _
    rw [List.length_range, orderOf_eq]; rfl
  · obtain rfl : g = 0 := Nat.lt_one_iff.1 hg
    obtain rfl : a = 0 := Nat.lt_one_iff.1 ha
    have e : (stepMat 0 1 2 1 true { slabData with ss := fun _ _ _ => (2 : ℚ) }).st 0 0 = 3 / 2 := by decide +kernel
    show 0 + (stepMat 0 1 2 1 true { slabData with ss := fun _ _ _ => (2 : ℚ) }).st 0 0 *
      (q 0 0 i / ((stepMat 0 1 2 1 true { slabData with ss := fun _ _ _ => (2 : ℚ) }).st 0 0 - 2)) -
      1 * (∑ g' ∈ range 1, 2 * (q g' 0 i / ((stepMat 0 1 2 1 true { slabData with ss := fun _ _ _ => (2 : ℚ) }).st 0 g' - 2)) + 0) - q 0 0 i = 0
    rw [sum_range_one, e]
    ring
  · refine ⟨fun g hg a _ i _ => ?_, fun h => absurd h Bool.false_ne_true⟩
    show 1 * (∑ g' ∈ range 1, 2 * 1 + 0) + 0 ≤ (1 : ℚ) * ((1 + 1 / 1) * 1)
    norm_num
  · refine ⟨fun g hg a _ i _ => ?_, fun h => absurd h Bool.false_ne_true⟩
    show (1 : ℚ) * ((1 + 1 / 1) * 1) ≤ 1 * (∑ g' ∈ range 1, 2 * 1 + 0) + 0
    norm_num

end Detran.Kin
