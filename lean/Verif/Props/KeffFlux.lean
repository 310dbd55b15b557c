import Verif.Lemmas.Lights
import Verif.Props.Keff
import Verif.Props.Recip
import Verif.Props.Positive
import Mathlib.Logic.Relation
import Mathlib.Tactic.IntervalCases

/-!
# The multiplication factor of transport problems (C133, C134)
-/

namespace Detran.MGReflect

open Detran.Sweep (St)
open Detran.Boundary (Bd BC Loc Enters Mirror)
open Detran.WGReflect (Sweeps Solution InFace Sides Swept Incoming Leaving Gain Lights get_comb)
open Detran.EigenPI (emits makes Data Fissile Solver Mode Mixing Below fop fop_eq Sound Exact PI Seeded)
open Finset

section main
variable {F K : Type} [Field K] [LinearOrder K] [IsStrictOrderedRing K]
variable {P : Prob F K} {w : Nat → K} {Sol : Nat → (Nat → K) → Nat → Nat → (Nat → F) → (Nat → K) → Prop}
  {sig : Nat → Nat → K} {u : Nat → K} {m th : K}

/-! ## Fluxes of a source -/

/-- The problem with `q` as its only source; fission does not multiply. -/
def Prob.sourced (P : Prob F K) (q : Nat → Nat → K) : Prob F K :=
  ⟨{ P.M with implicit := false, q := q }, fun g => { P.W g with disc := [] }⟩

/-- `S q` are the fluxes of the source `q`, at the groups and cells there are. -/
structure Exactly (P : Prob F K) (w : Nat → K) (Sol : Nat → (Nat → K) → Nat → Nat → (Nat → F) → (Nat → K) → Prop)
    (S : (Nat → Nat → K) → Nat → Nat → K) : Prop where
  flux : ∀ q, MGFlux (P.sourced q) w Sol (S q)
  off : ∀ q g c, ¬ (g < P.M.x.mat.G ∧ c < P.M.x.N) → S q g c = 0

/-- Sides are vacuum, or reflect. -/
def Bare (P : Prob F K) : Prop := ∀ g < P.M.x.mat.G, ∀ s < 2 * (P.W g).dim, (P.W g).bc s = .vacuum ∨ (P.W g).bc s = .reflect

theorem sourced_ok (ok : OK P w Sol) (q : Nat → Nat → K) : OK (P.sourced q) w Sol :=
  ⟨⟨ok.src.fin, ok.src.nn, ok.src.map, ok.src.add, ok.src.loc⟩, ok.cells, ok.bsize,
    fun g hg => WGReflect.sweeps_off (ok.sw g hg), ok.np⟩

theorem sourced_damped {q : Nat → Nat → K} (hD : Damped (P.sourced q) w Sol sig u m th) (q' : Nat → Nat → K) :
    Damped (P.sourced q') w Sol sig u m th :=
  ⟨⟨hD.uniform.mtod, hD.uniform.norm, hD.uniform.disc, hD.uniform.flat⟩, hD.weight, hD.couple, hD.upos, hD.row, hD.th0,
    hD.less, hD.gain⟩

theorem sourced_given (hb : Bare P) {q : Nat → Nat → K} (h : ∀ g < P.M.x.mat.G, ∀ c < P.M.x.N, 0 ≤ q g c) :
    Given (P.sourced q) where
  q := h
  sides := fun g hg side hs ps h => by
    have h : (P.W g).bc side = .fixed ps := h
    rcases hb g hg side hs with e | e <;> rw [e] at h <;> cases h

/-- Sources outside the mesh do not matter, and neither do fluxes. -/
theorem sourced_congr (ok : OK P w Sol) {q q' phi phi' : Nat → Nat → K} (h : MGFlux (P.sourced q) w Sol phi)
    (hq : ∀ g < P.M.x.mat.G, ∀ c < P.M.x.N, q' g c = q g c) (hp : ∀ g < P.M.x.mat.G, ∀ c < P.M.x.N, phi' g c = phi g c) :
    MGFlux (P.sourced q') w Sol phi' := by
  intro g hg
  have hg' : g < P.M.x.mat.G := hg
  obtain ⟨bd, psi, h1, h2, h3, h4, h5⟩ := h g hg
  refine ⟨bd, psi, fun o ho a ha => ?_, fun c hc => ?_, h3, h4, h5⟩
  · refine sol_congr (WGReflect.sweeps_off (ok.sw g hg')) ho (h1 o ho a ha) fun c hc => ?_
    have hc : c < (P.W g).N := hc
    rw [ok.cells g] at hc
    unfold Prob.src
    congr 2
    rw [source_couple, source_couple]
    change q' g c + _ = q g c + _
    rw [hq g hg' c hc]
    congr 1
    refine sum_congr rfl fun gp hgp => ?_
    rw [hp gp (mem_range.1 hgp) c hc]
    rfl
  · have hc' : c < P.M.x.N := by
      have hc : c < (P.W g).N := hc
      rw [ok.cells g] at hc
      exact hc
    rw [hp g hg' c hc']
    exact h2 c hc

/-- Fluxes of combined sources. -/
theorem sourced_comb (ok : OK P w Sol) (hb : Bare P) {q q' phi phi' : Nat → Nat → K} (s t : K)
    (h : MGFlux (P.sourced q) w Sol phi) (h' : MGFlux (P.sourced q') w Sol phi') :
    MGFlux (P.sourced fun g c => s * q g c + t * q' g c) w Sol fun g c => s * phi g c + t * phi' g c := by
  intro g hg
  have hg' : g < P.M.x.mat.G := hg
  obtain ⟨b, p, k1, k2, k3, k4, k5⟩ := h g hg
  obtain ⟨b', p', k1', k2', k3', k4', k5'⟩ := h' g hg
  have hw : Sweeps ((P.sourced q).W g) w (Sol g) := WGReflect.sweeps_off (ok.sw g hg')
  refine ⟨((P.sourced q).W g).comb s t b b', fun o a c => s * p o a c + t * p' o a c, fun o ho a ha =>
    hw.lin s t _ _ _ o a _ _ _ _ _ _ ho (k1 o ho a ha) (k1' o ho a ha) (fun c hc => ?_) (fun _ => rfl)
      (fun side hs i j hi => get_comb hw s t _ _ side hs o a i j hi), fun c hc => ?_, ?_, ?_, ?_⟩
  · unfold Prob.src
    rw [source_couple, source_couple, source_couple]
    have e : ∀ gp, couple (P.sourced fun g c => s * q g c + t * q' g c).M g gp c = couple (P.sourced q).M g gp c := fun _ => rfl
    have e' : ∀ gp, couple (P.sourced q').M g gp c = couple (P.sourced q).M g gp c := fun _ => rfl
    simp only [e, e']
    change (s * q g c + t * q' g c + ∑ gp ∈ range P.M.x.mat.G, couple (P.sourced q).M g gp c * (s * phi gp c + t * phi' gp c)) *
      (P.W g).mtod o a + 0 = s * ((q g c + ∑ gp ∈ range P.M.x.mat.G, couple (P.sourced q).M g gp c * phi gp c) *
      (P.W g).mtod o a + 0) + t * ((q' g c + ∑ gp ∈ range P.M.x.mat.G, couple (P.sourced q).M g gp c * phi' gp c) *
      (P.W g).mtod o a + 0)
    have : ∑ gp ∈ range P.M.x.mat.G, couple (P.sourced q).M g gp c * (s * phi gp c + t * phi' gp c) =
        s * ∑ gp ∈ range P.M.x.mat.G, couple (P.sourced q).M g gp c * phi gp c +
        t * ∑ gp ∈ range P.M.x.mat.G, couple (P.sourced q).M g gp c * phi' gp c := by
      rw [mul_sum, mul_sum, ← sum_add_distrib]
      exact sum_congr rfl fun gp _ => by ring
    rw [this]
    ring
  · have a1 := k2 c hc
    have a2 := k2' c hc
    rw [add_zero] at a1 a2
    dsimp only
    rw [a1, a2, add_zero]
    change s * (∑ o ∈ range (2 ^ (P.W g).dim), ∑ a ∈ range (P.W g).na, w a * p o a c) +
      t * (∑ o ∈ range (2 ^ (P.W g).dim), ∑ a ∈ range (P.W g).na, w a * p' o a c) =
      ∑ o ∈ range (2 ^ (P.W g).dim), ∑ a ∈ range (P.W g).na, w a * (s * p o a c + t * p' o a c)
    rw [mul_sum, mul_sum, ← sum_add_distrib]
    refine sum_congr rfl fun o _ => ?_
    rw [mul_sum, mul_sum, ← sum_add_distrib]
    exact sum_congr rfl fun a _ => by ring
  · intro side hs hv o ho he a ha i j hi
    have a1 := k3 side hs hv o ho he a ha i j hi
    have a2 := k3' side hs hv o ho he a ha i j hi
    refine (get_comb hw s t b b' side hs o a i j hi).trans ?_
    rw [a1]
    change s * 0 + t * (P.W g).get (b' side o a) i j = 0
    have a2 : (P.W g).get (b' side o a) i j = 0 := a2
    rw [a2]
    ring
  · intro side hs ps hv
    have hv : (P.W g).bc side = .fixed ps := hv
    rcases hb g hg' side hs with e | e <;> rw [e] at hv <;> cases hv
  · intro side hs hv o ho he o' hm a ha i j hi
    have a1 := k5 side hs hv o ho he o' hm a ha i j hi
    have a2 := k5' side hs hv o ho he o' hm a ha i j hi
    have b1 := get_comb hw s t b b' side hs o a i j hi
    have b2 := get_comb hw s t b b' side hs o' a i j hi
    change (P.W g).get _ i j = s * (P.W g).get _ i j + t * (P.W g).get _ i j at b1 b2
    change (P.W g).get _ i j - (P.W g).get _ i j = 0 at a1 a2
    change (P.W g).get _ i j - (P.W g).get _ i j = 0
    rw [b1, b2]
    linear_combination s * a1 + t * a2

/-- There is such an `S`. -/
theorem C133_fluxes {V : Nat → K} {fw : Nat → Nat → Nat → Nat → Nat → K} (ok : OK P w Sol)
    (hD : Damped (P.sourced fun _ _ => 0) w Sol sig u m th) (hw : ∀ g < P.M.x.mat.G, ∀ a < (P.W g).na, 0 < w a)
    (hV : ∀ c < P.M.x.N, 0 < V c) (hs : ∀ g < P.M.x.mat.G, ∀ c < P.M.x.N, 0 < sig g c) (D : AllDissipate P Sol V sig fw)
    (z : F) : ∃ S, Exactly P w Sol S := by
  have hex : ∀ q, ∃ phi, MGFlux (P.sourced q) w Sol phi := fun q =>
    C132_exists (sourced_ok ok q) (sourced_damped hD q) hw hV hs (fw := fw) (fun g hg => ⟨(D g hg).pos, (D g hg).energy⟩) ⟨fun _ _ _ => z, fun _ => 0, fun _ _ _ => 0⟩
  choose T hT using hex
  classical
  refine ⟨fun q g c => if g < P.M.x.mat.G ∧ c < P.M.x.N then T q g c else 0, fun q => ?_, fun q g c h => if_neg h⟩
  exact sourced_congr ok (hT q) (fun _ _ _ _ => rfl) fun g hg c hc => if_pos ⟨hg, hc⟩

variable {S : (Nat → Nat → K) → Nat → Nat → K}

theorem exactly_eq [Nonempty F] (ok : OK P w Sol) (hD : Damped (P.sourced fun _ _ => 0) w Sol sig u m th)
    (hS : Exactly P w Sol S) {q phi : Nat → Nat → K} (h : MGFlux (P.sourced q) w Sol phi) :
    ∀ g < P.M.x.mat.G, ∀ c < P.M.x.N, S q g c = phi g c :=
  C132_unique (sourced_ok ok q) (sourced_damped hD q) _ _ (hS.flux q) h

/-- It is linear and positive: what C133 and C134 assume of the solver. -/
theorem C133_flux_solver [Nonempty F] (ok : OK P w Sol) (hD : Damped (P.sourced fun _ _ => 0) w Sol sig u m th) (hb : Bare P)
    (hS : Exactly P w Sol S) : Solver P.M.x S where
  lin := fun s t q q' => exactly_eq ok hD hS (sourced_comb ok hb s t (hS.flux q) (hS.flux q'))
  pos := fun q h g hg c hc => by
    obtain ⟨bd, psi, k⟩ := solves_of_flux (hS.flux q)
    exact (C132_positive_partial (sourced_ok ok q) (sourced_damped hD q) (sourced_given hb h) k g hg c hc).1

theorem flux_smul [Nonempty F] (ok : OK P w Sol) (hD : Damped (P.sourced fun _ _ => 0) w Sol sig u m th) (hb : Bare P)
    (hS : Exactly P w Sol S) (a : K) (q : Nat → Nat → K) {g c : Nat} (hg : g < P.M.x.mat.G) (hc : c < P.M.x.N) :
    S (fun g c => a * q g c) g c = a * S q g c := by
  have := (C133_flux_solver ok hD hb hS).lin a 0 q q g hg c hc
  simpa using this

/-- Power iteration with these fluxes. -/
def power (P : Prob F K) (S : (Nat → Nat → K) → Nat → Nat → K) (n : Nat) (tol : K) : PI K :=
  ⟨P.M.x, fun q _ => S q, n, tol, 1⟩

theorem power_exact [Nonempty F] (ok : OK P w Sol) (hD : Damped (P.sourced fun _ _ => 0) w Sol sig u m th) (hb : Bare P)
    (hS : Exactly P w Sol S) (n : Nat) (tol : K) : Exact (power P S n tol) S where
  solve := fun _ _ => rfl
  hom := fun a q => by
    funext g c
    by_cases h : g < P.M.x.mat.G ∧ c < P.M.x.N
    · exact flux_smul ok hD hb hS a q h.1 h.2
    · rw [hS.off _ g c h, hS.off _ g c h, mul_zero]

/-! ## Fluxes that reproduce themselves are the modes -/

/-- Fission density of fluxes. -/
def Prob.dens (P : Prob F K) (phi : Nat → Nat → K) (c : Nat) : K :=
  ∑ g ∈ range P.M.x.mat.G, makes P.M.x g c * phi g c

theorem made_dens (P : Prob F K) (phi : Nat → Nat → K) (g c : Nat) : P.made phi g c = P.dens phi c * emits P.M.x g c := by
  unfold Prob.made Prob.dens MGSolve.fissionXs emits makes
  rw [sum_mul]
  refine sum_congr rfl fun gp _ => ?_
  split <;> ring

/-- The fluxes of an eigenvalue problem have a density that power iteration reproduces, with the same factor. -/
theorem C133_eigen_mode [Nonempty F] (ok : OK P w Sol) (hD : Damped (P.sourced fun _ _ => 0) w Sol sig u m th) (hb : Bare P)
    (hS : Exactly P w Sol S) {k : K} (hk : k ≠ 0) {phi : Nat → Nat → K} (h : Eigen P w Sol k phi) :
    Mode P.M.x S k (P.dens phi) := by
  intro c hc
  have e : ∀ g < P.M.x.mat.G, S (fun g c => P.dens phi c * emits P.M.x g c) g c = k * phi g c := by
    intro g hg
    have h1 := exactly_eq ok hD hS (q := fun g c => 1 / k * P.made phi g c) h g hg c hc
    have h2 := flux_smul ok hD hb hS k (fun g c => 1 / k * P.made phi g c) hg hc
    rw [h1] at h2
    have e2 : (fun g c => P.dens phi c * emits P.M.x g c) = fun g c => k * (1 / k * P.made phi g c) := by
      funext g c
      rw [made_dens, ← mul_assoc, mul_one_div_cancel hk, one_mul]
    rw [e2, h2]
  rw [fop_eq _ _ _ hc]
  have e3 : k * P.dens phi c = ∑ g ∈ range P.M.x.mat.G, k * (makes P.M.x g c * phi g c) := by
    unfold Prob.dens
    rw [mul_sum]
  rw [e3]
  refine sum_congr rfl fun g hg => ?_
  rw [e g (mem_range.1 hg)]
  ring

/-- And every mode is the density of such fluxes: those its emissions cause. -/
theorem C133_mode_eigen [Nonempty F] (ok : OK P w Sol) (hD : Damped (P.sourced fun _ _ => 0) w Sol sig u m th) (hb : Bare P)
    (hS : Exactly P w Sol S) {k : K} (hk : k ≠ 0) {d : Nat → K} (h : Mode P.M.x S k d) :
    Eigen P w Sol k (S fun g c => 1 / k * (d c * emits P.M.x g c)) ∧
      ∀ c < P.M.x.N, P.dens (S fun g c => 1 / k * (d c * emits P.M.x g c)) c = d c := by
  have hd : ∀ c < P.M.x.N, P.dens (S fun g c => 1 / k * (d c * emits P.M.x g c)) c = d c := by
    intro c hc
    have h1 := h c hc
    rw [fop_eq _ _ _ hc] at h1
    unfold Prob.dens
    have : ∀ g ∈ range P.M.x.mat.G, makes P.M.x g c * S (fun g c => 1 / k * (d c * emits P.M.x g c)) g c =
        1 / k * (S (fun g c => d c * emits P.M.x g c) g c * makes P.M.x g c) := by
      intro g hg
      rw [flux_smul ok hD hb hS (1 / k) (fun g c => d c * emits P.M.x g c) (mem_range.1 hg) hc]
      ring
    rw [sum_congr rfl this, ← mul_sum, h1]
    field_simp
  refine ⟨?_, hd⟩
  refine sourced_congr ok (hS.flux _) (fun g _ c hc => ?_) fun _ _ _ _ => rfl
  rw [made_dens, hd c hc]

/-! ## Bounds from flat fluxes -/

/-- Flat group fluxes that no cell's medium can sustain with fissions divided by `kk` bound the factor from above, whatever
    the sides. -/
theorem C133_ceiling [Nonempty F] (ok : OK P w Sol) (hD : Damped (P.sourced fun _ _ => 0) w Sol sig u m th) (hb : Bare P)
    (hS : Exactly P w Sol S) (hd : Data P.M.x) {k kk : K} (hk : k ≠ 0) (hkk : 0 < kk) {phi : Nat → Nat → K}
    (h : Eigen P w Sol k phi) (hne : ∃ c < P.M.x.N, P.dens phi c ≠ 0) (v : Nat → K) (hv : ∀ g < P.M.x.mat.G, 0 < v g)
    (hc : ∀ g < P.M.x.mat.G, ∀ c < P.M.x.N, 1 / kk * ((∑ gp ∈ range P.M.x.mat.G, makes P.M.x gp c * v gp) * emits P.M.x g c) +
      ∑ gp ∈ range P.M.x.mat.G, couple (P.sourced fun _ _ => 0).M g gp c * v gp ≤ sig g c * v g) : |k| ≤ kk := by
  refine EigenPI.C133_above (C133_flux_solver ok hD hb hS) hd (C133_eigen_mode ok hD hb hS hk h) hk hne hkk (fun g _ => v g)
    (fun g hg _ _ => hv g hg) fun g hg c hc' => ?_
  obtain ⟨bd, psi, ks⟩ := solves_of_flux (hS.flux fun g c =>
    1 / kk * ((∑ gp ∈ range P.M.x.mat.G, makes P.M.x gp c * v gp) * emits P.M.x g c))
  refine (C132_ceiling (sourced_ok ok _) (sourced_damped hD _) ⟨fun g hg c hc'' => hc g hg c hc'', fun g hg _ _ _ => (hv g hg).le,
    fun g hg side hs ps hf => ?_⟩ ks g hg c hc').1
  have hf : (P.W g).bc side = .fixed ps := hf
  rcases hb g hg side hs with e | e <;> rw [e] at hf <;> cases hf

/-- Flat group fluxes that every cell's medium does sustain bound it from below, between reflecting sides. -/
theorem C133_floor [Nonempty F] (ok : OK P w Sol) (hD : Damped (P.sourced fun _ _ => 0) w Sol sig u m th)
    (hr : ∀ g < P.M.x.mat.G, ∀ s < 2 * (P.W g).dim, (P.W g).bc s = .reflect)
    (hS : Exactly P w Sol S) (hd : Data P.M.x) {k kk : K} (hk : 0 < k) (hkk : 0 < kk) {phi : Nat → Nat → K}
    (h : Eigen P w Sol k phi) (hp : ∀ c, Fissile P.M.x c → 0 < P.dens phi c) (hne : ∃ c, Fissile P.M.x c) (v : Nat → K)
    (hv : ∀ g < P.M.x.mat.G, 0 < v g)
    (hc : ∀ g < P.M.x.mat.G, ∀ c < P.M.x.N, sig g c * v g ≤
      1 / kk * ((∑ gp ∈ range P.M.x.mat.G, makes P.M.x gp c * v gp) * emits P.M.x g c) +
      ∑ gp ∈ range P.M.x.mat.G, couple (P.sourced fun _ _ => 0).M g gp c * v gp) : kk ≤ k := by
  have hb : Bare P := fun g hg s hs => Or.inr (hr g hg s hs)
  refine EigenPI.C133_under (C133_flux_solver ok hD hb hS) hd (C133_eigen_mode ok hD hb hS hk.ne' h) hk hp hne hkk
    (fun g _ => v g) (fun g hg _ _ => hv g hg) fun g hg c hc' => ?_
  obtain ⟨bd, psi, ks⟩ := solves_of_flux (hS.flux fun g c =>
    1 / kk * ((∑ gp ∈ range P.M.x.mat.G, makes P.M.x gp c * v gp) * emits P.M.x g c))
  refine (C132_floor (sourced_ok ok _) (sourced_damped hD _) ⟨fun g hg c hc'' => hc g hg c hc'', fun g hg side hs hf => ?_,
    fun g hg side hs ps hf => ?_⟩ ks g hg c hc').1
  · have hf : (P.W g).bc side = .vacuum := hf
    rw [hr g hg side hs] at hf
    cases hf
  · have hf : (P.W g).bc side = .fixed ps := hf
    rw [hr g hg side hs] at hf
    cases hf

/-! ## More fission, more scattering, reflectors -/

/-- A problem with no less coupling between groups, emission and production, whose sides reflect wherever the other's do,
    multiplies no less. -/
theorem C133_flux_below [Nonempty F] {P' : Prob F K} {u' : Nat → K} {th' : K} {S' : (Nat → Nat → K) → Nat → Nat → K}
    (ok : OK P w Sol) (hD : Damped (P.sourced fun _ _ => 0) w Sol sig u m th) (hb : Bare P) (hS : Exactly P w Sol S)
    (hd : Data P.M.x) (ok' : OK P' w Sol) (hD' : Damped (P'.sourced fun _ _ => 0) w Sol sig u' m th') (hb' : Bare P')
    (hS' : Exactly P' w Sol S') (hM : More (P.sourced fun _ _ => 0) (P'.sourced fun _ _ => 0))
    (he : ∀ g < P.M.x.mat.G, ∀ c < P.M.x.N, emits P.M.x g c ≤ emits P'.M.x g c)
    (hm : ∀ g < P.M.x.mat.G, ∀ c < P.M.x.N, makes P.M.x g c ≤ makes P'.M.x g c) : Below P.M.x S P'.M.x S' := by
  intro d h0 c hc
  have hG : P'.M.x.mat.G = P.M.x.mat.G := hM.groups
  have hN : P'.M.x.N = P.M.x.N := hM.cells
  have hc' : c < P'.M.x.N := by rw [hN]; exact hc
  rw [fop_eq _ _ _ hc, fop_eq _ _ _ hc', hG]
  obtain ⟨bd, psi, ks⟩ := solves_of_flux (hS.flux fun g c => d c * emits P.M.x g c)
  obtain ⟨bd', psi', ks'⟩ := solves_of_flux (hS'.flux fun g c => d c * emits P'.M.x g c)
  have hq' : ∀ g < P'.M.x.mat.G, ∀ c < P'.M.x.N, 0 ≤ d c * emits P'.M.x g c := by
    intro g hg c hc
    rw [hG] at hg
    rw [hN] at hc
    exact mul_nonneg (h0 c hc) ((hd.emits g hg c hc).trans (he g hg c hc))
  have hM' : More (P.sourced fun g c => d c * emits P.M.x g c) (P'.sourced fun g c => d c * emits P'.M.x g c) :=
    ⟨hM.groups, hM.cells, hM.dirs, fun g hg c hc => mul_le_mul_of_nonneg_left (he g hg c hc) (h0 c hc), hM.couple, hM.sides⟩
  have cmp := C132_more (sourced_ok ok _) (sourced_damped hD _) (sourced_ok ok' _) (sourced_damped hD' _) hM'
    (sourced_given hb' hq') ks ks'
  have pos := C132_positive_partial (sourced_ok ok _) (sourced_damped hD _) (sourced_given hb fun g hg c hc =>
    mul_nonneg (h0 c hc) (hd.emits g hg c hc)) ks
  refine sum_le_sum fun g hg => ?_
  have hg := mem_range.1 hg
  have p0 := (pos g hg c hc).1
  exact mul_le_mul (cmp g hg c hc).1 (hm g hg c hc) (hd.makes g hg c hc) (p0.trans (cmp g hg c hc).1)

/-- So no multiplication factor of the first exceeds that of the second. -/
theorem C133_flux_more [Nonempty F] {P' : Prob F K} {u' : Nat → K} {th' : K} {S' : (Nat → Nat → K) → Nat → Nat → K}
    (ok : OK P w Sol) (hD : Damped (P.sourced fun _ _ => 0) w Sol sig u m th) (hb : Bare P) (hS : Exactly P w Sol S)
    (hd : Data P.M.x) (ok' : OK P' w Sol) (hD' : Damped (P'.sourced fun _ _ => 0) w Sol sig u' m th') (hb' : Bare P')
    (hS' : Exactly P' w Sol S') (hd' : Data P'.M.x) (hM : More (P.sourced fun _ _ => 0) (P'.sourced fun _ _ => 0))
    (he : ∀ g < P.M.x.mat.G, ∀ c < P.M.x.N, emits P.M.x g c ≤ emits P'.M.x g c)
    (hm : ∀ g < P.M.x.mat.G, ∀ c < P.M.x.N, makes P.M.x g c ≤ makes P'.M.x g c) {k k' : K} (hk : k ≠ 0) (hk' : k' ≠ 0)
    {phi phi' : Nat → Nat → K} (h : Eigen P w Sol k phi) (hne : ∃ c < P.M.x.N, P.dens phi c ≠ 0) (h' : Eigen P' w Sol k' phi')
    (hp' : ∀ c, Fissile P'.M.x c → 0 < P'.dens phi' c) : |k| ≤ k' := by
  have hG : P'.M.x.mat.G = P.M.x.mat.G := hM.groups
  have hN : P'.M.x.N = P.M.x.N := hM.cells
  refine EigenPI.C133_more (C133_flux_solver ok hD hb hS) hd (C133_flux_solver ok' hD' hb' hS') hd' hN
    (C133_flux_below ok hD hb hS hd ok' hD' hb' hS' hM he hm) ?_ (C133_eigen_mode ok hD hb hS hk h) hk hne
    (C133_eigen_mode ok' hD' hb' hS' hk' h') hk' hp'
  rintro c ⟨hc, g, hg, hn⟩
  refine ⟨by rw [hN]; exact hc, g, by rw [hG]; exact hg, ?_⟩
  have := lt_of_le_of_ne (hd.makes g hg c hc) (Ne.symm hn)
  exact (this.trans_le (hm g hg c hc)).ne'

/-! ## Where fissions are felt -/

/-- What enters is not negative. -/
theorem entering_nonneg (ok : OK P w Sol) (hD : Damped P w Sol sig u m th) (h : Given P) {phi : Nat → Nat → K}
    {bd : Nat → Bd F} {psi : Nat → Nat → Nat → Nat → K} (hs : Solves P w Sol phi bd psi) : ∀ g < P.M.x.mat.G,
    ∀ side < 2 * (P.W g).dim, ∀ o < 2 ^ (P.W g).dim, Enters side o → ∀ a < (P.W g).na, ∀ i j, InFace (P.W g) side i j →
    0 ≤ (P.W g).get (bd g side o a) i j := by
  obtain ⟨z, hz, hsub⟩ := floor_sub ok hD (given_floor (sig := sig) (m := m) h)
  intro g hg side hsd o ho he a ha i j hi
  have hlv : ∀ o < 2 ^ (P.W g).dim, (P.W g).bc side = .reflect → ¬ Enters side o → 0 ≤ (P.W g).get (bd g side o a) i j := by
    intro o ho hr he
    have := (sub_le_super ok hD hsub.eqs (fun g hg => (solution_both ok hD.uniform hg (hs g hg)).2.1)
      (fun g hg => hsub.sides g hg _ (solution_both ok hD.uniform hg (hs g hg)).2.2) g hg).1.2 side hsd hr o ho he a
        ha i j hi
    rw [hz g hg, mul_zero, zero_mul, zero_sub] at this
    linarith
  cases hb : (P.W g).bc side with
  | periodic => exact absurd hb (ok.np g hg side hsd)
  | vacuum => exact ((hs g hg).vacuum side hsd hb o ho he a ha i j hi).ge
  | reflect =>
    obtain ⟨m1, m2, _, m4⟩ := WGReflect.mir_facts (P.W g).dim (ok.sw g hg).d1 (ok.sw g hg).d3 side hsd o ho
    have := (hs g hg).reflect side hsd hb o ho he _ m2 a ha i j hi
    have h2 := hlv _ m1 hb fun k => (m4.1 k) he
    linarith
  | fixed ps =>
    obtain ⟨io, hl, hio⟩ := Boundary.C67_set_covers (P.W g).dim (ok.sw g hg).d1 (ok.sw g hg).d3 side hsd o ho he
    rw [(hs g hg).given side hsd ps hb o ho io hio a ha i j hi]
    exact h.sides g hg side hsd ps hb io hl a ha i j hi

/-- A cell with some source of a group has flux of that group wherever it is seen. -/
theorem lit (ok : OK P w Sol) (hD : Damped P w Sol sig u m th) (hw : ∀ g < P.M.x.mat.G, ∀ a < (P.W g).na, 0 < w a)
    (h : Given P) {phi : Nat → Nat → K} {bd : Nat → Bd F} {psi : Nat → Nat → Nat → Nat → K} (hs : Solves P w Sol phi bd psi)
    {g c' c : Nat} (hg : g < P.M.x.mat.G) (hc : c < P.M.x.N) (hL : Lights (P.W g) (Sol g) c' c)
    (hq : 0 < P.M.source phi g c') : 0 < phi g c := by
  obtain ⟨o, ho, hl⟩ := hL
  have pos := C132_positive_partial ok hD h hs
  have hm := hD.mpos hg
  have e : ∀ a < (P.W g).na, ∀ i, P.src phi g o a i = P.M.source phi g i * m := by
    intro a ha i
    unfold Prob.src
    rw [hD.uniform.mtod g hg o ho a ha, hD.uniform.disc g hg, List.map_nil, List.sum_nil, add_zero]
  have hsrc : ∀ i < P.M.x.N, 0 ≤ P.M.source phi g i := by
    intro i hi
    rw [source_couple]
    exact add_nonneg (h.q g hg i hi) (sum_nonneg fun gp hgp =>
      mul_nonneg (hD.couple g hg gp (mem_range.1 hgp) i hi) (pos gp (mem_range.1 hgp) i hi).1)
  have hp : ∀ a < (P.W g).na, 0 < psi g o a c := by
    intro a ha
    refine hl a ha _ _ _ ((hs g hg).cells o ho a ha) (fun i hi => ?_)
      (fun side hsd he i j hij => entering_nonneg ok hD h hs g hg side hsd o ho he a ha i j hij) ?_
    · rw [e a ha]
      rw [ok.cells g] at hi
      exact mul_nonneg (hsrc i hi) hm.le
    · rw [e a ha]
      exact mul_pos hq hm
  have hna : 0 < (P.W g).na := by
    by_contra hn
    have := hD.uniform.norm g hg
    rw [Nat.eq_zero_of_not_pos hn] at this
    simp at this
  have hf := (hs g hg).flux c (by rw [ok.cells g]; exact hc)
  rw [add_zero] at hf
  rw [hf]
  refine Finset.sum_pos' (fun o' ho' => sum_nonneg fun a ha => mul_nonneg (hw g hg a (mem_range.1 ha)).le
    ((pos g hg c hc).2 o' (mem_range.1 ho') a (mem_range.1 ha))) ⟨o, mem_range.2 ho, ?_⟩
  exact Finset.sum_pos (fun a ha => mul_pos (hw g hg a (mem_range.1 ha)) (hp a (mem_range.1 ha))) ⟨0, mem_range.2 hna⟩

/-- Flux of group `x.1` in cell `x.2` causes flux of group `y.1` in cell `y.2`: neutrons scatter into the group there, and
    their sources are seen here. -/
def Feeds (P : Prob F K) (Sol : Nat → (Nat → K) → Nat → Nat → (Nat → F) → (Nat → K) → Prop) (x y : Nat × Nat) : Prop :=
  y.1 < P.M.x.mat.G ∧ y.2 < P.M.x.N ∧ 0 < couple (P.sourced fun _ _ => 0).M y.1 x.1 x.2 ∧ Lights (P.W y.1) (Sol y.1) x.2 y.2

/-- Neutrons from any fissile cell reach any other and make fissions there. -/
def Reaches (P : Prob F K) (Sol : Nat → (Nat → K) → Nat → Nat → (Nat → F) → (Nat → K) → Prop) : Prop :=
  ∀ c, Fissile P.M.x c → ∀ c', Fissile P.M.x c' → ∃ g < P.M.x.mat.G, emits P.M.x g c ≠ 0 ∧ ∃ i < P.M.x.N,
    Lights (P.W g) (Sol g) c i ∧ ∃ g' < P.M.x.mat.G, makes P.M.x g' c' ≠ 0 ∧ Relation.ReflTransGen (Feeds P Sol) (g, i) (g', c')

/-- Then fissions in one fissile cell make fissions in every other. -/
theorem C133_flux_mixing [Nonempty F] (ok : OK P w Sol) (hD : Damped (P.sourced fun _ _ => 0) w Sol sig u m th) (hb : Bare P)
    (hS : Exactly P w Sol S) (hd : Data P.M.x) (hw : ∀ g < P.M.x.mat.G, ∀ a < (P.W g).na, 0 < w a) (hR : Reaches P Sol) :
    Mixing P.M.x S := by
  intro c hc c' hc'
  obtain ⟨g, hg, he, i, hi, hL, g', hg', hm, hr⟩ := hR c hc c' hc'
  set q : Nat → Nat → K := fun g i => (if i = c then 1 else 0) * emits P.M.x g i with hq
  have hq0 : ∀ g < P.M.x.mat.G, ∀ i < P.M.x.N, 0 ≤ q g i := fun g hg i hi =>
    mul_nonneg (by split <;> norm_num) (hd.emits g hg i hi)
  obtain ⟨bd, psi, ks⟩ := solves_of_flux (hS.flux q)
  have okq := sourced_ok ok q
  have hDq := sourced_damped hD q
  have hgv := sourced_given (P := P) hb hq0
  have pos := C132_positive_partial okq hDq hgv ks
  have base : 0 < S q g i := by
    refine lit okq hDq hw hgv ks hg hi hL ?_
    rw [source_couple]
    refine add_pos_of_pos_of_nonneg ?_ (sum_nonneg fun gp hgp =>
      mul_nonneg (hDq.couple g hg gp (mem_range.1 hgp) c hc.1) (pos gp (mem_range.1 hgp) c hc.1).1)
    change 0 < (if c = c then 1 else 0) * emits P.M.x g c
    rw [if_pos rfl, one_mul]
    exact lt_of_le_of_ne (hd.emits g hg c hc.1) (Ne.symm he)
  have all : ∀ y, Relation.ReflTransGen (Feeds P Sol) (g, i) y → y.1 < P.M.x.mat.G ∧ y.2 < P.M.x.N ∧ 0 < S q y.1 y.2 := by
    intro y hy
    induction hy with
    | refl => exact ⟨hg, hi, base⟩
    | @tail y z _ hz ih =>
      obtain ⟨z1, z2, z3, z4⟩ := hz
      refine ⟨z1, z2, lit okq hDq hw hgv ks z1 z2 z4 ?_⟩
      rw [source_couple]
      refine add_pos_of_nonneg_of_pos (hq0 z.1 z1 y.2 ih.2.1) ?_
      refine Finset.sum_pos' (fun gp hgp => mul_nonneg (hDq.couple z.1 z1 gp (mem_range.1 hgp) y.2 ih.2.1)
        (pos gp (mem_range.1 hgp) y.2 ih.2.1).1) ⟨y.1, mem_range.2 ih.1, mul_pos z3 ih.2.2⟩
  rw [fop_eq _ _ _ hc'.1]
  refine Finset.sum_pos' (fun gp hgp => mul_nonneg (pos gp (mem_range.1 hgp) c' hc'.1).1
    (hd.makes gp (mem_range.1 hgp) c' hc'.1)) ⟨g', mem_range.2 hg', ?_⟩
  exact mul_pos (all _ hr).2.2 (lt_of_le_of_ne (hd.makes g' hg' c' hc'.1) (Ne.symm hm))

/-- Everything C134 assumes. -/
theorem C134_transport [Nonempty F] (ok : OK P w Sol) (hD : Damped (P.sourced fun _ _ => 0) w Sol sig u m th) (hb : Bare P)
    (hS : Exactly P w Sol S) (hd : Data P.M.x) (hw : ∀ g < P.M.x.mat.G, ∀ a < (P.W g).na, 0 < w a) (hR : Reaches P Sol)
    (hs : Seeded P.M.x) (n : Nat) (tol : K) : Sound (power P S n tol) S where
  exact := power_exact ok hD hb hS n tol
  solver := C133_flux_solver ok hD hb hS
  data := hd
  mixing := C133_flux_mixing ok hD hb hS hd hw hR
  seeded := hs
  unrelaxed := rfl

/-! ## Sweeps in which every cell sees every other -/

/-- Group `g'` is fed by group `g` in some cell. -/
def Downs (P : Prob F K) (g g' : Nat) : Prop :=
  g' < P.M.x.mat.G ∧ ∃ c < P.M.x.N, 0 < couple (P.sourced fun _ _ => 0).M g' g c

/-- Neutrons are born in some group from which some group that fissions is reached by scattering. -/
def Linked (P : Prob F K) : Prop := ∀ c, Fissile P.M.x c → ∀ c', Fissile P.M.x c' → ∃ g < P.M.x.mat.G, emits P.M.x g c ≠ 0 ∧
  ∃ g' < P.M.x.mat.G, makes P.M.x g' c' ≠ 0 ∧ Relation.ReflTransGen (Downs P) g g'

theorem reaches_of_linked (hL : ∀ g < P.M.x.mat.G, ∀ c < P.M.x.N, ∀ c' < P.M.x.N, Lights (P.W g) (Sol g) c c')
    (h : Linked P) : Reaches P Sol := by
  intro c hc c' hc'
  obtain ⟨g, hg, he, g', hg', hm, hr⟩ := h c hc c' hc'
  -- walk the groups, choosing the cell in which the next one is fed
  have walk : ∀ y, Relation.ReflTransGen (Downs P) g y → ∀ j < P.M.x.N, ∃ i < P.M.x.N, Lights (P.W g) (Sol g) c i ∧
      Relation.ReflTransGen (Feeds P Sol) (g, i) (y, j) := by
    intro y hy
    induction hy with
    | refl => exact fun j hj => ⟨j, hj, hL g hg c hc.1 j hj, Relation.ReflTransGen.refl⟩
    | @tail y z _ hz ih =>
      intro j hj
      obtain ⟨z1, c1, hc1, z2⟩ := hz
      obtain ⟨i, hi, l, r⟩ := ih c1 hc1
      exact ⟨i, hi, l, r.tail ⟨z1, hj, z2, hL z z1 c1 hc1 j hj⟩⟩
  obtain ⟨i, hi, l, r⟩ := walk g' hr c' hc'.1
  exact ⟨g, hg, he, i, hi, l, g', hg', hm, r⟩

/-- Sweeps in which a source is seen at least in its own cell and in cells that touch it, and in which every cell scatters within
    every group. -/
theorem reaches_of_near (Nb : Nat → Nat → Prop) (hN : ∀ c < P.M.x.N, ∀ c' < P.M.x.N, Relation.ReflTransGen
      (fun a b => Nb a b ∧ a < P.M.x.N ∧ b < P.M.x.N) c c')
    (h1 : ∀ g < P.M.x.mat.G, ∀ c < P.M.x.N, Lights (P.W g) (Sol g) c c)
    (h2 : ∀ g < P.M.x.mat.G, ∀ c < P.M.x.N, ∀ c' < P.M.x.N, Nb c c' → Lights (P.W g) (Sol g) c c')
    (hs : ∀ g < P.M.x.mat.G, ∀ c < P.M.x.N, 0 < couple (P.sourced fun _ _ => 0).M g g c) (h : Linked P) : Reaches P Sol := by
  intro c hc c' hc'
  obtain ⟨g, hg, he, g', hg', hm, hr⟩ := h c hc c' hc'
  have move : ∀ y < P.M.x.mat.G, ∀ i < P.M.x.N, ∀ j < P.M.x.N, Relation.ReflTransGen (Feeds P Sol) (y, i) (y, j) := by
    intro y hy i hi j hj
    have := hN i hi j hj
    induction this with
    | refl => exact Relation.ReflTransGen.refl
    | @tail a b _ hab ih => exact (ih hab.2.1).tail ⟨hy, hab.2.2, hs y hy a hab.2.1, h2 y hy a hab.2.1 b hab.2.2 hab.1⟩
  have walk : ∀ y, Relation.ReflTransGen (Downs P) g y → y < P.M.x.mat.G ∧ ∀ j < P.M.x.N,
      Relation.ReflTransGen (Feeds P Sol) (g, c) (y, j) := by
    intro y hy
    induction hy with
    | refl => exact ⟨hg, fun j hj => move g hg c hc.1 j hj⟩
    | @tail y z _ hz ih =>
      obtain ⟨z1, c1, hc1, z2⟩ := hz
      exact ⟨z1, fun j hj => ((ih.2 c1 hc1).tail ⟨z1, hc1, z2, h1 z z1 c1 hc1⟩).trans (move z z1 c1 hc1 j hj)⟩
  exact ⟨g, hg, he, c, hc.1, h1 g hg c hc.1, g', hg', hm, (walk g' hr).2 c' hc'.1⟩

end main

/-! ## Power iteration finds the multiplication factor -/

/-- There is a multiplication factor `k` with fluxes that make fissions in every fissile cell.  No other factor exceeds it, and none
    but `k` has such fluxes.  Power iteration with the exact fluxes of each fission source, from any flux, for all small tolerances and enough
    iterations, ends without a warning, within a multiple of the tolerance of `k`. -/
def Multiplies {F K : Type} [Field K] [LinearOrder K] [IsStrictOrderedRing K] (P : Prob F K) (w : Nat → K)
    (Sol : Nat → (Nat → K) → Nat → Nat → (Nat → F) → (Nat → K) → Prop) : Prop :=
  ∃ S, Exactly P w Sol S ∧ ∃ k > 0, (∃ phi, Eigen P w Sol k phi ∧ ∀ c, Fissile P.M.x c → 0 < P.dens phi c) ∧
    (∀ k' phi', k' ≠ 0 → Eigen P w Sol k' phi' → (∃ c < P.M.x.N, P.dens phi' c ≠ 0) → |k'| ≤ k) ∧
    (∀ k' phi', 0 < k' → Eigen P w Sol k' phi' → (∀ c, Fissile P.M.x c → 0 < P.dens phi' c) → k' = k) ∧
    ∀ phi0, ∃ C > 0, ∃ t0 > 0, ∀ tol, 0 < tol → tol ≤ t0 → ∃ n0, ∀ n, n0 ≤ n → ∃ r,
      (power P S n tol).run phi0 = some r ∧ r.warned = false ∧ |r.keff - k| ≤ C * tol

theorem multiplies {F : Type} {P : Prob F ℝ} {w V : Nat → ℝ} {Sol : Nat → (Nat → ℝ) → Nat → Nat → (Nat → F) → (Nat → ℝ) → Prop}
    {sig : Nat → Nat → ℝ} {u : Nat → ℝ} {m th : ℝ} {fw : Nat → Nat → Nat → Nat → Nat → ℝ} (z : F) (ok : OK P w Sol)
    (hD : Damped (P.sourced fun _ _ => 0) w Sol sig u m th) (hb : Bare P) (hd : Data P.M.x)
    (hw : ∀ g < P.M.x.mat.G, ∀ a < (P.W g).na, 0 < w a) (hV : ∀ c < P.M.x.N, 0 < V c)
    (hs : ∀ g < P.M.x.mat.G, ∀ c < P.M.x.N, 0 < sig g c) (D : AllDissipate P Sol V sig fw) (hR : Reaches P Sol)
    (hx : Seeded P.M.x) : Multiplies P w Sol := by
  haveI : Nonempty F := ⟨z⟩
  obtain ⟨S, hS⟩ := C133_fluxes ok hD hw hV hs D z
  have sound := fun n tol => C134_transport ok hD hb hS hd hw hR hx n tol
  have hF : ∃ c, Fissile P.M.x c := by
    obtain ⟨c, h, _⟩ := hx
    exact ⟨c, h⟩
  obtain ⟨k, k0, d, hm, hp⟩ := EigenPI.C133_exists (sound 0 0).solver hd (sound 0 0).mixing hF
  obtain ⟨e1, e2⟩ := C133_mode_eigen ok hD hb hS k0.ne' hm
  refine ⟨S, hS, k, k0, ⟨_, e1, fun c hc => ?_⟩, fun k' phi' h0 h' hne => ?_, fun k' phi' h0 h' hp' => ?_, fun phi0 => ?_⟩
  · rw [e2 c hc.1]
    exact hp c hc
  · exact EigenPI.C133_dominant (sound 0 0).solver hd hm k0.ne' hp (C133_eigen_mode ok hD hb hS h0 h') h0 hne
  · exact EigenPI.C133_one (sound 0 0).solver hd (C133_eigen_mode ok hD hb hS h0.ne' h') h0 hp' hm k0 hp hF
  · exact EigenPI.C134_returned (sound 0 0) phi0 hm k0 hp

section geom
open Detran.Sweep (Solves1 Solves2 dd1 sd1 sc1 sd2 sc2)
open Detran.WGReflect (strict_sd1 strict_dd1 strict_sc1 strict_sd2 touch_of_strict touch_sc2 lights1 lights2 touches2 Strict1
  Strict2 Touch2 attenuates_exp dissipates1 dissipates2 cell_dd1 cell_sd1 cell_sc1 cell_sd2 cell_sc2 exp_ok)

/-- The part of a problem that the fluxes of a source see. -/
def scatters {K : Type} [Field K] (M : MGSolve.Prob K) : MGSolve.Prob K := { M with implicit := false, q := fun _ _ => 0 }

/-- 1-D: the positive schemes in any mixture, any order of scattering between groups, vacuum or reflecting sides. -/
theorem C134_slab (M : MGSolve.Prob ℝ) (hM : M.OK) (mu w dx : Nat → ℝ) (sig : Nat → Nat → ℝ) (u : Nat → ℝ)
    (m th : ℝ) (hT : Tame (scatters M) sig u th) (hN : 0 < M.x.N) (na : Nat) (up : Bool) (bc : Nat → Nat → BC ℝ)
    (order : List Nat) (hord : order.Perm (List.range 2)) (sch : Nat → Nat → Nat → ℝ → ℝ → ℝ × ℝ)
    (hsch : ∀ g a i, sch g a i = dd1 (mu a) (dx i) (sig g i) ∧ sig g i * dx i < 2 * mu a ∨
      sch g a i = sd1 (mu a) (dx i) (sig g i) ∨ sch g a i = sc1 Real.exp (mu a) (dx i) (sig g i))
    (hmu : ∀ a < na, 0 < mu a) (hw : ∀ a < na, 0 < w a) (hm : m * ∑ _o ∈ range 2, ∑ a ∈ range na, w a = 1)
    (hdx : ∀ i < M.x.N, 0 < dx i) (hr : ∀ g s, bc g s = .reflect ↔ bc 0 s = .reflect)
    (hb : ∀ g s, bc g s = .vacuum ∨ bc g s = .reflect) (hd : Data M.x) (hx : Seeded M.x)
    (hL : Linked (mg1 M sch w M.x.N na up bc order (fun _ _ => m) (fun _ => []))) :
    Multiplies (mg1 M sch w M.x.N na up bc order (fun _ _ => m) (fun _ => [])) w
      (fun g q o a b p => Solves1 M.x.N (fun i => sch g a i (q i)) o b p) := by
  have hp : ∀ g, ∀ s < 2, bc g s ≠ .periodic := fun g s _ h => by
    rcases hb g s with e | e <;> rw [e] at h <;> cases h
  have hsch' : ∀ g a i, sch g a i = dd1 (mu a) (dx i) (sig g i) ∧ sig g i * dx i ≤ 2 * mu a ∨
      sch g a i = sd1 (mu a) (dx i) (sig g i) ∨ sch g a i = sc1 Real.exp (mu a) (dx i) (sig g i) := fun g a i =>
    (hsch g a i).imp_left fun h => ⟨h.1, h.2.le⟩
  have hM0 : (scatters M).OK := ⟨hM.fin, hM.nn, hM.map, hM.add, hM.loc⟩
  obtain ⟨_, hD⟩ := C132_1D (scatters M) hM0 Real.exp attenuates_exp mu w dx sig u m th hT hN na up bc order hord sch hsch' hmu
    (fun a ha => (hw a ha).le) hm hdx hr hp
  have ok : OK (mg1 M sch w M.x.N na up bc order (fun _ _ => m) (fun _ => [])) w
      (fun g q o a b p => Solves1 M.x.N (fun i => sch g a i (q i)) o b p) := by
    have lin : ∀ g a i, Sweep.LinEq1 (sch g a i) := fun g a i => by
      obtain ⟨l1, l2, l3, _⟩ := Sweep.C27_schemes_linear Real.exp (mu a) 0 0 (dx i) 0 0 (sig g i)
      rcases hsch g a i with e | e | e
      · rw [e.1]; exact l1
      · rw [e]; exact l2
      · rw [e]; exact l3
    exact C125_ok1 M hM sch lin w na up bc order hord _ _ hr hp
  refine multiplies (V := dx) (fw := fun _ _ a _ _ => mu a / 2) 0 ok hD (fun g _ s _ => hb g s) hd (fun _ _ => hw) hdx hT.tot
    (fun g hg => dissipates1 (sch g) w M.x.N na up (bc g) order _ _ _ _ dx (sig g) (fun a => mu a / 2)
      (fun a ha => half_pos (hmu a ha)) ?_) (reaches_of_linked (fun g hg c hc c' hc' => ?_) hL) hx
  · intro a ha i hi
    have h1 := hmu a ha
    have h2 := hdx i hi
    have h3 := hT.tot g hg i hi
    rcases hsch g a i with e | e | e
    · rw [e.1]; exact cell_dd1 _ _ _ h1 h2 h3
    · rw [e]; exact cell_sd1 _ _ _ h1 h2 h3
    · obtain ⟨k1, k2⟩ := exp_ok (sig g i * dx i / mu a) (by positivity)
      rw [e]; exact cell_sc1 Real.exp _ _ _ h1 h2 h3 k1 k2
  · refine lights1 (sch g) w M.x.N na up (bc g) order _ _ _ _ (fun a ha i hi => ?_) c c' hc hc'
    have h1 := hmu a ha
    have h2 := hdx i hi
    have h3 := hT.tot g hg i hi
    rcases hsch g a i with e | e | e
    · rw [e.1]; exact strict_dd1 _ _ _ h1 h2 h3 e.2
    · rw [e]; exact strict_sd1 _ _ _ h1 h2 h3
    · rw [e]; exact strict_sc1 Real.exp attenuates_exp (fun t _ => Real.exp_pos _) _ _ _ h1 h2 h3

/-- Cells of a rectangle that share a side. -/
def Beside (nx : Nat) (c c' : Nat) : Prop := ∃ i j i' j', i < nx ∧ i' < nx ∧ c = i + j * nx ∧ c' = i' + j' * nx ∧
  (j' = j ∧ (i' = i + 1 ∨ i = i' + 1) ∨ i' = i ∧ (j' = j + 1 ∨ j = j' + 1))

theorem beside_all (nx ny : Nat) (hx0 : 0 < nx) : ∀ c < nx * ny, ∀ c' < nx * ny, Relation.ReflTransGen
    (fun a b => Beside nx a b ∧ a < nx * ny ∧ b < nx * ny) c c' := by
  have right : ∀ j < ny, ∀ i k, i + k < nx → Relation.ReflTransGen (fun a b => Beside nx a b ∧ a < nx * ny ∧ b < nx * ny)
      (i + j * nx) (i + k + j * nx) ∧ Relation.ReflTransGen (fun a b => Beside nx a b ∧ a < nx * ny ∧ b < nx * ny)
      (i + k + j * nx) (i + j * nx) := by
    intro j hj i k
    induction k with
    | zero => exact fun _ => ⟨Relation.ReflTransGen.refl, Relation.ReflTransGen.refl⟩
    | succ k ih =>
      intro hk
      obtain ⟨a, b⟩ := ih (by omega)
      have l1 := WGReflect.cell2_lt (show i + k < nx by omega) hj
      have l2 := WGReflect.cell2_lt (show i + (k + 1) < nx by omega) hj
      exact ⟨a.tail ⟨⟨i + k, j, i + (k + 1), j, by omega, by omega, rfl, rfl, Or.inl ⟨rfl, Or.inl rfl⟩⟩, l1, l2⟩,
        b.head ⟨⟨i + (k + 1), j, i + k, j, by omega, by omega, rfl, rfl, Or.inl ⟨rfl, Or.inr rfl⟩⟩, l2, l1⟩⟩
  have upward : ∀ i < nx, ∀ j k, j + k < ny → Relation.ReflTransGen (fun a b => Beside nx a b ∧ a < nx * ny ∧ b < nx * ny)
      (i + j * nx) (i + (j + k) * nx) ∧ Relation.ReflTransGen (fun a b => Beside nx a b ∧ a < nx * ny ∧ b < nx * ny)
      (i + (j + k) * nx) (i + j * nx) := by
    intro i hi j k
    induction k with
    | zero => exact fun _ => ⟨Relation.ReflTransGen.refl, Relation.ReflTransGen.refl⟩
    | succ k ih =>
      intro hk
      obtain ⟨a, b⟩ := ih (by omega)
      have l1 := WGReflect.cell2_lt hi (show j + k < ny by omega)
      have l2 := WGReflect.cell2_lt hi (show j + (k + 1) < ny by omega)
      exact ⟨a.tail ⟨⟨i, j + k, i, j + (k + 1), by omega, by omega, rfl, rfl, Or.inr ⟨rfl, Or.inl rfl⟩⟩, l1, l2⟩,
        b.head ⟨⟨i, j + (k + 1), i, j + k, by omega, by omega, rfl, rfl, Or.inr ⟨rfl, Or.inr rfl⟩⟩, l2, l1⟩⟩
  intro c hc c' hc'
  have e : ∀ c, c % nx + c / nx * nx = c := fun c => by rw [mul_comm]; exact Nat.mod_add_div c nx
  have hi := Nat.mod_lt c hx0
  have hj : c / nx < ny := Nat.div_lt_of_lt_mul hc
  have hi' := Nat.mod_lt c' hx0
  have hj' : c' / nx < ny := Nat.div_lt_of_lt_mul hc'
  have s1 : Relation.ReflTransGen (fun a b => Beside nx a b ∧ a < nx * ny ∧ b < nx * ny) c (c' % nx + c / nx * nx) := by
    have h := e c
    rcases le_total (c % nx) (c' % nx) with l | l
    · have := (right _ hj (c % nx) (c' % nx - c % nx) (by omega)).1
      rwa [Nat.add_sub_cancel' l, h] at this
    · have := (right _ hj (c' % nx) (c % nx - c' % nx) (by omega)).2
      rwa [Nat.add_sub_cancel' l, h] at this
  refine s1.trans ?_
  have h := e c'
  rcases le_total (c / nx) (c' / nx) with l | l
  · have := (upward _ hi' (c / nx) (c' / nx - c / nx) (by omega)).1
    rwa [Nat.add_sub_cancel' l, h] at this
  · have := (upward _ hi' (c' / nx) (c / nx - c' / nx) (by omega)).2
    rwa [Nat.add_sub_cancel' l, h] at this

/-- 2-D: step differencing everywhere; or step differencing and step characteristics in any mixture where every cell scatters
    within every group. -/
theorem C134_rectangle (M : MGSolve.Prob ℝ) (hM : M.OK) (mu eta w dx dy : Nat → ℝ) (sig : Nat → Nat → ℝ) (u : Nat → ℝ)
    (m th : ℝ) (hT : Tame (scatters M) sig u th) (nx ny na : Nat) (hx0 : 0 < nx) (hy0 : 0 < ny) (hN : nx * ny = M.x.N) (up : Bool)
    (bc : Nat → Nat → BC (Nat → ℝ)) (order : List Nat) (hord : order.Perm (List.range 4))
    (sch : Nat → Nat → Nat → Nat → ℝ → ℝ × ℝ → ℝ × (ℝ × ℝ))
    (hsch : ∀ g a i j, sch g a i j = sd2 (mu a) (eta a) (dx i) (dy j) (sig g (i + j * nx)) ∨
      sch g a i j = sc2 Real.exp (mu a) (eta a) (dx i) (dy j) (sig g (i + j * nx)))
    (hself : (∀ g a i j, sch g a i j = sd2 (mu a) (eta a) (dx i) (dy j) (sig g (i + j * nx))) ∨
      ∀ g < M.x.mat.G, ∀ c < M.x.N, 0 < couple (scatters M) g g c)
    (hmu : ∀ a < na, 0 < mu a) (heta : ∀ a < na, 0 < eta a) (hw : ∀ a < na, 0 < w a)
    (hm : m * ∑ _o ∈ range 4, ∑ a ∈ range na, w a = 1) (hdx : ∀ i < nx, 0 < dx i) (hdy : ∀ j < ny, 0 < dy j)
    (hr : ∀ g s, bc g s = .reflect ↔ bc 0 s = .reflect) (hb : ∀ g s, bc g s = .vacuum ∨ bc g s = .reflect) (hd : Data M.x)
    (hx : Seeded M.x) (hL : Linked (mg2 M sch w nx ny na up bc order (fun _ _ => m) (fun _ => []))) :
    Multiplies (mg2 M sch w nx ny na up bc order (fun _ _ => m) (fun _ => [])) w
      (fun g q o a b p => Solves2 nx ny (fun i j => sch g a i j (q (i + j * nx))) o b p) := by
  have hp : ∀ g, ∀ s < 4, bc g s ≠ .periodic := fun g s _ h => by
    rcases hb g s with e | e <;> rw [e] at h <;> cases h
  have hM0 : (scatters M).OK := ⟨hM.fin, hM.nn, hM.map, hM.add, hM.loc⟩
  obtain ⟨_, hD⟩ := C132_2D (scatters M) hM0 Real.exp attenuates_exp mu eta w dx dy sig u m th hT nx ny na hx0 hy0 hN up bc order
    hord sch hsch hmu heta (fun a ha => (hw a ha).le) hm hdx hdy hr hp
  have ok : OK (mg2 M sch w nx ny na up bc order (fun _ _ => m) (fun _ => [])) w
      (fun g q o a b p => Solves2 nx ny (fun i j => sch g a i j (q (i + j * nx))) o b p) := by
    have lin : ∀ g a i j, Sweep.LinEq2 (sch g a i j) := fun g a i j => by
      obtain ⟨_, _, _, _, l2, l3, _⟩ := Sweep.C27_schemes_linear Real.exp (mu a) (eta a) 0 (dx i) (dy j) 0 (sig g (i + j * nx))
      rcases hsch g a i j with e | e
      · rw [e]; exact l2
      · rw [e]; exact l3
    exact C125_ok2 M hM sch lin w nx ny na up hN bc order hord _ _ hr hp
  have vol : ∀ i j, i < nx → dx ((i + j * nx) % nx) * dy ((i + j * nx) / nx) = dx i * dy j := fun i j hi => by
    rw [Nat.add_mul_mod_self_right, Nat.mod_eq_of_lt hi, Nat.add_mul_div_right _ _ hx0,
      Nat.div_eq_of_lt hi, Nat.zero_add]
  have ec : ∀ c, c % nx + c / nx * nx = c := fun c => by rw [mul_comm]; exact Nat.mod_add_div c nx
  have split : ∀ c < M.x.N, c % nx < nx ∧ c / nx < ny := fun c hc =>
    ⟨Nat.mod_lt _ hx0, Nat.div_lt_of_lt_mul (by rw [hN]; exact hc)⟩
  have touch : ∀ g < M.x.mat.G, ∀ a < na, ∀ i < nx, ∀ j < ny, Touch2 (sch g a i j) := by
    intro g hg a ha i hi j hj
    have ht := hT.tot g hg (i + j * nx) (by
      show i + j * nx < M.x.N
      rw [← hN]; exact WGReflect.cell2_lt hi hj)
    rcases hsch g a i j with e | e
    · rw [e]; exact touch_of_strict (strict_sd2 _ _ _ _ _ (hmu a ha) (heta a ha) (hdx i hi) (hdy j hj) ht)
    · rw [e]; exact touch_sc2 Real.exp attenuates_exp _ _ _ _ _ (hmu a ha) (heta a ha) (hdx i hi) (hdy j hj) ht
  have hR : Reaches (mg2 M sch w nx ny na up bc order (fun _ _ => m) (fun _ => []))
      (fun g q o a b p => Solves2 nx ny (fun i j => sch g a i j (q (i + j * nx))) o b p) := by
    rcases hself with hsd | hsc
    · refine reaches_of_linked (fun g hg c hc c' hc' => ?_) hL
      obtain ⟨a1, a2⟩ := split c hc
      obtain ⟨b1, b2⟩ := split c' hc'
      have := lights2 (sch g) w nx ny na up (bc g) order (fun _ _ => 0) (fun _ => 0) (fun _ _ => m) [] (fun a ha i hi j hj => by
        rw [hsd g a i j]
        exact strict_sd2 _ _ _ _ _ (hmu a ha) (heta a ha) (hdx i hi) (hdy j hj) (hT.tot g hg (i + j * nx) (by
          show i + j * nx < M.x.N
          rw [← hN]; exact WGReflect.cell2_lt hi hj))) _ _ _ _ a1 a2 b1 b2
      rwa [ec, ec] at this
    · have near := fun g hg i' j' i j hi' hj' hi hj h => touches2 (sch g) w nx ny na up (bc g) order (fun _ _ => 0) (fun _ => 0)
        (fun _ _ => m) [] (touch g hg) i' j' i j hi' hj' hi hj h
      refine reaches_of_near (Beside nx) ?_ (fun g hg c hc => ?_) (fun g hg c hc c' hc' h => ?_) hsc hL
      · have := beside_all nx ny hx0
        rwa [hN] at this
      · obtain ⟨a1, a2⟩ := split c hc
        have := near g hg _ _ _ _ a1 a2 a1 a2 (Or.inl ⟨rfl, rfl⟩)
        rwa [ec] at this
      · obtain ⟨i, j, i', j', hi, hi', e1, e2, h⟩ := h
        have bd : ∀ i j, i + j * nx < M.x.N → j < ny := by
          intro i j h
          rw [← hN, mul_comm nx] at h
          exact lt_of_mul_lt_mul_right ((Nat.le_add_left _ i).trans_lt h) (Nat.zero_le nx)
        have := near g hg i j i' j' hi (bd i j (e1 ▸ hc)) hi' (bd i' j' (e2 ▸ hc')) (Or.inr (by
          rcases h with ⟨h1, h2⟩ | ⟨h1, h2⟩
          · exact Or.inl ⟨h1, h2⟩
          · exact Or.inr ⟨h1, h2⟩))
        rwa [← e1, ← e2] at this
  refine multiplies (V := fun c => dx (c % nx) * dy (c / nx)) (fw := _) (fun _ => 0) ok hD (fun g _ s _ => hb g s) hd
    (fun _ _ => hw) (fun c hc => mul_pos (hdx _ (split c hc).1) (hdy _ (split c hc).2)) hT.tot
    (fun g hg => dissipates2 (sch g) w nx ny na up (bc g) order _ _ _ _ _ (sig g)
      (fun a j => mu a / 2 * dy j) (fun a i => eta a / 2 * dx i)
      (fun a ha j hj => mul_pos (half_pos (hmu a ha)) (hdy j hj))
      (fun a ha i hi => mul_pos (half_pos (heta a ha)) (hdx i hi)) ?_) hR hx
  intro a ha i hi j hj
  rw [vol i j hi]
  have ht := hT.tot g hg (i + j * nx) (by
    show i + j * nx < M.x.N
    rw [← hN]; exact WGReflect.cell2_lt hi hj)
  rcases hsch g a i j with e | e
  · rw [e]; exact cell_sd2 _ _ _ _ _ (hmu a ha) (heta a ha) (hdx i hi) (hdy j hj) ht
  · rw [e]; exact cell_sc2 _ _ _ _ _ (hmu a ha) (heta a ha) (hdx i hi) (hdy j hj) ht

end geom

/-! ## Cases -/

section cases
open Detran.Sweep (Solves1 Solves2 dd1 sd1 sc1 sd2 sc2)
open Detran.WGReflect (dd half zeros half_np gain_dd1 positive1 lights1 strict_dd1)
open Detran.MGSolve (toy toy_ok)

/-- Two groups: neutrons are born in the first, scatter into the second, which fissions; both scatter into themselves. -/
def fuelOps {K : Type} [Field K] : List (Material.Op K) := [.setSigS 0 1 0 (1 / 2), .setSigS 0 0 0 (1 / 8), .setSigS 0 1 1 (1 / 8),
  .setNu 0 1 2, .setSigF 0 1 (3 / 8), .setChi 0 0 1]

theorem fuel_ok : (toy 2 fuelOps false 0 0).OK := by
  refine toy_ok _ _ _ _ _ rfl ?_
  intro g gp m
  simp only [fuelOps, Material.Mat.run, List.foldl_cons, List.foldl_nil, Material.Mat.step, Material.set3, Material.Mat.new]
  split_ifs <;> norm_num

theorem fuel_damped (bc : Nat → BC ℚ) : Damped ((slabB bc 2 fuelOps).sourced fun _ _ => 0) (fun _ => 1 / 2) eqs (fun _ _ => 1)
    (fun _ => 1) 1 (5 / 8) where
  uniform :=
    have h := slabB_uniform bc 2 fuelOps
    ⟨h.mtod, h.norm, h.disc, h.flat⟩
  weight := fun _ _ _ _ => by norm_num
  couple := by
    have : ∀ g < 2, ∀ gp < 2, ∀ c < 1, 0 ≤ couple (scatters (toy 2 fuelOps false 0 0)) g gp c := by decide +kernel
    exact this
  upos := fun _ _ => one_pos
  row := by
    have : ∀ g < 2, ∀ c < 1, ∑ gp ∈ range 2, couple (scatters (toy 2 fuelOps false 0 0)) g gp c * 1 ≤ 5 / 8 * (1 * 1) := by
      decide +kernel
    exact this
  th0 := by norm_num
  less := by norm_num
  gain := fun g _ => positive1 dd _ 1 1 one_pos true bc [1, 0] _ _ _ _ (fun _ => 1) fun a _ i _ => by
    have e1 : dd a i = dd1 1 1 1 := funext fun q => funext fun e => Prod.ext (by unfold dd dd1; ring) (by unfold dd dd1; ring)
    rw [e1]
    exact gain_dd1 1 1 1 one_pos one_pos one_pos (by norm_num)

theorem fuel_data : Data (toy 2 fuelOps false 0 0).x where
  emits := by
    have : ∀ g < 2, ∀ c < 1, 0 ≤ emits (toy 2 fuelOps false 0 0).x g c := by decide +kernel
    exact this
  makes := by
    have : ∀ g < 2, ∀ c < 1, 0 ≤ makes (toy 2 fuelOps false 0 0).x g c := by decide +kernel
    exact this

theorem fuel_fissile : Fissile (toy 2 fuelOps false 0 0).x 0 := ⟨by decide, 1, by decide, by decide +kernel⟩

theorem fuel_seeded : Seeded (toy 2 fuelOps false 0 0).x := ⟨0, fuel_fissile, by decide +kernel⟩

theorem fuel_linked (bc : Nat → BC ℚ) : Linked (slabB bc 2 fuelOps) := by
  rintro c ⟨hc, -⟩ c' ⟨hc', -⟩
  have hc : c < 1 := hc
  have hc' : c' < 1 := hc'
  obtain rfl : c = 0 := by omega
  obtain rfl : c' = 0 := by omega
  have h1 : emits (toy 2 fuelOps false 0 0).x 0 0 ≠ 0 := by decide +kernel
  have h2 : makes (toy 2 fuelOps false 0 0).x 1 0 ≠ 0 := by decide +kernel
  have h3 : 0 < couple (scatters (toy 2 fuelOps false 0 0)) 1 0 0 := by decide +kernel
  exact ⟨0, (by show 0 < 2; decide), h1, 1, (by show 1 < 2; decide), h2,
    Relation.ReflTransGen.single ⟨(by show 1 < 2; decide), 0, (by show 0 < 1; decide), h3⟩⟩

theorem fuel_reaches (bc : Nat → BC ℚ) : Reaches (slabB bc 2 fuelOps) eqs :=
  reaches_of_linked (fun g _ c hc c' hc' => lights1 dd (fun _ => 1 / 2) 1 1 true bc [1, 0] (fun _ _ => 0) (fun _ => 0) (fun _ _ => 1) []
    (fun a _ i _ => by
      have e1 : dd a i = dd1 1 1 1 := funext fun q => funext fun e => Prod.ext (by unfold dd dd1; ring) (by unfold dd dd1; ring)
      rw [e1]
      exact strict_dd1 1 1 1 one_pos one_pos one_pos (by norm_num)) c c' hc hc') (fuel_linked bc)

/-- The solver exists, between any sides without a given flux. -/
theorem fuel_fluxes (bc : Nat → BC ℚ) (hp : ∀ s < 2, bc s ≠ .periodic) : ∃ S, Exactly (slabB bc 2 fuelOps) (fun _ => 1 / 2) eqs S :=
  C133_fluxes (slabB_ok bc hp 2 fuelOps fuel_ok) (fuel_damped bc) (fun _ _ _ _ => by norm_num) (fun _ _ => one_pos)
    (fun _ _ _ _ => one_pos) (slabB_dis bc 2 fuelOps) 0

/-- Power iteration in it is sound. -/
example (S) (h : Exactly (slabB half 2 fuelOps) (fun _ => 1 / 2) eqs S) (n : Nat) (tol : ℚ) :
    Sound (power (slabB half 2 fuelOps) S n tol) S :=
  C134_transport (slabB_ok half half_np 2 fuelOps fuel_ok) (fuel_damped half) (fun g _ s _ => by
    change half s = _ ∨ half s = _
    unfold half
    split <;> simp) h fuel_data (fun _ _ _ _ => by norm_num) (fuel_reaches half) fuel_seeded n tol

/-- Between vacuum sides no multiplication factor exceeds that of the infinite medium, 24/49. -/
example (k : ℚ) (hk : k ≠ 0) (phi : Nat → Nat → ℚ) (h : Eigen (slabB (fun _ => .vacuum) 2 fuelOps) (fun _ => 1 / 2) eqs k phi)
    (hne : phi 1 0 ≠ 0) : |k| ≤ 24 / 49 := by
  obtain ⟨S, hS⟩ := fuel_fluxes (fun _ => .vacuum) (fun _ _ => by simp)
  refine C133_ceiling (slabB_ok _ (fun _ _ => by simp) 2 fuelOps fuel_ok) (fuel_damped _) (fun _ _ _ _ => Or.inl rfl) hS fuel_data hk
    (by norm_num) h ⟨0, by decide, ?_⟩ (fun g => if g = 0 then 7 else 4) (fun g _ => by split <;> norm_num) ?_
  · have e0 : makes (toy 2 fuelOps false 0 0).x 0 0 = 0 := by decide +kernel
    have e1 : makes (toy 2 fuelOps false 0 0).x 1 0 = 3 / 4 := by decide +kernel
    change ∑ g ∈ range 2, makes (toy 2 fuelOps false 0 0).x g 0 * phi g 0 ≠ 0
    rw [sum_range_succ, sum_range_one, e0, e1, zero_mul, zero_add]
    exact mul_ne_zero (by norm_num) hne
  · have : ∀ g < 2, ∀ c < 1, 1 / (24 / 49) * ((∑ gp ∈ range 2, makes (toy 2 fuelOps false 0 0).x gp c *
        (if gp = 0 then 7 else 4)) * emits (toy 2 fuelOps false 0 0).x g c) + ∑ gp ∈ range 2,
        couple (scatters (toy 2 fuelOps false 0 0)) g gp c * (if gp = 0 then 7 else 4) ≤ 1 * (if g = 0 then (7 : ℚ) else 4) := by
      decide +kernel
    exact this

/-- Between mirrors the factor is that one. -/
example (k : ℚ) (hk : 0 < k) (phi : Nat → Nat → ℚ) (h : Eigen (slabB (fun _ => .reflect) 2 fuelOps) (fun _ => 1 / 2) eqs k phi)
    (hp : 0 < (slabB (fun _ => .reflect) 2 fuelOps).dens phi 0) : k = 24 / 49 := by
  obtain ⟨S, hS⟩ := fuel_fluxes (fun _ => .reflect) (fun _ _ => by simp)
  have ok := slabB_ok (fun _ => .reflect) (fun _ _ => by simp) 2 fuelOps fuel_ok
  have e : ∀ g < 2, ∀ c < 1, 1 / (24 / 49) * ((∑ gp ∈ range 2, makes (toy 2 fuelOps false 0 0).x gp c *
        (if gp = 0 then 7 else 4)) * emits (toy 2 fuelOps false 0 0).x g c) + ∑ gp ∈ range 2,
        couple (scatters (toy 2 fuelOps false 0 0)) g gp c * (if gp = 0 then 7 else 4) = 1 * (if g = 0 then (7 : ℚ) else 4) := by
    decide +kernel
  refine le_antisymm (le_of_abs_le ?_) ?_
  · exact C133_ceiling ok (fuel_damped _) (fun _ _ _ _ => Or.inr rfl) hS fuel_data hk.ne' (by norm_num) h ⟨0, by decide, hp.ne'⟩
      (fun g => if g = 0 then 7 else 4) (fun g _ => by split <;> norm_num) fun g hg c hc => (e g hg c hc).le
  · refine C133_floor ok (fuel_damped _) (fun _ _ _ _ => rfl) hS fuel_data hk (by norm_num) h ?_ ⟨0, fuel_fissile⟩
      (fun g => if g = 0 then 7 else 4) (fun g _ => by split <;> norm_num) fun g hg c hc => (e g hg c hc).ge
    rintro c ⟨hc, -⟩
    have hc : c < 1 := hc
    obtain rfl : c = 0 := by omega
    exact hp

/-- A mirror in place of vacuum lowers no factor. -/
example (k k' : ℚ) (hk : k ≠ 0) (hk' : k' ≠ 0) (phi phi' : Nat → Nat → ℚ)
    (h : Eigen (slabB (fun _ => .vacuum) 2 fuelOps) (fun _ => 1 / 2) eqs k phi)
    (hne : (slabB (fun _ => .vacuum) 2 fuelOps).dens phi 0 ≠ 0)
    (h' : Eigen (slabB half 2 fuelOps) (fun _ => 1 / 2) eqs k' phi') (hp : 0 < (slabB half 2 fuelOps).dens phi' 0) : |k| ≤ k' := by
  obtain ⟨S, hS⟩ := fuel_fluxes (fun _ => .vacuum) (fun _ _ => by simp)
  obtain ⟨S', hS'⟩ := fuel_fluxes half half_np
  refine C133_flux_more (slabB_ok _ (fun _ _ => by simp) 2 fuelOps fuel_ok) (fuel_damped _) (fun _ _ _ _ => Or.inl rfl) hS fuel_data
    (slabB_ok half half_np 2 fuelOps fuel_ok) (fuel_damped half) (fun g _ s _ => by
      change half s = _ ∨ half s = _
      unfold half
      split <;> simp) hS' fuel_data ⟨rfl, rfl, fun g _ => ⟨_, _, _, _, _, rfl⟩, fun _ _ _ _ => le_rfl, fun _ _ _ _ _ _ => le_rfl,
      fun g _ side _ => ?_⟩ (fun _ _ _ _ => le_rfl) (fun _ _ _ _ => le_rfl) hk hk' h ⟨0, by decide, hne⟩ h' ?_
  · change Grows _ side BC.vacuum (half side)
    unfold half
    split <;> trivial
  · rintro c ⟨hc, -⟩
    have hc : c < 1 := hc
    obtain rfl : c = 0 := by omega
    exact hp

/-- The same fuel over the reals on `N` cells. -/
noncomputable def fuel (N : Nat) : MGSolve.Prob ℝ := { bare N with
  x := ⟨((Material.Mat.new 1 2).run fuelOps).finalize, N, fun _ => 0, false⟩ }

theorem fuelN_ok (N : Nat) : (fuel N).OK where
  fin := by
    unfold fuel Material.Src.ready
    simp only
    rw [Material.C22_finalize_idempotent]
  nn := fun g gp m => by
    simp only [fuel, Material.Mat.finalize, fuelOps, Material.Mat.run, List.foldl_cons, List.foldl_nil, Material.Mat.step, Material.set3,
      Material.Mat.new]
    split_ifs <;> norm_num
  map := fun _ _ => show 0 < 1 by decide
  add := (bare_ok N).add
  loc := (bare_ok N).loc

theorem fuelN_couple (N g gp c : Nat) : couple (scatters (fuel N)) g gp c =
    if g = 1 ∧ gp = 1 then 1 / 8 else if g = 0 ∧ gp = 0 then 1 / 8 else if g = 1 ∧ gp = 0 then 1 / 2 else 0 := by
  simp [couple, scatters, fuel, Material.xs, Material.Mat.finalize, fuelOps, Material.Mat.run, Material.Mat.step, Material.set3,
    Material.Mat.new]

theorem fuelN_tame (N : Nat) : Tame (scatters (fuel N)) (fun _ _ => 1) (fun _ => 1) (5 / 8) := by
  refine ⟨fun _ _ _ _ => one_pos, fun g _ gp _ c _ => ?_, fun _ _ => one_pos, fun g hg c _ => ?_, by norm_num, by norm_num⟩
  · rw [fuelN_couple]
    split_ifs <;> norm_num
  · have hg : g < 2 := hg
    change ∑ gp ∈ range 2, couple (scatters (fuel N)) g gp c * 1 ≤ _
    rw [sum_range_succ, sum_range_one, fuelN_couple, fuelN_couple]
    interval_cases g <;> norm_num

theorem fuelN_emits (N g c : Nat) : emits (fuel N).x g c = if g = 0 then 1 else 0 := by
  simp [emits, fuel, Material.Mat.finalize, fuelOps, Material.Mat.run, Material.Mat.step, Material.set2, Material.set3, Material.Mat.new]

theorem fuelN_makes (N g c : Nat) : makes (fuel N).x g c = if g = 1 then 3 / 4 else 0 := by
  by_cases h : g = 1 <;> simp [h, makes, fuel, Material.Mat.finalize, fuelOps, Material.Mat.run, Material.Mat.step, Material.set2,
    Material.set3, Material.Mat.new] <;> norm_num

theorem fuelN_data (N : Nat) : Data (fuel N).x where
  emits := fun g _ c _ => by rw [fuelN_emits]; split <;> norm_num
  makes := fun g _ c _ => by rw [fuelN_makes]; split <;> norm_num

theorem fuelN_seeded (N : Nat) (h : 0 < N) : Seeded (fuel N).x := by
  refine ⟨0, ⟨h, 1, (by show 1 < 2; decide), by rw [fuelN_makes]; norm_num⟩, ?_⟩
  change ∑ g ∈ range 2, makes (fuel N).x g 0 ≠ 0
  rw [sum_range_succ, sum_range_one, fuelN_makes, fuelN_makes]
  norm_num

theorem fuelN_linked {F : Type} (N : Nat) (W : Nat → WGReflect.Prob F ℝ) : Linked (⟨fuel N, W⟩ : Prob F ℝ) := by
  rintro c ⟨hc, -⟩ c' -
  refine ⟨0, (by show 0 < 2; decide), (by show emits (fuel N).x 0 c ≠ 0; rw [fuelN_emits]; norm_num), 1, (by show 1 < 2; decide),
    (by show makes (fuel N).x 1 c' ≠ 0; rw [fuelN_makes]; norm_num), Relation.ReflTransGen.single ⟨(by show 1 < 2; decide), c, hc, ?_⟩⟩
  change 0 < couple (scatters (fuel N)) 1 0 c
  rw [fuelN_couple]
  norm_num

/-- Step characteristics, step differencing and thin diamond cells in one slab, a reflecting and an open side. -/
example : Multiplies (mg1 (fuel 3) (fun _ _ i => if i = 0 then sc1 Real.exp 1 3 1 else if i = 1 then sd1 1 2 1 else dd1 1 1 1)
    (fun _ => (1 : ℝ) / 2) 3 1 true (fun _ s => if s = 0 then .reflect else .vacuum) [0, 1] (fun _ _ => 1) (fun _ => []))
    (fun _ => 1 / 2) (fun _ q o _ b p => Solves1 3
      (fun i => (if i = 0 then sc1 Real.exp 1 3 (1 : ℝ) else if i = 1 then sd1 1 2 1 else dd1 1 1 1) (q i)) o b p) :=
  C134_slab (fuel 3) (fuelN_ok 3) (fun _ => 1) (fun _ => 1 / 2) (fun i => if i = 0 then 3 else if i = 1 then 2 else 1) (fun _ _ => 1)
    (fun _ => 1) 1 (5 / 8) (fuelN_tame 3) (by show 0 < 3; decide) 1 true _ [0, 1] (by decide) _
    (fun g a i => by by_cases h0 : i = 0 <;> by_cases h1 : i = 1 <;> simp [h0, h1]) (fun _ _ => one_pos) (fun _ _ => by norm_num)
    (by simp) (fun i _ => by split_ifs <;> norm_num) (fun _ _ => Iff.rfl) (fun _ s => by split_ifs <;> simp) (fuelN_data 3)
    (fuelN_seeded 3 (by decide)) (fuelN_linked 3 _)

/-- Two by two cells, step characteristics, two sides reflecting. -/
example : Multiplies (mg2 (fuel 4) (fun _ _ _ _ => sc2 Real.exp 1 2 1 1 1) (fun _ => (1 : ℝ) / 4) 2 2 1 true
    (fun _ s => if s = 0 ∨ s = 2 then .reflect else .vacuum) [0, 1, 2, 3] (fun _ _ => 1) (fun _ => [])) (fun _ => 1 / 4)
    (fun _ q o _ b p => Solves2 2 2 (fun i j => sc2 Real.exp 1 2 1 1 (1 : ℝ) (q (i + j * 2))) o b p) :=
  C134_rectangle (fuel 4) (fuelN_ok 4) (fun _ => 1) (fun _ => 2) (fun _ => 1 / 4) (fun _ => 1) (fun _ => 1) (fun _ _ => 1)
    (fun _ => 1) 1 (5 / 8) (fuelN_tame 4) 2 2 1 (by norm_num) (by norm_num) rfl true _ [0, 1, 2, 3] (by decide) _
    (fun _ _ _ _ => Or.inr rfl) (Or.inr fun g hg c _ => by
      have hg : g < 2 := hg
      rw [fuelN_couple]
      interval_cases g <;> norm_num) (fun _ _ => one_pos) (fun _ _ => by norm_num) (fun _ _ => by norm_num)
    (by norm_num [sum_range_succ]) (fun _ _ => one_pos) (fun _ _ => one_pos) (fun _ _ => Iff.rfl) (fun _ s => by split_ifs <;> simp)
    (fuelN_data 4) (fuelN_seeded 4 (by decide)) (fuelN_linked 4 _)

end cases

end Detran.MGReflect
