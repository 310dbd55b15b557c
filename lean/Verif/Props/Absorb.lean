import Verif.Lemmas.Absorb
import Verif.Props.KeffDiff

/-!
# More absorption raises no flux and no multiplication factor (C145)

What the other properties about fluxes (C132, C133) compare have equal totals.  Here the totals differ too.
-/

namespace Detran.MGReflect

open Detran.Sweep (St)
open Detran.Boundary (Bd BC Loc Enters Mirror)
open Detran.WGReflect (Sweeps Solution InFace Sides Swept Incoming Leaving Gain Absorbs dir_le)
open Detran.EigenPI (emits makes Data Fissile Below fop_eq)
open Finset

section main
variable {F K : Type} [Field K] [LinearOrder K] [IsStrictOrderedRing K]
variable {P P' : Prob F K} {w : Nat → K} {Sol Sol' : Nat → (Nat → K) → Nat → Nat → (Nat → F) → (Nat → K) → Prop}
  {sig sig' : Nat → Nat → K} {u u' : Nat → K} {m th th' : K}

theorem absorb_incoming (ok : OK P w Sol) (ok' : OK P' w Sol') (hD : Damped P w Sol sig u m th) (hD' : Damped P' w Sol' sig' u' m th')
    (hM : More P P') (h : Given P') {phi phi' : Nat → Nat → K} {bd bd' : Nat → Bd F} {psi psi' : Nat → Nat → Nat → Nat → K}
    (hs : Solves P w Sol phi bd psi) (hs' : Solves P' w Sol' phi' bd' psi') {g : Nat} (hg : g < P.M.x.mat.G) :
    Incoming (P.W g) (bd g) (bd' g) ∧
    ∀ side < 2 * (P.W g).dim, (P.W g).bc side = .reflect → ∀ o < 2 ^ (P.W g).dim, Enters side o → ∀ o',
      Mirror (P.W g).dim side o o' → ∀ a < (P.W g).na, ∀ i j, InFace (P.W g) side i j →
      (P.W g).get (bd' g side o a) i j = (P.W g).get (bd' g side o' a) i j := by
  have hg' : g < P'.M.x.mat.G := by rw [hM.groups]; exact hg
  have hS := hs' g hg'
  have hS0 := solution_both ok hD.uniform hg (hs g hg)
  have hen := entering_nonneg ok' hD' h hs' g hg'
  obtain ⟨bc', st', od', sc', fx', e⟩ := hM.dirs g hg
  have hgr := hM.sides g hg
  have hcov := fun side hsd o ho he =>
    Boundary.C67_set_covers (P.W g).dim (ok.sw g hg).d1 (ok.sw g hg).d3 side hsd o ho he
  have hnpP := ok.np g hg
  rw [e] at hgr hS hen
  constructor
  · intro side hsd hr o ho he a ha i j hi
    have hgs := hgr side hsd
    dsimp only at hgs
    obtain ⟨io, hl, hio⟩ := hcov side hsd o ho he
    cases hb : (P.W g).bc side with
    | reflect => exact absurd hb hr
    | periodic => exact absurd hb (hnpP side hsd)
    | vacuum =>
      rw [hS0.2.2.vacuum side hsd hb o ho he a ha i j hi]
      exact hen side hsd o ho he a ha i j hi
    | fixed ps =>
      rw [hS0.2.2.given side hsd ps hb o ho io hio a ha i j hi]
      rw [hb] at hgs
      cases hb' : bc' side with
      | vacuum => rw [hb'] at hgs; exact hgs.elim
      | periodic => rw [hb'] at hgs; exact hgs.elim
      | reflect => rw [hb'] at hgs; exact hgs.elim
      | fixed ps' =>
        rw [hb'] at hgs
        have := hS.given side hsd ps' hb' o ho io hio a ha i j hi
        have h2 := hgs io hl a ha i j hi
        dsimp only at this
        linarith
  · intro side hsd hr o ho he o' hm a ha i j hi
    have hr' : bc' side = .reflect := by
      have := hgr side hsd
      rw [hr] at this
      unfold Grows at this
      dsimp only at this
      split at this <;> simp_all
    exact sub_eq_zero.1 (hS.reflect side hsd hr' o ho he o' hm a ha i j hi)

/-- More absorption — larger totals with the same or less scattering, fission, sources and incoming: no flux and no angular flux rises. -/
theorem C145_more (ok : OK P w Sol) (hD : Damped P w Sol sig u m th) (ok' : OK P' w Sol')
    (hD' : Damped P' w Sol' sig' u' m th') (hM : More P P') (hA : ∀ g < P.M.x.mat.G, Absorbs (P.W g) (Sol g) (Sol' g)) (h : Given P')
    {phi phi' : Nat → Nat → K} {bd bd' : Nat → Bd F} {psi psi' : Nat → Nat → Nat → Nat → K}
    (hs : Solves P w Sol phi bd psi) (hs' : Solves P' w Sol' phi' bd' psi') :
    ∀ g < P.M.x.mat.G, ∀ c < P.M.x.N, phi g c ≤ phi' g c ∧
      ∀ o < 2 ^ (P.W g).dim, ∀ a < (P.W g).na, psi g o a c ≤ psi' g o a c := by
  have hpos := C132_positive_partial ok' hD' h hs'
  rw [hM.groups, hM.cells] at hpos
  have hsrc : ∀ g < P.M.x.mat.G, ∀ c < P.M.x.N, P.M.source phi' g c ≤ P'.M.source phi' g c := by
    intro g hg c hc
    rw [source_couple, source_couple, hM.groups]
    refine add_le_add (hM.q g hg c hc) (sum_le_sum fun gp hgp => ?_)
    have hgp := mem_range.1 hgp
    exact mul_le_mul_of_nonneg_right (hM.couple g hg gp hgp c hc) (hpos gp hgp c hc).1
  have hsrc0 : ∀ g < P.M.x.mat.G, ∀ c < P.M.x.N, 0 ≤ P'.M.source phi' g c := by
    intro g hg c hc
    have hg' : g < P'.M.x.mat.G := by rw [hM.groups]; exact hg
    have hc' : c < P'.M.x.N := by rw [hM.cells]; exact hc
    rw [source_couple]
    refine add_nonneg (h.q g hg' c hc') (sum_nonneg fun gp hgp => ?_)
    have hgp := mem_range.1 hgp
    exact mul_nonneg (hD'.couple g hg' gp hgp c hc') (hpos gp (by rw [← hM.groups]; exact hgp) c hc).1
  -- the first equations with the second sources and the second entering fluxes
  have mid : ∀ g < P.M.x.mat.G, ∀ o < 2 ^ (P.W g).dim, ∀ a < (P.W g).na, ∃ (b : Nat → F) (p : Nat → K),
      Sol g (fun c => P'.M.source phi' g c * m) o a b p ∧
      (∀ side < 2 * (P.W g).dim, Enters side o → b side = bd' g side o a) ∧ (∀ c < P.M.x.N, p c ≤ psi' g o a c) ∧
      ∀ side < 2 * (P.W g).dim, ¬ Enters side o → ∀ i j, InFace (P.W g) side i j →
        (P.W g).get (b side) i j ≤ (P.W g).get (bd' g side o a) i j := by
    intro g hg o ho a ha
    have hg' : g < P'.M.x.mat.G := by rw [hM.groups]; exact hg
    obtain ⟨p, k1, _⟩ := (ok.sw g hg).solves false (fun _ _ c => P'.M.source phi' g c * m) ⟨bd' g, fun _ => 0, fun _ _ _ => 0⟩
    have k1 := k1 o ho a ha
    have ke := fun side hsd he => WGReflect.sweep_off (ok.sw g hg) (fun _ _ c => P'.M.source phi' g c * m)
      ⟨bd' g, fun _ => 0, fun _ _ _ => 0⟩ o a ho ha side hsd he
    have hS := hs' g hg'
    have hen := entering_nonneg ok' hD' h hs' g hg'
    have hsw := ok'.sw g hg'
    have hmt := hD'.uniform.mtod g hg'
    have hds := hD'.uniform.disc g hg'
    have hsr : ∀ o < 2 ^ (P'.W g).dim, ∀ a < (P'.W g).na, ∀ c, P'.src phi' g o a c = P'.M.source phi' g c * m := by
      intro o ho a ha c
      unfold Prob.src
      rw [hmt o ho a ha, hds, List.map_nil, List.sum_nil, add_zero]
    obtain ⟨bc', st', od', sc', fx', e⟩ := hM.dirs g hg
    rw [e] at hS hen hsr hsw
    have k2 : Sol' g (fun c => P'.M.source phi' g c * m) o a (fun f => bd' g f o a) (psi' g o a) :=
      sol_congr hsw ho (hS.cells o ho a ha) fun c _ => (hsr o ho a ha c).symm
    obtain ⟨a1, a2⟩ := hA g hg _ o a _ _ _ _ ho ha k1 k2
      (fun c hc => by
        rw [ok.cells g] at hc
        exact mul_nonneg (hsrc0 g hg c hc) (hD.mpos hg).le)
      (fun side hsd he i j hi => by
        rw [ke side hsd he]
        exact ⟨hen side hsd o ho he a ha i j hi, le_rfl⟩)
    exact ⟨_, _, k1, ke, fun c hc => a1 c (by rw [ok.cells g]; exact hc), a2⟩
  obtain ⟨δ, hδ, hδ1, hG⟩ := hD.gains
  obtain ⟨k0, k1⟩ := kappa hD hδ hδ1
  have step : ∀ E, 0 ≤ E → (∀ g < P.M.x.mat.G, Under P u m E g (phi g) (bd g) (phi' g) (bd' g)) → ∀ g < P.M.x.mat.G,
      Under P u m ((1 - δ * (1 - th)) * E) g (phi g) (bd g) (phi' g) (bd' g) ∧
      ∀ o < 2 ^ (P.W g).dim, ∀ a < (P.W g).na, ∀ c < P.M.x.N, psi g o a c - psi' g o a c ≤ (1 - δ * (1 - th)) * E * (m * u g) := by
    intro E hE hU g hg
    have hm := hD.mpos hg
    have hu := hD.upos g hg
    have hv : 0 ≤ E * (m * u g) := by positivity
    have ht : 0 ≤ (1 - th) * (E * (m * u g)) := mul_nonneg (by linarith [hD.less]) hv
    have hN := ok.cells g
    have hg' : g < P'.M.x.mat.G := by rw [hM.groups]; exact hg
    obtain ⟨hin, hmir⟩ := absorb_incoming ok ok' hD hD' hM h hs hs' hg
    have ek : E * (m * u g) - δ * ((1 - th) * (E * (m * u g))) = (1 - δ * (1 - th)) * E * (m * u g) := by ring
    have main : ∀ o < 2 ^ (P.W g).dim, ∀ a < (P.W g).na,
        (∀ c < P.M.x.N, psi g o a c - psi' g o a c ≤ (1 - δ * (1 - th)) * E * (m * u g)) ∧
        ∀ side < 2 * (P.W g).dim, ¬ Enters side o → ∀ i j, InFace (P.W g) side i j →
          (P.W g).get (bd g side o a) i j - (P.W g).get (bd' g side o a) i j ≤ (1 - δ * (1 - th)) * E * (m * u g) := by
      intro o ho a ha
      obtain ⟨b, p, m1, m2, m3, m4⟩ := mid g hg o ho a ha
      obtain ⟨d1, d2⟩ := dir_le (ok.sw g hg) (hG g hg) (hD.flat ok hg) _ _ o a ho ha _ _ _ _ ((hs g hg).cells o ho a ha) m1
        (E * (m * u g)) ((1 - th) * (E * (m * u g))) ht
        (fun c hc => by
          rw [hN] at hc
          have e0 : P.src phi g o a c = P.M.source phi g c * m := by
            unfold Prob.src
            rw [hD.uniform.mtod g hg o ho a ha, hD.uniform.disc g hg, List.map_nil, List.sum_nil, add_zero]
          have e1 : P.M.source phi g c - P'.M.source phi' g c ≤ ∑ gp ∈ range P.M.x.mat.G, couple P.M g gp c * (E * u gp) := by
            have a2 := hsrc g hg c hc
            rw [source_couple P.M] at a2
            rw [source_couple P.M]
            have a3 : ∑ gp ∈ range P.M.x.mat.G, couple P.M g gp c * phi gp c -
                ∑ gp ∈ range P.M.x.mat.G, couple P.M g gp c * phi' gp c ≤
                ∑ gp ∈ range P.M.x.mat.G, couple P.M g gp c * (E * u gp) := by
              rw [← sum_sub_distrib]
              refine sum_le_sum fun gp hgp => ?_
              rw [← mul_sub]
              exact mul_le_mul_of_nonneg_left ((hU gp (mem_range.1 hgp)).1 c hc) (hD.couple g hg gp (mem_range.1 hgp) c hc)
            linarith
          have e2 : ∑ gp ∈ range P.M.x.mat.G, couple P.M g gp c * (E * u gp) ≤ E * (th * (sig g c * u g)) := by
            have : ∑ gp ∈ range P.M.x.mat.G, couple P.M g gp c * (E * u gp) =
                E * ∑ gp ∈ range P.M.x.mat.G, couple P.M g gp c * u gp := by
              rw [mul_sum]
              exact sum_congr rfl fun _ _ => by ring
            rw [this]
            exact mul_le_mul_of_nonneg_left (hD.row g hg c hc) hE
          have e3 := mul_le_mul_of_nonneg_right (e1.trans e2) hm.le
          have e4 : (E * (m * u g) - (1 - th) * (E * (m * u g))) * sig g c = E * (th * (sig g c * u g)) * m := by ring
          rw [e4, e0]
          linarith)
        (fun side hsd he i j hi => by
          rw [m2 side hsd he]
          by_cases hr : (P.W g).bc side = .reflect
          · obtain ⟨f1, f2, _, f4⟩ := WGReflect.mir_facts (P.W g).dim (ok.sw g hg).d1 (ok.sw g hg).d3 side hsd o ho
            have hl : ¬ Enters side (WGReflect.mir (P.W g).dim side o) := fun h' => f4.1 h' he
            have r1 := sub_eq_zero.1 ((hs g hg).reflect side hsd hr o ho he _ f2 a ha i j hi)
            rw [r1, hmir side hsd hr o ho he _ f2 a ha i j hi]
            exact (hU g hg).2 side hsd hr _ f1 hl a ha i j hi
          · have := hin side hsd hr o ho he a ha i j hi
            linarith)
      rw [ek] at d1 d2
      refine ⟨fun c hc => ?_, fun side hsd hl i j hi => ?_⟩
      · have := d1 c (by rw [hN]; exact hc)
        have := m3 c hc
        linarith
      · have := d2 side hsd hl i j hi
        have := m4 side hsd hl i j hi
        linarith
    refine ⟨⟨fun c hc => ?_, fun side hsd _ o ho hl a ha i j hi => (main o ho a ha).2 side hsd hl i j hi⟩,
      fun o ho a ha => (main o ho a ha).1⟩
    have s3 := (hs g hg).flux c (by rw [hN]; exact hc)
    have s3' : phi' g c = ∑ o ∈ range (2 ^ (P.W g).dim), ∑ a ∈ range (P.W g).na, w a * psi' g o a c := by
      have hS := hs' g hg'
      obtain ⟨bc', st', od', sc', fx', e⟩ := hM.dirs g hg
      rw [e] at hS
      have := hS.flux c (by rw [← hN] at hc; exact hc)
      rwa [add_zero] at this
    rw [add_zero] at s3
    rw [s3, s3', ← sum_sub_distrib]
    calc ∑ o ∈ range (2 ^ (P.W g).dim), (∑ a ∈ range (P.W g).na, w a * psi g o a c - ∑ a ∈ range (P.W g).na, w a * psi' g o a c)
        ≤ ∑ o ∈ range (2 ^ (P.W g).dim), ∑ a ∈ range (P.W g).na, w a * ((1 - δ * (1 - th)) * E * (m * u g)) := by
          refine sum_le_sum fun o ho => ?_
          rw [← sum_sub_distrib]
          refine sum_le_sum fun a ha => ?_
          rw [← mul_sub]
          exact mul_le_mul_of_nonneg_left ((main o (mem_range.1 ho) a (mem_range.1 ha)).1 c hc) (hD.weight g hg a (mem_range.1 ha))
      _ = (1 - δ * (1 - th)) * E * u g * (m * ∑ _o ∈ range (2 ^ (P.W g).dim), ∑ a ∈ range (P.W g).na, w a) := by
          simp only [mul_sum]
          exact sum_congr rfl fun o _ => sum_congr rfl fun a _ => by ring
      _ = (1 - δ * (1 - th)) * E * u g := by rw [hD.uniform.norm g hg, mul_one]
  obtain ⟨E, hE, hl⟩ := least_under (P := P) (u := u) (m := m) hD.upos (fun g hg => hD.mpos hg) phi phi' bd bd'
  have hU := (hl E hE).2 (le_refl _)
  have h0 : E = 0 := by
    have := (hl _ (mul_nonneg k0 hE)).1 fun g hg => (step E hE hU g hg).1
    nlinarith
  subst h0
  intro g hg c hc
  have := step 0 (le_refl _) hU g hg
  rw [mul_zero, zero_mul] at this
  refine ⟨?_, fun o ho a ha => sub_nonpos.1 (this.2 o ho a ha c hc)⟩
  have := this.1.1 c hc
  rw [zero_mul] at this
  exact sub_nonpos.1 this

/-- Then one generation of fissions makes no more of them. -/
theorem C145_flux_below [Nonempty F] {S S' : (Nat → Nat → K) → Nat → Nat → K}
    (ok : OK P w Sol) (hD : Damped (P.sourced fun _ _ => 0) w Sol sig u m th) (hb : Bare P) (hS : Exactly P w Sol S)
    (hd : Data P.M.x) (ok' : OK P' w Sol') (hD' : Damped (P'.sourced fun _ _ => 0) w Sol' sig' u' m th') (hb' : Bare P')
    (hS' : Exactly P' w Sol' S') (hM : More (P.sourced fun _ _ => 0) (P'.sourced fun _ _ => 0))
    (hA : ∀ g < P.M.x.mat.G, Absorbs (P.W g) (Sol g) (Sol' g))
    (he : ∀ g < P.M.x.mat.G, ∀ c < P.M.x.N, emits P.M.x g c ≤ emits P'.M.x g c)
    (hm : ∀ g < P.M.x.mat.G, ∀ c < P.M.x.N, makes P.M.x g c ≤ makes P'.M.x g c) : Below P.M.x S P'.M.x S' := by
  intro d h0 c hc
  have hG : P'.M.x.mat.G = P.M.x.mat.G := hM.groups
  have hN : P'.M.x.N = P.M.x.N := hM.cells
  have hc' : c < P'.M.x.N := by rw [hN]; exact hc
  rw [fop_eq _ _ _ hc, fop_eq _ _ _ hc', hG]
  obtain ⟨bd, psi, ks⟩ := solves_of_flux (hS.flux fun g c => d c * emits P.M.x g c)
  obtain ⟨bd', psi', ks'⟩ := solves_of_flux (hS'.flux fun g c => d c * emits P'.M.x g c)
  have hq' : ∀ g < P'.M.x.mat.G, ∀ c < P'.M.x.N, 0 ≤ d c * emits P'.M.x g c := by
    intro g hg c hc
    rw [hG] at hg
    rw [hN] at hc
    exact mul_nonneg (h0 c hc) ((hd.emits g hg c hc).trans (he g hg c hc))
  have hM' : More (P.sourced fun g c => d c * emits P.M.x g c) (P'.sourced fun g c => d c * emits P'.M.x g c) :=
    ⟨hM.groups, hM.cells, hM.dirs, fun g hg c hc => mul_le_mul_of_nonneg_left (he g hg c hc) (h0 c hc), hM.couple, hM.sides⟩
  have cmp := C145_more (sourced_ok ok _) (sourced_damped hD _) (sourced_ok ok' _) (sourced_damped hD' _) hM' hA
    (sourced_given hb' hq') ks ks'
  have pos := C132_positive_partial (sourced_ok ok _) (sourced_damped hD _) (sourced_given hb fun g hg c hc =>
    mul_nonneg (h0 c hc) (hd.emits g hg c hc)) ks
  refine sum_le_sum fun g hg => ?_
  have hg := mem_range.1 hg
  have p0 := (pos g hg c hc).1
  exact mul_le_mul (cmp g hg c hc).1 (hm g hg c hc) (hd.makes g hg c hc) (p0.trans (cmp g hg c hc).1)

/-- And no multiplication factor is above that with less absorption. -/
theorem C145_keff [Nonempty F] {S S' : (Nat → Nat → K) → Nat → Nat → K}
    (ok : OK P w Sol) (hD : Damped (P.sourced fun _ _ => 0) w Sol sig u m th) (hb : Bare P) (hS : Exactly P w Sol S)
    (hd : Data P.M.x) (ok' : OK P' w Sol') (hD' : Damped (P'.sourced fun _ _ => 0) w Sol' sig' u' m th') (hb' : Bare P')
    (hS' : Exactly P' w Sol' S') (hd' : Data P'.M.x) (hM : More (P.sourced fun _ _ => 0) (P'.sourced fun _ _ => 0))
    (hA : ∀ g < P.M.x.mat.G, Absorbs (P.W g) (Sol g) (Sol' g))
    (he : ∀ g < P.M.x.mat.G, ∀ c < P.M.x.N, emits P.M.x g c ≤ emits P'.M.x g c)
    (hm : ∀ g < P.M.x.mat.G, ∀ c < P.M.x.N, makes P.M.x g c ≤ makes P'.M.x g c) {k k' : K} (hk : k ≠ 0) (hk' : k' ≠ 0)
    {phi phi' : Nat → Nat → K} (h : Eigen P w Sol k phi) (hne : ∃ c < P.M.x.N, P.dens phi c ≠ 0) (h' : Eigen P' w Sol' k' phi')
    (hp' : ∀ c, Fissile P'.M.x c → 0 < P'.dens phi' c) : |k| ≤ k' := by
  have hG : P'.M.x.mat.G = P.M.x.mat.G := hM.groups
  have hN : P'.M.x.N = P.M.x.N := hM.cells
  refine EigenPI.C133_more (C133_flux_solver ok hD hb hS) hd (C133_flux_solver ok' hD' hb' hS') hd' hN
    (C145_flux_below ok hD hb hS hd ok' hD' hb' hS' hM hA he hm) ?_ (C133_eigen_mode ok hD hb hS hk h) hk hne
    (C133_eigen_mode ok' hD' hb' hS' hk' h') hk' hp'
  rintro c ⟨hc, g, hg, hn⟩
  refine ⟨by rw [hN]; exact hc, g, by rw [hG]; exact hg, ?_⟩
  have := lt_of_le_of_ne (hd.makes g hg c hc) (Ne.symm hn)
  exact (this.trans_le (hm g hg c hc)).ne'

end main

/-! ## Geometries and schemes -/

section geom
open Detran.Sweep (dd1 sd1 sc1 sd2 sc2 Solves1 Solves2)
open Detran.WGReflect (Attenuates Declines attenuates_exp declines_exp absorbs1 absorbs2 less_dd1 less_sd1 less_sc1 less_sd2 less_sc2
  dissipates1 dissipates2 cell_dd1 cell_sd1 cell_sc1 cell_sd2 cell_sc2 exp_ok)
variable {K : Type} [Field K] [LinearOrder K] [IsStrictOrderedRing K]

/-- The schemes of 1-D keep fluxes down as totals go up. -/
theorem C145_absorbs_1D (ex : K → K) (hex : Attenuates ex) (hd : Declines ex) (mu w dx sig sig' : Nat → K) (nx na : Nat) (h0 : 0 < nx)
    (up : Bool) (bc : Nat → BC K) (order : List Nat) (scat fixed mtod disc) (sch sch' : Nat → Nat → K → K → K × K)
    (hsch : ∀ a i, sch a i = dd1 (mu a) (dx i) (sig i) ∧ sch' a i = dd1 (mu a) (dx i) (sig' i) ∧ sig i * dx i ≤ 2 * mu a ∨
      sch a i = sd1 (mu a) (dx i) (sig i) ∧ sch' a i = sd1 (mu a) (dx i) (sig' i) ∨
      sch a i = sc1 ex (mu a) (dx i) (sig i) ∧ sch' a i = sc1 ex (mu a) (dx i) (sig' i))
    (hmu : ∀ a < na, 0 < mu a) (hdx : ∀ i < nx, 0 < dx i) (hs' : ∀ i < nx, 0 < sig' i) (hl : ∀ i < nx, sig' i ≤ sig i) :
    Absorbs (WGReflect.prob1 sch w nx na up bc order scat fixed mtod disc)
      (fun q o a b p => Solves1 nx (fun i => sch a i (q i)) o b p) (fun q o a b p => Solves1 nx (fun i => sch' a i (q i)) o b p) := by
  refine absorbs1 sch sch' w nx na h0 up bc order _ _ _ _ fun a ha i hi => ?_
  rcases hsch a i with ⟨e, e', ht⟩ | ⟨e, e'⟩ | ⟨e, e'⟩
  · rw [e, e']; exact less_dd1 (hmu a ha) (hdx i hi) (hs' i hi) (hl i hi) ht
  · rw [e, e']; exact less_sd1 (hmu a ha) (hdx i hi) (hs' i hi) (hl i hi)
  · rw [e, e']; exact less_sc1 hex hd (hmu a ha) (hdx i hi) (hs' i hi) (hl i hi)

/-- And those of 2-D. -/
theorem C145_absorbs_2D (ex : K → K) (hex : Attenuates ex) (hd : Declines ex) (mu eta w dx dy sig sig' : Nat → K) (nx ny na : Nat)
    (hx0 : 0 < nx) (hy0 : 0 < ny) (up : Bool) (bc : Nat → BC (Nat → K)) (order : List Nat) (scat fixed mtod disc)
    (sch sch' : Nat → Nat → Nat → K → K × K → K × (K × K))
    (hsch : ∀ a i j, sch a i j = sd2 (mu a) (eta a) (dx i) (dy j) (sig (i + j * nx)) ∧
        sch' a i j = sd2 (mu a) (eta a) (dx i) (dy j) (sig' (i + j * nx)) ∨
      sch a i j = sc2 ex (mu a) (eta a) (dx i) (dy j) (sig (i + j * nx)) ∧
        sch' a i j = sc2 ex (mu a) (eta a) (dx i) (dy j) (sig' (i + j * nx)))
    (hmu : ∀ a < na, 0 < mu a) (heta : ∀ a < na, 0 < eta a) (hdx : ∀ i < nx, 0 < dx i) (hdy : ∀ j < ny, 0 < dy j)
    (hs' : ∀ c < nx * ny, 0 < sig' c) (hl : ∀ c < nx * ny, sig' c ≤ sig c) :
    Absorbs (WGReflect.prob2 sch w nx ny na up bc order scat fixed mtod disc)
      (fun q o a b p => Solves2 nx ny (fun i j => sch a i j (q (i + j * nx))) o b p)
      (fun q o a b p => Solves2 nx ny (fun i j => sch' a i j (q (i + j * nx))) o b p) := by
  refine absorbs2 sch sch' w nx ny na hx0 hy0 up bc order _ _ _ _ fun a ha i hi j hj => ?_
  have hc := WGReflect.cell2_lt hi hj
  rcases hsch a i j with ⟨e, e'⟩ | ⟨e, e'⟩
  · rw [e, e']; exact less_sd2 (hmu a ha) (heta a ha) (hdx i hi) (hdy j hj) (hs' _ hc) (hl _ hc)
  · rw [e, e']; exact less_sc2 hex hd (hmu a ha) (heta a ha) (hdx i hi) (hdy j hj) (hs' _ hc) (hl _ hc)

/-- Slabs: two problems on the same cells with the same quadrature and schemes, the first with no smaller totals, no more scattering, fission
    or source, and no more coming in. -/
theorem C145_1D (M M' : MGSolve.Prob ℝ) (hM : M.OK) (hM' : M'.OK) (mu w dx : Nat → ℝ) (sig sig' : Nat → Nat → ℝ) (u u' : Nat → ℝ)
    (m th th' : ℝ) (hT : Tame M sig u th) (hT' : Tame M' sig' u' th') (hN : 0 < M.x.N) (na : Nat) (up : Bool) (bc bc' : Nat → Nat → BC ℝ)
    (order : List Nat) (hord : order.Perm (List.range 2)) (sch sch' : Nat → Nat → Nat → ℝ → ℝ → ℝ × ℝ)
    (hsch : ∀ g a i, sch g a i = dd1 (mu a) (dx i) (sig g i) ∧ sch' g a i = dd1 (mu a) (dx i) (sig' g i) ∧
        sig g i * dx i ≤ 2 * mu a ∧ sig' g i * dx i ≤ 2 * mu a ∨
      sch g a i = sd1 (mu a) (dx i) (sig g i) ∧ sch' g a i = sd1 (mu a) (dx i) (sig' g i) ∨
      sch g a i = sc1 Real.exp (mu a) (dx i) (sig g i) ∧ sch' g a i = sc1 Real.exp (mu a) (dx i) (sig' g i))
    (hmu : ∀ a < na, 0 < mu a) (hw : ∀ a < na, 0 ≤ w a) (hm : m * ∑ _o ∈ range 2, ∑ a ∈ range na, w a = 1)
    (hdx : ∀ i < M.x.N, 0 < dx i) (hr : ∀ g s, bc g s = .reflect ↔ bc 0 s = .reflect) (hr' : ∀ g s, bc' g s = .reflect ↔ bc' 0 s = .reflect)
    (hp : ∀ g, ∀ s < 2, bc g s ≠ .periodic) (hp' : ∀ g, ∀ s < 2, bc' g s ≠ .periodic)
    (hG : M'.x.mat.G = M.x.mat.G) (hN' : M'.x.N = M.x.N) (hsig : ∀ g < M.x.mat.G, ∀ c < M.x.N, sig' g c ≤ sig g c)
    (hq : ∀ g < M.x.mat.G, ∀ c < M.x.N, M.q g c ≤ M'.q g c)
    (hc : ∀ g < M.x.mat.G, ∀ gp < M.x.mat.G, ∀ c < M.x.N, couple M g gp c ≤ couple M' g gp c)
    (hs : ∀ g < M.x.mat.G, ∀ side < 2,
      Grows ((mg1 M sch w M.x.N na up bc order (fun _ _ => m) (fun _ => [])).W g) side (bc g side) (bc' g side))
    (hgiv : Given (mg1 M' sch' w M'.x.N na up bc' order (fun _ _ => m) (fun _ => []))) (phi phi' : Nat → Nat → ℝ)
    (h : MGFlux (mg1 M sch w M.x.N na up bc order (fun _ _ => m) (fun _ => [])) w
      (fun g q o a b p => Solves1 M.x.N (fun i => sch g a i (q i)) o b p) phi)
    (h' : MGFlux (mg1 M' sch' w M'.x.N na up bc' order (fun _ _ => m) (fun _ => [])) w
      (fun g q o a b p => Solves1 M'.x.N (fun i => sch' g a i (q i)) o b p) phi') :
    ∀ g < M.x.mat.G, ∀ c < M.x.N, phi g c ≤ phi' g c := by
  obtain ⟨ok, hD⟩ := C132_1D M hM Real.exp attenuates_exp mu w dx sig u m th hT hN na up bc order hord sch
    (fun g a i => by rcases hsch g a i with e | e | e <;> [exact Or.inl ⟨e.1, e.2.2.1⟩; exact Or.inr (Or.inl e.1); exact Or.inr (Or.inr e.1)])
    hmu hw hm hdx hr hp
  obtain ⟨ok', hD'⟩ := C132_1D M' hM' Real.exp attenuates_exp mu w dx sig' u' m th' hT' (by rw [hN']; exact hN) na up bc' order hord sch'
    (fun g a i => by rcases hsch g a i with e | e | e <;> [exact Or.inl ⟨e.2.1, e.2.2.2⟩; exact Or.inr (Or.inl e.2); exact Or.inr (Or.inr e.2)])
    hmu hw hm (by rw [hN']; exact hdx) hr' hp'
  obtain ⟨bd, psi, ks⟩ := solves_of_flux h
  obtain ⟨bd', psi', ks'⟩ := solves_of_flux h'
  have hMore : More (mg1 M sch w M.x.N na up bc order (fun _ _ => m) (fun _ => []))
      (mg1 M' sch' w M'.x.N na up bc' order (fun _ _ => m) (fun _ => [])) :=
    ⟨hG, hN', fun g _ => by rw [hN']; exact ⟨_, _, _, _, _, rfl⟩, hq, hc, hs⟩
  intro g hg c hcl
  refine (C145_more ok hD ok' hD' hMore (fun g hg => ?_) hgiv ks ks' g hg c hcl).1
  have hg : g < M.x.mat.G := hg
  rw [hN']
  exact C145_absorbs_1D Real.exp attenuates_exp declines_exp mu w dx (sig g) (sig' g) M.x.N na hN up (bc g) order _ _ _ _ (sch g) (sch' g)
    (fun a i => (hsch g a i).imp_left fun e => ⟨e.1, e.2.1, e.2.2.1⟩) hmu hdx
    (fun i hi => hT'.tot g (by rw [hG]; exact hg) i (by rw [hN']; exact hi)) (hsig g hg)

/-- Rectangles. -/
theorem C145_2D (M M' : MGSolve.Prob ℝ) (hM : M.OK) (hM' : M'.OK) (mu eta w dx dy : Nat → ℝ) (sig sig' : Nat → Nat → ℝ) (u u' : Nat → ℝ)
    (m th th' : ℝ) (hT : Tame M sig u th) (hT' : Tame M' sig' u' th') (nx ny na : Nat) (hx0 : 0 < nx) (hy0 : 0 < ny)
    (hN : nx * ny = M.x.N) (up : Bool) (bc bc' : Nat → Nat → BC (Nat → ℝ))
    (order : List Nat) (hord : order.Perm (List.range 4)) (sch sch' : Nat → Nat → Nat → Nat → ℝ → ℝ × ℝ → ℝ × (ℝ × ℝ))
    (hsch : ∀ g a i j, sch g a i j = sd2 (mu a) (eta a) (dx i) (dy j) (sig g (i + j * nx)) ∧
        sch' g a i j = sd2 (mu a) (eta a) (dx i) (dy j) (sig' g (i + j * nx)) ∨
      sch g a i j = sc2 Real.exp (mu a) (eta a) (dx i) (dy j) (sig g (i + j * nx)) ∧
        sch' g a i j = sc2 Real.exp (mu a) (eta a) (dx i) (dy j) (sig' g (i + j * nx)))
    (hmu : ∀ a < na, 0 < mu a) (heta : ∀ a < na, 0 < eta a) (hw : ∀ a < na, 0 ≤ w a)
    (hm : m * ∑ _o ∈ range 4, ∑ a ∈ range na, w a = 1) (hdx : ∀ i < nx, 0 < dx i) (hdy : ∀ j < ny, 0 < dy j)
    (hr : ∀ g s, bc g s = .reflect ↔ bc 0 s = .reflect) (hr' : ∀ g s, bc' g s = .reflect ↔ bc' 0 s = .reflect)
    (hp : ∀ g, ∀ s < 4, bc g s ≠ .periodic) (hp' : ∀ g, ∀ s < 4, bc' g s ≠ .periodic)
    (hG : M'.x.mat.G = M.x.mat.G) (hN' : M'.x.N = M.x.N) (hsig : ∀ g < M.x.mat.G, ∀ c < M.x.N, sig' g c ≤ sig g c)
    (hq : ∀ g < M.x.mat.G, ∀ c < M.x.N, M.q g c ≤ M'.q g c)
    (hc : ∀ g < M.x.mat.G, ∀ gp < M.x.mat.G, ∀ c < M.x.N, couple M g gp c ≤ couple M' g gp c)
    (hs : ∀ g < M.x.mat.G, ∀ side < 4,
      Grows ((mg2 M sch w nx ny na up bc order (fun _ _ => m) (fun _ => [])).W g) side (bc g side) (bc' g side))
    (hgiv : Given (mg2 M' sch' w nx ny na up bc' order (fun _ _ => m) (fun _ => []))) (phi phi' : Nat → Nat → ℝ)
    (h : MGFlux (mg2 M sch w nx ny na up bc order (fun _ _ => m) (fun _ => [])) w
      (fun g q o a b p => Solves2 nx ny (fun i j => sch g a i j (q (i + j * nx))) o b p) phi)
    (h' : MGFlux (mg2 M' sch' w nx ny na up bc' order (fun _ _ => m) (fun _ => [])) w
      (fun g q o a b p => Solves2 nx ny (fun i j => sch' g a i j (q (i + j * nx))) o b p) phi') :
    ∀ g < M.x.mat.G, ∀ c < M.x.N, phi g c ≤ phi' g c := by
  obtain ⟨ok, hD⟩ := C132_2D M hM Real.exp attenuates_exp mu eta w dx dy sig u m th hT nx ny na hx0 hy0 hN up bc order hord sch
    (fun g a i j => (hsch g a i j).imp And.left And.left) hmu heta hw hm hdx hdy hr hp
  obtain ⟨ok', hD'⟩ := C132_2D M' hM' Real.exp attenuates_exp mu eta w dx dy sig' u' m th' hT' nx ny na hx0 hy0 (by rw [hN', hN]) up bc'
    order hord sch' (fun g a i j => (hsch g a i j).imp And.right And.right) hmu heta hw hm hdx hdy hr' hp'
  obtain ⟨bd, psi, ks⟩ := solves_of_flux h
  obtain ⟨bd', psi', ks'⟩ := solves_of_flux h'
  have hMore : More (mg2 M sch w nx ny na up bc order (fun _ _ => m) (fun _ => []))
      (mg2 M' sch' w nx ny na up bc' order (fun _ _ => m) (fun _ => [])) :=
    ⟨hG, hN', fun g _ => ⟨_, _, _, _, _, rfl⟩, hq, hc, hs⟩
  intro g hg c hcl
  refine (C145_more ok hD ok' hD' hMore (fun g hg => ?_) hgiv ks ks' g hg c hcl).1
  have hg : g < M.x.mat.G := hg
  exact C145_absorbs_2D Real.exp attenuates_exp declines_exp mu eta w dx dy (sig g) (sig' g) nx ny na hx0 hy0 up (bc g) order _ _ _ _
    (sch g) (sch' g) (hsch g) hmu heta hdx hdy
    (fun i hi => hT'.tot g (by rw [hG]; exact hg) i (by rw [hN', ← hN]; exact hi)) (fun c hc => hsig g hg c (by rw [← hN]; exact hc))

theorem slab_facts (M : MGSolve.Prob ℝ) (hM : M.OK) (mu w dx : Nat → ℝ) (sig : Nat → Nat → ℝ) (u : Nat → ℝ)
    (m th : ℝ) (hT : Tame (scatters M) sig u th) (hN : 0 < M.x.N) (na : Nat) (up : Bool) (bc : Nat → Nat → BC ℝ)
    (order : List Nat) (hord : order.Perm (List.range 2)) (sch : Nat → Nat → Nat → ℝ → ℝ → ℝ × ℝ)
    (hsch : ∀ g a i, sch g a i = dd1 (mu a) (dx i) (sig g i) ∧ sig g i * dx i ≤ 2 * mu a ∨
      sch g a i = sd1 (mu a) (dx i) (sig g i) ∨ sch g a i = sc1 Real.exp (mu a) (dx i) (sig g i))
    (hmu : ∀ a < na, 0 < mu a) (hw : ∀ a < na, 0 < w a) (hm : m * ∑ _o ∈ range 2, ∑ a ∈ range na, w a = 1)
    (hdx : ∀ i < M.x.N, 0 < dx i) (hr : ∀ g s, bc g s = .reflect ↔ bc 0 s = .reflect)
    (hb : ∀ g s, bc g s = .vacuum ∨ bc g s = .reflect) :
    OK (mg1 M sch w M.x.N na up bc order (fun _ _ => m) (fun _ => [])) w
      (fun g q o a b p => Solves1 M.x.N (fun i => sch g a i (q i)) o b p) ∧
    Damped ((mg1 M sch w M.x.N na up bc order (fun _ _ => m) (fun _ => [])).sourced fun _ _ => 0) w
      (fun g q o a b p => Solves1 M.x.N (fun i => sch g a i (q i)) o b p) sig u m th ∧
    ∃ S, Exactly (mg1 M sch w M.x.N na up bc order (fun _ _ => m) (fun _ => [])) w
      (fun g q o a b p => Solves1 M.x.N (fun i => sch g a i (q i)) o b p) S := by
  have hp : ∀ g, ∀ s < 2, bc g s ≠ .periodic := fun g s _ h => by
    rcases hb g s with e | e <;> rw [e] at h <;> cases h
  have hM0 : (scatters M).OK := ⟨hM.fin, hM.nn, hM.map, hM.add, hM.loc⟩
  obtain ⟨_, hD⟩ := C132_1D (scatters M) hM0 Real.exp attenuates_exp mu w dx sig u m th hT hN na up bc order hord sch hsch hmu
    (fun a ha => (hw a ha).le) hm hdx hr hp
  have ok : OK (mg1 M sch w M.x.N na up bc order (fun _ _ => m) (fun _ => [])) w
      (fun g q o a b p => Solves1 M.x.N (fun i => sch g a i (q i)) o b p) := by
    have lin : ∀ g a i, Sweep.LinEq1 (sch g a i) := fun g a i => by
      obtain ⟨l1, l2, l3, _⟩ := Sweep.C27_schemes_linear Real.exp (mu a) 0 0 (dx i) 0 0 (sig g i)
      rcases hsch g a i with e | e | e
      · rw [e.1]; exact l1
      · rw [e]; exact l2
      · rw [e]; exact l3
    exact C125_ok1 M hM sch lin w na up bc order hord _ _ hr hp
  refine ⟨ok, hD, C133_fluxes (V := dx) (fw := fun _ _ a _ _ => mu a / 2) ok hD (fun _ _ => hw) hdx hT.tot
    (fun g hg => dissipates1 (sch g) w M.x.N na up (bc g) order _ _ _ _ dx (sig g) (fun a => mu a / 2)
      (fun a ha => half_pos (hmu a ha)) ?_) 0⟩
  intro a ha i hi
  have h1 := hmu a ha
  have h2 := hdx i hi
  have h3 := hT.tot g hg i hi
  rcases hsch g a i with e | e | e
  · rw [e.1]; exact cell_dd1 _ _ _ h1 h2 h3
  · rw [e]; exact cell_sd1 _ _ _ h1 h2 h3
  · obtain ⟨k1, k2⟩ := exp_ok (sig g i * dx i / mu a) (by positivity)
    rw [e]; exact cell_sc1 Real.exp _ _ _ h1 h2 h3 k1 k2

theorem rectangle_facts (M : MGSolve.Prob ℝ) (hM : M.OK) (mu eta w dx dy : Nat → ℝ) (sig : Nat → Nat → ℝ) (u : Nat → ℝ)
    (m th : ℝ) (hT : Tame (scatters M) sig u th) (nx ny na : Nat) (hx0 : 0 < nx) (hy0 : 0 < ny) (hN : nx * ny = M.x.N) (up : Bool)
    (bc : Nat → Nat → BC (Nat → ℝ)) (order : List Nat) (hord : order.Perm (List.range 4))
    (sch : Nat → Nat → Nat → Nat → ℝ → ℝ × ℝ → ℝ × (ℝ × ℝ))
    (hsch : ∀ g a i j, sch g a i j = sd2 (mu a) (eta a) (dx i) (dy j) (sig g (i + j * nx)) ∨
      sch g a i j = sc2 Real.exp (mu a) (eta a) (dx i) (dy j) (sig g (i + j * nx)))
    (hmu : ∀ a < na, 0 < mu a) (heta : ∀ a < na, 0 < eta a) (hw : ∀ a < na, 0 < w a)
    (hm : m * ∑ _o ∈ range 4, ∑ a ∈ range na, w a = 1) (hdx : ∀ i < nx, 0 < dx i) (hdy : ∀ j < ny, 0 < dy j)
    (hr : ∀ g s, bc g s = .reflect ↔ bc 0 s = .reflect) (hb : ∀ g s, bc g s = .vacuum ∨ bc g s = .reflect) :
    OK (mg2 M sch w nx ny na up bc order (fun _ _ => m) (fun _ => [])) w
      (fun g q o a b p => Solves2 nx ny (fun i j => sch g a i j (q (i + j * nx))) o b p) ∧
    Damped ((mg2 M sch w nx ny na up bc order (fun _ _ => m) (fun _ => [])).sourced fun _ _ => 0) w
      (fun g q o a b p => Solves2 nx ny (fun i j => sch g a i j (q (i + j * nx))) o b p) sig u m th ∧
    ∃ S, Exactly (mg2 M sch w nx ny na up bc order (fun _ _ => m) (fun _ => [])) w
      (fun g q o a b p => Solves2 nx ny (fun i j => sch g a i j (q (i + j * nx))) o b p) S := by
  have hp : ∀ g, ∀ s < 4, bc g s ≠ .periodic := fun g s _ h => by
    rcases hb g s with e | e <;> rw [e] at h <;> cases h
  have hM0 : (scatters M).OK := ⟨hM.fin, hM.nn, hM.map, hM.add, hM.loc⟩
  obtain ⟨_, hD⟩ := C132_2D (scatters M) hM0 Real.exp attenuates_exp mu eta w dx dy sig u m th hT nx ny na hx0 hy0 hN up bc order
    hord sch hsch hmu heta (fun a ha => (hw a ha).le) hm hdx hdy hr hp
  have ok : OK (mg2 M sch w nx ny na up bc order (fun _ _ => m) (fun _ => [])) w
      (fun g q o a b p => Solves2 nx ny (fun i j => sch g a i j (q (i + j * nx))) o b p) := by
    have lin : ∀ g a i j, Sweep.LinEq2 (sch g a i j) := fun g a i j => by
      obtain ⟨_, _, _, _, l2, l3, _⟩ := Sweep.C27_schemes_linear Real.exp (mu a) (eta a) 0 (dx i) (dy j) 0 (sig g (i + j * nx))
      rcases hsch g a i j with e | e
      · rw [e]; exact l2
      · rw [e]; exact l3
    exact C125_ok2 M hM sch lin w nx ny na up hN bc order hord _ _ hr hp
  have vol : ∀ i j, i < nx → dx ((i + j * nx) % nx) * dy ((i + j * nx) / nx) = dx i * dy j := fun i j hi => by
    rw [Nat.add_mul_mod_self_right, Nat.mod_eq_of_lt hi, Nat.add_mul_div_right _ _ hx0,
      Nat.div_eq_of_lt hi, Nat.zero_add]
  refine ⟨ok, hD, C133_fluxes (V := fun c => dx (c % nx) * dy (c / nx)) (fw := _) ok hD (fun _ _ => hw) (fun c hc => ?_) hT.tot
    (fun g hg => dissipates2 (sch g) w nx ny na up (bc g) order _ _ _ _ _ (sig g)
      (fun a j => mu a / 2 * dy j) (fun a i => eta a / 2 * dx i)
      (fun a ha j hj => mul_pos (half_pos (hmu a ha)) (hdy j hj))
      (fun a ha i hi => mul_pos (half_pos (heta a ha)) (hdx i hi)) ?_) (fun _ => 0)⟩
  · have hc' : c < nx * ny := by rw [hN]; exact hc
    exact mul_pos (hdx _ (Nat.mod_lt _ hx0)) (hdy _ (Nat.div_lt_of_lt_mul hc'))
  · intro a ha i hi j hj
    rw [vol i j hi]
    have ht := hT.tot g hg (i + j * nx) (by
      show i + j * nx < M.x.N
      rw [← hN]; exact WGReflect.cell2_lt hi hj)
    rcases hsch g a i j with e | e
    · rw [e]; exact cell_sd2 _ _ _ _ _ (hmu a ha) (heta a ha) (hdx i hi) (hdy j hj) ht
    · rw [e]; exact cell_sc2 _ _ _ _ _ (hmu a ha) (heta a ha) (hdx i hi) (hdy j hj) ht

/-- What stays: groups and cells; what does not fall: scattering, emission and production; sides that reflected still do. -/
structure Alike (M M' : MGSolve.Prob ℝ) (sig sig' : Nat → Nat → ℝ) : Prop where
  groups : M'.x.mat.G = M.x.mat.G
  cells : M'.x.N = M.x.N
  totals : ∀ g < M.x.mat.G, ∀ c < M.x.N, sig' g c ≤ sig g c
  couple : ∀ g < M.x.mat.G, ∀ gp < M.x.mat.G, ∀ c < M.x.N, couple (scatters M) g gp c ≤ MGReflect.couple (scatters M') g gp c
  emits : ∀ g < M.x.mat.G, ∀ c < M.x.N, emits M.x g c ≤ EigenPI.emits M'.x g c
  makes : ∀ g < M.x.mat.G, ∀ c < M.x.N, makes M.x g c ≤ EigenPI.makes M'.x g c

/-- Slabs: with larger totals no multiplication factor exceeds the one before. -/
theorem C145_keff_1D (M M' : MGSolve.Prob ℝ) (hM : M.OK) (hM' : M'.OK) (mu w dx : Nat → ℝ) (sig sig' : Nat → Nat → ℝ) (u u' : Nat → ℝ)
    (m th th' : ℝ) (hT : Tame (scatters M) sig u th) (hT' : Tame (scatters M') sig' u' th') (hN : 0 < M.x.N) (na : Nat) (up : Bool)
    (bc bc' : Nat → Nat → BC ℝ) (order : List Nat) (hord : order.Perm (List.range 2)) (sch sch' : Nat → Nat → Nat → ℝ → ℝ → ℝ × ℝ)
    (hsch : ∀ g a i, sch g a i = dd1 (mu a) (dx i) (sig g i) ∧ sch' g a i = dd1 (mu a) (dx i) (sig' g i) ∧
        sig g i * dx i ≤ 2 * mu a ∧ sig' g i * dx i ≤ 2 * mu a ∨
      sch g a i = sd1 (mu a) (dx i) (sig g i) ∧ sch' g a i = sd1 (mu a) (dx i) (sig' g i) ∨
      sch g a i = sc1 Real.exp (mu a) (dx i) (sig g i) ∧ sch' g a i = sc1 Real.exp (mu a) (dx i) (sig' g i))
    (hmu : ∀ a < na, 0 < mu a) (hw : ∀ a < na, 0 < w a) (hm : m * ∑ _o ∈ range 2, ∑ a ∈ range na, w a = 1)
    (hdx : ∀ i < M.x.N, 0 < dx i) (hr : ∀ g s, bc g s = .reflect ↔ bc 0 s = .reflect) (hr' : ∀ g s, bc' g s = .reflect ↔ bc' 0 s = .reflect)
    (hb : ∀ g s, bc g s = .vacuum ∨ bc g s = .reflect) (hb' : ∀ g s, bc' g s = .vacuum ∨ bc' g s = .reflect)
    (hbb : ∀ g s, bc g s = .reflect → bc' g s = .reflect) (hA : Alike M M' sig sig') (hd : Data M.x) (hd' : Data M'.x) {k k' : ℝ}
    (hk : k ≠ 0) (hk' : k' ≠ 0) {phi phi' : Nat → Nat → ℝ}
    (h : Eigen (mg1 M sch w M.x.N na up bc order (fun _ _ => m) (fun _ => [])) w
      (fun g q o a b p => Solves1 M.x.N (fun i => sch g a i (q i)) o b p) k phi)
    (hne : ∃ c < M.x.N, (mg1 M sch w M.x.N na up bc order (fun _ _ => m) (fun _ => [])).dens phi c ≠ 0)
    (h' : Eigen (mg1 M' sch' w M'.x.N na up bc' order (fun _ _ => m) (fun _ => [])) w
      (fun g q o a b p => Solves1 M'.x.N (fun i => sch' g a i (q i)) o b p) k' phi')
    (hp' : ∀ c, Fissile M'.x c → 0 < (mg1 M' sch' w M'.x.N na up bc' order (fun _ _ => m) (fun _ => [])).dens phi' c) : |k| ≤ k' := by
  obtain ⟨ok, hD, S, hS⟩ := slab_facts M hM mu w dx sig u m th hT hN na up bc order hord sch
    (fun g a i => by rcases hsch g a i with e | e | e <;> [exact Or.inl ⟨e.1, e.2.2.1⟩; exact Or.inr (Or.inl e.1); exact Or.inr (Or.inr e.1)])
    hmu hw hm hdx hr hb
  obtain ⟨ok', hD', S', hS'⟩ := slab_facts M' hM' mu w dx sig' u' m th' hT' (by rw [hA.cells]; exact hN) na up bc' order hord sch'
    (fun g a i => by rcases hsch g a i with e | e | e <;> [exact Or.inl ⟨e.2.1, e.2.2.2⟩; exact Or.inr (Or.inl e.2); exact Or.inr (Or.inr e.2)])
    hmu hw hm (by rw [hA.cells]; exact hdx) hr' hb'
  refine C145_keff ok hD (fun g _ s _ => hb g s) hS hd ok' hD' (fun g _ s _ => hb' g s) hS' hd'
    ⟨hA.groups, hA.cells, fun g _ => ?_, fun _ _ _ _ => le_rfl, hA.couple, fun g _ side _ => ?_⟩ (fun g hg => ?_) hA.emits hA.makes hk hk' h
    hne h' hp'
  · show SameDirs ((mg1 M' sch' w M'.x.N na up bc' order (fun _ _ => m) (fun _ => [])).W g) _
    rw [hA.cells]
    exact ⟨_, _, _, _, _, rfl⟩
  · change Grows _ side (bc g side) (bc' g side)
    rcases hb g side with e | e
    · rcases hb' g side with e' | e' <;> rw [e, e'] <;> trivial
    · rw [e, hbb g side e]
      trivial
  · have hg : g < M.x.mat.G := hg
    rw [hA.cells]
    exact C145_absorbs_1D Real.exp attenuates_exp declines_exp mu w dx (sig g) (sig' g) M.x.N na hN up (bc g) order _ _ _ _ (sch g) (sch' g)
      (fun a i => (hsch g a i).imp_left fun e => ⟨e.1, e.2.1, e.2.2.1⟩) hmu hdx
      (fun i hi => hT'.tot g (by show g < M'.x.mat.G; rw [hA.groups]; exact hg) i (by show i < M'.x.N; rw [hA.cells]; exact hi)) (hA.totals g hg)

/-- Rectangles. -/
theorem C145_keff_2D (M M' : MGSolve.Prob ℝ) (hM : M.OK) (hM' : M'.OK) (mu eta w dx dy : Nat → ℝ) (sig sig' : Nat → Nat → ℝ)
    (u u' : Nat → ℝ) (m th th' : ℝ) (hT : Tame (scatters M) sig u th) (hT' : Tame (scatters M') sig' u' th') (nx ny na : Nat)
    (hx0 : 0 < nx) (hy0 : 0 < ny) (hN : nx * ny = M.x.N) (up : Bool) (bc bc' : Nat → Nat → BC (Nat → ℝ))
    (order : List Nat) (hord : order.Perm (List.range 4)) (sch sch' : Nat → Nat → Nat → Nat → ℝ → ℝ × ℝ → ℝ × (ℝ × ℝ))
    (hsch : ∀ g a i j, sch g a i j = sd2 (mu a) (eta a) (dx i) (dy j) (sig g (i + j * nx)) ∧
        sch' g a i j = sd2 (mu a) (eta a) (dx i) (dy j) (sig' g (i + j * nx)) ∨
      sch g a i j = sc2 Real.exp (mu a) (eta a) (dx i) (dy j) (sig g (i + j * nx)) ∧
        sch' g a i j = sc2 Real.exp (mu a) (eta a) (dx i) (dy j) (sig' g (i + j * nx)))
    (hmu : ∀ a < na, 0 < mu a) (heta : ∀ a < na, 0 < eta a) (hw : ∀ a < na, 0 < w a)
    (hm : m * ∑ _o ∈ range 4, ∑ a ∈ range na, w a = 1) (hdx : ∀ i < nx, 0 < dx i) (hdy : ∀ j < ny, 0 < dy j)
    (hr : ∀ g s, bc g s = .reflect ↔ bc 0 s = .reflect) (hr' : ∀ g s, bc' g s = .reflect ↔ bc' 0 s = .reflect)
    (hb : ∀ g s, bc g s = .vacuum ∨ bc g s = .reflect) (hb' : ∀ g s, bc' g s = .vacuum ∨ bc' g s = .reflect)
    (hbb : ∀ g s, bc g s = .reflect → bc' g s = .reflect) (hA : Alike M M' sig sig') (hd : Data M.x) (hd' : Data M'.x) {k k' : ℝ}
    (hk : k ≠ 0) (hk' : k' ≠ 0) {phi phi' : Nat → Nat → ℝ}
    (h : Eigen (mg2 M sch w nx ny na up bc order (fun _ _ => m) (fun _ => [])) w
      (fun g q o a b p => Solves2 nx ny (fun i j => sch g a i j (q (i + j * nx))) o b p) k phi)
    (hne : ∃ c < M.x.N, (mg2 M sch w nx ny na up bc order (fun _ _ => m) (fun _ => [])).dens phi c ≠ 0)
    (h' : Eigen (mg2 M' sch' w nx ny na up bc' order (fun _ _ => m) (fun _ => [])) w
      (fun g q o a b p => Solves2 nx ny (fun i j => sch' g a i j (q (i + j * nx))) o b p) k' phi')
    (hp' : ∀ c, Fissile M'.x c → 0 < (mg2 M' sch' w nx ny na up bc' order (fun _ _ => m) (fun _ => [])).dens phi' c) : |k| ≤ k' := by
  obtain ⟨ok, hD, S, hS⟩ := rectangle_facts M hM mu eta w dx dy sig u m th hT nx ny na hx0 hy0 hN up bc order hord sch
    (fun g a i j => (hsch g a i j).imp And.left And.left) hmu heta hw hm hdx hdy hr hb
  obtain ⟨ok', hD', S', hS'⟩ := rectangle_facts M' hM' mu eta w dx dy sig' u' m th' hT' nx ny na hx0 hy0 (by rw [hA.cells, hN]) up bc' order
    hord sch' (fun g a i j => (hsch g a i j).imp And.right And.right) hmu heta hw hm hdx hdy hr' hb'
  refine C145_keff ok hD (fun g _ s _ => hb g s) hS hd ok' hD' (fun g _ s _ => hb' g s) hS' hd'
    ⟨hA.groups, hA.cells, fun g _ => ⟨_, _, _, _, _, rfl⟩, fun _ _ _ _ => le_rfl, hA.couple, fun g _ side _ => ?_⟩ (fun g hg => ?_) hA.emits
    hA.makes hk hk' h hne h' hp'
  · change Grows _ side (bc g side) (bc' g side)
    rcases hb g side with e | e
    · rcases hb' g side with e' | e' <;> rw [e, e'] <;> trivial
    · rw [e, hbb g side e]
      trivial
  · have hg : g < M.x.mat.G := hg
    exact C145_absorbs_2D Real.exp attenuates_exp declines_exp mu eta w dx dy (sig g) (sig' g) nx ny na hx0 hy0 up (bc g) order _ _ _ _
      (sch g) (sch' g) (hsch g) hmu heta hdx hdy
      (fun i hi => hT'.tot g (by show g < M'.x.mat.G; rw [hA.groups]; exact hg) i (by show i < M'.x.N; rw [hA.cells, ← hN]; exact hi))
      (fun c hc => hA.totals g hg c (by rw [← hN]; exact hc))

end geom

/-! ## Cases -/

section cases
open Detran.Sweep (Solves1 Solves2 dd1 sd1 sc1 sd2 sc2)

theorem bare_tame_at (N : Nat) (t : Nat → ℝ) (ht : ∀ c, 0 < t c) : Tame (bare N) (fun _ => t) (fun _ => 1) (1 / 2) := by
  have h : ∀ g gp c, couple (bare N) g gp c = 0 := fun g gp c => by
    simp [couple, bare, Material.xs, Material.Mat.new, Material.Mat.finalize]
  refine ⟨fun _ _ c _ => ht c, fun g _ gp _ c _ => (h g gp c).ge, fun _ _ => one_pos, fun g _ c _ => ?_, by norm_num, by norm_num⟩
  rw [sum_eq_zero fun gp _ => by rw [h, zero_mul]]
  have := ht c
  positivity

theorem bare_given1 (N : Nat) (sch) (w : Nat → ℝ) (bc : Nat → Nat → BC ℝ) (hb : ∀ g s ps, bc g s ≠ .fixed ps) :
    Given (mg1 (bare N) sch w N 1 true bc [0, 1] (fun _ _ => 1) (fun _ => [])) where
  q := fun _ _ _ _ => zero_le_one
  sides := fun g _ side _ ps h => absurd h (hb g side ps)

theorem bare_given2 (N nx ny : Nat) (sch) (w : Nat → ℝ) (bc : Nat → Nat → BC (Nat → ℝ)) (hb : ∀ g s ps, bc g s ≠ .fixed ps) :
    Given (mg2 (bare N) sch w nx ny 1 true bc [0, 1, 2, 3] (fun _ _ => 1) (fun _ => [])) where
  q := fun _ _ _ _ => zero_le_one
  sides := fun g _ side _ ps h => absurd h (hb g side ps)

/-- A slab of one cell of step characteristics and one thin diamond cell; the total of the first is 1, or a half. -/
example (phi phi' : Nat → Nat → ℝ)
    (h : MGFlux (mg1 (bare 2) (fun _ _ i => if i = 0 then sc1 Real.exp 1 3 1 else dd1 1 2 1) (fun _ => (1 : ℝ) / 2) 2 1 true
      (fun _ s => if s = 0 then .reflect else .vacuum) [0, 1] (fun _ _ => 1) (fun _ => [])) (fun _ => 1 / 2)
      (fun _ q o _ b p => Solves1 2 (fun i => (if i = 0 then sc1 Real.exp 1 3 (1 : ℝ) else dd1 1 2 1) (q i)) o b p) phi)
    (h' : MGFlux (mg1 (bare 2) (fun _ _ i => if i = 0 then sc1 Real.exp 1 3 (1 / 2) else dd1 1 2 1) (fun _ => (1 : ℝ) / 2) 2 1 true
      (fun _ s => if s = 0 then .reflect else .vacuum) [0, 1] (fun _ _ => 1) (fun _ => [])) (fun _ => 1 / 2)
      (fun _ q o _ b p => Solves1 2 (fun i => (if i = 0 then sc1 Real.exp 1 3 (1 / 2 : ℝ) else dd1 1 2 1) (q i)) o b p) phi') :
    phi 0 0 ≤ phi' 0 0 ∧ phi 0 1 ≤ phi' 0 1 := by
  have := C145_1D (bare 2) (bare 2) (bare_ok 2) (bare_ok 2) (fun _ => 1) (fun _ => 1 / 2) (fun i => if i = 0 then 3 else 2) (fun _ _ => 1)
    (fun _ i => if i = 0 then 1 / 2 else 1) (fun _ => 1) (fun _ => 1) 1 (1 / 2) (1 / 2) (bare_tame 2)
    (bare_tame_at 2 (fun i => if i = 0 then 1 / 2 else 1) fun c => by split_ifs <;> norm_num) (by show 0 < 2; decide) 1 true
    (fun _ s => if s = 0 then .reflect else .vacuum) (fun _ s => if s = 0 then .reflect else .vacuum) [0, 1] (by decide)
    (fun _ _ i => if i = 0 then sc1 Real.exp 1 3 1 else dd1 1 2 1) (fun _ _ i => if i = 0 then sc1 Real.exp 1 3 (1 / 2) else dd1 1 2 1)
    (fun g a i => by by_cases hi : i = 0 <;> simp [hi])
    (fun _ _ => one_pos) (fun _ _ => by norm_num) (by simp) (fun i _ => by split_ifs <;> norm_num)
    (fun _ _ => Iff.rfl) (fun _ _ => Iff.rfl) (fun _ s _ => by split_ifs <;> simp) (fun _ s _ => by split_ifs <;> simp) rfl rfl
    (fun _ _ c _ => by split_ifs <;> norm_num) (fun _ _ _ _ => le_rfl) (fun _ _ _ _ _ _ => le_rfl)
    (fun _ _ side _ => by split_ifs <;> trivial) (bare_given1 2 _ _ _ fun _ s ps => by split_ifs <;> simp) phi phi' h h'
  exact ⟨this 0 (by show 0 < 1; decide) 0 (by show 0 < 2; decide), this 0 (by show 0 < 1; decide) 1 (by show 1 < 2; decide)⟩

/-- Two by one cells of step characteristics; the second total also falls to a half. -/
example (phi phi' : Nat → Nat → ℝ)
    (h : MGFlux (mg2 (bare 2) (fun _ _ _ _ => sc2 Real.exp 1 2 1 1 1) (fun _ => (1 : ℝ) / 4) 2 1 1 true (fun _ _ => .reflect) [0, 1, 2, 3]
      (fun _ _ => 1) (fun _ => [])) (fun _ => 1 / 4)
      (fun _ q o _ b p => Solves2 2 1 (fun i j => sc2 Real.exp 1 2 1 1 (1 : ℝ) (q (i + j * 2))) o b p) phi)
    (h' : MGFlux (mg2 (bare 2) (fun _ _ _ _ => sc2 Real.exp 1 2 1 1 (1 / 2)) (fun _ => (1 : ℝ) / 4) 2 1 1 true (fun _ _ => .reflect)
      [0, 1, 2, 3] (fun _ _ => 1) (fun _ => [])) (fun _ => 1 / 4)
      (fun _ q o _ b p => Solves2 2 1 (fun i j => sc2 Real.exp 1 2 1 1 (1 / 2 : ℝ) (q (i + j * 2))) o b p) phi') :
    phi 0 1 ≤ phi' 0 1 :=
  C145_2D (bare 2) (bare 2) (bare_ok 2) (bare_ok 2) (fun _ => 1) (fun _ => 2) (fun _ => 1 / 4) (fun _ => 1) (fun _ => 1) (fun _ _ => 1)
    (fun _ _ => 1 / 2) (fun _ => 1) (fun _ => 1) 1 (1 / 2) (1 / 2) (bare_tame 2) (bare_tame_at 2 (fun _ => 1 / 2) fun _ => by norm_num) 2 1 1
    (by norm_num) (by norm_num) rfl true (fun _ _ => .reflect) (fun _ _ => .reflect) [0, 1, 2, 3] (by decide) _ _
    (fun _ _ _ _ => Or.inr ⟨rfl, rfl⟩) (fun _ _ => one_pos) (fun _ _ => by norm_num) (fun _ _ => by norm_num)
    (by norm_num [sum_range_succ]) (fun _ _ => one_pos) (fun _ _ => one_pos) (fun _ _ => Iff.rfl) (fun _ _ => Iff.rfl)
    (fun _ _ _ => by simp) (fun _ _ _ => by simp) rfl rfl
    (fun _ _ c _ => by norm_num) (fun _ _ _ _ => le_rfl) (fun _ _ _ _ _ _ => le_rfl)
    (fun _ _ side _ => trivial) (bare_given2 2 2 1 _ _ _ fun _ s ps => by simp) phi phi' h h' 0 (by show 0 < 1; decide) 1 (by show 1 < 2; decide)

theorem fuelN_tame_at (N : Nat) (t : ℝ) (ht : 1 ≤ t) : Tame (scatters (fuel N)) (fun _ _ => t) (fun _ => 1) (5 / 8) := by
  have h := fuelN_tame N
  refine ⟨fun _ _ _ _ => by linarith, h.couple, h.upos, fun g hg c hc => (h.row g hg c hc).trans ?_, h.th0, h.less⟩
  linarith

/-- The fuel on three cells with totals of 3/2, and of 1. -/
example (k k' : ℝ) (hk : k ≠ 0) (hk' : k' ≠ 0) (phi phi' : Nat → Nat → ℝ)
    (h : Eigen (mg1 (fuel 3) (fun _ _ _ => sd1 1 2 (3 / 2)) (fun _ => (1 : ℝ) / 2) 3 1 true
      (fun _ s => if s = 0 then .reflect else .vacuum) [0, 1] (fun _ _ => 1) (fun _ => [])) (fun _ => 1 / 2)
      (fun _ q o _ b p => Solves1 3 (fun i => sd1 1 2 (3 / 2 : ℝ) (q i)) o b p) k phi)
    (hne : (mg1 (fuel 3) (fun _ _ _ => sd1 1 2 (3 / 2)) (fun _ => (1 : ℝ) / 2) 3 1 true
      (fun _ s => if s = 0 then .reflect else .vacuum) [0, 1] (fun _ _ => 1) (fun _ => [])).dens phi 0 ≠ 0)
    (h' : Eigen (mg1 (fuel 3) (fun _ _ _ => sd1 1 2 1) (fun _ => (1 : ℝ) / 2) 3 1 true
      (fun _ s => if s = 0 then .reflect else .vacuum) [0, 1] (fun _ _ => 1) (fun _ => [])) (fun _ => 1 / 2)
      (fun _ q o _ b p => Solves1 3 (fun i => sd1 1 2 (1 : ℝ) (q i)) o b p) k' phi')
    (hp' : ∀ c, Fissile (fuel 3).x c → 0 < (mg1 (fuel 3) (fun _ _ _ => sd1 1 2 1) (fun _ => (1 : ℝ) / 2) 3 1 true
      (fun _ s => if s = 0 then .reflect else .vacuum) [0, 1] (fun _ _ => 1) (fun _ => [])).dens phi' c) : |k| ≤ k' :=
  C145_keff_1D (fuel 3) (fuel 3) (fuelN_ok 3) (fuelN_ok 3) (fun _ => 1) (fun _ => 1 / 2) (fun _ => 2) (fun _ _ => 3 / 2) (fun _ _ => 1)
    (fun _ => 1) (fun _ => 1) 1 (5 / 8) (5 / 8) (fuelN_tame_at 3 _ (by norm_num)) (fuelN_tame 3) (by show 0 < 3; decide) 1 true
    (fun _ s => if s = 0 then .reflect else .vacuum) (fun _ s => if s = 0 then .reflect else .vacuum) [0, 1] (by decide) _ _
    (fun _ _ _ => Or.inr (Or.inl ⟨rfl, rfl⟩)) (fun _ _ => one_pos) (fun _ _ => by norm_num) (by simp) (fun i _ => by norm_num)
    (fun _ _ => Iff.rfl) (fun _ _ => Iff.rfl) (fun _ s => by split_ifs <;> simp) (fun _ s => by split_ifs <;> simp) (fun _ _ h => h)
    ⟨rfl, rfl, fun _ _ _ _ => by norm_num, fun _ _ _ _ _ _ => le_rfl, fun _ _ _ _ => le_rfl, fun _ _ _ _ => le_rfl⟩
    (fuelN_data 3) (fuelN_data 3) hk hk' h ⟨0, by show 0 < 3; decide, hne⟩ h' hp'

/-- Diamond differencing in cells wider than twice the cosine is excluded for a reason: after a cell of four mean free paths the flux is
    negative, and a larger total in the cell behind it raises the flux there. -/
theorem C145_thick : ∃ e s s' : ℚ, 0 < s' ∧ s' < s ∧ e = (dd1 1 4 1 0 1).2 ∧ (dd1 1 1 s' 0 e).1 < (dd1 1 1 s 0 e).1 :=
  ⟨-1 / 3, 2, 1, by norm_num, by norm_num, by norm_num [dd1], by norm_num [dd1]⟩

end cases

end Detran.MGReflect

/-! ## Diffusion -/

namespace Detran.Diffusion
open Detran.Matrix Finset
variable {K : Type} [Field K] [LinearOrder K] [IsStrictOrderedRing K]

/-- The second loses no more: smaller totals, higher albedos, more scattering and fission, with the same mesh and diffusion coefficients. -/
structure Loss.Milder (L L' : Loss K) : Prop where
  M : L'.M = L.M
  G : L'.mat.G = L.mat.G
  dc : ∀ g < L.mat.G, ∀ c < L.M.size, L'.dc g c = L.dc g c
  al : ∀ s, L.al s ≤ L'.al s
  sigT : ∀ g < L.mat.G, ∀ c < L.M.size, L'.mat.sigT g (L'.mmap c) ≤ L.mat.sigT g (L.mmap c)
  inXs : ∀ g < L.mat.G, ∀ gp < L.mat.G, ∀ c < L.M.size, L.inXs g gp c ≤ L'.inXs g gp c

/-- Diffusion fluxes with more absorption, at the same diffusion coefficients, are nowhere higher. -/
theorem C145_diffusion (S S' : FixedSrc K) (ok : S.OK) (ok' : S'.OK) (hp : S.L.Pos) (hp' : S'.L.Pos) {u u' : Nat → K} (hW : S.L.Weak u)
    (hW' : S'.L.Weak u') (hL : S.L.Milder S'.L) (h : S.NonNeg)
    (hq : ∀ g < S.L.mat.G, ∀ c < S.L.M.size, S.given g c ≤ S'.given g c)
    (hj : ∀ leak < 2 * S.L.M.dim, ∀ g < S.L.mat.G, ∀ i j, S.jin leak g i j ≤ S'.jin leak g i j)
    (srt : List (Trip K) → List (Trip K)) (hs : IsSort srt) (C C' : CSR K) (bs bs' : List Bool)
    (hC : S.L.sys.make srt = .ok (some C, bs)) (hC' : S'.L.sys.make srt = .ok (some C', bs')) (x x' : Nat → K)
    (hx : ∀ p < S.L.mat.G * S.L.M.size, C.multiply x p = S.rhs p)
    (hx' : ∀ p < S.L.mat.G * S.L.M.size, C'.multiply x' p = S'.rhs p) {g c : Nat} (hg : g < S.L.mat.G) (hc : c < S.L.M.size) :
    x (c + g * S.L.M.size) ≤ x' (c + g * S.L.M.size) := by
  have hM := hL.M
  have hpo : ∀ g c, S'.L.pos g c = S.L.pos g c := fun g c => by rw [ok.pos, ok'.pos, hM]
  have h1 := (solves_iff S ok srt hs C bs hC x).1 hx
  have h2 := (solves_iff S' ok' srt hs C' bs' hC' x').1 (by rw [hL.G, hM]; exact hx')
  have h0 : ∀ g < S.L.mat.G, ∀ c < S.L.M.size, 0 ≤ x (S.L.pos g c) := fun g hg c hc => by
    rw [ok.pos]
    exact C132_diffusion_positive S ok hp srt hs C bs hC hW h x hx hg hc
  have := lhs_mono S'.L hp' hW' x x' (fun g hg c hc => by
    have hgg := (in_active ok').1 hg
    have hg' : g < S.L.mat.G := by rw [← hL.G]; exact hgg
    have hc' : c < S.L.M.size := hM ▸ hc
    rw [h2 g hgg c hc]
    have e : S'.L.lhs x g c ≤ S.L.lhs x g c := by
      unfold Loss.lhs
      rw [local_eq, local_eq, ok.active, ok'.active, hL.G, hM]
      simp only [hpo]
      refine add_le_add (sum_le_sum fun leak hl => ?_) (sub_le_sub (mul_le_mul_of_nonneg_right (hL.sigT g hg' c hc') (h0 g hg' c hc'))
        (sum_le_sum fun gp hgp => mul_le_mul_of_nonneg_right (hL.inXs g hg' gp (mem_range.1 hgp) c hc') (h0 gp (mem_range.1 hgp) c hc')))
      have hw : 0 < S.L.M.width c (leak / 2) := hp.h _ _
      refine div_le_div_of_nonneg_right ?_ hw.le
      unfold Loss.faceTerm Loss.dtilde
      rw [hM, hL.dc g hg' c hc']
      by_cases hb : S.L.M.onBoundary c leak = true
      · rw [if_pos hb, if_pos hb, if_pos hb, if_pos hb]
        exact mul_le_mul_of_nonneg_right (dBoundary_anti (hp.dc _ _) hw (hp.al _).1 (hL.al _) (hp'.al _).2) (h0 g hg' c hc')
      · rw [if_neg hb, if_neg hb, if_neg hb, if_neg hb,
          hL.dc g hg' _ (neighbour_lt S.L.M hc' (mem_range.1 hl) (by simpa using hb))]
    refine e.trans ?_
    rw [h1 g hg' c hc', C101_source S ok.op.grid.dim_le hg' hc', C101_source S' ok'.op.grid.dim_le hgg hc, hM]
    refine add_le_add (hq g hg' c hc') (sum_le_sum fun leak hl => ?_)
    split
    · have hw : 0 < S.L.M.width c (leak / 2) := hp.h _ _
      have hd : 0 < S.L.dc g c := hp.dc _ _
      have e2 : S.jinAt g c leak ≤ S'.jinAt g c leak := by
        unfold FixedSrc.jinAt
        rw [hM]
        exact hj leak (mem_range.1 hl) g hg' _ _
      rw [hL.dc g hg' c hc']
      refine div_le_div_of_nonneg_right (mul_le_mul_of_nonneg_left e2 (by positivity)) (by positivity)
    · exact le_rfl) g ((in_active ok').2 (by rw [hL.G]; exact hg)) c (by rw [hM]; exact hc)
  rwa [hpo, ok.pos] at this

/-- The cell of `thinSrc` with a smaller cross section. -/
def mildSrc : FixedSrc ℚ where
  L := ⟨⟨1, 1, 1, 1, fun _ _ => 1⟩, ({ (Material.Mat.new 1 1 : Material.Mat ℚ) with
    sigT := fun _ _ => 1 / 4, diff := fun _ _ => 1 } : Material.Mat ℚ).finalize, fun _ => 0, fun s => if s < 2 then 0 else 1, false, 0,
    false, 0, 1⟩
  ext := []
  fsrc := none
  jin := fun s _ _ _ => if s = 0 then 1 else 0

theorem mildSrc_ok : mildSrc.OK := by
  refine ⟨⟨⟨show 1 ≤ 3 by decide, ?_⟩, ⟨_, rfl⟩, ?_, ?_, ?_⟩, ?_, ?_, ?_⟩
  · intro a h1 h2
    have h1 : 1 ≤ a := h1
    interval_cases a <;> rfl
  · exact fun _ _ _ => le_refl (0 : ℚ)
  · intro c _
    show 0 < 1
    decide
  · decide
  · decide
  · intro leak hl
    exact Or.inl (if_pos hl)
  · intro leak hl _
    exact if_neg (Nat.not_lt.2 hl)

theorem mildSrc_pos : mildSrc.L.Pos := by
  refine ⟨fun _ _ => one_pos, fun _ _ => one_pos, fun s => ?_⟩
  show (-1 : ℚ) ≤ (if s < 2 then 0 else 1) ∧ (if s < 2 then 0 else 1) ≤ (1 : ℚ)
  split <;> norm_num

theorem mildSrc_weak : mildSrc.L.Weak fun _ => 1 := by
  have ha : mildSrc.L.active = range 1 := mildSrc_ok.active
  refine ⟨fun _ _ => one_pos, ?_, ?_⟩ <;> rw [ha]
  · have : ∀ g ∈ range 1, ∀ gp ∈ range 1, ∀ c < 1, 0 ≤ mildSrc.L.inXs g gp c := by decide +kernel
    exact this
  · have : ∀ g ∈ range 1, ∀ c < 1, ∑ gp ∈ range 1, mildSrc.L.inXs g gp c * 1 < mildSrc.L.mat.sigT g (mildSrc.L.mmap c) * 1 := by
      decide +kernel
    exact this

/-- The absorber of one unit cell with a cross section of 1/3, or of 1/4. -/
example (srt : List (Trip ℚ) → List (Trip ℚ)) (hs : IsSort srt) (C C' : CSR ℚ) (bs bs' : List Bool)
    (hC : thinSrc.L.sys.make srt = .ok (some C, bs)) (hC' : mildSrc.L.sys.make srt = .ok (some C', bs')) (x x' : Nat → ℚ)
    (hx : ∀ p < 1, C.multiply x p = thinSrc.rhs p) (hx' : ∀ p < 1, C'.multiply x' p = mildSrc.rhs p) : x 0 ≤ x' 0 :=
  C145_diffusion thinSrc mildSrc thinSrc_ok mildSrc_ok thinSrc_pos mildSrc_pos thinSrc_weak mildSrc_weak
    ⟨rfl, rfl, fun _ _ _ _ => rfl, fun _ => le_rfl, fun _ _ _ _ => by norm_num [thinSrc, mildSrc, Material.Mat.finalize],
      fun _ _ _ _ _ _ => le_rfl⟩ thinSrc_nonneg
    (fun _ _ _ _ => le_rfl) (fun _ _ _ _ _ _ => le_rfl) srt hs C C' bs bs' hC hC' x x' hx hx' (g := 0) (c := 0) (by decide) (by decide)

end Detran.Diffusion
