import Verif.Model.Moc
import Mathlib.Analysis.SpecialFunctions.ExpDeriv
import Mathlib.Analysis.Calculus.MeanValue
import Mathlib.MeasureTheory.Integral.IntervalIntegral.FundThmCalculus
import Mathlib.Tactic.Linarith
import Mathlib.Tactic.FieldSimp

/-!
# Properties of the characteristics equation (C97)
-/

namespace Detran.Moc

open Detran.Solver (upd)

section field
variable {K : Type} [Field K] [DecidableEq K]

/-- Segment balance: what leaves less what enters is the length times (source less absorption at the
    segment average), whatever the exponential. -/
theorem C97_segment_balance (ex : K → K) (sigma l q pin : K) (hs : sigma ≠ 0) (hl : l ≠ 0) :
    (segment ex sigma l q pin).1 - pin = l * (q - sigma * (segment ex sigma l q pin).2) := by
  simp only [segment]
  field_simp
  ring

/-- Cutting a segment in two changes neither the flux leaving nor the integral along it. -/
theorem C97_split (ex : K → K) (hex : ∀ a b, ex (a + b) = ex a * ex b) (sigma l m q pin : K) (hs : sigma ≠ 0)
    (hl : l ≠ 0) (hm : m ≠ 0) (hlm : l + m ≠ 0) :
    let first := segment ex sigma l q pin
    let second := segment ex sigma m q first.1
    let whole := segment ex sigma (l + m) q pin
    whole.1 = second.1 ∧ (l + m) * whole.2 = l * first.2 + m * second.2 := by
  simp only [segment]
  have he : ex (-sigma * (l + m)) = ex (-sigma * l) * ex (-sigma * m) := by rw [← hex]; ring_nf
  rw [he]
  constructor <;> field_simp <;> ring

omit [DecidableEq K] in
theorem upd_same (f : Nat → K) (i : Nat) (v : K) : upd f i v i = v := by simp [upd]

omit [DecidableEq K] in
theorem upd_other (f : Nat → K) {i j : Nat} (v : K) (h : j ≠ i) : upd f i v j = f j := by simp [upd, h]

/-- The direction for which the object was last set up, polar angle after azimuth. -/
def Ready (d : Data K) (s : Setup) (g a p : Nat) : Prop :=
  s.g = some g ∧ s.polar = some p ∧ s.angle = some (Angle.angle d.np a p)

/-- Setting the group at any time, and the polar angle after the azimuth, makes the object ready for
    that direction, whatever it was set up for before. -/
theorem C97_setup (d : Data K) (s : Setup) (g a p : Nat) :
    Ready d (((s.setGroup g).setAzimuth a).setPolar d p) g a p ∧
    Ready d (((s.setAzimuth a).setPolar d p).setGroup g) g a p ∧
    Ready d (((s.setAzimuth a).setGroup g).setPolar d p) g a p := by
  simp [Ready, Setup.setGroup, Setup.setAzimuth, Setup.setPolar]

/-- Changing the azimuth alone leaves the weight of the old direction in use. -/
theorem C97_stale_angle (d : Data K) (s : Setup) (g a a' p : Nat) (h : Ready d s g a p) :
    Ready d (s.setAzimuth a') g a p := h

/-- What one call adds, for a ready object and non-degenerate data. -/
theorem solve_eq (ex : K → K) (d : Data K) (s : Setup) (g a p : Nat) (h : Ready d s g a p) (r : Nat)
    (len wid : K) (src : Nat → K) (pin : K) (f : Flux K) (h1 : d.sin p ≠ 0) (h2 : d.sigt (d.mat r) g ≠ 0)
    (h3 : len ≠ 0) (h4 : d.vol r ≠ 0) :
    solve ex d s r len wid src pin f = some
      { out := (segment ex (d.sigt (d.mat r) g) (len / d.sin p) (src r) pin).1
        phi := upd f.phi r (f.phi r + d.weight (Angle.angle d.np a p) *
          ((segment ex (d.sigt (d.mat r) g) (len / d.sin p) (src r) pin).2 * (wid * len / d.vol r)))
        psi := if d.keepPsi then upd f.psi r (f.psi r +
          (segment ex (d.sigt (d.mat r) g) (len / d.sin p) (src r) pin).2 * (wid * len / d.vol r)) else f.psi } := by
  obtain ⟨hg, hp, ha⟩ := h
  simp only [solve, hg, hp, ha]
  have hl : len * (1 / d.sin p) = len / d.sin p := by ring
  have hv : wid * len * (1 / d.vol r) = wid * len / d.vol r := by ring
  rw [hl, hv, if_neg]
  simp [h1, h2, h3, h4]

/-- A void region has no outcome: the coefficients divide by the cross section. -/
theorem C97_void (ex : K → K) (d : Data K) (s : Setup) (r : Nat) (len wid : K) (src : Nat → K) (pin : K)
    (f : Flux K) (g : Nat) (hg : s.g = some g) (h : d.sigt (d.mat r) g = 0) :
    solve ex d s r len wid src pin f = none := by
  simp only [solve, hg]
  split
  · rename_i h1 h2 h3
    cases h1
    simp [h]
  · rfl

/-- Data of the segments of a track for which nothing divides by zero. -/
def Good (d : Data K) (g p : Nat) (t : List (Seg K)) : Prop :=
  d.sin p ≠ 0 ∧ ∀ e ∈ t, d.sigt (d.mat e.region) g ≠ 0 ∧ e.length ≠ 0 ∧ d.vol e.region ≠ 0

/-- Area of the part of region `r` that a track covers. -/
def area (t : List (Seg K)) (r : Nat) : K := ((t.filter fun e => e.region = r).map fun e => e.width * e.length).sum

/-- A flat angular flux, in balance with the source of every region, is carried unchanged along a
    track, and each region gets weight times flux times the fraction of its area that the track covers: when the
    tracks of a direction cover the region exactly, that is weight times flux. -/
theorem C97_flat (ex : K → K) (d : Data K) (s : Setup) (g a p : Nat) (h : Ready d s g a p) (src : Nat → K) (v : K)
    (hsrc : ∀ r, src r = d.sigt (d.mat r) g * v) (t : List (Seg K)) (ht : Good d g p t) (f : Flux K)
    (hf : f.out = v) :
    ∃ f', along ex d s src t f = some f' ∧ f'.out = v ∧
      (∀ r, f'.phi r = f.phi r + d.weight (Angle.angle d.np a p) * v * (area t r / d.vol r)) ∧
      (∀ r, f'.psi r = if d.keepPsi then f.psi r + v * (area t r / d.vol r) else f.psi r) := by
  induction t generalizing f with
  | nil => exact ⟨f, rfl, hf, by simp [area], by simp [area]⟩
  | cons e t ih =>
    obtain ⟨h1, h2⟩ := ht
    obtain ⟨k1, k2, k3⟩ := h2 e (by simp)
    have hl : e.length / d.sin p ≠ 0 := div_ne_zero k2 h1
    have hout : (segment ex (d.sigt (d.mat e.region) g) (e.length / d.sin p) (src e.region) f.out).1 = v := by
      simp only [segment, hsrc, hf]; field_simp; ring
    have havg : (segment ex (d.sigt (d.mat e.region) g) (e.length / d.sin p) (src e.region) f.out).2 = v := by
      simp only [segment, hsrc, hf]
      field_simp
      ring
    have hs := solve_eq ex d s g a p h e.region e.length e.width src f.out f h1 k1 k2 k3
    rw [hout, havg] at hs
    obtain ⟨f', q1, q2, q3, q4⟩ := ih ⟨h1, fun e' he' => h2 e' (by simp [he'])⟩
      { out := v
        phi := upd f.phi e.region (f.phi e.region + d.weight (Angle.angle d.np a p) *
          (v * (e.width * e.length / d.vol e.region)))
        psi := if d.keepPsi then upd f.psi e.region (f.psi e.region +
          v * (e.width * e.length / d.vol e.region)) else f.psi } rfl
    refine ⟨f', by simp only [along, hs, Option.bind_some]; exact q1, q2, fun r => ?_, fun r => ?_⟩
    · rw [q3]
      by_cases hr : r = e.region
      · subst hr
        simp only [upd_same, area, List.filter_cons, decide_true, if_true, List.map_cons, List.sum_cons]
        ring
      · simp only [upd_other _ _ hr, area, List.filter_cons, decide_eq_true_eq, if_neg (Ne.symm hr)]
    · rw [q4]
      by_cases hk : d.keepPsi = true
      · simp only [hk, if_true]
        by_cases hr : r = e.region
        · subst hr
          simp only [upd_same, area, List.filter_cons, decide_true, if_true, List.map_cons, List.sum_cons]
          ring
        · simp only [upd_other _ _ hr, area, List.filter_cons, decide_eq_true_eq, if_neg (Ne.symm hr)]
      · simp [hk]

/-- Particle balance along a whole track of width `W`: what enters less what leaves, through the
    cross-section `W sin θ` of the track, plus what the source emits in the covered area is what the flux added
    to the regions absorbs. -/
theorem C97_track_balance (ex : K → K) (d : Data K) (s : Setup) (g a p : Nat) (h : Ready d s g a p)
    (src : Nat → K) (W : K) (N : Nat) (t : List (Seg K)) (ht : Good d g p t)
    (hW : ∀ e ∈ t, e.width = W) (hN : ∀ e ∈ t, e.region < N) (f : Flux K) :
    ∃ f', along ex d s src t f = some f' ∧
      d.weight (Angle.angle d.np a p) * (W * d.sin p * (f.out - f'.out) + (t.map fun e => W * e.length * src e.region).sum)
        = ∑ r ∈ Finset.range N, d.sigt (d.mat r) g * d.vol r * (f'.phi r - f.phi r) := by
  induction t generalizing f with
  | nil => exact ⟨f, rfl, by simp⟩
  | cons e t ih =>
    obtain ⟨h1, h2⟩ := ht
    obtain ⟨k1, k2, k3⟩ := h2 e (by simp)
    have hl : e.length / d.sin p ≠ 0 := div_ne_zero k2 h1
    have hs := solve_eq ex d s g a p h e.region e.length e.width src f.out f h1 k1 k2 k3
    have hb := C97_segment_balance ex (d.sigt (d.mat e.region) g) (e.length / d.sin p) (src e.region) f.out k1 hl
    rw [hW e (by simp)] at hs
    revert hs hb
    generalize segment ex (d.sigt (d.mat e.region) g) (e.length / d.sin p) (src e.region) f.out = q
    intro hs hb
    obtain ⟨f', q1, q2⟩ := ih ⟨h1, fun e' he' => h2 e' (by simp [he'])⟩ (fun e' he' => hW e' (by simp [he']))
      (fun e' he' => hN e' (by simp [he']))
      { out := q.1
        phi := upd f.phi e.region (f.phi e.region + d.weight (Angle.angle d.np a p) *
          (q.2 * (W * e.length / d.vol e.region)))
        psi := if d.keepPsi then upd f.psi e.region (f.psi e.region +
          q.2 * (W * e.length / d.vol e.region)) else f.psi }
    refine ⟨f', by simp only [along]; rw [hW e (by simp), hs, Option.bind_some]; exact q1, ?_⟩
    have hsum : ∑ r ∈ Finset.range N, d.sigt (d.mat r) g * d.vol r * (f'.phi r - f.phi r) =
        ∑ r ∈ Finset.range N, d.sigt (d.mat r) g * d.vol r * (f'.phi r - upd f.phi e.region (f.phi e.region +
          d.weight (Angle.angle d.np a p) * (q.2 * (W * e.length / d.vol e.region))) r) +
        d.sigt (d.mat e.region) g * d.vol e.region *
          (d.weight (Angle.angle d.np a p) * (q.2 * (W * e.length / d.vol e.region))) := by
      have hm : e.region ∈ Finset.range N := Finset.mem_range.2 (hN e (by simp))
      rw [← Finset.add_sum_erase _ _ hm, ← Finset.add_sum_erase _ _ hm, upd_same]
      have : ∀ r ∈ (Finset.range N).erase e.region, d.sigt (d.mat r) g * d.vol r * (f'.phi r - f.phi r) =
          d.sigt (d.mat r) g * d.vol r * (f'.phi r - upd f.phi e.region (f.phi e.region +
          d.weight (Angle.angle d.np a p) * (q.2 * (W * e.length / d.vol e.region))) r) := by
        intro r hr
        rw [upd_other _ _ (Finset.ne_of_mem_erase hr)]
      rw [Finset.sum_congr rfl this]
      ring
    rw [hsum, ← q2]
    simp only [List.map_cons, List.sum_cons]
    have hb' : d.sin p * (q.1 - f.out) = e.length * (src e.region - d.sigt (d.mat e.region) g * q.2) := by
      rw [hb]; field_simp
    have hv : d.sigt (d.mat e.region) g * d.vol e.region * (d.weight (Angle.angle d.np a p) *
        (q.2 * (W * e.length / d.vol e.region))) =
        d.sigt (d.mat e.region) g * (d.weight (Angle.angle d.np a p) * (q.2 * (W * e.length))) := by
      field_simp
    rw [hv]
    linear_combination (-(d.weight (Angle.angle d.np a p)) * W) * hb'

omit [DecidableEq K] in
/-- What a user expects of a sweep: the flux it leaves is that of the present source, not of the
    array passed in. -/
def C97Claim (K : Type) : Prop := ∀ phi phi' : Nat → K, sweep phi = sweep phi'

/-- The characteristics sweep does nothing (its body is commented out), so the expectation fails. -/
theorem C97_claim_fails : ¬ C97Claim ℚ := fun h => by
  have := congrFun (h (fun _ => 0) fun _ => 1) 0
  simp [sweep] at this

end field

/-! ## Against the transport equation along the segment -/

section real

/-- The flux leaving a segment is the solution of `dψ/ds + σ ψ = q` that starts at the incident
    flux, and the segment average is its mean: for every such solution. -/
theorem C97_segment_exact (sigma l q pin : ℝ) (hs : sigma ≠ 0) (hl : 0 < l) (psi : ℝ → ℝ) (h0 : psi 0 = pin)
    (hode : ∀ x, HasDerivAt psi (q - sigma * psi x) x) :
    (segment Real.exp sigma l q pin).1 = psi l ∧
      (segment Real.exp sigma l q pin).2 = (1 / l) * ∫ x in (0 : ℝ)..l, psi x := by
  have hsol : ∀ x, (psi x - q / sigma) * Real.exp (sigma * x) = pin - q / sigma := by
    have hd : ∀ x, HasDerivAt (fun x => (psi x - q / sigma) * Real.exp (sigma * x)) 0 x := by
      intro x
      have h1 := (hode x).sub_const (q / sigma)
      have h2 : HasDerivAt (fun x => Real.exp (sigma * x)) (Real.exp (sigma * x) * (sigma * 1)) x :=
        ((hasDerivAt_id x).const_mul sigma).exp
      refine (h1.mul h2).congr_deriv ?_
      field_simp
      ring
    intro x
    have := is_const_of_deriv_eq_zero (fun y => (hd y).differentiableAt) (fun y => (hd y).deriv) x 0
    simpa [h0] using this
  have hl' : (segment Real.exp sigma l q pin).1 = psi l := by
    have h := hsol l
    have he : Real.exp (-sigma * l) = (Real.exp (sigma * l))⁻¹ := by
      rw [← Real.exp_neg]; ring_nf
    have hne := (Real.exp_pos (sigma * l)).ne'
    have : psi l = q / sigma + (pin - q / sigma) * (Real.exp (sigma * l))⁻¹ := by
      rw [← h]; field_simp; ring
    simp only [segment, this, he]
    field_simp
    ring
  refine ⟨hl', ?_⟩
  have hcont : Continuous psi := continuous_iff_continuousAt.2 fun x => (hode x).continuousAt
  have hint : ∫ x in (0 : ℝ)..l, (q - sigma * psi x) = psi l - psi 0 :=
    intervalIntegral.integral_eq_sub_of_hasDerivAt (fun x _ => hode x)
      ((continuous_const.sub (continuous_const.mul hcont)).intervalIntegrable _ _)
  have hi : IntervalIntegrable (fun x => sigma * psi x) MeasureTheory.volume 0 l :=
    (continuous_const.mul hcont).intervalIntegrable _ _
  rw [intervalIntegral.integral_sub (continuous_const.intervalIntegrable _ _) hi,
    intervalIntegral.integral_const_mul,
    intervalIntegral.integral_const, h0] at hint
  have hb := C97_segment_balance Real.exp sigma l q pin hs hl.ne'
  rw [hl', ← hint] at hb
  simp only [smul_eq_mul, sub_zero] at hb
  have : sigma * (l * (segment Real.exp sigma l q pin).2) = sigma * ∫ x in (0 : ℝ)..l, psi x := by linarith
  have := mul_left_cancel₀ hs this
  field_simp
  linarith

/-- Such a solution exists, so the theorem says what the code computes for every datum. -/
theorem C97_solution_exists (sigma q pin : ℝ) (hs : sigma ≠ 0) :
    ∃ psi : ℝ → ℝ, psi 0 = pin ∧ ∀ x, HasDerivAt psi (q - sigma * psi x) x := by
  refine ⟨fun x => q / sigma + (pin - q / sigma) * Real.exp (-sigma * x), by simp, fun x => ?_⟩
  have h2 : HasDerivAt (fun x => Real.exp (-sigma * x)) (Real.exp (-sigma * x) * (-sigma * 1)) x :=
    ((hasDerivAt_id x).const_mul (-sigma)).exp
  refine ((h2.const_mul (pin - q / sigma)).const_add (q / sigma)).congr_deriv ?_
  field_simp
  ring

/-- The whole call: the outgoing flux is the solution at the end of the path `length / sin θ`, the
    region's scalar flux gains weight × mean × covered fraction, the angular flux the same without the weight if it is
    kept, and nothing else changes. -/
theorem C97_solve (d : Data ℝ) (s : Setup) (g a p : Nat) (h : Ready d s g a p) (r : Nat) (len wid : ℝ)
    (src : Nat → ℝ) (pin : ℝ) (f : Flux ℝ) (h1 : 0 < d.sin p) (h2 : d.sigt (d.mat r) g ≠ 0) (h3 : 0 < len)
    (h4 : d.vol r ≠ 0) (psi : ℝ → ℝ) (h0 : psi 0 = pin)
    (hode : ∀ x, HasDerivAt psi (src r - d.sigt (d.mat r) g * psi x) x) :
    ∃ f', solve Real.exp d s r len wid src pin f = some f' ∧ f'.out = psi (len / d.sin p) ∧
      (∀ mean, mean = (d.sin p / len) * ∫ x in (0 : ℝ)..(len / d.sin p), psi x →
        f'.phi r = f.phi r + d.weight (Angle.angle d.np a p) * mean * (wid * len / d.vol r) ∧
        f'.psi r = f.psi r + if d.keepPsi then mean * (wid * len / d.vol r) else 0) ∧
      ∀ r', r' ≠ r → f'.phi r' = f.phi r' ∧ f'.psi r' = f.psi r' := by
  obtain ⟨e1, e2⟩ := C97_segment_exact _ (len / d.sin p) (src r) pin h2 (div_pos h3 h1) psi h0 hode
  refine ⟨_, solve_eq Real.exp d s g a p h r len wid src pin f h1.ne' h2 h3.ne' h4, e1, ?_, ?_⟩
  · intro m hm
    have hm' : (segment Real.exp (d.sigt (d.mat r) g) (len / d.sin p) (src r) pin).2 = m := by
      rw [e2, hm]; congr 1; field_simp
    rw [hm']
    refine ⟨by simp only [upd_same]; ring, ?_⟩
    by_cases hk : d.keepPsi = true
    · simp [hk, upd_same]
    · simp [hk]
  · intro r' hr'
    refine ⟨upd_other _ _ hr', ?_⟩
    by_cases hk : d.keepPsi = true
    · simp [hk, upd_other _ _ hr']
    · simp [hk]

/-- Non-negative sources and incident fluxes give non-negative fluxes. -/
theorem C97_positive (sigma l q pin : ℝ) (hs : 0 < sigma) (hl : 0 < l) (hq : 0 ≤ q) (hp : 0 ≤ pin) :
    0 ≤ (segment Real.exp sigma l q pin).1 ∧ 0 ≤ (segment Real.exp sigma l q pin).2 := by
  have hA := Real.exp_pos (-sigma * l)
  have hA1 : Real.exp (-sigma * l) ≤ 1 := Real.exp_le_one_iff.2 (by nlinarith)
  have hA2 : 1 - sigma * l ≤ Real.exp (-sigma * l) := by
    have := Real.add_one_le_exp (-sigma * l); linarith
  have hB : 0 ≤ (1 - Real.exp (-sigma * l)) / sigma := div_nonneg (by linarith) hs.le
  have hBl : (1 - Real.exp (-sigma * l)) / sigma ≤ l := by
    rw [div_le_iff₀ hs]; linarith
  have hC : 0 ≤ 1 - (1 - Real.exp (-sigma * l)) / sigma / l := by
    rw [sub_nonneg, div_le_one hl]; exact hBl
  simp only [segment]
  constructor
  · positivity
  · exact mul_nonneg (by positivity) (add_nonneg (mul_nonneg hB hp) (mul_nonneg (mul_nonneg (by positivity) hC) hq))

/-- In a void the equation still has a solution (linear in the path), which the code cannot give. -/
theorem C97_void_solution (q pin : ℝ) :
    ∃ psi : ℝ → ℝ, psi 0 = pin ∧ ∀ x, HasDerivAt psi (q - 0 * psi x) x :=
  ⟨fun x => pin + x * q, by simp, fun x => by
    refine (((hasDerivAt_id x).mul_const q).const_add pin).congr_deriv (by simp)⟩

end real

/-! ## Cases meeting the hypotheses -/

/-- Two materials, three regions, two polar angles. -/
def demo : Data ℚ where
  sigt := fun m _ => if m = 0 then 1 else 2
  mat := fun r => if r = 1 then 1 else 0
  vol := fun r => (r : ℚ) + 1
  sin := fun p => if p = 0 then 1 / 2 else 3 / 4
  weight := fun a => (a : ℚ) + 1
  np := 2
  keepPsi := true

def demoSetup : Setup := ((Setup.new.setGroup 0).setAzimuth 1).setPolar demo 1

def demoTrack : List (Seg ℚ) := [⟨0, 1 / 2, 1 / 4⟩, ⟨1, 1 / 3, 1 / 4⟩, ⟨0, 1, 1 / 4⟩, ⟨2, 2, 1 / 4⟩]

example : Ready demo demoSetup 0 1 1 ∧ Good demo 0 1 demoTrack := by
  refine ⟨⟨rfl, rfl, rfl⟩, by decide +kernel, ?_⟩
  decide +kernel

example : (along (fun _ => (1 / 2 : ℚ)) demo demoSetup (fun r => if r = 1 then 10 else 5) demoTrack
    ⟨5, fun _ => 0, fun _ => 0⟩).map (fun f => (f.out, f.phi 0, f.phi 1, f.phi 2, f.psi 0)) =
      some (5, 15 / 2, 5 / 6, 10 / 3, 15 / 8) := by decide +kernel

/-- An object set up for azimuth 1 and then switched to azimuth 0 still uses the weight of the former. -/
example : (solve (fun _ => (1 / 2 : ℚ)) demo (demoSetup.setAzimuth 0) 0 1 1 (fun _ => 1) 1 ⟨0, fun _ => 0, fun _ => 0⟩).map
      (fun f => f.phi 0) =
    (solve (fun _ => (1 / 2 : ℚ)) demo demoSetup 0 1 1 (fun _ => 1) 1 ⟨0, fun _ => 0, fun _ => 0⟩).map (fun f => f.phi 0) ∧
    demo.weight (Angle.angle demo.np 0 1) ≠ demo.weight (Angle.angle demo.np 1 1) := by decide +kernel

end Detran.Moc
