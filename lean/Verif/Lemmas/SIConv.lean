import Verif.Lemmas.WGReflectGeom
import Mathlib.Tactic.Linarith
import Mathlib.Tactic.FieldSimp
import Mathlib.Algebra.Order.BigOperators.Ring.Finset
import Mathlib.Analysis.SpecialFunctions.ExpDeriv
import Mathlib.Analysis.Calculus.Deriv.MeanValue

/-!
# Directional sweeps do not make energy (used for C128)
-/

namespace Detran.WGReflect

open Detran.Sweep
open Detran.Boundary (Bd BC Loc Enters Mirror faceCells)
open Finset

variable {K : Type} [Field K] [LinearOrder K] [IsStrictOrderedRing K]

/-! ## Cells -/

/-- What leaves a 1-D cell (squared flux times `f`) plus what is collided is at most what enters plus what the
    source adds. -/
def Cell1 (f V sig : K) (sch : K → K → K × K) : Prop := ∀ q e,
  f * (sch q e).2 ^ 2 + V * sig * (sch q e).1 ^ 2 ≤ f * e ^ 2 + V * q * (sch q e).1

def Cell2 (fx fy V sig : K) (sch : K → K × K → K × (K × K)) : Prop := ∀ q e,
  fx * (sch q e).2.1 ^ 2 + fy * (sch q e).2.2 ^ 2 + V * sig * (sch q e).1 ^ 2 ≤
    fx * e.1 ^ 2 + fy * e.2 ^ 2 + V * q * (sch q e).1

def Cell3 (fx fy fz V sig : K) (sch : K → K × K × K → K × (K × K × K)) : Prop := ∀ q e,
  fx * (sch q e).2.1 ^ 2 + fy * (sch q e).2.2.1 ^ 2 + fz * (sch q e).2.2.2 ^ 2 + V * sig * (sch q e).1 ^ 2 ≤
    fx * e.1 ^ 2 + fy * e.2.1 ^ 2 + fz * e.2.2 ^ 2 + V * q * (sch q e).1

theorem cell_dd1 (mu dx sig : K) (hmu : 0 < mu) (hdx : 0 < dx) (hs : 0 < sig) :
    Cell1 (mu / 2) dx sig (dd1 mu dx sig) := by
  intro q e
  have hc : sig + 2 * mu / dx ≠ 0 := by positivity
  have key : (sig + 2 * mu / dx) * (dd1 mu dx sig q e).1 = q + 2 * mu / dx * e := by
    unfold dd1; field_simp
  have h2 : (dd1 mu dx sig q e).2 = 2 * (dd1 mu dx sig q e).1 - e := rfl
  rw [h2]
  generalize (dd1 mu dx sig q e).1 = c at *
  have k : dx * sig * c + 2 * mu * c = dx * q + 2 * mu * e := by
    have := congrArg (dx * ·) key
    field_simp at this
    linear_combination this
  apply le_of_eq
  linear_combination c * k

theorem cell_sd1 (mu dx sig : K) (hmu : 0 < mu) (hdx : 0 < dx) (hs : 0 < sig) :
    Cell1 (mu / 2) dx sig (sd1 mu dx sig) := by
  intro q e
  have hc : sig + mu / dx ≠ 0 := by positivity
  have key : (sig + mu / dx) * (sd1 mu dx sig q e).1 = q + mu / dx * e := by
    unfold sd1; field_simp
  have h2 : (sd1 mu dx sig q e).2 = (sd1 mu dx sig q e).1 := rfl
  rw [h2]
  generalize (sd1 mu dx sig q e).1 = c at *
  have k : dx * sig * c + mu * c = dx * q + mu * e := by
    have := congrArg (dx * ·) key
    field_simp at this
    linear_combination this
  have h3 : 0 ≤ mu / 2 * (c - e) ^ 2 := by positivity
  nlinarith [h3, congrArg (c * ·) k]

theorem cell_dd2 (mu eta dx dy sig : K) (hmu : 0 < mu) (heta : 0 < eta) (hdx : 0 < dx) (hdy : 0 < dy)
    (hs : 0 < sig) : Cell2 (mu / 2 * dy) (eta / 2 * dx) (dx * dy) sig (dd2 mu eta dx dy sig) := by
  rintro q ⟨e, g⟩
  have hc : sig + 2 * mu / dx + 2 * eta / dy ≠ 0 := by positivity
  have key : (sig + 2 * mu / dx + 2 * eta / dy) * (dd2 mu eta dx dy sig q (e, g)).1 =
      q + 2 * mu / dx * e + 2 * eta / dy * g := by
    unfold dd2; field_simp
  have h2 : (dd2 mu eta dx dy sig q (e, g)).2 =
    (2 * (dd2 mu eta dx dy sig q (e, g)).1 - e, 2 * (dd2 mu eta dx dy sig q (e, g)).1 - g) := rfl
  rw [h2]
  generalize (dd2 mu eta dx dy sig q (e, g)).1 = c at *
  have k : dx * dy * sig * c + 2 * mu * dy * c + 2 * eta * dx * c =
      dx * dy * q + 2 * mu * dy * e + 2 * eta * dx * g := by
    have := congrArg (dx * dy * ·) key
    field_simp at this
    linear_combination this
  apply le_of_eq
  dsimp only
  linear_combination c * k

theorem cell_sd2 (mu eta dx dy sig : K) (hmu : 0 < mu) (heta : 0 < eta) (hdx : 0 < dx) (hdy : 0 < dy)
    (hs : 0 < sig) : Cell2 (mu / 2 * dy) (eta / 2 * dx) (dx * dy) sig (sd2 mu eta dx dy sig) := by
  rintro q ⟨e, g⟩
  have hc : sig + mu / dx + eta / dy ≠ 0 := by positivity
  have key : (sig + mu / dx + eta / dy) * (sd2 mu eta dx dy sig q (e, g)).1 =
      q + mu / dx * e + eta / dy * g := by
    unfold sd2; field_simp
  have h2 : (sd2 mu eta dx dy sig q (e, g)).2 =
    ((sd2 mu eta dx dy sig q (e, g)).1, (sd2 mu eta dx dy sig q (e, g)).1) := rfl
  rw [h2]
  generalize (sd2 mu eta dx dy sig q (e, g)).1 = c at *
  have k : dx * dy * sig * c + mu * dy * c + eta * dx * c = dx * dy * q + mu * dy * e + eta * dx * g := by
    have := congrArg (dx * dy * ·) key
    field_simp at this
    linear_combination this
  have h3 : 0 ≤ mu / 2 * dy * (c - e) ^ 2 := by positivity
  have h4 : 0 ≤ eta / 2 * dx * (c - g) ^ 2 := by positivity
  dsimp only
  nlinarith [h3, h4, congrArg (c * ·) k]

theorem cell_dd3 (mu eta xi dx dy dz sig : K) (hmu : 0 < mu) (heta : 0 < eta) (hxi : 0 < xi) (hdx : 0 < dx)
    (hdy : 0 < dy) (hdz : 0 < dz) (hs : 0 < sig) :
    Cell3 (mu / 2 * (dy * dz)) (eta / 2 * (dx * dz)) (xi / 2 * (dx * dy)) (dx * dy * dz) sig
      (dd3 mu eta xi dx dy dz sig) := by
  rintro q ⟨e, g, z⟩
  have hc : sig + 2 * mu / dx + 2 * eta / dy + 2 * xi / dz ≠ 0 := by positivity
  have key : (sig + 2 * mu / dx + 2 * eta / dy + 2 * xi / dz) * (dd3 mu eta xi dx dy dz sig q (e, g, z)).1 =
      q + 2 * mu / dx * e + 2 * eta / dy * g + 2 * xi / dz * z := by
    unfold dd3; field_simp
  have h2 : (dd3 mu eta xi dx dy dz sig q (e, g, z)).2 =
    (2 * (dd3 mu eta xi dx dy dz sig q (e, g, z)).1 - e, 2 * (dd3 mu eta xi dx dy dz sig q (e, g, z)).1 - g,
      2 * (dd3 mu eta xi dx dy dz sig q (e, g, z)).1 - z) := rfl
  rw [h2]
  generalize (dd3 mu eta xi dx dy dz sig q (e, g, z)).1 = c at *
  have k : dx * dy * dz * sig * c + 2 * mu * dy * dz * c + 2 * eta * dx * dz * c + 2 * xi * dx * dy * c =
      dx * dy * dz * q + 2 * mu * dy * dz * e + 2 * eta * dx * dz * g + 2 * xi * dx * dy * z := by
    have := congrArg (dx * dy * dz * ·) key
    field_simp at this
    linear_combination this
  apply le_of_eq
  dsimp only
  linear_combination c * k

/-- The step-characteristic cell, given what its exponential satisfies. -/
theorem cell_sc1 (ex : K → K) (mu dx sig : K) (hmu : 0 < mu) (hdx : 0 < dx) (hs : 0 < sig)
    (hA : ex (-(sig * dx / mu)) ≤ 1)
    (hex : 2 * (1 - ex (-(sig * dx / mu))) ≤ sig * dx / mu * (1 + ex (-(sig * dx / mu)))) :
    Cell1 (mu / 2) dx sig (sc1 ex mu dx sig) := by
  intro q e
  unfold sc1
  dsimp only
  generalize ex (-(sig * dx / mu)) = A at *
  have ht : 0 < sig * dx / mu := by positivity
  obtain ⟨Q, rfl⟩ : ∃ Q, q = sig * Q := ⟨q / sig, by field_simp⟩
  obtain ⟨t, htd⟩ : ∃ t, t = sig * dx / mu := ⟨_, rfl⟩
  have hdx' : dx = mu * t / sig := by rw [htd]; field_simp
  rw [← htd] at hex ht
  rw [← htd, hdx']
  have h1 : A * e + sig * Q * (1 - A) / sig = Q + (e - Q) * A := by field_simp; ring
  have h2 : e * (1 - A) / t + sig * Q * (sig * (mu * t / sig) + mu * (A - 1)) / (sig * sig * (mu * t / sig)) =
      Q + (e - Q) * ((1 - A) / t) := by field_simp; ring
  rw [h1, h2]
  have h3 : mu / 2 * (Q + (e - Q) * A) ^ 2 + mu * t / sig * sig * (Q + (e - Q) * ((1 - A) / t)) ^ 2 -
      (mu / 2 * e ^ 2 + mu * t / sig * (sig * Q) * (Q + (e - Q) * ((1 - A) / t))) =
      mu * (e - Q) ^ 2 * (1 - A) / (2 * t) * (2 * (1 - A) - t * (1 + A)) := by field_simp; ring
  have h4 : 0 ≤ mu * (e - Q) ^ 2 * (1 - A) / (2 * t) := by
    have : 0 ≤ 1 - A := by linarith
    positivity
  have h5 := mul_nonpos_of_nonneg_of_nonpos h4 (by linarith : 2 * (1 - A) - t * (1 + A) ≤ 0)
  linarith

/-- The true exponential satisfies it. -/
theorem exp_ok (t : ℝ) (ht : 0 ≤ t) : Real.exp (-t) ≤ 1 ∧ 2 * (1 - Real.exp (-t)) ≤ t * (1 + Real.exp (-t)) := by
  refine ⟨Real.exp_le_one_iff.2 (by linarith), ?_⟩
  have hd : ∀ x : ℝ, HasDerivAt (fun x : ℝ => x * (1 + Real.exp (-x)) - 2 * (1 - Real.exp (-x)))
      (1 - Real.exp (-x) * (1 + x)) x := by
    intro x
    have h1 : HasDerivAt (fun x : ℝ => Real.exp (-x)) (Real.exp (-x) * -1) x := (hasDerivAt_neg x).exp
    have h2 : HasDerivAt (fun x : ℝ => x * (1 + Real.exp (-x)) - 2 * (1 - Real.exp (-x)))
        (1 * (1 + Real.exp (-x)) + x * (Real.exp (-x) * -1) - 2 * -(Real.exp (-x) * -1)) x :=
      ((hasDerivAt_id x).mul (h1.const_add 1)).sub ((h1.const_sub 1).const_mul 2)
    exact h2.congr_deriv (by ring)
  have hm : Monotone (fun x : ℝ => x * (1 + Real.exp (-x)) - 2 * (1 - Real.exp (-x))) := by
    apply monotone_of_deriv_nonneg (fun x => (hd x).differentiableAt)
    intro x
    rw [(hd x).deriv]
    have := Real.add_one_le_exp x
    have h3 : Real.exp (-x) * (1 + x) ≤ Real.exp (-x) * Real.exp x :=
      mul_le_mul_of_nonneg_left (by linarith) (Real.exp_pos _).le
    rw [← Real.exp_add, neg_add_cancel, Real.exp_zero] at h3
    linarith
  have := hm ht
  simp at this
  linarith

/-- Cauchy's inequality for the averages over a triangle. -/
theorem exp_triangle (t : ℝ) (ht : 0 ≤ t) :
    8 * (t - 1 + Real.exp (-t)) ^ 2 ≤ t ^ 2 * (2 * t - 1 + Real.exp (-t) ^ 2) := by
  have he : ∀ x : ℝ, HasDerivAt (fun x : ℝ => Real.exp (-x)) (Real.exp (-x) * -1) x := fun x => (hasDerivAt_neg x).exp
  have key : ∀ u : ℝ, 0 ≤ u ^ 2 * t ^ 2 / 2 - 2 * u * (t - 1 + Real.exp (-t)) + (2 * t - 1 + Real.exp (-t) ^ 2) / 4 := by
    intro u
    -- first derivative is nonnegative
    have h1 : ∀ x : ℝ, 0 ≤ x → 0 ≤ u ^ 2 * x - 2 * u * (1 - Real.exp (-x)) + (1 - (Real.exp (-x) * Real.exp (-x))) / 2 := by
      have hd : ∀ x : ℝ, HasDerivAt (fun x : ℝ => u ^ 2 * x - 2 * u * (1 - Real.exp (-x)) + (1 - (Real.exp (-x) * Real.exp (-x))) / 2)
          ((u - Real.exp (-x)) ^ 2) x := by
        intro x
        have a1 : HasDerivAt (fun x : ℝ => u ^ 2 * x - 2 * u * (1 - Real.exp (-x)) + (1 - (Real.exp (-x) * Real.exp (-x))) / 2)
            (u ^ 2 * 1 - 2 * u * -(Real.exp (-x) * -1) + -(Real.exp (-x) * -1 * Real.exp (-x) + Real.exp (-x) * (Real.exp (-x) * -1)) / 2) x :=
          (((hasDerivAt_id x).const_mul (u ^ 2)).sub (((he x).const_sub 1).const_mul (2 * u))).add
            ((((he x).mul (he x)).const_sub 1).div_const 2)
        exact a1.congr_deriv (by ring)
      have mono : Monotone fun x : ℝ => u ^ 2 * x - 2 * u * (1 - Real.exp (-x)) + (1 - (Real.exp (-x) * Real.exp (-x))) / 2 :=
        monotone_of_deriv_nonneg (fun x => (hd x).differentiableAt) fun x => by rw [(hd x).deriv]; positivity
      intro x hx
      have := mono hx
      simpa using this
    have hd : ∀ x : ℝ, HasDerivAt
        (fun x : ℝ => u ^ 2 * (x * x) / 2 - 2 * u * (x - 1 + Real.exp (-x)) + (2 * x - 1 + (Real.exp (-x) * Real.exp (-x))) / 4)
        (u ^ 2 * x - 2 * u * (1 - Real.exp (-x)) + (1 - (Real.exp (-x) * Real.exp (-x))) / 2) x := by
      intro x
      have a1 : HasDerivAt
          (fun x : ℝ => u ^ 2 * (x * x) / 2 - 2 * u * (x - 1 + Real.exp (-x)) + (2 * x - 1 + (Real.exp (-x) * Real.exp (-x))) / 4)
          (u ^ 2 * (1 * x + x * 1) / 2 - 2 * u * (1 + Real.exp (-x) * -1) +
            (2 * 1 + (Real.exp (-x) * -1 * Real.exp (-x) + Real.exp (-x) * (Real.exp (-x) * -1))) / 4) x :=
        ((((hasDerivAt_id x).mul (hasDerivAt_id x)).const_mul (u ^ 2)).div_const 2 |>.sub
          ((((hasDerivAt_id x).sub_const 1).add (he x)).const_mul (2 * u))).add
          (((((hasDerivAt_id x).const_mul 2).sub_const 1).add ((he x).mul (he x))).div_const 4)
      exact a1.congr_deriv (by ring)
    have mono : MonotoneOn
        (fun x : ℝ => u ^ 2 * (x * x) / 2 - 2 * u * (x - 1 + Real.exp (-x)) + (2 * x - 1 + (Real.exp (-x) * Real.exp (-x))) / 4)
        (Set.Ici 0) :=
      monotoneOn_of_deriv_nonneg (convex_Ici 0) (fun x _ => (hd x).continuousAt.continuousWithinAt)
        (fun x _ => (hd x).differentiableAt.differentiableWithinAt) fun x hx => by
          rw [(hd x).deriv]
          rw [interior_Ici] at hx
          exact h1 x hx.le
    have := mono (Set.mem_Ici.2 (le_refl (0 : ℝ))) (Set.mem_Ici.2 ht) ht
    have z : u ^ 2 * ((0 : ℝ) * 0) / 2 - 2 * u * (0 - 1 + Real.exp (-0)) +
        (2 * 0 - 1 + (Real.exp (-0) * Real.exp (-0))) / 4 = 0 := by simp
    dsimp only at this
    rw [z] at this
    rw [pow_two t, pow_two (Real.exp (-t))]
    exact this
  rcases ht.eq_or_lt with h0 | h0
  · rw [← h0]; norm_num
  · have := key (2 * (t - 1 + Real.exp (-t)) / t ^ 2)
    generalize Real.exp (-t) = e at *
    have e1 : (2 * (t - 1 + e) / t ^ 2) ^ 2 * t ^ 2 / 2 - 2 * (2 * (t - 1 + e) / t ^ 2) * (t - 1 + e) +
        (2 * t - 1 + e ^ 2) / 4 = (t ^ 2 * (2 * t - 1 + e ^ 2) - 8 * (t - 1 + e) ^ 2) / (4 * t ^ 2) := by
      field_simp
      ring
    rw [e1] at this
    have h4 : 0 < 4 * t ^ 2 := by positivity
    have := (div_nonneg_iff.1 this)
    rcases this with h | h
    · linarith [h.1]
    · linarith [h.2]

/-- The energy of a step-characteristics cell without source, the left side being the wide one. -/
theorem sc2_core (al rho v h e o A M : K) (hal : 0 < al) (h0 : 0 ≤ rho) (h1 : rho ≤ 1) (ho : al * o = 1 - e)
    (hA : al * A = 1 - o) (hM : 2 * al * M = 1 - e ^ 2) (i1 : o ^ 2 ≤ M) (i2 : 4 * (al * A ^ 2) ≤ 1 - M) :
    (v * (1 - rho) * e + h * rho * o) ^ 2 + rho * (v * o) ^ 2 +
      2 * al * (v * ((1 - rho) * o + rho * A) + h * (rho * A)) ^ 2 ≤ v ^ 2 + rho * h ^ 2 := by
  have hr : 0 ≤ 1 - rho := by linarith
  have a1 : (v * (1 - rho) * e + h * rho * o) ^ 2 ≤ (1 - rho) * (v * e) ^ 2 + rho * (h * o) ^ 2 := by
    have k := mul_nonneg (mul_nonneg h0 hr) (sq_nonneg (v * e - h * o))
    have e1 : (1 - rho) * (v * e) ^ 2 + rho * (h * o) ^ 2 - (v * (1 - rho) * e + h * rho * o) ^ 2 =
      rho * (1 - rho) * (v * e - h * o) ^ 2 := by ring
    linarith
  have a2 : (v * ((1 - rho) * o + rho * A) + h * (rho * A)) ^ 2 ≤
      (1 - rho) * (v * o) ^ 2 + rho / 2 * (2 * v * A) ^ 2 + rho / 2 * (2 * h * A) ^ 2 := by
    have k1 := mul_nonneg (mul_nonneg h0 hr) (sq_nonneg (v * o - 2 * v * A))
    have k2 := mul_nonneg (mul_nonneg h0 hr) (sq_nonneg (v * o - 2 * h * A))
    have k3 := mul_nonneg (mul_nonneg h0 h0) (sq_nonneg (2 * v * A - 2 * h * A))
    have e1 : (1 - rho) * (v * o) ^ 2 + rho / 2 * (2 * v * A) ^ 2 + rho / 2 * (2 * h * A) ^ 2 -
        (v * ((1 - rho) * o + rho * A) + h * (rho * A)) ^ 2 =
      1 / 2 * (rho * (1 - rho) * (v * o - 2 * v * A) ^ 2) + 1 / 2 * (rho * (1 - rho) * (v * o - 2 * h * A) ^ 2) +
        1 / 4 * (rho * rho * (2 * v * A - 2 * h * A) ^ 2) := by ring
    linarith
  have b1 : (v * o) ^ 2 ≤ v ^ 2 * M := by linarith [mul_le_mul_of_nonneg_left i1 (sq_nonneg v)]
  have b2 : (h * o) ^ 2 ≤ h ^ 2 * M := by linarith [mul_le_mul_of_nonneg_left i1 (sq_nonneg h)]
  have b3 : al * (2 * v * A) ^ 2 ≤ v ^ 2 * (1 - M) := by linarith [mul_le_mul_of_nonneg_left i2 (sq_nonneg v)]
  have b4 : al * (2 * h * A) ^ 2 ≤ h ^ 2 * (1 - M) := by linarith [mul_le_mul_of_nonneg_left i2 (sq_nonneg h)]
  have c1 := mul_le_mul_of_nonneg_left b2 h0
  have c2 := mul_le_mul_of_nonneg_left b1 h0
  have c3 := mul_le_mul_of_nonneg_left a2 (by linarith : 0 ≤ 2 * al)
  have c4 := mul_le_mul_of_nonneg_left b1 (mul_nonneg (by linarith : 0 ≤ 2 * al) hr)
  have c5 := mul_le_mul_of_nonneg_left b3 h0
  have c6 := mul_le_mul_of_nonneg_left b4 h0
  have d1 : (1 - rho) * (v * e) ^ 2 + 2 * al * (1 - rho) * (v ^ 2 * M) = (1 - rho) * v ^ 2 := by
    linear_combination (1 - rho) * v ^ 2 * hM
  linarith

theorem cell_sc2 (mu eta dx dy sig : ℝ) (hmu : 0 < mu) (heta : 0 < eta) (hdx : 0 < dx) (hdy : 0 < dy)
    (hs : 0 < sig) : Cell2 (mu / 2 * dy) (eta / 2 * dx) (dx * dy) sig (sc2 Real.exp mu eta dx dy sig) := by
  rintro q ⟨ein, gin⟩
  have hal : 0 < sig * (dx / mu) := by positivity
  have hbe : 0 < sig * (dy / eta) := by positivity
  have facts : ∀ t : ℝ, 0 < t → ∃ A M, t * ((1 - Real.exp (-t)) / t) = 1 - Real.exp (-t) ∧
      t * A = 1 - (1 - Real.exp (-t)) / t ∧ 2 * t * M = 1 - Real.exp (-t) ^ 2 ∧
      ((1 - Real.exp (-t)) / t) ^ 2 ≤ M ∧ 4 * (t * A ^ 2) ≤ 1 - M := by
    intro t ht
    have k1 := (exp_ok t ht.le)
    have k2 := exp_triangle t ht.le
    generalize Real.exp (-t) = e at *
    refine ⟨(1 - (1 - e) / t) / t, (1 - e ^ 2) / (2 * t), by field_simp, by field_simp, by field_simp, ?_, ?_⟩
    · rw [div_pow, div_le_div_iff₀ (by positivity) (by positivity)]
      have := mul_le_mul_of_nonneg_left k1.2 (mul_nonneg ht.le (by linarith [k1.1] : 0 ≤ 1 - e))
      nlinarith
    · have e1 : 4 * (t * ((1 - (1 - e) / t) / t) ^ 2) = 4 * (t - 1 + e) ^ 2 / t ^ 3 := by field_simp; ring
      have e2 : 1 - (1 - e ^ 2) / (2 * t) = (2 * t - 1 + e ^ 2) / (2 * t) := by field_simp; ring
      rw [e1, e2, div_le_div_iff₀ (by positivity) (by positivity)]
      nlinarith
  -- the inequality in units of the removal in the cell
  have unit : ∀ al be v h cv ch c : ℝ, 0 < al → 0 < be →
      c = (v - cv) / al + (h - ch) / be →
      cv ^ 2 / (2 * al) + ch ^ 2 / (2 * be) + c ^ 2 ≤ v ^ 2 / (2 * al) + h ^ 2 / (2 * be) → ∀ Q : ℝ,
      (Q + cv) ^ 2 / (2 * al) + (Q + ch) ^ 2 / (2 * be) + (Q + c) ^ 2 ≤
        (Q + v) ^ 2 / (2 * al) + (Q + h) ^ 2 / (2 * be) + Q * (Q + c) := by
    intro al be v h cv ch c hal hbe hc hle Q
    have e : (Q + cv) ^ 2 / (2 * al) + (Q + ch) ^ 2 / (2 * be) + (Q + c) ^ 2 -
        ((Q + v) ^ 2 / (2 * al) + (Q + h) ^ 2 / (2 * be) + Q * (Q + c)) =
        cv ^ 2 / (2 * al) + ch ^ 2 / (2 * be) + c ^ 2 - (v ^ 2 / (2 * al) + h ^ 2 / (2 * be)) := by
      rw [hc]; field_simp; ring
    linarith
  have scale : ∀ x y c a b Q : ℝ, x ^ 2 / (2 * (sig * (dx / mu))) + y ^ 2 / (2 * (sig * (dy / eta))) + c ^ 2 ≤
      a ^ 2 / (2 * (sig * (dx / mu))) + b ^ 2 / (2 * (sig * (dy / eta))) + Q * c →
      mu / 2 * dy * x ^ 2 + eta / 2 * dx * y ^ 2 + dx * dy * sig * c ^ 2 ≤
      mu / 2 * dy * a ^ 2 + eta / 2 * dx * b ^ 2 + dx * dy * (sig * Q) * c := by
    intro x y c a b Q hle
    have := mul_le_mul_of_nonneg_left hle (by positivity : 0 ≤ dx * dy * sig)
    have e1 : ∀ u : ℝ, dx * dy * sig * (u / (2 * (sig * (dx / mu)))) = mu / 2 * dy * u := fun u => by field_simp
    have e2 : ∀ u : ℝ, dx * dy * sig * (u / (2 * (sig * (dy / eta)))) = eta / 2 * dx * u := fun u => by field_simp
    rw [mul_add, mul_add, mul_add, mul_add, e1, e1, e2, e2] at this
    linarith
  obtain ⟨Q, rfl⟩ : ∃ Q, q = sig * Q := ⟨q / sig, by field_simp⟩
  have hQ : sig * Q / sig = Q := by field_simp
  obtain ⟨v, rfl⟩ : ∃ v, ein = Q + v := ⟨ein - Q, by ring⟩
  obtain ⟨h, rfl⟩ : ∃ h, gin = Q + h := ⟨gin - Q, by ring⟩
  unfold sc2
  dsimp only
  rw [hQ]
  generalize hal' : sig * (dx / mu) = al at *
  generalize hbe' : sig * (dy / eta) = be at *
  rw [add_sub_cancel_left, add_sub_cancel_left]
  split
  · next hr =>
    obtain ⟨A, M, f1, f2, f3, f4, f5⟩ := facts al hal
    have hrho : 0 ≤ al / be := by positivity
    have core := sc2_core al (al / be) v h _ _ A M hal hrho hr f1 f2 f3 f4 f5
    generalize (1 - Real.exp (-al)) / al = o at *
    generalize Real.exp (-al) = e at *
    refine scale _ _ _ _ _ Q ?_
    have ec : Q - (Q + v * (1 - al / be) * e + h * (al / be) * o - (Q + v)) / al - (Q + v * o - (Q + h)) / be =
        Q + (v * ((1 - al / be) * o + al / be * A) + h * (al / be * A)) := by
      have o1 : o = (1 - e) / al := by field_simp; linarith
      have A1 : A = (1 - o) / al := by field_simp; linarith
      rw [A1]
      field_simp
      linear_combination (al - be) * v * f1
    rw [ec, add_assoc Q, ]
    refine unit al be v h _ _ _ hal hbe ?_ ?_ Q
    · linear_combination -ec
    · have := mul_le_mul_of_nonneg_left core (by positivity : 0 ≤ 1 / (2 * al))
      have e3 : ∀ u : ℝ, 1 / (2 * al) * (al / be * u) = u / (2 * be) := fun u => by field_simp
      have e4 : ∀ u : ℝ, 1 / (2 * al) * (2 * al * u) = u := fun u => by field_simp
      have e5 : ∀ u : ℝ, 1 / (2 * al) * u = u / (2 * al) := fun u => by field_simp
      rw [mul_add (1 / (2 * al)) (v ^ 2), mul_add (1 / (2 * al)), mul_add (1 / (2 * al)), e3, e3, e4, e5, e5] at this
      exact this
  · next hr =>
    obtain ⟨A, M, f1, f2, f3, f4, f5⟩ := facts be hbe
    have hrho : 0 ≤ be / al := by positivity
    have hle : be / al ≤ 1 := by
      have := not_le.1 hr
      rw [lt_div_iff₀ hbe, one_mul] at this
      rw [div_le_one hal]
      exact this.le
    have core := sc2_core be (be / al) h v _ _ A M hbe hrho hle f1 f2 f3 f4 f5
    generalize (1 - Real.exp (-be)) / be = o at *
    generalize Real.exp (-be) = e at *
    refine scale _ _ _ _ _ Q ?_
    have er : v * o / (al / be) + h * (1 - 1 / (al / be)) * e = h * (1 - be / al) * e + v * (be / al) * o := by
      field_simp
      ring
    have ec : Q - (Q + h * o - (Q + v)) / al - (Q + (h * (1 - be / al) * e + v * (be / al) * o) - (Q + h)) / be =
        Q + (h * ((1 - be / al) * o + be / al * A) + v * (be / al * A)) := by
      have A1 : A = (1 - o) / be := by field_simp; linarith
      rw [A1]
      field_simp
      linear_combination (be - al) * h * f1
    rw [add_assoc Q, er, ec]
    refine unit al be v h _ _ _ hal hbe ?_ ?_ Q
    · linear_combination -ec
    · have := mul_le_mul_of_nonneg_left core (by positivity : 0 ≤ 1 / (2 * be))
      have e3 : ∀ u : ℝ, 1 / (2 * be) * (be / al * u) = u / (2 * al) := fun u => by field_simp
      have e4 : ∀ u : ℝ, 1 / (2 * be) * (2 * be * u) = u := fun u => by field_simp
      have e5 : ∀ u : ℝ, 1 / (2 * be) * u = u / (2 * be) := fun u => by field_simp
      rw [mul_add (1 / (2 * be)) (h ^ 2), mul_add (1 / (2 * be)), mul_add (1 / (2 * be)), e3, e3, e4, e5, e5] at this
      linarith

/-! ## Sums -/

omit [LinearOrder K] [IsStrictOrderedRing K] in
theorem sum_posn (n o d : Nat) (g : Nat → K) : ∑ p ∈ range n, g (posn n o d p) = ∑ p ∈ range n, g p := by
  refine sum_nbij' (posn n o d) (posn n o d) ?_ ?_ ?_ ?_ ?_
  · intro p hp; exact mem_range.2 (posn_lt (mem_range.1 hp))
  · intro p hp; exact mem_range.2 (posn_lt (mem_range.1 hp))
  · intro p hp; exact posn_posn (mem_range.1 hp)
  · intro p hp; exact posn_posn (mem_range.1 hp)
  · intro p hp; rfl

omit [LinearOrder K] [IsStrictOrderedRing K] in
theorem sum_cells2 (nx ny : Nat) (g : Nat → K) :
    ∑ c ∈ range (nx * ny), g c = ∑ j ∈ range ny, ∑ i ∈ range nx, g (i + j * nx) := by
  induction ny with
  | zero => simp
  | succ n ih =>
    rw [Nat.mul_succ, sum_range_add, ih, sum_range_succ]
    congr 1
    refine sum_congr rfl fun i _ => ?_
    congr 1
    rw [Nat.mul_comm]; omega

omit [LinearOrder K] [IsStrictOrderedRing K] in
theorem sum_cells3 (nx ny nz : Nat) (g : Nat → K) :
    ∑ c ∈ range (nx * ny * nz), g c =
      ∑ k ∈ range nz, ∑ j ∈ range ny, ∑ i ∈ range nx, g (i + j * nx + k * nx * ny) := by
  rw [sum_cells2 (nx * ny) nz]
  refine sum_congr rfl fun k _ => ?_
  rw [sum_cells2 nx ny]
  refine sum_congr rfl fun j _ => sum_congr rfl fun i _ => ?_
  rw [Nat.mul_assoc]

omit [LinearOrder K] [IsStrictOrderedRing K] in
theorem sum_entered (dim : Nat) (h1 : 1 ≤ dim) (h3 : dim ≤ 3) (o : Nat) (ho : o < 2 ^ dim) (f : Nat → K) :
    ∑ s ∈ range (2 * dim), (if Enters s o then f s else 0) = ∑ d ∈ range dim, f (entry o d) ∧
    ∑ s ∈ range (2 * dim), (if Enters s o then 0 else f s) = ∑ d ∈ range dim, f (exit o d) := by
  have k : ∀ o < 2 ^ dim, (range (2 * dim)).filter (fun s => Enters s o) = (range dim).image (entry o) ∧
      (range (2 * dim)).filter (fun s => ¬ Enters s o) = (range dim).image (exit o) := by
    interval_cases dim <;> decide +kernel
  obtain ⟨k1, k2⟩ := k o ho
  constructor
  · rw [← sum_filter, k1, sum_image]
    intro a _ b _ e
    unfold entry at e
    split_ifs at e <;> omega
  · have e : ∀ s, (if Enters s o then 0 else f s) = if ¬ Enters s o then f s else 0 := fun s => by
      split_ifs <;> rfl
    simp only [e]
    rw [← sum_filter, k2, sum_image]
    intro a _ b _ e
    exact exit_inj e

/-! ## Faces and whole sweeps -/

/-- Weighted sum of squares over a face. -/
def faceSum {F : Type} (P : Prob F K) (fw : Nat → Nat → Nat → Nat → K) (side a : Nat) (f : F) : K :=
  ∑ i ∈ range (faceCells P.dim side P.n 0), ∑ j ∈ range (faceCells P.dim side P.n 1),
    fw side a i j * P.get f i j ^ 2

/-- A directional sweep lets out no more than enters and is produced, less what is collided.  `V`: cell volumes,
    `sig`: total cross section, `fw`: weights of face entries by side and angle. -/
structure Dissipates {F : Type} (P : Prob F K) (Sol : (Nat → K) → Nat → Nat → (Nat → F) → (Nat → K) → Prop)
    (V sig : Nat → K) (fw : Nat → Nat → Nat → Nat → K) : Prop where
  pos : ∀ side < 2 * P.dim, ∀ a < P.na, ∀ i j, InFace P side i j → 0 < fw side a i j
  energy : ∀ q o a b p, o < 2 ^ P.dim → a < P.na → Sol q o a b p →
    ∑ s ∈ range (2 * P.dim), (if Enters s o then 0 else faceSum P fw s a (b s)) +
      ∑ c ∈ range P.N, V c * sig c * p c ^ 2 ≤
    ∑ s ∈ range (2 * P.dim), (if Enters s o then faceSum P fw s a (b s) else 0) +
      ∑ c ∈ range P.N, V c * q c * p c

theorem dissipates1 (sch : Nat → Nat → K → K → K × K) (w : Nat → K) (nx na : Nat) (up : Bool) (bc : Nat → BC K)
    (order : List Nat) (scat fixed mtod disc) (V sig f : Nat → K) (hf : ∀ a < na, 0 < f a)
    (hc : ∀ a < na, ∀ i < nx, Cell1 (f a) (V i) (sig i) (sch a i)) :
    Dissipates (prob1 sch w nx na up bc order scat fixed mtod disc)
      (fun q o a b p => Solves1 nx (fun i => sch a i (q i)) o b p) V sig (fun _ a _ _ => f a) where
  pos := fun _ _ a ha _ _ _ => hf a ha
  energy := by
    rintro q o a b p ho ha ⟨E, e1, e2, e3⟩
    have ho' : o < 2 ^ 1 := ho
    have ha' : a < na := ha
    change ∑ s ∈ range (2 * 1), _ + ∑ c ∈ range nx, _ ≤ ∑ s ∈ range (2 * 1), _ + ∑ c ∈ range nx, _
    rw [(sum_entered 1 (by decide) (by decide) o ho' _).1, (sum_entered 1 (by decide) (by decide) o ho' _).2]
    have hfs : ∀ side < 2, ∀ v : K, faceSum (prob1 sch w nx na up bc order scat fixed mtod disc)
        (fun _ a _ _ => f a) side a v = f a * v ^ 2 := by
      intro side hs v
      unfold faceSum
      have : ∀ k, faceCells 1 side (fun _ => nx) k = 1 := by
        intro k
        interval_cases side <;> simp [faceCells, List.range, List.range.loop, List.filter]
      change ∑ i ∈ range (faceCells 1 side (fun _ => nx) 0), ∑ j ∈ range (faceCells 1 side (fun _ => nx) 1), _ = _
      rw [this, this]
      simp [prob1]
    obtain ⟨x1, x2, _⟩ := entry_facts 1 (by decide) (by decide) o ho' 0 (by decide)
    rw [sum_range_one, sum_range_one, hfs _ x2, hfs _ x1, ← e1, e2,
      ← sum_posn nx o 0 (fun c => V c * sig c * p c ^ 2), ← sum_posn nx o 0 (fun c => V c * q c * p c)]
    have key : ∀ n ≤ nx, f a * E n ^ 2 + ∑ t ∈ range n, V (posn nx o 0 t) * sig (posn nx o 0 t) * p (posn nx o 0 t) ^ 2 ≤
        f a * E 0 ^ 2 + ∑ t ∈ range n, V (posn nx o 0 t) * q (posn nx o 0 t) * p (posn nx o 0 t) := by
      intro n
      induction n with
      | zero => intro _; simp
      | succ n ih =>
        intro hn
        have h1 := ih (by omega)
        have h2 := hc a ha' (posn nx o 0 n) (posn_lt (by omega)) (q (posn nx o 0 n)) (E n)
        have h3 := e3 n (by omega)
        dsimp only at h3
        rw [h3] at h2
        dsimp only at h2
        rw [sum_range_succ, sum_range_succ]
        linarith
    exact key nx (le_refl _)

theorem dissipates2 (sch : Nat → Nat → Nat → K → K × K → K × (K × K)) (w : Nat → K) (nx ny na : Nat) (up : Bool)
    (bc : Nat → BC (Nat → K)) (order : List Nat) (scat fixed mtod disc) (V sig : Nat → K) (fx fy : Nat → Nat → K)
    (hfx : ∀ a < na, ∀ j < ny, 0 < fx a j) (hfy : ∀ a < na, ∀ i < nx, 0 < fy a i)
    (hc : ∀ a < na, ∀ i < nx, ∀ j < ny, Cell2 (fx a j) (fy a i) (V (i + j * nx)) (sig (i + j * nx)) (sch a i j)) :
    Dissipates (prob2 sch w nx ny na up bc order scat fixed mtod disc)
      (fun q o a b p => Solves2 nx ny (fun i j => sch a i j (q (i + j * nx))) o b p) V sig
      (fun side a i _ => if side < 2 then fx a i else fy a i) where
  pos := by
    intro side hs a ha i j hi
    have hi' := ((face2 nx ny side i j hs).1 hi).1
    split
    · next h => rw [if_pos h] at hi'; exact hfx a ha i hi'
    · next h => rw [if_neg h] at hi'; exact hfy a ha i hi'
  energy := by
    rintro q o a b p ho ha ⟨E, H, e1, e2, e3⟩
    have ho' : o < 2 ^ 2 := ho
    have ha' : a < na := ha
    change ∑ s ∈ range (2 * 2), _ + ∑ c ∈ range (nx * ny), _ ≤ ∑ s ∈ range (2 * 2), _ + ∑ c ∈ range (nx * ny), _
    rw [(sum_entered 2 (by decide) (by decide) o ho' _).1, (sum_entered 2 (by decide) (by decide) o ho' _).2]
    have hfs : ∀ side < 4, ∀ v : Nat → K, faceSum (prob2 sch w nx ny na up bc order scat fixed mtod disc)
        (fun side a i _ => if side < 2 then fx a i else fy a i) side a v =
        if side < 2 then ∑ i ∈ range ny, fx a i * v i ^ 2 else ∑ i ∈ range nx, fy a i * v i ^ 2 := by
      intro side hs v
      unfold faceSum
      interval_cases side <;> simp [prob2, faceCells, List.range, List.range.loop, List.filter]
    obtain ⟨x1, x2, _, _, x5, x6⟩ := entry_facts 2 (by decide) (by decide) o ho' 0 (by decide)
    obtain ⟨y1, y2, _, _, y5, y6⟩ := entry_facts 2 (by decide) (by decide) o ho' 1 (by decide)
    simp only [sum_range_succ, sum_range_zero, zero_add]
    rw [hfs _ x1, hfs _ x2, hfs _ y1, hfs _ y2, if_pos (by omega : entry o 0 < 2),
      if_pos (by omega : exit o 0 < 2), if_neg (by omega : ¬ entry o 1 < 2), if_neg (by omega : ¬ exit o 1 < 2)]
    simp only [sum_cells2]
    rw [← sum_posn ny o 1 (fun i => fx a i * b (exit o 0) i ^ 2), ← sum_posn ny o 1 (fun i => fx a i * b (entry o 0) i ^ 2),
      ← sum_posn nx o 0 (fun i => fy a i * b (exit o 1) i ^ 2), ← sum_posn nx o 0 (fun i => fy a i * b (entry o 1) i ^ 2),
      ← sum_posn ny o 1 (fun j => ∑ i ∈ range nx, V (i + j * nx) * sig (i + j * nx) * p (i + j * nx) ^ 2),
      ← sum_posn ny o 1 (fun j => ∑ i ∈ range nx, V (i + j * nx) * q (i + j * nx) * p (i + j * nx))]
    have s1 : ∀ g : Nat → Nat → K, ∑ t ∈ range ny, ∑ i ∈ range nx, g i (posn ny o 1 t) =
        ∑ t ∈ range ny, ∑ i ∈ range nx, g (posn nx o 0 i) (posn ny o 1 t) := fun g =>
      sum_congr rfl fun t _ => (sum_posn nx o 0 (fun i => g i (posn ny o 1 t))).symm
    rw [s1 (fun i j => V (i + j * nx) * sig (i + j * nx) * p (i + j * nx) ^ 2),
      s1 (fun i j => V (i + j * nx) * q (i + j * nx) * p (i + j * nx))]
    have c1 : ∑ t ∈ range ny, fx a (posn ny o 1 t) * b (exit o 0) (posn ny o 1 t) ^ 2 =
        ∑ t ∈ range ny, (fx a (posn ny o 1 t) * E 0 t ^ 2 +
          ∑ i ∈ range nx, (fx a (posn ny o 1 t) * E (i + 1) t ^ 2 - fx a (posn ny o 1 t) * E i t ^ 2)) := by
      refine sum_congr rfl fun t ht => ?_
      rw [sum_range_sub (fun i => fx a (posn ny o 1 t) * E i t ^ 2), (e1 t (mem_range.1 ht)).2]
      ring
    have c2 : ∑ t ∈ range nx, fy a (posn nx o 0 t) * b (exit o 1) (posn nx o 0 t) ^ 2 =
        ∑ t ∈ range nx, fy a (posn nx o 0 t) * H t 0 ^ 2 +
          ∑ i ∈ range ny, ∑ t ∈ range nx, (fy a (posn nx o 0 t) * H t (i + 1) ^ 2 - fy a (posn nx o 0 t) * H t i ^ 2) := by
      rw [sum_comm (s := range ny), ← sum_add_distrib]
      refine sum_congr rfl fun t ht => ?_
      rw [sum_range_sub (fun i => fy a (posn nx o 0 t) * H t i ^ 2), (e2 t (mem_range.1 ht)).2]
      ring
    have c3 : ∑ t ∈ range ny, fx a (posn ny o 1 t) * b (entry o 0) (posn ny o 1 t) ^ 2 =
        ∑ t ∈ range ny, fx a (posn ny o 1 t) * E 0 t ^ 2 :=
      sum_congr rfl fun t ht => by rw [(e1 t (mem_range.1 ht)).1]
    have c4 : ∑ t ∈ range nx, fy a (posn nx o 0 t) * b (entry o 1) (posn nx o 0 t) ^ 2 =
        ∑ t ∈ range nx, fy a (posn nx o 0 t) * H t 0 ^ 2 :=
      sum_congr rfl fun t ht => by rw [(e2 t (mem_range.1 ht)).1]
    rw [c1, c2, c3, c4, sum_add_distrib]
    have tot : ∑ t ∈ range ny, ∑ i ∈ range nx,
          (fx a (posn ny o 1 t) * E (i + 1) t ^ 2 - fx a (posn ny o 1 t) * E i t ^ 2) +
        ∑ t ∈ range ny, ∑ i ∈ range nx,
          (fy a (posn nx o 0 i) * H i (t + 1) ^ 2 - fy a (posn nx o 0 i) * H i t ^ 2) +
        ∑ t ∈ range ny, ∑ i ∈ range nx, V (posn nx o 0 i + posn ny o 1 t * nx) *
          sig (posn nx o 0 i + posn ny o 1 t * nx) * p (posn nx o 0 i + posn ny o 1 t * nx) ^ 2 ≤
        ∑ t ∈ range ny, ∑ i ∈ range nx, V (posn nx o 0 i + posn ny o 1 t * nx) *
          q (posn nx o 0 i + posn ny o 1 t * nx) * p (posn nx o 0 i + posn ny o 1 t * nx) := by
      rw [← sum_add_distrib, ← sum_add_distrib]
      refine sum_le_sum fun t ht => ?_
      rw [← sum_add_distrib, ← sum_add_distrib]
      refine sum_le_sum fun i hi => ?_
      have ht := mem_range.1 ht
      have hi := mem_range.1 hi
      have h2 := hc a ha' (posn nx o 0 i) (posn_lt hi) (posn ny o 1 t) (posn_lt ht)
        (q (posn nx o 0 i + posn ny o 1 t * nx)) (E i t, H i t)
      have h3 := e3 i hi t ht
      dsimp only at h3
      rw [h3] at h2
      dsimp only at h2
      linarith
    linarith

theorem dissipates3 (sch : Nat → Nat → Nat → Nat → K → K × K × K → K × (K × K × K)) (w : Nat → K)
    (nx ny nz na : Nat) (up : Bool) (bc : Nat → BC (Nat → Nat → K)) (order : List Nat) (scat fixed mtod disc)
    (V sig : Nat → K) (fx fy fz : Nat → Nat → Nat → K)
    (hfx : ∀ a < na, ∀ k < nz, ∀ j < ny, 0 < fx a k j) (hfy : ∀ a < na, ∀ k < nz, ∀ i < nx, 0 < fy a k i)
    (hfz : ∀ a < na, ∀ j < ny, ∀ i < nx, 0 < fz a j i)
    (hc : ∀ a < na, ∀ i < nx, ∀ j < ny, ∀ k < nz, Cell3 (fx a k j) (fy a k i) (fz a j i)
      (V (i + j * nx + k * nx * ny)) (sig (i + j * nx + k * nx * ny)) (sch a i j k)) :
    Dissipates (prob3 sch w nx ny nz na up bc order scat fixed mtod disc)
      (fun q o a b p => Solves3 nx ny nz (fun i j k => sch a i j k (q (i + j * nx + k * nx * ny))) o b p) V sig
      (fun side a i j => if side < 2 then fx a i j else if side < 4 then fy a i j else fz a i j) where
  pos := by
    intro side hs a ha i j hi
    obtain ⟨h1, h2⟩ := (face3 nx ny nz side i j hs).1 hi
    split_ifs with h h'
    · rw [if_pos (by omega)] at h1; rw [if_pos h] at h2; exact hfx a ha i h1 j h2
    · rw [if_pos h'] at h1; rw [if_neg h] at h2; exact hfy a ha i h1 j h2
    · rw [if_neg h'] at h1; rw [if_neg h] at h2; exact hfz a ha i h1 j h2
  energy := by
    rintro q o a b p ho ha ⟨E, H, Z, e1, e2, e3, e4⟩
    have ho' : o < 2 ^ 3 := ho
    have ha' : a < na := ha
    change ∑ s ∈ range (2 * 3), _ + ∑ c ∈ range (nx * ny * nz), _ ≤
      ∑ s ∈ range (2 * 3), _ + ∑ c ∈ range (nx * ny * nz), _
    rw [(sum_entered 3 (by decide) (by decide) o ho' _).1, (sum_entered 3 (by decide) (by decide) o ho' _).2]
    have hfs : ∀ side < 6, ∀ v : Nat → Nat → K, faceSum (prob3 sch w nx ny nz na up bc order scat fixed mtod disc)
        (fun side a i j => if side < 2 then fx a i j else if side < 4 then fy a i j else fz a i j) side a v =
        if side < 2 then ∑ k ∈ range nz, ∑ j ∈ range ny, fx a k j * v k j ^ 2
        else if side < 4 then ∑ k ∈ range nz, ∑ i ∈ range nx, fy a k i * v k i ^ 2
        else ∑ j ∈ range ny, ∑ i ∈ range nx, fz a j i * v j i ^ 2 := by
      intro side hs v
      unfold faceSum
      interval_cases side <;> simp [prob3, faceCells, List.range, List.range.loop, List.filter]
    obtain ⟨x1, x2, _, _, x5, x6⟩ := entry_facts 3 (by decide) (by decide) o ho' 0 (by decide)
    obtain ⟨y1, y2, _, _, y5, y6⟩ := entry_facts 3 (by decide) (by decide) o ho' 1 (by decide)
    obtain ⟨z1, z2, _, _, z5, z6⟩ := entry_facts 3 (by decide) (by decide) o ho' 2 (by decide)
    simp only [sum_range_succ, sum_range_zero, zero_add]
    rw [hfs _ x1, hfs _ x2, hfs _ y1, hfs _ y2, hfs _ z1, hfs _ z2, if_pos (by omega : entry o 0 < 2),
      if_pos (by omega : exit o 0 < 2), if_neg (by omega : ¬ entry o 1 < 2), if_neg (by omega : ¬ exit o 1 < 2),
      if_neg (by omega : ¬ entry o 2 < 2), if_neg (by omega : ¬ exit o 2 < 2), if_pos (by omega : entry o 1 < 4),
      if_pos (by omega : exit o 1 < 4), if_neg (by omega : ¬ entry o 2 < 4), if_neg (by omega : ¬ exit o 2 < 4)]
    simp only [sum_cells3]
    have r2 : ∀ (n d n' d' : Nat) (g : Nat → Nat → K), ∑ s ∈ range n, ∑ t ∈ range n', g s t =
        ∑ s ∈ range n, ∑ t ∈ range n', g (posn n o d s) (posn n' o d' t) := by
      intro n d n' d' g
      rw [← sum_posn n o d (fun s => ∑ t ∈ range n', g s t)]
      exact sum_congr rfl fun s _ => (sum_posn n' o d' (fun t => g (posn n o d s) t)).symm
    have r3 : ∀ (g : Nat → Nat → Nat → K), ∑ k ∈ range nz, ∑ j ∈ range ny, ∑ i ∈ range nx, g i j k =
        ∑ k ∈ range nz, ∑ j ∈ range ny, ∑ i ∈ range nx, g (posn nx o 0 i) (posn ny o 1 j) (posn nz o 2 k) := by
      intro g
      rw [r2 nz 2 ny 1 (fun k j => ∑ i ∈ range nx, g i j k)]
      exact sum_congr rfl fun k _ => sum_congr rfl fun j _ =>
        (sum_posn nx o 0 (fun i => g i (posn ny o 1 j) (posn nz o 2 k))).symm
    rw [r2 nz 2 ny 1 (fun k j => fx a k j * b (exit o 0) k j ^ 2), r2 nz 2 ny 1 (fun k j => fx a k j * b (entry o 0) k j ^ 2),
      r2 nz 2 nx 0 (fun k i => fy a k i * b (exit o 1) k i ^ 2), r2 nz 2 nx 0 (fun k i => fy a k i * b (entry o 1) k i ^ 2),
      r2 ny 1 nx 0 (fun j i => fz a j i * b (exit o 2) j i ^ 2), r2 ny 1 nx 0 (fun j i => fz a j i * b (entry o 2) j i ^ 2),
      r3 (fun i j k => V (i + j * nx + k * nx * ny) * sig (i + j * nx + k * nx * ny) * p (i + j * nx + k * nx * ny) ^ 2),
      r3 (fun i j k => V (i + j * nx + k * nx * ny) * q (i + j * nx + k * nx * ny) * p (i + j * nx + k * nx * ny))]
    have c1 : ∑ k ∈ range nz, ∑ j ∈ range ny, fx a (posn nz o 2 k) (posn ny o 1 j) *
          b (exit o 0) (posn nz o 2 k) (posn ny o 1 j) ^ 2 =
        ∑ k ∈ range nz, ∑ j ∈ range ny, fx a (posn nz o 2 k) (posn ny o 1 j) * E 0 j k ^ 2 +
        ∑ k ∈ range nz, ∑ j ∈ range ny, ∑ i ∈ range nx, (fx a (posn nz o 2 k) (posn ny o 1 j) * E (i + 1) j k ^ 2 -
          fx a (posn nz o 2 k) (posn ny o 1 j) * E i j k ^ 2) := by
      rw [← sum_add_distrib]
      refine sum_congr rfl fun k hk => ?_
      rw [← sum_add_distrib]
      refine sum_congr rfl fun j hj => ?_
      rw [sum_range_sub (fun i => fx a (posn nz o 2 k) (posn ny o 1 j) * E i j k ^ 2),
        (e1 j (mem_range.1 hj) k (mem_range.1 hk)).2]
      ring
    have c2 : ∑ k ∈ range nz, ∑ i ∈ range nx, fy a (posn nz o 2 k) (posn nx o 0 i) *
          b (exit o 1) (posn nz o 2 k) (posn nx o 0 i) ^ 2 =
        ∑ k ∈ range nz, ∑ i ∈ range nx, fy a (posn nz o 2 k) (posn nx o 0 i) * H i 0 k ^ 2 +
        ∑ k ∈ range nz, ∑ j ∈ range ny, ∑ i ∈ range nx, (fy a (posn nz o 2 k) (posn nx o 0 i) * H i (j + 1) k ^ 2 -
          fy a (posn nz o 2 k) (posn nx o 0 i) * H i j k ^ 2) := by
      rw [← sum_add_distrib]
      refine sum_congr rfl fun k hk => ?_
      rw [sum_comm (s := range ny), ← sum_add_distrib]
      refine sum_congr rfl fun i hi => ?_
      rw [sum_range_sub (fun j => fy a (posn nz o 2 k) (posn nx o 0 i) * H i j k ^ 2),
        (e2 i (mem_range.1 hi) k (mem_range.1 hk)).2]
      ring
    have c3 : ∑ j ∈ range ny, ∑ i ∈ range nx, fz a (posn ny o 1 j) (posn nx o 0 i) *
          b (exit o 2) (posn ny o 1 j) (posn nx o 0 i) ^ 2 =
        ∑ j ∈ range ny, ∑ i ∈ range nx, fz a (posn ny o 1 j) (posn nx o 0 i) * Z i j 0 ^ 2 +
        ∑ k ∈ range nz, ∑ j ∈ range ny, ∑ i ∈ range nx, (fz a (posn ny o 1 j) (posn nx o 0 i) * Z i j (k + 1) ^ 2 -
          fz a (posn ny o 1 j) (posn nx o 0 i) * Z i j k ^ 2) := by
      rw [sum_comm (s := range nz), ← sum_add_distrib]
      refine sum_congr rfl fun j hj => ?_
      rw [sum_comm (s := range nz), ← sum_add_distrib]
      refine sum_congr rfl fun i hi => ?_
      rw [sum_range_sub (fun k => fz a (posn ny o 1 j) (posn nx o 0 i) * Z i j k ^ 2),
        (e3 i (mem_range.1 hi) j (mem_range.1 hj)).2]
      ring
    have d1 : ∑ k ∈ range nz, ∑ j ∈ range ny, fx a (posn nz o 2 k) (posn ny o 1 j) *
          b (entry o 0) (posn nz o 2 k) (posn ny o 1 j) ^ 2 =
        ∑ k ∈ range nz, ∑ j ∈ range ny, fx a (posn nz o 2 k) (posn ny o 1 j) * E 0 j k ^ 2 :=
      sum_congr rfl fun k hk => sum_congr rfl fun j hj => by rw [(e1 j (mem_range.1 hj) k (mem_range.1 hk)).1]
    have d2 : ∑ k ∈ range nz, ∑ i ∈ range nx, fy a (posn nz o 2 k) (posn nx o 0 i) *
          b (entry o 1) (posn nz o 2 k) (posn nx o 0 i) ^ 2 =
        ∑ k ∈ range nz, ∑ i ∈ range nx, fy a (posn nz o 2 k) (posn nx o 0 i) * H i 0 k ^ 2 :=
      sum_congr rfl fun k hk => sum_congr rfl fun i hi => by rw [(e2 i (mem_range.1 hi) k (mem_range.1 hk)).1]
    have d3 : ∑ j ∈ range ny, ∑ i ∈ range nx, fz a (posn ny o 1 j) (posn nx o 0 i) *
          b (entry o 2) (posn ny o 1 j) (posn nx o 0 i) ^ 2 =
        ∑ j ∈ range ny, ∑ i ∈ range nx, fz a (posn ny o 1 j) (posn nx o 0 i) * Z i j 0 ^ 2 :=
      sum_congr rfl fun j hj => sum_congr rfl fun i hi => by rw [(e3 i (mem_range.1 hi) j (mem_range.1 hj)).1]
    rw [c1, c2, c3, d1, d2, d3]
    have tot : ∑ k ∈ range nz, ∑ j ∈ range ny, ∑ i ∈ range nx, (fx a (posn nz o 2 k) (posn ny o 1 j) * E (i + 1) j k ^ 2 -
          fx a (posn nz o 2 k) (posn ny o 1 j) * E i j k ^ 2) +
        ∑ k ∈ range nz, ∑ j ∈ range ny, ∑ i ∈ range nx, (fy a (posn nz o 2 k) (posn nx o 0 i) * H i (j + 1) k ^ 2 -
          fy a (posn nz o 2 k) (posn nx o 0 i) * H i j k ^ 2) +
        ∑ k ∈ range nz, ∑ j ∈ range ny, ∑ i ∈ range nx, (fz a (posn ny o 1 j) (posn nx o 0 i) * Z i j (k + 1) ^ 2 -
          fz a (posn ny o 1 j) (posn nx o 0 i) * Z i j k ^ 2) +
        ∑ k ∈ range nz, ∑ j ∈ range ny, ∑ i ∈ range nx,
          V (posn nx o 0 i + posn ny o 1 j * nx + posn nz o 2 k * nx * ny) *
          sig (posn nx o 0 i + posn ny o 1 j * nx + posn nz o 2 k * nx * ny) *
          p (posn nx o 0 i + posn ny o 1 j * nx + posn nz o 2 k * nx * ny) ^ 2 ≤
        ∑ k ∈ range nz, ∑ j ∈ range ny, ∑ i ∈ range nx,
          V (posn nx o 0 i + posn ny o 1 j * nx + posn nz o 2 k * nx * ny) *
          q (posn nx o 0 i + posn ny o 1 j * nx + posn nz o 2 k * nx * ny) *
          p (posn nx o 0 i + posn ny o 1 j * nx + posn nz o 2 k * nx * ny) := by
      rw [← sum_add_distrib, ← sum_add_distrib, ← sum_add_distrib]
      refine sum_le_sum fun k hk => ?_
      rw [← sum_add_distrib, ← sum_add_distrib, ← sum_add_distrib]
      refine sum_le_sum fun j hj => ?_
      rw [← sum_add_distrib, ← sum_add_distrib, ← sum_add_distrib]
      refine sum_le_sum fun i hi => ?_
      have hk := mem_range.1 hk
      have hj := mem_range.1 hj
      have hi := mem_range.1 hi
      have h2 := hc a ha' (posn nx o 0 i) (posn_lt hi) (posn ny o 1 j) (posn_lt hj) (posn nz o 2 k) (posn_lt hk)
        (q (posn nx o 0 i + posn ny o 1 j * nx + posn nz o 2 k * nx * ny)) (E i j k, H i j k, Z i j k)
      have h3 := e4 i hi j hj k hk
      dsimp only at h3
      rw [h3] at h2
      dsimp only at h2
      linarith
    linarith

end Detran.WGReflect
