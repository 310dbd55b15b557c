import Mathlib.MeasureTheory.Integral.IntervalIntegral.FundThmCalculus
import Mathlib.Analysis.SpecialFunctions.Trigonometric.Deriv
import Mathlib.Analysis.SpecialFunctions.ExpDeriv
import Mathlib.Analysis.Calculus.Deriv.MeanValue
import Mathlib.Tactic.LinearCombination

/-!
# The angle of a planar linear system
-/

namespace Detran.Prufer

open Set Real

/-- A continuous function on an open interval about zero has a primitive. -/
theorem primitive {a : ℝ} (ha : 0 < a) {f : ℝ → ℝ} (hf : ContinuousOn f (Ioo (-a) a)) :
    ∃ F : ℝ → ℝ, F 0 = 0 ∧ ∀ t ∈ Ioo (-a) a, HasDerivAt F (f t) t := by
  refine ⟨fun t => ∫ s in (0 : ℝ)..t, f s, by simp, fun t ht => ?_⟩
  have hsub : uIcc 0 t ⊆ Ioo (-a) a := by
    intro x hx
    rw [mem_uIcc] at hx
    rcases hx with h | h
    · exact ⟨by linarith [h.1], by linarith [h.2, ht.2]⟩
    · exact ⟨by linarith [h.1, ht.1], by linarith [h.2]⟩
  exact intervalIntegral.integral_hasDerivAt_right ((hf.mono hsub).intervalIntegrable)
    (hf.stronglyMeasurableAtFilter isOpen_Ioo t ht) (hf.continuousAt (isOpen_Ioo.mem_nhds ht))

/-- The only solution of a homogeneous linear equation that starts at zero. -/
theorem zero_of_linear {a : ℝ} (ha : 0 < a) {A h : ℝ → ℝ} (hh : ContinuousOn h (Ioo (-a) a))
    (hA : ∀ t ∈ Ioo (-a) a, HasDerivAt A (h t * A t) t) (h0 : A 0 = 0) : ∀ t ∈ Ico 0 a, A t = 0 := by
  obtain ⟨H, -, hH⟩ := primitive ha hh
  intro t ht
  have hI : ∀ x ∈ Icc 0 t, x ∈ Ioo (-a) a := fun x hx => ⟨by linarith [hx.1], by linarith [hx.2, ht.2]⟩
  have hd : ∀ x ∈ Icc 0 t, HasDerivAt (fun s => A s * exp (-H s)) 0 x := by
    intro x hx
    have h1 := (hA x (hI x hx)).mul (hH x (hI x hx)).neg.exp
    refine h1.congr_deriv ?_
    ring
  have hc := constant_of_has_deriv_right_zero (f := fun s => A s * exp (-H s)) (a := 0) (b := t)
    (fun x hx => (hd x hx).continuousAt.continuousWithinAt)
    (fun x hx => (hd x ⟨hx.1, hx.2.le⟩).hasDerivWithinAt) t ⟨ht.1, le_rfl⟩
  simp only [h0, zero_mul] at hc
  exact (mul_eq_zero.1 hc).resolve_right (exp_ne_zero _)

/-- Functions with nonnegative slope rise. -/
theorem le_of_slope {a : ℝ} {f f' : ℝ → ℝ} (hf : ∀ t ∈ Ioo (-a) a, HasDerivAt f (f' t) t)
    (h : ∀ t ∈ Ioo (-a) a, 0 ≤ f' t) {s t : ℝ} (hs : s ∈ Ioo (-a) a) (ht : t ∈ Ioo (-a) a) (hst : s ≤ t) : f s ≤ f t := by
  refine monotoneOn_of_deriv_nonneg (convex_Ioo (-a) a) (fun x hx => (hf x hx).continuousAt.continuousWithinAt)
    (fun x hx => ?_) (fun x hx => ?_) hs ht hst
  · rw [interior_Ioo] at hx
    exact (hf x hx).differentiableAt.differentiableWithinAt
  · rw [interior_Ioo] at hx
    rw [(hf x hx).deriv]
    exact h x hx

/-- **The angle.** `U' = N V + l U`, `V' = l V - (N + q) U`. -/
theorem angle {a N : ℝ} (ha : 0 < a) {U V l q : ℝ → ℝ} (hl : ContinuousOn l (Ioo (-a) a)) (hq : ContinuousOn q (Ioo (-a) a))
    (hU : ∀ t ∈ Ioo (-a) a, HasDerivAt U (N * V t + l t * U t) t)
    (hV : ∀ t ∈ Ioo (-a) a, HasDerivAt V (l t * V t - (N + q t) * U t) t)
    (hne : ∀ t ∈ Ioo (-a) a, U t ^ 2 + V t ^ 2 ≠ 0) (φ0 : ℝ) (h0 : U 0 * cos φ0 = V 0 * sin φ0) :
    ∃ φ : ℝ → ℝ, φ 0 = φ0 ∧ (∀ t ∈ Ioo (-a) a, HasDerivAt φ (N + q t * (U t ^ 2 / (U t ^ 2 + V t ^ 2))) t) ∧
      ∀ t ∈ Ico 0 a, U t * cos (φ t) = V t * sin (φ t) := by
  have cU : ContinuousOn U (Ioo (-a) a) := fun x hx => (hU x hx).continuousAt.continuousWithinAt
  have cV : ContinuousOn V (Ioo (-a) a) := fun x hx => (hV x hx).continuousAt.continuousWithinAt
  have cR : ContinuousOn (fun t => U t ^ 2 + V t ^ 2) (Ioo (-a) a) := (cU.pow 2).add (cV.pow 2)
  have cg : ContinuousOn (fun t => N + q t * (U t ^ 2 / (U t ^ 2 + V t ^ 2))) (Ioo (-a) a) :=
    continuousOn_const.add (hq.mul ((cU.pow 2).div cR hne))
  obtain ⟨F, hF0, hF⟩ := primitive ha cg
  refine ⟨fun t => φ0 + F t, by simp [hF0], fun t ht => (hF t ht).const_add φ0, ?_⟩
  have hz := zero_of_linear (A := fun t => U t * cos (φ0 + F t) - V t * sin (φ0 + F t))
    (h := fun t => l t - q t * (U t * V t) / (U t ^ 2 + V t ^ 2)) ha
    (hl.sub ((hq.mul (cU.mul cV)).div cR hne)) (fun t ht => ?_) (by simp [hF0, h0])
  · intro t ht
    have := hz t ht
    linarith
  · have h1 := ((hU t ht).mul ((hF t ht).const_add φ0).cos).sub ((hV t ht).mul ((hF t ht).const_add φ0).sin)
    refine h1.congr_deriv ?_
    have hn := hne t ht
    field_simp
    ring

end Detran.Prufer
