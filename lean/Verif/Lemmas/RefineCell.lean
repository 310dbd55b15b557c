import Verif.Lemmas.Refine
import Mathlib.MeasureTheory.Integral.IntervalIntegral.FundThmCalculus

/-!
# Second order consistency of diamond differencing and step characteristics (for C136)
-/

namespace Detran.MGReflect

open Detran.Sweep (dd1 sc1)

/-- Error of the trapezoid rule. -/
theorem trapezoid {f g k : ℝ → ℝ} {a b κ : ℝ} (hab : a < b) (hf : ContinuousOn f (Set.Icc a b)) (hg : ContinuousOn g (Set.Icc a b))
    (df : ∀ x ∈ Set.Ioo a b, HasDerivAt f (g x) x) (dg : ∀ x ∈ Set.Ioo a b, HasDerivAt g (k x) x)
    (hk : ∀ x ∈ Set.Ioo a b, ∀ y ∈ Set.Ioo a b, |k x - k y| ≤ κ) :
    |f b - f a - (b - a) / 2 * (g a + g b)| ≤ (b - a) ^ 2 / 2 * κ := by
  have hpos : 0 < b - a := sub_pos.2 hab
  obtain ⟨ξ, hξ, e⟩ := exists_hasDerivAt_eq_slope (fun x => f x - f a - (x - a) / 2 * (g a + g x))
    (fun x => g x - (1 / 2 * (g a + g x) + (x - a) / 2 * k x)) hab
    ((hf.sub continuousOn_const).sub (((continuousOn_id.sub continuousOn_const).div_const 2).mul (continuousOn_const.add hg)))
    fun x hx => by
      have h1 : HasDerivAt (fun x : ℝ => (x - a) / 2) (1 / 2) x := ((hasDerivAt_id x).sub_const a).div_const 2
      have h2 : HasDerivAt (fun x => g a + g x) (k x) x := (dg x hx).const_add (g a)
      exact ((df x hx).sub_const (f a)).sub (h1.mul h2)
  obtain ⟨ζ, hζ, e'⟩ := exists_hasDerivAt_eq_slope g k hξ.1 (hg.mono (Set.Icc_subset_Icc_right hξ.2.le))
    fun x hx => dg x ⟨hx.1, hx.2.trans hξ.2⟩
  have hpos' : 0 < ξ - a := sub_pos.2 hξ.1
  rw [eq_div_iff hpos.ne'] at e
  rw [eq_div_iff hpos'.ne'] at e'
  have e3 : f b - f a - (b - a) / 2 * (g a + g b) = (b - a) * ((ξ - a) / 2) * (k ζ - k ξ) := by
    linear_combination -e - (b - a) / 2 * e'
  have h1 := hk ζ ⟨hζ.1, hζ.2.trans hξ.2⟩ ξ hξ
  rw [e3, abs_mul, abs_of_nonneg (by positivity)]
  calc (b - a) * ((ξ - a) / 2) * |k ζ - k ξ| ≤ (b - a) * ((ξ - a) / 2) * κ := mul_le_mul_of_nonneg_left h1 (by positivity)
    _ ≤ (b - a) * ((b - a) / 2) * κ := by
        have : 0 ≤ κ := (abs_nonneg _).trans h1
        have : (ξ - a) / 2 ≤ (b - a) / 2 := by linarith [hξ.2]
        gcongr
    _ = _ := by ring

/-- Middle and mean of the ends. -/
theorem middle {f g : ℝ → ℝ} {a b κ : ℝ} (hab : a < b) (hf : ContinuousOn f (Set.Icc a b))
    (df : ∀ x ∈ Set.Ioo a b, HasDerivAt f (g x) x) (hk : ∀ x ∈ Set.Ioo a b, ∀ y ∈ Set.Ioo a b, |g x - g y| ≤ κ) :
    |(f a + f b) / 2 - f ((a + b) / 2)| ≤ (b - a) / 4 * κ := by
  have h1 : a < (a + b) / 2 := by linarith
  have h2 : (a + b) / 2 < b := by linarith
  obtain ⟨ξ, hξ, e⟩ := exists_hasDerivAt_eq_slope f g h1 (hf.mono (Set.Icc_subset_Icc_right h2.le))
    fun x hx => df x ⟨hx.1, hx.2.trans h2⟩
  obtain ⟨ζ, hζ, e'⟩ := exists_hasDerivAt_eq_slope f g h2 (hf.mono (Set.Icc_subset_Icc_left h1.le))
    fun x hx => df x ⟨h1.trans hx.1, hx.2⟩
  rw [eq_div_iff (by linarith)] at e e'
  have e3 : (f a + f b) / 2 - f ((a + b) / 2) = (b - a) / 4 * (g ζ - g ξ) := by
    linear_combination 1 / 2 * e - 1 / 2 * e'
  rw [e3, abs_mul, abs_of_nonneg (by linarith)]
  exact mul_le_mul_of_nonneg_left (hk ζ ⟨h1.trans hζ.1, hζ.2⟩ ξ ⟨hξ.1, hξ.2.trans h2⟩) (by linarith)

/-- Continuous functions on a cell have antiderivatives. -/
theorem antiderivative {f : ℝ → ℝ} {a b : ℝ} (hab : a < b) (hf : ContinuousOn f (Set.Icc a b)) :
    ∃ F : ℝ → ℝ, ContinuousOn F (Set.Icc a b) ∧ ∀ x ∈ Set.Ioo a b, HasDerivAt F (f x) x := by
  obtain ⟨g, hg, e⟩ : ∃ g : ℝ → ℝ, Continuous g ∧ ∀ x ∈ Set.Icc a b, g x = f x :=
    ⟨Set.IccExtend hab.le ((Set.Icc a b).restrict f), (continuousOn_iff_continuous_restrict.1 hf).Icc_extend',
      fun x hx => Set.IccExtend_of_mem hab.le _ hx⟩
  have hd : ∀ x, HasDerivAt (fun x => ∫ t in a..x, g t) (g x) x := fun x => (hg.integral_hasStrictDerivAt a x).hasDerivAt
  refine ⟨fun x => ∫ t in a..x, g t, fun x _ => (hd x).continuousAt.continuousWithinAt, fun x hx => ?_⟩
  rw [← e x (Set.Ioo_subset_Icc_self hx)]
  exact hd x

/-- Functions with the same derivative in a cell change by the same amount across it. -/
theorem same_change {f g k : ℝ → ℝ} {a b : ℝ} (hab : a < b) (hf : ContinuousOn f (Set.Icc a b)) (hg : ContinuousOn g (Set.Icc a b))
    (df : ∀ x ∈ Set.Ioo a b, HasDerivAt f (k x) x) (dg : ∀ x ∈ Set.Ioo a b, HasDerivAt g (k x) x) : f b - f a = g b - g a := by
  obtain ⟨ξ, hξ, e⟩ := exists_hasDerivAt_eq_slope (fun x => f x - g x) (fun x => k x - k x) hab (hf.sub hg)
    fun x hx => (df x hx).sub (dg x hx)
  rw [sub_self, eq_comm, div_eq_zero_iff] at e
  rcases e with e | e <;> linarith

/-- One cell of a direction of cosine `mu`, between its inflow edge `a` and its outflow edge `b`: both schemes take the exact inflow
    to the exact outflow with a cell flux near the mean of the exact ones, up to the width times how far the slope and the source
    per cosine vary in the cell. -/
theorem cell_second {sch : ℝ → ℝ → ℝ × ℝ} {mu sg a b κ ζ : ℝ} {f F q : ℝ → ℝ} (hmu : 0 < mu) (hsg : 0 < sg) (hab : a < b)
    (hsch : sch = dd1 mu (b - a) sg ∨ sch = sc1 Real.exp mu (b - a) sg)
    (hc : ContinuousOn f (Set.Icc a b)) (hd : ∀ x ∈ Set.Ioo a b, HasDerivAt f ((q x - sg * f x) / mu) x)
    (hF : ContinuousOn F (Set.Icc a b)) (dF : ∀ x ∈ Set.Ioo a b, HasDerivAt F (f x) x)
    (hκ : ∀ x ∈ Set.Ioo a b, ∀ y ∈ Set.Ioo a b, |(q x - sg * f x) / mu - (q y - sg * f y) / mu| ≤ κ)
    (hζ : ∀ x ∈ Set.Ioo a b, ∀ y ∈ Set.Ioo a b, |q x - q y| ≤ ζ * mu) :
    ∃ c, sch (mu * (f b - f a) / (b - a) + sg * c) (f a) = (c, f b) ∧ |c - (F b - F a) / (b - a)| ≤ (b - a) * (κ / 2 + ζ) := by
  have hh : 0 < b - a := sub_pos.2 hab
  have hm : (a + b) / 2 ∈ Set.Ioo a b := ⟨by linarith, by linarith⟩
  have hκ0 : 0 ≤ κ := (abs_nonneg _).trans (hκ _ hm _ hm)
  have hζ0 : 0 ≤ ζ := by
    by_contra h
    have := (abs_nonneg _).trans (hζ _ hm _ hm)
    nlinarith
  have h1 : sg + 2 * mu / (b - a) ≠ 0 := by positivity
  rcases hsch with rfl | rfl
  · refine ⟨(f a + f b) / 2, ?_, ?_⟩
    · unfold dd1
      have : 1 / (sg + 2 * mu / (b - a)) * (mu * (f b - f a) / (b - a) + sg * ((f a + f b) / 2) + 2 * mu / (b - a) * f a) =
          (f a + f b) / 2 := by
        rw [one_div_mul_eq_div, div_eq_iff h1]
        field_simp
        ring
      simp only [this, Prod.mk.injEq, true_and]
      ring
    · have k := trapezoid hab hF hc dF hd hκ
      have e : (f a + f b) / 2 - (F b - F a) / (b - a) = -((F b - F a - (b - a) / 2 * (f a + f b)) / (b - a)) := by
        field_simp
        ring
      rw [e, abs_neg, abs_div, abs_of_pos hh, div_le_iff₀ hh]
      have : 0 ≤ (b - a) * (b - a) * ζ := by positivity
      nlinarith
  · obtain ⟨qm, hqm⟩ : ∃ qm, qm = (mu * (f b - f a) + sg * (F b - F a)) / (b - a) := ⟨_, rfl⟩
    have hqm' : qm * (b - a) = mu * (f b - f a) + sg * (F b - F a) := by rw [hqm]; field_simp
    -- the antiderivative of the source less its mean
    let Q : ℝ → ℝ := fun x => mu * (f x - f a) + sg * (F x - F a) - qm * (x - a)
    have dQ : ∀ x ∈ Set.Ioo a b, HasDerivAt Q (q x - qm) x := by
      intro x hx
      have k := ((((hd x hx).sub_const (f a)).const_mul mu).add (((dF x hx).sub_const (F a)).const_mul sg)).sub
        (((hasDerivAt_id x).sub_const a).const_mul qm)
      refine HasDerivAt.congr_deriv (f := Q) k ?_
      rw [mul_div_cancel₀ _ hmu.ne']
      ring
    have cQ : ContinuousOn Q (Set.Icc a b) :=
      ((continuousOn_const.mul (hc.sub continuousOn_const)).add (continuousOn_const.mul (hF.sub continuousOn_const))).sub
        (continuousOn_const.mul (continuousOn_id.sub continuousOn_const))
    have Qa : Q a = 0 := by simp [Q]
    have Qb : Q b = 0 := by simp only [Q]; linarith
    obtain ⟨ξ, hξ, e⟩ := exists_hasDerivAt_eq_slope Q _ hab cQ dQ
    have eqm : qm = q ξ := by
      rw [Qa, Qb, sub_zero, zero_div] at e
      linarith
    have bQ : ∀ x ∈ Set.Ioo a b, |Q x| ≤ (b - a) * (ζ * mu) := by
      intro x hx
      obtain ⟨z, hz, e'⟩ := exists_hasDerivAt_eq_slope Q _ hx.1 (cQ.mono (Set.Icc_subset_Icc_right hx.2.le))
        fun y hy => dQ y ⟨hy.1, hy.2.trans hx.2⟩
      have hxa : 0 < x - a := sub_pos.2 hx.1
      rw [Qa, sub_zero, eq_div_iff hxa.ne'] at e'
      rw [← e', abs_mul, abs_of_pos hxa, eqm, mul_comm]
      have k1 := hζ z ⟨hz.1, hz.2.trans hx.2⟩ ξ hξ
      have k2 : x - a ≤ b - a := by linarith [hx.2]
      exact mul_le_mul k2 k1 (abs_nonneg _) hh.le
    have hE : ∀ x, HasDerivAt (fun x => Real.exp (sg * (x - a) / mu)) (Real.exp (sg * (x - a) / mu) * (sg / mu)) x := by
      intro x
      have h0 : HasDerivAt (fun x => sg * (x - a) / mu) (sg / mu) x := by
        have := (((hasDerivAt_id x).sub_const a).const_mul sg).div_const mu
        simpa using this
      exact h0.exp
    -- the mean value theorem for the part of the outflow that the variation of the source makes
    obtain ⟨ρ, hρ, e2⟩ := exists_ratio_hasDerivAt_eq_ratio_slope
      (fun x => Real.exp (sg * (x - a) / mu) * (f x - qm / sg - Q x / mu))
      (fun x => Real.exp (sg * (x - a) / mu) * (sg / mu) * (f x - qm / sg - Q x / mu) +
        Real.exp (sg * (x - a) / mu) * ((q x - sg * f x) / mu - (q x - qm) / mu)) hab
      (ContinuousOn.mul (fun x _ => (hE x).continuousAt.continuousWithinAt)
        ((hc.sub continuousOn_const).sub (cQ.div_const mu)))
      (fun x hx => (hE x).mul (((hd x hx).sub_const (qm / sg)).sub ((dQ x hx).div_const mu)))
      (fun x => Real.exp (sg * (x - a) / mu)) (fun x => Real.exp (sg * (x - a) / mu) * (sg / mu))
      (fun x _ => (hE x).continuousAt.continuousWithinAt) fun x _ => hE x
    have hP : 0 < Real.exp (sg * (ρ - a) / mu) := Real.exp_pos _
    rw [Qa, Qb, sub_self, mul_zero, zero_div, Real.exp_zero, one_mul] at e2
    have hτ : 0 < sg * (b - a) / mu := by positivity
    set T := Real.exp (sg * (b - a) / mu) with hTd
    have hT1 : 1 < T := Real.one_lt_exp_iff.2 hτ
    set E := Real.exp (sg * (ρ - a) / mu)
    have hT0 : T ≠ 0 := by positivity
    have hT2 : T - 1 ≠ 0 := by linarith
    obtain ⟨s, hs⟩ : ∃ s, s = qm - sg / mu * Q ρ := ⟨_, rfl⟩
    have e3 : (T - 1) * s = (T * f b - f a) * sg := by
      have k : E * (sg / mu) * ((T * (f b - qm / sg - 0 / mu) - (f a - qm / sg - 0 / mu)) * sg) =
          E * (sg / mu) * ((T - 1) * (-(sg / mu * Q ρ))) := by
        have e4 : E * (sg / mu) * (f ρ - qm / sg - Q ρ / mu) + E * ((q ρ - sg * f ρ) / mu - (q ρ - qm) / mu) =
            E * (-(sg / mu * Q ρ)) / mu := by
          field_simp
          ring
        rw [e4] at e2
        linear_combination -sg * e2
      have k2 := mul_left_cancel₀ (show E * (sg / mu) ≠ 0 by positivity) k
      rw [hs]
      have k3 : (T * (f b - qm / sg - 0 / mu) - (f a - qm / sg - 0 / mu)) * sg = (T * f b - f a) * sg - (T - 1) * qm := by
        field_simp
        ring
      linear_combination k3 - k2
    have hA : Real.exp (-(sg * (b - a) / mu)) = 1 / T := by rw [Real.exp_neg, one_div]
    have e4 : 1 / T * f a + s * (1 - 1 / T) / sg = f b := by
      have : s * (1 - 1 / T) = (T - 1) * s / T := by field_simp
      rw [this, e3]
      field_simp
      ring
    have e6 : mu * (f b - f a) / (b - a) + sg * ((s - mu * (f b - f a) / (b - a)) / sg) = s := by
      field_simp
      ring
    refine ⟨(s - mu * (f b - f a) / (b - a)) / sg, ?_, ?_⟩
    · rw [e6]
      unfold sc1
      simp only [hA, e4, Prod.mk.injEq, and_true]
      have e5 : f a * (1 - 1 / T) / (sg * (b - a) / mu) + s * (sg * (b - a) + mu * (1 / T - 1)) / (sg * sg * (b - a)) =
          s / sg - mu * ((1 / T * f a + s * (1 - 1 / T) / sg) - f a) / (b - a) / sg := by
        field_simp
        ring
      rw [e5, e4]
      field_simp
    · have e7 : (s - mu * (f b - f a) / (b - a)) / sg - (F b - F a) / (b - a) = -(Q ρ / mu) := by
        rw [hs, hqm]
        field_simp
        ring
      rw [e7, abs_neg, abs_div, abs_of_pos hmu, div_le_iff₀ hmu]
      have k1 := bQ ρ hρ
      have : 0 ≤ (b - a) * (κ / 2) * mu := by positivity
      nlinarith

end Detran.MGReflect
