import Verif.Lemmas.Prufer
import Verif.Props.QuadNewton
import Mathlib.Analysis.SpecialFunctions.Trigonometric.ArctanDeriv

/-!
# Where the roots of Legendre polynomials lie, and Newton's iteration from their cosine guesses
-/

namespace Detran.QuadGen

open Polynomial Set Real

/-- Legendre's equation. -/
theorem leg_ode (n : Nat) (x : ℝ) : (1 - x * x) * (derivative (derivative (leg (n + 1)))).eval x =
    2 * x * (derivative (leg (n + 1))).eval x - ((n : ℝ) + 1) * ((n : ℝ) + 2) * (leg (n + 1)).eval x := by
  obtain ⟨h1, h2⟩ := leg_deriv n
  have h3 : (X * X - 1) * derivative (leg (n + 1)) = C ((n : ℝ) + 1) * (X * leg (n + 1) - leg n) := by
    linear_combination X * h1 - h2
  have h4 := congrArg (fun p => (derivative p).eval x) h3
  have h5 := congrArg (eval x) h1
  simp only [derivative_mul, derivative_sub, derivative_X, derivative_C, derivative_one, eval_add, eval_mul, eval_sub, eval_X,
    eval_C, eval_one, eval_zero, sub_zero, zero_mul, zero_add, one_mul, mul_one] at h4 h5
  linear_combination -h4 - ((n : ℝ) + 1) * h5

/-- `m + 1/2` for the polynomial of degree `m = n + 1`. -/
noncomputable def freq (n : Nat) : ℝ := (n : ℝ) + 3 / 2

theorem freq_pos (n : Nat) : 0 < freq n := by unfold freq; positivity

theorem half_pi : 0 < π / 2 := by positivity

/-- The angle belonging to a polynomial. -/
theorem leg_angle (n : Nat) : ∃ φ : ℝ → ℝ, φ 0 = (if n % 2 = 0 then 0 else π / 2) ∧ ContinuousOn φ (Ico 0 (π / 2)) ∧
    (∀ s ∈ Ico 0 (π / 2), ∀ t ∈ Ico 0 (π / 2), s ≤ t → φ s + freq n * (t - s) ≤ φ t ∧
      φ t ≤ φ s + freq n * (t - s) + (tan t - tan s) / (4 * freq n)) ∧
    ∀ t ∈ Ico 0 (π / 2), (leg (n + 1)).eval (sin t) = 0 ↔ sin (φ t) = 0 := by
  have hN := freq_pos n
  have hc : ∀ t ∈ Ioo (-(π / 2)) (π / 2), 0 < cos t := fun t ht => cos_pos_of_mem_Ioo ht
  set P := leg (n + 1) with hP
  have d1 : ∀ t, HasDerivAt (fun t => P.eval (sin t)) ((derivative P).eval (sin t) * cos t) t := fun t =>
    (P.hasDerivAt (sin t)).comp t (hasDerivAt_sin t)
  have d2 : ∀ t, HasDerivAt (fun t => (derivative P).eval (sin t)) ((derivative (derivative P)).eval (sin t) * cos t) t :=
    fun t => ((derivative P).hasDerivAt (sin t)).comp t (hasDerivAt_sin t)
  have dt : ∀ t ∈ Ioo (-(π / 2)) (π / 2), HasDerivAt tan (1 / cos t ^ 2) t := fun t ht =>
    hasDerivAt_tan (hc t ht).ne'
  have ct : ContinuousOn (fun t => tan t / 2) (Ioo (-(π / 2)) (π / 2)) := fun t ht =>
    ((dt t ht).continuousAt.div_const 2).continuousWithinAt
  have cq : ContinuousOn (fun t => 1 / (4 * freq n * cos t ^ 2)) (Ioo (-(π / 2)) (π / 2)) :=
    continuousOn_const.div (continuousOn_const.mul (continuous_cos.continuousOn.pow 2)) fun t ht => by
      have := hc t ht; positivity
  have hne : ∀ t ∈ Ioo (-(π / 2)) (π / 2), P.eval (sin t) ^ 2 +
      (((derivative P).eval (sin t) * cos t - tan t / 2 * P.eval (sin t)) / freq n) ^ 2 ≠ 0 := by
    intro t ht h
    have h1 : P.eval (sin t) = 0 := pow_eq_zero_iff (two_ne_zero) |>.1 ((add_eq_zero_iff_of_nonneg (sq_nonneg _) (sq_nonneg _)).1 h).1
    rw [h1] at h
    have h2 : (derivative P).eval (sin t) * cos t ≠ 0 := mul_ne_zero (root_simple n _ h1).2 (hc t ht).ne'
    simp only [mul_zero, sub_zero, ne_eq, OfNat.ofNat_ne_zero, not_false_eq_true, zero_pow, zero_add, pow_eq_zero_iff,
      div_eq_zero_iff] at h
    rcases h with h | h
    · exact h2 h
    · exact hN.ne' h
  obtain ⟨φ, h0, hd, hr⟩ := Prufer.angle (N := freq n) half_pi (U := fun t => P.eval (sin t))
    (V := fun t => ((derivative P).eval (sin t) * cos t - tan t / 2 * P.eval (sin t)) / freq n) (l := fun t => tan t / 2)
    (q := fun t => 1 / (4 * freq n * cos t ^ 2)) ct cq
    (fun t _ => (d1 t).congr_deriv (by field_simp; ring))
    (fun t ht => by
      have e := (((d2 t).mul (hasDerivAt_cos t)).sub (((dt t ht).div_const 2).mul (d1 t))).div_const (freq n)
      refine e.congr_deriv ?_
      have hcc := hc t ht
      have ho := leg_ode n (sin t)
      have hs := sin_sq_add_cos_sq t
      rw [← hP] at ho
      have ho' : (derivative (derivative P)).eval (sin t) * cos t * cos t =
          2 * sin t * (derivative P).eval (sin t) - ((n : ℝ) + 1) * ((n : ℝ) + 2) * P.eval (sin t) := by
        rw [← ho]; linear_combination (derivative (derivative P)).eval (sin t) * hs
      rw [ho']
      have ht' : tan t * cos t = sin t := tan_mul_cos hcc.ne'
      have hs' : tan t ^ 2 = 1 / cos t ^ 2 - 1 := by
        rw [tan_eq_sin_div_cos]; field_simp; linarith
      unfold freq at *
      generalize hy : 1 / cos t ^ 2 = y at *
      have hy2 : 1 / (4 * ((n : ℝ) + 3 / 2) * cos t ^ 2) = y / (4 * ((n : ℝ) + 3 / 2)) := by
        rw [← hy]; field_simp
      rw [hy2]
      rw [← ht']
      field_simp
      ring_nf
      simp only [hs']
      ring_nf)
    hne (if n % 2 = 0 then 0 else π / 2) (by
      have hz : ∀ k : Nat, k % 2 = 1 → (leg k).eval 0 = 0 := by
        intro k hk
        have := (leg_neg k 0).1
        rw [neg_zero, Odd.neg_one_pow (Nat.odd_iff.2 hk)] at this
        linarith
      split
      · rename_i h
        have := hz (n + 1) (by omega)
        simp [hP, this]
      · rename_i h
        have := hz n (by omega)
        have e := leg_deriv_eval n 0
        rw [this] at e
        have e' : (derivative P).eval 0 = 0 := by rw [hP]; linarith
        simp [e'])
  have hIco : ∀ t ∈ Ico 0 (π / 2), t ∈ Ioo (-(π / 2)) (π / 2) := fun t ht => ⟨by linarith [ht.1, half_pi], ht.2⟩
  refine ⟨φ, h0, fun t ht => (hd t (hIco t ht)).continuousAt.continuousWithinAt, fun s hs t ht hst => ⟨?_, ?_⟩, fun t ht => ?_⟩
  · have := Prufer.le_of_slope (f := fun t => φ t - freq n * t)
      (fun t ht => (hd t ht).sub ((hasDerivAt_id t).const_mul (freq n))) (fun t ht => ?_) (hIco s hs) (hIco t ht) hst
    · linarith
    · have := hc t ht
      have h2 := hne t ht
      simp only [mul_one, add_sub_cancel_left]
      positivity
  · have := Prufer.le_of_slope (f := fun t => freq n * t + tan t / (4 * freq n) - φ t)
      (fun t ht => (((hasDerivAt_id t).const_mul (freq n)).add ((dt t ht).div_const (4 * freq n))).sub (hd t ht))
      (fun t ht => ?_) (hIco s hs) (hIco t ht) hst
    · rw [sub_div]
      linarith
    · have := hc t ht
      set W := ((derivative P).eval (sin t) * cos t - tan t / 2 * P.eval (sin t)) / freq n
      have h3 : P.eval (sin t) ^ 2 / (P.eval (sin t) ^ 2 + W ^ 2) ≤ 1 :=
        div_le_one_of_le₀ (by nlinarith [sq_nonneg W]) (by positivity)
      have h4 : 0 ≤ 1 / (4 * freq n * cos t ^ 2) := by positivity
      have h5 := mul_le_mul_of_nonneg_left h3 h4
      have h6 : 1 / cos t ^ 2 / (4 * freq n) = 1 / (4 * freq n * cos t ^ 2) := by field_simp
      rw [h6]
      linarith
  · have h := hr t ht
    have hcc := hc t (hIco t ht)
    constructor
    · intro hu
      simp only [hu] at h
      have h2 : (derivative P).eval (sin t) * cos t ≠ 0 := mul_ne_zero (root_simple n _ hu).2 hcc.ne'
      simp only [zero_mul, mul_zero, sub_zero] at h
      exact (mul_eq_zero.1 h.symm).resolve_left (div_ne_zero h2 hN.ne')
    · intro hs
      rw [hs, mul_zero] at h
      refine (mul_eq_zero.1 h).resolve_right fun hcz => ?_
      have := sin_sq_add_cos_sq (φ t)
      rw [hs, hcz] at this
      norm_num at this

/-! ### One root for each guess -/

/-- What is known of the root `r` belonging to the guess `g` in the upper half: it lies a little below the guess, with no other
    root in between. -/
structure Below (n : Nat) (r g : ℝ) : Prop where
  root : (leg (n + 1)).eval r = 0
  nonneg : 0 ≤ r
  le : r ≤ g
  lt : g < 1
  near : g - r ≤ r / (4 * freq n ^ 2)
  far : 9 / (4 * freq n ^ 2) ≤ 1 - g * g
  alone : ∀ x, r < x → x ≤ g → (leg (n + 1)).eval x ≠ 0

/-- The guess as the sine of an angle from the middle. -/
theorem guess_sin (n i : Nat) : guess (n + 1) i = sin (π / 2 - π * ((i : ℝ) + 3 / 4) / freq n) := by
  unfold guess freq
  rw [sin_pi_div_two_sub]
  push_cast
  congr 1
  rw [show (i : ℝ) + 1 - 1 / 4 = i + 3 / 4 by ring, show (n : ℝ) + 1 + 1 / 2 = n + 3 / 2 by ring]

theorem exists_below (n i : Nat) (hi : 2 * i + 1 ≤ n + 1) : ∃ r, Below n r (guess (n + 1) i) := by
  obtain ⟨φ, h0, hcont, hb, hz⟩ := leg_angle n
  have hN := freq_pos n
  rw [guess_sin]
  set th := π * ((i : ℝ) + 3 / 4) / freq n with hth
  set τ := π / 2 - th with hτ
  have hpi := pi_pos
  have hth0 : 3 * π / (4 * freq n) ≤ th := by
    rw [hth, div_le_div_iff₀ (by positivity) hN]
    have : (0 : ℝ) ≤ i := Nat.cast_nonneg i
    nlinarith [mul_nonneg (mul_nonneg hpi.le this) hN.le]
  have hthp : 0 < th := lt_of_lt_of_le (by positivity) hth0
  have hi' : (2 : ℝ) * i + 1 ≤ n + 1 := by exact_mod_cast hi
  have hth1 : th ≤ π / 2 := by
    rw [hth, div_le_div_iff₀ hN (by norm_num)]
    unfold freq
    nlinarith
  have hτI : τ ∈ Ico 0 (π / 2) := ⟨by rw [hτ]; linarith, by rw [hτ]; linarith⟩
  have hzI : (0 : ℝ) ∈ Ico 0 (π / 2) := ⟨le_rfl, half_pi⟩
  have hcos : cos τ = sin th := by rw [hτ, cos_pi_div_two_sub]
  have hsin : 3 / (2 * freq n) ≤ sin th := by
    refine le_trans ?_ (mul_le_sin hthp.le hth1)
    have h1 := mul_le_mul_of_nonneg_left hth0 (show 0 ≤ 2 / π by positivity)
    refine le_trans (le_of_eq ?_) h1
    field_simp
    ring
  have hcp : 0 < cos τ := by rw [hcos]; exact lt_of_lt_of_le (by positivity) hsin
  obtain ⟨b1, b2⟩ := hb 0 hzI τ hτI hτI.1
  -- the angle at which the root lies
  set T := φ 0 + freq n * τ with hT
  have hTsin : sin T = 0 := by
    have e : T = ((((n + 1) / 2 : Nat) : ℤ) - (i : ℤ) : ℤ) * π := by
      rw [hT, h0, hτ, hth]
      have hf : freq n * (π / 2 - π * ((i : ℝ) + 3 / 4) / freq n) = freq n * (π / 2) - π * (i + 3 / 4) := by
        field_simp
      rw [hf]
      unfold freq
      rcases Nat.mod_two_eq_zero_or_one n with hp | hp
      · obtain ⟨k, rfl⟩ : ∃ k, n = 2 * k := ⟨n / 2, by omega⟩
        rw [if_pos hp, show (2 * k + 1) / 2 = k by omega]
        push_cast
        ring
      · obtain ⟨k, rfl⟩ : ∃ k, n = 2 * k + 1 := ⟨n / 2, by omega⟩
        rw [if_neg (by omega), show (2 * k + 1 + 1) / 2 = k + 1 by omega]
        push_cast
        ring
    rw [e]
    exact sin_int_mul_pi _
  have hTle : T ≤ φ τ := by rw [hT]; linarith
  have hT0 : φ 0 ≤ T := by rw [hT]; nlinarith [hτI.1]
  obtain ⟨ρ, hρ, hφρ⟩ := intermediate_value_Icc hτI.1
    (hcont.mono fun x hx => ⟨hx.1, lt_of_le_of_lt hx.2 hτI.2⟩) ⟨hT0, hTle⟩
  have hρI : ρ ∈ Ico 0 (π / 2) := ⟨hρ.1, lt_of_le_of_lt hρ.2 hτI.2⟩
  have hcρ : 0 < cos ρ := cos_pos_of_mem_Ioo ⟨by linarith [hρI.1, half_pi], hρI.2⟩
  have hgap : τ - ρ ≤ tan ρ / (4 * freq n ^ 2) := by
    have := (hb 0 hzI ρ hρI hρI.1).2
    rw [hφρ, hT, tan_zero, sub_zero, sub_zero] at this
    have h2 : freq n * (τ - ρ) ≤ tan ρ / (4 * freq n) := by linarith
    rw [le_div_iff₀ (by positivity)] at h2 ⊢
    nlinarith
  have hτt : tan τ ≤ 2 * freq n / 3 := by
    rw [tan_eq_sin_div_cos, div_le_div_iff₀ hcp (by norm_num), hcos]
    have h1 := sin_le_one τ
    have h2 : 2 * freq n * (3 / (2 * freq n)) = 3 := by field_simp
    nlinarith [mul_le_mul_of_nonneg_left hsin (show 0 ≤ 2 * freq n by positivity)]
  have hmono : StrictMonoOn sin (Icc (-(π / 2)) (π / 2)) := strictMonoOn_sin
  have hIcc : ∀ t ∈ Ico 0 (π / 2), t ∈ Icc (-(π / 2)) (π / 2) := fun t ht => ⟨by linarith [ht.1, half_pi], ht.2.le⟩
  refine ⟨sin ρ, ?_, sin_nonneg_of_nonneg_of_le_pi hρI.1 (by linarith [hρI.2]), ?_, ?_, ?_, ?_, ?_⟩
  · rw [hz ρ hρI, hφρ, hTsin]
  · exact hmono.monotoneOn (hIcc _ hρI) (hIcc _ hτI) hρ.2
  · have h1 := hmono (hIcc _ hτI) (show π / 2 ∈ Icc (-(π / 2)) (π / 2) from ⟨by linarith, le_rfl⟩) hτI.2
    rwa [sin_pi_div_two] at h1
  · have h1 : sin τ - sin ρ ≤ (τ - ρ) * cos ρ := by
      have h2 := (strictConcaveOn_sin_Icc.concaveOn)
      rcases eq_or_lt_of_le hρ.2 with e | e
      · rw [e]; simp
      · have h3 : MonotoneOn (fun t => cos ρ * t - sin t) (Icc ρ τ) := by
          refine monotoneOn_of_deriv_nonneg (convex_Icc ρ τ) (by fun_prop) (by fun_prop) fun x hx => ?_
          rw [interior_Icc] at hx
          have hd : HasDerivAt (fun t => cos ρ * t - sin t) (cos ρ * 1 - cos x) x :=
            ((hasDerivAt_id x).const_mul (cos ρ)).sub (hasDerivAt_sin x)
          rw [hd.deriv]
          have := cos_le_cos_of_nonneg_of_le_pi hρI.1 (by linarith [hx.2, hτI.2]) hx.1.le
          linarith
        have h4 := h3 (left_mem_Icc.2 hρ.2) (right_mem_Icc.2 hρ.2) hρ.2
        simp only at h4
        linarith
    have h2 := mul_le_mul_of_nonneg_right hgap hcρ.le
    have h3 : tan ρ / (4 * freq n ^ 2) * cos ρ = sin ρ / (4 * freq n ^ 2) := by
      rw [← tan_mul_cos hcρ.ne']; ring
    linarith
  · have h1 : 1 - sin τ * sin τ = sin th ^ 2 := by
      rw [← hcos]; linarith [sin_sq_add_cos_sq τ, sq (sin τ)]
    rw [h1]
    have h2 : 9 / (4 * freq n ^ 2) = (3 / (2 * freq n)) ^ 2 := by field_simp; norm_num
    rw [h2]
    exact pow_le_pow_left₀ (by positivity) hsin 2
  · intro x hx1 hx2
    have hx0 : -1 ≤ x := by
      have := sin_nonneg_of_nonneg_of_le_pi hρI.1 (show ρ ≤ π by linarith [hρI.2])
      linarith
    have hx3 : x ≤ 1 := le_trans hx2 (sin_le_one τ)
    have hsx : sin (arcsin x) = x := sin_arcsin hx0 hx3
    have hx4 : arcsin x ≤ τ := by
      rw [arcsin_le_iff_le_sin' ⟨by linarith [hτI.1], hτI.2⟩]
      exact hx2
    have hx5 : ρ < arcsin x := by
      rw [lt_arcsin_iff_sin_lt' ⟨by linarith [hρI.1], hρI.2⟩]
      exact hx1
    have hxI : arcsin x ∈ Ico 0 (π / 2) := ⟨by linarith [hρI.1], lt_of_le_of_lt hx4 hτI.2⟩
    rw [← hsx, Ne, hz _ hxI]
    intro hs
    obtain ⟨c1, -⟩ := hb ρ hρI _ hxI hx5.le
    obtain ⟨c3, -⟩ := hb _ hxI τ hτI hx4
    have c2 : φ τ ≤ T + π / 2 := by
      rw [tan_zero, sub_zero, sub_zero] at b2
      have : tan τ / (4 * freq n) ≤ 1 / 6 := by
        rw [div_le_iff₀ (by positivity)]; linarith
      have := two_le_pi
      rw [hT]; linarith
    have c4 : 0 < φ (arcsin x) - T := by
      rw [hφρ] at c1; nlinarith
    have c5 : φ (arcsin x) - T < π := by
      have : 0 ≤ freq n * (τ - arcsin x) := mul_nonneg hN.le (by linarith)
      linarith
    have := sin_pos_of_pos_of_lt_pi c4 c5
    rw [sin_sub, hs, hTsin] at this
    simp at this

/-! ### The polynomial between a root and its guess -/

theorem rise {a b : ℝ} {f f' : ℝ → ℝ} (hf : ∀ x, HasDerivAt f (f' x) x) (h : ∀ x ∈ Icc a b, 0 ≤ f' x) {s t : ℝ}
    (hs : s ∈ Icc a b) (ht : t ∈ Icc a b) (hst : s ≤ t) : f s ≤ f t := by
  refine monotoneOn_of_deriv_nonneg (convex_Icc a b) (fun x _ => (hf x).continuousAt.continuousWithinAt)
    (fun x _ => (hf x).differentiableAt.differentiableWithinAt) (fun x hx => ?_) hs ht hst
  rw [interior_Icc] at hx
  rw [(hf x).deriv]
  exact h x ⟨hx.1.le, hx.2.le⟩

/-- Convex and rising between the root and the guess. -/
theorem convex_between {p p' p'' : ℝ → ℝ} {N M r g : ℝ} (hN : 0 < N) (hM : 0 ≤ M) (hMN : M ≤ N ^ 2)
    (h1 : ∀ x, HasDerivAt p (p' x) x) (h2 : ∀ x, HasDerivAt p' (p'' x) x)
    (ode : ∀ x, (1 - x * x) * p'' x = 2 * x * p' x - M * p x) (hr : p r = 0) (hr' : 0 < p' r) (hr0 : 0 ≤ r) (hrg : r ≤ g)
    (hg : g < 1) (hnear : g - r ≤ r / (4 * N ^ 2)) (hfar : 9 / (4 * N ^ 2) ≤ 1 - g * g)
    (halone : ∀ x, r < x → x ≤ g → p x ≠ 0) :
    ∀ x ∈ Icc r g, p' r ≤ p' x ∧ p' x * (1 - x * x) ≤ p' r * (1 - r * r) ∧ p' r * (x - r) ≤ p x ∧ p x ≤ p' x * (x - r) ∧
      1 - r * r ≤ 11 / 9 * (1 - x * x) := by
  have cp : Continuous p := continuous_iff_continuousAt.2 fun x => (h1 x).continuousAt
  have hf : ∀ x, HasDerivAt (fun x => (1 - x * x) * p' x) (-(M * p x)) x := fun x => by
    have e := (((hasDerivAt_id x).mul (hasDerivAt_id x)).const_sub 1).mul (h2 x)
    refine e.congr_deriv ?_
    have := ode x
    simp only [id, one_mul, mul_one, Pi.mul_apply]
    linarith
  have hin : ∀ x ∈ Icc r g, 0 < 1 - x * x := fun x hx => by nlinarith [hx.1, hx.2]
  -- positive beyond the root
  have hpos : ∀ x ∈ Icc r g, 0 ≤ p x := by
    intro x hx
    by_contra hneg
    push Not at hneg
    have hrx : r < x := lt_of_le_of_ne hx.1 fun e => by rw [← e, hr] at hneg; exact lt_irrefl _ hneg
    have hall : ∀ y ∈ Icc r x, p y ≤ 0 := by
      intro y hy
      by_contra hy0
      push Not at hy0
      obtain ⟨z, hz, hz0⟩ := intermediate_value_Icc' hy.2 cp.continuousOn ⟨hneg.le, hy0.le⟩
      have hry : r < y := lt_of_le_of_ne hy.1 fun e => by rw [← e, hr] at hy0; exact lt_irrefl _ hy0
      exact halone z (lt_of_lt_of_le hry hz.1) (hz.2.trans hx.2) hz0
    have hfr : ∀ y ∈ Icc r x, 0 ≤ p' y := by
      intro y hy
      have := rise hf (a := r) (b := x) (fun z hz => by have := hall z hz; nlinarith) ⟨le_rfl, hrx.le⟩ hy hy.1
      have hy1 := hin y ⟨hy.1, hy.2.trans hx.2⟩
      have hy2 := hin r ⟨le_rfl, hrg⟩
      by_contra hc
      push Not at hc
      nlinarith [mul_pos hy2 hr', mul_pos hy1 (neg_pos.2 hc)]
    have := rise h1 hfr ⟨le_rfl, hrx.le⟩ ⟨hrx.le, le_rfl⟩ hrx.le
    rw [hr] at this
    linarith
  have hG := hin g ⟨hrg, le_rfl⟩
  have hR := hin r ⟨le_rfl, hrg⟩
  have hDn : 0 ≤ g - r := by linarith
  have hD2 : (g - r) * (4 * N ^ 2) ≤ r := by rwa [le_div_iff₀ (by positivity)] at hnear
  have hfar2 : 9 ≤ (1 - g * g) * (4 * N ^ 2) := by rwa [div_le_iff₀ (by positivity)] at hfar
  have hRG : 1 - r * r ≤ 11 / 9 * (1 - g * g) := by
    have e : 1 - r * r = (1 - g * g) + (g - r) * (g + r) := by ring
    have e2 : (g - r) * (g + r) ≤ (g - r) * 2 := mul_le_mul_of_nonneg_left (by linarith) hDn
    have e3 : (g - r) * 2 * (4 * N ^ 2) ≤ 2 / 9 * ((1 - g * g) * (4 * N ^ 2)) := by nlinarith
    have e4 : (g - r) * 2 ≤ 2 / 9 * (1 - g * g) := by
      have : 0 < 4 * N ^ 2 := by positivity
      nlinarith
    linarith
  -- `(1 - x²) p'` falls
  have hfall : ∀ x ∈ Icc r g, (1 - x * x) * p' x ≤ (1 - r * r) * p' r := by
    intro x hx
    have := rise (fun x => (hf x).neg) (a := r) (b := g) (fun z hz => by
      rw [neg_neg]; exact mul_nonneg hM (hpos z hz)) ⟨le_rfl, hrg⟩ hx hx.1
    simp only [Pi.neg_apply] at this
    linarith
  have hS : ∀ x ∈ Icc r g, p' x ≤ 11 / 9 * p' r := by
    intro x hx
    have a1 := hfall x hx
    have a2 : 1 - g * g ≤ 1 - x * x := by nlinarith [hx.1, hx.2]
    by_contra hc
    push Not at hc
    have a3 : (1 - g * g) * p' x ≤ (1 - x * x) * p' x := mul_le_mul_of_nonneg_right a2 (by linarith)
    have a4 : (1 - r * r) * p' r ≤ 11 / 9 * (1 - g * g) * p' r := mul_le_mul_of_nonneg_right hRG hr'.le
    have a5 : (1 - g * g) * (11 / 9 * p' r) < (1 - g * g) * p' x := mul_lt_mul_of_pos_left hc hG
    linarith
  have hP : ∀ x ∈ Icc r g, p x ≤ 11 / 9 * p' r * (x - r) := by
    intro x hx
    have := rise (f := fun x => 11 / 9 * p' r * x - p x) (fun x => ((hasDerivAt_id x).const_mul (11 / 9 * p' r)).sub (h1 x))
      (a := r) (b := g) (fun z hz => by have := hS z hz; linarith) ⟨le_rfl, hrg⟩ hx hx.1
    simp only [hr] at this
    linarith
  have hP2 : ∀ x ∈ Icc r g, M * p x ≤ 11 / 36 * p' r * r := by
    intro x hx
    have a1 := hP x hx
    have a2 : 11 / 9 * p' r * (x - r) ≤ 11 / 9 * p' r * (g - r) := mul_le_mul_of_nonneg_left (by linarith [hx.2]) (by positivity)
    have a3 : M * p x ≤ N ^ 2 * (11 / 9 * p' r * (g - r)) := by
      refine le_trans (mul_le_mul_of_nonneg_right hMN (hpos x hx)) (mul_le_mul_of_nonneg_left (a1.trans a2) (by positivity))
    have a4 : 11 / 36 * p' r * ((g - r) * (4 * N ^ 2)) ≤ 11 / 36 * p' r * r := mul_le_mul_of_nonneg_left hD2 (by positivity)
    linarith
  -- and not by much
  have hlow : ∀ x ∈ Icc r g, 1 / 2 * p' r ≤ p' x := by
    intro x hx
    have a1 := rise (f := fun x => 11 / 36 * p' r * r * x + (1 - x * x) * p' x)
      (fun x => ((hasDerivAt_id x).const_mul (11 / 36 * p' r * r)).add (hf x)) (a := r) (b := g)
      (fun z hz => by have := hP2 z hz; linarith) ⟨le_rfl, hrg⟩ hx hx.1
    have a2 : (x - r) * (4 * N ^ 2) ≤ r := by nlinarith [hx.2, sq_nonneg N]
    have a3 : (x - r) * r ≤ 1 / 9 * (1 - r * r) := by
      have b1 : 9 ≤ (1 - r * r) * (4 * N ^ 2) := by nlinarith [sq_nonneg N]
      have b2 : (x - r) * r ≤ (x - r) := mul_le_of_le_one_right (by linarith [hx.1]) (by linarith)
      have b3 : (x - r) * (4 * N ^ 2) ≤ 1 / 9 * (1 - r * r) * (4 * N ^ 2) := by linarith
      have b4 := le_of_mul_le_mul_right b3 (by positivity)
      linarith
    have a4 : 11 / 36 * p' r * (x - r) * r ≤ 1 / 2 * p' r * (1 - r * r) := by
      have := mul_le_mul_of_nonneg_left a3 (show 0 ≤ 11 / 36 * p' r by positivity)
      nlinarith [mul_pos hr' hR]
    have a5 : 1 / 2 * p' r * (1 - x * x) ≤ 1 / 2 * p' r * (1 - r * r) :=
      mul_le_mul_of_nonneg_left (by nlinarith [hx.1]) (by positivity)
    have a6 : 1 / 2 * p' r * (1 - x * x) ≤ p' x * (1 - x * x) := by linarith
    exact le_of_mul_le_mul_right a6 (hin x hx)
  have hcv : ∀ x ∈ Icc r g, 0 ≤ p'' x := by
    intro x hx
    have a1 := hP2 x hx
    have a2 : 2 * r * (1 / 2 * p' r) ≤ 2 * x * p' x :=
      mul_le_mul (by linarith [hx.1]) (hlow x hx) (by positivity) (by linarith [hx.1])
    have a3 : 0 ≤ (1 - x * x) * p'' x := by rw [ode]; nlinarith [mul_nonneg hr0 hr'.le]
    by_contra hc
    push Not at hc
    nlinarith [mul_pos (hin x hx) (neg_pos.2 hc)]
  have hup : ∀ x ∈ Icc r g, ∀ y ∈ Icc r g, x ≤ y → p' x ≤ p' y := fun x hx y hy hxy => rise h2 hcv hx hy hxy
  intro x hx
  refine ⟨hup r ⟨le_rfl, hrg⟩ x hx hx.1, ?_, ?_, ?_, ?_⟩
  · have := hfall x hx; linarith
  · have := rise (f := fun x => p x - p' r * x) (fun x => (h1 x).sub ((hasDerivAt_id x).const_mul (p' r)))
      (a := r) (b := g) (fun z hz => by have := hup r ⟨le_rfl, hrg⟩ z hz hz.1; linarith) ⟨le_rfl, hrg⟩ hx hx.1
    simp only [hr] at this
    linarith
  · have := rise (f := fun z => p' x * z - p z) (fun z => ((hasDerivAt_id z).const_mul (p' x)).sub (h1 z))
      (a := r) (b := x) (fun z hz => by
        have := hup z ⟨hz.1, hz.2.trans hx.2⟩ x hx hz.2; linarith) ⟨le_rfl, hx.1⟩ ⟨hx.1, le_rfl⟩ hx.1
    simp only [hr] at this
    linarith
  · have : 1 - g * g ≤ 1 - x * x := by nlinarith [hx.1, hx.2]
    linarith

/-- One body of Newton's iteration between the root and the guess. -/
theorem newton_between {n : Nat} {r g : ℝ} (h : Below n r g) {x : ℝ} (hx : x ∈ Icc r g) :
    r ≤ (newton (n + 1) x).1 ∧ (newton (n + 1) x).1 - r ≤ 2 / 11 * (x - r) ∧
    (derivative (leg (n + 1))).eval r ^ 2 ≤ (newton (n + 1) x).2 ^ 2 ∧
    (newton (n + 1) x).2 ^ 2 * (1 - x * x) ^ 2 ≤ (derivative (leg (n + 1))).eval r ^ 2 * (1 - r * r) ^ 2 := by
  set P := leg (n + 1) with hP
  have hx1 : x * x ≠ 1 := by
    have := hx.1; have := hx.2; have := h.nonneg; have := h.lt; nlinarith
  have hnw : newton (n + 1) x = (x - P.eval x / (derivative P).eval x, (derivative P).eval x) := by
    show (x - (legLoop (n + 1) x).1 / slope (n + 1) x, slope (n + 1) x) = _
    rw [slope_eq n x hx1, legLoop_fst]
  have hd := (root_simple n r h.root).2
  rw [← hP] at hd
  have hMN : ((n : ℝ) + 1) * ((n : ℝ) + 2) ≤ freq n ^ 2 := by unfold freq; nlinarith
  have key : ∀ σ : ℝ, σ * σ = 1 → 0 < σ * (derivative P).eval r →
      r ≤ (newton (n + 1) x).1 ∧ (newton (n + 1) x).1 - r ≤ 2 / 11 * (x - r) ∧
      (derivative P).eval r ^ 2 ≤ (newton (n + 1) x).2 ^ 2 ∧
      (newton (n + 1) x).2 ^ 2 * (1 - x * x) ^ 2 ≤ (derivative P).eval r ^ 2 * (1 - r * r) ^ 2 := by
    intro σ hσ hpos
    have hσ0 : σ ≠ 0 := fun e => by rw [e] at hσ; norm_num at hσ
    obtain ⟨c1, c2, c3, c4, c5⟩ := convex_between (p := fun x => σ * P.eval x) (p' := fun x => σ * (derivative P).eval x)
      (p'' := fun x => σ * (derivative (derivative P)).eval x) (freq_pos n)
      (M := ((n : ℝ) + 1) * ((n : ℝ) + 2)) (by positivity) hMN (fun x => (P.hasDerivAt x).const_mul σ)
      (fun x => ((derivative P).hasDerivAt x).const_mul σ) (fun x => by linear_combination σ * leg_ode n x)
      (by rw [h.root, mul_zero]) hpos h.nonneg h.le h.lt h.near h.far
      (fun x a b => mul_ne_zero hσ0 (h.alone x a b)) x hx
    have hq : P.eval x / (derivative P).eval x = (σ * P.eval x) / (σ * (derivative P).eval x) := by
      rw [mul_div_mul_left _ _ hσ0]
    have s1 : (derivative P).eval x ^ 2 = (σ * (derivative P).eval x) ^ 2 := by
      linear_combination -(derivative P).eval x ^ 2 * hσ
    have s2 : (derivative P).eval r ^ 2 = (σ * (derivative P).eval r) ^ 2 := by
      linear_combination -(derivative P).eval r ^ 2 * hσ
    rw [hnw]
    simp only [hq, s1, s2]
    generalize σ * (derivative P).eval x = D at *
    generalize σ * (derivative P).eval r = E at *
    generalize σ * P.eval x = p at *
    have hD : 0 < D := by linarith
    have hxr : 0 ≤ x - r := by linarith [hx.1]
    have hin : 0 < 1 - x * x := by
      have := hx.1; have := hx.2; have := h.nonneg; have := h.lt; nlinarith
    have hDE : D ≤ 11 / 9 * E := by
      have a1 : D * (1 - x * x) ≤ 11 / 9 * E * (1 - x * x) := by
        have := mul_le_mul_of_nonneg_left c5 hpos.le
        linarith
      exact le_of_mul_le_mul_right a1 hin
    have e1 : p / D ≤ x - r := by rw [div_le_iff₀ hD]; linarith
    have e2 : 9 / 11 * (x - r) ≤ p / D := by
      rw [le_div_iff₀ hD]
      nlinarith
    refine ⟨by linarith, by linarith, pow_le_pow_left₀ hpos.le c1 2, ?_⟩
    rw [← mul_pow, ← mul_pow]
    exact pow_le_pow_left₀ (by positivity) c2 2
  rcases lt_or_gt_of_ne hd with hn | hp
  · exact key (-1) (by norm_num) (by linarith)
  · exact key 1 (by norm_num) (by linarith)

/-- The iteration of the code from anywhere between the root and the guess. -/
theorem refine_between {n : Nat} {r g : ℝ} (h : Below n r g) {tol : ℝ} (c : Nat) {z : ℝ} (hz : z ∈ Icc r g) :
    ∃ z1 ∈ Icc r z, refine tol (n + 1) c z = newton (n + 1) z1 ∧ z1 - r ≤ max (11 / 9 * tol) ((2 / 11) ^ c * (z - r)) := by
  induction c generalizing z with
  | zero => exact ⟨z, ⟨hz.1, le_rfl⟩, rfl, by simp⟩
  | succ c ih =>
    obtain ⟨a1, a2, -, -⟩ := newton_between h hz
    have hzr : 0 ≤ z - r := by linarith [hz.1]
    rw [refine]
    split
    · obtain ⟨z1, b1, b2, b3⟩ := ih (z := (newton (n + 1) z).1) ⟨a1, by linarith [hz.2]⟩
      refine ⟨z1, ⟨b1.1, by linarith [b1.2]⟩, b2, b3.trans (max_le_max le_rfl ?_)⟩
      rw [pow_succ, mul_assoc]
      exact mul_le_mul_of_nonneg_left a2 (by positivity)
    · rename_i hs
      push Not at hs
      refine ⟨z, ⟨hz.1, le_rfl⟩, rfl, le_max_of_le_left ?_⟩
      rw [abs_sub_comm, abs_of_nonneg (by linarith)] at hs
      linarith

end Detran.QuadGen
