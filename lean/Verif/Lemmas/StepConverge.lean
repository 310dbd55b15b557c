import Verif.Lemmas.Multistep
import Mathlib.Analysis.Calculus.MeanValue
import Mathlib.Analysis.Calculus.Deriv.Pow
import Mathlib.Analysis.Calculus.Deriv.Add
import Mathlib.Analysis.Calculus.Deriv.Mul

/-!
# Convergence of the implicit differences and of the midpoint rule

For a system `y' = F t y` with a smooth solution, sequences that satisfy the difference equations up to a residual are near the
solution.
-/

namespace Detran.Kin

open Finset Set Polynomial

/-! ## Taylor's formula, with derivatives given one by one -/

/-- `d (m + 1)` is the derivative of `d m` on `[0, T]` for `m < n`. -/
def Chain (T : ℝ) (n : Nat) (d : Nat → ℝ → ℝ) : Prop :=
  ∀ m, m < n → ∀ t ∈ Icc 0 T, HasDerivWithinAt (d m) (d (m + 1) t) (Icc 0 T) t

theorem taylor_near {T : ℝ} (n : Nat) (d : Nat → ℝ → ℝ) (hd : Chain T n d) {M : ℝ} (hM : ∀ t ∈ Icc 0 T, |d n t| ≤ M)
    {a : ℝ} (ha : 0 ≤ a) {x : ℝ} (hax : a ≤ x) (hx : x ≤ T) :
    |d 0 x - ∑ m ∈ Finset.range n, d m a / (m.factorial : ℝ) * (x - a) ^ m| ≤ M * (x - a) ^ n := by
  induction n generalizing d x with
  | zero => simpa using hM x ⟨ha.trans hax, hx⟩
  | succ n ih =>
    have hM0 : 0 ≤ M := (abs_nonneg _).trans (hM x ⟨ha.trans hax, hx⟩)
    have ih' := fun {y : ℝ} (h1 : a ≤ y) (h2 : y ≤ T) =>
      ih (fun m => d (m + 1)) (fun m hm t ht => hd (m + 1) (by omega) t ht) hM h1 h2
    have hpoly : ∀ y : ℝ, HasDerivAt (fun y => ∑ m ∈ Finset.range (n + 1), d m a / (m.factorial : ℝ) * (y - a) ^ m)
        (∑ m ∈ Finset.range n, d (m + 1) a / (m.factorial : ℝ) * (y - a) ^ m) y := by
      intro y
      have h1 : ∀ m : Nat, HasDerivAt (fun y => d m a / (m.factorial : ℝ) * (y - a) ^ m)
          (d m a / (m.factorial : ℝ) * ((m : ℝ) * (y - a) ^ (m - 1))) y := by
        intro m
        have := ((hasDerivAt_id y).sub_const a).pow m
        simpa using this.const_mul (d m a / (m.factorial : ℝ))
      have h2 := HasDerivAt.fun_sum (u := Finset.range (n + 1)) fun m _ => h1 m
      refine h2.congr_deriv ?_
      rw [Finset.sum_range_succ']
      simp only [Nat.cast_zero, zero_mul, mul_zero, add_zero, Nat.add_sub_cancel]
      refine Finset.sum_congr rfl fun m _ => ?_
      rw [Nat.factorial_succ]
      push_cast
      have : (m.factorial : ℝ) ≠ 0 := Nat.cast_ne_zero.2 m.factorial_ne_zero
      have h3 : (m : ℝ) + 1 ≠ 0 := by positivity
      field_simp
    have hB : ∀ y : ℝ, HasDerivAt (fun y => M * (y - a) ^ (n + 1)) (M * (((n + 1 : Nat) : ℝ) * (y - a) ^ n)) y := by
      intro y
      have := ((hasDerivAt_id y).sub_const a).pow (n + 1)
      simpa using this.const_mul M
    have hcont : ContinuousOn (fun y => d 0 y - ∑ m ∈ Finset.range (n + 1), d m a / (m.factorial : ℝ) * (y - a) ^ m)
        (Icc a x) := by
      refine ContinuousOn.sub ?_ (fun y _ => (hpoly y).continuousAt.continuousWithinAt)
      intro y hy
      exact ((hd 0 (by omega) y ⟨ha.trans hy.1, hy.2.trans hx⟩).continuousWithinAt).mono
        (Icc_subset_Icc ha hx)
    refine image_norm_le_of_norm_deriv_right_le_deriv_boundary (E := ℝ)
      (f' := fun y => d 1 y - ∑ m ∈ Finset.range n, d (m + 1) a / (m.factorial : ℝ) * (y - a) ^ m) hcont ?_ ?_ hB ?_
      (right_mem_Icc.2 hax)
    · intro y hy
      refine HasDerivWithinAt.sub ?_ (hpoly y).hasDerivWithinAt
      refine (hd 0 (by omega) y ⟨ha.trans hy.1, hy.2.le.trans hx⟩).mono_of_mem_nhdsWithin ?_
      exact Icc_mem_nhdsGE_of_mem ⟨ha.trans hy.1, hy.2.trans_le hx⟩
    · rw [Finset.sum_range_succ']
      simp
    · intro y hy
      refine (ih' hy.1 (hy.2.le.trans hx)).trans ?_
      refine mul_le_mul_of_nonneg_left ?_ hM0
      have h0 : 0 ≤ (y - a) ^ n := pow_nonneg (sub_nonneg.2 hy.1) n
      have : (1 : ℝ) ≤ ((n + 1 : Nat) : ℝ) := by exact_mod_cast Nat.succ_le_succ (Nat.zero_le n)
      nlinarith

/-! ## Consistency -/

/-- The implicit difference of the values `y 0` (newest), `y 1`, ... -/
theorem difference_bound (o : Nat) (h1 : 1 ≤ o) (h6 : o ≤ 6) (y : Nat → ℝ) (B : ℝ) (hy : ∀ j, j ≤ o → |y j| ≤ B) :
    |bdf o 0 * y 0 - ∑ j ∈ Finset.range o, bdf o (j + 1) * y (j + 1)| ≤ 30 * B := by
  have hB : 0 ≤ B := (abs_nonneg _).trans (hy 0 (by omega))
  have hc : |(bdf o 0 : ℝ)| + ∑ j ∈ Finset.range o, |(bdf o (j + 1) : ℝ)| ≤ 30 := by
    interval_cases o <;> norm_num [bdf, bdfRows, Finset.sum_range_succ, abs_of_pos, abs_of_neg]
  calc _ ≤ |bdf o 0 * y 0| + |∑ j ∈ Finset.range o, bdf o (j + 1) * y (j + 1)| := abs_sub _ _
    _ ≤ |(bdf o 0 : ℝ)| * B + ∑ j ∈ Finset.range o, |(bdf o (j + 1) : ℝ)| * B := by
      refine add_le_add ?_ ((Finset.abs_sum_le_sum_abs _ _).trans (Finset.sum_le_sum fun j hj => ?_))
      · rw [abs_mul]; exact mul_le_mul_of_nonneg_left (hy 0 (by omega)) (abs_nonneg _)
      · rw [abs_mul]
        exact mul_le_mul_of_nonneg_left (hy _ (by have := Finset.mem_range.1 hj; omega)) (abs_nonneg _)
    _ = (|(bdf o 0 : ℝ)| + ∑ j ∈ Finset.range o, |(bdf o (j + 1) : ℝ)|) * B := by rw [add_mul, Finset.sum_mul]
    _ ≤ 30 * B := mul_le_mul_of_nonneg_right hc hB

theorem bdf_one_le (o : Nat) (h1 : 1 ≤ o) (h6 : o ≤ 6) : (1 : ℝ) ≤ bdf o 0 := by
  interval_cases o <;> norm_num [bdf, bdfRows]

/-- The difference of order `o` is the derivative up to the power `q ≤ o` of the step. -/
theorem consistent {T : ℝ} (o q : Nat) (h1 : 1 ≤ o) (h6 : o ≤ 6) (hq1 : 1 ≤ q) (hq : q ≤ o) (d : Nat → ℝ → ℝ)
    (hd : Chain T (q + 1) d) {M : ℝ} (hM : ∀ t ∈ Icc 0 T, |d (q + 1) t| ≤ M) {h t : ℝ} (hh : 0 < h) (ht : (o : ℝ) * h ≤ t)
    (htT : t ≤ T) :
    |bdf o 0 * d 0 t - ∑ j ∈ Finset.range o, bdf o (j + 1) * d 0 (t - ((j + 1 : Nat) : ℝ) * h) - h * d 1 t| ≤
      31 * 6 ^ 7 * M * h ^ (q + 1) := by
  set a := t - (o : ℝ) * h with ha
  have ha0 : 0 ≤ a := by linarith
  have hoh : 0 ≤ (o : ℝ) * h := by positivity
  have hM0 : 0 ≤ M := (abs_nonneg _).trans (hM t ⟨by linarith, htT⟩)
  set P : ℝ[X] := ∑ m ∈ Finset.range (q + 1), C (d m a / (m.factorial : ℝ)) * (X - C a) ^ m with hP
  have hPe : ∀ s, P.eval s = ∑ m ∈ Finset.range (q + 1), d m a / (m.factorial : ℝ) * (s - a) ^ m := by
    intro s
    rw [hP, eval_finset_sum]
    simp
  have hPd : (derivative P).eval t = ∑ m ∈ Finset.range q, d (m + 1) a / (m.factorial : ℝ) * (t - a) ^ m := by
    rw [hP, derivative_sum, eval_finset_sum, Finset.sum_range_succ']
    simp only [derivative_mul, derivative_C, zero_mul, zero_add, derivative_X_sub_C_pow, pow_zero, derivative_one, mul_zero,
      eval_zero, add_zero, eval_mul, eval_C, eval_pow, eval_sub, eval_X, Nat.add_sub_cancel, eval_natCast]
    refine Finset.sum_congr rfl fun m _ => ?_
    rw [Nat.factorial_succ]
    push_cast
    have : (m.factorial : ℝ) ≠ 0 := Nat.cast_ne_zero.2 m.factorial_ne_zero
    have h3 : (m : ℝ) + 1 ≠ 0 := by positivity
    field_simp
  have hdeg : P.natDegree ≤ o := by
    refine (natDegree_sum_le_of_forall_le _ _ fun m hm => ?_).trans hq
    refine (natDegree_C_mul_le _ _).trans ?_
    refine natDegree_pow_le.trans ?_
    rw [natDegree_X_sub_C]
    have := Finset.mem_range.1 hm
    omega
  have hex := C46_exact o h1 h6 P hdeg t h hh.ne'
  rw [div_eq_iff hh.ne', hPd] at hex
  have hex2 : bdf o 0 * P.eval t - ∑ j ∈ Finset.range o, bdf o (j + 1) * P.eval (t - ((j + 1 : Nat) : ℝ) * h) =
      h * ∑ m ∈ Finset.range q, d (m + 1) a / (m.factorial : ℝ) * (t - a) ^ m := by
    rw [mul_comm h, ← hex]
    unfold difference
    simp
  have hr : ∀ j, j ≤ o → |d 0 (t - (j : ℝ) * h) - P.eval (t - (j : ℝ) * h)| ≤ M * (6 * h) ^ (q + 1) := by
    intro j hj
    have hjo : (j : ℝ) ≤ o := by exact_mod_cast hj
    have hjh : (j : ℝ) * h ≤ o * h := mul_le_mul_of_nonneg_right hjo hh.le
    have hj0 : 0 ≤ (j : ℝ) * h := by positivity
    rw [hPe]
    refine (taylor_near (q + 1) d hd hM ha0 (x := t - (j : ℝ) * h) (by linarith) (by linarith)).trans ?_
    refine mul_le_mul_of_nonneg_left (pow_le_pow_left₀ (by linarith) ?_ _) hM0
    have : (o : ℝ) ≤ 6 := by exact_mod_cast h6
    nlinarith
  have hr1 : |d 1 t - ∑ m ∈ Finset.range q, d (m + 1) a / (m.factorial : ℝ) * (t - a) ^ m| ≤ M * (6 * h) ^ q := by
    refine (taylor_near q (fun m => d (m + 1)) (fun m hm => hd (m + 1) (by omega)) hM ha0 (x := t) (by linarith) htT).trans ?_
    refine mul_le_mul_of_nonneg_left (pow_le_pow_left₀ (by linarith) ?_ _) hM0
    have : (o : ℝ) ≤ 6 := by exact_mod_cast h6
    nlinarith
  have hb := difference_bound o h1 h6 (fun j => d 0 (t - (j : ℝ) * h) - P.eval (t - (j : ℝ) * h)) _ hr
  simp only [Nat.cast_zero, zero_mul, sub_zero, mul_sub, Finset.sum_sub_distrib] at hb
  have hsplit : bdf o 0 * d 0 t - ∑ j ∈ Finset.range o, bdf o (j + 1) * d 0 (t - ((j + 1 : Nat) : ℝ) * h) - h * d 1 t =
      (bdf o 0 * d 0 t - bdf o 0 * P.eval t - (∑ j ∈ Finset.range o, bdf o (j + 1) * d 0 (t - ((j + 1 : Nat) : ℝ) * h) -
        ∑ j ∈ Finset.range o, bdf o (j + 1) * P.eval (t - ((j + 1 : Nat) : ℝ) * h))) -
      h * (d 1 t - ∑ m ∈ Finset.range q, d (m + 1) a / (m.factorial : ℝ) * (t - a) ^ m) := by
    linear_combination hex2
  rw [hsplit]
  refine (abs_sub _ _).trans ?_
  rw [abs_mul, abs_of_pos hh]
  have h7 : (6 : ℝ) ^ (q + 1) ≤ 6 ^ 7 := pow_le_pow_right₀ (by norm_num) (by omega)
  have h8 : (6 : ℝ) ^ q ≤ 6 ^ 7 := pow_le_pow_right₀ (by norm_num) (by omega)
  have e1 : 30 * (M * (6 * h) ^ (q + 1)) ≤ 30 * (M * h ^ (q + 1)) * 6 ^ 7 := by
    rw [mul_pow]
    have : 0 ≤ M * h ^ (q + 1) := by positivity
    nlinarith
  have e2 : h * (M * (6 * h) ^ q) ≤ M * h ^ (q + 1) * 6 ^ 7 := by
    rw [mul_pow, pow_succ]
    have : 0 ≤ M * (h ^ q * h) := by positivity
    nlinarith
  have e3 := mul_le_mul_of_nonneg_left hr1 hh.le
  linarith

/-! ## Errors add up -/

theorem bdf_far (o i : Nat) (h1 : 1 ≤ o) (h6 : o ≤ 6) (h : o < i) : (bdf o i : ℝ) = 0 := by
  by_cases hi : i < 7
  · interval_cases o <;> interval_cases i <;> norm_num [bdf, bdfRows]
  · unfold bdf bdfRows
    interval_cases o <;> exact getD_far _ _ (by simp; omega)

/-- The difference of a sequence with zeros before its start. -/
theorem diff_eq (o : Nat) (h1 : 1 ≤ o) (h6 : o ≤ 6) (e : Nat → ℝ) (m : Nat) :
    diff o e m = bdf o 0 * e m - ∑ j ∈ Finset.range o, bdf o (j + 1) * (if j + 1 ≤ m then e (m - (j + 1)) else 0) := by
  unfold diff
  rw [Finset.sum_range_succ']
  simp only [rho, Nat.add_eq_zero_iff, one_ne_zero, and_false, if_false, if_true, Nat.sub_zero]
  have key : ∑ i ∈ Finset.range m, bdf o (i + 1) * e (m - (i + 1)) =
      ∑ j ∈ Finset.range o, bdf o (j + 1) * (if j + 1 ≤ m then e (m - (j + 1)) else 0) := by
    have e1 : ∑ i ∈ Finset.range m, bdf o (i + 1) * e (m - (i + 1)) =
        ∑ i ∈ Finset.range (m + o), bdf o (i + 1) * (if i + 1 ≤ m then e (m - (i + 1)) else 0) := by
      rw [Finset.sum_range_add]
      have : ∑ x ∈ Finset.range o, bdf o (m + x + 1) * (if m + x + 1 ≤ m then e (m - (m + x + 1)) else 0) = 0 :=
        Finset.sum_eq_zero fun x _ => by rw [if_neg (by omega), mul_zero]
      rw [this, add_zero]
      refine Finset.sum_congr rfl fun i hi => ?_
      rw [if_pos (by have := Finset.mem_range.1 hi; omega)]
    have e2 : ∑ i ∈ Finset.range (o + m), bdf o (i + 1) * (if i + 1 ≤ m then e (m - (i + 1)) else 0) =
        ∑ j ∈ Finset.range o, bdf o (j + 1) * (if j + 1 ≤ m then e (m - (j + 1)) else 0) := by
      rw [Finset.sum_range_add]
      have : ∑ x ∈ Finset.range m, bdf o (o + x + 1) * (if o + x + 1 ≤ m then e (m - (o + x + 1)) else 0) = 0 :=
        Finset.sum_eq_zero fun x _ => by rw [bdf_far o _ h1 h6 (by omega), zero_mul]
      rw [this, add_zero]
    rw [e1, add_comm m o, e2]
  simp only [neg_mul, Finset.sum_neg_distrib]
  rw [key]
  ring

section
variable {ι : Type} [Fintype ι]

/-- Errors after steps whose differences are small. -/
theorem core (k : Nat) (h1 : 1 ≤ k) (h6 : k ≤ 6) (e : Nat → ι → ℝ) (N : Nat) {h Λ τ σ T : ℝ} (hh : 0 < h) (hΛ : 0 ≤ Λ)
    (hτ : 0 ≤ τ) (hσ : 0 ≤ σ) (hN : (N : ℝ) * h ≤ T) (hs : 32 * h * Λ ≤ 1) (hst : ∀ m, m < k → m ≤ N → ‖e m‖ ≤ σ)
    (hstep : ∀ m, k ≤ m → m ≤ N → ∀ c, |diff k (fun n => e n c) m| ≤ h * (Λ * (‖e m‖ + ‖e (m - 1)‖) + τ)) :
    ∀ n, n ≤ N → ‖e n‖ ≤ 16 * (180 * σ + T * τ) * Real.exp (32 * Λ * T) := by
  have hT : 0 ≤ T := le_trans (by positivity) hN
  have hA : 0 ≤ 8 * (180 * σ + T * τ) := by positivity
  have hmain : ∀ n, n ≤ N → ‖e n‖ ≤ 8 * (180 * σ + T * τ) + 16 * h * Λ * ∑ m ∈ Finset.range (n + 1), ‖e m‖ := by
    intro n hn
    have hS : 0 ≤ ∑ m ∈ Finset.range (n + 1), ‖e m‖ := Finset.sum_nonneg fun _ _ => norm_nonneg _
    refine (pi_norm_le_iff_of_nonneg (by positivity)).2 fun c => ?_
    rw [Real.norm_eq_abs]
    refine (stable k h1 h6 (fun n => e n c) n).trans ?_
    have hterm : ∀ m ∈ Finset.range (n + 1), |diff k (fun n => e n c) m| ≤
        ((if m < k then 30 * σ else 0) + h * Λ * ‖e m‖) + (h * Λ * (if m = 0 then 0 else ‖e (m - 1)‖) +
          if m = 0 then 0 else h * τ) := by
      intro m hm
      have hmN : m ≤ N := by have := Finset.mem_range.1 hm; omega
      have hp1 : 0 ≤ h * Λ * ‖e m‖ := by positivity
      have hp2 : 0 ≤ h * Λ * (if m = 0 then 0 else ‖e (m - 1)‖) := by split <;> positivity
      have hp3 : 0 ≤ (if m = 0 then 0 else h * τ) := by split <;> positivity
      by_cases hmk : m < k
      · rw [if_pos hmk, diff_eq k h1 h6]
        have hb := difference_bound k h1 h6 (fun j => if j ≤ m then e (m - j) c else 0) σ (by
          intro j _
          split
          · exact ((norm_le_pi_norm (e (m - j)) c)).trans (hst _ (by omega) (by omega))
          · rwa [abs_zero])
        simp only [Nat.zero_le, if_true, Nat.sub_zero] at hb
        linarith
      · rw [if_neg hmk]
        have hm0 : m ≠ 0 := by omega
        rw [if_neg hm0, if_neg hm0]
        refine (hstep m (by omega) hmN c).trans (le_of_eq ?_)
        ring
    have hsum := Finset.sum_le_sum hterm
    rw [Finset.sum_add_distrib, Finset.sum_add_distrib, Finset.sum_add_distrib, ← Finset.mul_sum, ← Finset.mul_sum] at hsum
    have s1 : ∑ m ∈ Finset.range (n + 1), (if m < k then 30 * σ else 0) ≤ 180 * σ := by
      rw [← Finset.sum_filter, Finset.sum_const, nsmul_eq_mul]
      have hc : ((Finset.range (n + 1)).filter (· < k)).card ≤ 6 := by
        refine (Finset.card_le_card (t := Finset.range k) fun m hm => ?_).trans (by simpa using h6)
        exact Finset.mem_range.2 (Finset.mem_filter.1 hm).2
      have hc' : ((((Finset.range (n + 1)).filter (· < k)).card : Nat) : ℝ) ≤ 6 := by exact_mod_cast hc
      nlinarith
    have s2 : ∑ m ∈ Finset.range (n + 1), (if m = 0 then 0 else ‖e (m - 1)‖) ≤ ∑ m ∈ Finset.range (n + 1), ‖e m‖ := by
      rw [Finset.sum_range_succ', Finset.sum_range_succ (fun m => ‖e m‖)]
      simp
    have s3 : ∑ m ∈ Finset.range (n + 1), (if m = 0 then 0 else h * τ) ≤ T * τ := by
      rw [Finset.sum_range_succ']
      simp only [Nat.add_eq_zero_iff, one_ne_zero, and_false, if_false, if_true, add_zero, Finset.sum_const, Finset.card_range,
        nsmul_eq_mul]
      have : (n : ℝ) * h ≤ T := le_trans (mul_le_mul_of_nonneg_right (by exact_mod_cast hn) hh.le) hN
      nlinarith
    have s4 : h * Λ * ∑ m ∈ Finset.range (n + 1), (if m = 0 then 0 else ‖e (m - 1)‖) ≤
        h * Λ * ∑ m ∈ Finset.range (n + 1), ‖e m‖ := mul_le_mul_of_nonneg_left s2 (by positivity)
    linarith
  intro n hn
  have hg := grow (fun n => ‖e n‖) (8 * (180 * σ + T * τ)) (16 * h * Λ) hA (by positivity) (by linarith)
    (fun _ => norm_nonneg _) N hmain n hn
  refine hg.trans ?_
  rw [show 2 * (8 * (180 * σ + T * τ)) = 16 * (180 * σ + T * τ) by ring]
  refine mul_le_mul_of_nonneg_left (Real.exp_le_exp.2 ?_) (by positivity)
  have : (n : ℝ) * h ≤ T := le_trans (mul_le_mul_of_nonneg_right (by exact_mod_cast hn) hh.le) hN
  nlinarith

/-! ## Convergence -/

/-- A smooth solution `Y` of `Y' = F t Y` on `[0, T]`: derivatives `d c m` of its components up to order `q + 1`, bounded by
    `M`, where `F` has the Lipschitz constant `Λ`. -/
structure Flow (T : ℝ) (F : ℝ → (ι → ℝ) → ι → ℝ) (Λ : ℝ) (Y : ℝ → ι → ℝ) (q : Nat) (M : ℝ) (d : ι → Nat → ℝ → ℝ) : Prop where
  pos : 0 ≤ Λ
  posM : 0 ≤ M
  lip : ∀ t ∈ Icc 0 T, ∀ u v c, |F t u c - F t v c| ≤ Λ * ‖u - v‖
  zero : ∀ c, ∀ t ∈ Icc 0 T, d c 0 t = Y t c
  one : ∀ c, ∀ t ∈ Icc 0 T, d c 1 t = F t (Y t) c
  chain : ∀ c, Chain T (q + 1) (d c)
  bound : ∀ c m, 1 ≤ m → m ≤ q + 1 → ∀ t ∈ Icc 0 T, |d c m t| ≤ M

/-- Step `n` by the difference of order `min n k`. -/
def Implicit (F : ℝ → (ι → ℝ) → ι → ℝ) (k : Nat) (h ε : ℝ) (y : Nat → ι → ℝ) (n : Nat) : Prop :=
  ∀ c, |bdf (min n k) 0 * y n c - ∑ j ∈ Finset.range (min n k), bdf (min n k) (j + 1) * y (n - (j + 1)) c -
    h * F ((n : ℝ) * h) (y n) c| ≤ h * ε

/-- Step `n` by the midpoint rule. -/
def Midpoint (F : ℝ → (ι → ℝ) → ι → ℝ) (h ε : ℝ) (y : Nat → ι → ℝ) (n : Nat) : Prop :=
  ∀ c, |y n c - y (n - 1) c - h * F ((n : ℝ) * h - h / 2) (fun c => (y n c + y (n - 1) c) / 2) c| ≤ h * ε

variable {T : ℝ} {F : ℝ → (ι → ℝ) → ι → ℝ} {Λ : ℝ} {Y : ℝ → ι → ℝ} {q : Nat} {M : ℝ} {d : ι → Nat → ℝ → ℝ}

theorem implicit_error (fl : Flow T F Λ Y q M d) (hq : 1 ≤ q) {k : Nat} (hk1 : 1 ≤ k) (hk6 : k ≤ 6) {h ε : ℝ} (hh : 0 < h)
    {y : Nat → ι → ℝ} {n : Nat} (hn : 1 ≤ n) (hT : (n : ℝ) * h ≤ T) (st : Implicit F k h ε y n) (c : ι) :
    |bdf (min n k) 0 * (y n c - Y (n * h) c) - ∑ j ∈ Finset.range (min n k), bdf (min n k) (j + 1) *
      (y (n - (j + 1)) c - Y (((n - (j + 1) : Nat) : ℝ) * h) c)| ≤
      h * (Λ * ‖y n - Y (n * h)‖ + ε) + 31 * 6 ^ 7 * M * h ^ (min q (min n k) + 1) := by
  set o := min n k with ho
  have ho1 : 1 ≤ o := by omega
  have ho6 : o ≤ 6 := by omega
  have htm : (n : ℝ) * h ∈ Icc 0 T := ⟨by positivity, hT⟩
  have hcons := consistent o (min q o) ho1 ho6 (by omega) (by omega) (d c) (fun m hm => fl.chain c m (by omega))
    (M := M) (fun t ht => fl.bound c _ (by omega) (by omega) t ht) hh (t := (n : ℝ) * h)
    (mul_le_mul_of_nonneg_right (by exact_mod_cast (by omega : o ≤ n)) hh.le) hT
  rw [fl.zero c _ htm, fl.one c _ htm] at hcons
  have hY : ∑ j ∈ Finset.range o, bdf o (j + 1) * d c 0 ((n : ℝ) * h - ((j + 1 : Nat) : ℝ) * h) =
      ∑ j ∈ Finset.range o, bdf o (j + 1) * Y (((n - (j + 1) : Nat) : ℝ) * h) c := by
    refine Finset.sum_congr rfl fun j hj => ?_
    have hj := Finset.mem_range.1 hj
    have e1 : ((n - (j + 1) : Nat) : ℝ) * h = (n : ℝ) * h - ((j + 1 : Nat) : ℝ) * h := by
      rw [Nat.cast_sub (by omega)]; ring
    rw [← e1, fl.zero]
    refine ⟨by positivity, le_trans (mul_le_mul_of_nonneg_right ?_ hh.le) hT⟩
    exact_mod_cast Nat.sub_le n (j + 1)
  rw [hY] at hcons
  have hl := fl.lip _ htm (y n) (Y (n * h)) c
  have hl' : |h * (F (n * h) (y n) c - F (n * h) (Y (n * h)) c)| ≤ h * (Λ * ‖y n - Y (n * h)‖) := by
    rw [abs_mul, abs_of_pos hh]; exact mul_le_mul_of_nonneg_left hl hh.le
  have hs := st c
  rw [← ho] at hs
  have hsplit : bdf o 0 * (y n c - Y (n * h) c) - ∑ j ∈ Finset.range o, bdf o (j + 1) *
      (y (n - (j + 1)) c - Y (((n - (j + 1) : Nat) : ℝ) * h) c) =
      (bdf o 0 * y n c - ∑ j ∈ Finset.range o, bdf o (j + 1) * y (n - (j + 1)) c - h * F ((n : ℝ) * h) (y n) c) -
      (bdf o 0 * Y (n * h) c - ∑ j ∈ Finset.range o, bdf o (j + 1) * Y (((n - (j + 1) : Nat) : ℝ) * h) c -
        h * F (n * h) (Y (n * h)) c) + h * (F (n * h) (y n) c - F (n * h) (Y (n * h)) c) := by
    simp only [mul_sub, Finset.sum_sub_distrib]
    ring
  rw [hsplit]
  refine (abs_add_le _ _).trans ?_
  have := (abs_sub (bdf o 0 * y n c - ∑ j ∈ Finset.range o, bdf o (j + 1) * y (n - (j + 1)) c - h * F ((n : ℝ) * h) (y n) c)
    (bdf o 0 * Y (n * h) c - ∑ j ∈ Finset.range o, bdf o (j + 1) * Y (((n - (j + 1) : Nat) : ℝ) * h) c -
        h * F (n * h) (Y (n * h)) c))
  linarith

theorem midpoint_error (fl : Flow T F Λ Y q M d) (hq : 2 ≤ q) {h ε : ℝ} (hh : 0 < h)
    {y : Nat → ι → ℝ} {n : Nat} (hn : 1 ≤ n) (hT : (n : ℝ) * h ≤ T) (st : Midpoint F h ε y n) (c : ι) :
    |(y n c - Y (n * h) c) - (y (n - 1) c - Y (((n - 1 : Nat) : ℝ) * h) c)| ≤
      h * (Λ * (‖y n - Y (n * h)‖ + ‖y (n - 1) - Y (((n - 1 : Nat) : ℝ) * h)‖) + (ε + 2 * M * (1 + Λ) * h ^ 2)) := by
  set a := ((n - 1 : Nat) : ℝ) * h with ha
  have ha0 : 0 ≤ a := by positivity
  have hnh : (n : ℝ) * h = a + h := by rw [ha, Nat.cast_sub hn]; push_cast; ring
  rw [hnh] at hT ⊢
  have hm : (n : ℝ) * h - h / 2 = a + h / 2 := by rw [hnh]; ring
  have st' := st c
  rw [hm] at st'
  have mA : a ∈ Icc 0 T := ⟨ha0, by linarith⟩
  have mB : a + h ∈ Icc 0 T := ⟨by linarith, hT⟩
  have mC : a + h / 2 ∈ Icc 0 T := ⟨by linarith, by linarith⟩
  have hch : ∀ c n, n ≤ q + 1 → Chain T n (d c) := fun c n hn m hm => fl.chain c m (by omega)
  -- the midpoint and the mean of the ends
  have hmean : ∀ c, |Y (a + h / 2) c - (Y (a + h) c + Y a c) / 2| ≤ M * h ^ 2 := by
    intro c
    have t1 := taylor_near 2 (d c) (hch c 2 (by omega)) (fl.bound c 2 (by omega) (by omega)) ha0 (x := a + h / 2)
      (by linarith) mC.2
    have t2 := taylor_near 2 (d c) (hch c 2 (by omega)) (fl.bound c 2 (by omega) (by omega)) ha0 (x := a + h)
      (by linarith) hT
    simp only [Finset.sum_range_succ, Finset.sum_range_zero, Nat.factorial, Nat.cast_one, pow_zero, pow_one, zero_add,
      add_sub_cancel_left, div_one, mul_one, Nat.mul_one] at t1 t2
    rw [fl.zero c _ mC, fl.zero c _ mA] at t1
    rw [fl.zero c _ mB, fl.zero c _ mA] at t2
    have hM := fl.posM
    rw [abs_le] at t1 t2 ⊢
    have : 0 ≤ M * h ^ 2 := by positivity
    constructor <;> nlinarith
  have hmid : |Y (a + h) c - Y a c - h * F (a + h / 2) (Y (a + h / 2)) c| ≤ 2 * M * h ^ 3 := by
    have t1 := taylor_near 3 (d c) (hch c 3 (by omega)) (fl.bound c 3 (by omega) (by omega)) ha0 (x := a + h)
      (by linarith) hT
    have t2 := taylor_near 2 (fun m => d c (m + 1)) (fun m hm => fl.chain c (m + 1) (by omega))
      (fl.bound c 3 (by omega) (by omega)) ha0 (x := a + h / 2) (by linarith) mC.2
    simp only [Finset.sum_range_succ, Finset.sum_range_zero, Nat.factorial, Nat.cast_one, pow_zero, pow_one, zero_add,
      add_sub_cancel_left, div_one, mul_one, Nat.mul_one, Nat.succ_eq_add_one, Nat.reduceAdd, Nat.cast_ofNat] at t1 t2
    rw [fl.zero c _ mB, fl.zero c _ mA] at t1
    rw [fl.one c _ mC] at t2
    have t3 : |h * (F (a + h / 2) (Y (a + h / 2)) c - (d c 1 a + d c 2 a * (h / 2)))| ≤ h * (M * (h / 2) ^ 2) := by
      rw [abs_mul, abs_of_pos hh]
      exact mul_le_mul_of_nonneg_left t2 hh.le
    have hM := fl.posM
    have h3 : 0 ≤ M * h ^ 3 := by positivity
    rw [abs_le] at t1 t3 ⊢
    constructor <;> nlinarith
  have hl := fl.lip _ mC (fun c => (y n c + y (n - 1) c) / 2) (Y (a + h / 2)) c
  have hnorm : ‖(fun c => (y n c + y (n - 1) c) / 2) - Y (a + h / 2)‖ ≤
      (‖y n - Y (a + h)‖ + ‖y (n - 1) - Y a‖) + M * h ^ 2 := by
    have hM := fl.posM
    refine (pi_norm_le_iff_of_nonneg (by positivity)).2 fun c => ?_
    rw [Real.norm_eq_abs]
    have n1 := norm_le_pi_norm (y n - Y (a + h)) c
    have n2 := norm_le_pi_norm (y (n - 1) - Y a) c
    rw [Real.norm_eq_abs] at n1 n2
    have n3 := hmean c
    simp only [Pi.sub_apply] at n1 n2 ⊢
    rw [abs_le] at n1 n2 n3 ⊢
    constructor <;> linarith [norm_nonneg (y n - Y (a + h)), norm_nonneg (y (n - 1) - Y a)]
  have hl2 : |h * (F (a + h / 2) (fun c => (y n c + y (n - 1) c) / 2) c - F (a + h / 2) (Y (a + h / 2)) c)| ≤
      h * (Λ * ((‖y n - Y (a + h)‖ + ‖y (n - 1) - Y a‖) + M * h ^ 2)) := by
    rw [abs_mul, abs_of_pos hh]
    exact mul_le_mul_of_nonneg_left (hl.trans (mul_le_mul_of_nonneg_left hnorm fl.pos)) hh.le
  have hp : 0 ≤ Λ * M * h ^ 3 := by have := fl.pos; have := fl.posM; positivity
  rw [abs_le] at st' hmid hl2 ⊢
  constructor <;> nlinarith

/-- The midpoint rule converges at order two. -/
theorem midpoint_converges (fl : Flow T F Λ Y q M d) (hq : 2 ≤ q) (hT : 0 ≤ T) :
    ∃ Kc, 0 ≤ Kc ∧ ∀ h ε : ℝ, 0 < h → 32 * h * Λ ≤ 1 → 0 ≤ ε → ∀ y : Nat → ι → ℝ, y 0 = Y 0 → ∀ N : Nat, (N : ℝ) * h ≤ T →
      (∀ n, 1 ≤ n → n ≤ N → Midpoint F h ε y n) → ∀ n, n ≤ N → ‖y n - Y (n * h)‖ ≤ Kc * (h ^ 2 + ε) := by
  have h0 := fl.pos
  have hM := fl.posM
  refine ⟨16 * (T * (1 + 2 * M * (1 + Λ))) * Real.exp (32 * Λ * T), by positivity, ?_⟩
  intro h ε hh hs hε y hy N hN st n hn
  have hτ : 0 ≤ ε + 2 * M * (1 + Λ) * h ^ 2 := by positivity
  have hc := core 1 le_rfl (by norm_num) (fun n => y n - Y (n * h)) N (τ := ε + 2 * M * (1 + Λ) * h ^ 2) (σ := 0) hh h0 hτ
    le_rfl hN hs (by
      intro m hm _
      obtain rfl : m = 0 := by omega
      simp [hy]) (by
      intro m hm1 hmN c
      rw [diff_eq 1 le_rfl (by norm_num)]
      have := midpoint_error fl hq hh hm1 (le_trans (mul_le_mul_of_nonneg_right (by exact_mod_cast hmN) hh.le) hN)
        (st m hm1 hmN) c
      simpa [bdf, bdfRows, hm1, (show 0 < m from hm1)] using this) n hn
  refine hc.trans ?_
  have e1 : T * (ε + 2 * M * (1 + Λ) * h ^ 2) ≤ T * (1 + 2 * M * (1 + Λ)) * (h ^ 2 + ε) := by
    have : 0 ≤ T * h ^ 2 := by positivity
    have : 0 ≤ T * (2 * M * (1 + Λ)) * ε := by positivity
    nlinarith
  have hx := Real.exp_pos (32 * Λ * T)
  nlinarith [mul_le_mul_of_nonneg_right e1 hx.le]

/-- The implicit differences converge at the order `q`, if the first steps are good enough for it: `q` at most three, and at
    most two if the first of several orders is not a midpoint step. -/
theorem implicit_converges (fl : Flow T F Λ Y q M d) (k : Nat) (hk1 : 1 ≤ k) (hk6 : k ≤ 6) (first : Bool) (hq1 : 1 ≤ q)
    (hqk : q ≤ k) (hq3 : q ≤ 3) (hf : first = true → 2 ≤ q) (hf2 : first = false → q ≤ 2) (hT : 0 ≤ T) :
    ∃ Kc, 0 ≤ Kc ∧ ∀ h ε : ℝ, 0 < h → h ≤ 1 → 32 * h * Λ ≤ 1 → 0 ≤ ε → ∀ y : Nat → ι → ℝ, y 0 = Y 0 →
      ∀ N : Nat, (N : ℝ) * h ≤ T →
      (∀ n, 1 ≤ n → n ≤ N → if first = true ∧ n = 1 then Midpoint F h ε y n else Implicit F k h ε y n) →
      ∀ n, n ≤ N → ‖y n - Y (n * h)‖ ≤ Kc * (h ^ q + ε) := by
  have h0 := fl.pos
  have hM := fl.posM
  set Q := 31 * 6 ^ 7 * M with hQ
  have hQ0 : 0 ≤ Q := by positivity
  set B := 1 + Q + 2 * M * (1 + Λ) with hB
  have hB1 : 1 ≤ B := by have : 0 ≤ 2 * M * (1 + Λ) := by positivity
                         linarith
  refine ⟨16 * (180 * (B * 100 ^ 6) + T * (1 + Q)) * Real.exp (32 * Λ * T), by positivity, ?_⟩
  intro h ε hh hh1 hs hε y hy N hN st n hn
  set W := h ^ q + ε with hW
  have hhq : 0 < h ^ q := by positivity
  have hW0 : 0 ≤ W := by positivity
  have hpow : ∀ m, q ≤ m → h ^ m ≤ h ^ q := fun m hm => pow_le_pow_of_le_one hh.le hh1 hm
  have hmT : ∀ m, m ≤ N → (m : ℝ) * h ≤ T := fun m hm =>
    le_trans (mul_le_mul_of_nonneg_right (by exact_mod_cast hm) hh.le) hN
  have hhε : h * ε ≤ ε := by nlinarith
  -- the first steps
  have hstart : ∀ m, m < k → m ≤ N → ‖y m - Y (m * h)‖ ≤ B * 100 ^ m * W := by
    intro m
    induction m using Nat.strong_induction_on with
    | _ m ih =>
      intro hmk hmN
      by_cases hm0 : m = 0
      · subst hm0
        simp only [Nat.cast_zero, zero_mul, hy, sub_self, norm_zero]
        positivity
      have hm1 : 1 ≤ m := by omega
      have hst := st m hm1 hmN
      have hE := norm_nonneg (y m - Y (m * h))
      by_cases hc : first = true ∧ m = 1
      · rw [if_pos hc] at hst
        obtain ⟨hfi, rfl⟩ := hc
        have hb : ‖y 1 - Y ((1 : Nat) * h)‖ ≤ h * (Λ * ‖y 1 - Y ((1 : Nat) * h)‖ + (ε + 2 * M * (1 + Λ) * h ^ 2)) := by
          refine (pi_norm_le_iff_of_nonneg (by positivity)).2 fun c => ?_
          have := midpoint_error fl (hf hfi) hh le_rfl (hmT 1 hmN) hst c
          simpa [hy] using this
        have hpq : h ^ 3 ≤ h ^ q := hpow 3 hq3
        have hL : h * Λ * ‖y 1 - Y ((1 : Nat) * h)‖ ≤ 1 / 32 * ‖y 1 - Y ((1 : Nat) * h)‖ :=
          mul_le_mul_of_nonneg_right (by linarith) hE
        have hMΛ : 0 ≤ 2 * M * (1 + Λ) := by positivity
        have e1 : 2 * M * (1 + Λ) * h ^ 3 ≤ 2 * M * (1 + Λ) * W :=
          mul_le_mul_of_nonneg_left (by linarith) hMΛ
        have e2 : B * W = W + Q * W + 2 * M * (1 + Λ) * W := by rw [hB]; ring
        have e3 : 0 ≤ Q * W := by positivity
        have e4 : 0 ≤ 2 * M * (1 + Λ) * W := by positivity
        rw [pow_one]
        nlinarith
      · rw [if_neg hc] at hst
        have hprev : ∀ j, j < m → ‖y j - Y (j * h)‖ ≤ B * 100 ^ (m - 1) * W := by
          intro j hj
          refine (ih j hj (by omega) (by omega)).trans ?_
          refine mul_le_mul_of_nonneg_right (mul_le_mul_of_nonneg_left ?_ (by linarith)) hW0
          exact pow_le_pow_right₀ (by norm_num) (by omega)
        set V := B * 100 ^ (m - 1) * W with hV
        have hV0 : 0 ≤ V := by positivity
        have hVW : W ≤ V := by
          have : (1 : ℝ) ≤ 100 ^ (m - 1) := one_le_pow₀ (by norm_num)
          have : 1 ≤ B * 100 ^ (m - 1) := by nlinarith
          nlinarith
        have hVB : (1 + Q) * W ≤ V := by
          have : (1 : ℝ) ≤ 100 ^ (m - 1) := one_le_pow₀ (by norm_num)
          have h2 : 1 + Q ≤ B := by have : 0 ≤ 2 * M * (1 + Λ) := by positivity
                                    linarith
          have : 1 + Q ≤ B * 100 ^ (m - 1) := by nlinarith
          exact mul_le_mul_of_nonneg_right this hW0
        have hmin : min m k = m := by omega
        have hexp : h ^ (min q (min m k) + 1) ≤ h ^ q := by
          apply hpow
          rw [hmin]
          cases first
          · have := hf2 rfl; omega
          · have : m ≠ 1 := fun h => hc ⟨rfl, h⟩
            omega
        have hall : ‖y m - Y (m * h)‖ ≤ 30 * V + 1 / 32 * ‖y m - Y (m * h)‖ + V := by
          refine (pi_norm_le_iff_of_nonneg (by positivity)).2 fun c => ?_
          have hi := implicit_error fl hq1 hk1 hk6 hh hm1 (hmT m hmN) hst c
          rw [hmin] at hi
          have hd := difference_bound m hm1 (by omega)
            (fun j => if j = 0 then 0 else y (m - j) c - Y (((m - j : Nat) : ℝ) * h) c) V (by
              intro j hj
              split
              · rwa [abs_zero]
              · exact (norm_le_pi_norm (y (m - j) - Y (((m - j : Nat) : ℝ) * h)) c).trans (hprev _ (by omega)))
          simp only [if_true, mul_zero, zero_sub, Nat.add_eq_zero_iff, one_ne_zero, and_false, if_false, abs_neg] at hd
          have ha := bdf_one_le m hm1 (by omega)
          have h1 : |y m c - Y (m * h) c| ≤ |bdf m 0 * (y m c - Y (m * h) c)| := by
            rw [abs_mul]
            have : |(bdf m 0 : ℝ)| = bdf m 0 := abs_of_pos (by linarith)
            rw [this]
            nlinarith [abs_nonneg (y m c - Y (m * h) c)]
          have h2 := abs_sub_abs_le_abs_sub (bdf m 0 * (y m c - Y (m * h) c))
            (∑ j ∈ Finset.range m, bdf m (j + 1) * (y (m - (j + 1)) c - Y (((m - (j + 1) : Nat) : ℝ) * h) c))
          have hL : h * Λ * ‖y m - Y (m * h)‖ ≤ 1 / 32 * ‖y m - Y (m * h)‖ :=
            mul_le_mul_of_nonneg_right (by linarith) hE
          rw [hmin] at hexp
          have e1 : Q * h ^ (min q m + 1) ≤ Q * h ^ q := mul_le_mul_of_nonneg_left hexp hQ0
          have e2 : (1 + Q) * W = h ^ q + ε + Q * h ^ q + Q * ε := by rw [hW]; ring
          have e3 : 0 ≤ Q * ε := by positivity
          show |y m c - Y (m * h) c| ≤ _
          nlinarith
        have hm' : B * 100 ^ m * W = 100 * V := by
          obtain ⟨r, rfl⟩ : ∃ r, m = r + 1 := ⟨m - 1, by omega⟩
          rw [hV, Nat.add_sub_cancel, pow_succ]; ring
        rw [hm']
        linarith
  -- all steps
  have hσ : 0 ≤ B * 100 ^ 6 * W := by positivity
  have hτ : 0 ≤ ε + Q * h ^ q := by positivity
  have hc := core k hk1 hk6 (fun n => y n - Y (n * h)) N (τ := ε + Q * h ^ q) (σ := B * 100 ^ 6 * W) hh h0 hτ hσ hN hs
    (by
      intro m hm hmN
      refine (hstart m hm hmN).trans ?_
      refine mul_le_mul_of_nonneg_right (mul_le_mul_of_nonneg_left ?_ (by linarith)) hW0
      exact pow_le_pow_right₀ (by norm_num) (by omega)) (by
      intro m hkm hmN c
      have hst := st m (by omega) hmN
      have hnf : ¬ (first = true ∧ m = 1) := by
        rintro ⟨hfi, rfl⟩
        have := hf hfi
        omega
      rw [if_neg hnf] at hst
      have hi := implicit_error fl hq1 hk1 hk6 hh (by omega) (hmT m hmN) hst c
      have hmin : min m k = k := by omega
      rw [hmin, Nat.min_eq_left hqk] at hi
      rw [diff_eq k hk1 hk6]
      have hsum : ∑ j ∈ Finset.range k, bdf k (j + 1) * (if j + 1 ≤ m then
          (y (m - (j + 1)) - Y (((m - (j + 1) : Nat) : ℝ) * h)) c else 0) =
          ∑ j ∈ Finset.range k, bdf k (j + 1) * (y (m - (j + 1)) c - Y (((m - (j + 1) : Nat) : ℝ) * h) c) :=
        Finset.sum_congr rfl fun j hj => by
          rw [if_pos (by have := Finset.mem_range.1 hj; omega)]; rfl
      rw [hsum]
      refine hi.trans ?_
      have : 0 ≤ h * (Λ * ‖y (m - 1) - Y (((m - 1 : Nat) : ℝ) * h)‖) := by positivity
      rw [← hQ, pow_succ h q]
      nlinarith) n hn
  refine hc.trans ?_
  have e1 : T * (ε + Q * h ^ q) ≤ T * (1 + Q) * W := by
    have : 0 ≤ T * h ^ q := by positivity
    have : 0 ≤ T * Q * ε := by positivity
    rw [hW]
    nlinarith
  have hx := Real.exp_pos (32 * Λ * T)
  have e2 : 16 * (180 * (B * 100 ^ 6 * W) + T * (ε + Q * h ^ q)) ≤ 16 * (180 * (B * 100 ^ 6) + T * (1 + Q)) * W := by
    linarith
  calc _ ≤ 16 * (180 * (B * 100 ^ 6) + T * (1 + Q)) * W * Real.exp (32 * Λ * T) := mul_le_mul_of_nonneg_right e2 hx.le
    _ = _ := by ring

end

end Detran.Kin
