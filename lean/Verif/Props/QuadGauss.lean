import Verif.Model.QuadGen
import Verif.Props.QuadratureSets
import Mathlib.MeasureTheory.Integral.IntervalIntegral.FundThmCalculus
import Mathlib.Analysis.Calculus.Deriv.Polynomial
import Mathlib.LinearAlgebra.Lagrange
import Mathlib.Analysis.SpecialFunctions.Trigonometric.Chebyshev.ChebyshevGauss
import Mathlib.Analysis.SpecialFunctions.Trigonometric.Bounds
import Mathlib.Tactic.LinearCombination
import Mathlib.Topology.Algebra.Polynomial

/-!
# What the Gauss generators compute
-/

namespace Detran.QuadGen

open Detran.Angle Polynomial Finset

/-! ### Legendre polynomials -/

/-- Bonnet's recurrence. -/
noncomputable def leg : Nat → ℝ[X]
  | 0 => 1
  | 1 => X
  | n + 2 => C (1 / ((n : ℝ) + 2)) * (C (2 * (n : ℝ) + 3) * X * leg (n + 1) - C ((n : ℝ) + 1) * leg n)

theorem leg_rec (n : Nat) : C ((n : ℝ) + 2) * leg (n + 2) =
    C (2 * (n : ℝ) + 3) * X * leg (n + 1) - C ((n : ℝ) + 1) * leg n := by
  rw [leg, ← mul_assoc, ← C_mul, mul_one_div_cancel (by positivity)]
  simp

theorem leg_rec_eval (n : Nat) (x : ℝ) : ((n : ℝ) + 2) * (leg (n + 2)).eval x =
    (2 * (n : ℝ) + 3) * x * (leg (n + 1)).eval x - ((n : ℝ) + 1) * (leg n).eval x := by
  have := congrArg (eval x) (leg_rec n)
  simpa using this

theorem legLoop_succ (m : Nat) (z : ℝ) : legLoop (m + 1) z = legStep z (legLoop m z) (m + 1) := by
  simp [legLoop, List.range_succ]

theorem legLoop_eq (m : Nat) (z : ℝ) : legLoop (m + 1) z = ((leg (m + 1)).eval z, (leg m).eval z) := by
  induction m with
  | zero => simp [legLoop, legStep, leg]; norm_num
  | succ n ih =>
      rw [legLoop_succ, ih, legStep]
      refine Prod.ext ?_ rfl
      have h := leg_rec_eval n z
      have : ((n : ℝ) + 2) ≠ 0 := by positivity
      simp only
      push_cast
      rw [div_eq_iff (by positivity)]
      linear_combination -h

theorem legLoop_fst (m : Nat) (z : ℝ) : (legLoop m z).1 = (leg m).eval z := by
  cases m with
  | zero => simp [legLoop, leg]
  | succ n => rw [legLoop_eq]

/-- The two derivative relations, proved together. -/
theorem leg_deriv (n : Nat) :
    X * derivative (leg (n + 1)) - derivative (leg n) = C ((n : ℝ) + 1) * leg (n + 1) ∧
    derivative (leg (n + 1)) - X * derivative (leg n) = C ((n : ℝ) + 1) * leg n := by
  induction n with
  | zero => simp [leg]
  | succ n ih =>
      obtain ⟨h1, h2⟩ := ih
      have hr := leg_rec n
      have hd := congrArg derivative hr
      simp only [derivative_mul, derivative_sub, derivative_C, derivative_X, zero_mul, zero_add,
        mul_one] at hd
      have hc : (C ((n : ℝ) + 2) : ℝ[X]) ≠ 0 := by
        rw [Ne, C_eq_zero]; positivity
      have c2 : (C (2 : ℝ) : ℝ[X]) = 2 := rfl
      have c3 : (C (3 : ℝ) : ℝ[X]) = 3 := rfl
      have e1 : (C ((n : ℝ) + 2) : ℝ[X]) = C (n : ℝ) + 2 := by rw [C_add, c2]
      have e2 : (C (2 * (n : ℝ) + 3) : ℝ[X]) = 2 * C (n : ℝ) + 3 := by rw [C_add, C_mul, c2, c3]
      have e3 : (C ((n : ℝ) + 1) : ℝ[X]) = C (n : ℝ) + 1 := by simp
      have e4 : (C (((n + 1 : Nat) : ℝ) + 1) : ℝ[X]) = C (n : ℝ) + 2 := by
        push_cast; rw [add_assoc, one_add_one_eq_two, e1]
      rw [e1, e2, e3] at hr hd
      rw [e1] at hc
      rw [e3] at h1 h2
      rw [e4]
      have k2 : derivative (leg (n + 2)) - X * derivative (leg (n + 1)) =
          (C (n : ℝ) + 2) * leg (n + 1) := by
        apply mul_left_cancel₀ hc
        linear_combination hd + (C (n : ℝ) + 1) * h1
      refine ⟨?_, k2⟩
      linear_combination X * k2 - hr + X * h1 - h2

theorem leg_deriv_eval (n : Nat) (x : ℝ) :
    (x * x - 1) * (derivative (leg (n + 1))).eval x =
      ((n : ℝ) + 1) * (x * (leg (n + 1)).eval x - (leg n).eval x) := by
  obtain ⟨h1, h2⟩ := leg_deriv n
  have e1 := congrArg (eval x) h1
  have e2 := congrArg (eval x) h2
  simp only [eval_sub, eval_mul, eval_X, eval_C] at e1 e2
  linear_combination x * e1 - e2

theorem leg_one (n : Nat) : (leg n).eval 1 = 1 ∧ (leg (n + 1)).eval 1 = 1 := by
  induction n with
  | zero => simp [leg]
  | succ n ih =>
      refine ⟨ih.2, ?_⟩
      have h := leg_rec_eval n 1
      rw [ih.1, ih.2] at h
      have : ((n : ℝ) + 2) ≠ 0 := by positivity
      apply mul_left_cancel₀ this
      linear_combination h

theorem leg_neg (n : Nat) (x : ℝ) : (leg n).eval (-x) = (-1) ^ n * (leg n).eval x ∧
    (leg (n + 1)).eval (-x) = (-1) ^ (n + 1) * (leg (n + 1)).eval x := by
  induction n with
  | zero => simp [leg]
  | succ n ih =>
      refine ⟨ih.2, ?_⟩
      have h := leg_rec_eval n (-x)
      have h' := leg_rec_eval n x
      rw [ih.1, ih.2] at h
      have : ((n : ℝ) + 2) ≠ 0 := by positivity
      apply mul_left_cancel₀ this
      rw [h]
      rw [show (-1 : ℝ) ^ (n + 1 + 1) = (-1) ^ n by rw [pow_succ, pow_succ]; ring,
        show (-1 : ℝ) ^ (n + 1) = -(-1) ^ n by rw [pow_succ]; ring]
      linear_combination -(-1 : ℝ) ^ n * h'

theorem leg_degree (n : Nat) : (leg n).natDegree ≤ n ∧ (leg (n + 1)).natDegree ≤ n + 1 := by
  induction n with
  | zero => simp [leg]
  | succ n ih =>
      refine ⟨ih.2, ?_⟩
      rw [leg]
      refine (natDegree_C_mul_le _ _).trans ((natDegree_sub_le _ _).trans (max_le ?_ ?_))
      · rw [mul_assoc]
        refine (natDegree_C_mul_le _ _).trans (natDegree_mul_le.trans ?_)
        rw [natDegree_X]; omega
      · exact (natDegree_C_mul_le _ _).trans (by omega)

/-! ### The integral -/

/-- The integral of a polynomial over [-1, 1]. -/
noncomputable def intg (p : ℝ[X]) : ℝ := ∫ x in (-1 : ℝ)..1, p.eval x

theorem cont (p : ℝ[X]) : Continuous fun x : ℝ => p.eval x := p.continuous

theorem intg_add (p q : ℝ[X]) : intg (p + q) = intg p + intg q := by
  unfold intg
  rw [← intervalIntegral.integral_add ((cont p).intervalIntegrable _ _)
    ((cont q).intervalIntegrable _ _)]
  simp

theorem intg_C_mul (c : ℝ) (p : ℝ[X]) : intg (C c * p) = c * intg p := by
  unfold intg
  rw [← intervalIntegral.integral_const_mul]
  simp

theorem intg_sub (p q : ℝ[X]) : intg (p - q) = intg p - intg q := by
  have := intg_add (p - q) q
  rw [sub_add_cancel] at this
  linarith

theorem intg_zero : intg 0 = 0 := by simp [intg]

theorem intg_sum {ι : Type} (s : Finset ι) (f : ι → ℝ[X]) : intg (∑ i ∈ s, f i) = ∑ i ∈ s, intg (f i) := by
  classical
  induction s using Finset.induction_on with
  | empty => simp [intg_zero]
  | insert a s ha ih => rw [Finset.sum_insert ha, Finset.sum_insert ha, intg_add, ih]

theorem intg_deriv (p : ℝ[X]) : intg (derivative p) = p.eval 1 - p.eval (-1) := by
  unfold intg
  exact intervalIntegral.integral_eq_sub_of_hasDerivAt (fun x _ => p.hasDerivAt x)
    ((cont _).intervalIntegrable _ _)

theorem intg_one : intg 1 = 2 := by
  unfold intg; simp; norm_num

/-- `(m + k + 2) ∫ xᵏ P_{m+1} = k ∫ x^{k-1} P_m`. -/
theorem moment (m k : Nat) : ((m : ℝ) + 1 + k + 1) * intg (X ^ k * leg (m + 1)) =
    k * intg (X ^ (k - 1) * leg m) := by
  obtain ⟨h1, -⟩ := leg_deriv m
  have d1 : derivative (X ^ (k + 1) * leg (m + 1)) =
      C ((k : ℝ) + 1) * (X ^ k * leg (m + 1)) + X ^ (k + 1) * derivative (leg (m + 1)) := by
    rw [derivative_mul, derivative_X_pow]; simp; ring
  have d2 : derivative (X ^ k * leg m) =
      C (k : ℝ) * (X ^ (k - 1) * leg m) + X ^ k * derivative (leg m) := by
    rw [derivative_mul, derivative_X_pow]; simp; ring
  have i1 := intg_deriv (X ^ (k + 1) * leg (m + 1))
  have i2 := intg_deriv (X ^ k * leg m)
  rw [d1, intg_add, intg_C_mul] at i1
  rw [d2, intg_add, intg_C_mul] at i2
  have hx : X ^ (k + 1) * derivative (leg (m + 1)) - X ^ k * derivative (leg m) =
      C ((m : ℝ) + 1) * (X ^ k * leg (m + 1)) := by
    linear_combination X ^ k * h1
  have hx' := congrArg intg hx
  rw [intg_sub, intg_C_mul] at hx'
  have b : (X ^ (k + 1) * leg (m + 1)).eval (1 : ℝ) - (X ^ (k + 1) * leg (m + 1)).eval (-1) =
      (X ^ k * leg m).eval (1 : ℝ) - (X ^ k * leg m).eval (-1) := by
    simp only [eval_mul, eval_pow, eval_X, (leg_one m).1, (leg_one m).2]
    have e1 := (leg_neg m 1).1
    have e2 := (leg_neg m 1).2
    rw [(leg_one m).1] at e1
    rw [(leg_one m).2] at e2
    rw [e1, e2]
    rw [pow_succ (-1 : ℝ) k, pow_succ (-1 : ℝ) m]
    ring
  linear_combination -hx' + i1 - i2 + b

theorem moment_zero (m k : Nat) (h : k < m) : intg (X ^ k * leg m) = 0 := by
  induction m generalizing k with
  | zero => omega
  | succ m ih =>
      have := moment m k
      cases k with
      | zero =>
          rw [Nat.cast_zero, zero_mul] at this
          exact (mul_eq_zero.1 this).resolve_left (by positivity)
      | succ k =>
          rw [Nat.add_sub_cancel, ih k (by omega), mul_zero] at this
          have hz : ((m : ℝ) + 1 + (k + 1 : Nat) + 1) ≠ 0 := by positivity
          exact (mul_eq_zero.1 this).resolve_left hz

/-- The Legendre polynomial integrates to zero against every polynomial of lower degree. -/
theorem orth (m : Nat) (q : ℝ[X]) (h : q.natDegree < m) : intg (q * leg m) = 0 := by
  rw [q.as_sum_range_C_mul_X_pow, Finset.sum_mul, intg_sum]
  refine Finset.sum_eq_zero fun k hk => ?_
  rw [mul_assoc, intg_C_mul, moment_zero m k (by have := Finset.mem_range.1 hk; omega), mul_zero]

/-! ### The kernel polynomial of a node -/

noncomputable def ker (m : Nat) (y : ℝ) : ℝ[X] :=
  ∑ k ∈ Finset.range m, C ((2 * (k : ℝ) + 1) * (leg k).eval y) * leg k

theorem ker_cd (m : Nat) (y : ℝ) : (X - C y) * ker (m + 1) y =
    C ((m : ℝ) + 1) * (C ((leg m).eval y) * leg (m + 1) - C ((leg (m + 1)).eval y) * leg m) := by
  induction m with
  | zero => simp [ker, leg]
  | succ m ih =>
      have hk : ker (m + 2) y = ker (m + 1) y +
          C ((2 * ((m + 1 : Nat) : ℝ) + 1) * (leg (m + 1)).eval y) * leg (m + 1) := by
        simp [ker, Finset.sum_range_succ]
      rw [hk, mul_add, ih]
      have h1 := leg_rec m
      have h2 := congrArg C (leg_rec_eval m y)
      simp only [C_add, C_mul, C_sub] at h1 h2 ⊢
      push_cast
      simp only [C_add]
      rw [show (C (2 : ℝ) : ℝ[X]) = 1 + 1 by rw [← C_1, ← C_add]; norm_num,
        show (C (3 : ℝ) : ℝ[X]) = 1 + 1 + 1 by rw [← C_1, ← C_add, ← C_add]; norm_num] at *
      simp only [C_1] at *
      linear_combination (-C ((leg (m + 1)).eval y)) * h1 + leg (m + 1) * h2

theorem ker_degree (m : Nat) (y : ℝ) : (ker (m + 1) y).natDegree ≤ m := by
  unfold ker
  refine natDegree_sum_le_of_forall_le _ _ fun k hk => ?_
  have := Finset.mem_range.1 hk
  exact (natDegree_C_mul_le _ _).trans ((leg_degree k).1.trans (by omega))

theorem ker_intg (m : Nat) (y : ℝ) : intg (ker (m + 1) y) = 2 := by
  unfold ker
  rw [intg_sum, Finset.sum_range_succ', Finset.sum_eq_zero, zero_add]
  · simp [leg, intg_one]
  · intro k _
    have := moment_zero (k + 1) 0 (by omega)
    rw [intg_C_mul, ← one_mul (leg (k + 1)), ← pow_zero X, this, mul_zero]

theorem ker_pos (m : Nat) (y : ℝ) : 0 < (ker (m + 1) y).eval y := by
  unfold ker
  rw [eval_finset_sum, Finset.sum_range_succ']
  refine add_pos_of_nonneg_of_pos (Finset.sum_nonneg fun k _ => ?_) ?_
  · simp only [eval_mul, eval_C]
    have := mul_self_nonneg ((leg (k + 1)).eval y)
    nlinarith [show (0 : ℝ) ≤ 2 * ((k + 1 : Nat) : ℝ) + 1 by positivity]
  · simp [leg]

/-- At a root of `P_{m+1}` the kernel is the reciprocal Gauss weight (up to 2), and vanishes at every
    other root. -/
theorem ker_root (m : Nat) (y : ℝ) (hy : (leg (m + 1)).eval y = 0) :
    (ker (m + 1) y).eval y = (1 - y * y) * (derivative (leg (m + 1))).eval y ^ 2 ∧
    ∀ x, (leg (m + 1)).eval x = 0 → x ≠ y → (ker (m + 1) y).eval x = 0 := by
  have h := ker_cd m y
  rw [hy] at h
  constructor
  · have hd := congrArg (fun p => (derivative p).eval y) h
    simp only [derivative_mul, derivative_sub, derivative_X, derivative_C, eval_add, eval_mul,
      eval_sub, eval_X, eval_C, eval_one, eval_zero, sub_self, zero_mul, sub_zero, one_mul, add_zero,
      zero_add, map_zero] at hd
    have e := leg_deriv_eval m y
    rw [hy] at e
    rw [hd]
    linear_combination (derivative (leg (m + 1))).eval y * e
  · intro x hx hxy
    have he := congrArg (eval x) h
    simp only [eval_mul, eval_sub, eval_X, eval_C, hx, zero_mul, mul_zero, sub_self, map_zero,
      eval_zero] at he
    exact (mul_eq_zero.1 he).resolve_left (sub_ne_zero.2 hxy)

theorem slope_eq (m : Nat) (z : ℝ) (h : z * z ≠ 1) :
    slope (m + 1) z = (derivative (leg (m + 1))).eval z := by
  unfold slope
  rw [legLoop_eq, div_eq_iff (sub_ne_zero.2 h)]
  have := leg_deriv_eval m z
  push_cast
  linear_combination -this

/-! ### Exactness -/

/-- What a set of points and weights integrates a function to. -/
def rule (q : List ℝ × List ℝ) (f : ℝ → ℝ) : ℝ := (List.zipWith (fun x w => w * f x) q.1 q.2).sum

/-- The set integrates every polynomial up to degree `d` exactly over [a, b]. -/
def ExactTo (d : Nat) (a b : ℝ) (q : List ℝ × List ℝ) : Prop :=
  ∀ p : ℝ[X], p.natDegree ≤ d → rule q (fun x => p.eval x) = ∫ x in a..b, p.eval x

theorem rule_map (m : Nat) (x w : Nat → ℝ) (f : ℝ → ℝ) :
    rule ((List.range m).map x, (List.range m).map w) f = ∑ i ∈ Finset.range m, w i * f (x i) := by
  unfold rule
  simp only
  rw [List.zipWith_map, List.zipWith_self]
  rfl

/-- Any `m + 1` distinct roots of `P_{m+1}` with the weights `2 / ((1 - x²) P'²)` integrate every
    polynomial of degree up to `2m + 1` exactly. -/
theorem gauss (m : Nat) (x w : Nat → ℝ)
    (hr : ∀ i < m + 1, (leg (m + 1)).eval (x i) = 0)
    (hd : ∀ i < m + 1, ∀ j < m + 1, x i = x j → i = j)
    (hw : ∀ i < m + 1, w i = 2 / ((1 - x i * x i) * (derivative (leg (m + 1))).eval (x i) ^ 2))
    (p : ℝ[X]) (hp : p.natDegree ≤ 2 * m + 1) :
    ∑ i ∈ Finset.range (m + 1), w i * p.eval (x i) = intg p := by
  classical
  have hl0 : leg (m + 1) ≠ 0 := by
    intro h
    have := (leg_one m).2
    rw [h] at this
    simp at this
  have hlead : (leg (m + 1)).leadingCoeff ≠ 0 := leadingCoeff_ne_zero.2 hl0
  -- the degree is exactly m + 1
  have hdeg : (leg (m + 1)).natDegree = m + 1 := by
    refine le_antisymm (leg_degree m).2 ?_
    have hsub : (Finset.range (m + 1)).image x ⊆ (leg (m + 1)).roots.toFinset := by
      intro y hy
      obtain ⟨i, hi, rfl⟩ := Finset.mem_image.1 hy
      rw [Multiset.mem_toFinset, mem_roots hl0]
      exact hr i (Finset.mem_range.1 hi)
    have hc := Finset.card_le_card hsub
    rw [Finset.card_image_of_injOn (fun i hi j hj e => hd i (by simpa using hi) j (by simpa using hj) e),
      Finset.card_range] at hc
    exact hc.trans ((Multiset.toFinset_card_le _).trans (card_roots' _))
  -- divide by the Legendre polynomial
  set c := (leg (m + 1)).leadingCoeff with hcdef
  set P := C c⁻¹ * leg (m + 1) with hP
  have hmon : P.Monic := by
    rw [hP, Monic, leadingCoeff_mul, leadingCoeff_C, inv_mul_cancel₀ hlead]
  have hPdeg : P.natDegree = m + 1 := by
    rw [hP, natDegree_C_mul (inv_ne_zero hlead), hdeg]
  have hdiv := modByMonic_add_div p P
  set r := p %ₘ P
  set q := p /ₘ P
  have hrdeg : r.natDegree < m + 1 := by
    have := natDegree_modByMonic_lt p hmon (by intro h; rw [h] at hPdeg; simp at hPdeg)
    rwa [hPdeg] at this
  have hqdeg : q.natDegree < m + 1 := by
    have := natDegree_divByMonic p hmon
    rw [hPdeg] at this
    show (p /ₘ P).natDegree < m + 1
    omega
  have hI : intg p = intg r := by
    conv_lhs => rw [← hdiv]
    rw [intg_add, hP, show C c⁻¹ * leg (m + 1) * q = C c⁻¹ * (q * leg (m + 1)) by ring, intg_C_mul,
      orth _ _ hqdeg, mul_zero, add_zero]
  have hE : ∀ i < m + 1, p.eval (x i) = r.eval (x i) := by
    intro i hi
    conv_lhs => rw [← hdiv]
    simp [hP, hr i hi]
  -- interpolate the remainder with the kernels
  have hk : r = ∑ i ∈ Finset.range (m + 1),
      C (r.eval (x i) / (ker (m + 1) (x i)).eval (x i)) * ker (m + 1) (x i) := by
    rw [← sub_eq_zero]
    have hinj : Set.InjOn x (Finset.range (m + 1) : Set ℕ) := fun i hi j hj e =>
      hd i (by simpa using hi) j (by simpa using hj) e
    refine eq_zero_of_degree_lt_of_eval_index_eq_zero (Finset.range (m + 1)) hinj ?_ ?_
    · rw [Finset.card_range]
      refine lt_of_le_of_lt (degree_sub_le _ _) (max_lt ?_ ?_)
      · exact lt_of_le_of_lt degree_le_natDegree (by exact_mod_cast hrdeg)
      · refine lt_of_le_of_lt degree_le_natDegree ?_
        have : (∑ i ∈ Finset.range (m + 1),
            C (r.eval (x i) / (ker (m + 1) (x i)).eval (x i)) * ker (m + 1) (x i)).natDegree ≤ m :=
          natDegree_sum_le_of_forall_le _ _ fun i _ => (natDegree_C_mul_le _ _).trans (ker_degree m _)
        exact_mod_cast Nat.lt_succ_of_le this
    · intro j hj
      have hj' := Finset.mem_range.1 hj
      rw [eval_sub, eval_finset_sum, Finset.sum_eq_single j]
      · rw [eval_mul, eval_C, div_mul_cancel₀ _ (ker_pos m (x j)).ne', sub_self]
      · intro i hi hij
        have hi' := Finset.mem_range.1 hi
        rw [eval_mul, (ker_root m (x i) (hr i hi')).2 (x j) (hr j hj')
          (fun e => hij (hd i hi' j hj' e.symm)), mul_zero]
      · intro h; exact absurd hj h
  rw [hI, hk, intg_sum]
  refine Finset.sum_congr rfl fun i hi => ?_
  have hi' := Finset.mem_range.1 hi
  rw [intg_C_mul, ker_intg, hE i hi', hw i hi', ← (ker_root m (x i) (hr i hi')).1]
  ring

/-! ### The generated set -/

theorem refine_root (tol : ℝ) (ht : 0 ≤ tol) (m n : Nat) (z : ℝ) (h : (leg m).eval z = 0) :
    refine tol m n z = (z, slope m z) := by
  have hn : newton m z = (z, slope m z) := by simp [newton, legLoop_fst, h]
  cases n with
  | zero => exact hn
  | succ n => rw [refine, hn]; simp [ht]

/-- **C90.** If the iterations for the `m` initial guesses end at `m` different roots of the Legendre
    polynomial, the last of each moving nothing, the set integrates every polynomial of degree up to
    `2m - 1` exactly over [-1, 1]. -/
theorem C90_exact_if (tol : ℝ) (m : Nat) (hm : 0 < m) (z0 : Nat → ℝ)
    (hroot : ∀ i < m, (leg m).eval (refine tol m 199 (z0 i)).1 = 0 ∧
      newton m (refine tol m 199 (z0 i)).1 = refine tol m 199 (z0 i))
    (hdist : ∀ i < m, ∀ j < m,
      (refine tol m 199 (z0 i)).1 = (refine tol m 199 (z0 j)).1 → i = j) :
    ExactTo (2 * m - 1) (-1) 1 (glSet tol m z0) := by
  intro p hp
  obtain ⟨m, rfl⟩ : ∃ k, m = k + 1 := ⟨m - 1, by omega⟩
  unfold glSet
  rw [rule_map]
  have hx : ∀ i < m + 1, (leg (m + 1)).eval (glPoint tol (m + 1) (z0 i)).1 = 0 := by
    intro i hi
    show (leg (m + 1)).eval (-(refine tol (m + 1) 199 (z0 i)).1) = 0
    rw [(leg_neg m _).2, (hroot i hi).1, mul_zero]
  refine gauss m _ _ hx ?_ ?_ p (by omega)
  · intro i hi j hj e
    exact hdist i hi j hj (neg_injective e)
  · intro i hi
    set r := refine tol (m + 1) 199 (z0 i) with hr
    have h2 : r.2 = slope (m + 1) r.1 := by
      have := congrArg Prod.snd (hroot i hi).2
      exact this.symm
    have hne : r.1 * r.1 ≠ 1 := by
      intro h
      have h1 := (ker_root m r.1 (hroot i hi).1).1
      rw [h, sub_self, zero_mul] at h1
      exact (ker_pos m r.1).ne' h1
    have hpar : ((derivative (leg (m + 1))).eval (-r.1)) ^ 2 = ((derivative (leg (m + 1))).eval r.1) ^ 2 := by
      have e1 := leg_deriv_eval m r.1
      have e2 := leg_deriv_eval m (-r.1)
      rw [(leg_neg m _).1, (leg_neg m _).2, (hroot i hi).1] at e2
      rw [(hroot i hi).1] at e1
      have hz : (r.1 * r.1 - 1) ≠ 0 := sub_ne_zero.2 hne
      have hsq : ((-1 : ℝ) ^ m) ^ 2 = 1 := by rw [← pow_mul, mul_comm, pow_mul]; simp
      have f1 : (r.1 * r.1 - 1) * (derivative (leg (m + 1))).eval (-r.1) =
          (-1) ^ m * ((r.1 * r.1 - 1) * (derivative (leg (m + 1))).eval r.1) := by
        rw [e1]; linear_combination e2
      have f2 : (derivative (leg (m + 1))).eval (-r.1) =
          (-1) ^ m * (derivative (leg (m + 1))).eval r.1 := by
        apply mul_left_cancel₀ hz
        linear_combination f1
      rw [f2, mul_pow, hsq, one_mul]
    show 2 / ((1 - r.1 * r.1) * r.2 * r.2) =
      2 / ((1 - -r.1 * -r.1) * ((derivative (leg (m + 1))).eval (-r.1)) ^ 2)
    rw [hpar, h2, slope_eq m r.1 hne]
    congr 1
    ring

/-- **C90.** In particular, started from the roots themselves the set is exact: the stopping test
    leaves roots where they are. -/
theorem C90_from_roots (tol : ℝ) (ht : 0 ≤ tol) (m : Nat) (hm : 0 < m) (z0 : Nat → ℝ)
    (hroot : ∀ i < m, (leg m).eval (z0 i) = 0)
    (hdist : ∀ i < m, ∀ j < m, z0 i = z0 j → i = j) :
    ExactTo (2 * m - 1) (-1) 1 (glSet tol m z0) ∧
    (glSet tol m z0).1 = (List.range m).map fun i => - z0 i := by
  refine ⟨C90_exact_if tol m hm z0 ?_ ?_, ?_⟩
  · intro i hi
    rw [refine_root tol ht m 199 _ (hroot i hi)]
    refine ⟨hroot i hi, ?_⟩
    simp [newton, legLoop_fst, hroot i hi]
  · intro i hi j hj
    rw [refine_root tol ht m 199 _ (hroot i hi), refine_root tol ht m 199 _ (hroot j hj)]
    exact hdist i hi j hj
  · refine List.map_congr_left fun i hi => ?_
    show -(refine tol m 199 (z0 i)).1 = _
    rw [refine_root tol ht m 199 _ (hroot i (List.mem_range.1 hi))]

/-- The two-point set, started at its roots: polynomials up to degree three are integrated exactly. -/
example : ExactTo 3 (-1) 1 (glSet (1 / 10 ^ 15) 2 fun i => if i = 0 then √(1 / 3) else -√(1 / 3)) := by
  refine (C90_from_roots _ (by positivity) 2 (by norm_num) _ ?_ ?_).1
  · intro i hi
    have hs : √(1 / 3 : ℝ) * √(1 / 3) = 1 / 3 := Real.mul_self_sqrt (by norm_num)
    have hev : ∀ y : ℝ, (leg 2).eval y = (3 * (y * y) - 1) / 2 := by
      intro y; simp [leg]; ring
    rw [hev]
    split
    · rw [hs]; norm_num
    · rw [neg_mul_neg, hs]; norm_num
  · have hs : 0 < √(1 / 3 : ℝ) := Real.sqrt_pos.2 (by norm_num)
    intro i hi j hj e
    interval_cases i <;> interval_cases j <;> simp only [if_true, one_ne_zero, if_false] at e ⊢ <;>
      linarith

/-! ### Symmetry, unconditionally -/

theorem slope_neg (m : Nat) (z : ℝ) : slope m (-z) = (-1) ^ (m + 1) * slope m z := by
  cases m with
  | zero => simp [slope]
  | succ m =>
      unfold slope
      rw [legLoop_eq, legLoop_eq, (leg_neg m z).1, (leg_neg m z).2]
      rw [show (-1 : ℝ) ^ (m + 1 + 1) = (-1) ^ m by rw [pow_succ, pow_succ]; ring,
        show (-1 : ℝ) ^ (m + 1) = -(-1) ^ m by rw [pow_succ]; ring, ← mul_div_assoc]
      congr 1
      · ring
      · ring

theorem newton_neg (m : Nat) (z : ℝ) :
    (newton m (-z)).1 = -(newton m z).1 ∧ (newton m (-z)).2 = (-1) ^ (m + 1) * (newton m z).2 := by
  refine ⟨?_, slope_neg m z⟩
  simp only [newton, legLoop_fst, slope_neg, (leg_neg m z).1]
  rcases neg_one_pow_eq_or ℝ m with h | h
  · rw [pow_succ, h]; rw [show (1 : ℝ) * -1 * slope m z = - slope m z by ring, div_neg]; ring
  · rw [pow_succ, h]; rw [show (-1 : ℝ) * -1 * slope m z = slope m z by ring, neg_one_mul, neg_div]
    ring

theorem refine_neg (tol : ℝ) (m n : Nat) (z : ℝ) :
    (refine tol m n (-z)).1 = -(refine tol m n z).1 ∧
    (refine tol m n (-z)).2 = (-1) ^ (m + 1) * (refine tol m n z).2 := by
  induction n generalizing z with
  | zero => exact newton_neg m z
  | succ n ih =>
      rw [refine, refine, (newton_neg m z).1]
      have : |(-(newton m z).1) - -z| = |(newton m z).1 - z| := by
        rw [← abs_neg]; congr 1; ring
      rw [this]
      by_cases h : tol < |(newton m z).1 - z|
      · rw [if_pos h, if_pos h]; exact ih _
      · rw [if_neg h, if_neg h]; exact newton_neg m z

theorem guess_neg (m i : Nat) (h : i < m) : guess m (m - 1 - i) = - guess m i := by
  unfold guess
  rw [← Real.cos_pi_sub]
  congr 1
  have : ((m - 1 - i : Nat) : ℝ) = m - 1 - i := by
    rw [Nat.cast_sub (by omega), Nat.cast_sub (by omega)]; simp
  rw [this]
  have : (m : ℝ) + 1 / 2 ≠ 0 := by positivity
  field_simp
  ring

/-- **C90.** Whatever the iterations converge to, for every number of points the generated set is
    symmetric about zero: the `i`-th point from the other end is the negative of the `i`-th, with the
    same weight. -/
theorem C90_symmetric (tol : ℝ) (m i : Nat) (h : i < m) :
    (glPoint tol m (guess m (m - 1 - i))).1 = -(glPoint tol m (guess m i)).1 ∧
    (glPoint tol m (guess m (m - 1 - i))).2 = (glPoint tol m (guess m i)).2 := by
  rw [guess_neg m i h]
  simp only [glPoint, (refine_neg tol m 199 _).1, (refine_neg tol m 199 _).2]
  refine ⟨trivial, ?_⟩
  congr 1
  rcases neg_one_pow_eq_or ℝ (m + 1) with h | h <;> rw [h] <;> ring

theorem sum_mirror (m : Nat) (f : Nat → ℝ) :
    ∑ i ∈ Finset.range m, f (m - 1 - i) = ∑ i ∈ Finset.range m, f i := Finset.sum_range_reflect f m

/-- **C90.** Hence odd functions integrate to zero exactly, and the one-direction current of a
    constant flux cancels. -/
theorem C90_odd (tol : ℝ) (m : Nat) (f : ℝ → ℝ) (hf : ∀ x, f (-x) = - f x) :
    rule (glSet tol m (guess m)) f = 0 := by
  unfold glSet
  rw [rule_map]
  have h := sum_mirror m fun i => (glPoint tol m (guess m i)).2 * f (glPoint tol m (guess m i)).1
  have h2 : ∑ i ∈ Finset.range m, (glPoint tol m (guess m (m - 1 - i))).2 *
      f (glPoint tol m (guess m (m - 1 - i))).1 =
      - ∑ i ∈ Finset.range m, (glPoint tol m (guess m i)).2 * f (glPoint tol m (guess m i)).1 := by
    rw [← Finset.sum_neg_distrib]
    refine Finset.sum_congr rfl fun i hi => ?_
    obtain ⟨h1, h2⟩ := C90_symmetric tol m i (Finset.mem_range.1 hi)
    rw [h1, h2, hf]; ring
  linarith

/-- A single point sits at zero with weight two. -/
example : glSet (1 / 10 ^ 15) 1 (guess 1) = ([0], [2]) := by
  have h0 : guess 1 0 = 0 := by
    unfold guess
    rw [show Real.pi * (((0 : Nat) : ℝ) + 1 - 1 / 4) / ((1 : Nat) + 1 / 2) = Real.pi / 2 by
      push_cast; ring, Real.cos_pi_div_two]
  have : refine (1 / 10 ^ 15 : ℝ) 1 199 0 = (0, slope 1 0) :=
    refine_root _ (by positivity) 1 199 0 (by simp [leg])
  have hs : slope 1 (0 : ℝ) = 1 := by
    rw [slope_eq 0 0 (by norm_num)]; simp [leg]
  unfold glSet glPoint
  simp only [List.range_one, List.map_cons, List.map_nil, h0, this, hs]
  norm_num

/-! ### Other intervals -/

theorem rule_scaleShift (a b : ℝ) (q : List ℝ × List ℝ) (f : ℝ → ℝ) :
    rule (scaleShift (-1) 1 a b q) f =
      (b - a) / 2 * rule q (fun x => f ((b - a) / 2 * x + (a + b) / 2)) := by
  obtain ⟨x, w⟩ := q
  unfold rule scaleShift
  simp only
  rw [List.zipWith_map]
  induction x generalizing w with
  | nil => simp
  | cons u x ih =>
    cases w with
    | nil => simp
    | cons v w =>
  simp only [List.zipWith_cons_cons, List.sum_cons]
  rw [ih w, mul_add]
  have e : u * ((b - a) / (1 - -1)) + (a - -1 * ((b - a) / (1 - -1))) =
      (b - a) / 2 * u + (a + b) / 2 := by ring
  rw [e]; ring

theorem exact_scaleShift (d : Nat) (a b : ℝ) (q : List ℝ × List ℝ) (h : ExactTo d (-1) 1 q) :
    ExactTo d a b (scaleShift (-1) 1 a b q) := by
  intro p hp
  rw [rule_scaleShift]
  have hc : (p.comp (C ((b - a) / 2) * X + C ((a + b) / 2))).natDegree ≤ d := by
    refine natDegree_comp_le.trans ?_
    have : (C ((b - a) / 2) * X + C ((a + b) / 2) : ℝ[X]).natDegree ≤ 1 := by
      refine (natDegree_add_le _ _).trans (max_le ?_ (by simp))
      exact (natDegree_C_mul_le _ _).trans (by simp)
    calc _ ≤ p.natDegree * 1 := Nat.mul_le_mul_left _ this
      _ ≤ d := by omega
  have h1 := h _ hc
  simp only [eval_comp, eval_add, eval_mul, eval_C, eval_X] at h1
  rw [h1]
  by_cases e : (b - a) / 2 = 0
  · have : a = b := by linarith
    subst this
    simp
  · rw [intervalIntegral.integral_comp_mul_add (fun x => p.eval x) e, smul_eq_mul, ← mul_assoc,
      mul_inv_cancel₀ e, one_mul]
    congr 1 <;> ring

/-- The upper half of a doubled set is the given set moved to the upper half interval, and the lower
    half its mirror image: each half keeps the exactness of the given set on its own half interval. -/
theorem double_lists (a b : ℝ) (h : Nat) (xh wh : List ℝ) (hx : xh.length = h) (hw : wh.length = h) :
    let q := doubled a b (2 * h) (xh, wh)
    (q.1.drop h, q.2.drop h) = scaleShift (-1) 1 ((a + b) / 2) b (xh, wh) ∧
    ((q.1.take h).reverse, (q.2.take h).reverse.map (-1 * ·)) =
      scaleShift (-1) 1 ((a + b) / 2) a (xh, wh) := by
  intro q
  obtain ⟨l1, l2, hk, -⟩ := C65_doubled a b h xh wh hx hw
  change q.1.length = 2 * h at l1
  change q.2.length = 2 * h at l2
  have up : ∀ i < h, q.1[h + i]? = (scaleShift (-1) 1 ((a + b) / 2) b (xh, wh)).1[i]? ∧
      q.2[h + i]? = (scaleShift (-1) 1 ((a + b) / 2) b (xh, wh)).2[i]? ∧
      q.1[h - 1 - i]? = (scaleShift (-1) 1 ((a + b) / 2) a (xh, wh)).1[i]? ∧
      (q.2[h - 1 - i]?).map (-1 * ·) = (scaleShift (-1) 1 ((a + b) / 2) a (xh, wh)).2[i]? := by
    intro i hi
    obtain ⟨x, w, e1, e2, e3, e4, e5, e6⟩ := hk i hi
    change q.1[h + i]? = _ at e3
    change q.1[h - 1 - i]? = _ at e4
    change q.2[h + i]? = _ at e5
    change q.2[h - 1 - i]? = _ at e6
    rw [e3, e4, e5, e6]
    simp only [scaleShift, List.getElem?_map, e1, e2, Option.map_some, Option.some.injEq]
    refine ⟨?_, ?_, ?_, ?_⟩ <;> ring
  have sl : ∀ c d : ℝ, (scaleShift (-1) 1 c d (xh, wh)).1.length = h ∧
      (scaleShift (-1) 1 c d (xh, wh)).2.length = h := by
    intro c d; simp [scaleShift, hx, hw]
  constructor
  · refine Prod.ext ?_ ?_
    · refine List.ext_getElem? fun i => ?_
      rw [List.getElem?_drop]
      by_cases hi : i < h
      · exact (up i hi).1
      · rw [List.getElem?_eq_none (by omega), List.getElem?_eq_none (by rw [(sl _ _).1]; omega)]
    · refine List.ext_getElem? fun i => ?_
      rw [List.getElem?_drop]
      by_cases hi : i < h
      · exact (up i hi).2.1
      · rw [List.getElem?_eq_none (by omega), List.getElem?_eq_none (by rw [(sl _ _).2]; omega)]
  · refine Prod.ext ?_ ?_
    · refine List.ext_getElem? fun i => ?_
      by_cases hi : i < h
      · rw [List.getElem?_reverse (by rw [List.length_take]; omega), List.length_take,
          show min h q.1.length - 1 - i = h - 1 - i by omega, List.getElem?_take,
          if_pos (by omega)]
        exact (up i hi).2.2.1
      · rw [List.getElem?_eq_none (by rw [List.length_reverse, List.length_take]; omega),
          List.getElem?_eq_none (by rw [(sl _ _).1]; omega)]
    · refine List.ext_getElem? fun i => ?_
      by_cases hi : i < h
      · rw [List.getElem?_map, List.getElem?_reverse (by rw [List.length_take]; omega),
          List.length_take, show min h q.2.length - 1 - i = h - 1 - i by omega, List.getElem?_take,
          if_pos (by omega)]
        exact (up i hi).2.2.2
      · rw [List.getElem?_eq_none (by rw [List.length_map, List.length_reverse, List.length_take]; omega),
          List.getElem?_eq_none (by rw [(sl _ _).2]; omega)]

theorem rule_reverse (x w : List ℝ) (f : ℝ → ℝ) (h : x.length = w.length) :
    rule (x.reverse, w.reverse) f = rule (x, w) f := by
  have key : ∀ (u : ℝ) (x : List ℝ) (v : ℝ) (w : List ℝ), x.length = w.length →
      rule (x ++ [u], w ++ [v]) f = rule (x, w) f + v * f u := by
    intro u x v w hl
    unfold rule
    simp only
    rw [List.zipWith_append hl]
    simp
  induction x generalizing w with
  | nil => cases w with
    | nil => rfl
    | cons v w => simp at h
  | cons u x ih =>
    cases w with
    | nil => simp at h
    | cons v w =>
      rw [List.reverse_cons, List.reverse_cons, key _ _ _ _ (by simpa using h),
        ih w (by simpa using h)]
      simp only [rule, List.zipWith_cons_cons, List.sum_cons]
      ring

theorem rule_neg (x w : List ℝ) (f : ℝ → ℝ) : rule (x, w.map (-1 * ·)) f = - rule (x, w) f := by
  unfold rule
  simp only
  induction x generalizing w with
  | nil => simp
  | cons u x ih =>
    cases w with
    | nil => simp
    | cons v w =>
      simp only [List.map_cons, List.zipWith_cons_cons, List.sum_cons]
      rw [ih]; ring

/-- **C90.** Doubling a set: functions that are one polynomial on the lower half interval and another on
    the upper half are integrated exactly, up to the degree of the given set. -/
theorem C90_double (d : Nat) (a b : ℝ) (h : Nat) (xh wh : List ℝ) (hx : xh.length = h)
    (hw : wh.length = h) (he : ExactTo d (-1) 1 (xh, wh)) :
    let q := doubled a b (2 * h) (xh, wh)
    ExactTo d ((a + b) / 2) b (q.1.drop h, q.2.drop h) ∧
    ExactTo d a ((a + b) / 2) (q.1.take h, q.2.take h) := by
  intro q
  obtain ⟨h1, h2⟩ := double_lists a b h xh wh hx hw
  obtain ⟨l1, l2, -, -⟩ := C65_doubled a b h xh wh hx hw
  constructor
  · change (q.1.drop h, q.2.drop h) = _ at h1
    rw [h1]
    exact exact_scaleShift d _ _ _ he
  · intro p hp
    have := exact_scaleShift d ((a + b) / 2) a _ he p hp
    rw [← h2, rule_neg, rule_reverse _ _ _ (by rw [List.length_take, List.length_take, l1, l2]),
      intervalIntegral.integral_symm] at this
    exact neg_injective this

/-- **C90.** The polar set of a doubled rule: the upper half of a `2np`-point set on [-1, 1] integrates
    polynomials over [0, 1] exactly, so its weights sum to one and the current through a surface
    (the integral of μ) is one half. -/
theorem C90_polar_double (d np : Nat) (xh wh : List ℝ) (hx : xh.length = np) (hw : wh.length = np)
    (he : ExactTo d (-1) 1 (xh, wh)) :
    ExactTo d 0 1 ((polar np false (doubled (-1) 1 (2 * np) (xh, wh))).x,
      (polar np false (doubled (-1) 1 (2 * np) (xh, wh))).w) := by
  obtain ⟨h1, -⟩ := C90_double d (-1) 1 np xh wh hx hw he
  obtain ⟨l1, l2, -, -⟩ := C65_doubled (-1 : ℝ) 1 np xh wh hx hw
  have key : ∀ l : List ℝ, l.length = 2 * np →
      (List.range np).map (fun i => l.getD (i + np) 0) = l.drop np := by
    intro l hl
    refine List.ext_getElem? fun i => ?_
    rw [List.getElem?_map, List.getElem?_drop]
    by_cases hi : i < np
    · rw [List.getElem?_range hi, Option.map_some, List.getD_eq_getElem?_getD, Nat.add_comm i np,
        List.getElem?_eq_getElem (by omega)]
      rfl
    · rw [List.getElem?_eq_none (by simp; omega), List.getElem?_eq_none (by omega)]
      rfl
  simp only [polar, normalised, Bool.false_eq_true, if_false]
  rw [key _ l1, key _ l2]
  norm_num at h1
  exact h1

theorem exact_weights (d : Nat) (a b : ℝ) (q : List ℝ × List ℝ) (hl : q.1.length = q.2.length)
    (h : ExactTo d a b q) : q.2.sum = b - a := by
  have := h 1 (by simp)
  simp only [eval_one, intervalIntegral.integral_const, smul_eq_mul, mul_one] at this
  rw [← this]
  obtain ⟨x, w⟩ := q
  unfold rule
  simp only [mul_one] at hl ⊢
  congr 1
  clear this h
  induction w generalizing x with
  | nil => simp
  | cons v w ih =>
      cases x with
      | nil => simp at hl
      | cons u x => simp only [List.zipWith_cons_cons]; rw [← ih x (by simpa using hl)]

/-- **C90.** On any interval the rescaled set has the same exactness. -/
theorem C90_interval_if (a b : ℝ) (m : Nat) (hm : 0 < m)
    (hroot : ∀ i < m, (leg m).eval (refine (1 / 10 ^ 15) m 199 (guess m i)).1 = 0 ∧
      newton m (refine (1 / 10 ^ 15) m 199 (guess m i)).1 = refine (1 / 10 ^ 15) m 199 (guess m i))
    (hdist : ∀ i < m, ∀ j < m, (refine (1 / 10 ^ 15) m 199 (guess m i)).1 =
      (refine (1 / 10 ^ 15) m 199 (guess m j)).1 → i = j) :
    ExactTo (2 * m - 1) a b (baseGL a b m) :=
  exact_scaleShift _ a b _ (C90_exact_if _ m hm _ hroot hdist)

/-- **C90.** At a root the abscissa lies strictly inside (-1, 1) and its weight is positive. -/
theorem C90_positive (tol : ℝ) (m : Nat) (z0 : ℝ) (hm : 0 < m)
    (hroot : (leg m).eval (refine tol m 199 z0).1 = 0)
    (hfix : newton m (refine tol m 199 z0).1 = refine tol m 199 z0) :
    -1 < (glPoint tol m z0).1 ∧ (glPoint tol m z0).1 < 1 ∧ 0 < (glPoint tol m z0).2 := by
  obtain ⟨m, rfl⟩ : ∃ k, m = k + 1 := ⟨m - 1, by omega⟩
  set r := refine tol (m + 1) 199 z0 with hr
  have h2 : r.2 = slope (m + 1) r.1 := (congrArg Prod.snd hfix).symm
  have hk := (ker_root m r.1 hroot).1
  have hp := ker_pos m r.1
  rw [hk] at hp
  have hs : 0 < 1 - r.1 * r.1 := by
    by_contra hc
    push Not at hc
    have := mul_nonneg_of_nonpos_of_nonpos hc (neg_nonpos.2 (sq_nonneg ((derivative (leg (m + 1))).eval r.1)))
    linarith
  have hab : |r.1| < 1 := by
    rw [← sq_lt_one_iff_abs_lt_one]; nlinarith
  obtain ⟨ha, hb⟩ := abs_lt.1 hab
  refine ⟨?_, ?_, ?_⟩
  · show -1 < -r.1; linarith
  · show -r.1 < 1; linarith
  · show 0 < 2 / ((1 - r.1 * r.1) * r.2 * r.2)
    rw [h2, slope_eq m r.1 (by intro h; rw [h] at hs; simp at hs)]
    refine div_pos two_pos ?_
    rw [mul_assoc, ← sq (eval r.1 _)]
    exact hp

/-- **C90.** The polar set of the plain Gauss-Legendre rule: the upper half of the `2np`-point set
    integrates even polynomials up to degree `4np - 1` exactly over [0, 1]; in particular its weights
    sum to one. -/
theorem C90_polar_gauss (tol : ℝ) (np : Nat) (hp : 0 < np)
    (he : ExactTo (2 * (2 * np) - 1) (-1) 1 (glSet tol (2 * np) (guess (2 * np))))
    (p : ℝ[X]) (hd : p.natDegree ≤ 4 * np - 1) (hev : ∀ x, p.eval (-x) = p.eval x) :
    rule ((polar np false (glSet tol (2 * np) (guess (2 * np)))).x,
      (polar np false (glSet tol (2 * np) (guess (2 * np)))).w) (fun x => p.eval x) =
      ∫ x in (0 : ℝ)..1, p.eval x := by
  have h1 := he p (by omega)
  have hi : ∫ x in (-1 : ℝ)..1, p.eval x = 2 * ∫ x in (0 : ℝ)..1, p.eval x := by
    rw [← intervalIntegral.integral_add_adjacent_intervals (b := 0)
      ((cont p).intervalIntegrable _ _) ((cont p).intervalIntegrable _ _)]
    have := intervalIntegral.integral_comp_neg (a := -1) (b := 0) (fun x => p.eval x)
    simp only [hev, neg_neg, neg_zero] at this
    rw [this]; ring
  have hsum : rule (glSet tol (2 * np) (guess (2 * np))) (fun x => p.eval x) =
      2 * ∑ i ∈ Finset.range np, (glPoint tol (2 * np) (guess (2 * np) (i + np))).2 *
        p.eval (glPoint tol (2 * np) (guess (2 * np) (i + np))).1 := by
    unfold glSet
    rw [rule_map, show 2 * np = np + np by ring, Finset.sum_range_add, two_mul]
    congr 1
    · rw [← Finset.sum_range_reflect]
      refine Finset.sum_congr rfl fun i hi => ?_
      have hi := Finset.mem_range.1 hi
      have := C90_symmetric tol (np + np) (i + np) (by omega)
      rw [show np + np - 1 - (i + np) = np - 1 - i by omega] at this
      rw [this.1, this.2, hev]
    · refine Finset.sum_congr rfl fun i _ => ?_
      rw [Nat.add_comm np i]
  have hr : rule ((polar np false (glSet tol (2 * np) (guess (2 * np)))).x,
      (polar np false (glSet tol (2 * np) (guess (2 * np)))).w) (fun x => p.eval x) =
      ∑ i ∈ Finset.range np, (glPoint tol (2 * np) (guess (2 * np) (i + np))).2 *
        p.eval (glPoint tol (2 * np) (guess (2 * np) (i + np))).1 := by
    simp only [polar, normalised, Bool.false_eq_true, if_false]
    rw [rule_map]
    refine Finset.sum_congr rfl fun i hi => ?_
    have hi := Finset.mem_range.1 hi
    simp only [glSet, List.getD_eq_getElem?_getD, List.getElem?_map,
      List.getElem?_range (show i + np < 2 * np by omega), Option.map_some, Option.getD_some]
  rw [hr]
  linarith

/-! ### Gauss-Chebyshev -/

open Real in
/-- **C91.** Functions of the form `p(x) / √(1 - x²)` with `p` a polynomial of degree below `2m` are
    integrated exactly over [-1, 1]. -/
theorem C91_exact (m : Nat) (hm : 0 < m) (p : ℝ[X]) (hp : p.natDegree < 2 * m) :
    rule (gcSet m) (fun x => p.eval x / √(1 - x * x)) =
      ∫ x in (-1 : ℝ)..1, p.eval x * √(1 - x ^ 2)⁻¹ := by
  have hd : p.degree < 2 * m := by
    refine lt_of_le_of_lt degree_le_natDegree ?_
    exact_mod_cast hp
  rw [← Polynomial.Chebyshev.integral_measureT, Polynomial.Chebyshev.integral_eq_sumZeroes hm.ne' hd]
  unfold gcSet
  simp only
  rw [List.map_map, rule_map, Polynomial.Chebyshev.sumZeroes, Finset.mul_sum,
    ← Finset.sum_range_reflect]
  refine Finset.sum_congr rfl fun i hi => ?_
  have hi := Finset.mem_range.1 hi
  simp only [Function.comp]
  have hm' : (m : ℝ) ≠ 0 := by positivity
  have e : - cos ((((m - 1 - i : Nat) : ℝ) + 1 - 1 / 2) * π / m) = cos ((2 * (i : ℝ) + 1) / (2 * m) * π) := by
    rw [← cos_pi_sub]
    congr 1
    rw [show ((m - 1 - i : Nat) : ℝ) = m - 1 - i by
      rw [Nat.cast_sub (by omega), Nat.cast_sub (by omega)]; simp]
    field_simp
    ring
  rw [e]
  have hpos : 0 < sin ((2 * (i : ℝ) + 1) / (2 * m) * π) := by
    apply sin_pos_of_pos_of_lt_pi
    · positivity
    · have : (2 * (i : ℝ) + 1) / (2 * m) < 1 := by
        rw [div_lt_one (by positivity)]
        have : (i : ℝ) + 1 ≤ m := by exact_mod_cast hi
        linarith
      nlinarith [pi_pos]
  have hs : √(1 - cos ((2 * (i : ℝ) + 1) / (2 * m) * π) * cos ((2 * (i : ℝ) + 1) / (2 * m) * π)) =
      sin ((2 * (i : ℝ) + 1) / (2 * m) * π) := by
    rw [← sq, ← sin_sq, sqrt_sq hpos.le]
  rw [hs]
  generalize sin ((2 * (i : ℝ) + 1) / (2 * m) * π) = t at hpos
  field_simp

open Real in
/-- **C91.** The weights of the set on an interval add up to the interval's length times
    `x / sin x` with `x = π / 2m`: always more than the length. -/
theorem C91_total (a b : ℝ) (hab : a < b) (m : Nat) (hm : 0 < m) :
    (baseGC a b m).2.sum = (b - a) * ((π / (2 * m)) / sin (π / (2 * m))) ∧
    b - a < (baseGC a b m).2.sum := by
  have hm' : (0 : ℝ) < m := by exact_mod_cast hm
  have hx : 0 < π / (2 * m) := by positivity
  have hx2 : π / (2 * m) < π := by
    rw [div_lt_iff₀ (by positivity)]
    have : (1 : ℝ) ≤ m := by exact_mod_cast hm
    nlinarith [pi_pos]
  have hsin : 0 < sin (π / (2 * m)) := sin_pos_of_pos_of_lt_pi hx hx2
  have hlt : sin (π / (2 * m)) < π / (2 * m) := sin_lt hx
  have htele : ∀ n : Nat, (∑ i ∈ Finset.range n, sin ((2 * (i : ℝ) + 1) * (π / (2 * m)))) *
      (2 * sin (π / (2 * m))) = 1 - cos (2 * n * (π / (2 * m))) := by
    intro n
    induction n with
    | zero => simp
    | succ n ih =>
        rw [Finset.sum_range_succ, add_mul, ih]
        have h1 : cos (2 * n * (π / (2 * m))) - cos (2 * ((n : ℝ) + 1) * (π / (2 * m))) =
            sin ((2 * (n : ℝ) + 1) * (π / (2 * m))) * (2 * sin (π / (2 * m))) := by
          rw [cos_sub_cos]
          rw [show (2 * (n : ℝ) * (π / (2 * m)) + 2 * ((n : ℝ) + 1) * (π / (2 * m))) / 2 =
              (2 * (n : ℝ) + 1) * (π / (2 * m)) by ring,
            show (2 * (n : ℝ) * (π / (2 * m)) - 2 * ((n : ℝ) + 1) * (π / (2 * m))) / 2 =
              -(π / (2 * m)) by ring, sin_neg]
          ring
        push_cast
        linarith
  have hS : (gcSet m).2.sum = (π / m) / sin (π / (2 * m)) := by
    have h0 : (gcSet m).2.sum = ∑ i ∈ Finset.range m, π / m * sin ((2 * (i : ℝ) + 1) * (π / (2 * m))) := by
      unfold gcSet
      simp only
      rw [List.map_map]
      refine Finset.sum_congr (s₁ := Finset.range m) rfl fun i hi => ?_
      have hi := Finset.mem_range.1 hi
      simp only [Function.comp]
      have e : ((i : ℝ) + 1 - 1 / 2) * π / m = (2 * (i : ℝ) + 1) * (π / (2 * m)) := by
        field_simp; ring
      rw [e]
      have hpos : 0 < sin ((2 * (i : ℝ) + 1) * (π / (2 * m))) := by
        apply sin_pos_of_pos_of_lt_pi
        · positivity
        · rw [← mul_div_assoc, div_lt_iff₀ (by positivity)]
          have : (i : ℝ) + 1 ≤ m := by exact_mod_cast hi
          nlinarith [pi_pos]
      rw [neg_mul_neg, ← sq, ← sin_sq, sqrt_sq hpos.le]
    have h1 := htele m
    rw [show 2 * (m : ℝ) * (π / (2 * m)) = π by field_simp, cos_pi] at h1
    rw [h0, ← Finset.mul_sum, eq_div_iff hsin.ne']
    have : (∑ i ∈ Finset.range m, sin ((2 * (i : ℝ) + 1) * (π / (2 * m)))) * sin (π / (2 * m)) = 1 := by
      linarith
    rw [mul_assoc, this, mul_one]
  have hT : (baseGC a b m).2.sum = (b - a) * ((π / (2 * m)) / sin (π / (2 * m))) := by
    have := (C65_scale_shift (-1) 1 a b (by norm_num) (gcSet m)).1
    rw [hS] at this
    show (scaleShift (-1) 1 a b (gcSet m)).2.sum = _
    have h2 : (1 : ℝ) - -1 = 2 := by norm_num
    rw [h2] at this
    have h3 : π / m = 2 * (π / (2 * m)) := by field_simp
    rw [h3] at this
    linarith [this, show 2 * (π / (2 * m)) / sin (π / (2 * m)) * (b - a) =
      2 * ((b - a) * (π / (2 * m) / sin (π / (2 * m)))) by ring]
  refine ⟨hT, ?_⟩
  rw [hT]
  have : 1 < (π / (2 * m)) / sin (π / (2 * m)) := by rwa [one_lt_div hsin]
  nlinarith

/-- **C91.** The full claim, that the weights of the set add up to the length of the interval. -/
def C91Claim : Prop := ∀ (a b : ℝ) (m : Nat), a < b → 0 < m → (baseGC a b m).2.sum = b - a

/-- It fails for every number of points; a caller that does not ask for normalisation gets too much
    weight. -/
theorem C91_claim_fails : ¬ C91Claim := by
  intro h
  have := (C91_total 0 1 one_pos 1 one_pos).2
  rw [h 0 1 1 one_pos one_pos] at this
  exact lt_irrefl _ this

/-- **C91.** Asking for normalisation makes the kept weights add up to the requested total, whatever the
    base set (as long as its weights do not cancel). -/
theorem C91_normalised (c : ℝ) (w : List ℝ) (h : w.sum ≠ 0) : (normalised true c w).sum = c := by
  unfold normalised
  rw [if_pos rfl, List.sum_map_mul_right]
  simp
  field_simp

example : (normalised true 1 [1, 3]).sum = 1 := C91_normalised 1 [1, 3] (by norm_num)

/-- One point: the interval [-1, 1] has weight π instead of 2. -/
example : (baseGC (-1) 1 1).2.sum = Real.pi := by
  rw [(C91_total (-1) 1 (by norm_num) 1 one_pos).1]
  have : Real.pi / (2 * (1 : Nat)) = Real.pi / 2 := by push_cast; ring
  rw [this, Real.sin_pi_div_two]
  ring

/-! ### Equal-weight set -/

theorem uniformEqual_eq (order dim : Nat) (ho : 0 < order) : uniformEqual order dim =
    (List.range order).flatMap fun j : Nat => (List.range order).map fun i : Nat =>
      (⟨Real.cos (((j : ℝ) + 1 / 2) * (Real.pi / 2 / order)) * √(1 - (((i : ℝ) + 1 / 2) / order) ^ 2),
        Real.sin (((j : ℝ) + 1 / 2) * (Real.pi / 2 / order)) * √(1 - (((i : ℝ) + 1 / 2) / order) ^ 2),
        ((i : ℝ) + 1 / 2) / order, 4 * Real.pi / (2 ^ dim * (order : ℝ) ^ 2)⟩ : Dir) := by
  have h0 : (order : ℝ) ≠ 0 := by positivity
  have hxi : ∀ i : ℝ, 2 / ((2 * order : Nat) : ℝ) * (i + 1 / 2 + 1 / 2 * ((2 * order : Nat) : ℝ)) - 1 =
      (i + 1 / 2) / order := by
    intro i; push_cast; field_simp; ring
  have hcoef : 4 * Real.pi / (((order * order : Nat) : ℝ) * 8 *
      ((((1 : Nat) : ℝ) + 1 / 2) / order - (((0 : Nat) : ℝ) + 1 / 2) / order)) = Real.pi / 2 / order := by
    push_cast; field_simp; ring
  unfold uniformEqual
  simp only [hxi]
  rw [show 2 * (2 * order) / 4 = order by omega, show 2 * order / 2 = order by omega]
  refine congrArg (fun f => (List.range order).flatMap f) (funext fun j => ?_)
  refine congrArg (fun f => (List.range order).map f) (funext fun i => ?_)
  rw [hcoef, mul_comm (Real.pi / 2 / (order : ℝ))]
  congr 1
  · rw [← sq]
  · rw [← sq]
  · push_cast; ring

/-- **C92.** The directions of the equal-weight set of any order are unit vectors strictly inside the
    first octant, `order²` of them, at the midpoints of `order` equal azimuth steps and `order` equal
    steps of the polar cosine. -/
theorem C92_directions (order dim : Nat) (ho : 0 < order) :
    (uniformEqual order dim).length = order * order ∧
    (∀ d ∈ uniformEqual order dim, d.mu ^ 2 + d.eta ^ 2 + d.xi ^ 2 = 1 ∧ 0 < d.mu ∧ 0 < d.eta ∧ 0 < d.xi) ∧
    ∀ i < order, ∀ j < order, ∃ d, (uniformEqual order dim)[j * order + i]? = some d ∧
      d.xi = ((i : ℝ) + 1 / 2) / order ∧
      d.eta * Real.cos (((j : ℝ) + 1 / 2) * (Real.pi / 2 / order)) =
        d.mu * Real.sin (((j : ℝ) + 1 / 2) * (Real.pi / 2 / order)) := by
  have h0 : (0 : ℝ) < order := by positivity
  rw [uniformEqual_eq order dim ho]
  have hlen : ∀ n (f : Nat → Nat → Dir), ((List.range n).flatMap fun j => (List.range order).map (f j)).length =
      n * order := by
    intro n f
    simp [List.length_flatMap]
  refine ⟨hlen order _, ?_, ?_⟩
  · intro d hd
    obtain ⟨j, hj, hd⟩ := List.mem_flatMap.1 hd
    obtain ⟨i, hi, rfl⟩ := List.mem_map.1 hd
    have hj : (j : ℝ) + 1 ≤ order := by exact_mod_cast List.mem_range.1 hj
    have hi : (i : ℝ) + 1 ≤ order := by exact_mod_cast List.mem_range.1 hi
    have hx0 : 0 < ((i : ℝ) + 1 / 2) / order := by positivity
    have hx1 : ((i : ℝ) + 1 / 2) / order < 1 := by
      rw [div_lt_one h0]; linarith
    have hs : 0 < 1 - (((i : ℝ) + 1 / 2) / order) ^ 2 := by nlinarith
    have ha0 : 0 < ((j : ℝ) + 1 / 2) * (Real.pi / 2 / order) := by have := Real.pi_pos; positivity
    have ha1 : ((j : ℝ) + 1 / 2) * (Real.pi / 2 / order) < Real.pi / 2 := by
      rw [← mul_div_assoc, div_lt_iff₀ h0]
      nlinarith [Real.pi_pos]
    have hc : 0 < Real.cos (((j : ℝ) + 1 / 2) * (Real.pi / 2 / order)) :=
      Real.cos_pos_of_mem_Ioo ⟨by linarith [Real.pi_pos], ha1⟩
    have hsn : 0 < Real.sin (((j : ℝ) + 1 / 2) * (Real.pi / 2 / order)) :=
      Real.sin_pos_of_pos_of_lt_pi ha0 (by linarith [Real.pi_pos])
    refine ⟨?_, mul_pos hc (Real.sqrt_pos.2 hs), mul_pos hsn (Real.sqrt_pos.2 hs), hx0⟩
    simp only [mul_pow, Real.sq_sqrt hs.le]
    have := Real.sin_sq_add_cos_sq (((j : ℝ) + 1 / 2) * (Real.pi / 2 / order))
    linear_combination (1 - (((i : ℝ) + 1 / 2) / order) ^ 2) * this
  · intro i hi j hj
    have key : ∀ n (f : Nat → Nat → Dir), j < n →
        ((List.range n).flatMap fun j => (List.range order).map (f j))[j * order + i]? = some (f j i) := by
      intro n f hn
      induction n with
      | zero => omega
      | succ n ih =>
          rw [List.range_succ, List.flatMap_append, List.flatMap_singleton]
          by_cases e : j < n
          · rw [List.getElem?_append_left]
            · exact ih e
            · rw [hlen]; nlinarith
          · have e : j = n := by omega
            subst e
            rw [List.getElem?_append_right (by rw [hlen]; omega), hlen, Nat.add_sub_cancel_left,
              List.getElem?_map, List.getElem?_range hi]
            rfl
    refine ⟨_, key order _ hj, rfl, ?_⟩
    simp only
    ring

/-- **C92.** The weights are equal; over the `2^dim` octants they add up to the full sphere, and the
    integral of the polar cosine over an octant is exact. -/
theorem C92_weights (order dim : Nat) (ho : 0 < order) :
    2 ^ dim * ((uniformEqual order dim).map Dir.w).sum = 4 * Real.pi ∧
    2 ^ dim * ((uniformEqual order dim).map fun d => d.w * d.xi).sum = 2 * Real.pi := by
  have h0 : (order : ℝ) ≠ 0 := by positivity
  have hd : (2 : ℝ) ^ dim ≠ 0 := by positivity
  have hgauss : ∀ n : Nat, ((List.range n).map fun i : Nat => ((i : ℝ) + 1 / 2)).sum = (n : ℝ) ^ 2 / 2 := by
    intro n
    induction n with
    | zero => simp
    | succ n ih => rw [List.range_succ, List.map_append, List.sum_append, ih]; simp; ring
  have hflat : ∀ (g : Dir → ℝ) (f : Nat → Nat → Dir) (c : ℝ) (n : Nat),
      (∀ j, ((List.range order).map fun i => g (f j i)).sum = c) →
      (((List.range n).flatMap fun j => (List.range order).map (f j)).map g).sum = n * c := by
    intro g f c n hc
    induction n with
    | zero => simp
    | succ n ih =>
        rw [List.range_succ, List.flatMap_append, List.flatMap_singleton, List.map_append,
          List.sum_append, ih, List.map_map]
        have := hc n
        simp only [Function.comp_def] at this ⊢
        rw [this]; push_cast; ring
  rw [uniformEqual_eq order dim ho]
  constructor
  · rw [hflat Dir.w _ (order * (4 * Real.pi / (2 ^ dim * (order : ℝ) ^ 2))) order (by
      intro j; simp)]
    field_simp
  · rw [hflat (fun d => d.w * d.xi) _ (4 * Real.pi / (2 ^ dim * (order : ℝ) ^ 2) * (order / 2)) order (by
      intro j
      simp only
      have e : (fun i : Nat => 4 * Real.pi / (2 ^ dim * (order : ℝ) ^ 2) * (((i : ℝ) + 1 / 2) / order)) =
          fun i : Nat => (4 * Real.pi / (2 ^ dim * (order : ℝ) ^ 2) / order) * ((i : ℝ) + 1 / 2) := by
        funext i; ring
      rw [e, List.sum_map_mul_left, hgauss]
      field_simp)]
    field_simp
    ring

example : (uniformEqual 2 3).length = 4 ∧ 2 ^ 3 * ((uniformEqual 2 3).map Dir.w).sum = 4 * Real.pi :=
  ⟨(C92_directions 2 3 (by norm_num)).1, (C92_weights 2 3 (by norm_num)).1⟩

end Detran.QuadGen
