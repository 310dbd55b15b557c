import Verif.Model.CallowNorm
import Mathlib.Algebra.BigOperators.Group.Finset.Basic
import Mathlib.Algebra.BigOperators.Group.List.Basic
import Mathlib.Algebra.BigOperators.Ring.Finset
import Mathlib.Algebra.Order.BigOperators.Group.Finset
import Mathlib.Algebra.Order.BigOperators.Ring.Finset
import Mathlib.Data.Real.Sqrt
import Mathlib.Tactic.Linarith
import Mathlib.Tactic.Positivity
import Mathlib.Tactic.FieldSimp

/-!
# C113: the norms of solver vectors
-/

namespace Detran.CallowNorm

open Finset

/-! ## Specification -/

/-- What each kind of norm measures: sum, root of the sum of squares, largest, mean, root mean square. -/
def IsNorm (t : Kind) (n : Nat) (x : Nat → ℝ) (v : ℝ) : Prop :=
  match t with
  | .l1 => v = ∑ i ∈ range n, |x i|
  | .l2 => 0 ≤ v ∧ v ^ 2 = ∑ i ∈ range n, x i ^ 2
  | .linf => (∀ i < n, |x i| ≤ v) ∧ ∃ i < n, |x i| = v
  | .l1grid => (n : ℝ) * v = ∑ i ∈ range n, |x i|
  | .l2grid => 0 ≤ v ∧ (n : ℝ) * v ^ 2 = ∑ i ∈ range n, x i ^ 2
  | .l1rel | .l2rel | .linfrel => True

/-- Kinds of norms of one vector. -/
def Single : Kind → Prop
  | .l1 | .l2 | .linf | .l1grid | .l2grid => True
  | _ => False

/-- The kind of which a relative kind is the relative form. -/
def absolute : Kind → Kind
  | .l1rel => .l1
  | .l2rel => .l2
  | .linfrel => .linf
  | t => t

/-! ## Loops -/

theorem accum_eq (n : Nat) (f : Nat → ℝ) : accum n f = ∑ i ∈ range n, f i := by
  induction n with
  | zero => rfl
  | succ n ih =>
    rw [accum, List.range_succ, List.foldl_append, sum_range_succ, ← ih]
    rfl

theorem largest_succ (n : Nat) (f : Nat → ℝ) : largest (n + 1) f = max (largest n f) (f n) := by
  rw [largest, List.range_succ, List.foldl_append]
  rfl

theorem largest_nonneg (n : Nat) (f : Nat → ℝ) : 0 ≤ largest n f := by
  induction n with
  | zero => exact le_rfl
  | succ n ih => rw [largest_succ]; exact le_max_of_le_left ih

theorem le_largest (n : Nat) (f : Nat → ℝ) : ∀ i < n, f i ≤ largest n f := by
  induction n with
  | zero => intro i hi; omega
  | succ n ih =>
    intro i hi
    rw [largest_succ]
    by_cases h : i = n
    · rw [h]; exact le_max_right _ _
    · exact le_max_of_le_left (ih i (by omega))

theorem largest_attained (n : Nat) (f : Nat → ℝ) (hn : 0 < n) (h0 : ∀ i < n, 0 ≤ f i) : ∃ i < n, f i = largest n f := by
  induction n with
  | zero => omega
  | succ n ih =>
    rw [largest_succ]
    by_cases h : f n ≤ largest n f
    · rw [max_eq_left h]
      by_cases hn' : n = 0
      · subst hn'
        refine ⟨0, by omega, le_antisymm h ?_⟩
        exact h0 0 (by omega)
      · obtain ⟨i, hi, e⟩ := ih (by omega) fun i hi => h0 i (by omega)
        exact ⟨i, by omega, e⟩
    · rw [max_eq_right (le_of_not_ge h)]
      exact ⟨n, by omega, rfl⟩

theorem largest_le (n : Nat) (f : Nat → ℝ) (v : ℝ) (hv : 0 ≤ v) (h : ∀ i < n, f i ≤ v) : largest n f ≤ v := by
  induction n with
  | zero => exact hv
  | succ n ih =>
    rw [largest_succ]
    exact max_le (ih fun i hi => h i (by omega)) (h n (by omega))

theorem accum_congr {n : Nat} {f g : Nat → ℝ} (h : ∀ i < n, f i = g i) : accum n f = accum n g := by
  rw [accum_eq, accum_eq]
  exact sum_congr rfl fun i hi => h i (mem_range.1 hi)

theorem largest_congr {n : Nat} {f g : Nat → ℝ} (h : ∀ i < n, f i = g i) : largest n f = largest n g := by
  induction n with
  | zero => rfl
  | succ n ih => rw [largest_succ, largest_succ, ih fun i hi => h i (by omega), h n (by omega)]

theorem sq_nonneg' (n : Nat) (x : Nat → ℝ) : 0 ≤ ∑ i ∈ range n, x i * x i :=
  sum_nonneg fun i _ => mul_self_nonneg _

theorem norm_l1 (n : Nat) (x : Nat → ℝ) : norm Real.sqrt .l1 n x = ∑ i ∈ range n, |x i| := accum_eq n _

theorem norm_l2 (n : Nat) (x : Nat → ℝ) : norm Real.sqrt .l2 n x = Real.sqrt (∑ i ∈ range n, x i * x i) := by
  rw [← accum_eq]
  rfl

theorem norm_linf (n : Nat) (x : Nat → ℝ) : norm Real.sqrt .linf n x = largest n fun i => |x i| := rfl

theorem norm_l1grid (n : Nat) (x : Nat → ℝ) : norm Real.sqrt .l1grid n x = (∑ i ∈ range n, |x i|) / n := by
  rw [← accum_eq]
  rfl

theorem norm_l2grid (n : Nat) (x : Nat → ℝ) :
    norm Real.sqrt .l2grid n x = Real.sqrt (∑ i ∈ range n, x i * x i) / Real.sqrt n := by
  rw [← accum_eq]
  rfl

/-! ## C113 -/

/-- A norm is what its name says, for a vector with elements. -/
theorem C113_norm (t : Kind) (n : Nat) (hn : 0 < n) (x : Nat → ℝ) : IsNorm t n x (norm Real.sqrt t n x) := by
  have hn' : (0 : ℝ) < n := by exact_mod_cast hn
  cases t with
  | l1 => exact accum_eq n _
  | l2 =>
    simp only [IsNorm, norm_l2, norm_l1grid, norm_l2grid]
    refine ⟨Real.sqrt_nonneg _, ?_⟩
    rw [Real.sq_sqrt (sq_nonneg' n x)]
    exact sum_congr rfl fun i _ => (sq (x i)).symm
  | linf => exact ⟨le_largest n fun i => |x i|, largest_attained n (fun i => |x i|) hn fun i _ => abs_nonneg _⟩
  | l1grid =>
    simp only [IsNorm, norm_l2, norm_l1grid, norm_l2grid]
    field_simp
  | l2grid =>
    simp only [IsNorm, norm_l2, norm_l1grid, norm_l2grid]
    refine ⟨by positivity, ?_⟩
    rw [div_pow, Real.sq_sqrt (sq_nonneg' n x), Real.sq_sqrt hn'.le, mul_div_cancel₀ _ hn'.ne']
    exact sum_congr rfl fun i _ => (sq (x i)).symm
  | _ => trivial

/-- A norm is zero for the zero vector only. -/
theorem C113_zero (t : Kind) (ht : Single t) (n : Nat) (x : Nat → ℝ) :
    norm Real.sqrt t n x = 0 ↔ ∀ i < n, x i = 0 := by
  rcases Nat.eq_zero_or_pos n with rfl | hn
  · cases t <;> simp [norm, raw, accum, largest, Single] at *
  have hn' : (0 : ℝ) < n := by exact_mod_cast hn
  have e1 : (∑ i ∈ range n, |x i| = 0) ↔ ∀ i < n, x i = 0 := by
    rw [sum_eq_zero_iff_of_nonneg fun i _ => abs_nonneg _]
    simp
  have e2 : (∑ i ∈ range n, x i * x i = 0) ↔ ∀ i < n, x i = 0 := by
    rw [sum_eq_zero_iff_of_nonneg fun i _ => mul_self_nonneg _]
    simp
  cases t with
  | l1 => simp only [norm_l1, norm_l2, norm_l1grid, norm_l2grid, e1]
  | l2 => simp only [norm_l1, norm_l2, norm_l1grid, norm_l2grid, Real.sqrt_eq_zero (sq_nonneg' n x), e2]
  | linf =>
    constructor
    · intro h i hi
      have := le_largest n (fun i => |x i|) i hi
      rw [norm_linf] at h
      rw [h] at this
      exact abs_eq_zero.1 (le_antisymm this (abs_nonneg _))
    · intro h
      refine le_antisymm (largest_le _ _ _ le_rfl fun i hi => ?_) (largest_nonneg _ _)
      rw [h i hi, abs_zero]
  | l1grid => simp only [norm_l1, norm_l2, norm_l1grid, norm_l2grid, div_eq_zero_iff, hn'.ne', or_false, e1]
  | l2grid =>
    simp only [norm_l1, norm_l2, norm_l1grid, norm_l2grid, div_eq_zero_iff, (Real.sqrt_pos.2 hn').ne', or_false,
      Real.sqrt_eq_zero (sq_nonneg' n x), e2]
  | _ => exact ht.elim

/-- Scaling a vector scales its norm. -/
theorem C113_scale (t : Kind) (n : Nat) (x : Nat → ℝ) (a : ℝ) :
    norm Real.sqrt t n (fun i => a * x i) = |a| * norm Real.sqrt t n x := by
  have e1 : ∑ i ∈ range n, |a * x i| = |a| * ∑ i ∈ range n, |x i| := by
    rw [mul_sum]
    exact sum_congr rfl fun i _ => abs_mul _ _
  have e2 : Real.sqrt (∑ i ∈ range n, a * x i * (a * x i)) = |a| * Real.sqrt (∑ i ∈ range n, x i * x i) := by
    have : ∑ i ∈ range n, a * x i * (a * x i) = a ^ 2 * ∑ i ∈ range n, x i * x i := by
      rw [mul_sum]
      exact sum_congr rfl fun i _ => by ring
    rw [this, Real.sqrt_mul (_root_.sq_nonneg a), Real.sqrt_sq_eq_abs]
  cases t with
  | l1 => simp only [norm_l1, norm_l2, norm_l1grid, norm_l2grid, e1]
  | l2 => simp only [norm_l1, norm_l2, norm_l1grid, norm_l2grid, e2]
  | linf =>
    simp only [norm_linf]
    induction n with
    | zero => simp [largest]
    | succ n ih =>
      rw [largest_succ, largest_succ, ih (by
        rw [mul_sum]
        exact sum_congr rfl fun i _ => abs_mul _ _) (by
        have : ∑ i ∈ range n, a * x i * (a * x i) = a ^ 2 * ∑ i ∈ range n, x i * x i := by
          rw [mul_sum]
          exact sum_congr rfl fun i _ => by ring
        rw [this, Real.sqrt_mul (_root_.sq_nonneg a), Real.sqrt_sq_eq_abs]), abs_mul,
        mul_max_of_nonneg _ _ (abs_nonneg a)]
  | l1grid => simp only [norm_l1, norm_l2, norm_l1grid, norm_l2grid, e1, mul_div_assoc]
  | l2grid => simp only [norm_l1, norm_l2, norm_l1grid, norm_l2grid, e2, mul_div_assoc]
  | _ => simp [norm, raw]

/-- The product of two vectors is bounded by their norms. -/
theorem C113_cauchy (n : Nat) (x y : Nat → ℝ) :
    |dot n x y| ≤ norm Real.sqrt .l2 n x * norm Real.sqrt .l2 n y := by
  simp only [dot, norm_l2, accum_eq]
  rw [← Real.sqrt_mul (sq_nonneg' n x)]
  apply Real.le_sqrt_of_sq_le
  rw [sq_abs]
  have := sum_mul_sq_le_sq_mul_sq (range n) x y
  simpa only [sq] using this

/-- The triangle inequality. -/
theorem C113_triangle (t : Kind) (n : Nat) (x y : Nat → ℝ) :
    norm Real.sqrt t n (fun i => x i + y i) ≤ norm Real.sqrt t n x + norm Real.sqrt t n y := by
  have e1 : ∑ i ∈ range n, |x i + y i| ≤ ∑ i ∈ range n, |x i| + ∑ i ∈ range n, |y i| := by
    rw [← sum_add_distrib]
    exact sum_le_sum fun i _ => abs_add_le _ _
  have e2 : Real.sqrt (∑ i ∈ range n, (x i + y i) * (x i + y i)) ≤
      Real.sqrt (∑ i ∈ range n, x i * x i) + Real.sqrt (∑ i ∈ range n, y i * y i) := by
    have hc := C113_cauchy n x y
    simp only [dot, norm_l2, accum_eq] at hc
    apply Real.sqrt_le_iff.2
    refine ⟨by positivity, ?_⟩
    have e : ∑ i ∈ range n, (x i + y i) * (x i + y i) =
        ∑ i ∈ range n, x i * x i + 2 * ∑ i ∈ range n, x i * y i + ∑ i ∈ range n, y i * y i := by
      rw [mul_sum, ← sum_add_distrib, ← sum_add_distrib]
      exact sum_congr rfl fun i _ => by ring
    rw [e, add_sq, Real.sq_sqrt (sq_nonneg' n x), Real.sq_sqrt (sq_nonneg' n y)]
    have := (le_abs_self _).trans hc
    linarith
  cases t with
  | l1 => simpa only [norm_l1, norm_l2, norm_l1grid, norm_l2grid] using e1
  | l2 => simpa only [norm_l1, norm_l2, norm_l1grid, norm_l2grid] using e2
  | linf =>
    refine largest_le _ _ _ (add_nonneg (largest_nonneg _ _) (largest_nonneg _ _)) fun i hi => ?_
    exact (abs_add_le _ _).trans (add_le_add (le_largest n (fun i => |x i|) i hi) (le_largest n (fun i => |y i|) i hi))
  | l1grid =>
    simp only [norm_l1, norm_l2, norm_l1grid, norm_l2grid]
    rw [← add_div]
    exact div_le_div_of_nonneg_right e1 (Nat.cast_nonneg n)
  | l2grid =>
    simp only [norm_l1, norm_l2, norm_l1grid, norm_l2grid]
    rw [← add_div]
    exact div_le_div_of_nonneg_right e2 (Real.sqrt_nonneg _)
  | _ => simp [norm, raw]

/-- The kinds for which a residual can be asked, and its meaning: the norm of the difference. -/
theorem C113_residual (t : Kind) (n : Nat) (x y : Nat → ℝ) (ht : t = .l1 ∨ t = .l2 ∨ t = .linf) :
    normResidual Real.sqrt t n x y = some (norm Real.sqrt t n fun i => x i - y i) := by
  rcases ht with rfl | rfl | rfl <;> rfl

/-- The first two relative kinds divide each difference by the element of the vector asked. -/
theorem C113_relative_partial (t : Kind) (n : Nat) (x y : Nat → ℝ) (_hx : ∀ i < n, x i ≠ 0) (ht : t = .l1rel ∨ t = .l2rel) :
    normResidual Real.sqrt t n x y = some (norm Real.sqrt (absolute t) n fun i => (x i - y i) / x i) := by
  rcases ht with rfl | rfl <;> rfl

/-- Multiplying both vectors by a number other than zero does not change them. -/
theorem C113_relative_scale_partial (t : Kind) (n : Nat) (x y : Nat → ℝ) (a : ℝ) (ha : a ≠ 0)
    (_hx : ∀ i < n, x i ≠ 0) (ht : t = .l1rel ∨ t = .l2rel) :
    normResidual Real.sqrt t n (fun i => a * x i) (fun i => a * y i) = normResidual Real.sqrt t n x y := by
  have e : ∀ i, (a * x i - a * y i) / (a * x i) = (x i - y i) / x i := by
    intro i
    rw [← mul_sub, mul_div_mul_left _ _ ha]
  rcases ht with rfl | rfl <;> simp only [normResidual, e]

/-- The whole claim: every kind of residual is the norm of the difference, divided by the elements for the relative
    kinds. -/
def C113Claim : Prop :=
  ∀ (t : Kind) (n : Nat) (x y : Nat → ℝ), (∀ i < n, x i ≠ 0) →
    normResidual Real.sqrt t n x y =
      some (norm Real.sqrt (absolute t) n fun i => if absolute t = t then x i - y i else (x i - y i) / x i)

/-- The third relative kind is the same as the kind that is not relative. -/
theorem C113_linfrel (n : Nat) (x y : Nat → ℝ) :
    normResidual Real.sqrt .linfrel n x y = some (norm Real.sqrt .linf n fun i => x i - y i) := rfl

/-- So it changes with the unit: by the factor `|a|` when both vectors are multiplied by `a`. -/
theorem C113_linfrel_unit (n : Nat) (x y : Nat → ℝ) (a : ℝ) :
    normResidual Real.sqrt .linfrel n (fun i => a * x i) (fun i => a * y i) =
      (normResidual Real.sqrt .linfrel n x y).map fun v => |a| * v := by
  rw [C113_linfrel, C113_linfrel, Option.map_some, ← C113_scale]
  simp only [mul_sub]

/-- The mean kinds give no residual at all. -/
theorem C113_grid_residual (n : Nat) (x y : Nat → ℝ) :
    normResidual Real.sqrt .l1grid n x y = none ∧ normResidual Real.sqrt .l2grid n x y = none := ⟨rfl, rfl⟩

/-- Asked for a relative kind, `norm` says zero for every vector. -/
theorem C113_relative_norm (t : Kind) (ht : ¬ Single t) (n : Nat) (x : Nat → ℝ) : norm Real.sqrt t n x = 0 := by
  cases t <;> simp_all [Single, norm, raw]

theorem C113_claim_fails : ¬ C113Claim := by
  intro h
  have := h .l1grid 1 (fun _ => 1) (fun _ => 0) (fun _ _ => one_ne_zero)
  cases this

/-! Two elements, `(3, -4)` with `(1, 4)`. -/

example : norm Real.sqrt .l1 2 (fun i => if i = 0 then 3 else -4) = 7 := by
  have := C113_norm .l1 2 (by omega) (fun i => if i = 0 then 3 else -4)
  simp only [IsNorm, sum_range_succ, sum_range_zero] at this
  rw [this]
  norm_num

example : norm Real.sqrt .linf 2 (fun i => if i = 0 then 3 else -4) = 4 := by
  simp [norm, raw, largest, List.range_succ]
  norm_num

example : normResidual Real.sqrt .l1rel 2 (fun i => if i = 0 then 3 else -4) (fun i => if i = 0 then 1 else 4) =
    some (8 / 3) := by
  simp only [normResidual, accum_eq, sum_range_succ, sum_range_zero]
  norm_num

example : normResidual Real.sqrt .linfrel 2 (fun i => if i = 0 then 3 else -4) (fun i => if i = 0 then 1 else 4) =
    some 8 := by
  simp [normResidual, largest, List.range_succ]
  norm_num

end Detran.CallowNorm
