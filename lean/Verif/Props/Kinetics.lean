import Verif.Model.Kinetics
import Mathlib.Algebra.BigOperators.Ring.Finset
import Mathlib.Algebra.BigOperators.Field
import Mathlib.Algebra.BigOperators.Intervals
import Mathlib.Algebra.Polynomial.Taylor
import Mathlib.Algebra.Order.Ring.Rat
import Mathlib.Data.Rat.Defs
import Mathlib.Topology.Algebra.Order.Field
import Mathlib.Topology.Order.Lattice
import Mathlib.Topology.Instances.Real.Lemmas
import Mathlib.Tactic.Ring
import Mathlib.Tactic.Linarith
import Mathlib.Tactic.FieldSimp
import Mathlib.Tactic.IntervalCases
import Mathlib.Tactic.NormNum
import Mathlib.Tactic.Positivity
import Mathlib.Tactic.LinearCombination

/-!
# Kinetics: interpolation (C45), backward differences (C46), precursors (C47), synthetic problems (C59),
half steps (C73), physics variables (C74), repeated updates (C75), discrete sources (C77)
-/

namespace Detran.Kin

variable {K : Type} [Field K]

/-! ## C45 -/

section
variable [LinearOrder K]

/-- `P k`: the time falls in interval `k`. -/
def In (times : List K) (t : K) (k : Nat) : Prop := times.getD k 0 < t ∧ t ≤ times.getD (k + 1) 0

theorem searchB_spec (times : List K) (t : K) :
    (searchB times t = 0 ∧ ∀ k, k < times.length - 1 → ¬ In times t k) ∨
    ∃ k, k < times.length - 1 ∧ searchB times t = k + 1 ∧ In times t k := by
  unfold searchB
  induction times.length - 1 with
  | zero => left; simp
  | succ n ih =>
    rw [List.range_succ, List.foldl_append]
    simp only [List.foldl_cons, List.foldl_nil]
    by_cases h : In times t n
    · right
      exact ⟨n, by omega, if_pos h, h⟩
    · rw [show (if times.getD n 0 < t ∧ t ≤ times.getD (n + 1) 0 then n + 1 else _) = _ from if_neg h]
      rcases ih with ⟨h1, h2⟩ | ⟨k, h1, h2, h3⟩
      · left
        refine ⟨h1, fun k hk => ?_⟩
        by_cases e : k = n
        · rw [e]; exact h
        · exact h2 k (by omega)
      · right
        exact ⟨k, by omega, h2, h3⟩

theorem search_hit (times : List K) (t : K) (h0 : times.getD 0 0 < t)
    (h1 : t ≤ times.getD (times.length - 1) 0) :
    ∃ k, k < times.length - 1 ∧ searchB times t = k + 1 ∧ In times t k := by
  rcases searchB_spec times t with ⟨_, h⟩ | h
  · exfalso
    have : ∀ k, k ≤ times.length - 1 → times.getD k 0 < t := by
      intro k
      induction k with
      | zero => intro _; exact h0
      | succ k ih =>
        intro hk
        by_contra hn
        exact h k (by omega) ⟨ih (by omega), not_lt.1 hn⟩
    exact absurd (this _ le_rfl) (not_lt.2 h1)
  · exact h

/-- **C45.**  A value is defined for every nonempty table, sorted or not, and every time. -/
theorem C45_defined (times : List K) (t : K) : (∃ w, weights times t = some w) ↔ times ≠ [] := by
  constructor
  · rintro ⟨w, h⟩ rfl
    simp [weights] at h
  · intro h
    have hl : times.length ≠ 0 := fun e => h (List.length_eq_zero_iff.1 e)
    unfold weights
    rw [if_neg hl]
    split
    · exact ⟨_, rfl⟩
    · rename_i h0
      split
      · exact ⟨_, rfl⟩
      · rename_i h1
        obtain ⟨k, _, hk, _⟩ := search_hit times t (not_le.1 h0) (not_lt.1 h1)
        simp only [hk]
        rw [if_neg (by omega)]
        exact ⟨_, rfl⟩

variable [IsStrictOrderedRing K]

/-- **C45.**  For any table the value is a convex combination of two neighbouring entries. -/
theorem C45_convex (times : List K) (t : K) (w : Weights K) (h : weights times t = some w) :
    0 ≤ w.A ∧ 0 ≤ w.B ∧ w.A + w.B = 1 ∧ w.iA < times.length ∧ w.iB < times.length ∧
      (w.iB = w.iA ∨ w.iB = w.iA + 1) := by
  unfold weights at h
  split at h
  · exact absurd h (by simp)
  · rename_i hl
    split at h
    · obtain rfl := (Option.some.inj h).symm
      simp; omega
    · rename_i h0
      split at h
      · obtain rfl := (Option.some.inj h).symm
        simp; omega
      · rename_i h1
        obtain ⟨k, hk1, hk, hin⟩ := search_hit times t (not_le.1 h0) (not_lt.1 h1)
        simp only [hk] at h
        rw [if_neg (by omega)] at h
        obtain rfl := (Option.some.inj h).symm
        obtain ⟨a, b⟩ := hin
        have hd : 0 < times.getD (k + 1) 0 - times.getD k 0 := by linarith
        simp only [Nat.add_sub_cancel]
        refine ⟨?_, ?_, by ring, by omega, by omega, Or.inr (by trivial)⟩
        · rw [sub_nonneg, div_le_one hd]; linarith
        · exact div_nonneg (by linarith) hd.le

/-- **C45.**  So it never leaves the range of the entries. -/
theorem C45_range (times : List K) (t : K) (w : Weights K) (h : weights times t = some w)
    (f : Nat → K) (a b : K) (hf : ∀ k, k < times.length → a ≤ f k ∧ f k ≤ b) :
    a ≤ w.apply f ∧ w.apply f ≤ b := by
  obtain ⟨h1, h2, h3, h4, h5, -⟩ := C45_convex times t w h
  have hA := hf _ h4
  have hB := hf _ h5
  unfold Weights.apply
  constructor
  · have : a = w.A * a + w.B * a := by rw [← add_mul, h3, one_mul]
    rw [this]
    exact add_le_add (mul_le_mul_of_nonneg_left hA.1 h1) (mul_le_mul_of_nonneg_left hB.1 h2)
  · have : b = w.A * b + w.B * b := by rw [← add_mul, h3, one_mul]
    rw [this]
    exact add_le_add (mul_le_mul_of_nonneg_left hA.2 h1) (mul_le_mul_of_nonneg_left hB.2 h2)

/-- Strictly increasing times (what the constructor asks for). -/
def Increasing (times : List K) : Prop :=
  ∀ k, k + 1 < times.length → times.getD k 0 < times.getD (k + 1) 0

omit [IsStrictOrderedRing K] in
theorem Increasing.le (times : List K) (h : Increasing times) (i j : Nat) (hij : i ≤ j)
    (hj : j < times.length) : times.getD i 0 ≤ times.getD j 0 := by
  induction j with
  | zero => rw [show i = 0 by omega]
  | succ j ih =>
    by_cases e : i = j + 1
    · rw [e]
    · exact le_trans (ih (by omega) (by omega)) (h j hj).le

/-- The interpolated value. -/
def interp (times : List K) (f : Nat → K) (t : K) : Option K := (weights times t).map (·.apply f)

omit [IsStrictOrderedRing K] in
/-- **C45.**  Clamped outside the table. -/
theorem C45_clamped (times : List K) (f : Nat → K) (t : K) (hn : times ≠ []) :
    (t ≤ times.getD 0 0 → interp times f t = some (f 0)) ∧
    (times.getD (times.length - 1) 0 < t → times.getD 0 0 < t →
      interp times f t = some (f (times.length - 1))) := by
  have hl : times.length ≠ 0 := fun e => hn (List.length_eq_zero_iff.1 e)
  constructor
  · intro h
    rw [interp, weights, if_neg hl, if_pos h]
    simp [Weights.apply]
  · intro h h'
    rw [interp, weights, if_neg hl, if_neg (not_le.2 h'), if_pos h]
    simp [Weights.apply]

/-- **C45.**  Linear between neighbouring times. -/
theorem C45_linear (times : List K) (hs : Increasing times) (f : Nat → K) (k : Nat)
    (hk : k + 1 < times.length) (t : K) (h1 : times.getD k 0 ≤ t) (h2 : t ≤ times.getD (k + 1) 0) :
    interp times f t = some (((times.getD (k + 1) 0 - t) * f k + (t - times.getD k 0) * f (k + 1)) /
      (times.getD (k + 1) 0 - times.getD k 0)) := by
  have hl : times.length ≠ 0 := by omega
  have hd : times.getD (k + 1) 0 - times.getD k 0 ≠ 0 := sub_ne_zero.2 (ne_of_gt (hs k hk))
  by_cases h0 : t ≤ times.getD 0 0
  · rw [(C45_clamped times f t (by rintro rfl; simp at hk)).1 h0]
    have hk0 : k = 0 := by
      by_contra hk0
      have := hs.le times 1 k (by omega) (by omega)
      have := hs 0 (by omega)
      linarith
    subst hk0
    have : t = times.getD 0 0 := le_antisymm h0 h1
    rw [this]
    congr 1
    rw [sub_self, zero_mul, add_zero, mul_div_cancel_left₀ _ hd]
  · have hlast : ¬ times.getD (times.length - 1) 0 < t := by
      have := hs.le times (k + 1) (times.length - 1) (by omega) (by omega)
      exact not_lt.2 (by linarith)
    obtain ⟨k', hk1, hk', a, b⟩ := search_hit times t (not_le.1 h0) (not_lt.1 hlast)
    have hv : interp times f t = some (((times.getD (k' + 1) 0 - t) * f k' +
        (t - times.getD k' 0) * f (k' + 1)) / (times.getD (k' + 1) 0 - times.getD k' 0)) := by
      have hd' : times.getD (k' + 1) 0 - times.getD k' 0 ≠ 0 := by
        have : times.getD k' 0 < times.getD (k' + 1) 0 := lt_of_lt_of_le a b
        exact sub_ne_zero.2 (ne_of_gt this)
      rw [interp, weights, if_neg hl, if_neg h0, if_neg hlast]
      simp only [hk']
      rw [if_neg (by omega)]
      simp only [Nat.add_sub_cancel, Option.map_some, Weights.apply]
      congr 1
      field_simp
      ring
    rw [hv]
    by_cases e : k' = k
    · rw [e]
    · -- then `t` is the common end point
      have hlt : k' < k := by
        by_contra hge
        have := hs.le times (k + 1) k' (by omega) (by omega)
        linarith
      have h3 := hs.le times (k' + 1) k (by omega) (by omega)
      have ht : t = times.getD k 0 := le_antisymm (le_trans b h3) h1
      have hk2 : k' + 1 = k := by
        by_contra hne
        have h4 := hs.le times (k' + 2) k (by omega) (by omega)
        have h5 := hs (k' + 1) (by omega)
        linarith
      subst hk2
      rw [ht]
      rw [ht] at a
      have hd' : times.getD (k' + 1) 0 - times.getD k' 0 ≠ 0 := sub_ne_zero.2 (ne_of_gt a)
      congr 1
      rw [sub_self, zero_mul, zero_add, zero_mul, add_zero, mul_div_cancel_left₀ _ hd',
        mul_div_cancel_left₀ _ hd]

/-- **C45.**  The tabulated value at each tabulated time. -/
theorem C45_tabulated (times : List K) (hs : Increasing times) (f : Nat → K) (k : Nat)
    (hk : k < times.length) : interp times f (times.getD k 0) = some (f k) := by
  by_cases h : k + 1 < times.length
  · rw [C45_linear times hs f k h _ le_rfl (hs k h).le]
    have hd : times.getD (k + 1) 0 - times.getD k 0 ≠ 0 := sub_ne_zero.2 (ne_of_gt (hs k h))
    rw [sub_self, zero_mul, add_zero, mul_div_cancel_left₀ _ hd]
  · by_cases h0 : k = 0
    · subst h0
      exact (C45_clamped times f _ (by rintro rfl; simp at hk)).1 le_rfl
    · obtain ⟨j, rfl⟩ : ∃ j, k = j + 1 := ⟨k - 1, by omega⟩
      rw [C45_linear times hs f j hk _ (hs j hk).le le_rfl]
      have hd : times.getD (j + 1) 0 - times.getD j 0 ≠ 0 := sub_ne_zero.2 (ne_of_gt (hs j hk))
      rw [sub_self, zero_mul, zero_add, mul_div_cancel_left₀ _ hd]

/-- The piecewise linear function written as a sum of ramps. -/
def ramps (times : List K) (f : Nat → K) (t : K) : K :=
  f 0 + ∑ k ∈ Finset.range (times.length - 1),
    (f (k + 1) - f k) / (times.getD (k + 1) 0 - times.getD k 0) *
      (max (times.getD k 0) (min t (times.getD (k + 1) 0)) - times.getD k 0)

theorem ramps_prefix (times : List K) (hs : Increasing times) (f : Nat → K) (t : K) (n : Nat)
    (hn : n < times.length) (ht : times.getD n 0 ≤ t) :
    f 0 + ∑ k ∈ Finset.range n, (f (k + 1) - f k) / (times.getD (k + 1) 0 - times.getD k 0) *
      (max (times.getD k 0) (min t (times.getD (k + 1) 0)) - times.getD k 0) = f n := by
  induction n with
  | zero => simp
  | succ n ih =>
    have h := hs n hn
    rw [Finset.sum_range_succ, ← add_assoc, ih (by omega) (by linarith), min_eq_right ht,
      max_eq_right h.le, div_mul_cancel₀ _ (sub_ne_zero.2 (ne_of_gt h))]
    ring

theorem ramps_suffix (times : List K) (hs : Increasing times) (f : Nat → K) (t : K) (n m : Nat)
    (hnm : n ≤ m) (hm : m < times.length) (ht : t ≤ times.getD n 0) :
    ∑ k ∈ Finset.Ico n m, (f (k + 1) - f k) / (times.getD (k + 1) 0 - times.getD k 0) *
      (max (times.getD k 0) (min t (times.getD (k + 1) 0)) - times.getD k 0) = 0 := by
  refine Finset.sum_eq_zero fun k hk => ?_
  rw [Finset.mem_Ico] at hk
  have h1 := hs.le times n k hk.1 (by omega)
  rw [max_eq_left (le_trans (min_le_left _ _) (le_trans ht h1)), sub_self, mul_zero]

theorem interp_eq_ramps (times : List K) (hs : Increasing times) (hn : times ≠ []) (f : Nat → K) (t : K) :
    interp times f t = some (ramps times f t) := by
  have hl : 0 < times.length := List.length_pos_of_ne_nil hn
  unfold ramps
  by_cases h0 : t ≤ times.getD 0 0
  · rw [(C45_clamped times f t hn).1 h0, ← Nat.Ico_zero_eq_range,
      ramps_suffix times hs f t 0 _ (Nat.zero_le _) (by omega) h0, add_zero]
  · by_cases h1 : times.getD (times.length - 1) 0 < t
    · rw [(C45_clamped times f t hn).2 h1 (not_le.1 h0),
        ramps_prefix times hs f t _ (by omega) h1.le]
    · obtain ⟨k, hk1, -, a, b⟩ := search_hit times t (not_le.1 h0) (not_lt.1 h1)
      rw [C45_linear times hs f k (by omega) t a.le b]
      have hd : times.getD (k + 1) 0 - times.getD k 0 ≠ 0 := sub_ne_zero.2 (ne_of_gt (hs k (by omega)))
      rw [← Finset.sum_range_add_sum_Ico _ (show k + 1 ≤ times.length - 1 by omega),
        ramps_suffix times hs f t (k + 1) _ (by omega) (by omega) b, add_zero, Finset.sum_range_succ,
        ← add_assoc, ramps_prefix times hs f t k (by omega) a.le, min_eq_left b, max_eq_right a.le]
      congr 1
      field_simp
      ring

end

/-- **C45.**  Continuous in time. -/
theorem C45_continuous (times : List ℝ) (hs : Increasing times) (hn : times ≠ []) (f : Nat → ℝ) :
    Continuous fun t => (interp times f t).getD 0 := by
  have : (fun t => (interp times f t).getD 0) = ramps times f := by
    funext t
    rw [interp_eq_ramps times hs hn]
    rfl
  rw [this]
  unfold ramps
  refine continuous_const.add (continuous_finset_sum _ fun k _ => ?_)
  exact continuous_const.mul
    ((continuous_const.max (continuous_id.min continuous_const)).sub continuous_const)

/-- **C45.**  Every entry of the material is interpolated with the same weights. -/
theorem C45_material (M : KMat K) (tab : Nat → KMat K) (w : Weights K) (m g h i : Nat) :
    (mix M tab w).st m g = w.apply (fun k => (tab k).st m g) ∧
    (mix M tab w).sa m g = w.apply (fun k => (tab k).sa m g) ∧
    (mix M tab w).sf m g = w.apply (fun k => (tab k).sf m g) ∧
    (mix M tab w).nu m g = w.apply (fun k => (tab k).nu m g) ∧
    (mix M tab w).dc m g = w.apply (fun k => (tab k).dc m g) ∧
    (mix M tab w).chi m g = w.apply (fun k => (tab k).chi m g) ∧
    (mix M tab w).ss m g h = w.apply (fun k => (tab k).ss m g h) ∧
    (mix M tab w).beta m i = w.apply (fun k => (tab k).beta m i) ∧
    (mix M tab w).chid m i g = w.apply (fun k => (tab k).chid m i g) :=
  ⟨rfl, rfl, rfl, rfl, rfl, rfl, rfl, rfl, rfl⟩

/-- A material with every entry zero except fission data. -/
def bare (sf nu : K) : KMat K :=
  ⟨fun _ _ => 0, fun _ _ => 0, fun _ _ => sf, fun _ _ => nu, fun _ _ => nu * sf, fun _ _ => 0,
    fun _ _ => 0, fun _ _ _ => 0, fun _ => 1, fun _ => 1, fun _ _ => 0, fun _ _ _ => 0⟩

/-- The claim for the fission production cross section the solver uses. -/
def C45ProductionClaim : Prop :=
  ∀ (times : List ℚ) (tab : Nat → KMat ℚ) (t : ℚ) (w : Weights ℚ), Increasing times →
    weights times t = some w → (∀ k m g, (tab k).nsf m g = (tab k).nu m g * (tab k).sf m g) →
    ∀ m g, (setNsf (mix (tab 0) tab w)).nsf m g = w.apply fun k => (tab k).nsf m g

/-- Production is the product of two interpolations, not the interpolation of the products: halfway
    between 1 times 1 and 3 times 3 it is 4, not 5. -/
theorem C45_production_wrong : ¬ C45ProductionClaim := by
  intro h
  have := h [0, 2] (fun k => if k = 0 then bare 1 1 else bare 3 3) 1 ⟨0, 1, 1 / 2, 1 / 2⟩
    (by intro k hk; have : k = 0 := by simp at hk; omega
        subst this; decide +kernel) (by decide +kernel)
    (by intro k m g; by_cases hk : k = 0 <;> simp [hk, bare]) 0 0
  revert this
  decide +kernel

example : Increasing ([0, 1, 3] : List ℚ) ∧
    interp ([0, 1, 3] : List ℚ) (fun k => if k = 0 then 5 else if k = 1 then 7 else 3) 2 = some 5 := by
  refine ⟨?_, by decide +kernel⟩
  intro k hk
  have : k = 0 ∨ k = 1 := by simp at hk; omega
  rcases this with rfl | rfl <;> decide +kernel

/-! ## C46 -/

section
variable [CharZero K]

/-- The backward difference of order `n` of the values `y j` at `j` steps before now. -/
def difference (n : Nat) (y : Nat → K) : K :=
  bdf n 0 * y 0 - ∑ j ∈ Finset.range n, bdf n (j + 1) * y (j + 1)

open Polynomial in
/-- **C46.**  Exact on polynomials of degree at most the order. -/
theorem C46_exact (n : Nat) (h1 : 1 ≤ n) (h6 : n ≤ 6) (p : K[X]) (hp : p.natDegree ≤ n) (t dt : K)
    (hdt : dt ≠ 0) :
    difference n (fun j => p.eval (t - j * dt)) / dt = (derivative p).eval t := by
  have hc : (derivative p).eval t = (taylor t p).coeff 1 := (taylor_coeff_one t p).symm
  have he : ∀ s : K, p.eval (t - s) =
      ∑ k ∈ Finset.range (n + 1), (taylor t p).coeff k * (-s) ^ k := by
    intro s
    rw [← Polynomial.eval_eq_sum_range' (n := n + 1)
      (by rw [natDegree_taylor]; omega), taylor_eval]
    congr 1
    ring
  rw [hc, div_eq_iff hdt]
  unfold difference
  simp only [he]
  generalize (taylor t p).coeff = c
  interval_cases n <;>
  · simp [Finset.sum_range_succ, bdf, bdfRows]
    try field_simp
    try ring

open Polynomial in
/-- **C46.**  Not exact one degree further: the power `n + 1` is missed, whatever the step. -/
theorem C46_sharp (n : Nat) (h1 : 1 ≤ n) (h6 : n ≤ 6) (t dt : K) (hdt : dt ≠ 0) :
    difference n (fun j => ((X - C t) ^ (n + 1) : K[X]).eval (t - j * dt)) / dt ≠
      (derivative ((X - C t) ^ (n + 1) : K[X])).eval t := by
  have hd : (derivative ((X - C t) ^ (n + 1) : K[X])).eval t = 0 := by
    rw [derivative_pow]
    simp
    right; omega
  rw [hd]
  refine div_ne_zero ?_ hdt
  unfold difference
  interval_cases n <;>
  · simp [Finset.sum_range_succ, bdf, bdfRows]
    ring_nf
    simpa using hdt

/-- **C46.**  The leading coefficient is the sum of the others and positive. -/
theorem C46_sum (n : Nat) (h1 : 1 ≤ n) (h6 : n ≤ 6) :
    (bdf n 0 : K) = ∑ j ∈ Finset.range n, bdf n (j + 1) := by
  interval_cases n <;>
  · simp [Finset.sum_range_succ, bdf, bdfRows]
    try norm_num

end

theorem bdf_pos [LinearOrder K] [IsStrictOrderedRing K] (n : Nat) (h1 : 1 ≤ n) (h6 : n ≤ 6) :
    0 < (bdf n 0 : K) := by
  interval_cases n <;>
  · simp [bdf, bdfRows]
    try positivity

/-! ## C47 -/

theorem foldl_sum (n : Nat) (v : Nat → K) (s : K) :
    (List.range n).foldl (fun s i => s + v i) s = s + ∑ i ∈ Finset.range n, v i := by
  induction n with
  | zero => simp
  | succ n ih =>
    rw [List.range_succ, List.foldl_append, ih, Finset.sum_range_succ]
    simp only [List.foldl_cons, List.foldl_nil]
    ring

theorem updatePrecursor_eq (order : Nat) (dt l b fd : K) (C : Nat → K) :
    updatePrecursor order dt l b fd C = dt / (bdf order 0 + dt * l) * b * fd +
      ∑ k ∈ Finset.range order, dt / (bdf order 0 + dt * l) / dt * bdf order (k + 1) * C k := by
  rw [updatePrecursor, foldl_sum, zero_add]

/-- **C47.**  The new concentration satisfies the implicit balance. -/
theorem C47_balance (order : Nat) (dt l b fd : K) (C : Nat → K) (hdt : dt ≠ 0)
    (hd : bdf order 0 + dt * l ≠ 0) :
    (bdf order 0 * updatePrecursor order dt l b fd C -
      ∑ k ∈ Finset.range order, bdf order (k + 1) * C k) / dt =
    b * fd - l * updatePrecursor order dt l b fd C := by
  have h : updatePrecursor order dt l b fd C * (bdf order 0 + dt * l) =
      dt * (b * fd) + ∑ k ∈ Finset.range order, bdf order (k + 1) * C k := by
    rw [updatePrecursor_eq, add_mul, Finset.sum_mul]
    congr 1
    · field_simp
    · refine Finset.sum_congr rfl fun k _ => ?_
      field_simp
  rw [div_eq_iff hdt]
  linear_combination h

/-- **C47.**  It is the only one. -/
theorem C47_unique (order : Nat) (dt l b fd c : K) (C : Nat → K) (hdt : dt ≠ 0)
    (hd : bdf order 0 + dt * l ≠ 0)
    (h : (bdf order 0 * c - ∑ k ∈ Finset.range order, bdf order (k + 1) * C k) / dt = b * fd - l * c) :
    c = updatePrecursor order dt l b fd C := by
  have h' := C47_balance order dt l b fd C hdt hd
  rw [div_eq_iff hdt] at h h'
  have : (c - updatePrecursor order dt l b fd C) * (bdf order 0 + dt * l) = 0 := by
    linear_combination h - h'
  rcases mul_eq_zero.1 this with h | h
  · exact sub_eq_zero.1 h
  · exact absurd h hd

/-- **C47.**  Equilibrium is kept. -/
theorem C47_equilibrium [CharZero K] (order : Nat) (h1 : 1 ≤ order) (h6 : order ≤ 6) (dt l b fd : K)
    (hl : l ≠ 0) (hdt : dt ≠ 0) (hd : bdf order 0 + dt * l ≠ 0) :
    updatePrecursor order dt l b fd (fun _ => initPrecursor l b fd) = initPrecursor l b fd := by
  refine (C47_unique order dt l b fd _ _ hdt hd ?_).symm
  rw [← Finset.sum_mul, ← C46_sum order h1 h6, sub_self, zero_div, initPrecursor]
  field_simp
  ring

/-- **C47.**  The concentrations set at the start are the steady ones. -/
theorem C47_initial (l b fd : K) (hl : l ≠ 0) : l * initPrecursor l b fd = b * fd := by
  rw [initPrecursor]; field_simp

/-- **C47.**  First order keeps concentrations nonnegative. -/
theorem C47_nonneg [LinearOrder K] [IsStrictOrderedRing K] (dt l b fd : K) (C : Nat → K)
    (hdt : 0 < dt) (hl : 0 ≤ l) (hb : 0 ≤ b) (hf : 0 ≤ fd) (hC : 0 ≤ C 0) :
    0 ≤ updatePrecursor 1 dt l b fd C := by
  have h1 : (bdf 1 0 : K) = 1 := by simp [bdf, bdfRows]
  have h2 : (bdf 1 1 : K) = 1 := by simp [bdf, bdfRows]
  rw [updatePrecursor_eq, Finset.sum_range_one, h1, zero_add, h2]
  have : 0 ≤ dt / (1 + dt * l) := div_nonneg hdt.le (by positivity)
  positivity

/-- At second order a history of nonnegative concentrations can give a negative one. -/
theorem C47_second_order_negative :
    ∃ C : Nat → ℚ, (∀ j, 0 ≤ C j) ∧ updatePrecursor 2 1 1 0 0 C < 0 :=
  ⟨fun j => if j = 1 then 1 else 0, fun j => by positivity, by decide +kernel⟩

example : updatePrecursor 2 (1 / 10) (1 / 2) (1 / 100) 7 (fun _ => initPrecursor (1 / 2) (1 / 100) 7) =
    (7 / 50 : ℚ) := by decide +kernel

/-! ## C59 -/

theorem betaTotal_eq (M : KMat K) (np m : Nat) : M.betaTotal np m = ∑ i ∈ Finset.range np, M.beta m i := by
  rw [KMat.betaTotal, foldl_sum, zero_add]

theorem foldl_terms (n : Nat) (F : K → Nat → K) (v : Nat → K) (h : ∀ s j, F s j = s + v j) (s : K) :
    (List.range n).foldl F s = s + ∑ j ∈ Finset.range n, v j := by
  rw [← foldl_sum]
  congr 1
  funext s j
  exact h s j

theorem momentSource_eq (M : KMat K) (np order : Nat) (dt : K) (m g : Nat) (phi : Nat → K)
    (C : Nat → Nat → K) :
    momentSource M np order dt m g phi C =
      ∑ j ∈ Finset.range order, (bdf order (j + 1) / dt / M.velocity g * phi j +
        ∑ i ∈ Finset.range np, bdf order (j + 1) * M.lambda i / (bdf order 0 + dt * M.lambda i) *
          M.chid m i g * C j i) := by
  rw [momentSource, foldl_terms order _ (fun j => bdf order (j + 1) / dt / M.velocity g * phi j +
        ∑ i ∈ Finset.range np, bdf order (j + 1) * M.lambda i / (bdf order 0 + dt * M.lambda i) *
          M.chid m i g * C j i), zero_add]
  intro s j
  rw [momentTerm, foldl_sum, add_assoc]

theorem discreteSource_eq (M : KMat K) (np order : Nat) (dt norm : K) (m g : Nat) (psi : Nat → K)
    (C : Nat → Nat → K) :
    discreteSource M np order dt norm m g psi C =
      ∑ j ∈ Finset.range order, (bdf order (j + 1) / dt / M.velocity g * psi j +
        norm * ∑ i ∈ Finset.range np, bdf order (j + 1) * M.lambda i / (bdf order 0 + dt * M.lambda i) *
          M.chid m i g * C j i) := by
  rw [discreteSource, foldl_terms order _ (fun j => bdf order (j + 1) / dt / M.velocity g * psi j +
        norm * ∑ i ∈ Finset.range np, bdf order (j + 1) * M.lambda i / (bdf order 0 + dt * M.lambda i) *
          M.chid m i g * C j i), zero_add]
  intro s j
  rw [discreteTerm, foldl_sum, add_assoc, Finset.mul_sum]
  congr 2
  refine Finset.sum_congr rfl fun i _ => ?_
  ring

/-- Delayed emission with updated concentrations, split into the part from fission now and the part from
    stored concentrations. -/
theorem delayed_split (order : Nat) (dt l b fd x : K) (C : Nat → K) (hdt : dt ≠ 0) :
    l * x * updatePrecursor order dt l b fd C =
      l * x * dt * b / (bdf order 0 + dt * l) * fd +
        ∑ j ∈ Finset.range order, bdf order (j + 1) * l / (bdf order 0 + dt * l) * x * C j := by
  rw [updatePrecursor_eq, mul_add, Finset.mul_sum]
  congr 1
  · ring
  · refine Finset.sum_congr rfl fun j _ => ?_
    have : dt / (bdf order 0 + dt * l) / dt = 1 / (bdf order 0 + dt * l) := by
      rw [div_div, mul_comm, ← div_div, div_self hdt]
    rw [this]
    ring

/-- The materials of a step: with and without the synthetic parts. -/
def stepMat (np order : Nat) (dt k : K) (synthetic : Bool) (M : KMat K) : KMat K :=
  setNsf (adjust np (bdf order 0) dt k synthetic M)

theorem density_same (np order : Nat) (dt k : K) (M : KMat K) (G m : Nat) (phi : Nat → K) :
    fissionDensity (stepMat np order dt k true M) G m phi =
      fissionDensity (stepMat np order dt k false M) G m phi := rfl

/-- **C59.**  In every cell and group, the synthetic problem holds exactly when the coupled equation with
    the updated precursors does.  `L` stands for everything the two have in common (streaming, scattering,
    external sources); `phi j` and `C j` are the solutions `j + 1` steps ago. -/
theorem C59_equation (np order : Nat) (dt k : K) (hdt : dt ≠ 0) (M : KMat K) (G m g : Nat)
    (L : K) (phi : Nat → K) (old : Nat → Nat → K) (C : Nat → Nat → K) :
    let S := stepMat np order dt k true M
    let N := stepMat np order dt k false M
    let F := fissionDensity N G m phi
    (L + S.st m g * phi g =
      S.chi m g * fissionDensity S G m phi + momentSource S np order dt m g (fun j => old j g) C) ↔
    ((bdf order 0 * phi g - ∑ j ∈ Finset.range order, bdf order (j + 1) * old j g) /
        (M.velocity g * dt) + L + M.st m g * phi g =
      (1 - ∑ i ∈ Finset.range np, M.beta m i) * M.chi m g * F +
        ∑ i ∈ Finset.range np, M.lambda i * M.chid m i g *
          updatePrecursor order dt (M.lambda i) (M.beta m i) F (fun j => C j i)) := by
  intro S N F
  have e0 : fissionDensity S G m phi = F := density_same np order dt k M G m phi
  have e1 : S.st m g = M.st m g + bdf order 0 / (M.velocity g * dt) := rfl
  have e2 : S.chi m g = (1 - ∑ i ∈ Finset.range np, M.beta m i) * M.chi m g +
      ∑ i ∈ Finset.range np, M.lambda i * M.chid m i g * dt * M.beta m i /
        (bdf order 0 + dt * M.lambda i) := by
    show (List.range np).foldl _ _ = _
    rw [foldl_sum, betaTotal_eq]
  have e3 : momentSource S np order dt m g (fun j => old j g) C =
      (∑ j ∈ Finset.range order, bdf order (j + 1) * old j g) / (M.velocity g * dt) +
      ∑ i ∈ Finset.range np, ∑ j ∈ Finset.range order,
        bdf order (j + 1) * M.lambda i / (bdf order 0 + dt * M.lambda i) * M.chid m i g * C j i := by
    rw [momentSource_eq, Finset.sum_add_distrib, Finset.sum_comm (s := Finset.range np), Finset.sum_div]
    congr 1
    refine Finset.sum_congr rfl fun j _ => ?_
    show bdf order (j + 1) / dt / M.velocity g * old j g = _
    rw [div_div, mul_comm dt]
    ring
  have e4 : ∑ i ∈ Finset.range np, M.lambda i * M.chid m i g *
        updatePrecursor order dt (M.lambda i) (M.beta m i) F (fun j => C j i) =
      (∑ i ∈ Finset.range np, M.lambda i * M.chid m i g * dt * M.beta m i /
        (bdf order 0 + dt * M.lambda i)) * F +
      ∑ i ∈ Finset.range np, ∑ j ∈ Finset.range order,
        bdf order (j + 1) * M.lambda i / (bdf order 0 + dt * M.lambda i) * M.chid m i g * C j i := by
    rw [Finset.sum_mul, ← Finset.sum_add_distrib]
    refine Finset.sum_congr rfl fun i _ => ?_
    exact delayed_split order dt _ _ _ _ _ hdt
  rw [e0, e1, e2, e3, e4]
  constructor <;> intro h <;> linear_combination h

/-- **C59.**  The same for the angular equation with the discrete source, isotropic emission being
    multiplied by `norm`. -/
theorem C59_angular (np order : Nat) (dt k norm : K) (hdt : dt ≠ 0) (M : KMat K) (G m g : Nat)
    (L psi : K) (phi : Nat → K) (old : Nat → K) (C : Nat → Nat → K) :
    let S := stepMat np order dt k true M
    let N := stepMat np order dt k false M
    let F := fissionDensity N G m phi
    (L + S.st m g * psi =
      norm * (S.chi m g * fissionDensity S G m phi) + discreteSource S np order dt norm m g old C) ↔
    ((bdf order 0 * psi - ∑ j ∈ Finset.range order, bdf order (j + 1) * old j) /
        (M.velocity g * dt) + L + M.st m g * psi =
      norm * ((1 - ∑ i ∈ Finset.range np, M.beta m i) * M.chi m g * F +
        ∑ i ∈ Finset.range np, M.lambda i * M.chid m i g *
          updatePrecursor order dt (M.lambda i) (M.beta m i) F (fun j => C j i))) := by
  intro S N F
  have e0 : fissionDensity S G m phi = F := density_same np order dt k M G m phi
  have e1 : S.st m g = M.st m g + bdf order 0 / (M.velocity g * dt) := rfl
  have e2 : S.chi m g = (1 - ∑ i ∈ Finset.range np, M.beta m i) * M.chi m g +
      ∑ i ∈ Finset.range np, M.lambda i * M.chid m i g * dt * M.beta m i /
        (bdf order 0 + dt * M.lambda i) := by
    show (List.range np).foldl _ _ = _
    rw [foldl_sum, betaTotal_eq]
  have e3 : discreteSource S np order dt norm m g old C =
      (∑ j ∈ Finset.range order, bdf order (j + 1) * old j) / (M.velocity g * dt) +
      norm * ∑ i ∈ Finset.range np, ∑ j ∈ Finset.range order,
        bdf order (j + 1) * M.lambda i / (bdf order 0 + dt * M.lambda i) * M.chid m i g * C j i := by
    rw [discreteSource_eq, Finset.sum_add_distrib, Finset.sum_comm (s := Finset.range np), Finset.sum_div,
      Finset.mul_sum]
    congr 1
    refine Finset.sum_congr rfl fun j _ => ?_
    show bdf order (j + 1) / dt / M.velocity g * old j = _
    rw [div_div, mul_comm dt]
    ring
  have e4 : ∑ i ∈ Finset.range np, M.lambda i * M.chid m i g *
        updatePrecursor order dt (M.lambda i) (M.beta m i) F (fun j => C j i) =
      (∑ i ∈ Finset.range np, M.lambda i * M.chid m i g * dt * M.beta m i /
        (bdf order 0 + dt * M.lambda i)) * F +
      ∑ i ∈ Finset.range np, ∑ j ∈ Finset.range order,
        bdf order (j + 1) * M.lambda i / (bdf order 0 + dt * M.lambda i) * M.chid m i g * C j i := by
    rw [Finset.sum_mul, ← Finset.sum_add_distrib]
    refine Finset.sum_congr rfl fun i _ => ?_
    exact delayed_split order dt _ _ _ _ _ hdt
  rw [e0, e1, e2, e3, e4]
  constructor <;> intro h <;> linear_combination h

/-- **C59.**  What `update` returns is that material, for any subclass, and it throws exactly when a decay
    constant or velocity is not positive. -/
theorem C59_update [LinearOrder K] (np G order : Nat) (dt k : K) (s : Bool) (impl : KMat K → KMat K)
    (M : KMat K) :
    update np G order dt k s impl M =
      if (∀ i, i < np → 0 < (impl M).lambda i) ∧ (∀ g, g < G → 0 < (impl M).velocity g)
      then some (stepMat np order dt k s (impl M)) else none := by
  have hl : (adjust np (bdf order 0) dt k s (impl M)).lambda = (impl M).lambda := by
    cases s <;> rfl
  have hv : (adjust np (bdf order 0) dt k s (impl M)).velocity = (impl M).velocity := by
    cases s <;> rfl
  rw [update, finalize, hl, hv]
  rfl

example : ∃ M : KMat ℚ, update 1 1 1 (1 / 10) 1 true (wrapped M) M =
      some (stepMat 1 1 (1 / 10) 1 true M) :=
  ⟨bare 1 2, by rw [C59_update, if_pos]; · rfl
                · exact ⟨fun _ _ => by norm_num [wrapped, bare], fun _ _ => by norm_num [wrapped, bare]⟩⟩

/-! ## C73 -/

/-- **C73.**  A half step by the first order formula followed by extrapolation is the midpoint rule for
    the precursors. -/
theorem C73_midpoint (dt l b fd c0 : K) (h2 : (2 : K) ≠ 0) (hdt : dt ≠ 0)
    (hd : 1 + 1 / 2 * dt * l ≠ 0) :
    let c1 := extrap (updatePrecursor 1 (1 / 2 * dt) l b fd (fun _ => c0)) c0
    (c1 - c0) / dt = b * fd - l * ((c0 + c1) / 2) := by
  intro c1
  have hb0 : (bdf 1 0 : K) = 1 := by simp [bdf, bdfRows]
  have hb1 : (bdf 1 1 : K) = 1 := by simp [bdf, bdfRows]
  have hh : (1 / 2 * dt : K) ≠ 0 := mul_ne_zero (one_div_ne_zero h2) hdt
  have h := C47_balance 1 (1 / 2 * dt) l b fd (fun _ => c0) hh (by rw [hb0]; exact hd)
  rw [hb0, Finset.sum_range_one, zero_add, hb1] at h
  have e : c1 = 2 * updatePrecursor 1 (1 / 2 * dt) l b fd (fun _ => c0) - c0 := rfl
  generalize updatePrecursor 1 (1 / 2 * dt) l b fd (fun _ => c0) = x at h e
  rw [e]
  have e2 : (c0 + (2 * x - c0)) / 2 = x := by field_simp; ring
  rw [e2, ← h]
  field_simp
  ring

/-- **C73.**  The same for any quantity: if the half step solves `(x - x0) / (dt/2) = r`, the extrapolated
    value satisfies `(x1 - x0) / dt = r` and `x` is the mean of the ends. -/
theorem C73_extrapolate (dt x x0 r : K) (h2 : (2 : K) ≠ 0) (hdt : dt ≠ 0)
    (h : (x - x0) / (1 / 2 * dt) = r) :
    (extrap x x0 - x0) / dt = r ∧ x = (x0 + extrap x x0) / 2 := by
  unfold extrap
  constructor
  · rw [← h]; field_simp; ring
  · field_simp; ring

/-- **C73.**  The scalar flux rebuilt from extrapolated angular fluxes is the extrapolated scalar flux. -/
theorem C73_angular (no na : Nat) (w : Nat → K) (psi psi0 : Nat → Nat → K) :
    extrapPhi no na w psi psi0 =
      extrap (∑ o ∈ Finset.range no, ∑ a ∈ Finset.range na, w a * psi o a)
        (∑ o ∈ Finset.range no, ∑ a ∈ Finset.range na, w a * psi0 o a) := by
  unfold extrapPhi
  simp only [foldl_sum]
  rw [zero_add, extrap, Finset.mul_sum, ← Finset.sum_sub_distrib]
  refine Finset.sum_congr rfl fun o _ => ?_
  rw [Finset.mul_sum, ← Finset.sum_sub_distrib]
  refine Finset.sum_congr rfl fun a _ => ?_
  rw [extrap]; ring

example : extrap (updatePrecursor 1 (1 / 2 * 1) (1 / 2) (1 / 10) 5 (fun _ => 2)) (2 : ℚ) = 8 / 5 := by
  decide +kernel

/-! ## C74 -/

/-- **C74.**  Physics variables satisfy the implicit backward-difference equation. -/
theorem C74_balance (order : Nat) (dt rhs : K) (P : Nat → K) (hdt : dt ≠ 0)
    (h0 : (bdf order 0 : K) ≠ 0) :
    (bdf order 0 * updatePhysics order dt rhs P - ∑ k ∈ Finset.range order, bdf order (k + 1) * P k) / dt =
      rhs := by
  rw [updatePhysics, foldl_sum, mul_div_cancel₀ _ h0]
  field_simp
  ring

/-- **C74.**  A steady variable with no driving term stays. -/
theorem C74_steady [CharZero K] (order : Nat) (h1 : 1 ≤ order) (h6 : order ≤ 6) (dt c : K)
    (h0 : (bdf order 0 : K) ≠ 0) : updatePhysics order dt 0 (fun _ => c) = c := by
  rw [updatePhysics, foldl_sum, ← Finset.sum_mul, ← C46_sum order h1 h6]
  field_simp
  ring

example : updatePhysics 2 (1 / 10) 3 (fun k => if k = 0 then 1 else 4 / 5) = (19 / 15 : ℚ) := by
  decide +kernel

/-! ## C75 -/

/-- The subclasses in the library: the data they set do not depend on the data held before, except what
    they never change (velocities and decay constants) and the production, which `finalize` resets. -/
def Resets (impl : KMat K → KMat K) : Prop :=
  ∀ M N : KMat K, M.velocity = N.velocity → M.lambda = N.lambda →
    setNsf (impl M) = setNsf (impl N) ∧ (impl M).velocity = M.velocity ∧ (impl M).lambda = M.lambda

theorem linear_resets (tab : Nat → KMat K) (w : Weights K) : Resets (fun M => mix M tab w) := by
  intro M N h1 h2
  refine ⟨?_, rfl, rfl⟩
  simp only [setNsf, mix, h1, h2]

theorem setNsf_adjust (np : Nat) (a0 dt k : K) (s : Bool) (M N : KMat K) (h : setNsf M = setNsf N) :
    setNsf (adjust np a0 dt k s M) = setNsf (adjust np a0 dt k s N) := by
  have key : ∀ M : KMat K, setNsf (adjust np a0 dt k s M) = setNsf (adjust np a0 dt k s (setNsf M)) := by
    intro M; cases s <;> rfl
  rw [key M, key N, h]

/-- **C75.**  Updating again gives what the last update alone would have given: nothing accumulates, and
    an ordinary update after a synthetic one removes the synthetic parts. -/
theorem C75_no_accumulation [LinearOrder K] (np G o1 o2 : Nat) (dt1 dt2 k : K) (s1 s2 : Bool)
    (impl1 impl2 : KMat K → KMat K) (hr1 : Resets impl1) (hr2 : Resets impl2) (M M1 : KMat K)
    (h1 : update np G o1 dt1 k s1 impl1 M = some M1) :
    update np G o2 dt2 k s2 impl2 M1 = update np G o2 dt2 k s2 impl2 M := by
  rw [C59_update] at h1
  split at h1
  · have e := (Option.some.inj h1).symm
    have hv : M1.velocity = M.velocity := by
      rw [e, ← (hr1 M M rfl rfl).2.1]; cases s1 <;> rfl
    have hl : M1.lambda = M.lambda := by
      rw [e, ← (hr1 M M rfl rfl).2.2]; cases s1 <;> rfl
    obtain ⟨r1, r2, r3⟩ := hr2 M1 M hv hl
    obtain ⟨-, q2, q3⟩ := hr2 M M rfl rfl
    rw [C59_update, C59_update, r2, r3, q2, q3, hv, hl]
    congr 2
    exact setNsf_adjust _ _ _ _ _ _ _ r1
  · exact absurd h1 (by simp)

/-- **C75.**  A wrapped time-independent material likewise. -/
theorem C75_wrapped [LinearOrder K] (np G o1 o2 : Nat) (dt1 dt2 k : K) (s1 s2 : Bool) (km M M1 : KMat K)
    (_ : update np G o1 dt1 k s1 (wrapped km) M = some M1) :
    update np G o2 dt2 k s2 (wrapped km) M1 = update np G o2 dt2 k s2 (wrapped km) M := rfl

example : Resets (fun M : KMat ℚ => mix M (fun _ => bare 1 2) ⟨0, 0, 1, 0⟩) := linear_resets _ _

/-! ## C77 -/

theorem integrate_eq (no na : Nat) (w : Nat → K) (q : Nat → Nat → K) :
    integrate no na w q = ∑ o ∈ Finset.range no, ∑ a ∈ Finset.range na, q o a * w a := by
  unfold integrate
  simp only [foldl_sum, zero_add]

/-- **C77.**  When the stored scalar fluxes are the integrals of the stored angular fluxes and the weights
    times `norm` sum to one, the discrete synthetic source integrates to the moment source. -/
theorem C77_integral (M : KMat K) (np order : Nat) (dt norm : K) (m g no na : Nat) (w : Nat → K)
    (psi : Nat → Nat → Nat → K) (phi : Nat → K) (C : Nat → Nat → K)
    (hphi : ∀ j, phi j = ∑ o ∈ Finset.range no, ∑ a ∈ Finset.range na, psi j o a * w a)
    (hw : norm * ∑ _o ∈ Finset.range no, ∑ a ∈ Finset.range na, w a = 1) :
    integrate no na w (fun o a => discreteSource M np order dt norm m g (fun j => psi j o a) C) =
      momentSource M np order dt m g phi C := by
  rw [integrate_eq, momentSource_eq]
  simp only [discreteSource_eq, Finset.sum_mul]
  have swap : ∀ F : Nat → Nat → Nat → K,
      ∑ o ∈ Finset.range no, ∑ a ∈ Finset.range na, ∑ j ∈ Finset.range order, F o a j =
      ∑ j ∈ Finset.range order, ∑ o ∈ Finset.range no, ∑ a ∈ Finset.range na, F o a j := by
    intro F
    rw [Finset.sum_comm (s := Finset.range order)]
    refine Finset.sum_congr rfl fun o _ => ?_
    rw [Finset.sum_comm]
  rw [swap]
  refine Finset.sum_congr rfl fun j _ => ?_
  generalize (∑ i ∈ Finset.range np, bdf order (j + 1) * M.lambda i / (bdf order 0 + dt * M.lambda i) *
          M.chid m i g * C j i) = D
  rw [hphi j, Finset.mul_sum]
  have : D = ∑ o ∈ Finset.range no, ∑ a ∈ Finset.range na, norm * D * w a := by
    have h := congrArg (fun x => x * D) hw
    simp only [one_mul] at h
    refine h.symm.trans ?_
    rw [Finset.mul_sum, Finset.sum_mul]
    refine Finset.sum_congr rfl fun o _ => ?_
    rw [Finset.mul_sum, Finset.sum_mul]
    refine Finset.sum_congr rfl fun a _ => ?_
    ring
  conv_rhs => rw [this]
  rw [← Finset.sum_add_distrib]
  refine Finset.sum_congr rfl fun o _ => ?_
  rw [Finset.mul_sum, ← Finset.sum_add_distrib]
  refine Finset.sum_congr rfl fun a _ => ?_
  ring

example : integrate 2 1 (fun _ => 1) (fun o _ => discreteSource (bare 1 2 : KMat ℚ) 0 1 (1 / 2) (1 / 2) 0 0
    (fun _ => if o = 0 then 3 else 1) (fun _ _ => 0)) = 8 := by decide +kernel

end Detran.Kin
