import Verif.Model.QuadTables
import Verif.Props.QuadGauss
import Mathlib.Analysis.SpecialFunctions.Integrals.Basic
import Mathlib.Analysis.Real.Pi.Bounds

/-!
# What the tabulated quadrature sets integrate, and which set the input names

The tables have finitely many orders and the code rejects every other, so statements about all orders
are settled order by order; the integrals they are compared with are the exact ones.
-/

namespace Detran.QuadTables

open Real

/-! ## Level-symmetric sets -/

/-- The set exists exactly for one to twelve levels (orders two to twenty-four). -/
theorem C89_supported (np : Nat) : (levelSymmetric np).isSome ↔ 1 ≤ np ∧ np ≤ 12 := by
  constructor
  · intro h
    by_contra hn
    have : level np = none := by
      unfold level
      split <;> first | omega | rfl
    simp [levelSymmetric, this] at h
  · rintro ⟨h1, h2⟩
    interval_cases np <;> decide +kernel

theorem level_cases {P : Nat → List Pt → Prop} {np : Nat} {l : List Pt}
    (h : levelSymmetric np = some l)
    (h' : ∀ n ∈ List.range 13, ∀ s ∈ levelSymmetric n, P n s) : P np l := by
  have h1 := (C89_supported np).1 (by rw [h]; rfl)
  exact h' np (List.mem_range.2 (by omega)) l (by rw [h]; rfl)

/-- How many directions an octant holds. -/
theorem C89_count {np : Nat} {l : List Pt} (h : levelSymmetric np = some l) :
    2 * l.length = np * (np + 1) :=
  level_cases (P := fun n s => 2 * s.length = n * (n + 1)) h (by decide +kernel)

/-- Every direction is a real unit vector: the radicand of its third cosine is positive. -/
theorem C89_unit {np : Nat} {l : List Pt} (h : levelSymmetric np = some l) :
    ∀ p ∈ l, 0 < p.mu ∧ 0 < p.eta ∧ 0 < p.xi2 ∧ p.mu ^ 2 + p.eta ^ 2 + p.xi2 = 1 :=
  level_cases (P := fun _ s => ∀ p ∈ s, 0 < p.mu ∧ 0 < p.eta ∧ 0 < p.xi2 ∧
    p.mu ^ 2 + p.eta ^ 2 + p.xi2 = 1) h (by decide +kernel)

/-- The set does not prefer an axis: exchanging μ and η, or turning (μ, η, ξ) into (η, ξ, μ), gives a
    direction of the set again (the turned one up to the last digit of the table) with the same weight. -/
theorem C89_symmetric {np : Nat} {l : List Pt} (h : levelSymmetric np = some l) :
    ∀ p ∈ l, (∃ q ∈ l, q.mu = p.eta ∧ q.eta = p.mu ∧ q.w = p.w) ∧
      ∃ q ∈ l, q.mu = p.eta ∧ |q.eta ^ 2 - p.xi2| ≤ 1 / 10 ^ 23 ∧
        |q.xi2 - p.mu ^ 2| ≤ 1 / 10 ^ 23 ∧ q.w = p.w :=
  level_cases (P := fun _ s => ∀ p ∈ s, (∃ q ∈ s, q.mu = p.eta ∧ q.eta = p.mu ∧ q.w = p.w) ∧
      ∃ q ∈ s, q.mu = p.eta ∧ |q.eta ^ 2 - p.xi2| ≤ 1 / 10 ^ 23 ∧
        |q.xi2 - p.mu ^ 2| ≤ 1 / 10 ^ 23 ∧ q.w = p.w) h (by decide +kernel)

/-- Every even power of a direction cosine up to the order of the set has the mean 1/(2k+1) of the
    sphere. -/
theorem C89_moments {np : Nat} {l : List Pt} (h : levelSymmetric np = some l) (k : Nat) (hk : k ≤ np) :
    |(l.map fun p => p.w * p.mu ^ (2 * k)).sum - 1 / (2 * (k : ℚ) + 1)| ≤ 1 / 10 ^ 23 :=
  level_cases (P := fun n s => ∀ k ∈ List.range (n + 1),
    |(s.map fun p => p.w * p.mu ^ (2 * k)).sum - 1 / (2 * (k : ℚ) + 1)| ≤ 1 / 10 ^ 23) h
    (by decide +kernel) k (List.mem_range.2 (by omega))

/-- Over all octants the stored weights come to 4π, in two and in three dimensions. -/
theorem C89_total {np : Nat} {l : List Pt} (h : levelSymmetric np = some l) (dim : Nat)
    (hd : dim = 2 ∨ dim = 3) :
    |2 ^ dim * (l.map fun p => levelScale dim * p.w).sum - 4| ≤ 1 / 10 ^ 22 := by
  have := C89_moments h 0 (Nat.zero_le _)
  simp only [mul_zero, pow_zero, mul_one, Nat.cast_zero, zero_add, div_one] at this
  have e : 2 ^ dim * (l.map fun p => levelScale dim * p.w).sum - 4
      = 4 * ((l.map fun p => p.w).sum - 1) := by
    rw [List.sum_map_mul_left]
    rcases hd with rfl | rfl <;> simp [levelScale] <;> ring
  rw [e, abs_mul, abs_of_pos (by norm_num : (0 : ℚ) < 4)]
  calc 4 * |(l.map fun p => p.w).sum - 1| ≤ 4 * (1 / 10 ^ 23) := by
        exact mul_le_mul_of_nonneg_left this (by norm_num)
    _ ≤ 1 / 10 ^ 22 := by norm_num

/-- What a user wants of a set: positive weights. -/
def C89Claim : Prop := ∀ np l, levelSymmetric np = some l → ∀ p ∈ l, 0 < p.w

/-- From order twenty on some weights are negative. -/
theorem C89_claim_fails : ¬ C89Claim := by
  intro h
  have := h 10 _ rfl
  revert this
  decide +kernel

theorem C89_positive_partial {np : Nat} {l : List Pt} (h : levelSymmetric np = some l) :
    (∀ p ∈ l, 0 < p.w) ↔ np ≤ 9 :=
  level_cases (P := fun n s => (∀ p ∈ s, 0 < p.w) ↔ n ≤ 9) h (by decide +kernel)

/-- Two levels: three directions of weight one third. -/
example : ((levelSymmetric 2).map fun l => l.map (·.w)) =
    some [333333333333333333333333000 / 10 ^ 27, 333333333333333333333333000 / 10 ^ 27,
      333333333333333333333333000 / 10 ^ 27] := by decide +kernel

/-! ## Layout of the half-range tables -/

section
variable {K : Type} [Zero K] [Neg K]

theorem mirror_get (x w : List K) (k : Nat) (hk : k ≤ x.length) :
    let q := (List.range k).foldl (fun (q : List K × List K) i =>
      ((q.1.set i (-(x.getD i 0))).set (2 * x.length - i - 1) (x.getD i 0),
       (q.2.set i (w.getD i 0)).set (2 * x.length - i - 1) (w.getD i 0)))
      (List.replicate (2 * x.length) 0, List.replicate (2 * x.length) 0)
    q.1.length = 2 * x.length ∧ q.2.length = 2 * x.length ∧
    ∀ j < 2 * x.length,
      q.1.getD j 0 = (if j < k then -(x.getD j 0) else if 2 * x.length - j - 1 < k then
        x.getD (2 * x.length - j - 1) 0 else 0) ∧
      q.2.getD j 0 = (if j < k then w.getD j 0 else if 2 * x.length - j - 1 < k then
        w.getD (2 * x.length - j - 1) 0 else 0) := by
  induction k with
  | zero => simp +contextual [List.getD_eq_getElem?_getD, List.getElem?_replicate]
  | succ k ih =>
    obtain ⟨h1, h2, h3⟩ := ih (by omega)
    simp only [List.range_succ, List.foldl_append, List.foldl_cons, List.foldl_nil, List.length_set]
    generalize (List.range k).foldl _ _ = q at h1 h2 h3 ⊢
    refine ⟨h1, h2, fun j hj => ?_⟩
    obtain ⟨h4, h5⟩ := h3 j hj
    simp only [List.getD_eq_getElem?_getD, List.getElem?_set, List.length_set, h1, h2] at h4 h5 ⊢
    by_cases e1 : 2 * x.length - k - 1 = j
    · have a1 : 2 * x.length - j - 1 = k := by omega
      have a2 : ¬ j < k + 1 := by omega
      have a3 : 2 * x.length - k - 1 < 2 * x.length := by omega
      simp only [if_pos e1, if_pos a3, if_neg a2, a1, if_pos (Nat.lt_succ_self k), Option.getD_some,
        and_self]
    · by_cases e2 : k = j
      · subst e2
        simp only [if_neg e1, if_pos hj, if_pos (Nat.lt_succ_self k), if_true, Option.getD_some,
          and_self]
      · have i1 : j < k + 1 ↔ j < k := by omega
        have i2 : 2 * x.length - j - 1 < k + 1 ↔ 2 * x.length - j - 1 < k := by omega
        simp only [if_neg e1, if_neg e2, i1, i2, h4, h5, and_self]

theorem mirrorTY_get (x w : List K) (k : Nat) (hk : k ≤ x.length) :
    let q := (List.range k).foldl (fun (q : List K × List K) i =>
      ((q.1.set i (-(x.getD (x.length - i - 1) 0))).set (i + x.length) (x.getD i 0),
       (q.2.set i (w.getD (x.length - i - 1) 0)).set (i + x.length) (w.getD i 0)))
      (List.replicate (2 * x.length) 0, List.replicate (2 * x.length) 0)
    q.1.length = 2 * x.length ∧ q.2.length = 2 * x.length ∧
    ∀ j < x.length,
      (q.1.getD j 0 = if j < k then -(x.getD (x.length - j - 1) 0) else 0) ∧
      (q.2.getD j 0 = if j < k then w.getD (x.length - j - 1) 0 else 0) ∧
      (q.1.getD (j + x.length) 0 = if j < k then x.getD j 0 else 0) ∧
      (q.2.getD (j + x.length) 0 = if j < k then w.getD j 0 else 0) := by
  induction k with
  | zero =>
    refine ⟨by simp, by simp, fun j hj => ?_⟩
    have a3 : j < 2 * x.length := by omega
    have a4 : j + x.length < 2 * x.length := by omega
    simp [List.getD_eq_getElem?_getD, List.getElem?_replicate, a3, a4]
  | succ k ih =>
    obtain ⟨h1, h2, h3⟩ := ih (by omega)
    simp only [List.range_succ, List.foldl_append, List.foldl_cons, List.foldl_nil, List.length_set]
    generalize (List.range k).foldl _ _ = q at h1 h2 h3 ⊢
    refine ⟨h1, h2, fun j hj => ?_⟩
    obtain ⟨h4, h5, h6, h7⟩ := h3 j hj
    simp only [List.getD_eq_getElem?_getD, List.getElem?_set, List.length_set, h1, h2]
      at h4 h5 h6 h7 ⊢
    have a1 : ¬ k + x.length = j := by omega
    have a2 : ¬ k = j + x.length := by omega
    have a3 : j < 2 * x.length := by omega
    have a4 : j + x.length < 2 * x.length := by omega
    by_cases e : k = j
    · subst e
      have a5 : k < k + 1 := Nat.lt_succ_self k
      simp only [if_neg a1, if_neg a2, if_pos a3, if_pos a4, if_pos a5, if_true, Option.getD_some,
        and_self]
    · have i1 : j < k + 1 ↔ j < k := by omega
      have i2 : ¬ k + x.length = j + x.length := by omega
      simp only [if_neg a1, if_neg a2, if_neg e, if_neg i2, i1, h4, h5, h6, h7, and_self]

end

theorem getD_of_lt {l : List ℝ} {i : Nat} (h : i < l.length) : l.getD i 0 = l[i] := by
  simp [List.getD_eq_getElem?_getD, h]

open QuadGen in
/-- What the polar quadrature takes from a mirrored table: the half-range points, ascending. -/
theorem C93_mirror (x w : List ℝ) (hw : w.length = x.length) :
    polar x.length false (mirror x w) = ⟨x.reverse, w.reverse⟩ := by
  have h := (mirror_get x w x.length le_rfl).2.2
  change ∀ j < 2 * x.length, (mirror x w).1.getD j 0 = _ ∧ (mirror x w).2.getD j 0 = _ at h
  generalize mirror x w = q at h ⊢
  have h' : ∀ i < x.length, q.1.getD (i + x.length) 0 = x.getD (x.length - 1 - i) 0 ∧
      q.2.getD (i + x.length) 0 = w.getD (x.length - 1 - i) 0 := by
    intro i hi
    have := h (i + x.length) (by omega)
    have a1 : ¬ i + x.length < x.length := by omega
    have a3 : 2 * x.length - (i + x.length) - 1 = x.length - 1 - i := by omega
    have a2 : x.length - 1 - i < x.length := by omega
    simpa only [if_neg a1, if_pos a2, a3] using this
  unfold polar normalised
  simp only [Half.mk.injEq, Bool.false_eq_true, if_false]
  constructor
  · apply List.ext_getElem (by simp)
    intro i h1 h2
    simp only [List.length_map, List.length_range] at h1
    rw [List.getElem_map, List.getElem_range, (h' i h1).1, List.getElem_reverse,
      getD_of_lt (by omega)]
  · apply List.ext_getElem (by simp [hw])
    intro i h1 h2
    simp only [List.length_map, List.length_range] at h1
    rw [List.getElem_map, List.getElem_range, (h' i h1).2, List.getElem_reverse,
      getD_of_lt (by omega)]
    simp only [hw]

open QuadGen in
/-- The same for the Tabuchi–Yamamoto layout. -/
theorem C93_mirrorTY (x w : List ℝ) (hw : w.length = x.length) :
    polar x.length false (mirrorTY x w) = ⟨x, w⟩ := by
  have h := (mirrorTY_get x w x.length le_rfl).2.2
  change ∀ j < x.length, _ ∧ _ ∧ (mirrorTY x w).1.getD (j + x.length) 0 = _ ∧
    (mirrorTY x w).2.getD (j + x.length) 0 = _ at h
  unfold polar normalised
  simp only [Half.mk.injEq, Bool.false_eq_true, if_false]
  constructor
  · apply List.ext_getElem (by simp)
    intro i h1 h2
    rw [List.getElem_map, List.getElem_range, (h i h2).2.2.1, if_pos h2, getD_of_lt h2]
  · apply List.ext_getElem (by simp [hw])
    intro i h1 h2
    have h3 : i < x.length := by omega
    rw [List.getElem_map, List.getElem_range, (h i h3).2.2.2, if_pos h3, getD_of_lt h2]

/-- The full base set is antisymmetric with equal weights, in both layouts. -/
theorem C93_antisymmetric (x w : List ℝ) (i : Nat) (hi : i < x.length) :
    (mirror x w).1.getD i 0 = -(mirror x w).1.getD (2 * x.length - 1 - i) 0 ∧
    (mirror x w).2.getD i 0 = (mirror x w).2.getD (2 * x.length - 1 - i) 0 ∧
    (mirrorTY x w).1.getD i 0 = -(mirrorTY x w).1.getD (2 * x.length - 1 - i) 0 ∧
    (mirrorTY x w).2.getD i 0 = (mirrorTY x w).2.getD (2 * x.length - 1 - i) 0 := by
  obtain ⟨_, _, h⟩ := mirror_get x w x.length le_rfl
  obtain ⟨_, _, g⟩ := mirrorTY_get x w x.length le_rfl
  have h1 := h i (by omega)
  have h2 := h (2 * x.length - 1 - i) (by omega)
  have g1 := g i hi
  have g2 := g (x.length - i - 1) (by omega)
  have e : x.length - i - 1 + x.length = 2 * x.length - 1 - i := by omega
  have a1 : ¬ 2 * x.length - 1 - i < x.length := by omega
  have a3 : 2 * x.length - (2 * x.length - 1 - i) - 1 = i := by omega
  have a4 : x.length - i - 1 < x.length := by omega
  rw [e] at g2
  simp only [hi, a1, a3, a4, if_true, if_false] at h1 h2 g1 g2
  unfold mirror mirrorTY
  exact ⟨by rw [h1.1, h2.1], by rw [h1.2, h2.2], by rw [g1.1, g2.2.2.1], by rw [g1.2.1, g2.2.2.2]⟩

example : mirror [(9 / 10 : ℚ), 1 / 3] [1 / 4, 3 / 4] =
    ([-9 / 10, -1 / 3, 1 / 3, 9 / 10], [1 / 4, 3 / 4, 3 / 4, 1 / 4]) := by decide +kernel

example : mirrorTY [(1 / 3 : ℚ), 9 / 10] [3 / 4, 1 / 4] =
    ([-9 / 10, -1 / 3, 1 / 3, 9 / 10], [1 / 4, 3 / 4, 3 / 4, 1 / 4]) := by decide +kernel

/-! ## The trigonometric integrals the Abu-Shumays sets are built for -/

/-- Powers of sine over a quarter turn. -/
noncomputable def wallis (n : Nat) : ℝ := ∫ t in (0 : ℝ)..(π / 2), sin t ^ n

theorem wallis_zero : wallis 0 = π / 2 := by simp [wallis]

theorem wallis_one : wallis 1 = 1 := by simp [wallis]

theorem wallis_step (n : Nat) : wallis (n + 2) = (n + 1) / (n + 2) * wallis n := by
  unfold wallis
  rw [integral_sin_pow]
  simp only [sin_zero, cos_zero, sin_pi_div_two, cos_pi_div_two]
  rw [zero_pow (by omega)]
  ring

/-- Rational bounds from twenty digits of π. -/
def wLo : Nat → ℚ
  | 0 => 314159265358979323846 / 10 ^ 20 / 2
  | 1 => 1
  | n + 2 => (n + 1) / (n + 2) * wLo n

def wHi : Nat → ℚ
  | 0 => 314159265358979323847 / 10 ^ 20 / 2
  | 1 => 1
  | n + 2 => (n + 1) / (n + 2) * wHi n

theorem wallis_bounds : ∀ n, ((wLo n : ℚ) : ℝ) ≤ wallis n ∧ wallis n ≤ ((wHi n : ℚ) : ℝ)
  | 0 => by
    rw [wallis_zero]
    have h1 := pi_gt_d20
    have h2 := pi_lt_d20
    constructor <;> · simp only [wLo, wHi]; push_cast; linarith
  | 1 => by rw [wallis_one]; simp [wLo, wHi]
  | n + 2 => by
    obtain ⟨h1, h2⟩ := wallis_bounds n
    rw [wallis_step]
    have : (0 : ℝ) ≤ (n + 1) / (n + 2) := by positivity
    constructor
    · simp only [wLo]; push_cast; exact mul_le_mul_of_nonneg_left h1 this
    · simp only [wHi]; push_cast; exact mul_le_mul_of_nonneg_left h2 this

theorem near_wallis {s e : ℚ} {n : Nat} (h : s - wLo n ≤ e ∧ wHi n - s ≤ e) :
    |(s : ℝ) - wallis n| ≤ (e : ℝ) := by
  obtain ⟨h1, h2⟩ := wallis_bounds n
  have a : (s : ℝ) - (wLo n : ℚ) ≤ (e : ℝ) := by exact_mod_cast h.1
  have b : ((wHi n : ℚ) : ℝ) - s ≤ (e : ℝ) := by exact_mod_cast h.2
  rw [abs_le]
  constructor <;> linarith

/-- The half-range polar integral of a power of the polar sine. -/
theorem polar_integral (k : Nat) : (∫ m in (0 : ℝ)..1, sqrt (1 - m ^ 2) ^ k) = wallis (k + 1) := by
  have h := intervalIntegral.integral_comp_mul_deriv (a := 0) (b := π / 2) (f := cos)
    (f' := fun t => -sin t) (g := fun m => sqrt (1 - m ^ 2) ^ k)
    (fun t _ => hasDerivAt_cos t) (by fun_prop) (by fun_prop)
  simp only [cos_zero, cos_pi_div_two] at h
  rw [intervalIntegral.integral_symm, ← h, wallis, ← intervalIntegral.integral_neg]
  apply intervalIntegral.integral_congr
  intro t ht
  rw [Set.uIcc_of_le (by positivity)] at ht
  have hs : 0 ≤ sin t := sin_nonneg_of_nonneg_of_le_pi ht.1 (by linarith [ht.2, pi_pos])
  simp only [Function.comp]
  rw [show 1 - cos t ^ 2 = sin t ^ 2 by rw [sin_sq], sqrt_sq hs]
  ring

/-- The cosine integral over the first quadrant. -/
theorem quadrant_integral (k : Nat) : (∫ t in (0 : ℝ)..(π / 2), cos t ^ k) = wallis k := by
  have := intervalIntegral.integral_comp_sub_left (a := 0) (b := π / 2) (fun t => sin t ^ k) (π / 2)
  simp only [sub_self, sub_zero, sin_pi_div_two_sub] at this
  exact this

theorem asdr_supported (N : Nat) : (asdr N).isSome ↔ 1 ≤ N ∧ N ≤ 15 := by
  constructor
  · intro h
    by_contra hn
    have : asdr N = none := by
      unfold asdr
      split <;> first | omega | rfl
    simp [this] at h
  · rintro ⟨h1, h2⟩
    interval_cases N <;> decide +kernel

theorem asqr_supported (N : Nat) : (asqr N).isSome ↔ 2 ≤ N ∧ N ≤ 30 ∧ N % 2 = 0 := by
  constructor
  · intro h
    by_contra hn
    have : asqr N = none := by
      unfold asqr
      split <;> first | omega | rfl
    simp [this] at h
  · rintro ⟨h1, h2, h3⟩
    interval_cases N <;> first | omega | decide +kernel

theorem asdr_all : ∀ n ∈ List.range 16, ∀ t ∈ asdr n,
    t.1.length = n ∧ t.2.length = n ∧ (∀ a ∈ t.1, 0 < a ∧ a < 1) ∧ (∀ b ∈ t.2, 0 < b) ∧
    t.1.Pairwise (· < ·) ∧
    ∀ k ∈ List.range (2 * n),
      (List.zipWith (fun a b => 1 / 2 * b * a ^ k) t.1 t.2).sum - wLo (k + 1) ≤ 1 / 10 ^ 15 ∧
      wHi (k + 1) - (List.zipWith (fun a b => 1 / 2 * b * a ^ k) t.1 t.2).sum ≤ 1 / 10 ^ 15 := by
  decide +kernel

theorem asqr_all : ∀ n ∈ List.range 31, ∀ t ∈ asqr n,
    t.1.length = n ∧ t.2.length = n ∧ (∀ a ∈ t.1, 0 < a ∧ a < 1) ∧ (∀ b ∈ t.2, 0 < b) ∧
    t.1.Pairwise (· < ·) ∧ t.2.reverse = t.2 ∧
    (∀ p ∈ List.zip t.1 t.1.reverse, |p.1 ^ 2 + p.2 ^ 2 - 1| ≤ 1 / 10 ^ 15) ∧
    ∀ k ∈ List.range n,
      (List.zipWith (fun a b => b * a ^ k) t.1 t.2).sum - wLo k ≤ 1 / 10 ^ 15 ∧
      wHi k - (List.zipWith (fun a b => b * a ^ k) t.1 t.2).sum ≤ 1 / 10 ^ 15 := by
  decide +kernel

theorem cast_zipWith_sum (f : ℚ → ℚ → ℚ) (g : ℝ → ℝ → ℝ) (a b : List ℚ) (x w : List ℝ)
    (hx : x.length = a.length) (hw : w.length = b.length) (hab : b.length = a.length)
    (h : ∀ i (h1 : i < a.length) (h2 : i < b.length) (h3 : i < x.length) (h4 : i < w.length),
      g x[i] w[i] = (f a[i] b[i] : ℚ)) :
    (List.zipWith g x w).sum = (((List.zipWith f a b).sum : ℚ) : ℝ) := by
  rw [Rat.cast_list_sum]
  congr 1
  apply List.ext_getElem (by simp [hx, hw])
  intro i h1 h2
  simp only [List.length_zipWith, List.length_map] at h1 h2
  simp only [List.getElem_zipWith, List.getElem_map]
  exact h i (by omega) (by omega) (by omega) (by omega)

theorem zipWith_reverse (g : ℝ → ℝ → ℝ) (x w : List ℝ) (h : w.length = x.length) :
    List.zipWith g x.reverse w.reverse = (List.zipWith g x w).reverse := by
  rw [List.reverse_zipWith h.symm]

/-- The tables a set is built from are those of the code, for the sizes it supports. -/
theorem C93_asdr_supported (N : Nat) : (asdrBase N).isSome ↔ 1 ≤ N ∧ N ≤ 15 := by
  rw [← asdr_supported]; simp [asdrBase]

theorem C93_asqr_supported (N : Nat) : (asqrBase N).isSome ↔ 2 ≤ N ∧ N ≤ 30 ∧ N % 2 = 0 := by
  rw [← asqr_supported]; simp [asqrBase]

open QuadGen in
/-- The double-range polar set with `N` angles integrates the first `2 N` powers of the polar sine over
    a half space, and its angles and weights are proper. -/
theorem C93_double_range {N : Nat} {q : List ℝ × List ℝ} (h : asdrBase N = some q) (k : Nat)
    (hk : k < 2 * N) :
    let p := polar N false q
    |(List.zipWith (fun m v => v * sqrt (1 - m ^ 2) ^ k) p.x p.w).sum
        - ∫ m in (0 : ℝ)..1, sqrt (1 - m ^ 2) ^ k| ≤ 1 / 10 ^ 15 ∧
      p.x.length = N ∧ p.w.length = N ∧ (∀ m ∈ p.x, 0 < m ∧ m < 1) ∧ p.x.Pairwise (· < ·) ∧
      ∀ v ∈ p.w, 0 < v := by
  obtain ⟨t, ht, rfl⟩ := Option.map_eq_some_iff.1 h
  have hN := (asdr_supported N).1 (by rw [ht]; rfl)
  obtain ⟨l1, l2, ha, hb, hs, hm⟩ := asdr_all N (List.mem_range.2 (by omega)) t (by rw [ht]; rfl)
  have hp := C93_mirror (t.1.map fun (v : ℚ) => sqrt (1 - (v : ℝ) * (v : ℝ)))
    (t.2.map fun (v : ℚ) => (1 / 2) * (v : ℝ)) (by simp [l1, l2])
  rw [List.length_map, l1] at hp
  simp only [hp]
  have hroot : ∀ a ∈ t.1, 0 < 1 - (a : ℝ) * a ∧ 1 - (a : ℝ) * a < 1 ∧
      sqrt (1 - sqrt (1 - (a : ℝ) * a) ^ 2) = a := by
    intro a h
    have h0 : (0 : ℝ) < a := by exact_mod_cast (ha a h).1
    have h1 : (a : ℝ) < 1 := by exact_mod_cast (ha a h).2
    have h2 : 0 < 1 - (a : ℝ) * a := by nlinarith
    refine ⟨h2, by nlinarith, ?_⟩
    rw [sq_sqrt h2.le, show 1 - (1 - (a : ℝ) * a) = a ^ 2 by ring, sqrt_sq h0.le]
  refine ⟨?_, by simp [l1], by simp [l2], ?_, ?_, ?_⟩
  · rw [zipWith_reverse _ _ _ (by simp [l1, l2]), List.sum_reverse, polar_integral,
      cast_zipWith_sum (fun a b => 1 / 2 * b * a ^ k) _ t.1 t.2 _ _ (by simp) (by simp) (by omega) ?_]
    · have := near_wallis (hm k (List.mem_range.2 hk))
      push_cast at this ⊢
      exact this
    · intro i h1 h2 h3 h4
      simp only [List.getElem_map]
      rw [(hroot _ (List.getElem_mem h1)).2.2]
      push_cast
      ring
  · intro m hm
    obtain ⟨a, h1, rfl⟩ := List.mem_map.1 (List.mem_reverse.1 hm)
    obtain ⟨r1, r2, _⟩ := hroot a h1
    exact ⟨sqrt_pos.2 r1, by rw [sqrt_lt' one_pos]; linarith⟩
  · rw [List.pairwise_reverse, List.pairwise_map]
    refine (List.Pairwise.and_mem.1 hs).imp ?_
    rintro a b ⟨h1, h2, h3⟩
    have h0 : (0 : ℝ) < a := by exact_mod_cast (ha a h1).1
    have h4 : (a : ℝ) < b := by exact_mod_cast h3
    exact sqrt_lt_sqrt (hroot b h2).1.le (by nlinarith)
  · intro v hv
    obtain ⟨b, h1, rfl⟩ := List.mem_map.1 (List.mem_reverse.1 hv)
    have : (0 : ℝ) < b := by exact_mod_cast hb b h1
    positivity

theorem set_back (N : Nat) (f : Nat → ℝ) (k : Nat) (hk : k ≤ N) :
    let q := (List.range k).foldl (fun q i => q.set (N - i - 1) (f i)) (List.replicate N 0)
    q.length = N ∧ ∀ j < N, q.getD j 0 = if N - 1 - j < k then f (N - 1 - j) else 0 := by
  induction k with
  | zero =>
    refine ⟨by simp, fun j hj => ?_⟩
    simp [List.getD_eq_getElem?_getD, List.getElem?_replicate, hj]
  | succ k ih =>
    obtain ⟨h1, h3⟩ := ih (by omega)
    simp only [List.range_succ, List.foldl_append, List.foldl_cons, List.foldl_nil, List.length_set]
    generalize (List.range k).foldl _ _ = q at h1 h3 ⊢
    refine ⟨h1, fun j hj => ?_⟩
    have h4 := h3 j hj
    simp only [List.getD_eq_getElem?_getD, List.getElem?_set, h1] at h4 ⊢
    by_cases e1 : N - k - 1 = j
    · have a1 : N - 1 - j = k := by omega
      have a3 : N - k - 1 < N := by omega
      simp only [if_pos e1, if_pos a3, a1, if_pos (Nat.lt_succ_self k), Option.getD_some]
    · have i2 : N - 1 - j < k + 1 ↔ N - 1 - j < k := by omega
      simp only [if_neg e1, i2, h4]

theorem set_back_eq (l : List ℚ) (g : ℚ → ℝ) :
    (List.range l.length).foldl (fun q i => q.set (l.length - i - 1) (g (l.getD i 0)))
      (List.replicate l.length 0) = (l.map g).reverse := by
  obtain ⟨h1, h2⟩ := set_back l.length (fun i => g (l.getD i 0)) l.length le_rfl
  apply List.ext_getElem (by rw [h1]; simp)
  intro i a b
  have hi : i < l.length := by simpa using b
  have := h2 i hi
  rw [if_pos (by omega), getD_of_lt a] at this
  rw [this, List.getElem_reverse]
  simp [List.getD_eq_getElem?_getD, show l.length - 1 - i < l.length by omega]

/-- The quadruple-range azimuthal set with `N` angles integrates the first `N` powers of the cosine
    over the first quadrant; the angles increase and mirror each other about the diagonal, and the
    weights are positive and symmetric. -/
theorem C93_quadruple_range {N : Nat} {q : List ℝ × List ℝ} (h : asqrBase N = some q) (k : Nat)
    (hk : k < N) :
    |(List.zipWith (fun t v => v * cos t ^ k) q.1 q.2).sum
        - ∫ t in (0 : ℝ)..(π / 2), cos t ^ k| ≤ 1 / 10 ^ 15 ∧
      q.1.length = N ∧ q.2.length = N ∧ (∀ t ∈ q.1, 0 < t ∧ t < π / 2) ∧ q.1.Pairwise (· < ·) ∧
      q.2.reverse = q.2 ∧ (∀ v ∈ q.2, 0 < v) ∧
      ∀ p ∈ List.zip q.1 q.1.reverse, |cos p.1 ^ 2 - sin p.2 ^ 2| ≤ 1 / 10 ^ 15 := by
  obtain ⟨t, ht, rfl⟩ := Option.map_eq_some_iff.1 h
  have hN := (asqr_supported N).1 (by rw [ht]; rfl)
  obtain ⟨l1, l2, ha, hb, hs, hr, hz, hm⟩ := asqr_all N (List.mem_range.2 (by omega)) t (by rw [ht]; rfl)
  have e1 := set_back_eq t.1 fun v => arccos (v : ℝ)
  have e2 := set_back_eq t.2 fun v => (v : ℝ)
  rw [l1] at e1
  rw [l2] at e2
  simp only [e1, e2]
  have hc : ∀ a ∈ t.1, cos (arccos (a : ℝ)) = a := by
    intro a h1
    obtain ⟨b1, b2⟩ := ha a h1
    have b1' : (0 : ℝ) < a := by exact_mod_cast b1
    exact cos_arccos (by linarith) (by exact_mod_cast b2.le)
  refine ⟨?_, by simp [l1], by simp [l2], ?_, ?_, ?_, ?_, ?_⟩
  · rw [zipWith_reverse _ _ _ (by simp [l1, l2]), List.sum_reverse, quadrant_integral,
      cast_zipWith_sum (fun a b => b * a ^ k) _ t.1 t.2 _ _ (by simp) (by simp) (by omega) ?_]
    · have := near_wallis (hm k (List.mem_range.2 hk))
      push_cast at this ⊢
      exact this
    · intro i h1 h2 h3 h4
      simp only [List.getElem_map]
      rw [hc _ (List.getElem_mem h1)]
      push_cast
      ring
  · intro v hv
    obtain ⟨a, h1, rfl⟩ := List.mem_map.1 (List.mem_reverse.1 hv)
    obtain ⟨b1, b2⟩ := ha a h1
    exact ⟨arccos_pos.2 (by exact_mod_cast b2), arccos_lt_pi_div_two.2 (by exact_mod_cast b1)⟩
  · rw [List.pairwise_reverse, List.pairwise_map]
    refine (List.Pairwise.and_mem.1 hs).imp ?_
    rintro a b ⟨h1, h2, h3⟩
    obtain ⟨a1, a2⟩ := ha a h1
    obtain ⟨b1, b2⟩ := ha b h2
    have a1' : (0 : ℝ) < a := by exact_mod_cast a1
    have b2' : (b : ℝ) < 1 := by exact_mod_cast b2
    exact arccos_lt_arccos (by linarith) (by exact_mod_cast h3) b2'.le
  · rw [← List.map_reverse, hr]
    rw [← List.map_reverse, hr]
  · intro v hv
    obtain ⟨b, h1, rfl⟩ := List.mem_map.1 (List.mem_reverse.1 hv)
    exact_mod_cast hb b h1
  · intro p hp
    rw [List.reverse_reverse, ← List.map_reverse, List.zip_map] at hp
    obtain ⟨⟨a, b⟩, h1, rfl⟩ := List.mem_map.1 hp
    have h2 := List.of_mem_zip h1
    have h3 : (b, a) ∈ t.1.zip t.1.reverse := by
      rw [← List.zip_swap]
      exact List.mem_map.2 ⟨(a, b), h1, rfl⟩
    have h4 := (Rat.cast_le (K := ℝ)).2 (hz _ h3)
    simp only [Prod.map, sin_sq, hc a (List.mem_reverse.1 h2.1), hc b h2.2]
    push_cast at h4
    rw [show (a : ℝ) ^ 2 - (1 - (b : ℝ) ^ 2) = b ^ 2 + a ^ 2 - 1 by ring]
    exact h4

/-! ## Tabuchi–Yamamoto and trigonometric Gauss sets -/

theorem ty_supported (N : Nat) : (ty N).isSome ↔ 1 ≤ N ∧ N ≤ 5 := by
  constructor
  · intro h
    by_contra hn
    have : ty N = none := by
      unfold ty
      split <;> first | omega | rfl
    simp [this] at h
  · rintro ⟨h1, h2⟩
    interval_cases N <;> decide +kernel

theorem tg_supported (N : Nat) : (tg N).isSome ↔ 1 ≤ N ∧ N ≤ 6 := by
  constructor
  · intro h
    by_contra hn
    have : tg N = none := by
      unfold tg
      split <;> first | omega | rfl
    simp [this] at h
  · rintro ⟨h1, h2⟩
    interval_cases N <;> decide +kernel

theorem ty_all : ∀ n ∈ List.range 6, ∀ t ∈ ty n,
    t.1.length = n ∧ t.2.length = n ∧ (∀ a ∈ t.1, 0 < a ∧ a < 1) ∧ (∀ b ∈ t.2, 0 < b) ∧
    t.1.Pairwise (· < ·) ∧ t.2.sum = if n = 4 then 1 - 2 / 10 ^ 8 else 1 := by
  decide +kernel

theorem tg_all : ∀ n ∈ List.range 7, ∀ t ∈ tg n,
    t.1.length = n ∧ t.2.length = n ∧ (∀ a ∈ t.1, 0 < a ∧ a < 1) ∧ (∀ b ∈ t.2, 0 < b) ∧
    t.1.Pairwise (· > ·) ∧ |t.2.sum - 1| ≤ 1 / 10 ^ 15 ∧
    (|(List.zipWith (fun a b => b * a) t.1 t.2).sum - 1 / 2| ≤ 1 / 10 ^ 14 ↔ 3 ≤ n) := by
  decide +kernel

open QuadGen in
/-- What a user wants of every tabulated polar set: the half-range weights come to one. -/
def C93Claim : Prop := ∀ N q, tyBase N = some q → (polar N false q).w.sum = 1

open QuadGen in
/-- The Tabuchi–Yamamoto points are proper; the weights come to one except for four angles, where they
    come to 0.99999998. -/
theorem C93_ty_partial {N : Nat} {q : List ℝ × List ℝ} (h : tyBase N = some q) :
    let p := polar N false q
    p.w.sum = (if N = 4 then 1 - 2 / 10 ^ 8 else 1) ∧ p.x.length = N ∧ p.w.length = N ∧
      (∀ m ∈ p.x, 0 < m ∧ m < 1) ∧ p.x.Pairwise (· < ·) ∧ ∀ v ∈ p.w, 0 < v := by
  obtain ⟨t, ht, rfl⟩ := Option.map_eq_some_iff.1 h
  have hN := (ty_supported N).1 (by rw [ht]; rfl)
  obtain ⟨l1, l2, ha, hb, hs, hw⟩ := ty_all N (List.mem_range.2 (by omega)) t (by rw [ht]; rfl)
  have hp := C93_mirrorTY (t.1.map fun (v : ℚ) => (v : ℝ)) (t.2.map fun (v : ℚ) => (v : ℝ))
    (by simp [l1, l2])
  rw [List.length_map, l1] at hp
  simp only [hp]
  refine ⟨?_, by simp [l1], by simp [l2], ?_, ?_, ?_⟩
  · rw [← Rat.cast_list_sum, hw]
    split <;> push_cast <;> rfl
  · intro m hm
    obtain ⟨a, h1, rfl⟩ := List.mem_map.1 hm
    exact_mod_cast ha a h1
  · rw [List.pairwise_map]
    exact hs.imp fun h => by exact_mod_cast h
  · intro v hv
    obtain ⟨a, h1, rfl⟩ := List.mem_map.1 hv
    exact_mod_cast hb a h1

theorem C93_claim_fails : ¬ C93Claim := by
  intro h
  obtain ⟨q, hq⟩ : ∃ q, tyBase 4 = some q := ⟨_, rfl⟩
  have h1 := h 4 q hq
  have h2 := (C93_ty_partial hq).1
  rw [h1] at h2
  norm_num at h2

open QuadGen in
/-- The trigonometric Gauss points are proper and the weights come to one; the half-range current is
    right exactly from three angles on. -/
theorem C93_tg {N : Nat} {q : List ℝ × List ℝ} (h : tgBase N = some q) :
    let p := polar N false q
    |p.w.sum - 1| ≤ 1 / 10 ^ 15 ∧ p.x.length = N ∧ p.w.length = N ∧
      (∀ m ∈ p.x, 0 < m ∧ m < 1) ∧ p.x.Pairwise (· < ·) ∧ (∀ v ∈ p.w, 0 < v) ∧
      (|(List.zipWith (fun m v => v * m) p.x p.w).sum - 1 / 2| ≤ 1 / 10 ^ 14 ↔ 3 ≤ N) := by
  obtain ⟨t, ht, rfl⟩ := Option.map_eq_some_iff.1 h
  have hN := (tg_supported N).1 (by rw [ht]; rfl)
  obtain ⟨l1, l2, ha, hb, hs, hw, hc⟩ := tg_all N (List.mem_range.2 (by omega)) t (by rw [ht]; rfl)
  have hp := C93_mirror (t.1.map fun (v : ℚ) => (v : ℝ)) (t.2.map fun (v : ℚ) => (v : ℝ))
    (by simp [l1, l2])
  rw [List.length_map, l1] at hp
  simp only [hp]
  refine ⟨?_, by simp [l1], by simp [l2], ?_, ?_, ?_, ?_⟩
  · rw [List.sum_reverse, ← Rat.cast_list_sum]
    have := (Rat.cast_le (K := ℝ)).2 hw
    push_cast at this ⊢
    exact this
  · intro m hm
    obtain ⟨a, h1, rfl⟩ := List.mem_map.1 (List.mem_reverse.1 hm)
    exact_mod_cast ha a h1
  · rw [List.pairwise_reverse, List.pairwise_map]
    exact hs.imp fun h => by exact_mod_cast h
  · intro v hv
    obtain ⟨a, h1, rfl⟩ := List.mem_map.1 (List.mem_reverse.1 hv)
    exact_mod_cast hb a h1
  · rw [← hc, zipWith_reverse _ _ _ (by simp [l1, l2]), List.sum_reverse,
      cast_zipWith_sum (fun a b => b * a) _ t.1 t.2 _ _ (by simp) (by simp) (by omega) ?_]
    · rw [← Rat.cast_le (K := ℝ)]
      push_cast
      rfl
    · intro i h1 h2 h3 h4
      simp only [List.getElem_map]
      push_cast
      ring

/-- Every table is reached: a two-angle set of each kind. -/
example : (asdrBase 2).isSome ∧ (asqrBase 2).isSome ∧ (tyBase 2).isSome ∧ (tgBase 2).isSome :=
  ⟨rfl, rfl, rfl, rfl⟩

/-! ## The factory -/

/-- How a set is named in the input. -/
def polName : Pol → String
  | .gl => "gl" | .dgl => "dgl" | .gc => "gc" | .dgc => "dgc" | .u => "u" | .uc => "uc"
  | .ty => "ty" | .asdr => "asdr" | .tg => "tg"

def aziName : Azi → String
  | .gl => "gl" | .dgl => "dgl" | .u => "u" | .s => "s" | .asqr => "asqr"

/-- The one-dimensional name of a polar set, where it differs. -/
def oneName : Pol → String
  | .u => "uniform" | .uc => "uniformcosine" | p => polName p

/-- The documented pairs: Gauss–Legendre or Simpson azimuths with the four basic polar sets, uniform
    azimuths with all but the uniform-cosine one, quadruple-range azimuths with the finer ones. -/
def offered (a : Azi) (p : Pol) : Bool :=
  match a with
  | .gl | .dgl | .s => decide (p ∈ [Pol.gl, .dgl, .u, .ty])
  | .u => decide (p ≠ .uc)
  | .asqr => decide (p ∈ [Pol.gl, .dgl, .gc, .dgc, .asdr, .tg])

/-- Whether a set contains a Chebyshev part, so that the normalisation entry matters. -/
def cheb (p : Pol) : Bool := decide (p = .gc ∨ p = .dgc)

/-- What a user wants: a pair of names gives that pair of sets, in the requested size, normalised when
    asked. -/
def C94Claim : Prop :=
  ∀ (I : Input) (dim : Nat) (a : Azi) (p : Pol), (dim = 2 ∨ dim = 3) →
    I.type = some (aziName a ++ "-" ++ polName p) → offered a p = true →
    build I dim = .ok (.product dim a p (I.na.getD 1) (I.np.getD 1)
      (cheb p && decide (I.norm.getD 0 ≠ 0)))

theorem build_product (I : Input) (dim : Nat) (a : Azi) (p : Pol) (hd : dim = 2 ∨ dim = 3)
    (ht : I.type = some (aziName a ++ "-" ++ polName p)) :
    build I dim = if offered a p then
      .ok (.product dim a (if a = .asqr ∧ p = .tg then .asdr else p) (I.na.getD 1) (I.np.getD 1) false)
      else .rejected := by
  have h1 : dim ≠ 1 := by omega
  cases a <;> cases p <;>
    simp [build, ht, h1, aziName, polName, productByName, offered]

/-- The pairs give the sets they name, in the requested size, except that "asqr-tg" gives the
    double-range polar set, and that no product set is ever normalised; pairs that are not offered are
    rejected. -/
theorem C94_product_partial (I : Input) (dim : Nat) (a : Azi) (p : Pol) (hd : dim = 2 ∨ dim = 3)
    (ht : I.type = some (aziName a ++ "-" ++ polName p)) (hn : ¬ (a = .asqr ∧ p = .tg)) :
    build I dim = if offered a p then
      .ok (.product dim a p (I.na.getD 1) (I.np.getD 1) false) else .rejected := by
  rw [build_product I dim a p hd ht, if_neg hn]

/-- "asqr-tg" is not what it says. -/
theorem C94_asqr_tg (I : Input) (dim : Nat) (hd : dim = 2 ∨ dim = 3) (ht : I.type = some "asqr-tg") :
    build I dim = build { I with type := some "asqr-asdr" } dim := by
  have h1 : dim ≠ 1 := by omega
  simp [build, ht, h1, productByName]

/-- Product sets ignore the normalisation entry altogether. -/
theorem C94_norm_ignored (I : Input) (dim : Nat) (hd : dim ≠ 1) (v : Option Int) :
    build { I with norm := v } dim = build I dim := by
  simp only [build, if_neg hd]

theorem C94_claim_fails : ¬ C94Claim := by
  intro h
  have := h { type := some "u-gc", norm := some 1 } 2 .u .gc (Or.inl rfl) rfl rfl
  revert this
  decide +kernel

/-- In one dimension the polar set of the given name is built, and the Chebyshev ones are normalised on
    request. -/
theorem C94_polar (I : Input) (p : Pol) (ht : I.type = some (oneName p)) :
    build I 1 = .ok (.polar p (I.np.getD 1) (cheb p && decide (I.norm.getD 0 ≠ 0))) := by
  cases p <;> simp [build, ht, oneName, polName, polarByName, cheb] <;>
    cases I.norm <;> simp

/-- Without a name the default is Gauss–Legendre in one dimension and uniform azimuths with double
    Gauss–Legendre polar angles otherwise, one angle each. -/
theorem C94_default (I : Input) (dim : Nat) (ht : I.type = none) :
    build I dim = .ok (if dim = 1 then .polar .gl (I.np.getD 1) false
      else .product dim .u .dgl (I.na.getD 1) (I.np.getD 1) false) := by
  by_cases h : dim = 1 <;> simp [build, ht, h, polarByName, productByName]

/-- The sets that are not products. -/
theorem C94_other (I : Input) (dim : Nat) (hd : dim ≠ 1) :
    (I.type = some "levelsymmetric" → build I dim = .ok (.level (I.np.getD 1) dim)) ∧
    (I.type = some "uniformequal" → build I dim = .ok (.equal (I.np.getD 1) dim)) := by
  constructor <;> intro ht <;> simp [build, ht, hd, productByName]

theorem productByName_isSome {name : String} {dim : Nat} {na np : Int}
    (h : (productByName name dim na np).isSome) :
    ∃ a p, offered a p = true ∧ name = aziName a ++ "-" ++ polName p := by
  by_contra hc
  push Not at hc
  simp only [productByName,
    if_neg (show name ≠ "gl-gl" from hc .gl .gl rfl), if_neg (show name ≠ "gl-dgl" from hc .gl .dgl rfl),
    if_neg (show name ≠ "gl-u" from hc .gl .u rfl), if_neg (show name ≠ "gl-ty" from hc .gl .ty rfl),
    if_neg (show name ≠ "dgl-gl" from hc .dgl .gl rfl), if_neg (show name ≠ "dgl-dgl" from hc .dgl .dgl rfl),
    if_neg (show name ≠ "dgl-u" from hc .dgl .u rfl), if_neg (show name ≠ "dgl-ty" from hc .dgl .ty rfl),
    if_neg (show name ≠ "u-gl" from hc .u .gl rfl), if_neg (show name ≠ "u-dgl" from hc .u .dgl rfl),
    if_neg (show name ≠ "u-gc" from hc .u .gc rfl), if_neg (show name ≠ "u-dgc" from hc .u .dgc rfl),
    if_neg (show name ≠ "u-u" from hc .u .u rfl), if_neg (show name ≠ "u-ty" from hc .u .ty rfl),
    if_neg (show name ≠ "u-asdr" from hc .u .asdr rfl), if_neg (show name ≠ "u-tg" from hc .u .tg rfl),
    if_neg (show name ≠ "s-gl" from hc .s .gl rfl), if_neg (show name ≠ "s-dgl" from hc .s .dgl rfl),
    if_neg (show name ≠ "s-u" from hc .s .u rfl), if_neg (show name ≠ "s-ty" from hc .s .ty rfl),
    if_neg (show name ≠ "asqr-asdr" from hc .asqr .asdr rfl),
    if_neg (show name ≠ "asqr-gl" from hc .asqr .gl rfl), if_neg (show name ≠ "asqr-dgl" from hc .asqr .dgl rfl),
    if_neg (show name ≠ "asqr-gc" from hc .asqr .gc rfl), if_neg (show name ≠ "asqr-dgc" from hc .asqr .dgc rfl),
    if_neg (show name ≠ "asqr-tg" from hc .asqr .tg rfl)] at h
  exact absurd h (by simp)

theorem polarByName_isSome {name : String} {np : Int} {c : Bool} (h : (polarByName name np c).isSome) :
    ∃ p, name = oneName p := by
  by_contra hc
  push Not at hc
  simp only [polarByName,
    if_neg (show name ≠ "gl" from hc .gl), if_neg (show name ≠ "dgl" from hc .dgl), if_neg (show name ≠ "gc" from hc .gc),
    if_neg (show name ≠ "dgc" from hc .dgc), if_neg (show name ≠ "uniform" from hc .u),
    if_neg (show name ≠ "uniformcosine" from hc .uc), if_neg (show name ≠ "ty" from hc .ty),
    if_neg (show name ≠ "asdr" from hc .asdr), if_neg (show name ≠ "tg" from hc .tg)] at h
  exact absurd h (by simp)

/-- Every other name is rejected. -/
theorem C94_rejected (I : Input) (dim : Nat) (name : String) (ht : I.type = some name)
    (hu : name ≠ "user")
    (h1 : dim = 1 → ∀ p, name ≠ oneName p)
    (h2 : dim ≠ 1 → name ≠ "levelsymmetric" ∧ name ≠ "uniformequal" ∧
      ∀ a p, offered a p = true → name ≠ aziName a ++ "-" ++ polName p) :
    build I dim = .rejected := by
  unfold build
  simp only [ht, Option.getD_some, if_neg hu]
  by_cases hd : dim = 1
  · simp only [if_pos hd]
    have : ∀ n c, polarByName name n c = none := by
      intro n c
      by_contra hn
      obtain ⟨p, hp⟩ := polarByName_isSome (Option.isSome_iff_ne_none.2 hn)
      exact h1 hd p hp
    simp [this]
  · obtain ⟨l, e, o⟩ := h2 hd
    simp only [if_neg hd, if_neg l, if_neg e]
    have : ∀ a n, productByName name dim a n = none := by
      intro a n
      by_contra hn
      obtain ⟨a', p, ho, hp⟩ := productByName_isSome (Option.isSome_iff_ne_none.2 hn)
      exact o a' p ho hp
    simp [this]

/-- A user set keeps exactly the given cosines and weights, when as many of each are given. -/
theorem C94_user (I : Input) (dim : Nat) (mu eta wt : List ℚ) (ht : I.type = some "user")
    (hm : I.mu = some mu) (he : I.eta = some eta) (hw : I.wt = some wt)
    (h1 : eta.length = mu.length) (h2 : wt.length = mu.length) (hd : 1 < dim) :
    ∃ xi2, build I dim = .ok (.user dim mu eta xi2 wt) ∧ xi2.length = mu.length ∧
      ∀ i, i < mu.length → xi2.getD i 0 = 1 - mu.getD i 0 ^ 2 - eta.getD i 0 ^ 2 := by
  refine ⟨List.zipWith (fun m e => 1 - m * m - e * e) mu eta, ?_, by simp [h1], ?_⟩
  · have t1 : eta.take mu.length = eta := List.take_of_length_le (by omega)
    have t2 : wt.take mu.length = wt := List.take_of_length_le (by omega)
    simp [build, ht, hm, he, hw, userSet, h1, h2, hd, t1, t2]
  · intro i hi
    simp [List.getD_eq_getElem?_getD, hi, h1, sq]

/-- A one-dimensional user set, which has no second cosine, reads past the end of the missing table. -/
theorem C94_user_ub (I : Input) (mu wt : List ℚ) (ht : I.type = some "user") (hm : I.mu = some mu)
    (he : I.eta = none) (hw : I.wt = some wt) (h : mu ≠ []) : build I 1 = .ub := by
  have : ¬ mu.length ≤ 0 := by
    have := List.length_pos_of_ne_nil h
    omega
  simp [build, ht, hm, he, hw, userSet, h]

theorem C94_user_missing (I : Input) (dim : Nat) (ht : I.type = some "user")
    (h : I.mu = none ∨ I.wt = none) : build I dim = .rejected := by
  rcases h with h | h
  · simp [build, ht, h]
  · cases hm : I.mu <;> simp [build, ht, h, hm]

/-- The directions of a user set are real unit vectors exactly when the given cosines leave room for the
    third. -/
example : build { type := some "user", mu := some [3 / 5], eta := some [2 / 5], wt := some [1] } 2 =
    .ok (.user 2 [3 / 5] [2 / 5] [12 / 25] [1]) := by decide +kernel

example : build { type := some "u-dgc", na := some 3, np := some 2 } 2 =
    .ok (.product 2 .u .dgc 3 2 false) := by decide +kernel

example : build { type := some "dgl-tg" } 2 = .rejected := by decide +kernel

end Detran.QuadTables
