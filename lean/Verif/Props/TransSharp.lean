import Verif.Props.TransOrder

/-!
# The order of a transient is no better (C142)
-/

namespace Detran.Kin

open Set

/-! ## Specification -/

/-- For every smooth solution of the time-dependent equations, transients of the given scheme converge to it at order `q`. -/
def HasOrder (scheme : Nat) (noExtrap : Bool) (q : Nat) : Prop :=
  ∀ (x : Sys ℝ) (stream : KMat ℝ → (Nat → Nat → Nat → ℝ) → Nat → Nat → Nat → ℝ) (data : ℝ → KMat ℝ) (V L : Nat → ℝ),
    x.scheme = scheme → x.noExtrap = noExtrap → Timed x (fun t _ => data t) V L → (∀ g, g < x.G → 0 < V g) →
    (∀ p, p < x.np → 0 < L p) → Stored x → ∀ T, 0 < T → Tame x stream data T → ∀ psi C, Evolves x stream data T psi C →
      (∀ n, Smooth x T psi C n) → ∃ Kc h0, 0 ≤ Kc ∧ 0 < h0 ∧ Converges x stream data V L T psi C q Kc h0

/-- The order a scheme is named after. -/
def nominal (scheme : Nat) : Nat := if scheme = 0 then 2 else scheme

/-- The full claim. -/
def C142Claim : Prop := ∀ scheme noExtrap, scheme ≤ 6 → HasOrder scheme noExtrap (nominal scheme)

/-! ## A source alone -/

/-- The power of time the flux grows with. -/
def power (scheme : Nat) (noExtrap : Bool) : Nat := if scheme = 1 ∨ 3 ≤ scheme ∧ noExtrap = true then 2 else 3

/-- The difference equations of a source `d t ^ (d - 1)`, up to step `N + 5`. -/
def Sourced (scheme : Nat) (noExtrap : Bool) (d : Nat) (h : ℝ) (y : Nat → ℝ) (N : Nat) : Prop :=
  y 0 = 0 ∧ ∀ n : Nat, 1 ≤ n → n ≤ N + 5 →
    if scheme = 0 ∨ (decide (2 ≤ scheme) && !noExtrap) = true ∧ n = 1 then y n - y (n - 1) = h * (d * (n * h - h / 2) ^ (d - 1))
    else bdf (min n (max 1 scheme)) 0 * y n -
      ∑ l ∈ Finset.range (min n (max 1 scheme)), bdf (min n (max 1 scheme)) (l + 1) * y (n - (l + 1)) = h * (d * (n * h) ^ (d - 1))


theorem sharp_0_0 {h B : ℝ} {y : Nat → ℝ} {N : Nat} (hN : (N : ℝ) * h = 1) (hN5 : 5 ≤ N) (hs : Sourced 0 false 3 h y N)
    (hB : ∀ n, n ≤ N + 5 → |y n - (n * h) ^ 3| ≤ B) : h ^ 2 ≤ 100 * B := by
  obtain ⟨h0, st⟩ := hs
  have step : ∀ n, n + 1 ≤ N + 5 → (1) * (y ((n + 1) + 0) - ((((n + 1) + 0 : Nat) : ℝ) * h) ^ 3) = (1) * (y (n + 0) - (((n + 0 : Nat) : ℝ) * h) ^ 3) + (-1/4) * h ^ 3 := by
    intro n hn
    have s := st (n + 1) (by omega) (by omega)
    rw [if_pos (Or.inl rfl)] at s
    norm_num [bdf, bdfRows, Finset.sum_range_succ] at s
    simp only [ show n + 1 + 0 = n + 1 from rfl, show n + 1 + 1 = n + 2 from rfl, show n + 1 + 2 = n + 3 from rfl, show n + 1 + 3 = n + 4 from rfl, show n + 1 + 4 = n + 5 from rfl, show n + 1 + 5 = n + 6 from rfl, add_zero] at s ⊢
    push_cast
    linear_combination s
  have all : ∀ n, n + 0 ≤ N + 5 → (1) * (y (n + 0) - (((n + 0 : Nat) : ℝ) * h) ^ 3) = (0 + -1/4 * n) * h ^ 3 := by
    intro n
    induction n with
    | zero =>
      intro _
      norm_num [h0]
      skip
    | succ n ih =>
      intro hn
      rw [step n (by omega), ih (by omega)]
      push_cast
      ring
  have last := all N (by omega)
  have b0 := abs_le.1 (hB (N + 0) (by omega))
  have hh : (N : ℝ) * h ^ 3 = h ^ 2 := by
    rw [show h ^ 3 = h * h ^ 2 by ring, ← mul_assoc, hN, one_mul]
  simp only [add_zero] at last b0
  linarith [b0.1, b0.2]

theorem sharp_0_1 {h B : ℝ} {y : Nat → ℝ} {N : Nat} (hN : (N : ℝ) * h = 1) (hN5 : 5 ≤ N) (hs : Sourced 0 true 3 h y N)
    (hB : ∀ n, n ≤ N + 5 → |y n - (n * h) ^ 3| ≤ B) : h ^ 2 ≤ 100 * B := by
  obtain ⟨h0, st⟩ := hs
  have step : ∀ n, n + 1 ≤ N + 5 → (1) * (y ((n + 1) + 0) - ((((n + 1) + 0 : Nat) : ℝ) * h) ^ 3) = (1) * (y (n + 0) - (((n + 0 : Nat) : ℝ) * h) ^ 3) + (-1/4) * h ^ 3 := by
    intro n hn
    have s := st (n + 1) (by omega) (by omega)
    rw [if_pos (Or.inl rfl)] at s
    norm_num [bdf, bdfRows, Finset.sum_range_succ] at s
    simp only [ show n + 1 + 0 = n + 1 from rfl, show n + 1 + 1 = n + 2 from rfl, show n + 1 + 2 = n + 3 from rfl, show n + 1 + 3 = n + 4 from rfl, show n + 1 + 4 = n + 5 from rfl, show n + 1 + 5 = n + 6 from rfl, add_zero] at s ⊢
    push_cast
    linear_combination s
  have all : ∀ n, n + 0 ≤ N + 5 → (1) * (y (n + 0) - (((n + 0 : Nat) : ℝ) * h) ^ 3) = (0 + -1/4 * n) * h ^ 3 := by
    intro n
    induction n with
    | zero =>
      intro _
      norm_num [h0]
      skip
    | succ n ih =>
      intro hn
      rw [step n (by omega), ih (by omega)]
      push_cast
      ring
  have last := all N (by omega)
  have b0 := abs_le.1 (hB (N + 0) (by omega))
  have hh : (N : ℝ) * h ^ 3 = h ^ 2 := by
    rw [show h ^ 3 = h * h ^ 2 by ring, ← mul_assoc, hN, one_mul]
  simp only [add_zero] at last b0
  linarith [b0.1, b0.2]

theorem sharp_1_0 {h B : ℝ} {y : Nat → ℝ} {N : Nat} (hN : (N : ℝ) * h = 1) (hN5 : 5 ≤ N) (hs : Sourced 1 false 2 h y N)
    (hB : ∀ n, n ≤ N + 5 → |y n - (n * h) ^ 2| ≤ B) : h ^ 1 ≤ 100 * B := by
  obtain ⟨h0, st⟩ := hs
  have step : ∀ n, n + 1 ≤ N + 5 → (1) * (y ((n + 1) + 0) - ((((n + 1) + 0 : Nat) : ℝ) * h) ^ 2) = (1) * (y (n + 0) - (((n + 0 : Nat) : ℝ) * h) ^ 2) + (1) * h ^ 2 := by
    intro n hn
    have s := st (n + 1) (by omega) (by omega)
    rw [if_neg (by simp)] at s
    rw [show min (n + 1) (max 1 1) = 1 by omega] at s
    norm_num [bdf, bdfRows, Finset.sum_range_succ] at s
    simp only [ show n + 1 + 0 = n + 1 from rfl, show n + 1 + 1 = n + 2 from rfl, show n + 1 + 2 = n + 3 from rfl, show n + 1 + 3 = n + 4 from rfl, show n + 1 + 4 = n + 5 from rfl, show n + 1 + 5 = n + 6 from rfl, add_zero] at s ⊢
    push_cast
    linear_combination s
  have all : ∀ n, n + 0 ≤ N + 5 → (1) * (y (n + 0) - (((n + 0 : Nat) : ℝ) * h) ^ 2) = (0 + 1 * n) * h ^ 2 := by
    intro n
    induction n with
    | zero =>
      intro _
      norm_num [h0]
      skip
    | succ n ih =>
      intro hn
      rw [step n (by omega), ih (by omega)]
      push_cast
      ring
  have last := all N (by omega)
  have b0 := abs_le.1 (hB (N + 0) (by omega))
  have hh : (N : ℝ) * h ^ 2 = h ^ 1 := by
    rw [show h ^ 2 = h * h ^ 1 by ring, ← mul_assoc, hN, one_mul]
  simp only [add_zero] at last b0
  linarith [b0.1, b0.2]

theorem sharp_1_1 {h B : ℝ} {y : Nat → ℝ} {N : Nat} (hN : (N : ℝ) * h = 1) (hN5 : 5 ≤ N) (hs : Sourced 1 true 2 h y N)
    (hB : ∀ n, n ≤ N + 5 → |y n - (n * h) ^ 2| ≤ B) : h ^ 1 ≤ 100 * B := by
  obtain ⟨h0, st⟩ := hs
  have step : ∀ n, n + 1 ≤ N + 5 → (1) * (y ((n + 1) + 0) - ((((n + 1) + 0 : Nat) : ℝ) * h) ^ 2) = (1) * (y (n + 0) - (((n + 0 : Nat) : ℝ) * h) ^ 2) + (1) * h ^ 2 := by
    intro n hn
    have s := st (n + 1) (by omega) (by omega)
    rw [if_neg (by simp)] at s
    rw [show min (n + 1) (max 1 1) = 1 by omega] at s
    norm_num [bdf, bdfRows, Finset.sum_range_succ] at s
    simp only [ show n + 1 + 0 = n + 1 from rfl, show n + 1 + 1 = n + 2 from rfl, show n + 1 + 2 = n + 3 from rfl, show n + 1 + 3 = n + 4 from rfl, show n + 1 + 4 = n + 5 from rfl, show n + 1 + 5 = n + 6 from rfl, add_zero] at s ⊢
    push_cast
    linear_combination s
  have all : ∀ n, n + 0 ≤ N + 5 → (1) * (y (n + 0) - (((n + 0 : Nat) : ℝ) * h) ^ 2) = (0 + 1 * n) * h ^ 2 := by
    intro n
    induction n with
    | zero =>
      intro _
      norm_num [h0]
      skip
    | succ n ih =>
      intro hn
      rw [step n (by omega), ih (by omega)]
      push_cast
      ring
  have last := all N (by omega)
  have b0 := abs_le.1 (hB (N + 0) (by omega))
  have hh : (N : ℝ) * h ^ 2 = h ^ 1 := by
    rw [show h ^ 2 = h * h ^ 1 by ring, ← mul_assoc, hN, one_mul]
  simp only [add_zero] at last b0
  linarith [b0.1, b0.2]

theorem sharp_2_0 {h B : ℝ} {y : Nat → ℝ} {N : Nat} (hN : (N : ℝ) * h = 1) (hN5 : 5 ≤ N) (hs : Sourced 2 false 3 h y N)
    (hB : ∀ n, n ≤ N + 5 → |y n - (n * h) ^ 3| ≤ B) : h ^ 2 ≤ 100 * B := by
  obtain ⟨h0, st⟩ := hs
  have s1 := st 1 (by omega) (by omega)
  norm_num [bdf, bdfRows, Finset.sum_range_succ, h0] at s1
  have e1 : y 1 = (3/4) * h ^ 3 := by
    skip
    ring_nf at s1 ⊢
    linarith
  have step : ∀ n, n + 2 ≤ N + 5 → (3/2) * (y ((n + 1) + 1) - ((((n + 1) + 1 : Nat) : ℝ) * h) ^ 3) + (-1/2) * (y ((n + 1) + 0) - ((((n + 1) + 0 : Nat) : ℝ) * h) ^ 3) = (3/2) * (y (n + 1) - (((n + 1 : Nat) : ℝ) * h) ^ 3) + (-1/2) * (y (n + 0) - (((n + 0 : Nat) : ℝ) * h) ^ 3) + (2) * h ^ 3 := by
    intro n hn
    have s := st (n + 2) (by omega) (by omega)
    rw [if_neg (by simp)] at s
    rw [show min (n + 2) (max 1 2) = 2 by omega] at s
    norm_num [bdf, bdfRows, Finset.sum_range_succ] at s
    simp only [show n + 2 - 1 = n + 1 by omega, show n + 1 + 0 = n + 1 from rfl, show n + 1 + 1 = n + 2 from rfl, show n + 1 + 2 = n + 3 from rfl, show n + 1 + 3 = n + 4 from rfl, show n + 1 + 4 = n + 5 from rfl, show n + 1 + 5 = n + 6 from rfl, add_zero] at s ⊢
    push_cast
    linear_combination s
  have all : ∀ n, n + 1 ≤ N + 5 → (3/2) * (y (n + 1) - (((n + 1 : Nat) : ℝ) * h) ^ 3) + (-1/2) * (y (n + 0) - (((n + 0 : Nat) : ℝ) * h) ^ 3) = (-3/8 + 2 * n) * h ^ 3 := by
    intro n
    induction n with
    | zero =>
      intro _
      norm_num [h0, e1]
      ring
    | succ n ih =>
      intro hn
      rw [step n (by omega), ih (by omega)]
      push_cast
      ring
  have last := all N (by omega)
  have b0 := abs_le.1 (hB (N + 0) (by omega))
  have b1 := abs_le.1 (hB (N + 1) (by omega))
  have hh : (N : ℝ) * h ^ 3 = h ^ 2 := by
    rw [show h ^ 3 = h * h ^ 2 by ring, ← mul_assoc, hN, one_mul]
  have h5 : (5 : ℝ) ≤ N := by exact_mod_cast hN5
  have hp : 0 < h := by
    by_contra hneg
    push Not at hneg
    nlinarith
  have hq : 5 * h ^ 3 ≤ N * h ^ 3 := mul_le_mul_of_nonneg_right h5 (by positivity)
  have hq0 : 0 < h ^ 3 := by positivity
  simp only [add_zero] at last b0
  linarith [b0.1, b0.2, b1.1, b1.2]

theorem sharp_2_1 {h B : ℝ} {y : Nat → ℝ} {N : Nat} (hN : (N : ℝ) * h = 1) (hN5 : 5 ≤ N) (hs : Sourced 2 true 3 h y N)
    (hB : ∀ n, n ≤ N + 5 → |y n - (n * h) ^ 3| ≤ B) : h ^ 2 ≤ 100 * B := by
  obtain ⟨h0, st⟩ := hs
  have s1 := st 1 (by omega) (by omega)
  norm_num [bdf, bdfRows, Finset.sum_range_succ, h0] at s1
  have e1 : y 1 = (3) * h ^ 3 := by
    skip
    ring_nf at s1 ⊢
    linarith
  have step : ∀ n, n + 2 ≤ N + 5 → (3/2) * (y ((n + 1) + 1) - ((((n + 1) + 1 : Nat) : ℝ) * h) ^ 3) + (-1/2) * (y ((n + 1) + 0) - ((((n + 1) + 0 : Nat) : ℝ) * h) ^ 3) = (3/2) * (y (n + 1) - (((n + 1 : Nat) : ℝ) * h) ^ 3) + (-1/2) * (y (n + 0) - (((n + 0 : Nat) : ℝ) * h) ^ 3) + (2) * h ^ 3 := by
    intro n hn
    have s := st (n + 2) (by omega) (by omega)
    rw [if_neg (by simp)] at s
    rw [show min (n + 2) (max 1 2) = 2 by omega] at s
    norm_num [bdf, bdfRows, Finset.sum_range_succ] at s
    simp only [show n + 2 - 1 = n + 1 by omega, show n + 1 + 0 = n + 1 from rfl, show n + 1 + 1 = n + 2 from rfl, show n + 1 + 2 = n + 3 from rfl, show n + 1 + 3 = n + 4 from rfl, show n + 1 + 4 = n + 5 from rfl, show n + 1 + 5 = n + 6 from rfl, add_zero] at s ⊢
    push_cast
    linear_combination s
  have all : ∀ n, n + 1 ≤ N + 5 → (3/2) * (y (n + 1) - (((n + 1 : Nat) : ℝ) * h) ^ 3) + (-1/2) * (y (n + 0) - (((n + 0 : Nat) : ℝ) * h) ^ 3) = (3 + 2 * n) * h ^ 3 := by
    intro n
    induction n with
    | zero =>
      intro _
      norm_num [h0, e1]
      ring
    | succ n ih =>
      intro hn
      rw [step n (by omega), ih (by omega)]
      push_cast
      ring
  have last := all N (by omega)
  have b0 := abs_le.1 (hB (N + 0) (by omega))
  have b1 := abs_le.1 (hB (N + 1) (by omega))
  have hh : (N : ℝ) * h ^ 3 = h ^ 2 := by
    rw [show h ^ 3 = h * h ^ 2 by ring, ← mul_assoc, hN, one_mul]
  have h5 : (5 : ℝ) ≤ N := by exact_mod_cast hN5
  have hp : 0 < h := by
    by_contra hneg
    push Not at hneg
    nlinarith
  have hq : 5 * h ^ 3 ≤ N * h ^ 3 := mul_le_mul_of_nonneg_right h5 (by positivity)
  have hq0 : 0 < h ^ 3 := by positivity
  simp only [add_zero] at last b0
  linarith [b0.1, b0.2, b1.1, b1.2]

theorem sharp_3_0 {h B : ℝ} {y : Nat → ℝ} {N : Nat} (hN : (N : ℝ) * h = 1) (hN5 : 5 ≤ N) (hs : Sourced 3 false 3 h y N)
    (hB : ∀ n, n ≤ N + 5 → |y n - (n * h) ^ 3| ≤ B) : h ^ 3 ≤ 100 * B := by
  obtain ⟨h0, st⟩ := hs
  have s1 := st 1 (by omega) (by omega)
  norm_num [bdf, bdfRows, Finset.sum_range_succ, h0] at s1
  have s2 := st 2 (by omega) (by omega)
  norm_num [bdf, bdfRows, Finset.sum_range_succ, h0] at s2
  have e1 : y 1 = (3/4) * h ^ 3 := by
    skip
    ring_nf at s1 ⊢
    linarith
  have e2 : y 2 = (9) * h ^ 3 := by
    simp only [e1] at s2
    ring_nf at s2 ⊢
    linarith
  have step : ∀ n, n + 3 ≤ N + 5 → (11/6) * (y ((n + 1) + 2) - ((((n + 1) + 2 : Nat) : ℝ) * h) ^ 3) + (-7/6) * (y ((n + 1) + 1) - ((((n + 1) + 1 : Nat) : ℝ) * h) ^ 3) + (1/3) * (y ((n + 1) + 0) - ((((n + 1) + 0 : Nat) : ℝ) * h) ^ 3) = (11/6) * (y (n + 2) - (((n + 2 : Nat) : ℝ) * h) ^ 3) + (-7/6) * (y (n + 1) - (((n + 1 : Nat) : ℝ) * h) ^ 3) + (1/3) * (y (n + 0) - (((n + 0 : Nat) : ℝ) * h) ^ 3) + (0) * h ^ 3 := by
    intro n hn
    have s := st (n + 3) (by omega) (by omega)
    rw [if_neg (by simp)] at s
    rw [show min (n + 3) (max 1 3) = 3 by omega] at s
    norm_num [bdf, bdfRows, Finset.sum_range_succ] at s
    simp only [show n + 3 - 1 = n + 2 by omega, show n + 3 - 2 = n + 1 by omega, show n + 1 + 0 = n + 1 from rfl, show n + 1 + 1 = n + 2 from rfl, show n + 1 + 2 = n + 3 from rfl, show n + 1 + 3 = n + 4 from rfl, show n + 1 + 4 = n + 5 from rfl, show n + 1 + 5 = n + 6 from rfl, add_zero] at s ⊢
    push_cast
    linear_combination s
  have all : ∀ n, n + 2 ≤ N + 5 → (11/6) * (y (n + 2) - (((n + 2 : Nat) : ℝ) * h) ^ 3) + (-7/6) * (y (n + 1) - (((n + 1 : Nat) : ℝ) * h) ^ 3) + (1/3) * (y (n + 0) - (((n + 0 : Nat) : ℝ) * h) ^ 3) = (17/8 + 0 * n) * h ^ 3 := by
    intro n
    induction n with
    | zero =>
      intro _
      norm_num [h0, e1, e2]
      ring
    | succ n ih =>
      intro hn
      rw [step n (by omega), ih (by omega)]
      push_cast
      ring
  have last := all N (by omega)
  have b0 := abs_le.1 (hB (N + 0) (by omega))
  have b1 := abs_le.1 (hB (N + 1) (by omega))
  have b2 := abs_le.1 (hB (N + 2) (by omega))
  have hN0 : (0 : ℝ) < N := by exact_mod_cast (by omega : 0 < N)
  have hp : 0 < h := by
    by_contra hneg
    push Not at hneg
    nlinarith
  have hq0 : 0 < h ^ 3 := by positivity
  simp only [add_zero, zero_mul] at last b0
  linarith [b0.1, b0.2, b1.1, b1.2, b2.1, b2.2]

theorem sharp_3_1 {h B : ℝ} {y : Nat → ℝ} {N : Nat} (hN : (N : ℝ) * h = 1) (hN5 : 5 ≤ N) (hs : Sourced 3 true 2 h y N)
    (hB : ∀ n, n ≤ N + 5 → |y n - (n * h) ^ 2| ≤ B) : h ^ 2 ≤ 100 * B := by
  obtain ⟨h0, st⟩ := hs
  have s1 := st 1 (by omega) (by omega)
  norm_num [bdf, bdfRows, Finset.sum_range_succ, h0] at s1
  have s2 := st 2 (by omega) (by omega)
  norm_num [bdf, bdfRows, Finset.sum_range_succ, h0] at s2
  have e1 : y 1 = (2) * h ^ 2 := by
    skip
    ring_nf at s1 ⊢
    linarith
  have e2 : y 2 = (16/3) * h ^ 2 := by
    simp only [e1] at s2
    ring_nf at s2 ⊢
    linarith
  have step : ∀ n, n + 3 ≤ N + 5 → (11/6) * (y ((n + 1) + 2) - ((((n + 1) + 2 : Nat) : ℝ) * h) ^ 2) + (-7/6) * (y ((n + 1) + 1) - ((((n + 1) + 1 : Nat) : ℝ) * h) ^ 2) + (1/3) * (y ((n + 1) + 0) - ((((n + 1) + 0 : Nat) : ℝ) * h) ^ 2) = (11/6) * (y (n + 2) - (((n + 2 : Nat) : ℝ) * h) ^ 2) + (-7/6) * (y (n + 1) - (((n + 1 : Nat) : ℝ) * h) ^ 2) + (1/3) * (y (n + 0) - (((n + 0 : Nat) : ℝ) * h) ^ 2) + (0) * h ^ 2 := by
    intro n hn
    have s := st (n + 3) (by omega) (by omega)
    rw [if_neg (by simp)] at s
    rw [show min (n + 3) (max 1 3) = 3 by omega] at s
    norm_num [bdf, bdfRows, Finset.sum_range_succ] at s
    simp only [show n + 3 - 1 = n + 2 by omega, show n + 3 - 2 = n + 1 by omega, show n + 1 + 0 = n + 1 from rfl, show n + 1 + 1 = n + 2 from rfl, show n + 1 + 2 = n + 3 from rfl, show n + 1 + 3 = n + 4 from rfl, show n + 1 + 4 = n + 5 from rfl, show n + 1 + 5 = n + 6 from rfl, add_zero] at s ⊢
    push_cast
    linear_combination s
  have all : ∀ n, n + 2 ≤ N + 5 → (11/6) * (y (n + 2) - (((n + 2 : Nat) : ℝ) * h) ^ 2) + (-7/6) * (y (n + 1) - (((n + 1 : Nat) : ℝ) * h) ^ 2) + (1/3) * (y (n + 0) - (((n + 0 : Nat) : ℝ) * h) ^ 2) = (23/18 + 0 * n) * h ^ 2 := by
    intro n
    induction n with
    | zero =>
      intro _
      norm_num [h0, e1, e2]
      ring
    | succ n ih =>
      intro hn
      rw [step n (by omega), ih (by omega)]
      push_cast
      ring
  have last := all N (by omega)
  have b0 := abs_le.1 (hB (N + 0) (by omega))
  have b1 := abs_le.1 (hB (N + 1) (by omega))
  have b2 := abs_le.1 (hB (N + 2) (by omega))
  have hN0 : (0 : ℝ) < N := by exact_mod_cast (by omega : 0 < N)
  have hp : 0 < h := by
    by_contra hneg
    push Not at hneg
    nlinarith
  have hq0 : 0 < h ^ 2 := by positivity
  simp only [add_zero, zero_mul] at last b0
  linarith [b0.1, b0.2, b1.1, b1.2, b2.1, b2.2]

theorem sharp_4_0 {h B : ℝ} {y : Nat → ℝ} {N : Nat} (hN : (N : ℝ) * h = 1) (hN5 : 5 ≤ N) (hs : Sourced 4 false 3 h y N)
    (hB : ∀ n, n ≤ N + 5 → |y n - (n * h) ^ 3| ≤ B) : h ^ 3 ≤ 100 * B := by
  obtain ⟨h0, st⟩ := hs
  have s1 := st 1 (by omega) (by omega)
  norm_num [bdf, bdfRows, Finset.sum_range_succ, h0] at s1
  have s2 := st 2 (by omega) (by omega)
  norm_num [bdf, bdfRows, Finset.sum_range_succ, h0] at s2
  have s3 := st 3 (by omega) (by omega)
  norm_num [bdf, bdfRows, Finset.sum_range_succ, h0] at s3
  have e1 : y 1 = (3/4) * h ^ 3 := by
    skip
    ring_nf at s1 ⊢
    linarith
  have e2 : y 2 = (9) * h ^ 3 := by
    simp only [e1] at s2
    ring_nf at s2 ⊢
    linarith
  have e3 : y 3 = (1269/44) * h ^ 3 := by
    simp only [e1, e2] at s3
    ring_nf at s3 ⊢
    linarith
  have step : ∀ n, n + 4 ≤ N + 5 → (25/12) * (y ((n + 1) + 3) - ((((n + 1) + 3 : Nat) : ℝ) * h) ^ 3) + (-23/12) * (y ((n + 1) + 2) - ((((n + 1) + 2 : Nat) : ℝ) * h) ^ 3) + (13/12) * (y ((n + 1) + 1) - ((((n + 1) + 1 : Nat) : ℝ) * h) ^ 3) + (-1/4) * (y ((n + 1) + 0) - ((((n + 1) + 0 : Nat) : ℝ) * h) ^ 3) = (25/12) * (y (n + 3) - (((n + 3 : Nat) : ℝ) * h) ^ 3) + (-23/12) * (y (n + 2) - (((n + 2 : Nat) : ℝ) * h) ^ 3) + (13/12) * (y (n + 1) - (((n + 1 : Nat) : ℝ) * h) ^ 3) + (-1/4) * (y (n + 0) - (((n + 0 : Nat) : ℝ) * h) ^ 3) + (0) * h ^ 3 := by
    intro n hn
    have s := st (n + 4) (by omega) (by omega)
    rw [if_neg (by simp)] at s
    rw [show min (n + 4) (max 1 4) = 4 by omega] at s
    norm_num [bdf, bdfRows, Finset.sum_range_succ] at s
    simp only [show n + 4 - 1 = n + 3 by omega, show n + 4 - 2 = n + 2 by omega, show n + 4 - 3 = n + 1 by omega, show n + 1 + 0 = n + 1 from rfl, show n + 1 + 1 = n + 2 from rfl, show n + 1 + 2 = n + 3 from rfl, show n + 1 + 3 = n + 4 from rfl, show n + 1 + 4 = n + 5 from rfl, show n + 1 + 5 = n + 6 from rfl, add_zero] at s ⊢
    push_cast
    linear_combination s
  have all : ∀ n, n + 3 ≤ N + 5 → (25/12) * (y (n + 3) - (((n + 3 : Nat) : ℝ) * h) ^ 3) + (-23/12) * (y (n + 2) - (((n + 2 : Nat) : ℝ) * h) ^ 3) + (13/12) * (y (n + 1) - (((n + 1 : Nat) : ℝ) * h) ^ 3) + (-1/4) * (y (n + 0) - (((n + 0 : Nat) : ℝ) * h) ^ 3) = (145/88 + 0 * n) * h ^ 3 := by
    intro n
    induction n with
    | zero =>
      intro _
      norm_num [h0, e1, e2, e3]
      ring
    | succ n ih =>
      intro hn
      rw [step n (by omega), ih (by omega)]
      push_cast
      ring
  have last := all N (by omega)
  have b0 := abs_le.1 (hB (N + 0) (by omega))
  have b1 := abs_le.1 (hB (N + 1) (by omega))
  have b2 := abs_le.1 (hB (N + 2) (by omega))
  have b3 := abs_le.1 (hB (N + 3) (by omega))
  have hN0 : (0 : ℝ) < N := by exact_mod_cast (by omega : 0 < N)
  have hp : 0 < h := by
    by_contra hneg
    push Not at hneg
    nlinarith
  have hq0 : 0 < h ^ 3 := by positivity
  simp only [add_zero, zero_mul] at last b0
  linarith [b0.1, b0.2, b1.1, b1.2, b2.1, b2.2, b3.1, b3.2]

theorem sharp_4_1 {h B : ℝ} {y : Nat → ℝ} {N : Nat} (hN : (N : ℝ) * h = 1) (hN5 : 5 ≤ N) (hs : Sourced 4 true 2 h y N)
    (hB : ∀ n, n ≤ N + 5 → |y n - (n * h) ^ 2| ≤ B) : h ^ 2 ≤ 100 * B := by
  obtain ⟨h0, st⟩ := hs
  have s1 := st 1 (by omega) (by omega)
  norm_num [bdf, bdfRows, Finset.sum_range_succ, h0] at s1
  have s2 := st 2 (by omega) (by omega)
  norm_num [bdf, bdfRows, Finset.sum_range_succ, h0] at s2
  have s3 := st 3 (by omega) (by omega)
  norm_num [bdf, bdfRows, Finset.sum_range_succ, h0] at s3
  have e1 : y 1 = (2) * h ^ 2 := by
    skip
    ring_nf at s1 ⊢
    linarith
  have e2 : y 2 = (16/3) * h ^ 2 := by
    simp only [e1] at s2
    ring_nf at s2 ⊢
    linarith
  have e3 : y 3 = (114/11) * h ^ 2 := by
    simp only [e1, e2] at s3
    ring_nf at s3 ⊢
    linarith
  have step : ∀ n, n + 4 ≤ N + 5 → (25/12) * (y ((n + 1) + 3) - ((((n + 1) + 3 : Nat) : ℝ) * h) ^ 2) + (-23/12) * (y ((n + 1) + 2) - ((((n + 1) + 2 : Nat) : ℝ) * h) ^ 2) + (13/12) * (y ((n + 1) + 1) - ((((n + 1) + 1 : Nat) : ℝ) * h) ^ 2) + (-1/4) * (y ((n + 1) + 0) - ((((n + 1) + 0 : Nat) : ℝ) * h) ^ 2) = (25/12) * (y (n + 3) - (((n + 3 : Nat) : ℝ) * h) ^ 2) + (-23/12) * (y (n + 2) - (((n + 2 : Nat) : ℝ) * h) ^ 2) + (13/12) * (y (n + 1) - (((n + 1 : Nat) : ℝ) * h) ^ 2) + (-1/4) * (y (n + 0) - (((n + 0 : Nat) : ℝ) * h) ^ 2) + (0) * h ^ 2 := by
    intro n hn
    have s := st (n + 4) (by omega) (by omega)
    rw [if_neg (by simp)] at s
    rw [show min (n + 4) (max 1 4) = 4 by omega] at s
    norm_num [bdf, bdfRows, Finset.sum_range_succ] at s
    simp only [show n + 4 - 1 = n + 3 by omega, show n + 4 - 2 = n + 2 by omega, show n + 4 - 3 = n + 1 by omega, show n + 1 + 0 = n + 1 from rfl, show n + 1 + 1 = n + 2 from rfl, show n + 1 + 2 = n + 3 from rfl, show n + 1 + 3 = n + 4 from rfl, show n + 1 + 4 = n + 5 from rfl, show n + 1 + 5 = n + 6 from rfl, add_zero] at s ⊢
    push_cast
    linear_combination s
  have all : ∀ n, n + 3 ≤ N + 5 → (25/12) * (y (n + 3) - (((n + 3 : Nat) : ℝ) * h) ^ 2) + (-23/12) * (y (n + 2) - (((n + 2 : Nat) : ℝ) * h) ^ 2) + (13/12) * (y (n + 1) - (((n + 1 : Nat) : ℝ) * h) ^ 2) + (-1/4) * (y (n + 0) - (((n + 0 : Nat) : ℝ) * h) ^ 2) = (271/198 + 0 * n) * h ^ 2 := by
    intro n
    induction n with
    | zero =>
      intro _
      norm_num [h0, e1, e2, e3]
      ring
    | succ n ih =>
      intro hn
      rw [step n (by omega), ih (by omega)]
      push_cast
      ring
  have last := all N (by omega)
  have b0 := abs_le.1 (hB (N + 0) (by omega))
  have b1 := abs_le.1 (hB (N + 1) (by omega))
  have b2 := abs_le.1 (hB (N + 2) (by omega))
  have b3 := abs_le.1 (hB (N + 3) (by omega))
  have hN0 : (0 : ℝ) < N := by exact_mod_cast (by omega : 0 < N)
  have hp : 0 < h := by
    by_contra hneg
    push Not at hneg
    nlinarith
  have hq0 : 0 < h ^ 2 := by positivity
  simp only [add_zero, zero_mul] at last b0
  linarith [b0.1, b0.2, b1.1, b1.2, b2.1, b2.2, b3.1, b3.2]

theorem sharp_5_0 {h B : ℝ} {y : Nat → ℝ} {N : Nat} (hN : (N : ℝ) * h = 1) (hN5 : 5 ≤ N) (hs : Sourced 5 false 3 h y N)
    (hB : ∀ n, n ≤ N + 5 → |y n - (n * h) ^ 3| ≤ B) : h ^ 3 ≤ 100 * B := by
  obtain ⟨h0, st⟩ := hs
  have s1 := st 1 (by omega) (by omega)
  norm_num [bdf, bdfRows, Finset.sum_range_succ, h0] at s1
  have s2 := st 2 (by omega) (by omega)
  norm_num [bdf, bdfRows, Finset.sum_range_succ, h0] at s2
  have s3 := st 3 (by omega) (by omega)
  norm_num [bdf, bdfRows, Finset.sum_range_succ, h0] at s3
  have s4 := st 4 (by omega) (by omega)
  norm_num [bdf, bdfRows, Finset.sum_range_succ, h0] at s4
  have e1 : y 1 = (3/4) * h ^ 3 := by
    skip
    ring_nf at s1 ⊢
    linarith
  have e2 : y 2 = (9) * h ^ 3 := by
    simp only [e1] at s2
    ring_nf at s2 ⊢
    linarith
  have e3 : y 3 = (1269/44) * h ^ 3 := by
    simp only [e1, e2] at s3
    ring_nf at s3 ⊢
    linarith
  have e4 : y 4 = (18132/275) * h ^ 3 := by
    simp only [e1, e2, e3] at s4
    ring_nf at s4 ⊢
    linarith
  have step : ∀ n, n + 5 ≤ N + 5 → (137/60) * (y ((n + 1) + 4) - ((((n + 1) + 4 : Nat) : ℝ) * h) ^ 3) + (-163/60) * (y ((n + 1) + 3) - ((((n + 1) + 3 : Nat) : ℝ) * h) ^ 3) + (137/60) * (y ((n + 1) + 2) - ((((n + 1) + 2 : Nat) : ℝ) * h) ^ 3) + (-21/20) * (y ((n + 1) + 1) - ((((n + 1) + 1 : Nat) : ℝ) * h) ^ 3) + (1/5) * (y ((n + 1) + 0) - ((((n + 1) + 0 : Nat) : ℝ) * h) ^ 3) = (137/60) * (y (n + 4) - (((n + 4 : Nat) : ℝ) * h) ^ 3) + (-163/60) * (y (n + 3) - (((n + 3 : Nat) : ℝ) * h) ^ 3) + (137/60) * (y (n + 2) - (((n + 2 : Nat) : ℝ) * h) ^ 3) + (-21/20) * (y (n + 1) - (((n + 1 : Nat) : ℝ) * h) ^ 3) + (1/5) * (y (n + 0) - (((n + 0 : Nat) : ℝ) * h) ^ 3) + (0) * h ^ 3 := by
    intro n hn
    have s := st (n + 5) (by omega) (by omega)
    rw [if_neg (by simp)] at s
    rw [show min (n + 5) (max 1 5) = 5 by omega] at s
    norm_num [bdf, bdfRows, Finset.sum_range_succ] at s
    simp only [show n + 5 - 1 = n + 4 by omega, show n + 5 - 2 = n + 3 by omega, show n + 5 - 3 = n + 2 by omega, show n + 5 - 4 = n + 1 by omega, show n + 1 + 0 = n + 1 from rfl, show n + 1 + 1 = n + 2 from rfl, show n + 1 + 2 = n + 3 from rfl, show n + 1 + 3 = n + 4 from rfl, show n + 1 + 4 = n + 5 from rfl, show n + 1 + 5 = n + 6 from rfl, add_zero] at s ⊢
    push_cast
    linear_combination s
  have all : ∀ n, n + 4 ≤ N + 5 → (137/60) * (y (n + 4) - (((n + 4 : Nat) : ℝ) * h) ^ 3) + (-163/60) * (y (n + 3) - (((n + 3 : Nat) : ℝ) * h) ^ 3) + (137/60) * (y (n + 2) - (((n + 2 : Nat) : ℝ) * h) ^ 3) + (-21/20) * (y (n + 1) - (((n + 1 : Nat) : ℝ) * h) ^ 3) + (1/5) * (y (n + 0) - (((n + 0 : Nat) : ℝ) * h) ^ 3) = (21581/11000 + 0 * n) * h ^ 3 := by
    intro n
    induction n with
    | zero =>
      intro _
      norm_num [h0, e1, e2, e3, e4]
      ring
    | succ n ih =>
      intro hn
      rw [step n (by omega), ih (by omega)]
      push_cast
      ring
  have last := all N (by omega)
  have b0 := abs_le.1 (hB (N + 0) (by omega))
  have b1 := abs_le.1 (hB (N + 1) (by omega))
  have b2 := abs_le.1 (hB (N + 2) (by omega))
  have b3 := abs_le.1 (hB (N + 3) (by omega))
  have b4 := abs_le.1 (hB (N + 4) (by omega))
  have hN0 : (0 : ℝ) < N := by exact_mod_cast (by omega : 0 < N)
  have hp : 0 < h := by
    by_contra hneg
    push Not at hneg
    nlinarith
  have hq0 : 0 < h ^ 3 := by positivity
  simp only [add_zero, zero_mul] at last b0
  linarith [b0.1, b0.2, b1.1, b1.2, b2.1, b2.2, b3.1, b3.2, b4.1, b4.2]

theorem sharp_5_1 {h B : ℝ} {y : Nat → ℝ} {N : Nat} (hN : (N : ℝ) * h = 1) (hN5 : 5 ≤ N) (hs : Sourced 5 true 2 h y N)
    (hB : ∀ n, n ≤ N + 5 → |y n - (n * h) ^ 2| ≤ B) : h ^ 2 ≤ 100 * B := by
  obtain ⟨h0, st⟩ := hs
  have s1 := st 1 (by omega) (by omega)
  norm_num [bdf, bdfRows, Finset.sum_range_succ, h0] at s1
  have s2 := st 2 (by omega) (by omega)
  norm_num [bdf, bdfRows, Finset.sum_range_succ, h0] at s2
  have s3 := st 3 (by omega) (by omega)
  norm_num [bdf, bdfRows, Finset.sum_range_succ, h0] at s3
  have s4 := st 4 (by omega) (by omega)
  norm_num [bdf, bdfRows, Finset.sum_range_succ, h0] at s4
  have e1 : y 1 = (2) * h ^ 2 := by
    skip
    ring_nf at s1 ⊢
    linarith
  have e2 : y 2 = (16/3) * h ^ 2 := by
    simp only [e1] at s2
    ring_nf at s2 ⊢
    linarith
  have e3 : y 3 = (114/11) * h ^ 2 := by
    simp only [e1, e2] at s3
    ring_nf at s3 ⊢
    linarith
  have e4 : y 4 = (4768/275) * h ^ 2 := by
    simp only [e1, e2, e3] at s4
    ring_nf at s4 ⊢
    linarith
  have step : ∀ n, n + 5 ≤ N + 5 → (137/60) * (y ((n + 1) + 4) - ((((n + 1) + 4 : Nat) : ℝ) * h) ^ 2) + (-163/60) * (y ((n + 1) + 3) - ((((n + 1) + 3 : Nat) : ℝ) * h) ^ 2) + (137/60) * (y ((n + 1) + 2) - ((((n + 1) + 2 : Nat) : ℝ) * h) ^ 2) + (-21/20) * (y ((n + 1) + 1) - ((((n + 1) + 1 : Nat) : ℝ) * h) ^ 2) + (1/5) * (y ((n + 1) + 0) - ((((n + 1) + 0 : Nat) : ℝ) * h) ^ 2) = (137/60) * (y (n + 4) - (((n + 4 : Nat) : ℝ) * h) ^ 2) + (-163/60) * (y (n + 3) - (((n + 3 : Nat) : ℝ) * h) ^ 2) + (137/60) * (y (n + 2) - (((n + 2 : Nat) : ℝ) * h) ^ 2) + (-21/20) * (y (n + 1) - (((n + 1 : Nat) : ℝ) * h) ^ 2) + (1/5) * (y (n + 0) - (((n + 0 : Nat) : ℝ) * h) ^ 2) + (0) * h ^ 2 := by
    intro n hn
    have s := st (n + 5) (by omega) (by omega)
    rw [if_neg (by simp)] at s
    rw [show min (n + 5) (max 1 5) = 5 by omega] at s
    norm_num [bdf, bdfRows, Finset.sum_range_succ] at s
    simp only [show n + 5 - 1 = n + 4 by omega, show n + 5 - 2 = n + 3 by omega, show n + 5 - 3 = n + 2 by omega, show n + 5 - 4 = n + 1 by omega, show n + 1 + 0 = n + 1 from rfl, show n + 1 + 1 = n + 2 from rfl, show n + 1 + 2 = n + 3 from rfl, show n + 1 + 3 = n + 4 from rfl, show n + 1 + 4 = n + 5 from rfl, show n + 1 + 5 = n + 6 from rfl, add_zero] at s ⊢
    push_cast
    linear_combination s
  have all : ∀ n, n + 4 ≤ N + 5 → (137/60) * (y (n + 4) - (((n + 4 : Nat) : ℝ) * h) ^ 2) + (-163/60) * (y (n + 3) - (((n + 3 : Nat) : ℝ) * h) ^ 2) + (137/60) * (y (n + 2) - (((n + 2 : Nat) : ℝ) * h) ^ 2) + (-21/20) * (y (n + 1) - (((n + 1 : Nat) : ℝ) * h) ^ 2) + (1/5) * (y (n + 0) - (((n + 0 : Nat) : ℝ) * h) ^ 2) = (33299/24750 + 0 * n) * h ^ 2 := by
    intro n
    induction n with
    | zero =>
      intro _
      norm_num [h0, e1, e2, e3, e4]
      ring
    | succ n ih =>
      intro hn
      rw [step n (by omega), ih (by omega)]
      push_cast
      ring
  have last := all N (by omega)
  have b0 := abs_le.1 (hB (N + 0) (by omega))
  have b1 := abs_le.1 (hB (N + 1) (by omega))
  have b2 := abs_le.1 (hB (N + 2) (by omega))
  have b3 := abs_le.1 (hB (N + 3) (by omega))
  have b4 := abs_le.1 (hB (N + 4) (by omega))
  have hN0 : (0 : ℝ) < N := by exact_mod_cast (by omega : 0 < N)
  have hp : 0 < h := by
    by_contra hneg
    push Not at hneg
    nlinarith
  have hq0 : 0 < h ^ 2 := by positivity
  simp only [add_zero, zero_mul] at last b0
  linarith [b0.1, b0.2, b1.1, b1.2, b2.1, b2.2, b3.1, b3.2, b4.1, b4.2]

theorem sharp_6_0 {h B : ℝ} {y : Nat → ℝ} {N : Nat} (hN : (N : ℝ) * h = 1) (hN5 : 5 ≤ N) (hs : Sourced 6 false 3 h y N)
    (hB : ∀ n, n ≤ N + 5 → |y n - (n * h) ^ 3| ≤ B) : h ^ 3 ≤ 100 * B := by
  obtain ⟨h0, st⟩ := hs
  have s1 := st 1 (by omega) (by omega)
  norm_num [bdf, bdfRows, Finset.sum_range_succ, h0] at s1
  have s2 := st 2 (by omega) (by omega)
  norm_num [bdf, bdfRows, Finset.sum_range_succ, h0] at s2
  have s3 := st 3 (by omega) (by omega)
  norm_num [bdf, bdfRows, Finset.sum_range_succ, h0] at s3
  have s4 := st 4 (by omega) (by omega)
  norm_num [bdf, bdfRows, Finset.sum_range_succ, h0] at s4
  have s5 := st 5 (by omega) (by omega)
  norm_num [bdf, bdfRows, Finset.sum_range_succ, h0] at s5
  have e1 : y 1 = (3/4) * h ^ 3 := by
    skip
    ring_nf at s1 ⊢
    linarith
  have e2 : y 2 = (9) * h ^ 3 := by
    simp only [e1] at s2
    ring_nf at s2 ⊢
    linarith
  have e3 : y 3 = (1269/44) * h ^ 3 := by
    simp only [e1, e2] at s3
    ring_nf at s3 ⊢
    linarith
  have e4 : y 4 = (18132/275) * h ^ 3 := by
    simp only [e1, e2, e3] at s4
    ring_nf at s4 ⊢
    linarith
  have e5 : y 5 = (764361/6028) * h ^ 3 := by
    simp only [e1, e2, e3, e4] at s5
    ring_nf at s5 ⊢
    linarith
  have step : ∀ n, n + 6 ≤ N + 5 → (49/20) * (y ((n + 1) + 5) - ((((n + 1) + 5 : Nat) : ℝ) * h) ^ 3) + (-71/20) * (y ((n + 1) + 4) - ((((n + 1) + 4 : Nat) : ℝ) * h) ^ 3) + (79/20) * (y ((n + 1) + 3) - ((((n + 1) + 3 : Nat) : ℝ) * h) ^ 3) + (-163/60) * (y ((n + 1) + 2) - ((((n + 1) + 2 : Nat) : ℝ) * h) ^ 3) + (31/30) * (y ((n + 1) + 1) - ((((n + 1) + 1 : Nat) : ℝ) * h) ^ 3) + (-1/6) * (y ((n + 1) + 0) - ((((n + 1) + 0 : Nat) : ℝ) * h) ^ 3) = (49/20) * (y (n + 5) - (((n + 5 : Nat) : ℝ) * h) ^ 3) + (-71/20) * (y (n + 4) - (((n + 4 : Nat) : ℝ) * h) ^ 3) + (79/20) * (y (n + 3) - (((n + 3 : Nat) : ℝ) * h) ^ 3) + (-163/60) * (y (n + 2) - (((n + 2 : Nat) : ℝ) * h) ^ 3) + (31/30) * (y (n + 1) - (((n + 1 : Nat) : ℝ) * h) ^ 3) + (-1/6) * (y (n + 0) - (((n + 0 : Nat) : ℝ) * h) ^ 3) + (0) * h ^ 3 := by
    intro n hn
    have s := st (n + 6) (by omega) (by omega)
    rw [if_neg (by simp)] at s
    rw [show min (n + 6) (max 1 6) = 6 by omega] at s
    norm_num [bdf, bdfRows, Finset.sum_range_succ] at s
    simp only [show n + 6 - 1 = n + 5 by omega, show n + 6 - 2 = n + 4 by omega, show n + 6 - 3 = n + 3 by omega, show n + 6 - 4 = n + 2 by omega, show n + 6 - 5 = n + 1 by omega, show n + 1 + 0 = n + 1 from rfl, show n + 1 + 1 = n + 2 from rfl, show n + 1 + 2 = n + 3 from rfl, show n + 1 + 3 = n + 4 from rfl, show n + 1 + 4 = n + 5 from rfl, show n + 1 + 5 = n + 6 from rfl, add_zero] at s ⊢
    push_cast
    linear_combination s
  have all : ∀ n, n + 5 ≤ N + 5 → (49/20) * (y (n + 5) - (((n + 5 : Nat) : ℝ) * h) ^ 3) + (-71/20) * (y (n + 4) - (((n + 4 : Nat) : ℝ) * h) ^ 3) + (79/20) * (y (n + 3) - (((n + 3 : Nat) : ℝ) * h) ^ 3) + (-163/60) * (y (n + 2) - (((n + 2 : Nat) : ℝ) * h) ^ 3) + (31/30) * (y (n + 1) - (((n + 1 : Nat) : ℝ) * h) ^ 3) + (-1/6) * (y (n + 0) - (((n + 0 : Nat) : ℝ) * h) ^ 3) = (252527/137000 + 0 * n) * h ^ 3 := by
    intro n
    induction n with
    | zero =>
      intro _
      norm_num [h0, e1, e2, e3, e4, e5]
      ring
    | succ n ih =>
      intro hn
      rw [step n (by omega), ih (by omega)]
      push_cast
      ring
  have last := all N (by omega)
  have b0 := abs_le.1 (hB (N + 0) (by omega))
  have b1 := abs_le.1 (hB (N + 1) (by omega))
  have b2 := abs_le.1 (hB (N + 2) (by omega))
  have b3 := abs_le.1 (hB (N + 3) (by omega))
  have b4 := abs_le.1 (hB (N + 4) (by omega))
  have b5 := abs_le.1 (hB (N + 5) (by omega))
  have hN0 : (0 : ℝ) < N := by exact_mod_cast (by omega : 0 < N)
  have hp : 0 < h := by
    by_contra hneg
    push Not at hneg
    nlinarith
  have hq0 : 0 < h ^ 3 := by positivity
  simp only [add_zero, zero_mul] at last b0
  linarith [b0.1, b0.2, b1.1, b1.2, b2.1, b2.2, b3.1, b3.2, b4.1, b4.2, b5.1, b5.2]

theorem sharp_6_1 {h B : ℝ} {y : Nat → ℝ} {N : Nat} (hN : (N : ℝ) * h = 1) (hN5 : 5 ≤ N) (hs : Sourced 6 true 2 h y N)
    (hB : ∀ n, n ≤ N + 5 → |y n - (n * h) ^ 2| ≤ B) : h ^ 2 ≤ 100 * B := by
  obtain ⟨h0, st⟩ := hs
  have s1 := st 1 (by omega) (by omega)
  norm_num [bdf, bdfRows, Finset.sum_range_succ, h0] at s1
  have s2 := st 2 (by omega) (by omega)
  norm_num [bdf, bdfRows, Finset.sum_range_succ, h0] at s2
  have s3 := st 3 (by omega) (by omega)
  norm_num [bdf, bdfRows, Finset.sum_range_succ, h0] at s3
  have s4 := st 4 (by omega) (by omega)
  norm_num [bdf, bdfRows, Finset.sum_range_succ, h0] at s4
  have s5 := st 5 (by omega) (by omega)
  norm_num [bdf, bdfRows, Finset.sum_range_succ, h0] at s5
  have e1 : y 1 = (2) * h ^ 2 := by
    skip
    ring_nf at s1 ⊢
    linarith
  have e2 : y 2 = (16/3) * h ^ 2 := by
    simp only [e1] at s2
    ring_nf at s2 ⊢
    linarith
  have e3 : y 3 = (114/11) * h ^ 2 := by
    simp only [e1, e2] at s3
    ring_nf at s3 ⊢
    linarith
  have e4 : y 4 = (4768/275) * h ^ 2 := by
    simp only [e1, e2, e3] at s4
    ring_nf at s4 ⊢
    linarith
  have e5 : y 5 = (119098/4521) * h ^ 2 := by
    simp only [e1, e2, e3, e4] at s5
    ring_nf at s5 ⊢
    linarith
  have step : ∀ n, n + 6 ≤ N + 5 → (49/20) * (y ((n + 1) + 5) - ((((n + 1) + 5 : Nat) : ℝ) * h) ^ 2) + (-71/20) * (y ((n + 1) + 4) - ((((n + 1) + 4 : Nat) : ℝ) * h) ^ 2) + (79/20) * (y ((n + 1) + 3) - ((((n + 1) + 3 : Nat) : ℝ) * h) ^ 2) + (-163/60) * (y ((n + 1) + 2) - ((((n + 1) + 2 : Nat) : ℝ) * h) ^ 2) + (31/30) * (y ((n + 1) + 1) - ((((n + 1) + 1 : Nat) : ℝ) * h) ^ 2) + (-1/6) * (y ((n + 1) + 0) - ((((n + 1) + 0 : Nat) : ℝ) * h) ^ 2) = (49/20) * (y (n + 5) - (((n + 5 : Nat) : ℝ) * h) ^ 2) + (-71/20) * (y (n + 4) - (((n + 4 : Nat) : ℝ) * h) ^ 2) + (79/20) * (y (n + 3) - (((n + 3 : Nat) : ℝ) * h) ^ 2) + (-163/60) * (y (n + 2) - (((n + 2 : Nat) : ℝ) * h) ^ 2) + (31/30) * (y (n + 1) - (((n + 1 : Nat) : ℝ) * h) ^ 2) + (-1/6) * (y (n + 0) - (((n + 0 : Nat) : ℝ) * h) ^ 2) + (0) * h ^ 2 := by
    intro n hn
    have s := st (n + 6) (by omega) (by omega)
    rw [if_neg (by simp)] at s
    rw [show min (n + 6) (max 1 6) = 6 by omega] at s
    norm_num [bdf, bdfRows, Finset.sum_range_succ] at s
    simp only [show n + 6 - 1 = n + 5 by omega, show n + 6 - 2 = n + 4 by omega, show n + 6 - 3 = n + 3 by omega, show n + 6 - 4 = n + 2 by omega, show n + 6 - 5 = n + 1 by omega, show n + 1 + 0 = n + 1 from rfl, show n + 1 + 1 = n + 2 from rfl, show n + 1 + 2 = n + 3 from rfl, show n + 1 + 3 = n + 4 from rfl, show n + 1 + 4 = n + 5 from rfl, show n + 1 + 5 = n + 6 from rfl, add_zero] at s ⊢
    push_cast
    linear_combination s
  have all : ∀ n, n + 5 ≤ N + 5 → (49/20) * (y (n + 5) - (((n + 5 : Nat) : ℝ) * h) ^ 2) + (-71/20) * (y (n + 4) - (((n + 4 : Nat) : ℝ) * h) ^ 2) + (79/20) * (y (n + 3) - (((n + 3 : Nat) : ℝ) * h) ^ 2) + (-163/60) * (y (n + 2) - (((n + 2 : Nat) : ℝ) * h) ^ 2) + (31/30) * (y (n + 1) - (((n + 1 : Nat) : ℝ) * h) ^ 2) + (-1/6) * (y (n + 0) - (((n + 0 : Nat) : ℝ) * h) ^ 2) = (412433/308250 + 0 * n) * h ^ 2 := by
    intro n
    induction n with
    | zero =>
      intro _
      norm_num [h0, e1, e2, e3, e4, e5]
      ring
    | succ n ih =>
      intro hn
      rw [step n (by omega), ih (by omega)]
      push_cast
      ring
  have last := all N (by omega)
  have b0 := abs_le.1 (hB (N + 0) (by omega))
  have b1 := abs_le.1 (hB (N + 1) (by omega))
  have b2 := abs_le.1 (hB (N + 2) (by omega))
  have b3 := abs_le.1 (hB (N + 3) (by omega))
  have b4 := abs_le.1 (hB (N + 4) (by omega))
  have b5 := abs_le.1 (hB (N + 5) (by omega))
  have hN0 : (0 : ℝ) < N := by exact_mod_cast (by omega : 0 < N)
  have hp : 0 < h := by
    by_contra hneg
    push Not at hneg
    nlinarith
  have hq0 : 0 < h ^ 2 := by positivity
  simp only [add_zero, zero_mul] at last b0
  linarith [b0.1, b0.2, b1.1, b1.2, b2.1, b2.2, b3.1, b3.2, b4.1, b4.2, b5.1, b5.2]

theorem sharp {scheme d : Nat} {noExtrap : Bool} (hsc : scheme ≤ 6) (hd : d = power scheme noExtrap) {h B : ℝ} {y : Nat → ℝ}
    {N : Nat} (hN : (N : ℝ) * h = 1) (hN5 : 5 ≤ N) (hs : Sourced scheme noExtrap d h y N)
    (hB : ∀ n, n ≤ N + 5 → |y n - (n * h) ^ d| ≤ B) : h ^ attained scheme noExtrap ≤ 100 * B := by
  subst hd
  interval_cases scheme <;> cases noExtrap
  · exact sharp_0_0 hN hN5 hs hB
  · exact sharp_0_1 hN hN5 hs hB
  · exact sharp_1_0 hN hN5 hs hB
  · exact sharp_1_1 hN hN5 hs hB
  · exact sharp_2_0 hN hN5 hs hB
  · exact sharp_2_1 hN hN5 hs hB
  · exact sharp_3_0 hN hN5 hs hB
  · exact sharp_3_1 hN hN5 hs hB
  · exact sharp_4_0 hN hN5 hs hB
  · exact sharp_4_1 hN hN5 hs hB
  · exact sharp_5_0 hN hN5 hs hB
  · exact sharp_5_1 hN hN5 hs hB
  · exact sharp_6_0 hN hN5 hs hB
  · exact sharp_6_1 hN hN5 hs hB

/-! ## A cell with a source that grows -/

/-- Nothing but a velocity. -/
def emptied : KMat ℝ where
  st := fun _ _ => 0
  sa := fun _ _ => 0
  sf := fun _ _ => 0
  nu := fun _ _ => 0
  nsf := fun _ _ => 0
  chi := fun _ _ => 0
  dc := fun _ _ => 1
  ss := fun _ _ _ => 0
  velocity := fun _ => 1
  lambda := fun _ => 1
  beta := fun _ _ => 0
  chid := fun _ _ _ => 0

/-- The flux of one cell in which nothing happens except for a source. -/
noncomputable def drained (S : KMat ℝ) (q : Nat → Nat → Nat → ℝ) (_ : Sol ℝ) : (Nat → Nat → ℝ) × (Nat → Nat → Nat → ℝ) :=
  (fun g i => q g 0 i / S.st 0 g, fun g a i => q g a i / S.st 0 g)

/-- One cell, one group, in diffusion, with the source `d t ^ (d - 1)`. -/
noncomputable def filling (scheme : Nat) (noExtrap : Bool) (d : Nat) : Sys ℝ where
  G := 1
  N := 1
  np := 0
  A := 1
  NV := 0
  mt := fun _ => 0
  w := fun _ => 1
  norm := 1
  multiply := false
  discrete := false
  noExtrap := noExtrap
  scheme := scheme
  dt := 1
  k := 1
  maxIter := 1
  impl := fun _ _ _ => emptied
  ext := fun t _ _ _ => d * t ^ (d - 1)
  solve := drained
  rhs := fun _ _ _ _ _ => 0
  conv := fun _ _ => true

section filling
variable (scheme : Nat) (noExtrap : Bool) (d : Nat)

theorem filling_timed : Timed (filling scheme noExtrap d) (fun _ _ => emptied) (fun _ => 1) (fun _ => 1) :=
  ⟨fun _ _ _ _ _ => rfl, fun _ _ => rfl, fun _ _ => rfl⟩

theorem filling_fits : Stored (filling scheme noExtrap d) := Or.inr ⟨rfl, mul_one 1⟩

theorem filling_tame (T : ℝ) : Tame (filling scheme noExtrap d) (fun _ _ _ _ _ => 0) (fun _ => emptied) T where
  velocity := fun _ _ => .const _
  st := fun _ _ _ _ => .const _
  ss := fun _ _ _ _ _ _ => .const _
  chi := fun _ _ _ _ => .const _
  fission := fun _ _ _ _ => .const _
  beta := fun _ _ _ _ => .const _
  lambda := fun _ _ => .const _
  chid := fun _ _ _ _ _ _ => .const _
  streaming := ⟨0, le_rfl, fun _ _ _ _ _ _ _ _ _ _ _ _ => by simp⟩
  same := fun _ _ _ => rfl

theorem filling_rate (t : ℝ) (psi : Nat → Nat → Nat → ℝ) (phi C : Nat → Nat → ℝ) (g a i : Nat) :
    rate (filling scheme noExtrap d) (fun _ _ _ _ _ => 0) emptied t psi phi C g a i = d * t ^ (d - 1) := by
  simp [rate, filling, emptied]

theorem filling_evolves (T : ℝ) : Evolves (filling scheme noExtrap d) (fun _ _ _ _ _ => 0) (fun _ => emptied) T
    (fun t _ _ _ => t ^ d) (fun _ _ _ => 0) where
  flux := fun t _ g a i _ _ _ => by
    rw [filling_rate]
    exact (hasDerivAt_pow d t).hasDerivWithinAt
  prec := fun h => absurd h (by simp [filling])
  initial := fun h => absurd h (by simp [filling])

theorem filling_smooth (T : ℝ) (n : Nat) : Smooth (filling scheme noExtrap d) T (fun t _ _ _ => t ^ d) (fun _ _ _ => 0) n where
  flux := fun _ _ _ _ _ _ => (contDiff_id.pow d).contDiffOn
  prec := fun _ _ _ _ _ => contDiffOn_const

theorem filling_solved (dt : ℝ) (conv : Sol ℝ → Sol ℝ → Bool) (limit : Nat) :
    SolvedTo (refined (filling scheme noExtrap d) dt drained conv limit) (fun _ _ _ _ _ => 0) (fun _ _ => emptied) 0 := by
  intro o h t P h1 h6 hh _ q s S
  have hst : S.st 0 0 ≠ 0 := by
    show 0 + bdf o 0 / (1 * h) ≠ 0
    rw [zero_add, one_mul]
    exact (div_pos (bdf_pos o h1 h6) hh).ne'
  constructor
  · intro g a i hg ha hi
    obtain rfl : g = 0 := Nat.lt_one_iff.1 hg
    obtain rfl : a = 0 := Nat.lt_one_iff.1 ha
    obtain rfl : i = 0 := Nat.lt_one_iff.1 hi
    have hss : S.ss 0 0 0 = 0 := rfl
    simp only [resid, refined, filling, drained, Finset.sum_range_one, hss]
    rw [mul_div_cancel₀ _ hst]
    simp
  · intro g i hg hi
    obtain rfl : g = 0 := Nat.lt_one_iff.1 hg
    simp [refined, filling, drained]

theorem filling_ready (dt : ℝ) (conv : Sol ℝ → Sol ℝ → Bool) (limit : Nat) :
    Ready (refined (filling scheme noExtrap d) dt drained conv limit) (fun _ => 1) (fun _ => 1)
      ((refined (filling scheme noExtrap d) dt drained conv limit).new emptied fun _ _ => 0) := by
  refine ⟨rfl, rfl, ?_, ?_⟩
  · exact (List.length_range).trans (orderOf_eq scheme)
  · simp only [Sys.new, Hist.new]
    exact List.nodup_range

end filling

/-- No scheme converges faster than `attained` says. -/
theorem not_faster {scheme q : Nat} {noExtrap : Bool} (hsc : scheme ≤ 6) (hq : attained scheme noExtrap < q) :
    ¬HasOrder scheme noExtrap q := by
  intro hall
  set d := power scheme noExtrap with hd
  set x := filling scheme noExtrap d with hx
  have hd0 : d ≠ 0 := by rw [hd, power]; split <;> omega
  obtain ⟨Kc, h0, hK, hh0, hc⟩ := hall x (fun _ _ _ _ _ => 0) (fun _ => emptied) (fun _ => 1) (fun _ => 1) rfl rfl
    (filling_timed _ _ _) (fun _ _ => one_pos) (fun _ _ => one_pos) (filling_fits _ _ _) 2 two_pos (filling_tame _ _ _ _) _ _
    (filling_evolves _ _ _ _) (filling_smooth _ _ _ _)
  obtain ⟨Ka, hKa, fol⟩ := follows x (fun _ _ _ _ _ => 0) (fun _ => emptied) (fun _ => 1) (fun _ => 1) (filling_timed _ _ _)
    (fun _ _ => one_pos) (fun _ _ => one_pos) hsc (filling_fits _ _ _) 2 (filling_tame _ _ _ _) _ _ (filling_evolves _ _ _ _)
  obtain ⟨N, hNb⟩ := exists_nat_gt (5 + 1 / h0 + 100 * Kc)
  have h0i : 0 < 1 / h0 := by positivity
  have hN5 : (5 : ℝ) < N := by linarith
  have hN0 : (0 : ℝ) < N := by linarith
  have hN5' : 5 ≤ N := by exact_mod_cast hN5.le
  set h : ℝ := 1 / N with hh
  have hp : 0 < h := by positivity
  have hN : (N : ℝ) * h = 1 := by rw [hh]; field_simp
  have hle : h ≤ h0 := by
    rw [hh, div_le_iff₀ hN0]
    have h1 : 1 / h0 ≤ N := by linarith
    rwa [div_le_iff₀ hh0, mul_comm] at h1
  have htime : ∀ n : Nat, n ≤ N + 5 → (n : ℝ) * h ≤ 2 := by
    intro n hn
    have h1 : (n : ℝ) ≤ N + 5 := by exact_mod_cast hn
    calc (n : ℝ) * h ≤ (N + 5) * h := mul_le_mul_of_nonneg_right h1 hp.le
      _ ≤ (N + N) * h := mul_le_mul_of_nonneg_right (by linarith) hp.le
      _ = 2 := by rw [add_mul, hN]; norm_num
  have hready := filling_ready scheme noExtrap d h (fun _ _ => true) 1
  have hsolved := filling_solved scheme noExtrap d h (fun _ _ => true) 1
  have hphi0 : ∀ g i, g < x.G → i < x.N → (fun _ _ => 0 : Nat → Nat → ℝ) g i = flux x ((fun t _ _ _ => t ^ d : ℝ → Nat → Nat → Nat → ℝ) 0) g i := by
    intro g i _ _
    simp [flux, hx, filling, zero_pow hd0]
  have hpsi0 : x.discrete = true → ∀ g a i, g < x.G → a < x.A → i < x.N →
      (fun _ _ _ => 0 : Nat → Nat → Nat → ℝ) g a i = (fun t _ _ _ => t ^ d : ℝ → Nat → Nat → Nat → ℝ) 0 g a i :=
    fun h => absurd h (by simp [hx, filling])
  obtain ⟨sol, htr, hy0, hsteps, hphi⟩ := fol h 0 drained (fun _ _ => true) 1 hp le_rfl le_rfl hsolved (fun _ _ => 0)
    (fun _ _ _ => 0) _ hready hphi0 hpsi0
  have hcon := hc h 0 drained (fun _ _ => true) 1 hp hle le_rfl le_rfl hsolved (fun _ _ => 0) (fun _ _ _ => 0) _ hready hphi0 hpsi0
  set c : Unknown x := .inl (⟨0, Nat.one_pos⟩, ⟨0, Nat.one_pos⟩, ⟨0, Nat.one_pos⟩) with hcdef
  set y : Nat → ℝ := fun n => held x (sol n) c with hy
  have hyphi : ∀ n, y n = (sol n).phi 0 0 := by
    intro n
    simp [hy, hcdef, held, vec, past, hx, filling]
  have hfield : ∀ t u, field x (fun _ _ _ _ _ => 0) (fun _ => emptied) t u c = d * t ^ (d - 1) := fun t u =>
    filling_rate scheme noExtrap d t _ _ _ _ _ _
  have hs : Sourced scheme noExtrap d h y N := by
    refine ⟨?_, fun n h1 h2 => ?_⟩
    · have := congrFun hy0 c
      rw [hy]
      refine this.trans ?_
      simp [hcdef, vec, zero_pow hd0]
    · have hst := hsteps n h1 (htime n h2)
      simp only [mul_zero, zero_div, add_zero] at hst
      by_cases hcase : scheme = 0 ∨ (decide (2 ≤ scheme) && !noExtrap) = true ∧ n = 1
      · rw [if_pos hcase]
        rw [if_pos (show halved x n from hcase)] at hst
        have := hst c
        rw [hfield, mul_zero, abs_nonpos_iff, sub_eq_zero] at this
        exact this
      · rw [if_neg hcase]
        rw [if_neg (show ¬halved x n from hcase)] at hst
        have := hst c
        rw [hfield, mul_zero, abs_nonpos_iff, sub_eq_zero] at this
        exact this
  have hB : ∀ n, n ≤ N + 5 → |y n - (n * h) ^ d| ≤ Kc * h ^ q := by
    intro n hn
    obtain ⟨r', s, l, hrun, hflux, -, -⟩ := hcon n (htime n hn)
    obtain ⟨r'', hrun'⟩ := htr n
    rw [hrun'] at hrun
    rw [List.range_succ, List.reverse_append, List.reverse_singleton, List.singleton_append, List.map_cons] at hrun
    simp only [Option.some.injEq, Prod.mk.injEq, List.cons.injEq] at hrun
    have h1 := hflux 0 0 Nat.one_pos Nat.one_pos
    rw [← hrun.2.1, zero_div, add_zero] at h1
    rw [hyphi]
    have h2 : flux x ((fun t _ _ _ => t ^ d : ℝ → Nat → Nat → Nat → ℝ) (n * h)) 0 0 = (n * h) ^ d := by simp [flux, hx, filling]
    rw [← h2]
    exact h1
  have key := sharp hsc hd hN hN5' hs hB
  have hh1 : h ≤ 1 := by rw [hh, div_le_one hN0]; linarith
  have h1 : h ^ q ≤ h ^ (attained scheme noExtrap + 1) := pow_le_pow_of_le_one hp.le hh1 hq
  have h2 : h ^ attained scheme noExtrap ≤ 100 * Kc * h * h ^ attained scheme noExtrap := by
    calc h ^ attained scheme noExtrap ≤ 100 * (Kc * h ^ q) := key
      _ ≤ 100 * (Kc * h ^ (attained scheme noExtrap + 1)) := by
        refine mul_le_mul_of_nonneg_left (mul_le_mul_of_nonneg_left h1 hK) (by norm_num)
      _ = _ := by ring
  have h3 : 0 < h ^ attained scheme noExtrap := by positivity
  have h4 : 1 ≤ 100 * Kc * h := by
    by_contra hlt
    push Not at hlt
    nlinarith
  have h5 : (N : ℝ) ≤ 100 * Kc := by
    have := mul_le_mul_of_nonneg_left h4 hN0.le
    calc (N : ℝ) = N * 1 := (mul_one _).symm
      _ ≤ N * (100 * Kc * h) := this
      _ = 100 * Kc * (N * h) := by ring
      _ = 100 * Kc := by rw [hN, mul_one]
  linarith

/-- **C142.**  Transients of scheme `scheme` converge at order `q` for every smooth solution exactly up to the order
    `attained`: two for the midpoint rule, one and two for the first two implicit differences, three for those of order three
    to six, and two for the latter if extrapolation is turned off. -/
theorem C142_exactly_partial (scheme : Nat) (noExtrap : Bool) (hsc : scheme ≤ 6) (q : Nat) :
    HasOrder scheme noExtrap q ↔ q ≤ attained scheme noExtrap := by
  constructor
  · intro h
    by_contra hq
    push Not at hq
    exact not_faster hsc hq h
  · intro hq x stream data V L hs hn hx hV hL hf T hT hb psi C ev sm
    subst hs hn
    obtain ⟨Kc, h0, hK, hh0, hc⟩ := C142_order_partial x stream data V L hx hV hL hsc hf T hT hb psi C ev (sm _)
    refine ⟨Kc, min h0 1, hK, lt_min hh0 one_pos, ?_⟩
    intro dt e solve conv limit hdt hle he hlim hsolve phi0 psi0 r hr h1 h2 n hn
    obtain ⟨r', s, l, hrun, f1, f2, f3⟩ := hc dt e solve conv limit hdt (hle.trans (min_le_left _ _)) he hlim hsolve phi0 psi0 r hr h1
      h2 n hn
    have hmon : Kc * (dt ^ attained x.scheme x.noExtrap + e / dt) ≤ Kc * (dt ^ q + e / dt) :=
      mul_le_mul_of_nonneg_left (add_le_add (pow_le_pow_of_le_one hdt.le (hle.trans (min_le_right _ _)) hq) le_rfl) hK
    exact ⟨r', s, l, hrun, fun g i hg hi => (f1 g i hg hi).trans hmon, fun hd g a i hg ha hi => (f2 hd g a i hg ha hi).trans hmon,
      fun hm p i hp hi => (f3 hm p i hp hi).trans hmon⟩

/-- **C142.**  A scheme attains the order it is named after exactly if that is at most two, or three with extrapolation. -/
theorem C142_nominal_partial (scheme : Nat) (noExtrap : Bool) (hsc : scheme ≤ 6) :
    HasOrder scheme noExtrap (nominal scheme) ↔ scheme ≤ 2 ∨ scheme = 3 ∧ noExtrap = false := by
  rw [C142_exactly_partial scheme noExtrap hsc]
  interval_cases scheme <;> cases noExtrap <;> decide

/-- The claim fails for the schemes of order four, five and six. -/
theorem C142_claim_fails : ¬C142Claim := by
  intro h
  have := (C142_nominal_partial 4 false (by norm_num)).1 (h 4 false (by norm_num))
  omega

/-! ## A reactor above critical -/

/-- Fission with one precursor group, half of the neutrons delayed. -/
noncomputable def fuel : KMat ℝ where
  st := fun _ _ => 2
  sa := fun _ _ => 2
  sf := fun _ _ => 4
  nu := fun _ _ => 1
  nsf := fun _ _ => 4
  chi := fun _ _ => 1
  dc := fun _ _ => 1
  ss := fun _ _ _ => 0
  velocity := fun _ => 1
  lambda := fun _ => 1
  beta := fun _ _ => 1 / 2
  chid := fun _ _ _ => 1

/-- Fluxes with fission at once. -/
noncomputable def fissioned (S : KMat ℝ) (q : Nat → Nat → Nat → ℝ) (_ : Sol ℝ) : (Nat → Nat → ℝ) × (Nat → Nat → Nat → ℝ) :=
  (fun g i => q g 0 i / (S.st 0 g - S.chi 0 g * S.nsf 0 g), fun g a i => q g a i / (S.st 0 g - S.chi 0 g * S.nsf 0 g))

noncomputable def reactor (scheme : Nat) (noExtrap : Bool) : Sys ℝ where
  G := 1
  N := 1
  np := 1
  A := 1
  NV := 0
  mt := fun _ => 0
  w := fun _ => 1
  norm := 1
  multiply := true
  discrete := true
  noExtrap := noExtrap
  scheme := scheme
  dt := 1
  k := 1
  maxIter := 1
  impl := fun _ _ _ => fuel
  ext := fun _ _ _ _ => 0
  solve := fissioned
  rhs := fun _ _ _ _ _ => 0
  conv := fun _ _ => true

section reactor
variable (scheme : Nat) (noExtrap : Bool)

theorem reactor_timed : Timed (reactor scheme noExtrap) (fun _ _ => fuel) (fun _ => 1) (fun _ => 1) :=
  ⟨fun _ _ _ _ _ => rfl, fun _ _ => rfl, fun _ _ => rfl⟩

theorem reactor_tame (T : ℝ) : Tame (reactor scheme noExtrap) (fun _ _ _ _ _ => 0) (fun _ => fuel) T where
  velocity := fun _ _ => .const _
  st := fun _ _ _ _ => .const _
  ss := fun _ _ _ _ _ _ => .const _
  chi := fun _ _ _ _ => .const _
  fission := fun _ _ _ _ => .const _
  beta := fun _ _ _ _ => .const _
  lambda := fun _ _ => .const _
  chid := fun _ _ _ _ _ _ => .const _
  streaming := ⟨0, le_rfl, fun _ _ _ _ _ _ _ _ _ _ _ _ => by simp⟩
  same := fun _ _ _ => rfl

/-- The flux rises like `4 exp t - exp (-2 t)`. -/
theorem reactor_evolves (T : ℝ) : Evolves (reactor scheme noExtrap) (fun _ _ _ _ _ => 0) (fun _ => fuel) T
    (fun t _ _ _ => 4 * Real.exp t - Real.exp (-2 * t)) (fun t _ _ => 4 * Real.exp t + 2 * Real.exp (-2 * t)) := by
  have h2 : ∀ t : ℝ, HasDerivAt (fun t => Real.exp (-2 * t)) (-2 * Real.exp (-2 * t)) t := by
    intro t
    have h := (((hasDerivAt_id t).const_mul (-2 : ℝ)).exp)
    exact h.congr_deriv (by simp [mul_comm])
  refine ⟨fun t _ g a i _ _ _ => ?_, fun _ t _ p i _ _ => ?_, fun _ p i _ _ => ?_⟩
  · refine ((((Real.hasDerivAt_exp t).const_mul 4).sub (h2 t)).congr_deriv ?_).hasDerivWithinAt
    simp only [rate, production, flux, reactor, fuel, Finset.sum_range_one, if_true]
    ring
  · refine ((((Real.hasDerivAt_exp t).const_mul 4).add ((h2 t).const_mul 2)).congr_deriv ?_).hasDerivWithinAt
    simp only [production, flux, reactor, fuel, Finset.sum_range_one]
    ring
  · simp only [production, flux, reactor, fuel, Finset.sum_range_one]
    norm_num

theorem reactor_smooth (T : ℝ) (n : Nat) : Smooth (reactor scheme noExtrap) T
    (fun t _ _ _ => 4 * Real.exp t - Real.exp (-2 * t)) (fun t _ _ => 4 * Real.exp t + 2 * Real.exp (-2 * t)) n := by
  have h1 : ContDiff ℝ n fun t : ℝ => 4 * Real.exp t := contDiff_const.mul Real.contDiff_exp
  have h2 : ContDiff ℝ n fun t : ℝ => Real.exp (-2 * t) := Real.contDiff_exp.comp (contDiff_const.mul contDiff_id)
  exact ⟨fun _ _ _ _ _ _ => (h1.sub h2).contDiffOn, fun _ _ _ _ _ => (h1.add (contDiff_const.mul h2)).contDiffOn⟩

/-- Every scheme follows it, at its order. -/
example (hsc : scheme ≤ 6) (T : ℝ) (hT : 0 < T) : ∃ Kc h0, 0 ≤ Kc ∧ 0 < h0 ∧
    Converges (reactor scheme noExtrap) (fun _ _ _ _ _ => 0) (fun _ => fuel) (fun _ => 1) (fun _ => 1) T
      (fun t _ _ _ => 4 * Real.exp t - Real.exp (-2 * t)) (fun t _ _ => 4 * Real.exp t + 2 * Real.exp (-2 * t))
      (attained scheme noExtrap) Kc h0 :=
  C142_order_partial _ _ _ _ _ (reactor_timed _ _) (fun _ _ => one_pos) (fun _ _ => one_pos) hsc (Or.inl rfl) T hT
    (reactor_tame _ _ _) _ _ (reactor_evolves _ _ _) (reactor_smooth _ _ _ _)

/-- With short steps there are solvers that leave nothing, although there are none for some longer ones. -/
theorem reactor_solved (dt : ℝ) (h0 : 0 < dt) (h1 : dt ≤ 1 / 2) : SolvedTo (refined (reactor scheme noExtrap) dt fissioned (fun _ _ => true) 1)
    (fun _ _ _ _ _ => 0) (fun _ _ => fuel) 0 := by
  intro o h t P o1 o6 hh hst q s S
  have hle : h ≤ 1 / 2 := by
    rcases hst with e | e
    · exact e.le.trans h1
    · have e' : h = dt / 2 := e
      linarith
  have hb : (1 : ℝ) ≤ bdf o 0 := by interval_cases o <;> norm_num [bdf, bdfRows]
  have e1 : S.st 0 0 = 2 + bdf o 0 / (1 * h) := rfl
  have e2 : S.chi 0 0 * S.nsf 0 0 = 2 + 2 * h / (bdf o 0 + h) := by
    have e3 : S.nsf 0 0 = 4 := by
      show (1 : ℝ) * (4 / 1) = 4
      norm_num
    have e4 : S.chi 0 0 = 1 / 2 + h * (1 / 2) / (bdf o 0 + h) := by
      norm_num [S, stepMat, setNsf, adjust, refined, reactor, fuel, KMat.betaTotal, List.range_succ]
    rw [e3, e4]
    have : bdf o 0 + h ≠ 0 := by positivity
    field_simp
    ring
  have hpos : 0 < S.st 0 0 - S.chi 0 0 * S.nsf 0 0 := by
    rw [e1, e2, one_mul]
    have a1 : 1 ≤ bdf o 0 / h := by rw [le_div_iff₀ hh]; linarith
    have a2 : 2 * h / (bdf o 0 + h) < 1 := by rw [div_lt_one (by linarith)]; linarith
    linarith
  constructor
  · intro g a i hg ha hi
    obtain rfl : g = 0 := Nat.lt_one_iff.1 hg
    obtain rfl : a = 0 := Nat.lt_one_iff.1 ha
    obtain rfl : i = 0 := Nat.lt_one_iff.1 hi
    have hss : S.ss 0 0 0 = 0 := rfl
    have hq : (S.st 0 0 - S.chi 0 0 * S.nsf 0 0) * (q 0 0 0 / (S.st 0 0 - S.chi 0 0 * S.nsf 0 0)) = q 0 0 0 :=
      mul_div_cancel₀ _ hpos.ne'
    refine abs_nonpos_iff.2 ?_
    simp only [resid, refined, reactor, fissioned, Finset.sum_range_one, hss, if_true]
    linear_combination hq
  · intro g i hg hi
    obtain rfl : g = 0 := Nat.lt_one_iff.1 hg
    simp [refined, reactor, fissioned]

end reactor

end Detran.Kin
