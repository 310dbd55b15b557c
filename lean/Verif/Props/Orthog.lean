import Verif.Model.Orthog
import Mathlib.Algebra.BigOperators.Ring.Finset
import Mathlib.Algebra.BigOperators.Field
import Mathlib.Algebra.BigOperators.Intervals
import Mathlib.Algebra.Order.BigOperators.Group.Finset
import Mathlib.Algebra.Order.Field.Basic
import Mathlib.LinearAlgebra.Matrix.NonsingularInverse
import Mathlib.Data.Rat.Defs
import Mathlib.Algebra.Order.Ring.Rat
import Mathlib.Tactic.Ring
import Mathlib.Tactic.Linarith
import Mathlib.Tactic.Positivity
import Mathlib.Tactic.FieldSimp
import Mathlib.Tactic.LinearCombination
import Mathlib.Tactic.IntervalCases

/-!
# Basis expansions (C49), the discrete Legendre basis (C79) and the discrete Chebyshev basis (C80)
-/

namespace Detran.Orthog

variable {K : Type} [Field K]

theorem acc_eq (n : Nat) (f : Nat → K) : acc n f = ∑ i ∈ Finset.range n, f i := by
  unfold acc
  induction n with
  | zero => simp
  | succ n ih =>
    rw [List.range_succ, List.foldl_append, ih, Finset.sum_range_succ]
    rfl

/-! ## Specification -/

/-- Weight of position `j`: one without weights. -/
def wt (w : Option (Nat → K)) (j : Nat) : K := w.elim 1 (· j)

/-- Weighted inner product of columns `i` and `k` of a matrix with `n` rows. -/
def inner (n : Nat) (w : Option (Nat → K)) (P : Nat → Nat → K) (i k : Nat) : K :=
  ∑ j ∈ Finset.range n, wt w j * P j i * P j k

/-- The columns up to `m` are orthogonal and none has norm zero. -/
def Orthogonal (n m : Nat) (w : Option (Nat → K)) (P : Nat → Nat → K) : Prop :=
  (∀ i, i ≤ m → inner n w P i i ≠ 0) ∧ ∀ i, i ≤ m → ∀ k, k ≤ m → i ≠ k → inner n w P i k = 0

/-- The coefficients `a` normalise the columns. -/
def Normalised (B : Basis K) : Prop :=
  ∃ a, B.a = some a ∧ ∀ i, i ≤ B.order → ∀ k, k ≤ B.order →
    inner B.size B.w B.P i k * a i = if i = k then 1 else 0

theorem times_eq (w : Option (Nat → K)) (f : Nat → K) (j : Nat) : times w f j = wt w j * f j := by
  cases w with
  | none => simp [times, wt]
  | some w => simp [times, wt, mul_comm]

theorem val_eq (B : Basis K) (i : Nat) : B.val i = 1 / inner B.size B.w B.P i i := by
  unfold Basis.val inner
  rw [acc_eq]
  simp only [times_eq]

theorem transform_eq (B : Basis K) (f : Nat → K) (l : Nat) :
    B.transform f l = ∑ j ∈ Finset.range B.size, wt B.w j * f j * B.P j l := by
  unfold Basis.transform
  rw [acc_eq]
  simp only [times_eq]

/-! ## C49 -/

/-- C49: `fold` and `transform` compute the same coefficient, the weighted inner product with the column. -/
theorem C49_fold (B : Basis K) (f : Nat → K) (l : Nat) :
    B.fold l f = B.transform f l ∧ B.fold l f = ∑ j ∈ Finset.range B.size, wt B.w j * f j * B.P j l := by
  have h : B.fold l f = ∑ j ∈ Finset.range B.size, wt B.w j * f j * B.P j l := by
    unfold Basis.fold
    rw [acc_eq]
    refine Finset.sum_congr rfl fun j _ => ?_
    rw [times_eq, mul_comm]
  exact ⟨h.trans (transform_eq B f l).symm, h⟩

/-- C49: normalisation: whatever the option, orthogonal columns become normalised ones, and orthonormal
    bases have unit norms. -/
theorem C49_normalise (sq : K → K) (on : Bool) (B : Basis K)
    (h : Orthogonal B.size B.order B.w B.P)
    (hsq : on = true → ∀ i, i ≤ B.order → sq (B.val i) * sq (B.val i) = B.val i) :
    Normalised (B.computeA sq on) ∧
      (on = true → ∀ i, i ≤ B.order → ∀ k, k ≤ B.order →
        inner B.size B.w (B.computeA sq on).P i k = if i = k then 1 else 0) ∧
      (on = false → (B.computeA sq on).P = B.P) := by
  have key : on = true → ∀ i, i ≤ B.order → ∀ k, k ≤ B.order →
        inner B.size B.w (B.computeA sq on).P i k = if i = k then 1 else 0 := by
    intro hon i hi k hk
    subst hon
    have e : inner B.size B.w (B.computeA sq true).P i k =
        sq (B.val i) * sq (B.val k) * inner B.size B.w B.P i k := by
      unfold inner Basis.computeA
      rw [Finset.mul_sum]
      refine Finset.sum_congr rfl fun j _ => ?_
      simp only [if_true, hi, hk]
      ring
    rw [e]
    by_cases hik : i = k
    · subst hik
      rw [hsq rfl i hi, val_eq, if_pos rfl, one_div, inv_mul_cancel₀ (h.1 i hi)]
    · rw [h.2 i hi k hk hik, mul_zero, if_neg hik]
  refine ⟨?_, key, ?_⟩
  · cases on with
    | true =>
      refine ⟨fun _ => 1, rfl, fun i hi k hk => ?_⟩
      have := key rfl i hi k hk
      rw [mul_one]
      exact this
    | false =>
      refine ⟨B.val, rfl, fun i hi k hk => ?_⟩
      show inner B.size B.w B.P i k * B.val i = _
      by_cases hik : i = k
      · subst hik
        rw [val_eq, if_pos rfl, one_div, mul_inv_cancel₀ (h.1 i hi)]
      · rw [h.2 i hi k hk hik, zero_mul, if_neg hik]
  · intro hon
    subst hon
    rfl

theorem inner_comm (n : Nat) (w : Option (Nat → K)) (P : Nat → Nat → K) (i k : Nat) :
    inner n w P i k = inner n w P k i := by
  unfold inner
  exact Finset.sum_congr rfl fun j _ => by ring

/-- C49: transforming a reconstruction returns the coefficients it was made from, also for a truncated
    basis. -/
theorem C49_projection (B : Basis K) (h : Normalised B) (c : Nat → K) :
    ∃ f, B.inverse c = some f ∧ ∀ l, l ≤ B.order → B.transform f l = c l := by
  obtain ⟨a, ha, hn⟩ := h
  refine ⟨_, by unfold Basis.inverse; rw [ha], fun l hl => ?_⟩
  rw [transform_eq]
  simp only [acc_eq, Finset.mul_sum, Finset.sum_mul]
  rw [Finset.sum_comm]
  have e : ∀ i ∈ Finset.range (B.order + 1),
      ∑ j ∈ Finset.range B.size, wt B.w j * (c i * a i * B.P j i) * B.P j l =
        c i * (if i = l then 1 else 0) := by
    intro i hi
    rw [← hn i (by rw [Finset.mem_range] at hi; omega) l hl, inner, Finset.sum_mul, Finset.mul_sum]
    exact Finset.sum_congr rfl fun j _ => by ring
  rw [Finset.sum_congr rfl e]
  simp only [mul_ite, mul_one, mul_zero]
  rw [Finset.sum_ite_eq' , if_pos (by rw [Finset.mem_range]; omega)]

/-- C49: for a complete basis, reconstruction of the transform is the vector itself. -/
theorem C49_roundtrip (B : Basis K) (h : Normalised B) (hc : B.order + 1 = B.size) (f : Nat → K) :
    ∃ g, B.inverse (B.transform f) = some g ∧ ∀ j, j < B.size → g j = f j := by
  obtain ⟨a, ha, hn⟩ := h
  refine ⟨_, by unfold Basis.inverse; rw [ha], fun j hj => ?_⟩
  -- the matrix of the reconstruction and of the transform
  let N := B.size
  let M : Matrix (Fin N) (Fin N) K := fun l j => wt B.w j * B.P j l * a l
  let Q : Matrix (Fin N) (Fin N) K := fun j l => B.P j l
  have hMQ : M * Q = 1 := by
    ext l k
    rw [Matrix.mul_apply, Matrix.one_apply]
    have e := hn l (by have := l.2; omega) k (by have := k.2; omega)
    rw [inner, Finset.sum_mul, ← Fin.sum_univ_eq_sum_range
      (fun j => wt B.w j * B.P j l * B.P j k * a l)] at e
    calc ∑ j, M l j * Q j k = ∑ j : Fin N, wt B.w j * B.P j l * B.P j k * a l :=
          Finset.sum_congr rfl fun j _ => by simp only [M, Q]; ring
      _ = if (l : ℕ) = k then 1 else 0 := e
      _ = _ := by simp only [Fin.ext_iff]
  have hQM : Q * M = 1 := mul_eq_one_comm.mp hMQ
  have row : ∀ j' : Fin N, ∑ l : Fin N, Q ⟨j, hj⟩ l * M l j' = if j = j' then 1 else 0 := by
    intro j'
    have := congrFun (congrFun hQM ⟨j, hj⟩) j'
    rw [Matrix.mul_apply, Matrix.one_apply] at this
    rw [this]
    simp only [Fin.ext_iff]
  simp only [acc_eq, transform_eq, hc]
  rw [← Fin.sum_univ_eq_sum_range
    (fun l => (∑ j ∈ Finset.range B.size, wt B.w j * f j * B.P j l) * a l * B.P j l)]
  have e2 : ∀ l : Fin N, (∑ j ∈ Finset.range B.size, wt B.w j * f j * B.P j l) * a l * B.P j l =
      ∑ j' : Fin N, f j' * (Q ⟨j, hj⟩ l * M l j') := by
    intro l
    rw [← Fin.sum_univ_eq_sum_range (fun j => wt B.w j * f j * B.P j l), Finset.sum_mul,
      Finset.sum_mul]
    exact Finset.sum_congr rfl fun j' _ => by simp only [M, Q]; ring
  rw [Finset.sum_congr rfl fun l _ => e2 l, Finset.sum_comm]
  simp only [← Finset.mul_sum, row]
  rw [Finset.sum_eq_single (⟨j, hj⟩ : Fin N)]
  · simp
  · intro b _ hb
    rw [if_neg, mul_zero]
    intro e
    exact hb (Fin.ext e.symm)
  · intro hh
    exact absurd (Finset.mem_univ _) hh

/-- C49 (negation): the shared-pointer form of `inverse` overwrites the coefficients it is given and
    leaves the output vector as it was, whatever the basis. -/
theorem C49_inverse_ptr_wrong (B : Basis K) (c f : Nat → K) (r : (Nat → K) × (Nat → K))
    (h : B.inversePtr c f = some r) : r.2 = f ∧ B.inverse f = some r.1 := by
  unfold Basis.inversePtr at h
  rw [Option.map_eq_some_iff] at h
  obtain ⟨g, h1, h2⟩ := h
  rw [← h2]
  exact ⟨rfl, h1⟩

/-- C49 (negation): reconstruction with the delta basis reads a null pointer, for every size. -/
theorem C49_ddf_inverse_wrong (size order : Nat) (w : Option (Nat → K)) (B : Basis K)
    (h : ddfBasis size order w = some B) (c : Nat → K) : B.inverse c = none := by
  unfold ddfBasis at h
  split at h
  · cases h
    rfl
  · cases h

/-- C49 (negation): `unfold` of a truncated basis reads outside the matrix; otherwise it returns the
    last column's entry times the sum of all coefficients. -/
theorem C49_unfold_wrong (B : Basis K) (row : Nat) (c : Nat → K) :
    (B.order + 1 < B.size → B.unfold row c = none) ∧
      (¬ B.order + 1 < B.size → B.unfold row c =
        some (B.P row (B.size - 1) * ∑ i ∈ Finset.range B.size, wt B.a i * c i)) := by
  unfold Basis.unfold
  refine ⟨fun h => if_pos h, fun h => ?_⟩
  rw [if_neg h, acc_eq, Finset.mul_sum]
  simp only [times_eq]

/-- C49: the delta basis exists only complete; its transform is the vector itself. -/
theorem C49_ddf (size order : Nat) (w : Option (Nat → K)) (B : Basis K)
    (h : ddfBasis size order w = some B) (f : Nat → K) (l : Nat) (hl : l < size) :
    order + 1 = size ∧ B.transform f l = wt w l * f l := by
  unfold ddfBasis at h
  split at h
  · rename_i ho
    cases h
    refine ⟨ho, ?_⟩
    rw [transform_eq]
    rw [Finset.sum_eq_single l]
    · simp [show l < order + 1 by omega]
    · intro j _ hj
      simp [hj]
    · intro hh
      exact absurd (Finset.mem_range.mpr hl) hh
  · cases h

/-! ## The discrete Legendre polynomials -/

section Legendre

variable {N : K}

/-- No division by zero up to order `n`. -/
def Proper (N : K) (n : Nat) : Prop := ∀ m : Nat, 1 ≤ m → m ≤ n → N - (m : K) ≠ 0

theorem Proper.mono {n m : Nat} (h : Proper N n) (hm : m ≤ n) : Proper N m :=
  fun k hk hk' => h k hk (by omega)

variable [CharZero K]

theorem dlp_one (h : Proper N 1) (x : K) : (N - 1) * dlp N x 1 = N - 1 - 2 * x := by
  have h1 : N - 1 ≠ 0 := by simpa using h 1 le_rfl le_rfl
  show (N - 1) * ((N - 1 - 2 * x) / (N - 1)) = _
  field_simp

/-- The three-term recurrence without divisions. -/
theorem dlp_rec (n : Nat) (h : Proper N (n + 2)) (x : K) :
    ((n : K) + 2) * (N - (n + 2)) * dlp N x (n + 2) =
      (2 * (n : K) + 3) * (N - 1 - 2 * x) * dlp N x (n + 1) - (n + 1) * (N + n + 1) * dlp N x n := by
  have h1 : N - ((n : K) + 2) ≠ 0 := by simpa using h (n + 2) (by omega) le_rfl
  have h2 : (n : K) + 2 ≠ 0 := by exact_mod_cast (by omega : n + 2 ≠ 0)
  have e : dlp N x (n + 2) = ((2 * ((n : K) + 2) - 1) * (N - 1 - 2 * x) * dlp N x (n + 1) -
      (((n : K) + 2) - 1) * (N - 1 + ((n : K) + 2)) * dlp N x n) / (((n : K) + 2) * (N - ((n : K) + 2))) :=
    rfl
  rw [e, mul_div_cancel₀ _ (mul_ne_zero h2 h1)]
  ring

/-- Second-order difference equation and the first-order relations, by induction on the order. -/
theorem dlp_difference : ∀ n : Nat, Proper N (n + 1) → ∀ x : K,
    ((x + 1) * (N - 1 - x) * (dlp N (x + 1) n - dlp N x n) - x * (N - x) * (dlp N x n - dlp N (x - 1) n)
        = -(n * (n + 1)) * dlp N x n) ∧
    ((x + 1) * (N - 1 - x) * (dlp N (x + 1) (n + 1) - dlp N x (n + 1)) -
        x * (N - x) * (dlp N x (n + 1) - dlp N (x - 1) (n + 1))
        = -((n + 1) * (n + 2)) * dlp N x (n + 1)) ∧
    ((x + 1) * (N - 1 - x) * dlp N (x + 1) n - x * (N - x) * dlp N (x - 1) n
        = (n + 1) * (N - (n + 1)) * dlp N x (n + 1) - n * (N - 1 - 2 * x) * dlp N x n) ∧
    ((x + 1) * (N - 1 - x) * dlp N (x + 1) (n + 1) - x * (N - x) * dlp N (x - 1) (n + 1)
        = (n + 2) * (N - 1 - 2 * x) * dlp N x (n + 1) - (n + 1) * (N + n + 1) * dlp N x n)
  | 0, h, x => by
    have h1 : N - 1 ≠ 0 := by simpa using h 1 le_rfl le_rfl
    simp only [dlp, Nat.cast_zero]
    refine ⟨by ring, ?_, ?_, ?_⟩
    · field_simp; ring
    · field_simp; ring
    · field_simp; ring
  | n + 1, h, x => by
    obtain ⟨h1, h2, h3, h4⟩ := dlp_difference n (h.mono (by omega)) x
    have r0 := dlp_rec n h x
    have rp := dlp_rec n h (x + 1)
    have rm := dlp_rec n h (x - 1)
    have c1 : N - ((n : K) + 2) ≠ 0 := by simpa using h (n + 2) (by omega) le_rfl
    have c2 : (n : K) + 2 ≠ 0 := by exact_mod_cast (by omega : n + 2 ≠ 0)
    have c : ((n : K) + 2) * (N - (n + 2)) ≠ 0 := mul_ne_zero c2 c1
    push_cast
    generalize dlp N (x + 1) (n + 1 + 1) = pp2 at *
    generalize dlp N x (n + 1 + 1) = p2 at *
    generalize dlp N (x - 1) (n + 1 + 1) = pm2 at *
    generalize dlp N (x + 1) (n + 1) = pp1 at *
    generalize dlp N x (n + 1) = p1 at *
    generalize dlp N (x - 1) (n + 1) = pm1 at *
    generalize dlp N (x + 1) n = pp0 at *
    generalize dlp N x n = p0 at *
    generalize dlp N (x - 1) n = pm0 at *
    generalize (n : K) = m at *
    refine ⟨?_, ?_, ?_, ?_⟩
    · linear_combination h2
    · apply mul_left_cancel₀ c
      linear_combination ((x + 1) * (N - 1 - x)) * rp + (x * (N - x)) * rm -
        ((x + 1) * (N - 1 - x) + x * (N - x) - (m + 2) * (m + 3)) * r0 +
        (2 * m + 3) * (N - 1 - 2 * x) * h2 - 2 * (2 * m + 3) * h4 - (m + 1) * (N + m + 1) * h1
    · linear_combination h4 - r0
    · apply mul_left_cancel₀ c
      linear_combination ((x + 1) * (N - 1 - x)) * rp - (x * (N - x)) * rm -
        ((m + 3) * (N - 1 - 2 * x)) * r0 +
        (2 * m + 3) * (N - 1 - 2 * x) * h4 - 2 * (2 * m + 3) * h2 - (m + 1) * (N + m + 1) * h3

theorem dlp_equation (n : Nat) (h : Proper N n) (x : K) :
    (x + 1) * (N - 1 - x) * (dlp N (x + 1) n - dlp N x n) - x * (N - x) * (dlp N x n - dlp N (x - 1) n)
        = -(n * (n + 1)) * dlp N x n := by
  cases n with
  | zero => simp [dlp]
  | succ n =>
    have := (dlp_difference n h x).2.1
    push_cast
    linear_combination this

theorem dlp_zero : ∀ n : Nat, Proper N n → dlp N 0 n = 1
  | 0, _ => rfl
  | 1, h => by
    have h1 : N - 1 ≠ 0 := by simpa using h 1 le_rfl le_rfl
    show (N - 1 - 2 * 0) / (N - 1) = 1
    rw [mul_zero, sub_zero, div_self h1]
  | n + 2, h => by
    have r := dlp_rec n h 0
    rw [dlp_zero (n + 1) (h.mono (by omega)), dlp_zero n (h.mono (by omega))] at r
    have c1 : N - ((n : K) + 2) ≠ 0 := by simpa using h (n + 2) (by omega) le_rfl
    have c2 : (n : K) + 2 ≠ 0 := by exact_mod_cast (by omega : n + 2 ≠ 0)
    apply mul_left_cancel₀ (mul_ne_zero c2 c1)
    rw [r]
    ring

/-- Columns are even or odd about the middle. -/
theorem dlp_parity (x : K) : ∀ n : Nat, dlp N (N - 1 - x) n = (-1) ^ n * dlp N x n
  | 0 => by simp [dlp]
  | 1 => by
    show (N - 1 - 2 * (N - 1 - x)) / (N - 1) = (-1) ^ 1 * ((N - 1 - 2 * x) / (N - 1))
    rw [pow_one, neg_one_mul, ← neg_div]
    congr 1
    ring
  | n + 2 => by
    have e : ∀ x : K, dlp N x (n + 2) = ((2 * ((n : K) + 2) - 1) * (N - 1 - 2 * x) * dlp N x (n + 1) -
      (((n : K) + 2) - 1) * (N - 1 + ((n : K) + 2)) * dlp N x n) / (((n : K) + 2) * (N - ((n : K) + 2))) :=
      fun _ => rfl
    rw [e, e, dlp_parity x (n + 1), dlp_parity x n]
    ring

end Legendre

/-! ## C79 -/

section Legendre2

variable [CharZero K]

theorem proper_of_lt {size n : Nat} (h : n < size) : Proper (size : K) n := by
  intro m _ hm e
  have : (size : K) = (m : K) := sub_eq_zero.mp e
  have := Nat.cast_injective this
  omega

/-- Inner product of two unweighted Legendre columns. -/
theorem dlp_orthogonal (size n m : Nat) (hn : n < size) (hm : m < size) (hnm : n ≠ m) :
    ∑ j ∈ Finset.range size, dlp (size : K) (j : K) n * dlp (size : K) (j : K) m = 0 := by
  set N : K := (size : K) with hN
  let T : Nat → K := fun j => (j : K) * (N - j) *
    (dlp N ((j : K) - 1) m * dlp N (j : K) n - dlp N ((j : K) - 1) n * dlp N (j : K) m)
  have hstep : ∀ j : Nat, T (j + 1) - T j =
      ((m : K) * (m + 1) - n * (n + 1)) * (dlp N (j : K) n * dlp N (j : K) m) := by
    intro j
    have e1 := dlp_equation n (proper_of_lt (K := K) hn) (j : K)
    have e2 := dlp_equation m (proper_of_lt (K := K) hm) (j : K)
    rw [← hN] at e1 e2
    simp only [T]
    push_cast
    rw [show (j : K) + 1 - 1 = j by ring]
    linear_combination dlp N (j : K) m * e1 - dlp N (j : K) n * e2
  have hsum := Finset.sum_range_sub T size
  simp only [hstep] at hsum
  rw [← Finset.mul_sum] at hsum
  have h0 : T 0 = 0 := by simp [T]
  have h1 : T size = 0 := by simp only [T]; rw [← hN, sub_self, mul_zero, zero_mul]
  rw [h0, h1, sub_zero] at hsum
  rcases mul_eq_zero.mp hsum with h | h
  · exfalso
    have h' : (m : K) * (m + 1) = (n : K) * (n + 1) := sub_eq_zero.mp h
    have h'' : m * (m + 1) = n * (n + 1) := by exact_mod_cast h'
    rcases Nat.lt_or_gt_of_ne hnm with hlt | hlt
    · have : n * (n + 1) < m * (m + 1) := Nat.mul_lt_mul_of_lt_of_le hlt (by omega) (by omega)
      omega
    · have : m * (m + 1) < n * (n + 1) := Nat.mul_lt_mul_of_lt_of_le hlt (by omega) (by omega)
      omega
  · exact h

/-- Squared norms of successive Legendre columns. -/
theorem dlp_norm_step (size n : Nat) (hn : n + 1 < size) :
    (2 * (n : K) + 3) * ((size : K) - (n + 1)) *
        ∑ j ∈ Finset.range size, dlp (size : K) (j : K) (n + 1) ^ 2 =
      (2 * (n : K) + 1) * ((size : K) + n + 1) * ∑ j ∈ Finset.range size, dlp (size : K) (j : K) n ^ 2 := by
  set N : K := (size : K) with hN
  -- summation by parts
  let T : Nat → K := fun j => (j : K) * (N - j) *
    (dlp N (j : K) (n + 1) * dlp N ((j : K) - 1) n + dlp N ((j : K) - 1) (n + 1) * dlp N (j : K) n)
  have pr : Proper N (n + 1) := proper_of_lt hn
  have hstep : ∀ j : Nat, T (j + 1) - T j =
      2 * ((N - 1 - 2 * j) * (dlp N (j : K) n * dlp N (j : K) (n + 1))) -
        (n + 1) * (N + n + 1) * dlp N (j : K) n ^ 2 +
        (n + 1) * (N - (n + 1)) * dlp N (j : K) (n + 1) ^ 2 := by
    intro j
    obtain ⟨_, _, e3, e4⟩ := dlp_difference n pr (j : K)
    simp only [T]
    push_cast
    rw [show (j : K) + 1 - 1 = j by ring]
    linear_combination dlp N (j : K) n * e4 + dlp N (j : K) (n + 1) * e3
  have hsum := Finset.sum_range_sub T size
  simp only [hstep] at hsum
  rw [Finset.sum_add_distrib, Finset.sum_sub_distrib, ← Finset.mul_sum, ← Finset.mul_sum,
    ← Finset.mul_sum] at hsum
  have h0 : T 0 = 0 := by simp [T]
  have h1 : T size = 0 := by simp only [T]; rw [← hN, sub_self, mul_zero, zero_mul]
  rw [h0, h1, sub_zero] at hsum
  -- the recurrence, times the next column
  have hrec : ∀ x : K, ((n : K) + 1) * (N - (n + 1)) * dlp N x (n + 1) =
      (2 * n + 1) * (N - 1 - 2 * x) * dlp N x n - n * (N + n) * dlp N x (n - 1) := by
    intro x
    cases n with
    | zero =>
      have := dlp_one (pr.mono (by omega)) x
      simp only [Nat.cast_zero]
      show (0 + 1) * (N - (0 + 1)) * dlp N x 1 = (2 * 0 + 1) * (N - 1 - 2 * x) * 1 - _
      linear_combination this
    | succ k =>
      have := dlp_rec k pr x
      push_cast
      show _ = _ - _ * dlp N x k
      linear_combination this
  have horth : (n : K) * ∑ j ∈ Finset.range size, dlp N (j : K) (n - 1) * dlp N (j : K) (n + 1) = 0 := by
    cases n with
    | zero => simp
    | succ k =>
      rw [hN, show k + 1 - 1 = k by omega,
        dlp_orthogonal size k (k + 1 + 1) (by omega) (by omega) (by omega), mul_zero]
  have hS : ((n : K) + 1) * (N - (n + 1)) * ∑ j ∈ Finset.range size, dlp N (j : K) (n + 1) ^ 2 =
      (2 * n + 1) * ∑ j ∈ Finset.range size, (N - 1 - 2 * j) * (dlp N (j : K) n * dlp N (j : K) (n + 1)) := by
    have : ((n : K) + 1) * (N - (n + 1)) * ∑ j ∈ Finset.range size, dlp N (j : K) (n + 1) ^ 2 =
      (2 * n + 1) * (∑ j ∈ Finset.range size, (N - 1 - 2 * j) * (dlp N (j : K) n * dlp N (j : K) (n + 1)))
        - (N + n) * (n * ∑ j ∈ Finset.range size, dlp N (j : K) (n - 1) * dlp N (j : K) (n + 1)) := by
      simp only [Finset.mul_sum]
      rw [← Finset.sum_sub_distrib]
      refine Finset.sum_congr rfl fun j _ => ?_
      linear_combination dlp N (j : K) (n + 1) * hrec (j : K)
    rw [this, horth, mul_zero, sub_zero]
  have c : (n : K) + 1 ≠ 0 := by exact_mod_cast (by omega : n + 1 ≠ 0)
  apply mul_left_cancel₀ c
  linear_combination (2 * (n : K) + 1) * hsum + 2 * hS

end Legendre2

section Ordered

variable [LinearOrder K] [IsStrictOrderedRing K]

theorem dlp_norm_pos (size n : Nat) (hn : n < size) :
    0 < ∑ j ∈ Finset.range size, dlp (size : K) (j : K) n * dlp (size : K) (j : K) n := by
  have h0 : (0 : Nat) ∈ Finset.range size := Finset.mem_range.mpr (by omega)
  have h1 : dlp (size : K) ((0 : Nat) : K) n * dlp (size : K) ((0 : Nat) : K) n = 1 := by
    rw [Nat.cast_zero, dlp_zero n (proper_of_lt hn), mul_one]
  calc (0 : K) < 1 := one_pos
    _ = dlp (size : K) ((0 : Nat) : K) n * dlp (size : K) ((0 : Nat) : K) n := h1.symm
    _ ≤ _ := Finset.single_le_sum
      (f := fun j : Nat => dlp (size : K) (j : K) n * dlp (size : K) (j : K) n)
      (fun i _ => mul_self_nonneg _) h0

/-- C79: for every size and order below it, the columns of the discrete Legendre basis are orthogonal and
    none vanishes. -/
theorem C79_orthogonal (size order : Nat) (h : order < size) :
    Orthogonal size order none (fun j i => dlp (size : K) (j : K) i) := by
  refine ⟨fun i hi => ?_, fun i hi k hk hik => ?_⟩
  · have := dlp_norm_pos (K := K) size i (by omega)
    simp only [inner, wt, Option.elim_none, one_mul]
    exact ne_of_gt this
  · simp only [inner, wt, Option.elim_none, one_mul]
    exact dlp_orthogonal size i k (by omega) (by omega) hik

/-- C79: first entry one, every column even or odd about the middle, squared norms in closed relation. -/
theorem C79_columns (size i : Nat) (h : i < size) :
    dlp (size : K) 0 i = 1 ∧
      (∀ j : Nat, j < size → dlp (size : K) ((size - 1 - j : Nat) : K) i = (-1) ^ i * dlp (size : K) (j : K) i) ∧
      (i + 1 < size → (2 * (i : K) + 3) * ((size : K) - (i + 1)) *
          ∑ j ∈ Finset.range size, dlp (size : K) (j : K) (i + 1) ^ 2 =
        (2 * (i : K) + 1) * ((size : K) + i + 1) *
          ∑ j ∈ Finset.range size, dlp (size : K) (j : K) i ^ 2) := by
  refine ⟨dlp_zero i (proper_of_lt h), fun j hj => ?_, fun h' => dlp_norm_step size i h'⟩
  rw [← dlp_parity]
  congr 1
  rw [Nat.cast_sub (by omega), Nat.cast_sub (by omega), Nat.cast_one]

/-- C79: reconstruction and transform with the Legendre basis the library builds (no weights). -/
theorem C79_dlp (sq : K → K) (hsq : ∀ v, 0 ≤ v → sq v * sq v = v) (size order : Nat) (on : Bool)
    (h : order < size) :
    Normalised (dlpBasis sq size order on none) := by
  refine (C49_normalise sq on _ (C79_orthogonal size order h) fun _ i hi => hsq _ ?_).1
  rw [val_eq]
  have := dlp_norm_pos (K := K) size i (by simp only at hi; omega)
  simp only [inner, wt, Option.elim_none, one_mul]
  positivity

/-! ## C80 -/

/-- The rows computed from the first entry are the Legendre rows times that entry. -/
theorem dcpLow_eq (size i : Nat) (hi : i < size) (c : K) : ∀ j : Nat, j < size →
    dcpLow (size : K) c i j = c * dlp (size : K) (j : K) i
  | 0, _ => by
    rw [Nat.cast_zero, dlp_zero i (proper_of_lt hi), mul_one]
    rfl
  | 1, hj => by
    have e := dlp_equation i (proper_of_lt (K := K) hi) 0
    rw [dlp_zero i (proper_of_lt hi)] at e
    have h1 : (1 : K) - size ≠ 0 := by
      rw [sub_ne_zero]
      exact_mod_cast (by omega : 1 ≠ size)
    show (1 + (i : K) * ((i : K) + 1) / (1 - (size : K))) * c = _
    rw [Nat.cast_one]
    have e' : dlp (size : K) 1 i = 1 + (i : K) * ((i : K) + 1) / (1 - (size : K)) := by
      field_simp
      rw [zero_add] at e
      linear_combination -e
    rw [e', mul_comm]
  | k + 2, hj => by
    have e := dlp_equation i (proper_of_lt (K := K) hi) ((k : K) + 1)
    have i1 := dcpLow_eq size i hi c (k + 1) (by omega)
    have i2 := dcpLow_eq size i hi c k (by omega)
    have hk : (size : K) - ((k : K) + 2) ≠ 0 := by
      rw [sub_ne_zero]
      exact_mod_cast (by omega : size ≠ k + 2)
    have hk2 : (k : K) + 2 ≠ 0 := by exact_mod_cast (by omega : k + 2 ≠ 0)
    have d : dcpLow (size : K) c i (k + 2) =
        (-((i : K) * ((i : K) + 1)) - (2 * ((k : K) + 2) - 1) * (((k : K) + 2) - size - 1) - ((k : K) + 2)) /
          (((k : K) + 2) * (size - ((k : K) + 2))) * dcpLow (size : K) c i (k + 1) +
        (((k : K) + 2) - 1) * (((k : K) + 2) - size - 1) / (((k : K) + 2) * (size - ((k : K) + 2))) *
          dcpLow (size : K) c i k := rfl
    rw [d, i1, i2]
    push_cast
    rw [show (k : K) + 1 + 1 = k + 2 by ring, show (k : K) + 1 - 1 = k by ring] at e
    field_simp
    linear_combination -c * e

/-- C80: every entry of the discrete Chebyshev matrix, computed by the row recurrence and mirrored, is the
    Legendre entry times the first entry of its column. -/
theorem C80_entries (sq : K → K) (size j i : Nat) (hi : i < size) (hj : j < size) :
    dcp sq size j i = dcpFirst sq (size : K) i * dlp (size : K) (j : K) i := by
  unfold dcp
  split
  · rename_i h0
    subst h0
    simp [dcpFirst, dlp]
  · split
    · exact dcpLow_eq size i hi _ j hj
    · rename_i hm
      have hr : size - j - 1 < 2 ∨ size - j - 1 < mid size := by
        right
        unfold mid at hm ⊢
        by_cases hp : size % 2 ≠ 0
        · rw [if_pos hp] at hm ⊢; omega
        · rw [if_neg hp] at hm ⊢; omega
      unfold dcpRead
      rw [if_pos hr, dcpLow_eq size i hi _ (size - j - 1) (by omega)]
      have e : dlp (size : K) ((size - j - 1 : Nat) : K) i = (-1) ^ i * dlp (size : K) (j : K) i := by
        rw [show size - j - 1 = size - 1 - j by omega]
        exact (C79_columns size i hi).2.1 j hj
      rw [e]
      have s : (if i % 2 = 1 then (-1 : K) else 1) = (-1) ^ i := by
        split
        · rename_i h
          exact (Odd.neg_one_pow (Nat.odd_iff.mpr h)).symm
        · rename_i h
          exact (Even.neg_one_pow (Nat.even_iff.mpr (by omega))).symm
      rw [s]
      have s2 : ((-1 : K) ^ i) * (-1) ^ i = 1 := by
        rw [← mul_pow]
        simp
      linear_combination dcpFirst sq (size : K) i * dlp (size : K) (j : K) i * s2

/-- C80: every column has squared norm equal to the size. -/
theorem C80_norm (sq : K → K) (hsq : ∀ v, 0 ≤ v → sq v * sq v = v) (size : Nat) : ∀ i, i < size →
    ∑ j ∈ Finset.range size, dcp sq size j i * dcp sq size j i = size := by
  have key : ∀ i, i < size → dcpFirst sq (size : K) i * dcpFirst sq (size : K) i *
      ∑ j ∈ Finset.range size, dlp (size : K) (j : K) i ^ 2 = size := by
    intro i
    induction i with
    | zero => intro _; simp [dcpFirst, dlp]
    | succ i ih =>
      intro hi
      have ih := ih (by omega)
      have hs := dlp_norm_step (K := K) size i hi
      have hiK : ((i : K) + 1) < size := by exact_mod_cast hi
      have hi0 : (0 : K) ≤ i := Nat.cast_nonneg i
      have q1 := hsq (((size : K) - (i + 1)) / ((size : K) + (i + 1)))
        (div_nonneg (by linarith) (by linarith))
      have q2 := hsq ((2 * ((i : K) + 1) + 1) / (2 * ((i : K) + 1) - 1))
        (div_nonneg (by linarith) (by linarith))
      have d : dcpFirst sq (size : K) (i + 1) =
          -sq (((size : K) - (i + 1)) / ((size : K) + (i + 1))) *
            sq ((2 * ((i : K) + 1) + 1) / (2 * ((i : K) + 1) - 1)) * dcpFirst sq (size : K) i := rfl
      rw [d]
      set S1 := ∑ j ∈ Finset.range size, dlp (size : K) (j : K) (i + 1) ^ 2
      set S0 := ∑ j ∈ Finset.range size, dlp (size : K) (j : K) i ^ 2
      set r := sq (((size : K) - (i + 1)) / ((size : K) + (i + 1)))
      set t := sq ((2 * ((i : K) + 1) + 1) / (2 * ((i : K) + 1) - 1))
      set c := dcpFirst sq (size : K) i
      have e1 : -r * t * c * (-r * t * c) * S1 = (r * r) * (t * t) * (c * c) * S1 := by ring
      rw [e1, q1, q2]
      have n1 : (size : K) + (i + 1) ≠ 0 := by
        have : (0 : K) < (size : K) + (i + 1) := by linarith
        exact ne_of_gt this
      have n2 : (2 * ((i : K) + 1) - 1) ≠ 0 := by
        have : (0 : K) < 2 * ((i : K) + 1) - 1 := by linarith
        exact ne_of_gt this
      rw [div_mul_div_comm, div_mul_eq_mul_div, div_mul_eq_mul_div, div_eq_iff (mul_ne_zero n1 n2)]
      linear_combination (c * c) * hs + (2 * (i : K) + 1) * ((size : K) + i + 1) * ih
  intro i hi
  rw [← key i hi, Finset.mul_sum]
  refine Finset.sum_congr rfl fun j hj => ?_
  rw [C80_entries sq size j i hi (Finset.mem_range.mp hj)]
  ring

/-- C80: the columns are orthogonal, whatever the size and order. -/
theorem C80_orthogonal (sq : K → K) (hsq : ∀ v, 0 ≤ v → sq v * sq v = v) (size order : Nat)
    (h : order < size) : Orthogonal size order none (dcp sq size) := by
  refine ⟨fun i hi => ?_, fun i hi k hk hik => ?_⟩
  · simp only [inner, wt, Option.elim_none, one_mul]
    rw [C80_norm sq hsq size i (by omega)]
    exact_mod_cast (by omega : size ≠ 0)
  · simp only [inner, wt, Option.elim_none, one_mul]
    have e : ∀ j ∈ Finset.range size, dcp sq size j i * dcp sq size j k =
        dcpFirst sq (size : K) i * dcpFirst sq (size : K) k *
          (dlp (size : K) (j : K) i * dlp (size : K) (j : K) k) := by
      intro j hj
      rw [C80_entries sq size j i (by omega) (Finset.mem_range.mp hj),
        C80_entries sq size j k (by omega) (Finset.mem_range.mp hj)]
      ring
    rw [Finset.sum_congr rfl e, ← Finset.mul_sum, dlp_orthogonal size i k (by omega) (by omega) hik,
      mul_zero]

/-- C80: reconstruction and transform with the Chebyshev basis the library builds (no weights). -/
theorem C80_dcp (sq : K → K) (hsq : ∀ v, 0 ≤ v → sq v * sq v = v) (size order : Nat) (on : Bool)
    (h : order < size) : Normalised (dcpBasis sq size order on none) := by
  refine (C49_normalise sq on _ (C80_orthogonal sq hsq size order h) fun _ i hi => hsq _ ?_).1
  rw [val_eq]
  simp only [inner, wt, Option.elim_none, one_mul]
  rw [C80_norm sq hsq size i (by simp only at hi; omega)]
  positivity

end Ordered

/-! ## Concrete cases -/

/-- Three points, complete Legendre basis, not orthonormal: the vector comes back. -/
example : ((dlpBasis (K := ℚ) id 3 2 false none).inverse
      ((dlpBasis (K := ℚ) id 3 2 false none).transform fun j => [5, -1, 2].getD j 0)).map
      (fun f => (List.range 3).map f) = some [5, -1, 2] := by decide +kernel

/-- Truncated: coefficients come back. -/
example : ((dlpBasis (K := ℚ) id 4 1 false none).inverse fun l => [3, 7].getD l 0).map
      (fun f => (List.range 2).map ((dlpBasis (K := ℚ) id 4 1 false none).transform f)) = some [3, 7] := by
  decide +kernel

/-- The hypotheses of the general theorems are met with weights. -/
example : Orthogonal (K := ℚ) 2 1 (some fun j => [1, 2].getD j 0)
    (fun j i => [[1, 2], [1, -1]].getD j [] |>.getD i 0) := by
  refine ⟨fun i hi => ?_, fun i hi k hk hik => ?_⟩
  · interval_cases i <;> norm_num [inner, wt, Finset.sum_range_succ]
  · interval_cases i <;> interval_cases k <;> simp_all [inner, wt, Finset.sum_range_succ]

/-- The wrong members on a concrete basis. -/
example : (dlpBasis (K := ℚ) id 2 1 false none).unfold 0 (fun l => [1, 0].getD l 0) = some (1 / 2) ∧
    ((dlpBasis (K := ℚ) id 2 1 false none).inverse fun l => [1, 0].getD l 0).map (· 0) = some (1 / 2) ∧
    (dlpBasis (K := ℚ) id 2 1 false none).unfold 0 (fun l => [0, 1].getD l 0) =
      (dlpBasis (K := ℚ) id 2 1 false none).unfold 0 (fun l => [1, 0].getD l 0) ∧
    (dlpBasis (K := ℚ) id 2 1 false none).unfold 1 (fun l => [1, 0].getD l 0) = some (-1 / 2) ∧
    ((dlpBasis (K := ℚ) id 2 1 false none).inverse fun l => [1, 0].getD l 0).map (· 1) = some (1 / 2) ∧
    (dlpBasis (K := ℚ) id 3 1 false none).unfold 0 (fun _ => 1) = none := by decide +kernel

end Detran.Orthog
