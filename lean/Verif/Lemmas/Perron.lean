import Mathlib.Topology.Algebra.Order.Field
import Mathlib.Topology.Order.Compact
import Mathlib.Topology.Order.IntermediateValue
import Mathlib.Topology.Instances.Real.Lemmas
import Mathlib.Topology.MetricSpace.Bounded
import Mathlib.Algebra.Order.BigOperators.Group.Finset
import Mathlib.Algebra.BigOperators.Field
import Mathlib.Data.Fintype.Lattice
import Mathlib.Tactic.Linarith
import Mathlib.Tactic.FieldSimp
import Mathlib.Tactic.Positivity

/-!
# Positive matrices and the power method

Helper lemmas for C133 and C134; nothing here is specific to the code.
-/

namespace Detran.Perron

open Finset

section field
variable {K : Type} [Field K] [LinearOrder K] [IsStrictOrderedRing K] {ι : Type} [Fintype ι]

/-- A matrix applied to a vector. -/
def app (a : ι → ι → K) (x : ι → K) (i : ι) : K := ∑ j, a i j * x j

variable {a : ι → ι → K} {lo hi : K}

theorem app_lin (a : ι → ι → K) (s t : K) (x y : ι → K) (i : ι) :
    app a (fun j => s * x j + t * y j) i = s * app a x i + t * app a y i := by
  unfold app
  rw [mul_sum, mul_sum, ← sum_add_distrib]
  exact sum_congr rfl fun _ _ => by ring

theorem app_smul (a : ι → ι → K) (s : K) (x : ι → K) (i : ι) : app a (fun j => s * x j) i = s * app a x i := by
  unfold app
  rw [mul_sum]
  exact sum_congr rfl fun _ _ => by ring

/-- All entries lie between two positive numbers. -/
structure Mix (a : ι → ι → K) (lo hi : K) : Prop where
  pos : 0 < lo
  ge : ∀ i j, lo ≤ a i j
  le : ∀ i j, a i j ≤ hi

theorem Mix.entry (h : Mix a lo hi) (i j : ι) : 0 < a i j := h.pos.trans_le (h.ge i j)

theorem Mix.hi_pos [Nonempty ι] (h : Mix a lo hi) : 0 < hi :=
  (h.entry (Classical.arbitrary ι) (Classical.arbitrary ι)).trans_le (h.le _ _)

theorem Mix.theta [Nonempty ι] (h : Mix a lo hi) : 0 < lo / hi ∧ lo / hi ≤ 1 :=
  ⟨div_pos h.pos h.hi_pos, (div_le_one h.hi_pos).2 ((h.ge (Classical.arbitrary ι) (Classical.arbitrary ι)).trans (h.le _ _))⟩

theorem mix_of_pos [Nonempty ι] (ha : ∀ i j, 0 < a i j) : ∃ lo hi, Mix a lo hi := by
  obtain ⟨p, hp⟩ := Finite.exists_min (fun p : ι × ι => a p.1 p.2)
  obtain ⟨q, hq⟩ := Finite.exists_max (fun p : ι × ι => a p.1 p.2)
  exact ⟨a p.1 p.2, a q.1 q.2, ha _ _, fun i j => hp (i, j), fun i j => hq (i, j)⟩

theorem app_ge (h : Mix a lo hi) (x : ι → K) (hx : ∀ i, 0 ≤ x i) (i : ι) : lo * ∑ j, x j ≤ app a x i := by
  unfold app
  rw [mul_sum]
  exact sum_le_sum fun j _ => mul_le_mul_of_nonneg_right (h.ge i j) (hx j)

theorem app_le (h : Mix a lo hi) (x : ι → K) (hx : ∀ i, 0 ≤ x i) (i : ι) : app a x i ≤ hi * ∑ j, x j := by
  unfold app
  rw [mul_sum]
  exact sum_le_sum fun j _ => mul_le_mul_of_nonneg_right (h.le i j) (hx j)

theorem app_mono (ha : ∀ i j, 0 ≤ a i j) {x y : ι → K} (h : ∀ i, x i ≤ y i) (i : ι) : app a x i ≤ app a y i :=
  sum_le_sum fun j _ => mul_le_mul_of_nonneg_left (h j) (ha i j)

theorem app_pos [Nonempty ι] (ha : ∀ i j, 0 < a i j) {x : ι → K} (h : ∀ i, 0 < x i) (i : ι) : 0 < app a x i :=
  sum_pos (fun j _ => mul_pos (ha i j) (h j)) univ_nonempty

theorem sum_pos' [Nonempty ι] {x : ι → K} (h : ∀ i, 0 < x i) : 0 < ∑ i, x i := sum_pos (fun j _ => h j) univ_nonempty

/-- `x` times a quotient of sums. -/
def quot (a : ι → ι → K) (x : ι → K) : K := (∑ i, app a x i) / ∑ i, x i

theorem quot_between [Nonempty ι] {x : ι → K} (hx : ∀ i, 0 < x i) {m M : K} (hm : ∀ i, m * x i ≤ app a x i)
    (hM : ∀ i, app a x i ≤ M * x i) : m ≤ quot a x ∧ quot a x ≤ M := by
  unfold quot
  rw [le_div_iff₀ (sum_pos' hx), div_le_iff₀ (sum_pos' hx), mul_sum, mul_sum]
  exact ⟨sum_le_sum fun i _ => hm i, sum_le_sum fun i _ => hM i⟩

/-- The quotients of one step lie closer together than those of the step before. -/
theorem narrow [Nonempty ι] (h : Mix a lo hi) {x : ι → K} (hx : ∀ i, 0 < x i) {m M : K} (hm : ∀ i, m * x i ≤ app a x i)
    (hM : ∀ i, app a x i ≤ M * x i) (i : ι) :
    (m + lo / hi * (quot a x - m)) * app a x i ≤ app a (app a x) i ∧
      app a (app a x) i ≤ (M - lo / hi * (M - quot a x)) * app a x i := by
  obtain ⟨h1, h2⟩ := quot_between hx hm hM
  have hs := sum_pos' hx
  have hh := h.hi_pos
  have hl := h.pos
  have hq : quot a x * ∑ j, x j = ∑ j, app a x j := div_mul_cancel₀ _ hs.ne'
  have hu := app_le h x (fun i => (hx i).le) i
  have key : ∀ d : K, 0 ≤ d → lo / hi * d * app a x i ≤ lo * (d * ∑ j, x j) := by
    intro d hd
    calc lo / hi * d * app a x i ≤ lo / hi * d * (hi * ∑ j, x j) := mul_le_mul_of_nonneg_left hu (by positivity)
      _ = lo * (d * ∑ j, x j) := by field_simp
  constructor
  · have e := app_ge h (fun j => 1 * app a x j + -m * x j) (fun j => by have := hm j; linarith) i
    rw [app_lin, sum_add_distrib, ← mul_sum, ← mul_sum, ← hq] at e
    have := key (quot a x - m) (by linarith)
    have e2 : (1 : K) * (quot a x * ∑ j, x j) + -m * ∑ j, x j = (quot a x - m) * ∑ j, x j := by ring
    rw [e2] at e
    linarith
  · have e := app_ge h (fun j => M * x j + -1 * app a x j) (fun j => by have := hM j; linarith) i
    rw [app_lin, sum_add_distrib, ← mul_sum, ← mul_sum, ← hq] at e
    have := key (M - quot a x) (by linarith)
    have e2 : M * ∑ j, x j + -1 * (quot a x * ∑ j, x j) = (M - quot a x) * ∑ j, x j := by ring
    rw [e2] at e
    linarith

theorem iter_pos [Nonempty ι] (ha : ∀ i j, 0 < a i j) {x : ι → K} (hx : ∀ i, 0 < x i) (n : Nat) (i : ι) :
    0 < (app a)^[n] x i := by
  induction n generalizing i with
  | zero => exact hx i
  | succ n ih =>
    rw [Function.iterate_succ_apply']
    exact app_pos ha ih i

/-- After `n` steps all quotients lie in an interval inside the first one that is shorter by a geometric factor. -/
theorem bands [Nonempty ι] (h : Mix a lo hi) {x : ι → K} (hx : ∀ i, 0 < x i) {m M : K} (hm : ∀ i, m * x i ≤ app a x i)
    (hM : ∀ i, app a x i ≤ M * x i) (n : Nat) : ∃ m' M', m ≤ m' ∧ M' ≤ M ∧ M' - m' ≤ (1 - lo / hi) ^ n * (M - m) ∧
      ∀ i, m' * (app a)^[n] x i ≤ app a ((app a)^[n] x) i ∧ app a ((app a)^[n] x) i ≤ M' * (app a)^[n] x i := by
  obtain ⟨t0, t1⟩ := h.theta
  induction n with
  | zero => exact ⟨m, M, le_refl _, le_refl _, by simp, fun i => ⟨hm i, hM i⟩⟩
  | succ n ih =>
    obtain ⟨m', M', k1, k2, k3, k4⟩ := ih
    have hp := iter_pos h.entry hx n
    obtain ⟨q1, q2⟩ := quot_between hp (fun i => (k4 i).1) (fun i => (k4 i).2)
    have nr := narrow h hp (fun i => (k4 i).1) (fun i => (k4 i).2)
    refine ⟨m' + lo / hi * (quot a ((app a)^[n] x) - m'), M' - lo / hi * (M' - quot a ((app a)^[n] x)), ?_, ?_, ?_,
      fun i => by rw [Function.iterate_succ_apply']; exact nr i⟩
    · have := mul_nonneg t0.le (sub_nonneg.2 q1)
      linarith
    · have := mul_nonneg t0.le (sub_nonneg.2 q2)
      linarith
    · have := mul_le_mul_of_nonneg_left k3 (sub_nonneg.2 t1)
      rw [pow_succ]
      linarith

/-- Quotients of a positive vector enclose the eigenvalue of a positive eigenvector. -/
theorem encloses [Nonempty ι] (ha : ∀ i j, 0 ≤ a i j) {k : K} {v : ι → K} (hv : ∀ i, 0 < v i) (hk : ∀ i, app a v i = k * v i)
    {x : ι → K} (hx : ∀ i, 0 < x i) {m M : K} (hm : ∀ i, m * x i ≤ app a x i) (hM : ∀ i, app a x i ≤ M * x i) :
    m ≤ k ∧ k ≤ M := by
  constructor
  · obtain ⟨i, hi⟩ := Finite.exists_max (fun i => x i / v i)
    have t0 : 0 < x i / v i := div_pos (hx i) (hv i)
    have e : app a x i ≤ app a (fun j => x i / v i * v j) i :=
      app_mono ha (fun j => by rw [← div_le_iff₀ (hv j)]; exact hi j) i
    rw [app_smul, hk] at e
    have e2 : x i / v i * (k * v i) = k * x i := by have := (hv i).ne'; field_simp
    rw [e2] at e
    exact le_of_mul_le_mul_right ((hm i).trans e) (hx i)
  · obtain ⟨i, hi⟩ := Finite.exists_max (fun i => v i / x i)
    have t0 : 0 < v i / x i := div_pos (hv i) (hx i)
    have e : app a v i ≤ app a (fun j => v i / x i * x j) i :=
      app_mono ha (fun j => by rw [← div_le_iff₀ (hx j)]; exact hi j) i
    rw [app_smul, hk] at e
    have e2 := mul_le_mul_of_nonneg_left (hM i) t0.le
    have e3 : v i / x i * (M * x i) = M * v i := by have := (hx i).ne'; field_simp
    rw [e3] at e2
    exact le_of_mul_le_mul_right (e.trans e2) (hv i)

/-- It exceeds every other real eigenvalue in magnitude. -/
theorem dominates [Nonempty ι] (ha : ∀ i j, 0 ≤ a i j) {k : K} {v : ι → K} (hv : ∀ i, 0 < v i)
    (hk : ∀ i, app a v i = k * v i) {l : K} {y : ι → K} (hy : ∃ i, y i ≠ 0) (hl : ∀ i, app a y i = l * y i) : |l| ≤ k := by
  obtain ⟨i, hi⟩ := Finite.exists_max (fun i => |y i| / v i)
  have hyi : 0 < |y i| := by
    obtain ⟨j, hj⟩ := hy
    have := (div_pos (abs_pos.2 hj) (hv j)).trans_le (hi j)
    by_contra hc
    have h0 : |y i| = 0 := le_antisymm (not_lt.1 hc) (abs_nonneg _)
    rw [h0, zero_div] at this
    exact lt_irrefl _ this
  have e1 : |l| * |y i| ≤ app a (fun j => |y j|) i := by
    rw [← abs_mul, ← hl]
    unfold app
    refine (abs_sum_le_sum_abs _ _).trans (le_of_eq (sum_congr rfl fun j _ => ?_))
    rw [abs_mul, abs_of_nonneg (ha i j)]
  have e2 : app a (fun j => |y j|) i ≤ app a (fun j => |y i| / v i * v j) i :=
    app_mono ha (fun j => by rw [← div_le_iff₀ (hv j)]; exact hi j) i
  rw [app_smul, hk] at e2
  have e3 : |y i| / v i * (k * v i) = k * |y i| := by have := (hv i).ne'; field_simp
  rw [e3] at e2
  exact le_of_mul_le_mul_right (e1.trans e2) hyi

/-- Its eigenvectors are multiples of one another. -/
theorem simple [Nonempty ι] (ha : ∀ i j, 0 < a i j) {k : K} {v : ι → K} (hv : ∀ i, 0 < v i)
    (hk : ∀ i, app a v i = k * v i) {y : ι → K} (hl : ∀ i, app a y i = k * y i) : ∃ t, ∀ i, y i = t * v i := by
  obtain ⟨i, hi⟩ := Finite.exists_max (fun i => y i / v i)
  refine ⟨y i / v i, ?_⟩
  have hz : ∀ j, 0 ≤ y i / v i * v j - y j := fun j => by
    have := (div_le_iff₀ (hv j)).1 (hi j)
    linarith
  have e : app a (fun j => y i / v i * v j + -1 * y j) i = 0 := by
    rw [app_lin, hk, hl]
    have := (hv i).ne'
    field_simp
    ring
  unfold app at e
  rw [sum_eq_zero_iff_of_nonneg fun j _ => mul_nonneg (ha i j).le (by have := hz j; linarith)] at e
  intro j
  have := (mul_eq_zero.1 (e j (mem_univ _))).resolve_left (ha i j).ne'
  linarith

/-- The iterates, divided by powers of the eigenvalue, lie between multiples of the eigenvector that approach each other. -/
theorem squeeze [Nonempty ι] (h : Mix a lo hi) {k : K} (k0 : 0 < k) {v : ι → K} (hv : ∀ i, 0 < v i)
    (hk : ∀ i, app a v i = k * v i) {x : ι → K} {p q : K} (hp : ∀ i, p * v i ≤ x i) (hq : ∀ i, x i ≤ q * v i) (n : Nat) :
    ∃ p' q', p ≤ p' ∧ q' ≤ q ∧ q' - p' ≤ (1 - lo / hi) ^ n * (q - p) ∧
      ∀ i, p' * (k ^ n * v i) ≤ (app a)^[n] x i ∧ (app a)^[n] x i ≤ q' * (k ^ n * v i) := by
  obtain ⟨t0, t1⟩ := h.theta
  have hV := sum_pos' hv
  have hh := h.hi_pos
  have hl := h.pos
  induction n with
  | zero => exact ⟨p, q, le_refl _, le_refl _, by simp, fun i => by simpa using ⟨hp i, hq i⟩⟩
  | succ n ih =>
    obtain ⟨p', q', k1, k2, k3, k4⟩ := ih
    set y := (app a)^[n] x with hy
    have hkn : 0 < k ^ n := pow_pos k0 n
    have hvi : ∀ i, k * v i ≤ hi * ∑ j, v j := fun i => by
      rw [← hk]
      exact app_le h v (fun i => (hv i).le) i
    obtain ⟨r, hr⟩ : ∃ r, r * (k ^ n * ∑ j, v j) = ∑ j, y j := ⟨_, div_mul_cancel₀ _ (mul_pos hkn hV).ne'⟩
    have hr1 : p' ≤ r := by
      refine le_of_mul_le_mul_right ?_ (mul_pos hkn hV)
      rw [hr, mul_sum, mul_sum]
      exact sum_le_sum fun i _ => (k4 i).1
    have hr2 : r ≤ q' := by
      refine le_of_mul_le_mul_right ?_ (mul_pos hkn hV)
      rw [hr, mul_sum, mul_sum]
      exact sum_le_sum fun i _ => (k4 i).2
    have key : ∀ (d : K) (i : ι), 0 ≤ d → lo / hi * d * (k ^ (n + 1) * v i) ≤ lo * (d * (k ^ n * ∑ j, v j)) := by
      intro d i hd
      calc lo / hi * d * (k ^ (n + 1) * v i) = lo / hi * d * k ^ n * (k * v i) := by ring
        _ ≤ lo / hi * d * k ^ n * (hi * ∑ j, v j) := mul_le_mul_of_nonneg_left (hvi i) (by positivity)
        _ = lo * (d * (k ^ n * ∑ j, v j)) := by field_simp
    refine ⟨p' + lo / hi * (r - p'), q' - lo / hi * (q' - r), ?_, ?_, ?_, fun i => ⟨?_, ?_⟩⟩
    · have := mul_nonneg t0.le (sub_nonneg.2 hr1)
      linarith
    · have := mul_nonneg t0.le (sub_nonneg.2 hr2)
      linarith
    · have := mul_le_mul_of_nonneg_left k3 (sub_nonneg.2 t1)
      rw [pow_succ]
      linarith
    · rw [Function.iterate_succ_apply', ← hy]
      have e := app_ge h (fun j => 1 * y j + -(p' * k ^ n) * v j) (fun j => by have := (k4 j).1; linarith) i
      rw [app_lin, sum_add_distrib, ← mul_sum, ← mul_sum, ← hr, hk] at e
      have := key (r - p') i (by linarith)
      have e2 : (1 : K) * (r * (k ^ n * ∑ j, v j)) + -(p' * k ^ n) * ∑ j, v j = (r - p') * (k ^ n * ∑ j, v j) := by ring
      rw [e2] at e
      rw [pow_succ] at this ⊢
      linarith
    · rw [Function.iterate_succ_apply', ← hy]
      have e := app_ge h (fun j => q' * k ^ n * v j + -1 * y j) (fun j => by have := (k4 j).2; linarith) i
      rw [app_lin, sum_add_distrib, ← mul_sum, ← mul_sum, ← hr, hk] at e
      have := key (q' - r) i (by linarith)
      have e2 : q' * k ^ n * ∑ j, v j + -1 * (r * (k ^ n * ∑ j, v j)) = (q' - r) * (k ^ n * ∑ j, v j) := by ring
      rw [e2] at e
      rw [pow_succ] at this ⊢
      linarith

/-- The shape of the iterates approaches that of the eigenvector. -/
theorem shape [Nonempty ι] (h : Mix a lo hi) {k : K} (k0 : 0 < k) {v : ι → K} (hv : ∀ i, 0 < v i)
    (hk : ∀ i, app a v i = k * v i) {x : ι → K} {p q : K} (p0 : 0 < p) (hp : ∀ i, p * v i ≤ x i) (hq : ∀ i, x i ≤ q * v i)
    (n : Nat) (i : ι) : |(app a)^[n] x i / ∑ j, (app a)^[n] x j - v i / ∑ j, v j| ≤
      (1 - lo / hi) ^ n * ((q - p) / p) * (v i / ∑ j, v j) := by
  obtain ⟨p', q', k1, k2, k3, k4⟩ := squeeze h k0 hv hk hp hq n
  set y := (app a)^[n] x with hy
  have hV := sum_pos' hv
  have hkn : 0 < k ^ n := pow_pos k0 n
  have p0' : 0 < p' := p0.trans_le k1
  have hy0 : ∀ i, 0 < y i := fun i => (mul_pos p0' (mul_pos hkn (hv i))).trans_le (k4 i).1
  have hY := sum_pos' hy0
  have s1 : p' * (k ^ n * ∑ j, v j) ≤ ∑ j, y j := by
    rw [mul_sum, mul_sum]
    exact sum_le_sum fun i _ => (k4 i).1
  have s2 : ∑ j, y j ≤ q' * (k ^ n * ∑ j, v j) := by
    rw [mul_sum, mul_sum]
    exact sum_le_sum fun i _ => (k4 i).2
  have hpq : p' ≤ q' := by
    refine le_of_mul_le_mul_right (s1.trans s2) (mul_pos hkn hV)
  have q0' : 0 < q' := p0'.trans_le hpq
  have hvV : 0 < v i / ∑ j, v j := div_pos (hv i) hV
  have u1 : y i / ∑ j, y j ≤ q' / p' * (v i / ∑ j, v j) := by
    rw [div_le_iff₀ hY]
    calc y i ≤ q' * (k ^ n * v i) := (k4 i).2
      _ = q' / p' * (v i / ∑ j, v j) * (p' * (k ^ n * ∑ j, v j)) := by field_simp
      _ ≤ _ := mul_le_mul_of_nonneg_left s1 (by positivity)
  have u2 : p' / q' * (v i / ∑ j, v j) ≤ y i / ∑ j, y j := by
    rw [le_div_iff₀ hY]
    calc p' / q' * (v i / ∑ j, v j) * ∑ j, y j ≤ p' / q' * (v i / ∑ j, v j) * (q' * (k ^ n * ∑ j, v j)) :=
          mul_le_mul_of_nonneg_left s2 (by positivity)
      _ = p' * (k ^ n * v i) := by field_simp
      _ ≤ _ := (k4 i).1
  have b1 : q' / p' - 1 ≤ (1 - lo / hi) ^ n * ((q - p) / p) := by
    have e1 : q' / p' - 1 = (q' - p') / p' := by rw [sub_div, div_self p0'.ne']
    have e2 : (q' - p') / p' ≤ (q' - p') / p := div_le_div_of_nonneg_left (sub_nonneg.2 hpq) p0 k1
    have e3 : (q' - p') / p ≤ (1 - lo / hi) ^ n * (q - p) / p := div_le_div_of_nonneg_right k3 p0.le
    rw [e1, ← mul_div_assoc]
    exact e2.trans e3
  have b2 : 1 - p' / q' ≤ q' / p' - 1 := by
    have e1 : 1 - p' / q' = (q' - p') / q' := by rw [sub_div, div_self q0'.ne']
    have e2 : q' / p' - 1 = (q' - p') / p' := by rw [sub_div, div_self p0'.ne']
    rw [e1, e2]
    exact div_le_div_of_nonneg_left (sub_nonneg.2 hpq) p0' hpq
  rw [abs_le]
  constructor
  · have := mul_le_mul_of_nonneg_right (b2.trans b1) hvV.le
    linarith
  · have := mul_le_mul_of_nonneg_right b1 hvV.le
    linarith

end field

/-- A positive real matrix has a positive eigenvector. -/
theorem exists_eigen {ι : Type} [Fintype ι] [Nonempty ι] {a : ι → ι → ℝ} (ha : ∀ i j, 0 < a i j) :
    ∃ k > 0, ∃ v : ι → ℝ, (∀ i, 0 < v i) ∧ ∀ i, app a v i = k * v i := by
  let B : ℝ := ∑ i, ∑ j, a i j
  let S : Set ((ι → ℝ) × ℝ) := {z | (∀ i, 0 ≤ z.1 i) ∧ ∑ i, z.1 i = 1 ∧ 0 ≤ z.2 ∧ ∀ i, z.2 * z.1 i ≤ app a z.1 i}
  have hle1 : ∀ z ∈ S, ∀ i, z.1 i ≤ 1 := fun z hz i => by
    rw [← hz.2.1]
    exact single_le_sum (f := z.1) (fun j _ => hz.1 j) (mem_univ i)
  have hB : ∀ z ∈ S, z.2 ≤ B := fun z hz => by
    have e : z.2 = ∑ i, z.2 * z.1 i := by rw [← mul_sum, hz.2.1, mul_one]
    rw [e]
    refine sum_le_sum fun i _ => (hz.2.2.2 i).trans (sum_le_sum fun j _ => ?_)
    exact mul_le_of_le_one_right (ha i j).le (hle1 z hz j)
  have hsub : S ⊆ Set.Icc (fun _ => 0) (fun _ => 1) ×ˢ Set.Icc 0 B := fun z hz =>
    ⟨⟨fun i => hz.1 i, fun i => hle1 z hz i⟩, hz.2.2.1, hB z hz⟩
  have hcl : IsClosed S := by
    have e : S = (⋂ i, {z : (ι → ℝ) × ℝ | 0 ≤ z.1 i}) ∩ ({z | ∑ i, z.1 i = 1} ∩ ({z | 0 ≤ z.2} ∩
        ⋂ i, {z : (ι → ℝ) × ℝ | z.2 * z.1 i ≤ app a z.1 i})) := by
      ext z
      simp [S]
    rw [e]
    refine (isClosed_iInter fun i => isClosed_le continuous_const (by fun_prop)).inter
      ((isClosed_eq (by fun_prop) continuous_const).inter ((isClosed_le continuous_const continuous_snd).inter
        (isClosed_iInter fun i => isClosed_le (by fun_prop) ?_)))
    unfold app
    fun_prop
  have hco : IsCompact S := (isCompact_Icc.prod isCompact_Icc).of_isClosed_subset hcl hsub
  have hc : (0 : ℝ) < Fintype.card ι := by exact_mod_cast Fintype.card_pos
  have hne : S.Nonempty := by
    refine ⟨(fun _ => 1 / Fintype.card ι, 0), fun i => by positivity, ?_, le_refl _, fun i => ?_⟩
    · show ∑ _i : ι, (1 / (Fintype.card ι : ℝ)) = 1
      rw [sum_const, card_univ, nsmul_eq_mul]
      field_simp
    · show 0 * _ ≤ app a _ i
      rw [zero_mul]
      exact sum_nonneg fun j _ => mul_nonneg (ha i j).le (by positivity)
  obtain ⟨⟨x, k⟩, hz, hmax⟩ := hco.exists_isMaxOn hne (f := fun z => z.2) continuous_snd.continuousOn
  obtain ⟨x0, x1, k0, hx⟩ := hz
  dsimp only at x0 x1 k0 hx
  have hxi : ∃ i, 0 < x i := by
    by_contra hc
    push Not at hc
    have := sum_nonpos fun i (_ : i ∈ univ) => hc i
    linarith
  have strict : ∀ z : ι → ℝ, (∀ i, 0 ≤ z i) → (∃ i, 0 < z i) → ∀ i, 0 < app a z i := by
    rintro z h0 ⟨j, hj⟩ i
    exact Finset.sum_pos' (fun j _ => mul_nonneg (ha i j).le (h0 j)) ⟨j, mem_univ _, mul_pos (ha i j) hj⟩
  have hy := strict x x0 hxi
  have heq : ∀ i, app a x i = k * x i := by
    by_contra hcon
    push Not at hcon
    obtain ⟨i0, hi0⟩ := hcon
    have hlt : 0 < app a x i0 - k * x i0 := sub_pos.2 (lt_of_le_of_ne (hx i0) (Ne.symm hi0))
    have hst := strict (fun j => 1 * app a x j + -k * x j) (fun j => by have := hx j; linarith)
      ⟨i0, by linarith⟩
    have hst' : ∀ i, 0 < (app a (app a x) i - k * app a x i) / app a x i := fun i => by
      have := hst i
      rw [app_lin] at this
      exact div_pos (by linarith) (hy i)
    obtain ⟨i, hi⟩ := Finite.exists_min (fun i => (app a (app a x) i - k * app a x i) / app a x i)
    set e := (app a (app a x) i - k * app a x i) / app a x i with he
    have e0 : 0 < e := hst' i
    have hY : 0 < ∑ j, app a x j := sum_pos' hy
    have hin : ((fun j => 1 / (∑ j, app a x j) * app a x j, k + e) : (ι → ℝ) × ℝ) ∈ S := by
      refine ⟨fun j => mul_nonneg (by positivity) (hy j).le, ?_, by dsimp only; linarith, fun j => ?_⟩
      · show ∑ j, 1 / (∑ j, app a x j) * app a x j = 1
        rw [← mul_sum]
        field_simp
      · show (k + e) * (1 / (∑ j, app a x j) * app a x j) ≤ app a (fun j => 1 / (∑ j, app a x j) * app a x j) j
        rw [app_smul]
        have h1 := (le_div_iff₀ (hy j)).1 (hi j)
        have h2 : (k + e) * app a x j ≤ app a (app a x) j := by linarith
        calc (k + e) * (1 / (∑ j, app a x j) * app a x j) = 1 / (∑ j, app a x j) * ((k + e) * app a x j) := by ring
          _ ≤ _ := mul_le_mul_of_nonneg_left h2 (by positivity)
    have := hmax hin
    simp only [Set.mem_setOf_eq] at this
    linarith
  have hkx : ∀ i, 0 < k * x i := fun i => by rw [← heq]; exact hy i
  have hk : 0 < k := by
    obtain ⟨i, hi⟩ := hxi
    exact (pos_iff_pos_of_mul_pos (hkx i)).2 hi
  exact ⟨k, hk, x, fun i => (pos_iff_pos_of_mul_pos (hkx i)).1 hk, heq⟩

end Detran.Perron
