import Verif.Lemmas.Perron
import Mathlib.Tactic.Ring

/-!
# The power method with a perturbed matrix product

Helper lemmas for C143; nothing here is specific to the code.
-/

namespace Detran.Perron

open Finset

variable {K : Type} [Field K] [LinearOrder K] [IsStrictOrderedRing K] {ι : Type} [Fintype ι]
variable {a : ι → ι → K} {lo hi : K}

/-- `x` is a multiple of `v` but for a factor of at most `1 + δ`. -/
def Close (v x : ι → K) (δ : K) : Prop := ∃ p > 0, ∀ i, p * v i ≤ x i ∧ x i ≤ p * (1 + δ) * v i

omit [Fintype ι] in
theorem Close.mono {v x : ι → K} {δ δ' : K} (hv : ∀ i, 0 < v i) (h : Close v x δ) (hl : δ ≤ δ') : Close v x δ' := by
  obtain ⟨p, p0, hp⟩ := h
  refine ⟨p, p0, fun i => ⟨(hp i).1, (hp i).2.trans ?_⟩⟩
  have := mul_le_mul_of_nonneg_left hl (mul_pos p0 (hv i)).le
  linarith

/-- A step with a relative error of `η` in every entry. -/
theorem close_step [Nonempty ι] (h : Mix a lo hi) {k : K} (k0 : 0 < k) {v : ι → K} (hv : ∀ i, 0 < v i)
    (hk : ∀ i, app a v i = k * v i) {x y : ι → K} {δ η s : K} (δ0 : 0 ≤ δ) (η0 : 0 ≤ η) (η1 : 4 * η ≤ lo / hi) (s0 : 0 < s)
    (hx : Close v x δ) (hy : ∀ i, |y i - s * app a x i| ≤ η * (s * app a x i)) :
    Close v y ((1 - lo / hi / 2) * δ + 4 * η) := by
  obtain ⟨t0, t1⟩ := h.theta
  set θ := lo / hi with hθ
  obtain ⟨p, p0, hp⟩ := hx
  obtain ⟨p1, q1, b1, _, b3, b4⟩ := squeeze h k0 hv hk (fun i => (hp i).1) (fun i => (hp i).2) 1
  simp only [pow_one, Function.iterate_one] at b3 b4
  rw [← hθ] at b3
  have p10 : 0 < p1 := p0.trans_le b1
  have e0 : 0 < 1 - η := by linarith
  refine ⟨(1 - η) * (s * p1 * k), by positivity, fun i => ?_⟩
  have hvi := hv i
  obtain ⟨c1, c2⟩ := abs_le.1 (hy i)
  obtain ⟨d1, d2⟩ := b4 i
  have q : q1 ≤ p1 * (1 + (1 - θ) * δ) := by
    have := mul_le_mul_of_nonneg_left b1 (mul_nonneg (sub_nonneg.2 t1) δ0)
    nlinarith
  have m1 := mul_le_mul_of_nonneg_left d1 (mul_pos e0 s0).le
  have m2 := mul_le_mul_of_nonneg_left d2 (mul_pos (show 0 < 1 + η by linarith) s0).le
  have fac : (1 + η) * (1 + (1 - θ) * δ) ≤ (1 - η) * (1 + ((1 - θ / 2) * δ + 4 * η)) := by
    have a1 : 4 * (η * η) ≤ 1 * η := by
      have := mul_le_mul_of_nonneg_right (η1.trans t1) η0
      linarith
    have a2 := mul_nonneg δ0 (show 0 ≤ θ / 2 - 2 * η by linarith)
    have a3 := mul_nonneg (mul_nonneg δ0 η0) t0.le
    nlinarith
  constructor
  · linarith
  · have g0 : 0 ≤ s * k * v i := by positivity
    have e1 := mul_le_mul_of_nonneg_left q (mul_nonneg (show 0 ≤ 1 + η by linarith) g0)
    have e2 := mul_le_mul_of_nonneg_left fac (mul_nonneg p10.le g0)
    linarith

/-- The recurrence of those errors. -/
theorem decay {f : Nat → K} {r b : K} (r0 : 0 ≤ r) (r1 : r < 1) (b0 : 0 ≤ b) (h : ∀ n, f (n + 1) ≤ r * f n + b) (n : Nat) :
    f n ≤ r ^ n * f 0 + b / (1 - r) := by
  have h1 : 0 < 1 - r := by linarith
  induction n with
  | zero => simpa using div_nonneg b0 h1.le
  | succ n ih =>
    have := mul_le_mul_of_nonneg_left ih r0
    have e : r * (b / (1 - r)) + b = b / (1 - r) := by field_simp; ring
    rw [pow_succ]
    linarith [h n]

/-- The growth of the sum in a step. -/
theorem close_quot [Nonempty ι] {k : K} (k0 : 0 < k) {v : ι → K} (hv : ∀ i, 0 < v i) (ha : ∀ i j, 0 ≤ a i j)
    (hk : ∀ i, app a v i = k * v i) {x y : ι → K} {δ η : K} (δ0 : 0 ≤ δ) (η0 : 0 ≤ η) (η1 : η ≤ 1)
    (hx : Close v x δ) (hy : ∀ i, |y i - 1 / (∑ j, x j) * app a x i| ≤ η * (1 / (∑ j, x j) * app a x i)) :
    |(∑ i, y i) - k| ≤ k * (2 * δ + η) := by
  obtain ⟨p, p0, hp⟩ := hx
  have hV := sum_pos' hv
  set X := ∑ j, x j with hX
  have s1 : p * ∑ j, v j ≤ X := by
    rw [hX, mul_sum]
    exact sum_le_sum fun i _ => (hp i).1
  have s2 : X ≤ p * (1 + δ) * ∑ j, v j := by
    rw [hX, mul_sum]
    exact sum_le_sum fun i _ => (hp i).2
  have X0 : 0 < X := (mul_pos p0 hV).trans_le s1
  have l1 : ∀ i, p * (k * v i) ≤ app a x i := fun i => by
    rw [← hk, ← app_smul]
    exact app_mono ha (fun j => (hp j).1) i
  have l2 : ∀ i, app a x i ≤ p * (1 + δ) * (k * v i) := fun i => by
    rw [← hk, ← app_smul]
    exact app_mono ha (fun j => (hp j).2) i
  set A := ∑ i, app a x i with hA
  have A1 : p * (k * ∑ j, v j) ≤ A := by
    rw [hA, mul_sum, mul_sum]
    exact sum_le_sum fun i _ => l1 i
  have A2 : A ≤ p * (1 + δ) * (k * ∑ j, v j) := by
    rw [hA, mul_sum, mul_sum]
    exact sum_le_sum fun i _ => l2 i
  have Y : |(∑ i, y i) - 1 / X * A| ≤ η * (1 / X * A) := by
    rw [hA, mul_sum, mul_sum, ← sum_sub_distrib]
    exact (abs_sum_le_sum_abs _ _).trans (sum_le_sum fun i _ => hy i)
  obtain ⟨Q, hQ⟩ : ∃ Q, Q = 1 / X * A := ⟨_, rfl⟩
  rw [← hQ] at Y
  have QX : Q * X = A := by rw [hQ]; field_simp
  have A0 : 0 < A := lt_of_lt_of_le (by positivity) A1
  have Q0 : 0 < Q := by rw [hQ]; positivity
  have u : Q ≤ k * (1 + δ) := by
    refine le_of_mul_le_mul_right ?_ X0
    rw [QX]
    refine A2.trans ?_
    have := mul_le_mul_of_nonneg_left s1 (show 0 ≤ k * (1 + δ) by positivity)
    linarith
  have l : k ≤ Q * (1 + δ) := by
    refine le_of_mul_le_mul_right ?_ (mul_pos p0 hV)
    have : k * (p * ∑ j, v j) ≤ A := by linarith
    refine this.trans ?_
    rw [← QX]
    have := mul_le_mul_of_nonneg_left s2 Q0.le
    linarith
  obtain ⟨y1, y2⟩ := abs_le.1 Y
  have w1 : η * Q ≤ η * (k * (1 + δ)) := mul_le_mul_of_nonneg_left u η0
  have w2 : η * (k * δ) ≤ 1 * (k * δ) := mul_le_mul_of_nonneg_right η1 (by positivity)
  have w3 : Q * δ ≤ k * (1 + δ) * δ := mul_le_mul_of_nonneg_right u δ0
  rw [abs_le]
  constructor
  · -- k - Q ≤ k δ
    have : k - Q ≤ k * δ := by
      rcases le_total k Q with h | h
      · have : 0 ≤ k * δ := by positivity
        linarith
      · have := mul_le_mul_of_nonneg_right h δ0
        linarith
    rcases le_total Q k with h | h
    · have w4 := mul_le_mul_of_nonneg_left h η0
      have : 0 ≤ k * δ := by positivity
      linarith
    · linarith
  · linarith

/-- The shape. -/
theorem close_shape [Nonempty ι] {v x : ι → K} (hv : ∀ i, 0 < v i) {δ : K} (δ0 : 0 ≤ δ) (hx : Close v x δ) (i : ι) :
    |x i / (∑ j, x j) - v i / ∑ j, v j| ≤ δ := by
  obtain ⟨p, p0, hp⟩ := hx
  have hV := sum_pos' hv
  set X := ∑ j, x j with hX
  have s1 : p * ∑ j, v j ≤ X := by
    rw [hX, mul_sum]
    exact sum_le_sum fun i _ => (hp i).1
  have s2 : X ≤ p * (1 + δ) * ∑ j, v j := by
    rw [hX, mul_sum]
    exact sum_le_sum fun i _ => (hp i).2
  have X0 : 0 < X := (mul_pos p0 hV).trans_le s1
  obtain ⟨u, hu⟩ : ∃ u, u = v i / ∑ j, v j := ⟨_, rfl⟩
  have uV : u * ∑ j, v j = v i := by rw [hu]; field_simp
  have u0 : 0 < u := by rw [hu]; exact div_pos (hv i) hV
  have u1 : u ≤ 1 := by
    rw [hu, div_le_one hV]
    exact single_le_sum (f := v) (fun j _ => (hv j).le) (mem_univ i)
  rw [← hu]
  have a1 : x i / X ≤ (1 + δ) * u := by
    rw [div_le_iff₀ X0]
    refine (hp i).2.trans ?_
    rw [← uV]
    have := mul_le_mul_of_nonneg_left s1 (show 0 ≤ (1 + δ) * u by positivity)
    linarith
  have a2 : u ≤ x i / X * (1 + δ) := by
    have : x i / X * (1 + δ) = (x i * (1 + δ)) / X := by ring
    rw [this, le_div_iff₀ X0]
    have b1 := mul_le_mul_of_nonneg_left s2 u0.le
    have b2 := mul_le_mul_of_nonneg_right (hp i).1 (show 0 ≤ 1 + δ by linarith)
    rw [← uV] at b2
    linarith
  have z0 : x i / X ≤ 1 := by
    have hx0 : ∀ j, 0 ≤ x j := fun j => (mul_pos p0 (hv j)).le.trans (hp j).1
    rw [div_le_one X0]
    exact single_le_sum (f := x) (fun j _ => hx0 j) (mem_univ i)
  have b1 := mul_le_mul_of_nonneg_right u1 δ0
  have b2 := mul_le_mul_of_nonneg_right z0 δ0
  rw [abs_le]
  constructor <;> linarith

end Detran.Perron
