import Verif.Props.Kinetics
import Mathlib.RingTheory.PowerSeries.Inverse
import Mathlib.Analysis.SpecialFunctions.Exp
import Mathlib.Algebra.BigOperators.NatAntidiagonal

/-!
# Stability of the implicit differences, and discrete growth

A sequence whose implicit differences of a given order (with zeros before its start) are small in sum is small.  The proof
divides power series: the polynomial of the difference is `1 - z` times one whose inverse has summable coefficients, for
which short certificates exist.
-/

namespace Detran.Kin

open Finset PowerSeries

/-! ## Power series from lists -/

theorem getD_far {K : Type} (l : List K) (d : K) {i : Nat} (h : l.length ≤ i) : l.getD i d = d := by
  rw [List.getD_eq_getElem?_getD, List.getElem?_eq_none h]; rfl

section
variable {K : Type} [Field K]

/-- The power series with the coefficients listed. -/
noncomputable def toPS (l : List K) : PowerSeries K := PowerSeries.mk fun n => l.getD n 0

def addL : List K → List K → List K
  | [], b => b
  | a, [] => a
  | x :: a, y :: b => (x + y) :: addL a b

def conv : List K → List K → List K
  | [], _ => []
  | x :: a, b => addL (b.map (x * ·)) (0 :: conv a b)

theorem toPS_nil : toPS ([] : List K) = 0 := by ext n; simp [toPS]

theorem toPS_cons (x : K) (l : List K) : toPS (x :: l) = PowerSeries.C x + X * toPS l := by
  ext n
  cases n with
  | zero => simp [toPS]
  | succ n => simp [toPS, coeff_succ_X_mul, PowerSeries.coeff_C]

theorem toPS_add (a b : List K) : toPS (addL a b) = toPS a + toPS b := by
  induction a generalizing b with
  | nil => rw [addL, toPS_nil, zero_add]
  | cons x a ih =>
    cases b with
    | nil => rw [addL, toPS_nil, add_zero]; simp
    | cons y b =>
      rw [addL, toPS_cons, toPS_cons, toPS_cons, ih, map_add]
      ring

theorem toPS_map (x : K) (b : List K) : toPS (b.map (x * ·)) = PowerSeries.C x * toPS b := by
  induction b with
  | nil => simp [toPS_nil]
  | cons y b ih =>
    rw [List.map_cons, toPS_cons, toPS_cons, ih, map_mul]
    ring

theorem toPS_conv (a b : List K) : toPS (conv a b) = toPS a * toPS b := by
  induction a with
  | nil => rw [conv, toPS_nil, zero_mul]
  | cons x a ih =>
    rw [conv, toPS_add, toPS_map, toPS_cons, toPS_cons, ih, map_zero]
    ring

end

/-! ## Stability -/

/-- The coefficients of the difference, with signs. -/
noncomputable def rho (o i : Nat) : ℝ := if i = 0 then bdf o 0 else -bdf o i

/-- The difference at step `m` of a sequence that is zero before its start. -/
noncomputable def diff (o : Nat) (e : Nat → ℝ) (m : Nat) : ℝ := ∑ i ∈ range (m + 1), rho o i * e (m - i)


/-- The coefficients of a series `G` with `c G = p` are summable when the first coefficient of `c` outweighs the others. -/
theorem summable_inverse (c : Nat → ℝ) (p : List ℝ) (n0 : Nat) (G : PowerSeries ℝ)
    (hc : ∀ i, n0 < i → c i = 0) (h : PowerSeries.mk c * G = toPS p) (N : Nat) :
    (c 0 - ∑ i ∈ range n0, |c (i + 1)|) * ∑ m ∈ range (N + 1), |coeff m G| ≤ (p.map (|·|)).sum := by
  have hp : ∀ m, c 0 * coeff m G = p.getD m 0 - ∑ i ∈ range m, c (i + 1) * coeff (m - (i + 1)) G := by
    intro m
    have := congrArg (coeff m) h
    rw [coeff_mul, Nat.sum_antidiagonal_eq_sum_range_succ (fun i j => coeff i (PowerSeries.mk c) * coeff j G),
      sum_range_succ'] at this
    simp only [coeff_mk, toPS, Nat.sub_zero] at this
    linarith
  have hb : ∀ m, c 0 * |coeff m G| ≤ |p.getD m 0| + ∑ i ∈ range m, |c (i + 1)| * |coeff (m - (i + 1)) G| := by
    intro m
    calc c 0 * |coeff m G| ≤ |c 0| * |coeff m G| := mul_le_mul_of_nonneg_right (le_abs_self _) (abs_nonneg _)
      _ = |c 0 * coeff m G| := (abs_mul _ _).symm
      _ = |p.getD m 0 - ∑ i ∈ range m, c (i + 1) * coeff (m - (i + 1)) G| := by rw [hp]
      _ ≤ |p.getD m 0| + |∑ i ∈ range m, c (i + 1) * coeff (m - (i + 1)) G| := abs_sub _ _
      _ ≤ |p.getD m 0| + ∑ i ∈ range m, |c (i + 1) * coeff (m - (i + 1)) G| :=
        add_le_add le_rfl (abs_sum_le_sum_abs _ _)
      _ = _ := by simp only [abs_mul]
  have hl : ∀ (l : List ℝ) (M : Nat), ∑ m ∈ range M, |l.getD m 0| ≤ (l.map (|·|)).sum := by
    intro l
    induction l with
    | nil => intro M; simp
    | cons x l ih =>
      intro M
      cases M with
      | zero =>
        simp only [range_zero, sum_empty]
        refine List.sum_nonneg fun y hy => ?_
        obtain ⟨z, -, rfl⟩ := List.mem_map.1 hy
        exact abs_nonneg z
      | succ M =>
        rw [sum_range_succ']
        simp only [List.getD_cons_succ, List.getD_cons_zero, List.map_cons, List.sum_cons]
        linarith [ih M]
  have hsum : c 0 * ∑ m ∈ range (N + 1), |coeff m G| ≤
      (p.map (|·|)).sum + ∑ m ∈ range (N + 1), ∑ i ∈ range m, |c (i + 1)| * |coeff (m - (i + 1)) G| := by
    rw [mul_sum]
    refine (sum_le_sum fun m _ => hb m).trans ?_
    rw [sum_add_distrib]
    exact add_le_add (hl p _) le_rfl
  have hswap : ∑ m ∈ range (N + 1), ∑ i ∈ range m, |c (i + 1)| * |coeff (m - (i + 1)) G| ≤
      (∑ i ∈ range n0, |c (i + 1)|) * ∑ m ∈ range (N + 1), |coeff m G| := by
    have h1 : ∀ m ∈ range (N + 1), ∑ i ∈ range m, |c (i + 1)| * |coeff (m - (i + 1)) G| ≤
        ∑ i ∈ range n0, if i < m then |c (i + 1)| * |coeff (m - (i + 1)) G| else 0 := by
      intro m _
      rw [← sum_filter]
      refine (sum_subset_zero_on_sdiff (s₁ := (range n0).filter (· < m)) (s₂ := range m) ?_ ?_ fun _ _ => rfl).symm.le
      · intro i hi; exact mem_range.2 (mem_filter.1 hi).2
      · intro i hi
        simp only [mem_sdiff, mem_filter, mem_range, not_and] at hi
        have : n0 < i + 1 := by
          by_contra hn
          exact hi.2 (by omega) hi.1
        rw [hc _ this, abs_zero, zero_mul]
    refine (sum_le_sum h1).trans ?_
    rw [sum_comm, sum_mul]
    refine sum_le_sum fun i _ => ?_
    rw [← sum_filter, ← mul_sum]
    refine mul_le_mul_of_nonneg_left ?_ (abs_nonneg _)
    rw [← sum_image (s := (range (N + 1)).filter (i < ·)) (g := fun m => m - (i + 1)) (f := fun m => |coeff m G|)]
    · refine sum_le_sum_of_subset_of_nonneg ?_ fun _ _ _ => abs_nonneg _
      intro m hm
      obtain ⟨m', hm', rfl⟩ := mem_image.1 hm
      have := mem_range.1 (mem_filter.1 hm').1
      exact mem_range.2 (by omega)
    · intro a ha b hb hab
      have h1 := (mem_filter.1 (mem_coe.1 ha)).2
      have h2 := (mem_filter.1 (mem_coe.1 hb)).2
      simp only at hab
      omega
  linarith

/-- A certificate bounds sequences by the sum of their differences. -/
theorem stable_of (o : Nat) (gam p : List ℝ) (hrho : ∀ i, rho o i = (conv [1, -1] gam).getD i 0)
    (hg : gam.getD 0 0 ≠ 0) (K : ℝ) (hK : (p.map (|·|)).sum ≤
      K * ((conv gam p).getD 0 0 - ∑ i ∈ range (conv gam p).length, |(conv gam p).getD (i + 1) 0|))
    (hpos : 0 < (conv gam p).getD 0 0 - ∑ i ∈ range (conv gam p).length, |(conv gam p).getD (i + 1) 0|)
    (e : Nat → ℝ) (n : Nat) : |e n| ≤ K * ∑ m ∈ range (n + 1), |diff o e m| := by
  set G : PowerSeries ℝ := (toPS gam)⁻¹ with hG
  have hinv : toPS gam * G = 1 := PowerSeries.mul_inv_cancel _ (by
    rw [← coeff_zero_eq_constantCoeff_apply]; simpa [toPS] using hg)
  have hS : ∀ N, ∑ m ∈ range (N + 1), |coeff m G| ≤ K := by
    intro N
    have h := summable_inverse (fun n => (conv gam p).getD n 0) p (conv gam p).length G
      (fun i hi => getD_far _ _ hi.le)
      (by
        show toPS (conv gam p) * G = toPS p
        rw [toPS_conv, mul_right_comm, hinv, one_mul]) N
    have := h.trans hK
    rw [mul_comm K] at this
    exact le_of_mul_le_mul_left this hpos
  set E : PowerSeries ℝ := PowerSeries.mk e with hE
  set R : PowerSeries ℝ := PowerSeries.mk (diff o e) with hR
  have hRE : R = toPS (conv [1, -1] gam) * E := by
    ext m
    rw [coeff_mul, Nat.sum_antidiagonal_eq_sum_range_succ (fun i j => coeff i (toPS (conv [1, -1] gam)) * coeff j E)]
    simp only [hR, hE, coeff_mk, toPS, diff, hrho]
  have hD : toPS [1, -1] * E = G * R := by
    rw [hRE, toPS_conv]
    calc toPS [1, -1] * E = (toPS gam * G) * (toPS [1, -1] * E) := by rw [hinv, one_mul]
      _ = _ := by ring
  have hstep : ∀ m, e m = ∑ j ∈ range (m + 1), coeff j (G * R) := by
    intro m
    rw [← hD]
    have hx : toPS [1, -1] * E = E - X * E := by
      rw [toPS_cons, toPS_cons, toPS_nil]; simp; ring
    rw [hx]
    induction m with
    | zero => simp [hE]
    | succ m ih =>
      rw [sum_range_succ, ← ih, map_sub, coeff_succ_X_mul, hE, coeff_mk, coeff_mk]
      ring
  rw [hstep]
  refine (abs_sum_le_sum_abs _ _).trans ?_
  have h1 : ∀ m ∈ range (n + 1), |coeff m (G * R)| ≤ ∑ j ∈ range (n + 1), if j ≤ m then |coeff (m - j) G| * |diff o e j| else 0 := by
    intro m hm
    rw [mul_comm G R, coeff_mul, Nat.sum_antidiagonal_eq_sum_range_succ (fun i j => coeff i R * coeff j G)]
    refine (abs_sum_le_sum_abs _ _).trans ?_
    rw [← sum_filter]
    have hs : (range (n + 1)).filter (· ≤ m) = range (m + 1) := by
      ext j
      have := mem_range.1 hm
      simp only [mem_filter, mem_range]; omega
    rw [hs]
    refine sum_le_sum fun j _ => ?_
    rw [abs_mul, hR, coeff_mk, mul_comm]
  refine (sum_le_sum h1).trans ?_
  rw [sum_comm, mul_sum]
  refine sum_le_sum fun j _ => ?_
  rw [← sum_filter, ← sum_mul]
  refine mul_le_mul_of_nonneg_right ?_ (abs_nonneg _)
  refine le_trans ?_ (hS n)
  rw [← sum_image (s := (range (n + 1)).filter (j ≤ ·)) (g := fun m => m - j) (f := fun m => |coeff m G|)]
  · refine sum_le_sum_of_subset_of_nonneg ?_ fun _ _ _ => abs_nonneg _
    intro m hm
    obtain ⟨m', hm', rfl⟩ := mem_image.1 hm
    have := mem_range.1 (mem_filter.1 hm').1
    exact mem_range.2 (by omega)
  · intro a ha b hb hab
    have h1 := (mem_filter.1 (mem_coe.1 ha)).2
    have h2 := (mem_filter.1 (mem_coe.1 hb)).2
    simp only at hab
    omega

theorem rho_list (o : Nat) (l : List ℝ) (h1 : 1 ≤ o) (h6 : o ≤ 6) (hl : l.length = 7)
    (h : ∀ i, i < 7 → rho o i = l.getD i 0) (i : Nat) : rho o i = l.getD i 0 := by
  by_cases hi : i < 7
  · exact h i hi
  · rw [getD_far _ _ (by omega), rho, if_neg (by omega), neg_eq_zero]
    unfold bdf bdfRows
    interval_cases o <;> exact getD_far _ _ (by simp; omega)

/-- Sequences are bounded by eight times the sum of their differences, for all six orders. -/
theorem stable (o : Nat) (h1 : 1 ≤ o) (h6 : o ≤ 6) (e : Nat → ℝ) (n : Nat) :
    |e n| ≤ 8 * ∑ m ∈ range (n + 1), |diff o e m| := by
  interval_cases o
  · refine stable_of 1 [1, 0, 0, 0, 0, 0] [1] (rho_list 1 _ (by norm_num) (by norm_num) rfl ?_) (by norm_num) 8 ?_ ?_ e n
    · intro i hi; interval_cases i <;> norm_num [rho, bdf, bdfRows, conv, addL]
    all_goals norm_num [conv, addL, sum_range_succ]
  · refine stable_of 2 [3 / 2, -1 / 2, 0, 0, 0, 0] [667 / 1000] (rho_list 2 _ (by norm_num) (by norm_num) rfl ?_) (by norm_num) 8 ?_ ?_ e n
    · intro i hi; interval_cases i <;> norm_num [rho, bdf, bdfRows, conv, addL]
    all_goals norm_num [conv, addL, sum_range_succ, abs_of_pos, abs_of_neg]
  · refine stable_of 3 [11 / 6, -7 / 6, 1 / 3, 0, 0, 0] [109 / 200, 347 / 1000] (rho_list 3 _ (by norm_num) (by norm_num) rfl ?_)
      (by norm_num) 8 ?_ ?_ e n
    · intro i hi; interval_cases i <;> norm_num [rho, bdf, bdfRows, conv, addL]
    all_goals norm_num [conv, addL, sum_range_succ, abs_of_pos, abs_of_neg]
  · refine stable_of 4 [25 / 12, -23 / 12, 13 / 12, -1 / 4, 0, 0] [12 / 25, 221 / 500, 157 / 1000]
      (rho_list 4 _ (by norm_num) (by norm_num) rfl ?_) (by norm_num) 8 ?_ ?_ e n
    · intro i hi; interval_cases i <;> norm_num [rho, bdf, bdfRows, conv, addL]
    all_goals norm_num [conv, addL, sum_range_succ, abs_of_pos, abs_of_neg]
  · refine stable_of 5 [137 / 60, -163 / 60, 137 / 60, -21 / 20, 1 / 5, 0] [219 / 500, 521 / 1000, 91 / 500]
      (rho_list 5 _ (by norm_num) (by norm_num) rfl ?_) (by norm_num) 8 ?_ ?_ e n
    · intro i hi; interval_cases i <;> norm_num [rho, bdf, bdfRows, conv, addL]
    all_goals norm_num [conv, addL, sum_range_succ, abs_of_pos, abs_of_neg]
  · refine stable_of 6 [49 / 20, -71 / 20, 79 / 20, -163 / 60, 31 / 30, -1 / 6] [51 / 125, 591 / 1000, 199 / 1000, -213 / 1000, -29 / 200]
      (rho_list 6 _ (by norm_num) (by norm_num) rfl ?_) (by norm_num) 8 ?_ ?_ e n
    · intro i hi; interval_cases i <;> norm_num [rho, bdf, bdfRows, conv, addL]
    all_goals norm_num [conv, addL, sum_range_succ, abs_of_pos, abs_of_neg]

/-! ## Discrete growth -/

/-- Gronwall's inequality for sequences. -/
theorem grow (E : Nat → ℝ) (A b : ℝ) (hA : 0 ≤ A) (hb : 0 ≤ b) (h2 : b ≤ 1 / 2) (hE : ∀ n, 0 ≤ E n) (N : Nat)
    (h : ∀ n, n ≤ N → E n ≤ A + b * ∑ m ∈ range (n + 1), E m) (n : Nat) (hn : n ≤ N) :
    E n ≤ 2 * A * Real.exp (2 * b * n) := by
  have h1 : ∀ n, n ≤ N → E n ≤ 2 * A + 2 * b * ∑ m ∈ range n, E m := by
    intro n hn
    have := h n hn
    rw [sum_range_succ] at this
    nlinarith [mul_le_mul_of_nonneg_right h2 (hE n)]
  have h3 : ∀ n, n ≤ N + 1 → 2 * A + 2 * b * ∑ m ∈ range n, E m ≤ 2 * A * (1 + 2 * b) ^ n := by
    intro n
    induction n with
    | zero => intro _; simp
    | succ n ih =>
      intro hn
      have i1 := ih (by omega)
      have i2 := h1 n (by omega)
      rw [sum_range_succ, pow_succ]
      have := mul_le_mul_of_nonneg_left (i2.trans i1) (show (0 : ℝ) ≤ 2 * b by linarith)
      nlinarith
  refine ((h1 n hn).trans (h3 n (by omega))).trans ?_
  refine mul_le_mul_of_nonneg_left ?_ (by linarith)
  calc (1 + 2 * b) ^ n ≤ Real.exp (2 * b) ^ n :=
        pow_le_pow_left₀ (by linarith) (by linarith [Real.add_one_le_exp (2 * b)]) n
    _ = Real.exp (2 * b * n) := by rw [← Real.exp_nat_mul]; congr 1; ring

end Detran.Kin
