import Verif.Lemmas.LegendreRoots

/-!
# The Gauss-Legendre sets the code generates, for every number of points (C90)

Exact arithmetic; the tolerance of the root search is that of the code.
-/

namespace Detran.QuadGen

open Polynomial Set Real Detran.Angle

/-! ### The roots in order -/

open Classical in
/-- The `i`-th largest root of the Legendre polynomial of degree `m` (any number if there is none). -/
noncomputable def rootOf (m i : Nat) : ℝ :=
  if 2 * i + 1 ≤ m then (if h : ∃ r, Below (m - 1) r (guess m i) then h.choose else 0)
  else -(if h : ∃ r, Below (m - 1) r (guess m (m - 1 - i)) then h.choose else 0)

theorem rootOf_below (n i : Nat) (hi : 2 * i + 1 ≤ n + 1) : Below n (rootOf (n + 1) i) (guess (n + 1) i) := by
  have h : ∃ r, Below (n + 1 - 1) r (guess (n + 1) i) := exists_below n i hi
  unfold rootOf
  rw [if_pos hi, dif_pos h]
  exact h.choose_spec

/-- The guess in the middle of an odd set is zero, the others of the upper half are positive. -/
theorem guess_sign (m i : Nat) (hi : 2 * i + 1 ≤ m) : (2 * i + 1 = m → guess m i = 0) ∧ (2 * i + 1 < m → 0 < guess m i) := by
  have hp := pi_pos
  constructor
  · intro h
    unfold guess
    rw [show π * ((i : ℝ) + 1 - 1 / 4) / (m + 1 / 2) = π / 2 from ?_, cos_pi_div_two]
    rw [← h]; push_cast
    rw [div_eq_div_iff (by positivity) (by norm_num)]
    ring
  · intro h
    have h' : 2 * (i : ℝ) + 2 ≤ m := by exact_mod_cast (by omega : 2 * i + 2 ≤ m)
    have h0 : (0 : ℝ) ≤ i := Nat.cast_nonneg i
    unfold guess
    refine cos_pos_of_mem_Ioo ⟨?_, ?_⟩
    · refine lt_of_lt_of_le (neg_lt_zero.2 (by positivity)) (div_nonneg (mul_nonneg hp.le (by linarith)) (by positivity))
    · rw [div_lt_div_iff₀ (by positivity) (by norm_num)]
      nlinarith

theorem rootOf_neg (m i : Nat) (hi : i < m) : rootOf m (m - 1 - i) = - rootOf m i := by
  obtain ⟨n, rfl⟩ : ∃ n, m = n + 1 := ⟨m - 1, by omega⟩
  have e : n + 1 - 1 - (n + 1 - 1 - i) = i := by omega
  rcases lt_trichotomy (2 * i + 1) (n + 1) with h | h | h
  · unfold rootOf
    rw [if_neg (by omega), if_pos (by omega), e]
  · have hb := rootOf_below n i h.le
    have hz : rootOf (n + 1) i = 0 := le_antisymm (hb.le.trans ((guess_sign _ _ h.le).1 h).le) hb.nonneg
    rw [show n + 1 - 1 - i = i by omega, hz, neg_zero]
  · unfold rootOf
    rw [if_pos (by omega : 2 * (n + 1 - 1 - i) + 1 ≤ n + 1), if_neg (by omega), neg_neg]

theorem rootOf_pos (n i : Nat) (hi : 2 * i + 1 < n + 1) : 0 < rootOf (n + 1) i := by
  have hb := rootOf_below n i hi.le
  have hg := (guess_sign _ _ hi.le).2 hi
  refine lt_of_le_of_ne hb.nonneg fun h => ?_
  have := hb.near
  rw [← h, zero_div, sub_zero] at this
  linarith

/-- Neighbouring guesses of the upper half are far apart. -/
theorem guess_gap (n i j : Nat) (hij : i < j) (hj : 2 * j + 1 ≤ n + 1) :
    3 / freq n ^ 2 ≤ guess (n + 1) i - guess (n + 1) j := by
  have hN := freq_pos n
  have hp := pi_pos
  rw [guess_sin, guess_sin, sin_pi_div_two_sub, sin_pi_div_two_sub, cos_sub_cos]
  set a := π * ((i : ℝ) + 3 / 4) / freq n with ha
  set b := π * ((j : ℝ) + 3 / 4) / freq n with hb
  have hij' : (i : ℝ) + 1 ≤ j := by exact_mod_cast hij
  have hj' : 2 * (j : ℝ) + 1 ≤ n + 1 := by exact_mod_cast hj
  have hi0 : (0 : ℝ) ≤ i := Nat.cast_nonneg i
  have h1 : π / freq n ≤ b - a := by
    rw [ha, hb, ← sub_div, div_le_div_iff_of_pos_right hN]; nlinarith
  have h2 : 3 * π / (4 * freq n) ≤ a := by
    rw [ha, div_le_div_iff₀ (by positivity) hN]
    nlinarith [mul_nonneg (mul_nonneg hp.le hi0) hN.le]
  have h3 : b ≤ π / 2 := by
    rw [hb, div_le_div_iff₀ hN (by norm_num)]; unfold freq; nlinarith
  have ha0 : 0 < a := lt_of_lt_of_le (by positivity) h2
  have hab : 0 < b - a := lt_of_lt_of_le (by positivity) h1
  have e1 : 3 / (2 * freq n) ≤ sin ((a + b) / 2) := by
    refine le_trans ?_ (mul_le_sin (by linarith) (by linarith))
    refine le_trans (le_of_eq ?_) (mul_le_mul_of_nonneg_left (show 3 * π / (4 * freq n) ≤ (a + b) / 2 by linarith)
      (show 0 ≤ 2 / π by positivity))
    field_simp; ring
  have e2 : 1 / freq n ≤ sin ((b - a) / 2) := by
    refine le_trans ?_ (mul_le_sin (by linarith) (by linarith))
    refine le_trans (le_of_eq ?_) (mul_le_mul_of_nonneg_left (show π / freq n / 2 ≤ (b - a) / 2 by linarith)
      (show 0 ≤ 2 / π by positivity))
    field_simp
  rw [show (a - b) / 2 = -((b - a) / 2) by ring, sin_neg]
  have := mul_le_mul e1 e2 (by positivity) (le_trans (by positivity) e1)
  have e3 : 3 / (2 * freq n) * (1 / freq n) = 3 / freq n ^ 2 / 2 := by field_simp
  linarith

theorem rootOf_anti_upper (n i j : Nat) (hij : i < j) (hj : 2 * j + 1 ≤ n + 1) :
    guess (n + 1) j < rootOf (n + 1) i := by
  have hi := rootOf_below n i (by omega)
  have hgap := guess_gap n i j hij hj
  have hN := freq_pos n
  have h1 : rootOf (n + 1) i / (4 * freq n ^ 2) ≤ 1 / (4 * freq n ^ 2) := by
    have := hi.le; have := hi.lt
    rw [div_le_div_iff_of_pos_right (by positivity)]; linarith
  have h2 : 1 / (4 * freq n ^ 2) < 3 / freq n ^ 2 := by
    rw [div_lt_div_iff₀ (by positivity) (by positivity)]; nlinarith [sq_pos_of_pos hN]
  have := hi.near
  linarith

theorem rootOf_anti (m i j : Nat) (hij : i < j) (hj : j < m) : rootOf m j < rootOf m i := by
  obtain ⟨n, rfl⟩ : ∃ n, m = n + 1 := ⟨m - 1, by omega⟩
  have up : ∀ i j, i < j → 2 * j + 1 ≤ n + 1 → rootOf (n + 1) j < rootOf (n + 1) i := fun i j h1 h2 =>
    lt_of_le_of_lt (rootOf_below n j h2).le (rootOf_anti_upper n i j h1 h2)
  by_cases h1 : 2 * j + 1 ≤ n + 1
  · exact up i j hij h1
  · have e := rootOf_neg (n + 1) (n - j) (by omega)
    rw [show n + 1 - 1 - (n - j) = j by omega] at e
    rw [e]
    by_cases h2 : 2 * i + 1 ≤ n + 1
    · have := rootOf_pos n (n - j) (by omega)
      have := (rootOf_below n i h2).nonneg
      linarith
    · have e' := rootOf_neg (n + 1) (n - i) (by omega)
      rw [show n + 1 - 1 - (n - i) = i by omega] at e'
      rw [e', neg_lt_neg_iff]
      exact up _ _ (by omega) (by omega)

theorem rootOf_root (m i : Nat) (hi : i < m) : (leg m).eval (rootOf m i) = 0 := by
  obtain ⟨n, rfl⟩ : ∃ n, m = n + 1 := ⟨m - 1, by omega⟩
  by_cases h : 2 * i + 1 ≤ n + 1
  · exact (rootOf_below n i h).root
  · have e := rootOf_neg (n + 1) (n - i) (by omega)
    rw [show n + 1 - 1 - (n - i) = i by omega] at e
    rw [e, (leg_neg (n + 1) _).1, (rootOf_below n (n - i) (by omega)).root, mul_zero]

/-! ### Points and weights -/

/-- The weight belonging to a root in Gauss's rule. -/
noncomputable def gaussWeight (m : Nat) (r : ℝ) : ℝ := 2 / ((1 - r * r) * (derivative (leg m)).eval r ^ 2)

theorem point_near {n : Nat} {r g : ℝ} (h : Below n r g) {tol : ℝ} (ht : (2 / 11) ^ 199 ≤ tol) :
    r ≤ -(glPoint tol (n + 1) g).1 ∧ -(glPoint tol (n + 1) g).1 ≤ g ∧ -(glPoint tol (n + 1) g).1 - r ≤ tol / 4 ∧
    0 < gaussWeight (n + 1) r ∧ 0 < (glPoint tol (n + 1) g).2 ∧
    |(glPoint tol (n + 1) g).2 - gaussWeight (n + 1) r| ≤ (2 * ((n + 1 : Nat) : ℝ) + 1) ^ 2 * tol * gaussWeight (n + 1) r := by
  have htp : 0 < tol := lt_of_lt_of_le (by positivity) ht
  obtain ⟨z1, hz1, he, hd⟩ := refine_between h (tol := tol) 199 (z := g) ⟨h.le, le_rfl⟩
  obtain ⟨a1, a2, a3, a4⟩ := newton_between h hz1
  have hgr : g - r ≤ 1 := by linarith [h.lt, h.nonneg]
  have hd2 : z1 - r ≤ 11 / 9 * tol := by
    refine hd.trans (max_le le_rfl ?_)
    have : (2 / 11 : ℝ) ^ 199 * (g - r) ≤ (2 / 11) ^ 199 * 1 := mul_le_mul_of_nonneg_left hgr (by positivity)
    linarith
  have hz0 : 0 ≤ z1 - r := by linarith [hz1.1]
  unfold glPoint gaussWeight
  simp only [he, neg_neg]
  set z := (newton (n + 1) z1).1
  set pp := (newton (n + 1) z1).2
  set S := (derivative (leg (n + 1))).eval r
  have hS : 0 < S ^ 2 := sq_pos_of_ne_zero (root_simple n r h.root).2
  have hg0 := h.nonneg
  have hzz : z ≤ z1 := by linarith
  have hz1g := hz1.2
  have hlt := h.lt
  set s := 1 - z1 * z1 with hs
  set A := 1 - z * z with hA
  set b := 1 - r * r with hb
  have hsA : s ≤ A := by rw [hs, hA]; nlinarith
  have hAb : A ≤ b := by rw [hA, hb]; nlinarith
  have hs9 : 9 / (4 * freq n ^ 2) ≤ s := le_trans h.far (by rw [hs]; nlinarith [hz1.1])
  have hN := freq_pos n
  have hs0 : 0 < s := lt_of_lt_of_le (by positivity) hs9
  have hK : (2 * ((n + 1 : Nat) : ℝ) + 1) ^ 2 = 4 * freq n ^ 2 := by unfold freq; push_cast; ring
  have hsK : 9 ≤ s * (4 * freq n ^ 2) := by rwa [div_le_iff₀ (by positivity)] at hs9
  have hbs : b - s ≤ 22 / 9 * tol := by
    have : b - s = (z1 - r) * (z1 + r) := by rw [hs, hb]; ring
    rw [this]
    nlinarith
  have hbs2 : b - s ≤ 22 / 81 * (4 * freq n ^ 2) * tol * s := by
    have := mul_le_mul_of_nonneg_left hsK (show 0 ≤ 22 / 81 * tol by positivity)
    linarith
  have hpp : 0 < pp ^ 2 := lt_of_lt_of_le hS a3
  have hA0 : 0 < A := lt_of_lt_of_le hs0 hsA
  have hb0 : 0 < b := lt_of_lt_of_le hA0 hAb
  refine ⟨a1, by linarith, by linarith, by positivity, ?_, ?_⟩
  · rw [mul_assoc, ← sq]; positivity
  · rw [mul_assoc A, ← sq, hK]
    set K := 4 * freq n ^ 2
    have hK0 : 0 < K := by positivity
    have e : ∀ u v : ℝ, 0 < u → 0 < v → 2 / (A * v) - 2 / (b * u) = 2 / (b * u) * ((b * u) / (A * v) - 1) := by
      intro u v hu hv; field_simp
    replace e := e _ _ hS hpp
    have hw : 0 < 2 / (b * S ^ 2) := by positivity
    rw [e, abs_mul, abs_of_pos hw, mul_comm (K * tol)]
    refine mul_le_mul_of_nonneg_left ?_ hw.le
    rw [abs_le]
    constructor
    · -- not much smaller
      have c1 : s ^ 2 / b ^ 2 ≤ b * S ^ 2 / (A * pp ^ 2) := by
        rw [div_le_div_iff₀ (by positivity) (by positivity)]
        have t1 : s ^ 2 * pp ^ 2 * A ≤ S ^ 2 * b ^ 2 * A := mul_le_mul_of_nonneg_right (by linarith) hA0.le
        have t2 : S ^ 2 * b ^ 2 * A ≤ S ^ 2 * b ^ 2 * b := mul_le_mul_of_nonneg_left hAb (by positivity)
        linarith
      have c2 : 1 - 2 * ((b - s) / b) ≤ s ^ 2 / b ^ 2 := by
        have : s ^ 2 / b ^ 2 = (1 - (b - s) / b) ^ 2 := by field_simp; ring
        rw [this]
        nlinarith [sq_nonneg ((b - s) / b)]
      have c3 : (b - s) / b ≤ 22 / 81 * K * tol := by
        rw [div_le_iff₀ hb0]
        refine hbs2.trans (mul_le_mul_of_nonneg_left (hsA.trans hAb) (by positivity))
      have : 0 ≤ K * tol := by positivity
      linarith
    · have c1 : b * S ^ 2 / (A * pp ^ 2) ≤ b / A := by
        rw [div_le_div_iff₀ (by positivity) hA0]
        have := mul_le_mul_of_nonneg_left a3 (mul_nonneg hb0.le hA0.le)
        linarith
      have c2 : b / A ≤ b / s := div_le_div_of_nonneg_left hb0.le hs0 hsA
      have c3 : b / s = 1 + (b - s) / s := by field_simp; ring
      have c4 : (b - s) / s ≤ 22 / 81 * K * tol := by rw [div_le_iff₀ hs0]; exact hbs2
      have : 0 ≤ K * tol := by positivity
      linarith

/-- **C90.** The roots the search is after: as many as points, in order, all inside (-1, 1), antisymmetric, each within
    a fraction `1 / (2m + 1)²` of itself of its guess. -/
theorem C90_roots (m : Nat) : (∀ i < m, (leg m).eval (rootOf m i) = 0 ∧ |rootOf m i| < 1 ∧
      rootOf m (m - 1 - i) = - rootOf m i ∧ |guess m i - rootOf m i| ≤ |rootOf m i| / (2 * m + 1) ^ 2) ∧
    (∀ i j, i < j → j < m → rootOf m j < rootOf m i) ∧ ∀ x, 0 < m → (leg m).eval x = 0 → ∃ i < m, x = rootOf m i := by
  refine ⟨fun i hi => ⟨rootOf_root m i hi, ?_, rootOf_neg m i hi, ?_⟩, rootOf_anti m, fun x hm hx => ?_⟩
  · obtain ⟨n, rfl⟩ : ∃ n, m = n + 1 := ⟨m - 1, by omega⟩
    have key : ∀ i, 2 * i + 1 ≤ n + 1 → |rootOf (n + 1) i| < 1 := fun i h => by
      have hb := rootOf_below n i h
      rw [abs_of_nonneg hb.nonneg]
      exact lt_of_le_of_lt hb.le hb.lt
    by_cases h : 2 * i + 1 ≤ n + 1
    · exact key i h
    · have e := rootOf_neg (n + 1) (n - i) (by omega)
      rw [show n + 1 - 1 - (n - i) = i by omega] at e
      rw [e, abs_neg]
      exact key _ (by omega)
  · obtain ⟨n, rfl⟩ : ∃ n, m = n + 1 := ⟨m - 1, by omega⟩
    have key : ∀ i, 2 * i + 1 ≤ n + 1 → |guess (n + 1) i - rootOf (n + 1) i| ≤
        |rootOf (n + 1) i| / (2 * ((n + 1 : Nat) : ℝ) + 1) ^ 2 := fun i h => by
      have hb := rootOf_below n i h
      rw [abs_of_nonneg hb.nonneg, abs_of_nonneg (by linarith [hb.le])]
      refine hb.near.trans (le_of_eq ?_)
      congr 1
      unfold freq; push_cast; ring
    by_cases h : 2 * i + 1 ≤ n + 1
    · exact key i h
    · have e := rootOf_neg (n + 1) (n - i) (by omega)
      have e2 := guess_neg (n + 1) (n - i) (by omega)
      rw [show n + 1 - 1 - (n - i) = i by omega] at e e2
      rw [e, e2, abs_neg, show -guess (n + 1) (n - i) - -rootOf (n + 1) (n - i) =
        -(guess (n + 1) (n - i) - rootOf (n + 1) (n - i)) by ring, abs_neg]
      exact key _ (by omega)
  · classical
    by_contra hno
    push Not at hno
    have hl0 : leg m ≠ 0 := fun h => by
      have := (leg_one m).1
      rw [h] at this
      simp at this
    have hinj : ∀ i ∈ Finset.range m, ∀ j ∈ Finset.range m, rootOf m i = rootOf m j → i = j := by
      intro i hi j hj he
      rw [Finset.mem_range] at hi hj
      rcases lt_trichotomy i j with h | h | h
      · exact absurd he (ne_of_gt (rootOf_anti m i j h hj))
      · exact h
      · exact absurd he (ne_of_lt (rootOf_anti m j i h hi))
    have hsub : insert x ((Finset.range m).image (rootOf m)) ⊆ (leg m).roots.toFinset := by
      intro y hy
      rw [Multiset.mem_toFinset, mem_roots hl0, IsRoot.def]
      rcases Finset.mem_insert.1 hy with rfl | hy
      · exact hx
      · obtain ⟨i, hi, rfl⟩ := Finset.mem_image.1 hy
        exact rootOf_root m i (Finset.mem_range.1 hi)
    have hcard := Finset.card_le_card hsub
    rw [Finset.card_insert_of_notMem (fun h => by
      obtain ⟨i, hi, he⟩ := Finset.mem_image.1 h
      exact hno i (Finset.mem_range.1 hi) he.symm), Finset.card_image_of_injOn (fun i hi j hj => hinj i hi j hj),
      Finset.card_range] at hcard
    have h1 := (Multiset.toFinset_card_le (leg m).roots).trans (card_roots' (leg m))
    have h2 := (leg_degree m).1
    omega

/-- **C90.** For every number of points the search finds every root within a quarter of the tolerance, and the weights of Gauss's
    rule with a relative error of at most `(2m + 1)²` times the tolerance; for every tolerance down to `(2/11)^199`. -/
theorem C90_generated (m i : Nat) (hi : i < m) (tol : ℝ) (ht : (2 / 11) ^ 199 ≤ tol) :
    |(glPoint tol m (guess m i)).1 - -rootOf m i| ≤ tol / 4 ∧ 0 < (glPoint tol m (guess m i)).2 ∧
    |(glPoint tol m (guess m i)).1| < 1 ∧ 0 < gaussWeight m (rootOf m i) ∧
    |(glPoint tol m (guess m i)).2 - gaussWeight m (rootOf m i)| ≤ (2 * m + 1) ^ 2 * tol * gaussWeight m (rootOf m i) := by
  obtain ⟨n, rfl⟩ : ∃ n, m = n + 1 := ⟨m - 1, by omega⟩
  have key : ∀ i, 2 * i + 1 ≤ n + 1 → |(glPoint tol (n + 1) (guess (n + 1) i)).1 - -rootOf (n + 1) i| ≤ tol / 4 ∧
      0 < (glPoint tol (n + 1) (guess (n + 1) i)).2 ∧ |(glPoint tol (n + 1) (guess (n + 1) i)).1| < 1 ∧
      0 < gaussWeight (n + 1) (rootOf (n + 1) i) ∧
      |(glPoint tol (n + 1) (guess (n + 1) i)).2 - gaussWeight (n + 1) (rootOf (n + 1) i)| ≤
        (2 * ((n + 1 : Nat) : ℝ) + 1) ^ 2 * tol * gaussWeight (n + 1) (rootOf (n + 1) i) := by
    intro i h
    have hb := rootOf_below n i h
    obtain ⟨a1, a2, a3, a4, a5, a6⟩ := point_near hb ht
    refine ⟨?_, a5, ?_, a4, a6⟩
    · rw [abs_of_nonpos (by linarith)]; linarith
    · have := hb.lt; have := hb.nonneg
      rw [abs_of_nonpos (by linarith)]; linarith
  by_cases h : 2 * i + 1 ≤ n + 1
  · exact key i h
  · have e := rootOf_neg (n + 1) (n - i) (by omega)
    have e2 := C90_symmetric tol (n + 1) (n - i) (by omega)
    rw [show n + 1 - 1 - (n - i) = i by omega] at e e2
    have e3 : gaussWeight (n + 1) (-rootOf (n + 1) (n - i)) = gaussWeight (n + 1) (rootOf (n + 1) (n - i)) := by
      have hs := slope_neg (n + 1) (rootOf (n + 1) (n - i))
      have hr := (root_simple n _ (rootOf_root (n + 1) (n - i) (by omega))).1
      rw [slope_eq n _ (by rwa [neg_mul_neg]), slope_eq n _ hr] at hs
      unfold gaussWeight
      rw [hs, neg_mul_neg, mul_pow, ← pow_mul, mul_comm (n + 1 + 1) 2, pow_mul]
      norm_num
    obtain ⟨a1, a2, a3, a4, a5⟩ := key (n - i) (by omega)
    rw [e, e2.1, e2.2, e3, abs_neg]
    refine ⟨?_, a2, a3, a4, a5⟩
    rw [← abs_neg]
    convert a1 using 2
    ring

/-- **C90.** The points come in increasing order, without repetition. -/
theorem C90_increasing (m i j : Nat) (hij : i < j) (hj : j < m) (tol : ℝ) (ht : (2 / 11) ^ 199 ≤ tol) :
    (glPoint tol m (guess m i)).1 < (glPoint tol m (guess m j)).1 := by
  obtain ⟨n, rfl⟩ : ∃ n, m = n + 1 := ⟨m - 1, by omega⟩
  have up : ∀ i j, i < j → 2 * j + 1 ≤ n + 1 →
      (glPoint tol (n + 1) (guess (n + 1) i)).1 < (glPoint tol (n + 1) (guess (n + 1) j)).1 := by
    intro i j h1 h2
    obtain ⟨a1, -⟩ := point_near (rootOf_below n i (by omega)) ht
    obtain ⟨-, b1, -⟩ := point_near (rootOf_below n j h2) ht
    have := rootOf_anti_upper n i j h1 h2
    linarith
  by_cases h1 : 2 * j + 1 ≤ n + 1
  · exact up i j hij h1
  · have e := (C90_symmetric tol (n + 1) (n - j) (by omega)).1
    rw [show n + 1 - 1 - (n - j) = j by omega] at e
    rw [e]
    by_cases h2 : 2 * i + 1 ≤ n + 1
    · obtain ⟨a1, -⟩ := point_near (rootOf_below n i h2) ht
      obtain ⟨b1, -⟩ := point_near (rootOf_below n (n - j) (by omega)) ht
      have := rootOf_pos n (n - j) (by omega)
      have := (rootOf_below n i h2).nonneg
      linarith
    · have e' := (C90_symmetric tol (n + 1) (n - i) (by omega)).1
      rw [show n + 1 - 1 - (n - i) = i by omega] at e'
      rw [e', neg_lt_neg_iff]
      exact up _ _ (by omega) (by omega)

/-! ### Integrals -/

/-- Gauss's rule with the exact roots. -/
noncomputable def gaussSet (m : Nat) : List ℝ × List ℝ :=
  ((List.range m).map fun i => -rootOf m i, (List.range m).map fun i => gaussWeight m (rootOf m i))

theorem gaussSet_exact (m : Nat) (hm : 0 < m) : ExactTo (2 * m - 1) (-1) 1 (gaussSet m) := by
  obtain ⟨n, rfl⟩ : ∃ n, m = n + 1 := ⟨m - 1, by omega⟩
  intro p hp
  unfold gaussSet
  rw [rule_map]
  have hinj : ∀ i < n + 1, ∀ j < n + 1, rootOf (n + 1) i = rootOf (n + 1) j → i = j := by
    intro i hi j hj he
    rcases lt_trichotomy i j with h | h | h
    · exact absurd he (ne_of_gt (rootOf_anti _ i j h hj))
    · exact h
    · exact absurd he (ne_of_lt (rootOf_anti _ j i h hi))
  have := gauss n (fun i => -rootOf (n + 1) i) (fun i => gaussWeight (n + 1) (rootOf (n + 1) i))
    (fun i hi => by rw [(leg_neg (n + 1) _).1, rootOf_root _ i hi, mul_zero])
    (fun i hi j hj h => hinj i hi j hj (neg_injective h))
    (fun i hi => by
      have hr := (root_simple n _ (rootOf_root (n + 1) i hi)).1
      have hs := slope_neg (n + 1) (rootOf (n + 1) i)
      rw [slope_eq n _ (by rwa [neg_mul_neg]), slope_eq n _ hr] at hs
      unfold gaussWeight
      rw [hs, neg_mul_neg, mul_pow, ← pow_mul, mul_comm (n + 1 + 1) 2, pow_mul]
      norm_num) p (by omega)
  exact this

theorem gauss_total (m : Nat) (hm : 0 < m) : ∑ i ∈ Finset.range m, gaussWeight m (rootOf m i) = 2 := by
  have := gaussSet_exact m hm 1 (by simp)
  unfold gaussSet at this
  rw [rule_map] at this
  simp only [eval_one, mul_one, intervalIntegral.integral_const, smul_eq_mul] at this
  rw [this]; norm_num

/-- The generated set against Gauss's rule, for any function with bounds for its size and slope. -/
theorem rule_near (m : Nat) (hm : 0 < m) (tol : ℝ) (ht : (2 / 11) ^ 199 ≤ tol) (f : ℝ → ℝ) (B L : ℝ)
    (hB : ∀ x ∈ Icc (-1 : ℝ) 1, |f x| ≤ B) (hL : ∀ x ∈ Icc (-1 : ℝ) 1, ∀ y ∈ Icc (-1 : ℝ) 1, |f x - f y| ≤ L * |x - y|) :
    |rule (glSet tol m (guess m)) f - rule (gaussSet m) f| ≤ 2 * tol * ((2 * m + 1) ^ 2 * B + L / 4) := by
  have htp : 0 < tol := lt_of_lt_of_le (by positivity) ht
  have hB0 : 0 ≤ B := (abs_nonneg _).trans (hB 0 ⟨by norm_num, by norm_num⟩)
  have hL0 : 0 ≤ L := by
    have := (abs_nonneg _).trans (hL 1 ⟨by norm_num, le_rfl⟩ 0 ⟨by norm_num, by norm_num⟩)
    simpa using this
  unfold glSet gaussSet
  rw [rule_map, rule_map, ← Finset.sum_sub_distrib]
  have h1 : ∀ i ∈ Finset.range m, |(glPoint tol m (guess m i)).2 * f (glPoint tol m (guess m i)).1 -
      gaussWeight m (rootOf m i) * f (-rootOf m i)| ≤ gaussWeight m (rootOf m i) * (tol * ((2 * m + 1) ^ 2 * B + L / 4)) := by
    intro i hi
    rw [Finset.mem_range] at hi
    obtain ⟨a1, a2, a3, a4, a5⟩ := C90_generated m i hi tol ht
    have hr := ((C90_roots m).1 i hi).2.1
    set x := (glPoint tol m (guess m i)).1
    set w := (glPoint tol m (guess m i)).2
    set w' := gaussWeight m (rootOf m i)
    have hx : x ∈ Icc (-1 : ℝ) 1 := ⟨(abs_lt.1 a3).1.le, (abs_lt.1 a3).2.le⟩
    have hy : -rootOf m i ∈ Icc (-1 : ℝ) 1 := ⟨by linarith [(abs_lt.1 hr).2], by linarith [(abs_lt.1 hr).1]⟩
    have e : w * f x - w' * f (-rootOf m i) = (w - w') * f x + w' * (f x - f (-rootOf m i)) := by ring
    rw [e]
    refine (abs_add_le _ _).trans ?_
    rw [abs_mul, abs_mul, abs_of_pos a4]
    have b1 : |w - w'| * |f x| ≤ ((2 * m + 1) ^ 2 * tol * w') * B := mul_le_mul a5 (hB x hx) (abs_nonneg _) (by positivity)
    have b2 : |f x - f (-rootOf m i)| ≤ L * (tol / 4) := (hL x hx _ hy).trans (mul_le_mul_of_nonneg_left a1 hL0)
    have b3 := mul_le_mul_of_nonneg_left b2 a4.le
    linarith
  refine (Finset.abs_sum_le_sum_abs _ _).trans ((Finset.sum_le_sum h1).trans (le_of_eq ?_))
  rw [← Finset.sum_mul, gauss_total m hm]
  ring

/-- A polynomial changes by no more than its largest slope. -/
theorem poly_lipschitz (p : ℝ[X]) {a b L : ℝ} (hL : ∀ x ∈ Icc a b, |(derivative p).eval x| ≤ L) :
    ∀ x ∈ Icc a b, ∀ y ∈ Icc a b, |p.eval x - p.eval y| ≤ L * |x - y| := by
  intro x hx y hy
  have := (convex_Icc a b).norm_image_sub_le_of_norm_hasDerivWithin_le (f := fun x => p.eval x)
    (f' := fun x => (derivative p).eval x) (C := L) (fun z _ => (p.hasDerivAt z).hasDerivWithinAt) hL hy hx
  simpa [Real.norm_eq_abs] using this

/-- **C90.** The set the code makes for any interval (in either direction) and any number of points integrates every polynomial of
    degree up to `2m - 1` with an error of at most the length of the interval times `10⁻¹⁵` times
    `(2m + 1)² max |p| + length · max |p'|`. -/
theorem C90_integrates (m : Nat) (hm : 0 < m) (a b : ℝ) (p : ℝ[X]) (hp : p.natDegree ≤ 2 * m - 1) (B L : ℝ)
    (hB : ∀ x ∈ uIcc a b, |p.eval x| ≤ B) (hL : ∀ x ∈ uIcc a b, |(derivative p).eval x| ≤ L) :
    |rule (baseGL a b m) (fun x => p.eval x) - ∫ x in a..b, p.eval x| ≤
      |b - a| / 10 ^ 15 * ((2 * m + 1) ^ 2 * B + |b - a| * L) := by
  unfold baseGL
  have he := exact_scaleShift _ a b _ (gaussSet_exact m hm) p hp
  rw [← he, rule_scaleShift, rule_scaleShift, ← mul_sub, abs_mul]
  have hin : ∀ x ∈ Icc (-1 : ℝ) 1, (b - a) / 2 * x + (a + b) / 2 ∈ uIcc a b := by
    intro x hx
    rw [mem_uIcc]
    rcases le_total a b with h | h
    · left; constructor <;> nlinarith [hx.1, hx.2]
    · right; constructor <;> nlinarith [hx.1, hx.2]
  have hL0 : 0 ≤ L := (abs_nonneg _).trans (hL a left_mem_uIcc)
  have hn := rule_near m hm (1 / 10 ^ 15) (by norm_num) (fun x => p.eval ((b - a) / 2 * x + (a + b) / 2)) B (L * (|b - a| / 2))
    (fun x hx => hB _ (hin x hx)) (fun x hx y hy => by
      have := poly_lipschitz p (a := min a b) (b := max a b) hL _ (hin x hx) _ (hin y hy)
      refine this.trans (le_of_eq ?_)
      rw [show (b - a) / 2 * x + (a + b) / 2 - ((b - a) / 2 * y + (a + b) / 2) = (b - a) / 2 * (x - y) by ring, abs_mul, abs_div]
      norm_num
      ring)
  refine (mul_le_mul_of_nonneg_left hn (abs_nonneg _)).trans ?_
  rw [abs_div, abs_of_pos (show (0 : ℝ) < 2 by norm_num)]
  have h1 : 0 ≤ |b - a| * |b - a| * L := by positivity
  have e : |b - a| / 2 * (2 * (1 / 10 ^ 15) * ((2 * (m : ℝ) + 1) ^ 2 * B + L * (|b - a| / 2) / 4)) =
      |b - a| / 10 ^ 15 * ((2 * m + 1) ^ 2 * B) + |b - a| * |b - a| * L / 10 ^ 15 / 8 := by ring
  rw [e]
  have e2 : |b - a| / 10 ^ 15 * ((2 * (m : ℝ) + 1) ^ 2 * B + |b - a| * L) =
      |b - a| / 10 ^ 15 * ((2 * m + 1) ^ 2 * B) + |b - a| * |b - a| * L / 10 ^ 15 := by ring
  rw [e2]
  have h2 : 0 ≤ |b - a| * |b - a| * L / 10 ^ 15 := by positivity
  linarith

/-- **C90.** The points of the set lie inside the interval in increasing order, and the weights are positive. -/
theorem C90_set (m : Nat) (a b : ℝ) (hab : a < b) : (baseGL a b m).1.length = m ∧ (baseGL a b m).2.length = m ∧
    (baseGL a b m).1.Pairwise (· < ·) ∧ (∀ x ∈ (baseGL a b m).1, a < x ∧ x < b) ∧ ∀ w ∈ (baseGL a b m).2, 0 < w := by
  have ht : (2 / 11 : ℝ) ^ 199 ≤ 1 / 10 ^ 15 := by norm_num
  have hs : 0 < (b - a) / (1 - -1) := div_pos (by linarith) (by norm_num)
  unfold baseGL scaleShift glSet
  simp only [List.length_map, List.length_range, List.map_map, List.mem_map, List.mem_range, true_and,
    forall_exists_index, and_imp, forall_apply_eq_imp_iff₂, Function.comp]
  refine ⟨?_, fun i hi => ?_, fun i hi => ?_⟩
  · rw [List.pairwise_map]
    refine (List.pairwise_lt_range (n := m)).imp_of_mem fun {i j} hi hj h => ?_
    have := C90_increasing m i j h (List.mem_range.1 hj) _ ht
    have := mul_lt_mul_of_pos_right this hs
    show _ * _ + _ < _ * _ + _
    linarith
  · obtain ⟨-, -, a3, -⟩ := C90_generated m i hi _ ht
    rw [abs_lt] at a3
    have h1 := mul_lt_mul_of_pos_right a3.1 hs
    have h2 := mul_lt_mul_of_pos_right a3.2 hs
    have e : (b - a) / (1 - -1) = (b - a) / 2 := by norm_num
    rw [e] at h1 h2 ⊢
    constructor <;> linarith
  · exact mul_pos (C90_generated m i hi _ ht).2.1 hs

/-- **C90.** The double set of `2h` points integrates polynomials over each half of the interval, to the same accuracy. -/
theorem C90_double_integrates (h : Nat) (hh : 0 < h) (a b : ℝ) (p : ℝ[X]) (hp : p.natDegree ≤ 2 * h - 1) (B L : ℝ)
    (hB : ∀ x ∈ uIcc a b, |p.eval x| ≤ B) (hL : ∀ x ∈ uIcc a b, |(derivative p).eval x| ≤ L) :
    ∃ q, baseDGL a b (2 * h) = some q ∧ q.1.length = 2 * h ∧ q.2.length = 2 * h ∧
      |rule (q.1.drop h, q.2.drop h) (fun x => p.eval x) - ∫ x in (a + b) / 2..b, p.eval x| ≤
        |b - a| / 10 ^ 15 * ((2 * h + 1) ^ 2 * B + |b - a| * L) ∧
      |rule (q.1.take h, q.2.take h) (fun x => p.eval x) - ∫ x in a..(a + b) / 2, p.eval x| ≤
        |b - a| / 10 ^ 15 * ((2 * h + 1) ^ 2 * B + |b - a| * L) := by
  obtain ⟨hx, hw⟩ := glSet_length (1 / 10 ^ 15) h (guess h)
  obtain ⟨l1, l2, -, -⟩ := C65_doubled a b h _ _ hx hw
  obtain ⟨d1, d2⟩ := double_lists a b h _ _ hx hw
  have hup : ∀ x ∈ uIcc ((a + b) / 2) b, x ∈ uIcc a b := by
    intro x hx
    rw [mem_uIcc] at hx ⊢
    rcases hx with hx | hx
    · left; constructor <;> linarith [hx.1, hx.2]
    · right; constructor <;> linarith [hx.1, hx.2]
  have hlo : ∀ x ∈ uIcc ((a + b) / 2) a, x ∈ uIcc a b := by
    intro x hx
    rw [mem_uIcc] at hx ⊢
    rcases hx with hx | hx
    · right; constructor <;> linarith [hx.1, hx.2]
    · left; constructor <;> linarith [hx.1, hx.2]
  have hlen1 : |b - (a + b) / 2| = |b - a| / 2 := by
    rw [show b - (a + b) / 2 = (b - a) / 2 by ring, abs_div, abs_of_pos (show (0 : ℝ) < 2 by norm_num)]
  have hlen2 : |a - (a + b) / 2| = |b - a| / 2 := by
    rw [show a - (a + b) / 2 = -((b - a) / 2) by ring, abs_neg, abs_div, abs_of_pos (show (0 : ℝ) < 2 by norm_num)]
  have hB0 : 0 ≤ B := (abs_nonneg _).trans (hB a left_mem_uIcc)
  have hL0 : 0 ≤ L := (abs_nonneg _).trans (hL a left_mem_uIcc)
  have hcmp : |b - a| / 2 / 10 ^ 15 * ((2 * (h : ℝ) + 1) ^ 2 * B + |b - a| / 2 * L) ≤
      |b - a| / 10 ^ 15 * ((2 * (h : ℝ) + 1) ^ 2 * B + |b - a| * L) := by
    have h0 := abs_nonneg (b - a)
    refine mul_le_mul ?_ ?_ (by positivity) (by positivity)
    · rw [div_le_div_iff_of_pos_right (by positivity)]; linarith
    · have := mul_nonneg h0 hL0
      linarith
  refine ⟨_, by unfold baseDGL; rw [if_pos (by omega), show 2 * h / 2 = h by omega], l1, l2, ?_, ?_⟩
  · have e := C90_integrates h hh ((a + b) / 2) b p hp B L (fun x hx => hB x (hup x hx)) (fun x hx => hL x (hup x hx))
    rw [d1]
    refine e.trans ?_
    rw [hlen1]
    exact hcmp
  · have e := C90_integrates h hh ((a + b) / 2) a p hp B L (fun x hx => hB x (hlo x hx)) (fun x hx => hL x (hlo x hx))
    unfold baseGL at e
    rw [show glSet (1 / 10 ^ 15) h (guess h) = ((glSet (1 / 10 ^ 15) h (guess h)).1, (glSet (1 / 10 ^ 15) h (guess h)).2) from rfl,
      ← d2, rule_neg, rule_reverse _ _ _ (by rw [List.length_take, List.length_take, l1, l2]),
      intervalIntegral.integral_symm, ← neg_sub', abs_neg, hlen2] at e
    exact e.trans hcmp

/-- The upper half of the set gives half of what the whole set gives, for even functions. -/
theorem polar_rule (tol : ℝ) (np : Nat) (f : ℝ → ℝ) (hev : ∀ x, f (-x) = f x) :
    rule ((polar np false (glSet tol (2 * np) (guess (2 * np)))).x, (polar np false (glSet tol (2 * np) (guess (2 * np)))).w) f =
      1 / 2 * rule (glSet tol (2 * np) (guess (2 * np))) f := by
  have hsum : rule (glSet tol (2 * np) (guess (2 * np))) f =
      2 * ∑ i ∈ Finset.range np, (glPoint tol (2 * np) (guess (2 * np) (i + np))).2 *
        f (glPoint tol (2 * np) (guess (2 * np) (i + np))).1 := by
    unfold glSet
    rw [rule_map, show 2 * np = np + np by ring, Finset.sum_range_add, two_mul]
    congr 1
    · rw [← Finset.sum_range_reflect]
      refine Finset.sum_congr rfl fun i hi => ?_
      have hi := Finset.mem_range.1 hi
      have := C90_symmetric tol (np + np) (i + np) (by omega)
      rw [show np + np - 1 - (i + np) = np - 1 - i by omega] at this
      rw [this.1, this.2, hev]
    · refine Finset.sum_congr rfl fun i _ => ?_
      rw [Nat.add_comm np i]
  rw [hsum]
  simp only [polar, normalised, Bool.false_eq_true, if_false]
  rw [rule_map, ← mul_assoc, show (1 : ℝ) / 2 * 2 = 1 by norm_num, one_mul]
  refine Finset.sum_congr rfl fun i hi => ?_
  have hi := Finset.mem_range.1 hi
  simp only [glSet, List.getD_eq_getElem?_getD, List.getElem?_map,
    List.getElem?_range (show i + np < 2 * np by omega), Option.map_some, Option.getD_some]

/-- **C90.** The polar set made of the plain rule integrates even polynomials up to degree `4np - 1` over (0, 1), to the accuracy of
    the search. -/
theorem C90_polar_integrates (np : Nat) (hn : 0 < np) (p : ℝ[X]) (hp : p.natDegree ≤ 4 * np - 1)
    (hev : ∀ x, p.eval (-x) = p.eval x) (B L : ℝ) (hB : ∀ x ∈ uIcc (-1 : ℝ) 1, |p.eval x| ≤ B)
    (hL : ∀ x ∈ uIcc (-1 : ℝ) 1, |(derivative p).eval x| ≤ L) :
    |rule ((polar np false (baseGL (-1) 1 (2 * np))).x, (polar np false (baseGL (-1) 1 (2 * np))).w) (fun x => p.eval x) -
      ∫ x in (0 : ℝ)..1, p.eval x| ≤ 1 / 10 ^ 15 * ((4 * np + 1) ^ 2 * B + 2 * L) := by
  have hid : baseGL (-1) 1 (2 * np) = glSet (1 / 10 ^ 15) (2 * np) (guess (2 * np)) := by
    unfold baseGL scaleShift
    refine Prod.ext ?_ ?_ <;> simp <;> norm_num
  have h1 := C90_integrates (2 * np) (by omega) (-1) 1 p (by omega) B L hB hL
  have hi : ∫ x in (-1 : ℝ)..1, p.eval x = 2 * ∫ x in (0 : ℝ)..1, p.eval x := by
    rw [← intervalIntegral.integral_add_adjacent_intervals (b := 0)
      ((cont p).intervalIntegrable _ _) ((cont p).intervalIntegrable _ _)]
    have := intervalIntegral.integral_comp_neg (a := -1) (b := 0) (fun x => p.eval x)
    simp only [hev, neg_neg, neg_zero] at this
    rw [this]; ring
  rw [hi, hid] at h1
  rw [hid, polar_rule _ np _ hev]
  have e : 1 / 2 * rule (glSet (1 / 10 ^ 15) (2 * np) (guess (2 * np))) (fun x => p.eval x) - ∫ x in (0 : ℝ)..1, p.eval x =
      1 / 2 * (rule (glSet (1 / 10 ^ 15) (2 * np) (guess (2 * np))) (fun x => p.eval x) - 2 * ∫ x in (0 : ℝ)..1, p.eval x) := by
    ring
  rw [e, abs_mul, abs_of_pos (show (0 : ℝ) < 1 / 2 by norm_num)]
  refine (mul_le_mul_of_nonneg_left h1 (by norm_num)).trans (le_of_eq ?_)
  rw [show |(1 : ℝ) - -1| = 2 by norm_num]
  push_cast
  ring

/-- **C90.** The polar set made of the double rule integrates all polynomials up to degree `2np - 1` over (0, 1). -/
theorem C90_polar_double_integrates (np : Nat) (hn : 0 < np) (p : ℝ[X]) (hp : p.natDegree ≤ 2 * np - 1) (B L : ℝ)
    (hB : ∀ x ∈ uIcc (-1 : ℝ) 1, |p.eval x| ≤ B) (hL : ∀ x ∈ uIcc (-1 : ℝ) 1, |(derivative p).eval x| ≤ L) :
    ∃ q, baseDGL (-1) 1 (2 * np) = some q ∧
      |rule ((polar np false q).x, (polar np false q).w) (fun x => p.eval x) - ∫ x in (0 : ℝ)..1, p.eval x| ≤
        2 / 10 ^ 15 * ((2 * np + 1) ^ 2 * B + 2 * L) := by
  obtain ⟨q, h1, h2, h3, h4, -⟩ := C90_double_integrates np hn (-1) 1 p hp B L hB hL
  refine ⟨q, h1, ?_⟩
  have key : ∀ l : List ℝ, l.length = 2 * np → (List.range np).map (fun i => l.getD (i + np) 0) = l.drop np := by
    intro l hl
    refine List.ext_getElem? fun i => ?_
    rw [List.getElem?_map, List.getElem?_drop]
    by_cases hi : i < np
    · rw [List.getElem?_range hi, Option.map_some, List.getD_eq_getElem?_getD, Nat.add_comm i np,
        List.getElem?_eq_getElem (by omega)]
      rfl
    · rw [List.getElem?_eq_none (by simp; omega), List.getElem?_eq_none (by omega)]
      rfl
  simp only [polar, normalised, Bool.false_eq_true, if_false]
  rw [key _ h2, key _ h3]
  rw [show ((-1 : ℝ) + 1) / 2 = 0 by norm_num, show |(1 : ℝ) - -1| = 2 by norm_num] at h4
  exact h4

/-! ### Cases -/

/-- The roots of the seven-point set are seven, the fourth of them zero. -/
example : (∀ i < 7, (leg 7).eval (rootOf 7 i) = 0) ∧ rootOf 7 3 = 0 ∧ rootOf 7 6 < rootOf 7 0 := by
  refine ⟨fun i hi => ((C90_roots 7).1 i hi).1, ?_, (C90_roots 7).2.1 0 6 (by norm_num) (by norm_num)⟩
  have := ((C90_roots 7).1 3 (by norm_num)).2.2.1
  norm_num at this
  linarith

/-- The largest point of the hundred-point set. -/
example : |(glPoint (1 / 10 ^ 15) 100 (guess 100 0)).1 - -rootOf 100 0| ≤ 1 / 10 ^ 15 / 4 :=
  (C90_generated 100 0 (by norm_num) _ (by norm_num)).1

example : (glPoint (1 / 10 ^ 15 : ℝ) 100 (guess 100 0)).1 < (glPoint (1 / 10 ^ 15) 100 (guess 100 99)).1 :=
  C90_increasing 100 0 99 (by norm_num) (by norm_num) _ (by norm_num)

/-- The fifth power over (0, 1) with three points. -/
example : |rule (baseGL 0 1 3) (fun x => (X ^ 5 : ℝ[X]).eval x) - ∫ x in (0 : ℝ)..1, (X ^ 5 : ℝ[X]).eval x| ≤
    |(1 : ℝ) - 0| / 10 ^ 15 * ((2 * (3 : Nat) + 1) ^ 2 * 1 + |(1 : ℝ) - 0| * 5) := by
  refine C90_integrates 3 (by norm_num) 0 1 _ (by simp) 1 5 (fun x hx => ?_) fun x hx => ?_ <;>
    rw [uIcc_of_le zero_le_one] at hx
  · rw [eval_pow, eval_X, abs_of_nonneg (pow_nonneg hx.1 5)]
    exact pow_le_one₀ hx.1 hx.2
  · simp only [derivative_X_pow, eval_mul, eval_pow, eval_X, eval_C]
    rw [abs_of_nonneg (mul_nonneg (by norm_num) (pow_nonneg hx.1 _))]
    have := pow_le_one₀ (n := 4) hx.1 hx.2
    push_cast
    linarith

example : (baseGL 0 2 16).1.Pairwise (· < ·) ∧ ∀ w ∈ (baseGL 0 2 16).2, 0 < w :=
  ⟨(C90_set 16 0 2 (by norm_num)).2.2.1, (C90_set 16 0 2 (by norm_num)).2.2.2.2⟩

/-- One with the double set, and with the polar sets. -/
example : ∃ q, baseDGL 0 2 8 = some q ∧ |rule (q.1.drop 4, q.2.drop 4) (fun x => (1 : ℝ[X]).eval x) -
    ∫ x in ((0 : ℝ) + 2) / 2..2, (1 : ℝ[X]).eval x| ≤ |(2 : ℝ) - 0| / 10 ^ 15 * ((2 * (4 : Nat) + 1) ^ 2 * 1 + |(2 : ℝ) - 0| * 0) := by
  obtain ⟨q, h1, -, -, h2, -⟩ := C90_double_integrates 4 (by norm_num) 0 2 1 (by simp) 1 0 (by simp) (by simp)
  exact ⟨q, h1, h2⟩

example : |rule ((polar 3 false (baseGL (-1) 1 6)).x, (polar 3 false (baseGL (-1) 1 6)).w) (fun x => (1 : ℝ[X]).eval x) -
    ∫ x in (0 : ℝ)..1, (1 : ℝ[X]).eval x| ≤ 1 / 10 ^ 15 * ((4 * (3 : Nat) + 1) ^ 2 * 1 + 2 * 0) :=
  C90_polar_integrates 3 (by norm_num) 1 (by simp) (by simp) 1 0 (by simp) (by simp)

example : ∃ q, baseDGL (-1) 1 6 = some q ∧ |rule ((polar 3 false q).x, (polar 3 false q).w) (fun x => (1 : ℝ[X]).eval x) -
    ∫ x in (0 : ℝ)..1, (1 : ℝ[X]).eval x| ≤ 2 / 10 ^ 15 * ((2 * (3 : Nat) + 1) ^ 2 * 1 + 2 * 0) :=
  C90_polar_double_integrates 3 (by norm_num) 1 (by simp) 1 0 (by simp) (by simp)

end Detran.QuadGen
