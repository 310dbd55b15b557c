import Verif.Props.QuadGauss
import Mathlib.Analysis.Calculus.Deriv.Inv

/-!
# Newton's iteration near a root, and the sets built from the generators (C90, C91)
-/

namespace Detran.QuadGen

open Detran.Angle Polynomial

/-- The derivative at a root is not zero, and the root is not an end point. -/
theorem root_simple (m : Nat) (x : ℝ) (hx : (leg (m + 1)).eval x = 0) :
    x * x ≠ 1 ∧ (derivative (leg (m + 1))).eval x ≠ 0 := by
  have h1 := (ker_root m x hx).1
  have h2 := ker_pos m x
  constructor
  · intro h; rw [h1, h] at h2; simp at h2
  · intro h; rw [h1, h] at h2; simp at h2

/-- Newton's map has derivative zero at a root. -/
theorem newton_deriv (m : Nat) (x : ℝ) (hx : (leg (m + 1)).eval x = 0) :
    HasDerivAt (fun z => (newton (m + 1) z).1) 0 x := by
  obtain ⟨hne, hd⟩ := root_simple m x hx
  have h1 := (leg (m + 1)).hasDerivAt x
  have h2 := (derivative (leg (m + 1))).hasDerivAt x
  have h3 := (hasDerivAt_id x).sub (h1.div h2 hd)
  have h4 : (1 : ℝ) - ((derivative (leg (m + 1))).eval x * (derivative (leg (m + 1))).eval x -
      (leg (m + 1)).eval x * (derivative (derivative (leg (m + 1)))).eval x) /
      ((derivative (leg (m + 1))).eval x) ^ 2 = 0 := by
    rw [hx]; field_simp; simp
  rw [h4] at h3
  refine h3.congr_of_eventuallyEq ?_
  have hop : ∀ᶠ z in nhds x, z * z ≠ 1 :=
    (continuous_id.mul continuous_id).continuousAt.eventually_ne hne
  filter_upwards [hop] with z hz
  show z - (legLoop (m + 1) z).1 / slope (m + 1) z = _
  rw [slope_eq m z hz, legLoop_fst]
  rfl

/-- **C90.** Every root attracts: there is a distance from which the iteration of the code ends within
    the tolerance of the root, or has halved the distance in each of its bodies. -/
theorem C90_newton (m : Nat) (x : ℝ) (hx : (leg (m + 1)).eval x = 0) :
    ∃ δ > 0, ∀ (tol : ℝ) (n : Nat) (z : ℝ), |z - x| < δ →
      |(refine tol (m + 1) n z).1 - x| ≤ max tol (|z - x| / 2 ^ (n + 1)) := by
  have hfix : (newton (m + 1) x).1 = x := by simp [newton, legLoop_fst, hx]
  have hd := newton_deriv m x hx
  rw [hasDerivAt_iff_isLittleO] at hd
  have hb := hd.bound (show (0 : ℝ) < 1 / 2 by norm_num)
  obtain ⟨δ, hδ, hball⟩ := Metric.eventually_nhds_iff.1 hb
  have hhalf : ∀ z, |z - x| < δ → |(newton (m + 1) z).1 - x| ≤ |z - x| / 2 := by
    intro z hz
    have := hball (y := z) (by rw [Real.dist_eq]; exact hz)
    simp only [hfix, smul_zero, sub_zero, Real.norm_eq_abs] at this
    linarith
  refine ⟨δ, hδ, fun tol n => ?_⟩
  induction n with
  | zero =>
    intro z hz
    refine le_trans (hhalf z hz) (le_max_of_le_right ?_)
    norm_num
  | succ n ih =>
    intro z hz
    have h1 := hhalf z hz
    rw [refine]
    split
    · have hlt : |(newton (m + 1) z).1 - x| < δ := by
        have := abs_nonneg (z - x); linarith
      refine le_trans (ih _ hlt) (max_le_max le_rfl ?_)
      rw [div_le_div_iff₀ (by positivity) (by positivity), pow_succ 2 (n + 1)]
      nlinarith [show (0 : ℝ) < 2 ^ (n + 1) by positivity]
    · rename_i hstop
      push Not at hstop
      refine le_max_of_le_left ?_
      have h2 : |z - x| ≤ |(newton (m + 1) z).1 - z| + |(newton (m + 1) z).1 - x| := by
        have := abs_sub_le z (newton (m + 1) z).1 x
        rw [abs_sub_comm z (newton (m + 1) z).1] at this
        exact this
      linarith

/-- The two-point set: its roots are `±1/√3`, so the theorem applies to them. -/
example : ∃ δ > 0, ∀ (tol : ℝ) (n : Nat) (z : ℝ), |z - √(1 / 3)| < δ →
    |(refine tol 2 n z).1 - √(1 / 3)| ≤ max tol (|z - √(1 / 3)| / 2 ^ (n + 1)) := by
  refine C90_newton 1 _ ?_
  have hs : √(1 / 3 : ℝ) * √(1 / 3) = 1 / 3 := Real.mul_self_sqrt (by norm_num)
  have hev : ∀ y : ℝ, (leg 2).eval y = (3 * (y * y) - 1) / 2 := by intro y; simp [leg]; ring
  rw [hev, hs]; norm_num

theorem glSet_length (tol : ℝ) (m : Nat) (z0 : Nat → ℝ) :
    (glSet tol m z0).1.length = m ∧ (glSet tol m z0).2.length = m := by simp [glSet]

theorem gcSet_length (m : Nat) : (gcSet m).1.length = m ∧ (gcSet m).2.length = m := by simp [gcSet]

/-- **C90.** The double set: odd sizes are rejected; a set of `2h` points is exact on each half interval
    whenever the `h`-point set is. -/
theorem C90_double_set_if (a b : ℝ) (h : Nat) (d : Nat) (he : ExactTo d (-1) 1 (baseGL (-1) 1 h)) :
    baseDGL a b (2 * h + 1) = none ∧
    ∃ q, baseDGL a b (2 * h) = some q ∧ q.1.length = 2 * h ∧ q.2.length = 2 * h ∧
      ExactTo d ((a + b) / 2) b (q.1.drop h, q.2.drop h) ∧
      ExactTo d a ((a + b) / 2) (q.1.take h, q.2.take h) := by
  have hid : baseGL (-1) 1 h = glSet (1 / 10 ^ 15) h (guess h) := by
    unfold baseGL scaleShift
    refine Prod.ext ?_ ?_ <;> simp <;> norm_num
  rw [hid] at he
  refine ⟨by unfold baseDGL; rw [if_neg (by omega)], ?_⟩
  obtain ⟨hx, hw⟩ := glSet_length (1 / 10 ^ 15) h (guess h)
  obtain ⟨l1, l2, -, -⟩ := C65_doubled a b h _ _ hx hw
  refine ⟨_, by unfold baseDGL; rw [if_pos (by omega), show 2 * h / 2 = h by omega], l1, l2, ?_⟩
  exact C90_double d a b h _ _ hx hw he

/-- **C91.** The double set: odd sizes are rejected; the weights of `2h` points come to the length of the
    interval times `x / sin x` with `x = π / 2h`, and the points of the two halves are those of the
    `h`-point set on the two half intervals. -/
theorem C91_double_set (a b : ℝ) (hab : a < b) (h : Nat) (hh : 0 < h) :
    baseDGC a b (2 * h + 1) = none ∧
    ∃ q, baseDGC a b (2 * h) = some q ∧ q.1.length = 2 * h ∧ q.2.length = 2 * h ∧
      (q.1.drop h, q.2.drop h) = baseGC ((a + b) / 2) b h ∧
      q.2.sum = (b - a) * ((Real.pi / (2 * h)) / Real.sin (Real.pi / (2 * h))) := by
  refine ⟨by unfold baseDGC; rw [if_neg (by omega)], ?_⟩
  obtain ⟨hx, hw⟩ := gcSet_length h
  obtain ⟨l1, l2, l3, l4⟩ := C65_doubled a b h _ _ hx hw
  refine ⟨_, by unfold baseDGC; rw [if_pos (by omega), show 2 * h / 2 = h by omega], l1, l2, ?_, ?_⟩
  · exact (double_lists a b h _ _ hx hw).1
  · have hd := congrArg Prod.snd (double_lists a b h _ _ hx hw).1
    generalize hq : doubled a b (2 * h) ((gcSet h).1, (gcSet h).2) = q at l1 l2 l3 hd
    have hrev : q.2.take h = (q.2.drop h).reverse := by
      refine List.ext_getElem? fun i => ?_
      by_cases hi : i < h
      · rw [List.getElem?_take_of_lt hi, List.getElem?_reverse (by rw [List.length_drop]; omega),
          List.length_drop, l2, List.getElem?_drop, show h + (2 * h - h - 1 - i) = h + (h - 1 - i) by omega]
        obtain ⟨x, w, -, -, -, -, e1, e2⟩ := l3 (h - 1 - i) (by omega)
        rw [e1, ← e2, show h - 1 - (h - 1 - i) = i by omega]
      · rw [List.getElem?_eq_none (by rw [List.length_take]; omega),
          List.getElem?_eq_none (by rw [List.length_reverse, List.length_drop]; omega)]
    have hsum : q.2.sum = (q.2.take h).sum + (q.2.drop h).sum := by
      rw [← List.sum_append, List.take_append_drop]
    have ht := (C91_total ((a + b) / 2) b (by linarith) h hh).1
    rw [hsum, hrev, List.sum_reverse, show q.2.drop h = (baseGC ((a + b) / 2) b h).2 from hd, ht]
    ring

/-- Four points on [0, 2]. -/
example : ∃ q, baseDGC 0 2 4 = some q ∧ q.1.length = 4 :=
  let ⟨q, h, l, _⟩ := (C91_double_set 0 2 (by norm_num) 2 (by norm_num)).2
  ⟨q, h, l⟩

/-- **C91.** The polar set of any base set has as many points as asked for, the upper half of the base
    points, and weights that come to one when normalised. -/
theorem C91_polar_normalised (np : Nat) (q : List ℝ × List ℝ) (hq : q.1.length = 2 * np)
    (hw : q.2.length = 2 * np) (hs : (q.2.drop np).sum ≠ 0) :
    (polar np true q).x = q.1.drop np ∧ (polar np false q).x = q.1.drop np ∧
    (polar np false q).w = q.2.drop np ∧ (polar np true q).w.sum = 1 := by
  have key : ∀ l : List ℝ, l.length = 2 * np →
      (List.range np).map (fun i => l.getD (i + np) 0) = l.drop np := by
    intro l hl
    refine List.ext_getElem? fun i => ?_
    rw [List.getElem?_map, List.getElem?_drop]
    by_cases hi : i < np
    · rw [List.getElem?_range hi, Option.map_some, List.getD_eq_getElem?_getD, Nat.add_comm i np,
        List.getElem?_eq_getElem (by omega)]
      rfl
    · rw [List.getElem?_eq_none (by simp; omega), List.getElem?_eq_none (by omega)]
      rfl
  refine ⟨key _ hq, key _ hq, ?_, ?_⟩
  · simp only [polar, normalised, Bool.false_eq_true, if_false]
    exact key _ hw
  · unfold polar
    simp only [key _ hw]
    exact C91_normalised 1 _ hs

example : (polar 1 true ([-1, 1], [3, 5])).w.sum = 1 :=
  (C91_polar_normalised 1 ([-1, 1], [3, 5]) rfl rfl (by norm_num)).2.2.2

/-- **C91.** The azimuthal set keeps the points of the base set, and its weights come to a quarter turn
    when normalised. -/
theorem C91_azimuthal_normalised (q : List ℝ × List ℝ) (hs : q.2.sum ≠ 0) :
    (azimuthal true q).x = q.1 ∧ (azimuthal false q).x = q.1 ∧ (azimuthal false q).w = q.2 ∧
    (azimuthal true q).w.sum = Real.pi / 2 :=
  ⟨rfl, rfl, rfl, C91_normalised _ _ hs⟩

example : (azimuthal true ([1, 2], [3, 5])).w.sum = Real.pi / 2 :=
  (C91_azimuthal_normalised ([1, 2], [3, 5]) (by norm_num)).2.2.2

end Detran.QuadGen
