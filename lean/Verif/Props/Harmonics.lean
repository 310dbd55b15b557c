import Verif.Props.Angle
import Mathlib.Algebra.CharZero.Defs

/-!
# Spherical harmonics and the moment-to-discrete operator (C66)
-/

namespace Detran.Angle

open Finset

section
variable {K : Type} [Field K]

/-- The exact values the decimal constants approximate: √3, √3/2, √(5/8), √15, √(3/8), √15/2. -/
structure ExactY (c : YConst K) : Prop where
  r3 : c.r3 ^ 2 = 3
  r3h : 2 * c.r3h = c.r3
  c33 : 8 * c.c33 ^ 2 = 5
  r15 : c.r15 ^ 2 = 15
  c31 : 8 * c.c31 ^ 2 = 3
  r15h : 2 * c.r15h = c.r15

/-- Legendre polynomials of degree 0 to 3. -/
def legendre : Nat → K → K
  | 0, _ => 1
  | 1, x => x
  | 2, x => (3 * x ^ 2 - 1) / 2
  | 3, x => (5 * x ^ 3 - 3 * x) / 2
  | _, _ => 0

/-- Value of `Y_lm`, zero if the code throws. -/
def Y (c : YConst K) (l : Nat) (m : Int) (v : Nat → K) : K := (ylm c l m (v 0) (v 1) (v 2)).getD 0

def unit (v : Nat → K) : Prop := v 0 ^ 2 + v 1 ^ 2 + v 2 ^ 2 = 1
def dot (v w : Nat → K) : K := v 0 * w 0 + v 1 * w 1 + v 2 * w 2

theorem mRange_sum (l : Nat) (f : Int → K) :
    ((mRange l).map f).sum = ∑ i ∈ range (2 * l + 1), f ((i : Int) - l) := by
  unfold mRange
  rw [List.map_map]
  induction 2 * l + 1 with
  | zero => simp
  | succ n ih =>
      rw [List.range_succ, List.map_append, List.sum_append, ih, Finset.sum_range_succ]; simp

/-- Addition theorem: with the exact constants, the harmonics of degree `l ≤ 3` satisfy
    `Σ_m Y_lm(Ω) Y_lm(Ω') = P_l(Ω · Ω')` for all unit vectors. -/
theorem C66_addition [CharZero K] (c : YConst K) (hc : ExactY c) (l : Nat) (hl : l ≤ 3)
    (v w : Nat → K) (hv : unit v) (hw : unit w) :
    ((mRange l).map (fun m => Y c l m v * Y c l m w)).sum = legendre l (dot v w) := by
  obtain ⟨h1, h2, h3, h4, h5, h6⟩ := hc
  rw [mRange_sum]
  unfold unit at hv hw
  interval_cases l
  · simp [Y, ylm, legendre]
  · simp [Finset.sum_range_succ, Y, ylm, legendre, dot]; ring
  · have e : c.r3h ^ 2 = 3 / 4 := by linear_combination (c.r3h / 2 + c.r3 / 4) * h2 + h1 / 4
    simp [Finset.sum_range_succ, Y, ylm, legendre, dot]
    generalize v 0 = a at *
    generalize v 1 = b at *
    generalize v 2 = z at *
    generalize w 0 = a' at *
    generalize w 1 = b' at *
    generalize w 2 = z' at *
    linear_combination (a * a' * b * b' + z * z' * b * b' + z * z' * a * a') * h1 +
      (a ^ 2 - b ^ 2) * (a' ^ 2 - b' ^ 2) * e - 3 / 4 * (1 - z' ^ 2) * hv
      - 3 / 4 * (a ^ 2 + b ^ 2) * hw
  · have e : c.r15h ^ 2 = 15 / 4 := by
      linear_combination (c.r15h / 2 + c.r15 / 4) * h6 + h4 / 4
    have e3 : c.c33 ^ 2 = 5 / 8 := by linear_combination h3 / 8
    have e1 : c.c31 ^ 2 = 3 / 8 := by linear_combination h5 / 8
    simp [Finset.sum_range_succ, Y, ylm, legendre, dot]
    generalize v 0 = a at *
    generalize v 1 = b at *
    generalize v 2 = z at *
    generalize w 0 = a' at *
    generalize w 1 = b' at *
    generalize w 2 = z' at *
    generalize c.c33 = k33 at *
    generalize c.c31 = k31 at *
    generalize c.r15 = k15 at *
    generalize c.r15h = k15h at *
    have hom : ∀ N N' : K, a ^ 2 + b ^ 2 + z ^ 2 = N → a' ^ 2 + b' ^ 2 + z' ^ 2 = N' →
        k33 * b * (3 * a * a - b * b) * (k33 * b' * (3 * a' * a' - b' * b')) +
        k15 * z * a * b * (k15 * z' * a' * b') +
        k31 * b * (5 * z * z - N) * (k31 * b' * (5 * z' * z' - N')) +
        (5 / 2 * z * z * z - 3 / 2 * z * N) * (5 / 2 * z' * z' * z' - 3 / 2 * z' * N') +
        k31 * a * (5 * z * z - N) * (k31 * a' * (5 * z' * z' - N')) +
        k15h * z * (a * a - b * b) * (k15h * z' * (a' * a' - b' * b')) +
        k33 * a * (a * a - 3 * b * b) * (k33 * a' * (a' * a' - 3 * b' * b')) =
        (5 * (a * a' + b * b' + z * z') ^ 3 - 3 * (a * a' + b * b' + z * z') * N * N') / 2 := by
      rintro N N' rfl rfl
      linear_combination
        (b * b' * (3 * a * a - b * b) * (3 * a' * a' - b' * b') +
          a * a' * (a * a - 3 * b * b) * (a' * a' - 3 * b' * b')) * e3 +
        z * a * b * z' * a' * b' * h4 +
        (b * b' + a * a') * (5 * z * z - (a ^ 2 + b ^ 2 + z ^ 2)) *
          (5 * z' * z' - (a' ^ 2 + b' ^ 2 + z' ^ 2)) * e1 +
        z * z' * (a * a - b * b) * (a' * a' - b' * b') * e
    have := hom 1 1 hv hw
    linear_combination this

/-- Inversion parity: `Y_lm(-Ω) = (-1)^l Y_lm(Ω)`. -/
theorem C66_parity (c : YConst K) (l : Nat) (m : Int) (v : Nat → K) :
    Y c l m (fun d => - v d) = (-1) ^ l * Y c l m v := by
  unfold Y
  match l with
  | 0 => simp [ylm]
  | 1 => simp only [ylm, Option.getD_some]; split_ifs <;> ring
  | 2 => simp only [ylm, Option.getD_some]; split_ifs <;> ring
  | 3 => simp only [ylm, Option.getD_some]; split_ifs <;> ring
  | _ + 4 => simp [ylm]

/-- Reflection parity: changing the sign of z multiplies `Y_lm` by `(-1)^(l+m)`; hence in 2-D, where
    only even `l + m` are kept, the harmonics do not depend on the sign of z. -/
theorem C66_flip_z (c : YConst K) (l : Nat) (hl : l ≤ 3) (m : Int) (hm : -(l : Int) ≤ m ∧ m ≤ l)
    (mu eta xi : K) :
    ylm c l m mu eta (-xi) =
      (ylm c l m mu eta xi).map (fun y => if (m + l) % 2 = 0 then y else - y) := by
  obtain ⟨m1, m2⟩ := hm
  interval_cases l
  · interval_cases m; simp [ylm]
  · interval_cases m <;> simp [ylm]
  · interval_cases m <;> simp [ylm]
  · interval_cases m <;> simp [ylm] <;> ring

/-- In 1-D (direction along z) `Y_l0` is the Legendre polynomial. -/
theorem C66_legendre [CharZero K] (c : YConst K) (l : Nat) (hl : l ≤ 3) (x : K) :
    ylm c l 0 0 0 x = some (legendre l x) := by
  interval_cases l
  · rfl
  · simp [ylm, legendre]
  · simp only [ylm, legendre]; norm_num; ring
  · simp only [ylm, legendre]; norm_num; ring

/-- Degrees above three are refused. -/
theorem C66_high_degree (c : YConst K) (l : Nat) (hl : 3 < l) (m : Int) (mu eta xi : K) :
    ylm c l m mu eta xi = none := by
  match l with
  | 0 | 1 | 2 | 3 => omega
  | _ + 4 => rfl

/-- Round trip: if the quadrature integrates the products of the harmonics in use exactly, then
    expanding moments into discrete fluxes and integrating against the harmonics returns the
    moments.  `S` lists the moments in use and `norm` is the reciprocal of the total weight. -/
theorem C66_round_trip (c : YConst K) (norm : K) (n : Nat) (w : Nat → K) (dir : Nat → Nat → K)
    (S : Finset (Nat × Int)) (hS : ∀ s ∈ S, s.1 ≤ 3)
    (orth : ∀ s ∈ S, ∀ t ∈ S, (2 * s.1 + 1) * norm *
      ∑ i ∈ range n, w i * (Y c s.1 s.2 (dir i) * Y c t.1 t.2 (dir i)) = if s = t then 1 else 0)
    (phi : Nat × Int → K) (t : Nat × Int) (ht : t ∈ S) :
    ∑ i ∈ range n, w i * (Y c t.1 t.2 (dir i) *
      ∑ s ∈ S, (mtod c norm s.1 s.2 (dir i 0) (dir i 1) (dir i 2)).getD 0 * phi s) = phi t := by
  have e : ∀ i, ∀ s ∈ S, (mtod c norm s.1 s.2 (dir i 0) (dir i 1) (dir i 2)).getD 0 =
      (2 * s.1 + 1) * norm * Y c s.1 s.2 (dir i) := by
    intro i s hs
    have h3 := hS s hs
    unfold mtod Y
    rcases h : ylm c s.1 s.2 (dir i 0) (dir i 1) (dir i 2) with _ | y
    · exfalso
      obtain ⟨l, m⟩ := s
      simp only at h h3
      interval_cases l <;> simp [ylm] at h
    · simp
  calc ∑ i ∈ range n, w i * (Y c t.1 t.2 (dir i) *
      ∑ s ∈ S, (mtod c norm s.1 s.2 (dir i 0) (dir i 1) (dir i 2)).getD 0 * phi s)
      = ∑ i ∈ range n, ∑ s ∈ S, phi s * ((2 * s.1 + 1) * norm *
          (w i * (Y c s.1 s.2 (dir i) * Y c t.1 t.2 (dir i)))) := by
        apply Finset.sum_congr rfl
        intro i _
        rw [Finset.mul_sum, Finset.mul_sum]
        apply Finset.sum_congr rfl
        intro s hs
        rw [e i s hs]; ring
    _ = ∑ s ∈ S, phi s * (if s = t then 1 else 0) := by
        rw [Finset.sum_comm]
        apply Finset.sum_congr rfl
        intro s hs
        rw [← orth s hs t ht, ← Finset.mul_sum, ← Finset.mul_sum]
    _ = phi t := by simp [ht]

end

/-- The decimal constants meet the exact relations to within `2e-14`. -/
theorem C66_decimals :
    |yDecimals.r3 ^ 2 - 3| < 2 / 10 ^ 14 ∧ |2 * yDecimals.r3h - yDecimals.r3| < 2 / 10 ^ 14 ∧
    |8 * yDecimals.c33 ^ 2 - 5| < 2 / 10 ^ 14 ∧ |yDecimals.r15 ^ 2 - 15| < 2 / 10 ^ 14 ∧
    |8 * yDecimals.c31 ^ 2 - 3| < 2 / 10 ^ 14 ∧
    |2 * yDecimals.r15h - yDecimals.r15| < 2 / 10 ^ 14 := by
  refine ⟨?_, ?_, ?_, ?_, ?_, ?_⟩ <;> rw [abs_lt] <;> norm_num [yDecimals]

/-- The six axis directions with equal weights meet the round-trip hypothesis for degrees 0 and 1. -/
example : ∀ s ∈ ([(0, 0), (1, -1), (1, 0), (1, 1)] : List (Nat × Int)),
    ∀ t ∈ ([(0, 0), (1, -1), (1, 0), (1, 1)] : List (Nat × Int)),
    (2 * (s.1 : ℚ) + 1) * 1 * ∑ i ∈ range 6, (1 / 6) *
      (Y yDecimals s.1 s.2 (fun d => if d = i / 2 then (if i % 2 = 0 then 1 else -1) else 0) *
       Y yDecimals t.1 t.2 (fun d => if d = i / 2 then (if i % 2 = 0 then 1 else -1) else 0)) =
      if s = t then 1 else 0 := by decide +kernel

end Detran.Angle
