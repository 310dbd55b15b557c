import Verif.Model.Random
import Mathlib.RingTheory.ZMod.UnitsCyclic
import Mathlib.Data.ZMod.Basic
import Mathlib.Data.Nat.Bitwise
import Mathlib.Tactic.Linarith
import Mathlib.Tactic.Ring
import Mathlib.Tactic.NormNum
import Mathlib.Data.Nat.Factorization.Basic

/-!
# C122: the random number generator
-/

namespace Detran.Random

/-! ## Specification -/

/-- The sequence of the documentation, Random.hh:24-26. -/
def lcg (S g c m : Nat) : Nat → Nat
  | 0 => S
  | n + 1 => (lcg S g c m n * g + c) % 2 ^ m

/-! ## One step -/

theorem new_spec (S g c : Int) {m : Nat} (hm : m ≤ 53) :
    ∃ r, Rng.new S g c m = some r ∧ r.S = BitVec.ofInt 64 S ∧ r.g = BitVec.ofNat 64 19073486328125 ∧ r.c = BitVec.ofNat 64 0 ∧
      r.mask = BitVec.ofNat 64 (2 ^ m - 1) ∧ r.m = m := by
  refine ⟨⟨BitVec.ofInt 64 S, BitVec.ofNat 64 19073486328125, BitVec.ofNat 64 0, BitVec.ofNat 64 (2 ^ m - 1), m⟩, ?_, rfl, rfl, rfl, rfl, rfl⟩
  unfold Rng.new maskOf
  rw [if_pos hm, Option.map_some]

/-- The generator was made with at most 53 bits and called any number of times. -/
structure Ok (r : Rng) : Prop where
  m : r.m ≤ 53
  g : r.g = BitVec.ofNat 64 19073486328125
  c : r.c = BitVec.ofNat 64 0
  mask : r.mask = BitVec.ofNat 64 (2 ^ r.m - 1)

theorem step_ok {r : Rng} (h : Ok r) : Ok r.step := ⟨h.m, h.g, h.c, h.mask⟩

theorem after_ok : ∀ (n : Nat) {r : Rng}, Ok r → Ok (r.after n) ∧ (r.after n).m = r.m
  | 0, _, h => ⟨h, rfl⟩
  | n + 1, r, h => after_ok n (r := r.step) (step_ok h)

theorem pow_lt {m : Nat} (hm : m ≤ 53) : 2 ^ m ≤ 2 ^ 53 := Nat.pow_le_pow_right (by norm_num) hm

theorem step_toNat {r : Rng} (h : Ok r) : r.step.S.toNat = 19073486328125 * r.S.toNat % 2 ^ r.m := by
  have hp := pow_lt h.m
  have hpos : 0 < 2 ^ r.m := by positivity
  unfold Rng.step
  rw [h.g, h.c, h.mask]
  simp only [BitVec.toNat_and, BitVec.toNat_add, BitVec.toNat_mul, BitVec.toNat_ofNat]
  rw [Nat.mod_eq_of_lt (show 2 ^ r.m - 1 < 2 ^ 64 by omega), Nat.zero_mod, Nat.add_zero, Nat.and_two_pow_sub_one_eq_mod, Nat.and_two_pow_sub_one_eq_mod,
    Nat.mod_eq_of_lt (show 19073486328125 < 2 ^ 64 by norm_num)]
  have hd : 2 ^ r.m ∣ 2 ^ 64 := pow_dvd_pow 2 (by have := h.m; omega)
  rw [Nat.mod_mod_of_dvd _ hd, Nat.mod_mod_of_dvd _ hd, Nat.mod_mod]

theorem after_succ : ∀ (n : Nat) (r : Rng), r.after (n + 1) = (r.after n).step
  | 0, _ => rfl
  | n + 1, r => by
    show r.step.after (n + 1) = (r.step.after n).step
    exact after_succ n r.step

theorem after_toNat {r : Rng} (h : Ok r) : ∀ n, (r.after (n + 1)).S.toNat = 19073486328125 ^ (n + 1) * r.S.toNat % 2 ^ r.m
  | 0 => by rw [after_succ, Rng.after, step_toNat h, pow_one]
  | n + 1 => by
    obtain ⟨ho, hm⟩ := after_ok (n + 1) h
    rw [after_succ, step_toNat ho, hm, after_toNat h n]
    conv_rhs => rw [pow_succ' 19073486328125 (n + 1), mul_assoc]
    exact (Nat.mul_mod _ _ _).trans (by rw [Nat.mod_mod, ← Nat.mul_mod])

theorem draw_eq {r : Rng} (h : Ok r) (n : Nat) :
    r.draw n = ((19073486328125 ^ (n + 1) * r.S.toNat % 2 ^ r.m : Nat) : ℚ) / 2 ^ r.m := by
  have hp := pow_lt h.m
  have hlt : 19073486328125 ^ (n + 1) * r.S.toNat % 2 ^ r.m < 2 ^ r.m := Nat.mod_lt _ (by positivity)
  have e := after_toNat h n
  have hm := (after_ok (n + 1) h).2
  unfold Rng.draw Rng.rnd
  rw [← after_succ]
  dsimp only [Rng.value]
  rw [hm, BitVec.toInt_eq_toNat_of_lt (by rw [e]; omega), e]
  rfl

/-! ## C122 -/

/-- The state after any number of calls: the sequence of the documentation for the built-in multiplier without increment.
    The product is reduced to 64 bits first, which does not matter. -/
theorem C122_sequence_partial (S : Nat) (g c : Int) {m : Nat} (hm : m ≤ 53) (hS : S < 2 ^ 63) :
    ∃ r, Rng.new S g c m = some r ∧ ∀ n, r.draw n = (lcg S 19073486328125 0 m (n + 1) : ℚ) / 2 ^ m := by
  obtain ⟨r, h1, h2, h3, h4, h5, h6⟩ := new_spec (S : Int) g c hm
  have ho : Ok r := ⟨by omega, h3, h4, by rw [h5, h6]⟩
  refine ⟨r, h1, fun n => ?_⟩
  have hl : ∀ n, lcg S 19073486328125 0 m (n + 1) = 19073486328125 ^ (n + 1) * S % 2 ^ m := by
    intro n
    induction n with
    | zero => simp only [lcg]; rw [Nat.add_zero, Nat.mul_comm]; norm_num
    | succ n ih =>
      rw [lcg, ih, Nat.add_zero, Nat.mul_comm, Nat.mul_mod, Nat.mod_mod, ← Nat.mul_mod, ← mul_assoc, ← pow_succ']
  have hT : r.S.toNat = S := by
    rw [h2, BitVec.ofInt_natCast, BitVec.toNat_ofNat, Nat.mod_eq_of_lt (by omega)]
  rw [draw_eq ho, hl, hT, h6]

/-- Numbers are at least zero and less than one, for all seeds, negative ones included. -/
theorem C122_range (S g c : Int) {m : Nat} (hm : m ≤ 53) :
    ∃ r, Rng.new S g c m = some r ∧ ∀ n, 0 ≤ r.draw n ∧ r.draw n < 1 := by
  obtain ⟨r, h1, h2, h3, h4, h5, h6⟩ := new_spec S g c hm
  have ho : Ok r := ⟨by omega, h3, h4, by rw [h5, h6]⟩
  refine ⟨r, h1, fun n => ?_⟩
  rw [draw_eq ho]
  have hlt : 19073486328125 ^ (n + 1) * r.S.toNat % 2 ^ r.m < 2 ^ r.m := Nat.mod_lt _ (by positivity)
  refine ⟨by positivity, ?_⟩
  rw [div_lt_one (by positivity)]
  exact_mod_cast hlt

theorem g_order (k : Nat) : orderOf (19073486328125 : ZMod (2 ^ (k + 2))) = 2 ^ k := by
  have : (19073486328125 : ZMod (2 ^ (k + 2))) = 5 ^ 19 := by norm_num
  rw [this, Nat.Coprime.orderOf_pow, ZMod.orderOf_five]
  rw [ZMod.orderOf_five]
  exact Nat.Coprime.pow_left k (by decide)

/-- Two products with an odd number agree modulo a power of two only if the exponents agree modulo a quarter of it. -/
theorem pow_eq_iff (k i j s : Nat) (hs : s % 2 = 1) :
    19073486328125 ^ i * s % 2 ^ (k + 2) = 19073486328125 ^ j * s % 2 ^ (k + 2) ↔ i % 2 ^ k = j % 2 ^ k := by
  rw [← Nat.ModEq, ← ZMod.natCast_eq_natCast_iff]
  push_cast
  have hu : IsUnit (s : ZMod (2 ^ (k + 2))) := by
    rw [ZMod.isUnit_iff_coprime]
    exact Nat.Coprime.pow_right _ ((Nat.coprime_two_right).mpr (Nat.odd_iff.mpr hs))
  rw [hu.mul_left_inj]
  have hg : IsUnit (19073486328125 : ZMod (2 ^ (k + 2))) := by
    have : (19073486328125 : ZMod (2 ^ (k + 2))) = ((19073486328125 : Nat) : ZMod (2 ^ (k + 2))) := by norm_num
    rw [this, ZMod.isUnit_iff_coprime]
    exact Nat.Coprime.pow_right _ (by decide)
  obtain ⟨u, hu'⟩ := hg
  have ho : orderOf u = 2 ^ k := by rw [← orderOf_units, hu', g_order]
  rw [← hu', ← Units.val_pow_eq_pow_val, ← Units.val_pow_eq_pow_val, Units.val_inj, pow_eq_pow_iff_modEq, ho]
  rfl

/-- With an odd seed the numbers repeat after exactly a quarter of the modulus, and not before. -/
theorem C122_period (S g c : Int) {k : Nat} (hk : k + 2 ≤ 53) (hodd : S % 2 = 1) :
    ∃ r, Rng.new S g c (k + 2) = some r ∧ ∀ i j, r.draw i = r.draw j ↔ i % 2 ^ k = j % 2 ^ k := by
  obtain ⟨r, h1, h2, h3, h4, h5, h6⟩ := new_spec S g c hk
  have ho : Ok r := ⟨by omega, h3, h4, by rw [h5, h6]⟩
  have hs : r.S.toNat % 2 = 1 := by
    rw [h2, BitVec.toNat_ofInt]
    omega
  refine ⟨r, h1, fun i j => ?_⟩
  rw [draw_eq ho, draw_eq ho, h6]
  have hp : (2 : ℚ) ^ (k + 2) ≠ 0 := by positivity
  rw [div_left_inj' hp, Nat.cast_inj, pow_eq_iff k _ _ _ hs]
  constructor
  · intro h
    exact Nat.ModEq.add_right_cancel' 1 h
  · intro h
    exact Nat.ModEq.add_right 1 h

theorem pow_mod4 (n : Nat) : 19073486328125 ^ n % 4 = 1 := by
  rw [Nat.pow_mod, show 19073486328125 % 4 = 1 by norm_num, one_pow, Nat.mod_eq_of_lt (by norm_num)]

/-- Within one period every number of the form (4 j + the seed modulo 4) / 2^m comes up exactly once. -/
theorem C122_uniform (S g c : Int) {k : Nat} (hk : k + 2 ≤ 53) (hodd : S % 2 = 1) :
    ∃ r, Rng.new S g c (k + 2) = some r ∧ ∀ j < 2 ^ k, ∃! n, n < 2 ^ k ∧ r.draw n = ((4 * j + (S % 4).toNat : Nat) : ℚ) / 2 ^ (k + 2) := by
  obtain ⟨r, h1, h2, h3, h4, h5, h6⟩ := new_spec S g c hk
  have ho : Ok r := ⟨by omega, h3, h4, by rw [h5, h6]⟩
  have hs : r.S.toNat % 2 = 1 := by rw [h2, BitVec.toNat_ofInt]; omega
  have hs4 : r.S.toNat % 4 = (S % 4).toNat := by rw [h2, BitVec.toNat_ofInt]; omega
  have hp : (2 : ℚ) ^ (k + 2) ≠ 0 := by positivity
  have hpk : 2 ^ (k + 2) = 4 * 2 ^ k := by rw [pow_add]; ring
  let f : Nat → Nat := fun n => 19073486328125 ^ (n + 1) * r.S.toNat % 2 ^ (k + 2)
  have f4 : ∀ n, f n % 4 = (S % 4).toNat := fun n => by
    show 19073486328125 ^ (n + 1) * r.S.toNat % 2 ^ (k + 2) % 4 = _
    rw [hpk, Nat.mod_mul_right_mod, Nat.mul_mod, pow_mod4, Nat.one_mul, Nat.mod_mod, hs4]
  have fq : ∀ n, f n / 4 < 2 ^ k := fun n => by
    have : f n < 2 ^ (k + 2) := Nat.mod_lt _ (by positivity)
    omega
  have finj : Function.Injective (fun n : Fin (2 ^ k) => (⟨f n / 4, fq n⟩ : Fin (2 ^ k))) := by
    intro a b hab
    simp only [Fin.mk.injEq] at hab
    have : f a = f b := by
      rw [← Nat.div_add_mod (f a) 4, ← Nat.div_add_mod (f b) 4, hab, f4, f4]
    have h := (pow_eq_iff k (a + 1) (b + 1) _ hs).mp this
    have h' : (a : Nat) % 2 ^ k = (b : Nat) % 2 ^ k := Nat.ModEq.add_right_cancel' 1 h
    rw [Nat.mod_eq_of_lt a.2, Nat.mod_eq_of_lt b.2] at h'
    exact Fin.ext h'
  have fsur := Finite.injective_iff_surjective.mp finj
  refine ⟨r, h1, fun j hj => ?_⟩
  have key : ∀ n, r.draw n = ((4 * j + (S % 4).toNat : Nat) : ℚ) / 2 ^ (k + 2) ↔ f n / 4 = j := fun n => by
    rw [draw_eq ho, h6, div_left_inj' hp, Nat.cast_inj]
    show f n = _ ↔ _
    have := f4 n
    omega
  obtain ⟨n, hn⟩ := fsur ⟨j, hj⟩
  refine ⟨n, ⟨n.2, (key n).mpr (by simpa using hn)⟩, fun n' ⟨h1', h2'⟩ => ?_⟩
  have := (key n').mp h2'
  have e : (⟨n', h1'⟩ : Fin (2 ^ k)) = n := finj (by
    rw [hn]
    exact Fin.ext this)
  exact congrArg Fin.val e

/-- With an odd seed and at least two numbers to choose from no number is zero. -/
theorem C122_positive (S g c : Int) {m : Nat} (hm : m ≤ 53) (h0 : 0 < m) (hodd : S % 2 = 1) :
    ∃ r, Rng.new S g c m = some r ∧ ∀ n, 0 < r.draw n := by
  obtain ⟨r, h1, h2, h3, h4, h5, h6⟩ := new_spec S g c hm
  have ho : Ok r := ⟨by omega, h3, h4, by rw [h5, h6]⟩
  have hs : r.S.toNat % 2 = 1 := by rw [h2, BitVec.toNat_ofInt]; omega
  refine ⟨r, h1, fun n => ?_⟩
  rw [draw_eq ho, h6]
  have : 0 < 19073486328125 ^ (n + 1) * r.S.toNat % 2 ^ m := by
    obtain ⟨k, rfl⟩ := Nat.exists_eq_add_of_lt h0
    have h : 19073486328125 ^ (n + 1) * r.S.toNat % 2 ^ (0 + k + 1) % 2 = 1 := by
      rw [pow_succ' 2, Nat.mod_mul_right_mod, Nat.mul_mod, hs, Nat.pow_mod]
      norm_num
    omega
  positivity

/-- A seed that is a multiple of the modulus gives nothing but zeros. -/
theorem C122_zero_seed (S g c : Int) {m : Nat} (hm : m ≤ 53) (hS : (2 : Int) ^ m ∣ S) :
    ∃ r, Rng.new S g c m = some r ∧ ∀ n, r.draw n = 0 := by
  obtain ⟨r, h1, h2, h3, h4, h5, h6⟩ := new_spec S g c hm
  have ho : Ok r := ⟨by omega, h3, h4, by rw [h5, h6]⟩
  have hs : 2 ^ m ∣ r.S.toNat := by
    rw [h2, BitVec.toNat_ofInt]
    have hd : (2 : Int) ^ m ∣ 2 ^ 64 := pow_dvd_pow 2 (by omega)
    have : (2 : Int) ^ m ∣ S % 2 ^ 64 := (EuclideanDomain.dvd_mod_iff hd).mpr hS
    zify
    rw [Int.toNat_of_nonneg (Int.emod_nonneg _ (by norm_num))]
    exact this
  refine ⟨r, h1, fun n => ?_⟩
  rw [draw_eq ho, h6, Nat.mod_eq_zero_of_dvd (Dvd.dvd.mul_left hs _), Nat.cast_zero, zero_div]

/-- Multiplier and increment given to the constructor have no effect. -/
theorem C122_arguments (S g c g' c' : Int) (m : Nat) : Rng.new S g c m = Rng.new S g' c' m := rfl

/-- C122, the claim: the numbers are those of the sequence with the parameters given. -/
def C122Claim : Prop :=
  ∀ (S g c m : Nat), S < 2 ^ m → g < 2 ^ m → c < 2 ^ m → m ≤ 48 →
    ∃ r, Rng.new S g c m = some r ∧ ∀ n, r.draw n = (lcg S g c m (n + 1) : ℚ) / 2 ^ m

/-- With another multiplier or increment they are not. -/
theorem C122_claim_fails : ¬ C122Claim := by
  intro h
  obtain ⟨r, h1, h2⟩ := h 1 3 1 4 (by norm_num) (by norm_num) (by norm_num) (by norm_num)
  obtain ⟨r', h1', h2'⟩ := C122_sequence_partial 1 3 1 (m := 4) (by norm_num) (by norm_num)
  have e : r = r' := by
    have : Rng.new ((1 : Nat) : Int) ((3 : Nat) : Int) ((1 : Nat) : Int) 4 = some r' := h1'
    rw [h1, Option.some.injEq] at this
    exact this
  subst e
  have a := h2 0
  rw [h2' 0] at a
  norm_num [lcg] at a

/-- From 54 to 62 bits the mask is wrong: every number is zero or one. -/
theorem C122_wide (S g c : Int) {m : Nat} (hm : 54 ≤ m) (hm' : m ≤ 62) :
    ∃ r, Rng.new S g c m = some r ∧ ∀ n, r.draw n = 0 ∨ r.draw n = 1 := by
  refine ⟨_, by unfold Rng.new maskOf; rw [if_neg (by omega), if_pos hm', Option.map_some], fun n => ?_⟩
  generalize hr : (⟨BitVec.ofInt 64 S, BitVec.ofNat 64 19073486328125, BitVec.ofNat 64 0, BitVec.ofNat 64 (2 ^ m), m⟩ : Rng) = r
  have hk : ∀ n, (r.after n).mask = BitVec.ofNat 64 (2 ^ m) ∧ (r.after n).m = m := fun n => by
    induction n with
    | zero => subst hr; exact ⟨rfl, rfl⟩
    | succ n ih => rw [after_succ]; exact ih
  obtain ⟨e1, e2⟩ := hk n
  have hp : 2 ^ m ≤ 2 ^ 62 := Nat.pow_le_pow_right (by norm_num) hm'
  have hst : (r.after n).step.S.toNat = 0 ∨ (r.after n).step.S.toNat = 2 ^ m := by
    unfold Rng.step
    dsimp only
    rw [e1]
    simp only [BitVec.toNat_and, BitVec.toNat_ofNat]
    rw [Nat.mod_eq_of_lt (show 2 ^ m < 2 ^ 64 by omega), Nat.and_two_pow]
    generalize Nat.testBit _ m = b
    cases b
    · left; simp
    · right; simp
  show (r.after n).step.value = 0 ∨ (r.after n).step.value = 1
  have hpm : (2 : ℚ) ^ m ≠ 0 := by positivity
  have e3 : (r.after n).step.m = m := e2
  unfold Rng.value
  rw [e3]
  rcases hst with h | h
  · left
    rw [BitVec.toInt_eq_toNat_of_lt (by rw [h]; norm_num), h]; simp
  · right
    rw [BitVec.toInt_eq_toNat_of_lt (by rw [h]; omega), h]
    push_cast
    exact div_self hpm

/-- As the language has it, the generator with default arguments can be called once: the product of the second call does not
    fit a `long`. -/
theorem C122_overflow : ∃ r, Rng.default = some r ∧ (r.strictAfter 1).isSome ∧ r.strictAfter 2 = none :=
  ⟨⟨BitVec.ofInt 64 123, BitVec.ofNat 64 19073486328125, BitVec.ofNat 64 0, BitVec.ofNat 64 (2 ^ 48 - 1), 48⟩, rfl, by decide +kernel,
    by decide +kernel⟩

/-! ### Concrete cases -/

/-- The first two numbers of the default generator, as in the test. -/
example : ∃ r, Rng.default = some r ∧ |r.draw 0 - 33480420098231534 / 10 ^ 17| < 1 / 10 ^ 12 ∧
    |r.draw 1 - 626434885800720 / 10 ^ 17| < 1 / 10 ^ 12 :=
  ⟨⟨BitVec.ofInt 64 123, BitVec.ofNat 64 19073486328125, BitVec.ofNat 64 0, BitVec.ofNat 64 (2 ^ 48 - 1), 48⟩, rfl, by decide +kernel,
    by decide +kernel⟩

/-- The default generator repeats after 2^46 numbers. -/
example : ∃ r, Rng.default = some r ∧ ∀ i j, r.draw i = r.draw j ↔ i % 2 ^ 46 = j % 2 ^ 46 :=
  C122_period 123 19073486328125 0 (k := 46) (by norm_num) (by norm_num)

end Detran.Random
