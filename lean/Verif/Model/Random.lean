import Mathlib.Algebra.Order.Field.Rat

/-!
# Model of `utilities/Random`

`long` has 64 bits.  In C++ the product of two of them that does not fit is undefined; machines keep the low 64 bits.
Both readings are modelled: `Rng.step` keeps the low bits, `strict` has no result where the product does not fit.
Values are exact: for a modulus of at most 53 bits they are doubles.
-/

namespace Detran.Random

/-- `d_two_to_m_minus_1(std::pow(2, m)-1)`, Random.hh:75, for nonnegative `m`: from 54 bits on the difference is rounded to
    the power itself, from 63 bits on it does not fit a `long`. -/
def maskOf (m : Nat) : Option (BitVec 64) :=
  if m ≤ 53 then some (BitVec.ofNat 64 (2 ^ m - 1)) else if m ≤ 62 then some (BitVec.ofNat 64 (2 ^ m)) else none

/-- The data of a generator, Random.hh:97-106. -/
structure Rng where
  S : BitVec 64
  g : BitVec 64
  c : BitVec 64
  mask : BitVec 64
  m : Nat

/-- The constructor, Random.hh:68-79: multiplier and increment given are not used. -/
def Rng.new (S : Int) (_g _c : Int) (m : Nat) : Option Rng :=
  (maskOf m).map fun k => ⟨BitVec.ofInt 64 S, BitVec.ofNat 64 19073486328125, BitVec.ofNat 64 0, k, m⟩

/-- The default arguments, Random.hh:68-71. -/
def Rng.default : Option Rng := Rng.new 123 19073486328125 0 48

/-- The new state, Random.hh:86. -/
def Rng.step (r : Rng) : Rng := { r with S := ((r.g * r.S) &&& r.mask) + r.c &&& r.mask }

/-- The value of a state, Random.hh:87. -/
def Rng.value (r : Rng) : ℚ := r.S.toInt / 2 ^ r.m

/-- `rnd`, Random.hh:84-88. -/
def Rng.rnd (r : Rng) : ℚ × Rng := (r.step.value, r.step)

/-- The generator after `n` calls of `rnd`. -/
def Rng.after (r : Rng) : Nat → Rng
  | 0 => r
  | n + 1 => (r.rnd.2).after n

/-- The value of call number `n` (from zero). -/
def Rng.draw (r : Rng) (n : Nat) : ℚ := (r.after n).rnd.1

/-- `rnd` as the language has it: nothing where the product does not fit a `long`. -/
def Rng.strict (r : Rng) : Option (ℚ × Rng) :=
  let p := r.g.toInt * r.S.toInt
  if -2 ^ 63 ≤ p ∧ p < 2 ^ 63 then some r.rnd else none

/-- `n` calls as the language has them. -/
def Rng.strictAfter (r : Rng) : Nat → Option Rng
  | 0 => some r
  | n + 1 => r.strict.bind fun x => x.2.strictAfter n

end Detran.Random
