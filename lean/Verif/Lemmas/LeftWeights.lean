import Mathlib.LinearAlgebra.Matrix.NonsingularInverse
import Mathlib.LinearAlgebra.Matrix.ToLin
import Mathlib.Algebra.Order.Field.Basic
import Mathlib.Data.Finset.Max
import Mathlib.Tactic.Linarith
import Mathlib.Tactic.FieldSimp

/-!
# Weights for the columns of a small non-negative matrix from weights for its rows (used for C129)
-/

namespace Detran.MGReflect

open Finset

variable {K : Type} [Field K] [LinearOrder K] [IsStrictOrderedRing K]

/-- What a small non-negative matrix takes away less than all of is non-negative if the rest is. -/
theorem small_nonneg {G : Nat} (r : Fin G → Fin G → K) (u : Fin G → K) (rho : K) (hr : ∀ i j, 0 ≤ r i j)
    (hu : ∀ i, 0 < u i) (row : ∀ i, ∑ j, r i j * u j ≤ rho * u i) (h1 : rho < 1) (x : Fin G → K)
    (hx : ∀ i, 0 ≤ x i - ∑ j, r i j * x j) : ∀ i, 0 ≤ x i := by
  intro i0
  obtain ⟨k, _, hk⟩ := exists_min_image (univ : Finset (Fin G)) (fun i => x i / u i) ⟨i0, mem_univ _⟩
  have hk' : ∀ j, x k / u k * u j ≤ x j := fun j => by
    have := mul_le_mul_of_nonneg_right (hk j (mem_univ _)) (hu j).le
    rwa [div_mul_cancel₀ _ (hu j).ne'] at this
  have hpos : 0 ≤ x k / u k := by
    by_contra hneg
    have hneg := not_le.1 hneg
    have a1 : x k / u k * ∑ j, r k j * u j ≤ ∑ j, r k j * x j := by
      rw [mul_sum]
      refine sum_le_sum fun j _ => ?_
      have := mul_le_mul_of_nonneg_left (hk' j) (hr k j)
      linarith
    have a2 := mul_le_mul_of_nonpos_left (row k) hneg.le
    have a3 := hx k
    have a4 : x k = x k / u k * u k := (div_mul_cancel₀ _ (hu k).ne').symm
    have a5 : x k / u k * (u k * (1 - rho)) < 0 :=
      mul_neg_of_neg_of_pos hneg (mul_pos (hu k) (by linarith))
    have a6 : x k / u k * (rho * u k) ≤ x k := by linarith
    have a7 : x k / u k * (u k * (1 - rho)) = x k / u k * u k - x k / u k * (rho * u k) := by ring
    linarith
  have := mul_nonneg hpos (hu i0).le
  linarith [hk' i0]

/-- Column weights: `z j = 1 + ∑ i, z i * r i j`. -/
theorem left_weights (G : Nat) (r : Nat → Nat → K) (u : Nat → K) (rho : K) (hr : ∀ i < G, ∀ j < G, 0 ≤ r i j)
    (hu : ∀ i < G, 0 < u i) (row : ∀ i < G, ∑ j ∈ range G, r i j * u j ≤ rho * u i) (h1 : rho < 1) :
    ∃ z : Nat → K, (∀ i < G, 0 < z i) ∧ ∀ j < G, ∑ i ∈ range G, z i * r i j + 1 = z j := by
  classical
  let R : Matrix (Fin G) (Fin G) K := Matrix.of fun i j => r i j
  let A : Matrix (Fin G) (Fin G) K := 1 - R
  have hA : ∀ x : Fin G → K, ∀ i, A.mulVec x i = x i - ∑ j, R i j * x j := fun x i => by
    simp only [A, Matrix.sub_mulVec, Matrix.one_mulVec, Pi.sub_apply]
    rfl
  have nn : ∀ x : Fin G → K, (∀ i, 0 ≤ A.mulVec x i) → ∀ i, 0 ≤ x i := fun x hx =>
    small_nonneg (fun i j => R i j) (fun i => u i) rho (fun i j => hr i i.2 j j.2) (fun i => hu i i.2)
      (fun i => by
        have := row i i.2
        rw [← Fin.sum_univ_eq_sum_range (fun j => r i j * u j)] at this
        exact this) h1 x (fun i => by rw [← hA]; exact hx i)
  have inj : Function.Injective A.mulVec := by
    intro x y hxy
    have h0 : A.mulVec (x - y) = 0 := by rw [Matrix.mulVec_sub, hxy, sub_self]
    have h0' : A.mulVec (y - x) = 0 := by rw [Matrix.mulVec_sub, hxy, sub_self]
    funext i
    have a := nn (x - y) (fun i => by rw [h0]; exact le_refl _) i
    have b := nn (y - x) (fun i => by rw [h0']; exact le_refl _) i
    simp only [Pi.sub_apply] at a b
    linarith
  have unit : IsUnit A.det := (Matrix.isUnit_iff_isUnit_det A).1 (Matrix.mulVec_injective_iff_isUnit.1 inj)
  have inv := Matrix.mul_nonsing_inv A unit
  have inv' := Matrix.nonsing_inv_mul A unit
  have bnn : ∀ i j, 0 ≤ A⁻¹ i j := by
    intro i j
    refine nn (fun i => A⁻¹ i j) (fun k => ?_) i
    have : A.mulVec (fun i => A⁻¹ i j) k = (A * A⁻¹) k j := rfl
    rw [this, inv, Matrix.one_apply]
    split
    · exact zero_le_one
    · exact le_refl _
  let z : Nat → K := fun j => if h : j < G then ∑ i, A⁻¹ i ⟨j, h⟩ else 0
  have hz : ∀ j (h : j < G), ∑ i ∈ range G, z i * r i j + 1 = z j := by
    intro j hj
    have e1 : ∑ i, ∑ k, A⁻¹ i k * A k ⟨j, hj⟩ = 1 := by
      have : ∀ i, ∑ k, A⁻¹ i k * A k ⟨j, hj⟩ = (1 : Matrix (Fin G) (Fin G) K) i ⟨j, hj⟩ := fun i => by
        rw [← inv']; rfl
      simp only [this, Matrix.one_apply]
      rw [sum_ite_eq' univ]
      simp
    rw [sum_comm] at e1
    have e2 : ∀ k : Fin G, ∑ i, A⁻¹ i k * A k ⟨j, hj⟩ = z k * (if k = ⟨j, hj⟩ then 1 else 0) - z k * r k j := by
      intro k
      rw [← sum_mul]
      have : z k = ∑ i, A⁻¹ i k := by
        simp only [z, k.2, dif_pos]
      rw [this, ← mul_sub]
      rfl
    simp only [e2] at e1
    rw [sum_sub_distrib] at e1
    have e3 : ∑ k : Fin G, z k * (if k = ⟨j, hj⟩ then (1 : K) else 0) = z j := by
      simp
    rw [e3, Fin.sum_univ_eq_sum_range (fun k => z k * r k j)] at e1
    linarith
  have z0 : ∀ j < G, 0 ≤ z j := fun j hj => by
    simp only [z, hj, dif_pos]
    exact sum_nonneg fun i _ => bnn i _
  refine ⟨z, fun i hi => ?_, hz⟩
  have := hz i hi
  have h2 : 0 ≤ ∑ k ∈ range G, z k * r k i :=
    sum_nonneg fun k hk => mul_nonneg (z0 k (mem_range.1 hk)) (hr k (mem_range.1 hk) i hi)
  linarith

end Detran.MGReflect
