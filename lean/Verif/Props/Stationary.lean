import Verif.Props.Solver
import Verif.Props.CallowNorm
import Mathlib.Algebra.Order.BigOperators.Group.Finset
import Mathlib.Algebra.Order.BigOperators.Ring.Finset
import Mathlib.Algebra.Order.Archimedean.Basic

/-!
# Jacobi, Gauss-Seidel and SOR solves of dominant systems (C156)
-/

namespace Detran.Solver

open Finset Detran.Matrix

variable {K : Type} [Field K] [LinearOrder K] [IsStrictOrderedRing K]

/-! ## Specification -/

/-- With weights `u`, the diagonal outweighs the rest of every row by the factor `1 / rho`. -/
structure Dominant (A : CSR K) (u : Nat → K) (rho : K) : Prop where
  pos : ∀ i < A.m, 0 < u i
  diag : ∀ i < A.m, entry A i i ≠ 0
  row : ∀ i < A.m, ∑ j ∈ (range A.m).erase i, |entry A i j| * u j ≤ rho * (|entry A i i| * u i)
  nonneg : 0 ≤ rho
  less : rho < 1

/-- The distance of `x` from `y`, in units of the weights, is at most `E`. -/
def Within (A : CSR K) (u : Nat → K) (E : K) (x y : Nat → K) : Prop := ∀ i < A.m, |x i - y i| ≤ E * u i

/-- A norm of vectors of `m` entries, as far as it matters here: no entry exceeds it, and it is at most `B` times the
    largest. -/
structure Sizes (m : Nat) (nrm : (Nat → K) → K) (B : K) : Prop where
  lower : ∀ v, ∀ i < m, |v i| ≤ nrm v
  upper : ∀ v D, 0 ≤ D → (∀ i < m, |v i| ≤ D) → nrm v ≤ B * D

/-- The update of the solver. -/
def sweepOf (gs : Bool) (A : CSR K) (ω : K) (b x0 x1 : Nat → K) : Nat → K :=
  if gs then gsStep A ω b x0 x1 else jacobiStep A ω b x0 x1

/-- The iterates of a solve, Jacobi.i.hh:50-105 and GaussSeidel.i.hh:46-110; the second vector may hold anything
    when a sweep begins. -/
def Iterates (gs : Bool) (A : CSR K) (ω : K) (b : Nat → K) (x : Nat → Nat → K) : Prop :=
  ∀ n, ∃ scratch, x (n + 1) = sweepOf gs A ω b (x n) scratch

/-- The residual norms it monitors, Jacobi.i.hh:42-43, 80-90 and GaussSeidel.i.hh:39-40, 85-95: the first is always that of
    the system, by `nrm0`; later ones compare successive iterates or are those of the system, by `nrm`. -/
def watched (A : CSR K) (b : Nat → K) (nrm0 nrm : (Nat → K) → K) (successive : Bool) (x : Nat → Nat → K) : Nat → K
  | 0 => nrm0 fun i => A.multiply (x 0) i - b i
  | n + 1 => if successive then nrm fun i => x (n + 1) i - x n i else nrm fun i => A.multiply (x (n + 1)) i - b i

/-! ## One sweep -/

section
variable {A : CSR K} {u : Nat → K} {rho : K}

/-- A row of the system, without its diagonal. -/
theorem off_row (h : WF A) (hD : Dominant A u rho) {b y : Nat → K} (hy : Solves A b y) {i : Nat} (hi : i < A.m) :
    entry A i i * y i = b i - ∑ j ∈ (range A.m).erase i, entry A i j * y j := by
  have := hy i hi
  rw [multiply_entry h y i hi, ← add_sum_erase _ _ (mem_range.2 hi)] at this
  linarith

theorem off_bound (hD : Dominant A u rho) {E : K} (hE : 0 ≤ E) {e : Nat → K} {i : Nat} (hi : i < A.m)
    (he : ∀ j < A.m, j ≠ i → |e j| ≤ E * u j) :
    |∑ j ∈ (range A.m).erase i, entry A i j * e j| ≤ rho * E * u i * |entry A i i| := by
  calc _ ≤ ∑ j ∈ (range A.m).erase i, |entry A i j * e j| := abs_sum_le_sum_abs _ _
    _ ≤ ∑ j ∈ (range A.m).erase i, E * (|entry A i j| * u j) := sum_le_sum fun j hj => by
        obtain ⟨h1, h2⟩ := mem_erase.1 hj
        rw [abs_mul, mul_left_comm]
        exact mul_le_mul_of_nonneg_left (he j (mem_range.1 h2) h1) (abs_nonneg _)
    _ = E * ∑ j ∈ (range A.m).erase i, |entry A i j| * u j := (mul_sum ..).symm
    _ ≤ E * (rho * (|entry A i i| * u i)) := mul_le_mul_of_nonneg_left (hD.row i hi) hE
    _ = _ := by ring

theorem relax_bound {ω c E U s t : K} (h1 : |s| ≤ c * E * U) (h2 : |t| ≤ E * U) : |ω * s + (1 - ω) * t| ≤
    (|ω| * c + |1 - ω|) * E * U := by
  calc _ ≤ |ω| * |s| + |1 - ω| * |t| := by rw [← abs_mul, ← abs_mul]; exact abs_add_le _ _
    _ ≤ |ω| * (c * E * U) + |1 - ω| * (E * U) :=
        add_le_add (mul_le_mul_of_nonneg_left h1 (abs_nonneg _)) (mul_le_mul_of_nonneg_left h2 (abs_nonneg _))
    _ = _ := by ring

/-- A Jacobi sweep brings the iterate closer to the solution. -/
theorem C156_jacobi (h : WF A) (hD : Dominant A u rho) {b y : Nat → K} (hy : Solves A b y) (ω : K) {E : K} (hE : 0 ≤ E)
    {x0 : Nat → K} (h0 : Within A u E x0 y) (x1 : Nat → K) :
    Within A u ((|ω| * rho + |1 - ω|) * E) (jacobiStep A ω b x0 x1) y := by
  intro i hi
  have hd := hD.diag i hi
  rw [jacobiStep_eq ω b x0 x1 i hi, jacobiRow_eq h ω b x0 i hi, multiply_entry h x0 i hi,
    ← add_sum_erase _ _ (mem_range.2 hi)]
  have e1 := off_row h hD hy hi
  have e2 := off_bound hD hE hi (e := fun j => x0 j - y j) fun j hj _ => h0 j hj
  have e3 : (b i - (entry A i i * x0 i + ∑ j ∈ (range A.m).erase i, entry A i j * x0 j - entry A i i * x0 i)) / entry A i i
      - y i = -(∑ j ∈ (range A.m).erase i, entry A i j * (x0 j - y j)) / entry A i i := by
    rw [eq_div_iff hd, sub_mul, div_mul_cancel₀ _ hd, mul_comm (y i), e1]
    simp only [mul_sub, sum_sub_distrib]
    ring
  have e4 : |-(∑ j ∈ (range A.m).erase i, entry A i j * (x0 j - y j)) / entry A i i| ≤ rho * E * u i := by
    rw [abs_div, abs_neg, div_le_iff₀ (abs_pos.2 hd)]
    exact e2
  rw [← e3] at e4
  refine le_trans (le_of_eq ?_) (relax_bound (ω := ω) e4 (h0 i hi))
  congr 1
  ring

/-- So does a Gauss-Seidel sweep, relaxed or not. -/
theorem C156_gauss_seidel (h : WF A) (hD : Dominant A u rho) {b y : Nat → K} (hy : Solves A b y) (ω : K) {E : K} (hE : 0 ≤ E)
    {x0 : Nat → K} (h0 : Within A u E x0 y) (x1 : Nat → K) :
    Within A u ((|ω| * rho + |1 - ω|) * E) (gsStep A ω b x0 x1) y := by
  have key : ∀ i < A.m, |gsSweep A b x0 x1 i - y i| ≤ rho * E * u i := by
    intro i
    induction i using Nat.strong_induction_on with
    | _ i ih =>
      intro hi
      have hd := hD.diag i hi
      let z : Nat → K := fun j => if j < i then gsSweep A b x0 x1 j else x0 j
      have e2 := off_bound hD hE hi (e := fun j => z j - y j) fun j hj hne => by
        dsimp only [z]
        split
        · rename_i hlt
          have hu := hD.pos j hj
          refine (ih j hlt hj).trans ?_
          have := mul_le_mul_of_nonneg_right hD.less.le (mul_nonneg hE hu.le)
          linarith
        · exact h0 j hj
      have e5 := C18_gauss_seidel_difference h hD.diag b x0 x1 i hi
      rw [multiply_entry h x0 i hi, ← add_sum_erase _ _ (mem_range.2 hi)] at e5
      have e6 : ∑ j ∈ range i, entry A i j * (gsSweep A b x0 x1 j - x0 j) =
          ∑ j ∈ (range A.m).erase i, entry A i j * (z j - x0 j) := by
        refine sum_subset_zero_on_sdiff (fun j hj => ?_) (fun j hj => ?_) fun j hj => ?_
        · have := mem_range.1 hj
          exact mem_erase.2 ⟨by omega, mem_range.2 (by omega)⟩
        · have : ¬ j < i := fun hc => (mem_sdiff.1 hj).2 (mem_range.2 hc)
          simp only [z, if_neg this, sub_self, mul_zero]
        · simp only [z, if_pos (mem_range.1 hj)]
      have e1 := off_row h hD hy hi
      have e3 : gsSweep A b x0 x1 i - y i = -(∑ j ∈ (range A.m).erase i, entry A i j * (z j - y j)) / entry A i i := by
        rw [eq_div_iff hd]
        rw [e6] at e5
        simp only [mul_sub, sum_sub_distrib] at e5 ⊢
        linarith
      rw [e3, abs_div, abs_neg, div_le_iff₀ (abs_pos.2 hd)]
      exact e2
  intro i hi
  unfold gsStep
  split
  · refine le_trans (le_of_eq ?_) (relax_bound (ω := ω) (key i hi) (h0 i hi))
    congr 1
    ring
  · rename_i hw
    have hw : ω = 1 := by simpa using hw
    rw [hw]
    simpa using key i hi

theorem sweepOf_within (gs : Bool) (h : WF A) (hD : Dominant A u rho) {b y : Nat → K} (hy : Solves A b y) (ω : K) {E : K}
    (hE : 0 ≤ E) {x0 : Nat → K} (h0 : Within A u E x0 y) (x1 : Nat → K) :
    Within A u ((|ω| * rho + |1 - ω|) * E) (sweepOf gs A ω b x0 x1) y := by
  cases gs
  · exact C156_jacobi h hD hy ω hE h0 x1
  · exact C156_gauss_seidel h hD hy ω hE h0 x1

/-- The error falls by the same factor with every sweep. -/
theorem C156_sweeps (gs : Bool) (h : WF A) (hD : Dominant A u rho) {b y : Nat → K} (hy : Solves A b y) (ω : K) {E : K}
    (hE : 0 ≤ E) {x : Nat → Nat → K} (hx : Iterates gs A ω b x) (h0 : Within A u E (x 0) y) (n : Nat) :
    Within A u ((|ω| * rho + |1 - ω|) ^ n * E) (x n) y := by
  have c0 : 0 ≤ |ω| * rho + |1 - ω| := add_nonneg (mul_nonneg (abs_nonneg _) hD.nonneg) (abs_nonneg _)
  induction n with
  | zero => simpa using h0
  | succ n ih =>
    obtain ⟨t, e⟩ := hx n
    rw [e, pow_succ', mul_assoc]
    exact sweepOf_within gs h hD hy ω (mul_nonneg (pow_nonneg c0 n) hE) ih t

/-! ## What the residual norms say -/

/-- The largest error in units of the weights. -/
theorem worst (hD : Dominant A u rho) (hm : 0 < A.m) (x y : Nat → K) :
    ∃ i < A.m, ∃ M, 0 ≤ M ∧ |x i - y i| = M * u i ∧ Within A u M x y := by
  obtain ⟨i, hi, hmax⟩ := exists_max_image (range A.m) (fun i => |x i - y i| / u i) ⟨0, mem_range.2 hm⟩
  have hi := mem_range.1 hi
  have ui := hD.pos i hi
  refine ⟨i, hi, |x i - y i| / u i, div_nonneg (abs_nonneg _) ui.le, (div_mul_cancel₀ _ ui.ne').symm, fun j hj => ?_⟩
  exact (div_le_iff₀ (hD.pos j hj)).1 (hmax j (mem_range.2 hj))

/-- From a bound of the error by the residual in one row to one everywhere. -/
theorem spread_bound (hD : Dominant A u rho) {q : Nat → K} (hq : ∀ i < A.m, 0 < q i) {M D : K} {x y : Nat → K} {i : Nat}
    (hi : i < A.m) (h0 : 0 ≤ D) (h1 : M * q i ≤ D) (hw : Within A u M x y) {k : Nat} (hk : k < A.m) :
    |x k - y k| ≤ (∑ j ∈ range A.m, 1 / q j) * (∑ j ∈ range A.m, u j) * D := by
  have a1 : M ≤ (∑ j ∈ range A.m, 1 / q j) * D := by
    have : M ≤ 1 / q i * D := by
      rw [one_div, ← div_eq_inv_mul, le_div_iff₀ (hq i hi)]
      exact h1
    refine this.trans (mul_le_mul_of_nonneg_right ?_ h0)
    exact single_le_sum (f := fun j => 1 / q j) (fun j hj => (one_div_pos.2 (hq j (mem_range.1 hj))).le) (mem_range.2 hi)
  have a2 : u k ≤ ∑ j ∈ range A.m, u j :=
    single_le_sum (f := u) (fun j hj => (hD.pos j (mem_range.1 hj)).le) (mem_range.2 hk)
  have a3 : 0 ≤ (∑ j ∈ range A.m, 1 / q j) * D :=
    mul_nonneg (sum_nonneg fun j hj => (one_div_pos.2 (hq j (mem_range.1 hj))).le) h0
  calc |x k - y k| ≤ M * u k := hw k hk
    _ ≤ (∑ j ∈ range A.m, 1 / q j) * D * u k := mul_le_mul_of_nonneg_right a1 (hD.pos k hk).le
    _ ≤ (∑ j ∈ range A.m, 1 / q j) * D * ∑ j ∈ range A.m, u j := mul_le_mul_of_nonneg_left a2 a3
    _ = _ := by ring

/-- Small residual, small error. -/
theorem C156_residual (h : WF A) (hD : Dominant A u rho) {b y : Nat → K} (hy : Solves A b y) {x : Nat → K} {D : K} (h0 : 0 ≤ D)
    (hr : ∀ i < A.m, |A.multiply x i - b i| ≤ D) {k : Nat} (hk : k < A.m) :
    |x k - y k| ≤ (∑ j ∈ range A.m, 1 / ((1 - rho) * |entry A j j| * u j)) * (∑ j ∈ range A.m, u j) * D := by
  obtain ⟨i, hi, M, m0, e, hw⟩ := worst hD (Nat.zero_lt_of_lt hk) x y
  refine spread_bound hD (fun j hj => mul_pos (mul_pos (sub_pos.2 hD.less) (abs_pos.2 (hD.diag j hj))) (hD.pos j hj)) hi h0 ?_ hw hk
  have e1 := off_bound hD m0 hi (e := fun j => x j - y j) fun j hj _ => hw j hj
  have e2 := off_row h hD hy hi
  have e3 := hr i hi
  rw [multiply_entry h x i hi, ← add_sum_erase _ _ (mem_range.2 hi)] at e3
  have e4 : entry A i i * (x i - y i) = (entry A i i * x i + ∑ j ∈ (range A.m).erase i, entry A i j * x j - b i) -
      ∑ j ∈ (range A.m).erase i, entry A i j * (x j - y j) := by
    simp only [mul_sub, sum_sub_distrib]
    rw [e2]
    ring
  have e5 : |entry A i i| * (M * u i) ≤ D + rho * M * u i * |entry A i i| := by
    rw [← e, ← abs_mul, e4]
    exact (abs_sub _ _).trans (add_le_add e3 e1)
  linarith

/-- Small difference of successive iterates, small error of the second. -/
theorem C156_successive (gs : Bool) (h : WF A) (hD : Dominant A u rho) {b y : Nat → K} (hy : Solves A b y) {ω : K}
    (hω : |ω| * rho + |1 - ω| < 1) {x t : Nat → K} {D : K} (h0 : 0 ≤ D)
    (hr : ∀ i < A.m, |sweepOf gs A ω b x t i - x i| ≤ D) {k : Nat} (hk : k < A.m) :
    |sweepOf gs A ω b x t k - y k| ≤
      (∑ j ∈ range A.m, 1 / ((1 - (|ω| * rho + |1 - ω|)) * u j)) * (∑ j ∈ range A.m, u j) * D := by
  obtain ⟨i, hi, M, m0, e, hw⟩ := worst hD (Nat.zero_lt_of_lt hk) x y
  have h1 := sweepOf_within gs h hD hy ω m0 hw t
  refine spread_bound hD (M := M) (fun j hj => mul_pos (sub_pos.2 hω) (hD.pos j hj)) hi h0 ?_ (fun j hj => (h1 j hj).trans ?_) hk
  · have a1 := h1 i hi
    have a2 := hr i hi
    have a3 : |x i - y i| ≤ |sweepOf gs A ω b x t i - y i| + |sweepOf gs A ω b x t i - x i| := by
      have := abs_sub (sweepOf gs A ω b x t i - y i) (sweepOf gs A ω b x t i - x i)
      rwa [sub_sub_sub_cancel_left] at this
    rw [e] at a3
    linarith
  · have := mul_le_mul_of_nonneg_right hω.le (mul_nonneg m0 (hD.pos j hj).le)
    linarith

/-! ## Whole solves -/

/-- Solves with Jacobi, Gauss-Seidel or SOR iteration.  There is a factor, the same for all right-hand sides, starting
    vectors, tolerances and limits: if a solve reports success, every entry is as close to the solution as the tolerances
    allow, up to that factor; and if divergence is not watched for, every solve allowed enough iterations reports success. -/
theorem C156_solves [Archimedean K] (gs : Bool) (h : WF A) (hD : Dominant A u rho) {ω : K} (hω : |ω| * rho + |1 - ω| < 1)
    {nrm0 nrm : (Nat → K) → K} {B0 B : K} (hn0 : Sizes A.m nrm0 B0) (hn : Sizes A.m nrm B) (successive : Bool) :
    ∃ f : K, 0 ≤ f ∧ ∀ b y, Solves A b y → ∀ x, Iterates gs A ω b x →
      let r := watched A b nrm0 nrm successive x
      let kd : Kind := if gs then .gaussSeidel else .jacobi
      (∀ (par : Par K) s, (solve par kd r s).1.status = .success → ∀ i < A.m,
        |x (solve par kd r s).2 i - y i| ≤ f * max (par.rtol * r 0) par.atol) ∧
      ∀ atol rtol, 0 < atol → ∃ N, ∀ maxit, N ≤ maxit → ∀ s,
        (solve ⟨atol, rtol, maxit, false⟩ kd r s).1.status = .success := by
  set c := |ω| * rho + |1 - ω| with hc
  have c0 : 0 ≤ c := add_nonneg (mul_nonneg (abs_nonneg _) hD.nonneg) (abs_nonneg _)
  have u0 : 0 ≤ ∑ j ∈ range A.m, u j := sum_nonneg fun j hj => (hD.pos j (mem_range.1 hj)).le
  set f1 := (∑ j ∈ range A.m, 1 / ((1 - rho) * |entry A j j| * u j)) * (∑ j ∈ range A.m, u j) with hf1
  set f2 := (∑ j ∈ range A.m, 1 / ((1 - c) * u j)) * (∑ j ∈ range A.m, u j) with hf2
  have p1 : 0 ≤ f1 := mul_nonneg (sum_nonneg fun j hj => (one_div_pos.2 (mul_pos (mul_pos (sub_pos.2 hD.less)
    (abs_pos.2 (hD.diag j (mem_range.1 hj)))) (hD.pos j (mem_range.1 hj)))).le) u0
  have p2 : 0 ≤ f2 := mul_nonneg (sum_nonneg fun j hj => (one_div_pos.2 (mul_pos (sub_pos.2 hω)
    (hD.pos j (mem_range.1 hj)))).le) u0
  refine ⟨f1 + f2, add_nonneg p1 p2, fun b y hy x hx => ?_⟩
  intro r kd
  refine ⟨fun par s hs i hi => ?_, fun atol rtol hat => ?_⟩
  · have nn : ∀ n, 0 ≤ r n := fun n => by
      cases n with
      | zero => exact (abs_nonneg _).trans (hn0.lower _ i hi)
      | succ n =>
        change 0 ≤ if successive then _ else _
        split <;> exact (abs_nonneg _).trans (hn.lower _ i hi)
    have close : ∀ n, |x n i - y i| ≤ (f1 + f2) * r n := fun n => by
      cases n with
      | zero =>
        have := C156_residual h hD hy (nn 0) (fun j hj => hn0.lower (fun i => A.multiply (x 0) i - b i) j hj) hi
        refine this.trans (mul_le_mul_of_nonneg_right ?_ (nn 0))
        linarith
      | succ n =>
        cases hsu : successive with
        | true =>
          have er : r (n + 1) = nrm fun i => x (n + 1) i - x n i := by
            change (if successive then _ else _) = _
            rw [if_pos hsu]
          obtain ⟨t, e⟩ := hx n
          have := C156_successive gs h hD hy (ω := ω) hω (x := x n) (t := t) (nn (n + 1)) (fun j hj => by
            rw [er, ← e]
            exact hn.lower (fun i => x (n + 1) i - x n i) j hj) hi
          rw [← e] at this
          refine this.trans (mul_le_mul_of_nonneg_right ?_ (nn _))
          linarith
        | false =>
          have er : r (n + 1) = nrm fun i => A.multiply (x (n + 1)) i - b i := by
            change (if successive then _ else _) = _
            rw [if_neg (by simp [hsu])]
          have := C156_residual h hD hy (x := x (n + 1)) (nn (n + 1)) (fun j hj => by
            rw [er]
            exact hn.lower (fun i => A.multiply (x (n + 1)) i - b i) j hj) hi
          refine this.trans (mul_le_mul_of_nonneg_right ?_ (nn _))
          linarith
    refine (close _).trans (mul_le_mul_of_nonneg_left ?_ (add_nonneg p1 p2))
    rcases C19_success_truthful par kd r s hs with ⟨e, hlt⟩ | ⟨_, hlt⟩
    · rw [e]
      exact hlt.le.trans (le_max_right _ _)
    · exact hlt.le
  · set E := ∑ i ∈ range A.m, |x 0 i - y i| / u i with hE
    have E0 : 0 ≤ E := sum_nonneg fun i hi => div_nonneg (abs_nonneg _) (hD.pos i (mem_range.1 hi)).le
    have w0 : Within A u E (x 0) y := fun i hi => by
      rw [← div_le_iff₀ (hD.pos i hi)]
      exact single_le_sum (f := fun i => |x 0 i - y i| / u i)
        (fun j hj => div_nonneg (abs_nonneg _) (hD.pos j (mem_range.1 hj)).le) (mem_range.2 hi)
    have wn := C156_sweeps gs h hD hy ω E0 hx w0
    set Q := E * (2 * ∑ j ∈ range A.m, u j + ∑ i ∈ range A.m, ∑ j ∈ range A.m, |entry A i j| * u j) with hQ
    have s0 : 0 ≤ ∑ i ∈ range A.m, ∑ j ∈ range A.m, |entry A i j| * u j :=
      sum_nonneg fun i _ => sum_nonneg fun j hj => mul_nonneg (abs_nonneg _) (hD.pos j (mem_range.1 hj)).le
    have Q0 : 0 ≤ Q := mul_nonneg E0 (by linarith)
    have small : ∀ n, r (n + 1) ≤ B * (c ^ n * Q) := fun n => by
      have cn : 0 ≤ c ^ n := pow_nonneg c0 n
      have mono : c ^ (n + 1) * E ≤ c ^ n * E := by
        rw [pow_succ]
        exact mul_le_mul_of_nonneg_right (mul_le_of_le_one_right cn hω.le) E0
      have cE : 0 ≤ c ^ n * E := mul_nonneg cn E0
      cases hsu : successive with
      | true =>
        have er : r (n + 1) = nrm fun i => x (n + 1) i - x n i := by
          change (if successive then _ else _) = _
          rw [if_pos hsu]
        rw [er]
        refine hn.upper _ _ (mul_nonneg cn Q0) fun i hi => ?_
        have a1 := wn (n + 1) i hi
        have a2 := wn n i hi
        have a3 : |x (n + 1) i - x n i| ≤ |x (n + 1) i - y i| + |x n i - y i| := by
          have := abs_sub (x (n + 1) i - y i) (x n i - y i)
          rwa [sub_sub_sub_cancel_right] at this
        have a4 : u i ≤ ∑ j ∈ range A.m, u j :=
          single_le_sum (f := u) (fun j hj => (hD.pos j (mem_range.1 hj)).le) (mem_range.2 hi)
        have a5 := mul_le_mul_of_nonneg_right mono (hD.pos i hi).le
        have a6 := mul_le_mul_of_nonneg_left a4 cE
        have a7 := mul_nonneg cE s0
        rw [hQ]
        linarith
      | false =>
        have er : r (n + 1) = nrm fun i => A.multiply (x (n + 1)) i - b i := by
          change (if successive then _ else _) = _
          rw [if_neg (by simp [hsu])]
        rw [er]
        refine hn.upper _ _ (mul_nonneg cn Q0) fun i hi => ?_
        have a1 : A.multiply (x (n + 1)) i - b i = ∑ j ∈ range A.m, entry A i j * (x (n + 1) j - y j) := by
          rw [← hy i hi, multiply_entry h _ i hi, multiply_entry h _ i hi, ← sum_sub_distrib]
          exact sum_congr rfl fun j _ => by ring
        have a2 : |A.multiply (x (n + 1)) i - b i| ≤ c ^ n * E * ∑ j ∈ range A.m, |entry A i j| * u j := by
          rw [a1, mul_sum]
          refine (abs_sum_le_sum_abs _ _).trans (sum_le_sum fun j hj => ?_)
          have hj := mem_range.1 hj
          rw [abs_mul, mul_left_comm]
          exact mul_le_mul_of_nonneg_left ((wn (n + 1) j hj).trans (mul_le_mul_of_nonneg_right mono (hD.pos j hj).le))
            (abs_nonneg _)
        have a3 : ∑ j ∈ range A.m, |entry A i j| * u j ≤ ∑ i ∈ range A.m, ∑ j ∈ range A.m, |entry A i j| * u j :=
          single_le_sum (f := fun i => ∑ j ∈ range A.m, |entry A i j| * u j)
            (fun i _ => sum_nonneg fun j hj => mul_nonneg (abs_nonneg _) (hD.pos j (mem_range.1 hj)).le) (mem_range.2 hi)
        have a4 := mul_le_mul_of_nonneg_left a3 cE
        have a5 := mul_nonneg cE u0
        rw [hQ]
        linarith
    have lim : ∃ n, B * (c ^ n * Q) < atol := by
      obtain ⟨n, hn⟩ := exists_pow_lt_of_lt_one (div_pos hat (show (0 : K) < |B * Q| + 1 by positivity)) hω
      refine ⟨n, ?_⟩
      rw [lt_div_iff₀ (by positivity)] at hn
      have b1 := mul_le_mul_of_nonneg_left (le_abs_self (B * Q)) (pow_nonneg c0 n)
      have b2 := pow_nonneg c0 n
      calc B * (c ^ n * Q) = c ^ n * (B * Q) := by ring
        _ ≤ c ^ n * |B * Q| := b1
        _ ≤ c ^ n * (|B * Q| + 1) := by linarith
        _ < atol := hn
    obtain ⟨n, hlt⟩ := lim
    refine ⟨n + 2, fun maxit hm s => ?_⟩
    obtain ⟨k1, k2, k3⟩ := C19_definite_status_partial ⟨atol, rtol, maxit, false⟩ kd r s (show 2 ≤ maxit by omega)
    rcases hst : (solve ⟨atol, rtol, maxit, false⟩ kd r s).1.status with _ | _ | _ | _
    · exact absurd hst k1
    · rfl
    · exact absurd (((small n).trans_lt hlt).trans_le (le_max_right _ _)) ((k3 hst).2 (n + 1) (by omega) (show n + 1 < maxit by omega))
    · exact absurd (k2 hst).1 (by simp)

end

/-! ## The norms of the code -/

open CallowNorm in
/-- The three absolute norms are norms in this sense, and `norm_residual` is the norm of the difference. -/
theorem C156_norms (m : Nat) (t : CallowNorm.Kind) (ht : t = .l1 ∨ t = .l2 ∨ t = .linf) :
    Sizes m (norm Real.sqrt t m) (m : ℝ) ∧
      ∀ x y : Nat → ℝ, normResidual Real.sqrt t m x y = some (norm Real.sqrt t m fun i => x i - y i) := by
  have up : ∀ (v : Nat → ℝ) (D : ℝ), (∀ i < m, |v i| ≤ D) → ∑ i ∈ range m, |v i| ≤ m * D := fun v D h => by
    have := sum_le_card_nsmul (range m) (fun i => |v i|) D fun i hi => h i (mem_range.1 hi)
    simpa using this
  rcases ht with rfl | rfl | rfl
  · refine ⟨⟨fun v i hi => ?_, fun v D _ h => ?_⟩, fun _ _ => rfl⟩
    · rw [norm_l1]
      exact single_le_sum (f := fun i => |v i|) (fun _ _ => abs_nonneg _) (mem_range.2 hi)
    · rw [norm_l1]
      exact up v D h
  · refine ⟨⟨fun v i hi => ?_, fun v D h0 h => ?_⟩, fun _ _ => rfl⟩
    · rw [norm_l2, ← Real.sqrt_sq_eq_abs, pow_two]
      exact Real.sqrt_le_sqrt (single_le_sum (f := fun i => v i * v i) (fun _ _ => mul_self_nonneg _) (mem_range.2 hi))
    · rw [norm_l2]
      refine le_trans (Real.sqrt_le_iff.2 ⟨sum_nonneg fun i _ => abs_nonneg (v i), ?_⟩) (up v D h)
      rw [pow_two, sum_mul]
      refine sum_le_sum fun i hi => ?_
      rw [← abs_mul_abs_self (v i)]
      exact mul_le_mul_of_nonneg_left (single_le_sum (f := fun i => |v i|) (fun _ _ => abs_nonneg _) hi) (abs_nonneg _)
  · refine ⟨⟨fun v i hi => ?_, fun v D h0 h => ?_⟩, fun _ _ => rfl⟩
    · rw [norm_linf]
      exact le_largest m (fun i => |v i|) i hi
    · rw [norm_linf]
      rcases Nat.eq_zero_or_pos m with rfl | hm
      · simp [largest]
      · have h1 : (1 : ℝ) ≤ m := by exact_mod_cast hm
        exact (largest_le m _ D h0 h).trans (le_mul_of_one_le_left h0 h1)

/-! ## An instance -/

theorem tri_dominant : Dominant tri (fun _ => 1) (3 / 5) := by
  refine ⟨fun _ _ => one_pos, ?_, ?_, by norm_num, by norm_num⟩
  · decide +kernel
  · decide +kernel

theorem tri_sizes : Sizes tri.m (fun v : Nat → ℚ => |v 0| + |v 1| + |v 2|) 3 := by
  refine ⟨fun v i hi => ?_, fun v D _ h => ?_⟩
  · have a := abs_nonneg (v 0)
    have b := abs_nonneg (v 1)
    have c := abs_nonneg (v 2)
    have : i = 0 ∨ i = 1 ∨ i = 2 := by
      have : tri.m = 3 := rfl
      omega
    rcases this with rfl | rfl | rfl <;> linarith
  · have := h 0 (by decide)
    have := h 1 (by decide)
    have := h 2 (by decide)
    linarith

/-- Gauss-Seidel, over-relaxed by a fifth, and Jacobi, under-relaxed by a fifth. -/
example (gs : Bool) (successive : Bool) :
    ∃ f : ℚ, 0 ≤ f ∧ ∀ b y, Solves tri b y → ∀ x, Iterates gs tri (if gs then 6 / 5 else 4 / 5) b x →
      let r := watched tri b (fun v => |v 0| + |v 1| + |v 2|) (fun v => |v 0| + |v 1| + |v 2|) successive x
      ∀ par s, (solve par (if gs then .gaussSeidel else .jacobi) r s).1.status = .success → ∀ i < 3,
        |x (solve par (if gs then .gaussSeidel else .jacobi) r s).2 i - y i| ≤ f * max (par.rtol * r 0) par.atol := by
  obtain ⟨f, h0, h⟩ := C156_solves gs tri_wf tri_dominant (ω := if gs then 6 / 5 else 4 / 5)
    (by cases gs <;> norm_num [abs_of_pos, abs_of_neg]) tri_sizes tri_sizes successive
  exact ⟨f, h0, fun b y hy x hx => (h b y hy x hx).1⟩

end Detran.Solver
