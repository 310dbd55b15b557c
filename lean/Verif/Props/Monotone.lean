import Verif.Props.DiffStationary

/-!
# Signs and bounds in Jacobi and Gauss-Seidel solves (C157)
-/

namespace Detran.Solver

open Finset Detran.Matrix

variable {K : Type} [Field K] [LinearOrder K] [IsStrictOrderedRing K]

/-- Positive on the diagonal and nowhere positive off it. -/
structure Signs (A : CSR K) : Prop where
  diag : ∀ i < A.m, 0 < entry A i i
  off : ∀ i < A.m, ∀ j < A.m, j ≠ i → entry A i j ≤ 0

/-- No element of `x` exceeds that of `y`. -/
def Below (A : CSR K) (x y : Nat → K) : Prop := ∀ i < A.m, x i ≤ y i

section
variable {A : CSR K}

/-- A sweep is a mixture of the unrelaxed sweep and the old iterate. -/
theorem sweep_mix (gs : Bool) (h : WF A) (ω : K) (b x0 x1 : Nat → K) {i : Nat} (hi : i < A.m) :
    sweepOf gs A ω b x0 x1 i = ω * sweepOf gs A 1 b x0 x1 i + (1 - ω) * x0 i := by
  cases gs
  · change jacobiStep A ω b x0 x1 i = ω * jacobiStep A 1 b x0 x1 i + (1 - ω) * x0 i
    rw [jacobiStep_eq _ b x0 x1 i hi, jacobiStep_eq _ b x0 x1 i hi, jacobiRow_eq h _ b x0 i hi, jacobiRow_eq h _ b x0 i hi]
    ring
  · change gsStep A ω b x0 x1 i = ω * gsStep A 1 b x0 x1 i + (1 - ω) * x0 i
    unfold gsStep
    rw [if_neg (show ¬ (1 : K) ≠ 1 from fun e => e rfl)]
    split
    · rfl
    · rename_i hw
      have hw : ω = 1 := by simpa using hw
      rw [hw]
      ring

/-- What the unrelaxed sweep solves, row by row: Gauss-Seidel uses what it has already found. -/
theorem sweep_row (gs : Bool) (h : WF A) (hd : ∀ i < A.m, entry A i i ≠ 0) (b x0 x1 : Nat → K) {i : Nat} (hi : i < A.m) :
    entry A i i * sweepOf gs A 1 b x0 x1 i = b i - ∑ j ∈ (range A.m).erase i, entry A i j *
      (if gs = true ∧ j < i then sweepOf gs A 1 b x0 x1 j else x0 j) := by
  cases gs
  · change entry A i i * jacobiStep A 1 b x0 x1 i = _
    rw [jacobiStep_eq _ b x0 x1 i hi, jacobiRow_eq h _ b x0 i hi, multiply_entry h x0 i hi, ← add_sum_erase _ _ (mem_range.2 hi)]
    simp only [Bool.false_eq_true, false_and, if_false]
    field_simp [hd i hi]
    ring
  · have eg : sweepOf true A 1 b x0 x1 = gsSweep A b x0 x1 := by
      change gsStep A 1 b x0 x1 = _
      unfold gsStep
      rw [if_neg (show ¬ (1 : K) ≠ 1 from fun e => e rfl)]
    rw [eg]
    have e5 := C18_gauss_seidel_difference h hd b x0 x1 i hi
    rw [multiply_entry h x0 i hi, ← add_sum_erase _ _ (mem_range.2 hi)] at e5
    have e6 : ∑ j ∈ range i, entry A i j * (gsSweep A b x0 x1 j - x0 j) =
        ∑ j ∈ (range A.m).erase i, entry A i j * ((if true = true ∧ j < i then gsSweep A b x0 x1 j else x0 j) - x0 j) := by
      refine sum_subset_zero_on_sdiff (fun j hj => ?_) (fun j hj => ?_) fun j hj => ?_
      · have := mem_range.1 hj
        exact mem_erase.2 ⟨by omega, mem_range.2 (by omega)⟩
      · have : ¬ j < i := fun hc => (mem_sdiff.1 hj).2 (mem_range.2 hc)
        rw [if_neg (fun e => this e.2), sub_self, mul_zero]
      · rw [if_pos ⟨rfl, mem_range.1 hj⟩]
    rw [e6] at e5
    simp only [mul_sub, sum_sub_distrib, true_and] at e5 ⊢
    linarith

theorem sweep_le (gs : Bool) (h : WF A) (hS : Signs A) {b b' x0 x0' : Nat → K} (hb : Below A b b') (hx : Below A x0 x0')
    (x1 x1' : Nat → K) : Below A (sweepOf gs A 1 b x0 x1) (sweepOf gs A 1 b' x0' x1') := by
  intro i
  induction i using Nat.strong_induction_on with
  | _ i ih =>
    intro hi
    have hd : ∀ i < A.m, entry A i i ≠ 0 := fun i hi => (hS.diag i hi).ne'
    refine le_of_mul_le_mul_left ?_ (hS.diag i hi)
    rw [sweep_row gs h hd b x0 x1 hi, sweep_row gs h hd b' x0' x1' hi]
    refine sub_le_sub (hb i hi) (sum_le_sum fun j hj => mul_le_mul_of_nonpos_left ?_ ?_)
    · obtain ⟨h1, h2⟩ := mem_erase.1 hj
      split
      · rename_i hc
        exact ih j hc.2 (mem_range.1 h2)
      · exact hx j (mem_range.1 h2)
    · obtain ⟨h1, h2⟩ := mem_erase.1 hj
      exact hS.off i hi j (mem_range.1 h2) h1

/-- Larger sources and larger iterates give larger iterates. -/
theorem C157_monotone (gs : Bool) (h : WF A) (hS : Signs A) {ω : K} (w0 : 0 ≤ ω) (w1 : ω ≤ 1) {b b' x0 x0' : Nat → K}
    (hb : Below A b b') (hx : Below A x0 x0') (x1 x1' : Nat → K) :
    Below A (sweepOf gs A ω b x0 x1) (sweepOf gs A ω b' x0' x1') := by
  intro i hi
  rw [sweep_mix gs h ω b x0 x1 hi, sweep_mix gs h ω b' x0' x1' hi]
  exact add_le_add (mul_le_mul_of_nonneg_left (sweep_le gs h hS hb hx x1 x1' i hi) w0)
    (mul_le_mul_of_nonneg_left (hx i hi) (sub_nonneg.2 w1))

/-- A solution stays where it is. -/
theorem sweep_fixed (gs : Bool) (h : WF A) (hS : Signs A) {b y : Nat → K} (hy : Solves A b y) (x1 : Nat → K) :
    ∀ i < A.m, sweepOf gs A 1 b y x1 i = y i := by
  have hd : ∀ i < A.m, entry A i i ≠ 0 := fun i hi => (hS.diag i hi).ne'
  intro i
  induction i using Nat.strong_induction_on with
  | _ i ih =>
    intro hi
    refine mul_left_cancel₀ (hd i hi) ?_
    rw [sweep_row gs h hd b y x1 hi]
    have := hy i hi
    rw [multiply_entry h y i hi, ← add_sum_erase _ _ (mem_range.2 hi)] at this
    rw [sub_eq_iff_eq_add, ← this]
    congr 1
    refine sum_congr rfl fun j hj => ?_
    split
    · rename_i hc
      rw [ih j hc.2 (mem_range.1 (mem_erase.1 hj).2)]
    · rfl

/-- No sweep leaves the side of the solution it is on. -/
theorem C157_side (gs : Bool) (h : WF A) (hS : Signs A) {ω : K} (w0 : 0 ≤ ω) (w1 : ω ≤ 1) {b y x0 : Nat → K} (hy : Solves A b y)
    (x1 : Nat → K) : (Below A x0 y → Below A (sweepOf gs A ω b x0 x1) y) ∧ (Below A y x0 → Below A y (sweepOf gs A ω b x0 x1)) := by
  have e : ∀ i < A.m, sweepOf gs A ω b y x1 i = y i := fun i hi => by
    rw [sweep_mix gs h ω b y x1 hi, sweep_fixed gs h hS hy x1 i hi]
    ring
  exact ⟨fun hx i hi => e i hi ▸ C157_monotone gs h hS w0 w1 (fun _ _ => le_rfl) hx x1 x1 i hi,
    fun hx i hi => e i hi ▸ C157_monotone gs h hS w0 w1 (fun _ _ => le_rfl) hx x1 x1 i hi⟩

/-- Without negative sources no iterate becomes negative. -/
theorem C157_positive (gs : Bool) (h : WF A) (hS : Signs A) {ω : K} (w0 : 0 ≤ ω) (w1 : ω ≤ 1) {b x0 : Nat → K}
    (hb : ∀ i < A.m, 0 ≤ b i) (hx : ∀ i < A.m, 0 ≤ x0 i) (x1 : Nat → K) : ∀ i < A.m, 0 ≤ sweepOf gs A ω b x0 x1 i := by
  have z : Solves A (fun _ => 0) (fun _ => 0) := fun i hi => by
    rw [multiply_entry h _ i hi]
    simp
  exact fun i hi => ((C157_side gs h hS w0 w1 z x1).2 (fun _ _ => le_rfl) i hi).trans
    (C157_monotone gs h hS w0 w1 hb hx x1 x1 i hi)

/-- The unrelaxed sweep leaves a residual of the sign of the change. -/
theorem sweep_residual (gs : Bool) (h : WF A) (hS : Signs A) (b x0 x1 : Nat → K) {i : Nat} (hi : i < A.m) :
    A.multiply (sweepOf gs A 1 b x0 x1) i - b i = ∑ j ∈ (range A.m).erase i, entry A i j *
      (if gs = true ∧ j < i then 0 else sweepOf gs A 1 b x0 x1 j - x0 j) := by
  have hd : ∀ i < A.m, entry A i i ≠ 0 := fun i hi => (hS.diag i hi).ne'
  rw [multiply_entry h _ i hi, ← add_sum_erase _ _ (mem_range.2 hi), sweep_row gs h hd b x0 x1 hi]
  have : ∀ j, entry A i j * (if gs = true ∧ j < i then 0 else sweepOf gs A 1 b x0 x1 j - x0 j) =
      entry A i j * sweepOf gs A 1 b x0 x1 j - entry A i j * (if gs = true ∧ j < i then sweepOf gs A 1 b x0 x1 j else x0 j) := fun j => by
    split <;> ring
  rw [sum_congr rfl fun j _ => this j, sum_sub_distrib]
  ring

theorem multiply_mix (h : WF A) (s t : K) (x y : Nat → K) {z : Nat → K} (hz : ∀ i < A.m, z i = s * x i + t * y i) {i : Nat}
    (hi : i < A.m) : A.multiply z i = s * A.multiply x i + t * A.multiply y i := by
  rw [multiply_entry h _ i hi, multiply_entry h _ i hi, multiply_entry h _ i hi, mul_sum, mul_sum, ← sum_add_distrib]
  exact sum_congr rfl fun j hj => by rw [hz j (mem_range.1 hj)]; ring

/-- If no element of the residual is positive, the sweep raises every element and the residual stays so. -/
theorem C157_rising (gs : Bool) (h : WF A) (hS : Signs A) {ω : K} (w0 : 0 ≤ ω) (w1 : ω ≤ 1) {b x0 : Nat → K}
    (hr : Below A (A.multiply x0) b) (x1 : Nat → K) :
    Below A x0 (sweepOf gs A ω b x0 x1) ∧ Below A (A.multiply (sweepOf gs A ω b x0 x1)) b := by
  have up : Below A x0 (sweepOf gs A 1 b x0 x1) := fun i hi => by
    have := sweep_le gs h hS hr (fun i _ => le_refl (x0 i)) x1 x1 i hi
    rwa [sweep_fixed gs h hS (fun _ _ => rfl) x1 i hi] at this
  refine ⟨fun i hi => ?_, fun i hi => ?_⟩
  · rw [sweep_mix gs h ω b x0 x1 hi]
    have := mul_le_mul_of_nonneg_left (up i hi) w0
    linarith
  · have e := sweep_residual gs h hS b x0 x1 hi
    have l : A.multiply (sweepOf gs A 1 b x0 x1) i - b i ≤ 0 := by
      rw [e]
      refine sum_nonpos fun j hj => ?_
      obtain ⟨h1, h2⟩ := mem_erase.1 hj
      refine mul_nonpos_of_nonpos_of_nonneg (hS.off i hi j (mem_range.1 h2) h1) ?_
      split
      · exact le_rfl
      · exact sub_nonneg.2 (up j (mem_range.1 h2))
    rw [multiply_mix h ω (1 - ω) _ _ (fun i hi => sweep_mix gs h ω b x0 x1 hi) hi]
    have a1 := mul_le_mul_of_nonneg_left l w0
    have a2 := mul_le_mul_of_nonneg_left (hr i hi) (sub_nonneg.2 w1)
    linarith

/-- If none is negative, the sweep lowers every element. -/
theorem C157_falling (gs : Bool) (h : WF A) (hS : Signs A) {ω : K} (w0 : 0 ≤ ω) (w1 : ω ≤ 1) {b x0 : Nat → K}
    (hr : Below A b (A.multiply x0)) (x1 : Nat → K) :
    Below A (sweepOf gs A ω b x0 x1) x0 ∧ Below A b (A.multiply (sweepOf gs A ω b x0 x1)) := by
  have dn : Below A (sweepOf gs A 1 b x0 x1) x0 := fun i hi => by
    have := sweep_le gs h hS hr (fun i _ => le_refl (x0 i)) x1 x1 i hi
    rwa [sweep_fixed gs h hS (fun _ _ => rfl) x1 i hi] at this
  refine ⟨fun i hi => ?_, fun i hi => ?_⟩
  · rw [sweep_mix gs h ω b x0 x1 hi]
    have := mul_le_mul_of_nonneg_left (dn i hi) w0
    linarith
  · have e := sweep_residual gs h hS b x0 x1 hi
    have l : 0 ≤ A.multiply (sweepOf gs A 1 b x0 x1) i - b i := by
      rw [e]
      refine sum_nonneg fun j hj => ?_
      obtain ⟨h1, h2⟩ := mem_erase.1 hj
      refine mul_nonneg_of_nonpos_of_nonpos (hS.off i hi j (mem_range.1 h2) h1) ?_
      split
      · exact le_rfl
      · exact sub_nonpos.2 (dn j (mem_range.1 h2))
    rw [multiply_mix h ω (1 - ω) _ _ (fun i hi => sweep_mix gs h ω b x0 x1 hi) hi]
    have a1 := mul_nonneg w0 l
    have a2 := mul_le_mul_of_nonneg_left (hr i hi) (sub_nonneg.2 w1)
    linarith

/-- With a dominant diagonal, a vector whose residual is nowhere positive lies below the solution. -/
theorem below_solution {u : Nat → K} {rho : K} (h : WF A) (hS : Signs A) (hD : Dominant A u rho) {x y : Nat → K}
    (hr : Below A (A.multiply x) (A.multiply y)) : Below A x y := by
  by_contra hneg
  unfold Below at hneg
  push Not at hneg
  obtain ⟨k, hk, hlt⟩ := hneg
  obtain ⟨i, hi, hmax⟩ := exists_max_image (range A.m) (fun i => (x i - y i) / u i) ⟨k, mem_range.2 hk⟩
  have hi := mem_range.1 hi
  set M := (x i - y i) / u i with hM
  have M0 : 0 < M := (div_pos (sub_pos.2 hlt) (hD.pos k hk)).trans_le (hmax k (mem_range.2 hk))
  have ei : x i - y i = M * u i := (div_mul_cancel₀ _ (hD.pos i hi).ne').symm
  have hb : ∀ j < A.m, x j - y j ≤ M * u j := fun j hj => (div_le_iff₀ (hD.pos j hj)).1 (hmax j (mem_range.2 hj))
  have e1 := hr i hi
  rw [multiply_entry h x i hi, multiply_entry h y i hi, ← sub_nonpos, ← sum_sub_distrib] at e1
  rw [sum_congr rfl fun j _ => (mul_sub (entry A i j) (x j) (y j)).symm, ← add_sum_erase _ _ (mem_range.2 hi), ei] at e1
  have e2 : -(M * ∑ j ∈ (range A.m).erase i, |entry A i j| * u j) ≤ ∑ j ∈ (range A.m).erase i, entry A i j * (x j - y j) := by
    rw [mul_sum, ← sum_neg_distrib]
    refine sum_le_sum fun j hj => ?_
    obtain ⟨h1, h2⟩ := mem_erase.1 hj
    have o := hS.off i hi j (mem_range.1 h2) h1
    rw [abs_of_nonpos o]
    have := mul_le_mul_of_nonpos_left (hb j (mem_range.1 h2)) o
    linarith
  have e3 := mul_le_mul_of_nonneg_left (hD.row i hi) M0.le
  rw [abs_of_pos (hS.diag i hi)] at e3
  have e4 : 0 < M * (entry A i i * u i) := mul_pos M0 (mul_pos (hS.diag i hi) (hD.pos i hi))
  have e5 := mul_lt_mul_of_pos_left hD.less e4
  linarith

/-- Whole solves started from two vectors, one whose residual is nowhere positive and one whose residual is nowhere negative:
    after any number of sweeps they enclose the solution, and the enclosure only shrinks. -/
theorem C157_enclosure {u : Nat → K} {rho : K} (gs : Bool) (h : WF A) (hS : Signs A) (hD : Dominant A u rho) {ω : K}
    (w0 : 0 ≤ ω) (w1 : ω ≤ 1) {b y : Nat → K} (hy : Solves A b y) {x z : Nat → Nat → K} (hx : Iterates gs A ω b x)
    (hz : Iterates gs A ω b z) (rx : Below A (A.multiply (x 0)) b) (rz : Below A b (A.multiply (z 0))) (n : Nat) :
    Below A (x n) (x (n + 1)) ∧ Below A (x n) y ∧ Below A y (z n) ∧ Below A (z (n + 1)) (z n) := by
  have sx : ∀ n, Below A (A.multiply (x n)) b := fun n => by
    induction n with
    | zero => exact rx
    | succ n ih =>
      obtain ⟨t, e⟩ := hx n
      rw [e]
      exact (C157_rising gs h hS w0 w1 ih t).2
  have sz : ∀ n, Below A b (A.multiply (z n)) := fun n => by
    induction n with
    | zero => exact rz
    | succ n ih =>
      obtain ⟨t, e⟩ := hz n
      rw [e]
      exact (C157_falling gs h hS w0 w1 ih t).2
  obtain ⟨t, e⟩ := hx n
  obtain ⟨t', e'⟩ := hz n
  refine ⟨?_, ?_, ?_, ?_⟩
  · rw [e]
    exact (C157_rising gs h hS w0 w1 (sx n) t).1
  · exact below_solution h hS hD fun i hi => (sx n i hi).trans_eq (hy i hi).symm
  · exact below_solution h hS hD fun i hi => (hy i hi).trans_le (sz n i hi)
  · rw [e']
    exact (C157_falling gs h hS w0 w1 (sz n) t').1

/-- Signs from a positive vector made positive. -/
theorem signs_of_positive {w : Nat → K} (hw : ∀ i < A.m, 0 < w i)
    (off : ∀ i < A.m, ∀ j < A.m, j ≠ i → entry A i j ≤ 0) (row : ∀ i < A.m, 0 < ∑ j ∈ range A.m, entry A i j * w j) : Signs A := by
  refine ⟨fun i hi => ?_, off⟩
  have := row i hi
  rw [← add_sum_erase _ _ (mem_range.2 hi)] at this
  have n : ∑ j ∈ (range A.m).erase i, entry A i j * w j ≤ 0 := sum_nonpos fun j hj => by
    obtain ⟨h1, h2⟩ := mem_erase.1 hj
    exact mul_nonpos_of_nonpos_of_nonneg (off i hi j (mem_range.1 h2) h1) (hw j (mem_range.1 h2)).le
  exact pos_of_mul_pos_left (show 0 < entry A i i * w i by linarith) (hw i hi).le

end
end Detran.Solver

namespace Detran.Diffusion

open Finset Detran.Matrix
open Detran.Solver (Dominant Iterates Solves Signs Below)

section
variable {K : Type} [Field K] [LinearOrder K] [IsStrictOrderedRing K]
variable (S : FixedSrc K) (ok : S.OK) (hp : S.L.Pos) (srt : List (Trip K) → List (Trip K)) (hs : IsSort srt)
  (C : CSR K) (bs : List Bool) (hC : S.L.sys.make srt = .ok (some C, bs))

include ok hp hs hC

/-- Jacobi and Gauss-Seidel iteration on the diffusion system without negative sources: no iterate is negative if the first
    is not; started from zero, all fluxes rise with every sweep and never above the solution. -/
theorem C157_diffusion {u : Nat → K} (hW : S.L.Weak u) (gs : Bool) {ω : K} (w0 : 0 ≤ ω) (w1 : ω ≤ 1) {b y : Nat → K}
    (hb : ∀ p < S.L.unknowns, 0 ≤ b p) (hy : Solves C b y) {x : Nat → Nat → K} (hx : Iterates gs C ω b x) :
    ((∀ p < S.L.unknowns, 0 ≤ x 0 p) → ∀ n, ∀ p < S.L.unknowns, 0 ≤ x n p) ∧
    ((∀ p < S.L.unknowns, x 0 p = 0) → ∀ n, ∀ p < S.L.unknowns, x n p ≤ x (n + 1) p ∧ x n p ≤ y p) := by
  have wf := loss_wf S ok srt hs C bs hC
  have hm := loss_m S ok srt hs C bs hC
  obtain ⟨a1, a2, a3⟩ := loss_signs S ok hp srt hs C bs hC hW
  have sg := Solver.signs_of_positive a1 a2 a3
  obtain ⟨rho, hD⟩ := C156_dominant S ok hp srt hs C bs hC hW
  rw [← hm] at hb ⊢
  refine ⟨fun h0 n => ?_, fun h0 n p h => ?_⟩
  · induction n with
    | zero => exact h0
    | succ n ih =>
      obtain ⟨t, e⟩ := hx n
      rw [e]
      exact Solver.C157_positive gs wf sg w0 w1 hb ih t
  · have r0 : Below C (C.multiply (x 0)) b := fun i hi => by
      rw [Solver.multiply_entry wf _ i hi, sum_eq_zero fun j hj => by rw [h0 j (mem_range.1 hj), mul_zero]]
      exact hb i hi
    have hz : Iterates gs C ω b (fun n => Nat.rec y (fun _ v => Solver.sweepOf gs C ω b v v) n) := fun n => ⟨_, rfl⟩
    have k := Solver.C157_enclosure gs wf sg hD w0 w1 hy hx hz r0 (fun i hi => (hy i hi).ge) n
    exact ⟨k.1 p h, k.2.1 p h⟩

end

/-- A core of fuel and moderator, vacuum outside, Gauss-Seidel and Jacobi started from zero. -/
example (srt : List (Trip ℚ) → List (Trip ℚ)) (hs : IsSort srt) (gs : Bool) :
    let L := core ℚ (fun c => c % 2) 0
    ∃ C bs, L.sys.make srt = .ok (some C, bs) ∧ ∀ b y, (∀ p < L.unknowns, 0 ≤ b p) → Solves C b y → ∀ x, Iterates gs C (2 / 3) b x →
      (∀ p < L.unknowns, x 0 p = 0) → ∀ n, ∀ p < L.unknowns, x n p ≤ x (n + 1) p ∧ x n p ≤ y p := by
  intro L
  have sub := core_sub (K := ℚ) (fun c => c % 2) (fun c => Nat.mod_lt _ (by decide)) 0 (Or.inl rfl)
  have ok := fed_ok sub fun _ _ => 0
  obtain ⟨C, h1, -⟩ := rows L ok.op srt hs
  exact ⟨C, _, h1, fun b y hb hy x hx => (C157_diffusion _ ok sub.pos srt hs C _ h1 sub.weak gs (by norm_num) (by norm_num) hb hy hx).2⟩

end Detran.Diffusion
