import Verif.Lemmas.Gmres
import Mathlib.LinearAlgebra.Span.Basic
import Mathlib.Algebra.Module.LinearMap.Defs
import Mathlib.Tactic.Abel

/-! What one inner iteration of the GMRES model does. -/
namespace Detran.Gmres

open Finset Detran.Solver

variable {K E : Type} [Field K] [LinearOrder K] [IsStrictOrderedRing K]
  [AddCommGroup E] [Module K E]

/-- The Krylov space `span {r, f r, ..., f^(n-1) r}`. -/
def krylov (K : Type) {E : Type} [Field K] [AddCommGroup E] [Module K E] (f : E → E) (r : E) (n : Nat) :
    Submodule K E := Submodule.span K {w | ∃ j, j < n ∧ w = f^[j] r}

theorem krylov_mono (f : E → E) (r : E) {m n : Nat} (h : m ≤ n) : krylov K f r m ≤ krylov K f r n :=
  Submodule.span_mono fun _ ⟨j, hj, e⟩ => ⟨j, by omega, e⟩

theorem krylov_map {f : E → E} (hf : IsLinearMap K f) (r : E) {n : Nat} {w : E}
    (hw : w ∈ krylov K f r n) : f w ∈ krylov K f r (n + 1) := by
  have : krylov K f r n ≤ (krylov K f r (n + 1)).comap (hf.mk' f) := by
    refine Submodule.span_le.2 ?_
    rintro _ ⟨j, hj, rfl⟩
    refine Submodule.subset_span ⟨j + 1, by omega, ?_⟩
    rw [Function.iterate_succ_apply']; rfl
  exact this hw

/-- What holds of the data after `k` inner iterations. -/
structure Tri (dot : E → E → K) (f : E → E) (r0 : E) (z : Cyc K E) (k : Nat) : Prop where
  rot : ∀ i, i < k → z.c i * z.c i + z.s i * z.s i = 1
  diag : ∀ j, j < k → z.H j j ≠ 0
  rep : ∀ j, j < k → f (z.v j) = ∑ i ∈ range (j + 1), z.H i j • qf z.v z.c z.s i
  rhs : r0 = ∑ i ∈ range k, z.g i • qf z.v z.c z.s i + z.g k • qc z.v z.c z.s k
  gz : ∀ i, k < i → z.g i = 0
  qq : ∀ i j, i < k → j < k → dot (qf z.v z.c z.s i) (qf z.v z.c z.s j) = if i = j then 1 else 0
  qz : ∀ i, i < k → dot (qf z.v z.c z.s i) (qc z.v z.c z.s k) = 0
  qn : z.g k * z.g k * dot (qc z.v z.c z.s k) (qc z.v z.c z.s k) = z.g k * z.g k
  kry : ∀ i, i < k → z.v i ∈ krylov K f r0 (i + 1)
  base : ∃ t : K, r0 = t • z.v 0

/-- ... and when there is a next Krylov vector. -/
structure Inv (dot : E → E → K) (f : E → E) (r0 : E) (z : Cyc K E) (k : Nat) : Prop
    extends Tri dot f r0 z k where
  orth : Ortho dot z.v (k + 1)
  kryk : z.v k ∈ krylov K f r0 (k + 1)

theorem lin_sum {f : E → E} (hf : IsLinearMap K f) (s : Finset Nat) (w : Nat → E) :
    f (∑ i ∈ s, w i) = ∑ i ∈ s, f (w i) := map_sum (hf.mk' f) w s

/-- The image of a combination of the Krylov vectors. -/
theorem Tri.comb {dot : E → E → K} {f : E → E} (hf : IsLinearMap K f) {r0 : E} {z : Cyc K E} {k : Nat}
    (h : Tri dot f r0 z k) (y : Nat → K) :
    f (∑ j ∈ range k, y j • z.v j) =
      ∑ i ∈ range k, (∑ j ∈ Ico i k, z.H i j * y j) • qf z.v z.c z.s i := by
  rw [lin_sum hf]
  calc ∑ j ∈ range k, f (y j • z.v j)
      = ∑ j ∈ range k, ∑ i ∈ range (j + 1), (z.H i j * y j) • qf z.v z.c z.s i := by
        refine Finset.sum_congr rfl fun j hj => ?_
        rw [hf.map_smul, h.rep j (Finset.mem_range.1 hj), Finset.smul_sum]
        refine Finset.sum_congr rfl fun i _ => ?_
        rw [smul_smul, mul_comm]
    _ = ∑ i ∈ range k, ∑ j ∈ Ico i k, (z.H i j * y j) • qf z.v z.c z.s i := by
        refine Finset.sum_comm' fun j i => ?_
        simp only [Finset.mem_range, Finset.mem_Ico]
        omega
    _ = _ := by
        refine Finset.sum_congr rfl fun i _ => ?_
        rw [Finset.sum_smul]

/-- The residual of any combination, in the rotated basis. -/
theorem Tri.resid {dot : E → E → K} {f : E → E} (hf : IsLinearMap K f) {r0 : E} {z : Cyc K E} {k : Nat}
    (h : Tri dot f r0 z k) (y : Nat → K) :
    r0 - f (∑ j ∈ range k, y j • z.v j) =
      ∑ i ∈ range k, (z.g i - ∑ j ∈ Ico i k, z.H i j * y j) • qf z.v z.c z.s i +
        z.g k • qc z.v z.c z.s k := by
  rw [h.comb hf]
  conv_lhs => rw [h.rhs]
  simp only [sub_smul, Finset.sum_sub_distrib]
  abel

/-- Pythagoras in the rotated basis. -/
theorem Tri.norm {dot : E → E → K} (hd : IsDot dot) {f : E → E} {r0 : E} {z : Cyc K E} {k : Nat}
    (h : Tri dot f r0 z k) (a : Nat → K) :
    dot (∑ i ∈ range k, a i • qf z.v z.c z.s i + z.g k • qc z.v z.c z.s k)
      (∑ i ∈ range k, a i • qf z.v z.c z.s i + z.g k • qc z.v z.c z.s k) =
      ∑ i ∈ range k, a i * a i + z.g k * z.g k := by
  have e1 : ∀ j, j < k → dot (∑ i ∈ range k, a i • qf z.v z.c z.s i) (qf z.v z.c z.s j) = a j := by
    intro j hj
    rw [hd.sum, Finset.sum_eq_single j]
    · rw [hd.smul, h.qq j j hj hj]; simp
    · intro i hi hne
      rw [hd.smul, h.qq i j (Finset.mem_range.1 hi) hj, if_neg hne, mul_zero]
    · intro hn; exact absurd (Finset.mem_range.2 hj) hn
  have e2 : dot (∑ i ∈ range k, a i • qf z.v z.c z.s i) (qc z.v z.c z.s k) = 0 := by
    rw [hd.sum]
    refine Finset.sum_eq_zero fun i hi => ?_
    rw [hd.smul, h.qz i (Finset.mem_range.1 hi), mul_zero]
  have e3 : dot (∑ i ∈ range k, a i • qf z.v z.c z.s i) (∑ i ∈ range k, a i • qf z.v z.c z.s i) =
      ∑ i ∈ range k, a i * a i := by
    rw [hd.comm, hd.sum]
    refine Finset.sum_congr rfl fun i hi => ?_
    rw [hd.smul, hd.comm, e1 i (Finset.mem_range.1 hi)]
  rw [hd.add, hd.add', hd.add', e3, hd.smul', e2, hd.smul, hd.comm, e2, hd.smul, hd.smul', ← mul_assoc,
    h.qn]
  ring

theorem ortho_qc {dot : E → E → K} (hd : IsDot dot) {v : Nat → E} {n : Nat} (ho : Ortho dot v n)
    (c s : Nat → K) (i j : Nat) (hij : i < j) (hj : j < n) : dot (qc v c s i) (v j) = 0 := by
  induction i with
  | zero => rw [qc, ho 0 j (by omega) hj, if_neg (by omega)]
  | succ i ih =>
    rw [qc, hd.add, hd.smul, hd.smul, ih (by omega), ho (i + 1) j (by omega) hj, if_neg (by omega)]
    simp

theorem qc_norm {dot : E → E → K} (hd : IsDot dot) {v : Nat → E} {n : Nat} (ho : Ortho dot v n)
    (c s : Nat → K) (i : Nat) (hi : i < n) (hr : ∀ j, j < i → c j * c j + s j * s j = 1) :
    dot (qc v c s i) (qc v c s i) = 1 := by
  induction i with
  | zero => rw [qc, ho 0 0 hi hi]; simp
  | succ i ih =>
    have h1 := ih (by omega) (fun j hj => hr j (by omega))
    have h2 := ortho_qc hd ho c s i (i + 1) (by omega) hi
    have h3 := ho (i + 1) (i + 1) hi hi
    rw [if_pos rfl] at h3
    simp only [qc, hd.add, hd.add', hd.smul, hd.smul']
    rw [h1, h2, hd.comm (v (i + 1)), h2, h3]
    linear_combination hr i (by omega)

/-- Membership of the rotated vectors in the Krylov spaces. -/
theorem qc_mem (v : Nat → E) (c s : Nat → K) (W : Submodule K E) (k : Nat) (h : ∀ i, i ≤ k → v i ∈ W) :
    qc v c s k ∈ W := by
  induction k with
  | zero => exact h 0 le_rfl
  | succ k ih =>
    exact W.add_mem (W.smul_mem _ (ih fun i hi => h i (by omega))) (W.smul_mem _ (h _ le_rfl))

/-- One inner iteration. -/
theorem step_spec {dot : E → E → K} (hd : IsDot dot) {sq : K → K} (hsq : IsSqrt sq) (re : Nat)
    {S : Sys E} (hf : IsLinearMap K (op S)) (hinj : ∀ w, op S w = 0 → w = 0) {r0 : E} {z : Cyc K E}
    {k : Nat} (hI : Inv dot (op S) r0 z k) :
    ∃ z', step S dot sq re z k = some z' ∧ Tri dot (op S) r0 z' (k + 1) ∧
      (z'.g (k + 1) ≠ 0 → Inv dot (op S) r0 z' (k + 1)) ∧
      z'.g (k + 1) * z'.g (k + 1) ≤ z.g k * z.g k := by
  obtain ⟨hT, ho, hkk⟩ := hI
  obtain ⟨a1, a2, a3⟩ := ortho_spec hd sq re ho (op S (z.v k)) (fun i => z.H i k)
  generalize hp : ortho dot sq re z.v k (op S (z.v k)) (fun i => z.H i k) = p at a1 a2 a3
  obtain ⟨g1, g2⟩ := givens_aux z.v z.c z.s p.2 k hT.rot
  have hh : (if k > 0 then givens z.c z.s k p.2 else p.2) = givens z.c z.s k p.2 := by
    split
    · rfl
    · have : k = 0 := by omega
      subst this; simp [givens]
  generalize hgv : givens z.c z.s k p.2 = h at g1 g2 hh
  have hk1 : h (k + 1) = p.2 (k + 1) := g2 _ (by omega)
  have hww : 0 ≤ dot p.1 p.1 := hd.nonneg _
  -- the rotation is defined
  have hsum0 : 0 ≤ h k * h k + h (k + 1) * h (k + 1) :=
    add_nonneg (mul_self_nonneg _) (mul_self_nonneg _)
  obtain ⟨n0, n1⟩ := hsq _ hsum0
  have hnu : sq (h k * h k + h (k + 1) * h (k + 1)) ≠ 0 := by
    intro hz
    have hz' := hsq.eq_zero hsum0 hz
    have hk0 : h k = 0 := by
      have := mul_self_nonneg (h k); have := mul_self_nonneg (h (k + 1))
      exact mul_self_eq_zero.1 (by linarith)
    have hk10 : h (k + 1) = 0 := by
      have := mul_self_nonneg (h k); have := mul_self_nonneg (h (k + 1))
      exact mul_self_eq_zero.1 (by linarith)
    have hw0 : p.1 = 0 := hd.eq_zero (hsq.eq_zero hww (by rw [← a3, ← hk1, hk10]))
    have e1 : op S (z.v k) = ∑ i ∈ range k, h i • qf z.v z.c z.s i := by
      rw [a1, hw0, zero_add, g1, hk0, zero_smul, add_zero]
    have e2 : op S (∑ j ∈ range k, computeY z.H h k (fun _ => 0) j • z.v j) =
        ∑ i ∈ range k, h i • qf z.v z.c z.s i := by
      rw [hT.comb hf]
      refine Finset.sum_congr rfl fun i hi => ?_
      rw [computeY_spec _ _ _ _ hT.diag i (Finset.mem_range.1 hi)]
    have e3 : z.v k = ∑ j ∈ range k, computeY z.H h k (fun _ => 0) j • z.v j := by
      have := hinj (z.v k - ∑ j ∈ range k, computeY z.H h k (fun _ => 0) j • z.v j)
        (by rw [hf.map_sub, e1, e2, sub_self])
      exact sub_eq_zero.1 this
    have e4 : dot (z.v k) (z.v k) = 0 := by
      have e5 : dot (∑ j ∈ range k, computeY z.H h k (fun _ => 0) j • z.v j) (z.v k) = 0 := by
        rw [hd.sum]
        refine Finset.sum_eq_zero fun j hj => ?_
        have := Finset.mem_range.1 hj
        rw [hd.smul, ho j k (by omega) (by omega), if_neg (by omega), mul_zero]
      rwa [← e3] at e5
    rw [ho k k (by omega) (by omega)] at e4
    simp at e4
  generalize hnudef : sq (h k * h k + h (k + 1) * h (k + 1)) = nu at n0 n1 hnu
  generalize hc : h k / nu = c
  generalize hs : -h (k + 1) / nu = s
  have hck : c * nu = h k := by rw [← hc]; field_simp
  have hsk : s * nu = -h (k + 1) := by rw [← hs]; field_simp
  have hcs : c * c + s * s = 1 := by
    have : (c * c + s * s) * (nu * nu) = 1 * (nu * nu) := by
      rw [one_mul]; conv_rhs => rw [n1]
      linear_combination (c * nu + h k) * hck + (s * nu - h (k + 1)) * hsk
    exact mul_right_cancel₀ (mul_ne_zero hnu hnu) this
  have hR : c * h k - s * h (k + 1) = nu := by
    have : (c * h k - s * h (k + 1)) * nu = nu * nu := by
      rw [n1]; linear_combination h k * hck - h (k + 1) * hsk
    exact mul_right_cancel₀ hnu this
  have hS0 : s * h k + c * h (k + 1) = 0 := by
    have : (s * h k + c * h (k + 1)) * nu = 0 * nu := by
      linear_combination h k * hsk + h (k + 1) * hck
    exact mul_right_cancel₀ hnu this
  -- the new vector
  generalize hwdef : (if p.2 (k + 1) ≠ 0 then (1 / p.2 (k + 1)) • p.1 else p.1) = w
  have hw1 : p.1 = h (k + 1) • w := by
    rw [← hwdef, hk1]
    by_cases h0 : p.2 (k + 1) = 0
    · rw [if_neg (by simpa using h0), h0, zero_smul]
      exact hd.eq_zero (hsq.eq_zero hww (by rw [← a3, h0]))
    · rw [if_pos h0, smul_smul]
      field_simp
      simp
  have hw2 : ∀ j, j < k + 1 → dot w (z.v j) = 0 := by
    intro j hj
    rw [← hwdef]
    split
    · rw [hd.smul, a2 j hj, mul_zero]
    · exact a2 j hj
  have hw3 : h (k + 1) ≠ 0 → dot w w = 1 := by
    intro h0
    have := (hsq _ hww).2
    rw [← a3, ← hk1] at this
    rw [hw1, hd.smul, hd.smul'] at this
    have h2 : h (k + 1) * h (k + 1) ≠ 0 := mul_ne_zero h0 h0
    have : h (k + 1) * h (k + 1) * dot w w = h (k + 1) * h (k + 1) * 1 := by
      linear_combination -this
    exact mul_left_cancel₀ h2 this
  have hw4 : h (k + 1) = 0 → w = 0 := by
    intro h0
    rw [← hwdef, if_neg (by rw [← hk1]; simpa using h0), hw1, h0, zero_smul]
  -- the step
  generalize hh'def : set (set h k (c * h k - s * h (k + 1))) (k + 1) 0 = h'
  let z' : Cyc K E :=
    { v := set z.v (k + 1) w
      H := fun i j => if j = k then h' i else z.H i j
      c := set z.c k c
      s := set z.s k s
      g := set (set z.g k (c * z.g k - s * z.g (k + 1))) (k + 1) (s * z.g k + c * z.g (k + 1)) }
  have hstep : step S dot sq re z k = some z' := by
    unfold step
    simp only [hp, hgv, hh, hnudef, hc, hs, hwdef, hh'def, if_neg hnu]
    rfl
  have hgk1 : z.g (k + 1) = 0 := hT.gz _ (by omega)
  have hqc : ∀ i, i ≤ k → qc z'.v z'.c z'.s i = qc z.v z.c z.s i := fun i hi =>
    qc_congr i (fun j hj => set_ne _ _ (by omega)) (fun j hj => set_ne _ _ (by omega))
      (fun j hj => set_ne _ _ (by omega))
  have hqf : ∀ i, i < k → qf z'.v z'.c z'.s i = qf z.v z.c z.s i := fun i hi =>
    qf_congr i (fun j hj => set_ne _ _ (by omega)) (fun j hj => set_ne _ _ (by omega))
      (fun j hj => set_ne _ _ (by omega))
  have hqfk : qf z'.v z'.c z'.s k = c • qc z.v z.c z.s k - s • w := by
    unfold qf
    rw [hqc k le_rfl]
    simp [z']
  have hqck : qc z'.v z'.c z'.s (k + 1) = s • qc z.v z.c z.s k + c • w := by
    simp only [qc]
    rw [hqc k le_rfl]
    simp [z']
  have hgk : z'.g k = c * z.g k := by
    simp only [z']
    rw [set_ne _ _ (by omega), set_same, hgk1]; ring
  have hgk' : z'.g (k + 1) = s * z.g k := by
    simp only [z']
    rw [set_same, hgk1]; ring
  have hgi : ∀ i, i < k → z'.g i = z.g i := by
    intro i hi
    simp only [z']
    rw [set_ne _ _ (by omega), set_ne _ _ (by omega)]
  -- geometry of the rotated basis
  have b1 : dot (qc z.v z.c z.s k) (qc z.v z.c z.s k) = 1 := qc_norm hd ho _ _ k (by omega) hT.rot
  have b2 : ∀ i, i ≤ k → dot (qc z.v z.c z.s i) w = 0 := by
    intro i hi
    clear hqf hqc
    induction i with
    | zero => rw [qc, hd.comm]; exact hw2 0 (by omega)
    | succ i ih =>
      rw [qc, hd.add, hd.smul, hd.smul, ih (by omega), hd.comm (z.v (i + 1)), hw2 (i + 1) (by omega)]
      simp
  have b3 : ∀ i, i < k → dot (qf z.v z.c z.s i) w = 0 := by
    intro i hi
    rw [qf, hd.sub, hd.smul, hd.smul, b2 i (by omega), hd.comm (z.v (i + 1)), hw2 (i + 1) (by omega)]
    simp
  have hsw : s * s * dot w w = s * s := by
    by_cases h0 : h (k + 1) = 0
    · have : s = 0 := by rw [← hs, h0]; simp
      rw [this]; simp
    · rw [hw3 h0, mul_one]
  have hscw : s * c * dot w w = s * c := by
    by_cases h0 : h (k + 1) = 0
    · have : s = 0 := by rw [← hs, h0]; simp
      rw [this]; simp
    · rw [hw3 h0, mul_one]
  have hsccw : s * s * (c * c) * dot w w = s * s * (c * c) := by
    linear_combination s * c * hscw
  have hTri : Tri dot (op S) r0 z' (k + 1) := by
    refine ⟨?_, ?_, ?_, ?_, ?_, ?_, ?_, ?_, ?_, ?_⟩
    · intro i hi
      by_cases hik : i = k
      · subst hik; simp only [z', set_same]; exact hcs
      · simp only [z']
        rw [set_ne _ _ hik, set_ne _ _ hik]
        exact hT.rot i (by omega)
    · intro j hj
      by_cases hjk : j = k
      · subst hjk
        simp only [z', if_true]
        rw [← hh'def, set_ne _ _ (by omega), set_same, hR]
        exact hnu
      · simp only [z', if_neg hjk]
        exact hT.diag j (by omega)
    · intro j hj
      by_cases hjk : j = k
      · subst hjk
        have hv : z'.v j = z.v j := set_ne _ _ (by omega)
        rw [hv, Finset.sum_range_succ]
        have hHj : z'.H j j = nu := by
          simp only [z', if_true]
          rw [← hh'def, set_ne _ _ (by omega), set_same, hR]
        have hHi : ∀ i, i < j → z'.H i j = h i := by
          intro i hi
          simp only [z', if_true]
          rw [← hh'def, set_ne _ _ (by omega), set_ne _ _ (by omega)]
        have : ∑ i ∈ range j, z'.H i j • qf z'.v z'.c z'.s i =
            ∑ i ∈ range j, h i • qf z.v z.c z.s i := by
          refine Finset.sum_congr rfl fun i hi => ?_
          rw [hHi i (Finset.mem_range.1 hi), hqf i (Finset.mem_range.1 hi)]
        rw [this, hHj, hqfk, a1, g1, hw1]
        have hrot := rot_eq hcs (h j) (h (j + 1)) (qc z.v z.c z.s j) w
        rw [hR, hS0, zero_smul, add_zero] at hrot
        rw [← hrot]
        abel
      · have hv : z'.v j = z.v j := set_ne _ _ (by omega)
        rw [hv, hT.rep j (by omega)]
        refine Finset.sum_congr rfl fun i hi => ?_
        have := Finset.mem_range.1 hi
        rw [hqf i (by omega)]
        simp only [z', if_neg hjk]
    · rw [Finset.sum_range_succ, hgk, hgk', hqfk, hqck]
      have : ∑ i ∈ range k, z'.g i • qf z'.v z'.c z'.s i = ∑ i ∈ range k, z.g i • qf z.v z.c z.s i := by
        refine Finset.sum_congr rfl fun i hi => ?_
        rw [hgi i (Finset.mem_range.1 hi), hqf i (Finset.mem_range.1 hi)]
      rw [this]
      have hrot := rot_eq hcs (z.g k) 0 (qc z.v z.c z.s k) w
      rw [zero_smul, add_zero, mul_zero, mul_zero, sub_zero, add_zero] at hrot
      conv_lhs => rw [hT.rhs, hrot]
      abel
    · intro i hi
      simp only [z']
      rw [set_ne _ _ (by omega), set_ne _ _ (by omega)]
      exact hT.gz i (by omega)
    · have d1 : ∀ i, i < k → dot (qf z.v z.c z.s i) (c • qc z.v z.c z.s k - s • w) = 0 := by
        intro i hi
        rw [hd.sub', hd.smul', hd.smul', hT.qz i hi, b3 i hi]; simp
      have d2 : dot (c • qc z.v z.c z.s k - s • w) (c • qc z.v z.c z.s k - s • w) = 1 := by
        simp only [hd.sub, hd.sub', hd.smul, hd.smul']
        rw [b1, b2 k le_rfl, hd.comm w, b2 k le_rfl]
        linear_combination hcs + hsw
      intro i j hi hj
      by_cases hik : i = k
      · subst hik
        by_cases hjk : j = i
        · subst hjk; rw [hqfk, d2]; simp
        · rw [hqfk, hqf j (by omega), hd.comm, d1 j (by omega), if_neg (Ne.symm hjk)]
      · by_cases hjk : j = k
        · subst hjk
          rw [hqfk, hqf i (by omega), d1 i (by omega), if_neg hik]
        · rw [hqf i (by omega), hqf j (by omega)]
          exact hT.qq i j (by omega) (by omega)
    · intro i hi
      rw [hqck]
      by_cases hik : i = k
      · subst hik
        rw [hqfk]
        simp only [hd.sub, hd.add', hd.smul, hd.smul']
        rw [b1, b2 i le_rfl, hd.comm w, b2 i le_rfl]
        linear_combination -hscw
      · rw [hqf i (by omega), hd.add', hd.smul', hd.smul', hT.qz i (by omega), b3 i (by omega)]
        simp
    · rw [hgk', hqck]
      simp only [hd.add, hd.add', hd.smul, hd.smul']
      rw [b1, b2 k le_rfl, hd.comm w, b2 k le_rfl]
      linear_combination (z.g k * z.g k) * hsccw + (z.g k * z.g k * s * s) * hcs
    · intro i hi
      have hv : z'.v i = z.v i := set_ne _ _ (by omega)
      rw [hv]
      by_cases hik : i = k
      · subst hik; exact hkk
      · exact hT.kry i (by omega)
    · obtain ⟨t, ht⟩ := hT.base
      have hv : z'.v 0 = z.v 0 := by simp [z', set]
      exact ⟨t, by rw [hv]; exact ht⟩
  refine ⟨z', hstep, hTri, ?_, ?_⟩
  · intro hne
    have hk0 : h (k + 1) ≠ 0 := by
      intro h0
      refine hne ?_
      rw [hgk', ← hs, h0]; simp
    have hvk : z'.v (k + 1) = w := by simp [z']
    refine ⟨hTri, ?_, ?_⟩
    · intro i j hi hj
      by_cases hik : i = k + 1
      · by_cases hjk : j = k + 1
        · rw [hik, hjk, hvk, hw3 hk0]; simp
        · have : z'.v j = z.v j := set_ne _ _ (by omega)
          rw [hik, hvk, this, hw2 j (by omega), if_neg (Ne.symm hjk)]
      · have hvi : z'.v i = z.v i := set_ne _ _ (by omega)
        by_cases hjk : j = k + 1
        · rw [hjk, hvk, hvi, hd.comm, hw2 i (by omega), if_neg hik]
        · have : z'.v j = z.v j := set_ne _ _ (by omega)
          rw [hvi, this]
          exact ho i j (by omega) (by omega)
    · rw [hvk]
      have hmem : ∀ i, i < k + 1 → z.v i ∈ krylov K (op S) r0 (k + 1 + 1) := by
        intro i hi
        by_cases hik : i = k
        · subst hik; exact krylov_mono _ _ (by omega) hkk
        · exact krylov_mono _ _ (by omega) (hT.kry i (by omega))
      have hp1 : p.1 ∈ krylov K (op S) r0 (k + 1 + 1) := by
        have : p.1 = op S (z.v k) - ∑ i ∈ range (k + 1), p.2 i • z.v i := by
          conv_rhs => rw [a1]
          abel
        rw [this]
        refine Submodule.sub_mem _ (krylov_map hf _ hkk) (Submodule.sum_mem _ fun i hi => ?_)
        exact Submodule.smul_mem _ _ (hmem i (Finset.mem_range.1 hi))
      have : w = (1 / h (k + 1)) • p.1 := by
        rw [hw1, smul_smul]; field_simp; simp
      rw [this]
      exact Submodule.smul_mem _ _ hp1
  · rw [hgk']
    have h1 : s * s ≤ 1 := by linarith [mul_self_nonneg c]
    have h2 := mul_self_nonneg (z.g k)
    nlinarith

end Detran.Gmres
