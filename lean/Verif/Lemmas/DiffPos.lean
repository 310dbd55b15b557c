import Verif.Props.DiffSolve

/-!
# Signs of the solutions of the diffusion equations (for C131 and C132)
-/

namespace Detran.Diffusion

open Detran.Matrix Finset

variable {K : Type} [Field K] [LinearOrder K] [IsStrictOrderedRing K]

/-- Everything that comes into group `g` from a flux in group `gp`: scattering, and fission over `k` if it is in the
    operator. -/
def Loss.inXs (D : Loss K) (g gp c : Nat) : K :=
  (if D.sf = 0 then D.scatXs g gp c else 0) + (if D.fission = true ∧ D.sf = 0 then D.fisXs g gp c / D.keff else 0)

theorem local_eq (D : Loss K) (x : Nat → K) (g c : Nat) : D.local x g c =
    D.mat.sigT g (D.mmap c) * x (D.pos g c) - ∑ gp ∈ D.active, D.inXs g gp c * x (D.pos gp c) := by
  unfold Loss.local Loss.inXs
  simp only [add_mul, sum_add_distrib, ite_mul, zero_mul]
  by_cases h0 : D.sf = 0
  · by_cases h1 : D.fission = true
    · simp only [h0, h1, and_self, if_true]
      rw [sum_div, ← sub_sub]
      congr 1
      exact sum_congr rfl fun gp _ => by ring
    · simp only [h0, h1, and_true, if_true]
      simp
  · simp [h0]

/-- What is asked of the coupling: nothing negative comes in, and weights `u` of the groups exist with which less
    comes in than is removed. -/
structure Loss.Weak (D : Loss K) (u : Nat → K) : Prop where
  upos : ∀ g ∈ D.active, 0 < u g
  nn : ∀ g ∈ D.active, ∀ gp ∈ D.active, ∀ c < D.M.size, 0 ≤ D.inXs g gp c
  row : ∀ g ∈ D.active, ∀ c < D.M.size, ∑ gp ∈ D.active, D.inXs g gp c * u gp < D.mat.sigT g (D.mmap c) * u g

theorem neighbour_lt (M : Grid K) {c leak : Nat} (hc : c < M.size) (hl : leak < 6) (h : M.onBoundary c leak = false) :
    M.neighbour c leak < M.size := (neighbour_spec M hc hl h).1

/-- The left hand side of the equations. -/
def Loss.lhs (D : Loss K) (x : Nat → K) (g c : Nat) : K :=
  (∑ leak ∈ range 6, D.faceTerm g (fun c => x (D.pos g c)) c leak / D.M.width c (leak / 2)) + D.local x g c

/-- If the left hand side is nowhere negative, nor is the flux. -/
theorem lhs_nonneg (D : Loss K) (hp : D.Pos) {u : Nat → K} (hW : D.Weak u) (x : Nat → K)
    (hx : ∀ g ∈ D.active, ∀ c < D.M.size, 0 ≤ D.lhs x g c) : ∀ g ∈ D.active, ∀ c < D.M.size, 0 ≤ x (D.pos g c) := by
  by_contra hneg
  push Not at hneg
  obtain ⟨g0, hg0, c0, hc0, hlt⟩ := hneg
  obtain ⟨⟨g, c⟩, hm, hmin⟩ := exists_min_image (D.active ×ˢ range D.M.size) (fun p => x (D.pos p.1 p.2) / u p.1)
    ⟨(g0, c0), mem_product.2 ⟨hg0, mem_range.2 hc0⟩⟩
  obtain ⟨hg, hc⟩ := mem_product.1 hm
  have hc := mem_range.1 hc
  dsimp only at hg hc hmin
  set r := x (D.pos g c) / u g with hr
  have hr0 : r < 0 := lt_of_le_of_lt (hmin (g0, c0) (mem_product.2 ⟨hg0, mem_range.2 hc0⟩)) (div_neg_of_neg_of_pos hlt (hW.upos g0 hg0))
  have le : ∀ gp ∈ D.active, ∀ c' < D.M.size, r * u gp ≤ x (D.pos gp c') := fun gp hgp c' hc' =>
    (le_div_iff₀ (hW.upos gp hgp)).1 (hmin (gp, c') (mem_product.2 ⟨hgp, mem_range.2 hc'⟩))
  have ex : x (D.pos g c) = r * u g := by rw [hr, div_mul_cancel₀ _ (hW.upos g hg).ne']
  have hxneg : x (D.pos g c) < 0 := by rw [ex]; exact mul_neg_of_neg_of_pos hr0 (hW.upos g hg)
  have cur : ∑ leak ∈ range 6, D.faceTerm g (fun c => x (D.pos g c)) c leak / D.M.width c (leak / 2) ≤ 0 := by
    refine sum_nonpos fun leak hl => div_nonpos_of_nonpos_of_nonneg ?_ (hp.h _ _).le
    unfold Loss.faceTerm
    have hd := dtilde_nonneg D hp g c leak
    by_cases hb : D.M.onBoundary c leak = true
    · rw [if_pos hb]
      exact mul_nonpos_of_nonneg_of_nonpos hd hxneg.le
    · rw [if_neg hb]
      refine mul_nonpos_of_nonneg_of_nonpos hd ?_
      dsimp only
      have := le g hg (D.M.neighbour c leak) (neighbour_lt D.M hc (mem_range.1 hl) (by simpa using hb))
      rw [ex]
      linarith
  have inc : ∑ gp ∈ D.active, D.inXs g gp c * (r * u gp) ≤ ∑ gp ∈ D.active, D.inXs g gp c * x (D.pos gp c) :=
    sum_le_sum fun gp hgp => mul_le_mul_of_nonneg_left (le gp hgp c hc) (hW.nn g hg gp hgp c hc)
  have e1 : ∑ gp ∈ D.active, D.inXs g gp c * (r * u gp) = r * ∑ gp ∈ D.active, D.inXs g gp c * u gp := by
    rw [mul_sum]
    exact sum_congr rfl fun _ _ => by ring
  have e2 := mul_lt_mul_of_neg_left (hW.row g hg c hc) hr0
  have e3 := hx g hg c hc
  unfold Loss.lhs at e3
  rw [local_eq, ex] at e3
  linarith

theorem faceTerm_sub (D : Loss K) (g : Nat) (x y : Nat → K) (c leak : Nat) :
    D.faceTerm g (fun c => x c - y c) c leak = D.faceTerm g x c leak - D.faceTerm g y c leak := by
  unfold Loss.faceTerm
  split <;> ring

theorem lhs_sub (D : Loss K) (x y : Nat → K) (g c : Nat) :
    D.lhs (fun p => x p - y p) g c = D.lhs x g c - D.lhs y g c := by
  unfold Loss.lhs
  rw [local_eq, local_eq, local_eq]
  have e1 : ∑ leak ∈ range 6, D.faceTerm g (fun c => x (D.pos g c) - y (D.pos g c)) c leak / D.M.width c (leak / 2) =
      ∑ leak ∈ range 6, D.faceTerm g (fun c => x (D.pos g c)) c leak / D.M.width c (leak / 2) -
      ∑ leak ∈ range 6, D.faceTerm g (fun c => y (D.pos g c)) c leak / D.M.width c (leak / 2) := by
    rw [← sum_sub_distrib]
    exact sum_congr rfl fun l _ => by
      rw [← sub_div]
      congr 1
      exact faceTerm_sub D g (fun c => x (D.pos g c)) (fun c => y (D.pos g c)) c l
  have e2 : ∑ gp ∈ D.active, D.inXs g gp c * (x (D.pos gp c) - y (D.pos gp c)) =
      ∑ gp ∈ D.active, D.inXs g gp c * x (D.pos gp c) - ∑ gp ∈ D.active, D.inXs g gp c * y (D.pos gp c) := by
    rw [← sum_sub_distrib]
    exact sum_congr rfl fun _ _ => by ring
  rw [e1, e2]
  ring

theorem lhs_mono (D : Loss K) (hp : D.Pos) {u : Nat → K} (hW : D.Weak u) (x y : Nat → K)
    (h : ∀ g ∈ D.active, ∀ c < D.M.size, D.lhs x g c ≤ D.lhs y g c) :
    ∀ g ∈ D.active, ∀ c < D.M.size, x (D.pos g c) ≤ y (D.pos g c) := by
  have := lhs_nonneg D hp hW (fun p => y p - x p) fun g hg c hc => by
    rw [lhs_sub]
    exact sub_nonneg.2 (h g hg c hc)
  exact fun g hg c hc => sub_nonneg.1 (this g hg c hc)

/-- Currents of a flat flux leave through the boundary only. -/
theorem lhs_flat (D : Loss K) (v : Nat → K) (x : Nat → K) (hx : ∀ g ∈ D.active, ∀ c < D.M.size, x (D.pos g c) = v g)
    {g c : Nat} (hg : g ∈ D.active) (hc : c < D.M.size) :
    D.lhs x g c = (∑ leak ∈ range 6, if D.M.onBoundary c leak then D.dtilde g c leak * v g / D.M.width c (leak / 2) else 0) +
      (D.mat.sigT g (D.mmap c) * v g - ∑ gp ∈ D.active, D.inXs g gp c * v gp) := by
  unfold Loss.lhs
  rw [local_eq, hx g hg c hc]
  congr 1
  · refine sum_congr rfl fun leak hl => ?_
    unfold Loss.faceTerm
    by_cases hb : D.M.onBoundary c leak = true
    · rw [if_pos hb, if_pos hb]
      dsimp only
      rw [hx g hg c hc]
    · rw [if_neg hb, if_neg hb]
      dsimp only
      rw [hx g hg c hc, hx g hg _ (neighbour_lt D.M hc (mem_range.1 hl) (by simpa using hb)), sub_self, mul_zero, zero_div]
  · congr 1
    exact sum_congr rfl fun gp hgp => by rw [hx gp hgp c hc]

end Detran.Diffusion
