import Verif.Props.KeffDiff
import Verif.Props.Refine

/-!
# Diffusion in slabs: the equations of a mesh and the differential equation (for C138, C139)
-/

namespace Detran.Diffusion

open Finset

section slab
variable {K : Type} [Field K]

/-- Net current out of cell `c` through its lower side, as the mesh has it. -/
def Loss.low (L : Loss K) (g : Nat) (f : Nat → K) (c : Nat) : K :=
  if c = 0 then dBoundary (L.dc g c) (L.al 0) (L.M.h 0 c) * f c
  else dInterior (L.dc g c) (L.dc g (c - 1)) (L.M.h 0 c) (L.M.h 0 (c - 1)) * (f c - f (c - 1))

/-- And through its upper side. -/
def Loss.high (L : Loss K) (g : Nat) (f : Nat → K) (c : Nat) : K :=
  if c + 1 = L.M.nx then dBoundary (L.dc g c) (L.al 1) (L.M.h 0 c) * f c
  else dInterior (L.dc g c) (L.dc g (c + 1)) (L.M.h 0 c) (L.M.h 0 (c + 1)) * (f c - f (c + 1))

/-- A mesh of a slab. -/
structure Loss.Line (L : Loss K) : Prop where
  dim : L.M.dim = 1
  wf : L.M.WF
  flat : ∀ leak, 2 ≤ leak → leak < 6 → L.al leak = 1

variable {L : Loss K}

theorem Loss.Line.ny (h : L.Line) : L.M.ny = 1 := h.wf.flat 1 (by rw [h.dim]) (by decide)

theorem Loss.Line.nz (h : L.Line) : L.M.nz = 1 := h.wf.flat 2 (by rw [h.dim]; decide) (by decide)

theorem Loss.Line.size (h : L.Line) : L.M.size = L.M.nx := by
  unfold Grid.size
  rw [h.ny, h.nz, Nat.mul_one, Nat.mul_one]

theorem Loss.Line.coord (h : L.Line) {c : Nat} (hc : c < L.M.nx) : L.M.coord c 0 = c ∧ L.M.coord c 1 = 0 ∧ L.M.coord c 2 = 0 := by
  unfold Grid.coord
  rw [h.ny, Nat.mul_one]
  exact ⟨Nat.mod_eq_of_lt hc, by rw [Nat.mod_eq_of_lt hc]; exact Nat.div_eq_of_lt hc, Nat.div_eq_of_lt hc⟩

variable [LinearOrder K] [IsStrictOrderedRing K]

/-- The equations of a slab. -/
theorem lhs_slab (h : L.Line) (x : Nat → K) {g c : Nat} (hc : c < L.M.nx) :
    L.lhs x g c = (L.low g (fun c => x (L.pos g c)) c + L.high g (fun c => x (L.pos g c)) c) / L.M.h 0 c +
      (L.mat.sigT g (L.mmap c) * x (L.pos g c) - ∑ gp ∈ L.active, L.inXs g gp c * x (L.pos gp c)) := by
  obtain ⟨c0, c1, c2⟩ := h.coord hc
  have hsz : c < L.M.size := by rw [h.size]; exact hc
  have zero : ∀ leak, 2 ≤ leak → leak < 6 → L.faceTerm g (fun c => x (L.pos g c)) c leak / L.M.width c (leak / 2) = 0 := by
    intro leak h2 h6
    have hb := flat_boundary L.M h.wf hsz (by rw [h.dim]; exact h2) h6
    unfold Loss.faceTerm Loss.dtilde
    rw [if_pos hb, if_pos hb, h.flat leak h2 h6]
    simp [dBoundary]
  have w0 : L.M.width c 0 = L.M.h 0 c := by unfold Grid.width; rw [c0]
  have f0 : L.faceTerm g (fun c => x (L.pos g c)) c 0 = L.low g (fun c => x (L.pos g c)) c := by
    unfold Loss.faceTerm Loss.dtilde Loss.low
    have hb : L.M.onBoundary c 0 = decide (c = 0) := by
      unfold Grid.onBoundary
      simp [c0]
    by_cases h0 : c = 0
    · subst h0
      rw [hb]
      simp only [decide_true, if_true, Nat.zero_div, w0]
    · have hn : L.M.neighbour c 0 = c - 1 := by
        unfold Grid.neighbour Grid.index shifted
        simp [c0, c1, c2]
      have w1 : L.M.width (c - 1) 0 = L.M.h 0 (c - 1) := by
        unfold Grid.width
        rw [(h.coord (c := c - 1) (by omega)).1]
      rw [hb]
      simp only [h0, decide_false, if_false, Bool.false_eq_true, Nat.zero_div, hn, w0, w1]
  have f1 : L.faceTerm g (fun c => x (L.pos g c)) c 1 = L.high g (fun c => x (L.pos g c)) c := by
    unfold Loss.faceTerm Loss.dtilde Loss.high
    have hb : L.M.onBoundary c 1 = decide (c + 1 = L.M.nx) := by
      unfold Grid.onBoundary Grid.count
      simp only [c0, show 1 / 2 = 0 from rfl, show 1 % 2 = 1 from rfl, one_ne_zero, if_false]
      exact decide_eq_decide.2 (by omega)
    by_cases h0 : c + 1 = L.M.nx
    · rw [hb]
      simp only [h0, decide_true, if_true, show 1 / 2 = 0 from rfl, w0]
    · have hn : L.M.neighbour c 1 = c + 1 := by
        unfold Grid.neighbour Grid.index shifted
        simp [c0, c1, c2]
      have w1 : L.M.width (c + 1) 0 = L.M.h 0 (c + 1) := by
        unfold Grid.width
        rw [(h.coord (c := c + 1) (by omega)).1]
      rw [hb]
      simp only [h0, decide_false, if_false, Bool.false_eq_true, show 1 / 2 = 0 from rfl, hn, w0, w1]
  unfold Loss.lhs
  rw [local_eq]
  congr 1
  simp only [sum_range_succ, sum_range_zero, zero_add]
  rw [zero 2 (by decide) (by decide), zero 3 (by decide) (by decide), zero 4 (by decide) (by decide),
    zero 5 (by decide) (by decide), f0, f1]
  simp only [show 0 / 2 = 0 from rfl, show 1 / 2 = 0 from rfl, w0, add_zero, add_div]

end slab

/-! ## The reference -/

section reference
open Detran.MGReflect.Slab (edge edge_succ)
variable {phi J D dx : Nat → ℝ} {N : Nat}

/-- What the flux of a cell would be from its lower edge. -/
noncomputable def fromLow (phi J D dx : Nat → ℝ) (i : Nat) : ℝ := phi i - J i * dx i / (2 * D i)

/-- And from its upper edge. -/
noncomputable def fromHigh (phi J D dx : Nat → ℝ) (i : Nat) : ℝ := phi (i + 1) + J (i + 1) * dx i / (2 * D i)

/-- By how much these differ in the cells below. -/
noncomputable def slip (phi J D dx : Nat → ℝ) (i : Nat) : ℝ := ∑ j ∈ range i, (fromLow phi J D dx j - fromHigh phi J D dx j)

/-- Cell fluxes which, with the rule of the code, have the currents `J` at all edges but the last. -/
noncomputable def refer (phi J D dx : Nat → ℝ) (i : Nat) : ℝ := fromLow phi J D dx i + slip phi J D dx i

theorem refer_high (i : Nat) : refer phi J D dx i = fromHigh phi J D dx i + slip phi J D dx (i + 1) := by
  unfold refer slip
  rw [sum_range_succ]
  ring

theorem refer_step {i : Nat} (h0 : 0 < D i) (h1 : 0 < D (i + 1)) (w0 : 0 < dx i) (w1 : 0 < dx (i + 1)) :
    dInterior (D i) (D (i + 1)) (dx i) (dx (i + 1)) * (refer phi J D dx i - refer phi J D dx (i + 1)) = J (i + 1) := by
  rw [refer_high i]
  have e : fromHigh phi J D dx i + slip phi J D dx (i + 1) - refer phi J D dx (i + 1) =
      J (i + 1) * dx i / (2 * D i) + J (i + 1) * dx (i + 1) / (2 * D (i + 1)) := by
    unfold refer fromHigh fromLow
    ring
  rw [e]
  unfold dInterior
  have : 0 < dx (i + 1) * D i + dx i * D (i + 1) := by positivity
  field_simp
  ring

theorem dInterior_comm (a b h k : ℝ) : dInterior a b h k = dInterior b a k h := by
  unfold dInterior
  rw [mul_right_comm, add_comm]

/-- Mean of the edges. -/
theorem refer_mean {i : Nat} : refer phi J D dx i - (phi i + phi (i + 1)) / 2 =
    slip phi J D dx i + (fromLow phi J D dx i - fromHigh phi J D dx i) / 2 + dx i / (4 * D i) * (J (i + 1) - J i) := by
  unfold refer fromLow fromHigh
  ring

theorem slip_le {c : ℝ} (hp : ∀ i < N, 0 ≤ dx i) (h : ∀ i < N, |fromLow phi J D dx i - fromHigh phi J D dx i| ≤ c * dx i) (hc : 0 ≤ c)
    {i : Nat} (hi : i ≤ N) : |slip phi J D dx i| ≤ c * edge dx N := by
  unfold slip edge
  calc |∑ j ∈ range i, (fromLow phi J D dx j - fromHigh phi J D dx j)| ≤ ∑ j ∈ range i, c * dx j :=
        (abs_sum_le_sum_abs _ _).trans (sum_le_sum fun j hj => h j (by have := mem_range.1 hj; omega))
    _ ≤ ∑ j ∈ range N, c * dx j := sum_le_sum_of_subset_of_nonneg (range_subset_range.2 hi) fun j hj _ =>
        mul_nonneg hc (hp j (mem_range.1 hj))
    _ = _ := by rw [mul_sum]

end reference

end Detran.Diffusion
