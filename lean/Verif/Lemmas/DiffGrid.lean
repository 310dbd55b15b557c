import Verif.Lemmas.Mesh
import Verif.Props.Mesh
import Verif.Model.Diffusion
import Mathlib.Tactic.IntervalCases
import Mathlib.Tactic.Ring
import Mathlib.Tactic.LinearCombination
import Mathlib.Tactic.FieldSimp

/-!
# Grid bookkeeping for the diffusion operators
-/

namespace Detran.Diffusion

open Finset

variable {K : Type} [Field K]

theorem coord_index (M : Grid K) {i j k : Nat} (hi : i < M.nx) (hj : j < M.ny) :
    M.coord (M.index i j k) 0 = i ∧ M.coord (M.index i j k) 1 = j ∧ M.coord (M.index i j k) 2 = k :=
  ⟨Mesh.idx_i hi, Mesh.idx_j hi hj, Mesh.idx_k hi hj⟩

theorem index_lt (M : Grid K) {i j k : Nat} (hi : i < M.nx) (hj : j < M.ny) (hk : k < M.nz) :
    M.index i j k < M.size := Mesh.idx_lt hi hj hk

theorem index_coord (M : Grid K) (c : Nat) :
    M.index (M.coord c 0) (M.coord c 1) (M.coord c 2) = c := Mesh.idx_decomp c

theorem coord_lt (M : Grid K) {c : Nat} (hc : c < M.size) (a : Nat) : M.coord c a < M.count a := by
  unfold Grid.size at hc
  have hx : 0 < M.nx := by
    rcases Nat.eq_zero_or_pos M.nx with e | e
    · simp [e] at hc
    · exact e
  have hy : 0 < M.ny := by
    rcases Nat.eq_zero_or_pos M.ny with e | e
    · simp [e] at hc
    · exact e
  match a with
  | 0 => exact Nat.mod_lt _ hx
  | 1 =>
    show c % (M.nx * M.ny) / M.nx < M.ny
    rw [Nat.div_lt_iff_lt_mul hx, Nat.mul_comm M.ny]
    exact Nat.mod_lt _ (Nat.mul_pos hx hy)
  | n + 2 =>
    show c / (M.nx * M.ny) < M.nz
    rw [Nat.div_lt_iff_lt_mul (Nat.mul_pos hx hy), Nat.mul_comm]
    exact hc

/-- The cell at position `s` along axis `a`, `u` and `v` along the other two. -/
def Grid.cellA (M : Grid K) : Nat → Nat → Nat → Nat → Nat
  | 0, s, u, v => M.index s u v
  | 1, s, u, v => M.index u s v
  | _, s, u, v => M.index u v s

/-- The other two axes. -/
def other : Nat → Nat × Nat
  | 0 => (1, 2)
  | 1 => (0, 2)
  | _ => (0, 1)

theorem cellA_coord (M : Grid K) (a : Nat) (ha : a < 3) {s u v : Nat} (hs : s < M.count a)
    (hu : u < M.count (other a).1) (hv : v < M.count (other a).2) :
    M.coord (M.cellA a s u v) a = s ∧ M.coord (M.cellA a s u v) (other a).1 = u ∧
    M.coord (M.cellA a s u v) (other a).2 = v ∧ M.cellA a s u v < M.size := by
  interval_cases a
  · obtain ⟨h1, h2, h3⟩ := coord_index M (k := v) hs hu
    exact ⟨h1, h2, h3, index_lt M hs hu hv⟩
  · obtain ⟨h1, h2, h3⟩ := coord_index M (k := v) hu hs
    exact ⟨h2, h1, h3, index_lt M hu hs hv⟩
  · obtain ⟨h1, h2, h3⟩ := coord_index M (k := s) hu hv
    exact ⟨h3, h1, h2, index_lt M hu hv hs⟩

theorem cellA_self (M : Grid K) (a : Nat) (ha : a < 3) (c : Nat) :
    M.cellA a (M.coord c a) (M.coord c (other a).1) (M.coord c (other a).2) = c := by
  interval_cases a <;> exact index_coord M c

theorem neighbour_low (M : Grid K) (a : Nat) (ha : a < 3) {s u v : Nat} (hs : s < M.count a)
    (hu : u < M.count (other a).1) (hv : v < M.count (other a).2) :
    M.neighbour (M.cellA a s u v) (2 * a) = M.cellA a (s - 1) u v := by
  obtain ⟨h1, h2, h3, _⟩ := cellA_coord M a ha hs hu hv
  unfold Grid.neighbour shifted
  interval_cases a <;> simp only [other, Grid.cellA] at h1 h2 h3 <;> simp [h1, h2, h3, Grid.cellA]

theorem neighbour_high (M : Grid K) (a : Nat) (ha : a < 3) {s u v : Nat} (hs : s < M.count a)
    (hu : u < M.count (other a).1) (hv : v < M.count (other a).2) :
    M.neighbour (M.cellA a s u v) (2 * a + 1) = M.cellA a (s + 1) u v := by
  obtain ⟨h1, h2, h3, _⟩ := cellA_coord M a ha hs hu hv
  unfold Grid.neighbour shifted
  interval_cases a <;> simp only [other, Grid.cellA] at h1 h2 h3 <;> simp [h1, h2, h3, Grid.cellA]

theorem leak_half (a : Nat) : (2 * a) / 2 = a ∧ (2 * a) % 2 = 0 ∧ (2 * a + 1) / 2 = a ∧ (2 * a + 1) % 2 = 1 := by
  omega

theorem boundary_low (M : Grid K) (c a : Nat) : M.onBoundary c (2 * a) = decide (M.coord c a = 0) := by
  obtain ⟨h1, h2, _, _⟩ := leak_half a
  simp [Grid.onBoundary]

theorem boundary_high (M : Grid K) (c a : Nat) :
    M.onBoundary c (2 * a + 1) = decide (M.coord c a = M.count a - 1) := by
  obtain ⟨_, _, h1, h2⟩ := leak_half a
  simp [Grid.onBoundary, h1, h2]

/-- Across an interior face: the neighbour is a cell of the mesh, and seen from there the face is
    interior too and leads back. -/
theorem neighbour_spec (M : Grid K) {c leak : Nat} (hc : c < M.size) (hl : leak < 6)
    (hb : M.onBoundary c leak = false) :
    M.neighbour c leak < M.size ∧ M.neighbour c leak ≠ c := by
  obtain ⟨a, ha, e⟩ : ∃ a, a < 3 ∧ (leak = 2 * a ∨ leak = 2 * a + 1) := ⟨leak / 2, by omega, by omega⟩
  have hs := coord_lt M hc a
  have hu := coord_lt M hc (other a).1
  have hv := coord_lt M hc (other a).2
  rw [← cellA_self M a ha c] at hb ⊢
  set s := M.coord c a
  set u := M.coord c (other a).1
  set v := M.coord c (other a).2
  have hco := (cellA_coord M a ha hs hu hv).1
  have hne : ∀ s', s' < M.count a → s' ≠ s → M.cellA a s' u v ≠ M.cellA a s u v := by
    intro s' h' hne e
    have := (cellA_coord M a ha h' hu hv).1
    rw [e, hco] at this
    exact hne this.symm
  rcases e with rfl | rfl
  · rw [boundary_low, hco, decide_eq_false_iff_not] at hb
    rw [neighbour_low M a ha hs hu hv]
    exact ⟨(cellA_coord M a ha (by omega) hu hv).2.2.2, hne _ (by omega) (by omega)⟩
  · rw [boundary_high, hco, decide_eq_false_iff_not] at hb
    rw [neighbour_high M a ha hs hu hv]
    exact ⟨(cellA_coord M a ha (by omega) hu hv).2.2.2, hne _ (by omega) (by omega)⟩

/-- The dimension matches the cell counts. -/
structure Grid.WF (M : Grid K) : Prop where
  dim_le : M.dim ≤ 3
  flat : ∀ a, M.dim ≤ a → a < 3 → M.count a = 1

theorem flat_boundary (M : Grid K) (h : M.WF) {c leak : Nat} (hc : c < M.size) (hl : 2 * M.dim ≤ leak)
    (h6 : leak < 6) : M.onBoundary c leak = true := by
  obtain ⟨a, ha, e⟩ : ∃ a, a < 3 ∧ (leak = 2 * a ∨ leak = 2 * a + 1) := ⟨leak / 2, by omega, by omega⟩
  have h1 := h.flat a (by omega) ha
  have h2 := coord_lt M hc a
  rcases e with rfl | rfl
  · rw [boundary_low]; simp; omega
  · rw [boundary_high]; simp; omega

/-- At most `2*dim` faces of a cell are interior. -/
theorem faces_length (M : Grid K) (h : M.WF) {c : Nat} (hc : c < M.size) {β : Type} (f : Nat → Option β)
    (hf : ∀ leak < 6, M.onBoundary c leak = true → f leak = none) :
    ((List.range 6).filterMap f).length ≤ 2 * M.dim := by
  have hd := h.dim_le
  have e : List.range 6 = List.range (2 * M.dim) ++ List.range' (2 * M.dim) (6 - 2 * M.dim) := by
    have h1 := List.range'_append_1 (s := 0) (m := 2 * M.dim) (n := 6 - 2 * M.dim)
    rw [Nat.zero_add, Nat.add_sub_cancel' (by omega)] at h1
    rw [List.range_eq_range', List.range_eq_range', h1]
  rw [e, List.filterMap_append]
  have : (List.range' (2 * M.dim) (6 - 2 * M.dim)).filterMap f = [] := by
    rw [List.filterMap_eq_nil_iff]
    intro l hl
    rw [List.mem_range'_1] at hl
    exact hf l (by omega) (flat_boundary M h hc (by omega) (by omega))
  rw [this, List.append_nil]
  exact (List.length_filterMap_le _ _).trans (by simp)

/-- Sum over the cells, line by line along any axis. -/
theorem sum_cells (M : Grid K) (a : Nat) (ha : a < 3) (F : Nat → K) :
    ∑ c ∈ range M.size, F c = ∑ v ∈ range (M.count (other a).2), ∑ u ∈ range (M.count (other a).1),
      ∑ s ∈ range (M.count a), F (M.cellA a s u v) := by
  have base : ∑ c ∈ range M.size, F c =
      ∑ k ∈ range M.nz, ∑ j ∈ range M.ny, ∑ i ∈ range M.nx, F (M.index i j k) := by
    unfold Grid.size
    rw [Mesh.sum_range_mul]
    refine Finset.sum_congr rfl fun k _ => ?_
    rw [Mesh.sum_range_mul M.nx M.ny (fun r => F (r + M.nx * M.ny * k))]
    refine Finset.sum_congr rfl fun j _ => Finset.sum_congr rfl fun i _ => ?_
    unfold Grid.index
    congr 1
    ring
  rw [base]
  interval_cases a
  · rfl
  · refine Finset.sum_congr rfl fun k _ => ?_
    exact Finset.sum_comm
  · show _ = ∑ j ∈ range M.ny, ∑ i ∈ range M.nx, ∑ k ∈ range M.nz, F (M.index i j k)
    rw [Finset.sum_comm]
    refine Finset.sum_congr rfl fun j _ => ?_
    exact Finset.sum_comm

/-- Summation by parts along a line of cells. -/
theorem line_form (n : Nat) (p q t : Nat → K) (bL bR : K) :
    ∑ i ∈ range (n + 1), q i * ((if i = 0 then bL * p i else t (i - 1) * (p i - p (i - 1)))
        + (if i = n then bR * p i else t i * (p i - p (i + 1))))
      = ∑ i ∈ range n, t i * (p (i + 1) - p i) * (q (i + 1) - q i)
        + bL * p 0 * q 0 + bR * p n * q n := by
  have key : ∀ m, ∑ i ∈ range (m + 1), q i * ((if i = 0 then bL * p i else t (i - 1) * (p i - p (i - 1)))
        + t i * (p i - p (i + 1)))
      = ∑ i ∈ range m, t i * (p (i + 1) - p i) * (q (i + 1) - q i) + bL * p 0 * q 0
        + t m * (p m - p (m + 1)) * q m := by
    intro m
    induction m with
    | zero => simp; ring
    | succ m ih =>
      rw [Finset.sum_range_succ, ih, Finset.sum_range_succ]
      rw [if_neg (Nat.succ_ne_zero m), Nat.add_sub_cancel]
      ring
  cases n with
  | zero => simp; ring
  | succ n =>
    rw [Finset.sum_range_succ]
    rw [Finset.sum_congr rfl (g := fun i => q i * ((if i = 0 then bL * p i else t (i - 1) * (p i - p (i - 1)))
        + t i * (p i - p (i + 1)))) (fun i hi => by
      rw [if_neg (c := i = n + 1) (by have := Finset.mem_range.1 hi; omega)])]
    rw [key n, if_neg (Nat.succ_ne_zero n), if_pos rfl, Nat.add_sub_cancel, Finset.sum_range_succ]
    ring

end Detran.Diffusion
