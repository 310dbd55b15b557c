import Verif.Model.Rates
import Mathlib.Algebra.BigOperators.Field
import Mathlib.Algebra.BigOperators.Ring.Finset
import Mathlib.Algebra.BigOperators.Intervals
import Mathlib.Tactic.Ring
import Mathlib.Algebra.Order.Field.Basic
import Mathlib.Algebra.Order.Ring.Rat
import Mathlib.Data.List.Count
import Mathlib.Data.List.Nodup
import Mathlib.Data.Rat.Defs

/-! # Properties of region edits (C55) -/

namespace Detran.Rates

open Finset

variable {K : Type}

/-- Specification: sum over all cells of a box. -/
def boxSum [AddCommMonoid K] (e : Edit K) (w : Nat → Nat → Nat → K) : K :=
  ∑ k ∈ range e.nz, ∑ j ∈ range e.ny, ∑ i ∈ range e.nx, w i j k

/-- Specification: volume of a cell. -/
def vol [Mul K] (e : Edit K) (i j k : Nat) : K := e.dx i * e.dy j * e.dz k

/-- Specification: cell `(i, j, k)` belongs to region `r`. -/
def InRegion (e : Edit K) (map : List Nat) (r i j k : Nat) : Prop := map[i + j * e.nx + k * e.nx * e.ny]? = some r

instance (e : Edit K) (map : List Nat) (r i j k : Nat) : Decidable (InRegion e map r i j k) :=
  inferInstanceAs (Decidable (_ = _))

/-- Specification: integral of a cell function over a region. -/
def regionSum [Semiring K] (e : Edit K) (map : List Nat) (f : Nat → K) (r : Nat) : K :=
  boxSum e fun i j k => if InRegion e map r i j k then vol e i j k * f (i + j * e.nx + k * e.nx * e.ny) else 0

/-- Specification: integral of a cell function over the domain. -/
def totalSum [Semiring K] (e : Edit K) (f : Nat → K) : K :=
  boxSum e fun i j k => vol e i j k * f (i + j * e.nx + k * e.nx * e.ny)

/-- Specification: fission rate. -/
def fission [Semiring K] (e : Edit K) (c : Nat) : K := ∑ g ∈ range e.G, e.phi g c * e.sigF g c

theorem index_eq (e : Edit K) (i j k : Nat) : e.index i j k = i + j * e.nx + k * e.nx * e.ny := by
  unfold Edit.index; ring

theorem foldl_add [AddCommMonoid K] {α : Type} (l : List α) (w : α → K) (a : K) :
    l.foldl (fun s p => s + w p) a = a + (l.map w).sum := by
  induction l generalizing a with
  | nil => simp
  | cons p l ih => rw [List.foldl_cons, ih, List.map_cons, List.sum_cons, add_assoc]

theorem sum_range_list [AddCommMonoid K] (n : Nat) (f : Nat → K) : ((List.range n).map f).sum = ∑ i ∈ range n, f i := rfl

theorem sum_flatMap' [AddCommMonoid K] {α : Type} (n : Nat) (f : Nat → List α) (w : α → K) :
    (((List.range n).flatMap f).map w).sum = ∑ k ∈ range n, ((f k).map w).sum := by
  induction n with
  | zero => simp
  | succ n ih => rw [List.range_succ, List.flatMap_append, List.map_append, List.sum_append, ih, sum_range_succ]; simp

theorem cells_sum [Semiring K] (e : Edit K) (w : Nat × K → K) :
    (e.cells.map w).sum = boxSum e fun i j k => w (i + j * e.nx + k * e.nx * e.ny, vol e i j k) := by
  unfold Edit.cells boxSum
  rw [sum_flatMap']
  refine sum_congr rfl fun k _ => ?_
  rw [sum_flatMap']
  refine sum_congr rfl fun j _ => ?_
  rw [List.map_map, sum_range_list]
  refine sum_congr rfl fun i _ => ?_
  simp only [Function.comp, index_eq, vol]

theorem fissionRate_eq [Semiring K] (e : Edit K) (c : Nat) : e.fissionRate c = fission e c := by
  unfold Edit.fissionRate fission
  rw [foldl_add, zero_add]
  rfl

theorem accumulate_list [Semiring K] (l : List (Nat × K)) (map : List Nat) (w : Nat × K → K) (v : Nat → K)
    (h : ∀ p ∈ l, p.1 < map.length) :
    ∃ v', l.foldlM (fun v p => (map[p.1]?).map fun r => addAt v r (w p)) v = some v' ∧
      ∀ r, v' r = v r + (l.map fun p => if map[p.1]? = some r then w p else 0).sum := by
  induction l generalizing v with
  | nil => exact ⟨v, rfl, fun r => by simp⟩
  | cons p l ih =>
    have hp := h p List.mem_cons_self
    obtain ⟨v', e1, e2⟩ := ih (addAt v map[p.1] (w p)) (fun q hq => h q (List.mem_cons_of_mem _ hq))
    refine ⟨v', ?_, fun r => ?_⟩
    · rw [List.foldlM_cons, List.getElem?_eq_getElem hp]
      exact e1
    · rw [e2, List.map_cons, List.sum_cons, List.getElem?_eq_getElem hp, ← add_assoc]
      congr 1
      unfold addAt
      by_cases hr : r = map[p.1]
      · rw [if_pos hr, if_pos (by rw [hr])]
      · rw [if_neg hr, if_neg (fun h => hr (Option.some.inj h).symm), add_zero]

theorem cells_lt [Semiring K] (e : Edit K) : ∀ p ∈ e.cells, p.1 < e.nx * e.ny * e.nz := by
  intro p hp
  unfold Edit.cells at hp
  simp only [List.mem_flatMap, List.mem_range, List.mem_map] at hp
  obtain ⟨k, hk, j, hj, i, hi, rfl⟩ := hp
  show e.index i j k < _
  unfold Edit.index
  have h1 : j + e.ny * k < e.ny * e.nz := by
    calc j + e.ny * k < e.ny + e.ny * k := by omega
      _ = e.ny * (k + 1) := by ring
      _ ≤ e.ny * e.nz := Nat.mul_le_mul_left _ (by omega)
  calc i + e.nx * (j + e.ny * k) < e.nx + e.nx * (j + e.ny * k) := by omega
    _ = e.nx * (j + e.ny * k + 1) := by ring
    _ ≤ e.nx * (e.ny * e.nz) := Nat.mul_le_mul_left _ (by omega)
    _ = e.nx * e.ny * e.nz := by ring

theorem accumulate_spec [Semiring K] (e : Edit K) (map : List Nat) (hm : e.nx * e.ny * e.nz ≤ map.length)
    (f : Nat → K) :
    ∃ v, e.accumulate map (fun p => p.2 * f p.1) = some v ∧ ∀ r, v r = regionSum e map f r := by
  obtain ⟨v, e1, e2⟩ := accumulate_list e.cells map (fun p => p.2 * f p.1) (fun _ => 0)
    (fun p hp => lt_of_lt_of_le (cells_lt e p hp) hm)
  refine ⟨v, e1, fun r => ?_⟩
  rw [e2, zero_add, cells_sum]
  rfl

theorem foldl_max_ge (l : List Nat) (a : Nat) : a ≤ l.foldl max a ∧ ∀ x ∈ l, x ≤ l.foldl max a := by
  induction l generalizing a with
  | nil => simp
  | cons b l ih =>
    obtain ⟨h1, h2⟩ := ih (max a b)
    rw [List.foldl_cons]
    refine ⟨le_trans (le_max_left _ _) h1, fun x hx => ?_⟩
    rcases List.mem_cons.1 hx with rfl | hx
    · exact le_trans (le_max_right _ _) h1
    · exact h2 x hx

theorem foldl_max_mem (l : List Nat) (a : Nat) : l.foldl max a = a ∨ l.foldl max a ∈ l := by
  induction l generalizing a with
  | nil => exact Or.inl rfl
  | cons b l ih =>
    rw [List.foldl_cons]
    rcases ih (max a b) with h | h
    · rcases max_choice a b with h' | h'
      · exact Or.inl (h.trans h')
      · exact Or.inr (by rw [h, h']; exact List.mem_cons_self)
    · exact Or.inr (List.mem_cons_of_mem _ h)

/-- The number of regions is one more than the largest region that occurs. -/
theorem number_spec (map : List Nat) (h : map ≠ []) :
    ∃ n, number map = some n ∧ (∀ r ∈ map, r < n) ∧ (n - 1 ∈ map ∧ 0 < n) := by
  cases map with
  | nil => exact absurd rfl h
  | cons a l =>
    refine ⟨_, rfl, fun r hr => ?_, ?_, by omega⟩
    · obtain ⟨h1, h2⟩ := foldl_max_ge l a
      rcases List.mem_cons.1 hr with rfl | hr
      · omega
      · have := h2 r hr; omega
    · rw [Nat.add_sub_cancel_left]
      rcases foldl_max_mem l a with h | h
      · rw [h]; exact List.mem_cons_self
      · exact List.mem_cons_of_mem _ h

theorem totalRate [Semiring K] (e : Edit K) :
    e.cells.foldl (fun s p => s + p.2 * e.fissionRate p.1) 0 = totalSum e (fission e) := by
  rw [foldl_add, zero_add, cells_sum]
  simp only [fissionRate_eq]
  rfl

/-- Region integrals add up to the total. -/
theorem regions_total [Semiring K] (e : Edit K) (map : List Nat) (f : Nat → K)
    (hm : map.length = e.nx * e.ny * e.nz) (n : Nat) (hn : ∀ r ∈ map, r < n) :
    ∑ r ∈ range n, regionSum e map f r = totalSum e f := by
  unfold regionSum totalSum boxSum
  rw [sum_comm]
  refine sum_congr rfl fun k hk => ?_
  rw [sum_comm]
  refine sum_congr rfl fun j hj => ?_
  rw [sum_comm]
  refine sum_congr rfl fun i hi => ?_
  have hc : e.index i j k < map.length := by
    rw [hm]
    refine cells_lt e (e.index i j k, e.dx i * e.dy j * e.dz k) ?_
    unfold Edit.cells
    simp only [List.mem_flatMap, List.mem_range, List.mem_map]
    exact ⟨k, mem_range.1 hk, j, mem_range.1 hj, i, mem_range.1 hi, rfl⟩
  rw [index_eq] at hc
  rw [sum_eq_single (map[i + j * e.nx + k * e.nx * e.ny])]
  · exact if_pos (List.getElem?_eq_getElem hc)
  · intro r _ hr
    refine if_neg ?_
    unfold InRegion
    rw [List.getElem?_eq_getElem hc]
    intro h
    exact hr (Option.some.inj h).symm
  · intro h
    exact absurd (mem_range.2 (hn _ (List.getElem_mem hc))) h

section power
variable [Field K] [LinearOrder K]

/-- C55: the region powers: one entry per region number up to the largest, each the fission rate integrated over
    the region, scaled (if asked) by the scale over the total. -/
theorem C55_region_power (e : Edit K) (map : List Nat) (hm : map.length = e.nx * e.ny * e.nz) (hne : map ≠ [])
    (scale : K) :
    ∃ out n, e.regionPower map scale = some out ∧ out.length = n ∧ (∀ r ∈ map, r < n) ∧ n - 1 ∈ map ∧
      ∀ r, (hr : r < out.length) → out[r] = (if 0 < scale then scale / totalSum e (fission e) else 1) *
        regionSum e map (fission e) r := by
  obtain ⟨n, n1, n2, n3, n4⟩ := number_spec map hne
  obtain ⟨v, v1, v2⟩ := accumulate_spec e map (le_of_eq hm.symm) (fission e)
  have v1' : e.accumulate map (fun p => p.2 * e.fissionRate p.1) = some v := by
    simp only [fissionRate_eq]; exact v1
  refine ⟨(List.range n).map fun r => if scale > 0 then v r * (scale / totalSum e (fission e)) else v r, n, ?_, by simp,
    n2, n3, ?_⟩
  · unfold Edit.regionPower
    rw [n1, v1', totalRate]
    rfl
  · intro r hr
    rw [List.getElem_map, List.getElem_range, v2]
    by_cases hs : 0 < scale
    · rw [if_pos hs, if_pos hs, mul_comm]
    · rw [if_neg hs, if_neg hs, one_mul]

/-- C55: with a positive scale and some fission the region powers sum to the scale; without a scale they sum to
    the total fission rate. -/
theorem C55_power_normalised (e : Edit K) (map : List Nat) (hm : map.length = e.nx * e.ny * e.nz) (hne : map ≠ [])
    (scale : K) (out : List K) (h : e.regionPower map scale = some out) :
    (0 < scale → totalSum e (fission e) ≠ 0 → out.sum = scale) ∧
    (¬ 0 < scale → out.sum = totalSum e (fission e)) := by
  obtain ⟨out', n, h1, h2, h3, h4, h5⟩ := C55_region_power e map hm hne scale
  rw [h] at h1
  obtain rfl := Option.some.inj h1
  have hsum : out.sum = (if 0 < scale then scale / totalSum e (fission e) else 1) * totalSum e (fission e) := by
    rw [← regions_total e map (fission e) hm n h3, mul_sum]
    have : out = (List.range n).map fun r => (if 0 < scale then scale / totalSum e (fission e) else 1) *
        regionSum e map (fission e) r := by
      apply List.ext_getElem
      · simp [h2]
      · intro r hr _
        rw [h5 r hr, List.getElem_map, List.getElem_range]
    rw [this, sum_range_list]
    rw [regions_total e map (fission e) hm n h3]
  refine ⟨fun hs ht => ?_, fun hs => ?_⟩
  · rw [hsum, if_pos hs, div_mul_cancel₀ _ ht]
  · rw [hsum, if_neg hs, one_mul]

end power

section mean
variable [Field K]

/-- The mean loop divides every region once for each of the first `n` cells that lies in it. -/
theorem meanLoop_spec (map : List Nat) (w : Nat → K) (n : Nat) (hn : n ≤ map.length) (v : Nat → K) :
    ∃ v', meanLoop map w n v = some v' ∧ ∀ r, v' r = v r / w r ^ (map.take n).count r := by
  induction n with
  | zero => exact ⟨v, rfl, fun r => by simp⟩
  | succ n ih =>
    obtain ⟨v', e1, e2⟩ := ih (by omega)
    have hl : n < map.length := by omega
    refine ⟨fun r' => if r' = map[n] then v' r' / w map[n] else v' r', ?_, fun r => ?_⟩
    · unfold meanLoop at e1 ⊢
      rw [List.range_succ, List.foldlM_append, e1]
      rw [Option.bind_eq_bind, Option.bind_some, List.foldlM_cons, List.getElem?_eq_getElem hl]
      rfl
    · rw [List.take_succ, List.getElem?_eq_getElem hl, List.count_append]
      simp only [Option.toList_some]
      by_cases hr : r = map[n]
      · rw [if_pos hr, e2, ← hr, List.count_singleton_self, pow_succ, div_div]
      · have h0 : List.count r [map[n]] = 0 := List.count_eq_zero_of_not_mem (by simpa using hr)
        rw [if_neg hr, e2, h0, Nat.add_zero]

/-- C55: without the mean, the edit integrates the function over every region. -/
theorem C55_edit_sum (e : Edit K) (map : List Nat) (hm : map.length = e.nx * e.ny * e.nz) (hne : map ≠ [])
    (f : Nat → K) :
    ∃ out n, e.edit map f false = some out ∧ out.length = n ∧ (∀ r ∈ map, r < n) ∧ n - 1 ∈ map ∧
      ∀ r, (hr : r < out.length) → out[r] = regionSum e map f r := by
  obtain ⟨n, n1, n2, n3, n4⟩ := number_spec map hne
  obtain ⟨v, v1, v2⟩ := accumulate_spec e map (le_of_eq hm.symm) f
  obtain ⟨w, w1, w2⟩ := accumulate_spec e map (le_of_eq hm.symm) fun _ => 1
  simp only [mul_one] at w1
  refine ⟨(List.range n).map v, n, ?_, by simp, n2, n3, ?_⟩
  · unfold Edit.edit
    rw [n1, v1, w1]
    rfl
  · intro r hr
    rw [List.getElem_map, List.getElem_range, v2]

/-- C55: with the mean, exactly what happens: the integral is divided by the region volume once for every one of
    the first `n` cells (`n` the number of regions) that lies in the region. -/
theorem C55_edit_mean_exact (e : Edit K) (map : List Nat) (hm : map.length = e.nx * e.ny * e.nz) (hne : map ≠ [])
    (f : Nat → K) :
    ∃ n, (∀ r ∈ map, r < n) ∧ n - 1 ∈ map ∧
      (n ≤ map.length → ∃ out, e.edit map f true = some out ∧ out.length = n ∧
        ∀ r, (hr : r < out.length) →
          out[r] = regionSum e map f r / regionSum e map (fun _ => 1) r ^ (map.take n).count r) ∧
      (map.length < n → e.edit map f true = none) := by
  obtain ⟨n, n1, n2, n3, n4⟩ := number_spec map hne
  obtain ⟨v, v1, v2⟩ := accumulate_spec e map (le_of_eq hm.symm) f
  obtain ⟨w, w1, w2⟩ := accumulate_spec e map (le_of_eq hm.symm) fun _ => 1
  simp only [mul_one] at w1
  have he : e.edit map f true = (do let s ← meanLoop map w n v; pure ((List.range n).map s)) := by
    unfold Edit.edit
    rw [n1, v1, w1]
    rfl
  refine ⟨n, n2, n3, fun hn => ?_, fun hn => ?_⟩
  · obtain ⟨v', e1, e2⟩ := meanLoop_spec map w n hn v
    refine ⟨(List.range n).map v', ?_, by simp, fun r hr => ?_⟩
    · rw [he, e1]; rfl
    · rw [List.getElem_map, List.getElem_range, e2, v2, w2]
  · rw [he]
    have : meanLoop map w n v = none := by
      obtain ⟨v', e1, e2⟩ := meanLoop_spec map w map.length (le_refl _) v
      unfold meanLoop at e1 ⊢
      obtain ⟨k, rfl⟩ : ∃ k, n = map.length + (k + 1) := ⟨n - map.length - 1, by omega⟩
      rw [List.range_add, List.foldlM_append, e1]
      rw [Option.bind_eq_bind, Option.bind_some, List.range_succ_eq_map, List.map_cons, List.foldlM_cons, List.getElem?_eq_none (by omega)]
      rfl
    rw [this]
    rfl

/-- C55: with the mean, every region is divided by its volume when the first cells lie in different regions. -/
theorem C55_edit_mean_partial (e : Edit K) (map : List Nat) (hm : map.length = e.nx * e.ny * e.nz) (hne : map ≠ [])
    (f : Nat → K) (n : Nat) (hr : ∀ r ∈ map, r < n) (hn : n - 1 ∈ map) (hlen : n ≤ map.length)
    (hnd : (map.take n).Nodup) :
    ∃ out, e.edit map f true = some out ∧ out.length = n ∧
      ∀ r, (hr : r < out.length) → out[r] = regionSum e map f r / regionSum e map (fun _ => 1) r := by
  obtain ⟨n', a1, a2, a3, -⟩ := C55_edit_mean_exact e map hm hne f
  have : n' = n := by
    have := a1 _ hn
    have := hr _ a2
    have : 0 < n := Nat.pos_of_ne_zero (by rintro rfl; exact absurd (hr _ a2) (by omega))
    have : 0 < n' := Nat.pos_of_ne_zero (by rintro rfl; exact absurd (a1 _ hn) (by omega))
    omega
  subst this
  obtain ⟨out, o1, o2, o3⟩ := a3 hlen
  refine ⟨out, o1, o2, fun r hr' => ?_⟩
  have hperm : (map.take n').Perm (List.range n') := by
    apply List.Subperm.perm_of_length_le
    · apply hnd.subperm
      intro r hr2
      exact List.mem_range.2 (hr r (List.mem_of_mem_take hr2))
    · rw [List.length_range, List.length_take, Nat.min_eq_left hlen]
  have : (map.take n').count r = 1 := by
    rw [hperm.count_eq]
    exact List.count_eq_one_of_mem List.nodup_range (List.mem_range.2 (by omega))
  rw [o3 r hr', this, pow_one]

end mean

/-- The full claim for the mean. -/
def C55Claim : Prop :=
  ∀ (e : Edit ℚ) (map : List Nat) (f : Nat → ℚ), map.length = e.nx * e.ny * e.nz → map ≠ [] →
    ∃ out, e.edit map f true = some out ∧ ∀ r ∈ map, out[r]? = some (regionSum e map f r / regionSum e map (fun _ => 1) r)

/-- Four cells of width two in two regions. -/
def slab : Edit ℚ := ⟨4, 1, 1, fun _ => 2, fun _ => 1, fun _ => 1, 1, fun _ c => c + 1, fun _ _ => 1⟩

example : slab.regionPower [0, 0, 1, 1] 1 = some [3 / 10, 7 / 10] ∧ totalSum slab (fission slab) = 20 ∧
    slab.edit [0, 0, 1, 1] (fun c => c) false = some [2, 10] := by decide +kernel

/-- C55: with the regions `0, 0, 1, 1` the first region is divided twice and the second never. -/
theorem C55_mean_wrong : slab.edit [0, 0, 1, 1] (fun _ => 1) true = some [1 / 4, 4] ∧
    regionSum slab [0, 0, 1, 1] (fun _ => 1) 0 = 4 ∧ regionSum slab [0, 0, 1, 1] (fun _ => 1) 1 = 4 := by
  decide +kernel

theorem C55_claim_fails : ¬ C55Claim := by
  intro h
  obtain ⟨out, h1, h2⟩ := h slab [0, 0, 1, 1] (fun _ => 1) rfl (by simp)
  rw [C55_mean_wrong.1] at h1
  obtain rfl := Option.some.inj h1
  have := h2 0 (by simp)
  rw [C55_mean_wrong.2.1] at this
  exact absurd this (by decide +kernel)

/-- The hypotheses of the partial theorem are met by `1, 0, 1, 1`. -/
example : slab.edit [1, 0, 1, 1] (fun c => c) true = some [1, 5 / 3] ∧ ([1, 0, 1, 1].take 2).Nodup := by
  decide +kernel

/-- C55: a region number beyond the number of cells reads past the map. -/
theorem C55_mean_undefined : slab.edit [0, 1, 2, 6] (fun _ => 1) true = none := by decide +kernel

end Detran.Rates
