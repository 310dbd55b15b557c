import Verif.Lemmas.Mesh
import Verif.Lemmas.Util
import Mathlib.Algebra.BigOperators.Intervals
import Mathlib.Algebra.BigOperators.Ring.Finset
import Mathlib.Algebra.Order.BigOperators.Group.List
import Mathlib.Data.Rat.Defs
import Mathlib.Algebra.Order.Ring.Rat
import Mathlib.Algebra.Field.Rat

/-! # Properties of the mesh (C01–C04) -/

namespace Detran.Mesh

open Detran.Util hiding range

/-! ## C01: numbering -/

/-- For a mesh whose cell count fits the index type, `index` is the row-major number of
    the cell, is a valid cell, and `cell_to_i/j/k` invert it. -/
theorem C01_index_roundtrip (nx ny nz i j k : Nat) (hfit : nx * ny * nz < 2 ^ 32)
    (hi : i < nx) (hj : j < ny) (hk : k < nz) :
    index nx ny i j k = i + j * nx + k * nx * ny ∧
    numberCells nx ny nz = nx * ny * nz ∧
    index nx ny i j k < numberCells nx ny nz ∧
    cellToI nx (index nx ny i j k) = some i ∧
    cellToJ nx ny (index nx ny i j k) = some j ∧
    cellToK nx ny (index nx ny i j k) = some k := by
  have hfit' : nx * ny * nz < 4294967296 := by simpa using hfit
  have hlt := idx_lt hi hj hk
  have hxy : nx * ny ≤ nx * ny * nz := Nat.le_mul_of_pos_right _ (by omega)
  have h1 : u32 (nx * ny) = nx * ny := u32_of_lt (by omega)
  have hN : numberCells nx ny nz = nx * ny * nz := by
    rw [numberCells, h1, u32_of_lt hfit']
  have hknx : k * nx ≤ k * nx * ny := Nat.le_mul_of_pos_right _ (by omega)
  have hI : index nx ny i j k = i + j * nx + k * nx * ny := by
    rw [index, u32_of_lt (show j * nx < _ by omega), u32_of_lt (show k * nx < _ by omega),
      u32_of_lt (show i + j * nx < _ by omega), u32_of_lt (show k * nx * ny < _ by omega),
      u32_of_lt (by omega)]
  have hpos : 0 < nx * ny := Nat.mul_pos (by omega) (by omega)
  refine ⟨hI, hN, by rw [hI, hN]; exact hlt, ?_, ?_, ?_⟩
  · rw [hI, cellToI, if_neg (by omega), idx_i hi]
  · rw [hI, cellToJ, h1, if_neg (by omega), idx_j hi hj]
  · rw [hI, cellToK, h1, if_neg (by omega), idx_k hi hj]

example : index 3 4 2 1 1 = 17 ∧ cellToJ 3 4 17 = some 1 ∧ numberCells 3 4 5 = 60 := by decide

/-- Every cell number is the index of exactly one in-range triple. -/
theorem C01_index_bijective (nx ny nz c : Nat) (hfit : nx * ny * nz < 2 ^ 32)
    (hc : c < numberCells nx ny nz) :
    ∃ i j k, i < nx ∧ j < ny ∧ k < nz ∧ index nx ny i j k = c ∧
      ∀ i' j' k', i' < nx → j' < ny → k' < nz → index nx ny i' j' k' = c →
        i' = i ∧ j' = j ∧ k' = k := by
  have hfit' : nx * ny * nz < 4294967296 := by simpa using hfit
  have hpos : 0 < numberCells nx ny nz := by omega
  have hz : 0 < nz := by
    rcases Nat.eq_zero_or_pos nz with h | h
    · subst h; simp [numberCells, u32] at hpos
    · exact h
  have hxy : nx * ny ≤ nx * ny * nz := Nat.le_mul_of_pos_right _ hz
  have hN : numberCells nx ny nz = nx * ny * nz := by
    rw [numberCells, u32_of_lt (show nx * ny < _ by omega), u32_of_lt hfit']
  rw [hN] at hc
  have hp : 0 < nx * ny := by
    rcases Nat.eq_zero_or_pos (nx * ny) with h | h
    · rw [h] at hc; simp at hc
    · exact h
  have hx : 0 < nx := Nat.pos_of_mul_pos_right hp
  have hi : c % nx < nx := Nat.mod_lt _ hx
  have hj : c % (nx * ny) / nx < ny := by
    rw [Nat.div_lt_iff_lt_mul hx, Nat.mul_comm ny]; exact Nat.mod_lt _ hp
  have hk : c / (nx * ny) < nz := by
    rw [Nat.div_lt_iff_lt_mul hp, Nat.mul_comm]; exact hc
  refine ⟨c % nx, c % (nx * ny) / nx, c / (nx * ny), hi, hj, hk, ?_, ?_⟩
  · rw [(C01_index_roundtrip nx ny nz _ _ _ hfit hi hj hk).1, idx_decomp]
  · intro i' j' k' hi' hj' hk' h
    rw [(C01_index_roundtrip nx ny nz _ _ _ hfit hi' hj' hk').1] at h
    subst h
    exact ⟨(idx_i hi').symm, (idx_j hi' hj').symm, (idx_k hi' hj').symm⟩

example : ∃ i j k, index 3 4 i j k = 17 ∧ 17 < numberCells 3 4 2 :=
  ⟨2, 1, 1, by decide, by decide⟩

/-- Beyond the 32-bit range numbering is not injective and the cell count wraps. -/
theorem C01_overflow_collision :
    (∃ nx ny nz i j k i' j' k', 0 < nz ∧ i < nx ∧ j < ny ∧ k < nz ∧ i' < nx ∧ j' < ny ∧
      k' < nz ∧ (i, j, k) ≠ (i', j', k') ∧ index nx ny i j k = index nx ny i' j' k') ∧
    (∃ nx ny nz, 0 < nx ∧ 0 < ny ∧ 0 < nz ∧ numberCells nx ny nz = 0) :=
  ⟨⟨65536, 65537, 1, 0, 0, 0, 0, 65536, 0, by decide⟩, ⟨65536, 65536, 1, by decide⟩⟩

/-! ## C02: coarse material map -/

/-- Fine position `p` lies in coarse cell `c` of a direction with fine counts `fm`. -/
def InCoarse (fm : List Nat) (c p : Nat) : Prop :=
  (fm.take c).sum ≤ p ∧ p < (fm.take (c + 1)).sum

/-- Every fine position lies in exactly one coarse cell. -/
theorem C02_coarse_cells_partition (fm : List Nat) (p : Nat) (hp : p < fm.sum) :
    ∃ c, c < fm.length ∧ InCoarse fm c p ∧ ∀ c', InCoarse fm c' p → c' = c := by
  obtain ⟨h1, h2, h3⟩ := coarseOf_spec fm p hp
  exact ⟨_, h1, ⟨h2, h3⟩, fun c' h => coarse_unique fm p _ _ h.1 h.2 h2 h3⟩

example : InCoarse [3, 2, 4] 1 4 := ⟨by decide, by decide⟩

theorem mem_coarseWrites (xfm yfm zfm : List Nat) (mMap : List Int) (w : Nat × Option Int) :
    w ∈ coarseWrites xfm yfm zfm mMap ↔
      ∃ I J K i j k, I < xfm.length ∧ J < yfm.length ∧ K < zfm.length ∧
        InCoarse xfm I i ∧ InCoarse yfm J j ∧ InCoarse zfm K k ∧
        w = (i + j * xfm.sum + k * xfm.sum * yfm.sum,
              mMap[I + J * xfm.length + K * xfm.length * yfm.length]?) := by
  simp only [coarseWrites, List.mem_flatMap, List.mem_map, Prod.exists, mem_segs, mem_upTo,
    InCoarse]
  constructor
  · rintro ⟨K, k1, k2, ⟨hK, rfl, rfl⟩, J, j1, j2, ⟨hJ, rfl, rfl⟩, I, i1, i2, ⟨hI, rfl, rfl⟩,
      k, hk, j, hj, i, hi, rfl⟩
    exact ⟨I, J, K, i, j, k, hI, hJ, hK, hi, hj, hk, rfl⟩
  · rintro ⟨I, J, K, i, j, k, hI, hJ, hK, hi, hj, hk, rfl⟩
    exact ⟨K, _, _, ⟨hK, rfl, rfl⟩, J, _, _, ⟨hJ, rfl, rfl⟩, I, _, _, ⟨hI, rfl, rfl⟩,
      k, hk, j, hj, i, hi, rfl⟩

/-- The fine map exists, has one entry per fine cell, and gives each fine cell `(i,j,k)`
    the value of the coarse cell `(I,J,K)` containing it.  Together with
    `C02_coarse_cells_partition` this determines every entry. -/
theorem C02_fine_cell_gets_coarse_material (xfm yfm zfm : List Nat) (mMap : List Int)
    (hlen : xfm.length * yfm.length * zfm.length ≤ mMap.length) :
    ∃ fine, coarseToFine xfm yfm zfm mMap = some fine ∧
      fine.length = xfm.sum * yfm.sum * zfm.sum ∧
      ∀ I J K i j k, InCoarse xfm I i → InCoarse yfm J j → InCoarse zfm K k →
        ∃ m, mMap[I + J * xfm.length + K * xfm.length * yfm.length]? = some m ∧
          fine[i + j * xfm.sum + k * xfm.sum * yfm.sum]? = some m := by
  set nx := xfm.sum with hnx
  set ny := yfm.sum with hny
  let g : Nat → Int := fun p =>
    mMap[coarseOf xfm (p % nx) + coarseOf yfm (p % (nx * ny) / nx) * xfm.length +
      coarseOf zfm (p / (nx * ny)) * xfm.length * yfm.length]?.getD 0
  have hin : ∀ (fm : List Nat) (c p : Nat), InCoarse fm c p → p < fm.sum :=
    fun fm c p h => lt_of_lt_of_le h.2 (take_sum_le fm _)
  have hval : ∀ I J K i j k, InCoarse xfm I i → InCoarse yfm J j → InCoarse zfm K k →
      i + j * nx + k * nx * ny < nx * ny * zfm.sum ∧
      mMap[I + J * xfm.length + K * xfm.length * yfm.length]? =
        some (g (i + j * nx + k * nx * ny)) := by
    intro I J K i j k hI hJ hK
    have hi := hin _ _ _ hI
    have hj := hin _ _ _ hJ
    have hk := hin _ _ _ hK
    refine ⟨idx_lt hi hj hk, ?_⟩
    have eI := coarseOf_eq _ _ _ hI.1 hI.2
    have eJ := coarseOf_eq _ _ _ hJ.1 hJ.2
    have eK := coarseOf_eq _ _ _ hK.1 hK.2
    have lI := (coarseOf_spec _ _ hi).1
    have lJ := (coarseOf_spec _ _ hj).1
    have lK := (coarseOf_spec _ _ hk).1
    rw [eI] at lI; rw [eJ] at lJ; rw [eK] at lK
    have hb := lt_of_lt_of_le (idx_lt lI lJ lK) hlen
    simp only [g]
    rw [idx_i hi, idx_j hi hj, idx_k hi hj, eI, eJ, eK]
    simp [List.getElem?_eq_getElem hb]
  obtain ⟨out, ho, hl, hg⟩ := applyWrites_spec g (coarseWrites xfm yfm zfm mMap)
    (List.replicate (nx * ny * zfm.sum) 0) (by
      intro w hw
      obtain ⟨I, J, K, i, j, k, -, -, -, hi, hj, hk, rfl⟩ := (mem_coarseWrites ..).1 hw
      have := hval I J K i j k hi hj hk
      simpa using this)
  refine ⟨out, ho, by simpa using hl, ?_⟩
  intro I J K i j k hI hJ hK
  have hv := hval I J K i j k hI hJ hK
  refine ⟨_, hv.2, hg _ ⟨_, (mem_coarseWrites ..).2 ⟨I, J, K, i, j, k, ?_, ?_, ?_, hI, hJ, hK, rfl⟩, rfl⟩⟩
  all_goals first
    | exact (coarseOf_eq _ _ _ hI.1 hI.2) ▸ (coarseOf_spec _ _ (hin _ _ _ hI)).1
    | exact (coarseOf_eq _ _ _ hJ.1 hJ.2) ▸ (coarseOf_spec _ _ (hin _ _ _ hJ)).1
    | exact (coarseOf_eq _ _ _ hK.1 hK.2) ▸ (coarseOf_spec _ _ (hin _ _ _ hK)).1

example : coarseToFine [2, 1] [1, 2] [1] [7, 8, 9, 4] = some [7, 7, 8, 9, 9, 4, 9, 9, 4] := by
  decide +kernel

theorem applyWrites_none {V : Type} : ∀ (ws : List (Nat × Option V)) (arr : List V),
    (∃ w ∈ ws, w.2 = none) → applyWrites arr ws = none
  | [], _, ⟨w, hw, _⟩ => by simp at hw
  | (p, none) :: ws, arr, _ => rfl
  | (p, some v) :: ws, arr, ⟨w, hw, h⟩ => by
      simp only [applyWrites]
      split
      · refine applyWrites_none ws _ ⟨w, ?_, h⟩
        rcases List.mem_cons.1 hw with rfl | hw
        · simp at h
        · exact hw
      · rfl

/-- With positive fine counts, a coarse map with too few entries is read past its end
    (undefined behaviour), so the length hypothesis above is exact. -/
theorem C02_short_map_undefined (xfm yfm zfm : List Nat) (mMap : List Int)
    (hx : ∀ f ∈ xfm, 0 < f) (hy : ∀ f ∈ yfm, 0 < f) (hz : ∀ f ∈ zfm, 0 < f)
    (hshort : mMap.length < xfm.length * yfm.length * zfm.length) :
    coarseToFine xfm yfm zfm mMap = none := by
  apply applyWrites_none
  have h0 : 0 < xfm.length * yfm.length * zfm.length := by omega
  have hxy : 0 < xfm.length * yfm.length := Nat.pos_of_mul_pos_right h0
  have hX : 0 < xfm.length := Nat.pos_of_mul_pos_right hxy
  have hc := hshort
  set c := mMap.length
  have inC : ∀ (fm : List Nat) (q : Nat), (∀ f ∈ fm, 0 < f) → q < fm.length →
      InCoarse fm q (fm.take q).sum := by
    intro fm q hf hq
    refine ⟨le_refl _, ?_⟩
    rw [take_succ_sum fm q hq]
    have := hf _ (List.getElem_mem hq); omega
  have hi : c % xfm.length < xfm.length := Nat.mod_lt _ hX
  have hj : c % (xfm.length * yfm.length) / xfm.length < yfm.length := by
    rw [Nat.div_lt_iff_lt_mul hX, Nat.mul_comm yfm.length]; exact Nat.mod_lt _ hxy
  have hk : c / (xfm.length * yfm.length) < zfm.length := by
    rw [Nat.div_lt_iff_lt_mul hxy, Nat.mul_comm]; exact hc
  refine ⟨_, (mem_coarseWrites xfm yfm zfm mMap _).2
    ⟨_, _, _, _, _, _, hi, hj, hk, inC _ _ hx hi, inC _ _ hy hj, inC _ _ hz hk, rfl⟩, ?_⟩
  simp only
  rw [idx_decomp]
  simp [c]

example : coarseToFine [2, 1] [1, 2] [1] [7, 8, 9] = none := by decide +kernel

theorem find_filter_ne (m : SMap (List Int)) (key key' : String) (h : key' ≠ key) :
    SMap.find (m.filter (fun e => e.1 ≠ key)) key' = SMap.find m key' := by
  induction m with
  | nil => rfl
  | cons e m ih =>
      obtain ⟨a, v⟩ := e
      by_cases he : a = key
      · subst he
        rw [List.filter_cons_of_neg (by simp)]
        simp only [SMap.find, if_neg (Ne.symm h)]
        exact ih
      · rw [List.filter_cons_of_pos (by simpa using he)]
        simp only [SMap.find, ih]

/-- Value of the latest addition under `key` (latest first). -/
def lastAdded (key : String) : List (String × List Int) → Option (List Int)
  | [] => none
  | (k, v) :: r => if k = key then some v else lastAdded key r

/-- After any history of `add_mesh_map` calls, `mesh_map(key)` is the map most recently
    added under that key, and an error exactly when there is none. -/
theorem C02_mesh_map_is_last_added (ops : List (String × List Int)) (key : String) :
    meshMap (ops.foldl (fun m o => addMeshMap m o.1 o.2) []) key =
      match lastAdded key ops.reverse with
      | some v => .ok v
      | none => .error ("Mesh map key not found:" ++ key) := by
  have : SMap.find (ops.foldl (fun m o => addMeshMap m o.1 o.2) []) key =
      lastAdded key ops.reverse := by
    induction ops using List.reverseRecOn with
    | nil => rfl
    | append_singleton ops o ih =>
        rw [List.foldl_append, List.reverse_append]
        simp only [List.foldl_cons, List.foldl_nil, List.reverse_cons, List.reverse_nil,
          List.nil_append, List.singleton_append, lastAdded]
        rw [addMeshMap, SMap.find_set]
        split
        · rfl
        · next h => rw [find_filter_ne _ _ _ (fun e => h e.symm), ih]
  rw [meshMap, this]
  cases lastAdded key ops.reverse <;> rfl

example : meshMap ([("A", [1]), ("B", [2]), ("A", [3])].foldl
    (fun m o => addMeshMap m o.1 o.2) []) "A" = .ok [3] := by rfl

/-! ## C03: widths and volumes -/

section
variable {K : Type} [Field K]

open Finset in
theorem list_sum_eq_range (l : List K) : l.sum = ∑ p ∈ range l.length, l.getD p 0 := by
  induction l with
  | nil => simp
  | cons a l ih =>
      rw [List.sum_cons, List.length_cons, sum_range_succ', ih, add_comm]
      simp

/-- The width array after construction. -/
theorem widths_spec (edges : List K) (fm : List Nat) (hlen : edges.length = fm.length + 1) :
    ∃ dx, widths edges fm = some dx ∧ dx.length = fm.sum ∧
      ∀ c p, InCoarse fm c p →
        dx[p]? = some ((edges.getD (c + 1) 0 - edges.getD c 0) / (fm.getD c 0 : K)) := by
  let g : Nat → K := fun p =>
    (edges.getD (coarseOf fm p + 1) 0 - edges.getD (coarseOf fm p) 0) /
      (fm.getD (coarseOf fm p) 0 : K)
  have mem : ∀ w : Nat × Option K, w ∈ widthWrites edges fm →
      ∃ c p, c < fm.length ∧ InCoarse fm c p ∧ w = (p, some (g p)) := by
    intro w hw
    simp only [widthWrites, List.mem_flatMap, List.mem_map, Prod.exists, mem_segs, mem_upTo] at hw
    obtain ⟨c, lo, hi, ⟨hc, rfl, rfl⟩, p, hp, rfl⟩ := hw
    refine ⟨c, p, hc, hp, ?_⟩
    simp only [g, coarseOf_eq fm p c hp.1 hp.2]
    have h1 : c + 1 < edges.length := by omega
    have h0 : c < edges.length := by omega
    simp [List.getElem?_eq_getElem h1, List.getElem?_eq_getElem h0, List.getElem?_eq_getElem hc]
  obtain ⟨out, ho, hl, hg⟩ := applyWrites_spec g (widthWrites edges fm)
    (List.replicate fm.sum 0) (by
      intro w hw
      obtain ⟨c, p, hc, hp, rfl⟩ := mem w hw
      exact ⟨by simpa using lt_of_lt_of_le hp.2 (take_sum_le fm _), rfl⟩)
  refine ⟨out, ho, by simpa using hl, ?_⟩
  intro c p hp
  have hps : p < fm.sum := lt_of_lt_of_le hp.2 (take_sum_le fm _)
  have hc : c < fm.length := (coarseOf_eq _ _ _ hp.1 hp.2) ▸ (coarseOf_spec _ _ hps).1
  have := hg p ?_
  · rw [this]; simp only [g, coarseOf_eq fm p c hp.1 hp.2]
  · refine ⟨(p, do
        let e1 ← edges[c + 1]?
        let e0 ← edges[c]?
        let f ← fm[c]?
        pure ((e1 - e0) / (f : K))), ?_, rfl⟩
    · simp only [widthWrites, List.mem_flatMap, List.mem_map, Prod.exists, mem_segs, mem_upTo]
      exact ⟨c, _, _, ⟨hc, rfl, rfl⟩, p, hp, rfl⟩

open Finset in
/-- Each coarse cell is split evenly and its fine widths add up to its own width; all
    widths add up to the total width `last edge - first edge`. -/
theorem C03_widths_fill_domain [CharZero K] (edges : List K) (fm : List Nat)
    (hlen : edges.length = fm.length + 1) (hpos : ∀ f ∈ fm, 0 < f) :
    ∃ dx w, widths edges fm = some dx ∧ totalWidth edges = some w ∧
      dx.length = fm.sum ∧ dx.sum = w ∧
      ∀ c, c < fm.length →
        (∀ p, InCoarse fm c p → dx.getD p 0 * (fm.getD c 0 : K) =
          edges.getD (c + 1) 0 - edges.getD c 0) ∧
        ∑ p ∈ Ico ((fm.take c).sum) ((fm.take (c + 1)).sum), dx.getD p 0 =
          edges.getD (c + 1) 0 - edges.getD c 0 := by
  obtain ⟨dx, hdx, hl, hg⟩ := widths_spec edges fm hlen
  have hne : ∀ c, c < fm.length → (fm.getD c 0 : K) ≠ 0 := by
    intro c hc
    have := hpos _ (List.getElem_mem hc)
    simp [List.getElem?_eq_getElem hc]
    omega
  have part : ∀ c, c < fm.length →
      ∑ p ∈ Ico ((fm.take c).sum) ((fm.take (c + 1)).sum), dx.getD p 0 =
        edges.getD (c + 1) 0 - edges.getD c 0 := by
    intro c hc
    have h1 : ∀ p ∈ Ico ((fm.take c).sum) ((fm.take (c + 1)).sum), dx.getD p 0 =
        (edges.getD (c + 1) 0 - edges.getD c 0) / (fm.getD c 0 : K) := by
      intro p hp
      have := hg c p (by simpa [InCoarse] using hp)
      rw [List.getD_eq_getElem?_getD, this]; rfl
    rw [sum_congr rfl h1, sum_const, Nat.card_Ico, take_succ_sum fm c hc, Nat.add_sub_cancel_left]
    have e : (fm[c] : K) = (fm.getD c 0 : K) := by simp [List.getElem?_eq_getElem hc]
    rw [nsmul_eq_mul, e]
    exact mul_div_cancel₀ _ (hne c hc)
  have tel : ∀ c, c ≤ fm.length →
      ∑ p ∈ range ((fm.take c).sum), dx.getD p 0 = edges.getD c 0 - edges.getD 0 0 := by
    intro c
    induction c with
    | zero => intro _; simp
    | succ c ih =>
        intro hc
        rw [range_eq_Ico, ← sum_Ico_consecutive _ (Nat.zero_le _)
          (take_sum_mono fm (Nat.le_succ c)), ← range_eq_Ico, ih (by omega), part c (by omega)]
        ring
  refine ⟨dx, edges.getD fm.length 0 - edges.getD 0 0, hdx, ?_, hl, ?_, ?_⟩
  · have h1 : fm.length < edges.length := by omega
    have h0 : 0 < edges.length := by omega
    simp [totalWidth, hlen, List.getElem?_eq_getElem h1, List.getElem?_eq_getElem h0]
  · rw [list_sum_eq_range, hl, ← tel fm.length (le_refl _), List.take_length]
  · intro c hc
    refine ⟨fun p hp => ?_, part c hc⟩
    rw [List.getD_eq_getElem?_getD, hg c p hp]
    exact div_mul_cancel₀ _ (hne c hc)

example : widths [(0 : ℚ), 1, 4] [2, 3] = some [1/2, 1/2, 1, 1, 1] ∧
    totalWidth [(0 : ℚ), 1, 4] = some 4 := by decide +kernel

open Finset in
theorem sum_range_mul (n m : Nat) (f : Nat → K) :
    ∑ c ∈ range (n * m), f c = ∑ k ∈ range m, ∑ r ∈ range n, f (r + n * k) := by
  induction m with
  | zero => simp
  | succ m ih =>
      rw [Nat.mul_succ, sum_range_add, ih, sum_range_succ]
      congr 1
      exact sum_congr rfl fun r _ => by rw [Nat.add_comm]

open Finset in
/-- The cell volumes are the products of the widths and add up to the product of the
    total widths. -/
theorem C03_volumes_fill_domain (dx dy dz : List K)
    (hfit : dx.length * dy.length * dz.length < 2 ^ 32) :
    (∀ i j k, i < dx.length → j < dy.length → k < dz.length →
      volume dx dy dz (index dx.length dy.length i j k) =
        some (dx.getD i 0 * dy.getD j 0 * dz.getD k 0)) ∧
    ∑ c ∈ range (numberCells dx.length dy.length dz.length), (volume dx dy dz c).getD 0 =
      dx.sum * dy.sum * dz.sum := by
  have vol : ∀ i j k, i < dx.length → j < dy.length → k < dz.length →
      volume dx dy dz (index dx.length dy.length i j k) =
        some (dx.getD i 0 * dy.getD j 0 * dz.getD k 0) := by
    intro i j k hi hj hk
    obtain ⟨-, -, -, h1, h2, h3⟩ := C01_index_roundtrip _ _ _ i j k hfit hi hj hk
    simp [volume, h1, h2, h3, List.getElem?_eq_getElem hi, List.getElem?_eq_getElem hj,
      List.getElem?_eq_getElem hk]
  refine ⟨vol, ?_⟩
  by_cases hz : dz.length = 0
  · have : dz = [] := List.length_eq_zero_iff.1 hz
    subst this; simp [numberCells, u32]
  by_cases hy : dy.length = 0
  · have : dy = [] := List.length_eq_zero_iff.1 hy
    subst this; simp [numberCells, u32]
  by_cases hx : dx.length = 0
  · have : dx = [] := List.length_eq_zero_iff.1 hx
    subst this; simp [numberCells, u32]
  have hN := (C01_index_roundtrip _ _ _ 0 0 0 hfit (by omega : 0 < dx.length)
    (by omega : 0 < dy.length) (by omega : 0 < dz.length)).2.1
  rw [hN, sum_range_mul]
  simp_rw [sum_range_mul dx.length dy.length]
  have key : ∀ k ∈ range dz.length, ∀ j ∈ range dy.length, ∀ i ∈ range dx.length,
      (volume dx dy dz (i + dx.length * j + dx.length * dy.length * k)).getD 0 =
        dx.getD i 0 * dy.getD j 0 * dz.getD k 0 := by
    intro k hk j hj i hi
    rw [mem_range] at hi hj hk
    have e := (C01_index_roundtrip _ _ _ i j k hfit hi hj hk).1
    have e' : i + dx.length * j + dx.length * dy.length * k =
        index dx.length dy.length i j k := by rw [e]; ring
    rw [e', vol i j k hi hj hk]; rfl
  rw [sum_congr rfl fun k hk => sum_congr rfl fun j hj => sum_congr rfl (key k hk j hj)]
  rw [list_sum_eq_range dx, list_sum_eq_range dy, list_sum_eq_range dz]
  simp_rw [← sum_mul, ← mul_sum]

example : volume [(1 : ℚ), 2] [3, 4] [5] 3 = some 40 := by decide +kernel

end

/-! ## C04: point location -/

section
variable {K : Type} [Field K] [LinearOrder K] [IsStrictOrderedRing K]

theorem scan_spec (x : K) : ∀ (ws : List K) (e : K) (i : Nat), (∀ w ∈ ws, 0 < w) →
    x ≤ e + ws.sum → ws ≠ [] →
    ∃ r, scan x ws e i = some (i + r) ∧ r < ws.length ∧ x ≤ e + (ws.take (r + 1)).sum ∧
      (r = 0 ∨ e + (ws.take r).sum < x)
  | [], _, _, _, _, h => absurd rfl h
  | w :: ws, e, i, hp, hx, _ => by
      simp only [scan]
      split
      · next h => exact ⟨0, rfl, by simp, by simpa using h, Or.inl rfl⟩
      · next h =>
          have hne : ws ≠ [] := by
            rintro rfl; apply h; simpa using hx
          have hx' : x ≤ (e + w) + ws.sum := by
            rw [List.sum_cons] at hx; linarith
          obtain ⟨r, h1, h2, h3, h4⟩ := scan_spec x ws (e + w) (i + 1)
            (fun v hv => hp v (by simp [hv])) hx' hne
          refine ⟨r + 1, by rw [h1]; congr 1; omega, by simpa using h2, ?_, Or.inr ?_⟩
          · rw [List.take_succ_cons, List.sum_cons]; linarith
          · rw [List.take_succ_cons, List.sum_cons]
            rcases h4 with rfl | h4
            · simp; exact not_le.1 h
            · linarith

/-- A mesh as built by `Mesh1D/2D/3D`: positive widths, active directions' total width is
    the sum of the widths, a missing direction has one cell and total width 1. -/
structure Loc.Built (m : Loc K) : Prop where
  dim1 : 1 ≤ m.dim
  dim3 : m.dim ≤ 3
  pos : ∀ ws ∈ [m.dx, m.dy, m.dz], ws ≠ [] ∧ ∀ w ∈ ws, 0 < w
  wx : m.wx = m.dx.sum
  wy : if 2 ≤ m.dim then m.wy = m.dy.sum else m.wy = 1 ∧ m.dy.length = 1
  wz : if 3 ≤ m.dim then m.wz = m.dz.sum else m.wz = 1 ∧ m.dz.length = 1
  fits : m.dx.length * m.dy.length * m.dz.length < 2 ^ 32

/-- Coordinate `x` lies in cell `i` of a direction; a point on a shared face belongs to the
    lower cell only. -/
def InCell (ws : List K) (i : Nat) (x : K) : Prop :=
  i < ws.length ∧ x ≤ (ws.take (i + 1)).sum ∧ ((ws.take i).sum < x ∨ (i = 0 ∧ 0 ≤ x))

/-- `find_cell` is -1 exactly outside the box; inside, it is the number of the cell whose
    interval contains the point in each active direction. -/
theorem C04_find_cell_contains (m : Loc K) (hm : m.Built) (x y z : K) :
    (m.findCell x y z = -1 ↔
      ¬ (0 ≤ x ∧ x ≤ m.wx ∧ 0 ≤ y ∧ y ≤ m.wy ∧ 0 ≤ z ∧ z ≤ m.wz)) ∧
    ((0 ≤ x ∧ x ≤ m.wx ∧ 0 ≤ y ∧ y ≤ m.wy ∧ 0 ≤ z ∧ z ≤ m.wz) →
      ∃ i j k, m.findCell x y z =
          ((i + j * m.dx.length + k * m.dx.length * m.dy.length : Nat) : Int) ∧
        i < m.dx.length ∧ j < m.dy.length ∧ k < m.dz.length ∧
        InCell m.dx i x ∧ (2 ≤ m.dim → InCell m.dy j y) ∧ (3 ≤ m.dim → InCell m.dz k z)) := by
  have hout : ∀ a : Prop, a = (x < 0 ∨ m.wx < x ∨ y < 0 ∨ m.wy < y ∨ z < 0 ∨ m.wz < z) →
      (a ↔ ¬ (0 ≤ x ∧ x ≤ m.wx ∧ 0 ≤ y ∧ y ≤ m.wy ∧ 0 ≤ z ∧ z ≤ m.wz)) := by
    rintro a rfl
    simp only [not_and_or, not_le]
  have h1 : ∀ (act : Bool) (ws : List K) (v w : K), (ws ≠ [] ∧ ∀ w ∈ ws, 0 < w) →
      (if act = true then w = ws.sum else w = 1 ∧ ws.length = 1) → 0 ≤ v → v ≤ w →
      Loc.find1 act ws v < ws.length ∧ (act = true → InCell ws (Loc.find1 act ws v) v) := by
    intro act ws v w hp hw h0 hv
    cases act with
    | false => simp [Loc.find1] at hw ⊢; omega
    | true =>
        simp only [if_true] at hw
        obtain ⟨r, e, hr, hle, hlo⟩ := scan_spec v ws 0 0 hp.2 (by rw [zero_add, ← hw]; exact hv) hp.1
        simp only [Loc.find1, if_true, e, Option.getD_some, Nat.zero_add]
        refine ⟨hr, fun _ => ⟨hr, by simpa using hle, ?_⟩⟩
        rcases hlo with rfl | h
        · exact Or.inr ⟨rfl, h0⟩
        · exact Or.inl (by simpa using h)
  have inside : (0 ≤ x ∧ x ≤ m.wx ∧ 0 ≤ y ∧ y ≤ m.wy ∧ 0 ≤ z ∧ z ≤ m.wz) →
      ∃ i j k, m.findCell x y z =
          ((i + j * m.dx.length + k * m.dx.length * m.dy.length : Nat) : Int) ∧
        i < m.dx.length ∧ j < m.dy.length ∧ k < m.dz.length ∧
        InCell m.dx i x ∧ (2 ≤ m.dim → InCell m.dy j y) ∧ (3 ≤ m.dim → InCell m.dz k z) := by
    intro h
    have hnot : ¬ (x < 0 ∨ m.wx < x ∨ y < 0 ∨ m.wy < y ∨ z < 0 ∨ m.wz < z) := by
      rw [hout _ rfl]; exact not_not.2 h
    obtain ⟨hx0, hx1, hy0, hy1, hz0, hz1⟩ := h
    have hd1 := hm.dim1
    have hX := h1 (decide (0 < m.dim)) m.dx x m.wx (hm.pos _ (by simp))
      (by rw [if_pos (by simp; omega)]; exact hm.wx) hx0 hx1
    have hY := h1 (decide (1 < m.dim)) m.dy y m.wy (hm.pos _ (by simp))
      (by have := hm.wy; simpa [Nat.lt_iff_add_one_le] using this) hy0 hy1
    have hZ := h1 (decide (2 < m.dim)) m.dz z m.wz (hm.pos _ (by simp))
      (by have := hm.wz; simpa [Nat.lt_iff_add_one_le] using this) hz0 hz1
    refine ⟨_, _, _, ?_, hX.1, hY.1, hZ.1, hX.2 (by simp; omega),
      fun hh => hY.2 (by simp; omega), fun hh => hZ.2 (by simp; omega)⟩
    rw [Loc.findCell, if_neg hnot]
    simp only
    rw [(C01_index_roundtrip _ _ _ _ _ _ hm.fits hX.1 hY.1 hZ.1).1]
  refine ⟨⟨fun h hh => ?_, fun h => ?_⟩, inside⟩
  · obtain ⟨i, j, k, e, -⟩ := inside hh
    rw [e] at h; omega
  · rw [Loc.findCell, if_pos ((hout _ rfl).2 h)]

/-- At most one cell can satisfy `InCell`, so the previous theorem determines the answer. -/
theorem C04_cell_unique (ws : List K) (hp : ∀ w ∈ ws, 0 < w) (x : K) (i j : Nat)
    (hi : InCell ws i x) (hj : InCell ws j x) : i = j := by
  have mono : ∀ a b, a ≤ b → (ws.take a).sum ≤ (ws.take b).sum := by
    intro a b h
    obtain ⟨d, rfl⟩ := Nat.exists_eq_add_of_le h
    rw [List.take_add, List.sum_append]
    have : 0 ≤ ((ws.drop a).take d).sum :=
      List.sum_nonneg fun w hw => (hp w (List.mem_of_mem_drop (List.mem_of_mem_take hw))).le
    linarith
  have key : ∀ i j, InCell ws i x → InCell ws j x → ¬ i < j := by
    intro i j hi hj h
    have h1 := mono (i + 1) j h
    rcases hj.2.2 with h2 | ⟨h2, _⟩
    · exact absurd (lt_of_lt_of_le (lt_of_le_of_lt (le_trans hi.2.1 h1) h2) (le_refl _)) (lt_irrefl _)
    · omega
  have a := key i j hi hj
  have b := key j i hj hi
  omega

/-- A 2-D mesh with two unequal columns and one row. -/
def exLoc : Loc ℚ := ⟨2, [1, 3], [2], [1], 4, 2, 1⟩

example : exLoc.Built where
  dim1 := by decide
  dim3 := by decide
  pos := by decide +kernel
  wx := by decide +kernel
  wy := by decide +kernel
  wz := by decide +kernel
  fits := by decide

example : exLoc.findCell 1 (1/2) 0 = 0 ∧ exLoc.findCell (3/2) 2 0 = 1 ∧
    exLoc.findCell 5 0 0 = -1 := by decide +kernel

/-- Points are measured from the low corner: for a mesh whose first edge is not zero the
    answer does not refer to the edges given by the user.  For the 1-D mesh with edges
    `[1, 2]` the interior point 3/2 is reported outside and the exterior point 1/2 inside. -/
theorem C04_offset_mesh_mislocates :
    ∃ (dx : List ℚ) (w : ℚ), widths [1, 2] [1] = some dx ∧ totalWidth [(1 : ℚ), 2] = some w ∧
      (Loc.mk 1 dx [1] [1] w 1 1).findCell (3/2) 0 0 = -1 ∧
      (Loc.mk 1 dx [1] [1] w 1 1).findCell (1/2) 0 0 = 0 :=
  ⟨[1], 1, by decide +kernel⟩

end

end Detran.Mesh
