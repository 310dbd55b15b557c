import Verif.Model.Lattice
import Verif.Lemmas.Mesh
import Mathlib.Algebra.BigOperators.Group.List.Basic

/-! Helper lemmas for the lattice model. -/

namespace Detran.Lattice

open Detran.Mesh

theorem grid_length {α : Type} (n m : Nat) (f : Nat → Nat → α) :
    ((List.range m).flatMap fun b => (List.range n).map fun a => f a b).length = m * n := by
  induction m with
  | zero => simp
  | succ m ih => rw [List.range_succ, List.flatMap_append, List.length_append, ih]; simp; ring

theorem mem_grid_zipIdx {α : Type} (n : Nat) (f : Nat → Nat → α) (x : α) (k : Nat) :
    ∀ m, (x, k) ∈ ((List.range m).flatMap fun b => (List.range n).map fun a => f a b).zipIdx ↔
      ∃ a b, a < n ∧ b < m ∧ x = f a b ∧ k = a + b * n
  | 0 => by simp
  | m + 1 => by
      rw [List.range_succ, List.flatMap_append, List.zipIdx_append, List.mem_append,
        mem_grid_zipIdx n f x k m, grid_length]
      simp only [List.flatMap_cons, List.flatMap_nil, List.append_nil, List.mk_mem_zipIdx_iff_le_and_getElem?_sub]
      constructor
      · rintro (⟨a, b, ha, hb, hx, hk⟩ | ⟨h1, h2⟩)
        · exact ⟨a, b, ha, by omega, hx, hk⟩
        · rw [List.getElem?_map] at h2
          by_cases hlt : k - (0 + m * n) < n
          · rw [List.getElem?_range hlt] at h2
            exact ⟨k - (0 + m * n), m, hlt, by omega, by simpa using h2.symm, by omega⟩
          · rw [List.getElem?_eq_none (by simpa using hlt)] at h2
            simp at h2
      · rintro ⟨a, b, ha, hb, hx, hk⟩
        by_cases hbm : b < m
        · exact Or.inl ⟨a, b, ha, hbm, hx, hk⟩
        · have : b = m := by omega
          subst this
          refine Or.inr ⟨by omega, ?_⟩
          have e : k - (0 + b * n) = a := by omega
          rw [e, List.getElem?_map, List.getElem?_range ha, hx]; rfl

theorem mem_block (n m ncx i j cell count : Nat) :
    (cell, count) ∈ block n m ncx i j ↔
      ∃ a b, a < n ∧ b < m ∧ cell = (i * n + a) + (j * m + b) * ncx ∧ count = a + b * n := by
  have := mem_grid_zipIdx n (fun a b => (i * n + a) + (j * m + b) * ncx) cell count m
  rw [← this]
  simp [block, upTo, List.flatMap_map, Function.comp_def]

/-- Position decoding. -/
theorem decode {n R i j a b : Nat} (hi : i < R) (ha : a < n) (hb : b < n) :
    let c := (i * n + a) + (j * n + b) * (n * R)
    c % (n * R) / n = i ∧ c % (n * R) % n = a ∧ c / (n * R) / n = j ∧ c / (n * R) % n = b := by
  have hlt : i * n + a < n * R := by
    calc i * n + a < i * n + n := by omega
      _ = n * (i + 1) := by ring
      _ ≤ n * R := Nat.mul_le_mul_left _ hi
  have hn : 0 < n := by omega
  intro c
  have h1 : c % (n * R) = i * n + a := by
    simp only [c]; rw [Nat.add_mul_mod_self_right, Nat.mod_eq_of_lt hlt]
  have h2 : c / (n * R) = j * n + b := by
    simp only [c]
    rw [Nat.add_mul_div_right _ _ (by omega), Nat.div_eq_of_lt hlt, Nat.zero_add]
  have d : ∀ p q, q < n → (p * n + q) / n = p ∧ (p * n + q) % n = q := by
    intro p q hq
    constructor
    · rw [Nat.add_comm, Nat.add_mul_div_right _ _ hn, Nat.div_eq_of_lt hq, Nat.zero_add]
    · rw [Nat.add_comm, Nat.add_mul_mod_self_right, Nat.mod_eq_of_lt hq]
  rw [h1, h2]
  exact ⟨(d i a ha).1, (d i a ha).2, (d j b hb).1, (d j b hb).2⟩

theorem cell_lt {n R i j a b : Nat} (hi : i < R) (hj : j < R) (ha : a < n) (hb : b < n) :
    (i * n + a) + (j * n + b) * (n * R) < n * R * (n * R) := by
  have h : ∀ p q, p < R → q < n → p * n + q < n * R := by
    intro p q hp hq
    calc p * n + q < p * n + n := by omega
      _ = n * (p + 1) := by ring
      _ ≤ n * R := Nat.mul_le_mul_left _ hp
  have := Detran.Mesh.idx_row_lt (h i a hi ha) (h j b hj hb)
  exact this

section
variable {K : Type} [Field K]

theorem tile_spec (comps : List (Piece K)) (map : List Int) (R n : Nat)
    (val : Nat → Piece K → Nat → Option Int) (g : Nat → Nat → Int)
    (h : ∀ p, p < R * R → ∃ c, pick comps map p = some c ∧
      ∀ k, k < n * n → val p c k = some (g p k)) :
    ∃ out, tile comps map R n n val = some out ∧ out.length = n * R * (n * R) ∧
      ∀ i j a b, i < R → j < R → a < n → b < n →
        out[(i * n + a) + (j * n + b) * (n * R)]? = some (g (i + j * R) (a + b * n)) := by
  let G : Nat → Int := fun c =>
    g (c % (n * R) / n + c / (n * R) / n * R) (c % (n * R) % n + c / (n * R) % n * n)
  have hG : ∀ i j a b, i < R → a < n → b < n →
      G ((i * n + a) + (j * n + b) * (n * R)) = g (i + j * R) (a + b * n) := by
    intro i j a b hi ha hb
    obtain ⟨h1, h2, h3, h4⟩ := decode (j := j) hi ha hb
    simp only [G]; rw [h1, h2, h3, h4]
  have mem : ∀ w, w ∈ ((List.range R).flatMap fun j => (List.range R).flatMap fun i =>
      (block n n (n * R) i j).map fun (cell, count) =>
        (cell, do let c ← pick comps map (i + j * R); val (i + j * R) c count)) ↔
      ∃ i j a b, i < R ∧ j < R ∧ a < n ∧ b < n ∧
        w = ((i * n + a) + (j * n + b) * (n * R), some (g (i + j * R) (a + b * n))) := by
    intro w
    have hpair : ∀ i j a b, i < R → j < R → a < n → b < n →
        (do let c ← pick comps map (i + j * R); val (i + j * R) c (a + b * n)) =
          some (g (i + j * R) (a + b * n)) := by
      intro i j a b hi hj ha hb
      obtain ⟨c, hc, hv⟩ := h (i + j * R) (Detran.Mesh.idx_row_lt hi hj)
      rw [hc]
      exact hv _ (Detran.Mesh.idx_row_lt ha hb)
    simp only [List.mem_flatMap, List.mem_range, List.mem_map, Prod.exists, mem_block]
    constructor
    · rintro ⟨j, hj, i, hi, cell, count, ⟨a, b, ha, hb, rfl, rfl⟩, rfl⟩
      exact ⟨i, j, a, b, hi, hj, ha, hb, by rw [hpair i j a b hi hj ha hb]⟩
    · rintro ⟨i, j, a, b, hi, hj, ha, hb, rfl⟩
      exact ⟨j, hj, i, hi, _, _, ⟨a, b, ha, hb, rfl, rfl⟩, by rw [hpair i j a b hi hj ha hb]⟩
  obtain ⟨out, ho, hl, hg⟩ := applyWrites_spec G _ (List.replicate (n * R * (n * R)) 0) (by
    intro w hw
    obtain ⟨i, j, a, b, hi, hj, ha, hb, rfl⟩ := (mem w).1 hw
    refine ⟨by simpa using cell_lt hi hj ha hb, ?_⟩
    simp only [hG i j a b hi ha hb])
  refine ⟨out, ho, by simpa using hl, ?_⟩
  intro i j a b hi hj ha hb
  rw [hg _ ⟨_, (mem _).2 ⟨i, j, a, b, hi, hj, ha, hb, rfl⟩, rfl⟩, hG i j a b hi ha hb]

theorem edgeLoop_spec : ∀ (l : List K) (e : List K) (jj : Nat), jj + l.length < e.length →
    ∃ out, edgeLoop e jj (l.map some) = some out ∧ out.length = e.length ∧
      (∀ q, q ≤ jj → out[q]? = e[q]?) ∧
      ∀ t, t ≤ l.length → out[jj + t]? = some (e.getD jj 0 + (l.take t).sum)
  | [], e, jj, h => by
      refine ⟨e, rfl, rfl, fun _ _ => rfl, ?_⟩
      intro t ht
      simp at ht h
      subst ht
      simp [List.getElem?_eq_getElem h]
  | d :: l, e, jj, h => by
      rw [List.length_cons] at h
      have hj : jj < e.length := by omega
      have hj1 : jj + 1 < e.length := by omega
      have h' : (jj + 1) + l.length < (e.set (jj + 1) (e[jj] + d)).length := by
        rw [List.length_set]; omega
      obtain ⟨out, ho, hl, hlo, hs⟩ := edgeLoop_spec l (e.set (jj + 1) (e[jj] + d)) (jj + 1) h'
      refine ⟨out, ?_, by simpa using hl, ?_, ?_⟩
      · simp only [List.map_cons, edgeLoop, List.getElem?_eq_getElem hj, if_pos hj1, ho]
      · intro q hq
        rw [hlo q (by omega), List.getElem?_set_ne (by omega)]
      · intro t ht
        cases t with
        | zero =>
            rw [Nat.add_zero, hlo jj (by omega), List.getElem?_set_ne (by omega)]
            simp [List.getElem?_eq_getElem hj]
        | succ t =>
            have := hs t (by simpa using ht)
            rw [show jj + (t + 1) = jj + 1 + t by omega, this]
            simp [hj1, List.getElem?_eq_getElem hj, add_assoc]

theorem take_flatten_sum (n : Nat) : ∀ (rows : List (List K)), (∀ r ∈ rows, r.length = n) →
    ∀ j b r, rows[j]? = some r → b ≤ n →
      (rows.flatten.take (j * n + b)).sum = ((rows.take j).map List.sum).sum + (r.take b).sum
  | [], _, j, b, r, h, _ => by simp at h
  | r0 :: rows, hr, 0, b, r, h, hb => by
      simp at h; subst h
      have := hr r0 (by simp)
      simp [List.take_append_of_le_length (by omega : b ≤ r0.length)]
  | r0 :: rows, hr, j + 1, b, r, h, hb => by
      have h0 := hr r0 (by simp)
      have ih := take_flatten_sum n rows (fun r h => hr r (by simp [h])) j b r (by simpa using h) hb
      have e : (j + 1) * n + b = r0.length + (j * n + b) := by rw [h0]; ring
      rw [List.flatten_cons, e, List.take_length_add_append, List.sum_append, ih]
      simp [add_assoc]

end

end Detran.Lattice
