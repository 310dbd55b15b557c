import Verif.Model.Mesh
import Mathlib.Tactic.Ring
import Mathlib.Tactic.Linarith
import Mathlib.Tactic.FieldSimp
import Mathlib.Tactic.Push

/-! Helper lemmas for the mesh model. -/

namespace Detran.Mesh

theorem u32_of_lt {n : Nat} (h : n < 4294967296) : u32 n = n := Nat.mod_eq_of_lt h

/-! ### Writes -/

theorem applyWrites_spec {V : Type} (g : Nat → V) :
    ∀ (ws : List (Nat × Option V)) (arr : List V),
      (∀ w ∈ ws, w.1 < arr.length ∧ w.2 = some (g w.1)) →
      ∃ out, applyWrites arr ws = some out ∧ out.length = arr.length ∧
        ∀ p, (∃ w ∈ ws, w.1 = p) → out[p]? = some (g p)
  | [], arr, _ => ⟨arr, rfl, rfl, fun p ⟨w, hw, _⟩ => by simp at hw⟩
  | (p, v) :: ws, arr, h => by
      obtain ⟨hp, hv⟩ := h (p, v) (by simp)
      simp only at hp hv
      subst hv
      have h' : ∀ w ∈ ws, w.1 < (arr.set p (g p)).length ∧ w.2 = some (g w.1) := by
        intro w hw; simpa using h w (by simp [hw])
      obtain ⟨out, ho, hl, hg⟩ := applyWrites_spec g ws (arr.set p (g p)) h'
      refine ⟨out, by simp [applyWrites, hp, ho], by simpa using hl, ?_⟩
      intro q hq
      by_cases hq' : ∃ w ∈ ws, w.1 = q
      · exact hg q hq'
      · have hqp : q = p := by
          obtain ⟨w, hw, rfl⟩ := hq
          rcases List.mem_cons.1 hw with rfl | hw
          · rfl
          · exact absurd ⟨w, hw, rfl⟩ hq'
        subst hqp
        -- later writes do not touch q
        have key : ∀ (ws : List (Nat × Option V)) (a o : List V), (¬ ∃ w ∈ ws, w.1 = q) →
            applyWrites a ws = some o → o[q]? = a[q]? := by
          intro ws
          induction ws with
          | nil => intro a o _ h; simp [applyWrites] at h; simp [h]
          | cons w ws ih =>
              intro a o hn h
              obtain ⟨r, _ | v⟩ := w
              · simp [applyWrites] at h
              · simp only [applyWrites] at h
                split at h
                · have := ih _ _ (fun ⟨w, hw, e⟩ => hn ⟨w, by simp [hw], e⟩) h
                  rw [this, List.getElem?_set_ne]
                  intro e; exact hn ⟨(r, some v), by simp, e⟩
                · simp at h
        rw [key ws _ _ hq' ho]
        simp [hp]

theorem mem_upTo {lo hi x : Nat} : x ∈ upTo lo hi ↔ lo ≤ x ∧ x < hi := by
  simp only [upTo, List.mem_map, List.mem_range]
  constructor
  · rintro ⟨a, ha, rfl⟩; omega
  · rintro ⟨h1, h2⟩; exact ⟨x - lo, by omega, by omega⟩

/-! ### Coarse segments -/

theorem take_succ_sum (fm : List Nat) (c : Nat) (h : c < fm.length) :
    (fm.take (c + 1)).sum = (fm.take c).sum + fm[c] := by
  rw [List.take_succ_eq_append_getElem h, List.sum_append, List.sum_singleton]

theorem mem_segsFrom (fm : List Nat) (s : Nat × Nat × Nat) :
    ∀ (rest : List Nat) (c : Nat), rest = fm.drop c →
      (s ∈ segsFrom fm c (fm.take c).sum rest ↔
        c ≤ s.1 ∧ s.1 < fm.length ∧ s.2.1 = (fm.take s.1).sum ∧
          s.2.2 = (fm.take (s.1 + 1)).sum)
  | [], c, h => by
      have : fm.length ≤ c := by simpa using (List.drop_eq_nil_iff).1 h.symm
      simp only [segsFrom, List.not_mem_nil, false_iff]
      omega
  | f :: rest, c, h => by
      have hc : c < fm.length := by
        by_contra hh
        rw [List.drop_eq_nil_of_le (by omega)] at h
        simp at h
      rw [List.drop_eq_getElem_cons hc] at h
      obtain ⟨hf, hr⟩ := List.cons.inj h
      have ih := mem_segsFrom fm s rest (c + 1) hr
      obtain ⟨a, b, d⟩ := s
      simp only [segsFrom, List.mem_cons, Prod.mk.injEq] at ih ⊢
      rw [ih]
      have ts := take_succ_sum fm c hc
      constructor
      · rintro (⟨rfl, rfl, rfl⟩ | ⟨h1, h2, h3, h4⟩)
        · exact ⟨le_refl _, hc, rfl, by rw [ts, hf]⟩
        · exact ⟨by omega, h2, h3, h4⟩
      · rintro ⟨h1, h2, h3, h4⟩
        rcases Nat.eq_or_lt_of_le h1 with rfl | h1
        · left; exact ⟨rfl, h3, by rw [h4, ts, hf]⟩
        · right; exact ⟨h1, h2, h3, h4⟩

theorem mem_segs (fm : List Nat) (c lo hi : Nat) :
    (c, lo, hi) ∈ segs fm ↔
      c < fm.length ∧ lo = (fm.take c).sum ∧ hi = (fm.take (c + 1)).sum := by
  have := mem_segsFrom fm (c, lo, hi) fm 0 (by simp)
  simpa [segs] using this

/-- The coarse cell holding fine position `p`. -/
def coarseOf : List Nat → Nat → Nat
  | [], _ => 0
  | f :: fs, p => if p < f then 0 else coarseOf fs (p - f) + 1

theorem coarseOf_spec : ∀ (fm : List Nat) (p : Nat), p < fm.sum →
    coarseOf fm p < fm.length ∧ (fm.take (coarseOf fm p)).sum ≤ p ∧
      p < (fm.take (coarseOf fm p + 1)).sum
  | [], p, h => by simp at h
  | f :: fs, p, h => by
      simp only [coarseOf]
      split
      · next h' => simp [h']
      · next h' =>
          have hs : p - f < fs.sum := by simp at h; omega
          obtain ⟨h1, h2, h3⟩ := coarseOf_spec fs (p - f) hs
          simp only [List.length_cons, List.take_succ_cons, List.sum_cons]
          omega

theorem take_sum_mono (fm : List Nat) {a b : Nat} (h : a ≤ b) :
    (fm.take a).sum ≤ (fm.take b).sum := by
  induction b, h using Nat.le_induction with
  | base => exact le_refl _
  | succ n hn ih =>
      by_cases h : n < fm.length
      · rw [take_succ_sum fm n h]; omega
      · have e1 := List.take_of_length_le (by omega : fm.length ≤ n + 1)
        have e2 := List.take_of_length_le (by omega : fm.length ≤ n)
        rw [e1]; rw [e2] at ih; exact ih

theorem take_sum_le (fm : List Nat) (a : Nat) : (fm.take a).sum ≤ fm.sum := by
  by_cases h : a ≤ fm.length
  · have := take_sum_mono fm h; simpa using this
  · rw [List.take_of_length_le (by omega)]

theorem coarse_unique (fm : List Nat) (p c d : Nat)
    (hc1 : (fm.take c).sum ≤ p) (hc2 : p < (fm.take (c + 1)).sum)
    (hd1 : (fm.take d).sum ≤ p) (hd2 : p < (fm.take (d + 1)).sum) : c = d := by
  rcases Nat.lt_trichotomy c d with h | h | h
  · have := take_sum_mono fm (show c + 1 ≤ d from h); omega
  · exact h
  · have := take_sum_mono fm (show d + 1 ≤ c from h); omega

theorem coarseOf_eq (fm : List Nat) (p c : Nat)
    (hc1 : (fm.take c).sum ≤ p) (hc2 : p < (fm.take (c + 1)).sum) : coarseOf fm p = c := by
  have hp : p < fm.sum := lt_of_lt_of_le hc2 (take_sum_le fm _)
  obtain ⟨_, h2, h3⟩ := coarseOf_spec fm p hp
  exact coarse_unique fm p _ _ h2 h3 hc1 hc2

/-! ### Row-major index arithmetic -/

theorem idx_lt {nx ny nz i j k : Nat} (hi : i < nx) (hj : j < ny) (hk : k < nz) :
    i + j * nx + k * nx * ny < nx * ny * nz := by
  have h1 : i + j * nx < nx * ny := by
    calc i + j * nx < nx + j * nx := by omega
      _ = (j + 1) * nx := by ring
      _ ≤ ny * nx := Nat.mul_le_mul_right _ hj
      _ = nx * ny := Nat.mul_comm _ _
  calc i + j * nx + k * nx * ny < nx * ny + k * (nx * ny) := by
        rw [Nat.mul_assoc]; omega
    _ = (k + 1) * (nx * ny) := by ring
    _ ≤ nz * (nx * ny) := Nat.mul_le_mul_right _ hk
    _ = nx * ny * nz := Nat.mul_comm _ _

theorem idx_row_lt {nx ny i j : Nat} (hi : i < nx) (hj : j < ny) : i + j * nx < nx * ny := by
  have := idx_lt hi hj (Nat.zero_lt_one)
  simpa using this

theorem idx_i {nx ny i j k : Nat} (hi : i < nx) : (i + j * nx + k * nx * ny) % nx = i := by
  have : i + j * nx + k * nx * ny = i + nx * (j + k * ny) := by ring
  rw [this, Nat.add_mul_mod_self_left, Nat.mod_eq_of_lt hi]

theorem idx_j {nx ny i j k : Nat} (hi : i < nx) (hj : j < ny) :
    (i + j * nx + k * nx * ny) % (nx * ny) / nx = j := by
  have h1 := idx_row_lt hi hj
  have : i + j * nx + k * nx * ny = i + j * nx + (nx * ny) * k := by ring
  rw [this, Nat.add_mul_mod_self_left, Nat.mod_eq_of_lt h1]
  rw [Nat.add_mul_div_right _ _ (by omega), Nat.div_eq_of_lt hi, Nat.zero_add]

theorem idx_k {nx ny i j k : Nat} (hi : i < nx) (hj : j < ny) :
    (i + j * nx + k * nx * ny) / (nx * ny) = k := by
  have h1 := idx_row_lt hi hj
  have : i + j * nx + k * nx * ny = i + j * nx + (nx * ny) * k := by ring
  rw [this, Nat.add_mul_div_left _ _ (by omega), Nat.div_eq_of_lt h1, Nat.zero_add]

theorem idx_decomp {nx ny : Nat} (c : Nat) :
    c % nx + c % (nx * ny) / nx * nx + c / (nx * ny) * nx * ny = c := by
  have h1 : c % (nx * ny) % nx + nx * (c % (nx * ny) / nx) = c % (nx * ny) := Nat.mod_add_div _ _
  rw [Nat.mod_mul_right_mod] at h1
  have h2 : c % (nx * ny) + (nx * ny) * (c / (nx * ny)) = c := Nat.mod_add_div _ _
  calc _ = (c % nx + nx * (c % (nx * ny) / nx)) + (nx * ny) * (c / (nx * ny)) := by ring
    _ = c := by rw [h1, h2]

end Detran.Mesh
