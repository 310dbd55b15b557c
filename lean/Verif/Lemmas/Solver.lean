import Verif.Model.Solver
import Mathlib.Algebra.BigOperators.Intervals
import Mathlib.Algebra.BigOperators.Ring.Finset
import Mathlib.Algebra.BigOperators.Fin
import Mathlib.Tactic.Ring
import Mathlib.Tactic.Linarith
import Mathlib.Tactic.FieldSimp

/-! # Lemmas on loops over compressed rows -/

namespace Detran.Solver

open Detran.Matrix Finset

variable {K : Type} [Field K]

theorem sum_seg (lo hi : Nat) (g : Nat → K) : ((seg lo hi).map g).sum = ∑ p ∈ Ico lo hi, g p := rfl

theorem foldl_add_map (l : List Nat) (g : Nat → K) (v : K) :
    l.foldl (fun v p => v + g p) v = v + (l.map g).sum := by
  induction l generalizing v with
  | nil => simp
  | cons a l ih => rw [List.foldl_cons, ih]; simp [add_assoc]

theorem foldl_seg_add (lo hi : Nat) (g : Nat → K) (v : K) :
    (seg lo hi).foldl (fun v p => v + g p) v = v + ∑ p ∈ Ico lo hi, g p := by
  rw [foldl_add_map, sum_seg]

theorem mem_seg {lo hi p : Nat} : p ∈ seg lo hi ↔ lo ≤ p ∧ p < hi := by
  simp only [seg, List.mem_range'_1]; omega

theorem upd_same {α : Type} (y : Nat → α) (i : Nat) (v : α) : upd y i v i = v := by simp [upd]
theorem upd_ne {α : Type} (y : Nat → α) {i k : Nat} (v : α) (h : k ≠ i) : upd y i v k = y k := by
  simp [upd, h]

/-- In-place accumulation into entry `i` when no entry read is `i` itself. -/
theorem foldl_inplace (P : CSR K) (i : Nat) (l : List Nat) (hl : ∀ p ∈ l, cl P p ≠ i)
    (y : Nat → K) :
    l.foldl (fun y p => upd y i (y i - P.value p * y (cl P p))) y =
      upd y i (y i - (l.map fun p => P.value p * y (cl P p)).sum) := by
  induction l generalizing y with
  | nil => funext k; simp [upd]; intro h; rw [h]
  | cons a l ih =>
    rw [List.foldl_cons, ih (fun p hp => hl p (by simp [hp]))]
    have h1 : (l.map fun p => P.value p * upd y i (y i - P.value a * y (cl P a)) (cl P p)) =
        l.map fun p => P.value p * y (cl P p) := by
      refine List.map_congr_left fun p hp => ?_
      rw [upd_ne _ _ (hl p (by simp [hp]))]
    rw [h1, upd_same]
    funext k
    by_cases hk : k = i
    · subst hk; simp [upd]; ring
    · simp [upd, hk]

/-- Square matrix in compressed storage as assembly produces it when no column was stored twice:
    each row's diagonal pointer splits the row into columns below and above the row index, and
    columns are strictly increasing and inside the matrix. -/
structure WF (A : CSR K) : Prop where
  square : A.m = A.n
  diag_ge : ∀ i < A.m, A.start i ≤ dg A i
  diag_lt : ∀ i < A.m, dg A i < A.stop i
  diag_col : ∀ i < A.m, cl A (dg A i) = i
  len : ∀ i < A.m, A.stop i ≤ A.vals.length
  bound : ∀ i < A.m, ∀ p, A.start i ≤ p → p < A.stop i → cl A p < A.m
  strict : ∀ i < A.m, ∀ p q, A.start i ≤ p → p < q → q < A.stop i → cl A p < cl A q

/-- The coefficient in row `i` and column `j`: sum of the stored values with that column. -/
def entry (A : CSR K) (i j : Nat) : K :=
  ∑ p ∈ Ico (A.start i) (A.stop i), if cl A p = j then A.value p else 0

theorem WF.lower {A : CSR K} (h : WF A) {i : Nat} (hi : i < A.m) {p : Nat}
    (h1 : A.start i ≤ p) (h2 : p < dg A i) : cl A p < i := by
  have := h.strict i hi p (dg A i) h1 h2 (h.diag_lt i hi)
  rwa [h.diag_col i hi] at this

theorem WF.upper {A : CSR K} (h : WF A) {i : Nat} (hi : i < A.m) {p : Nat}
    (h1 : dg A i < p) (h2 : p < A.stop i) : i < cl A p := by
  have := h.strict i hi (dg A i) p (h.diag_ge i hi) h1 h2
  rwa [h.diag_col i hi] at this

theorem WF.split {A : CSR K} (h : WF A) {i : Nat} (hi : i < A.m) (g : Nat → K) :
    ∑ p ∈ Ico (A.start i) (A.stop i), g p =
      ∑ p ∈ Ico (A.start i) (dg A i), g p + g (dg A i) +
        ∑ p ∈ Ico (dg A i + 1) (A.stop i), g p := by
  have h1 := h.diag_ge i hi
  have h2 := h.diag_lt i hi
  rw [← sum_Ico_consecutive g h1 (le_of_lt h2), add_assoc]
  congr 1
  rw [sum_eq_sum_Ico_succ_bot h2]

theorem entry_diag {A : CSR K} (h : WF A) {i : Nat} (hi : i < A.m) :
    entry A i i = A.value (dg A i) := by
  unfold entry
  rw [h.split hi, h.diag_col i hi]
  rw [sum_eq_zero, sum_eq_zero]
  · simp
  · intro p hp
    rw [mem_Ico] at hp
    rw [if_neg]
    have := h.upper hi (by omega) hp.2; omega
  · intro p hp
    rw [mem_Ico] at hp
    rw [if_neg]
    have := h.lower hi hp.1 hp.2; omega

/-- A weighted sum over a part of a row whose columns all lie in `S`, as a sum over columns. -/
theorem sum_cols (A : CSR K) (s : Finset Nat) (S : Finset Nat) (hs : ∀ p ∈ s, cl A p ∈ S)
    (f : Nat → K) :
    ∑ p ∈ s, A.value p * f (cl A p) =
      ∑ j ∈ S, (∑ p ∈ s, if cl A p = j then A.value p else 0) * f j := by
  simp only [sum_mul]
  rw [sum_comm]
  refine sum_congr rfl fun p hp => ?_
  rw [sum_eq_single_of_mem _ (hs p hp)]
  · simp
  · intro j _ hj
    rw [if_neg (Ne.symm hj), zero_mul]

theorem row_all {A : CSR K} (h : WF A) {i : Nat} (hi : i < A.m) (f : Nat → K) :
    ∑ p ∈ Ico (A.start i) (A.stop i), A.value p * f (cl A p) =
      ∑ j ∈ range A.m, entry A i j * f j :=
  sum_cols A _ _ (fun p hp => mem_range.mpr (by
    rw [mem_Ico] at hp; exact h.bound i hi p hp.1 hp.2)) f

theorem row_lower {A : CSR K} (h : WF A) {i : Nat} (hi : i < A.m) (f : Nat → K) :
    ∑ p ∈ Ico (A.start i) (dg A i), A.value p * f (cl A p) =
      ∑ j ∈ range i, entry A i j * f j := by
  rw [sum_cols A _ (range i) (fun p hp => mem_range.mpr (by
    rw [mem_Ico] at hp; exact h.lower hi hp.1 hp.2)) f]
  refine sum_congr rfl fun j hj => ?_
  rw [mem_range] at hj
  congr 1
  unfold entry
  rw [h.split hi, h.diag_col i hi, if_neg (by omega), add_zero]
  rw [sum_eq_zero (s := Ico (dg A i + 1) (A.stop i)), add_zero]
  intro p hp
  rw [mem_Ico] at hp
  rw [if_neg]
  have := h.upper hi (by omega) hp.2; omega

theorem row_upper {A : CSR K} (h : WF A) {i : Nat} (hi : i < A.m) (f : Nat → K) :
    ∑ p ∈ Ico (dg A i + 1) (A.stop i), A.value p * f (cl A p) =
      ∑ j ∈ Ico (i + 1) A.m, entry A i j * f j := by
  rw [sum_cols A _ (Ico (i + 1) A.m) (fun p hp => mem_Ico.mpr (by
    rw [mem_Ico] at hp
    have h1 := h.upper hi (by omega) hp.2
    have h2 := h.bound i hi p (by have := h.diag_ge i hi; omega) hp.2
    omega)) f]
  refine sum_congr rfl fun j hj => ?_
  rw [mem_Ico] at hj
  congr 1
  unfold entry
  rw [h.split hi, h.diag_col i hi, if_neg (by omega), add_zero]
  rw [sum_eq_zero (s := Ico (A.start i) (dg A i)), zero_add]
  intro p hp
  rw [mem_Ico] at hp
  rw [if_neg]
  have := h.lower hi hp.1 hp.2; omega

theorem row_split {A : CSR K} {i : Nat} (hi : i < A.m) (f : Nat → K) :
    ∑ j ∈ range A.m, entry A i j * f j =
      ∑ j ∈ range i, entry A i j * f j + entry A i i * f i +
        ∑ j ∈ Ico (i + 1) A.m, entry A i j * f j := by
  rw [← sum_range_add_sum_Ico _ (le_of_lt hi), add_assoc]
  congr 1
  rw [sum_eq_sum_Ico_succ_bot hi]

/-- Loop in increasing order whose step `i` writes entry `i` with a value that only depends on
    entries below `i`. -/
theorem foldl_up (n : Nat) (g : (Nat → K) → Nat → K)
    (hg : ∀ i < n, ∀ y y' : Nat → K, (∀ k < i, y k = y' k) → g y i = g y' i) (y0 : Nat → K) :
    (∀ i < n, ((List.range n).foldl (fun y i => upd y i (g y i)) y0) i =
      g ((List.range n).foldl (fun y i => upd y i (g y i)) y0) i) ∧
    ∀ i, n ≤ i → ((List.range n).foldl (fun y i => upd y i (g y i)) y0) i = y0 i := by
  induction n with
  | zero => simp
  | succ n ih =>
    obtain ⟨h1, h2⟩ := ih (fun i hi => hg i (by omega))
    rw [List.range_succ, List.foldl_append, List.foldl_cons, List.foldl_nil]
    set y := (List.range n).foldl (fun y i => upd y i (g y i)) y0
    refine ⟨fun i hi => ?_, fun i hi => ?_⟩
    · by_cases hin : i = n
      · subst hin
        rw [upd_same]
        exact hg i (by omega) _ _ (fun k hk => by rw [upd_ne _ _ (by omega)])
      · rw [upd_ne _ _ hin, h1 i (by omega)]
        exact hg i hi _ _ (fun k hk => by rw [upd_ne _ _ (by omega)])
    · rw [upd_ne _ _ (by omega)]; exact h2 i (by omega)

/-- Loop in decreasing order whose step `i` writes entry `i` with a value that only depends on
    entries above `i`. -/
theorem foldl_down (n : Nat) (g : (Nat → K) → Nat → K)
    (hg : ∀ i < n, ∀ y y' : Nat → K, (∀ k, i < k → y k = y' k) → g y i = g y' i) (y0 : Nat → K) :
    (∀ i < n, ((List.range n).reverse.foldl (fun y i => upd y i (g y i)) y0) i =
      g ((List.range n).reverse.foldl (fun y i => upd y i (g y i)) y0) i) ∧
    ∀ i, n ≤ i → ((List.range n).reverse.foldl (fun y i => upd y i (g y i)) y0) i = y0 i := by
  induction n generalizing y0 with
  | zero => simp
  | succ n ih =>
    obtain ⟨h1, h2⟩ := ih (fun i hi => hg i (by omega)) (upd y0 n (g y0 n))
    rw [List.range_succ, List.reverse_append, List.reverse_singleton, List.singleton_append,
      List.foldl_cons]
    refine ⟨fun i hi => ?_, fun i hi => ?_⟩
    · by_cases hin : i = n
      · subst hin
        rw [h2 i (le_refl _), upd_same]
        refine hg i hi _ _ (fun k hk => ?_)
        rw [h2 k (by omega), upd_ne _ _ (by omega)]
      · exact h1 i (by omega)
    · rw [h2 i (by omega), upd_ne _ _ (by omega)]

end Detran.Solver
