import Verif.Lemmas.Solver
import Verif.Props.Matrix
import Mathlib.Algebra.Order.Ring.Rat
import Mathlib.Tactic.LinearCombination
import Mathlib.Algebra.BigOperators.Field

/-!
# Properties of the preconditioners and stationary solvers (C15 – C19)

`entry A i j` is the coefficient of the stored matrix, `WF A` the shape of an assembled square
matrix in which no column was stored twice (`wf_assembled` derives it from any history of
insertions).
-/

namespace Detran.Solver

open Detran.Matrix Finset

variable {K : Type} [Field K]

/-- Every assembled square matrix without doubly stored columns is well formed. -/
theorem wf_assembled (srt : List (Trip K) → List (Trip K)) (hs : IsSort srt) (n : Nat)
    (nnz : Nat → Nat) (ops : List (Matrix.One K)) (hin : InRange n n ops) (A : Coo K) (bs : List Bool)
    (hA : runOnes (preallocate n n nnz) ops = .ok (A, bs)) (C : CSR K)
    (hC : A.assemble srt = some C) (hnd : ∀ i < n, (storedCols nnz ops i).Nodup) : WF C := by
  obtain ⟨h1, h2, h3, h4, h5, h6, h7⟩ := C09_shape srt hs n n nnz ops hin A bs hA C hC
  have hst := fun i hi => C09_strict_columns srt hs n n nnz ops hin A bs hA C hC i hi
  have hd : ∀ i < C.m, A.assemble srt = some C → C.start i ≤ dg C i ∧ dg C i < C.stop i ∧
      cl C (dg C i) = i := by
    intro i hi _
    rw [h1] at hi
    obtain ⟨d, e1, e2, e3, e4⟩ := (h7 i hi).2.2.2.2 hi
    have : dg C i = d := by simp [dg, e1]
    rw [this]
    exact ⟨e2, e3, by simp [cl, e4]⟩
  have hmono : ∀ k j, j + k ≤ n → C.start j ≤ C.start (j + k) := by
    intro k
    induction k with
    | zero => intro j _; exact le_refl _
    | succ k ih =>
      intro j hj
      have a1 := ih j (by omega)
      have a2 := h7 (j + k) (by omega)
      have : C.start (j + k + 1) = C.stop (j + k) := a2.2.1
      rw [show j + (k + 1) = j + k + 1 by omega, this]
      omega
  refine ⟨h1.trans h2.symm, fun i hi => (hd i hi hC).1, fun i hi => (hd i hi hC).2.1,
    fun i hi => (hd i hi hC).2.2, fun i hi => ?_, fun i hi p hp1 hp2 => ?_,
    fun i hi p q hp hpq hq => ?_⟩
  · rw [h1] at hi
    have a := hmono (n - (i + 1)) (i + 1) (by omega)
    rw [show i + 1 + (n - (i + 1)) = n by omega, (h7 i hi).2.1] at a
    rw [h5, ← h6]
    exact a
  · rw [h1] at hi ⊢
    have := (h7 i hi).2.2.1 p hp1 hp2
    simp only [cl]; omega
  · rw [h1] at hi
    have a := hst i hi (hnd i hi) p q hp hpq hq
    have b := (h7 i hi).2.2.1 p hp (by omega)
    simp only [cl]; omega

/-- The 3 × 3 tridiagonal matrix used in the examples: rows (4 1 0), (2 5 1), (0 3 6). -/
def tri : CSR ℚ :=
  ⟨3, 3, [0, 2, 5, 7], [0, 1, 0, 1, 2, 1, 2], [4, 1, 2, 5, 1, 3, 6], [some 0, some 3, some 6]⟩

theorem tri_stop : ∀ i < tri.m, tri.stop i ≤ 7 := by decide +kernel

theorem tri_wf : WF tri := by
  refine ⟨rfl, ?_, ?_, ?_, ?_, ?_, ?_⟩
  · decide +kernel
  · decide +kernel
  · decide +kernel
  · decide +kernel
  · intro i hi p h1 h2
    have h3 : p < 7 := lt_of_lt_of_le h2 (tri_stop i hi)
    have : ∀ i < tri.m, ∀ p < 7, tri.start i ≤ p → p < tri.stop i → cl tri p < tri.m := by
      decide +kernel
    exact this i hi p h3 h1 h2
  · intro i hi p q h1 h2 h4
    have h3 : q < 7 := lt_of_lt_of_le h4 (tri_stop i hi)
    have : ∀ i < tri.m, ∀ q < 7, ∀ p < q, tri.start i ≤ p → q < tri.stop i →
      cl tri p < cl tri q := by decide +kernel
    exact this i hi q h3 p h2 h1 h4

/-! ## C15 : application of incomplete factors -/

/-- Product with the unit lower part: `y_i + ∑_{j<i} a_ij y_j`. -/
def lowerMul (P : CSR K) (y : Nat → K) (i : Nat) : K := ∑ j ∈ range i, entry P i j * y j + y i

/-- Product with the upper part, diagonal included: `∑_{j≥i} a_ij x_j`. -/
def upperMul (P : CSR K) (x : Nat → K) (i : Nat) : K := ∑ j ∈ Ico i P.m, entry P i j * x j

theorem upperMul_split (P : CSR K) (x : Nat → K) {i : Nat} (hi : i < P.m) :
    upperMul P x i = entry P i i * x i + ∑ j ∈ Ico (i + 1) P.m, entry P i j * x j := by
  unfold upperMul
  rw [sum_eq_sum_Ico_succ_bot hi]

theorem forward_solves {P : CSR K} (h : WF P) (b y0 : Nat → K) :
    ∀ i < P.m, lowerMul P (forward P b y0) i = b i := by
  have hrw : forward P b y0 = (List.range P.m).foldl (fun y i =>
      upd y i (if i < P.m then b i - ∑ p ∈ Ico (P.start i) (dg P i), P.value p * y (cl P p)
        else 0)) y0 := by
    unfold forward
    refine List.foldl_ext _ _ _ fun y i hi => ?_
    have hi' := List.mem_range.mp hi
    rw [foldl_inplace P i _ (fun p hp => by
      have := mem_seg.mp hp
      have := h.lower hi' this.1 this.2; omega), if_pos hi', upd_same]
    have : ((seg (P.start i) (dg P i)).map fun p => P.value p * upd y i (b i) (cl P p)) =
        (seg (P.start i) (dg P i)).map fun p => P.value p * y (cl P p) := by
      refine List.map_congr_left fun p hp => ?_
      have := mem_seg.mp hp
      have := h.lower hi' this.1 this.2
      rw [upd_ne _ _ (by omega)]
    rw [this, sum_seg]
    funext k
    by_cases hk : k = i <;> simp [upd, hk]
  have key := (foldl_up P.m (fun y i => if i < P.m then
      b i - ∑ p ∈ Ico (P.start i) (dg P i), P.value p * y (cl P p) else 0)
    (fun i hi y y' hyy => by
      simp only [if_pos hi]
      congr 1
      refine sum_congr rfl fun p hp => ?_
      rw [mem_Ico] at hp
      rw [hyy _ (h.lower hi hp.1 hp.2)]) y0).1
  rw [← hrw] at key
  intro i hi
  unfold lowerMul
  rw [key i hi, if_pos hi, row_lower h hi]
  ring

theorem backward_eq {P : CSR K} (h : WF P) (hp : ∀ i < P.m, entry P i i ≠ 0) (y x0 : Nat → K) :
    (∀ i < P.m, upperMul P (backward 1 P y x0) i = y i) ∧
    (∀ i < P.m, upperMul P (backward 0 P y x0) i = (1 - entry P i i) * y i) := by
  have dgne : ∀ i < P.m, P.value (dg P i) ≠ 0 := fun i hi => by
    rw [← entry_diag h hi]; exact hp i hi
  have up : ∀ i < P.m, ∀ p ∈ seg (dg P i + 1) (P.stop i), cl P p ≠ i := fun i hi p hp => by
    have h1 := mem_seg.mp hp
    have := h.upper hi (by omega) h1.2; omega
  -- both loops as one-entry updates
  have hrow : ∀ i < P.m, ∀ (c : K) (x : Nat → K),
      (seg (dg P i + 1) (P.stop i)).foldl (fun x p => upd x i (x i - P.value p * x (cl P p)))
        (upd x i c) = upd x i (c - ∑ p ∈ Ico (dg P i + 1) (P.stop i), P.value p * x (cl P p)) := by
    intro i hi c x
    rw [foldl_inplace P i _ (up i hi), upd_same]
    have : ((seg (dg P i + 1) (P.stop i)).map fun p => P.value p * upd x i c (cl P p)) =
        (seg (dg P i + 1) (P.stop i)).map fun p => P.value p * x (cl P p) := by
      refine List.map_congr_left fun p hp => ?_
      rw [upd_ne _ _ (up i hi p hp)]
    rw [this, sum_seg]
    funext k
    by_cases hk : k = i <;> simp [upd, hk]
  have e1 : backward 1 P y x0 = (List.range P.m).reverse.foldl (fun x i => upd x i
      (if i < P.m then (y i - ∑ p ∈ Ico (dg P i + 1) (P.stop i), P.value p * x (cl P p)) /
        P.value (dg P i) else 0)) x0 := by
    unfold backward
    refine List.foldl_ext _ _ _ fun x i hi => ?_
    have hi' : i < P.m := by simpa using hi
    simp only [hrow i hi', upd_same, if_pos hi']
    funext k
    by_cases hk : k = i <;> simp [upd, hk]
  have e0 : backward 0 P y x0 = (List.range P.m).reverse.foldl (fun x i => upd x i
      (if i < P.m then ((1 - P.value (dg P i)) * y i -
        ∑ p ∈ Ico (dg P i + 1) (P.stop i), P.value p * x (cl P p)) /
        P.value (dg P i) else 0)) x0 := by
    unfold backward
    refine List.foldl_ext _ _ _ fun x i hi => ?_
    have hi' : i < P.m := by simpa using hi
    have hlt := h.diag_lt i hi'
    have hseg : seg (dg P i + 0) (P.stop i) = dg P i :: seg (dg P i + 1) (P.stop i) := by
      unfold seg
      rw [show P.stop i - (dg P i + 0) = (P.stop i - (dg P i + 1)) + 1 by omega,
        List.range'_succ]; rfl
    simp only [hseg, List.foldl_cons, if_pos hi', h.diag_col i hi', upd_same]
    have : upd (upd x i (y i)) i (y i - P.value (dg P i) * y i) =
        upd x i (y i - P.value (dg P i) * y i) := by
      funext k; by_cases hk : k = i <;> simp [upd, hk]
    rw [this, hrow i hi', upd_same]
    funext k
    by_cases hk : k = i
    · simp only [upd, hk, if_true]; ring
    · simp [upd, hk]
  have dep : ∀ i < P.m, ∀ x x' : Nat → K, (∀ k, i < k → x k = x' k) →
      ∑ p ∈ Ico (dg P i + 1) (P.stop i), P.value p * x (cl P p) =
      ∑ p ∈ Ico (dg P i + 1) (P.stop i), P.value p * x' (cl P p) := by
    intro i hi x x' hx
    refine sum_congr rfl fun p hp => ?_
    rw [mem_Ico] at hp
    rw [hx _ (h.upper hi (by omega) hp.2)]
  constructor
  · have key := (foldl_down P.m (fun x i => if i < P.m then
        (y i - ∑ p ∈ Ico (dg P i + 1) (P.stop i), P.value p * x (cl P p)) /
          P.value (dg P i) else 0)
      (fun i hi x x' hx => by simp only [if_pos hi, dep i hi x x' hx]) x0).1
    rw [← e1] at key
    intro i hi
    rw [upperMul_split P _ hi, ← row_upper h hi, entry_diag h hi]
    conv_lhs => rw [key i hi, if_pos hi]
    have := dgne i hi
    field_simp
    ring
  · have key := (foldl_down P.m (fun x i => if i < P.m then
        ((1 - P.value (dg P i)) * y i -
          ∑ p ∈ Ico (dg P i + 1) (P.stop i), P.value p * x (cl P p)) /
          P.value (dg P i) else 0)
      (fun i hi x x' hx => by simp only [if_pos hi, dep i hi x x' hx]) x0).1
    rw [← e0] at key
    intro i hi
    rw [upperMul_split P _ hi, ← row_upper h hi, entry_diag h hi]
    conv_lhs => rw [key i hi, if_pos hi]
    have := dgne i hi
    field_simp
    ring

/-- Applying the threshold ILU solves the two triangular systems. -/
theorem C15_ilut_apply {P : CSR K} (h : WF P) (hp : ∀ i < P.m, entry P i i ≠ 0)
    (b x0 : Nat → K) :
    ∀ i < P.m, lowerMul P (upperMul P (ilutApply P b x0)) i = b i := by
  intro i hi
  have h2 := (backward_eq h hp (forward P b (fun _ => 0)) x0).1
  have h1 := forward_solves h b (fun _ => 0) i hi
  unfold lowerMul at h1 ⊢
  unfold ilutApply
  rw [h2 i hi]
  rw [← h1]
  congr 1
  refine sum_congr rfl fun j hj => ?_
  rw [h2 j (by have := mem_range.mp hj; omega)]

/-- What applying ILU(0) computes: the forward solve is right, and the backward solve uses the
    right-hand side `(1 - u_ii) y_i` instead of `y_i`. -/
theorem C15_ilu0_apply_exact {P : CSR K} (h : WF P) (hp : ∀ i < P.m, entry P i i ≠ 0)
    (b y0 x0 : Nat → K) :
    ∃ y : Nat → K, (∀ i < P.m, lowerMul P y i = b i) ∧
      ∀ i < P.m, upperMul P (ilu0Apply P b y0 x0) i = (1 - entry P i i) * y i :=
  ⟨forward P b y0, forward_solves h b y0, (backward_eq h hp _ x0).2⟩

theorem lowerMul_inj {P : CSR K} (y z : Nat → K)
    (h : ∀ i < P.m, lowerMul P y i = lowerMul P z i) : ∀ i < P.m, y i = z i := by
  intro i
  induction i using Nat.strong_induction_on with
  | _ i ih =>
    intro hi
    have h1 := h i hi
    unfold lowerMul at h1
    rw [sum_congr rfl (fun j hj => by rw [ih j (mem_range.mp hj) (by have := mem_range.mp hj; omega)])] at h1
    exact add_left_cancel h1

/-- ILU(0) never solves the two triangular systems, for any stored factors with nonzero pivots
    and any right-hand side other than zero. -/
theorem C15_ilu0_never_solves {P : CSR K} (h : WF P) (hp : ∀ i < P.m, entry P i i ≠ 0)
    (b y0 x0 : Nat → K) (hb : ∃ i < P.m, b i ≠ 0) :
    ¬ ∀ i < P.m, lowerMul P (upperMul P (ilu0Apply P b y0 x0)) i = b i := by
  intro hc
  obtain ⟨y, hy, hx⟩ := C15_ilu0_apply_exact h hp b y0 x0
  have e := lowerMul_inj (P := P) (upperMul P (ilu0Apply P b y0 x0)) y
    (fun i hi => by rw [hc i hi, hy i hi])
  have hz : ∀ i < P.m, y i = 0 := by
    intro i hi
    have h1 := e i hi
    rw [hx i hi] at h1
    have h2 : entry P i i * y i = 0 := by linear_combination -h1
    exact (mul_eq_zero.mp h2).resolve_left (hp i hi)
  obtain ⟨i, hi, hbi⟩ := hb
  apply hbi
  rw [← hy i hi]
  unfold lowerMul
  rw [hz i hi, add_zero]
  refine sum_eq_zero fun j hj => ?_
  rw [hz j (by have := mem_range.mp hj; omega), mul_zero]

/-- Witness on the tridiagonal example: x for b = (1,1,1) by the two loops. -/
example : (List.range 3).map (ilutApply tri (fun _ => 1) (fun _ => 0)) = [1/3, -1/3, 2/3] ∧
    (List.range 3).map (ilu0Apply tri (fun _ => 1) (fun _ => 0) (fun _ => 0)) ≠
      [1/3, -1/3, 2/3] ∧ (∀ i < tri.m, entry tri i i ≠ 0) := by decide +kernel

/-! ## C16 : incomplete factorisation -/

/-- Coefficient (i, j) of the values `lu` stored over the pattern of `A`. -/
def entryOf (A : CSR K) (lu : Nat → K) (i j : Nat) : K :=
  ∑ p ∈ Ico (A.start i) (A.stop i), if cl A p = j then lu p else 0

/-- Product of the unit lower and upper triangles of the stored values, at (i, j). -/
def luProduct (A : CSR K) (lu : Nat → K) (i j : Nat) : K :=
  ∑ k ∈ range A.m, (if k < i then entryOf A lu i k else if k = i then 1 else 0) *
    (if k ≤ j then entryOf A lu k j else 0)

theorem iw_range (A : CSR K) (i j pp : Nat) (h : iw A i j = some pp) :
    A.start i ≤ pp ∧ pp < dg A i ∧ cl A pp = j := by
  unfold iw at h
  have : ∀ (l : List Nat) (w : Nat → Option Nat),
      (∀ j pp, w j = some pp → A.start i ≤ pp ∧ pp < dg A i ∧ cl A pp = j) →
      (∀ p ∈ l, A.start i ≤ p ∧ p < dg A i) →
      ∀ j pp, l.foldl (fun w p => upd w (cl A p) (some p)) w j = some pp →
        A.start i ≤ pp ∧ pp < dg A i ∧ cl A pp = j := by
    intro l
    induction l with
    | nil => intro w hw _ j pp h; exact hw j pp h
    | cons a l ih =>
      intro w hw hl j pp h
      refine ih _ ?_ (fun p hp => hl p (by simp [hp])) j pp h
      intro j pp h
      simp only at h
      by_cases hj : j = cl A a
      · simp only [upd, hj, if_true, Option.some.injEq] at h
        have := hl a (by simp)
        rw [← h]
        exact ⟨this.1, this.2, hj.symm⟩
      · rw [upd_ne _ _ hj] at h
        exact hw j pp h
  exact this _ _ (by simp) (fun p hp => mem_seg.mp hp) j pp h

/-- Elimination in row `i` writes only to the strictly lower entries of row `i`. -/
theorem iluElim_out (A : CSR K) (i p : Nat) (hp : A.start i ≤ p ∧ p < dg A i) (lu : Nat → K)
    (q : Nat) (hq : ¬ (A.start i ≤ q ∧ q < dg A i)) : iluElim A i lu p q = lu q := by
  unfold iluElim
  have : ∀ (l : List Nat) (lu : Nat → K) (val : K),
      l.foldl (iluUpd A i val) lu q = lu q := by
    intro l
    induction l with
    | nil => intros; rfl
    | cons a l ih =>
      intro lu val
      rw [List.foldl_cons, ih]
      unfold iluUpd
      cases h : iw A i (cl A a) with
      | none => rfl
      | some pp =>
        have := iw_range A i _ _ h
        exact upd_ne _ _ (fun hc => hq ⟨by omega, by omega⟩)
  rw [this]
  exact upd_ne _ _ (fun hc => hq ⟨by omega, by omega⟩)

theorem iluRow_out (A : CSR K) (i : Nat) (lu : Nat → K) (q : Nat)
    (hq : ¬ (A.start i ≤ q ∧ q < dg A i)) : iluRow A i lu q = lu q := by
  unfold iluRow
  have : ∀ (l : List Nat) (lu : Nat → K), (∀ p ∈ l, A.start i ≤ p ∧ p < dg A i) →
      l.foldl (iluElim A i) lu q = lu q := by
    intro l
    induction l with
    | nil => intros; rfl
    | cons a l ih =>
      intro lu hl
      rw [List.foldl_cons, ih _ (fun p hp => hl p (by simp [hp])),
        iluElim_out A i a (hl a (by simp)) lu q hq]
  exact this _ _ (fun p hp => mem_seg.mp hp)

theorem start_mono {A : CSR K} (h : WF A) : ∀ k i, i + k ≤ A.m → A.start i ≤ A.start (i + k) := by
  intro k
  induction k with
  | zero => intro i _; exact le_refl _
  | succ k ih =>
    intro i hi
    have h1 := ih i (by omega)
    have h2 := h.diag_ge (i + k) (by omega)
    have h3 := h.diag_lt (i + k) (by omega)
    have : A.stop (i + k) = A.start (i + k + 1) := rfl
    rw [show i + (k + 1) = i + k + 1 by omega]
    omega

theorem rows_disjoint {A : CSR K} (h : WF A) {i j p : Nat} (hi : i < A.m) (hj : j < A.m)
    (h1 : A.start i ≤ p) (h2 : p < A.stop i) (h3 : A.start j ≤ p) (h4 : p < A.stop j) : i = j := by
  rcases Nat.lt_trichotomy i j with hlt | rfl | hlt
  · have := start_mono h (j - (i + 1)) (i + 1) (by omega)
    rw [show i + 1 + (j - (i + 1)) = j by omega] at this
    have e : A.stop i = A.start (i + 1) := rfl
    omega
  · rfl
  · have := start_mono h (i - (j + 1)) (j + 1) (by omega)
    rw [show j + 1 + (i - (j + 1)) = i by omega] at this
    have e : A.stop j = A.start (j + 1) := rfl
    omega

theorem iluRows_out [DecidableEq K] {A : CSR K} (l : List Nat) (lu lu' : Nat → K)
    (h : iluRows A lu l = some lu') (q : Nat)
    (hq : ∀ i ∈ l, ¬ (A.start i ≤ q ∧ q < dg A i)) : lu' q = lu q := by
  induction l generalizing lu with
  | nil => simp only [iluRows, Option.some.injEq] at h; rw [h]
  | cons a l ih =>
    simp only [iluRows] at h
    split_ifs at h with h0
    rw [ih _ h (fun i hi => hq i (by simp [hi])), iluRow_out A a lu q (hq a (by simp))]

/-- The diagonal and upper entries that ILU(0) stores are those of the matrix, unchanged: the
    elimination never reaches them. -/
theorem C16_upper_never_updated [DecidableEq K] {A : CSR K} (h : WF A) (lu : Nat → K)
    (hlu : ilu0 A = some lu) :
    ∀ i < A.m, ∀ j, i ≤ j → entryOf A lu i j = entry A i j := by
  intro i hi j hij
  unfold entryOf entry
  refine sum_congr rfl fun p hp => ?_
  rw [mem_Ico] at hp
  by_cases hc : cl A p = j
  · rw [if_pos hc, if_pos hc]
    refine iluRows_out _ _ _ hlu p fun k hk hkk => ?_
    have hkm : k < A.m := by
      have := List.mem_range'_1.mp hk; omega
    have := rows_disjoint h hi hkm hp.1 hp.2 hkk.1 (by have := h.diag_lt k hkm; omega)
    subst this
    have := h.lower hi hkk.1 hkk.2
    omega
  · rw [if_neg hc, if_neg hc]

theorem iluRows_isSome [DecidableEq K] {A : CSR K} (h : WF A) (l : List Nat)
    (hl : ∀ i ∈ l, i < A.m) (lu : Nat → K) (hlu : ∀ i < A.m, lu (dg A i) = entry A i i) :
    (iluRows A lu l).isSome = true ↔ ∀ i ∈ l, entry A i i ≠ 0 := by
  induction l generalizing lu with
  | nil => simp [iluRows]
  | cons a l ih =>
    have ham := hl a (by simp)
    have hd : ∀ i < A.m, iluRow A a lu (dg A i) = entry A i i := by
      intro i hi
      rw [iluRow_out, hlu i hi]
      rintro ⟨h1, h2⟩
      have := rows_disjoint h hi ham (h.diag_ge i hi) (h.diag_lt i hi) h1
        (by have := h.diag_lt a ham; omega)
      subst this; omega
    simp only [iluRows, hd a ham]
    split_ifs with h0
    · simp [h0]
    · rw [ih (fun i hi => hl i (by simp [hi])) _ hd]
      simp [h0]

/-- ILU(0) construction throws exactly when a diagonal entry below the first row of the original
    matrix is zero; a zero in the first row goes unnoticed (and is then divided by). -/
theorem C16_zero_pivot_test [DecidableEq K] {A : CSR K} (h : WF A) :
    (ilu0 A).isSome = true ↔ ∀ i, 1 ≤ i → i < A.m → entry A i i ≠ 0 := by
  unfold ilu0
  rw [iluRows_isSome h _ (fun i hi => by have := List.mem_range'_1.mp hi; omega) _
    (fun i hi => (entry_diag h hi).symm)]
  constructor
  · intro hx i h1 h2
    exact hx i (List.mem_range'_1.mpr (by omega))
  · intro hx i hi
    have := List.mem_range'_1.mp hi
    exact hx i (by omega) (by omega)

/-- Tridiagonal: below the diagonal only the previous column is stored. -/
def Tridiagonal (A : CSR K) : Prop :=
  ∀ i < A.m, ∀ j < A.m, (j + 1 < i ∨ i + 1 < j) → ∀ p, A.start i ≤ p → p < A.stop i → cl A p ≠ j

theorem tri_lower {A : CSR K} (h : WF A) (ht : Tridiagonal A) {i : Nat} (hi : i < A.m) {p : Nat}
    (h1 : A.start i ≤ p) (h2 : p < dg A i) : cl A p + 1 = i ∧ p + 1 = dg A i := by
  have hs := h.diag_lt i hi
  have a : ∀ q, A.start i ≤ q → q < dg A i → cl A q + 1 = i := by
    intro q hq1 hq2
    have hl := h.lower hi hq1 hq2
    by_contra hc
    exact ht i hi (cl A q) (h.bound i hi q hq1 (by omega)) (Or.inl (by omega)) q hq1 (by omega) rfl
  refine ⟨a p h1 h2, ?_⟩
  by_contra hc
  have h3 := a (dg A i - 1) (by omega) (by omega)
  have h4 := a p h1 h2
  have := h.strict i hi p (dg A i - 1) h1 (by omega) (by omega)
  omega

theorem iluRow_tri {A : CSR K} (h : WF A) (ht : Tridiagonal A) {i : Nat} (hi : i < A.m)
    (lu : Nat → K) {p : Nat} (h1 : A.start i ≤ p) (h2 : p < dg A i) :
    iluRow A i lu p = lu p / lu (dg A (i - 1)) := by
  obtain ⟨e1, e2⟩ := tri_lower h ht hi h1 h2
  have hst : A.start i = p := by
    by_contra hc
    have := (tri_lower h ht hi (le_refl (A.start i)) (by omega)).2
    omega
  have hseg : seg (A.start i) (dg A i) = [p] := by
    unfold seg; rw [hst, show dg A i - p = 1 by omega]; rfl
  unfold iluRow
  rw [hseg, List.foldl_cons, List.foldl_nil]
  unfold iluElim
  have hk : cl A p = i - 1 := by omega
  simp only [hk]
  have : ∀ (l : List Nat) (lu : Nat → K) (val : K), (∀ q ∈ l, i - 1 < cl A q) →
      l.foldl (iluUpd A i val) lu = lu := by
    intro l
    induction l with
    | nil => intros; rfl
    | cons a l ih =>
      intro lu val hl
      rw [List.foldl_cons]
      unfold iluUpd
      cases hiw : iw A i (cl A a) with
      | none => exact ih _ _ (fun q hq => hl q (by simp [hq]))
      | some pp =>
        have hr := iw_range A i _ _ hiw
        have h3 := (tri_lower h ht hi hr.1 hr.2.1).1
        have h4 := hl a (by simp)
        omega
  rw [this _ _ _ (fun q hq => by
    have hq' := mem_seg.mp hq
    exact h.upper (by omega : i - 1 < A.m) (by omega) hq'.2), upd_same]

theorem iluRows_tri [DecidableEq K] {A : CSR K} (h : WF A) (ht : Tridiagonal A) (l : List Nat)
    (hl : ∀ i ∈ l, i < A.m) (hnd : l.Nodup) (lu lu' : Nat → K) (hlu : iluRows A lu l = some lu')
    {i : Nat} (hi : i ∈ l) {p : Nat} (h1 : A.start i ≤ p) (h2 : p < dg A i) :
    lu' p = lu p / lu (dg A (i - 1)) := by
  induction l generalizing lu with
  | nil => simp at hi
  | cons a l ih =>
    have ham := hl a (by simp)
    have hil := hl i hi
    simp only [iluRows] at hlu
    split_ifs at hlu with h0
    have hnd' := List.nodup_cons.mp hnd
    rcases List.mem_cons.mp hi with rfl | hi'
    · rw [iluRows_out _ _ _ hlu p (fun k hk hkk => ?_), iluRow_tri h ht hil lu h1 h2]
      have hkm := hl k (by simp [hk])
      have := rows_disjoint h hil hkm h1 (by have := h.diag_lt i hil; omega) hkk.1
        (by have := h.diag_lt k hkm; omega)
      exact hnd'.1 (this ▸ hk)
    · rw [ih (fun k hk => hl k (by simp [hk])) hnd'.2 _ hlu hi']
      have d1 : iluRow A a lu p = lu p := by
        refine iluRow_out _ _ _ _ fun hc => ?_
        have := rows_disjoint h hil ham h1 (by have := h.diag_lt i hil; omega) hc.1
          (by have := h.diag_lt a ham; omega)
        exact hnd'.1 (this ▸ hi')
      have d2 : iluRow A a lu (dg A (i - 1)) = lu (dg A (i - 1)) := by
        refine iluRow_out _ _ _ _ fun hc => ?_
        have hm1 : i - 1 < A.m := by omega
        have := rows_disjoint h hm1 ham (h.diag_ge _ hm1) (h.diag_lt _ hm1) hc.1
          (by have := h.diag_lt a ham; omega)
        rw [this] at hc; omega
      rw [d1, d2]

/-- The factors stored for a tridiagonal matrix: multipliers `a_{i,i-1} / a_{i-1,i-1}` of the
    original matrix below the diagonal, the original matrix elsewhere. -/
theorem C16_tridiagonal_factors [DecidableEq K] {A : CSR K} (h : WF A) (ht : Tridiagonal A)
    (lu : Nat → K) (hlu : ilu0 A = some lu) :
    (∀ i, i + 1 < A.m → entryOf A lu (i + 1) i = entry A (i + 1) i / entry A i i) ∧
    (∀ i < A.m, ∀ j, i ≤ j → entryOf A lu i j = entry A i j) ∧
    (∀ i < A.m, ∀ j, j + 1 < i → entryOf A lu i j = 0) := by
  refine ⟨fun i hi => ?_, C16_upper_never_updated h lu hlu, fun i hi j hj => ?_⟩
  · unfold entryOf
    rw [show entry A (i + 1) i = ∑ p ∈ Ico (A.start (i + 1)) (A.stop (i + 1)),
      if cl A p = i then A.value p else 0 from rfl, Finset.sum_div]
    refine sum_congr rfl fun p hp => ?_
    rw [mem_Ico] at hp
    by_cases hc : cl A p = i
    · rw [if_pos hc, if_pos hc]
      have hpd : p < dg A (i + 1) := by
        by_contra hge
        rcases Nat.eq_or_lt_of_le (not_lt.mp hge) with he | hl
        · have := h.diag_col (i + 1) hi
          rw [he, hc] at this; omega
        · have := h.upper hi hl hp.2; omega
      rw [iluRows_tri h ht _ (fun k hk => by have := List.mem_range'_1.mp hk; omega)
        List.nodup_range' _ _ hlu (List.mem_range'_1.mpr (by omega) : i + 1 ∈ _) hp.1 hpd,
        entry_diag h (by omega), Nat.add_sub_cancel]
    · rw [if_neg hc, if_neg hc, zero_div]
  · unfold entryOf
    refine sum_eq_zero fun p hp => ?_
    rw [mem_Ico] at hp
    rw [if_neg (ht i hi j (by omega) (Or.inl hj) p hp.1 hp.2)]

/-- The product of the stored factors of a tridiagonal matrix differs from the matrix on the
    diagonal by `a_{i,i-1} a_{i-1,i} / a_{i-1,i-1}`. -/
theorem C16_tridiagonal_diagonal [DecidableEq K] {A : CSR K} (h : WF A) (ht : Tridiagonal A)
    (lu : Nat → K) (hlu : ilu0 A = some lu) (i : Nat) (hi : i + 1 < A.m) :
    luProduct A lu (i + 1) (i + 1) =
      entry A (i + 1) (i + 1) + entry A (i + 1) i / entry A i i * entry A i (i + 1) := by
  obtain ⟨f1, f2, f3⟩ := C16_tridiagonal_factors h ht lu hlu
  unfold luProduct
  rw [← sum_subset (s₁ := {i, i + 1})]
  · rw [sum_pair (by omega), if_pos (by omega), if_pos (by omega), if_neg (by omega),
      if_pos rfl, if_pos (le_refl _), f1 i hi, f2 i (by omega) _ (by omega),
      f2 (i + 1) hi _ (le_refl _), one_mul, add_comm]
  · intro k hk
    simp only [mem_insert, mem_singleton] at hk
    rw [mem_range]; omega
  · intro k hk hk2
    rw [mem_range] at hk
    simp only [mem_insert, mem_singleton, not_or] at hk2
    by_cases h1 : k < i + 1
    · rw [if_pos h1, f3 (i + 1) hi k (by omega), zero_mul]
    · rw [if_neg h1, if_neg (by omega), zero_mul]

/-- So ILU(0) reproduces a tridiagonal matrix with nonzero pivots on its diagonal only if every
    pair of coupling coefficients has a zero product: the property fails in general. -/
theorem C16_tridiagonal_only_if_uncoupled [DecidableEq K] {A : CSR K} (h : WF A)
    (ht : Tridiagonal A) (lu : Nat → K) (hlu : ilu0 A = some lu)
    (hp : ∀ i < A.m, entry A i i ≠ 0) :
    (∀ i, i + 1 < A.m → luProduct A lu (i + 1) (i + 1) = entry A (i + 1) (i + 1)) ↔
      ∀ i, i + 1 < A.m → entry A (i + 1) i * entry A i (i + 1) = 0 := by
  refine forall_congr' fun i => imp_congr_right fun hi => ?_
  rw [C16_tridiagonal_diagonal h ht lu hlu i hi, add_eq_left, div_mul_eq_mul_div,
    div_eq_zero_iff, or_iff_left (hp i (by omega))]

/-- A matrix with nothing stored below the diagonal is reproduced. -/
theorem C16_upper_triangular_partial [DecidableEq K] {A : CSR K} (h : WF A)
    (hu : ∀ i < A.m, A.start i = dg A i) (lu : Nat → K) (hlu : ilu0 A = some lu) :
    ∀ i < A.m, ∀ j < A.m, luProduct A lu i j = entry A i j := by
  intro i hi j hj
  have hlow : ∀ (f : Nat → K) (i j : Nat), i < A.m → j < i → entryOf A f i j = 0 := by
    intro f i j hi hji
    refine sum_eq_zero fun p hp => ?_
    rw [mem_Ico, hu i hi] at hp
    rw [if_neg]
    rcases Nat.eq_or_lt_of_le hp.1 with he | hl
    · rw [← he, h.diag_col i hi]; omega
    · have := h.upper hi hl hp.2; omega
  unfold luProduct
  rw [sum_eq_single_of_mem i (mem_range.mpr hi)]
  · rw [if_neg (lt_irrefl _), if_pos rfl, one_mul]
    by_cases hij : i ≤ j
    · rw [if_pos hij, C16_upper_never_updated h lu hlu i hi j hij]
    · rw [if_neg hij]; exact (hlow A.value i j hi (by omega)).symm
  · intro k _ hk
    by_cases h1 : k < i
    · rw [if_pos h1, hlow lu i k hi h1, zero_mul]
    · rw [if_neg h1, if_neg hk, zero_mul]

/-- The tridiagonal example meets the hypotheses and is not reproduced. -/
example : Tridiagonal tri ∧ ∃ lu, ilu0 tri = some lu ∧ luProduct tri lu 1 1 ≠ entry tri 1 1 := by
  constructor
  · intro i hi j hj hij p h1 h2
    have h3 : p < 7 := lt_of_lt_of_le h2 (tri_stop i hi)
    have : ∀ i < tri.m, ∀ p < 7, tri.start i ≤ p → p < tri.stop i →
        cl tri p ≤ i + 1 ∧ i ≤ cl tri p + 1 := by decide +kernel
    have := this i hi p h3 h1 h2
    omega
  · refine ⟨(ilu0 tri).get (by decide +kernel), by simp, by decide +kernel⟩

/-! ## C17 -/

/-- The Jacobi preconditioner divides by the diagonal, and leaves components with a zero
    diagonal unchanged. -/
theorem C17_jacobi_apply [DecidableEq K] {A : CSR K} (h : WF A) (b : Nat → K) (i : Nat)
    (hi : i < A.m) :
    (entry A i i ≠ 0 → pcJacobiApply A b i = b i / entry A i i) ∧
    (entry A i i = 0 → pcJacobiApply A b i = b i) := by
  rw [entry_diag h hi]
  unfold pcJacobiApply pcJacobi
  constructor
  · intro h0; rw [if_neg h0]; ring
  · intro h0; rw [if_pos h0]; ring

/-- Its weights are never zero, so no information is lost: it is injective. -/
theorem C17_jacobi_injective [DecidableEq K] (A : CSR K) (u v : Nat → K)
    (huv : ∀ i < A.m, pcJacobiApply A u i = pcJacobiApply A v i) : ∀ i < A.m, u i = v i := by
  intro i hi
  have h0 : pcJacobi A i ≠ 0 := by
    unfold pcJacobi
    split_ifs with h1
    · exact one_ne_zero
    · exact one_div_ne_zero h1
  exact mul_right_cancel₀ h0 (huv i hi)

example : (List.range 3).map (pcJacobiApply tri (fun _ => 12)) = [3, 12/5, 2] := by decide +kernel

/-! ## C18 : fixed points of the stationary iterations -/

/-- `x` solves the system. -/
def Solves (A : CSR K) (b x : Nat → K) : Prop := ∀ i < A.m, A.multiply x i = b i

theorem multiply_entry {A : CSR K} (h : WF A) (x : Nat → K) (i : Nat) (hi : i < A.m) :
    A.multiply x i = ∑ j ∈ range A.m, entry A i j * x j := by
  rw [← row_all h hi, multiply_spec]
  exact Eq.trans (by congr 1; exact List.map_congr_left fun p _ => mul_comm _ _) (sum_seg _ _ _)

theorem jacobiStep_eq {A : CSR K} (ω : K) (b x0 x1 : Nat → K) (i : Nat) (hi : i < A.m) :
    jacobiStep A ω b x0 x1 i = jacobiRow A ω b x0 i :=
  (foldl_up A.m (fun _ i => jacobiRow A ω b x0 i) (fun _ _ _ _ _ => rfl) x1).1 i hi

theorem jacobiRow_eq {A : CSR K} (h : WF A) (ω : K) (b x0 : Nat → K) (i : Nat) (hi : i < A.m) :
    jacobiRow A ω b x0 i = ω * (b i - (A.multiply x0 i - entry A i i * x0 i)) / entry A i i +
      (1 - ω) * x0 i := by
  unfold jacobiRow
  simp only [foldl_seg_add]
  rw [row_lower h hi, row_upper h hi, multiply_entry h x0 i hi, row_split hi, entry_diag h hi]
  ring

/-- The difference of successive Jacobi iterates is the residual scaled by `ω / a_ii`. -/
theorem C18_jacobi_difference {A : CSR K} (h : WF A) (hd : ∀ i < A.m, entry A i i ≠ 0) (ω : K)
    (b x0 x1 : Nat → K) (i : Nat) (hi : i < A.m) :
    jacobiStep A ω b x0 x1 i - x0 i = ω / entry A i i * (b i - A.multiply x0 i) := by
  rw [jacobiStep_eq ω b x0 x1 i hi, jacobiRow_eq h ω b x0 i hi]
  have := hd i hi
  field_simp
  ring

/-- A vector is unchanged by a (weighted) Jacobi sweep exactly when it solves the system. -/
theorem C18_jacobi_fixed {A : CSR K} (h : WF A) (hd : ∀ i < A.m, entry A i i ≠ 0) (ω : K)
    (hω : ω ≠ 0) (b x0 x1 : Nat → K) :
    (∀ i < A.m, jacobiStep A ω b x0 x1 i = x0 i) ↔ Solves A b x0 := by
  refine forall_congr' fun i => imp_congr_right fun hi => ?_
  rw [← sub_eq_zero, C18_jacobi_difference h hd ω b x0 x1 i hi, mul_eq_zero,
    or_iff_right (div_ne_zero hω (hd i hi)), sub_eq_zero, eq_comm]

/-- The Gauss-Seidel sweep solves the lower triangular system: with `d = x1 - x0`,
    `a_ii d_i + ∑_{j<i} a_ij d_j` is the residual of `x0`. -/
theorem C18_gauss_seidel_difference {A : CSR K} (h : WF A) (hd : ∀ i < A.m, entry A i i ≠ 0)
    (b x0 x1 : Nat → K) (i : Nat) (hi : i < A.m) :
    entry A i i * (gsSweep A b x0 x1 i - x0 i) +
      ∑ j ∈ range i, entry A i j * (gsSweep A b x0 x1 j - x0 j) = b i - A.multiply x0 i := by
  have hrw : gsSweep A b x0 x1 = (List.range A.m).foldl (fun y i => upd y i (if i < A.m then
      (b i - (∑ p ∈ Ico (A.start i) (dg A i), A.value p * y (cl A p) +
        ∑ p ∈ Ico (dg A i + 1) (A.stop i), A.value p * x0 (cl A p))) / A.value (dg A i) else 0))
      x1 := by
    unfold gsSweep
    refine List.foldl_ext _ _ _ fun y i hi => ?_
    rw [if_pos (List.mem_range.mp hi)]
    simp only [foldl_seg_add, zero_add]
  have key := (foldl_up A.m (fun y i => if i < A.m then
      (b i - (∑ p ∈ Ico (A.start i) (dg A i), A.value p * y (cl A p) +
        ∑ p ∈ Ico (dg A i + 1) (A.stop i), A.value p * x0 (cl A p))) / A.value (dg A i) else 0)
    (fun i hi y y' hy => by
      simp only [if_pos hi]
      congr 3
      refine sum_congr rfl fun p hp => ?_
      rw [mem_Ico] at hp
      rw [hy _ (h.lower hi hp.1 hp.2)]) x1).1
  rw [← hrw] at key
  have k := key i hi
  rw [if_pos hi, row_lower h hi, row_upper h hi, ← entry_diag h hi, eq_div_iff (hd i hi)] at k
  rw [multiply_entry h x0 i hi, row_split hi]
  simp only [mul_sub, sum_sub_distrib]
  linear_combination k

/-- A vector is unchanged by a relaxed Gauss-Seidel sweep exactly when it solves the system. -/
theorem C18_gauss_seidel_fixed [DecidableEq K] {A : CSR K} (h : WF A)
    (hd : ∀ i < A.m, entry A i i ≠ 0) (ω : K) (hω : ω ≠ 0) (b x0 x1 : Nat → K) :
    (∀ i < A.m, gsStep A ω b x0 x1 i = x0 i) ↔ Solves A b x0 := by
  have hrel : ∀ i, (gsStep A ω b x0 x1 i = x0 i ↔ gsSweep A b x0 x1 i = x0 i) := by
    intro i
    unfold gsStep
    split_ifs with h1
    · constructor
      · intro hx
        have : ω * (gsSweep A b x0 x1 i - x0 i) = 0 := by linear_combination hx
        exact sub_eq_zero.mp ((mul_eq_zero.mp this).resolve_left hω)
      · intro hx; simp only [hx]; ring
    · exact Iff.rfl
  have hdiff := C18_gauss_seidel_difference h hd b x0 x1
  constructor
  · intro hx i hi
    have e := hdiff i hi
    have hz : ∀ j ≤ i, gsSweep A b x0 x1 j - x0 j = 0 := fun j hj =>
      sub_eq_zero.mpr ((hrel j).mp (hx j (by omega)))
    rw [hz i (le_refl _), mul_zero, zero_add, sum_eq_zero (fun j hj => by
      rw [hz j (by have := mem_range.mp hj; omega), mul_zero])] at e
    exact (sub_eq_zero.mp e.symm).symm
  · intro hx i
    induction i using Nat.strong_induction_on with
    | _ i ih =>
      intro hi
      rw [hrel]
      have e := hdiff i hi
      rw [hx i hi, sub_self, sum_eq_zero (fun j hj => by
        have hj' := mem_range.mp hj
        rw [(hrel j).mp (ih j hj' (by omega)), sub_self, mul_zero]), add_zero] at e
      exact sub_eq_zero.mp ((mul_eq_zero.mp e).resolve_left (hd i hi))

/-- Richardson without preconditioner: the difference of successive iterates is `ω` times the
    residual, so with `ω ≠ 0` only solutions are fixed.  The operator is arbitrary. -/
theorem C18_richardson_fixed (n : Nat) (mul : (Nat → K) → (Nat → K)) (ω : K) (hω : ω ≠ 0)
    (b x0 : Nat → K) :
    (∀ i, richardsonStep mul none ω b x0 i - x0 i = ω * (b i - mul x0 i)) ∧
    ((∀ i < n, richardsonStep mul none ω b x0 i = x0 i) ↔ ∀ i < n, mul x0 i = b i) := by
  have hd : ∀ i, richardsonStep mul none ω b x0 i - x0 i = ω * (b i - mul x0 i) := by
    intro i; simp only [richardsonStep]; ring
  refine ⟨hd, forall_congr' fun i => imp_congr_right fun _ => ?_⟩
  rw [← sub_eq_zero, hd i, mul_eq_zero, or_iff_right hω, sub_eq_zero, eq_comm]

/-- Preconditioned Richardson: the difference is the preconditioned right-hand side minus the
    preconditioned product (whatever `ω` is), so with an injective preconditioner only solutions
    are fixed. -/
theorem C18_richardson_preconditioned (n : Nat) (mul P : (Nat → K) → (Nat → K)) (ω : K)
    (hP : ∀ u v : Nat → K, (∀ i < n, P u i = P v i) → ∀ i < n, u i = v i)
    (hP' : ∀ u v : Nat → K, (∀ i < n, u i = v i) → ∀ i < n, P u i = P v i)
    (b x0 : Nat → K) :
    (∀ i, richardsonStep mul (some P) ω b x0 i - x0 i = P b i - P (mul x0) i) ∧
    ((∀ i < n, richardsonStep mul (some P) ω b x0 i = x0 i) ↔ ∀ i < n, mul x0 i = b i) := by
  have hd : ∀ i, richardsonStep mul (some P) ω b x0 i - x0 i = P b i - P (mul x0) i := by
    intro i; simp only [richardsonStep]; ring
  refine ⟨hd, ?_⟩
  have e : ∀ i, (richardsonStep mul (some P) ω b x0 i = x0 i ↔ P (mul x0) i = P b i) := by
    intro i
    rw [← sub_eq_zero, hd i, sub_eq_zero, eq_comm]
  constructor
  · intro hx
    exact hP _ _ (fun i hi => (e i).mp (hx i hi))
  · intro hx i hi
    exact (e i).mpr (hP' _ _ hx i hi)

/-- The Jacobi preconditioner meets those hypotheses. -/
theorem C18_richardson_jacobi [DecidableEq K] (A : CSR K) (ω : K) (b x0 : Nat → K) :
    (∀ i < A.m, richardsonStep A.multiply (some (pcJacobiApply A)) ω b x0 i = x0 i) ↔
      Solves A b x0 :=
  (C18_richardson_preconditioned A.m A.multiply (pcJacobiApply A) ω
    (C17_jacobi_injective A)
    (fun u v huv i hi => by unfold pcJacobiApply; rw [huv i hi]) b x0).2

/-- The example matrix meets the hypotheses; b = A (1,1,1). -/
example : (∀ i < tri.m, entry tri i i ≠ 0) ∧
    (List.range 3).map (jacobiStep tri (1/2) (fun i => [5, 8, 9].getD i 0) (fun _ => 1) (fun _ => 0))
      = [1, 1, 1] ∧
    (List.range 3).map (gsStep tri (1/2) (fun i => [5, 8, 9].getD i 0) (fun _ => 1) (fun _ => 0))
      = [1, 1, 1] := by decide +kernel

/-! ## C19 : status and iteration count -/

section Monitor

variable {R : Type} [Field R] [LinearOrder R] [IsStrictOrderedRing R]

/-- The residual meets the tolerance. -/
def Met (c : Par R) (r : Nat → R) (n : Nat) : Prop := r n < max (c.rtol * r 0) c.atol
/-- The residual grew and growth is watched. -/
def Grew (c : Par R) (r : Nat → R) (n : Nat) : Prop := c.diverge = true ∧ 1 < n ∧ r (n - 1) < r n

theorem monitor_spec (c : Par R) (r : Nat → R) (s : LS R) (it : Nat) (hit : 1 ≤ it)
    (hr : ∀ j < it, s.res j = r j) :
    (monitor c s it (r it)).1.numIt = it ∧
    (∀ j ≤ it, (monitor c s it (r it)).1.res j = r j) ∧
    ((Met c r it ∧ (monitor c s it (r it)).1.status = .success ∧ (monitor c s it (r it)).2 = true) ∨
     (¬ Met c r it ∧ Grew c r it ∧ (monitor c s it (r it)).1.status = .diverge ∧
        (monitor c s it (r it)).2 = true) ∨
     (¬ Met c r it ∧ ¬ Grew c r it ∧ it + 1 = c.maxit ∧ (monitor c s it (r it)).1.status = .maxit ∧
        (monitor c s it (r it)).2 = true) ∨
     (¬ Met c r it ∧ ¬ Grew c r it ∧ it + 1 ≠ c.maxit ∧ (monitor c s it (r it)).1.status = .running ∧
        (monitor c s it (r it)).2 = false)) := by
  have h0 : upd s.res it (r it) 0 = r 0 := by rw [upd_ne _ _ (by omega), hr 0 (by omega)]
  have h1 : upd s.res it (r it) (it - 1) = r (it - 1) := by
    rw [upd_ne _ _ (by omega), hr _ (by omega)]
  have hres : ∀ j ≤ it, upd s.res it (r it) j = r j := by
    intro j hj
    by_cases hc : j = it
    · rw [hc, upd_same]
    · rw [upd_ne _ _ hc, hr j (by omega)]
  have hM : Met c r it ↔ r it < max (c.rtol * r 0) c.atol := Iff.rfl
  have hG : Grew c r it ↔ c.diverge = true ∧ it > 1 ∧ r it - r (it - 1) > 0 := by
    unfold Grew; rw [gt_iff_lt, gt_iff_lt, sub_pos]
  unfold monitor
  simp only
  rw [h0, h1]
  split_ifs with a1 a2 a3 <;> rw [← hM] at a1 <;> (try rw [← hG] at a2)
  · exact ⟨rfl, hres, Or.inl ⟨a1, rfl, rfl⟩⟩
  · exact ⟨rfl, hres, Or.inr (Or.inl ⟨a1, a2, rfl, rfl⟩)⟩
  · exact ⟨rfl, hres, Or.inr (Or.inr (Or.inl ⟨a1, a2, a3, rfl, rfl⟩))⟩
  · exact ⟨rfl, hres, Or.inr (Or.inr (Or.inr ⟨a1, a2, a3, rfl, rfl⟩))⟩

/-- How the loop can end: at the first iteration that meets the tolerance, diverges or is the
    last but one allowed, or by running out of iterations. -/
theorem iterate_spec (c : Par R) (kd : Kind) (r : Nat → R) (k : Nat) :
    ∀ it (s : LS R), 1 ≤ it → (∀ j < it, s.res j = r j) → it + k = c.maxit + 1 →
    ∃ n, (iterate c kd r k it s).2 = n ∧
      (∀ j, it ≤ j → j < n → ¬ Met c r j ∧ ¬ Grew c r j ∧ j + 1 ≠ c.maxit) ∧
      ((it ≤ n ∧ n ≤ c.maxit ∧ (iterate c kd r k it s).1.numIt = n ∧
        (∀ j ≤ n, (iterate c kd r k it s).1.res j = r j) ∧
        ((Met c r n ∧ (iterate c kd r k it s).1.status = .success) ∨
         (¬ Met c r n ∧ Grew c r n ∧ (iterate c kd r k it s).1.status = .diverge) ∨
         (¬ Met c r n ∧ ¬ Grew c r n ∧ n + 1 = c.maxit ∧
            (iterate c kd r k it s).1.status = .maxit))) ∨
       (n = c.maxit ∧ it ≤ n + 1 ∧ (it ≤ n → ¬ Met c r n ∧ ¬ Grew c r n) ∧
        (iterate c kd r k it s).1.status = if k = 0 then s.status else .running)) := by
  induction k with
  | zero =>
    intro it s h1 h2 h3
    refine ⟨it - 1, by simp [iterate], fun j hj hj' => by omega, Or.inr ⟨by omega, by omega,
      fun h => by omega, ?_⟩⟩
    simp only [iterate]
    split_ifs <;> rfl
  | succ k ih =>
    intro it s h1 h2 h3
    obtain ⟨m1, m2, m3⟩ := monitor_spec c r s it h1 h2
    unfold iterate
    generalize monitor c s it (r it) = q at m1 m2 m3
    obtain ⟨s', b⟩ := q
    simp only at m1 m2 m3
    rcases m3 with ⟨a1, a2, rfl⟩ | ⟨a1, a2, a3, rfl⟩ | ⟨a1, a2, a3, a4, rfl⟩ | ⟨a1, a2, a3, a4, rfl⟩
    · exact ⟨it, rfl, fun j hj hj' => by omega, Or.inl ⟨le_refl _, by omega, m1, m2, Or.inl ⟨a1, a2⟩⟩⟩
    · exact ⟨it, rfl, fun j hj hj' => by omega, Or.inl ⟨le_refl _, by omega, m1, m2,
        Or.inr (Or.inl ⟨a1, a2, a3⟩)⟩⟩
    · exact ⟨it, rfl, fun j hj hj' => by omega, Or.inl ⟨le_refl _, by omega, m1, m2,
        Or.inr (Or.inr ⟨a1, a2, a3, a4⟩)⟩⟩
    · obtain ⟨n, e1, e2, e3⟩ := ih (it + 1) s' (by omega) (fun j hj => m2 j (by omega)) (by omega)
      refine ⟨n, e1, fun j hj hj' => ?_, ?_⟩
      · by_cases hc : j = it
        · subst hc; exact ⟨a1, a2, a3⟩
        · exact e2 j (by omega) hj'
      · rcases e3 with ⟨b1, b2, b3⟩ | ⟨b1, b2, b3, b4⟩
        · exact Or.inl ⟨by omega, b2, b3⟩
        · refine Or.inr ⟨b1, by omega, fun hn => ?_, ?_⟩
          · by_cases hc : it = n
            · exact hc ▸ ⟨a1, a2⟩
            · exact b3 (by omega)
          · rw [if_neg (by omega)]
            exact b4.trans (by split_ifs <;> simp [a4])

/-- The complete account of a solve: either Richardson's early return, or the loop. -/
theorem solve_spec (c : Par R) (kd : Kind) (r : Nat → R) (s : LS R) :
    (r 0 < c.atol ∧ kd = .richardson ∧ (solve c kd r s).2 = 0 ∧
      (solve c kd r s).1.status = .success ∧ (solve c kd r s).1.numIt = s.numIt) ∨
    ((kd = .richardson → ¬ r 0 < c.atol) ∧ ∃ s0 : LS R, (∀ j < 1, s0.res j = r j) ∧
      (s0.status = .running ∨ (s0.status = .success ∧ r 0 < c.atol)) ∧ s0.numIt = s.numIt ∧
      solve c kd r s = iterate c kd r c.maxit 1 s0) := by
  have hz : ∀ j < 1, upd s.res 0 (r 0) j = r j := fun j hj => by
    rw [show j = 0 by omega, upd_same]
  unfold solve monitorInit
  by_cases h : r 0 < c.atol
  · simp only [h, if_true]
    by_cases hk : kd = .richardson
    · simp [hk]
    · simp only [hk, if_false]
      exact Or.inr ⟨fun hc => hc.elim, ⟨.success, s.numIt, upd s.res 0 (r 0)⟩, hz,
        Or.inr ⟨rfl, trivial⟩, rfl, rfl⟩
  · simp only [h, if_false]
    exact Or.inr ⟨fun _ => id, ⟨.running, s.numIt, upd s.res 0 (r 0)⟩, hz, Or.inl rfl, rfl, rfl⟩

/-- Success is truthful: with `n` the number of iterations carried out, either none were and the
    initial residual is below the absolute tolerance, or the last residual is below
    max(rtol·r₀, atol). -/
theorem C19_success_truthful (c : Par R) (kd : Kind) (r : Nat → R) (s : LS R)
    (h : (solve c kd r s).1.status = .success) :
    ((solve c kd r s).2 = 0 ∧ r 0 < c.atol) ∨
    (1 ≤ (solve c kd r s).2 ∧
      r (solve c kd r s).2 < max (c.rtol * r 0) c.atol) := by
  rcases solve_spec c kd r s with ⟨a1, _, a3, _⟩ | ⟨_, s0, b1, b2, _, b4⟩
  · exact Or.inl ⟨a3, a1⟩
  · rw [b4] at h ⊢
    obtain ⟨n, e1, e2, e3⟩ := iterate_spec c kd r c.maxit 1 s0 (le_refl _) b1 (by omega)
    rw [e1]
    rcases e3 with ⟨f1, f2, f3, f4, f5⟩ | ⟨f1, f2, f3, f4⟩
    · rcases f5 with ⟨g1, _⟩ | ⟨_, _, g3⟩ | ⟨_, _, _, g4⟩
      · exact Or.inr ⟨f1, g1⟩
      · rw [g3] at h; cases h
      · rw [g4] at h; cases h
    · rw [f4] at h
      split_ifs at h with h0
      rcases b2 with b2 | b2
      · rw [b2] at h; cases h
      · exact Or.inl ⟨by omega, b2.2⟩

/-- Never more than the maximum number of iterations; with a limit of at least two, the last
    allowed iteration is never carried out. -/
theorem C19_iteration_bound (c : Par R) (kd : Kind) (r : Nat → R) (s : LS R) :
    (solve c kd r s).2 ≤ c.maxit ∧ (2 ≤ c.maxit → (solve c kd r s).2 + 1 ≤ c.maxit) := by
  rcases solve_spec c kd r s with ⟨_, _, a3, _⟩ | ⟨_, s0, b1, b2, _, b4⟩
  · rw [a3]; exact ⟨by omega, by omega⟩
  · rw [b4]
    obtain ⟨n, e1, e2, e3⟩ := iterate_spec c kd r c.maxit 1 s0 (le_refl _) b1 (by omega)
    rw [e1]
    have hle : n ≤ c.maxit := by
      rcases e3 with ⟨_, f2, _⟩ | ⟨f1, _⟩
      · exact f2
      · omega
    refine ⟨hle, fun h2 => ?_⟩
    by_contra hc
    exact (e2 (c.maxit - 1) (by omega) (by omega)).2.2 (by omega)

/-- With a limit of at least two every solve ends with a definite status, and failure statuses
    are truthful too: divergence means the residual grew in the last step, the limit is reported
    only after limit − 1 iterations that neither met the tolerance nor diverged.  (The full claim
    also covers a limit of one, where it fails: `C19_limit_one_unreported`.) -/
theorem C19_definite_status_partial (c : Par R) (kd : Kind) (r : Nat → R) (s : LS R)
    (h2 : 2 ≤ c.maxit) :
    (solve c kd r s).1.status ≠ .running ∧
    ((solve c kd r s).1.status = .diverge →
      c.diverge = true ∧ 2 ≤ (solve c kd r s).2 ∧
      r ((solve c kd r s).2 - 1) < r (solve c kd r s).2 ∧
      ¬ r (solve c kd r s).2 < max (c.rtol * r 0) c.atol) ∧
    ((solve c kd r s).1.status = .maxit →
      (solve c kd r s).2 + 1 = c.maxit ∧
      ∀ j, 1 ≤ j → j < c.maxit → ¬ r j < max (c.rtol * r 0) c.atol) := by
  rcases solve_spec c kd r s with ⟨_, _, _, a4, _⟩ | ⟨_, s0, b1, b2, _, b4⟩
  · rw [a4]; exact ⟨by simp, by simp, by simp⟩
  · rw [b4]
    obtain ⟨n, e1, e2, e3⟩ := iterate_spec c kd r c.maxit 1 s0 (le_refl _) b1 (by omega)
    rw [e1]
    rcases e3 with ⟨f1, f2, f3, f4, f5⟩ | ⟨f1, f2, f3, f4⟩
    · rcases f5 with ⟨g1, g2⟩ | ⟨g1, g2, g3⟩ | ⟨g1, g2, g3, g4⟩
      · rw [g2]; exact ⟨by simp, by simp, by simp⟩
      · rw [g3]
        refine ⟨by simp, fun _ => ⟨g2.1, ?_, g2.2.2, g1⟩, by simp⟩
        have := g2.2.1; omega
      · rw [g4]
        refine ⟨by simp, by simp, fun _ => ⟨g3, fun j hj hj' => ?_⟩⟩
        by_cases hc : j = n
        · rw [hc]; exact g1
        · exact (e2 j hj (by omega)).1
    · exact absurd rfl ((fun hx => (e2 (c.maxit - 1) (by omega) (by omega)).2.2 (by omega) : c.maxit ≠ c.maxit))

/-- The solve stops at the first iteration that meets the tolerance. -/
theorem C19_earliest_stop (c : Par R) (kd : Kind) (r : Nat → R) (s : LS R) (j : Nat)
    (h1 : 1 ≤ j) (hj : j < (solve c kd r s).2) :
    ¬ r j < max (c.rtol * r 0) c.atol := by
  rcases solve_spec c kd r s with ⟨_, _, a3, _⟩ | ⟨_, s0, b1, b2, _, b4⟩
  · omega
  · rw [b4] at hj
    obtain ⟨n, e1, e2, e3⟩ := iterate_spec c kd r c.maxit 1 s0 (le_refl _) b1 (by omega)
    rw [e1] at hj
    exact (e2 j h1 hj).1

/-- With a limit of one, an iteration that does not meet the tolerance ends with the status still
    "running": neither success, nor limit, nor divergence is reported. -/
theorem C19_limit_one_unreported (c : Par R) (kd : Kind) (r : Nat → R) (s : LS R)
    (hc : c.maxit = 1) (h0 : ¬ r 0 < c.atol) (h1 : ¬ r 1 < max (c.rtol * r 0) c.atol) :
    (solve c kd r s).1.status = .running := by
  rcases solve_spec c kd r s with ⟨a1, _⟩ | ⟨_, s0, b1, b2, _, b4⟩
  · exact absurd a1 h0
  · rw [b4]
    obtain ⟨n, e1, e2, e3⟩ := iterate_spec c kd r c.maxit 1 s0 (le_refl _) b1 (by omega)
    rcases e3 with ⟨f1, f2, f3, f4, f5⟩ | ⟨f1, f2, f3, f4⟩
    · have : n = 1 := by omega
      subst this
      rcases f5 with ⟨g1, _⟩ | ⟨_, g2, _⟩ | ⟨_, _, g3, _⟩
      · exact absurd g1 h1
      · have := g2.2.1; omega
      · omega
    · rw [f4, if_neg (by omega)]

/-- The reported iteration count is the number of iterations carried out, for a limit of at least
    two, unless Richardson returns early. -/
theorem C19_reported_count (c : Par R) (kd : Kind) (r : Nat → R) (s : LS R)
    (h2 : 2 ≤ c.maxit) (hr : kd = .richardson → ¬ r 0 < c.atol) :
    (solve c kd r s).1.numIt = (solve c kd r s).2 ∧
    ∀ j ≤ (solve c kd r s).2, (solve c kd r s).1.res j = r j := by
  rcases solve_spec c kd r s with ⟨a1, a2, _⟩ | ⟨_, s0, b1, b2, _, b4⟩
  · exact absurd a1 (hr a2)
  · rw [b4]
    obtain ⟨n, e1, e2, e3⟩ := iterate_spec c kd r c.maxit 1 s0 (le_refl _) b1 (by omega)
    rw [e1]
    rcases e3 with ⟨f1, f2, f3, f4, f5⟩ | ⟨f1, f2, f3, f4⟩
    · exact ⟨f3, f4⟩
    · exact absurd rfl ((fun hx => (e2 (c.maxit - 1) (by omega) (by omega)).2.2 (by omega) : c.maxit ≠ c.maxit))

/-- When Richardson returns early, the reported count is that of the previous solve. -/
theorem C19_stale_count (c : Par R) (r : Nat → R) (s : LS R) (h : r 0 < c.atol) :
    (solve c .richardson r s).2 = 0 ∧ (solve c .richardson r s).1.numIt = s.numIt := by
  rcases solve_spec c .richardson r s with ⟨_, _, a3, _, a5⟩ | ⟨b0, _⟩
  · exact ⟨a3, a5⟩
  · exact absurd h (b0 rfl)

end Monitor

/-- A run that converges in three iterations, one that diverges and one that hits the limit. -/
example :
    let c : Par ℚ := ⟨0, 1/10, 5, true⟩
    let s : LS ℚ := ⟨.running, 7, fun _ => 0⟩
    let a := solve c .jacobi (fun i => [100, 50, 20, 9].getD i 0) s
    let b := solve c .richardson (fun i => [100, 50, 60, 9].getD i 0) s
    let d := solve c .gaussSeidel (fun i => [100, 50, 40, 30, 20, 9].getD i 0) s
    (a.1.status = .success ∧ a.2 = 3 ∧ a.1.numIt = 3) ∧ (b.1.status = .diverge ∧ b.2 = 2) ∧
    (d.1.status = .maxit ∧ d.2 = 4) := by decide +kernel

end Detran.Solver
