import Verif.Model.Dense
import Mathlib.Algebra.BigOperators.Group.List.Lemmas
import Mathlib.Algebra.BigOperators.Ring.Finset
import Mathlib.Algebra.BigOperators.Intervals
import Mathlib.Algebra.Order.Ring.Unbundled.Rat
import Mathlib.Tactic.Ring
import Mathlib.Tactic.Linarith

/-!
# Properties of the dense matrix and of the sparse work row (C10 dense part, C13, C14)
-/

namespace Detran.Dense

open Finset

variable {K : Type} [Field K]

/-! ## Specification: a two-index table and the operations on it -/

/-- A call on a dense matrix. -/
inductive DOp (K : Type) where
  | one (i j : Nat) (v : K) (add : Bool)
  | row (i : Nat) (v : Nat → K) (add : Bool)
  | col (j : Nat) (v : Nat → K) (add : Bool)
  | clear

/-- The call stays inside an `m × n` matrix. -/
def DOp.InRange (m n : Nat) : DOp K → Prop
  | .one i j _ _ => i < m ∧ j < n
  | .row i _ _ => i < m
  | .col j _ _ => j < n
  | .clear => True

/-- What the call does to the table of entries. -/
def DOp.spec (f : Nat → Nat → K) : DOp K → Nat → Nat → K
  | .one i j v add => fun a b => if a = i ∧ b = j then (if add then f a b + v else v) else f a b
  | .row i v add => fun a b => if a = i then (if add then f a b + v b else v b) else f a b
  | .col j v add => fun a b => if b = j then (if add then f a b + v a else v a) else f a b
  | .clear => fun _ _ => 0

/-- The call on the model. -/
def DOp.run (A : Dense K) : DOp K → Option (Dense K)
  | .one i j v add => A.insert i j v add
  | .row i v add => A.insertRow i v add
  | .col j v add => A.insertCol j v add
  | .clear => A.clear

/-- A sequence of calls on the model. -/
def runD (A : Dense K) : List (DOp K) → Option (Dense K)
  | [] => some A
  | o :: l => (o.run A).bind fun B => runD B l

/-! ## Storage invariant -/

/-- The stored array is the column-major image of `f`. -/
def Rep (m n : Nat) (A : Dense K) (f : Nat → Nat → K) : Prop :=
  A.m = m ∧ A.n = n ∧ A.vals.length = m * n ∧
    ∀ i < m, ∀ j < n, A.vals[i + j * m]? = some (f i j)

theorem colmaj_inj {m i j i' j' : Nat} (hi : i < m) (hi' : i' < m)
    (h : i + j * m = i' + j' * m) : i = i' ∧ j = j' := by
  have h1 := congrArg (· % m) h
  simp only [Nat.add_mul_mod_self_right, Nat.mod_eq_of_lt hi, Nat.mod_eq_of_lt hi'] at h1
  subst h1
  have h2 : j * m = j' * m := by omega
  exact ⟨rfl, Nat.eq_of_mul_eq_mul_right (by omega) h2⟩

theorem rep_new (m n : Nat) (v : K) : Rep m n (Dense.new m n v) (fun _ _ => v) := by
  refine ⟨rfl, rfl, by simp [Dense.new], fun i hi j hj => ?_⟩
  have : i + j * m < m * n := by
    calc i + j * m < m + j * m := by omega
      _ = m * (j + 1) := by ring
      _ ≤ m * n := Nat.mul_le_mul_left _ hj
  simp [Dense.new, List.getElem?_replicate, this]

theorem rep_insert {m n : Nat} {A : Dense K} {f : Nat → Nat → K} (h : Rep m n A f)
    {i j : Nat} (hi : i < m) (hj : j < n) (v : K) (add : Bool) :
    ∃ B, A.insert i j v add = some B ∧ Rep m n B ((DOp.one i j v add).spec f) := by
  obtain ⟨hm, hn, hl, hv⟩ := h
  have hij := hv i hi j hj
  refine ⟨{ A with vals := A.vals.set (A.idx i j) (if add then f i j + v else v) }, ?_, hm, hn, ?_, ?_⟩
  · simp [Dense.insert, Dense.idx, hm, hij]
  · simp [hl]
  · intro a ha b hb
    simp only [Dense.idx, hm, DOp.spec]
    rw [List.getElem?_set]
    by_cases e : i + j * m = a + b * m
    · obtain ⟨rfl, rfl⟩ := colmaj_inj hi ha e
      have : i + j * m < A.vals.length := by
        by_contra hc
        rw [List.getElem?_eq_none (by omega)] at hij
        simp at hij
      simp [this]
    · rw [if_neg e, if_neg (fun hc => e (by rw [hc.1, hc.2]))]
      exact hv a ha b hb

theorem loop_succ {S : Type} (g : S → Nat → Option S) (s : S) (k : Nat) :
    loop g s (List.range (k + 1)) = (loop g s (List.range k)).bind fun s => g s k := by
  simp [loop, List.range_succ]

theorem rep_congr {m n : Nat} {A : Dense K} {f g : Nat → Nat → K} (h : Rep m n A f)
    (e : ∀ i < m, ∀ j < n, f i j = g i j) : Rep m n A g := by
  obtain ⟨hm, hn, hl, hv⟩ := h
  exact ⟨hm, hn, hl, fun i hi j hj => by rw [← e i hi j hj]; exact hv i hi j hj⟩

theorem rep_rowLoop {m n : Nat} {A : Dense K} {f : Nat → Nat → K} (h : Rep m n A f)
    {i : Nat} (hi : i < m) (v : Nat → K) (add : Bool) (k : Nat) (hk : k ≤ n) :
    ∃ B, loop (fun B j => B.insert i j (v j) add) A (List.range k) = some B ∧
      Rep m n B (fun a b => if a = i ∧ b < k then (if add then f a b + v b else v b) else f a b) := by
  induction k with
  | zero => exact ⟨A, rfl, rep_congr h (fun a _ b _ => by simp)⟩
  | succ k ih =>
    obtain ⟨B, hB, hr⟩ := ih (by omega)
    obtain ⟨C, hC, hr'⟩ := rep_insert hr hi (by omega : k < n) (v k) add
    refine ⟨C, by rw [loop_succ, hB]; exact hC, rep_congr hr' (fun a _ b _ => ?_)⟩
    simp only [DOp.spec]
    by_cases h1 : a = i <;> by_cases h2 : b = k
    · subst h1 h2; simp
    · have : b < k + 1 ↔ b < k := by omega
      simp [h1, h2, this]
    · simp [h1]
    · simp [h1]

theorem rep_colLoop {m n : Nat} {A : Dense K} {f : Nat → Nat → K} (h : Rep m n A f)
    {j : Nat} (hj : j < n) (v : Nat → K) (add : Bool) (k : Nat) (hk : k ≤ m) :
    ∃ B, loop (fun B i => B.insert i j (v i) add) A (List.range k) = some B ∧
      Rep m n B (fun a b => if b = j ∧ a < k then (if add then f a b + v a else v a) else f a b) := by
  induction k with
  | zero => exact ⟨A, rfl, rep_congr h (fun a _ b _ => by simp)⟩
  | succ k ih =>
    obtain ⟨B, hB, hr⟩ := ih (by omega)
    obtain ⟨C, hC, hr'⟩ := rep_insert hr (by omega : k < m) hj (v k) add
    refine ⟨C, by rw [loop_succ, hB]; exact hC, rep_congr hr' (fun a _ b _ => ?_)⟩
    simp only [DOp.spec]
    by_cases h1 : b = j <;> by_cases h2 : a = k
    · subst h1 h2; simp
    · have : a < k + 1 ↔ a < k := by omega
      simp [h1, h2, this]
    · simp [h1]
    · simp [h1]

theorem rep_clearLoop {m n : Nat} {A : Dense K} {f : Nat → Nat → K} (h : Rep m n A f)
    (k : Nat) (hk : k ≤ m) :
    ∃ B, loop (fun B i => loop (fun C j => C.insert i j 0 false) B (List.range n)) A
        (List.range k) = some B ∧ Rep m n B (fun a b => if a < k then 0 else f a b) := by
  induction k with
  | zero => exact ⟨A, rfl, rep_congr h (fun a _ b _ => by simp)⟩
  | succ k ih =>
    obtain ⟨B, hB, hr⟩ := ih (by omega)
    obtain ⟨C, hC, hr'⟩ := rep_rowLoop hr (by omega : k < m) (fun _ => 0) false n (le_refl _)
    refine ⟨C, by rw [loop_succ, hB]; exact hC, rep_congr hr' (fun a _ b hb => ?_)⟩
    by_cases h1 : a = k
    · subst h1; simp [hb]
    · have : a < k + 1 ↔ a < k := by omega
      simp [h1, this]

theorem rep_op {m n : Nat} {A : Dense K} {f : Nat → Nat → K} (h : Rep m n A f)
    (o : DOp K) (ho : o.InRange m n) : ∃ B, o.run A = some B ∧ Rep m n B (o.spec f) := by
  cases o with
  | one i j v add => exact rep_insert h ho.1 ho.2 v add
  | row i v add =>
    obtain ⟨B, hB, hr⟩ := rep_rowLoop h ho v add n (le_refl _)
    refine ⟨B, by simpa [DOp.run, Dense.insertRow, h.2.1] using hB,
      rep_congr hr (fun a _ b hb => by simp [DOp.spec, hb])⟩
  | col j v add =>
    obtain ⟨B, hB, hr⟩ := rep_colLoop h ho v add m (le_refl _)
    refine ⟨B, by simpa [DOp.run, Dense.insertCol, h.1] using hB,
      rep_congr hr (fun a ha b _ => by simp [DOp.spec, ha])⟩
  | clear =>
    obtain ⟨B, hB, hr⟩ := rep_clearLoop h m (le_refl _)
    refine ⟨B, by simpa [DOp.run, Dense.clear, h.1, h.2.1] using hB,
      rep_congr hr (fun a ha b _ => by simp [DOp.spec, ha])⟩

theorem rep_run {m n : Nat} (ops : List (DOp K)) {A : Dense K} {f : Nat → Nat → K}
    (h : Rep m n A f) (ho : ∀ o ∈ ops, o.InRange m n) :
    ∃ B, runD A ops = some B ∧ Rep m n B (ops.foldl DOp.spec f) := by
  induction ops generalizing A f with
  | nil => exact ⟨A, rfl, h⟩
  | cons o l ih =>
    obtain ⟨B, hB, hr⟩ := rep_op h o (ho o (by simp))
    obtain ⟨C, hC, hr'⟩ := ih hr (fun o' h' => ho o' (by simp [h']))
    exact ⟨C, by simp [runD, hB, hC], hr'⟩

/-! ## C13 -/

/-- After any in-range sequence of single, row and column insertions and clears, reading
    entry (i, j) gives exactly what the two-index table updated by the same calls holds. -/
theorem C13_storage (m n : Nat) (v0 : K) (ops : List (DOp K)) (ho : ∀ o ∈ ops, o.InRange m n) :
    ∃ A, runD (Dense.new m n v0) ops = some A ∧
      ∀ i < m, ∀ j < n, A.get i j = some (ops.foldl DOp.spec (fun _ _ => v0) i j) := by
  obtain ⟨A, hA, hr⟩ := rep_run ops (rep_new m n v0) ho
  refine ⟨A, hA, fun i hi j hj => ?_⟩
  simp only [Dense.get, Dense.idx, hr.1]
  exact hr.2.2.2 i hi j hj

theorem mul_inner (m : Nat) (vals : List K) (c : K) (p : Nat) (y : Nat → K) :
    (List.range m).foldl (fun (st : Nat × (Nat → K)) i =>
      (st.1 + 1, fun k => if k = i then st.2 k + c * vals.getD st.1 0 else st.2 k)) (p, y)
    = (p + m, fun k => if k < m then y k + c * vals.getD (p + k) 0 else y k) := by
  induction m with
  | zero => simp
  | succ m ih =>
    rw [List.range_succ, List.foldl_append, ih]
    simp only [List.foldl_cons, List.foldl_nil, Prod.mk.injEq]
    refine ⟨by omega, funext fun k => ?_⟩
    by_cases h : k = m
    · subst h; simp
    · have : k < m + 1 ↔ k < m := by omega
      simp [h, this]

theorem mul_outer (m n : Nat) (vals : List K) (x : Nat → K) :
    (List.range n).foldl (fun (st : Nat × (Nat → K)) j =>
      (List.range m).foldl (fun (st : Nat × (Nat → K)) i =>
        (st.1 + 1, fun k => if k = i then st.2 k + x j * vals.getD st.1 0 else st.2 k)) st)
      (0, fun _ => 0)
    = (n * m, fun k => if k < m then ∑ j ∈ range n, x j * vals.getD (j * m + k) 0 else 0) := by
  induction n with
  | zero => simp
  | succ n ih =>
    rw [List.range_succ, List.foldl_append, ih]
    simp only [List.foldl_cons, List.foldl_nil, mul_inner, Prod.mk.injEq]
    refine ⟨by ring, funext fun k => ?_⟩
    by_cases h : k < m
    · simp [h, sum_range_succ]
    · simp [h]

theorem tr_inner (m : Nat) (vals : List K) (x : Nat → K) (p : Nat) (c : K) :
    (List.range m).foldl (fun (t : Nat × K) i =>
      (t.1 + 1, t.2 + x i * vals.getD t.1 0)) (p, c)
    = (p + m, c + ∑ i ∈ range m, x i * vals.getD (p + i) 0) := by
  induction m with
  | zero => simp
  | succ m ih =>
    rw [List.range_succ, List.foldl_append, ih]
    simp only [List.foldl_cons, List.foldl_nil, Prod.mk.injEq, sum_range_succ]
    exact ⟨by omega, by ring⟩

theorem tr_outer (m n : Nat) (vals : List K) (x : Nat → K) :
    (List.range n).foldl (fun (st : Nat × (Nat → K)) j =>
      let t := (List.range m).foldl (fun (t : Nat × K) i =>
        (t.1 + 1, t.2 + x i * vals.getD t.1 0)) (st.1, 0)
      (t.1, fun k => if k = j then t.2 else st.2 k))
      (0, fun _ => 0)
    = (n * m, fun k => if k < n then ∑ i ∈ range m, x i * vals.getD (k * m + i) 0 else 0) := by
  induction n with
  | zero => simp
  | succ n ih =>
    rw [List.range_succ, List.foldl_append, ih]
    simp only [List.foldl_cons, List.foldl_nil, tr_inner, Prod.mk.injEq]
    refine ⟨by ring, funext fun k => ?_⟩
    by_cases h : k = n
    · subst h; simp
    · have : k < n + 1 ↔ k < n := by omega
      simp [h, this]

/-- `multiply` and `multiply_transpose` are the products with the table of entries that the
    history of calls describes. -/
theorem C13_multiply (m n : Nat) (v0 : K) (ops : List (DOp K)) (ho : ∀ o ∈ ops, o.InRange m n)
    (x : Nat → K) :
    ∃ A, runD (Dense.new m n v0) ops = some A ∧
      (∀ i < m, A.multiply x i =
        ∑ j ∈ range n, ops.foldl DOp.spec (fun _ _ => v0) i j * x j) ∧
      (∀ j < n, A.multiplyTranspose x j =
        ∑ i ∈ range m, ops.foldl DOp.spec (fun _ _ => v0) i j * x i) := by
  obtain ⟨A, hA, hm, hn, hl, hv⟩ := rep_run ops (rep_new m n v0) ho
  have hg : ∀ i < m, ∀ j < n, A.vals.getD (j * m + i) 0 =
      ops.foldl DOp.spec (fun _ _ => v0) i j := by
    intro i hi j hj
    rw [List.getD_eq_getElem?_getD, add_comm, hv i hi j hj]; rfl
  refine ⟨A, hA, fun i hi => ?_, fun j hj => ?_⟩
  · simp only [Dense.multiply, hm, hn]
    rw [mul_outer]
    simp only [hi, if_true]
    refine sum_congr rfl fun j hj => ?_
    rw [hg i hi j (mem_range.mp hj), mul_comm]
  · simp only [Dense.multiplyTranspose, hm, hn]
    rw [tr_outer]
    simp only [hj, if_true]
    refine sum_congr rfl fun i hi => ?_
    rw [hg i (mem_range.mp hi) j hj, mul_comm]

/-- A copy holds the same entries and later writes to either do not show in the other
    (copies are values). -/
theorem C13_copy (m n : Nat) (v0 : K) (ops : List (DOp K)) (ho : ∀ o ∈ ops, o.InRange m n) :
    ∃ A, runD (Dense.new m n v0) ops = some A ∧ A.copy = A := by
  obtain ⟨A, hA, hm, hn, hl, hv⟩ := rep_run ops (rep_new m n v0) ho
  refine ⟨A, hA, ?_⟩
  cases A with
  | mk a b v =>
    simp only at hm hn hl
    subst hm hn
    simp only [Dense.copy]
    rw [← hl, List.take_length]

/-- The bound `i < m` is not checked at run time: writing row `m` of column `0` lands on entry
    (0, 1). -/
theorem C13_row_overflow_aliases (m n : Nat) (hm : 0 < m) (hn : 1 < n) (v0 v : K) :
    ∃ A, (Dense.new m n v0).insert m 0 v false = some A ∧ A.get 0 1 = some v := by
  have h : m < m * n := by nlinarith
  refine ⟨{ (Dense.new m n v0) with vals := (Dense.new m n v0).vals.set m v }, ?_, ?_⟩
  · simp [Dense.insert, Dense.idx, Dense.new, h]
  · simp [Dense.get, Dense.idx, Dense.new, List.getElem?_set, h]

/-- `C13_storage` and `C13_multiply` on a 2 × 3 matrix. -/
example :
    (runD (Dense.new 2 3 (1 : ℚ)) [.one 0 2 5 true, .row 1 (fun j => (j : ℚ)) false,
        .col 2 (fun i => (i : ℚ) + 1) true]) = some ⟨2, 3, [1, 0, 1, 1, 7, 4]⟩ ∧
    (⟨2, 3, [1, 0, 1, 1, 7, 4]⟩ : Dense ℚ).get 0 2 = some 7 ∧
    (⟨2, 3, [1, 0, 1, 1, 7, 4]⟩ : Dense ℚ).multiply (fun _ => 1) 1 = 5 := by decide +kernel

/-! ## C10, dense part -/

/-- For every dense matrix with full storage, ⟨y, A x⟩ = ⟨Aᵀ y, x⟩. -/
theorem C10_dense_adjoint (A : Dense K) (x y : Nat → K) :
    ∑ i ∈ range A.m, y i * A.multiply x i =
      ∑ j ∈ range A.n, A.multiplyTranspose y j * x j := by
  simp only [Dense.multiply, Dense.multiplyTranspose, mul_outer, tr_outer]
  have h1 : ∀ i ∈ range A.m, y i * (if i < A.m then
      ∑ j ∈ range A.n, x j * A.vals.getD (j * A.m + i) 0 else 0) =
      ∑ j ∈ range A.n, y i * (x j * A.vals.getD (j * A.m + i) 0) := fun i hi => by
    rw [if_pos (mem_range.mp hi), mul_sum]
  have h2 : ∀ j ∈ range A.n, (if j < A.n then
      ∑ i ∈ range A.m, y i * A.vals.getD (j * A.m + i) 0 else 0) * x j =
      ∑ i ∈ range A.m, y i * (x j * A.vals.getD (j * A.m + i) 0) := fun j hj => by
    rw [if_pos (mem_range.mp hj), sum_mul]
    exact sum_congr rfl fun i _ => by ring
  rw [sum_congr rfl h1, sum_congr rfl h2, sum_comm]

/-! ## C14 : specification, a total map from columns to values -/

section SparseRow

variable [DecidableEq K]

/-- One `insert` call on a row. -/
structure ROp (K : Type) where
  col : Int
  v : K
  add : Bool

/-- The plain map updated by one call: INSERT overwrites, ADD accumulates. -/
def ROp.spec (f : Int → K) (o : ROp K) : Int → K :=
  fun c => if c = o.col then (if o.add then f c + o.v else o.v) else f c

/-- The calls on the model. -/
def runR (r : SRow K) (ops : List (ROp K)) : SRow K :=
  ops.foldl (fun r o => (r.insert o.col o.v o.add).1) r

/-- Value of a row at a column, absent columns being zero. -/
def valAt (l : List (Int × K)) (c : Int) : K :=
  match l.find? (fun e => e.1 = c) with
  | some e => e.2
  | none => 0

/-- Strictly increasing columns. -/
def Sorted (l : List (Int × K)) : Prop := l.Pairwise (fun a b => a.1 < b.1)

theorem insLoop_cols (i : Int) (v : K) (add : Bool) (l : List (Int × K)) :
    ∀ e ∈ (insLoop i v add l).1, e.1 = i ∨ ∃ e' ∈ l, e'.1 = e.1 := by
  induction l with
  | nil => simp [insLoop]
  | cons a l ih =>
    intro e he
    simp only [insLoop] at he
    split_ifs at he with h1 h2 h3 h4
    · rcases List.mem_cons.mp he with rfl | he
      · exact Or.inl rfl
      · exact Or.inr ⟨e, he, rfl⟩
    · exact Or.inr ⟨e, List.mem_cons_of_mem _ he, rfl⟩
    · rcases List.mem_cons.mp he with rfl | he
      · exact Or.inl h2.symm
      · exact Or.inr ⟨e, List.mem_cons_of_mem _ he, rfl⟩
    · rcases List.mem_cons.mp he with rfl | he
      · exact Or.inl h2.symm
      · exact Or.inr ⟨e, List.mem_cons_of_mem _ he, rfl⟩
    · rcases List.mem_cons.mp he with rfl | he
      · exact Or.inr ⟨e, List.mem_cons_self, rfl⟩
      · rcases ih e he with h | ⟨e', h, h'⟩
        · exact Or.inl h
        · exact Or.inr ⟨e', List.mem_cons_of_mem _ h, h'⟩

theorem insLoop_sorted (i : Int) (v : K) (add : Bool) (l : List (Int × K)) (h : Sorted l) :
    Sorted (insLoop i v add l).1 := by
  induction l with
  | nil => simp [insLoop, Sorted]
  | cons a l ih =>
    have h' := List.pairwise_cons.mp h
    simp only [insLoop]
    split_ifs with h1 h2 h3 h4
    · refine List.pairwise_cons.mpr ⟨fun e he => ?_, h⟩
      rcases List.mem_cons.mp he with rfl | he
      · exact h1
      · exact lt_trans h1 (h'.1 e he)
    · exact h'.2
    · exact List.pairwise_cons.mpr ⟨h'.1, h'.2⟩
    · exact List.pairwise_cons.mpr ⟨h'.1, h'.2⟩
    · refine List.pairwise_cons.mpr ⟨fun e he => ?_, ih h'.2⟩
      rcases insLoop_cols i v add l e he with h4 | ⟨e', h5, h6⟩
      · rw [h4]; omega
      · rw [← h6]; exact h'.1 e' h5

theorem valAt_cons (a : Int × K) (l : List (Int × K)) (c : Int) :
    valAt (a :: l) c = if a.1 = c then a.2 else valAt l c := by
  unfold valAt
  rw [List.find?_cons]
  by_cases h : a.1 = c <;> simp [h]

theorem valAt_absent (l : List (Int × K)) (c : Int) (h : ∀ e ∈ l, e.1 ≠ c) : valAt l c = 0 := by
  unfold valAt
  rw [List.find?_eq_none.mpr (by simpa using h)]

theorem insLoop_val (i : Int) (v : K) (add : Bool) (l : List (Int × K)) (h : Sorted l) (c : Int) :
    valAt (insLoop i v add l).1 c = (ROp.mk i v add).spec (valAt l) c := by
  induction l with
  | nil => simp only [insLoop, valAt_cons, ROp.spec]; simp [valAt, eq_comm]
  | cons a l ih =>
    have h' := List.pairwise_cons.mp h
    have hne : ∀ e ∈ l, e.1 ≠ a.1 := fun e he => ne_of_gt (h'.1 e he)
    have ih' := ih h'.2
    simp only [ROp.spec] at ih' ⊢
    simp only [insLoop]
    by_cases h1 : i < a.1
    · have habs : valAt (a :: l) i = 0 := by
        refine valAt_absent _ _ fun e he => ?_
        rcases List.mem_cons.mp he with rfl | he
        · omega
        · have := h'.1 e he; omega
      rw [if_pos h1]
      by_cases hc : c = i
      · subst hc
        rw [if_pos rfl, habs]
        simp [valAt_cons]
      · rw [if_neg hc, valAt_cons, if_neg (Ne.symm hc)]
    · rw [if_neg h1]
      by_cases h2 : i = a.1
      · rw [if_pos h2]
        have hl : valAt l i = 0 := valAt_absent l i (by rw [h2]; exact hne)
        by_cases hc : c = i
        · subst hc
          rw [if_pos rfl]
          cases add
          · simp [valAt_cons, h2]
          · by_cases h3 : v + a.2 = 0
            · simp only [if_true, if_pos h3, hl, valAt_cons, if_pos h2.symm]
              rw [add_comm]; exact h3.symm
            · simp only [if_true, if_neg h3, valAt_cons, if_pos h2.symm]
              ring
        · rw [if_neg hc]
          have hac : a.1 ≠ c := by omega
          split_ifs <;> simp [valAt_cons, hac]
      · rw [if_neg h2]
        simp only [valAt_cons]
        by_cases hc : c = i
        · subst hc
          rw [if_neg (Ne.symm h2), if_neg (Ne.symm h2), ih']
        · rw [ih', if_neg hc, if_neg hc]

/-- After any sequence of `insert` calls the columns are strictly increasing, so `verify`
    accepts the row. -/
theorem C14_sorted (n : Nat) (ops : List (ROp K)) :
    Sorted (runR ⟨n, []⟩ ops).els ∧ (runR ⟨n, []⟩ ops).verify = true := by
  have hs : ∀ (ops : List (ROp K)) (r : SRow K), Sorted r.els → Sorted (runR r ops).els := by
    intro ops
    induction ops with
    | nil => exact fun r h => h
    | cons o l ih =>
      intro r h
      refine ih _ ?_
      simp only [SRow.insert]
      split_ifs
      · exact h
      · exact insLoop_sorted _ _ _ _ h
  have h := hs ops ⟨n, []⟩ List.Pairwise.nil
  refine ⟨h, ?_⟩
  simp only [SRow.verify, List.all_eq_true]
  intro i hi
  have hi' : i + 1 < (runR ⟨n, []⟩ ops).els.length := by
    have := List.mem_range.mp hi; omega
  rw [List.getElem?_eq_getElem (by omega), List.getElem?_eq_getElem hi']
  have := List.pairwise_iff_getElem.mp h i (i + 1) (by omega) hi' (by omega)
  simpa using this

theorem verify_iff (r : SRow K) : r.verify = true ↔ Sorted r.els := by
  constructor
  · intro h
    simp only [SRow.verify, List.all_eq_true, List.mem_range] at h
    refine List.pairwise_iff_getElem.mpr ?_
    intro i j hi hj hij
    induction j with
    | zero => omega
    | succ j ih =>
      have hst := h j (by omega)
      rw [List.getElem?_eq_getElem (by omega : j < r.els.length), List.getElem?_eq_getElem hj] at hst
      simp only [Bool.not_eq_true', decide_eq_false_iff_not, not_le] at hst
      rcases Nat.lt_succ_iff_lt_or_eq.mp hij with h1 | rfl
      · exact lt_trans (ih (by omega) h1) hst
      · exact hst
  · intro h
    simp only [SRow.verify, List.all_eq_true]
    intro i hi
    have hi' : i + 1 < r.els.length := by
      have := List.mem_range.mp hi; omega
    rw [List.getElem?_eq_getElem (by omega), List.getElem?_eq_getElem hi']
    have := List.pairwise_iff_getElem.mp h i (i + 1) (by omega) hi' (by omega)
    simpa using this

/-- `verify` accepts exactly the rows with strictly increasing columns. -/
theorem C14_verify (r : SRow K) : r.verify = true ↔ ∀ (i j : Nat) (hi : i < r.els.length)
    (hj : j < r.els.length), i < j → (r.els[i]).1 < (r.els[j]).1 := by
  rw [verify_iff]; exact List.pairwise_iff_getElem

/-- One call on a row with strictly increasing columns: the exact effect on every column.
    INSERT of the value zero is ignored; everything else acts as on a plain map; `false` is
    returned exactly when an ADD cancels a stored entry, which is then removed. -/
theorem C14_insert_effect (r : SRow K) (h : Sorted r.els) (o : ROp K) (c : Int) :
    Sorted (r.insert o.col o.v o.add).1.els ∧
    (valAt (r.insert o.col o.v o.add).1.els c =
      if o.add = false ∧ o.v = 0 then valAt r.els c else o.spec (valAt r.els) c) := by
  simp only [SRow.insert]
  by_cases h0 : o.add = false ∧ o.v = 0
  · rw [if_pos (by simp [h0]), if_pos h0]; exact ⟨h, rfl⟩
  · rw [if_neg (by simpa using h0), if_neg h0]
    exact ⟨insLoop_sorted _ _ _ _ h, insLoop_val _ _ _ _ h c⟩

theorem insLoop_ret (i : Int) (v : K) (add : Bool) (l : List (Int × K)) (h : Sorted l) :
    (insLoop i v add l).2 = false ↔ add = true ∧ ∃ w, (i, w) ∈ l ∧ v + w = 0 := by
  induction l with
  | nil => simp [insLoop]
  | cons a l ih =>
    have h' := List.pairwise_cons.mp h
    have hmem : ∀ w, i ≤ a.1 → (i, w) ∉ l := fun w hle hm => by
      have := h'.1 _ hm; simp only at this; omega
    simp only [insLoop]
    by_cases h1 : i < a.1
    · rw [if_pos h1]
      simp only [Bool.true_eq_false, false_iff, not_and, not_exists]
      rintro - w hw
      rcases List.mem_cons.mp hw with h2 | h2
      · rw [← h2] at h1; simp at h1
      · exact absurd h2 (hmem w (le_of_lt h1))
    · rw [if_neg h1]
      by_cases h2 : i = a.1
      · rw [if_pos h2]
        cases add
        · simp
        · by_cases h3 : v + a.2 = 0
          · simp only [if_true, if_pos h3, true_and, true_iff]
            exact ⟨a.2, by rw [h2]; exact List.mem_cons_self, h3⟩
          · simp only [if_true, if_neg h3, Bool.true_eq_false, true_and, false_iff, not_exists]
            rintro w ⟨hw, h4⟩
            rcases List.mem_cons.mp hw with h5 | h5
            · rw [← h5] at h3; exact h3 h4
            · exact absurd h5 (hmem w (le_of_eq h2))
      · rw [if_neg h2]
        simp only [ih h'.2]
        refine and_congr_right fun _ => exists_congr fun w => and_congr_left fun _ => ?_
        rw [List.mem_cons]
        refine ⟨Or.inr, fun hx => hx.resolve_left fun he => h2 (by rw [← he])⟩

/-- `insert` returns `false` exactly when an ADD cancels a stored entry. -/
theorem C14_insert_return (r : SRow K) (h : Sorted r.els) (o : ROp K) :
    (r.insert o.col o.v o.add).2 = false ↔
      o.add = true ∧ ∃ w, (o.col, w) ∈ r.els ∧ o.v + w = 0 := by
  simp only [SRow.insert]
  by_cases h0 : o.add = false ∧ o.v = 0
  · rw [if_pos (by simp [h0])]; simp [h0]
  · rw [if_neg (by simpa using h0)]
    exact insLoop_ret _ _ _ _ h

/-- Histories without an INSERT of the value zero: the row is the plain map.  (The statement for
    arbitrary histories is false, see `C14_insert_zero_ignored`.) -/
theorem C14_map_partial (n : Nat) (ops : List (ROp K))
    (h : ∀ o ∈ ops, o.add = false → o.v ≠ 0) (c : Int) :
    valAt (runR ⟨n, []⟩ ops).els c = ops.foldl ROp.spec (fun _ => 0) c := by
  have hs : ∀ (ops : List (ROp K)) (r : SRow K) (f : Int → K),
      (∀ o ∈ ops, o.add = false → o.v ≠ 0) → Sorted r.els → valAt r.els = f →
      valAt (runR r ops).els = ops.foldl ROp.spec f := by
    intro ops
    induction ops with
    | nil => exact fun r f _ _ h => h
    | cons o l ih =>
      intro r f hz hr hf
      have key := fun c => C14_insert_effect r hr o c
      refine ih _ _ (fun o' ho' => hz o' (by simp [ho'])) (key 0).1 (funext fun c => ?_)
      rw [(key c).2, if_neg (fun hc => hz o (by simp) hc.1 hc.2), hf]
  exact congrFun (hs ops ⟨n, []⟩ _ h List.Pairwise.nil rfl) c

/-- INSERT of zero over a stored value leaves the old value in place. -/
theorem C14_insert_zero_ignored :
    valAt (runR (⟨4, []⟩ : SRow ℚ) [⟨2, 5, false⟩, ⟨2, 0, false⟩]).els 2 = 5 ∧
    [⟨2, 5, false⟩, ⟨2, 0, false⟩].foldl ROp.spec (fun _ => (0 : ℚ)) 2 = 0 := by decide +kernel

/-- A non-trivial history for `C14_map_partial`: out-of-order inserts and a cancellation. -/
example : runR (⟨9, []⟩ : SRow ℚ) [⟨5, 1, true⟩, ⟨2, 3, false⟩, ⟨7, 4, true⟩, ⟨5, -1, true⟩] =
    ⟨9, [(2, 3), (7, 4)]⟩ := by decide +kernel

theorem findIdx_find (l : List (Int × K)) (c : Int) :
    (l.findIdx? (fun e => decide (e.1 = c))).bind (fun p => (l[p]?).map (·.2)) =
      (l.find? (fun e => decide (e.1 = c))).map (·.2) := by
  induction l with
  | nil => simp
  | cons a l ih =>
    rw [List.findIdx?_cons, List.find?_cons]
    by_cases h : a.1 = c
    · simp [h]
    · simp only [h, decide_false, Bool.false_eq_true, if_false]
      rw [← ih]
      cases l.findIdx? (fun e => decide (e.1 = c)) <;> simp

/-- Reading with `[]` gives the value at a stored column and is undefined at an absent one
    (the guard in the code tests the wrong variable). -/
theorem C14_read (r : SRow K) (c : Int) :
    ((∃ e ∈ r.els, e.1 = c) → r.at c = some (valAt r.els c)) ∧
    ((∀ e ∈ r.els, e.1 ≠ c) → r.at c = none) := by
  simp only [SRow.at, SRow.find, findIdx_find]
  constructor
  · rintro ⟨e, he, rfl⟩
    unfold valAt
    cases hf : r.els.find? (fun x => decide (x.1 = e.1)) with
    | none =>
      rw [List.find?_eq_none] at hf
      exact absurd (by simp) (hf e he)
    | some x => rfl
  · intro h
    rw [List.find?_eq_none.mpr (by simpa using h)]; rfl

/-- What `range(a, b)` visits on a row with strictly increasing columns: the columns in
    [a, b), except that when there are none and column `b` is stored it visits that one. -/
theorem C14_range (r : SRow K) (h : Sorted r.els) (a b : Int) (hab : a ≤ b) :
    r.range a b =
      if ∃ e ∈ r.els, a ≤ e.1 ∧ e.1 < b then r.els.filter (fun e => a ≤ e.1 ∧ e.1 < b)
      else r.els.filter (fun e => e.1 = b) := by
  obtain ⟨n, l⟩ := r
  simp only [SRow.range] at h ⊢
  induction l with
  | nil => simp [rangeBegin]
  | cons x l ih =>
    have h' := List.pairwise_cons.mp h
    by_cases h1 : x.1 > b
    · have hno : ¬ ∃ e ∈ x :: l, a ≤ e.1 ∧ e.1 < b := by
        rintro ⟨e, he, h2, h3⟩
        rcases List.mem_cons.mp he with rfl | he
        · omega
        · have := h'.1 e he; omega
      rw [if_neg hno, List.filter_eq_nil_iff.mpr]
      · simp [rangeBegin, h1]
      · intro e he
        rcases List.mem_cons.mp he with rfl | he
        · simp; omega
        · have := h'.1 e he; simp; omega
    · by_cases h2 : x.1 ≥ a
      · simp only [rangeBegin, if_neg h1, if_pos h2]
        by_cases h3 : x.1 < b
        · rw [if_pos ⟨x, List.mem_cons_self, h2, h3⟩, List.filter_cons_of_pos (by simp; omega)]
          congr 1
          have hs := h'.2
          have hlow : ∀ e ∈ l, a ≤ e.1 := fun e he => by have := h'.1 e he; omega
          clear ih h h' h1 h2 h3
          induction l with
          | nil => rfl
          | cons y l ih2 =>
            have hs' := List.pairwise_cons.mp hs
            have hy := hlow y List.mem_cons_self
            by_cases h4 : y.1 < b
            · rw [List.takeWhile_cons_of_pos (by simpa using h4),
                List.filter_cons_of_pos (by simp [h4, hy]),
                ih2 hs'.2 (fun e he => hlow e (List.mem_cons_of_mem _ he))]
            · rw [List.takeWhile_cons_of_neg (by simpa using h4), eq_comm, List.filter_eq_nil_iff]
              intro e he
              rcases List.mem_cons.mp he with rfl | he
              · simp; omega
              · have := hs'.1 e he; simp; omega
        · have hxb : x.1 = b := by omega
          have hno : ¬ ∃ e ∈ x :: l, a ≤ e.1 ∧ e.1 < b := by
            rintro ⟨e, he, h4, h5⟩
            rcases List.mem_cons.mp he with rfl | he
            · omega
            · have := h'.1 e he; omega
          rw [if_neg hno, List.filter_cons_of_pos (by simp [hxb])]
          congr 1
          rw [List.filter_eq_nil_iff.mpr]
          · cases l with
            | nil => rfl
            | cons y l =>
              have := h'.1 y List.mem_cons_self
              rw [List.takeWhile_cons_of_neg (by simp; omega)]
          · intro e he
            have := h'.1 e he; simp; omega
      · simp only [rangeBegin, if_neg h1, if_neg h2]
        rw [ih h'.2]
        have hex : (∃ e ∈ x :: l, a ≤ e.1 ∧ e.1 < b) ↔ ∃ e ∈ l, a ≤ e.1 ∧ e.1 < b := by
          constructor
          · rintro ⟨e, he, h4⟩
            rcases List.mem_cons.mp he with rfl | he
            · omega
            · exact ⟨e, he, h4⟩
          · rintro ⟨e, he, h4⟩; exact ⟨e, List.mem_cons_of_mem _ he, h4⟩
        by_cases hx : ∃ e ∈ l, a ≤ e.1 ∧ e.1 < b
        · rw [if_pos hx, if_pos (hex.mpr hx), List.filter_cons_of_neg (by simp; omega)]
        · rw [if_neg hx, if_neg (fun hc => hx (hex.mp hc)),
            List.filter_cons_of_neg (by simp; omega)]

/-- So `range` is neither the closed interval its comment promises nor half open. -/
theorem C14_range_inconsistent :
    (⟨9, [(2, 1), (4, 1)]⟩ : SRow ℚ).range 2 4 = [(2, 1)] ∧
    (⟨9, [(2, 1), (4, 1)]⟩ : SRow ℚ).range 3 4 = [(4, 1)] := by decide +kernel

/-- Adding a multiple of columns [a, b) of another row, when that row stores nothing at column
    `b` (always so for `b` equal to the row size): the map is updated by that multiple on [a, b)
    and nowhere else. -/
theorem C14_add_range (q r : SRow K) (hq : Sorted q.els) (hr : Sorted r.els) (a b : Int)
    (hab : a ≤ b) (hb : ∀ e ∈ r.els, e.1 ≠ b) (v : K) (c : Int) :
    valAt (q.insertRange a b r v true).1.els c =
      valAt q.els c + (if a ≤ c ∧ c < b then valAt r.els c * v else 0) := by
  have hrange : r.range a b = r.els.filter (fun e => a ≤ e.1 ∧ e.1 < b) := by
    rw [C14_range r hr a b hab]
    split_ifs with hx
    · rfl
    · rw [List.filter_eq_nil_iff.mpr (by simpa using hb), eq_comm, List.filter_eq_nil_iff]
      intro e he
      simpa using fun h1 => by
        by_contra h2
        exact hx ⟨e, he, h1, by omega⟩
  have hfold : ∀ (l : List (Int × K)) (q : SRow K), Sorted l → Sorted q.els →
      valAt (l.foldl (fun acc e => (acc.insert e.1 (e.2 * v) true).1) q).els c =
        valAt q.els c + valAt l c * v := by
    intro l
    induction l with
    | nil => intro q _ _; simp [valAt]
    | cons e l ih =>
      intro q hl hq
      have hl' := List.pairwise_cons.mp hl
      have key := fun c => C14_insert_effect q hq ⟨e.1, e.2 * v, true⟩ c
      rw [List.foldl_cons, ih _ hl'.2 (key 0).1, (key c).2, if_neg (by simp), valAt_cons]
      simp only [ROp.spec, if_true]
      by_cases hc : c = e.1
      · subst hc
        rw [if_pos rfl, if_pos rfl, valAt_absent l _ (fun x hx => ne_of_gt (hl'.1 x hx))]
        ring
      · rw [if_neg hc, if_neg (Ne.symm hc)]
  have hval : ∀ (l : List (Int × K)), valAt (l.filter (fun e => a ≤ e.1 ∧ e.1 < b)) c =
      if a ≤ c ∧ c < b then valAt l c else 0 := by
    intro l
    induction l with
    | nil => simp [valAt]
    | cons e l ih =>
      by_cases he : a ≤ e.1 ∧ e.1 < b
      · rw [List.filter_cons_of_pos (by simpa using he), valAt_cons, valAt_cons, ih]
        by_cases hc : e.1 = c
        · subst hc; simp [he]
        · simp [hc]
      · rw [List.filter_cons_of_neg (by simpa using he), ih, valAt_cons]
        by_cases hc : e.1 = c
        · subst hc; simp [he]
        · simp [hc]
  simp only [SRow.insertRange]
  rw [hrange, hfold _ _ (hr.filter _) hq, hval]
  split_ifs <;> simp

/-- The range form returns `true` even when entries were removed (its comment promises
    `false`). -/
theorem C14_range_return :
    ((⟨4, [(1, 1)]⟩ : SRow ℚ).insertRange 0 4 ⟨4, [(1, 1)]⟩ (-1) true) = (⟨4, []⟩, true) := by
  decide +kernel

/-- A row built from an array holds exactly the array, in strictly increasing columns, without
    stored zeros. -/
theorem C14_of_array (n : Nat) (a : Nat → K) :
    Sorted (SRow.ofArray n a).els ∧ (∀ e ∈ (SRow.ofArray n a).els, e.2 ≠ 0) ∧
    ∀ j < n, valAt (SRow.ofArray n a).els (j : Int) = a j := by
  have key : ∀ n, Sorted (SRow.ofArray n a).els ∧ (∀ e ∈ (SRow.ofArray n a).els, e.2 ≠ 0 ∧ e.1 < n) ∧
      ∀ j < n, valAt (SRow.ofArray n a).els (j : Int) = a j := by
    intro n
    induction n with
    | zero => simp [SRow.ofArray, Sorted]
    | succ n ih =>
      obtain ⟨h1, h2, h3⟩ := ih
      have happ : (SRow.ofArray (n + 1) a).els =
          (SRow.ofArray n a).els ++ (if a n ≠ 0 then [((n : Int), a n)] else []) := by
        simp only [SRow.ofArray, List.range_succ, List.filterMap_append]
        congr 1
        by_cases h : a n = 0 <;> simp [h]
      have hva : ∀ (l l' : List (Int × K)) (c : Int), valAt (l ++ l') c =
          if ∃ e ∈ l, e.1 = c then valAt l c else valAt l' c := by
        intro l l' c
        induction l with
        | nil => simp
        | cons x l ih =>
          rw [List.cons_append, valAt_cons, valAt_cons, ih]
          by_cases hx : x.1 = c
          · simp [hx]
          · have : (∃ e ∈ x :: l, e.1 = c) ↔ ∃ e ∈ l, e.1 = c := by
              simp only [List.mem_cons, exists_eq_or_imp, hx, false_or]
            simp only [hx, if_false, this]
      rw [happ]
      refine ⟨List.pairwise_append.mpr ⟨h1, ?_, ?_⟩, ?_, ?_⟩
      · split_ifs <;> simp
      · intro e he e' he'
        split_ifs at he' with h0
        · rw [List.mem_singleton.mp he']; exact (h2 e he).2
        · simp at he'
      · intro e he
        rcases List.mem_append.mp he with he | he
        · have := h2 e he; exact ⟨this.1, by push_cast; omega⟩
        · split_ifs at he with h0
          · rw [List.mem_singleton.mp he]; exact ⟨h0, by push_cast; simp⟩
          · simp at he
      · intro j hj
        rw [hva]
        by_cases hjn : j = n
        · subst hjn
          rw [if_neg (fun ⟨e, he, hc⟩ => by have := (h2 e he).2; omega)]
          by_cases h0 : a j = 0
          · simp [h0, valAt]
          · simp [h0, valAt]
        · by_cases hx : ∃ e ∈ (SRow.ofArray n a).els, e.1 = (j : Int)
          · rw [if_pos hx]; exact h3 j (by omega)
          · rw [if_neg hx]
            have := h3 j (by omega)
            rw [valAt_absent _ _ (by push Not at hx; exact hx)] at this
            rw [← this]
            apply valAt_absent
            intro e he
            split_ifs at he with h0
            · rw [List.mem_singleton.mp he]; simp only [ne_eq, Nat.cast_inj]; omega
            · simp at he
  exact ⟨(key n).1, fun e he => ((key n).2.1 e he).1, (key n).2.2⟩

end SparseRow
end Detran.Dense
