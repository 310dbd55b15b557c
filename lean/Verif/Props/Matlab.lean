import Verif.Model.Matlab
import Verif.Props.Matrix
import Verif.Props.Dense
import Mathlib.Tactic.IntervalCases
import Mathlib.Data.Rat.Encodable

/-!
# Files for MATLAB (C144)

The specification is a reader: the text is cut into lines and these into words; every line of three words is a row, a column and a
value, the matrix is the sum of the values at each place.  It knows nothing of how the files are made.
-/

namespace Detran.Matlab

variable {K : Type} [Field K]

/-! ## The reader -/

/-- Pieces between separators. -/
def cut (c : Char) : List Char → List (List Char)
  | [] => [[]]
  | x :: l => if x = c then [] :: cut c l else (x :: (cut c l).headD []) :: (cut c l).tail

/-- Words of a line. -/
def wordsOf (l : List Char) : List (List Char) := (cut ' ' l).filter fun t => !t.isEmpty

/-- The words of a file by lines, without the empty lines. -/
def table (l : List Char) : List (List (List Char)) := ((cut '\n' l).map wordsOf).filter fun t => !t.isEmpty

/-- A number without sign. -/
def readNat (t : List Char) : Option Nat :=
  if t ≠ [] ∧ ∀ c ∈ t, c.isDigit = true then some (t.foldl (fun n c => 10 * n + (c.toNat - '0'.toNat)) 0) else none

/-- Row, column and value of a line. -/
def readEntry (rv : List Char → Option K) : List (List Char) → Option (Nat × Nat × K)
  | [a, b, c] => do return (← readNat a, ← readNat b, ← rv c)
  | _ => none

/-- All entries of a file. -/
def readEntries (rv : List Char → Option K) (l : List Char) : Option (List (Nat × Nat × K)) := (table l).mapM (readEntry rv)

/-- The values of a file of single numbers. -/
def readValues (rv : List Char → Option K) (l : List Char) : Option (List K) :=
  (table l).mapM fun t => match t with
    | [c] => rv c
    | _ => none

/-- The matrix of a list of entries, places counted from one. -/
def place (T : List (Nat × Nat × K)) (i j : Nat) : K := ((T.filter fun e => e.1 = i + 1 ∧ e.2.1 = j + 1).map fun e => e.2.2).sum

/-- How doubles are written: a word that reads back as the same value. -/
structure Writes (pv : K → List Char) (rv : List Char → Option K) : Prop where
  word : ∀ v, pv v ≠ [] ∧ ' ' ∉ pv v ∧ '\n' ∉ pv v
  back : ∀ v, rv (pv v) = some v

/-! ## Cutting -/

theorem cut_ne (c : Char) (l : List Char) : cut c l ≠ [] := by
  cases l with
  | nil => simp [cut]
  | cons x l =>
    unfold cut
    split <;> simp

theorem cut_append (c : Char) {t : List Char} (ht : c ∉ t) (l : List Char) : cut c (t ++ c :: l) = t :: cut c l := by
  induction t with
  | nil => simp [cut]
  | cons x t ih =>
    have hx : x ≠ c := fun e => ht (e ▸ List.mem_cons_self)
    rw [List.cons_append, cut, if_neg hx, ih fun h => ht (List.mem_cons_of_mem _ h)]
    rfl

theorem words_space (l : List Char) : wordsOf (' ' :: l) = wordsOf l := by simp [wordsOf, cut]

theorem words_spaces (k : Nat) (l : List Char) : wordsOf (List.replicate k ' ' ++ l) = wordsOf l := by
  induction k with
  | zero => rfl
  | succ k ih => rw [List.replicate_succ, List.cons_append, words_space, ih]

theorem words_word {t : List Char} (h0 : t ≠ []) (h : ' ' ∉ t) (l : List Char) : wordsOf (t ++ ' ' :: l) = t :: wordsOf l := by
  unfold wordsOf
  rw [cut_append _ h, List.filter_cons_of_pos (by cases t <;> simp_all)]

theorem words_wide {t : List Char} (w : Nat) (h0 : t ≠ []) (h : ' ' ∉ t) (l : List Char) :
    wordsOf (wide w t ++ ' ' :: l) = t :: wordsOf l := by
  unfold wide
  rw [List.append_assoc, words_spaces, words_word h0 h]

theorem table_line {t : List Char} (h : '\n' ∉ t) (hw : wordsOf t ≠ []) (l : List Char) :
    table (t ++ '\n' :: l) = wordsOf t :: table l := by
  unfold table
  rw [cut_append _ h, List.map_cons, List.filter_cons_of_pos (by cases h : wordsOf t <;> simp_all)]

theorem table_end : table ['\n'] = [] := by decide

/-! ## Numbers -/

theorem digitChar_spec {d : Nat} (hd : d < 10) : (Nat.digitChar d).isDigit = true ∧ (Nat.digitChar d).toNat - '0'.toNat = d ∧
    Nat.digitChar d ≠ ' ' ∧ Nat.digitChar d ≠ '\n' := by
  interval_cases d <;> decide

theorem dec_spec (n : Nat) : dec n ≠ [] ∧ (∀ c ∈ dec n, c.isDigit = true ∧ c ≠ ' ' ∧ c ≠ '\n') ∧
    (dec n).foldl (fun n c => 10 * n + (c.toNat - '0'.toNat)) 0 = n := by
  have one : ∀ n < 10, ([Nat.digitChar n] ≠ [] ∧ (∀ c ∈ [Nat.digitChar n], c.isDigit = true ∧ c ≠ ' ' ∧ c ≠ '\n') ∧
      [Nat.digitChar n].foldl (fun n c => 10 * n + (c.toNat - '0'.toNat)) 0 = n) := by
    intro n h
    obtain ⟨h1, h2, h3⟩ := digitChar_spec h
    refine ⟨by simp, fun c hc => ?_, ?_⟩
    · rw [List.mem_singleton.1 hc]
      exact ⟨h1, h3⟩
    · simp only [List.foldl_cons, List.foldl_nil, h2]
      omega
  have all : ∀ k n, n ≤ k → decAux k n ≠ [] ∧ (∀ c ∈ decAux k n, c.isDigit = true ∧ c ≠ ' ' ∧ c ≠ '\n') ∧
      (decAux k n).foldl (fun n c => 10 * n + (c.toNat - '0'.toNat)) 0 = n := by
    intro k
    induction k with
    | zero => exact fun n h => one n (by omega)
    | succ k ih =>
      intro n hk
      rw [decAux]
      split
      · exact one n ‹_›
      · rename_i h
        obtain ⟨h1, h2, h3⟩ := digitChar_spec (show n % 10 < 10 by omega)
        obtain ⟨k1, k2, k3⟩ := ih (n / 10) (by omega)
        refine ⟨by simp, fun c hc => ?_, ?_⟩
        · rcases List.mem_append.1 hc with hc | hc
          · exact k2 c hc
          · rw [List.mem_singleton.1 hc]
            exact ⟨h1, h3⟩
        · rw [List.foldl_append, k3]
          simp only [List.foldl_cons, List.foldl_nil, h2]
          omega
  exact all n n (le_refl _)

theorem readNat_dec (n : Nat) : readNat (dec n) = some n := by
  obtain ⟨h1, h2, h3⟩ := dec_spec n
  rw [readNat, if_pos ⟨h1, fun c hc => (h2 c hc).1⟩, h3]

theorem wide_line (w : Nat) {t : List Char} (h : '\n' ∉ t) : '\n' ∉ wide w t := by
  unfold wide
  intro hc
  rcases List.mem_append.1 hc with hc | hc
  · have := List.eq_of_mem_replicate hc
    revert this
    decide
  · exact h hc

theorem entry_line {pv : K → List Char} {rv : List Char → Option K} (W : Writes pv rv) (i j : Nat) (v : K) (l : List Char) :
    table (entry pv i j v ++ l) = [dec (i + 1), dec (j + 1), pv v] :: table l := by
  obtain ⟨p1, p2, p3⟩ := W.word v
  obtain ⟨a1, a2, -⟩ := dec_spec (i + 1)
  obtain ⟨b1, b2, -⟩ := dec_spec (j + 1)
  have ei : decInt ((i : Int) + 1) = dec (i + 1) := rfl
  have ej : decInt ((j : Int) + 1) = dec (j + 1) := rfl
  have hsp : ∀ k, '\n' ∉ List.replicate k ' ' := fun k hc => by
    have := List.eq_of_mem_replicate hc
    revert this
    decide
  have e : entry pv i j v ++ l = (wide 8 (dec (i + 1)) ++ ' ' :: (List.replicate 2 ' ' ++ (wide 8 (dec (j + 1)) ++ ' ' ::
      (List.replicate 3 ' ' ++ (wide 23 (pv v) ++ ' ' :: []))))) ++ '\n' :: l := by
    simp only [entry, ei, ej, List.append_assoc, List.replicate_succ, List.replicate_zero, List.cons_append, List.nil_append]
  have ew : wordsOf (wide 8 (dec (i + 1)) ++ ' ' :: (List.replicate 2 ' ' ++ (wide 8 (dec (j + 1)) ++ ' ' ::
      (List.replicate 3 ' ' ++ (wide 23 (pv v) ++ ' ' :: []))))) = [dec (i + 1), dec (j + 1), pv v] := by
    rw [words_wide 8 a1 fun h => (a2 _ h).2.1 rfl, words_spaces, words_wide 8 b1 fun h => (b2 _ h).2.1 rfl, words_spaces,
      words_wide 23 p1 p2]
    rfl
  rw [e, table_line _ (by rw [ew]; simp), ew]
  simp only [List.mem_append, List.mem_cons, List.not_mem_nil, or_false, not_or]
  exact ⟨wide_line 8 fun h => (a2 _ h).2.2 rfl, by decide, hsp 2, wide_line 8 fun h => (b2 _ h).2.2 rfl, by decide, hsp 3, wide_line 23 p3,
    by decide⟩

/-- A file of entries reads back as those entries. -/
theorem entries_back {pv : K → List Char} {rv : List Char → Option K} (W : Writes pv rv) (T : List (Nat × Nat × K)) :
    readEntries rv ((T.flatMap fun e => entry pv e.1 e.2.1 e.2.2) ++ ['\n']) = some (T.map fun e => (e.1 + 1, e.2.1 + 1, e.2.2)) := by
  unfold readEntries
  induction T with
  | nil => rw [List.flatMap_nil, List.nil_append, table_end]; rfl
  | cons e T ih =>
    rw [List.flatMap_cons, List.append_assoc, entry_line W, List.mapM_cons, ih]
    simp [readEntry, readNat_dec, W.back]

/-! ## What the files say -/

/-- C144, vectors: the file gives the values in order. -/
theorem C144_vector {pv : K → List Char} {rv : List Char → Option K} (W : Writes pv rv) (v : List K) :
    readValues rv (printVector pv v) = some v := by
  unfold readValues printVector
  induction v with
  | nil => rw [List.flatMap_nil, List.nil_append, table_end]; rfl
  | cons x v ih =>
    obtain ⟨p1, p2, p3⟩ := W.word x
    have ew : wordsOf (wide 23 (pv x) ++ [' ']) = [pv x] := by
      rw [words_wide 23 p1 p2]
      rfl
    have e : (wide 23 (pv x) ++ [' ', '\n']) ++ ((v.flatMap fun x => wide 23 (pv x) ++ [' ', '\n']) ++ ['\n']) =
        (wide 23 (pv x) ++ [' ']) ++ '\n' :: ((v.flatMap fun x => wide 23 (pv x) ++ [' ', '\n']) ++ ['\n']) := by simp
    rw [List.flatMap_cons, List.append_assoc, e, table_line (by
      simp only [List.mem_append, List.mem_cons, List.not_mem_nil, or_false, not_or]
      exact ⟨wide_line 23 p3, by decide⟩) (by rw [ew]; simp), ew, List.mapM_cons, ih]
    simp [W.back]

/-! ### Matrices -/

theorem place_append (S T : List (Nat × Nat × K)) (i j : Nat) : place (S ++ T) i j = place S i j + place T i j := by
  simp [place]

theorem place_other {T : List (Nat × Nat × K)} {i : Nat} (h : ∀ e ∈ T, e.1 ≠ i + 1) (j : Nat) : place T i j = 0 := by
  have : (T.filter fun e => e.1 = i + 1 ∧ e.2.1 = j + 1) = [] := List.filter_eq_nil_iff.2 fun e he => by simp [h e he]
  rw [place, this]
  rfl

theorem place_rows (B : Nat → List (Nat × Nat × K)) (hB : ∀ i, ∀ e ∈ B i, e.1 = i + 1) (m i j : Nat) :
    place ((List.range m).flatMap B) i j = if i < m then place (B i) i j else 0 := by
  induction m with
  | zero => simp [place]
  | succ m ih =>
    rw [List.range_succ, List.flatMap_append, place_append, ih, List.flatMap_singleton]
    by_cases h : i < m
    · rw [if_pos h, if_pos (by omega), place_other (T := B m) (fun e he => by rw [hB m e he]; omega), add_zero]
    · rw [if_neg h, zero_add]
      by_cases h' : i = m
      · subst h'
        rw [if_pos (by omega)]
      · rw [if_neg (by omega), place_other fun e he => by rw [hB m e he]; omega]

/-- The vector that picks one entry of a row. -/
def unit (j : Nat) (k : Nat) : K := if k = j then 1 else 0

theorem place_row (i j : Nat) (l : List (Nat × K)) :
    place (l.map fun e => (i + 1, e.1 + 1, e.2)) i j = (l.map fun e => unit j e.1 * e.2).sum := by
  induction l with
  | nil => rfl
  | cons e l ih =>
    have h : (e :: l).map (fun e => (i + 1, e.1 + 1, e.2)) = [(i + 1, e.1 + 1, e.2)] ++ l.map fun e => (i + 1, e.1 + 1, e.2) := rfl
    rw [h, place_append, ih, List.map_cons, List.sum_cons]
    congr 1
    by_cases he : e.1 = j
    · simp [place, unit, he]
    · simp [place, unit, he]

/-- C144, sparse matrices: reading the file gives the matrix that `multiply` applies, and no other rows. -/
theorem C144_matrix {pv : K → List Char} {rv : List Char → Option K} (W : Writes pv rv) (A : Matrix.CSR K)
    (hc : ∀ i < A.m, ∀ p ∈ A.ptrs i, 0 ≤ A.column p) : ∃ T, readEntries rv (printCSR pv A) = some T ∧
      (∀ e ∈ T, e.1 ≠ 0 ∧ e.1 ≤ A.m ∧ e.2.1 ≠ 0) ∧ ∀ i j, place T i j = if i < A.m then A.multiply (unit j) i else 0 := by
  let B : Nat → List (Nat × Nat × K) := fun i => (A.ptrs i).map fun p => (i, (A.column p).toNat, A.value p)
  have e : printCSR pv A = (((List.range A.m).flatMap B).flatMap fun e => entry pv e.1 e.2.1 e.2.2) ++ ['\n'] := by
    unfold printCSR
    rw [List.flatMap_assoc]
    congr 1
    refine List.flatMap_congr fun i hi => ?_
    simp only [B, List.flatMap_map]
    refine List.flatMap_congr fun p hp => ?_
    rw [Int.toNat_of_nonneg (hc i (List.mem_range.1 hi) p hp)]
  refine ⟨_, by rw [e]; exact entries_back W _, fun e he => ?_, fun i j => ?_⟩
  · obtain ⟨e, h, rfl⟩ := List.mem_map.1 he
    obtain ⟨i, hi, h⟩ := List.mem_flatMap.1 h
    obtain ⟨p, hp, rfl⟩ := List.mem_map.1 h
    have := List.mem_range.1 hi
    exact ⟨by simp, by simp; omega, by simp⟩
  · rw [List.map_flatMap, place_rows _ fun i e he => by
      obtain ⟨e, h, rfl⟩ := List.mem_map.1 he
      obtain ⟨p, hp, rfl⟩ := List.mem_map.1 h
      rfl]
    by_cases hi : i < A.m
    · rw [if_pos hi, if_pos hi]
      have : (B i).map (fun e => (e.1 + 1, e.2.1 + 1, e.2.2)) =
          ((A.ptrs i).map fun p => ((A.column p).toNat, A.value p)).map fun e => (i + 1, e.1 + 1, e.2) := by simp [B]
      rw [this, place_row, List.map_map]
      unfold Matrix.CSR.multiply
      have h : ∀ (l : List Nat) (s : K), l.foldl (fun temp p => temp + unit j (A.column p).toNat * A.value p) s =
          s + (l.map fun p => unit j (A.column p).toNat * A.value p).sum := by
        intro l
        induction l with
        | nil => simp
        | cons p l ih =>
          intro s
          rw [List.foldl_cons, ih, List.map_cons, List.sum_cons, add_assoc]
      rw [h, zero_add]
      rfl
    · rw [if_neg hi, if_neg hi]

/-- What calls inserted at one place. -/
def inserted (ops : List (Matrix.One K)) (i j : Nat) : K := ((ops.filter fun o => o.row = i ∧ o.col = j).map fun o => o.val).sum

/-- C144, from insertion to file: after any history of single entries and assembly the file reads back as the sum of what the successful
    calls inserted at each place. -/
theorem C144_assembled {pv : K → List Char} {rv : List Char → Option K} (W : Writes pv rv)
    (srt : List (Matrix.Trip K) → List (Matrix.Trip K)) (hs : Matrix.IsSort srt) (m n : Nat) (nnz : Nat → Nat)
    (ops : List (Matrix.One K)) (hin : Matrix.InRange m n ops) (A : Matrix.Coo K) (bs : List Bool)
    (hA : Matrix.runOnes (Matrix.preallocate m n nnz) ops = .ok (A, bs)) (C : Matrix.CSR K) (hC : A.assemble srt = some C) :
    ∃ T, readEntries rv (printCSR pv C) = some T ∧ (∀ e ∈ T, e.1 ≠ 0 ∧ e.1 ≤ m ∧ e.2.1 ≠ 0) ∧ ∀ i < m, ∀ j,
      place T i j = inserted (((ops.zip bs).filter fun e => e.2).map fun e => e.1) i j := by
  obtain ⟨hm, -, -, -, -, -, h⟩ := Matrix.C09_shape srt hs m n nnz ops hin A bs hA C hC
  obtain ⟨T, h1, h2, h3⟩ := C144_matrix W C fun i hi p hp => by
    rw [Matrix.CSR.ptrs, List.mem_range'_1] at hp
    exact ((h i (hm ▸ hi)).2.2.1 p hp.1 (by omega)).1
  refine ⟨T, h1, hm ▸ h2, fun i hi j => ?_⟩
  rw [h3, hm, if_pos hi, Matrix.C08_multiply srt hs m n nnz ops hin A bs hA C hC _ i hi]
  unfold Matrix.applied inserted
  generalize (((ops.zip bs).filter fun e => e.2).map fun e => e.1) = l
  induction l with
  | nil => rfl
  | cons o l ih =>
    simp only [unit] at ih
    simp only [List.filter_cons, unit]
    by_cases hr : o.row = i <;> by_cases hj : o.col = j
    · simp only [hr, hj, decide_true, true_and, if_true, List.map_cons, List.sum_cons, ih, mul_one, and_self]
    · simp only [hr, hj, decide_true, decide_false, true_and, if_true, if_false, Bool.false_eq_true, List.map_cons, List.sum_cons, ih,
        mul_zero, zero_add]
    · simp only [hr, decide_false, false_and, if_false, Bool.false_eq_true, ih]
    · simp only [hr, decide_false, false_and, if_false, Bool.false_eq_true, ih]

/-- Rows and columns of a full matrix, in the order of the file. -/
def full (m n : Nat) (f : Nat → Nat → K) : List (Nat × Nat × K) :=
  (List.range m).flatMap fun i => (List.range n).map fun j => (i + 1, j + 1, f i j)

theorem place_full (m n : Nat) (f : Nat → Nat → K) (i j : Nat) : place (full m n f) i j = if i < m ∧ j < n then f i j else 0 := by
  unfold full
  rw [place_rows _ fun i e he => by
    obtain ⟨e, he, rfl⟩ := List.mem_map.1 he
    rfl]
  by_cases hi : i < m
  · rw [if_pos hi]
    have : ((List.range n).map fun j => (i + 1, j + 1, f i j)) = ((List.range n).map fun j => (j, f i j)).map fun e => (i + 1, e.1 + 1, e.2) := by
      simp
    rw [this, place_row, List.map_map]
    clear this
    induction n with
    | zero => simp
    | succ n ih =>
      rw [List.range_succ, List.map_append, List.sum_append, ih]
      by_cases h1 : j < n
      · have h2 : n ≠ j := by omega
        have h3 : j < n + 1 := by omega
        simp [hi, h1, h2, h3, unit]
      · by_cases h2 : n = j
        · subst h2
          simp [hi, unit]
        · have h3 : ¬j < n + 1 := by omega
          simp [h1, h2, h3, unit]
  · rw [if_neg hi, if_neg fun h => hi h.1]

theorem mapM_some {α β : Type} {f : α → Option β} {g : α → β} {l : List α} (h : ∀ x ∈ l, f x = some (g x)) :
    l.mapM f = some (l.map g) := by
  induction l with
  | nil => rfl
  | cons x l ih =>
    rw [List.mapM_cons, h x List.mem_cons_self, ih fun y hy => h y (List.mem_cons_of_mem _ hy)]
    rfl

theorem print_rep {pv : K → List Char} {rv : List Char → Option K} (W : Writes pv rv) {m n : Nat} {A : Dense.Dense K}
    {f : Nat → Nat → K} (h : Dense.Rep m n A f) : ∃ t, printDense pv A = some t ∧ readEntries rv t = some (full m n f) := by
  obtain ⟨hm, hn, -, hv⟩ := h
  have e : printDense pv A = some ((((List.range m).flatMap fun i => (List.range n).map fun j => (i, j, f i j)).flatMap fun e =>
      entry pv e.1 e.2.1 e.2.2) ++ ['\n']) := by
    unfold printDense
    rw [hm, hn, mapM_some (g := fun (i : Nat) => ((List.range n).map fun (j : Nat) => entry pv i j (f i j)).flatten) fun i hi => by
      rw [mapM_some (g := fun (j : Nat) => entry pv i j (f i j)) fun j hj => by
        rw [Dense.Dense.get, Dense.Dense.idx, hm, hv i (List.mem_range.1 hi) j (List.mem_range.1 hj)]
        rfl]
      rfl]
    simp only [Option.map_some, List.flatMap_assoc, List.flatMap_map]
    rfl
  refine ⟨_, e, (entries_back W _).trans ?_⟩
  simp [full, List.map_flatMap, Function.comp_def]

/-- C144, full matrices: after any history of calls within the matrix the file lists every entry. -/
theorem C144_dense {pv : K → List Char} {rv : List Char → Option K} (W : Writes pv rv) (m n : Nat) (v0 : K)
    (ops : List (Dense.DOp K)) (ho : ∀ o ∈ ops, o.InRange m n) : ∃ A t T, Dense.runD (Dense.Dense.new m n v0) ops = some A ∧
      printDense pv A = some t ∧ readEntries rv t = some T ∧ T.length = m * n ∧
      ∀ i < m, ∀ j < n, place T i j = ops.foldl Dense.DOp.spec (fun _ _ => v0) i j := by
  obtain ⟨A, hA, hr⟩ := Dense.rep_run ops (Dense.rep_new m n v0) ho
  obtain ⟨t, h1, h2⟩ := print_rep W hr
  refine ⟨A, t, _, hA, h1, h2, by simp [full, List.length_flatMap], fun i hi j hj => ?_⟩
  rw [place_full, if_pos ⟨hi, hj⟩]

/-! ### Operators -/

/-- Writing the columns of the explicit matrix. -/
theorem explicit_rep (mult : (Nat → K) → Nat → K) (m n : Nat) :
    ∃ A, explicit mult m n = some A ∧ Dense.Rep m n A fun i j => mult (unit j) i := by
  have inner : ∀ {A : Dense.Dense K} {f : Nat → Nat → K}, Dense.Rep m n A f → ∀ j < n, ∀ k ≤ m, ∃ B,
      Dense.loop (fun (B : Dense.Dense K) r => if r + j * m < B.vals.length then
        some { B with vals := B.vals.set (r + j * m) (mult (fun k => if k = j then 1 else 0) r) } else none) A (List.range k) = some B ∧
      Dense.Rep m n B fun a b => if b = j ∧ a < k then mult (unit j) a else f a b := by
    intro A f h j hj k hk
    induction k with
    | zero => exact ⟨A, rfl, Dense.rep_congr h fun a _ b _ => by simp⟩
    | succ k ih =>
      obtain ⟨B, hB, hr⟩ := ih (by omega)
      have hlt : k + j * m < B.vals.length := by
        rw [hr.2.2.1]
        calc k + j * m < m + j * m := by omega
          _ = m * (j + 1) := by ring
          _ ≤ m * n := Nat.mul_le_mul_left _ hj
      obtain ⟨C, hC, hr'⟩ := Dense.rep_insert hr (by omega : k < m) hj (mult (unit j) k) false
      refine ⟨C, ?_, Dense.rep_congr hr' fun a _ b _ => ?_⟩
      · rw [Dense.loop_succ, hB, Option.bind_some, if_pos hlt, ← hC, Dense.Dense.insert, Dense.Dense.idx, hr.1,
          List.getElem?_eq_getElem hlt]
        rfl
      · simp only [Dense.DOp.spec]
        by_cases h1 : b = j <;> by_cases h2 : a = k
        · subst h1 h2; simp
        · have : a < k + 1 ↔ a < k := by omega
          simp [h1, h2, this]
        · simp [h1]
        · simp [h1]
  have outer : ∀ k ≤ n, ∃ A, Dense.loop (fun A j => Dense.loop (fun (B : Dense.Dense K) r =>
      if r + j * m < B.vals.length then some { B with vals := B.vals.set (r + j * m) (mult (fun k => if k = j then 1 else 0) r) } else none)
      A (List.range m)) (Dense.Dense.new m n 0) (List.range k) = some A ∧
      Dense.Rep m n A fun i j => if j < k then mult (unit j) i else 0 := by
    intro k hk
    induction k with
    | zero => exact ⟨_, rfl, Dense.rep_congr (Dense.rep_new m n 0) fun a _ b _ => by simp⟩
    | succ k ih =>
      obtain ⟨A, hA, hr⟩ := ih (by omega)
      obtain ⟨B, hB, hr'⟩ := inner hr k (by omega) m (le_refl _)
      refine ⟨B, by rw [Dense.loop_succ, hA]; exact hB, Dense.rep_congr hr' fun a ha b _ => ?_⟩
      by_cases h1 : b = k
      · subst h1
        simp [ha]
      · have : b < k + 1 ↔ b < k := by omega
        simp [h1, this]
  obtain ⟨A, hA, hr⟩ := outer n (le_refl _)
  exact ⟨A, hA, Dense.rep_congr hr fun i _ j hj => if_pos hj⟩

/-- C144, operators: the file of an operator that is linear in the first `n` entries holds the matrix by which it multiplies. -/
theorem C144_operator {pv : K → List Char} {rv : List Char → Option K} (W : Writes pv rv) (mult : (Nat → K) → Nat → K) (m n : Nat)
    (hl : ∀ x i, i < m → mult x i = ∑ j ∈ Finset.range n, x j * mult (unit j) i) : ∃ t T, printShell pv mult m n = some t ∧
      readEntries rv t = some T ∧ ∀ x, ∀ i < m, mult x i = ∑ j ∈ Finset.range n, place T i j * x j := by
  obtain ⟨A, hA, hr⟩ := explicit_rep mult m n
  obtain ⟨t, h1, h2⟩ := print_rep W hr
  refine ⟨t, _, by rw [printShell, hA]; exact h1, h2, fun x i hi => ?_⟩
  rw [hl x i hi]
  refine Finset.sum_congr rfl fun j hj => ?_
  rw [place_full, if_pos ⟨hi, Finset.mem_range.1 hj⟩, mul_comm]

/-- The number of columns is not in the file of a sparse matrix: one without entries in its last column has the file of a narrower
    matrix. -/
theorem C144_width_lost (pv : ℚ → List Char) : ∃ A B : Matrix.CSR ℚ, A.n ≠ B.n ∧ printCSR pv A = printCSR pv B :=
  ⟨⟨1, 1, [0, 1], [0], [5], [some 0]⟩, ⟨1, 2, [0, 1], [0], [5], [some 0]⟩, by decide, rfl⟩

/-! ## Cases -/

section cases

/-- Fractions as words: their numbers in a list of all fractions. -/
def pq (v : ℚ) : List Char := dec (Encodable.encode v)

/-- Reading such a word. -/
def rq (t : List Char) : Option ℚ := (readNat t).bind Encodable.decode

/-- A way of writing all fractions, so the theorems are about something. -/
theorem writes_pq : Writes pq rq :=
  { word := fun v => by
      obtain ⟨h1, h2, -⟩ := dec_spec (Encodable.encode v)
      exact ⟨h1, fun h => (h2 _ h).2.1 rfl, fun h => (h2 _ h).2.2 rfl⟩
    back := fun v => by simp [pq, rq, readNat_dec] }

/-- A matrix of two rows and three columns: what a reader of the file sees, and a place at which two values were inserted. -/
example : (readEntries (fun t => (readNat t).map fun n => (n : ℚ)) (printCSR (fun v : ℚ => dec v.num.toNat) Matrix.demoCSR)).map
    (fun T => (T, place T 0 0)) = some ([(1, 1, 1), (1, 1, 3), (1, 3, 9), (2, 2, 0), (2, 3, 7)], 4) := by decide +kernel

/-- An operator that exchanges two entries and doubles one. -/
example : ((printShell (fun v : ℚ => dec v.num.toNat) (fun x i => if i = 0 then x 1 else 2 * x 0) 2 2).bind fun t =>
    readEntries (fun t => (readNat t).map fun n => (n : ℚ)) t) = some [(1, 1, 0), (1, 2, 1), (2, 1, 2), (2, 2, 0)] := by decide +kernel

end cases

end Detran.Matlab
