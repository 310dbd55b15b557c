import Verif.Lemmas.Matrix
import Mathlib.Algebra.BigOperators.Intervals
import Mathlib.Algebra.BigOperators.Ring.Finset
import Mathlib.Data.Rat.Defs

/-!
# Properties C08-C12: the compressed sparse row matrix
-/

namespace Detran.Matrix

open Finset

variable {K : Type} [Field K]

/-! ## Specification: sequences of single-entry insertions -/

/-- Specification: the coefficient sum `Σ val * x col` over the calls on row `i`. -/
def applied (ops : List (One K)) (x : Nat → K) (i : Nat) : K :=
  ((ops.filter (fun o => o.row = i)).map (fun o => o.val * x o.col)).sum

/-- Specification of capacity: columns stored in each row, in order of insertion. -/
def specStep (cap : Nat → Nat) (st : Nat → List Nat) (o : One K) : (Nat → List Nat) × Bool :=
  if o.add = true ∧ o.col ∈ st o.row then (st, true)
  else if (st o.row).length < cap o.row then
    (fun i => if i = o.row then st i ++ [o.col] else st i, true)
  else (st, false)

/-- Specification: return values of a sequence of calls. -/
def specRun (cap : Nat → Nat) (st : Nat → List Nat) : List (One K) → (Nat → List Nat) × List Bool
  | [] => (st, [])
  | o :: l => ((specRun cap (specStep cap st o).1 l).1,
      (specStep cap st o).2 :: (specRun cap (specStep cap st o).1 l).2)

/-- All calls address entries inside the matrix (the code's `Require`s). -/
def InRange (m n : Nat) (ops : List (One K)) : Prop := ∀ o ∈ ops, o.row < m ∧ o.col < n

/-! ## The invariant -/

/-- Row `i` holds the effect of the successful calls `L`; its columns are `cols`. -/
def RowGood (n i : Nat) (r : RowBuf K) (L : List (One K)) (cols : List Nat) : Prop :=
  ∃ fl, r.Holds n i fl ∧ (∀ x : Nat → K, rsum (fun j => x j.toNat) fl = applied L x i) ∧
    fl.map (fun t => t.j) = cols.map (fun c : Nat => (c : Int))

def Good (A : Coo K) (cap : Nat → Nat) (L : List (One K)) (st : Nat → List Nat) : Prop :=
  A.aij.length = A.m ∧ ∀ i r, A.aij[i]? = some r →
    r.slots.length = cap i ∧ RowGood A.n i r L (st i)

theorem good_preallocate (m n : Nat) (nnz : Nat → Nat) :
    Good (preallocate m n nnz : Coo K) nnz [] (fun _ => []) := by
  refine ⟨by simp [preallocate], fun i r hr => ?_⟩
  simp only [preallocate, List.getElem?_map] at hr
  have hi : i < m := by
    by_contra h
    rw [List.getElem?_eq_none (by simp; omega)] at hr
    simp at hr
  rw [List.getElem?_range hi] at hr
  simp only [Option.map_some, Option.some.injEq] at hr
  subst hr
  exact ⟨by simp, [], ⟨by simp, rfl, by simp, by simp⟩, by simp [rsum, applied], rfl⟩

theorem good_insert (A : Coo K) (cap : Nat → Nat) (L : List (One K)) (st : Nat → List Nat)
    (h : Good A cap L st) (o : One K) (hr : o.row < A.m) (hc : o.col < A.n) :
    ∃ A', A.insert o.row o.col o.val o.add = .ok (A', (specStep cap st o).2) ∧
      A'.m = A.m ∧ A'.n = A.n ∧
      ((specStep cap st o).2 = false → A' = A) ∧
      Good A' cap (if (specStep cap st o).2 then L ++ [o] else L) (specStep cap st o).1 := by
  obtain ⟨hlen, hrows⟩ := h
  have hi : o.row < A.aij.length := by omega
  obtain ⟨hcap, fl, hh, hsum, hcols⟩ := hrows o.row _ (List.getElem?_eq_getElem hi)
  generalize hR : A.aij[o.row] = r at *
  have hget : A.aij[o.row]? = some r := by rw [List.getElem?_eq_getElem hi, hR]
  obtain ⟨i1, i2, i3, i4⟩ := holds_insert A.n o.row r fl o.col o.val o.add hh (by simp)
    (by exact_mod_cast hc)
  have hmem : (∃ t ∈ fl, t.j = (o.col : Int)) ↔ o.col ∈ st o.row := by
    have : (o.col : Int) ∈ fl.map (fun t => t.j) ↔ o.col ∈ st o.row := by
      rw [hcols]
      simp
    rw [← this, List.mem_map]
  have hl : fl.length = (st o.row).length := by
    have := congrArg List.length hcols
    simpa using this
  have hb : (r.insert o.row o.col o.val o.add).2 = (specStep cap st o).2 := by
    rw [hcap, hmem, hl] at i2
    unfold specStep
    by_cases c1 : o.add = true ∧ o.col ∈ st o.row
    · rw [if_pos c1]
      exact i2.2 (.inr c1)
    · rw [if_neg c1]
      by_cases c2 : (st o.row).length < cap o.row
      · rw [if_pos c2]
        exact i2.2 (.inl c2)
      · rw [if_neg c2]
        cases hbv : (r.insert o.row o.col o.val o.add).2 with
        | false => rfl
        | true =>
          rcases i2.1 hbv with h | h
          · exact absurd h c2
          · exact absurd h c1
  refine ⟨{ A with aij := A.aij.set o.row (r.insert o.row o.col o.val o.add).1 }, ?_, rfl, rfl,
    ?_, by simp [hlen], ?_⟩
  · simp only [Coo.insert, hget, hb]
  · intro hf
    rw [i3 (hb.trans hf), ← hR]
    simp
  · intro i r' hr'
    simp only at hr'
    rw [List.getElem?_set] at hr'
    by_cases hir : o.row = i
    · subst hir
      rw [if_pos rfl, if_pos hi] at hr'
      simp only [Option.some.injEq] at hr'
      subst hr'
      refine ⟨i1.trans hcap, ?_⟩
      by_cases hv : (specStep cap st o).2 = true
      · rw [if_pos hv]
        obtain ⟨fl', g1, g2, g3, g4⟩ := i4 (hb.trans hv)
        refine ⟨fl', g1, fun x => ?_, ?_⟩
        · rw [g2, hsum x]
          simp [applied, List.filter_append]
        · by_cases c1 : o.add = true ∧ o.col ∈ st o.row
          · rw [g3 ⟨c1.1, hmem.2 c1.2⟩, hcols]
            simp only [specStep, if_pos c1]
          · rw [g4 (fun h => c1 ⟨h.1, hmem.1 h.2⟩), hcols]
            unfold specStep at hv ⊢
            rw [if_neg c1] at hv ⊢
            by_cases c2 : (st o.row).length < cap o.row
            · simp [if_pos c2]
            · simp [if_neg c2] at hv
      · have hv' : (specStep cap st o).2 = false := by simpa using hv
        rw [hv', i3 (hb.trans hv')]
        refine ⟨fl, hh, by simpa using hsum, ?_⟩
        rw [hcols]
        unfold specStep at hv ⊢
        split
        · rfl
        · rename_i c1
          rw [if_neg c1] at hv
          split
          · rename_i c2
            simp [if_pos c2] at hv
          · rfl
    · rw [if_neg hir] at hr'
      obtain ⟨k1, fl2, k2, k3, k4⟩ := hrows i r' hr'
      refine ⟨k1, fl2, k2, fun x => ?_, ?_⟩
      · rw [k3 x]
        split
        · simp [applied, List.filter_append, hir]
        · rfl
      · rw [k4]
        unfold specStep
        split
        · rfl
        · split
          · simp [Ne.symm hir]
          · rfl

/-- Every history of calls. -/
theorem good_run (ops : List (One K)) (A : Coo K) (cap : Nat → Nat) (L : List (One K))
    (st : Nat → List Nat) (h : Good A cap L st) (hin : InRange A.m A.n ops) :
    ∃ A', runOnes A ops = .ok (A', (specRun cap st ops).2) ∧ A'.m = A.m ∧ A'.n = A.n ∧
      Good A' cap (L ++ ((ops.zip (specRun cap st ops).2).filter (fun e => e.2)).map (fun e => e.1))
        (specRun cap st ops).1 := by
  induction ops generalizing A L st with
  | nil => exact ⟨A, rfl, rfl, rfl, by simpa [specRun] using h⟩
  | cons o ops ih =>
    obtain ⟨hr, hc⟩ := hin o List.mem_cons_self
    obtain ⟨A1, e1, hm, hn, _, hg⟩ := good_insert A cap L st h o hr hc
    obtain ⟨A2, e2, hm2, hn2, hg2⟩ := ih A1 _ _ hg (by
      rw [hm, hn]
      exact fun o' ho' => hin o' (List.mem_cons_of_mem _ ho'))
    refine ⟨A2, ?_, hm2.trans hm, hn2.trans hn, ?_⟩
    · simp only [runOnes, e1, Out.bind, e2, specRun]
    · simp only [specRun, List.zip_cons_cons, List.filter_cons]
      cases hb : (specStep cap st o).2 with
      | true =>
        rw [hb] at hg2
        simpa using hg2
      | false =>
        rw [hb] at hg2
        simpa using hg2

/-! ## C12  capacity -/

/-- C12: for every sequence of single-entry calls inside the matrix, no call is undefined
    and the return values are exactly those of the capacity specification: an INSERT
    succeeds iff the row has a free slot, an ADD also when the column is already stored. -/
theorem C12_return_values (m n : Nat) (nnz : Nat → Nat) (ops : List (One K))
    (hin : InRange m n ops) :
    ∃ A', runOnes (preallocate m n nnz) ops = .ok (A', (specRun nnz (fun _ => []) ops).2) := by
  obtain ⟨A', h, _⟩ := good_run ops (preallocate m n nnz) nnz [] _ (good_preallocate m n nnz) hin
  exact ⟨A', h⟩

/-- C12: a failed single-entry call leaves the matrix unchanged, in every reachable state. -/
theorem C12_failed_insert_no_change (m n : Nat) (nnz : Nat → Nat) (ops : List (One K))
    (hin : InRange m n ops) (A : Coo K) (bs : List Bool)
    (hA : runOnes (preallocate m n nnz) ops = .ok (A, bs)) (o : One K) (hr : o.row < m)
    (hc : o.col < n) (A' : Coo K)
    (hf : A.insert o.row o.col o.val o.add = .ok (A', false)) : A' = A := by
  obtain ⟨A1, h1, hm, hn, hg⟩ :=
    good_run ops (preallocate m n nnz) nnz [] _ (good_preallocate m n nnz) hin
  rw [hA] at h1
  simp only [Out.ok.injEq, Prod.mk.injEq] at h1
  obtain ⟨rfl, _⟩ := h1
  have hm' : A.m = m := hm
  have hn' : A.n = n := hn
  obtain ⟨A2, e, _, _, e2, _⟩ := good_insert A nnz _ _ hg o (by omega) (by omega)
  rw [hf] at e
  simp only [Out.ok.injEq, Prod.mk.injEq] at e
  exact e.1.trans (e2 e.2.symm)

theorem specRun_bound (cap : Nat → Nat) (ops : List (One K)) (st : Nat → List Nat)
    (h : ∀ i, (st i).length ≤ cap i) (i : Nat) : ((specRun cap st ops).1 i).length ≤ cap i := by
  induction ops generalizing st with
  | nil => exact h i
  | cons o ops ih =>
    refine ih _ fun k => ?_
    unfold specStep
    split
    · exact h k
    · split
      · rename_i h2
        by_cases hk : k = o.row
        · subst hk; simp; omega
        · simp [hk, h k]
      · exact h k

/-- C12: whatever the history, a row never holds more entries than were preallocated. -/
theorem C12_capacity_respected (m n : Nat) (nnz : Nat → Nat) (ops : List (One K))
    (hin : InRange m n ops) (A : Coo K) (bs : List Bool)
    (hA : runOnes (preallocate m n nnz) ops = .ok (A, bs)) (i : Nat) (r : RowBuf K)
    (hr : A.aij[i]? = some r) : r.cnt ≤ nnz i ∧ r.slots.length = nnz i := by
  obtain ⟨A1, h1, hm, hn, hg⟩ :=
    good_run ops (preallocate m n nnz) nnz [] _ (good_preallocate m n nnz) hin
  rw [hA] at h1
  simp only [Out.ok.injEq, Prod.mk.injEq] at h1
  obtain ⟨rfl, _⟩ := h1
  obtain ⟨hc, fl, hh, _, _⟩ := hg.2 i r hr
  exact ⟨by rw [hh.2.1, ← hc]; exact hh.2.2.1, hc⟩

/-- Two slots in row 0: INSERT, ADD to the same entry, INSERT, then a refused INSERT and a
    refused ADD of a new column, and an accepted ADD. -/
example :
    (specRun (fun _ => 2) (fun _ => []) [⟨0, 1, (5 : ℚ), false⟩, ⟨0, 1, 2, true⟩, ⟨0, 0, 1, false⟩,
      ⟨0, 1, 9, false⟩, ⟨0, 2, 1, true⟩, ⟨0, 0, 1, true⟩]).2
    = [true, true, true, false, false, true] := by decide +kernel

/-- C12, constant preallocation is the same as a constant row list. -/
theorem C12_preallocate_const (m n k : Nat) :
    (preallocateConst m n k : Coo K) = preallocate m n (fun _ => k) := by
  simp [preallocateConst, preallocate]

/-- C12, row form: INSERT of a segment succeeds exactly when the whole segment fits, and
    otherwise changes nothing; when it succeeds it is the sequence of single INSERTs. -/
theorem C12_insert_row (A : Coo K) (i : Nat) (r : RowBuf K) (hr : A.aij[i]? = some r)
    (jv : List (Nat × K)) :
    (r.slots.length < r.cnt + jv.length →
      A.insertRow i (jv.map fun e => ((e.1 : Int), e.2)) false = .ok (A, false)) ∧
    (r.cnt + jv.length ≤ r.slots.length →
      ∃ A', A.insertRow i (jv.map fun e => ((e.1 : Int), e.2)) false = .ok (A', true) ∧
        runOnes A (jv.map fun e => ⟨i, e.1, e.2, false⟩) = .ok (A', jv.map fun _ => true)) := by
  have hi : i < A.aij.length := (List.getElem?_eq_some_iff.1 hr).1
  have key : ∀ (jv : List (Nat × K)) (A : Coo K) (r : RowBuf K), A.aij[i]? = some r →
      r.cnt + jv.length ≤ r.slots.length →
      ∃ r', r.putLoop i (jv.map fun e => ((e.1 : Int), e.2)) = some r' ∧
        runOnes A (jv.map fun e => ⟨i, e.1, e.2, false⟩)
          = .ok ({ A with aij := A.aij.set i r' }, jv.map fun _ => true) := by
    intro jv
    induction jv with
    | nil =>
      intro A r hr _
      refine ⟨r, rfl, ?_⟩
      have hi : i < A.aij.length := (List.getElem?_eq_some_iff.1 hr).1
      rw [List.getElem?_eq_getElem hi, Option.some.injEq] at hr
      simp [runOnes, ← hr]
    | cons e jv ih =>
      intro A r hr hle
      have hi : i < A.aij.length := (List.getElem?_eq_some_iff.1 hr).1
      simp only [List.length_cons] at hle
      have hlt : r.cnt < r.slots.length := by omega
      have hput : r.put i e.1 e.2 = some ⟨r.slots.set r.cnt ⟨i, e.1, e.2⟩, r.cnt + 1⟩ := by
        simp [RowBuf.put, hlt]
      obtain ⟨r', h1, h2⟩ := ih { A with aij := A.aij.set i ⟨r.slots.set r.cnt ⟨i, e.1, e.2⟩, r.cnt + 1⟩ }
        ⟨r.slots.set r.cnt ⟨i, e.1, e.2⟩, r.cnt + 1⟩ (by simp [hi]) (by simp; omega)
      refine ⟨r', ?_, ?_⟩
      · simp only [List.map_cons, RowBuf.putLoop, hput, Option.bind_some, h1]
      · simp only [List.map_cons, runOnes, Coo.insert, hr, RowBuf.insert, hput]
        simp only [Bool.false_eq_true, if_false, Out.bind]
        rw [h2]
        simp
  constructor
  · intro h
    simp [Coo.insertRow, hr, h]
  · intro h
    obtain ⟨r', h1, h2⟩ := key jv A r hr h
    refine ⟨{ A with aij := A.aij.set i r' }, ?_, h2⟩
    simp only [Coo.insertRow, hr, List.length_map]
    rw [if_neg (by simp), if_neg (by omega), h1]

/-- C12, row form with ADD: a successful call is the sequence of single ADDs. -/
theorem C12_add_row (A : Coo K) (i : Nat) (jv : List (Nat × K)) (A' : Coo K)
    (h : A.insertRow i (jv.map fun e => ((e.1 : Int), e.2)) true = .ok (A', true)) :
    runOnes A (jv.map fun e => ⟨i, e.1, e.2, true⟩) = .ok (A', jv.map fun _ => true) := by
  cases hr : A.aij[i]? with
  | none => simp [Coo.insertRow, hr] at h
  | some r =>
    have key : ∀ (jv : List (Nat × K)) (A : Coo K) (r : RowBuf K), A.aij[i]? = some r →
        (r.addLoop i (jv.map fun e => ((e.1 : Int), e.2))).2 = true →
        runOnes A (jv.map fun e => ⟨i, e.1, e.2, true⟩) = .ok
          (({ A with aij := A.aij.set i (r.addLoop i (jv.map fun e => ((e.1 : Int), e.2))).1 } : Coo K),
            jv.map fun _ => true) := by
      intro jv
      induction jv with
      | nil =>
        intro A r hr _
        have hi : i < A.aij.length := (List.getElem?_eq_some_iff.1 hr).1
        rw [List.getElem?_eq_getElem hi, Option.some.injEq] at hr
        simp [runOnes, RowBuf.addLoop, ← hr]
      | cons e jv ih =>
        intro A r hr hb
        have hi : i < A.aij.length := (List.getElem?_eq_some_iff.1 hr).1
        simp only [List.map_cons, RowBuf.addLoop] at hb ⊢
        simp only [runOnes, Coo.insert, hr]
        cases hins : r.insert i e.1 e.2 true with
        | mk r1 b1 =>
          rw [hins] at hb
          cases b1 with
          | false => simp at hb
          | true =>
            simp only at hb
            simp only [Out.bind]
            rw [ih { A with aij := A.aij.set i r1 } r1 (by simp [hi]) hb]
            simp
    simp only [Coo.insertRow, hr, if_true, Out.ok.injEq, Prod.mk.injEq] at h
    rw [key jv A r hr h.2, h.1]

theorem putAll_runOnes (l : List (Nat × Nat × K)) (A A' : Coo K)
    (h : A.putAll (l.map fun e => (e.1, (e.2.1 : Int), e.2.2)) = .ok A') :
    runOnes A (l.map fun e => ⟨e.1, e.2.1, e.2.2, false⟩) = .ok (A', l.map fun _ => true) := by
  induction l generalizing A with
  | nil =>
    simp only [List.map_nil, Coo.putAll, Out.ok.injEq] at h
    simp [runOnes, h]
  | cons e l ih =>
    simp only [List.map_cons, Coo.putAll] at h
    cases hr : A.aij[e.1]? with
    | none => simp [hr] at h
    | some r =>
      simp only [hr] at h
      cases hp : r.put e.1 e.2.1 e.2.2 with
      | none => simp [hp] at h
      | some r' =>
        simp only [hp] at h
        have := ih _ h
        simp only [List.map_cons, runOnes, Coo.insert, hr, RowBuf.insert, hp]
        simp only [Bool.false_eq_true, if_false, Out.bind]
        rw [this]

/-- C12, triplet and column forms: a successful call is the sequence of single INSERTs,
    a refused call changes nothing, and ADD always throws. -/
theorem C12_insert_triplets (A : Coo K) (l : List (Nat × Nat × K)) (A' : Coo K) :
    (A.insertTrip (l.map fun e => (e.1, (e.2.1 : Int), e.2.2)) false = .ok (A', true) →
      runOnes A (l.map fun e => ⟨e.1, e.2.1, e.2.2, false⟩) = .ok (A', l.map fun _ => true)) ∧
    (A.insertTrip (l.map fun e => (e.1, (e.2.1 : Int), e.2.2)) false = .ok (A', false) → A' = A) ∧
    A.insertTrip (l.map fun e => (e.1, (e.2.1 : Int), e.2.2)) true = .insist := by
  refine ⟨fun h => ?_, fun h => ?_, rfl⟩
  · unfold Coo.insertTrip at h
    rw [if_neg (by simp)] at h
    cases hroom : A.room (l.map fun e => (e.1, (e.2.1 : Int), e.2.2)) with
    | ok b =>
      cases b with
      | true =>
        simp only [hroom, Out.bind, if_true] at h
        cases hp : A.putAll (l.map fun e => (e.1, (e.2.1 : Int), e.2.2)) with
        | ok A1 =>
          simp only [hp, Out.ok.injEq, Prod.mk.injEq, and_true] at h
          subst h
          exact putAll_runOnes l A A1 hp
        | insist => simp [hp] at h
        | ub => simp [hp] at h
      | false => simp [hroom, Out.bind] at h
    | insist => simp [hroom, Out.bind] at h
    | ub => simp [hroom, Out.bind] at h
  · unfold Coo.insertTrip at h
    rw [if_neg (by simp)] at h
    cases hroom : A.room (l.map fun e => (e.1, (e.2.1 : Int), e.2.2)) with
    | ok b =>
      cases b with
      | true =>
        simp only [hroom, Out.bind, if_true] at h
        cases hp : A.putAll (l.map fun e => (e.1, (e.2.1 : Int), e.2.2)) <;> simp [hp] at h
      | false =>
        simp only [hroom, Out.bind, Bool.false_eq_true, if_false, Out.ok.injEq, Prod.mk.injEq,
          and_true] at h
        exact h.symm
    | insist => simp [hroom, Out.bind] at h
    | ub => simp [hroom, Out.bind] at h

/-- The column form is the triplet form with one column. -/
theorem C12_insert_column (A : Coo K) (iv : List (Nat × K)) (j : Nat) (add : Bool) :
    A.insertCol iv j add = A.insertTrip ((iv.map fun e => (e.1, j, e.2)).map
      fun e => (e.1, (e.2.1 : Int), e.2.2)) add := by
  unfold Coo.insertCol Coo.insertTrip
  simp only [List.map_map]
  rfl

/-- C12, negation: a triplet call that names the same row twice passes the storage check
    and then writes past the end of the row. -/
theorem C12_triplets_overflow :
    (preallocate 1 2 (fun _ => 1) : Coo ℚ).insertTrip [(0, 0, 1), (0, 1, 2)] false = .ub := by
  decide +kernel

/-- C12, negation: an ADD of a row segment that runs out of storage has already changed
    the matrix when it reports failure. -/
theorem C12_add_row_not_atomic :
    ∃ A' : Coo ℚ, (preallocate 1 2 (fun _ => 1)).insertRow 0 [(0, 1), (1, 2)] true = .ok (A', false) ∧
      A' ≠ preallocate 1 2 (fun _ => 1) :=
  ⟨⟨1, 2, [⟨[⟨0, 0, 1⟩], 1⟩]⟩, by decide +kernel, by decide +kernel⟩

/-! ## C08, C09  assembly -/

/-- Row-wise description of an assembled history. -/
theorem assembled_rows (srt : List (Trip K) → List (Trip K)) (hs : IsSort srt) (m n : Nat)
    (nnz : Nat → Nat) (ops : List (One K)) (hin : InRange m n ops) (A : Coo K) (bs : List Bool)
    (hA : runOnes (preallocate m n nnz) ops = .ok (A, bs)) :
    let L := ((ops.zip bs).filter (fun e => e.2)).map (fun e => e.1)
    let st := (specRun nnz (fun _ => []) ops).1
    A.m = m ∧ A.n = n ∧ A.aij.length = m ∧
    ∀ i < m, (st i = [] → ∃ r, A.aij[i]? = some r ∧ assembleRow srt n i r.slots = none) ∧
      (st i ≠ [] → ∃ r a, A.aij[i]? = some r ∧ assembleRow srt n i r.slots = some a ∧
        a.Pairwise (fun s t => s.j ≤ t.j) ∧ (∀ t ∈ a, ValidT n i t) ∧
        (i < n → ∃ t ∈ a, t.j = i) ∧
        (∀ x : Nat → K, rsum (fun j => x j.toNat) a = applied L x i) ∧
        ((a.map (fun t => t.j)).Perm ((st i).map (fun c : Nat => (c : Int))) ∨
          (i ∉ st i ∧ i < n ∧
            (a.map (fun t => t.j)).Perm ((i : Int) :: (st i).map (fun c : Nat => (c : Int)))))) := by
  intro L st
  obtain ⟨A1, h1, hm, hn, hg⟩ :=
    good_run ops (preallocate m n nnz) nnz [] _ (good_preallocate m n nnz) hin
  rw [hA] at h1
  simp only [Out.ok.injEq, Prod.mk.injEq] at h1
  obtain ⟨rfl, hbs⟩ := h1
  rw [List.nil_append, ← hbs] at hg
  have hm' : A.m = m := hm
  have hn' : A.n = n := hn
  have hl : A.aij.length = m := hg.1.trans hm'
  refine ⟨hm', hn', hl, fun i hi => ?_⟩
  have hget : A.aij[i]? = some A.aij[i] := List.getElem?_eq_getElem (by omega)
  obtain ⟨_, fl, hh, hsum, hcols⟩ := hg.2 i _ hget
  have hnil : fl = [] ↔ st i = [] := by
    constructor
    · rintro rfl
      simpa using hcols
    · intro h
      have h' : (specRun nnz (fun _ => []) ops).1 i = [] := h
      rw [h'] at hcols
      simpa using hcols
  rw [hn'] at hh
  obtain ⟨a1, a2⟩ := assembleRow_spec srt hs n i _ fl hh
  constructor
  · intro h
    exact ⟨_, hget, a1 (hnil.2 h)⟩
  · intro h
    obtain ⟨a, e1, e2, e3, e4, e5⟩ := a2 (fun hf => h (hnil.1 hf))
    refine ⟨_, a, hget, e1, e2, e3, e4, fun x => ?_, ?_⟩
    · rw [← hsum x]
      rcases e5 with e5 | ⟨_, _, e5⟩
      · exact rsum_perm _ e5
      · rw [rsum_perm _ e5, rsum_cons]
        simp
    · rcases e5 with e5 | ⟨e6, e7, e5⟩
      · left
        rw [← hcols]
        exact e5.map _
      · right
        refine ⟨fun hmem => e6 ?_, e7, ?_⟩
        · have : (i : Int) ∈ fl.map (fun t => t.j) := by
            rw [hcols]
            exact List.mem_map_of_mem hmem
          obtain ⟨t, ht, htj⟩ := List.mem_map.1 this
          exact ⟨t, ht, htj⟩
        · rw [← hcols]
          simpa using e5.map (fun t => t.j)

/-- The columns stored in row `i` by the successful calls of a history. -/
def storedCols (nnz : Nat → Nat) (ops : List (One K)) (i : Nat) : List Nat :=
  (specRun nnz (fun _ => []) ops).1 i

/-- C09: assembly is undefined exactly when some row holds no entry. -/
theorem C09_assemble_defined_iff (srt : List (Trip K) → List (Trip K)) (hs : IsSort srt) (m n : Nat)
    (nnz : Nat → Nat) (ops : List (One K)) (hin : InRange m n ops) (A : Coo K) (bs : List Bool)
    (hA : runOnes (preallocate m n nnz) ops = .ok (A, bs)) :
    (∃ C, A.assemble srt = some C) ↔ ∀ i < m, storedCols nnz ops i ≠ [] := by
  obtain ⟨hm, hn, hl, hrow⟩ := assembled_rows srt hs m n nnz ops hin A bs hA
  have hnone := (assembleRows_spec srt A.n 0 A.aij).2
  unfold Coo.assemble
  constructor
  · rintro ⟨C, hC⟩ i hi hempty
    obtain ⟨r, h1, h2⟩ := (hrow i hi).1 hempty
    have := hnone.2 ⟨i, r, h1, by rw [hn, Nat.zero_add]; exact h2⟩
    rw [this] at hC
    simp at hC
  · intro h
    cases hc : assembleRows srt A.n 0 A.aij with
    | some aij => exact ⟨_, rfl⟩
    | none =>
      obtain ⟨k, r, h1, h2⟩ := hnone.1 hc
      have hk : k < m := by
        have := (List.getElem?_eq_some_iff.1 h1).1
        omega
      obtain ⟨r', a, e1, e2, _⟩ := (hrow k hk).2 (h k hk)
      rw [h1, Option.some.injEq] at e1
      subst e1
      rw [hn, Nat.zero_add, e2] at h2
      simp at h2

/-- Everything about the assembled rows, used below. -/
theorem assembled (srt : List (Trip K) → List (Trip K)) (hs : IsSort srt) (m n : Nat)
    (nnz : Nat → Nat) (ops : List (One K)) (hin : InRange m n ops) (A : Coo K) (bs : List Bool)
    (hA : runOnes (preallocate m n nnz) ops = .ok (A, bs)) (C : CSR K)
    (hC : A.assemble srt = some C) :
    ∃ aij : List (List (Trip K)), C = fill m n aij ∧ aij.length = m ∧
      ∀ i < m, ∃ a, aij[i]? = some a ∧ a.Pairwise (fun s t => s.j ≤ t.j) ∧
        (∀ t ∈ a, ValidT n i t) ∧ (i < n → ∃ t ∈ a, t.j = i) ∧
        (∀ x : Nat → K, rsum (fun j => x j.toNat) a =
          applied (((ops.zip bs).filter (fun e => e.2)).map (fun e => e.1)) x i) ∧
        ((a.map (fun t => t.j)).Perm ((storedCols nnz ops i).map (fun c : Nat => (c : Int))) ∨
          (i ∉ storedCols nnz ops i ∧ i < n ∧ (a.map (fun t => t.j)).Perm
            ((i : Int) :: (storedCols nnz ops i).map (fun c : Nat => (c : Int))))) := by
  obtain ⟨hm, hn, hl, hrow⟩ := assembled_rows srt hs m n nnz ops hin A bs hA
  have hdef := (C09_assemble_defined_iff srt hs m n nnz ops hin A bs hA).1 ⟨C, hC⟩
  unfold Coo.assemble at hC
  cases hc : assembleRows srt A.n 0 A.aij with
  | none => simp [hc] at hC
  | some aij =>
    rw [hc, Option.map_some, Option.some.injEq, hm, hn] at hC
    obtain ⟨s1, s2⟩ := (assembleRows_spec srt A.n 0 A.aij).1 aij hc
    refine ⟨aij, hC.symm, s1.trans hl, fun i hi => ?_⟩
    obtain ⟨r, a, e1, e2, e3⟩ := (hrow i hi).2 (hdef i hi)
    obtain ⟨a', f1, f2⟩ := s2 i r e1
    rw [hn, Nat.zero_add, e2, Option.some.injEq] at f2
    subst f2
    exact ⟨a, f1, e3⟩

theorem multiply_row (m n : Nat) (aij : List (List (Trip K))) (i : Nat) (row : List (Trip K))
    (hr : aij[i]? = some row) (x : Nat → K) :
    (fill m n aij).multiply x i = rsum (fun j => x j.toNat) row := by
  have hp := ptrs_map m n aij i row hr
  unfold CSR.multiply
  have h1 : ∀ (l : List Nat) (s : K), l.foldl (fun temp p => temp + x ((fill m n aij).column p).toNat
      * (fill m n aij).value p) s = s + ((l.map (fun p => ((fill m n aij).column p,
        (fill m n aij).value p))).map (fun e => e.2 * x e.1.toNat)).sum := by
    intro l
    induction l with
    | nil => simp
    | cons p l ih =>
      intro s
      rw [List.foldl_cons, ih]
      simp only [List.map_cons, List.sum_cons]
      ring
  rw [h1, hp, zero_add, List.map_map]
  rfl

/-- C08: after any history of single-entry calls and assembly, `multiply` gives in every
    row the sum of the contributions of the successful calls; sorting (stable or not),
    trimming and diagonal padding are invisible. -/
theorem C08_multiply (srt : List (Trip K) → List (Trip K)) (hs : IsSort srt) (m n : Nat)
    (nnz : Nat → Nat) (ops : List (One K)) (hin : InRange m n ops) (A : Coo K) (bs : List Bool)
    (hA : runOnes (preallocate m n nnz) ops = .ok (A, bs)) (C : CSR K)
    (hC : A.assemble srt = some C) (x : Nat → K) (i : Nat) (hi : i < m) :
    C.multiply x i = applied (((ops.zip bs).filter (fun e => e.2)).map (fun e => e.1)) x i := by
  obtain ⟨aij, rfl, hl, h⟩ := assembled srt hs m n nnz ops hin A bs hA C hC
  obtain ⟨a, h1, _, _, _, h2, _⟩ := h i hi
  rw [multiply_row m n aij i a h1 x]
  exact h2 x

/-- C08 for histories in which every call succeeded. -/
theorem C08_multiply_all (srt : List (Trip K) → List (Trip K)) (hs : IsSort srt) (m n : Nat)
    (nnz : Nat → Nat) (ops : List (One K)) (hin : InRange m n ops) (A : Coo K) (bs : List Bool)
    (hA : runOnes (preallocate m n nnz) ops = .ok (A, bs)) (hall : bs = ops.map fun _ => true)
    (C : CSR K) (hC : A.assemble srt = some C) (x : Nat → K) (i : Nat) (hi : i < m) :
    C.multiply x i = applied ops x i := by
  rw [C08_multiply srt hs m n nnz ops hin A bs hA C hC x i hi]
  congr 1
  rw [hall]
  clear hA hall hC hin
  have : (ops.zip (ops.map fun _ => true)) = ops.map (fun o => (o, true)) := by
    induction ops with
    | nil => rfl
    | cons o l ih => simp only [List.map_cons, List.zip_cons_cons, ih]
  rw [this, List.filter_eq_self.2 (by simp), List.map_map]
  exact List.map_id _

/-- A concrete sort satisfying `IsSort` (insertion sort). -/
def insSort : List (Trip K) → List (Trip K)
  | [] => []
  | t :: l => insertT t (insSort l)
where
  insertT (t : Trip K) : List (Trip K) → List (Trip K)
    | [] => [t]
    | u :: l => if cmp u t then u :: insertT t l else t :: u :: l

theorem cmp_trans (a b c : Trip K) (h1 : cmp b a = false) (h2 : cmp c b = false) :
    cmp c a = false := by
  unfold cmp at *
  by_cases ha : a.j = -1 <;> by_cases hb : b.j = -1 <;> by_cases hc : c.j = -1 <;>
    simp_all
  omega

theorem insSort_isSort : IsSort (insSort : List (Trip K) → List (Trip K)) := by
  have key : ∀ (t : Trip K) (l : List (Trip K)), l.Pairwise (fun a b => cmp b a = false) →
      (insSort.insertT t l).Perm (t :: l) ∧
      (insSort.insertT t l).Pairwise (fun a b => cmp b a = false) := by
    intro t l
    induction l with
    | nil => simp [insSort.insertT]
    | cons u l ih =>
      intro h
      rw [List.pairwise_cons] at h
      obtain ⟨i1, i2⟩ := ih h.2
      unfold insSort.insertT
      split
      · rename_i hc
        refine ⟨(i1.cons u).trans (List.Perm.swap _ _ _), ?_⟩
        rw [List.pairwise_cons]
        refine ⟨fun b hb => ?_, i2⟩
        rcases List.mem_cons.1 (i1.mem_iff.1 hb) with rfl | hb
        · unfold cmp at hc ⊢
          by_cases ha : b.j = -1 <;> by_cases hb : u.j = -1 <;> simp_all
          omega
        · exact h.1 b hb
      · rename_i hc
        have hc' : cmp u t = false := by simpa using hc
        refine ⟨List.Perm.refl _, ?_⟩
        rw [List.pairwise_cons]
        refine ⟨fun b hb => ?_, List.pairwise_cons.2 h⟩
        rcases List.mem_cons.1 hb with rfl | hb
        · exact hc'
        · exact cmp_trans _ _ _ hc' (h.1 b hb)
  intro l
  induction l with
  | nil => simp [insSort]
  | cons t l ih =>
    obtain ⟨k1, k2⟩ := key t (insSort l) ih.2
    exact ⟨k1.trans (ih.1.cons t), k2⟩

/-- A 2×3 history with a duplicate INSERT, an ADD and a missing diagonal in row 1. -/
def demoOps : List (One ℚ) :=
  [⟨0, 2, 5, false⟩, ⟨0, 0, 1, false⟩, ⟨0, 2, 4, true⟩, ⟨1, 2, 7, false⟩, ⟨0, 0, 3, false⟩]

def demoCSR : CSR ℚ := ⟨2, 3, [0, 3, 5], [0, 0, 2, 1, 2], [1, 3, 9, 0, 7], [some 1, some 3]⟩

example : InRange 2 3 demoOps := by unfold InRange demoOps; decide

example : ∃ A, runOnes (preallocate 2 3 (fun _ => 4)) demoOps = .ok (A, demoOps.map fun _ => true) ∧
    A.assemble insSort = some demoCSR :=
  ⟨⟨2, 3, [⟨[⟨0, 2, 9⟩, ⟨0, 0, 1⟩, ⟨0, 0, 3⟩, pad], 3⟩, ⟨[⟨1, 2, 7⟩, pad, pad, pad], 1⟩]⟩,
   by decide +kernel, by decide +kernel⟩

/-- C09: shape of the assembled storage.  Row pointers start at zero, grow row by row and
    end at the number of stored entries; columns lie inside the matrix and are sorted in
    each row; the diagonal pointer of every square row points into the row, at an entry
    on the diagonal. -/
theorem C09_shape (srt : List (Trip K) → List (Trip K)) (hs : IsSort srt) (m n : Nat)
    (nnz : Nat → Nat) (ops : List (One K)) (hin : InRange m n ops) (A : Coo K) (bs : List Bool)
    (hA : runOnes (preallocate m n nnz) ops = .ok (A, bs)) (C : CSR K)
    (hC : A.assemble srt = some C) :
    C.m = m ∧ C.n = n ∧ C.rows.length = m + 1 ∧ C.start 0 = 0 ∧ C.vals.length = C.cols.length ∧
    C.rows.getD m 0 = C.cols.length ∧
    ∀ i < m, C.start i < C.stop i ∧ C.start (i + 1) = C.stop i ∧
      (∀ p, C.start i ≤ p → p < C.stop i → 0 ≤ C.column p ∧ C.column p < n) ∧
      (∀ p q, C.start i ≤ p → p ≤ q → q < C.stop i → C.column p ≤ C.column q) ∧
      (i < n → ∃ d, C.diagonal i = some d ∧ C.start i ≤ d ∧ d < C.stop i ∧ C.column d = i) := by
  obtain ⟨aij, rfl, hl, h⟩ := assembled srt hs m n nnz ops hin A bs hA C hC
  obtain ⟨f1, f2, f3, f4, f5, f6⟩ := fill_fold aij
  refine ⟨rfl, rfl, by simp [fill, f4, hl], by simp [CSR.start, fill, f4], by
      simp only [fill, f2, f3, List.length_map], ?_, ?_⟩
  · simp only [fill, f4, f2, List.getD_eq_getElem?_getD, List.getElem?_map, List.length_map]
    rw [List.getElem?_range (by omega), ← hl, Option.map_some, List.take_length]
    rfl
  · intro i hi
    obtain ⟨a, h1, h2, h3, h4, _, h6⟩ := h i hi
    obtain ⟨g1, g2, g3, g4⟩ := fill_row m n aij i a h1
    have hane : a ≠ [] := by
      rintro rfl
      have hdef := (C09_assemble_defined_iff srt hs m n nnz ops hin A bs hA).1 ⟨_, hC⟩ i hi
      rcases h6 with h6 | h6
      · have := h6.length_eq
        simp at this
        exact hdef (List.length_eq_zero_iff.1 this.symm)
      · have := h6.2.2.length_eq
        simp at this
    have hlen := List.length_pos_iff.2 hane
    have hloc : ∀ p, (fill m n aij).start i ≤ p → p < (fill m n aij).stop i →
        ∃ k, ∃ hk : k < a.length, p = (aij.take i).flatten.length + k := by
      intro p hp1 hp2
      rw [g1] at hp1
      rw [g2] at hp2
      exact ⟨p - (aij.take i).flatten.length, by omega, by omega⟩
    refine ⟨by omega, rfl, ?_, ?_, ?_⟩
    · intro p hp1 hp2
      obtain ⟨k, hk, rfl⟩ := hloc p hp1 hp2
      rw [(g3 k hk).1]
      exact ⟨(h3 _ (List.getElem_mem hk)).2.1, (h3 _ (List.getElem_mem hk)).2.2⟩
    · intro p q hp1 hpq hq2
      obtain ⟨k, hk, rfl⟩ := hloc p hp1 (by omega)
      obtain ⟨k', hk', rfl⟩ := hloc q (by omega) hq2
      rw [(g3 k hk).1, (g3 k' hk').1]
      rcases Nat.eq_or_lt_of_le (show k ≤ k' by omega) with rfl | hlt
      · exact le_rfl
      · exact List.pairwise_iff_getElem.1 h2 k k' hk hk' hlt
    · intro hin'
      obtain ⟨k, hk, e1, e2, _⟩ := g4.2 (h4 hin')
      refine ⟨_, e1, by omega, by omega, ?_⟩
      rw [(g3 k hk).1, e2]

/-- C09: the diagonal pointer of a row below the square part is never written. -/
theorem C09_no_diagonal_below_square (srt : List (Trip K) → List (Trip K)) (hs : IsSort srt)
    (m n : Nat) (nnz : Nat → Nat) (ops : List (One K)) (hin : InRange m n ops) (A : Coo K)
    (bs : List Bool) (hA : runOnes (preallocate m n nnz) ops = .ok (A, bs)) (C : CSR K)
    (hC : A.assemble srt = some C) (i : Nat) (hi : i < m) (hin' : n ≤ i) : C.diagonal i = none := by
  obtain ⟨aij, rfl, hl, h⟩ := assembled srt hs m n nnz ops hin A bs hA C hC
  obtain ⟨a, h1, _, h3, _⟩ := h i hi
  obtain ⟨_, _, _, g4⟩ := fill_row m n aij i a h1
  refine g4.1 fun t ht htj => ?_
  have := (h3 t ht).2.2
  omega

/-- C09: if no column was stored twice in a row (for instance because every call was an
    ADD), the columns of the assembled row are strictly increasing. -/
theorem C09_strict_columns (srt : List (Trip K) → List (Trip K)) (hs : IsSort srt) (m n : Nat)
    (nnz : Nat → Nat) (ops : List (One K)) (hin : InRange m n ops) (A : Coo K) (bs : List Bool)
    (hA : runOnes (preallocate m n nnz) ops = .ok (A, bs)) (C : CSR K)
    (hC : A.assemble srt = some C) (i : Nat) (hi : i < m) (hnd : (storedCols nnz ops i).Nodup) :
    ∀ p q, C.start i ≤ p → p < q → q < C.stop i → C.column p < C.column q := by
  obtain ⟨aij, rfl, hl, h⟩ := assembled srt hs m n nnz ops hin A bs hA C hC
  obtain ⟨a, h1, h2, _, _, _, h6⟩ := h i hi
  obtain ⟨g1, g2, g3, _⟩ := fill_row m n aij i a h1
  have hnd2 : ((storedCols nnz ops i).map (fun c : Nat => (c : Int))).Nodup :=
    hnd.map (fun a b => by exact_mod_cast id)
  have hnda : (a.map (fun t => t.j)).Nodup := by
    rcases h6 with h6 | ⟨h7, _, h6⟩
    · exact h6.nodup_iff.2 hnd2
    · refine h6.nodup_iff.2 (List.nodup_cons.2 ⟨fun hm => h7 ?_, hnd2⟩)
      obtain ⟨c, hc, he⟩ := List.mem_map.1 hm
      have : c = i := by exact_mod_cast he
      exact this ▸ hc
  intro p q hp1 hpq hq2
  rw [g1] at hp1
  rw [g2] at hq2
  obtain ⟨k, rfl⟩ : ∃ k, p = (aij.take i).flatten.length + k := ⟨p - (aij.take i).flatten.length, by omega⟩
  obtain ⟨k', rfl⟩ : ∃ k', q = (aij.take i).flatten.length + k' := ⟨q - (aij.take i).flatten.length, by omega⟩
  have hk : k < a.length := by omega
  have hk' : k' < a.length := by omega
  rw [(g3 k hk).1, (g3 k' hk').1]
  have hle : a[k].j ≤ a[k'].j := List.pairwise_iff_getElem.1 h2 k k' hk hk' (by omega)
  have hne : a[k].j ≠ a[k'].j := by
    have := List.pairwise_iff_getElem.1 hnda k k' (by simpa using hk) (by simpa using hk') (by omega)
    simpa using this
  omega

/-- Histories made of ADD calls only store no column twice. -/
theorem C09_add_only_nodup (nnz : Nat → Nat) (ops : List (One K)) (h : ∀ o ∈ ops, o.add = true)
    (i : Nat) : (storedCols nnz ops i).Nodup := by
  have key : ∀ (ops : List (One K)) (st : Nat → List Nat), (∀ o ∈ ops, o.add = true) →
      (∀ i, (st i).Nodup) → ∀ i, ((specRun nnz st ops).1 i).Nodup := by
    intro ops
    induction ops with
    | nil => intro st _ h i; exact h i
    | cons o ops ih =>
      intro st ho h i
      refine ih _ (fun o' h' => ho o' (List.mem_cons_of_mem _ h')) (fun k => ?_) i
      unfold specStep
      split
      · exact h k
      · rename_i hc
        split
        · by_cases hk : k = o.row
          · subst hk
            simp only [if_true]
            have : o.col ∉ st o.row := fun hm => hc ⟨ho o List.mem_cons_self, hm⟩
            rw [List.nodup_append]
            exact ⟨h _, by simp, by
              intro a ha b hb
              simp at hb
              subst hb
              rintro rfl
              exact this ha⟩
          · simp [hk, h k]
        · exact h k
  exact key ops _ h (by simp) i

/-- C09, negation: a row that received nothing makes assembly undefined, even with spare
    preallocated slots. -/
theorem C09_empty_row_undefined (srt : List (Trip ℚ) → List (Trip ℚ)) (hs : IsSort srt) :
    ∃ A : Coo ℚ, runOnes (preallocate 2 2 (fun _ => 3)) [⟨0, 0, 1, false⟩] = .ok (A, [true]) ∧
      A.assemble srt = none := by
  have hin : InRange 2 2 [(⟨0, 0, 1, false⟩ : One ℚ)] := by unfold InRange; decide
  obtain ⟨A, hA⟩ := C12_return_values 2 2 (fun _ => 3) [(⟨0, 0, 1, false⟩ : One ℚ)] hin
  refine ⟨A, hA, ?_⟩
  have h := C09_assemble_defined_iff srt hs 2 2 (fun _ => 3) _ hin A _ hA
  cases hc : A.assemble srt with
  | none => rfl
  | some C => exact absurd rfl (h.1 ⟨C, hc⟩ 1 (by omega))

/-- C09: `clear` returns to an empty matrix whose row capacities are the old row lengths. -/
theorem C09_clear (srt : List (Trip K) → List (Trip K)) (hs : IsSort srt) (m n : Nat)
    (nnz : Nat → Nat) (ops : List (One K)) (hin : InRange m n ops) (A : Coo K) (bs : List Bool)
    (hA : runOnes (preallocate m n nnz) ops = .ok (A, bs)) (C : CSR K)
    (hC : A.assemble srt = some C) :
    C.clear = preallocate m n (fun i => C.stop i - C.start i) ∧
    ∀ i < m, C.stop i - C.start i = (storedCols nnz ops i).length +
      (if i < n ∧ i ∉ storedCols nnz ops i then 1 else 0) := by
  obtain ⟨aij, rfl, hl, h⟩ := assembled srt hs m n nnz ops hin A bs hA C hC
  refine ⟨rfl, fun i hi => ?_⟩
  obtain ⟨a, h1, _, _, h4, _, h6⟩ := h i hi
  obtain ⟨g1, g2, _, _⟩ := fill_row m n aij i a h1
  rw [g1, g2, Nat.add_sub_cancel_left]
  rcases h6 with h6 | ⟨h7, h8, h6⟩
  · have e := h6.length_eq
    simp only [List.length_map] at e
    rw [if_neg, e]
    · simp
    · rintro ⟨hn, hni⟩
      obtain ⟨t, ht, htj⟩ := h4 hn
      have : (i : Int) ∈ a.map (fun t => t.j) := htj ▸ List.mem_map_of_mem ht
      rw [h6.mem_iff] at this
      obtain ⟨c, hc, he⟩ := List.mem_map.1 this
      have : c = i := by exact_mod_cast he
      exact hni (this ▸ hc)
  · have e := h6.length_eq
    simp only [List.length_map, List.length_cons] at e
    rw [if_pos ⟨h8, h7⟩, e]

/-! ## C10  transpose -/

theorem transpose_inner (A : CSR K) (x : Nat → K) (i : Nat) (l : List Nat) (y : Nat → K) (k : Nat) :
    (l.foldl (fun y p => fun k => if k = (A.column p).toNat then y k + x i * A.value p else y k) y) k
      = y k + (l.map (fun p => if k = (A.column p).toNat then x i * A.value p else 0)).sum := by
  induction l generalizing y with
  | nil => simp
  | cons p l ih =>
    rw [List.foldl_cons, ih]
    simp only [List.map_cons, List.sum_cons]
    split <;> ring

theorem transpose_spec (A : CSR K) (x : Nat → K) (k : Nat) :
    A.multiplyTranspose x k = ∑ i ∈ range A.m,
      ((A.ptrs i).map (fun p => if k = (A.column p).toNat then x i * A.value p else 0)).sum := by
  unfold CSR.multiplyTranspose
  have key : ∀ (n : Nat) (y : Nat → K),
      ((List.range n).foldl (fun y i => (A.ptrs i).foldl (fun y p =>
        fun k => if k = (A.column p).toNat then y k + x i * A.value p else y k) y) y) k
      = y k + ∑ i ∈ range n,
      ((A.ptrs i).map (fun p => if k = (A.column p).toNat then x i * A.value p else 0)).sum := by
    intro n
    induction n with
    | zero => simp
    | succ n ih =>
      intro y
      rw [List.range_succ, List.foldl_append, List.foldl_cons, List.foldl_nil, transpose_inner, ih,
        Finset.sum_range_succ, add_assoc]
  rw [key, zero_add]

theorem multiply_spec (A : CSR K) (x : Nat → K) (i : Nat) :
    A.multiply x i = ((A.ptrs i).map (fun p => x (A.column p).toNat * A.value p)).sum := by
  unfold CSR.multiply
  have : ∀ (l : List Nat) (s : K), l.foldl (fun temp p => temp + x (A.column p).toNat * A.value p) s
      = s + (l.map (fun p => x (A.column p).toNat * A.value p)).sum := by
    intro l
    induction l with
    | nil => simp
    | cons p l ih => intro s; rw [List.foldl_cons, ih]; simp [add_assoc]
  rw [this, zero_add]

theorem C10_adjoint_of_columns (A : CSR K) (x y : Nat → K)
    (hcol : ∀ i < A.m, ∀ p ∈ A.ptrs i, (A.column p).toNat < A.n) :
    ∑ i ∈ range A.m, A.multiply x i * y i = ∑ j ∈ range A.n, x j * A.multiplyTranspose y j := by
  simp only [transpose_spec, Finset.mul_sum]
  rw [Finset.sum_comm]
  refine Finset.sum_congr rfl fun i hi => ?_
  rw [multiply_spec]
  have hc := hcol i (Finset.mem_range.1 hi)
  generalize A.ptrs i = l at *
  induction l with
  | nil => simp
  | cons p l ih =>
    simp only [List.map_cons, List.sum_cons, mul_add, Finset.sum_add_distrib, add_mul]
    rw [ih fun q hq => hc q (List.mem_cons_of_mem _ hq)]
    congr 1
    have hp := hc p List.mem_cons_self
    simp only [mul_ite, mul_zero]
    rw [Finset.sum_ite_eq' (range A.n) (A.column p).toNat]
    rw [if_pos (Finset.mem_range.2 hp)]
    ring

/-- C10: for every assembled matrix, `<A x, y> = <x, A' y>`. -/
theorem C10_transpose_adjoint (srt : List (Trip K) → List (Trip K)) (hs : IsSort srt) (m n : Nat)
    (nnz : Nat → Nat) (ops : List (One K)) (hin : InRange m n ops) (A : Coo K) (bs : List Bool)
    (hA : runOnes (preallocate m n nnz) ops = .ok (A, bs)) (C : CSR K)
    (hC : A.assemble srt = some C) (x y : Nat → K) :
    ∑ i ∈ range m, C.multiply x i * y i = ∑ j ∈ range n, x j * C.multiplyTranspose y j := by
  obtain ⟨hm, hn, _, _, _, _, h⟩ := C09_shape srt hs m n nnz ops hin A bs hA C hC
  have := C10_adjoint_of_columns C x y (by
    intro i hi p hp
    obtain ⟨_, _, h3, _⟩ := h i (by omega)
    unfold CSR.ptrs at hp
    rw [List.mem_range'_1] at hp
    have := h3 p hp.1 (by omega)
    omega)
  rw [hm, hn] at this
  exact this

/-- C10: the entries of `A' y` are the transposed coefficient sums of the history. -/
theorem C10_transpose_entries (srt : List (Trip K) → List (Trip K)) (hs : IsSort srt) (m n : Nat)
    (nnz : Nat → Nat) (ops : List (One K)) (hin : InRange m n ops) (A : Coo K) (bs : List Bool)
    (hA : runOnes (preallocate m n nnz) ops = .ok (A, bs)) (C : CSR K)
    (hC : A.assemble srt = some C) (y : Nat → K) (j : Nat) (hj : j < n) :
    C.multiplyTranspose y j = ∑ i ∈ range m,
      applied (((ops.zip bs).filter (fun e => e.2)).map (fun e => e.1))
        (fun k => if k = j then 1 else 0) i * y i := by
  have h := C10_transpose_adjoint srt hs m n nnz ops hin A bs hA C hC (fun k => if k = j then 1 else 0) y
  simp only [ite_mul, one_mul, zero_mul, Finset.sum_ite_eq', Finset.mem_range, hj, if_true] at h
  rw [← h]
  refine Finset.sum_congr rfl fun i hi => ?_
  rw [C08_multiply srt hs m n nnz ops hin A bs hA C hC _ i (Finset.mem_range.1 hi)]

example : (List.range 3).map (demoCSR.multiplyTranspose (fun i => (i : ℚ) + 1)) = [4, 0, 23] ∧
    (List.range 2).map (demoCSR.multiply (fun i => (i : ℚ) + 1)) = [31, 21] := by decide +kernel

/-! ## C11  element access -/

/-- C11, negation: for every assembled matrix, element access returns zero for every
    off-diagonal position of a square row, whatever is stored there. -/
theorem C11_offdiagonal_always_zero (srt : List (Trip K) → List (Trip K)) (hs : IsSort srt)
    (m n : Nat) (nnz : Nat → Nat) (ops : List (One K)) (hin : InRange m n ops) (A : Coo K)
    (bs : List Bool) (hA : runOnes (preallocate m n nnz) ops = .ok (A, bs)) (C : CSR K)
    (hC : A.assemble srt = some C) (i j : Nat) (hi : i < m) (hin' : i < n) (hij : i ≠ j) :
    C.get i j = some 0 := by
  obtain ⟨_, _, _, _, _, _, h⟩ := C09_shape srt hs m n nnz ops hin A bs hA C hC
  obtain ⟨_, _, _, hsort, hd⟩ := h i hi
  obtain ⟨d, hd1, hd2, hd3, hd4⟩ := hd hin'
  have hzero : ∀ lo hi', (∀ k, lo ≤ k → k < hi' → C.column k ≠ j) → C.search j lo hi' = 0 := by
    intro lo hi' hk
    unfold CSR.search
    have : (List.range' lo (hi' - lo)).find? (fun k => decide (C.column k = j)) = none := by
      rw [List.find?_eq_none]
      intro k hkm
      rw [List.mem_range'_1] at hkm
      simpa using hk k hkm.1 (by omega)
    rw [this]
  simp only [CSR.get, hd1, Option.map_some, hij, if_false, Option.some.injEq]
  split
  · refine hzero _ _ fun k hk1 hk2 => ?_
    have := hsort k d hk1 (by omega) hd3
    omega
  · refine hzero _ _ fun k hk1 hk2 => ?_
    have := hsort d k (by omega) (by omega) hk2
    omega

/-- C11 (`_partial`): on the diagonal, element access agrees with multiplication when no
    entry was stored twice.  Missing: off-diagonal positions (false, above) and duplicate
    diagonal entries (false, below). -/
theorem C11_diagonal_partial (srt : List (Trip K) → List (Trip K)) (hs : IsSort srt)
    (m n : Nat) (nnz : Nat → Nat) (ops : List (One K)) (hin : InRange m n ops) (A : Coo K)
    (bs : List Bool) (hA : runOnes (preallocate m n nnz) ops = .ok (A, bs)) (C : CSR K)
    (hC : A.assemble srt = some C) (i : Nat) (hi : i < m) (hin' : i < n)
    (hnd : (storedCols nnz ops i).Nodup) :
    C.get i i = some (C.multiply (fun k => if k = i then 1 else 0) i) := by
  obtain ⟨_, _, _, _, _, _, h⟩ := C09_shape srt hs m n nnz ops hin A bs hA C hC
  obtain ⟨_, _, hcol, _, hd⟩ := h i hi
  have hstrict := C09_strict_columns srt hs m n nnz ops hin A bs hA C hC i hi hnd
  obtain ⟨d, hd1, hd2, hd3, hd4⟩ := hd hin'
  simp only [CSR.get, hd1, Option.map_some, if_true, Option.some.injEq]
  rw [multiply_spec]
  unfold CSR.ptrs
  have hne : ∀ p, C.start i ≤ p → p < C.stop i → p ≠ d → (C.column p).toNat ≠ i := by
    intro p hp1 hp2 hpd hpc
    have := hcol p hp1 hp2
    rcases Nat.lt_or_gt_of_ne hpd with hlt | hlt
    · have := hstrict p d hp1 hlt hd3
      omega
    · have := hstrict d p hd2 hlt hp2
      omega
  have hsplit : List.range' (C.start i) (C.stop i - C.start i)
      = List.range' (C.start i) (d - C.start i) ++ d :: List.range' (d + 1) (C.stop i - d - 1) := by
    rw [show C.stop i - C.start i = (d - C.start i) + ((C.stop i - d - 1) + 1) by omega,
      ← List.range'_append_1, show C.start i + (d - C.start i) = d by omega, List.range'_succ]
  rw [hsplit, List.map_append, List.map_cons, List.sum_append, List.sum_cons,
    List.sum_eq_zero, List.sum_eq_zero, hd4]
  · simp
  · intro v hv
    obtain ⟨p, hp, rfl⟩ := List.mem_map.1 hv
    rw [List.mem_range'_1] at hp
    rw [if_neg (hne p (by omega) (by omega) (by omega)), zero_mul]
  · intro v hv
    obtain ⟨p, hp, rfl⟩ := List.mem_map.1 hv
    rw [List.mem_range'_1] at hp
    rw [if_neg (hne p (by omega) (by omega) (by omega)), zero_mul]

/-- C11, concrete: in `demoCSR` the entry (0,2) is 9 but reads as 0, and the duplicate
    diagonal entry (0,0) reads as one of its two parts although multiplication uses 4. -/
theorem C11_counterexample :
    demoCSR.get 0 2 = some 0 ∧ demoCSR.multiply (fun k => if k = 2 then 1 else 0) 0 = 9 ∧
    demoCSR.get 0 0 = some 3 ∧ demoCSR.multiply (fun k => if k = 0 then 1 else 0) 0 = 4 := by
  decide +kernel

/-- Copying an assembled matrix gives the same matrix. -/
theorem C11_copy (C : CSR K) : C.copy = C := rfl

end Detran.Matrix
