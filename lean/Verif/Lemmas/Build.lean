import Verif.Props.Matrix
import Mathlib.Data.Finset.Card
import Mathlib.Algebra.BigOperators.Group.List.Basic

/-!
# Building a matrix by INSERTs followed by ADDs
-/

namespace Detran.Matrix

variable {K : Type} [Field K]

/-- Columns addressed in row `i`. -/
def colsIn (ops : List (One K)) (i : Nat) : List Nat :=
  (ops.filter (fun o => o.row = i)).map (fun o => o.col)

theorem colsIn_cons (o : One K) (ops : List (One K)) (i : Nat) :
    colsIn (o :: ops) i = if o.row = i then o.col :: colsIn ops i else colsIn ops i := by
  unfold colsIn
  by_cases h : o.row = i <;> simp [h]

theorem colsIn_append (a b : List (One K)) (i : Nat) : colsIn (a ++ b) i = colsIn a i ++ colsIn b i := by
  simp [colsIn]

theorem specRun_append (cap : Nat → Nat) (a b : List (One K)) (st : Nat → List Nat) :
    specRun cap st (a ++ b) =
      ((specRun cap (specRun cap st a).1 b).1, (specRun cap st a).2 ++ (specRun cap (specRun cap st a).1 b).2) := by
  induction a generalizing st with
  | nil => simp [specRun]
  | cons o a ih => simp [specRun, ih]

theorem specRun_inserts (cap : Nat → Nat) (ops : List (One K)) (st : Nat → List Nat)
    (h : ∀ o ∈ ops, o.add = false)
    (hc : ∀ i, (st i).length + (colsIn ops i).length ≤ cap i) :
    (specRun cap st ops).2 = ops.map (fun _ => true) ∧
    ∀ i, (specRun cap st ops).1 i = st i ++ colsIn ops i := by
  induction ops generalizing st with
  | nil => simp [specRun, colsIn]
  | cons o ops ih =>
    have ho : o.add = false := h o List.mem_cons_self
    have hlt : (st o.row).length < cap o.row := by
      have := hc o.row
      rw [colsIn_cons, if_pos rfl, List.length_cons] at this
      omega
    have hs : specStep cap st o = (fun i => if i = o.row then st i ++ [o.col] else st i, true) := by
      unfold specStep
      rw [if_neg (by simp [ho]), if_pos hlt]
    obtain ⟨h1, h2⟩ := ih (specStep cap st o).1 (fun o' h' => h o' (List.mem_cons_of_mem _ h')) (by
      intro i
      have := hc i
      rw [colsIn_cons] at this
      rw [hs]
      by_cases hi : i = o.row
      · subst hi
        simp only [if_true, List.length_cons, List.length_append, List.length_nil] at this ⊢
        omega
      · simp only [hi, if_false, Ne.symm hi] at this ⊢
        exact this)
    refine ⟨by simp only [specRun, List.map_cons, h1]; rw [hs], fun i => ?_⟩
    simp only [specRun]
    rw [h2, hs, colsIn_cons]
    by_cases hi : i = o.row
    · subst hi
      simp
    · simp [hi, Ne.symm hi]

theorem specRun_adds (cap : Nat → Nat) (ops : List (One K)) (st : Nat → List Nat)
    (h : ∀ o ∈ ops, o.add = true)
    (hc : ∀ i, (st i).length + ((colsIn ops i).toFinset \ (st i).toFinset).card ≤ cap i) :
    (specRun cap st ops).2 = ops.map (fun _ => true) ∧
    ∀ i, st i ≠ [] → (specRun cap st ops).1 i ≠ [] := by
  induction ops generalizing st with
  | nil => simp [specRun]
  | cons o ops ih =>
    have ho : o.add = true := h o List.mem_cons_self
    by_cases hm : o.col ∈ st o.row
    · have hs : specStep cap st o = (st, true) := by
        unfold specStep
        rw [if_pos ⟨ho, hm⟩]
      obtain ⟨h1, h2⟩ := ih (specStep cap st o).1 (fun o' h' => h o' (List.mem_cons_of_mem _ h')) (by
        intro i
        have := hc i
        rw [colsIn_cons] at this
        rw [hs]
        by_cases hi : o.row = i
        · subst hi
          rw [if_pos rfl, List.toFinset_cons, Finset.insert_sdiff_of_mem _ (List.mem_toFinset.2 hm)] at this
          exact this
        · rw [if_neg hi] at this
          exact this)
      refine ⟨by simp only [specRun, List.map_cons, h1]; rw [hs], fun i => ?_⟩
      simp only [specRun]
      rw [hs] at h2 ⊢
      exact h2 i
    · have hlt : (st o.row).length < cap o.row := by
        have := hc o.row
        rw [colsIn_cons, if_pos rfl, List.toFinset_cons,
          Finset.insert_sdiff_of_notMem _ (by simpa using hm)] at this
        have h3 := Finset.card_pos.2 (Finset.insert_nonempty o.col ((colsIn ops o.row).toFinset \ (st o.row).toFinset))
        omega
      have hs : specStep cap st o = (fun i => if i = o.row then st i ++ [o.col] else st i, true) := by
        unfold specStep
        rw [if_neg (by simp [hm]), if_pos hlt]
      obtain ⟨h1, h2⟩ := ih (specStep cap st o).1 (fun o' h' => h o' (List.mem_cons_of_mem _ h')) (by
        intro i
        have := hc i
        rw [colsIn_cons] at this
        rw [hs]
        by_cases hi : i = o.row
        · subst hi
          simp only [if_true] at this ⊢
          rw [List.toFinset_cons] at this
          have e : (insert o.col (colsIn ops o.row).toFinset) \ (st o.row).toFinset
              = insert o.col ((colsIn ops o.row).toFinset \ (st o.row ++ [o.col]).toFinset) := by
            ext x
            simp only [Finset.mem_sdiff, Finset.mem_insert, List.mem_toFinset, List.mem_append,
              List.mem_singleton]
            by_cases hx : x = o.col
            · simp [hx, hm]
            · simp [hx]
          rw [e, Finset.card_insert_of_notMem (by simp)] at this
          simp only [List.length_append, List.length_singleton]
          omega
        · simp only [hi, if_false, Ne.symm hi] at this ⊢
          exact this)
      refine ⟨by simp only [specRun, List.map_cons, h1]; rw [hs], fun i hne => ?_⟩
      simp only [specRun]
      refine h2 i ?_
      rw [hs]
      by_cases hi : i = o.row
      · simp [hi]
      · simpa [hi] using hne

/-- A build by INSERTs then ADDs into large enough rows, each row hit by an INSERT: every call succeeds,
    assembly is defined and the product is the sum of all contributions. -/
theorem build_ok (srt : List (Trip K) → List (Trip K)) (hs : IsSort srt) (m n : Nat) (cap : Nat → Nat)
    (I A : List (One K)) (hI : ∀ o ∈ I, o.add = false) (hA : ∀ o ∈ A, o.add = true)
    (hin : InRange m n (I ++ A))
    (hc : ∀ i, (colsIn I i).length + ((colsIn A i).toFinset \ (colsIn I i).toFinset).card ≤ cap i)
    (hne : ∀ i < m, colsIn I i ≠ []) :
    ∃ B C, runOnes (preallocate m n cap) (I ++ A) = .ok (B, (I ++ A).map fun _ => true) ∧
      B.assemble srt = some C ∧ C.m = m ∧ C.n = n ∧
      ∀ x, ∀ i < m, C.multiply x i = applied (I ++ A) x i := by
  obtain ⟨h1, h2⟩ := specRun_inserts cap I (fun _ => []) hI (by
    intro i
    have := hc i
    simp only [List.length_nil]
    omega)
  obtain ⟨h3, h4⟩ := specRun_adds cap A (specRun cap (fun _ => []) I).1 hA (by
    intro i
    rw [h2]
    simpa using hc i)
  obtain ⟨B, hB⟩ := C12_return_values m n cap (I ++ A) hin
  have hbs : (specRun cap (fun _ => []) (I ++ A)).2 = (I ++ A).map fun _ => true := by
    rw [specRun_append, h1, h3, List.map_append]
  rw [hbs] at hB
  obtain ⟨C, hC⟩ := (C09_assemble_defined_iff srt hs m n cap (I ++ A) hin B _ hB).2 (by
    intro i hi
    unfold storedCols
    rw [specRun_append]
    refine h4 i ?_
    rw [h2]
    simpa using hne i hi)
  obtain ⟨e1, e2, _⟩ := C09_shape srt hs m n cap (I ++ A) hin B _ hB C hC
  exact ⟨B, C, hB, hC, e1, e2, fun x i hi => C08_multiply_all srt hs m n cap (I ++ A) hin B _ hB rfl C hC x i hi⟩

/-- Filtering a `flatMap` when only one element contributes. -/
theorem filter_flatMap_unique {α β : Type} (l : List α) (f : α → List β) (p : β → Bool) (a : α)
    (hn : l.Nodup) (ha : a ∈ l) (h : ∀ b ∈ l, b ≠ a → (f b).filter p = []) :
    (l.flatMap f).filter p = (f a).filter p := by
  induction l with
  | nil => simp at ha
  | cons b l ih =>
    rw [List.flatMap_cons, List.filter_append]
    rw [List.nodup_cons] at hn
    rcases List.mem_cons.1 ha with rfl | ha'
    · have : (l.flatMap f).filter p = [] := by
        clear ih
        rw [List.filter_eq_nil_iff]
        intro x hx
        obtain ⟨b, hb, hx⟩ := List.mem_flatMap.1 hx
        have := h b (List.mem_cons_of_mem _ hb) (fun e => hn.1 (e ▸ hb))
        rw [List.filter_eq_nil_iff] at this
        exact this x hx
      rw [this, List.append_nil]
    · rw [h b List.mem_cons_self (fun e => hn.1 (e ▸ ha')), List.nil_append]
      exact ih hn.2 ha' (fun b hb => h b (List.mem_cons_of_mem _ hb))

end Detran.Matrix
