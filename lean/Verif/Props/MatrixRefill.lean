import Verif.Lemmas.Build

/-!
# Property C09: refilling a cleared matrix
-/

namespace Detran.Matrix

variable {K : Type} [Field K]

/-- Where a call writes and how. -/
def One.place (o : One K) : Nat × Nat × Bool := (o.row, o.col, o.add)

theorem specRun_place (cap : Nat → Nat) (ops ops' : List (One K)) (st : Nat → List Nat)
    (h : ops.map One.place = ops'.map One.place) : specRun cap st ops = specRun cap st ops' := by
  induction ops generalizing ops' st with
  | nil =>
    cases ops' with
    | nil => rfl
    | cons o l => simp at h
  | cons o ops ih =>
    cases ops' with
    | nil => simp at h
    | cons o' ops' =>
      simp only [List.map_cons, List.cons.injEq, One.place, Prod.mk.injEq] at h
      obtain ⟨⟨h1, h2, h3⟩, h4⟩ := h
      have e : specStep cap st o = specStep cap st o' := by
        unfold specStep
        rw [h1, h2, h3]
      simp only [specRun, e]
      rw [ih ops' _ h4]

theorem specStep_grows (cap : Nat → Nat) (o : One K) (st : Nat → List Nat) (i : Nat) :
    (st i).length ≤ ((specStep cap st o).1 i).length := by
  unfold specStep
  split
  · exact le_refl _
  · split
    · by_cases h : i = o.row <;> simp [h]
    · exact le_refl _

theorem specRun_grows (cap : Nat → Nat) (ops : List (One K)) (st : Nat → List Nat) (i : Nat) :
    (st i).length ≤ ((specRun cap st ops).1 i).length := by
  induction ops generalizing st with
  | nil => exact le_refl _
  | cons o ops ih => exact (specStep_grows cap o st i).trans (ih _)

theorem specRun_tight (cap cap' : Nat → Nat) (ops : List (One K)) (st : Nat → List Nat)
    (h : (specRun cap st ops).2 = ops.map fun _ => true)
    (hc : ∀ i, ((specRun cap st ops).1 i).length ≤ cap' i) :
    specRun cap' st ops = specRun cap st ops := by
  induction ops generalizing st with
  | nil => rfl
  | cons o ops ih =>
    simp only [specRun, List.map_cons, List.cons.injEq] at h hc ⊢
    obtain ⟨h1, h2⟩ := h
    have e : specStep cap' st o = specStep cap st o := by
      unfold specStep
      by_cases c1 : o.add = true ∧ o.col ∈ st o.row
      · rw [if_pos c1, if_pos c1]
      · rw [if_neg c1, if_neg c1]
        by_cases c2 : (st o.row).length < cap o.row
        · have hs : specStep cap st o = (fun i => if i = o.row then st i ++ [o.col] else st i, true) := by
            unfold specStep
            rw [if_neg c1, if_pos c2]
          have h3 := (specRun_grows cap ops (specStep cap st o).1 o.row).trans (hc o.row)
          rw [hs] at h3
          simp only [if_true, List.length_append, List.length_singleton] at h3
          rw [if_pos c2, if_pos (by omega)]
        · exfalso
          unfold specStep at h1
          rw [if_neg c1, if_neg c2] at h1
          simp at h1
    rw [e, ih _ h2 hc]

theorem specRun_rows (m n : Nat) (cap : Nat → Nat) (ops : List (One K)) (st : Nat → List Nat)
    (hin : InRange m n ops) (i : Nat) (hi : ¬ i < m) : (specRun cap st ops).1 i = st i := by
  induction ops generalizing st with
  | nil => rfl
  | cons o ops ih =>
    have hr := (hin o List.mem_cons_self).1
    have : (specRun cap st (o :: ops)).1 i = (specRun cap (specStep cap st o).1 ops).1 i := rfl
    rw [this, ih _ (fun o' h => hin o' (List.mem_cons_of_mem _ h))]
    unfold specStep
    split
    · rfl
    · split
      · have : i ≠ o.row := by omega
        simp [this]
      · rfl

/-- C09: after `clear`, the same pattern of calls (with any values) succeeds entirely again, assembly is
    defined and the product is that of the new values alone. -/
theorem C09_refill (srt : List (Trip K) → List (Trip K)) (hs : IsSort srt) (m n : Nat)
    (nnz : Nat → Nat) (ops ops' : List (One K)) (hin : InRange m n ops)
    (hp : ops.map One.place = ops'.map One.place) (A : Coo K)
    (hA : runOnes (preallocate m n nnz) ops = .ok (A, ops.map fun _ => true)) (C : CSR K)
    (hC : A.assemble srt = some C) :
    ∃ A' C', runOnes C.clear ops' = .ok (A', ops'.map fun _ => true) ∧ A'.assemble srt = some C' ∧
      C'.m = m ∧ C'.n = n ∧ ∀ x, ∀ i < m, C'.multiply x i = applied ops' x i := by
  obtain ⟨hcl, hcap⟩ := C09_clear srt hs m n nnz ops hin A _ hA C hC
  have hlen : ops.length = ops'.length := by simpa using congrArg List.length hp
  have hin' : InRange m n ops' := by
    intro o ho
    have : o.place ∈ ops.map One.place := by rw [hp]; exact List.mem_map_of_mem ho
    obtain ⟨o', ho', e⟩ := List.mem_map.1 this
    have h1 := hin o' ho'
    simp only [One.place, Prod.mk.injEq] at e
    rw [← e.1, ← e.2.1]
    exact h1
  obtain ⟨A0, hA0⟩ := C12_return_values m n nnz ops hin
  rw [hA, Out.ok.injEq, Prod.mk.injEq] at hA0
  have htrue := hA0.2.symm
  have ht := specRun_tight nnz (fun i => C.stop i - C.start i) ops (fun _ => []) htrue (by
    intro i
    by_cases hi : i < m
    · rw [hcap i hi]
      unfold storedCols
      omega
    · rw [specRun_rows m n nnz ops _ hin i hi]
      simp)
  have ht' := ht
  rw [specRun_place _ ops ops' _ hp] at ht'
  have hmap : (ops.map fun _ => true) = ops'.map fun _ => true := by
    rw [List.map_const', List.map_const', hlen]
  obtain ⟨A', hA'⟩ := C12_return_values m n (fun i => C.stop i - C.start i) ops' hin'
  rw [ht', htrue, hmap] at hA'
  have hdef := (C09_assemble_defined_iff srt hs m n nnz ops hin A _ hA).1 ⟨C, hC⟩
  obtain ⟨C', hC'⟩ := (C09_assemble_defined_iff srt hs m n _ ops' hin' A' _ hA').2 (by
    intro i hi
    have := hdef i hi
    unfold storedCols at this ⊢
    rw [ht']
    exact this)
  obtain ⟨e1, e2, _⟩ := C09_shape srt hs m n _ ops' hin' A' _ hA' C' hC'
  rw [← hcl] at hA'
  refine ⟨A', C', hA', hC', e1, e2, fun x i hi => ?_⟩
  rw [hcl] at hA'
  exact C08_multiply_all srt hs m n _ ops' hin' A' _ hA' rfl C' hC' x i hi

/-- A pattern with fewer calls frees nothing extra, one with more is refused: after a tridiagonal fill the
    corner entry does not fit. -/
example : (match runOnes (preallocate 3 3 (fun _ => 3))
      [⟨0, 0, (2 : ℚ), false⟩, ⟨0, 1, -1, false⟩, ⟨1, 0, -1, false⟩, ⟨1, 1, 2, false⟩, ⟨1, 2, -1, false⟩,
       ⟨2, 1, -1, false⟩, ⟨2, 2, 2, false⟩] with
    | .ok (A, _) => match A.assemble insSort with
      | some C => match runOnes C.clear [⟨0, 0, (5 : ℚ), false⟩, ⟨0, 1, 1, true⟩, ⟨0, 2, 1, false⟩] with
        | .ok (_, bs) => decide (bs = [true, true, false])
        | _ => false
      | none => false
    | _ => false) = true := by decide +kernel

end Detran.Matrix
