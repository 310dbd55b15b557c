import Verif.Lemmas.Build
import Verif.Model.Diffusion

namespace Detran.Diffusion

open Detran.Matrix

variable {K : Type} [Field K]

/-- What a `Sys` needs for its matrix to come out as intended. -/
structure Sys.WF (S : Sys K) : Prop where
  nodup : S.groups.Nodup
  inj : ∀ g ∈ S.groups, ∀ g' ∈ S.groups, S.gi g = S.gi g' → g = g'
  lt : ∀ g ∈ S.groups, S.gi g < S.groups.length
  sur : ∀ q < S.groups.length, ∃ g ∈ S.groups, S.gi g = q
  nbLen : ∀ g ∈ S.groups, ∀ c < S.size, (S.nb g c).length + S.groups.length ≤ S.cap
  nbLt : ∀ g ∈ S.groups, ∀ c < S.size, ∀ e ∈ S.nb g c, e.1 < S.size
  scNodup : ∀ g ∈ S.groups, (S.scat g).Nodup
  scSub : ∀ g ∈ S.groups, ∀ gp ∈ S.scat g, gp ∈ S.groups ∧ gp ≠ g

variable {S : Sys K}

theorem Sys.WF.row_lt (h : S.WF) {g c : Nat} (hg : g ∈ S.groups) (hc : c < S.size) : S.row g c < S.m := by
  have := h.lt g hg
  unfold Sys.row Sys.m
  calc c + S.gi g * S.size < S.size + S.gi g * S.size := by omega
    _ = (S.gi g + 1) * S.size := by rw [Nat.add_mul, Nat.one_mul, Nat.add_comm]
    _ ≤ _ := Nat.mul_le_mul_right _ this

theorem Sys.WF.row_inj (h : S.WF) {g c g' c' : Nat} (hg : g ∈ S.groups) (hc : c < S.size)
    (hg' : g' ∈ S.groups) (hc' : c' < S.size) (e : S.row g c = S.row g' c') : g = g' ∧ c = c' := by
  unfold Sys.row at e
  have h1 : (c + S.gi g * S.size) % S.size = c := by
    rw [Nat.add_mul_mod_self_right, Nat.mod_eq_of_lt hc]
  have h2 : (c' + S.gi g' * S.size) % S.size = c' := by
    rw [Nat.add_mul_mod_self_right, Nat.mod_eq_of_lt hc']
  have hcc : c = c' := by rw [← h1, ← h2, e]
  subst hcc
  have h3 : S.gi g * S.size = S.gi g' * S.size := by omega
  exact ⟨h.inj g hg g' hg' (Nat.eq_of_mul_eq_mul_right (by omega) h3), rfl⟩

theorem Sys.WF.row_sur (h : S.WF) {r : Nat} (hr : r < S.m) :
    ∃ g ∈ S.groups, ∃ c < S.size, S.row g c = r := by
  unfold Sys.m at hr
  have hs : 0 < S.size := by
    rcases Nat.eq_zero_or_pos S.size with e | e
    · rw [e] at hr; omega
    · exact e
  obtain ⟨g, hg, e⟩ := h.sur (r / S.size) ((Nat.div_lt_iff_lt_mul hs).2 hr)
  refine ⟨g, hg, r % S.size, Nat.mod_lt _ hs, ?_⟩
  unfold Sys.row
  rw [e, Nat.mul_comm]
  exact Nat.mod_add_div _ _

theorem insOps_row (g c : Nat) : ∀ o ∈ S.insOps g c, o.row = S.row g c ∧ o.add = false := by
  intro o ho
  simp only [Sys.insOps, List.mem_append, List.mem_map, List.mem_singleton] at ho
  rcases ho with (⟨_, _, rfl⟩ | rfl) | ⟨_, _, rfl⟩ <;> exact ⟨rfl, rfl⟩

theorem addOps_row (g c : Nat) : ∀ o ∈ S.addOps g c, o.row = S.row g c ∧ o.add = true := by
  intro o ho
  unfold Sys.addOps at ho
  cases hf : S.fis with
  | none => rw [hf] at ho; simp at ho
  | some f =>
    rw [hf] at ho
    obtain ⟨_, _, rfl⟩ := List.mem_map.1 ho
    exact ⟨rfl, rfl⟩

/-- Only one group and cell contribute to a row. -/
theorem Sys.WF.filter_row (h : S.WF) (f : Nat → Nat → List (Matrix.One K))
    (hf : ∀ g c, ∀ o ∈ f g c, o.row = S.row g c) {g c : Nat} (hg : g ∈ S.groups) (hc : c < S.size) :
    (S.groups.flatMap (fun g => (List.range S.size).flatMap (f g))).filter (fun o => o.row = S.row g c)
      = f g c := by
  have key : ∀ g' ∈ S.groups, ∀ c' < S.size, ¬ (g' = g ∧ c' = c) →
      (f g' c').filter (fun o => o.row = S.row g c) = [] := by
    intro g' hg' c' hc' hne
    rw [List.filter_eq_nil_iff]
    intro o ho
    rw [hf g' c' o ho]
    simp only [decide_eq_true_eq]
    exact fun e => hne (h.row_inj hg' hc' hg hc e)
  rw [filter_flatMap_unique S.groups _ _ g h.nodup hg, filter_flatMap_unique (List.range S.size) _ _ c
    List.nodup_range (List.mem_range.2 hc)]
  · rw [List.filter_eq_self]
    intro o ho
    simp [hf g c o ho]
  · intro c' hc' hne
    exact key g hg c' (List.mem_range.1 hc') (fun e => hne e.2)
  · intro g' hg' hne
    rw [List.filter_eq_nil_iff]
    intro o ho
    obtain ⟨c', hc', ho⟩ := List.mem_flatMap.1 ho
    have := key g' hg' c' (List.mem_range.1 hc') (fun e => hne e.1)
    rw [List.filter_eq_nil_iff] at this
    exact this o ho

theorem applied_row (ops : List (Matrix.One K)) (x : Nat → K) (i : Nat) (l : List (Matrix.One K))
    (h : ops.filter (fun o => o.row = i) = l) : applied ops x i = (l.map (fun o => o.val * x o.col)).sum := by
  unfold applied
  rw [h]

/-- The fission contributions to a row. -/
def Sys.fisSum (S : Sys K) (x : Nat → K) (g c : Nat) : K :=
  match S.fis with
  | none => 0
  | some f => (S.groups.map (fun gp => f g gp c * x (S.row gp c))).sum

/-- The sum of all contributions to a row. -/
def Sys.rowSum (S : Sys K) (x : Nat → K) (g c : Nat) : K :=
  ((S.nb g c).map (fun e => e.2 * x (S.row g e.1))).sum + S.diag g c * x (S.row g c)
    + ((S.scat g).map (fun gp => S.sc g gp c * x (S.row gp c))).sum
    + S.fisSum x g c

theorem Sys.WF.inRange (h : S.WF) : InRange S.m S.m S.ops := by
  intro o ho
  rcases List.mem_append.1 ho with ho | ho
  · obtain ⟨g, hg, ho⟩ := List.mem_flatMap.1 ho
    obtain ⟨c, hc, ho⟩ := List.mem_flatMap.1 ho
    rw [List.mem_range] at hc
    simp only [Sys.insOps, List.mem_append, List.mem_map, List.mem_singleton] at ho
    rcases ho with (⟨e, he, rfl⟩ | rfl) | ⟨gp, hgp, rfl⟩
    · exact ⟨h.row_lt hg hc, h.row_lt hg (h.nbLt g hg c hc e he)⟩
    · exact ⟨h.row_lt hg hc, h.row_lt hg hc⟩
    · exact ⟨h.row_lt hg hc, h.row_lt (h.scSub g hg gp hgp).1 hc⟩
  · obtain ⟨g, hg, ho⟩ := List.mem_flatMap.1 ho
    obtain ⟨c, hc, ho⟩ := List.mem_flatMap.1 ho
    rw [List.mem_range] at hc
    unfold Sys.addOps at ho
    cases hf : S.fis with
    | none => rw [hf] at ho; simp at ho
    | some f =>
      rw [hf] at ho
      obtain ⟨gp, hgp, rfl⟩ := List.mem_map.1 ho
      exact ⟨h.row_lt hg hc, h.row_lt hgp hc⟩

/-- The matrix is built completely and its rows are the intended sums. -/
theorem Sys.WF.make_ok (h : S.WF) (srt : List (Trip K) → List (Trip K)) (hs : IsSort srt) :
    ∃ C, S.make srt = .ok (some C, S.ops.map fun _ => true) ∧ C.m = S.m ∧ C.n = S.m ∧
      ∀ x, ∀ g ∈ S.groups, ∀ c < S.size, C.multiply x (S.row g c) = S.rowSum x g c := by
  have fI := @Sys.WF.filter_row K _ S h S.insOps (fun g c o ho => (insOps_row g c o ho).1)
  have fA := @Sys.WF.filter_row K _ S h S.addOps (fun g c o ho => (addOps_row g c o ho).1)
  have hsub : ∀ g ∈ S.groups, ∀ c < S.size, ∀ o ∈ S.insOps g c, o.row < S.m ∧ o.col < S.m := by
    intro g hg c hc o ho
    simp only [Sys.insOps, List.mem_append, List.mem_map, List.mem_singleton] at ho
    rcases ho with (⟨e, he, rfl⟩ | rfl) | ⟨gp, hgp, rfl⟩
    · exact ⟨h.row_lt hg hc, h.row_lt hg (h.nbLt g hg c hc e he)⟩
    · exact ⟨h.row_lt hg hc, h.row_lt hg hc⟩
    · exact ⟨h.row_lt hg hc, h.row_lt (h.scSub g hg gp hgp).1 hc⟩
  have hsubA : ∀ g ∈ S.groups, ∀ c < S.size, ∀ o ∈ S.addOps g c,
      o.row = S.row g c ∧ ∃ gp ∈ S.groups, o.col = S.row gp c := by
    intro g hg c hc o ho
    unfold Sys.addOps at ho
    cases hf : S.fis with
    | none => rw [hf] at ho; simp at ho
    | some f =>
      rw [hf] at ho
      obtain ⟨gp, hgp, rfl⟩ := List.mem_map.1 ho
      exact ⟨rfl, gp, hgp, rfl⟩
  have hin : InRange S.m S.m S.ops := by
    intro o ho
    rcases List.mem_append.1 ho with ho | ho
    · obtain ⟨g, hg, ho⟩ := List.mem_flatMap.1 ho
      obtain ⟨c, hc, ho⟩ := List.mem_flatMap.1 ho
      exact hsub g hg c (List.mem_range.1 hc) o ho
    · obtain ⟨g, hg, ho⟩ := List.mem_flatMap.1 ho
      obtain ⟨c, hc, ho⟩ := List.mem_flatMap.1 ho
      obtain ⟨e1, gp, hgp, e2⟩ := hsubA g hg c (List.mem_range.1 hc) o ho
      rw [e1, e2]
      exact ⟨h.row_lt hg (List.mem_range.1 hc), h.row_lt hgp (List.mem_range.1 hc)⟩
  have hfar : ∀ (f : Nat → Nat → List (Matrix.One K)), (∀ g c, ∀ o ∈ f g c, o.row = S.row g c) →
      ∀ i, ¬ i < S.m → (S.groups.flatMap (fun g => (List.range S.size).flatMap (f g))).filter
        (fun o => o.row = i) = [] := by
    intro f hf i hi
    rw [List.filter_eq_nil_iff]
    intro o ho
    obtain ⟨g, hg, ho⟩ := List.mem_flatMap.1 ho
    obtain ⟨c, hc, ho⟩ := List.mem_flatMap.1 ho
    rw [hf g c o ho]
    have := h.row_lt hg (List.mem_range.1 hc)
    simp only [decide_eq_true_eq]
    omega
  obtain ⟨B, C, hB, hC, hm, hn, hmul⟩ := build_ok srt hs S.m S.m (fun _ => S.cap)
    (S.groups.flatMap (fun g => (List.range S.size).flatMap (S.insOps g)))
    (S.groups.flatMap (fun g => (List.range S.size).flatMap (S.addOps g)))
    (by
      intro o ho
      obtain ⟨g, hg, ho⟩ := List.mem_flatMap.1 ho
      obtain ⟨c, hc, ho⟩ := List.mem_flatMap.1 ho
      exact (insOps_row g c o ho).2)
    (by
      intro o ho
      obtain ⟨g, hg, ho⟩ := List.mem_flatMap.1 ho
      obtain ⟨c, hc, ho⟩ := List.mem_flatMap.1 ho
      exact (addOps_row g c o ho).2)
    hin
    (by
      intro i
      by_cases hi : i < S.m
      · obtain ⟨g, hg, c, hc, rfl⟩ := h.row_sur hi
        unfold colsIn
        rw [fI hg hc, fA hg hc]
        have hl : ((S.insOps g c).map (fun o => o.col)).length = (S.nb g c).length + 1 + (S.scat g).length := by
          simp [Sys.insOps]
          omega
        rw [hl]
        have hu : (((S.addOps g c).map (fun o => o.col)).toFinset \ ((S.insOps g c).map (fun o => o.col)).toFinset)
            ⊆ (S.groups.toFinset \ (insert g (S.scat g).toFinset)).image (fun gp => S.row gp c) := by
          intro y hy
          rw [Finset.mem_sdiff, List.mem_toFinset, List.mem_toFinset] at hy
          obtain ⟨hy1, hy2⟩ := hy
          obtain ⟨o, ho, rfl⟩ := List.mem_map.1 hy1
          obtain ⟨_, gp, hgp, e⟩ := hsubA g hg c hc o ho
          rw [Finset.mem_image]
          refine ⟨gp, ?_, e.symm⟩
          rw [Finset.mem_sdiff, Finset.mem_insert, List.mem_toFinset, List.mem_toFinset]
          refine ⟨hgp, ?_⟩
          rintro (rfl | hsc)
          · exact hy2 (by rw [e]; simp [Sys.insOps])
          · refine hy2 ?_
            rw [e]
            simp only [Sys.insOps, List.map_append, List.mem_append, List.map_map, List.mem_map]
            exact .inr ⟨gp, hsc, rfl⟩
        have h1 := (Finset.card_le_card hu).trans Finset.card_image_le
        have hsub2 : insert g (S.scat g).toFinset ⊆ S.groups.toFinset := by
          intro y hy
          rw [Finset.mem_insert, List.mem_toFinset] at hy
          rw [List.mem_toFinset]
          rcases hy with rfl | hy
          · exact hg
          · exact (h.scSub g hg y hy).1
        have h2 := Finset.card_sdiff_of_subset hsub2
        have h3 : (insert g (S.scat g).toFinset).card = (S.scat g).length + 1 := by
          rw [Finset.card_insert_of_notMem, List.toFinset_card_of_nodup (h.scNodup g hg)]
          rw [List.mem_toFinset]
          exact fun hm => (h.scSub g hg g hm).2 rfl
        have h4 : S.groups.toFinset.card = S.groups.length := List.toFinset_card_of_nodup h.nodup
        have h5 := Finset.card_le_card hsub2
        have h6 := h.nbLen g hg c hc
        omega
      · unfold colsIn
        rw [hfar S.insOps (fun g c o ho => (insOps_row g c o ho).1) i hi,
          hfar S.addOps (fun g c o ho => (addOps_row g c o ho).1) i hi]
        simp)
    (by
      intro i hi
      obtain ⟨g, hg, c, hc, rfl⟩ := h.row_sur hi
      unfold colsIn
      rw [fI hg hc]
      simp [Sys.insOps])
  refine ⟨C, ?_, hm, hn, ?_⟩
  · have hB' : runOnes (preallocate S.m S.m (fun _ => S.cap)) S.ops = _ := hB
    unfold Sys.make
    rw [hB']
    simp only [Out.bind, hC]
    rfl
  · intro x g hg c hc
    rw [hmul x _ (h.row_lt hg hc)]
    rw [applied_row _ x _ (S.insOps g c ++ S.addOps g c) (by
      rw [List.filter_append, fI hg hc, fA hg hc])]
    unfold Sys.rowSum
    simp only [Sys.insOps, List.map_append, List.map_map, List.map_cons, List.map_nil, List.sum_append,
      List.sum_cons, List.sum_nil, add_zero]
    congr 1
    unfold Sys.addOps Sys.fisSum
    cases S.fis with
    | none => simp
    | some f =>
      simp only [List.map_map]
      rfl

end Detran.Diffusion
