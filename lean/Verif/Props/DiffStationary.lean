import Verif.Props.Stationary
import Verif.Props.DiffKrylov
import Verif.Lemmas.DiffFold

/-!
# Jacobi and Gauss-Seidel solves of diffusion problems (C156)

The matrices the solvers are given: assembled ones have the shape the solvers rely on if no column is inserted twice in a row,
and that of `DiffusionLossOperator` is dominated by its diagonal.
-/

namespace Detran.Solver

open Finset Detran.Matrix

section
variable {K : Type} [Field K]

/-- An assembled square matrix in no row of which a column was stored twice has the shape the solvers rely on. -/
theorem C156_wellformed (srt : List (Trip K) → List (Trip K)) (hs : IsSort srt) (m : Nat) (nnz : Nat → Nat) (ops : List (Matrix.One K))
    (hin : InRange m m ops) (B : Coo K) (bs : List Bool) (hB : runOnes (preallocate m m nnz) ops = .ok (B, bs)) (C : CSR K)
    (hC : B.assemble srt = some C) (hnd : ∀ i < m, (storedCols nnz ops i).Nodup) : WF C := by
  obtain ⟨e1, e2, e3, e4, e5, e6, e7⟩ := C09_shape srt hs m m nnz ops hin B bs hB C hC
  have dg' : ∀ i < m, C.start i ≤ dg C i ∧ dg C i < C.stop i ∧ cl C (dg C i) = i := fun i hi => by
    obtain ⟨-, -, -, -, h⟩ := e7 i hi
    obtain ⟨d, h1, h2, h3, h4⟩ := h hi
    have : dg C i = d := by rw [dg, h1]; rfl
    rw [this, cl, h4]
    exact ⟨h2, h3, by simp⟩
  have mono : ∀ k, ∀ i, i + 1 + k = m → C.stop i ≤ C.rows.getD m 0 := by
    intro k
    induction k with
    | zero =>
      intro i hi
      have : C.stop i = C.rows.getD (i + 1) 0 := rfl
      rw [this, show i + 1 = m by omega]
    | succ k ih =>
      intro i hi
      have h1 := (e7 i (by omega)).2.1
      have h2 := (e7 (i + 1) (by omega)).1
      have h3 := ih (i + 1) (by omega)
      omega
  refine ⟨e1.trans e2.symm, ?_, ?_, ?_, ?_, ?_, ?_⟩ <;> rw [e1]
  · exact fun i hi => (dg' i hi).1
  · exact fun i hi => (dg' i hi).2.1
  · exact fun i hi => (dg' i hi).2.2
  · intro i hi
    rw [e5, ← e6]
    exact mono (m - (i + 1)) i (by omega)
  · intro i hi p h1 h2
    obtain ⟨-, -, h, -⟩ := e7 i hi
    have := h p h1 h2
    unfold cl
    omega
  · intro i hi p q h1 h2 h3
    obtain ⟨-, -, h, -⟩ := e7 i hi
    have a := h p h1 (h2.trans h3)
    have b := C09_strict_columns srt hs m m nnz ops hin B bs hB C hC i hi (hnd i hi) p q h1 h2 h3
    unfold cl
    omega

/-- The columns stored in a row are among those the calls for it name. -/
theorem stored_sublist (cap : Nat → Nat) (ops : List (Matrix.One K)) (st : Nat → List Nat) (i : Nat) :
    ((specRun cap st ops).1 i).Sublist (st i ++ colsIn ops i) := by
  induction ops generalizing st with
  | nil => simp [specRun, colsIn]
  | cons o ops ih =>
    refine (ih (specStep cap st o).1).trans ?_
    have e : colsIn (o :: ops) i = (if o.row = i then [o.col] else []) ++ colsIn ops i := by
      unfold colsIn
      by_cases h : o.row = i <;> simp [h]
    rw [e, ← List.append_assoc]
    refine List.Sublist.append ?_ (List.Sublist.refl _)
    unfold specStep
    split
    · exact List.sublist_append_left _ _
    · split
      · by_cases h : i = o.row
        · simp [h]
        · simp [h]
      · exact List.sublist_append_left _ _

/-- ADD calls never store a column twice. -/
theorem adds_nodup (cap : Nat → Nat) (ops : List (Matrix.One K)) (ho : ∀ o ∈ ops, o.add = true) (st : Nat → List Nat)
    (h : ∀ i, (st i).Nodup) (i : Nat) : ((specRun cap st ops).1 i).Nodup := by
  induction ops generalizing st with
  | nil => exact h i
  | cons o ops ih =>
    refine ih (fun o' h' => ho o' (List.mem_cons_of_mem _ h')) _ fun k => ?_
    unfold specStep
    split
    · exact h k
    · rename_i hc
      split
      · by_cases hk : k = o.row
        · subst hk
          have : o.col ∉ st o.row := fun hm => hc ⟨ho o List.mem_cons_self, hm⟩
          simp only [if_true]
          rw [List.nodup_append]
          exact ⟨h _, by simp, fun a ha b hb => by
            simp at hb
            subst hb
            rintro rfl
            exact this ha⟩
        · simp [hk, h k]
      · exact h k

end

variable {K : Type} [Field K] [LinearOrder K] [IsStrictOrderedRing K]

/-- A matrix without positive entries off the diagonal, some positive vector of which it makes positive, is dominated by its
    diagonal. -/
theorem dominant_of_positive {A : CSR K} {w : Nat → K} (hw : ∀ i < A.m, 0 < w i)
    (off : ∀ i < A.m, ∀ j < A.m, j ≠ i → entry A i j ≤ 0) (row : ∀ i < A.m, 0 < ∑ j ∈ range A.m, entry A i j * w j) :
    ∃ rho, Dominant A w rho := by
  have o1 : ∀ i < A.m, ∑ j ∈ (range A.m).erase i, |entry A i j| * w j = -∑ j ∈ (range A.m).erase i, entry A i j * w j := fun i hi => by
    rw [← sum_neg_distrib]
    refine sum_congr rfl fun j hj => ?_
    obtain ⟨h1, h2⟩ := mem_erase.1 hj
    rw [abs_of_nonpos (off i hi j (mem_range.1 h2) h1)]
    ring
  have o2 : ∀ i < A.m, 0 ≤ ∑ j ∈ (range A.m).erase i, |entry A i j| * w j := fun i hi => sum_nonneg fun j hj =>
    mul_nonneg (abs_nonneg _) (hw j (mem_range.1 (mem_erase.1 hj).2)).le
  have o3 : ∀ i < A.m, ∑ j ∈ (range A.m).erase i, |entry A i j| * w j < entry A i i * w i := fun i hi => by
    have := row i hi
    rw [← add_sum_erase _ _ (mem_range.2 hi)] at this
    rw [o1 i hi]
    linarith
  have o4 : ∀ i < A.m, 0 < entry A i i := fun i hi =>
    pos_of_mul_pos_left ((o2 i hi).trans_lt (o3 i hi)) (hw i hi).le
  rcases Nat.eq_zero_or_pos A.m with h0 | h0
  · exact ⟨0, hw, fun i hi => by omega, fun i hi => by omega, le_rfl, one_pos⟩
  obtain ⟨k, hk, hmax⟩ := exists_max_image (range A.m)
    (fun i => (∑ j ∈ (range A.m).erase i, |entry A i j| * w j) / (entry A i i * w i)) ⟨0, mem_range.2 h0⟩
  have hk := mem_range.1 hk
  refine ⟨_, hw, fun i hi => (o4 i hi).ne', fun i hi => ?_, div_nonneg (o2 k hk) (mul_pos (o4 k hk) (hw k hk)).le,
    (div_lt_one (mul_pos (o4 k hk) (hw k hk))).2 (o3 k hk)⟩
  rw [abs_of_pos (o4 i hi)]
  exact (div_le_iff₀ (mul_pos (o4 i hi) (hw i hi))).1 (hmax i (mem_range.2 hi))

end Detran.Solver

namespace Detran.Diffusion

open Finset Detran.Matrix
open Detran.Solver (Dominant Iterates Solves Sizes watched entry)

section
variable {K : Type} [Field K] {S : Sys K}

/-- No column is stored twice if the neighbours of a cell are different cells. -/
theorem make_wf (h : S.WF) (hnb : ∀ g ∈ S.groups, ∀ c < S.size, ((S.nb g c).map (fun e => e.1)).Nodup ∧ ∀ e ∈ S.nb g c, e.1 ≠ c)
    (srt : List (Trip K) → List (Trip K)) (hs : IsSort srt) (C : CSR K) (bs : List Bool)
    (hC : S.make srt = .ok (some C, bs)) : Solver.WF C := by
  have hin : InRange S.m S.m S.ops := by
    intro o ho
    rcases List.mem_append.1 ho with ho | ho
    · obtain ⟨g, hg, ho⟩ := List.mem_flatMap.1 ho
      obtain ⟨c, hc, ho⟩ := List.mem_flatMap.1 ho
      have hc := List.mem_range.1 hc
      simp only [Sys.insOps, List.mem_append, List.mem_map, List.mem_singleton] at ho
      rcases ho with (⟨e, he, rfl⟩ | rfl) | ⟨gp, hgp, rfl⟩
      · exact ⟨h.row_lt hg hc, h.row_lt hg (h.nbLt g hg c hc e he)⟩
      · exact ⟨h.row_lt hg hc, h.row_lt hg hc⟩
      · exact ⟨h.row_lt hg hc, h.row_lt (h.scSub g hg gp hgp).1 hc⟩
    · obtain ⟨g, hg, ho⟩ := List.mem_flatMap.1 ho
      obtain ⟨c, hc, ho⟩ := List.mem_flatMap.1 ho
      have hc := List.mem_range.1 hc
      unfold Sys.addOps at ho
      cases hf : S.fis with
      | none => rw [hf] at ho; simp at ho
      | some f =>
        rw [hf] at ho
        obtain ⟨gp, hgp, rfl⟩ := List.mem_map.1 ho
        exact ⟨h.row_lt hg hc, h.row_lt hgp hc⟩
  unfold Sys.make at hC
  cases hr : runOnes (preallocate S.m S.m (fun _ => S.cap)) S.ops with
  | ok r =>
    rw [hr] at hC
    obtain ⟨B, b'⟩ := r
    have hC : (Out.ok (B.assemble srt, b') : Out _) = .ok (some C, bs) := hC
    rw [Out.ok.injEq, Prod.mk.injEq] at hC
    refine Solver.C156_wellformed srt hs S.m _ S.ops hin B b' hr C hC.1 fun i hi => ?_
    unfold storedCols Sys.ops
    rw [specRun_append]
    refine Solver.adds_nodup _ _ (fun o ho => ?_) _ (fun k => ?_) i
    · obtain ⟨g, hg, ho⟩ := List.mem_flatMap.1 ho
      obtain ⟨c, hc, ho⟩ := List.mem_flatMap.1 ho
      exact (addOps_row g c o ho).2
    · refine (Solver.stored_sublist _ _ _ k).nodup ?_
      rw [List.nil_append]
      unfold colsIn
      by_cases hk : k < S.m
      · obtain ⟨g, hg, c, hc, rfl⟩ := h.row_sur hk
        rw [h.filter_row S.insOps (fun g c o ho => (insOps_row g c o ho).1) hg hc]
        obtain ⟨n1, n2⟩ := hnb g hg c hc
        have e : (S.insOps g c).map (fun o => o.col) =
            ((S.nb g c).map (fun e => e.1)).map (S.row g) ++ ([S.row g c] ++ (S.scat g).map fun gp => S.row gp c) := by
          simp [Sys.insOps, Function.comp_def]
        rw [e]
        refine List.Nodup.append ?_ (List.Nodup.append (by simp) ?_ ?_) ?_
        · refine List.Nodup.map_on (fun a ha b hb hab => ?_) n1
          obtain ⟨x, hx, rfl⟩ := List.mem_map.1 ha
          obtain ⟨y, hy, rfl⟩ := List.mem_map.1 hb
          exact (h.row_inj hg (h.nbLt g hg c hc x hx) hg (h.nbLt g hg c hc y hy) hab).2
        · refine List.Nodup.map_on (fun a ha b hb hab => ?_) (h.scNodup g hg)
          exact (h.row_inj (h.scSub g hg a ha).1 hc (h.scSub g hg b hb).1 hc hab).1
        · intro a ha hb
          obtain ⟨gp, hgp, e⟩ := List.mem_map.1 hb
          rw [List.mem_singleton.1 ha] at e
          exact (h.scSub g hg gp hgp).2 (h.row_inj (h.scSub g hg gp hgp).1 hc hg hc e).1
        · intro a ha hb
          obtain ⟨v, hv, rfl⟩ := List.mem_map.1 ha
          obtain ⟨x, hx, rfl⟩ := List.mem_map.1 hv
          have hl := h.nbLt g hg c hc x hx
          rcases List.mem_append.1 hb with hb | hb
          · exact n2 x hx (h.row_inj hg hl hg hc (List.mem_singleton.1 hb)).2
          · obtain ⟨gp, hgp, e⟩ := List.mem_map.1 hb
            exact (h.scSub g hg gp hgp).2 (h.row_inj (h.scSub g hg gp hgp).1 hc hg hl e).1
      · rw [List.filter_eq_nil_iff.2 ?_]
        · simp
        · intro o ho
          obtain ⟨g, hg, ho⟩ := List.mem_flatMap.1 ho
          obtain ⟨c, hc, ho⟩ := List.mem_flatMap.1 ho
          have := h.row_lt hg (List.mem_range.1 hc)
          rw [(insOps_row g c o ho).1]
          simp only [decide_eq_true_eq]
          omega
  | _ => rw [hr] at hC; simp [Out.bind] at hC

/-- Different faces of a cell lead to different cells. -/
theorem neighbour_inj (M : Grid K) {c l l' : Nat} (hc : c < M.size) (hl : l < 6) (hl' : l' < 6)
    (hb : M.onBoundary c l = false) (hb' : M.onBoundary c l' = false) (e : M.neighbour c l = M.neighbour c l') : l = l' := by
  have key : ∀ l, l < 6 → M.onBoundary c l = false →
      (∀ b < 3, M.coord (M.neighbour c l) b = shifted l b (M.coord c b)) ∧ (l % 2 = 0 → M.coord c (l / 2) ≠ 0) := by
    intro l hl hb
    have e : l = 2 * (l / 2) + l % 2 := by omega
    have hd : l % 2 < 2 := Nat.mod_lt _ (by decide)
    have hne : ¬ AtEnd (M.count (l / 2)) (M.coord c (l / 2)) (l % 2) := fun h => by
      rw [← onBoundary_iff M c (l / 2) hd, ← e, hb] at h
      exact absurd h (by decide)
    refine ⟨fun b hb3 => ?_, fun h0 h => hne ?_⟩
    · have := neighbour_coord M hc (show l / 2 < 3 by omega) hd hne hb3
      rwa [← e] at this
    · unfold AtEnd
      rw [h0, h]
      rfl
  obtain ⟨k1, k2⟩ := key l hl hb
  obtain ⟨k3, k4⟩ := key l' hl' hb'
  rw [← e] at k3
  have q : ∀ b < 3, shifted l b (M.coord c b) = shifted l' b (M.coord c b) := fun b hb => (k1 b hb).symm.trans (k3 b hb)
  by_contra hne
  have q1 := q (l / 2) (by omega)
  have q2 := q (l' / 2) (by omega)
  unfold shifted at q1 q2
  by_cases h2 : l / 2 = l' / 2
  · rw [if_pos rfl, if_pos h2] at q1
    have k5 : l' % 2 = 0 → M.coord c (l / 2) ≠ 0 := by rw [h2]; exact k4
    split at q1 <;> split at q1 <;> omega
  · rw [if_pos rfl, if_neg h2] at q1
    split at q1
    · have := k2 (by assumption)
      omega
    · omega

end

section
variable {K : Type} [Field K] [LinearOrder K] [IsStrictOrderedRing K]
variable (S : FixedSrc K) (ok : S.OK) (hp : S.L.Pos) (srt : List (Trip K) → List (Trip K)) (hs : IsSort srt)
  (C : CSR K) (bs : List Bool) (hC : S.L.sys.make srt = .ok (some C, bs))

include ok hs hC

theorem loss_wf : Solver.WF C := by
  refine make_wf (wf_loss S.L ok.op) (fun g hg c hc => ?_) srt hs C bs hC
  have hc : c < S.L.M.size := hc
  have nb : ∀ l e, S.L.nbOf g c l = some e → S.L.M.onBoundary c l = false ∧ e.1 = S.L.M.neighbour c l := fun l e h => by
    unfold Loss.nbOf at h
    split at h
    · cases h
    · rename_i hb
      obtain rfl := Option.some.inj h
      exact ⟨by simpa using hb, rfl⟩
  constructor
  · change (((List.range 6).filterMap (S.L.nbOf g c)).map fun e => e.1).Nodup
    rw [List.map_filterMap]
    refine List.pairwise_filterMap.2 (List.nodup_range.imp_of_mem ?_)
    intro l l' hl hl' hne v h1 v' h2 hv
    subst hv
    obtain ⟨e, he, rfl⟩ := Option.map_eq_some_iff.1 h1
    obtain ⟨e', he', h3⟩ := Option.map_eq_some_iff.1 h2
    obtain ⟨a1, a2⟩ := nb l e he
    obtain ⟨b1, b2⟩ := nb l' e' he'
    exact hne (neighbour_inj S.L.M hc (List.mem_range.1 hl) (List.mem_range.1 hl') a1 b1 (by rw [← a2, ← b2, h3]))
  · intro e he
    obtain ⟨l, hl, h⟩ := List.mem_filterMap.1 he
    obtain ⟨a1, a2⟩ := nb l e h
    rw [a2]
    exact (neighbour_spec S.L.M hc (List.mem_range.1 hl) a1).2

theorem loss_m : C.m = S.L.unknowns := by
  obtain ⟨C', h1, h2, _, _⟩ := rows S.L ok.op srt hs
  rw [h1, Out.ok.injEq, Prod.mk.injEq, Option.some.injEq] at hC
  obtain ⟨rfl, _⟩ := hC
  rw [h2, ok.active, card_range]

include hp in
/-- Signs in the matrix of the diffusion operator. -/
theorem loss_signs {u : Nat → K} (hW : S.L.Weak u) : (∀ i < C.m, 0 < u (i / S.L.M.size)) ∧
    (∀ i < C.m, ∀ j < C.m, j ≠ i → entry C i j ≤ 0) ∧
    ∀ i < C.m, 0 < ∑ j ∈ range C.m, entry C i j * u (j / S.L.M.size) := by
  have wf := loss_wf S ok srt hs C bs hC
  have hm := loss_m S ok srt hs C bs hC
  have sp : ∀ p < C.m, p / S.L.M.size ∈ S.L.active ∧ p % S.L.M.size < S.L.M.size ∧
      S.L.pos (p / S.L.M.size) (p % S.L.M.size) = p := fun p h => by
    rw [hm] at h
    obtain ⟨a, b, e⟩ := unknown_split h
    exact ⟨(in_active ok).2 a, b, by rw [ok.pos, e]⟩
  refine ⟨fun p h => hW.upos _ (sp p h).1, fun i hi j hj hne => ?_, fun i hi => ?_⟩
  · have e : entry C i j = C.multiply (unit j) i := by
      rw [Solver.multiply_entry wf _ i hi]
      unfold unit
      simp only [mul_ite, mul_one, mul_zero]
      rw [sum_ite_eq', if_pos (mem_range.2 hj)]
    obtain ⟨a, b, c⟩ := sp i hi
    rw [e, product_lhs S ok srt hs C bs hC _ (hm ▸ hi)]
    have u0 : unit j (S.L.pos (i / S.L.M.size) (i % S.L.M.size)) = (0 : K) := by
      rw [c]
      exact if_neg hne.symm
    have un : ∀ p, (0 : K) ≤ unit j p := fun p => by
      unfold unit
      split
      · exact zero_le_one
      · exact le_rfl
    unfold Loss.lhs
    rw [local_eq, u0, mul_zero, zero_sub]
    refine add_nonpos (sum_nonpos fun leak _ => div_nonpos_of_nonpos_of_nonneg ?_ (hp.h _ _).le)
      (neg_nonpos.2 (sum_nonneg fun gp hg => mul_nonneg (hW.nn _ a _ hg _ b) (un _)))
    unfold Loss.faceTerm
    dsimp only
    rw [u0]
    split
    · rw [mul_zero]
    · rw [zero_sub, mul_neg]
      exact neg_nonpos.2 (mul_nonneg (dtilde_nonneg S.L hp _ _ _) (un _))
  · obtain ⟨a, b, c⟩ := sp i hi
    rw [← Solver.multiply_entry wf (fun j => u (j / S.L.M.size)) i hi, product_lhs S ok srt hs C bs hC _ (hm ▸ hi),
      lhs_flat S.L u _ (fun g hg c hc => by
        rw [ok.pos, Nat.add_mul_div_right _ _ (by omega), Nat.div_eq_of_lt hc, Nat.zero_add]) a b]
    have := hW.row _ a _ b
    refine add_pos_of_nonneg_of_pos (sum_nonneg fun leak _ => ?_) (by linarith)
    split
    · exact div_nonneg (mul_nonneg (dtilde_nonneg S.L hp _ _ _) (hW.upos _ a).le) (hp.h _ _).le
    · exact le_rfl

include hp in
/-- The matrix of the diffusion operator is dominated by its diagonal. -/
theorem C156_dominant {u : Nat → K} (hW : S.L.Weak u) : ∃ rho, Dominant C (fun p => u (p / S.L.M.size)) rho := by
  obtain ⟨a, b, c⟩ := loss_signs S ok hp srt hs C bs hC hW
  exact Solver.dominant_of_positive a b c

include hp in
/-- Jacobi and Gauss-Seidel iteration on the diffusion system, without relaxation or relaxed by any factor between zero and
    one. -/
theorem C156_diffusion [Archimedean K] {u : Nat → K} (hW : S.L.Weak u) (gs : Bool) {ω : K} (h0 : 0 < ω) (h1 : ω ≤ 1)
    {nrm0 nrm : (Nat → K) → K} {B0 B : K} (hn0 : Sizes C.m nrm0 B0) (hn : Sizes C.m nrm B) (successive : Bool) :
    ∃ f : K, 0 ≤ f ∧ ∀ b y, Solves C b y → ∀ x, Iterates gs C ω b x →
      let r := watched C b nrm0 nrm successive x
      let kd : Solver.Kind := if gs then .gaussSeidel else .jacobi
      (∀ (par : Solver.Par K) s, (Solver.solve par kd r s).1.status = .success → ∀ i < S.L.unknowns,
        |x (Solver.solve par kd r s).2 i - y i| ≤ f * max (par.rtol * r 0) par.atol) ∧
      ∀ atol rtol, 0 < atol → ∃ N, ∀ maxit, N ≤ maxit → ∀ s,
        (Solver.solve ⟨atol, rtol, maxit, false⟩ kd r s).1.status = .success := by
  obtain ⟨rho, hD⟩ := C156_dominant S ok hp srt hs C bs hC hW
  have hlt : |ω| * rho + |1 - ω| < 1 := by
    rw [abs_of_pos h0, abs_of_nonneg (sub_nonneg.2 h1)]
    have := mul_lt_mul_of_pos_left hD.less h0
    linarith
  rw [← loss_m S ok srt hs C bs hC]
  exact Solver.C156_solves gs (loss_wf S ok srt hs C bs hC) hD hlt hn0 hn successive

end

/-- A core of fuel and moderator, vacuum outside: Gauss-Seidel with the largest residual monitored. -/
example (srt : List (Trip ℝ) → List (Trip ℝ)) (hs : IsSort srt) (gs successive : Bool) :
    let L := core ℝ (fun c => c % 2) 0
    ∃ C bs, L.sys.make srt = .ok (some C, bs) ∧ ∃ f : ℝ, 0 ≤ f ∧ ∀ b y, Solves C b y → ∀ x, Iterates gs C 1 b x →
      let r := watched C b (CallowNorm.norm Real.sqrt .l2 C.m) (CallowNorm.norm Real.sqrt .linf C.m) successive x
      ∀ (par : Solver.Par ℝ) s, (Solver.solve par (if gs then .gaussSeidel else .jacobi) r s).1.status = .success →
        ∀ i < L.unknowns, |x (Solver.solve par (if gs then .gaussSeidel else .jacobi) r s).2 i - y i| ≤
          f * max (par.rtol * r 0) par.atol := by
  intro L
  have sub := core_sub (K := ℝ) (fun c => c % 2) (fun c => Nat.mod_lt _ (by decide)) 0 (Or.inl rfl)
  have ok := fed_ok sub fun _ _ => 0
  obtain ⟨C, h1, -⟩ := rows L ok.op srt hs
  obtain ⟨f, f0, hf⟩ := C156_diffusion _ ok sub.pos srt hs C _ h1 sub.weak gs one_pos le_rfl
    (Solver.C156_norms C.m .l2 (by simp)).1 (Solver.C156_norms C.m .linf (by simp)).1 successive
  exact ⟨C, _, h1, f, f0, fun b y hy x hx => (hf b y hy x hx).1⟩

end Detran.Diffusion
