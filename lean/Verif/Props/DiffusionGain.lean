import Verif.Props.Diffusion

/-!
# Properties C50 (signs, within-group operator, rebuilding) and C51 (gain operator)
-/

namespace Detran.Diffusion

open Detran.Matrix Finset

variable {K : Type} [Field K] [LinearOrder K] [IsStrictOrderedRing K]

/-- A unit vector. -/
def unit (j p : Nat) : K := if p = j then 1 else 0

theorem dtilde_nonneg (D : Loss K) (hp : D.Pos) (g c leak : Nat) : 0 ≤ D.dtilde g c leak := by
  unfold Loss.dtilde
  split
  · exact dBoundary_nonneg (hp.dc _ _) (hp.h _ _) (hp.al _).1 (hp.al _).2
  · unfold dInterior
    have h1 : 0 < D.M.width c (leak / 2) := hp.h _ _
    have h2 : 0 < D.M.width (D.M.neighbour c leak) (leak / 2) := hp.h _ _
    have h3 : 0 < D.dc g c := hp.dc _ _
    have h4 : 0 < D.dc g (D.M.neighbour c leak) := hp.dc _ _
    positivity

/-- C50: off-diagonal entries are never positive. -/
theorem C50_offdiag (D : Loss K) (ok : D.OK) (hp : D.Pos) (hnf : ∀ g m, 0 ≤ D.mat.nuSigF g m)
    (hchi : ∀ g m, 0 ≤ D.mat.chi g m) (hk : 0 < D.keff)
    (srt : List (Trip K) → List (Trip K)) (hs : IsSort srt) (C : CSR K) (bs : List Bool)
    (hC : D.sys.make srt = .ok (some C, bs)) (g : Nat) (hg : g ∈ D.active) (c : Nat) (hc : c < D.M.size)
    (j : Nat) (hj : j ≠ D.pos g c) : C.multiply (unit j) (D.pos g c) ≤ 0 := by
  obtain ⟨C', h1, _, _, h4⟩ := rows D ok srt hs
  rw [h1, Out.ok.injEq, Prod.mk.injEq, Option.some.injEq] at hC
  obtain ⟨rfl, _⟩ := hC
  rw [h4 _ g hg c hc]
  have u0 : unit j (D.pos g c) = (0 : K) := if_neg (Ne.symm hj)
  have un : ∀ p, (0 : K) ≤ unit j p := by
    intro p
    unfold unit
    split
    · exact zero_le_one
    · exact le_refl _
  have hleak : (∑ leak ∈ range 6, D.faceTerm g (fun c => unit j (D.pos g c)) c leak / D.M.width c (leak / 2)) ≤ 0 := by
    refine Finset.sum_nonpos fun leak _ => ?_
    refine div_nonpos_of_nonpos_of_nonneg ?_ (hp.h _ _).le
    unfold Loss.faceTerm
    simp only [u0]
    split
    · rw [mul_zero]
    · rw [zero_sub]
      have := mul_nonneg (dtilde_nonneg D hp g c leak) (un (D.pos g (D.M.neighbour c leak)))
      linarith [mul_neg (D.dtilde g c leak) (unit j (D.pos g (D.M.neighbour c leak)))]
  have hs1 : 0 ≤ ∑ gp ∈ D.active, D.scatXs g gp c * unit j (D.pos gp c) := by
    refine Finset.sum_nonneg fun gp _ => mul_nonneg ?_ (un _)
    unfold Loss.scatXs
    split <;> exact ok.nn _ _ _
  have hs2 : 0 ≤ (∑ gp ∈ D.active, D.fisXs g gp c * unit j (D.pos gp c)) / D.keff := by
    refine div_nonneg (Finset.sum_nonneg fun gp _ => mul_nonneg ?_ (un _)) hk.le
    unfold Loss.fisXs
    split <;> exact mul_nonneg (hchi _ _) (hnf _ _)
  have hl : D.local (unit j) g c ≤ 0 := by
    unfold Loss.local
    rw [u0, mul_zero]
    split <;> split <;> linarith
  linarith

/-- C50: the within-group operator of group `g` is built completely, and its product is the leakage plus
    removal of that group. -/
theorem C50_within_group (D : Loss K) (hgrid : D.M.WF) (hp : D.Pos) (g : Nat)
    (srt : List (Trip K) → List (Trip K)) (hs : IsSort srt) :
    ∃ C, (wgSys D g).make srt = .ok (some C, (wgSys D g).ops.map fun _ => true) ∧
      C.m = D.M.size ∧
      ∀ x, ∀ c < D.M.size, ∀ J : Nat → K, (∀ leak < 6, D.IsCurrent g x c leak (J leak)) →
        C.multiply x c = (∑ leak ∈ range 6, J leak / D.M.width c (leak / 2))
          + (D.mat.sigT g (D.mmap c) - D.mat.sigS g g (D.mmap c)) * x c := by
  have wf : (wgSys D g).WF := by
    refine ⟨by simp [wgSys], ?_, ?_, ?_, ?_, ?_, ?_, ?_⟩
    · intro a ha b hb _
      simp only [wgSys, List.mem_singleton] at ha hb
      rw [ha, hb]
    · intro a _
      simp [wgSys]
    · intro q hq
      simp only [wgSys, List.length_singleton] at hq
      exact ⟨g, by simp [wgSys], by simp [wgSys]; omega⟩
    · intro a _ c hc
      have := faces_length D.M hgrid hc (D.nbOf g c) (fun l _ hb => by simp [Loss.nbOf, hb])
      show ((List.range 6).filterMap (D.nbOf g c)).length + 1 ≤ 1 + 2 * D.M.dim
      omega
    · intro a _ c hc e he
      obtain ⟨l, hl, he⟩ := List.mem_filterMap.1 he
      unfold Loss.nbOf at he
      by_cases hb : D.M.onBoundary c l = true
      · simp [hb] at he
      · rw [if_neg hb, Option.some.injEq] at he
        subst he
        exact (neighbour_spec D.M hc (List.mem_range.1 hl) (by simpa using hb)).1
    · intro a _
      simp [wgSys]
    · intro a _ gp hgp
      simp [wgSys] at hgp
  obtain ⟨C, h1, h2, _, h4⟩ := wf.make_ok srt hs
  refine ⟨C, h1, h2.trans (by simp [Sys.m, wgSys]), fun x c hc J hJ => ?_⟩
  have h5 := h4 x g (by simp [wgSys]) c hc
  have hr : ∀ c, (wgSys D g).row g c = c := by
    intro c
    simp [Sys.row, wgSys]
  rw [hr] at h5
  rw [h5]
  have hf := face_row D g x c
  have : ∑ leak ∈ range 6, J leak / D.M.width c (leak / 2)
      = ∑ leak ∈ range 6, D.faceTerm g x c leak / D.M.width c (leak / 2) :=
    Finset.sum_congr rfl fun l hl => by rw [(isCurrent_iff D hp g _ c l _).1 (hJ l (mem_range.1 hl))]
  rw [this, ← hf]
  unfold Sys.rowSum
  have hnb : (((wgSys D g).nb g c).map (fun e => e.2 * x ((wgSys D g).row g e.1))).sum
      = (((List.range 6).filterMap (D.nbOf g c)).map (fun e => e.2 * x e.1)).sum := by
    simp only [hr]
    rfl
  have hfs : (wgSys D g).fisSum x g c = 0 := rfl
  have hsc : (wgSys D g).scat g = [] := rfl
  rw [hnb, hfs, hsc, hr]
  have hd : (wgSys D g).diag g c = D.jnet g c + (D.mat.sigT g (D.mmap c) - D.mat.sigS g g (D.mmap c)) := by
    unfold Loss.jnet
    simp only [wgSys, sub_neg_eq_add]
  rw [hd]
  simp only [List.map_nil, List.sum_nil]
  ring

/-- C50 fails for `construct` (a rebuild for a new k or flag): it is undefined for every mesh with cells
    and every active group. -/
theorem C50_rebuild_undefined (D : Loss K) (ok : D.OK) (hpos : 0 < D.M.size) (g : Nat) (hg : g ∈ D.active)
    (srt : List (Trip K) → List (Trip K)) : D.reconstruct srt = .ub := by
  have hne : D.sys.ops ≠ [] := by
    have h2 := (groups_spec D ok).2.1
    intro h
    have : (⟨D.sys.row g 0, D.sys.row g 0, D.sys.diag g 0, false⟩ : Matrix.One K) ∈ D.sys.ops := by
      unfold Sys.ops
      rw [List.mem_append]
      left
      rw [List.mem_flatMap]
      refine ⟨g, (h2 g).2 hg, ?_⟩
      rw [List.mem_flatMap]
      exact ⟨0, List.mem_range.2 hpos, by simp [Sys.insOps]⟩
    rw [h] at this
    simp at this
  unfold Loss.reconstruct
  cases h : D.sys.ops with
  | nil => exact absurd h hne
  | cons o l => simp [runOnes, Coo.insert, Out.bind]

/-! ## C51  the gain operator -/

/-- Index bookkeeping for a full-group operator. -/
def idxSys (G size : Nat) : Sys K where
  size := size
  groups := List.range G
  gi := id
  cap := G
  nb := fun _ _ => []
  diag := fun _ _ => 0
  scat := fun _ => []
  sc := fun _ _ _ => 0
  fis := none

theorem idxSys_wf (G size : Nat) : (idxSys G size : Sys K).WF := by
  refine ⟨List.nodup_range, fun _ _ _ _ h => h, ?_, ?_, ?_, ?_, ?_, ?_⟩
  · intro g hg
    simpa [idxSys] using hg
  · intro q hq
    exact ⟨q, by simpa [idxSys] using hq, rfl⟩
  · intro g _ c _
    simp [idxSys]
  · intro g _ c _ e he
    simp [idxSys] at he
  · intro g _
    simp [idxSys]
  · intro g _ gp hgp
    simp [idxSys] at hgp

theorem gain_general (mat : Material.Mat K) (mmap : Nat → Nat) (size : Nat) (adjoint : Bool) (cap : Nat → Nat)
    (hcap : ∀ i < mat.G * size, mat.G ≤ cap i)
    (srt : List (Trip K) → List (Trip K)) (hs : IsSort srt) :
    ∃ B C, runOnes (preallocate (mat.G * size) (mat.G * size) cap) (gainOps mat mmap size adjoint)
        = .ok (B, (gainOps mat mmap size adjoint).map fun _ => true) ∧
      B.assemble srt = some C ∧ C.m = mat.G * size ∧ C.n = mat.G * size ∧
      (∀ x, ∀ g < mat.G, ∀ c < size, C.multiply x (c + g * size)
        = ∑ gp ∈ range mat.G, gainVal mat mmap adjoint g gp c * x (c + gp * size)) ∧
      (∀ i < mat.G * size, C.stop i - C.start i = mat.G) := by
  set ops := gainOps mat mmap size adjoint with hops
  have wf := idxSys_wf (K := K) mat.G size
  have hm : (idxSys mat.G size : Sys K).m = mat.G * size := by simp [Sys.m, idxSys]
  have hrow : ∀ g c, (idxSys mat.G size : Sys K).row g c = c + g * size := fun _ _ => rfl
  have hf := @Sys.WF.filter_row K _ (idxSys mat.G size) wf
    (fun g c => (List.range mat.G).map fun gp =>
      (⟨c + g * size, c + gp * size, gainVal mat mmap adjoint g gp c, false⟩ : Matrix.One K))
    (by
      intro g c o ho
      obtain ⟨gp, _, rfl⟩ := List.mem_map.1 ho
      rfl)
  have hflt : ∀ g < mat.G, ∀ c < size, ops.filter (fun o => o.row = c + g * size)
      = (List.range mat.G).map fun gp =>
        (⟨c + g * size, c + gp * size, gainVal mat mmap adjoint g gp c, false⟩ : Matrix.One K) :=
    fun g hg c hc => @hf g c (List.mem_range.2 hg) hc
  have hmem : ∀ o ∈ ops, ∃ g < mat.G, ∃ c < size, ∃ gp < mat.G,
      o = ⟨c + g * size, c + gp * size, gainVal mat mmap adjoint g gp c, false⟩ := by
    intro o ho
    obtain ⟨g, hg, ho⟩ := List.mem_flatMap.1 ho
    obtain ⟨c, hc, ho⟩ := List.mem_flatMap.1 ho
    obtain ⟨gp, hgp, rfl⟩ := List.mem_map.1 ho
    exact ⟨g, List.mem_range.1 hg, c, List.mem_range.1 hc, gp, List.mem_range.1 hgp, rfl⟩
  have hlt : ∀ g < mat.G, ∀ c < size, c + g * size < mat.G * size := by
    intro g hg c hc
    have := wf.row_lt (List.mem_range.2 hg) hc
    rwa [hm, hrow] at this
  have hsur : ∀ i < mat.G * size, ∃ g < mat.G, ∃ c < size, c + g * size = i := by
    intro i hi
    obtain ⟨g, hg, c, hc, e⟩ := wf.row_sur (by rw [hm]; exact hi)
    exact ⟨g, List.mem_range.1 hg, c, hc, e⟩
  have hcols : ∀ i < mat.G * size, (colsIn ops i).length = mat.G := by
    intro i hi
    obtain ⟨g, hg, c, hc, rfl⟩ := hsur i hi
    unfold colsIn
    rw [hflt g hg c hc]
    simp
  have hfar : ∀ i, ¬ i < mat.G * size → colsIn ops i = [] := by
    intro i hi
    unfold colsIn
    rw [List.map_eq_nil_iff, List.filter_eq_nil_iff]
    intro o ho
    obtain ⟨g, hg, c, hc, gp, hgp, rfl⟩ := hmem o ho
    have := hlt g hg c hc
    simp only [decide_eq_true_eq]
    omega
  have hin : InRange (mat.G * size) (mat.G * size) ops := by
    intro o ho
    obtain ⟨g, hg, c, hc, gp, hgp, rfl⟩ := hmem o ho
    exact ⟨hlt g hg c hc, hlt gp hgp c hc⟩
  have hadd : ∀ o ∈ ops, o.add = false := by
    intro o ho
    obtain ⟨g, hg, c, hc, gp, hgp, rfl⟩ := hmem o ho
    rfl
  have hlen : ∀ i, (colsIn ops i).length ≤ cap i := by
    intro i
    by_cases hi : i < mat.G * size
    · rw [hcols i hi]
      exact hcap i hi
    · rw [hfar i hi]
      simp
  obtain ⟨B, C, hB, hC, e1, e2, e3⟩ := build_ok srt hs (mat.G * size) (mat.G * size) cap ops [] hadd (by simp)
    (by simpa using hin)
    (by
      intro i
      have : colsIn ([] : List (Matrix.One K)) i = [] := rfl
      rw [this]
      simpa using hlen i)
    (by
      intro i hi h
      have := hcols i hi
      rw [h] at this
      simp only [List.length_nil] at this
      rw [← this] at hi
      simp at hi)
  simp only [List.append_nil] at hB e3
  refine ⟨B, C, hB, hC, e1, e2, fun x g hg c hc => ?_, fun i hi => ?_⟩
  · rw [e3 x _ (hlt g hg c hc), applied_row _ x _ _ (hflt g hg c hc), List.map_map]
    rw [← Material.sum_map_range]
    rfl
  · have h1 := (C09_clear srt hs _ _ cap ops hin B _ hB C hC).2 i hi
    have h2 := (specRun_inserts cap ops (fun _ => []) hadd (by simpa using hlen)).2 i
    have h3 : storedCols cap ops i = colsIn ops i := by
      unfold storedCols
      rw [h2]
      simp
    rw [h3, hcols i hi] at h1
    have h4 : i ∈ colsIn ops i := by
      obtain ⟨g, hg, c, hc, rfl⟩ := hsur i hi
      unfold colsIn
      rw [hflt g hg c hc, List.map_map, List.mem_map]
      exact ⟨g, List.mem_range.2 hg, rfl⟩
    rw [if_neg (fun h => h.2 h4), Nat.add_zero] at h1
    exact h1

/-- C51: the gain operator is built with every `insert` succeeding; its product is, in each group and cell,
    the group's spectrum times the fission rate over all groups (adjoint: production times the
    spectrum-weighted sum). -/
theorem C51_rows (mat : Material.Mat K) (mmap : Nat → Nat) (size : Nat) (adjoint : Bool)
    (srt : List (Trip K) → List (Trip K)) (hs : IsSort srt) :
    ∃ C, gain mat mmap size adjoint srt = .ok (some C, (gainOps mat mmap size adjoint).map fun _ => true) ∧
      C.m = mat.G * size ∧ C.n = mat.G * size ∧
      ∀ x, ∀ g < mat.G, ∀ c < size, C.multiply x (c + g * size) =
        if adjoint then mat.nuSigF g (mmap c) * ∑ gp ∈ range mat.G, mat.chi gp (mmap c) * x (c + gp * size)
        else mat.chi g (mmap c) * ∑ gp ∈ range mat.G, mat.nuSigF gp (mmap c) * x (c + gp * size) := by
  obtain ⟨B, C, h1, h2, h3, h4, h5, _⟩ := gain_general mat mmap size adjoint (fun _ => mat.G)
    (fun _ _ => le_refl _) srt hs
  refine ⟨C, by unfold gain; rw [h1]; simp only [Out.bind, h2], h3, h4, fun x g hg c hc => ?_⟩
  rw [h5 x g hg c hc]
  split
  · rename_i ha
    rw [Finset.mul_sum]
    exact Finset.sum_congr rfl fun gp _ => by simp only [gainVal, ha, if_true]; ring
  · rename_i ha
    rw [Finset.mul_sum]
    exact Finset.sum_congr rfl fun gp _ => by simp only [gainVal, ha]; simp; ring

/-- C51: the adjoint operator is the transpose of the forward one: for all vectors `⟨y, F x⟩ = ⟨A y, x⟩`. -/
theorem C51_adjoint_transpose (mat : Material.Mat K) (mmap : Nat → Nat) (size : Nat)
    (srt : List (Trip K) → List (Trip K)) (hs : IsSort srt) (F A : CSR K) (bF bA : List Bool)
    (hF : gain mat mmap size false srt = .ok (some F, bF))
    (hA : gain mat mmap size true srt = .ok (some A, bA)) (x y : Nat → K) :
    ∑ p ∈ range (mat.G * size), y p * F.multiply x p
      = ∑ p ∈ range (mat.G * size), A.multiply y p * x p := by
  obtain ⟨F', f1, _, _, f2⟩ := C51_rows mat mmap size false srt hs
  obtain ⟨A', a1, _, _, a2⟩ := C51_rows mat mmap size true srt hs
  rw [f1, Out.ok.injEq, Prod.mk.injEq, Option.some.injEq] at hF
  rw [a1, Out.ok.injEq, Prod.mk.injEq, Option.some.injEq] at hA
  obtain ⟨rfl, _⟩ := hF
  obtain ⟨rfl, _⟩ := hA
  rw [Nat.mul_comm, Mesh.sum_range_mul, Mesh.sum_range_mul]
  simp only [Nat.mul_comm size]
  rw [Finset.sum_comm]
  conv_rhs => rw [Finset.sum_comm]
  refine Finset.sum_congr rfl fun c hc => ?_
  rw [mem_range] at hc
  rw [Finset.sum_congr rfl (g := fun g => ∑ gp ∈ range mat.G, y (c + g * size) * (mat.chi g (mmap c) *
    (mat.nuSigF gp (mmap c) * x (c + gp * size)))) (fun g hg => by
      rw [f2 x g (mem_range.1 hg) c hc]
      simp only [Bool.false_eq_true, if_false]
      rw [Finset.mul_sum, Finset.mul_sum])]
  rw [Finset.sum_congr rfl (s₁ := range mat.G) (f := fun g => A'.multiply y (c + g * size) * x (c + g * size))
    (g := fun g => ∑ gp ∈ range mat.G, (mat.nuSigF g (mmap c) *
    (mat.chi gp (mmap c) * y (c + gp * size))) * x (c + g * size)) (fun g hg => by
      rw [a2 y g (mem_range.1 hg) c hc]
      simp only [if_true]
      rw [Finset.mul_sum, Finset.sum_mul])]
  rw [Finset.sum_comm]
  exact Finset.sum_congr rfl fun g _ => Finset.sum_congr rfl fun gp _ => by ring

/-- C51: rebuilding for another material with the same groups (`construct`) succeeds entirely as well. -/
theorem C51_construct (mat mat' : Material.Mat K) (hG : mat'.G = mat.G) (mmap : Nat → Nat) (size : Nat)
    (adjoint : Bool) (srt : List (Trip K) → List (Trip K)) (hs : IsSort srt) (C : CSR K) (bs : List Bool)
    (hC : gain mat mmap size adjoint srt = .ok (some C, bs)) :
    ∃ C', gainConstruct C mat' mmap size adjoint srt
        = .ok (some C', (gainOps mat' mmap size adjoint).map fun _ => true) ∧
      ∀ x, ∀ g < mat.G, ∀ c < size, C'.multiply x (c + g * size) =
        if adjoint then mat'.nuSigF g (mmap c) * ∑ gp ∈ range mat.G, mat'.chi gp (mmap c) * x (c + gp * size)
        else mat'.chi g (mmap c) * ∑ gp ∈ range mat.G, mat'.nuSigF gp (mmap c) * x (c + gp * size) := by
  obtain ⟨B1, C1, h1, h2, h3, h4, _, h6⟩ := gain_general mat mmap size adjoint (fun _ => mat.G)
    (fun _ _ => le_refl _) srt hs
  have e : C1 = C := by
    unfold gain at hC
    rw [h1] at hC
    simp only [Out.bind, h2, Out.ok.injEq, Prod.mk.injEq, Option.some.injEq] at hC
    exact hC.1
  subst e
  obtain ⟨B, C', g1, g2, _, _, g5, _⟩ := gain_general mat' mmap size adjoint (fun i => C1.stop i - C1.start i)
    (fun i hi => by rw [hG] at hi ⊢; rw [h6 i hi]) srt hs
  rw [hG] at g1 g5
  have : C1.clear = preallocate (mat.G * size) (mat.G * size) (fun i => C1.stop i - C1.start i) := by
    unfold CSR.clear
    rw [h3, h4]
  refine ⟨C', by unfold gainConstruct; rw [this, g1]; simp only [Out.bind, g2], fun x g hg c hc => ?_⟩
  rw [g5 x g hg c hc]
  split
  · rename_i ha
    rw [Finset.mul_sum]
    exact Finset.sum_congr rfl fun gp _ => by simp only [gainVal, ha, if_true]; ring
  · rename_i ha
    rw [Finset.mul_sum]
    exact Finset.sum_congr rfl fun gp _ => by simp only [gainVal, ha]; simp; ring

/-! ## Concrete cases -/

/-- Two materials, two groups, both with scattering between the groups in one of them. -/
def demoMat : Material.Mat ℚ :=
  { Material.Mat.new 2 2 with
    sigT := fun _ _ => 1
    sigS := fun g gp m => if g = gp then 1 / 2 else if g = 1 then 1 / 4 else if m = 1 then 1 / 8 else 0
    chi := fun g _ => if g = 0 then 1 else 0
    sigF := fun g _ => if g = 1 then 1 / 2 else 1 / 8
    diff := fun g _ => if g = 0 then 1 else 1 / 2 }

/-- A 3 by 2 mesh with unequal widths, reflecting on the west side, vacuum elsewhere. -/
def demoLoss (adj : Bool) : Loss ℚ where
  M := ⟨2, 3, 2, 1, fun _ i => 1 + i⟩
  mat := demoMat.finalize
  mmap := fun c => c % 2
  al := fun s => if s = 0 ∨ s = 4 ∨ s = 5 then 1 else 0
  adjoint := adj
  cutoff := if adj then 1 else 0
  fission := true
  sf := 0
  keff := 2

theorem demoLoss_ok (adj : Bool) : (demoLoss adj).OK := by
  refine ⟨⟨show 2 ≤ 3 by decide, ?_⟩, ⟨demoMat, rfl⟩, ?_, ?_, ?_⟩
  · intro a h1 h2
    have : a = 2 := by
      have : 2 ≤ a := h1
      omega
    subst this
    rfl
  · intro g gp m
    show (0 : ℚ) ≤ if g = gp then 1 / 2 else if g = 1 then 1 / 4 else if m = 1 then 1 / 8 else 0
    split
    · norm_num
    · split
      · norm_num
      · split <;> norm_num
  · intro c _
    exact Nat.mod_lt _ (by norm_num)
  · cases adj <;> decide

theorem demoLoss_pos (adj : Bool) : (demoLoss adj).Pos := by
  refine ⟨fun _ i => ?_, fun g _ => ?_, fun s => ?_⟩
  · show (0 : ℚ) < 1 + i
    positivity
  · show (0 : ℚ) < if g = 0 then 1 else 1 / 2
    split <;> norm_num
  · show (-1 : ℚ) ≤ (if s = 0 ∨ s = 4 ∨ s = 5 then 1 else 0) ∧ (if s = 0 ∨ s = 4 ∨ s = 5 then 1 else 0) ≤ (1 : ℚ)
    split <;> norm_num

example : (match (demoLoss false).sys.make insSort with
    | .ok (some C, bs) => bs.all (· = true) && decide (C.m = 12) &&
        decide (C.multiply (fun _ => 1) 0 = 47 / 80) && decide ((C.multiply (unit 1) 0 : ℚ) < 0)
    | _ => false) = true := by decide +kernel

example : (match gain demoMat.finalize (fun c => c % 2) 3 false insSort with
    | .ok (some C, bs) => bs.all (· = true) && decide (C.multiply (fun p => p) 1 = 17 / 8)
    | _ => false) = true := by decide +kernel

end Detran.Diffusion
