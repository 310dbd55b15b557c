import Verif.Model.Precond
import Verif.Props.Gmres
import Verif.Props.DiffusionGain
import Verif.Props.MGSolve
import Mathlib.Algebra.Module.LinearMap.End

/-!
# C111: a preconditioner changes the number of iterations, not the answer
-/

namespace Detran.Precond

open Detran.Material Detran.MGSolve Detran.Diffusion Detran.Matrix Finset

variable {K : Type} [Field K] [LinearOrder K] [IsStrictOrderedRing K]

/-! ## Specification -/

/-- The diffusion solver solves its problem, and the problem has one solution. -/
structure Inverts (C : CSR K) (m : Nat) (sol : (Nat → K) → Nat → K) : Prop where
  solves : ∀ s, ∀ r < m, C.multiply (sol s) r = s r
  unique : ∀ x, (∀ r < m, C.multiply x r = 0) → ∀ r < m, x r = 0

/-- Nothing but zero is mapped to zero, on vectors of length `n`. -/
def Injective (n : Nat) (f : (Nat → K) → Nat → K) : Prop :=
  ∀ v, (∀ p < n, f v p = 0) → ∀ p < n, v p = 0

/-- The source data that go with a diffusion problem. -/
def srcOf (D : Loss K) : Src K := ⟨D.mat, D.M.size, D.mmap, D.adjoint⟩

/-! ## Leakage plus total removal has no kernel -/

theorem volume_pos (D : Loss K) (hp : D.Pos) (c : Nat) : 0 < D.M.volume c :=
  mul_pos (mul_pos (hp.h _ _) (hp.h _ _)) (hp.h _ _)

theorem leak_inj (D : Loss K) (hp : D.Pos) (g : Nat) (hT : ∀ m, 0 < D.mat.sigT g m) (t : Nat → K)
    (h : ∀ c < D.M.size, (∑ leak ∈ range 6, D.faceTerm g t c leak / D.M.width c (leak / 2))
      + D.mat.sigT g (D.mmap c) * t c = 0) : ∀ c < D.M.size, t c = 0 := by
  rcases Nat.eq_zero_or_pos D.M.size with h0 | h0
  · intro c hc; omega
  have e := leak_form D (fun a i => (hp.h a i).ne') h0 g t t
  have a0 := form_nonneg D hp g 0 t
  have a1 := form_nonneg D hp g 1 t
  have a2 := form_nonneg D hp g 2 t
  have hs : ∑ c ∈ range D.M.size, D.M.volume c * D.mat.sigT g (D.mmap c) * (t c * t c) ≤ 0 := by
    have : ∑ c ∈ range D.M.size, D.M.volume c * D.mat.sigT g (D.mmap c) * (t c * t c)
        = - ∑ c ∈ range D.M.size, D.M.volume c * t c *
          ∑ leak ∈ range 6, D.faceTerm g t c leak / D.M.width c (leak / 2) := by
      rw [← Finset.sum_neg_distrib]
      refine Finset.sum_congr rfl fun c hc => ?_
      have := h c (mem_range.1 hc)
      linear_combination (D.M.volume c * t c) * this
    rw [this, e]
    linarith
  have hnn : ∀ c ∈ range D.M.size, 0 ≤ D.M.volume c * D.mat.sigT g (D.mmap c) * (t c * t c) := fun c _ =>
    mul_nonneg (mul_nonneg (volume_pos D hp c).le (hT _).le) (mul_self_nonneg _)
  have hz := (Finset.sum_eq_zero_iff_of_nonneg hnn).1 (le_antisymm hs (Finset.sum_nonneg hnn))
  intro c hc
  have := hz c (mem_range.2 hc)
  have hne : D.M.volume c * D.mat.sigT g (D.mmap c) ≠ 0 := (mul_pos (volume_pos D hp c) (hT _)).ne'
  exact mul_self_eq_zero.1 ((mul_eq_zero.1 this).resolve_left hne)

theorem faceTerm_congr (D : Loss K) (g : Nat) (x y : Nat → K) (h : ∀ c < D.M.size, x c = y c) (c leak : Nat)
    (hc : c < D.M.size) (hl : leak < 6) : D.faceTerm g x c leak = D.faceTerm g y c leak := by
  unfold Loss.faceTerm
  rw [h c hc]
  by_cases hb : D.M.onBoundary c leak = true
  · rw [if_pos hb, if_pos hb]
  · rw [if_neg hb, if_neg hb, h _ (neighbour_spec D.M hc hl (by simpa using hb)).1]

/-! ## Within one group -/

/-- C111: the within-group preconditioner maps only zero to zero, on vectors of any length not below the
    number of cells (so with boundary unknowns too), for every mesh, positive total cross section,
    diffusion coefficients and albedos, whatever the within-group scattering: whenever the diffusion
    solver solves the diffusion problem built for the group. -/
theorem C111_within_group (D : Loss K) (hgrid : D.M.WF) (hp : D.Pos) (g : Nat) (hT : ∀ m, 0 < D.mat.sigT g m)
    (srt : List (Trip K) → List (Trip K)) (hs : IsSort srt) (C : CSR K) (bs : List Bool)
    (hC : (wgSys D g).make srt = .ok (some C, bs)) (sol : (Nat → K) → Nat → K)
    (hsol : Inverts C D.M.size sol) (n : Nat) (hn : D.M.size ≤ n) :
    Injective n (wgDsa (srcOf D) g sol) := by
  obtain ⟨C', h1, _, h4⟩ := C50_within_group D hgrid hp g srt hs
  rw [h1, Out.ok.injEq, Prod.mk.injEq, Option.some.injEq] at hC
  obtain ⟨rfl, _⟩ := hC
  intro v hv
  set t := sol ((srcOf D).withinGroup g v (fun _ => 0)) with ht
  have hval : ∀ c < D.M.size, v c = - t c := by
    intro c hc
    have := hv c (by omega)
    have e : wgDsa (srcOf D) g sol v c = v c + t c := if_pos hc
    rw [e] at this
    linarith
  have hz : ∀ c < D.M.size, t c = 0 := by
    refine leak_inj D hp g hT t fun c hc => ?_
    have e := h4 t c hc (D.faceTerm g t c) fun l _ => (isCurrent_iff D hp g t c l _).2 rfl
    rw [ht, hsol.solves _ c hc, ← ht] at e
    have es : (srcOf D).withinGroup g v (fun _ => 0) c = v c * D.mat.sigS g g (D.mmap c) := by
      have : (srcOf D).withinGroup g v (fun _ => 0) c = 0 + v c * D.mat.sigS g g (D.mmap c) := if_pos hc
      rw [this, zero_add]
    rw [es, hval c hc] at e
    linear_combination -e
  intro p hpn
  by_cases hc : p < D.M.size
  · rw [hval p hc, hz p hc, neg_zero]
  · have := hv p hpn
    have e : wgDsa (srcOf D) g sol v p = v p := if_neg hc
    rwa [e] at this

/-! ## All groups -/

theorem mgSource_at (x : Src K) (k : Nat) (fis : Bool) (scale : K) (v : Nat → K) (g : Nat) (hk : k ≤ g)
    (hg : g < x.mat.G) (c : Nat) (hc : c < x.N) :
    mgSource x k fis scale v ((g - k) * x.N + c)
      = mgGroupSource x k fis scale (mgFlux x.mat.G x.N k v) g c := by
  have h := setBlock_fold x.N (fun g => (g : Int) - k)
    (mgGroupSource x k fis scale (mgFlux x.mat.G x.N k v)) (List.range' k (x.mat.G - k))
    (fun g hg => by have := List.mem_range'_1.1 hg; omega)
    (fun g _ g' _ e => by simpa using e) (fun _ => 0) g (List.mem_range'_1.2 (by omega)) c hc
  have hpos : ∀ g, k ≤ g → (((g : Int) - k) * x.N).toNat = (g - k) * x.N := by
    intro g hg
    rw [← Nat.cast_sub hg]
    norm_cast
  have hpos' : (((g : Int) - k) * x.N + c).toNat = (g - k) * x.N + c := by
    rw [← Nat.cast_sub hk]
    norm_cast
  rw [hpos'] at h
  rw [← h]
  unfold mgSource
  have : ∀ (l : List Nat), (∀ g ∈ l, k ≤ g) → ∀ y : Nat → K,
      l.foldl (fun y g => setBlock y ((g - k) * x.N) x.N
        (mgGroupSource x k fis scale (mgFlux x.mat.G x.N k v) g)) y
      = l.foldl (fun (y : Nat → K) (g : Nat) => setBlock y (((g : Int) - k) * x.N).toNat x.N
        (mgGroupSource x k fis scale (mgFlux x.mat.G x.N k v) g)) y := by
    intro l
    induction l with
    | nil => intro _ _; rfl
    | cons a l ih =>
      intro hl y
      rw [List.foldl_cons, List.foldl_cons, ih (fun g hg => hl g (List.mem_cons_of_mem _ hg)),
        hpos a (hl a (List.mem_cons_self ..))]
  rw [this _ (fun g hg => (List.mem_range'_1.1 hg).1)]

/-- The source in one cell: scattering over the groups of the block and, if asked for, scaled fission. -/
theorem mgGroupSource_eq (D : Loss K) (ok : D.OK) (hadj : D.adjoint = false) (fis : Bool) (scale : K)
    (v : Nat → K) (g : Nat) (hg : g ∈ D.active) (c : Nat) (hc : c < D.M.size) :
    mgGroupSource (srcOf D) D.cutoff fis scale (mgFlux D.mat.G D.M.size D.cutoff v) g c
      = ∑ gp ∈ D.active, D.scatXs g gp c * v (D.pos gp c)
        + (if fis then scale * ∑ gp ∈ D.active, D.fisXs g gp c * v (D.pos gp c) else 0) := by
  have hact : D.active = Ico D.cutoff D.mat.G := by unfold Loss.active; rw [hadj]; rfl
  rw [hact] at hg ⊢
  obtain ⟨hg1, hg2⟩ := mem_Ico.1 hg
  set phi := mgFlux D.mat.G D.M.size D.cutoff v with hphi
  have hz : ∀ gp, gp < D.cutoff → phi gp c = 0 := fun gp h => if_neg (by omega)
  have hv : ∀ gp ∈ Ico D.cutoff D.mat.G, phi gp c = v (D.pos gp c) := by
    intro gp h
    obtain ⟨h1, h2⟩ := mem_Ico.1 h
    have e : phi gp c = v ((gp - D.cutoff) * D.M.size + c) := if_pos ⟨h1, h2, hc⟩
    rw [e]
    congr 1
    unfold Loss.pos
    rw [hadj]
    simp only [Bool.false_eq_true, if_false]
    ring
  have hrange : ∀ F : Nat → K, (∀ gp, gp < D.cutoff → F gp = 0) →
      ∑ gp ∈ range D.mat.G, F gp = ∑ gp ∈ Ico D.cutoff D.mat.G, F gp := by
    intro F hF
    symm
    refine Finset.sum_subset (fun i hi => mem_range.2 (mem_Ico.1 hi).2) fun i hi hni => hF i ?_
    have := mem_range.1 hi
    rw [mem_Ico] at hni
    omega
  have hfin : ∃ x : Src K, x.ready = srcOf D ∧ x.mat.G = D.mat.G ∧ x.mat.M = D.mat.M ∧
      x.mat.sigS = D.mat.sigS ∧ x.mmap = D.mmap ∧ x.adjoint = false := by
    obtain ⟨y, hy⟩ := ok.fin
    exact ⟨⟨y, D.M.size, D.mmap, D.adjoint⟩, by unfold Src.ready srcOf; rw [hy], by rw [hy]; rfl, by rw [hy]; rfl,
      by rw [hy]; rfl, rfl, hadj⟩
  have hscat : (srcOf D).totalGroup phi g D.cutoff (fun _ => 0) c
      = ∑ gp ∈ Ico D.cutoff D.mat.G, D.scatXs g gp c * v (D.pos gp c) := by
    obtain ⟨x, e1, e2, e3, e4, e5, e6⟩ := hfin
    have hb := bounds_lt x g (by omega)
    have hlu := lower_le_upper_fwd x g (by omega) e6
    rw [e1, e6] at hb
    rw [e1] at hlu
    have hf := sum_bounds_full x phi g (by omega) (by rw [e4]; exact ok.nn) c
      (by rw [e5, e3]; exact ok.mm c hc) 0 ((srcOf D).mat.upper g false) (by omega)
      (by rw [e1, e6]; omega) (by rw [e6] at *; omega)
    have hker : ∀ gp, x.ker g gp c = D.scatXs g gp c := by
      intro gp
      unfold Src.ker Loss.scatXs
      rw [e4, e5, e6, hadj]
    unfold Src.totalGroup
    have hsa : (srcOf D).adjoint = false := hadj
    have hN : c < (srcOf D).N := hc
    rw [foldl_addCells, if_pos hN, zero_add, sum_groups_incl, hsa]
    have hk2 : ∀ gp, (srcOf D).ker g gp c = D.scatXs g gp c := by
      intro gp
      unfold Src.ker Loss.scatXs
      rw [hsa, hadj]
      rfl
    simp only [hk2]
    rw [min_eq_left (by omega), max_eq_right (by omega)]
    simp only [hker] at hf
    have hsub : ∑ gp ∈ Icc D.cutoff ((srcOf D).mat.upper g false), phi gp c * D.scatXs g gp c
        = ∑ gp ∈ Icc 0 ((srcOf D).mat.upper g false), phi gp c * D.scatXs g gp c := by
      refine Finset.sum_subset (fun i hi => ?_) fun i hi hni => ?_
      · rw [mem_Icc] at hi ⊢; omega
      · rw [mem_Icc] at hi hni
        rw [hz i (by omega), zero_mul]
    rw [hsub, hf]
    have : fullScatter x phi g c = ∑ gp ∈ range D.mat.G, phi gp c * D.scatXs g gp c := by
      unfold fullScatter
      rw [e2]
      refine Finset.sum_congr rfl fun gp _ => ?_
      rw [← hker]
      rfl
    rw [this, hrange _ (fun gp h => by rw [hz gp h, zero_mul])]
    exact Finset.sum_congr rfl fun gp h => by rw [hv gp h]; ring
  have hfis : ∀ s : Nat → K, (srcOf D).fissionTotal scale phi g s c
      = s c + scale * ∑ gp ∈ Ico D.cutoff D.mat.G, D.fisXs g gp c * v (D.pos gp c) := by
    intro s
    unfold Src.fissionTotal
    have hN : c < (srcOf D).N := hc
    have hG : (srcOf D).mat.G = D.mat.G := rfl
    rw [foldl_addCells, if_pos hN, sum_map_range, hG, Finset.mul_sum]
    congr 1
    rw [hrange _ (fun gp h => by rw [hz gp h]; ring)]
    refine Finset.sum_congr rfl fun gp h => ?_
    rw [hv gp h]
    have : (srcOf D).fker g gp c = D.fisXs g gp c := rfl
    rw [this]
    ring
  unfold mgGroupSource
  cases fis with
  | false => simp only [Bool.false_eq_true, if_false, add_zero]; exact hscat
  | true => simp only [if_true]; rw [hfis, hscat]

/-- C111 (`_partial`): forward problems without boundary unknowns.  The multigroup preconditioner stays in
    bounds and maps only zero to zero, for every mesh, cutoff, positive total cross section and any
    scattering and fission, whenever the diffusion solver solves the multigroup diffusion problem and
    fission in the source carries the factor the diffusion problem was built with.  Missing: boundary
    unknowns, adjoint problems and eigenvalue factors other than one, where it fails (below). -/
theorem C111_multigroup_partial (D : Loss K) (ok : D.OK) (hp : D.Pos) (hadj : D.adjoint = false)
    (hsf : D.sf = 0) (hT : ∀ g m, 0 < D.mat.sigT g m)
    (srt : List (Trip K) → List (Trip K)) (hs : IsSort srt) (C : CSR K) (bs : List Bool)
    (hC : D.sys.make srt = .ok (some C, bs)) (sol : (Nat → K) → Nat → K)
    (hsol : Inverts C (D.active.card * D.M.size) sol) (scale : K)
    (hk : D.fission = true → scale = 1 / D.keff) (v : Nat → K) :
    ∃ w, mgDsa (srcOf D) D.cutoff D.fission scale (D.active.card * D.M.size) sol v = some w ∧
      ((∀ p < D.active.card * D.M.size, w p = 0) → ∀ p < D.active.card * D.M.size, v p = 0) := by
  obtain ⟨C', h1, _, _, h4⟩ := rows D ok srt hs
  rw [h1, Out.ok.injEq, Prod.mk.injEq, Option.some.injEq] at hC
  obtain ⟨rfl, _⟩ := hC
  have hact : D.active = Ico D.cutoff D.mat.G := by unfold Loss.active; rw [hadj]; rfl
  have hcard : D.active.card = D.mat.G - D.cutoff := by rw [hact]; simp
  have hcut : D.cutoff ≤ D.mat.G := by have := ok.cut; rw [hadj] at this; simpa using this
  have hag : activeGroups D.mat.G D.adjoint D.cutoff = D.mat.G - D.cutoff := by
    unfold activeGroups MGSolve.active MGSolve.upper
    rw [hadj]
    simp only [Bool.false_eq_true, if_false]
    omega
  have hsize : (srcOf D).N * activeGroups (srcOf D).mat.G (srcOf D).adjoint D.cutoff
      = D.active.card * D.M.size := by
    show D.M.size * activeGroups D.mat.G D.adjoint D.cutoff = _
    rw [hag, hcard, mul_comm]
  set t := sol (mgSource (srcOf D) D.cutoff D.fission scale v) with ht
  refine ⟨fun p => if p < D.active.card * D.M.size then v p + t p else 0, ?_, ?_⟩
  · unfold mgDsa
    rw [hsize]
    have : (srcOf D).mat.G - D.cutoff = D.active.card := by rw [hcard]; rfl
    have hN : (srcOf D).N = D.M.size := rfl
    simp only [this, hN, le_refl, and_self, if_true]
    rfl
  · intro hw
    have hval : ∀ p < D.active.card * D.M.size, v p = - t p := by
      intro p hpn
      have := hw p hpn
      simp only [hpn, if_true] at this
      linarith
    have hlt : ∀ g ∈ D.active, ∀ c < D.M.size, D.pos g c < D.active.card * D.M.size := by
      intro g hg c hc
      rw [hact] at hg
      obtain ⟨g1, g2⟩ := mem_Ico.1 hg
      unfold Loss.pos
      rw [hadj, hcard]
      simp only [Bool.false_eq_true, if_false]
      have : (g - D.cutoff + 1) * D.M.size ≤ (D.mat.G - D.cutoff) * D.M.size :=
        Nat.mul_le_mul_right _ (by omega)
      nlinarith
    have hz : ∀ g ∈ D.active, ∀ c < D.M.size, t (D.pos g c) = 0 := by
      intro g hg
      refine leak_inj D hp g (hT g) (fun c => t (D.pos g c)) fun c hc => ?_
      have e := h4 t g hg c hc
      rw [ht, hsol.solves _ _ (hlt g hg c hc), ← ht] at e
      have epos : D.pos g c = (g - D.cutoff) * (srcOf D).N + c := by
        unfold Loss.pos
        rw [hadj]
        simp only [Bool.false_eq_true, if_false]
        exact add_comm _ _
      have hg' := hg
      rw [hact] at hg'
      obtain ⟨g1, g2⟩ := mem_Ico.1 hg'
      have es : mgSource (srcOf D) D.cutoff D.fission scale v (D.pos g c)
          = ∑ gp ∈ D.active, D.scatXs g gp c * v (D.pos gp c)
            + (if D.fission then scale * ∑ gp ∈ D.active, D.fisXs g gp c * v (D.pos gp c) else 0) := by
        rw [epos, mgSource_at (srcOf D) D.cutoff D.fission scale v g g1 g2 c hc]
        exact mgGroupSource_eq D ok hadj D.fission scale v g hg c hc
      rw [es] at e
      have hs1 : ∑ gp ∈ D.active, D.scatXs g gp c * v (D.pos gp c)
          = - ∑ gp ∈ D.active, D.scatXs g gp c * t (D.pos gp c) := by
        rw [← Finset.sum_neg_distrib]
        exact Finset.sum_congr rfl fun gp h => by rw [hval _ (hlt gp h c hc)]; ring
      have hs2 : ∑ gp ∈ D.active, D.fisXs g gp c * v (D.pos gp c)
          = - ∑ gp ∈ D.active, D.fisXs g gp c * t (D.pos gp c) := by
        rw [← Finset.sum_neg_distrib]
        exact Finset.sum_congr rfl fun gp h => by rw [hval _ (hlt gp h c hc)]; ring
      rw [hs1, hs2] at e
      unfold Loss.local at e
      cases hf : D.fission with
      | false =>
        simp only [hf, hsf, Bool.false_eq_true, false_and, if_false, if_true, sub_zero, add_zero] at e
        linear_combination -e
      | true =>
        simp only [hf, hsf, and_self, if_true] at e
        rw [hk hf] at e
        linear_combination -e
    intro p hpn
    rw [hval p hpn]
    have hsz : 0 < D.M.size := Nat.pos_of_ne_zero fun h => by rw [h] at hpn; simp at hpn
    have hq : p / D.M.size < D.active.card := Nat.div_lt_of_lt_mul (by rw [mul_comm]; exact hpn)
    have hmem : D.cutoff + p / D.M.size ∈ D.active := by
      rw [hact, mem_Ico]
      rw [hcard] at hq
      generalize p / D.M.size = q at hq
      omega
    have := hz _ hmem (p % D.M.size) (Nat.mod_lt _ hsz)
    have epos : D.pos (D.cutoff + p / D.M.size) (p % D.M.size) = p := by
      unfold Loss.pos
      rw [hadj]
      simp only [Bool.false_eq_true, if_false, Nat.add_sub_cancel_left]
      rw [mul_comm]
      exact Nat.mod_add_div _ _
    rw [epos] at this
    rw [this, neg_zero]

/-! ## The preconditioned systems -/

theorem multiply_add (C : CSR K) (x y : Nat → K) (i : Nat) :
    C.multiply (fun p => x p + y p) i = C.multiply x i + C.multiply y i := by
  rw [multiply_spec, multiply_spec, multiply_spec, ← List.sum_map_add]
  congr 1
  exact List.map_congr_left fun _ _ => by ring

theorem multiply_smul (C : CSR K) (a : K) (x : Nat → K) (i : Nat) :
    C.multiply (fun p => a * x p) i = a * C.multiply x i := by
  rw [multiply_spec, multiply_spec, ← List.sum_map_mul_left]
  congr 1
  exact List.map_congr_left fun _ _ => by ring

theorem sol_comb {C : CSR K} {m : Nat} {sol : (Nat → K) → Nat → K} (h : Inverts C m sol) (a : K)
    (s s1 s2 : Nat → K) (hs : ∀ r < m, s r = a * s1 r + s2 r) :
    ∀ r < m, sol s r = a * sol s1 r + sol s2 r := by
  intro r hr
  have := h.unique (fun p => sol s p + -1 * (a * sol s1 p + sol s2 p)) (fun r hr => by
    rw [multiply_add, multiply_smul, multiply_add, multiply_smul, h.solves _ r hr, h.solves _ r hr,
      h.solves _ r hr, hs r hr]
    ring) r hr
  linarith

/-- The zero extension of a vector. -/
def ext (n : Nat) (v : Fin n → K) (p : Nat) : K := if h : p < n then v ⟨p, h⟩ else 0

theorem ext_comb (n : Nat) (a : K) (v w : Fin n → K) (p : Nat) :
    ext n (a • v + w) p = a * ext n v p + ext n w p := by
  unfold ext
  split <;> simp

theorem onFin_eq (n : Nat) (f : (Nat → K) → Nat → K) (v : Fin n → K) (i : Fin n) :
    onFin n f v i = f (ext n v) i := rfl

/-- A map that preserves combinations is linear. -/
theorem linear_of_comb {E : Type} [AddCommGroup E] [Module K E] (f : E → E)
    (h : ∀ (a : K) v w, f (a • v + w) = a • f v + f w) : IsLinearMap K f := by
  have h0 : f 0 = 0 := by
    have := h 1 0 0
    rw [one_smul, one_smul, add_zero] at this
    simpa using this
  refine ⟨fun v w => ?_, fun a v => ?_⟩
  · have := h 1 v w
    rwa [one_smul, one_smul] at this
  · have := h a v 0
    rwa [add_zero, h0, add_zero] at this

/-- C111: with the within-group preconditioner on either side, on vectors with or without boundary values,
    the linear solver works on a regular system, to which every theorem of C95 applies. -/
theorem C111_within_regular (D : Loss K) (hgrid : D.M.WF) (hp : D.Pos) (g : Nat) (hT : ∀ m, 0 < D.mat.sigT g m)
    (srt : List (Trip K) → List (Trip K)) (hs : IsSort srt) (C : CSR K) (bs : List Bool)
    (hC : (wgSys D g).make srt = .ok (some C, bs)) (sol : (Nat → K) → Nat → K)
    (hsol : Inverts C D.M.size sol) (n : Nat) (hn : D.M.size ≤ n) (A : (Fin n → K) → Fin n → K)
    (hA : IsLinearMap K A) (hinj : ∀ w, A w = 0 → w = 0) (side : Gmres.Side) :
    Gmres.Regular K (⟨A, some (onFin n (wgDsa (srcOf D) g sol)), side⟩ : Gmres.Sys (Fin n → K)) := by
  refine ⟨hA, hinj, ?_, ?_⟩
  · rintro P ⟨rfl⟩
    refine linear_of_comb _ fun a v w => ?_
    funext i
    simp only [Pi.add_apply, Pi.smul_apply, smul_eq_mul, onFin_eq]
    unfold wgDsa
    by_cases hi : (i : Nat) < (srcOf D).N
    · rw [if_pos hi, if_pos hi, if_pos hi, ext_comb, sol_comb hsol a _
        ((srcOf D).withinGroup g (ext n v) fun _ => 0) ((srcOf D).withinGroup g (ext n w) fun _ => 0) ?_ _ hi]
      · ring
      · intro r hr
        have hr : r < (srcOf D).N := hr
        unfold Src.withinGroup addCells
        rw [if_pos hr, if_pos hr, if_pos hr]
        beta_reduce
        rw [ext_comb]
        ring
    · rw [if_neg hi, if_neg hi, if_neg hi, ext_comb]
  · rintro P ⟨rfl⟩ w hw
    have := C111_within_group D hgrid hp g hT srt hs C bs hC sol hsol n hn (ext n w)
      (fun p hpn => congrFun hw ⟨p, hpn⟩)
    funext i
    have h := this i i.2
    unfold ext at h
    rw [dif_pos i.2] at h
    exact h

/-- C111 (`_partial`): the same for the multigroup preconditioner, under the restrictions of
    `C111_multigroup_partial`. -/
theorem C111_multigroup_regular_partial (D : Loss K) (ok : D.OK) (hp : D.Pos) (hadj : D.adjoint = false)
    (hsf : D.sf = 0) (hT : ∀ g m, 0 < D.mat.sigT g m)
    (srt : List (Trip K) → List (Trip K)) (hs : IsSort srt) (C : CSR K) (bs : List Bool)
    (hC : D.sys.make srt = .ok (some C, bs)) (sol : (Nat → K) → Nat → K) (n : Nat)
    (hn : n = D.active.card * D.M.size)
    (hsol : Inverts C n sol) (scale : K)
    (hk : D.fission = true → scale = 1 / D.keff) (A : (Fin n → K) → Fin n → K)
    (hA : IsLinearMap K A) (hinj : ∀ w, A w = 0 → w = 0) (side : Gmres.Side) (P : (Fin n → K) → Fin n → K)
    (hP : ∀ v w, mgDsa (srcOf D) D.cutoff D.fission scale n sol (ext n v) = some w → ∀ i, P v i = w i) :
    Gmres.Regular K (⟨A, some P, side⟩ : Gmres.Sys (Fin n → K)) := by
  subst hn
  have hact : D.active = Ico D.cutoff D.mat.G := by unfold Loss.active; rw [hadj]; rfl
  have hcard : D.active.card = D.mat.G - D.cutoff := by rw [hact]; simp
  have key := fun v : Fin (D.active.card * D.M.size) → K =>
    C111_multigroup_partial D ok hp hadj hsf hT srt hs C bs hC sol hsol scale hk (ext _ v)
  have hval : ∀ v i, P v i = v i + sol (mgSource (srcOf D) D.cutoff D.fission scale (ext _ v)) i := by
    intro v i
    obtain ⟨w, hw, _⟩ := key v
    rw [hP v w hw i]
    unfold mgDsa at hw
    simp only at hw
    split at hw
    · rename_i hc
      have hN : (srcOf D).N = D.M.size := rfl
      have hlt : (i : Nat) < (srcOf D).N * activeGroups (srcOf D).mat.G (srcOf D).adjoint D.cutoff := by
        have h2 := hc.2.1
        have : ((srcOf D).mat.G - D.cutoff) * (srcOf D).N = D.active.card * D.M.size := by rw [hcard]; rfl
        have := i.2
        omega
      cases hw
      beta_reduce
      rw [if_pos hlt]
      unfold ext
      rw [dif_pos i.2]
    · cases hw
  have hsrc : ∀ (a : K) (v w : Fin (D.active.card * D.M.size) → K), ∀ r < D.active.card * D.M.size,
      mgSource (srcOf D) D.cutoff D.fission scale (ext _ (a • v + w)) r
        = a * mgSource (srcOf D) D.cutoff D.fission scale (ext _ v) r
          + mgSource (srcOf D) D.cutoff D.fission scale (ext _ w) r := by
    intro a v w r hr
    have hsz : 0 < D.M.size := Nat.pos_of_ne_zero fun h => by rw [h] at hr; simp at hr
    have hq : r / D.M.size < D.active.card := Nat.div_lt_of_lt_mul (by rw [mul_comm]; exact hr)
    have hmem : D.cutoff + r / D.M.size ∈ D.active := by
      rw [hact, mem_Ico]
      rw [hcard] at hq
      generalize r / D.M.size = q at hq
      omega
    have hmem' := hmem
    rw [hact] at hmem'
    have hr' : r = (D.cutoff + r / D.M.size - D.cutoff) * (srcOf D).N + r % D.M.size := by
      rw [Nat.add_sub_cancel_left]
      show r = r / D.M.size * D.M.size + r % D.M.size
      rw [mul_comm]
      exact (Nat.div_add_mod r D.M.size).symm
    have hm := Nat.mod_lt r hsz
    generalize r / D.M.size = q at *
    generalize r % D.M.size = c at *
    rw [hr']
    have e : ∀ u, mgSource (srcOf D) D.cutoff D.fission scale u ((D.cutoff + q - D.cutoff) * (srcOf D).N + c)
        = _ := fun u => (mgSource_at (srcOf D) D.cutoff D.fission scale u (D.cutoff + q) (by omega)
          (mem_Ico.1 hmem').2 c hm).trans
        (mgGroupSource_eq D ok hadj D.fission scale u (D.cutoff + q) hmem c hm)
    rw [e, e, e]
    have hsum : ∀ F : Nat → K, ∑ gp ∈ D.active, F gp * ext _ (a • v + w) (D.pos gp c)
        = a * ∑ gp ∈ D.active, F gp * ext _ v (D.pos gp c) + ∑ gp ∈ D.active, F gp * ext _ w (D.pos gp c) := by
      intro F
      rw [Finset.mul_sum, ← Finset.sum_add_distrib]
      exact Finset.sum_congr rfl fun gp _ => by rw [ext_comb]; ring
    rw [hsum, hsum]
    cases D.fission <;> simp <;> ring
  refine ⟨hA, hinj, ?_, ?_⟩
  · rintro P' ⟨rfl⟩
    refine linear_of_comb _ fun a v w => ?_
    funext i
    simp only [Pi.add_apply, Pi.smul_apply, smul_eq_mul, hval]
    rw [sol_comb hsol a _ _ _ (hsrc a v w) i i.2]
    ring
  · rintro P' ⟨rfl⟩ v hv
    obtain ⟨w, hw, h⟩ := key v
    have := h (fun p hpn => by rw [← hP v w hw ⟨p, hpn⟩, hv]; rfl)
    funext i
    have e := this i i.2
    unfold ext at e
    rwa [dif_pos i.2] at e

/-- C111: a regular preconditioned system has the solutions of the system. -/
theorem C111_same_solutions {E : Type} [AddCommGroup E] [Module K E] {S : Gmres.Sys E}
    (h : Gmres.Regular K S) (b x : E) : Gmres.residual S b x = 0 ↔ S.A x = b := by
  unfold Gmres.residual
  constructor
  · intro e
    have := h.pc_inj .left _ e
    rw [neg_eq_zero, sub_eq_zero] at this
    exact this
  · intro e
    rw [e, sub_self, neg_zero]
    exact (h.pc_lin .left).map_zero

/-- C111: the default of the within-group solver, preconditioner on the right: when the solver reports
    success the equations themselves (not only preconditioned ones) are satisfied to the tolerance. -/
theorem C111_right_residual {E : Type} [AddCommGroup E] [Module K E] {dot : E → E → K}
    (hd : Gmres.IsDot dot) {sq : K → K} (hsq : Gmres.IsSqrt sq) (re : Nat) {S : Gmres.Sys E}
    (hS : Gmres.Regular K S) (hside : S.side = .right)
    {par : Solver.Par K} (hat : 0 < par.atol) (hmax : 0 < par.maxit)
    {restart : Nat} (hre : restart > 2) (b x0 : E) (ls : Solver.LS K) (z : Gmres.Cyc K E) {x : E}
    {ls' : Solver.LS K} {n : Nat}
    (h : Gmres.solve par restart S dot sq re b x0 ls z = some (x, ls', n)) (hs : ls'.status = .success) :
    sq (dot (b - S.A x) (b - S.A x)) < max (par.rtol * sq (dot (b - S.A x0) (b - S.A x0))) par.atol := by
  have e : ∀ x, Gmres.residual S b x = b - S.A x := by
    intro x
    unfold Gmres.residual Gmres.pc
    rcases S.P with _ | P
    · simp
    · simp [hside]
  have := Gmres.C95_success hd hsq re hS hat hmax hre b x0 ls z h hs
  rwa [e, e] at this

/-! ## The boundary values of the multigroup preconditioner -/

/-- C111: the multigroup preconditioner returns zero boundary values. -/
theorem C111_boundary_zero (x : Src K) (k : Nat) (fis : Bool) (scale : K) (n : Nat) (sol : (Nat → K) → Nat → K)
    (v w : Nat → K) (h : mgDsa x k fis scale n sol v = some w) (p : Nat)
    (hp : x.N * activeGroups x.mat.G x.adjoint k ≤ p) : w p = 0 := by
  unfold mgDsa at h
  simp only at h
  split at h
  · cases h
    exact if_neg (by omega)
  · cases h

section
variable {E : Type} [AddCommGroup E] [Module K E] (W : Submodule K E)

theorem mgs_mem (dot : E → E → K) (v : Nat → E) (hv : ∀ i, v i ∈ W) (k : Nat) (w : E) (hw : w ∈ W)
    (h : Nat → K) : (Gmres.mgs dot v k w h).1 ∈ W := by
  unfold Gmres.mgs
  generalize List.range (k + 1) = l
  induction l generalizing w h with
  | nil => exact hw
  | cons j l ih => exact ih _ (W.add_mem hw (W.smul_mem _ (hv j))) _

theorem reorth_mem (dot : E → E → K) (v : Nat → E) (hv : ∀ i, v i ∈ W) (k : Nat) (p : E × (Nat → K))
    (hw : p.1 ∈ W) : (Gmres.reorth dot v k p).1 ∈ W := by
  unfold Gmres.reorth
  generalize List.range k = l
  induction l generalizing p with
  | nil => exact hw
  | cons j l ih => exact ih _ (W.add_mem hw (W.smul_mem _ (hv j)))

theorem ortho_mem (dot : E → E → K) (sq : K → K) (re : Nat) (v : Nat → E) (hv : ∀ i, v i ∈ W) (k : Nat)
    (w : E) (hw : w ∈ W) (h : Nat → K) : (Gmres.ortho dot sq re v k w h).1 ∈ W := by
  unfold Gmres.ortho
  simp only
  split
  · exact reorth_mem W dot v hv k _ (mgs_mem W dot v hv k w hw h)
  · exact mgs_mem W dot v hv k w hw h

theorem step_mem (S : Gmres.Sys E) (hS : ∀ w, Gmres.op S w ∈ W) (dot : E → E → K) (sq : K → K) (re : Nat)
    (z z' : Gmres.Cyc K E) (hz : ∀ i, z.v i ∈ W) (k : Nat) (h : Gmres.step S dot sq re z k = some z') :
    ∀ i, z'.v i ∈ W := by
  unfold Gmres.step at h
  dsimp only at h
  generalize (if k > 0 then _ else _ : Nat → K) = hh at h
  split at h
  · cases h
  · cases h
    intro i
    have hm := ortho_mem W dot sq re z.v hz k (Gmres.op S (z.v k)) (hS _) (fun i => z.H i k)
    simp only [Gmres.set]
    split
    · split
      · exact W.smul_mem _ hm
      · exact hm
    · exact hz i

theorem inner_mem (par : Solver.Par K) (S : Gmres.Sys E) (hS : ∀ w, Gmres.op S w ∈ W) (dot : E → E → K)
    (sq : K → K) (re : Nat) (n k it : Nat) (ls : Solver.LS K) (z : Gmres.Cyc K E) (hz : ∀ i, z.v i ∈ W)
    (q : Gmres.Inner K E) (h : Gmres.inner par S dot sq re n k it ls z = some q) : ∀ i, q.z.v i ∈ W := by
  induction n generalizing k it ls z with
  | zero => rw [Gmres.inner] at h; cases h; exact hz
  | succ n ih =>
    rw [Gmres.inner] at h
    split at h
    · cases h; exact hz
    · split at h
      · cases h
      · rename_i z' hz'
        have hm := step_mem W S hS dot sq re z z' hz k hz'
        split at h
        · cases h; exact hm
        · exact ih _ _ _ _ hm h

theorem outer_mem (par : Solver.Par K) (restart : Nat) (S : Gmres.Sys E)
    (hS : S.side = .left ∨ S.side = .right) (P : E → E) (hP : S.P = some P) (hW : ∀ w, P w ∈ W)
    (dot : E → E → K) (sq : K → K) (re : Nat) (b x0 : E) (f it : Nat) (ls : Solver.LS K) (z : Gmres.Cyc K E)
    (hz : S.side = .left → ∀ i, z.v i ∈ W) (y : Nat → K) (x : E) (hx : x - x0 ∈ W)
    {x1 : E} {l1 : Solver.LS K} {n : Nat}
    (h : Gmres.outer par restart S dot sq re b f it ls z y x = some (x1, l1, n)) : x1 - x0 ∈ W := by
  induction f generalizing it ls z y x with
  | zero => rw [Gmres.outer] at h; cases h; exact hx
  | succ f ih =>
    rw [Gmres.outer] at h
    split at h
    · dsimp only at h
      generalize (if it = 0 then _ else _ : Solver.LS K × Bool) = mm at h
      split at h
      · cases h; exact hx
      · split at h
        · cases h
        · split at h
          · cases h
          · rename_i q hq
            have hv : S.side = .left → ∀ i, q.z.v i ∈ W := by
              intro hl
              refine inner_mem W par S (fun w => ?_) dot sq re _ _ _ _ _ (fun i => ?_) q hq
              · unfold Gmres.op
                rw [show ∀ u, Gmres.pc S .left u = P u from fun u => by unfold Gmres.pc; rw [hP]; simp [hl]]
                exact hW _
              · unfold Gmres.start
                simp only [Gmres.set]
                split
                · refine W.smul_mem _ ?_
                  unfold Gmres.residual Gmres.pc
                  rw [hP]
                  simp only [hl, if_true]
                  exact hW _
                · split
                  · exact W.zero_mem
                  · exact hz hl i
            have hu : ∀ y, Gmres.update S q.z q.k y x - x0 ∈ W := by
              intro y
              unfold Gmres.update
              rw [add_sub_assoc]
              refine W.add_mem ?_ hx
              rcases hS with hl | hr
              · have : ∀ u, Gmres.pc S .right u = u := fun u => by unfold Gmres.pc; rw [hP]; simp [hl]
                rw [this, Gmres.foldl_comb]
                exact W.sum_mem fun i _ => W.smul_mem _ (hv hl i)
              · have : ∀ u, Gmres.pc S .right u = P u := fun u => by unfold Gmres.pc; rw [hP]; simp [hr]
                rw [this]
                exact hW _
            split at h
            · cases h; exact hu _
            · exact ih _ _ _ hv _ _ (hu _) h
    · cases h; exact hx

/-- Whatever space holds the output of the preconditioner also holds everything GMRES adds to the
    initial guess, on either side and for every outcome. -/
theorem gmres_confined (par : Solver.Par K) (restart : Nat) (S : Gmres.Sys E)
    (hS : S.side = .left ∨ S.side = .right) (P : E → E) (hP : S.P = some P) (hW : ∀ w, P w ∈ W)
    (dot : E → E → K) (sq : K → K) (re : Nat) (b x0 : E) (ls : Solver.LS K) (z : Gmres.Cyc K E)
    {x1 : E} {l1 : Solver.LS K} {n : Nat}
    (h : Gmres.solve par restart S dot sq re b x0 ls z = some (x1, l1, n)) : x1 - x0 ∈ W := by
  unfold Gmres.solve at h
  exact outer_mem W par restart S hS P hP hW dot sq re b x0 _ _ _ _ (fun _ _ => W.zero_mem) _ _
    (by rw [sub_self]; exact W.zero_mem) h

end

/-- C111: with the multigroup preconditioner, on either side, GMRES never changes the boundary values of its
    initial guess, whatever it reports and however long it runs.  (The solver's guess is the right-hand
    side, whose boundary values are zero, so on a problem with reflecting sides the boundary unknowns it
    returns are zero.) -/
theorem C111_boundary_frozen (x : Src K) (k : Nat) (fis : Bool) (scale : K) (n : Nat)
    (sol : (Nat → K) → Nat → K) (A P : (Fin n → K) → Fin n → K)
    (hP : ∀ v w, mgDsa x k fis scale n sol (ext n v) = some w → ∀ i, P v i = w i)
    (hdef : ∀ v, mgDsa x k fis scale n sol v ≠ none) (side : Gmres.Side) (hside : side ≠ .none)
    (par : Solver.Par K) (restart : Nat) (dot : (Fin n → K) → (Fin n → K) → K) (sq : K → K) (re : Nat)
    (b x0 : Fin n → K) (ls : Solver.LS K) (z : Gmres.Cyc K (Fin n → K))
    {x1 : Fin n → K} {l1 : Solver.LS K} {m : Nat}
    (h : Gmres.solve par restart ⟨A, some P, side⟩ dot sq re b x0 ls z = some (x1, l1, m)) (i : Fin n)
    (hi : x.N * activeGroups x.mat.G x.adjoint k ≤ i) : x1 i = x0 i := by
  let W : Submodule K (Fin n → K) :=
    { carrier := {v | v i = 0}
      add_mem' := fun {a b} ha hb => by simp only [Set.mem_setOf_eq, Pi.add_apply] at *; rw [ha, hb, add_zero]
      zero_mem' := rfl
      smul_mem' := fun c a ha => by
        simp only [Set.mem_setOf_eq, Pi.smul_apply, smul_eq_mul] at *; rw [ha, mul_zero] }
  have := gmres_confined W par restart ⟨A, some P, side⟩
    (by cases side with | none => exact absurd rfl hside | left => exact Or.inl rfl | right => exact Or.inr rfl)
    P rfl (fun v => by
      obtain ⟨w, hw⟩ := Option.ne_none_iff_exists'.1 (hdef (ext n v))
      show P v i = 0
      rw [hP v w hw i]
      exact C111_boundary_zero x k fis scale n sol _ w hw i hi) dot sq re b x0 ls z h
  have h2 : x1 i - x0 i = 0 := this
  exact sub_eq_zero.1 h2

/-! ## Adjoint problems -/

/-- C111: in adjoint problems the multigroup preconditioner indexes past the ends of its vectors as soon as
    the block of groups it should act on (`0 … k`) is smaller than the groups from the cutoff up. -/
theorem C111_adjoint_overrun (x : Src K) (hadj : x.adjoint = true) (k : Nat) (hk : 2 * k + 1 < x.mat.G)
    (hN : 0 < x.N) (fis : Bool) (scale : K) (n : Nat) (sol : (Nat → K) → Nat → K) (v : Nat → K) :
    mgDsa x k fis scale n sol v = none := by
  have hag : activeGroups x.mat.G x.adjoint k = k + 1 := by
    unfold activeGroups MGSolve.active MGSolve.upper
    rw [hadj]
    simp only [if_true]
    omega
  unfold mgDsa
  refine if_neg fun h => ?_
  have h2 := h.2.1
  rw [hag, mul_comm x.N] at h2
  have := Nat.le_of_mul_le_mul_right h2 hN
  omega

/-! ## Coarse mesh -/

section
variable {M B H : Type} [AddCommGroup M] [AddCommGroup B] [AddCommGroup H] [Module K M] [Module K B] [Module K H]

/-- C111: the coarse-mesh preconditioner (no smoothing) maps only zero to zero exactly when the coarse
    diffusion operator plus the coarse image of the source, `C + R S P`, does, for all restrictions,
    injective prolongations and sources, whenever the coarse solver inverts the coarse operator; the
    boundary values pass unchanged. -/
theorem C111_coarse (SF : M →ₗ[K] M) (R : M →ₗ[K] H) (C : H →ₗ[K] H) (P : H →ₗ[K] M) (sol : H → H)
    (h1 : ∀ s, C (sol s) = s) (h2 : ∀ w, sol (C w) = w) (hP : ∀ w, P w = 0 → w = 0) :
    (∀ v : M × B, (cmDsa SF R sol P none v).2 = v.2) ∧
    ((∀ v : M × B, cmDsa SF R sol P none v = 0 → v = 0) ↔ ∀ w : H, C w + R (SF (P w)) = 0 → w = 0) := by
  refine ⟨fun v => rfl, fun h w hw => ?_, fun h v hv => ?_⟩
  · have e : cmDsa SF R sol P none ((- P w, 0) : M × B) = 0 := by
      unfold cmDsa
      simp only
      have : R (SF (- P w)) = C w := by
        rw [map_neg, map_neg]
        exact (eq_neg_of_add_eq_zero_left hw).symm
      rw [this, h2]
      simp
    have := congrArg Prod.fst (h _ e)
    simp only [Prod.fst_zero, neg_eq_zero] at this
    exact hP w this
  · have e1 : v.1 + P (sol (R (SF v.1))) = 0 := congrArg Prod.fst hv
    have e2 : v.2 = 0 := congrArg Prod.snd hv
    have e3 : v.1 = - P (sol (R (SF v.1))) := eq_neg_of_add_eq_zero_left e1
    have hw : sol (R (SF v.1)) = 0 := by
      refine h _ ?_
      rw [h1]
      nth_rewrite 1 [e3]
      rw [map_neg, map_neg, neg_add_cancel]
    rw [hw, map_zero, neg_zero] at e3
    exact Prod.ext e3 e2

end

/-! ## Transport correction -/

section
variable {E : Type} [AddCommGroup E] [Module K E]

/-- The preconditioner after `k` corrections, as a linear map. -/
theorem tcCoarse_lin (At P : E →ₗ[K] E) (k : Nat) :
    ∃ Q : E →ₗ[K] E, ∀ x, tcCoarse K At P k x = Q x := by
  induction k with
  | zero => exact ⟨P, fun _ => rfl⟩
  | succ k ih =>
    obtain ⟨Q, hQ⟩ := ih
    refine ⟨Q ∘ₗ ((-1 : K) • (At ∘ₗ Q + (-2 : K) • LinearMap.id)), fun x => ?_⟩
    unfold tcCoarse
    simp only [hQ]
    simp

theorem correct_error (A Q : E →ₗ[K] E) (x : E) :
    x - A (Q ((-1 : K) • (A (Q x) + (-2 : K) • x))) = (x - A (Q x)) - A (Q (x - A (Q x))) := by
  simp only [map_add, map_smul, map_sub]
  module

/-- C111: each coarse correction squares the error of the preconditioner with respect to the coarse-angle
    operator `Ã`: after `k` of them `I − Ã P_k` is `I − Ã P` applied `2^k` times. -/
theorem C111_correction_error (At P : E →ₗ[K] E) (k : Nat) (x : E) :
    x - At (tcCoarse K At P k x) = (fun y => y - At (P y))^[2 ^ k] x := by
  induction k generalizing x with
  | zero => rfl
  | succ k ih =>
    obtain ⟨Q, hQ⟩ := tcCoarse_lin At P k
    have e := correct_error At Q x
    have e1 : tcCoarse K At P (k + 1) x = Q ((-1 : K) • (At (Q x) + (-2 : K) • x)) := by
      rw [tcCoarse]
      simp only [hQ]
    rw [e1, e, ← hQ, ← hQ, ih, ih, pow_succ, mul_two, Function.iterate_add_apply]

/-- C111: the fine correction squares the error with respect to the transport operator `A` itself. -/
theorem C111_fine_correction (A At P : E →ₗ[K] E) (n : Nat) (b : E) :
    b - A (tcDsa K A At P n true b)
      = (fun y => y - A (tcCoarse K At P n y))^[2] b := by
  obtain ⟨Q, hQ⟩ := tcCoarse_lin At P n
  have e := correct_error A Q b
  unfold tcDsa
  simp only [if_true, hQ, Function.iterate_succ, Function.iterate_zero, Function.comp]
  exact e

/-- C111: without it the result is that of the coarse corrections. -/
theorem C111_no_fine_correction (A At P : E →ₗ[K] E) (n : Nat) (b : E) :
    tcDsa K A At P n false b = tcCoarse K At P n b := rfl

/-- C111: if the first preconditioner maps only zero to zero and its error contracts in some positive
    measure of size, every corrected one maps only zero to zero. -/
theorem C111_corrected_injective (At P : E →ₗ[K] E) (hP : ∀ x, P x = 0 → x = 0) (size : E → K)
    (hs : ∀ x, size (-x) = size x) (hc : ∀ x, x ≠ 0 → size (x - At (P x)) < size x) (k : Nat) (x : E)
    (hx : tcCoarse K At P k x = 0) : x = 0 := by
  induction k generalizing x with
  | zero => exact hP x hx
  | succ k ih =>
    rw [tcCoarse] at hx
    have h := ih _ hx
    by_contra hne
    have h2 : x + (x - At (tcCoarse K At P k x)) = 0 := by
      have : (-1 : K) • (At (tcCoarse K At P k x) + (-2 : K) • x)
          = x + (x - At (tcCoarse K At P k x)) := by module
      rw [← this]
      exact h
    rw [C111_correction_error] at h2
    have hle : ∀ m (y : E), size ((fun y => y - At (P y))^[m] y) ≤ size y := by
      intro m
      induction m with
      | zero => exact fun y => le_rfl
      | succ m ihm =>
        intro y
        rw [Function.iterate_succ_apply]
        refine (ihm _).trans ?_
        by_cases hy : y = 0
        · subst hy; simp
        · exact (hc y hy).le
    have hlt : size ((fun y => y - At (P y))^[2 ^ k] x) < size x := by
      obtain ⟨m, hm⟩ := Nat.exists_eq_succ_of_ne_zero (pow_ne_zero k (show (2 : Nat) ≠ 0 by decide))
      rw [hm, Function.iterate_succ_apply]
      exact lt_of_le_of_lt (hle m _) (hc x hne)
    rw [← eq_neg_of_add_eq_zero_right h2 |>.symm] at hlt
    exact lt_irrefl _ (by rw [hs] at hlt; exact hlt)

end

/-! ## Where it fails -/

/-- C111: the full claim for the multigroup preconditioner on forward problems: it maps only zero to zero,
    on vectors with boundary values too and whatever positive factor fission carries. -/
def C111Claim (K : Type) [Field K] [LinearOrder K] [IsStrictOrderedRing K] : Prop :=
  ∀ (D : Loss K), D.OK → D.Pos → D.adjoint = false → D.sf = 0 → (∀ g m, 0 < D.mat.sigT g m) →
    ∀ (srt : List (Trip K) → List (Trip K)), IsSort srt → ∀ (C : CSR K) (bs : List Bool),
    D.sys.make srt = .ok (some C, bs) → ∀ (sol : (Nat → K) → Nat → K),
    Inverts C (D.active.card * D.M.size) sol → ∀ (scale : K), 0 < scale → ∀ n, D.active.card * D.M.size ≤ n →
    ∀ v w, mgDsa (srcOf D) D.cutoff D.fission scale n sol v = some w → (∀ p < n, w p = 0) → ∀ p < n, v p = 0

/-- One group, one material: total cross section one, scattering `s`, fission `f`. -/
def cellMat (s f : ℚ) : Material.Mat ℚ :=
  { Material.Mat.new 1 1 with
    sigT := fun _ _ => 1
    sigS := fun _ _ _ => s
    chi := fun _ _ => 1
    nu := fun _ _ => 1
    sigF := fun _ _ => f
    diff := fun _ _ => 1 / 3 }

/-- A slab of one cell of unit width, reflecting on both ends. -/
def cell (s f : ℚ) (fis : Bool) : Loss ℚ where
  M := ⟨1, 1, 1, 1, fun _ _ => 1⟩
  mat := (cellMat s f).finalize
  mmap := fun _ => 0
  al := fun _ => 1
  adjoint := false
  cutoff := 0
  fission := fis
  sf := 0
  keff := 1

theorem cell_ok (s f : ℚ) (fis : Bool) (hs : 0 ≤ s) : (cell s f fis).OK := by
  refine ⟨⟨show 1 ≤ 3 by decide, ?_⟩, ⟨cellMat s f, rfl⟩, fun _ _ _ => hs, fun _ _ => Nat.zero_lt_one,
    Nat.zero_le _⟩
  intro a h1 h2
  have h1' : 1 ≤ a := h1
  interval_cases a <;> rfl

theorem cell_pos (s f : ℚ) (fis : Bool) : (cell s f fis).Pos :=
  ⟨fun _ _ => one_pos, fun _ _ => by show (0 : ℚ) < 1 / 3; norm_num, fun _ => by
    show (-1 : ℚ) ≤ 1 ∧ (1 : ℚ) ≤ 1; norm_num⟩

/-- The solver of the cell's diffusion problem. -/
def cellSol (a : ℚ) (s : Nat → ℚ) (r : Nat) : ℚ := s r / a

theorem cell_active (s f : ℚ) (fis : Bool) : (cell s f fis).active = {0} := rfl

theorem cell_row (s f : ℚ) (fis : Bool) (hs : 0 ≤ s) (srt : List (Trip ℚ) → List (Trip ℚ)) (hsrt : IsSort srt)
    (C : CSR ℚ) (bs : List Bool) (hC : (cell s f fis).sys.make srt = .ok (some C, bs)) (x : Nat → ℚ) :
    C.multiply x 0 = (1 - s - if fis then f else 0) * x 0 := by
  obtain ⟨C', h1, _, _, h4⟩ := rows (cell s f fis) (cell_ok s f fis hs) srt hsrt
  rw [h1, Out.ok.injEq, Prod.mk.injEq, Option.some.injEq] at hC
  obtain ⟨rfl, _⟩ := hC
  have e := h4 x 0 (by rw [cell_active]; simp) 0 (show 0 < 1 by decide)
  have e0 : (cell s f fis).pos 0 0 = 0 := rfl
  rw [e0] at e
  rw [e]
  have hb : ∀ l, (cell s f fis).M.onBoundary 0 l = true := by
    intro l
    unfold Grid.onBoundary
    unfold Grid.coord Grid.count
    rcases Nat.mod_two_eq_zero_or_one l with h | h <;> rcases h2 : l / 2 with _ | _ | m <;> simp [h, cell]
  have hz : ∀ l, (cell s f fis).faceTerm 0 (fun c => x ((cell s f fis).pos 0 c)) 0 l = 0 := by
    intro l
    unfold Loss.faceTerm
    rw [if_pos (hb l)]
    unfold Loss.dtilde
    rw [if_pos (hb l)]
    unfold dBoundary
    have : (cell s f fis).al l = 1 := rfl
    rw [this]
    simp
  simp only [hz, zero_div, Finset.sum_const_zero, zero_add]
  unfold Loss.local
  rw [cell_active]
  simp only [Finset.sum_singleton, e0]
  have a1 : (cell s f fis).mat.sigT 0 ((cell s f fis).mmap 0) = 1 := rfl
  have a2 : (cell s f fis).sf = 0 := rfl
  have a3 : (cell s f fis).scatXs 0 0 0 = s := rfl
  have a4 : (cell s f fis).fisXs 0 0 0 = 1 * (1 * f) := rfl
  have a5 : (cell s f fis).keff = 1 := rfl
  have a6 : (cell s f fis).fission = fis := rfl
  rw [a1, a2, a3, a4, a5, a6]
  cases fis <;> simp <;> ring

theorem cell_inverts (s f : ℚ) (fis : Bool) (hs : 0 ≤ s) (srt : List (Trip ℚ) → List (Trip ℚ)) (hsrt : IsSort srt)
    (C : CSR ℚ) (bs : List Bool) (hC : (cell s f fis).sys.make srt = .ok (some C, bs))
    (ha : 1 - s - (if fis then f else 0) ≠ 0) :
    Inverts C ((cell s f fis).active.card * (cell s f fis).M.size)
      (cellSol (1 - s - if fis then f else 0)) := by
  have h1 : (cell s f fis).active.card * (cell s f fis).M.size = 1 := rfl
  rw [h1]
  constructor
  · intro t r hr
    have : r = 0 := by omega
    subst this
    rw [cell_row s f fis hs srt hsrt C bs hC]
    unfold cellSol
    field_simp
  · intro x hx r hr
    have : r = 0 := by omega
    subst this
    have := hx 0 hr
    rw [cell_row s f fis hs srt hsrt C bs hC] at this
    exact (mul_eq_zero.1 this).resolve_left ha

/-- The cell with half its collisions scattering meets the hypotheses of `C111_multigroup_partial`, and the
    preconditioner doubles its vector. -/
example : ∃ C bs, (cell (1 / 2) 0 false).sys.make insSort = .ok (some C, bs) ∧
    Inverts C ((cell (1 / 2) 0 false).active.card * (cell (1 / 2) 0 false).M.size) (cellSol (1 / 2)) ∧
    (mgDsa (srcOf (cell (1 / 2) 0 false)) 0 false 1 1 (cellSol (1 / 2)) fun _ => 3).map (· 0) = some 6 := by
  obtain ⟨C, h1, _⟩ := rows (cell (1 / 2) 0 false) (cell_ok _ _ _ (by norm_num)) insSort insSort_isSort
  have h := cell_inverts (1 / 2) 0 false (by norm_num) insSort insSort_isSort C _ h1 (by norm_num)
  have e : (1 : ℚ) - 1 / 2 - (if false then (0 : ℚ) else 0) = 1 / 2 := by norm_num
  rw [e] at h
  exact ⟨C, _, h1, h, by decide +kernel⟩

/-- C111: the claim fails with one boundary unknown: the preconditioner forgets it. -/
theorem C111_claim_fails : ¬ C111Claim ℚ := by
  intro h
  obtain ⟨C, h1, _⟩ := rows (cell (1 / 2) 0 false) (cell_ok _ _ _ (by norm_num)) insSort insSort_isSort
  have hi := cell_inverts (1 / 2) 0 false (by norm_num) insSort insSort_isSort C _ h1 (by norm_num)
  have e : (1 : ℚ) - 1 / 2 - (if false then (0 : ℚ) else 0) = 1 / 2 := by norm_num
  rw [e] at hi
  have := h (cell (1 / 2) 0 false) (cell_ok _ _ _ (by norm_num)) (cell_pos _ _ _) rfl rfl
    (fun _ _ => one_pos) insSort insSort_isSort C _ h1 _ hi 1 one_pos 2 (show 1 ≤ 2 by decide)
    (fun p => if p = 1 then 1 else 0) _ rfl (by decide +kernel) 1 (by decide)
  revert this
  decide

/-- C111: nor does the preconditioner suit eigenvalue factors other than the one it was built with: in a cell
    with two fission neutrons per collision and fission divided by two, every vector is mapped to zero,
    although the diffusion problem is solved exactly. -/
theorem C111_scale_singular : ∃ C bs, (cell 0 2 true).sys.make insSort = .ok (some C, bs) ∧
    Inverts C ((cell 0 2 true).active.card * (cell 0 2 true).M.size) (cellSol (-1)) ∧
    ∀ v : Nat → ℚ, ∃ w, mgDsa (srcOf (cell 0 2 true)) 0 true (1 / 2) 1 (cellSol (-1)) v = some w ∧ w 0 = 0 := by
  obtain ⟨C, h1, _⟩ := rows (cell 0 2 true) (cell_ok _ _ _ le_rfl) insSort insSort_isSort
  have h := cell_inverts 0 2 true le_rfl insSort insSort_isSort C _ h1 (by norm_num)
  have e : (1 : ℚ) - 0 - (if true then (2 : ℚ) else 0) = -1 := by norm_num
  rw [e] at h
  refine ⟨C, _, h1, h, fun v => ⟨_, rfl, ?_⟩⟩
  have hs : mgSource (srcOf (cell 0 2 true)) 0 true (1 / 2) v 0 = v 0 := by
    have e1 := mgSource_at (srcOf (cell 0 2 true)) 0 true (1 / 2) v 0 le_rfl (show 0 < 1 by decide) 0
      (show 0 < 1 by decide)
    have e2 := mgGroupSource_eq (cell 0 2 true) (cell_ok _ _ _ le_rfl) rfl true (1 / 2) v 0
      (by rw [cell_active]; simp) 0 (show 0 < 1 by decide)
    rw [cell_active] at e2
    simp only [Finset.sum_singleton, if_true] at e2
    have a3 : (cell 0 2 true).scatXs 0 0 0 = 0 := rfl
    have a4 : (cell 0 2 true).fisXs 0 0 0 = 1 * (1 * 2) := rfl
    have e0 : (cell 0 2 true).pos 0 0 = 0 := rfl
    rw [a3, a4, e0] at e2
    have e3 := e1.trans e2
    have e4 : (0 - 0) * (srcOf (cell 0 2 true)).N + 0 = 0 := rfl
    rw [e4] at e3
    rw [e3]
    ring
  have hsz : (0 : Nat) < (srcOf (cell 0 2 true)).N *
      activeGroups (srcOf (cell 0 2 true)).mat.G (srcOf (cell 0 2 true)).adjoint 0 := by decide
  rw [if_pos hsz]
  unfold cellSol
  rw [hs]
  ring

/-- A transport problem with one moment and one reflected boundary value. -/
def reflOp (w : Fin 2 → ℚ) : Fin 2 → ℚ := ![3 / 4 * w 0 - 1 / 2 * w 1, w 1 - 1 / 2 * w 0]

/-- The multigroup preconditioner on its vectors. -/
def reflPc : (Fin 2 → ℚ) → Fin 2 → ℚ :=
  onFin 2 fun v => (mgDsa (srcOf (cell (1 / 2) 0 false)) 0 false 1 2 (cellSol (1 / 2)) v).getD fun _ => 0

/-- A square root that is right on the numbers the run below meets. -/
def sqR (a : ℚ) : ℚ := if a = 1 / 4 then 1 / 2 else if a = 9 / 4 then 3 / 2 else a

/-- C111: the effect on an answer.  The default (preconditioner on the left, guess equal to the right-hand
    side) reports success after one step with flux 4/3 and no reflected flux; the solution of the system
    is flux 2 and reflected flux 1. -/
theorem C111_wrong_answer :
    (Gmres.solve ⟨1 / 1000, 1 / 1000, 20, true⟩ 20 ⟨reflOp, some reflPc, .left⟩ Gmres.dot2 sqR 1
      ![1, 0] ![1, 0] Gmres.ls0 Gmres.z0).map (fun r => (r.1 0, r.1 1, r.2.1.status)) =
        some (4 / 3, 0, .success) ∧
    reflOp ![2, 1] = ![1, 0] ∧ ∀ w, reflOp w = ![1, 0] → w = ![2, 1] := by
  refine ⟨by decide +kernel, by decide +kernel, fun w hw => ?_⟩
  have h0 := congrFun hw 0
  have h1 := congrFun hw 1
  simp [reflOp] at h0 h1
  have e1 : w 1 = 1 := by linarith
  have e0 : w 0 = 2 := by linarith
  funext i
  fin_cases i
  · exact e0
  · exact e1

/-- The within-group preconditioner keeps the boundary value, and doubles the moment in the same cell. -/
example : (wgDsa (srcOf (cell (1 / 2) 0 false)) 0 (cellSol (1 / 2)) fun p => p + 3) 0 = 6 ∧
    (wgDsa (srcOf (cell (1 / 2) 0 false)) 0 (cellSol (1 / 2)) fun p => p + 3) 1 = 4 := by decide +kernel

/-- Corrections on numbers: with `Ã = 1` and `P = 1/2` the error goes 1/2, 1/4, 1/16. -/
example : (1 : ℚ) - tcCoarse ℚ id (fun x : ℚ => x / 2) 1 1 = 1 / 4 ∧
    (1 : ℚ) - tcCoarse ℚ id (fun x : ℚ => x / 2) 2 1 = 1 / 16 ∧
    (1 : ℚ) - 2 * tcDsa ℚ (fun x => 2 * x) id (fun x : ℚ => x / 4) 0 true 1 = 1 / 4 := by decide +kernel

/-- Coarse mesh of one cell over two: the correction adds the same to both, the boundary passes. -/
example : cmDsa (fun v : ℚ × ℚ => (v.1 / 2, v.2 / 2)) (fun v => v.1 + v.2) (fun s : ℚ => s / 4)
    (fun w => (w, w)) none (((2, 4), 5) : (ℚ × ℚ) × ℚ) = ((11 / 4, 19 / 4), 5) := by decide +kernel

end Detran.Precond
