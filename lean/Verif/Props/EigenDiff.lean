import Verif.Model.EigenDiff
import Verif.Props.DiffSolve

/-!
# C106: the diffusion eigenvalue solver
-/

namespace Detran.Diffusion

open Detran.Matrix Finset

variable {K : Type} [Field K] [LinearOrder K] [IsStrictOrderedRing K]

theorem eigen_active (L : Loss K) (inp : Option Int) (ok : (eigenLoss L inp).OK) :
    (eigenLoss L inp).active = range L.mat.G := by
  have h := ok.cut
  unfold Loss.active eigenLoss FixedSrc.init at *
  cases ha : mgAdjoint inp with
  | true =>
    simp only [ha, if_true] at h ⊢
    congr 1
    omega
  | false => simp only [Bool.false_eq_true, if_false]; ext; simp

theorem eigen_pos (L : Loss K) (inp : Option Int) (g c : Nat) :
    (eigenLoss L inp).pos g c = c + g * L.M.size := by
  unfold Loss.pos eigenLoss FixedSrc.init
  cases mgAdjoint inp <;> simp

/-- Specification: group transfer cross section into `g` from `gp`, transposed in adjoint mode. -/
def transfer (L : Loss K) (adj : Bool) (g gp c : Nat) : K :=
  if adj then L.mat.sigS gp g (L.mmap c) else L.mat.sigS g gp (L.mmap c)

theorem eigen_rows (L : Loss K) (inp : Option Int) (ok : (eigenLoss L inp).OK)
    (srt : List (Trip K) → List (Trip K)) (hs : IsSort srt) (C : CSR K) (bs : List Bool)
    (hC : (eigenLoss L inp).sys.make srt = .ok (some C, bs)) (x : Nat → K) {g c : Nat} (hg : g < L.mat.G)
    (hc : c < L.M.size) :
    C.multiply x (c + g * L.M.size) = (∑ leak ∈ range 6,
      L.faceTerm g (fun c => x (c + g * L.M.size)) c leak / L.M.width c (leak / 2))
      + (L.mat.sigT g (L.mmap c) * x (c + g * L.M.size)
        - ∑ gp ∈ range L.mat.G, transfer L (mgAdjoint inp) g gp c * x (c + gp * L.M.size)) := by
  obtain ⟨C', h1, _, _, h4⟩ := rows (eigenLoss L inp) ok srt hs
  rw [h1, Out.ok.injEq, Prod.mk.injEq, Option.some.injEq] at hC
  obtain ⟨rfl, _⟩ := hC
  have e := h4 x g (by rw [eigen_active L inp ok]; exact mem_range.2 hg) c hc
  simp only [eigen_pos] at e
  rw [e]
  congr 1
  unfold Loss.local
  rw [eigen_active L inp ok]
  have e1 : (eigenLoss L inp).sf = 0 := rfl
  have e2 : (eigenLoss L inp).fission = false := rfl
  have e3 : (eigenLoss L inp).adjoint = mgAdjoint inp := rfl
  have e4 : (eigenLoss L inp).mat = L.mat := rfl
  have e5 : (eigenLoss L inp).mmap = L.mmap := rfl
  simp only [e1, e2, e4, e5, eigen_pos, Loss.scatXs, e3, if_true, Bool.false_eq_true, false_and, if_false, sub_zero]
  rfl

/-- **C106 (forward).** Given an eigenpair of the two operators, the state holds its value and a flux that satisfies the
    multigroup diffusion equation with fission divided by that value, cell by cell with the currents of Fick's law; the
    fission density is the production of that flux. -/
theorem C106_equation (L : Loss K) (inp : Option Int) (hf : mgAdjoint inp = false) (ok : (eigenLoss L inp).OK) (hp : L.Pos)
    (srt : List (Trip K) → List (Trip K)) (hs : IsSort srt) (M F : CSR K) (bM bF : List Bool)
    (hM : (eigenLoss L inp).sys.make srt = .ok (some M, bM)) (hF : eigenGain L inp srt = .ok (some F, bF))
    (k : K) (hk : k ≠ 0) (v : Nat → K) (hv : ∀ p < L.mat.G * L.M.size, F.multiply v p = k * M.multiply v p)
    (phi0 : Nat → Nat → K) :
    let r := eigenDiffusion L inp k v phi0
    r.keff = k ∧
    (∀ c < L.M.size, r.dens c = ∑ gp ∈ range L.mat.G, L.mat.nuSigF gp (L.mmap c) * r.phi gp c) ∧
    ∀ g < L.mat.G, ∀ c < L.M.size, ∀ J : Nat → K, (∀ leak < 6, L.IsCurrent g (r.phi g) c leak (J leak)) →
      (∑ leak ∈ range 6, J leak / L.M.width c (leak / 2)) + L.mat.sigT g (L.mmap c) * r.phi g c
        - ∑ gp ∈ range L.mat.G, L.mat.sigS g gp (L.mmap c) * r.phi gp c
      = 1 / k * (L.mat.chi g (L.mmap c) * ∑ gp ∈ range L.mat.G, L.mat.nuSigF gp (L.mmap c) * r.phi gp c) := by
  intro r
  have hphi : ∀ g < L.mat.G, ∀ c < L.M.size, r.phi g c = v (c + g * L.M.size) :=
    (C101_flux L.mat.G L.M.size v phi0).1
  refine ⟨rfl, ?_, ?_⟩
  · intro c hc
    have h := Material.C25_density (⟨L.mat, L.M.size, L.mmap, mgAdjoint inp⟩ : Material.Src K) r.phi c hc
    simp only [hf, Bool.false_eq_true, if_false] at h
    have e : r.dens = (⟨L.mat, L.M.size, L.mmap, false⟩ : Material.Src K).density r.phi := by
      show (⟨L.mat, L.M.size, L.mmap, mgAdjoint inp⟩ : Material.Src K).density _ = _
      rw [hf]
      rfl
    rw [e, h]
    exact Finset.sum_congr rfl fun _ _ => mul_comm _ _
  · intro g hg c hc J hJ
    have hlt : c + g * L.M.size < L.mat.G * L.M.size := by
      calc c + g * L.M.size < (g + 1) * L.M.size := by rw [Nat.add_mul]; omega
        _ ≤ L.mat.G * L.M.size := Nat.mul_le_mul_right _ hg
    have e1 := eigen_rows L inp ok srt hs M bM hM v hg hc
    obtain ⟨F', f1, _, _, f2⟩ := C51_rows L.mat L.mmap L.M.size (eigenAdjoint inp) srt hs
    unfold eigenGain at hF
    rw [f1, Out.ok.injEq, Prod.mk.injEq, Option.some.injEq] at hF
    obtain ⟨rfl, _⟩ := hF
    have e2 := f2 v g hg c hc
    simp only [eigenAdjoint, Bool.false_eq_true, if_false] at e2
    have e3 := hv _ hlt
    rw [e1, e2] at e3
    have hJ' : ∀ leak ∈ range 6, J leak / L.M.width c (leak / 2)
        = L.faceTerm g (fun c => v (c + g * L.M.size)) c leak / L.M.width c (leak / 2) := by
      intro leak hl
      rw [(isCurrent_iff L hp g (r.phi g) c leak (J leak)).1 (hJ leak (mem_range.1 hl))]
      congr 1
      unfold Loss.faceTerm
      by_cases hb : L.M.onBoundary c leak = true
      · rw [if_pos hb, if_pos hb, hphi g hg c hc]
      · rw [if_neg hb, if_neg hb, hphi g hg c hc, hphi g hg _
          (neighbour_spec L.M hc (mem_range.1 hl) (by simpa using hb)).1]
    rw [Finset.sum_congr rfl hJ', hphi g hg c hc]
    have hsc : ∀ gp ∈ range L.mat.G, L.mat.sigS g gp (L.mmap c) * r.phi gp c
        = transfer L (mgAdjoint inp) g gp c * v (c + gp * L.M.size) := by
      intro gp hgp
      rw [hphi gp (mem_range.1 hgp) c hc, transfer, hf]
      simp
    have hfi : ∀ gp ∈ range L.mat.G, L.mat.nuSigF gp (L.mmap c) * r.phi gp c
        = L.mat.nuSigF gp (L.mmap c) * v (c + gp * L.M.size) := by
      intro gp hgp
      rw [hphi gp (mem_range.1 hgp) c hc]
    rw [Finset.sum_congr rfl hsc, Finset.sum_congr rfl hfi, e3]
    field_simp
    ring

/-! ## Adjoint mode -/

/-- Specification: the product weighted by cell volume. -/
def weighted (L : Loss K) (y x : Nat → K) : K :=
  ∑ g ∈ range L.mat.G, ∑ c ∈ range L.M.size, L.M.volume c * y (c + g * L.M.size) * x (c + g * L.M.size)

/-- **C106 (loss operator).** The loss operator of an adjoint problem is the transpose of the forward one in the
    volume-weighted product. -/
theorem C106_loss_transpose (L : Loss K) (i0 i1 : Option Int) (h0 : mgAdjoint i0 = false) (h1 : mgAdjoint i1 = true)
    (ok0 : (eigenLoss L i0).OK) (ok1 : (eigenLoss L i1).OK) (hh : ∀ a i, L.M.h a i ≠ 0)
    (srt : List (Trip K) → List (Trip K)) (hs : IsSort srt) (M A : CSR K) (bM bA : List Bool)
    (hM : (eigenLoss L i0).sys.make srt = .ok (some M, bM))
    (hA : (eigenLoss L i1).sys.make srt = .ok (some A, bA)) (x y : Nat → K) :
    weighted L y (M.multiply x) = weighted L x (A.multiply y) := by
  rcases Nat.eq_zero_or_pos L.M.size with hz | hpos
  · simp [weighted, hz]
  have expand : ∀ (inp : Option Int) (ok : (eigenLoss L inp).OK) (C : CSR K) (bs : List Bool)
      (_ : (eigenLoss L inp).sys.make srt = .ok (some C, bs)) (a b : Nat → K),
      weighted L b (C.multiply a) = (∑ g ∈ range L.mat.G,
        (L.form g 0 (fun c => a (c + g * L.M.size)) (fun c => b (c + g * L.M.size))
        + L.form g 1 (fun c => a (c + g * L.M.size)) (fun c => b (c + g * L.M.size))
        + L.form g 2 (fun c => a (c + g * L.M.size)) (fun c => b (c + g * L.M.size))))
      + (∑ g ∈ range L.mat.G, ∑ c ∈ range L.M.size,
          L.M.volume c * L.mat.sigT g (L.mmap c) * (a (c + g * L.M.size) * b (c + g * L.M.size)))
      - ∑ c ∈ range L.M.size, ∑ g ∈ range L.mat.G, ∑ gp ∈ range L.mat.G,
          L.M.volume c * transfer L (mgAdjoint inp) g gp c * (a (c + gp * L.M.size) * b (c + g * L.M.size)) := by
    intro inp ok C bs hC a b
    unfold weighted
    rw [Finset.sum_comm (s := range L.M.size) (t := range L.mat.G), ← Finset.sum_add_distrib, ← Finset.sum_sub_distrib]
    refine Finset.sum_congr rfl fun g hg => ?_
    rw [← leak_form L hh hpos g, ← Finset.sum_add_distrib, ← Finset.sum_sub_distrib]
    refine Finset.sum_congr rfl fun c hc => ?_
    rw [eigen_rows L inp ok srt hs C bs hC a (mem_range.1 hg) (mem_range.1 hc)]
    have : ∑ gp ∈ range L.mat.G, L.M.volume c * transfer L (mgAdjoint inp) g gp c
          * (a (c + gp * L.M.size) * b (c + g * L.M.size))
        = L.M.volume c * b (c + g * L.M.size)
          * ∑ gp ∈ range L.mat.G, transfer L (mgAdjoint inp) g gp c * a (c + gp * L.M.size) := by
      rw [Finset.mul_sum]
      exact Finset.sum_congr rfl fun _ _ => by ring
    rw [this]
    ring
  rw [expand i0 ok0 M bM hM x y, expand i1 ok1 A bA hA y x]
  congr 1
  · congr 1
    · refine Finset.sum_congr rfl fun g _ => ?_
      rw [form_symm L g 0, form_symm L g 1, form_symm L g 2]
    · exact Finset.sum_congr rfl fun g _ => Finset.sum_congr rfl fun c _ => by ring
  · refine Finset.sum_congr rfl fun c _ => ?_
    rw [Finset.sum_comm]
    refine Finset.sum_congr rfl fun g _ => Finset.sum_congr rfl fun gp _ => ?_
    rw [h0, h1]
    simp only [transfer, Bool.false_eq_true, if_false, if_true]
    ring

/-- **C106, full statement.** Setting `adjoint` in the database solves the adjoint problem, which has the eigenvalues of
    the forward one. -/
def C106Claim (K : Type) [Field K] [LinearOrder K] [IsStrictOrderedRing K] : Prop :=
  ∀ (L : Loss K) (i0 i1 : Option Int), mgAdjoint i0 = false → mgAdjoint i1 = true →
    (eigenLoss L i0).OK → (eigenLoss L i1).OK → L.Pos →
    ∀ (srt : List (Trip K) → List (Trip K)), IsSort srt → ∀ (M F A G : CSR K) (bM bF bA bG : List Bool),
      (eigenLoss L i0).sys.make srt = .ok (some M, bM) → eigenGain L i0 srt = .ok (some F, bF) →
      (eigenLoss L i1).sys.make srt = .ok (some A, bA) → eigenGain L i1 srt = .ok (some G, bG) →
      ∀ (k : K) (v : Nat → K), (∃ p < L.mat.G * L.M.size, v p ≠ 0) →
        (∀ p < L.mat.G * L.M.size, F.multiply v p = k * M.multiply v p) →
        ∃ w : Nat → K, (∃ p < L.mat.G * L.M.size, w p ≠ 0) ∧
          ∀ p < L.mat.G * L.M.size, G.multiply w p = k * A.multiply w p

/-- **C106 (adjoint), partial.** With the transposed gain operator the adjoint problem is the right one: an eigenvector of
    it and a forward one of another eigenvalue are orthogonal through the loss operator.  What is missing: the solver
    passes a flag that is always false and so uses the forward gain operator (`C106_forward_gain`). -/
theorem C106_adjoint_partial (L : Loss K) (i0 i1 : Option Int) (h0 : mgAdjoint i0 = false) (h1 : mgAdjoint i1 = true)
    (ok0 : (eigenLoss L i0).OK) (ok1 : (eigenLoss L i1).OK) (hh : ∀ a i, L.M.h a i ≠ 0)
    (srt : List (Trip K) → List (Trip K)) (hs : IsSort srt) (M F A G : CSR K) (bM bF bA bG : List Bool)
    (hM : (eigenLoss L i0).sys.make srt = .ok (some M, bM)) (hF : eigenGain L i0 srt = .ok (some F, bF))
    (hA : (eigenLoss L i1).sys.make srt = .ok (some A, bA))
    (hG : gain L.mat L.mmap L.M.size true srt = .ok (some G, bG))
    (k k' : K) (v w : Nat → K) (hv : ∀ p < L.mat.G * L.M.size, F.multiply v p = k * M.multiply v p)
    (hw : ∀ p < L.mat.G * L.M.size, G.multiply w p = k' * A.multiply w p) (hne : k ≠ k') :
    weighted L w (M.multiply v) = 0 := by
  have hlt : ∀ g ∈ range L.mat.G, ∀ c ∈ range L.M.size, c + g * L.M.size < L.mat.G * L.M.size := by
    intro g hg c hc
    rw [mem_range] at hg hc
    calc c + g * L.M.size < (g + 1) * L.M.size := by rw [Nat.add_mul]; omega
      _ ≤ L.mat.G * L.M.size := Nat.mul_le_mul_right _ hg
  have htr := C106_loss_transpose L i0 i1 h0 h1 ok0 ok1 hh srt hs M A bM bA hM hA v w
  -- the gain operators are transposes cell by cell
  have hgain : weighted L w (F.multiply v) = weighted L v (G.multiply w) := by
    obtain ⟨F', f1, _, _, f2⟩ := C51_rows L.mat L.mmap L.M.size (eigenAdjoint i0) srt hs
    unfold eigenGain at hF
    rw [f1, Out.ok.injEq, Prod.mk.injEq, Option.some.injEq] at hF
    obtain ⟨rfl, _⟩ := hF
    obtain ⟨G', g1, _, _, g2⟩ := C51_rows L.mat L.mmap L.M.size true srt hs
    rw [g1, Out.ok.injEq, Prod.mk.injEq, Option.some.injEq] at hG
    obtain ⟨rfl, _⟩ := hG
    unfold weighted
    rw [Finset.sum_comm, Finset.sum_comm (s := range L.mat.G)]
    refine Finset.sum_congr rfl fun c hc => ?_
    have e1 : ∀ g ∈ range L.mat.G, L.M.volume c * w (c + g * L.M.size) * F'.multiply v (c + g * L.M.size)
        = ∑ gp ∈ range L.mat.G, L.M.volume c * w (c + g * L.M.size) * (L.mat.chi g (L.mmap c)
          * (L.mat.nuSigF gp (L.mmap c) * v (c + gp * L.M.size))) := by
      intro g hg
      rw [f2 v g (mem_range.1 hg) c (mem_range.1 hc)]
      simp only [eigenAdjoint, Bool.false_eq_true, if_false]
      rw [Finset.mul_sum, Finset.mul_sum]
    have e2 : ∀ g ∈ range L.mat.G, L.M.volume c * v (c + g * L.M.size) * G'.multiply w (c + g * L.M.size)
        = ∑ gp ∈ range L.mat.G, L.M.volume c * v (c + g * L.M.size) * (L.mat.nuSigF g (L.mmap c)
          * (L.mat.chi gp (L.mmap c) * w (c + gp * L.M.size))) := by
      intro g hg
      rw [g2 w g (mem_range.1 hg) c (mem_range.1 hc)]
      simp only [if_true]
      rw [Finset.mul_sum, Finset.mul_sum]
    rw [Finset.sum_congr rfl e1, Finset.sum_congr rfl e2, Finset.sum_comm]
    exact Finset.sum_congr rfl fun _ _ => Finset.sum_congr rfl fun _ _ => by ring
  have a1 : weighted L w (F.multiply v) = k * weighted L w (M.multiply v) := by
    unfold weighted
    rw [Finset.mul_sum]
    refine Finset.sum_congr rfl fun g hg => ?_
    rw [Finset.mul_sum]
    refine Finset.sum_congr rfl fun c hc => ?_
    rw [hv _ (hlt g hg c hc)]; ring
  have a2 : weighted L v (G.multiply w) = k' * weighted L v (A.multiply w) := by
    unfold weighted
    rw [Finset.mul_sum]
    refine Finset.sum_congr rfl fun g hg => ?_
    rw [Finset.mul_sum]
    refine Finset.sum_congr rfl fun c hc => ?_
    rw [hw _ (hlt g hg c hc)]; ring
  rw [a1, a2, ← htr] at hgain
  have : (k - k') * weighted L w (M.multiply v) = 0 := by rw [sub_mul, hgain, sub_self]
  exact (mul_eq_zero.1 this).resolve_left (sub_ne_zero.2 hne)

/-- **C106 (gain operator).** Whatever the database says the gain operator is the forward one. -/
theorem C106_forward_gain (L : Loss K) (inp : Option Int) (srt : List (Trip K) → List (Trip K)) (hs : IsSort srt) :
    ∃ F, eigenGain L inp srt = .ok (some F, (gainOps L.mat L.mmap L.M.size false).map fun _ => true) ∧
      ∀ x, ∀ g < L.mat.G, ∀ c < L.M.size, F.multiply x (c + g * L.M.size)
        = L.mat.chi g (L.mmap c) * ∑ gp ∈ range L.mat.G, L.mat.nuSigF gp (L.mmap c) * x (c + gp * L.M.size) := by
  obtain ⟨F, f1, _, _, f2⟩ := C51_rows L.mat L.mmap L.M.size false srt hs
  exact ⟨F, f1, fun x g hg c hc => by simpa using f2 x g hg c hc⟩

/-- Two groups: neutrons are born fast, slow down, and fission as slow ones; one closed cell. -/
def twoMat : Material.Mat ℚ :=
  { Material.Mat.new 1 2 with
    sigT := fun _ _ => 2
    diff := fun _ _ => 1
    sigS := fun g gp _ => if g = 1 ∧ gp = 0 then 1 else 0
    nuSigF := fun g _ => if g = 1 then 4 else 0
    sigF := fun g _ => if g = 1 then 2 else 0
    nu := fun _ _ => 2
    chi := fun g _ => if g = 0 then 1 else 0 }

def twoLoss : Loss ℚ where
  M := ⟨1, 1, 1, 1, fun _ _ => 1⟩
  mat := twoMat.finalize
  mmap := fun _ => 0
  al := fun _ => 1
  adjoint := false
  cutoff := 0
  fission := false
  sf := 0
  keff := 1

theorem twoLoss_ok (inp : Option Int) : (eigenLoss twoLoss inp).OK := by
  refine ⟨⟨show 1 ≤ 3 by decide, ?_⟩, ⟨twoMat, rfl⟩, ?_, ?_, ?_⟩
  · intro a h1 h2
    have h1' : 1 ≤ a := h1
    interval_cases a <;> rfl
  · intro g gp m
    show (0 : ℚ) ≤ if g = 1 ∧ gp = 0 then 1 else 0
    split <;> norm_num
  · intro c _
    exact Nat.zero_lt_one
  · show if mgAdjoint inp = true then _ else _
    have hc : (eigenLoss twoLoss inp).cutoff = if mgAdjoint inp then 1 else 0 := rfl
    have hg : (eigenLoss twoLoss inp).mat.G = 2 := rfl
    rw [hc, hg]
    cases mgAdjoint inp <;> decide

theorem twoLoss_pos : twoLoss.Pos :=
  ⟨fun _ _ => one_pos, fun _ _ => one_pos, fun _ => by show (-1 : ℚ) ≤ 1 ∧ (1 : ℚ) ≤ 1; norm_num⟩

theorem two_face (g : Nat) (phi : Nat → ℚ) : ∑ leak ∈ range 6, twoLoss.faceTerm g phi 0 leak
    / twoLoss.M.width 0 (leak / 2) = 0 := by
  refine Finset.sum_eq_zero fun leak hl => ?_
  rw [mem_range] at hl
  have hb : twoLoss.M.onBoundary 0 leak = true := by interval_cases leak <;> rfl
  have : twoLoss.faceTerm g phi 0 leak = 0 := by
    unfold Loss.faceTerm Loss.dtilde
    rw [if_pos hb, if_pos hb]
    simp [dBoundary, twoLoss]
  rw [this, zero_div]

/-- The full statement fails: the forward problem has eigenvalue one, the problem solved in adjoint mode only zero. -/
theorem C106_claim_fails : ¬ C106Claim ℚ := by
  intro h
  have h0 : mgAdjoint none = false := rfl
  have h1 : mgAdjoint (some 1) = true := rfl
  have hs : IsSort (insSort : List (Trip ℚ) → List (Trip ℚ)) := insSort_isSort
  obtain ⟨M, m1, _⟩ := rows (eigenLoss twoLoss none) (twoLoss_ok none) insSort hs
  obtain ⟨A, a1, _⟩ := rows (eigenLoss twoLoss (some 1)) (twoLoss_ok (some 1)) insSort hs
  obtain ⟨F, f1, f2⟩ := C106_forward_gain twoLoss none insSort hs
  obtain ⟨G, g1, g2⟩ := C106_forward_gain twoLoss (some 1) insSort hs
  have rM := fun x g hg => eigen_rows twoLoss none (twoLoss_ok none) insSort hs M _ m1 x (g := g) (c := 0) hg
    Nat.zero_lt_one
  have rA := fun x g hg => eigen_rows twoLoss (some 1) (twoLoss_ok (some 1)) insSort hs A _ a1 x (g := g) (c := 0) hg
    Nat.zero_lt_one
  have hn : twoLoss.M.size = 1 := rfl
  have hG : twoLoss.mat.G = 2 := rfl
  have sT : ∀ g m, twoLoss.mat.sigT g m = 2 := fun _ _ => rfl
  have sS : ∀ g gp m, twoLoss.mat.sigS g gp m = if g = 1 ∧ gp = 0 then 1 else 0 := fun _ _ _ => rfl
  have sF : ∀ g m, twoLoss.mat.nuSigF g m = if g = 1 then 4 else 0 := by
    intro g m
    show (2 : ℚ) * (if g = 1 then 2 else 0) = _
    split <;> norm_num
  have sX : ∀ g m, twoLoss.mat.chi g m = if g = 0 then 1 else 0 := fun _ _ => rfl
  simp only [two_face] at rM rA
  simp only [h0, h1, transfer, hn, hG, sT, sS, sF, sX, mul_one, zero_add, Finset.sum_range_succ,
    Finset.sum_range_zero] at rM rA f2 g2
  obtain ⟨w, ⟨p, hp, hw⟩, hE⟩ := h twoLoss none (some 1) h0 h1 (twoLoss_ok _) (twoLoss_ok _) twoLoss_pos insSort hs
    M F A G _ _ _ _ m1 f1 a1 g1 1 (fun p => if p = 0 then 2 else 1) ⟨0, by decide, by norm_num⟩ (by
      intro p hp
      have hp' : p < 2 := hp
      have q1 := f2 (fun p => if p = 0 then 2 else 1) p hp' 0 one_pos
      have q2 := rM (fun p => if p = 0 then 2 else 1) p hp'
      simp only [zero_add] at q1 q2
      rw [q1, q2]
      interval_cases p <;> norm_num)
  have e0 := hE 0 (by decide)
  have e1 := hE 1 (by decide)
  have q0 := g2 w 0 (by decide) 0 one_pos
  have q1 := g2 w 1 (by decide) 0 one_pos
  have r0 := rA w 0 (by decide)
  have r1 := rA w 1 (by decide)
  simp only [zero_add] at q0 q1
  rw [q0, r0] at e0
  rw [q1, r1] at e1
  norm_num at e0 e1
  have hp' : p < 2 := hp
  apply hw
  interval_cases p
  · linarith
  · linarith

-- `C106_equation` on this cell: eigenvalue one with the flux (2, 1).
example : ∃ M F bM bF, (eigenLoss twoLoss none).sys.make insSort = .ok (some M, bM) ∧
    eigenGain twoLoss none insSort = .ok (some F, bF) ∧
    ∀ p < twoLoss.mat.G * twoLoss.M.size, F.multiply (fun p => if p = 0 then 2 else 1) p
      = 1 * M.multiply (fun p => if p = 0 then 2 else 1) p := by
  have hs : IsSort (insSort : List (Trip ℚ) → List (Trip ℚ)) := insSort_isSort
  obtain ⟨M, m1, _⟩ := rows (eigenLoss twoLoss none) (twoLoss_ok none) insSort hs
  obtain ⟨F, f1, f2⟩ := C106_forward_gain twoLoss none insSort hs
  refine ⟨M, F, _, _, m1, f1, ?_⟩
  have rM := fun x g hg => eigen_rows twoLoss none (twoLoss_ok none) insSort hs M _ m1 x (g := g) (c := 0) hg
    Nat.zero_lt_one
  have h0 : mgAdjoint none = false := rfl
  have hn : twoLoss.M.size = 1 := rfl
  have hG : twoLoss.mat.G = 2 := rfl
  have sT : ∀ g m, twoLoss.mat.sigT g m = 2 := fun _ _ => rfl
  have sS : ∀ g gp m, twoLoss.mat.sigS g gp m = if g = 1 ∧ gp = 0 then 1 else 0 := fun _ _ _ => rfl
  have sF : ∀ g m, twoLoss.mat.nuSigF g m = if g = 1 then 4 else 0 := by
    intro g m
    show (2 : ℚ) * (if g = 1 then 2 else 0) = _
    split <;> norm_num
  have sX : ∀ g m, twoLoss.mat.chi g m = if g = 0 then 1 else 0 := fun _ _ => rfl
  simp only [two_face] at rM
  simp only [h0, transfer, hn, hG, sT, sS, sF, sX, mul_one, zero_add, Finset.sum_range_succ,
    Finset.sum_range_zero] at rM f2
  intro p hp
  have hp' : p < 2 := hp
  have q1 := f2 (fun p => if p = 0 then 2 else 1) p hp' 0 one_pos
  have q2 := rM (fun p => if p = 0 then 2 else 1) p hp'
  simp only [zero_add] at q1 q2
  rw [q1, q2]
  interval_cases p <;> norm_num

end Detran.Diffusion
