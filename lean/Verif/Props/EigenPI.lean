import Verif.Model.EigenPI
import Verif.Props.Material
import Mathlib.Algebra.Order.BigOperators.Ring.Finset

/-! # Properties of power iteration (C56) -/

namespace Detran.EigenPI

open Finset Detran.Util Detran.Material

variable {K : Type} [Field K] [LinearOrder K] [IsStrictOrderedRing K]

/-! ## Specification -/

/-- Specification: L1 norm over the cells. -/
def nrm (N : Nat) (f : Nat → K) : K := ∑ c ∈ range N, |f c|

/-- Specification: the fission operator: the density produced, by the flux that `S` gives for the emission of a
    density. -/
def fop (x : Src K) (S : (Nat → Nat → K) → Nat → Nat → K) (d : Nat → K) (c : Nat) : K :=
  if c < x.N then ∑ g ∈ range x.mat.G,
    S (fun g c => d c * (if x.adjoint then x.mat.nuSigF g (x.mmap c) else x.mat.chi g (x.mmap c))) g c *
      (if x.adjoint then x.mat.chi g (x.mmap c) else x.mat.nuSigF g (x.mmap c))
  else 0

/-- Specification: the multigroup solver is exact for a homogeneous problem: its result is `S` of the sources,
    whatever the flux it starts from, and `S` is homogeneous. -/
structure Exact (p : PI K) (S : (Nat → Nat → K) → Nat → Nat → K) : Prop where
  solve : ∀ q phi, p.solve q phi = S q
  hom : ∀ a q, S (fun g c => a * q g c) = fun g c => a * S q g c

/-- The state after `n` iterations without stopping. -/
def PI.after (p : PI K) (phi : Nat → Nat → K) (n : Nat) : PIState K := p.iterate^[n] (p.start phi)

/-! ## Lemmas -/

theorem normL1_vec (p : PI K) (f : Nat → K) : normL1 (p.vec f) = nrm p.x.N f := by
  rw [C20_normL1, PI.vec, List.map_map]
  rfl

theorem normRes_vec (p : PI K) (f g : Nat → K) : normResL1 (p.vec f) (p.vec g) = nrm p.x.N fun c => f c - g c := by
  unfold normResL1 PI.vec nrm
  rw [List.zip_map', foldl_add_eq_sum, List.map_map, zero_add]
  rfl

theorem nrm_smul (N : Nat) (a : K) (f : Nat → K) : nrm N (fun c => a * f c) = |a| * nrm N f := by
  unfold nrm
  rw [mul_sum]
  exact sum_congr rfl fun c _ => abs_mul _ _

theorem nrm_nonneg (N : Nat) (f : Nat → K) : 0 ≤ nrm N f := sum_nonneg fun _ _ => abs_nonneg _

omit [LinearOrder K] [IsStrictOrderedRing K] in
theorem density_out [LinearOrder K] (x : Src K) (phi : Nat → Nat → K) (c : Nat) (hc : ¬ c < x.N) : x.density phi c = 0 := by
  unfold Src.density
  rw [foldl_addCells, if_neg hc]

theorem step_dens (p : PI K) (S) (h : Exact p S) (s : PIState K) :
    (p.iterate s).dens = fun c => 1 / s.keff * fop p.x S s.dens c := by
  funext c
  show p.x.density (p.solve _ s.phi) c = _
  rw [h.solve]
  have e : p.x.setupOuter (1 / s.keff) s.dens = fun g c => 1 / s.keff *
      (s.dens c * (if p.x.adjoint then p.x.mat.nuSigF g (p.x.mmap c) else p.x.mat.chi g (p.x.mmap c))) := by
    funext g c
    unfold Src.setupOuter
    ring
  rw [e, h.hom]
  unfold fop
  by_cases hc : c < p.x.N
  · rw [if_pos hc, C25_density _ _ _ hc, mul_sum]
    exact sum_congr rfl fun g _ => by ring
  · rw [if_neg hc, density_out _ _ _ hc, mul_zero]

theorem fop_hom {p : PI K} {S} (h : Exact p S) (a : K) (d : Nat → K) :
    fop p.x S (fun c => a * d c) = fun c => a * fop p.x S d c := by
  funext c
  unfold fop
  by_cases hc : c < p.x.N
  · rw [if_pos hc, if_pos hc, mul_sum]
    refine sum_congr rfl fun g _ => ?_
    have : (fun g c => a * d c * (if p.x.adjoint then p.x.mat.nuSigF g (p.x.mmap c) else p.x.mat.chi g (p.x.mmap c)))
      = fun g c => a * (d c * (if p.x.adjoint then p.x.mat.nuSigF g (p.x.mmap c) else p.x.mat.chi g (p.x.mmap c))) := by
      funext g c; ring
    rw [this, h.hom]
    ring
  · rw [if_neg hc, if_neg hc, mul_zero]

theorem after_succ (p : PI K) (phi) (n : Nat) : p.after phi (n + 1) = p.iterate (p.after phi n) :=
  Function.iterate_succ_apply' _ _ _

/-! ## C56 -/

/-- C56: the loop ends after some iteration between the first and the limit, at the first one whose error is below
    the tolerance if there is one; the eigenvalue stored is that of the last iteration. -/
theorem C56_reported (p : PI K) (phi : Nat → Nat → K) (hm : 0 < p.maxIt) :
    ∃ m, 0 < m ∧ m ≤ p.maxIt ∧ p.run phi = some ⟨(p.after phi m).keff,
        (p.after phi m).error.any fun e => decide (e > p.tol), p.after phi m⟩ ∧
      (∀ j, 0 < j → j < m → ∀ e, (p.after phi j).error = some e → ¬ e < p.tol) ∧
      (m < p.maxIt → ∃ e, (p.after phi m).error = some e ∧ e < p.tol) := by
  have key : ∀ n (s : PIState K), 0 < n → ∃ m, 0 < m ∧ m ≤ n ∧ p.loop n s = p.iterate^[m] s ∧
      (∀ j, 0 < j → j < m → p.stops (p.iterate^[j] s) = false) ∧ (m < n → p.stops (p.iterate^[m] s) = true) := by
    intro n
    induction n with
    | zero => intro s h; omega
    | succ n ih =>
      intro s _
      by_cases hs : p.stops (p.iterate s) = true
      · exact ⟨1, by omega, by omega, by rw [PI.loop, if_pos hs]; rfl, fun j h1 h2 => by omega, fun _ => hs⟩
      · rw [PI.loop, if_neg hs]
        by_cases hn : n = 0
        · subst hn
          exact ⟨1, by omega, by omega, rfl, fun j h1 h2 => by omega, fun h => by omega⟩
        · obtain ⟨m, m1, m2, m3, m4, m5⟩ := ih (p.iterate s) (by omega)
          refine ⟨m + 1, by omega, by omega, by rw [m3, Function.iterate_succ_apply], ?_, ?_⟩
          · intro j h1 h2
            obtain ⟨j, rfl⟩ : ∃ i, j = i + 1 := ⟨j - 1, by omega⟩
            rw [Function.iterate_succ_apply]
            by_cases hj : j = 0
            · subst hj
              simpa using hs
            · exact m4 j (by omega) (by omega)
          · intro h
            rw [Function.iterate_succ_apply]
            exact m5 (by omega)
  obtain ⟨m, m1, m2, m3, m4, m5⟩ := key p.maxIt (p.start phi) hm
  have herr : ∃ e, (p.after phi m).error = some e := by
    obtain ⟨m, rfl⟩ : ∃ i, m = i + 1 := ⟨m - 1, by omega⟩
    rw [after_succ]
    exact ⟨_, rfl⟩
  obtain ⟨e, he⟩ := herr
  refine ⟨m, m1, m2, ?_, ?_, ?_⟩
  · unfold PI.run
    simp only
    rw [m3]
    show Option.map (fun e => (⟨(p.after phi m).keff, decide (e > p.tol), p.after phi m⟩ : Report K)) (p.after phi m).error = _
    rw [he]
    rfl
  · intro j h1 h2 e' he' hlt
    have := m4 j h1 h2
    unfold PI.stops at this
    have he'' : (p.iterate^[j] (p.start phi)).error = some e' := he'
    rw [he''] at this
    simp [hlt] at this
  · intro h
    have := m5 h
    unfold PI.stops at this
    have he'' : (p.iterate^[m] (p.start phi)).error = some e := he
    rw [he''] at this
    exact ⟨e, he, by simpa using this⟩

/-- C56: without iterations an uninitialised variable is read. -/
theorem C56_no_iterations (p : PI K) (phi : Nat → Nat → K) (hm : p.maxIt = 0) : p.run phi = none := by
  unfold PI.run
  rw [hm]
  rfl

/-- C56: without relaxation the estimate is the previous one times the ratio of successive density norms. -/
theorem C56_estimate (p : PI K) (phi : Nat → Nat → K) (n : Nat) (ho : p.omega = 1) :
    (p.after phi (n + 1)).keff = (p.after phi n).keff * nrm p.x.N (p.after phi (n + 1)).dens
      / nrm p.x.N (p.after phi n).dens := by
  rw [after_succ]
  show _ * normL1 (p.vec (p.relaxed _ _)) / normL1 (p.vec _) = _
  rw [normL1_vec, normL1_vec]
  unfold PI.relaxed
  rw [if_neg (by simp [ho])]
  rfl

theorem start_nrm (p : PI K) (phi : Nat → Nat → K)
    (hf : ∃ c < p.x.N, ∑ g ∈ range p.x.mat.G, p.x.mat.nuSigF g (p.x.mmap c) ≠ 0) :
    nrm p.x.N (p.start phi).dens = 1 := by
  obtain ⟨h1, t, _, h2⟩ := C25_initialize p.x hf
  rw [← h1]
  unfold nrm PI.start
  rw [h2, List.map_map]
  show _ = ∑ c ∈ range p.x.N, _
  refine sum_congr rfl fun c hc => ?_
  simp [List.getD_eq_getElem?_getD, mem_range.1 hc]

/-- C56: without relaxation the fission density always has the estimate as its norm. -/
theorem C56_norm (p : PI K) (phi : Nat → Nat → K) (ho : p.omega = 1)
    (hf : ∃ c < p.x.N, ∑ g ∈ range p.x.mat.G, p.x.mat.nuSigF g (p.x.mmap c) ≠ 0) (n : Nat)
    (hn : ∀ j < n, nrm p.x.N (p.after phi j).dens ≠ 0) :
    nrm p.x.N (p.after phi n).dens = (p.after phi n).keff := by
  induction n with
  | zero => exact start_nrm p phi hf
  | succ n ih =>
    have ih' := ih fun j hj => hn j (by omega)
    rw [C56_estimate p phi n ho, ← ih', mul_div_assoc, mul_div_cancel₀]
    exact hn n (by omega)

/-- C56: power iteration proper: after `n` iterations the density is a positive multiple of the `n`-th power of the
    fission operator applied to the first density, and the estimate is the ratio of the norms of successive
    powers. -/
theorem C56_power_method (p : PI K) (S) (h : Exact p S) (phi : Nat → Nat → K) (ho : p.omega = 1) (n : Nat)
    (hn : ∀ j ≤ n, nrm p.x.N ((fop p.x S)^[j] (p.start phi).dens) ≠ 0) :
    (∃ a : K, 0 < a ∧ (p.after phi n).dens = fun c => a * (fop p.x S)^[n] (p.start phi).dens c) ∧
    0 < (p.after phi n).keff ∧
    (0 < n → (p.after phi n).keff =
      nrm p.x.N ((fop p.x S)^[n] (p.start phi).dens) / nrm p.x.N ((fop p.x S)^[n - 1] (p.start phi).dens)) := by
  induction n with
  | zero => exact ⟨⟨1, one_pos, by funext c; simp [PI.after]⟩, one_pos, fun h => absurd h (by omega)⟩
  | succ n ih =>
    obtain ⟨⟨a, ha, hd⟩, hk, -⟩ := ih fun j hj => hn j (by omega)
    have hd' : (p.after phi (n + 1)).dens
        = fun c => (1 / (p.after phi n).keff * a) * (fop p.x S)^[n + 1] (p.start phi).dens c := by
      rw [after_succ, step_dens p S h, hd, fop_hom h, Function.iterate_succ_apply']
      funext c
      ring
    have hpos : 0 < 1 / (p.after phi n).keff * a := mul_pos (one_div_pos.2 hk) ha
    have hn0 := hn n (by omega)
    have hn1 := hn (n + 1) (le_refl _)
    have hkeff : (p.after phi (n + 1)).keff =
        nrm p.x.N ((fop p.x S)^[n + 1] (p.start phi).dens) / nrm p.x.N ((fop p.x S)^[n] (p.start phi).dens) := by
      rw [C56_estimate p phi n ho, hd', hd, nrm_smul, nrm_smul, abs_of_pos hpos, abs_of_pos ha]
      field_simp
    refine ⟨⟨_, hpos, hd'⟩, ?_, fun _ => by rw [hkeff, Nat.add_sub_cancel]⟩
    rw [hkeff]
    exact div_pos (lt_of_le_of_ne (nrm_nonneg _ _) hn1.symm) (lt_of_le_of_ne (nrm_nonneg _ _) hn0.symm)

/-- C56: what stopping means: with the density and estimate before the last iteration, the eigenvalue equation holds
    to within the estimate times the tolerance, and the last two estimates are close. -/
theorem C56_stopped (p : PI K) (S) (h : Exact p S) (phi : Nat → Nat → K) (ho : p.omega = 1) (n : Nat)
    (hk : 0 < (p.after phi n).keff) (hd : 0 < nrm p.x.N (p.after phi n).dens) (e : K)
    (he : (p.after phi (n + 1)).error = some e) :
    nrm p.x.N (fun c => fop p.x S (p.after phi n).dens c - (p.after phi n).keff * (p.after phi n).dens c)
      = (p.after phi n).keff * e ∧
    |(p.after phi (n + 1)).keff - (p.after phi n).keff| ≤ (p.after phi n).keff * e / nrm p.x.N (p.after phi n).dens := by
  have hres : e = nrm p.x.N fun c => (p.after phi (n + 1)).dens c - (p.after phi n).dens c := by
    rw [after_succ] at he ⊢
    have : some (normResL1 (p.vec (p.relaxed (p.iterate (p.after phi n)).dens (p.after phi n).dens))
        (p.vec (p.after phi n).dens)) = some e := he
    rw [normRes_vec] at this
    unfold PI.relaxed at this
    rw [if_neg (by simp [ho])] at this
    exact (Option.some.inj this).symm
  have hd1 : (p.after phi (n + 1)).dens = fun c => 1 / (p.after phi n).keff * fop p.x S (p.after phi n).dens c := by
    rw [after_succ, step_dens p S h]
  refine ⟨?_, ?_⟩
  · rw [hres, hd1]
    conv_rhs => rw [← abs_of_pos hk]
    rw [← nrm_smul]
    congr 1
    funext c
    rw [abs_of_pos hk]
    field_simp
  · have h1 := C56_estimate p phi n ho
    have h2 : |nrm p.x.N (p.after phi (n + 1)).dens - nrm p.x.N (p.after phi n).dens| ≤ e := by
      rw [hres]
      unfold nrm
      rw [← sum_sub_distrib]
      refine le_trans (abs_sum_le_sum_abs _ _) (sum_le_sum fun c _ => ?_)
      exact abs_abs_sub_abs_le_abs_sub _ _
    have h3 : (p.after phi (n + 1)).keff - (p.after phi n).keff
        = (p.after phi n).keff * (nrm p.x.N (p.after phi (n + 1)).dens - nrm p.x.N (p.after phi n).dens)
          / nrm p.x.N (p.after phi n).dens := by
      rw [h1]
      field_simp
    rw [h3, abs_div, abs_mul, abs_of_pos hk, abs_of_pos hd]
    exact div_le_div_of_nonneg_right (mul_le_mul_of_nonneg_left h2 hk.le) hd.le

/-- C56: distance to the true eigenvalue: with a left eigenvector `w` (values between 0 and `W`) of the fission
    operator for `lam`, an iteration with error `e` has estimate within `W * keff * e / (w, density)` of `lam`. -/
theorem C56_eigenvalue_error (p : PI K) (S) (h : Exact p S) (phi : Nat → Nat → K) (ho : p.omega = 1) (n : Nat)
    (hk : 0 < (p.after phi n).keff) (hd : 0 < nrm p.x.N (p.after phi n).dens) (e : K)
    (he : (p.after phi (n + 1)).error = some e) (lam W : K) (w : Nat → K)
    (hw : ∀ d : Nat → K, ∑ c ∈ range p.x.N, w c * fop p.x S d c = lam * ∑ c ∈ range p.x.N, w c * d c)
    (hW : ∀ c < p.x.N, |w c| ≤ W) (hpos : 0 < ∑ c ∈ range p.x.N, w c * (p.after phi n).dens c) :
    |lam - (p.after phi n).keff| ≤ W * ((p.after phi n).keff * e) / ∑ c ∈ range p.x.N, w c * (p.after phi n).dens c := by
  have hs := (C56_stopped p S h phi ho n hk hd e he).1
  rw [le_div_iff₀ hpos, ← hs]
  have e1 : (lam - (p.after phi n).keff) * ∑ c ∈ range p.x.N, w c * (p.after phi n).dens c
      = ∑ c ∈ range p.x.N, w c *
        (fop p.x S (p.after phi n).dens c - (p.after phi n).keff * (p.after phi n).dens c) := by
    rw [sub_mul, ← hw, mul_sum, ← sum_sub_distrib]
    exact sum_congr rfl fun c _ => by ring
  calc |lam - (p.after phi n).keff| * ∑ c ∈ range p.x.N, w c * (p.after phi n).dens c
      = |(lam - (p.after phi n).keff) * ∑ c ∈ range p.x.N, w c * (p.after phi n).dens c| := by
        rw [abs_mul, abs_of_pos hpos]
    _ ≤ ∑ c ∈ range p.x.N, |w c *
        (fop p.x S (p.after phi n).dens c - (p.after phi n).keff * (p.after phi n).dens c)| := by
        rw [e1]; exact abs_sum_le_sum_abs _ _
    _ ≤ _ := by
        unfold nrm
        rw [mul_sum]
        refine sum_le_sum fun c hc => ?_
        rw [abs_mul]
        exact mul_le_mul_of_nonneg_right (hW c (mem_range.1 hc)) (abs_nonneg _)

/-- Iterations from an exact eigenvector, with relaxation between 0 and 1: the density stays a positive multiple of it
    and the estimates move from 1 towards the eigenvalue by the factor `1 - omega`. -/
theorem C56_relaxed_eigenpair (p : PI K) (S) (h : Exact p S) (phi : Nat → Nat → K) (lam : K) (hlam : 0 < lam)
    (hd : 0 < nrm p.x.N (p.start phi).dens) (hev : fop p.x S (p.start phi).dens = fun c => lam * (p.start phi).dens c)
    (h0 : 0 < p.omega) (h1 : p.omega ≤ 1) (n : Nat) :
    (∃ a, 0 < a ∧ (p.after phi n).dens = fun c => a * (p.start phi).dens c) ∧
    (p.after phi n).keff = lam + (1 - p.omega) ^ n * (1 - lam) ∧ 0 < (p.after phi n).keff := by
  induction n with
  | zero => exact ⟨⟨1, one_pos, by funext c; simp [PI.after]⟩, by simp [PI.after, PI.start], one_pos⟩
  | succ n ih =>
    obtain ⟨⟨a, ha, hda⟩, hk, hkp⟩ := ih
    set k := (p.after phi n).keff with hkdef
    have hd1 : (p.after phi (n + 1)).dens = fun c => (1 / k * lam * a) * (p.start phi).dens c := by
      rw [after_succ, step_dens p S h, hda, fop_hom h, hev]
      funext c
      ring
    have hfd : p.relaxed (p.after phi (n + 1)).dens (p.after phi n).dens
        = fun c => (p.omega * (1 / k * lam * a) + (1 - p.omega) * a) * (p.start phi).dens c := by
      unfold PI.relaxed
      rw [hd1, hda]
      by_cases ho : p.omega = 1
      · rw [if_neg (by simp [ho])]
        funext c
        rw [ho]; ring
      · rw [if_pos ho]
        funext c
        ring
    have hco : 0 < p.omega * (1 / k * lam * a) + (1 - p.omega) * a := by
      have : 0 < 1 / k * lam * a := mul_pos (mul_pos (one_div_pos.2 hkp) hlam) ha
      have : 0 ≤ (1 - p.omega) * a := mul_nonneg (by linarith) ha.le
      have : 0 < p.omega * (1 / k * lam * a) := mul_pos h0 ‹_›
      linarith
    have hkn : (p.after phi (n + 1)).keff = p.omega * lam + (1 - p.omega) * k := by
      rw [after_succ]
      show k * normL1 (p.vec (p.relaxed (p.iterate (p.after phi n)).dens (p.after phi n).dens)) /
        normL1 (p.vec (p.after phi n).dens) = _
      rw [← after_succ, normL1_vec, normL1_vec, hfd, hda, nrm_smul, nrm_smul, abs_of_pos hco, abs_of_pos ha]
      have := hd.ne'
      have := hkp.ne'
      field_simp
    refine ⟨⟨_, mul_pos (mul_pos (one_div_pos.2 hkp) hlam) ha, hd1⟩, ?_, ?_⟩
    · rw [hkn, hk, pow_succ]
      ring
    · rw [hkn]
      have : 0 < p.omega * lam := mul_pos h0 hlam
      have : 0 ≤ (1 - p.omega) * k := mul_nonneg (by linarith) hkp.le
      linarith

/-- C56: without relaxation an exact eigenpair is reproduced: for any positive limit and tolerance the eigenvalue is
    stored, and at most two iterations are made. -/
theorem C56_eigenpair (p : PI K) (S) (h : Exact p S) (phi : Nat → Nat → K) (lam : K) (hlam : 0 < lam)
    (hd : 0 < nrm p.x.N (p.start phi).dens) (hev : fop p.x S (p.start phi).dens = fun c => lam * (p.start phi).dens c)
    (ho : p.omega = 1) (hm : 0 < p.maxIt) (ht : 0 < p.tol) :
    ∃ r m, p.run phi = some r ∧ r.keff = lam ∧ r.last = p.after phi m ∧ m ≤ 2 ∧
      (2 ≤ p.maxIt → r.warned = false) := by
  obtain ⟨m, m1, m2, m3, m4, m5⟩ := C56_reported p phi hm
  have hko : ∀ n, 0 < n → (p.after phi n).keff = lam := by
    intro n hn
    rw [(C56_relaxed_eigenpair p S h phi lam hlam hd hev (by rw [ho]; exact one_pos) (by rw [ho]) n).2.1, ho,
      sub_self, zero_pow (by omega), zero_mul, add_zero]
  have herr : ∀ n, 2 ≤ n → (p.after phi n).error = some 0 := by
    intro n hn
    obtain ⟨n, rfl⟩ : ∃ i, n = i + 1 := ⟨n - 1, by omega⟩
    obtain ⟨⟨a, ha, hda⟩, -, -⟩ :=
      C56_relaxed_eigenpair p S h phi lam hlam hd hev (by rw [ho]; exact one_pos) (by rw [ho]) n
    have hk := hko n (by omega)
    rw [after_succ]
    show some (normResL1 (p.vec (p.relaxed (p.iterate (p.after phi n)).dens _)) _) = _
    rw [normRes_vec]
    unfold PI.relaxed
    rw [if_neg (by simp [ho]), step_dens p S h, hk, hda, fop_hom h, hev]
    congr 1
    unfold nrm
    refine sum_eq_zero fun c _ => ?_
    rw [abs_eq_zero]
    field_simp
    ring
  refine ⟨_, m, m3, hko m m1, rfl, ?_, ?_⟩
  · by_contra hgt
    exact m4 2 (by omega) (by omega) 0 (herr 2 (le_refl _)) ht
  · intro h2
    show ((p.after phi m).error.any fun e => decide (e > p.tol)) = false
    by_cases hm1 : m = 1
    · obtain ⟨e, he, hlt⟩ := m5 (by omega)
      rw [he]
      simp [hlt.le]
    · rw [herr m (by omega)]
      simp [ht.le]

/-! ## Relaxation -/

/-- The full claim, for every relaxation factor the input can give. -/
def C56Claim : Prop :=
  ∀ (p : PI ℚ) (S : (Nat → Nat → ℚ) → Nat → Nat → ℚ) (phi : Nat → Nat → ℚ) (lam : ℚ), Exact p S → 0 < lam →
    0 < nrm p.x.N (p.start phi).dens → fop p.x S (p.start phi).dens = (fun c => lam * (p.start phi).dens c) →
    0 < p.maxIt → 0 < p.tol → ∃ r, p.run phi = some r ∧ r.keff = lam

/-- One cell, one group, `nu-sigma-f` 1 and removal 1/2: eigenvalue 2. -/
def unitMat : Mat ℚ := { (Mat.new 1 1 : Mat ℚ) with nuSigF := fun _ _ => 1, chi := fun _ _ => 1 }

def unitPI (omega : ℚ) (n : Nat) : PI ℚ := ⟨⟨unitMat, 1, fun _ => 0, false⟩, fun q _ g c => 2 * q g c, n, 1 / 100, omega⟩

theorem unit_exact (omega : ℚ) (n : Nat) : Exact (unitPI omega n) fun q g c => 2 * q g c :=
  ⟨fun _ _ => rfl, fun a q => by funext g c; ring⟩

theorem unit_start (omega : ℚ) (n : Nat) (phi) : ((unitPI omega n).start phi).dens = fun c => if c < 1 then 1 else 0 := by
  funext c
  have : (⟨unitMat, 1, fun _ => 0, false⟩ : Src ℚ).initDensity = [1] := by decide +kernel
  show (⟨unitMat, 1, fun _ => 0, false⟩ : Src ℚ).initDensity.getD c 0 = _
  rw [this]
  cases c <;> simp

theorem unit_eigen (omega : ℚ) (n : Nat) (phi) :
    fop (unitPI omega n).x (fun q g c => 2 * q g c) ((unitPI omega n).start phi).dens
      = fun c => 2 * ((unitPI omega n).start phi).dens c := by
  rw [unit_start]
  funext c
  unfold fop
  by_cases hc : c < 1
  · have e : c < (unitPI omega n).x.N := hc
    rw [if_pos e]
    show ∑ g ∈ range 1, _ = _
    simp [hc, unitPI, unitMat]
  · have e : ¬ c < (unitPI omega n).x.N := hc
    rw [if_neg e]
    simp [hc]

example : ∃ r, (unitPI 1 5).run (fun _ _ => 0) = some r ∧ r.keff = 2 := by
  obtain ⟨r, m, h1, h2, -⟩ := C56_eigenpair (unitPI 1 5) _ (unit_exact 1 5) (fun _ _ => 0) 2 (by norm_num)
    (by rw [unit_start]; decide +kernel) (unit_eigen 1 5 _) rfl (by decide) (by decide +kernel)
  exact ⟨r, h1, h2⟩

/-- With relaxation an exact eigenpair is not reproduced. -/
theorem C56_claim_fails : ¬ C56Claim := by
  intro h
  have hr := h (unitPI (1 / 2) 1) _ (fun _ _ => 0) 2 (unit_exact _ _) (by norm_num)
    (by rw [unit_start]; decide +kernel) (unit_eigen _ _ _) (by decide) (by decide +kernel)
  obtain ⟨r, h1, h2⟩ := hr
  have : ((unitPI (1 / 2) 1).run (fun _ _ => 0)).map (·.keff) = some (3 / 2) := by decide +kernel
  rw [h1] at this
  simp [h2] at this
  exact absurd this (by norm_num)

end Detran.EigenPI
