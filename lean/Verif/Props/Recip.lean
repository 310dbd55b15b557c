import Verif.Lemmas.Recip
import Verif.Props.GaussSeidel

/-!
# Reciprocity, and what an adjoint solve computes (C130)
-/

namespace Detran.WGReflect

open Detran.Sweep (St)
open Detran.Boundary (Bd BC Loc Enters Mirror)
open Finset

section main
variable {F K : Type} [Field K]
variable {P : Prob F K} {w V : Nat → K} {fw : Nat → Nat → Nat → Nat → K}
  {Sol : (Nat → K) → Nat → Nat → (Nat → F) → (Nat → K) → Prop}

/-- Products of the fluxes of two problems through a side, outward minus inward, the second problem's in the opposite
    direction. -/
def sideNet (P : Prob F K) (w : Nat → K) (fw : Nat → Nat → Nat → Nat → K) (b b' : Bd F) (s : Nat) : K :=
  ∑ a ∈ range P.na, w a * (∑ o ∈ range (2 ^ P.dim),
    (if Enters s o then 0 else faceDot P fw s a (b s o a) (b' s (rev P.dim o) a)) -
    ∑ o ∈ range (2 ^ P.dim), (if Enters s o then faceDot P fw s a (b s o a) (b' s (rev P.dim o) a) else 0))

/-- Two problems with any sources and any side conditions. -/
theorem pair_total (R : Reciprocal P Sol V fw) (src src' : Nat → Nat → Nat → K) (b b' : Bd F) (psi psi' : Nat → Nat → Nat → K)
    (h1 : 1 ≤ P.dim) (h3 : P.dim ≤ 3)
    (hc : ∀ o < 2 ^ P.dim, ∀ a < P.na, Sol (src o a) o a (fun f => b f o a) (psi o a))
    (hc' : ∀ o < 2 ^ P.dim, ∀ a < P.na, Sol (src' o a) o a (fun f => b' f o a) (psi' o a)) :
    ∑ c ∈ range P.N, V c * ∑ o ∈ range (2 ^ P.dim), ∑ a ∈ range P.na, w a * (src o a c * psi' (rev P.dim o) a c) -
    ∑ c ∈ range P.N, V c * ∑ o ∈ range (2 ^ P.dim), ∑ a ∈ range P.na, w a * (src' (rev P.dim o) a c * psi o a c) =
      ∑ s ∈ range (2 * P.dim), sideNet P w fw b b' s := by
  have e1 : ∑ c ∈ range P.N, V c * ∑ o ∈ range (2 ^ P.dim), ∑ a ∈ range P.na, w a * (src o a c * psi' (rev P.dim o) a c) -
    ∑ c ∈ range P.N, V c * ∑ o ∈ range (2 ^ P.dim), ∑ a ∈ range P.na, w a * (src' (rev P.dim o) a c * psi o a c) =
    ∑ o ∈ range (2 ^ P.dim), ∑ a ∈ range P.na, w a * ∑ c ∈ range P.N,
      V c * (src o a c * psi' (rev P.dim o) a c - src' (rev P.dim o) a c * psi o a c) := by
    rw [swap_sums, ← sum_sub_distrib]
    refine sum_congr rfl fun c _ => ?_
    rw [← mul_sub, ← sum_sub_distrib, mul_sum]
    refine sum_congr rfl fun o _ => ?_
    rw [← sum_sub_distrib, mul_sum]
    exact sum_congr rfl fun a _ => by ring
  rw [e1]
  unfold sideNet
  rw [sum_comm, sum_comm (s := range (2 * P.dim))]
  refine sum_congr rfl fun a ha => ?_
  rw [← mul_sum, ← mul_sum]
  congr 1
  have sw : ∀ g : Nat → Nat → K, ∑ s ∈ range (2 * P.dim), ∑ o ∈ range (2 ^ P.dim), g s o =
      ∑ o ∈ range (2 ^ P.dim), ∑ s ∈ range (2 * P.dim), g s o := fun g => sum_comm
  rw [sum_sub_distrib, sw, sw, ← sum_sub_distrib]
  refine sum_congr rfl fun o ho => ?_
  have ho := mem_range.1 ho
  exact R _ _ o a _ _ _ _ ho (mem_range.1 ha) (hc o ho a (mem_range.1 ha))
    (hc' _ (rev_facts P.dim h1 h3 o ho).1 a (mem_range.1 ha))

/-- No flux enters through a side. -/
def NoEntry (P : Prob F K) (b : Bd F) (s : Nat) : Prop :=
  ∀ o < 2 ^ P.dim, Enters s o → ∀ a < P.na, ∀ i j, InFace P s i j → P.get (b s o a) i j = 0

/-- What enters through a side is what the mirror direction brings there. -/
def Mirrored (P : Prob F K) (b : Bd F) (s : Nat) : Prop :=
  ∀ o < 2 ^ P.dim, Enters s o → ∀ o', Mirror P.dim s o o' → ∀ a < P.na, ∀ i j, InFace P s i j →
    P.get (b s o a) i j = P.get (b s o' a) i j

theorem net_entry (h1 : 1 ≤ P.dim) (h3 : P.dim ≤ 3) (b b' : Bd F) {s : Nat} (hs : s < 2 * P.dim) (h' : NoEntry P b' s) :
    sideNet P w fw b b' s = - ∑ a ∈ range P.na, w a * ∑ o ∈ range (2 ^ P.dim),
      (if Enters s o then faceDot P fw s a (b s o a) (b' s (rev P.dim o) a) else 0) := by
  unfold sideNet
  rw [← sum_neg_distrib]
  refine sum_congr rfl fun a ha => ?_
  have e : ∑ o ∈ range (2 ^ P.dim), (if Enters s o then 0 else faceDot P fw s a (b s o a) (b' s (rev P.dim o) a)) = 0 := by
    refine sum_eq_zero fun o ho => ?_
    split
    · rfl
    · next he =>
      obtain ⟨r1, _, _, _, r5⟩ := rev_facts P.dim h1 h3 o (mem_range.1 ho)
      exact faceDot_zero' (h' _ r1 ((r5 s hs).1.2 he) a (mem_range.1 ha))
  rw [e]
  ring

theorem net_vacuum (h1 : 1 ≤ P.dim) (h3 : P.dim ≤ 3) (b b' : Bd F) {s : Nat} (hs : s < 2 * P.dim)
    (h : NoEntry P b s) (h' : NoEntry P b' s) : sideNet P w fw b b' s = 0 := by
  rw [net_entry h1 h3 b b' hs h', neg_eq_zero]
  refine sum_eq_zero fun a ha => ?_
  rw [sum_eq_zero, mul_zero]
  intro o ho
  split
  · next he => exact faceDot_zero (h o (mem_range.1 ho) he a (mem_range.1 ha))
  · rfl

theorem net_reflect (h1 : 1 ≤ P.dim) (h3 : P.dim ≤ 3) (b b' : Bd F) {s : Nat} (hs : s < 2 * P.dim)
    (h : Mirrored P b s) (h' : Mirrored P b' s) : sideNet P w fw b b' s = 0 := by
  unfold sideNet
  refine sum_eq_zero fun a ha => ?_
  have ha := mem_range.1 ha
  rw [sum_mirror P.dim h1 h3 s hs, ← sum_sub_distrib, sum_eq_zero, mul_zero]
  intro o ho
  have ho := mem_range.1 ho
  split
  · next he =>
    obtain ⟨r1, r2, _, _, r5⟩ := rev_facts P.dim h1 h3 o ho
    obtain ⟨m1, m2, m3, m4⟩ := mir_facts P.dim h1 h3 s hs o ho
    obtain ⟨n1, n2, n3, n4⟩ := mir_facts P.dim h1 h3 s hs _ r1
    rw [sub_eq_zero]
    refine faceDot_congr (fun i j hi => (h o ho he _ m2 a ha i j hi).symm) fun i j hi => ?_
    rw [(r5 s hs).2]
    have k := (mir_facts P.dim h1 h3 s hs _ n1).2.1
    rw [n3] at k
    exact h' _ n1 (n4.2 (fun x => (r5 s hs).1.1 x he)) _ k a ha i j hi
  · simp

/-! ## One group -/

/-- What is asked of a group: isotropic sources, scattering `ss` cell by cell. -/
structure Iso (P : Prob F K) (ss : Nat → K) (m : K) : Prop where
  mtod : ∀ o < 2 ^ P.dim, ∀ a < P.na, P.mtod o a = m
  mne : m ≠ 0
  scat : ∀ f, ∀ c < P.N, P.scat f c = ss c * f c

/-- The problem with another fixed source and other side conditions. -/
def Prob.alter (P : Prob F K) (f : Nat → K) (bc : Nat → BC F) : Prob F K := { P with fixed := f, bc := bc }

/-- Both problems have vacuum, or both reflect. -/
def Alike (b b' : BC F) : Prop := (b = .vacuum ∧ b' = .vacuum) ∨ (b = .reflect ∧ b' = .reflect)

theorem noEntry {src phi eF eB b psi} (h : Solution P w Sol src phi eF eB b psi) {s : Nat} (hs : s < 2 * P.dim)
    (hv : P.bc s = .vacuum) : NoEntry P b s := h.vacuum s hs hv

theorem mirrored {src phi eF b psi} (h : Solution P w Sol src phi eF (fun _ => 0) b psi) {s : Nat} (hs : s < 2 * P.dim)
    (hv : P.bc s = .reflect) : Mirrored P b s := fun o ho he o' hm a ha i j hi =>
  sub_eq_zero.1 (h.reflect s hs hv o ho he o' hm a ha i j hi)

open Classical in
/-- Directional sources `e` and `e'` beside the isotropic ones, and sides treated differently: the whole balance. -/
theorem pair_balance {ss : Nat → K} {m : K} (R : Reciprocal P Sol V fw) (h1 : 1 ≤ P.dim) (h3 : P.dim ≤ 3)
    (f f' phi phi' : Nat → K)
    (e e' : Nat → Nat → Nat → K) (bc bc' : Nat → BC F) (b b' : Bd F) (psi psi' : Nat → Nat → Nat → K)
    (h : Solution (P.alter f bc) w Sol (fun o a c => (f c + ss c * phi c) * m + e o a c) phi (fun _ => 0) (fun _ => 0) b psi)
    (h' : Solution (P.alter f' bc') w Sol (fun o a c => (f' c + ss c * phi' c) * m + e' o a c) phi' (fun _ => 0)
      (fun _ => 0) b' psi') :
    m * ∑ c ∈ range P.N, V c * (f c * phi' c) + ∑ c ∈ range P.N, V c * ∑ o ∈ range (2 ^ P.dim), ∑ a ∈ range P.na,
      w a * (e o a c * psi' (rev P.dim o) a c) =
    m * ∑ c ∈ range P.N, V c * (f' c * phi c) + ∑ c ∈ range P.N, V c * ∑ o ∈ range (2 ^ P.dim), ∑ a ∈ range P.na,
      w a * (e' (rev P.dim o) a c * psi o a c) +
    ∑ s ∈ range (2 * P.dim), if Alike (bc s) (bc' s) then 0 else sideNet P w fw b b' s := by
  have T := pair_total (w := w) R _ _ b b' psi psi' h1 h3 h.cells h'.cells
  have S : ∑ s ∈ range (2 * P.dim), (if Alike (bc s) (bc' s) then 0 else sideNet P w fw b b' s) =
      ∑ s ∈ range (2 * P.dim), sideNet P w fw b b' s := by
    refine sum_congr rfl fun s hs => ?_
    have hs := mem_range.1 hs
    split
    · next hk =>
      rcases hk with ⟨k1, k2⟩ | ⟨k1, k2⟩
      · exact (net_vacuum h1 h3 b b' hs (noEntry h hs k1) (noEntry h' hs k2)).symm
      · exact (net_reflect h1 h3 b b' hs (mirrored h hs k1) (mirrored h' hs k2)).symm
    · rfl
  rw [S, ← T]
  have f1 : ∀ c < P.N, phi c = ∑ o ∈ range (2 ^ P.dim), ∑ a ∈ range P.na, w a * psi o a c := fun c hc => by
    have := h.flux c hc
    rwa [add_zero] at this
  have f2 : ∀ c < P.N, phi' c = ∑ o ∈ range (2 ^ P.dim), ∑ a ∈ range P.na, w a * psi' (rev P.dim o) a c := fun c hc => by
    have := h'.flux c hc
    rw [add_zero] at this
    rw [this]
    exact (sum_rev P.dim h1 h3 fun o => ∑ a ∈ range P.na, w a * psi' o a c).symm
  have g1 : ∀ c ∈ range P.N, V c * ∑ o ∈ range (2 ^ P.dim), ∑ a ∈ range P.na,
      w a * (((f c + ss c * phi c) * m + e o a c) * psi' (rev P.dim o) a c) =
      m * (V c * (f c * phi' c)) + m * (V c * ss c * phi c * phi' c) + V c * ∑ o ∈ range (2 ^ P.dim), ∑ a ∈ range P.na,
        w a * (e o a c * psi' (rev P.dim o) a c) := by
    intro c hc
    have hc := mem_range.1 hc
    have : ∑ o ∈ range (2 ^ P.dim), ∑ a ∈ range P.na,
        w a * (((f c + ss c * phi c) * m + e o a c) * psi' (rev P.dim o) a c) =
        (f c + ss c * phi c) * m * phi' c + ∑ o ∈ range (2 ^ P.dim), ∑ a ∈ range P.na,
          w a * (e o a c * psi' (rev P.dim o) a c) := by
      rw [f2 c hc, mul_sum, ← sum_add_distrib]
      refine sum_congr rfl fun o _ => ?_
      rw [mul_sum, ← sum_add_distrib]
      exact sum_congr rfl fun a _ => by ring
    rw [this]
    ring
  have g2 : ∀ c ∈ range P.N, V c * ∑ o ∈ range (2 ^ P.dim), ∑ a ∈ range P.na,
      w a * (((f' c + ss c * phi' c) * m + e' (rev P.dim o) a c) * psi o a c) =
      m * (V c * (f' c * phi c)) + m * (V c * ss c * phi c * phi' c) + V c * ∑ o ∈ range (2 ^ P.dim), ∑ a ∈ range P.na,
        w a * (e' (rev P.dim o) a c * psi o a c) := by
    intro c hc
    have hc := mem_range.1 hc
    have : ∑ o ∈ range (2 ^ P.dim), ∑ a ∈ range P.na,
        w a * (((f' c + ss c * phi' c) * m + e' (rev P.dim o) a c) * psi o a c) =
        (f' c + ss c * phi' c) * m * phi c + ∑ o ∈ range (2 ^ P.dim), ∑ a ∈ range P.na,
          w a * (e' (rev P.dim o) a c * psi o a c) := by
      rw [f1 c hc, mul_sum, ← sum_add_distrib]
      refine sum_congr rfl fun o _ => ?_
      rw [mul_sum, ← sum_add_distrib]
      exact sum_congr rfl fun a _ => by ring
    rw [this]
    ring
  rw [sum_congr rfl g1, sum_congr rfl g2]
  simp only [sum_add_distrib, ← mul_sum]
  ring


theorem iso_flux {ss : Nat → K} {m : K} (hI : Iso P ss m) (hw : Sweeps P w Sol) (f phi : Nat → K) (bc : Nat → BC F)
    (h : IsFlux (P.alter f bc) w Sol phi) :
    ∃ b psi, Solution (P.alter f bc) w Sol (fun _ _ c => (f c + ss c * phi c) * m + 0) phi (fun _ => 0) (fun _ => 0) b psi := by
  obtain ⟨b, psi, h⟩ := h
  refine ⟨b, psi, ?_, h.flux, h.vacuum, h.given, h.reflect⟩
  intro o ho a ha
  have ho' : o < 2 ^ P.dim := ho
  have ha' : a < P.na := ha
  refine MGReflect.sol_congr hw ho' (h.cells o ho a ha) fun c hc => ?_
  have e : (P.alter f bc).moments phi c = phi c := if_pos hc
  change (f c + ss c * phi c) * m + 0 = (f c + P.scat ((P.alter f bc).moments phi) c) * P.mtod o a
  rw [hI.scat _ c hc, hI.mtod o ho' a ha', e, add_zero]

/-- Reciprocity: the fluxes of two fixed sources `f` and `f'`, each weighted with the other source, agree, for every
    mesh, quadrature, total and scattering, with vacuum and reflecting sides. -/
theorem C130_reciprocity {ss : Nat → K} {m : K} (R : Reciprocal P Sol V fw) (h : Sweeps P w Sol) (hI : Iso P ss m)
    (hbc : ∀ s < 2 * P.dim, P.bc s = .vacuum ∨ P.bc s = .reflect) (f f' phi phi' : Nat → K)
    (hf : IsFlux (P.alter f P.bc) w Sol phi) (hf' : IsFlux (P.alter f' P.bc) w Sol phi') :
    ∑ c ∈ range P.N, V c * (f c * phi' c) = ∑ c ∈ range P.N, V c * (f' c * phi c) := by
  classical
  obtain ⟨b, psi, k⟩ := iso_flux hI h f phi P.bc hf
  obtain ⟨b', psi', k'⟩ := iso_flux hI h f' phi' P.bc hf'
  have T := pair_balance (fw := fw) R h.d1 h.d3 f f' phi phi' (fun _ _ _ => 0) (fun _ _ _ => 0) P.bc P.bc b b' psi psi' k k'
  rw [sum_eq_zero (s := range (2 * P.dim))] at T
  · simp only [zero_mul, mul_zero, sum_const_zero, add_zero] at T
    exact mul_left_cancel₀ hI.mne T
  · intro s hs
    rw [if_pos]
    rcases hbc s (mem_range.1 hs) with e | e
    · exact Or.inl ⟨e, e⟩
    · exact Or.inr ⟨e, e⟩

/-- Source and detector change places: a unit source in cell `i` gives in cell `j`, times the volume of `j`, what a unit
    source in `j` gives in `i`, times the volume of `i`. -/
theorem C130_exchange {ss : Nat → K} {m : K} (R : Reciprocal P Sol V fw) (h : Sweeps P w Sol) (hI : Iso P ss m)
    (hbc : ∀ s < 2 * P.dim, P.bc s = .vacuum ∨ P.bc s = .reflect) (i j : Nat) (hi : i < P.N) (hj : j < P.N)
    (phi phi' : Nat → K) (hf : IsFlux (P.alter (fun c => if c = i then V j else 0) P.bc) w Sol phi)
    (hf' : IsFlux (P.alter (fun c => if c = j then V i else 0) P.bc) w Sol phi') (hVi : V i ≠ 0) (hVj : V j ≠ 0) :
    phi j = phi' i := by
  have := C130_reciprocity R h hI hbc _ _ phi phi' hf hf'
  simp only [ite_mul, zero_mul, mul_ite, mul_zero, sum_ite_eq', mem_range, hi, hj, if_true] at this
  have e : V i * V j * (phi j - phi' i) = 0 := by linear_combination -this
  rcases mul_eq_zero.1 e with e | e
  · exact absurd e (mul_ne_zero hVi hVj)
  · exact sub_eq_zero.1 e

open Classical in
/-- Incident flux: what a detector `f'` sees of sources `f` and of any flux given on sides is the sources weighted with
    the detector's own flux `phi'`, plus, over the sides that differ, the entering flux weighted with the flux of the
    detector's problem that leaves there in the opposite direction. -/
theorem C130_boundary {ss : Nat → K} {m : K} (R : Reciprocal P Sol V fw) (h1 : 1 ≤ P.dim) (h3 : P.dim ≤ 3)
    (f f' phi phi' : Nat → K) (bc bc' : Nat → BC F) (hbc : ∀ s < 2 * P.dim, ¬ Alike (bc s) (bc' s) → bc' s = .vacuum)
    (b b' : Bd F) (psi psi' : Nat → Nat → Nat → K)
    (h : Solution (P.alter f bc) w Sol (fun _ _ c => (f c + ss c * phi c) * m) phi (fun _ => 0) (fun _ => 0) b psi)
    (h' : Solution (P.alter f' bc') w Sol (fun _ _ c => (f' c + ss c * phi' c) * m) phi' (fun _ => 0) (fun _ => 0) b' psi') :
    m * ∑ c ∈ range P.N, V c * (f' c * phi c) = m * ∑ c ∈ range P.N, V c * (f c * phi' c) +
      ∑ s ∈ range (2 * P.dim), if Alike (bc s) (bc' s) then 0 else ∑ a ∈ range P.na, w a * ∑ o ∈ range (2 ^ P.dim),
        (if Enters s o then faceDot P fw s a (b s o a) (b' s (rev P.dim o) a) else 0) := by
  have k : Solution (P.alter f bc) w Sol (fun _ _ c => (f c + ss c * phi c) * m + 0) phi (fun _ => 0) (fun _ => 0) b psi := by
    simpa using h
  have k' : Solution (P.alter f' bc') w Sol (fun _ _ c => (f' c + ss c * phi' c) * m + 0) phi' (fun _ => 0) (fun _ => 0)
      b' psi' := by simpa using h'
  have T := pair_balance (fw := fw) R h1 h3 f f' phi phi' (fun _ _ _ => 0) (fun _ _ _ => 0) bc bc' b b' psi psi' k k'
  simp only [zero_mul, mul_zero, sum_const_zero, add_zero] at T
  have e : ∑ s ∈ range (2 * P.dim), (if Alike (bc s) (bc' s) then 0 else sideNet P w fw b b' s) =
      - ∑ s ∈ range (2 * P.dim), (if Alike (bc s) (bc' s) then 0 else ∑ a ∈ range P.na, w a * ∑ o ∈ range (2 ^ P.dim),
        (if Enters s o then faceDot P fw s a (b s o a) (b' s (rev P.dim o) a) else 0)) := by
    rw [← sum_neg_distrib]
    refine sum_congr rfl fun s hs => ?_
    split
    · simp
    · next hk =>
      exact net_entry h1 h3 b b' (mem_range.1 hs) (noEntry h' (mem_range.1 hs) (hbc s (mem_range.1 hs) hk))
  rw [e] at T
  linear_combination -T

end main
/-! ## Two unequal cells, one group -/

section cases
open Detran.Sweep (Solves1 dd1 C27_schemes_linear)

/-- Widths of the two cells. -/
def wide : Nat → ℚ := fun i => if i = 0 then 1 else 2

/-- Diamond differencing in both cells. -/
def ddw : Nat → Nat → ℚ → ℚ → ℚ × ℚ := fun _ i => dd1 1 (wide i) 1

/-- A slab of the two cells between vacua, without scattering. -/
def duo : Prob ℚ ℚ :=
  prob1 ddw (fun _ => 1 / 2) 2 1 true (fun _ => .vacuum) [0, 1] (fun _ _ => 0) (fun _ => 0) (fun _ _ => 1) []

def duoSol : (Nat → ℚ) → Nat → Nat → (Nat → ℚ) → (Nat → ℚ) → Prop :=
  fun q o a b p => Solves1 2 (fun i => ddw a i (q i)) o b p

theorem wide_pos : ∀ i, 0 < wide i := fun i => by unfold wide; split <;> norm_num

theorem ddw_lin : ∀ a i, Sweep.LinEq1 (ddw a i) := fun _ i =>
  (C27_schemes_linear (fun x : ℚ => x) 1 1 1 (wide i) 1 1 1).1

theorem duo_sweeps : Sweeps duo (fun _ => 1 / 2) duoSol :=
  sweeps1 ddw ddw_lin _ 2 1 true _ _ (List.Perm.refl _) _ _ _ _

theorem duo_recip : Reciprocal duo duoSol wide (fun _ _ _ _ => 1) :=
  reciprocal1 ddw _ 2 1 true _ _ _ _ _ _ wide (fun _ => 1) fun _ _ i _ =>
    recip_dd1 1 (wide i) 1 (wide_pos i).ne' (by have := wide_pos i; positivity)

/-- Source in the first cell. -/
theorem duo_first : IsFlux (duo.alter (fun c => if c = 0 then wide 1 else 0) duo.bc) (fun _ => 1 / 2) duoSol
    (fun c => if c = 0 then 2 / 3 else 1 / 3) := by
  refine ⟨fun s o _ => if o = 0 then (if s = 1 then 0 else 0) else (if s = 0 then 4 / 3 else 0),
    fun o _ c => if c = 0 then 2 / 3 else if o = 0 then 2 / 3 else 0, ?_, ?_, ?_, ?_, ?_⟩
  · intro o ho a ha
    have ho : o < 2 := ho
    obtain rfl : a = 0 := Nat.lt_one_iff.1 ha
    interval_cases o
    · exact ⟨fun p => if p = 1 then 4 / 3 else 0, by decide +kernel, by decide +kernel, by decide +kernel⟩
    · exact ⟨fun p => if p = 2 then 4 / 3 else 0, by decide +kernel, by decide +kernel, by decide +kernel⟩
  · intro c hc
    have hc : c < 2 := hc
    interval_cases c <;> decide +kernel
  · intro side hs _ o ho he a ha i j hi
    have ho : o < 2 := ho
    have hs : side < 2 := hs
    interval_cases side <;> interval_cases o
    · rfl
    · exact absurd he (by decide)
    · exact absurd he (by decide)
    · rfl
  · intro side hs ps hv
    cases hv
  · intro side hs hv
    cases hv

/-- Source in the second cell. -/
theorem duo_second : IsFlux (duo.alter (fun c => if c = 1 then wide 0 else 0) duo.bc) (fun _ => 1 / 2) duoSol
    (fun c => if c = 0 then 1 / 3 else 1 / 2) := by
  refine ⟨fun s o _ => if o = 0 then (if s = 1 then 1 else 0) else (if s = 0 then 1 / 3 else 0),
    fun o _ c => if c = 1 then 1 / 2 else if o = 0 then 0 else 2 / 3, ?_, ?_, ?_, ?_, ?_⟩
  · intro o ho a ha
    have ho : o < 2 := ho
    obtain rfl : a = 0 := Nat.lt_one_iff.1 ha
    interval_cases o
    · exact ⟨fun p => if p = 2 then 1 else 0, by decide +kernel, by decide +kernel, by decide +kernel⟩
    · exact ⟨fun p => if p = 0 then 0 else if p = 1 then 1 else 1 / 3, by decide +kernel, by decide +kernel,
        by decide +kernel⟩
  · intro c hc
    have hc : c < 2 := hc
    interval_cases c <;> decide +kernel
  · intro side hs _ o ho he a ha i j hi
    have ho : o < 2 := ho
    have hs : side < 2 := hs
    interval_cases side <;> interval_cases o
    · rfl
    · exact absurd he (by decide)
    · exact absurd he (by decide)
    · rfl
  · intro side hs ps hv
    cases hv
  · intro side hs hv
    cases hv

/-- The hypotheses of `C130_exchange`: source and place exchanged, the same flux 1/3. -/
example : Iso duo (fun _ => 0) 1 ∧ (∀ s < 2 * duo.dim, duo.bc s = .vacuum ∨ duo.bc s = .reflect) ∧
    (fun c => if c = 0 then 2 / 3 else 1 / 3 : Nat → ℚ) 1 = (fun c => if c = 0 then 1 / 3 else 1 / 2 : Nat → ℚ) 0 := by
  have hI : Iso duo (fun _ => 0) 1 := ⟨fun _ _ _ _ => rfl, one_ne_zero, fun f c _ => (zero_mul (f c)).symm⟩
  refine ⟨hI, fun _ _ => Or.inl rfl, ?_⟩
  exact C130_exchange duo_recip duo_sweeps hI (fun _ _ => Or.inl rfl) 0 1 (by decide) (by decide) _ _ duo_first duo_second
    (wide_pos 0).ne' (wide_pos 1).ne'

end cases

end Detran.WGReflect

namespace Detran.MGReflect

open Detran.Sweep (St)
open Detran.Boundary (Bd BC Loc Enters Mirror)
open Detran.WGReflect (Sweeps Solution InFace Sides Mismatch Reciprocal rev pair_balance Alike)
open Detran.MGSolve
open Finset

section main
variable {F K : Type} [Field K] [LinearOrder K]
variable {P : Prob F K} {w V : Nat → K} {m : K}
  {Sol : Nat → (Nat → K) → Nat → Nat → (Nat → F) → (Nat → K) → Prop} {fw : Nat → Nat → Nat → Nat → Nat → K}

/-- The same problem in the other mode (`adjoint` flipped), with external source `q'` and no discrete sources.  Only the
    group coupling sees the mode (ScatterSource.i.hh:98-118, FissionSource.i.hh:23, 40, 135, 142); sweeps do not:
    `Sweeper::set_adjoint` (Sweeper.cc:97-103) has no caller, its effect is commented out (Sweeper.cc:140-141), and
    `Quadrature::set_adjoint` (Quadrature.cc:130-142) has no caller. -/
def Prob.flip (P : Prob F K) (q' : Nat → Nat → K) : Prob F K :=
  ⟨{ P.M with x := { P.M.x with adjoint := !P.M.x.adjoint }, q := q' }, fun g => { P.W g with disc := [] }⟩

theorem couple_flip (P : Prob F K) (q' : Nat → Nat → K) (g gp c : Nat) :
    couple (P.flip q').M g gp c = couple P.M gp g c := by
  unfold couple Prob.flip Material.xs fissionXs
  cases P.M.x.adjoint <;> simp

theorem ok_flip (ok : OK P w Sol) (q' : Nat → Nat → K) : OK (P.flip q') w Sol :=
  ⟨⟨by
      have h0 : P.M.x.mat.finalize = P.M.x.mat := congrArg Material.Src.mat ok.src.fin
      unfold Material.Src.ready Prob.flip
      dsimp only
      rw [h0]
    , ok.src.nn, ok.src.map, ok.src.add, ok.src.loc⟩, ok.cells, ok.bsize,
    fun g hg => WGReflect.sweeps_off (ok.sw g hg), ok.np⟩

/-- What is asked of the groups: the pairing of opposite sweeps in each, isotropic moments, vacuum and reflecting sides. -/
structure Paired (P : Prob F K) (w : Nat → K) (Sol : Nat → (Nat → K) → Nat → Nat → (Nat → F) → (Nat → K) → Prop)
    (V : Nat → K) (fw : Nat → Nat → Nat → Nat → Nat → K) (m : K) : Prop where
  opp : ∀ g < P.M.x.mat.G, Reciprocal (P.W g) (Sol g) V (fw g)
  mtod : ∀ g < P.M.x.mat.G, ∀ o < 2 ^ (P.W g).dim, ∀ a < (P.W g).na, (P.W g).mtod o a = m
  mne : m ≠ 0
  bc : ∀ g < P.M.x.mat.G, ∀ s < 2 * (P.W g).dim, (P.W g).bc s = .vacuum ∨ (P.W g).bc s = .reflect

/-- What a discrete source of group `g` sends into a cell and direction. -/
def Prob.discSum (P : Prob F K) (g o a c : Nat) : K := ((P.W g).disc.map fun d => d o a c).sum

/-- Isotropic sources `q` and directional sources against the flux of the other mode with source `q'`: directional
    sources are weighted with the other mode's angular flux in the opposite direction. -/
theorem C130_directional (ok : OK P w Sol) (hP : Paired P w Sol V fw m) (q' : Nat → Nat → K) (phi phi' : Nat → Nat → K)
    (b b' : Nat → Bd F) (psi psi' : Nat → Nat → Nat → Nat → K)
    (h : ∀ g < P.M.x.mat.G, Solution (P.W g) w (Sol g) (P.src phi g) (phi g) (fun _ => 0) (fun _ => 0) (b g) (psi g))
    (h' : ∀ g < P.M.x.mat.G, Solution ((P.flip q').W g) w (Sol g) ((P.flip q').src phi' g) (phi' g) (fun _ => 0)
      (fun _ => 0) (b' g) (psi' g)) :
    m * ∑ g ∈ range P.M.x.mat.G, ∑ c ∈ range P.M.x.N, V c * (q' g c * phi g c) =
      m * ∑ g ∈ range P.M.x.mat.G, ∑ c ∈ range P.M.x.N, V c * (P.M.q g c * phi' g c) +
      ∑ g ∈ range P.M.x.mat.G, ∑ c ∈ range P.M.x.N, V c * ∑ o ∈ range (2 ^ (P.W g).dim), ∑ a ∈ range (P.W g).na,
        w a * (P.discSum g o a c * psi' g (rev (P.W g).dim o) a c) := by
  classical
  have each : ∀ g ∈ range P.M.x.mat.G,
      m * ∑ c ∈ range P.M.x.N, V c * (P.M.source phi g c * phi' g c) +
        ∑ c ∈ range P.M.x.N, V c * ∑ o ∈ range (2 ^ (P.W g).dim), ∑ a ∈ range (P.W g).na,
          w a * (P.discSum g o a c * psi' g (rev (P.W g).dim o) a c) =
      m * ∑ c ∈ range P.M.x.N, V c * ((P.flip q').M.source phi' g c * phi g c) := by
    intro g hg
    have hg := mem_range.1 hg
    have k : Solution ((P.W g).alter (P.M.source phi g) (P.W g).bc) w (Sol g)
        (fun o a c => (P.M.source phi g c + 0 * phi g c) * m + P.discSum g o a c) (phi g) (fun _ => 0) (fun _ => 0) (b g)
        (psi g) := by
      refine ⟨fun o ho a ha => sol_congr (ok.sw g hg) ho ((h g hg).cells o ho a ha) fun c _ => ?_, (h g hg).flux,
        (h g hg).vacuum, (h g hg).given, (h g hg).reflect⟩
      unfold Prob.src
      rw [hP.mtod g hg o ho a ha, zero_mul, add_zero]
      rfl
    have k' : Solution ((P.W g).alter ((P.flip q').M.source phi' g) (P.W g).bc) w (Sol g)
        (fun o a c => ((P.flip q').M.source phi' g c + 0 * phi' g c) * m + 0) (phi' g) (fun _ => 0) (fun _ => 0) (b' g)
        (psi' g) := by
      refine ⟨fun o ho a ha => sol_congr (ok.sw g hg) ho ((h' g hg).cells o ho a ha) fun c _ => ?_, (h' g hg).flux,
        (h' g hg).vacuum, (h' g hg).given, (h' g hg).reflect⟩
      unfold Prob.src
      have e : ((P.flip q').W g).mtod o a = m := hP.mtod g hg o ho a ha
      have e0 : ((P.flip q').W g).disc = [] := rfl
      rw [e, e0, zero_mul, add_zero, add_zero, List.map_nil, List.sum_nil, add_zero]
    have T := pair_balance (ss := fun _ => 0) (m := m) (hP.opp g hg) (ok.sw g hg).d1 (ok.sw g hg).d3 _ _ _ _ _
      (fun _ _ _ => 0) _ _ _ _ _ _ k k'
    rw [sum_eq_zero (s := range (2 * (P.W g).dim)), ok.cells g] at T
    · simp only [zero_mul, mul_zero, sum_const_zero, add_zero] at T
      exact T
    · intro s hs
      rw [if_pos]
      rcases hP.bc g hg s (mem_range.1 hs) with e | e
      · exact Or.inl ⟨e, e⟩
      · exact Or.inr ⟨e, e⟩
  have T := sum_congr rfl each
  rw [sum_add_distrib, ← mul_sum, ← mul_sum] at T
  have split : ∀ (q : Nat → Nat → K) (cp : Nat → Nat → Nat → K) (f f' : Nat → Nat → K),
      ∑ g ∈ range P.M.x.mat.G, ∑ c ∈ range P.M.x.N, V c * ((q g c + ∑ gp ∈ range P.M.x.mat.G, cp g gp c * f gp c) * f' g c) =
      ∑ g ∈ range P.M.x.mat.G, ∑ c ∈ range P.M.x.N, V c * (q g c * f' g c) +
      ∑ g ∈ range P.M.x.mat.G, ∑ gp ∈ range P.M.x.mat.G, ∑ c ∈ range P.M.x.N, V c * (cp g gp c * f gp c * f' g c) := by
    intro q cp f f'
    rw [← sum_add_distrib]
    refine sum_congr rfl fun g _ => ?_
    rw [sum_comm, ← sum_add_distrib]
    refine sum_congr rfl fun c _ => ?_
    rw [add_mul, mul_add, sum_mul, mul_sum]
  have s1 := split P.M.q (couple P.M) phi phi'
  have s2 := split q' (couple (P.flip q').M) phi' phi
  have swap : ∑ g ∈ range P.M.x.mat.G, ∑ gp ∈ range P.M.x.mat.G, ∑ c ∈ range P.M.x.N,
        V c * (couple (P.flip q').M g gp c * phi' gp c * phi g c) =
      ∑ g ∈ range P.M.x.mat.G, ∑ gp ∈ range P.M.x.mat.G, ∑ c ∈ range P.M.x.N,
        V c * (couple P.M g gp c * phi gp c * phi' g c) := by
    rw [sum_comm]
    refine sum_congr rfl fun g _ => sum_congr rfl fun gp _ => sum_congr rfl fun c _ => ?_
    rw [couple_flip]
    ring
  have e1 : ∀ g c, P.M.source phi g c = P.M.q g c + ∑ gp ∈ range P.M.x.mat.G, couple P.M g gp c * phi gp c :=
    fun g c => source_couple P.M phi g c
  have e2 : ∀ g c, (P.flip q').M.source phi' g c =
      q' g c + ∑ gp ∈ range P.M.x.mat.G, couple (P.flip q').M g gp c * phi' gp c :=
    fun g c => source_couple (P.flip q').M phi' g c
  simp only [e1, e2] at T
  rw [s1, s2, swap] at T
  linear_combination -T

/-- An adjoint solve is the adjoint: what a detector `q'` sees of the sources `q` is what the source weighting `q` sees of
    the other mode's flux with source `q'`. -/
theorem C130_adjoint (ok : OK P w Sol) (hP : Paired P w Sol V fw m) (hd : ∀ g < P.M.x.mat.G, (P.W g).disc = [])
    (q' : Nat → Nat → K) (phi phi' : Nat → Nat → K) (h : MGFlux P w Sol phi) (h' : MGFlux (P.flip q') w Sol phi') :
    ∑ g ∈ range P.M.x.mat.G, ∑ c ∈ range P.M.x.N, V c * (q' g c * phi g c) =
      ∑ g ∈ range P.M.x.mat.G, ∑ c ∈ range P.M.x.N, V c * (P.M.q g c * phi' g c) := by
  have h0 : ∀ g, ∃ b psi, g < P.M.x.mat.G →
      Solution (P.W g) w (Sol g) (P.src phi g) (phi g) (fun _ => 0) (fun _ => 0) b psi := by
    intro g
    by_cases hg : g < P.M.x.mat.G
    · obtain ⟨b, psi, k⟩ := h g hg
      exact ⟨b, psi, fun _ => k⟩
    · exact ⟨fun _ _ _ => (P.W g).face fun _ _ => 0, fun _ _ _ => 0, fun k => absurd k hg⟩
  have h0' : ∀ g, ∃ b psi, g < P.M.x.mat.G →
      Solution ((P.flip q').W g) w (Sol g) ((P.flip q').src phi' g) (phi' g) (fun _ => 0) (fun _ => 0) b psi := by
    intro g
    by_cases hg : g < P.M.x.mat.G
    · obtain ⟨b, psi, k⟩ := h' g hg
      exact ⟨b, psi, fun _ => k⟩
    · exact ⟨fun _ _ _ => (P.W g).face fun _ _ => 0, fun _ _ _ => 0, fun k => absurd k hg⟩
  choose b psi hb using h0
  choose b' psi' hb' using h0'
  have T := C130_directional ok hP q' phi phi' b b' psi psi' hb hb'
  rw [sum_eq_zero (s := range P.M.x.mat.G) (f := fun g => ∑ c ∈ range P.M.x.N, V c *
    ∑ o ∈ range (2 ^ (P.W g).dim), ∑ a ∈ range (P.W g).na,
        w a * (P.discSum g o a c * psi' g (rev (P.W g).dim o) a c)), add_zero] at T
  · exact mul_left_cancel₀ hP.mne T
  · intro g hg
    refine sum_eq_zero fun c _ => ?_
    rw [sum_eq_zero, mul_zero]
    intro o _
    refine sum_eq_zero fun a _ => ?_
    unfold Prob.discSum
    rw [hd g (mem_range.1 hg)]
    simp

/-! ## Eigenvalues -/

/-- Production of neutrons in group `g` by the fluxes `phi`, as the solver's mode sees it. -/
def Prob.made (P : Prob F K) (phi : Nat → Nat → K) (g c : Nat) : K :=
  ∑ gp ∈ range P.M.x.mat.G, fissionXs P.M.x.mat P.M.x.adjoint g gp (P.M.x.mmap c) * phi gp c

/-- The problem with the production of `phi`, divided by `k`, as its only source. -/
def Prob.fed (P : Prob F K) (k : K) (phi : Nat → Nat → K) : Prob F K :=
  ⟨{ P.M with implicit := false, q := fun g c => 1 / k * P.made phi g c }, fun g => { P.W g with disc := [] }⟩

/-- `phi` reproduces itself with multiplication factor `k`. -/
def Eigen (P : Prob F K) (w : Nat → K) (Sol : Nat → (Nat → K) → Nat → Nat → (Nat → F) → (Nat → K) → Prop) (k : K)
    (phi : Nat → Nat → K) : Prop := MGFlux (P.fed k phi) w Sol phi

theorem made_flip (P : Prob F K) (q' : Nat → Nat → K) (f f' : Nat → Nat → K) :
    ∑ g ∈ range P.M.x.mat.G, ∑ c ∈ range P.M.x.N, V c * ((P.flip q').made f' g c * f g c) =
      ∑ g ∈ range P.M.x.mat.G, ∑ c ∈ range P.M.x.N, V c * (P.made f g c * f' g c) := by
  have e : ∀ (Q : Prob F K) (f f' : Nat → Nat → K), ∑ g ∈ range P.M.x.mat.G, ∑ c ∈ range P.M.x.N,
      V c * ((∑ gp ∈ range P.M.x.mat.G, fissionXs Q.M.x.mat Q.M.x.adjoint g gp (Q.M.x.mmap c) * f gp c) * f' g c) =
      ∑ g ∈ range P.M.x.mat.G, ∑ gp ∈ range P.M.x.mat.G, ∑ c ∈ range P.M.x.N,
        V c * (fissionXs Q.M.x.mat Q.M.x.adjoint g gp (Q.M.x.mmap c) * f gp c * f' g c) := by
    intro Q f f'
    refine sum_congr rfl fun g _ => ?_
    rw [sum_comm]
    refine sum_congr rfl fun c _ => ?_
    rw [sum_mul, mul_sum]
  refine (e (P.flip q') f' f).trans (Eq.trans ?_ (e P f f').symm)
  rw [sum_comm]
  refine sum_congr rfl fun g _ => sum_congr rfl fun gp _ => sum_congr rfl fun c _ => ?_
  have : fissionXs (P.flip q').M.x.mat (P.flip q').M.x.adjoint gp g ((P.flip q').M.x.mmap c) =
      fissionXs P.M.x.mat P.M.x.adjoint g gp (P.M.x.mmap c) := by
    unfold fissionXs Prob.flip
    cases P.M.x.adjoint <;> simp
  rw [this]
  ring

/-- An eigenvalue found by the forward mode and one found by the adjoint mode are the same, or else the production of the
    forward flux and the adjoint flux are orthogonal. -/
theorem C130_eigenvalue (ok : OK P w Sol) (hP : Paired P w Sol V fw m) (q' : Nat → Nat → K) (k k' : K) (hk : k ≠ 0)
    (hk' : k' ≠ 0) (phi phi' : Nat → Nat → K) (h : Eigen P w Sol k phi) (h' : Eigen (P.flip q') w Sol k' phi') :
    k = k' ∨ ∑ g ∈ range P.M.x.mat.G, ∑ c ∈ range P.M.x.N, V c * (P.made phi g c * phi' g c) = 0 := by
  have ok1 : OK (P.fed k phi) w Sol := ⟨⟨ok.src.fin, ok.src.nn, ok.src.map, ok.src.add, ok.src.loc⟩, ok.cells, ok.bsize,
    fun g hg => WGReflect.sweeps_off (ok.sw g hg), ok.np⟩
  have hP1 : Paired (P.fed k phi) w Sol V fw m := ⟨fun g hg => hP.opp g hg, fun g hg => hP.mtod g hg, hP.mne,
    fun g hg => hP.bc g hg⟩
  have T := C130_adjoint ok1 hP1 (fun _ _ => rfl) (fun g c => 1 / k' * (P.flip q').made phi' g c) phi phi' h h'
  have e1 : ∑ g ∈ range P.M.x.mat.G, ∑ c ∈ range P.M.x.N, V c * (1 / k' * (P.flip q').made phi' g c * phi g c) =
      1 / k' * ∑ g ∈ range P.M.x.mat.G, ∑ c ∈ range P.M.x.N, V c * (P.made phi g c * phi' g c) := by
    rw [← made_flip P q' phi phi', mul_sum]
    refine sum_congr rfl fun g _ => ?_
    rw [mul_sum]
    exact sum_congr rfl fun c _ => by ring
  have e2 : ∑ g ∈ range P.M.x.mat.G, ∑ c ∈ range P.M.x.N, V c * (1 / k * P.made phi g c * phi' g c) =
      1 / k * ∑ g ∈ range P.M.x.mat.G, ∑ c ∈ range P.M.x.N, V c * (P.made phi g c * phi' g c) := by
    rw [mul_sum]
    refine sum_congr rfl fun g _ => ?_
    rw [mul_sum]
    exact sum_congr rfl fun c _ => by ring
  have T' := e1.symm.trans (T.trans e2)
  by_cases h0 : ∑ g ∈ range P.M.x.mat.G, ∑ c ∈ range P.M.x.N, V c * (P.made phi g c * phi' g c) = 0
  · exact Or.inr h0
  · left
    have := mul_right_cancel₀ h0 T'
    rw [one_div, one_div, inv_inj] at this
    exact this.symm

/-- Positive fluxes where there is some fission: forward and adjoint multiplication factors agree. -/
theorem C130_keff [IsStrictOrderedRing K] (ok : OK P w Sol) (hP : Paired P w Sol V fw m) (q' : Nat → Nat → K) (k k' : K)
    (hk : k ≠ 0) (hk' : k' ≠ 0) (phi phi' : Nat → Nat → K) (h : Eigen P w Sol k phi) (h' : Eigen (P.flip q') w Sol k' phi')
    (hV : ∀ c < P.M.x.N, 0 < V c) (hp : ∀ g < P.M.x.mat.G, ∀ c < P.M.x.N, 0 < phi g c)
    (hp' : ∀ g < P.M.x.mat.G, ∀ c < P.M.x.N, 0 < phi' g c)
    (hx : ∀ g < P.M.x.mat.G, ∀ gp < P.M.x.mat.G, ∀ c < P.M.x.N,
      0 ≤ P.M.x.mat.chi g (P.M.x.mmap c) * P.M.x.mat.nuSigF gp (P.M.x.mmap c))
    (hf : ∃ g < P.M.x.mat.G, ∃ gp < P.M.x.mat.G, ∃ c < P.M.x.N,
      0 < P.M.x.mat.chi g (P.M.x.mmap c) * P.M.x.mat.nuSigF gp (P.M.x.mmap c)) : k = k' := by
  rcases C130_eigenvalue ok hP q' k k' hk hk' phi phi' h h' with e | e
  · exact e
  exfalso
  have hx' : ∀ g < P.M.x.mat.G, ∀ gp < P.M.x.mat.G, ∀ c < P.M.x.N,
      0 ≤ fissionXs P.M.x.mat P.M.x.adjoint g gp (P.M.x.mmap c) := by
    intro g hg gp hgp c hc
    unfold fissionXs
    split
    · exact hx gp hgp g hg c hc
    · exact hx g hg gp hgp c hc
  have hf' : ∃ g < P.M.x.mat.G, ∃ gp < P.M.x.mat.G, ∃ c < P.M.x.N,
      0 < fissionXs P.M.x.mat P.M.x.adjoint g gp (P.M.x.mmap c) := by
    obtain ⟨g, hg, gp, hgp, c, hc, h0⟩ := hf
    unfold fissionXs
    cases P.M.x.adjoint
    · exact ⟨g, hg, gp, hgp, c, hc, by simpa using h0⟩
    · exact ⟨gp, hgp, g, hg, c, hc, by simpa using h0⟩
  have hm : ∀ g < P.M.x.mat.G, ∀ c < P.M.x.N, 0 ≤ P.made phi g c := fun g hg c hc =>
    sum_nonneg fun gp hgp => mul_nonneg (hx' g hg gp (mem_range.1 hgp) c hc) (hp gp (mem_range.1 hgp) c hc).le
  have ht : ∀ g ∈ range P.M.x.mat.G, ∀ c ∈ range P.M.x.N, 0 ≤ V c * (P.made phi g c * phi' g c) := fun g hg c hc =>
    mul_nonneg (hV c (mem_range.1 hc)).le
      (mul_nonneg (hm g (mem_range.1 hg) c (mem_range.1 hc)) (hp' g (mem_range.1 hg) c (mem_range.1 hc)).le)
  obtain ⟨g, hg, gp, hgp, c, hc, h0⟩ := hf'
  rw [sum_eq_zero_iff_of_nonneg (fun g hg => sum_nonneg (ht g hg))] at e
  have e1 := e g (mem_range.2 hg)
  rw [sum_eq_zero_iff_of_nonneg (ht g (mem_range.2 hg))] at e1
  have e2 := e1 c (mem_range.2 hc)
  have h2 : 0 < P.made phi g c := lt_of_lt_of_le (mul_pos h0 (hp gp hgp c hc)) (single_le_sum
    (f := fun gp => fissionXs P.M.x.mat P.M.x.adjoint g gp (P.M.x.mmap c) * phi gp c)
    (fun gp hgp => mul_nonneg (hx' g hg gp (mem_range.1 hgp) c hc) (hp gp (mem_range.1 hgp) c hc).le) (mem_range.2 hgp))
  exact absurd e2 (mul_pos (hV c hc) (mul_pos h2 (hp' g hg c hc))).ne'

/-! ## Solvers -/

/-- Krylov solves of both modes: if the two linear systems are solved, the two results are adjoint to each other. -/
theorem C130_krylov [IsStrictOrderedRing K] {k k' : Nat} (ok : OK P w Sol) (hP : Paired P w Sol V fw m)
    (hd : ∀ g < P.M.x.mat.G, (P.W g).disc = []) (q' : Nat → Nat → K) (hc : P.Cut k) (hb : P.M.NoBackward k)
    (hc' : (P.flip q').Cut k') (hb' : (P.flip q').M.NoBackward k')
    (hall : ∀ g < P.M.x.mat.G, g ∈ P.groups k ∧ g ∈ (P.flip q').groups k') (tol : K) (phi phi' : Nat → Nat → K)
    (S S1 S' S1' : Nat → St F K) (x x' : Nat → K)
    (hm : ∀ g ∈ P.groups k, Mismatch (P.W g) ((P.rhs k tol phi S).1 g).bdy fun _ => 0)
    (hm' : ∀ g ∈ (P.flip q').groups k', Mismatch ((P.flip q').W g) (((P.flip q').rhs k' tol phi' S').1 g).bdy fun _ => 0)
    (hx : SolvesSystem P k tol phi S S1 x) (hx' : SolvesSystem (P.flip q') k' tol phi' S' S1' x') :
    ∑ g ∈ range P.M.x.mat.G, ∑ c ∈ range P.M.x.N, V c * (q' g c * P.fluxes k phi x g c) =
      ∑ g ∈ range P.M.x.mat.G, ∑ c ∈ range P.M.x.N, V c * (P.M.q g c * (P.flip q').fluxes k' phi' x' g c) :=
  C130_adjoint ok hP hd q' _ _
    (fun g hg => C125_solution ok hc hb tol phi S S1 x hm hx g (hall g hg).1)
    (fun g hg => C125_solution (ok_flip ok q') hc' hb' tol phi' S' S1' x' hm' hx' g (hall g hg).2)

/-- Fluxes within `δ` of those of the two modes have nearly equal responses. -/
theorem C130_near [IsStrictOrderedRing K] (ok : OK P w Sol) (hP : Paired P w Sol V fw m)
    (hd : ∀ g < P.M.x.mat.G, (P.W g).disc = []) (q' : Nat → Nat → K) (phi phi' f f' : Nat → Nat → K)
    (h : MGFlux P w Sol phi) (h' : MGFlux (P.flip q') w Sol phi') (δ : K)
    (hf : ∀ g < P.M.x.mat.G, ∀ c < P.M.x.N, |f g c - phi g c| ≤ δ)
    (hf' : ∀ g < P.M.x.mat.G, ∀ c < P.M.x.N, |f' g c - phi' g c| ≤ δ) :
    |∑ g ∈ range P.M.x.mat.G, ∑ c ∈ range P.M.x.N, V c * (q' g c * f g c) -
      ∑ g ∈ range P.M.x.mat.G, ∑ c ∈ range P.M.x.N, V c * (P.M.q g c * f' g c)| ≤
    (∑ g ∈ range P.M.x.mat.G, ∑ c ∈ range P.M.x.N, |V c| * (|q' g c| + |P.M.q g c|)) * δ := by
  have T := C130_adjoint ok hP hd q' phi phi' h h'
  have e : ∑ g ∈ range P.M.x.mat.G, ∑ c ∈ range P.M.x.N, V c * (q' g c * f g c) -
      ∑ g ∈ range P.M.x.mat.G, ∑ c ∈ range P.M.x.N, V c * (P.M.q g c * f' g c) =
      ∑ g ∈ range P.M.x.mat.G, ∑ c ∈ range P.M.x.N,
        V c * (q' g c * (f g c - phi g c) - P.M.q g c * (f' g c - phi' g c)) := by
    have : ∑ g ∈ range P.M.x.mat.G, ∑ c ∈ range P.M.x.N,
        V c * (q' g c * (f g c - phi g c) - P.M.q g c * (f' g c - phi' g c)) =
        (∑ g ∈ range P.M.x.mat.G, ∑ c ∈ range P.M.x.N, V c * (q' g c * f g c) -
          ∑ g ∈ range P.M.x.mat.G, ∑ c ∈ range P.M.x.N, V c * (q' g c * phi g c)) -
        (∑ g ∈ range P.M.x.mat.G, ∑ c ∈ range P.M.x.N, V c * (P.M.q g c * f' g c) -
          ∑ g ∈ range P.M.x.mat.G, ∑ c ∈ range P.M.x.N, V c * (P.M.q g c * phi' g c)) := by
      simp only [← sum_sub_distrib]
      exact sum_congr rfl fun g _ => sum_congr rfl fun c _ => by ring
    rw [this, T]
    ring
  rw [e, sum_mul]
  refine (abs_sum_le_sum_abs _ _).trans (sum_le_sum fun g hg => ?_)
  rw [sum_mul]
  refine (abs_sum_le_sum_abs _ _).trans (sum_le_sum fun c hc => ?_)
  have h1 := hf g (mem_range.1 hg) c (mem_range.1 hc)
  have h2 := hf' g (mem_range.1 hg) c (mem_range.1 hc)
  rw [abs_mul, mul_assoc]
  refine mul_le_mul_of_nonneg_left ?_ (abs_nonneg _)
  refine (abs_sub _ _).trans ?_
  rw [abs_mul, abs_mul, add_mul]
  exact add_le_add (mul_le_mul_of_nonneg_left h1 (abs_nonneg _)) (mul_le_mul_of_nonneg_left h2 (abs_nonneg _))

/-- Gauss–Seidel with source iteration in both modes, no reflecting sides: the responses of the two modes' passes
    approach each other. -/
theorem C130_passes [IsStrictOrderedRing K] [Archimedean K] {sig r r' : Nat → Nat → K} {u u' : Nat → K} {rho rho' : K}
    {fd : Nat → Nat → Nat → Nat → Nat → K} (ok : OK P w Sol) (hP : Paired P w Sol V fw m)
    (hC : Coupled P w V sig r u m rho) (q' : Nat → Nat → K) (hC' : Coupled (P.flip q') w V sig r' u' m rho')
    (D : AllDissipate P Sol V sig fd) (hno : Open P) (tolI : K) (n : Nat) (hn : 0 < n) (l l' : List Nat)
    (hl : ∀ g, g ∈ l ↔ g < P.M.x.mat.G) (hl' : ∀ g, g ∈ l' ↔ g < P.M.x.mat.G) (R R' : Run F K) (hR : Ready P R)
    (hR' : Ready (P.flip q') R') (ε : K) (hε : 0 < ε) :
    ∃ k0, ∀ k ≥ k0, |∑ g ∈ range P.M.x.mat.G, ∑ c ∈ range P.M.x.N, V c * (q' g c * ((P.gsPass tolI n l)^[k] R).phi g c) -
      ∑ g ∈ range P.M.x.mat.G, ∑ c ∈ range P.M.x.N, V c * (P.M.q g c * (((P.flip q').gsPass tolI n l')^[k] R').phi g c)| <
      ε := by
  have ok' := ok_flip ok q'
  have D' : AllDissipate (P.flip q') Sol V sig fd := fun g hg => ⟨(D g hg).pos, (D g hg).energy⟩
  have hno' : Open (P.flip q') := fun g hg => hno g hg
  obtain ⟨phi, hphi⟩ := C129_exists ok hC D (R.S 0)
  obtain ⟨phi', hphi'⟩ := C129_exists ok' hC' D' (R'.S 0)
  have hA : 0 ≤ ∑ g ∈ range P.M.x.mat.G, ∑ c ∈ range P.M.x.N, |V c| * (|q' g c| + |P.M.q g c|) :=
    sum_nonneg fun _ _ => sum_nonneg fun _ _ => by positivity
  generalize hAe : ∑ g ∈ range P.M.x.mat.G, ∑ c ∈ range P.M.x.N, |V c| * (|q' g c| + |P.M.q g c|) = A at hA
  have hδ : 0 < ε / (A + 1) := by positivity
  obtain ⟨k1, h1⟩ := C129_converges ok hC D hno tolI n hn phi hphi l hl R hR _ hδ
  obtain ⟨k2, h2⟩ := C129_converges ok' hC' D' hno' tolI n hn phi' hphi' l' hl' R' hR' _ hδ
  refine ⟨max k1 k2, fun k hk => ?_⟩
  have T := C130_near ok hP hC.disc q' phi phi' ((P.gsPass tolI n l)^[k] R).phi
    (((P.flip q').gsPass tolI n l')^[k] R').phi hphi hphi' (ε / (A + 1))
    (fun g hg c hc => (h1 k (le_trans (le_max_left _ _) hk) g hg c hc).le)
    (fun g hg c hc => (h2 k (le_trans (le_max_right _ _) hk) g hg c hc).le)
  rw [hAe] at T
  refine lt_of_le_of_lt T ?_
  rw [mul_div_assoc', div_lt_iff₀ (by positivity)]
  nlinarith

/-- The same with reflecting sides and one inner pass. -/
theorem C130_passes_reflect [IsStrictOrderedRing K] [Archimedean K] {sig r r' : Nat → Nat → K} {u u' : Nat → K}
    {rho rho' : K} {fd : Nat → Nat → Nat → Nat → Nat → K} (ok : OK P w Sol) (hP : Paired P w Sol V fw m)
    (hC : Coupled P w V sig r u m rho) (q' : Nat → Nat → K) (hC' : Coupled (P.flip q') w V sig r' u' m rho')
    (D : AllDissipate P Sol V sig fd) (tolI : K) (l l' : List Nat) (hd : l.Nodup) (hd' : l'.Nodup)
    (hl : ∀ g, g ∈ l ↔ g < P.M.x.mat.G) (hl' : ∀ g, g ∈ l' ↔ g < P.M.x.mat.G) (R R' : Run F K) (hR : Ready P R)
    (hR' : Ready (P.flip q') R') (ε : K) (hε : 0 < ε) :
    ∃ k0, ∀ k ≥ k0, |∑ g ∈ range P.M.x.mat.G, ∑ c ∈ range P.M.x.N, V c * (q' g c * ((P.gsPass tolI 1 l)^[k] R).phi g c) -
      ∑ g ∈ range P.M.x.mat.G, ∑ c ∈ range P.M.x.N, V c * (P.M.q g c * (((P.flip q').gsPass tolI 1 l')^[k] R').phi g c)| <
      ε := by
  have ok' := ok_flip ok q'
  have D' : AllDissipate (P.flip q') Sol V sig fd := fun g hg => ⟨(D g hg).pos, (D g hg).energy⟩
  obtain ⟨phi, hphi⟩ := C129_exists ok hC D (R.S 0)
  obtain ⟨phi', hphi'⟩ := C129_exists ok' hC' D' (R'.S 0)
  have hA : 0 ≤ ∑ g ∈ range P.M.x.mat.G, ∑ c ∈ range P.M.x.N, |V c| * (|q' g c| + |P.M.q g c|) :=
    sum_nonneg fun _ _ => sum_nonneg fun _ _ => by positivity
  generalize hAe : ∑ g ∈ range P.M.x.mat.G, ∑ c ∈ range P.M.x.N, |V c| * (|q' g c| + |P.M.q g c|) = A at hA
  have hδ : 0 < ε / (A + 1) := by positivity
  obtain ⟨k1, h1⟩ := C129_reflect ok hC D tolI phi hphi l hd hl R hR _ hδ
  obtain ⟨k2, h2⟩ := C129_reflect ok' hC' D' tolI phi' hphi' l' hd' hl' R' hR' _ hδ
  refine ⟨max k1 k2, fun k hk => ?_⟩
  have T := C130_near ok hP hC.disc q' phi phi' ((P.gsPass tolI 1 l)^[k] R).phi
    (((P.flip q').gsPass tolI 1 l')^[k] R').phi hphi hphi' (ε / (A + 1))
    (fun g hg c hc => (h1 k (le_trans (le_max_left _ _) hk) g hg c hc).le)
    (fun g hg c hc => (h2 k (le_trans (le_max_right _ _) hk) g hg c hc).le)
  rw [hAe] at T
  refine lt_of_le_of_lt T ?_
  rw [mul_div_assoc', div_lt_iff₀ (by positivity)]
  nlinarith

end main

section geom
open Detran.Sweep (LinEq1 LinEq2 LinEq3 Solves1 Solves2 Solves3 dd1 sd1 sc1 sc2 dd2 sd2 dd3 C27_schemes_linear)
open Detran.WGReflect (Recip1 Recip2 reciprocal1 reciprocal2 reciprocal3 recip_dd1 recip_sd1 recip_sc1 recip_dd2 recip_sd2
  recip_sc2 recip_dd3)
variable {K : Type} [Field K] [LinearOrder K] [IsStrictOrderedRing K]

/-- The two modes are adjoint to each other: responses to any sources and detectors agree, and eigenvalues agree unless
    production and adjoint flux are orthogonal. -/
def Dual {F : Type} (P : Prob F K) (w : Nat → K) (Sol : Nat → (Nat → K) → Nat → Nat → (Nat → F) → (Nat → K) → Prop)
    (V : Nat → K) : Prop :=
  (∀ q' phi phi', MGFlux P w Sol phi → MGFlux (P.flip q') w Sol phi' →
    ∑ g ∈ range P.M.x.mat.G, ∑ c ∈ range P.M.x.N, V c * (q' g c * phi g c) =
      ∑ g ∈ range P.M.x.mat.G, ∑ c ∈ range P.M.x.N, V c * (P.M.q g c * phi' g c)) ∧
  ∀ q' k k' phi phi', k ≠ 0 → k' ≠ 0 → Eigen P w Sol k phi → Eigen (P.flip q') w Sol k' phi' →
    k = k' ∨ ∑ g ∈ range P.M.x.mat.G, ∑ c ∈ range P.M.x.N, V c * (P.made phi g c * phi' g c) = 0

omit [IsStrictOrderedRing K] in
theorem dual {F : Type} {P : Prob F K} {w V : Nat → K} {m : K}
    {Sol : Nat → (Nat → K) → Nat → Nat → (Nat → F) → (Nat → K) → Prop} {fw : Nat → Nat → Nat → Nat → Nat → K}
    (ok : OK P w Sol) (hP : Paired P w Sol V fw m) (hd : ∀ g < P.M.x.mat.G, (P.W g).disc = []) : Dual P w Sol V :=
  ⟨fun q' phi phi' => C130_adjoint ok hP hd q' phi phi',
    fun q' k k' phi phi' hk hk' => C130_eigenvalue ok hP q' k k' hk hk' phi phi'⟩

theorem sides_ok {F : Type} {bc : Nat → BC F} {n : Nat} (h : ∀ s < n, bc s = .vacuum ∨ bc s = .reflect) :
    ∀ s < n, bc s ≠ .periodic := fun s hs e => by
  rcases h s hs with k | k <;> rw [k] at e <;> cases e

/-- 1-D with any of the schemes, on any mesh, with any quadrature; the exponential of step characteristics need not be
    the true one. -/
theorem C130_1D (M : MGSolve.Prob K) (hM : M.OK) (ex : K → K) (mu w dx : Nat → K) (sig : Nat → Nat → K) (m : K) (hm : m ≠ 0)
    (na : Nat) (up : Bool) (bc : Nat → Nat → BC K) (order : List Nat) (hord : order.Perm (List.range 2))
    (sch : Nat → Nat → Nat → K → K → K × K)
    (hsch : ∀ g a i, sch g a i = dd1 (mu a) (dx i) (sig g i) ∨ sch g a i = sd1 (mu a) (dx i) (sig g i) ∨
      sch g a i = sc1 ex (mu a) (dx i) (sig g i))
    (hmu : ∀ a < na, 0 < mu a) (hdx : ∀ i < M.x.N, 0 < dx i) (hs : ∀ g < M.x.mat.G, ∀ i < M.x.N, 0 < sig g i)
    (hr : ∀ g s, bc g s = .reflect ↔ bc 0 s = .reflect) (hb : ∀ g, ∀ s < 2, bc g s = .vacuum ∨ bc g s = .reflect) :
    Dual (mg1 M sch w M.x.N na up bc order (fun _ _ => m) (fun _ => [])) w
      (fun g q o a b p => Solves1 M.x.N (fun i => sch g a i (q i)) o b p) dx := by
  have lin : ∀ g a i, LinEq1 (sch g a i) := fun g a i => by
    obtain ⟨l1, l2, l3, _⟩ := C27_schemes_linear ex (mu a) 0 0 (dx i) 0 0 (sig g i)
    rcases hsch g a i with e | e | e <;> rw [e] <;> assumption
  refine dual (fw := fun _ _ a _ _ => mu a) (C125_ok1 M hM sch lin w na up bc order hord _ _ hr fun g => sides_ok (hb g))
    ⟨fun g hg => reciprocal1 (sch g) w M.x.N na up (bc g) order _ _ _ _ dx mu ?_, fun _ _ _ _ _ _ => rfl, hm,
      fun g _ => hb g⟩ fun _ _ => rfl
  intro a ha i hi
  have h1 := hmu a ha
  have h2 := hdx i hi
  have h3 := hs g hg i hi
  rcases hsch g a i with e | e | e <;> rw [e]
  · exact recip_dd1 _ _ _ h2.ne' (by positivity)
  · exact recip_sd1 _ _ _ h2.ne' (by positivity)
  · exact recip_sc1 _ _ _ _ h1.ne' h2.ne' h3.ne'

/-- 2-D with any of the schemes. -/
theorem C130_2D (M : MGSolve.Prob K) (hM : M.OK) (ex : K → K) (mu eta w dx dy : Nat → K) (sig : Nat → Nat → K) (m : K)
    (hm : m ≠ 0) (nx ny na : Nat) (hN : nx * ny = M.x.N) (up : Bool) (bc : Nat → Nat → BC (Nat → K)) (order : List Nat)
    (hord : order.Perm (List.range 4)) (sch : Nat → Nat → Nat → Nat → K → K × K → K × (K × K))
    (hsch : ∀ g a i j, sch g a i j = dd2 (mu a) (eta a) (dx i) (dy j) (sig g (i + j * nx)) ∨
      sch g a i j = sd2 (mu a) (eta a) (dx i) (dy j) (sig g (i + j * nx)) ∨
      sch g a i j = sc2 ex (mu a) (eta a) (dx i) (dy j) (sig g (i + j * nx)))
    (hmu : ∀ a < na, 0 < mu a) (heta : ∀ a < na, 0 < eta a) (hdx : ∀ i < nx, 0 < dx i) (hdy : ∀ j < ny, 0 < dy j)
    (hs : ∀ g < M.x.mat.G, ∀ i < nx, ∀ j < ny, 0 < sig g (i + j * nx))
    (hr : ∀ g s, bc g s = .reflect ↔ bc 0 s = .reflect) (hb : ∀ g, ∀ s < 4, bc g s = .vacuum ∨ bc g s = .reflect) :
    Dual (mg2 M sch w nx ny na up bc order (fun _ _ => m) (fun _ => [])) w
      (fun g q o a b p => Solves2 nx ny (fun i j => sch g a i j (q (i + j * nx))) o b p)
      (fun c => dx (c % nx) * dy (c / nx)) := by
  have lin : ∀ g a i j, LinEq2 (sch g a i j) := fun g a i j => by
    obtain ⟨_, _, _, l1, l2, l3, _⟩ := C27_schemes_linear ex (mu a) (eta a) 0 (dx i) (dy j) 0 (sig g (i + j * nx))
    rcases hsch g a i j with e | e | e <;> rw [e] <;> assumption
  refine dual (fw := fun _ side a i _ => if side < 2 then mu a * dy i else eta a * dx i)
    (C125_ok2 M hM sch lin w nx ny na up hN bc order hord _ _ hr fun g => sides_ok (hb g))
    ⟨fun g hg => reciprocal2 (sch g) w nx ny na up (bc g) order _ _ _ _ _ (fun a j => mu a * dy j)
      (fun a i => eta a * dx i) ?_, fun _ _ _ _ _ _ => rfl, hm, fun g _ => hb g⟩ fun _ _ => rfl
  intro a ha i hi j hj
  have h1 := hmu a ha
  have h2 := heta a ha
  have h3 := hdx i hi
  have h4 := hdy j hj
  have h5 := hs g hg i hi j hj
  rw [Nat.add_mul_mod_self_right, Nat.mod_eq_of_lt hi, Nat.add_mul_div_right _ _ (by omega : 0 < nx),
    Nat.div_eq_of_lt hi, Nat.zero_add]
  rcases hsch g a i j with e | e | e <;> rw [e]
  · exact recip_dd2 _ _ _ _ _ h3.ne' h4.ne' (by positivity)
  · exact recip_sd2 _ _ _ _ _ h3.ne' h4.ne' (by positivity)
  · exact recip_sc2 _ _ _ _ _ _ h1.ne' h2.ne' h3.ne' h4.ne' h5.ne'

/-- 3-D with diamond differencing. -/
theorem C130_3D (M : MGSolve.Prob K) (hM : M.OK) (mu eta xi w dx dy dz : Nat → K) (sig : Nat → Nat → K) (m : K) (hm : m ≠ 0)
    (nx ny nz na : Nat) (hfit : nx ≤ 2 ^ 32) (hN : nx * ny * nz = M.x.N) (up : Bool) (bc : Nat → Nat → BC (Nat → Nat → K))
    (order : List Nat) (hord : order.Perm (List.range 8))
    (hmu : ∀ a < na, 0 < mu a) (heta : ∀ a < na, 0 < eta a) (hxi : ∀ a < na, 0 < xi a)
    (hdx : ∀ i < nx, 0 < dx i) (hdy : ∀ j < ny, 0 < dy j) (hdz : ∀ k < nz, 0 < dz k)
    (hs : ∀ g < M.x.mat.G, ∀ i < nx, ∀ j < ny, ∀ k < nz, 0 < sig g (i + j * nx + k * nx * ny))
    (hr : ∀ g s, bc g s = .reflect ↔ bc 0 s = .reflect) (hb : ∀ g, ∀ s < 6, bc g s = .vacuum ∨ bc g s = .reflect) :
    let sch := fun g a i j k => dd3 (mu a) (eta a) (xi a) (dx i) (dy j) (dz k) (sig g (i + j * nx + k * nx * ny))
    Dual (mg3 M sch w nx ny nz na up bc order (fun _ _ => m) (fun _ => [])) w
      (fun g q o a b p => Solves3 nx ny nz (fun i j k => sch g a i j k (q (i + j * nx + k * nx * ny))) o b p)
      (fun c => dx (c % (nx * ny) % nx) * dy (c % (nx * ny) / nx) * dz (c / (nx * ny))) := by
  intro sch
  have lin : ∀ g a i j k, LinEq3 (sch g a i j k) := fun g a i j k =>
    (C27_schemes_linear (fun x : K => x) (mu a) (eta a) (xi a) (dx i) (dy j) (dz k) _).2.2.2.2.2.2
  refine dual (fw := fun _ side a i j => if side < 2 then mu a * (dy j * dz i) else
      if side < 4 then eta a * (dx j * dz i) else xi a * (dx j * dy i))
    (C125_ok3 M hM sch lin w nx ny nz na up hfit hN bc order hord _ _ hr fun g => sides_ok (hb g))
    ⟨fun g hg => reciprocal3 (sch g) w nx ny nz na up (bc g) order _ _ _ _ _ (fun a k j => mu a * (dy j * dz k))
      (fun a k i => eta a * (dx i * dz k)) (fun a j i => xi a * (dx i * dy j)) ?_, fun _ _ _ _ _ _ => rfl, hm,
      fun g _ => hb g⟩ fun _ _ => rfl
  intro a ha i hi j hj k hk
  have h1 := hmu a ha
  have h2 := heta a ha
  have h3 := hxi a ha
  have h4 := hdx i hi
  have h5 := hdy j hj
  have h6 := hdz k hk
  have h7 := hs g hg i hi j hj k hk
  have hc : i + j * nx < nx * ny := by
    have := Nat.mul_le_mul_right nx (Nat.succ_le_of_lt hj)
    rw [Nat.succ_mul, Nat.mul_comm ny] at this
    omega
  have e3 : k * nx * ny = k * (nx * ny) := Nat.mul_assoc _ _ _
  have e4 : (i + j * nx + k * nx * ny) % (nx * ny) = i + j * nx := by
    rw [e3, Nat.add_mul_mod_self_right, Nat.mod_eq_of_lt hc]
  have e5 : (i + j * nx + k * nx * ny) / (nx * ny) = k := by
    rw [e3, Nat.add_mul_div_right _ _ (by omega : 0 < nx * ny), Nat.div_eq_of_lt hc, Nat.zero_add]
  rw [e4, e5, Nat.add_mul_mod_self_right, Nat.mod_eq_of_lt hi, Nat.add_mul_div_right _ _ (by omega : 0 < nx),
    Nat.div_eq_of_lt hi, Nat.zero_add]
  exact recip_dd3 _ _ _ _ _ _ _ h4.ne' h5.ne' h6.ne' (by positivity)

end geom

/-! ## Concrete cases -/

section cases
open Detran.Sweep (Solves1 dd1 C27_schemes_linear)
open Detran.WGReflect (dd half zeros half_np reciprocal1 recip_dd1 dd_lin)

/-- The one-cell slab of C124 and C125 with any groups. -/
def slabM (M : MGSolve.Prob ℚ) : Prob ℚ ℚ := ⟨M, fun _ => slabW⟩

theorem slabM_flux (M : MGSolve.Prob ℚ) (phi : Nat → Nat → ℚ) (g : Nat) :
    GroupFlux (slabM M) (fun _ => 1 / 2) eqs phi g ↔ phi g 0 = 5 / 9 * M.source phi g 0 := by
  have h := slabs_flux 2 [] (M.source phi g 0) (fun _ => phi g) 0
  rw [none_src] at h
  rw [← h]
  have hs : ∀ o a, (slabM M).src phi g o a 0 = (slabs 2 [] (M.source phi g 0)).src (fun _ => phi g) 0 o a 0 := by
    intro o a
    change M.source phi g 0 * 1 + ([] : List ℚ).sum =
      (slabs 2 [] (M.source phi g 0)).M.source (fun _ => phi g) 0 0 * 1 + ([] : List ℚ).sum
    rw [none_src]
  have sw := (slabs_ok 2 [] (M.source phi g 0) none_ok).sw 0 (by show 0 < 2; decide)
  constructor
  · rintro ⟨b, psi, k⟩
    refine ⟨b, psi, fun o ho a ha => sol_congr sw ho (k.cells o ho a ha) fun c hc => ?_, k.flux, k.vacuum, k.given, k.reflect⟩
    obtain rfl : c = 0 := Nat.lt_one_iff.1 hc
    exact (hs o a).symm
  · rintro ⟨b, psi, k⟩
    refine ⟨b, psi, fun o ho a ha => sol_congr sw ho (k.cells o ho a ha) fun c hc => ?_, k.flux, k.vacuum, k.given, k.reflect⟩
    obtain rfl : c = 0 := Nat.lt_one_iff.1 hc
    exact hs o a

theorem slabM_ok (M : MGSolve.Prob ℚ) (h : M.OK) (hN : M.x.N = 1) : OK (slabM M) (fun _ => 1 / 2) eqs where
  src := h
  cells := fun _ => hN.symm
  bsize := fun _ => rfl
  sw := fun _ _ => (slabs_ok 2 [] 1 none_ok).sw 0 (by decide)
  np := fun _ _ => half_np

theorem slabM_paired (M : MGSolve.Prob ℚ) :
    Paired (slabM M) (fun _ => 1 / 2) eqs (fun _ => 1) (fun _ _ _ _ _ => 1) 1 where
  opp := fun g _ => reciprocal1 dd (fun _ => 1 / 2) 1 1 true half [1, 0] _ _ _ _ (fun _ => 1) (fun _ => 1) (by
    intro a _ i _ q e q' e'
    have e1 : ∀ q e, dd a i q e = dd1 1 1 1 q e := fun q e =>
      Prod.ext (by unfold dd dd1; ring) (by unfold dd dd1; ring)
    rw [e1, e1]
    exact recip_dd1 1 1 1 one_ne_zero (by norm_num) q e q' e')
  mtod := fun _ _ _ _ _ _ => rfl
  mne := one_ne_zero
  bc := fun _ _ s _ => by
    change half s = _ ∨ half s = _
    unfold half
    split
    · exact Or.inr rfl
    · exact Or.inl rfl

/-- Scattering from group 0 to group 1 only. -/
def down : List (Material.Op ℚ) := [.setSigS 0 1 0 (1 / 4)]

theorem down_ok : (toy 2 down false 0 0).OK := by
  refine toy_ok _ _ _ _ _ rfl ?_
  intro g gp m
  simp only [down, Material.Mat.run, List.foldl_cons, List.foldl_nil, Material.Mat.step, Material.set3, Material.Mat.new]
  split_ifs <;> norm_num

/-- Detector in group 1. -/
def seen : Nat → Nat → ℚ := fun g _ => if g = 1 then 1 else 0

/-- Forward and adjoint fluxes. -/
def fwd : Nat → Nat → ℚ := fun g _ => if g = 0 then 5 / 9 else 205 / 324
def adj : Nat → Nat → ℚ := fun g _ => if g = 0 then 25 / 324 else 5 / 9

/-- A source in both groups, a detector in the second: the two modes give the same response although their fluxes
    differ. -/
example : OK (slabM (toy 2 down false 0 0)) (fun _ => 1 / 2) eqs ∧
    Paired (slabM (toy 2 down false 0 0)) (fun _ => 1 / 2) eqs (fun _ => 1) (fun _ _ _ _ _ => 1) 1 ∧
    MGFlux (slabM (toy 2 down false 0 0)) (fun _ => 1 / 2) eqs fwd ∧
    MGFlux ((slabM (toy 2 down false 0 0)).flip seen) (fun _ => 1 / 2) eqs adj ∧ fwd 0 0 ≠ adj 0 0 ∧
    ∑ g ∈ range 2, ∑ c ∈ range 1, 1 * (seen g c * fwd g c) = 205 / 324 ∧
    ∑ g ∈ range 2, ∑ c ∈ range 1, 1 * ((1 : ℚ) * adj g c) = 205 / 324 := by
  refine ⟨slabM_ok _ down_ok rfl, slabM_paired _, fun g hg => (slabM_flux _ _ g).2 ?_,
    fun g hg => (slabM_flux ((slabM (toy 2 down false 0 0)).flip seen).M adj g).2 ?_, by decide +kernel, by decide +kernel,
    by decide +kernel⟩
  · have : ∀ g < 2, fwd g 0 = 5 / 9 * (toy 2 down false 0 0).source fwd g 0 := by decide +kernel
    exact this g hg
  · have : ∀ g < 2, adj g 0 = 5 / 9 * ((slabM (toy 2 down false 0 0)).flip seen).M.source adj g 0 := by decide +kernel
    exact this g hg

/-- Fission neutrons born in group 0, made by group 1. -/
def loopOps : List (Material.Op ℚ) := [.setSigS 0 1 0 (1 / 4), .setNu 0 1 2, .setSigF 0 1 1, .setChi 0 0 1]

/-- Both modes find `k = 25/162`, with different fluxes. -/
example : Eigen (slabM (toy 2 loopOps false 0 0)) (fun _ => 1 / 2) eqs (25 / 162) (fun g _ => if g = 0 then 36 else 5) ∧
    Eigen ((slabM (toy 2 loopOps false 0 0)).flip seen) (fun _ => 1 / 2) eqs (25 / 162)
      (fun g _ => if g = 0 then 5 else 36) := by
  constructor
  · intro g hg
    refine (slabM_flux ((slabM (toy 2 loopOps false 0 0)).fed (25 / 162) fun g _ => if g = 0 then 36 else 5).M _ g).2 ?_
    have : ∀ g < 2, (if g = 0 then 36 else 5 : ℚ) = 5 / 9 * ((slabM (toy 2 loopOps false 0 0)).fed (25 / 162)
        fun g _ => if g = 0 then 36 else 5).M.source (fun g _ => if g = 0 then 36 else 5) g 0 := by decide +kernel
    exact this g hg
  · intro g hg
    refine (slabM_flux (((slabM (toy 2 loopOps false 0 0)).flip seen).fed (25 / 162)
      fun g _ => if g = 0 then 5 else 36).M _ g).2 ?_
    have : ∀ g < 2, (if g = 0 then 5 else 36 : ℚ) = 5 / 9 * (((slabM (toy 2 loopOps false 0 0)).flip seen).fed (25 / 162)
        fun g _ => if g = 0 then 5 else 36).M.source (fun g _ => if g = 0 then 5 else 36) g 0 := by decide +kernel
    exact this g hg

/-! ## Adjoint angular fluxes point the other way -/

/-- The full claim: the adjoint mode's angular flux in a direction is the importance of neutrons that travel in that
    direction. -/
def C130Claim : Prop := ∀ (P : Prob ℚ ℚ) (w V : Nat → ℚ) (Sol) (fw : Nat → Nat → Nat → Nat → Nat → ℚ) (m : ℚ),
  OK P w Sol → Paired P w Sol V fw m → ∀ (q' phi phi' : Nat → Nat → ℚ) (b b' : Nat → Bd ℚ)
    (psi psi' : Nat → Nat → Nat → Nat → ℚ),
    (∀ g < P.M.x.mat.G, Solution (P.W g) w (Sol g) (P.src phi g) (phi g) (fun _ => 0) (fun _ => 0) (b g) (psi g)) →
    (∀ g < P.M.x.mat.G, Solution ((P.flip q').W g) w (Sol g) ((P.flip q').src phi' g) (phi' g) (fun _ => 0)
      (fun _ => 0) (b' g) (psi' g)) →
    m * ∑ g ∈ range P.M.x.mat.G, ∑ c ∈ range P.M.x.N, V c * (q' g c * phi g c) =
      m * ∑ g ∈ range P.M.x.mat.G, ∑ c ∈ range P.M.x.N, V c * (P.M.q g c * phi' g c) +
      ∑ g ∈ range P.M.x.mat.G, ∑ c ∈ range P.M.x.N, V c * ∑ o ∈ range (2 ^ (P.W g).dim), ∑ a ∈ range (P.W g).na,
        w a * (P.discSum g o a c * psi' g o a c)

/-- One group, no scattering, no isotropic source; a beam to the right from the cell. -/
def beam : Prob ℚ ℚ :=
  ⟨{ toy 1 [] false 0 0 with q := fun _ _ => 0 }, fun _ => { slabW with disc := [fun o _ _ => if o = 0 then 1 else 0] }⟩

theorem one_ok : (toy 1 [] false 0 0).OK := toy_ok _ _ _ _ _ rfl fun _ _ _ => le_rfl

theorem beam_ok : OK beam (fun _ => 1 / 2) eqs where
  src := ⟨one_ok.fin, one_ok.nn, one_ok.map, one_ok.add, one_ok.loc⟩
  cells := fun _ => rfl
  bsize := fun _ => rfl
  sw := fun _ _ => by
    have h := (slabs_ok 2 [] 1 none_ok).sw 0 (by decide)
    exact ⟨h.d1, h.d3, h.order, h.face, h.other, h.inc, h.solves, h.lin, h.det⟩
  np := fun _ _ => half_np

theorem beam_paired : Paired beam (fun _ => 1 / 2) eqs (fun _ => 1) (fun _ _ _ _ _ => 1) 1 where
  opp := fun g hg => (slabM_paired (toy 1 [] false 0 0)).opp g hg
  mtod := fun _ _ _ _ _ _ => rfl
  mne := one_ne_zero
  bc := fun g hg => (slabM_paired (toy 1 [] false 0 0)).bc g hg

/-- Edge fluxes and angular fluxes of the beam, and of the detector's problem. -/
def beamB : Nat → Bd ℚ := fun _ s o _ => if s = 1 ∧ o = 0 then 2 / 3 else 0
def beamPsi : Nat → Nat → Nat → Nat → ℚ := fun _ o _ _ => if o = 0 then 1 / 3 else 0
def detB : Nat → Bd ℚ := fun _ s o _ => if s = 0 then 2 / 3 else if o = 0 then 8 / 9 else 0
def detPsi : Nat → Nat → Nat → Nat → ℚ := fun _ o _ _ => if o = 0 then 7 / 9 else 1 / 3

theorem beam_solution : ∀ g < beam.M.x.mat.G, Solution (beam.W g) (fun _ => 1 / 2) (eqs g) (beam.src (fun _ _ => 1 / 6) g)
    (fun _ => 1 / 6) (fun _ => 0) (fun _ => 0) (beamB g) (beamPsi g) := by
  intro g hg
  obtain rfl : g = 0 := Nat.lt_one_iff.1 hg
  refine ⟨?_, ?_, ?_, ?_, ?_⟩
  · intro o ho a ha
    have ho : o < 2 := ho
    obtain rfl : a = 0 := Nat.lt_one_iff.1 ha
    interval_cases o
    · exact ⟨fun p => if p = 0 then 0 else 2 / 3, by decide +kernel, by decide +kernel, by decide +kernel⟩
    · exact ⟨fun p => 0, by decide +kernel, by decide +kernel, by decide +kernel⟩
  · intro c hc
    obtain rfl : c = 0 := Nat.lt_one_iff.1 hc
    decide +kernel
  · intro side hs hv o ho he a ha i j hi
    have ho : o < 2 := ho
    have hs : side < 2 := hs
    interval_cases side
    · cases hv
    · interval_cases o
      · exact absurd he (by decide)
      · rfl
  · intro side hs ps hv
    have hs : side < 2 := hs
    interval_cases side <;> cases hv
  · intro side hs hv o ho he o' hm a ha i j hi
    have ho : o < 2 := ho
    have hs : side < 2 := hs
    interval_cases side
    · exact sub_self _
    · cases hv

theorem det_solution : ∀ g < beam.M.x.mat.G, Solution ((beam.flip fun _ _ => 1).W g) (fun _ => 1 / 2) (eqs g)
    ((beam.flip fun _ _ => 1).src (fun _ _ => 5 / 9) g) (fun _ => 5 / 9) (fun _ => 0) (fun _ => 0) (detB g) (detPsi g) := by
  intro g hg
  obtain rfl : g = 0 := Nat.lt_one_iff.1 hg
  refine ⟨?_, ?_, ?_, ?_, ?_⟩
  · intro o ho a ha
    have ho : o < 2 := ho
    obtain rfl : a = 0 := Nat.lt_one_iff.1 ha
    interval_cases o
    · exact ⟨fun p => if p = 0 then 2 / 3 else 8 / 9, by decide +kernel, by decide +kernel, by decide +kernel⟩
    · exact ⟨fun p => if p = 0 then 0 else 2 / 3, by decide +kernel, by decide +kernel, by decide +kernel⟩
  · intro c hc
    obtain rfl : c = 0 := Nat.lt_one_iff.1 hc
    decide +kernel
  · intro side hs hv o ho he a ha i j hi
    have ho : o < 2 := ho
    have hs : side < 2 := hs
    interval_cases side
    · cases hv
    · interval_cases o
      · exact absurd he (by decide)
      · rfl
  · intro side hs ps hv
    have hs : side < 2 := hs
    interval_cases side <;> cases hv
  · intro side hs hv o ho he o' hm a ha i j hi
    have ho : o < 2 := ho
    have hs : side < 2 := hs
    interval_cases side
    · exact sub_self _
    · cases hv

/-- The beam meets the hypotheses of `C130_directional`: the response 1/6 is half the adjoint angular flux 1/3 of the
    opposite direction. -/
example : ∑ g ∈ range 1, ∑ c ∈ range 1, (1 : ℚ) * (1 * (1 / 6)) =
    0 + ∑ g ∈ range 1, ∑ c ∈ range 1, (1 : ℚ) * ∑ o ∈ range 2, ∑ a ∈ range 1,
      1 / 2 * (beam.discSum g o a c * detPsi g (WGReflect.rev 1 o) a c) := by decide +kernel

theorem C130_claim_fails : ¬ C130Claim := by
  intro h
  have := h beam (fun _ => 1 / 2) (fun _ => 1) eqs (fun _ _ _ _ _ => 1) 1 beam_ok beam_paired (fun _ _ => 1)
    (fun _ _ => 1 / 6) (fun _ _ => 5 / 9) beamB detB beamPsi detPsi beam_solution det_solution
  revert this
  decide +kernel

end cases
end Detran.MGReflect
