import Verif.Lemmas.SIPass
import Verif.Lemmas.LeftWeights
import Verif.Props.MGReflect
import Verif.Model.GaussSeidel

/-!
# Errors of groups coupled by scattering and fission (used for C129)
-/

namespace Detran.MGReflect

open Detran.Sweep (St)
open Detran.Boundary (Bd BC Loc Enters Mirror)
open Detran.WGReflect (Sweeps Solution InFace Sides NoneIn Dissipates outDot inDot errBd errSum pickSum faceDot mir
  flux_energy enter_zero get_errBd)
open Detran.MGSolve
open Finset

section field
variable {F K : Type} [Field K] [LinearOrder K]

/-- What a unit of flux in group `gp` adds to the source of group `g`: scattering, and fission when it is implicit. -/
def couple (M : MGSolve.Prob K) (g gp c : Nat) : K :=
  Material.xs M.x.mat.sigS M.x.adjoint g gp (M.x.mmap c) +
    if M.implicit then M.scale * fissionXs M.x.mat M.x.adjoint g gp (M.x.mmap c) else 0

theorem source_couple (M : MGSolve.Prob K) (phi : Nat → Nat → K) (g c : Nat) :
    M.source phi g c = M.q g c + ∑ gp ∈ range M.x.mat.G, couple M g gp c * phi gp c := by
  unfold MGSolve.Prob.source couple
  simp only [add_mul]
  rw [sum_add_distrib, add_assoc]
  congr 2
  · exact sum_congr rfl fun _ _ => mul_comm _ _
  · split
    · rw [mul_sum]
      exact sum_congr rfl fun _ _ => by ring
    · simp

end field

section ordered
variable {F K : Type} [Field K] [LinearOrder K] [IsStrictOrderedRing K]

/-- What C129 assumes: positive angular weights and volumes, isotropic normalised moments, positive totals `sig`, no
    discrete sources, and coupling small against the totals: between groups `g` and `gp` it is at most `r g gp` times
    the geometric mean of their totals, and there are group weights `u` with `∑ gp, r g gp * u gp ≤ rho * u g`. -/
structure Coupled (P : Prob F K) (w V : Nat → K) (sig r : Nat → Nat → K) (u : Nat → K) (m rho : K) : Prop where
  weight : ∀ g < P.M.x.mat.G, ∀ a < (P.W g).na, 0 < w a
  mtod : ∀ g < P.M.x.mat.G, ∀ o < 2 ^ (P.W g).dim, ∀ a < (P.W g).na, (P.W g).mtod o a = m
  norm : ∀ g < P.M.x.mat.G, m * ∑ _o ∈ range (2 ^ (P.W g).dim), ∑ a ∈ range (P.W g).na, w a = 1
  disc : ∀ g < P.M.x.mat.G, (P.W g).disc = []
  vol : ∀ c < P.M.x.N, 0 < V c
  tot : ∀ g < P.M.x.mat.G, ∀ c < P.M.x.N, 0 < sig g c
  rnn : ∀ g < P.M.x.mat.G, ∀ gp < P.M.x.mat.G, 0 ≤ r g gp
  ratio : ∀ g < P.M.x.mat.G, ∀ gp < P.M.x.mat.G, ∀ c < P.M.x.N,
    couple P.M g gp c ^ 2 ≤ r g gp ^ 2 * (sig g c * sig gp c)
  upos : ∀ g < P.M.x.mat.G, 0 < u g
  row : ∀ g < P.M.x.mat.G, ∑ gp ∈ range P.M.x.mat.G, r g gp * u gp ≤ rho * u g
  rpos : 0 < rho
  less : rho < 1

/-- The fluxes of all groups satisfy the transport equations and side conditions, coupled to each other. -/
def MGFlux (P : Prob F K) (w : Nat → K) (Sol : Nat → (Nat → K) → Nat → Nat → (Nat → F) → (Nat → K) → Prop)
    (phi : Nat → Nat → K) : Prop := ∀ g < P.M.x.mat.G, GroupFlux P w Sol phi g

/-- Squared error of a group, weighted with volumes and total cross sections. -/
def gErr (P : Prob F K) (V : Nat → K) (sig : Nat → Nat → K) (g : Nat) (f f' : Nat → K) : K :=
  ∑ c ∈ range P.M.x.N, V c * sig g c * (f c - f' c) ^ 2

/-- The dissipation of C128 in every group. -/
def AllDissipate (P : Prob F K) (Sol : Nat → (Nat → K) → Nat → Nat → (Nat → F) → (Nat → K) → Prop) (V : Nat → K)
    (sig : Nat → Nat → K) (fw : Nat → Nat → Nat → Nat → Nat → K) : Prop :=
  ∀ g < P.M.x.mat.G, Dissipates (P.W g) (Sol g) V (sig g) (fw g)

theorem young (S r A B x y t : K) (hr : 0 ≤ r) (hA : 0 ≤ A) (hB : 0 ≤ B) (ht : 0 < t) (h : S ^ 2 ≤ r ^ 2 * (A * B)) :
    S * x * y ≤ r / 2 * (t * (B * x ^ 2) + A * y ^ 2 / t) := by
  have h0 : 0 ≤ r / 2 * (t * (B * x ^ 2) + A * y ^ 2 / t) := by positivity
  refine le_trans (le_abs_self _) (abs_le_of_sq_le_sq ?_ h0)
  have h1 : (S * x * y) ^ 2 ≤ r ^ 2 * (A * B) * (x * y) ^ 2 := by
    rw [mul_assoc, mul_pow]
    exact mul_le_mul_of_nonneg_right h (sq_nonneg _)
  refine h1.trans ?_
  have h2 : (r / 2 * (t * (B * x ^ 2) + A * y ^ 2 / t)) ^ 2 - r ^ 2 * (A * B) * (x * y) ^ 2 =
      (r / 2 * (t * (B * x ^ 2) - A * y ^ 2 / t)) ^ 2 := by
    field_simp
    ring
  have := sq_nonneg (r / 2 * (t * (B * x ^ 2) - A * y ^ 2 / t))
  linarith

variable {P : Prob F K} {w V : Nat → K} {sig r : Nat → Nat → K} {u : Nat → K} {m rho : K}
  {Sol : Nat → (Nat → K) → Nat → Nat → (Nat → F) → (Nat → K) → Prop} {fw : Nat → Nat → Nat → Nat → Nat → K}

theorem Coupled.mpos (hC : Coupled P w V sig r u m rho) {g : Nat} (hg : g < P.M.x.mat.G) : 0 < m := by
  have h0 : 0 ≤ ∑ _o ∈ range (2 ^ (P.W g).dim), ∑ a ∈ range (P.W g).na, w a :=
    sum_nonneg fun _ _ => sum_nonneg fun a ha => (hC.weight g hg a (mem_range.1 ha)).le
  by_contra hm
  have := mul_nonpos_of_nonpos_of_nonneg (not_lt.1 hm) h0
  rw [hC.norm g hg] at this
  linarith

theorem gErr_nonneg (hC : Coupled P w V sig r u m rho) {g : Nat} (hg : g < P.M.x.mat.G) (f f' : Nat → K) :
    0 ≤ gErr P V sig g f f' :=
  sum_nonneg fun c hc => mul_nonneg (mul_pos (hC.vol c (mem_range.1 hc)) (hC.tot g hg c (mem_range.1 hc))).le
    (sq_nonneg _)

/-- The work of the coupled sources against a group's flux. -/
theorem couple_bound (hC : Coupled P w V sig r u m rho) {g : Nat} (hg : g < P.M.x.mat.G) (e : Nat → Nat → K)
    (e' : Nat → K) (E : K)
    (hE : ∀ gp < P.M.x.mat.G, ∑ c ∈ range P.M.x.N, V c * sig gp c * e gp c ^ 2 ≤ u gp ^ 2 * E) :
    ∑ c ∈ range P.M.x.N, V c * (∑ gp ∈ range P.M.x.mat.G, couple P.M g gp c * e gp c) * e' c ≤
      (rho ^ 2 * u g ^ 2 * E + ∑ c ∈ range P.M.x.N, V c * sig g c * e' c ^ 2) / 2 := by
  have hug := hC.upos g hg
  have hr := hC.rpos
  set X := ∑ c ∈ range P.M.x.N, V c * sig g c * e' c ^ 2 with hX
  have hX0 : 0 ≤ X := sum_nonneg fun c hc =>
    mul_nonneg (mul_pos (hC.vol c (mem_range.1 hc)) (hC.tot g hg c (mem_range.1 hc))).le (sq_nonneg _)
  have hE0 : 0 ≤ E := by
    have h1 := hE g hg
    have h2 : 0 ≤ ∑ c ∈ range P.M.x.N, V c * sig g c * e g c ^ 2 := sum_nonneg fun c hc =>
      mul_nonneg (mul_pos (hC.vol c (mem_range.1 hc)) (hC.tot g hg c (mem_range.1 hc))).le (sq_nonneg _)
    by_contra hneg
    have := mul_neg_of_pos_of_neg (pow_pos hug 2) (not_le.1 hneg)
    linarith
  have h1 : ∑ c ∈ range P.M.x.N, V c * (∑ gp ∈ range P.M.x.mat.G, couple P.M g gp c * e gp c) * e' c =
      ∑ gp ∈ range P.M.x.mat.G, ∑ c ∈ range P.M.x.N, V c * (couple P.M g gp c * e gp c * e' c) := by
    rw [sum_comm]
    refine sum_congr rfl fun c _ => ?_
    rw [mul_sum, sum_mul]
    exact sum_congr rfl fun gp _ => by ring
  rw [h1]
  have h2 : ∀ gp ∈ range P.M.x.mat.G, ∑ c ∈ range P.M.x.N, V c * (couple P.M g gp c * e gp c * e' c) ≤
      r g gp * u gp * (rho * u g * E / 2 + X / (2 * rho * u g)) := by
    intro gp hgp
    have hgp := mem_range.1 hgp
    have hup := hC.upos gp hgp
    have hrn := hC.rnn g hg gp hgp
    have ht : 0 < rho * u g / u gp := by positivity
    have h3 : ∑ c ∈ range P.M.x.N, V c * (couple P.M g gp c * e gp c * e' c) ≤
        ∑ c ∈ range P.M.x.N, r g gp / 2 * (rho * u g / u gp * (V c * sig gp c * e gp c ^ 2) +
          V c * sig g c * e' c ^ 2 / (rho * u g / u gp)) := by
      refine sum_le_sum fun c hc => ?_
      have hc := mem_range.1 hc
      have := young (couple P.M g gp c) (r g gp) (sig g c) (sig gp c) (e gp c) (e' c) (rho * u g / u gp) hrn
        (hC.tot g hg c hc).le (hC.tot gp hgp c hc).le ht (hC.ratio g hg gp hgp c hc)
      have := mul_le_mul_of_nonneg_left this (hC.vol c hc).le
      refine this.trans (le_of_eq ?_)
      field_simp
    rw [← mul_sum, sum_add_distrib, ← mul_sum, ← sum_div, ← hX] at h3
    refine h3.trans ?_
    have h4 := mul_le_mul_of_nonneg_left (hE gp hgp) ht.le
    have h5 : r g gp / 2 * (rho * u g / u gp * (u gp ^ 2 * E) + X / (rho * u g / u gp)) =
        r g gp * u gp * (rho * u g * E / 2 + X / (2 * rho * u g)) := by
      field_simp
    rw [← h5]
    exact mul_le_mul_of_nonneg_left (by linarith) (by positivity)
  refine (sum_le_sum h2).trans ?_
  rw [← sum_mul]
  have h6 := mul_le_mul_of_nonneg_right (hC.row g hg)
    (by positivity : 0 ≤ rho * u g * E / 2 + X / (2 * rho * u g))
  refine h6.trans (le_of_eq ?_)
  field_simp

/-- What enters with the error is no more than what leaves, when entering errors vanish or mirror leaving ones. -/
theorem in_le_out {Q : WGReflect.Prob F K} {S1 : (Nat → K) → Nat → Nat → (Nat → F) → (Nat → K) → Prop}
    {s1 : Nat → K} {f1 : Nat → Nat → Nat → Nat → K} (h : Sweeps Q w S1) (D : Dissipates Q S1 V s1 f1)
    (hw : ∀ a < Q.na, 0 < w a) (b : Bd F)
    (hz : ∀ side < 2 * Q.dim, Q.bc side ≠ .reflect → ∀ o < 2 ^ Q.dim, Enters side o → ∀ a < Q.na, ∀ i j,
      InFace Q side i j → Q.get (b side o a) i j = 0)
    (hm : ∀ side < 2 * Q.dim, Q.bc side = .reflect → ∀ o < 2 ^ Q.dim, Enters side o → ∀ a < Q.na, ∀ i j,
      InFace Q side i j → Q.get (b side o a) i j = Q.get (b side (mir Q.dim side o) a) i j) :
    inDot Q w f1 b b ≤ outDot Q w f1 b b := by
  rw [WGReflect.outDot_mirror h.d1 h.d3, WGReflect.inDot_eq]
  refine WGReflect.pickSum_mono hw fun t ht o ho hen a ha => ?_
  by_cases hb : Q.bc t = .reflect
  · exact le_of_eq (WGReflect.faceDot_congr (hm t ht hb o ho hen a ha) (hm t ht hb o ho hen a ha))
  · rw [WGReflect.faceDot_zero (hz t ht hb o ho hen a ha)]
    exact WGReflect.faceDot_nonneg D ht ha _

/-- Two solutions of a group's equations with different sources: the difference of their fluxes, driven by the
    difference of the sources. -/
theorem sweep_error (ok : OK P w Sol) (hC : Coupled P w V sig r u m rho) (D : AllDissipate P Sol V sig fw) {g : Nat}
    (hg : g < P.M.x.mat.G) (q q' f f' : Nat → K) (b b' : Bd F) (p p' : Nat → Nat → Nat → K)
    (c1 : ∀ o < 2 ^ (P.W g).dim, ∀ a < (P.W g).na, Sol g (fun c => q c * m) o a (fun t => b t o a) (p o a))
    (f1 : ∀ c < P.M.x.N, f c = ∑ o ∈ range (2 ^ (P.W g).dim), ∑ a ∈ range (P.W g).na, w a * p o a c)
    (c2 : ∀ o < 2 ^ (P.W g).dim, ∀ a < (P.W g).na, Sol g (fun c => q' c * m) o a (fun t => b' t o a) (p' o a))
    (f2 : ∀ c < P.M.x.N, f' c = ∑ o ∈ range (2 ^ (P.W g).dim), ∑ a ∈ range (P.W g).na, w a * p' o a c) :
    outDot (P.W g) w (fw g) (errBd (P.W g) b b') (errBd (P.W g) b b') + m * gErr P V sig g f f' ≤
      inDot (P.W g) w (fw g) (errBd (P.W g) b b') (errBd (P.W g) b b') +
        m * ∑ c ∈ range P.M.x.N, V c * (q c - q' c) * (f c - f' c) := by
  have h := ok.sw g hg
  have hN := ok.cells g
  have key := flux_energy (P := P.W g) (w := w) (V := V) (sig := sig g) (m := m) (fw := fw g) (Sol := Sol g)
    (hC.weight g hg) (hC.norm g hg) (fun c hc => hC.vol c (by rw [hN] at hc; exact hc))
    (fun c hc => hC.tot g hg c (by rw [hN] at hc; exact hc)) (D g hg) (fun c => q c - q' c)
    (fun c => f c - f' c) (errBd (P.W g) b b') (fun o a c => 1 * p o a c + (-1) * p' o a c)
    (fun o ho a ha => h.lin 1 (-1) _ _ _ o a _ _ _ _ _ _ ho (c1 o ho a ha) (c2 o ho a ha) (fun c _ => by ring)
      (fun _ => rfl) (fun side hs i j hi => WGReflect.get_comb h 1 (-1) _ _ side hs o a i j hi))
    (fun c hc => by
      rw [hN] at hc
      rw [f1 c hc, f2 c hc, ← sum_sub_distrib]
      refine sum_congr rfl fun o _ => ?_
      rw [← sum_sub_distrib]
      exact sum_congr rfl fun a _ => by ring)
  rw [hN] at key
  exact key

/-- The reflecting sides of the group mirror. -/
def Mirrors (Q : WGReflect.Prob F K) (b : Bd F) : Prop :=
  ∀ side < 2 * Q.dim, Q.bc side = .reflect → ∀ o < 2 ^ Q.dim, Enters side o → ∀ o', Mirror Q.dim side o o' →
    ∀ a < Q.na, ∀ i j, InFace Q side i j → Q.get (b side o a) i j = Q.get (b side o' a) i j

/-- The same with all side conditions met by both. -/
theorem pair_error (ok : OK P w Sol) (hC : Coupled P w V sig r u m rho) (D : AllDissipate P Sol V sig fw) {g : Nat}
    (hg : g < P.M.x.mat.G) (q q' f f' : Nat → K) (b b' : Bd F) (p p' : Nat → Nat → Nat → K)
    (c1 : ∀ o < 2 ^ (P.W g).dim, ∀ a < (P.W g).na, Sol g (fun c => q c * m) o a (fun t => b t o a) (p o a))
    (f1 : ∀ c < P.M.x.N, f c = ∑ o ∈ range (2 ^ (P.W g).dim), ∑ a ∈ range (P.W g).na, w a * p o a c)
    (c2 : ∀ o < 2 ^ (P.W g).dim, ∀ a < (P.W g).na, Sol g (fun c => q' c * m) o a (fun t => b' t o a) (p' o a))
    (f2 : ∀ c < P.M.x.N, f' c = ∑ o ∈ range (2 ^ (P.W g).dim), ∑ a ∈ range (P.W g).na, w a * p' o a c)
    (hb : Sides (P.W g) b) (hr : Mirrors (P.W g) b) (hb' : Sides (P.W g) b') (hr' : Mirrors (P.W g) b') :
    gErr P V sig g f f' ≤ ∑ c ∈ range P.M.x.N, V c * (q c - q' c) * (f c - f' c) := by
  have h := ok.sw g hg
  have key := sweep_error ok hC D hg q q' f f' b b' p p' c1 f1 c2 f2
  have hio := in_le_out h (D g hg) (hC.weight g hg) (errBd (P.W g) b b')
    (fun side hs hn o ho he a ha i j hi => enter_zero h (ok.np g hg) hb hb' side hs hn o ho he a ha i j hi)
    (fun side hs hn o ho he a ha i j hi => by
      obtain ⟨_, hm, _, _⟩ := WGReflect.mir_facts (P.W g).dim h.d1 h.d3 side hs o ho
      rw [get_errBd h _ _ side hs _ _ _ _ hi, get_errBd h _ _ side hs _ _ _ _ hi,
        hr side hs hn o ho he _ hm a ha i j hi, hr' side hs hn o ho he _ hm a ha i j hi])
  exact le_of_mul_le_mul_left (by linarith) (hC.mpos hg)

/-- The solution behind a group's flux. -/
theorem flux_parts (ok : OK P w Sol) (hC : Coupled P w V sig r u m rho) {g : Nat} (hg : g < P.M.x.mat.G)
    {phi : Nat → Nat → K} (hS : GroupFlux P w Sol phi g) : ∃ (b : Bd F) (p : Nat → Nat → Nat → K),
      (∀ o < 2 ^ (P.W g).dim, ∀ a < (P.W g).na,
        Sol g (fun c => P.M.source phi g c * m) o a (fun t => b t o a) (p o a)) ∧
      (∀ c < P.M.x.N, phi g c = ∑ o ∈ range (2 ^ (P.W g).dim), ∑ a ∈ range (P.W g).na, w a * p o a c) ∧
      Sides (P.W g) b ∧ Mirrors (P.W g) b := by
  obtain ⟨bd, psi, hsol⟩ := hS
  refine ⟨bd, psi, fun o ho a ha => sol_congr (ok.sw g hg) ho (hsol.cells o ho a ha) fun c _ => ?_, fun c hc => ?_,
    ⟨hsol.vacuum, hsol.given⟩, fun t ht hb o ho hen o' hm a ha i j hi =>
      sub_eq_zero.1 (hsol.reflect t ht hb o ho hen o' hm a ha i j hi)⟩
  · unfold Prob.src
    rw [hC.disc g hg, hC.mtod g hg o ho a ha]
    simp only [List.map_nil, List.sum_nil]
    ring
  · have := hsol.flux c (by rw [ok.cells g]; exact hc)
    rw [add_zero] at this
    exact this

theorem source_diff (M : MGSolve.Prob K) (phi psi : Nat → Nat → K) (g c : Nat) :
    M.source phi g c - M.source psi g c = ∑ gp ∈ range M.x.mat.G, couple M g gp c * (phi gp c - psi gp c) := by
  rw [source_couple, source_couple, add_sub_add_left_eq_sub, ← sum_sub_distrib]
  exact sum_congr rfl fun _ _ => by ring

/-- One sweep of a group whose entering errors vanish or mirror leaving ones: the error left, from the errors of the
    fluxes its source was made of. -/
theorem step_error (ok : OK P w Sol) (hC : Coupled P w V sig r u m rho) (D : AllDissipate P Sol V sig fw) {g : Nat}
    (hg : g < P.M.x.mat.G) (phi : Nat → Nat → K) (f : Nat → K) (b1 : Bd F) (p1 : Nat → Nat → Nat → K)
    (c1 : ∀ o < 2 ^ (P.W g).dim, ∀ a < (P.W g).na,
      Sol g (fun c => P.M.source phi g c * m) o a (fun t => b1 t o a) (p1 o a))
    (f1 : ∀ c < P.M.x.N, f c = ∑ o ∈ range (2 ^ (P.W g).dim), ∑ a ∈ range (P.W g).na, w a * p1 o a c)
    (hb : Sides (P.W g) b1) (hr : Mirrors (P.W g) b1) (phiS : Nat → Nat → K) (hS : GroupFlux P w Sol phiS g) (E : K)
    (hE : ∀ gp < P.M.x.mat.G, gErr P V sig gp (phi gp) (phiS gp) ≤ u gp ^ 2 * E) :
    gErr P V sig g f (phiS g) ≤ rho ^ 2 * u g ^ 2 * E := by
  obtain ⟨bd, psi, c2, f2, hb', hr'⟩ := flux_parts ok hC hg hS
  have k1 := pair_error ok hC D hg _ _ f (phiS g) b1 bd p1 psi c1 f1 c2 f2 hb hr hb' hr'
  simp only [source_diff] at k1
  have k2 := couple_bound hC hg (fun gp c => phi gp c - phiS gp c) (fun c => f c - phiS g c) E hE
  change _ ≤ (_ + gErr P V sig g f (phiS g)) / 2 at k2
  linarith

/-! ## One flux, and groups solved exactly -/

/-- The largest of finitely many ratios. -/
theorem sup_bound (G : Nat) (x u : Nat → K) (hx : ∀ g < G, 0 ≤ x g) (hu : ∀ g < G, 0 < u g) :
    ∃ E, 0 ≤ E ∧ (∀ g < G, x g ≤ u g ^ 2 * E) ∧ (E = 0 ∨ ∃ g < G, x g = u g ^ 2 * E) := by
  rcases Nat.eq_zero_or_pos G with h0 | h0
  · exact ⟨0, le_refl _, fun g hg => by omega, Or.inl rfl⟩
  · obtain ⟨g, hg, hmax⟩ := exists_max_image (range G) (fun g => x g / u g ^ 2) ⟨0, mem_range.2 h0⟩
    have hg := mem_range.1 hg
    have hug := hu g hg
    refine ⟨x g / u g ^ 2, div_nonneg (hx g hg) (sq_nonneg _), fun g' hg' => ?_, Or.inr ⟨g, hg, by field_simp⟩⟩
    have h1 := hmax g' (mem_range.2 hg')
    have := hu g' hg'
    have h2 := mul_le_mul_of_nonneg_left h1 (sq_nonneg (u g'))
    calc x g' = u g' ^ 2 * (x g' / u g' ^ 2) := by field_simp
      _ ≤ _ := h2

theorem gErr_zero (hC : Coupled P w V sig r u m rho) {g : Nat} (hg : g < P.M.x.mat.G) (f f' : Nat → K)
    (h : gErr P V sig g f f' ≤ 0) : ∀ c < P.M.x.N, f c = f' c := by
  have hn : ∀ c ∈ range P.M.x.N, 0 ≤ V c * sig g c * (f c - f' c) ^ 2 := fun c hc =>
    mul_nonneg (mul_pos (hC.vol c (mem_range.1 hc)) (hC.tot g hg c (mem_range.1 hc))).le (sq_nonneg _)
  unfold gErr at h
  have h0 := le_antisymm h (sum_nonneg hn)
  rw [sum_eq_zero_iff_of_nonneg hn] at h0
  intro c hc
  rcases mul_eq_zero.1 (h0 c (mem_range.2 hc)) with h1 | h1
  · exact absurd h1 (mul_pos (hC.vol c hc) (hC.tot g hg c hc)).ne'
  · exact sub_eq_zero.1 (pow_eq_zero_iff two_ne_zero |>.1 h1)

/-- Fluxes that satisfy their own equations are the same. -/
theorem own_zero (hC : Coupled P w V sig r u m rho) (x : Nat → K) (hx : ∀ g < P.M.x.mat.G, 0 ≤ x g)
    (h : ∀ E, (∀ g < P.M.x.mat.G, x g ≤ u g ^ 2 * E) → ∀ g < P.M.x.mat.G, x g ≤ rho ^ 2 * u g ^ 2 * E) :
    ∀ g < P.M.x.mat.G, x g ≤ 0 := by
  obtain ⟨E, h0, hE, hat⟩ := sup_bound P.M.x.mat.G x u hx hC.upos
  have hz : E = 0 := by
    rcases hat with e | ⟨g, hg, e⟩
    · exact e
    · have h1 := h E hE g hg
      rw [e] at h1
      have hu := pow_pos (hC.upos g hg) 2
      have hr : rho ^ 2 < 1 := by nlinarith [hC.rpos, hC.less]
      nlinarith [mul_nonneg hu.le h0, mul_pos hu (sub_pos.2 hr)]
  intro g hg
  have := hE g hg
  rw [hz, mul_zero] at this
  exact this

/-- A group solved exactly. -/
theorem exact_step (ok : OK P w Sol) (hC : Coupled P w V sig r u m rho) (D : AllDissipate P Sol V sig fw)
    (phi : Nat → Nat → K) {g : Nat} (hg : g < P.M.x.mat.G) (f : Nat → K)
    (hf : GroupFlux P w Sol (MGSolve.put phi g f) g) (phiS : Nat → Nat → K) (hS : GroupFlux P w Sol phiS g) (E : K)
    (h0 : 0 ≤ E) (hE : ∀ gp < P.M.x.mat.G, gp ≠ g → gErr P V sig gp (phi gp) (phiS gp) ≤ u gp ^ 2 * E) :
    gErr P V sig g f (phiS g) ≤ rho ^ 2 * u g ^ 2 * E := by
  obtain ⟨b, p, c1, f1, hb, hr⟩ := flux_parts ok hC hg hf
  have e : MGSolve.put phi g f g = f := if_pos rfl
  rw [e] at f1
  have key : ∀ E', E ≤ E' → gErr P V sig g f (phiS g) ≤ u g ^ 2 * E' →
      gErr P V sig g f (phiS g) ≤ rho ^ 2 * u g ^ 2 * E' := by
    intro E' hEE hg'
    refine step_error ok hC D hg (MGSolve.put phi g f) f b p c1 f1 hb hr phiS hS E' fun gp hgp => ?_
    unfold MGSolve.put
    split
    · next e => rw [e]; exact hg'
    · next e => exact (hE gp hgp e).trans (mul_le_mul_of_nonneg_left hEE (sq_nonneg _))
  have hu := pow_pos (hC.upos g hg) 2
  rcases le_or_gt (gErr P V sig g f (phiS g)) (u g ^ 2 * E) with hc | hc
  · exact key E (le_refl _) hc
  · have h1 : E ≤ gErr P V sig g f (phiS g) / u g ^ 2 := by
      rw [le_div_iff₀ hu]
      linarith
    have e2 : u g ^ 2 * (gErr P V sig g f (phiS g) / u g ^ 2) = gErr P V sig g f (phiS g) :=
      mul_div_cancel₀ _ hu.ne'
    have h2 := key _ h1 (le_of_eq e2.symm)
    rw [mul_assoc, e2] at h2
    have hr : rho ^ 2 < 1 := by nlinarith [hC.rpos, hC.less]
    have := mul_nonneg hu.le h0
    nlinarith

/-! ## Passes of source iteration -/

theorem Coupled.within (hC : Coupled P w V sig r u m rho) {g : Nat} (hg : g < P.M.x.mat.G) : r g g ≤ rho := by
  have h1 := single_le_sum (f := fun gp => r g gp * u gp)
    (fun gp hgp => mul_nonneg (hC.rnn g hg gp (mem_range.1 hgp)) (hC.upos gp (mem_range.1 hgp)).le) (mem_range.2 hg)
  exact le_of_mul_le_mul_right (h1.trans (hC.row g hg)) (hC.upos g hg)

theorem sweeps_si (ok : OK P w Sol) (phi : Nat → Nat → K) {g : Nat} (hg : g < P.M.x.mat.G) :
    Sweeps (P.siGroup phi g) w (Sol g) := by
  have h := ok.sw g hg
  exact ⟨h.d1, h.d3, h.order, h.face, h.other, h.inc, h.solves, h.lin, h.det⟩

/-- What a pass of source iteration in a group solves. -/
theorem pass_solves (ok : OK P w Sol) (hC : Coupled P w V sig r u m rho) (phi : Nat → Nat → K) {g : Nat}
    (hg : g < P.M.x.mat.G) (s : St F K) : ∃ p : Nat → Nat → Nat → K,
      (∀ o < 2 ^ (P.W g).dim, ∀ a < (P.W g).na, Sol g (fun c => P.M.source (MGSolve.put phi g s.phi) g c * m) o a
        (fun t => (siPass (P.siGroup phi g) true s).bdy t o a) (p o a)) ∧
      ∀ c < P.M.x.N, (siPass (P.siGroup phi g) true s).phi c =
        ∑ o ∈ range (2 ^ (P.W g).dim), ∑ a ∈ range (P.W g).na, w a * p o a c := by
  have hN := ok.cells g
  let Q := P.siGroup phi g
  have hQ : Sweeps Q w (Sol g) := sweeps_si ok phi hg
  obtain ⟨p, c, f⟩ := hQ.solves true (Q.source Q.fixed (Q.scat (Q.moments s.phi))) s
  refine ⟨p, fun o ho a ha => ?_, fun i hi => f i (by rw [← hN] at hi; exact hi)⟩
  refine sol_congr (ok.sw g hg) ho (c o ho a ha) fun i hi => ?_
  rw [hN] at hi
  rw [WGReflect.source_eq (P := Q) (hC.disc g hg)]
  change P.M.source _ g i * m = (P.M.fixedWithScatter phi g i + P.M.withinScatter g ((P.W g).moments s.phi) i) *
    (P.W g).mtod o a
  rw [hC.mtod g hg o ho a ha, fixed_plus_within P.M ok.src phi g hg _ i hi]
  congr 1
  refine source_point _ _ _ _ _ fun gp _ => ?_
  unfold MGSolve.put
  split
  · unfold WGReflect.Prob.moments
    rw [if_pos (by rw [hN]; exact hi)]
  · rfl

theorem sides_siPass (ok : OK P w Sol) (phi : Nat → Nat → K) {g : Nat} (hg : g < P.M.x.mat.G) (s : St F K)
    (hs : Sides (P.W g) s.bdy) : Sides (P.W g) (siPass (P.siGroup phi g) true s).bdy := by
  have := WGReflect.sides_sweep (sweeps_si ok phi hg) (ok.np g hg) true
    ((P.siGroup phi g).source (P.siGroup phi g).fixed ((P.siGroup phi g).scat ((P.siGroup phi g).moments s.phi))) s
    ⟨hs.vacuum, hs.given⟩
  exact ⟨this.vacuum, this.given⟩

theorem sides_reset (ok : OK P w Sol) {g : Nat} (hg : g < P.M.x.mat.G) (b : Bd F) (hs : Sides (P.W g) b) :
    Sides (P.W g) (Boundary.set (P.W g).dim (P.W g).na (P.W g).bc b) :=
  WGReflect.sides_set (ok.sw g hg) b hs.vacuum

/-- No side reflects. -/
def Open (P : Prob F K) : Prop := ∀ g < P.M.x.mat.G, ∀ side < 2 * (P.W g).dim, (P.W g).bc side ≠ .reflect

theorem open_step (ok : OK P w Sol) (hC : Coupled P w V sig r u m rho) (D : AllDissipate P Sol V sig fw)
    (hno : Open P) (phi : Nat → Nat → K) {g : Nat} (hg : g < P.M.x.mat.G) (s : St F K) (hs : Sides (P.W g) s.bdy)
    (phiS : Nat → Nat → K) (hS : GroupFlux P w Sol phiS g) (E : K)
    (hE : ∀ gp < P.M.x.mat.G, gp ≠ g → gErr P V sig gp (phi gp) (phiS gp) ≤ u gp ^ 2 * E)
    (hg0 : gErr P V sig g s.phi (phiS g) ≤ u g ^ 2 * E) :
    gErr P V sig g (siPass (P.siGroup phi g) true s).phi (phiS g) ≤ rho ^ 2 * u g ^ 2 * E := by
  obtain ⟨p, c1, f1⟩ := pass_solves ok hC phi hg s
  refine step_error ok hC D hg (MGSolve.put phi g s.phi) _ _ p c1 f1 (sides_siPass ok phi hg s hs)
    (fun side hs hb => absurd hb (hno g hg side hs)) phiS hS E fun gp hgp => ?_
  unfold MGSolve.put
  split
  · next e => rw [e]; exact hg0
  · next e => exact hE gp hgp e

theorem sq_le_of (hC : Coupled P w V sig r u m rho) {g : Nat} {x E : K} (hx : 0 ≤ x)
    (h : x ≤ rho ^ 2 * u g ^ 2 * E) : x ≤ u g ^ 2 * E := by
  have h1 : rho ^ 2 ≤ 1 := by nlinarith [hC.rpos, hC.less]
  rcases le_or_gt 0 (u g ^ 2 * E) with h0 | h0
  · have := mul_le_mul_of_nonneg_right h1 h0
    linarith
  · have h2 : 0 < rho ^ 2 := pow_pos hC.rpos 2
    have := mul_neg_of_pos_of_neg h2 h0
    linarith

/-- However many passes of source iteration a group gets, if it gets one. -/
theorem open_loop (ok : OK P w Sol) (hC : Coupled P w V sig r u m rho) (D : AllDissipate P Sol V sig fw)
    (hno : Open P) (phi : Nat → Nat → K) {g : Nat} (hg : g < P.M.x.mat.G) (tolI : K) (n : Nat) (s : St F K)
    (hs : Sides (P.W g) s.bdy) (phiS : Nat → Nat → K) (hS : GroupFlux P w Sol phiS g) (E : K)
    (hE : ∀ gp < P.M.x.mat.G, gp ≠ g → gErr P V sig gp (phi gp) (phiS gp) ≤ u gp ^ 2 * E)
    (hg0 : gErr P V sig g s.phi (phiS g) ≤ u g ^ 2 * E) :
    gErr P V sig g (siLoop (P.siGroup phi g) true tolI (n + 1) s).phi (phiS g) ≤ rho ^ 2 * u g ^ 2 * E ∧
      Sides (P.W g) (siLoop (P.siGroup phi g) true tolI (n + 1) s).bdy := by
  induction n generalizing s with
  | zero =>
    have h1 := open_step ok hC D hno phi hg s hs phiS hS E hE hg0
    have h2 := sides_siPass ok phi hg s hs
    unfold siLoop
    dsimp only
    split
    · exact ⟨h1, h2⟩
    · exact ⟨h1, h2⟩
  | succ n ih =>
    have h1 := open_step ok hC D hno phi hg s hs phiS hS E hE hg0
    have h2 := sides_siPass ok phi hg s hs
    rw [siLoop]
    split
    · exact ⟨h1, h2⟩
    · exact ih _ h2 (sq_le_of hC (gErr_nonneg hC hg _ _) h1)

/-- The boundary values of all groups meet their side conditions and boundary updates are on. -/
def Ready (P : Prob F K) (R : Run F K) : Prop := R.flag = true ∧ ∀ g < P.M.x.mat.G, Sides (P.W g) (R.S g).bdy

theorem ready_si (ok : OK P w Sol) (tolI : K) (n : Nat) (R : Run F K) (hR : Ready P R) {g : Nat}
    (hg : g < P.M.x.mat.G) : Ready P (P.siSolve tolI n R g) := by
  refine ⟨hR.1, fun gp hgp => ?_⟩
  unfold Prob.siSolve upd
  dsimp only
  split
  · next e =>
    subst e
    rw [hR.1]
    have key : ∀ (k : Nat) (s : St F K), Sides (P.W gp) s.bdy →
        Sides (P.W gp) (siLoop (P.siGroup R.phi gp) true tolI k s).bdy := by
      intro k
      induction k with
      | zero => exact fun s hs => hs
      | succ k ih =>
        intro s hs
        rw [siLoop]
        split
        · exact sides_siPass ok R.phi hg s hs
        · exact ih _ (sides_siPass ok R.phi hg s hs)
    exact key n _ (sides_reset ok hg _ (hR.2 gp hg))
  · exact hR.2 gp hgp

theorem ready_pass (ok : OK P w Sol) (tolI : K) (n : Nat) (l : List Nat) (hl : ∀ g ∈ l, g < P.M.x.mat.G)
    (R : Run F K) (hR : Ready P R) : Ready P (P.gsPass tolI n l R) := by
  unfold Prob.gsPass
  induction l generalizing R with
  | nil => exact hR
  | cons a l ih =>
    rw [List.foldl_cons]
    exact ih (fun g hg => hl g (by simp [hg])) _ (ready_si ok tolI n R hR (hl a (by simp)))

theorem si_other (tolI : K) (n : Nat) (R : Run F K) (g gp : Nat) (h : gp ≠ g) :
    (P.siSolve tolI n R g).phi gp = R.phi gp := if_neg h

theorem pass_other (tolI : K) (n : Nat) (l : List Nat) (R : Run F K) (gp : Nat) (h : gp ∉ l) :
    (P.gsPass tolI n l R).phi gp = R.phi gp := by
  unfold Prob.gsPass
  induction l generalizing R with
  | nil => rfl
  | cons a l ih =>
    rw [List.foldl_cons, ih _ (fun h' => h (by simp [h'])), si_other]
    rintro rfl
    exact h (by simp)

/-- A pass over some groups: those solved get their error cut, the others keep theirs. -/
theorem open_pass (ok : OK P w Sol) (hC : Coupled P w V sig r u m rho) (D : AllDissipate P Sol V sig fw)
    (hno : Open P) (tolI : K) (n : Nat) (phiS : Nat → Nat → K) (E : K) (l : List Nat)
    (hl : ∀ g ∈ l, g < P.M.x.mat.G ∧ GroupFlux P w Sol phiS g) (R : Run F K) (hR : Ready P R)
    (hE : ∀ gp < P.M.x.mat.G, gErr P V sig gp (R.phi gp) (phiS gp) ≤ u gp ^ 2 * E) :
    (∀ gp < P.M.x.mat.G, gErr P V sig gp ((P.gsPass tolI (n + 1) l R).phi gp) (phiS gp) ≤ u gp ^ 2 * E) ∧
      ∀ g ∈ l, gErr P V sig g ((P.gsPass tolI (n + 1) l R).phi g) (phiS g) ≤ rho ^ 2 * u g ^ 2 * E := by
  induction l generalizing R with
  | nil => exact ⟨hE, fun g hg => by simp at hg⟩
  | cons a l ih =>
    obtain ⟨ha, hS⟩ := hl a (by simp)
    have h1 : gErr P V sig a ((P.siSolve tolI (n + 1) R a).phi a) (phiS a) ≤ rho ^ 2 * u a ^ 2 * E := by
      have e : (P.siSolve tolI (n + 1) R a).phi a = (siLoop (P.siGroup R.phi a) true tolI (n + 1)
          ⟨Boundary.set (P.W a).dim (P.W a).na (P.W a).bc (R.S a).bdy, R.phi a, (R.S a).psi⟩).phi := by
        unfold Prob.siSolve upd
        dsimp only
        rw [if_pos rfl, hR.1]
        rfl
      rw [e]
      exact (open_loop ok hC D hno R.phi ha tolI n _ (sides_reset ok ha _ (hR.2 a ha)) phiS hS E
        (fun gp hgp _ => hE gp hgp) (hE a ha)).1
    have h2 : ∀ gp < P.M.x.mat.G, gErr P V sig gp ((P.siSolve tolI (n + 1) R a).phi gp) (phiS gp) ≤ u gp ^ 2 * E := by
      intro gp hgp
      by_cases e : gp = a
      · subst e
        exact sq_le_of hC (gErr_nonneg hC hgp _ _) h1
      · rw [si_other _ _ _ _ _ e]
        exact hE gp hgp
    obtain ⟨k1, k2⟩ := ih (fun g hg => hl g (by simp [hg])) _ (ready_si ok tolI (n + 1) R hR ha) h2
    refine ⟨k1, fun g hg => ?_⟩
    by_cases hgl : g ∈ l
    · exact k2 g hgl
    · rcases List.mem_cons.1 hg with e | e
      · subst e
        have : (P.gsPass tolI (n + 1) (g :: l) R).phi g = (P.siSolve tolI (n + 1) R g).phi g :=
          pass_other tolI (n + 1) l _ g hgl
        rw [this]
        exact h1
      · exact absurd e hgl

/-! ## One pass per group, with reflecting sides -/

/-- A pass of source iteration in a group with any sides: what is under way at reflecting sides and the errors. -/
theorem under_step (ok : OK P w Sol) (hC : Coupled P w V sig r u m rho) (D : AllDissipate P Sol V sig fw)
    (phiS : Nat → Nat → K) {g : Nat} (hg : g < P.M.x.mat.G) (hS : GroupFlux P w Sol phiS g) :
    ∃ under : Bd F → K, (∀ b, 0 ≤ under b) ∧
      (∀ b, under (Boundary.set (P.W g).dim (P.W g).na (P.W g).bc b) = under b) ∧
      ∀ (phi : Nat → Nat → K) (s : St F K), Sides (P.W g) s.bdy →
      under (siPass (P.siGroup phi g) true s).bdy +
          m * (1 - rho / 2) * gErr P V sig g (siPass (P.siGroup phi g) true s).phi (phiS g) ≤
        under s.bdy + m / 2 * ∑ gp ∈ range P.M.x.mat.G, r g gp * (u g / u gp) *
          gErr P V sig gp (MGSolve.put phi g s.phi gp) (phiS gp) := by
  obtain ⟨bd, psi, c2, f2, hb', hr'⟩ := flux_parts ok hC hg hS
  obtain ⟨under, un, us, hu⟩ := WGReflect.pass_sides (ok.sw g hg) (ok.np g hg) (D g hg) (hC.weight g hg)
  have h := ok.sw g hg
  refine ⟨fun b => under b bd, fun b => un b bd, fun b => us _ _ bd fun side _ hb o a =>
    (Boundary.C67_set (P.W g).dim h.d1 h.d3 (P.W g).na (P.W g).bc b).2 side o a ?_, fun phi s hs => ?_⟩
  · rintro ⟨_, ⟨ps, h'⟩, _⟩
    rw [hb] at h'
    cases h'
  obtain ⟨p, c1, f1⟩ := pass_solves ok hC phi hg s
  have key := sweep_error ok hC D hg _ _ _ (phiS g) _ bd p psi c1 f1 c2 f2
  have k2 := hu ((P.siGroup phi g).source (P.siGroup phi g).fixed
    ((P.siGroup phi g).scat ((P.siGroup phi g).moments s.phi))) s bd hs hb' hr'
  change under (siPass (P.siGroup phi g) true s).bdy bd + inDot (P.W g) w (fw g)
      (errBd (P.W g) (siPass (P.siGroup phi g) true s).bdy bd) (errBd (P.W g) (siPass (P.siGroup phi g) true s).bdy bd) ≤
    under s.bdy bd + outDot (P.W g) w (fw g)
      (errBd (P.W g) (siPass (P.siGroup phi g) true s).bdy bd)
      (errBd (P.W g) (siPass (P.siGroup phi g) true s).bdy bd) at k2
  simp only [source_diff] at key
  have hm := hC.mpos hg
  have hug := hC.upos g hg
  set e' := fun c => (siPass (P.siGroup phi g) true s).phi c - phiS g c with he'
  set e := fun gp c => MGSolve.put phi g s.phi gp c - phiS gp c with he
  have h1 : ∑ c ∈ range P.M.x.N, V c * (∑ gp ∈ range P.M.x.mat.G, couple P.M g gp c * e gp c) * e' c =
      ∑ gp ∈ range P.M.x.mat.G, ∑ c ∈ range P.M.x.N, V c * (couple P.M g gp c * e gp c * e' c) := by
    rw [sum_comm]
    refine sum_congr rfl fun c _ => ?_
    rw [mul_sum, sum_mul]
    exact sum_congr rfl fun gp _ => by ring
  have h2 : ∀ gp ∈ range P.M.x.mat.G, ∑ c ∈ range P.M.x.N, V c * (couple P.M g gp c * e gp c * e' c) ≤
      r g gp * (u g / u gp) * gErr P V sig gp (MGSolve.put phi g s.phi gp) (phiS gp) / 2 +
        r g gp * u gp * (gErr P V sig g (siPass (P.siGroup phi g) true s).phi (phiS g) / (2 * u g)) := by
    intro gp hgp
    have hgp := mem_range.1 hgp
    have hup := hC.upos gp hgp
    have ht : 0 < u g / u gp := by positivity
    have h3 : ∑ c ∈ range P.M.x.N, V c * (couple P.M g gp c * e gp c * e' c) ≤
        ∑ c ∈ range P.M.x.N, r g gp / 2 * (u g / u gp * (V c * sig gp c * e gp c ^ 2) +
          V c * sig g c * e' c ^ 2 / (u g / u gp)) := by
      refine sum_le_sum fun c hc => ?_
      have hc := mem_range.1 hc
      have := young (couple P.M g gp c) (r g gp) (sig g c) (sig gp c) (e gp c) (e' c) (u g / u gp)
        (hC.rnn g hg gp hgp) (hC.tot g hg c hc).le (hC.tot gp hgp c hc).le ht (hC.ratio g hg gp hgp c hc)
      have := mul_le_mul_of_nonneg_left this (hC.vol c hc).le
      refine this.trans (le_of_eq ?_)
      field_simp
    rw [← mul_sum, sum_add_distrib, ← mul_sum, ← sum_div] at h3
    refine h3.trans (le_of_eq ?_)
    change r g gp / 2 * (u g / u gp * gErr P V sig gp (MGSolve.put phi g s.phi gp) (phiS gp) +
      gErr P V sig g (siPass (P.siGroup phi g) true s).phi (phiS g) / (u g / u gp)) = _
    field_simp
  have h4 := sum_le_sum h2
  rw [sum_add_distrib, ← sum_div, ← sum_mul] at h4
  have hX := gErr_nonneg hC hg (siPass (P.siGroup phi g) true s).phi (phiS g)
  have h5 := mul_le_mul_of_nonneg_right (hC.row g hg)
    (by positivity : 0 ≤ gErr P V sig g (siPass (P.siGroup phi g) true s).phi (phiS g) / (2 * u g))
  have e5 : rho * u g * (gErr P V sig g (siPass (P.siGroup phi g) true s).phi (phiS g) / (2 * u g)) =
      rho / 2 * gErr P V sig g (siPass (P.siGroup phi g) true s).phi (phiS g) := by field_simp
  rw [e5] at h5
  have h6 : m * ∑ c ∈ range P.M.x.N, V c * (∑ gp ∈ range P.M.x.mat.G, couple P.M g gp c * e gp c) * e' c ≤
      m * ((∑ gp ∈ range P.M.x.mat.G, r g gp * (u g / u gp) *
        gErr P V sig gp (MGSolve.put phi g s.phi gp) (phiS gp)) / 2 +
        rho / 2 * gErr P V sig g (siPass (P.siGroup phi g) true s).phi (phiS g)) := by
    rw [h1]
    exact mul_le_mul_of_nonneg_left (by linarith) hm.le
  change _ ≤ _ + m * ∑ c ∈ range P.M.x.N, V c * (∑ gp ∈ range P.M.x.mat.G, couple P.M g gp c * e gp c) * e' c at key
  linarith

/-- A pass over a list of groups, each once: what the pass over one of them finds and leaves. -/
theorem pass_at (tolI : K) (n : Nat) (l : List Nat) (hd : l.Nodup) (R : Run F K) (g : Nat) (hg : g ∈ l) :
    ∃ R' : Run F K, R'.flag = R.flag ∧ (∃ l1, (∀ x ∈ l1, x ∈ l) ∧ R' = P.gsPass tolI n l1 R) ∧ R'.S g = R.S g ∧
      (∀ gp, R'.phi gp = if l.idxOf gp < l.idxOf g then (P.gsPass tolI n l R).phi gp else R.phi gp) ∧
      (P.gsPass tolI n l R).S g = (P.siSolve tolI n R' g).S g ∧
      (P.gsPass tolI n l R).phi g = (P.siSolve tolI n R' g).phi g := by
  obtain ⟨l1, l2, rfl⟩ := List.append_of_mem hg
  have hn := List.nodup_append.1 hd
  have hg1 : g ∉ l1 := fun h' => hn.2.2 g h' g (by simp) rfl
  have hg2 : g ∉ l2 := (List.nodup_cons.1 hn.2.1).1
  have keepS : ∀ (l : List Nat) (R : Run F K) (gp : Nat), gp ∉ l → (P.gsPass tolI n l R).S gp = R.S gp := by
    intro l
    induction l with
    | nil => intro R gp _; rfl
    | cons a l ih =>
      intro R gp h
      have : (P.gsPass tolI n (a :: l) R) = P.gsPass tolI n l (P.siSolve tolI n R a) := rfl
      rw [this, ih _ gp (fun h' => h (by simp [h']))]
      exact if_neg (fun e => h (by simp [e]))
  have split : P.gsPass tolI n (l1 ++ g :: l2) R =
      P.gsPass tolI n l2 (P.siSolve tolI n (P.gsPass tolI n l1 R) g) := by
    unfold Prob.gsPass
    rw [List.foldl_append, List.foldl_cons]
  have hi : (l1 ++ g :: l2).idxOf g = l1.length := by
    rw [List.idxOf_append, if_neg hg1, List.idxOf_cons_self]
    omega
  refine ⟨P.gsPass tolI n l1 R, flag_kept tolI n l1 R, ⟨l1, fun x hx => by simp [hx], rfl⟩, keepS l1 R g hg1,
    fun gp => ?_, ?_, ?_⟩
  · rw [hi]
    by_cases h1 : gp ∈ l1
    · rw [if_pos (by rw [List.idxOf_append, if_pos h1]; exact List.idxOf_lt_length_iff.2 h1), split]
      have h2 : gp ∉ l2 := fun h' => hn.2.2 gp h1 gp (by simp [h']) rfl
      rw [pass_other tolI n l2 _ gp h2, si_other]
      rintro rfl
      exact hg1 h1
    · rw [if_neg (by rw [List.idxOf_append, if_neg h1]; omega), pass_other tolI n l1 R gp h1]
  · rw [split, keepS l2 _ g hg2]
  · rw [split, pass_other tolI n l2 _ g hg2]

/-- With one pass of source iteration per group there is a quantity each pass over all groups lowers by a multiple
    of the errors it leaves. -/
theorem one_pass (ok : OK P w Sol) (hC : Coupled P w V sig r u m rho) (D : AllDissipate P Sol V sig fw)
    (phiS : Nat → Nat → K) (hS : MGFlux P w Sol phiS) (tolI : K) (l : List Nat) (hd : l.Nodup)
    (hl : ∀ g, g ∈ l ↔ g < P.M.x.mat.G) :
    ∃ (pot : Run F K → K) (κ : Nat → K), (∀ R, 0 ≤ pot R) ∧ (∀ g < P.M.x.mat.G, 0 < κ g) ∧ ∀ R, Ready P R →
      pot (P.gsPass tolI 1 l R) +
        ∑ g ∈ range P.M.x.mat.G, κ g * gErr P V sig g ((P.gsPass tolI 1 l R).phi g) (phiS g) ≤ pot R := by
  classical
  rcases Nat.eq_zero_or_pos P.M.x.mat.G with h0 | h0
  · exact ⟨fun _ => 0, fun _ => 1, fun _ => le_refl _, fun g hg => by omega, fun R _ => by simp [h0]⟩
  have hm := hC.mpos h0
  obtain ⟨z, zpos, hz⟩ := left_weights P.M.x.mat.G r u rho hC.rnn hC.upos hC.row hC.less
  have hex : ∀ g, ∃ under : Bd F → K, g < P.M.x.mat.G → ((∀ b, 0 ≤ under b) ∧
      (∀ b, under (Boundary.set (P.W g).dim (P.W g).na (P.W g).bc b) = under b) ∧
      ∀ (phi : Nat → Nat → K) (s : St F K), Sides (P.W g) s.bdy →
      under (siPass (P.siGroup phi g) true s).bdy +
          m * (1 - rho / 2) * gErr P V sig g (siPass (P.siGroup phi g) true s).phi (phiS g) ≤
        under s.bdy + m / 2 * ∑ gp ∈ range P.M.x.mat.G, r g gp * (u g / u gp) *
          gErr P V sig gp (MGSolve.put phi g s.phi gp) (phiS gp)) := by
    intro g
    by_cases hg : g < P.M.x.mat.G
    · obtain ⟨un, h⟩ := under_step ok hC D phiS hg (hS g hg)
      exact ⟨un, fun _ => h⟩
    · exact ⟨fun _ => 0, fun h => absurd h hg⟩
  choose under hund using hex
  let bef : Nat → Nat → Prop := fun gp g => l.idxOf gp < l.idxOf g
  -- errors before and after
  let B : Nat → K := fun gp => ∑ g ∈ range P.M.x.mat.G, if bef gp g then 0 else z g * r g gp
  let A : Nat → K := fun gp => ∑ g ∈ range P.M.x.mat.G, if bef gp g then z g * r g gp else 0
  have hAB : ∀ gp < P.M.x.mat.G, A gp + B gp + 1 = z gp := fun gp hgp => by
    rw [← hz gp hgp]
    simp only [A, B]
    rw [← sum_add_distrib]
    congr 1
    refine sum_congr rfl fun g _ => ?_
    split
    · rw [add_zero]
    · rw [zero_add]
  have hB : ∀ gp < P.M.x.mat.G, 0 ≤ B gp := fun gp hgp => sum_nonneg fun g hg => by
    have := zpos g (mem_range.1 hg)
    have := hC.rnn g (mem_range.1 hg) gp hgp
    split
    · exact le_refl _
    · positivity
  refine ⟨fun R => ∑ g ∈ range P.M.x.mat.G, (z g / u g * under g (R.S g).bdy +
      m / 2 * (B g / u g * gErr P V sig g (R.phi g) (phiS g))), fun g => m / (2 * u g), fun R => ?_, fun g hg => ?_,
    fun R hR => ?_⟩
  · refine sum_nonneg fun g hg => ?_
    have hg := mem_range.1 hg
    have := zpos g hg
    have := hC.upos g hg
    have := (hund g hg).1 (R.S g).bdy
    have := gErr_nonneg hC hg (R.phi g) (phiS g)
    have := hB g hg
    positivity
  · have := hC.upos g hg
    positivity
  · set R1 := P.gsPass tolI 1 l R with hR1
    have step : ∀ g ∈ range P.M.x.mat.G, z g / u g * under g (R1.S g).bdy +
        m * (1 - rho / 2) * (z g / u g) * gErr P V sig g (R1.phi g) (phiS g) ≤
        z g / u g * under g (R.S g).bdy + m / 2 * ∑ gp ∈ range P.M.x.mat.G, z g * r g gp / u gp *
          (if bef gp g then gErr P V sig gp (R1.phi gp) (phiS gp) else gErr P V sig gp (R.phi gp) (phiS gp)) := by
      intro g hg
      have hg := mem_range.1 hg
      have hug := hC.upos g hg
      have hzg := zpos g hg
      obtain ⟨R', fl, ⟨l1, hl1, e1⟩, e2, e3, e4, e5⟩ := pass_at (P := P) tolI 1 l hd R g ((hl g).2 hg)
      have hR' : Ready P R' := by
        rw [e1]
        exact ready_pass ok tolI 1 l1 (fun x hx => (hl x).1 (hl1 x hx)) R hR
      have one : (P.siSolve tolI 1 R' g).S g = siPass (P.siGroup R'.phi g) true
          ⟨Boundary.set (P.W g).dim (P.W g).na (P.W g).bc (R'.S g).bdy, R'.phi g, (R'.S g).psi⟩ := by
        unfold Prob.siSolve upd
        dsimp only
        rw [if_pos rfl, hR'.1]
        unfold siLoop
        dsimp only
        split
        · rfl
        · rfl
      have onephi : (P.siSolve tolI 1 R' g).phi g = ((P.siSolve tolI 1 R' g).S g).phi := by
        unfold Prob.siSolve upd
        dsimp only
        rw [if_pos rfl, if_pos rfl]
      obtain ⟨_, us, hu⟩ := hund g hg
      have key := hu R'.phi ⟨Boundary.set (P.W g).dim (P.W g).na (P.W g).bc (R'.S g).bdy, R'.phi g, (R'.S g).psi⟩
        (sides_reset ok hg _ (hR'.2 g hg))
      rw [← one, ← onephi, ← e4, ← e5] at key
      dsimp only at key
      rw [us, e2] at key
      have hput : ∀ gp, MGSolve.put R'.phi g (R'.phi g) gp = R'.phi gp := fun gp => by
        unfold MGSolve.put
        split
        · next e => rw [e]
        · rfl
      simp only [hput] at key
      simp only [e3] at key
      rw [← hR1] at key
      have k2 := mul_le_mul_of_nonneg_left key (by positivity : 0 ≤ z g / u g)
      rw [mul_add, mul_add] at k2
      have e6 : z g / u g * (m / 2 * ∑ gp ∈ range P.M.x.mat.G, r g gp * (u g / u gp) * gErr P V sig gp
          (if l.idxOf gp < l.idxOf g then R1.phi gp else R.phi gp) (phiS gp)) =
          m / 2 * ∑ gp ∈ range P.M.x.mat.G, z g * r g gp / u gp *
          (if bef gp g then gErr P V sig gp (R1.phi gp) (phiS gp) else gErr P V sig gp (R.phi gp) (phiS gp)) := by
        rw [mul_left_comm, mul_sum]
        congr 1
        refine sum_congr rfl fun gp hgp => ?_
        have := hC.upos gp (mem_range.1 hgp)
        simp only [bef]
        split
        · field_simp
        · field_simp
      rw [e6] at k2
      linarith
    have tot := sum_le_sum step
    rw [sum_add_distrib, sum_add_distrib, ← mul_sum] at tot
    have swap : ∑ g ∈ range P.M.x.mat.G, ∑ gp ∈ range P.M.x.mat.G, z g * r g gp / u gp *
          (if bef gp g then gErr P V sig gp (R1.phi gp) (phiS gp) else gErr P V sig gp (R.phi gp) (phiS gp)) =
        ∑ gp ∈ range P.M.x.mat.G, (A gp / u gp * gErr P V sig gp (R1.phi gp) (phiS gp) +
          B gp / u gp * gErr P V sig gp (R.phi gp) (phiS gp)) := by
      rw [sum_comm]
      refine sum_congr rfl fun gp _ => ?_
      simp only [A, B]
      rw [sum_div, sum_div, sum_mul, sum_mul, ← sum_add_distrib]
      refine sum_congr rfl fun g _ => ?_
      split
      · ring
      · ring
    rw [swap, sum_add_distrib, mul_add] at tot
    dsimp only
    rw [sum_add_distrib, sum_add_distrib, ← mul_sum, ← mul_sum]
    have last : ∑ g ∈ range P.M.x.mat.G, m / (2 * u g) * gErr P V sig g (R1.phi g) (phiS g) +
        m / 2 * ∑ g ∈ range P.M.x.mat.G, B g / u g * gErr P V sig g (R1.phi g) (phiS g) +
        m / 2 * ∑ g ∈ range P.M.x.mat.G, A g / u g * gErr P V sig g (R1.phi g) (phiS g) ≤
        ∑ g ∈ range P.M.x.mat.G, m * (1 - rho / 2) * (z g / u g) * gErr P V sig g (R1.phi g) (phiS g) := by
      rw [mul_sum, mul_sum, ← sum_add_distrib, ← sum_add_distrib]
      refine sum_le_sum fun g hg => ?_
      have hg := mem_range.1 hg
      have hug := hC.upos g hg
      have hzg := zpos g hg
      have hX := gErr_nonneg hC hg (R1.phi g) (phiS g)
      have hzg' := hAB g hg
      have e : m / (2 * u g) * gErr P V sig g (R1.phi g) (phiS g) +
          m / 2 * (B g / u g * gErr P V sig g (R1.phi g) (phiS g)) +
          m / 2 * (A g / u g * gErr P V sig g (R1.phi g) (phiS g)) =
          m / 2 * (z g / u g) * gErr P V sig g (R1.phi g) (phiS g) := by
        rw [← hzg']
        field_simp
        ring
      rw [e]
      refine mul_le_mul_of_nonneg_right (mul_le_mul_of_nonneg_right ?_ (by positivity)) hX
      have := hC.less
      nlinarith
    linarith

end ordered

end Detran.MGReflect
