import Verif.Lemmas.GSExist
import Verif.Props.SIConv

/-!
# Gauss–Seidel over groups finds the only fluxes of the coupled groups (C129)
-/

namespace Detran.MGReflect

open Detran.Sweep (St)
open Detran.Boundary (Bd BC Loc Enters Mirror)
open Detran.WGReflect (Sweeps Solution InFace Sides Dissipates Mismatch)
open Detran.MGSolve
open Finset

section main
variable {F K : Type} [Field K] [LinearOrder K] [IsStrictOrderedRing K]
variable {P : Prob F K} {w V : Nat → K} {sig r : Nat → Nat → K} {u : Nat → K} {m rho : K}
  {Sol : Nat → (Nat → K) → Nat → Nat → (Nat → F) → (Nat → K) → Prop} {fw : Nat → Nat → Nat → Nat → Nat → K}

/-! ## One flux -/

/-- Groups coupled by less than their totals have at most one set of fluxes. -/
theorem C129_unique (ok : OK P w Sol) (hC : Coupled P w V sig r u m rho) (D : AllDissipate P Sol V sig fw)
    (phi phi' : Nat → Nat → K) (h : MGFlux P w Sol phi) (h' : MGFlux P w Sol phi') :
    ∀ g < P.M.x.mat.G, ∀ c < P.M.x.N, phi g c = phi' g c := by
  intro g hg
  refine gErr_zero hC hg _ _ (own_zero hC (fun g => gErr P V sig g (phi g) (phi' g))
    (fun g hg => gErr_nonneg hC hg _ _) (fun E hE g hg => ?_) g hg)
  obtain ⟨b, p, c1, f1, hb, hr⟩ := flux_parts ok hC hg (h g hg)
  exact step_error ok hC D hg phi (phi g) b p c1 f1 hb hr phi' (h' g hg) E hE

/-- And they have one. -/
theorem C129_exists (ok : OK P w Sol) (hC : Coupled P w V sig r u m rho) (D : AllDissipate P Sol V sig fw) (s : St F K) :
    ∃ phi, MGFlux P w Sol phi := by
  obtain ⟨phi, _, h⟩ := exists_block ok hC D s (List.range P.M.x.mat.G) (fun _ _ => 0)
  exact ⟨phi, fun g hg => h g hg (List.mem_range.2 hg)⟩

/-- So has any part of them, the other groups held fixed at any fluxes. -/
theorem C129_exists_block (ok : OK P w Sol) (hC : Coupled P w V sig r u m rho) (D : AllDissipate P Sol V sig fw)
    (s : St F K) (l : List Nat) (f0 : Nat → Nat → K) :
    ∃ phi, (∀ g < P.M.x.mat.G, g ∉ l → ∀ c < P.M.x.N, phi g c = f0 g c) ∧
      ∀ g < P.M.x.mat.G, g ∈ l → GroupFlux P w Sol phi g := exists_block ok hC D s l f0

/-! ## Groups solved exactly -/

/-- Passes with any within-group solver that finds group fluxes: every pass over all groups, in any order, cuts the
    largest weighted error by the factor `rho`, with reflecting sides too. -/
theorem C129_exact (ok : OK P w Sol) (hC : Coupled P w V sig r u m rho) (D : AllDissipate P Sol V sig fw)
    (wg : (Nat → Nat → K) → Nat → Nat → K)
    (hwg : ∀ phi, ∀ g < P.M.x.mat.G, GroupFlux P w Sol (MGSolve.put phi g (wg phi g)) g)
    (phiS : Nat → Nat → K) (hS : MGFlux P w Sol phiS) (l : List Nat) (hl : ∀ g, g ∈ l ↔ g < P.M.x.mat.G) (E : K)
    (h0 : 0 ≤ E) (phi : Nat → Nat → K)
    (hE : ∀ g < P.M.x.mat.G, gErr P V sig g (phi g) (phiS g) ≤ u g ^ 2 * E) (k : Nat) :
    ∀ g < P.M.x.mat.G, gErr P V sig g ((passes wg l)^[k] phi g) (phiS g) ≤ (rho ^ k) ^ 2 * u g ^ 2 * E := by
  have one : ∀ (l : List Nat) (E : K) (phi : Nat → Nat → K), 0 ≤ E → (∀ g ∈ l, g < P.M.x.mat.G) →
      (∀ g < P.M.x.mat.G, gErr P V sig g (phi g) (phiS g) ≤ u g ^ 2 * E) →
      (∀ g < P.M.x.mat.G, gErr P V sig g (passes wg l phi g) (phiS g) ≤ u g ^ 2 * E) ∧
        ∀ g ∈ l, gErr P V sig g (passes wg l phi g) (phiS g) ≤ rho ^ 2 * u g ^ 2 * E := by
    intro l
    induction l with
    | nil => exact fun E phi _ _ hE => ⟨hE, fun g hg => by simp at hg⟩
    | cons a l ih =>
      intro E phi h0 hl hE
      have ha := hl a (by simp)
      have h1 : gErr P V sig a (wg phi a) (phiS a) ≤ rho ^ 2 * u a ^ 2 * E :=
        exact_step ok hC D phi ha (wg phi a) (hwg phi a ha) phiS (hS a ha) E h0 (fun gp hgp _ => hE gp hgp)
      have e : passes wg (a :: l) phi = passes wg l (MGSolve.put phi a (wg phi a)) := rfl
      have h2 : ∀ g < P.M.x.mat.G, gErr P V sig g (MGSolve.put phi a (wg phi a) g) (phiS g) ≤ u g ^ 2 * E := by
        intro g hg
        unfold MGSolve.put
        split
        · next e => rw [e] at hg ⊢; exact sq_le_of hC (gErr_nonneg hC hg _ _) h1
        · exact hE g hg
      obtain ⟨k1, k2⟩ := ih E _ h0 (fun g hg => hl g (by simp [hg])) h2
      rw [e]
      refine ⟨k1, fun g hg => ?_⟩
      by_cases hgl : g ∈ l
      · exact k2 g hgl
      · rcases List.mem_cons.1 hg with e | e
        · rw [MGSolve.passes_other wg l _ g hgl, e]
          unfold MGSolve.put
          rw [if_pos rfl]
          exact h1
        · exact absurd e hgl
  induction k with
  | zero => intro g hg; simpa using hE g hg
  | succ k ih =>
    intro g hg
    rw [Function.iterate_succ_apply']
    have := (one l ((rho ^ k) ^ 2 * E) _ (by have := hC.rpos; positivity) (fun g hg => (hl g).1 hg)
      (fun g hg => by have := ih g hg; linarith)).2 g ((hl g).2 hg)
    refine this.trans (le_of_eq ?_)
    ring

/-! ## Groups solved by source iteration, no reflecting sides -/

/-- Any number of inner passes but none and any inner tolerance: block passes cut the errors of the groups in the block
    down to what the errors of the other groups allow. -/
theorem C129_block (ok : OK P w Sol) (hC : Coupled P w V sig r u m rho) (D : AllDissipate P Sol V sig fw)
    (hno : Open P) (tolI : K) (n : Nat) (hn : 0 < n) (phiS : Nat → Nat → K) (l : List Nat)
    (hl : ∀ g ∈ l, g < P.M.x.mat.G ∧ GroupFlux P w Sol phiS g) (R : Run F K) (hR : Ready P R) (E δ : K)
    (hE : ∀ g ∈ l, gErr P V sig g (R.phi g) (phiS g) ≤ u g ^ 2 * E)
    (hδ : ∀ g < P.M.x.mat.G, g ∉ l → gErr P V sig g (R.phi g) (phiS g) ≤ u g ^ 2 * δ) (k : Nat) :
    ∀ g ∈ l, gErr P V sig g (((P.gsPass tolI n l)^[k + 1] R).phi g) (phiS g) ≤
      u g ^ 2 * max ((rho ^ (k + 1)) ^ 2 * E) (rho ^ 2 * δ) := by
  obtain ⟨n, rfl⟩ : ∃ n', n = n' + 1 := ⟨n - 1, by omega⟩
  have hr := pow_pos hC.rpos 2
  have keep : ∀ k, Ready P ((P.gsPass tolI (n + 1) l)^[k] R) ∧
      ∀ g, g ∉ l → ((P.gsPass tolI (n + 1) l)^[k] R).phi g = R.phi g := by
    intro k
    induction k with
    | zero => exact ⟨hR, fun _ _ => rfl⟩
    | succ k ih =>
      rw [Function.iterate_succ_apply']
      exact ⟨ready_pass ok tolI (n + 1) l (fun g hg => (hl g hg).1) _ ih.1,
        fun g hg => by rw [pass_other tolI (n + 1) l _ g hg, ih.2 g hg]⟩
  have step : ∀ k (B : K), (∀ g ∈ l, gErr P V sig g (((P.gsPass tolI (n + 1) l)^[k] R).phi g) (phiS g) ≤ u g ^ 2 * B) →
      ∀ g ∈ l, gErr P V sig g (((P.gsPass tolI (n + 1) l)^[k + 1] R).phi g) (phiS g) ≤
        u g ^ 2 * max (rho ^ 2 * B) (rho ^ 2 * δ) := by
    intro k B hB g hg
    rw [Function.iterate_succ_apply']
    have := (open_pass ok hC D hno tolI n phiS (max B δ) l hl _ (keep k).1 (fun gp hgp => by
      by_cases hm : gp ∈ l
      · exact (hB gp hm).trans (mul_le_mul_of_nonneg_left (le_max_left _ _) (sq_nonneg _))
      · rw [(keep k).2 gp hm]
        exact (hδ gp hgp hm).trans (mul_le_mul_of_nonneg_left (le_max_right _ _) (sq_nonneg _)))).2 g hg
    rw [← mul_max_of_nonneg _ _ hr.le]
    linarith
  induction k with
  | zero =>
    intro g hg
    have := step 0 E hE g hg
    simpa using this
  | succ k ih =>
    intro g hg
    have := step (k + 1) _ ih g hg
    refine this.trans (mul_le_mul_of_nonneg_left (max_le ?_ (le_max_right _ _)) (sq_nonneg _))
    rw [mul_max_of_nonneg _ _ hr.le]
    refine max_le (le_trans (le_of_eq ?_) (le_max_left _ _)) ?_
    · ring
    · rcases le_total 0 δ with h0 | h0
      · refine le_trans ?_ (le_max_right _ _)
        have : rho ^ 2 ≤ 1 := by nlinarith [hC.rpos, hC.less]
        exact mul_le_of_le_one_left (mul_nonneg hr.le h0) this
      · by_cases hex : ∃ gp < P.M.x.mat.G, gp ∉ l
        · obtain ⟨gp, hgp, hm⟩ := hex
          have h1 := hδ gp hgp hm
          have h2 := gErr_nonneg hC hgp (R.phi gp) (phiS gp)
          have hu := pow_pos (hC.upos gp hgp) 2
          have h3 : δ = 0 := le_antisymm h0 (by
            by_contra hneg
            have := mul_neg_of_pos_of_neg hu (not_le.1 hneg)
            linarith)
          rw [h3]
          simp
        · have hu := pow_pos (hC.upos g (hl g hg).1) 2
          have h1 := hE g hg
          have h2 := gErr_nonneg hC (hl g hg).1 (R.phi g) (phiS g)
          have hE0 : 0 ≤ E := by
            by_contra hneg
            have := mul_neg_of_pos_of_neg hu (not_le.1 hneg)
            linarith
          refine le_trans ?_ (le_max_left _ _)
          have h3 : rho ^ 2 * (rho ^ 2 * δ) ≤ 0 :=
            mul_nonpos_of_nonneg_of_nonpos hr.le (mul_nonpos_of_nonneg_of_nonpos hr.le h0)
          have h4 : 0 ≤ (rho ^ (k + 1 + 1)) ^ 2 * E := by positivity
          linarith

/-- Passes over all groups cut the largest weighted error by the factor `rho` each. -/
theorem C129_inexact (ok : OK P w Sol) (hC : Coupled P w V sig r u m rho) (D : AllDissipate P Sol V sig fw)
    (hno : Open P) (tolI : K) (n : Nat) (hn : 0 < n) (phiS : Nat → Nat → K) (hS : MGFlux P w Sol phiS) (l : List Nat)
    (hl : ∀ g, g ∈ l ↔ g < P.M.x.mat.G) (R : Run F K) (hR : Ready P R) (E : K)
    (hE : ∀ g < P.M.x.mat.G, gErr P V sig g (R.phi g) (phiS g) ≤ u g ^ 2 * E) (k : Nat) :
    ∀ g < P.M.x.mat.G, gErr P V sig g (((P.gsPass tolI n l)^[k] R).phi g) (phiS g) ≤ (rho ^ k) ^ 2 * u g ^ 2 * E := by
  obtain ⟨n, rfl⟩ : ∃ n', n = n' + 1 := ⟨n - 1, by omega⟩
  have keep : ∀ k, Ready P ((P.gsPass tolI (n + 1) l)^[k] R) := by
    intro k
    induction k with
    | zero => exact hR
    | succ k ih =>
      rw [Function.iterate_succ_apply']
      exact ready_pass ok tolI (n + 1) l (fun g hg => (hl g).1 hg) _ ih
  induction k with
  | zero => intro g hg; simpa using hE g hg
  | succ k ih =>
    intro g hg
    rw [Function.iterate_succ_apply']
    have := (open_pass ok hC D hno tolI n phiS ((rho ^ k) ^ 2 * E) l (fun g hg => ⟨(hl g).1 hg, hS g ((hl g).1 hg)⟩) _
      (keep k) (fun gp hgp => by have := ih gp hgp; linarith)).2 g ((hl g).2 hg)
    refine this.trans (le_of_eq ?_)
    ring

/-- Small weighted errors are small errors in every cell. -/
theorem mg_small (hC : Coupled P w V sig r u m rho) (ε : K) (hε : 0 < ε) : ∃ δ > 0, ∀ g < P.M.x.mat.G, ∀ f f' : Nat → K,
    gErr P V sig g f f' < δ → ∀ c < P.M.x.N, |f c - f' c| < ε := by
  have : ∃ δ > 0, ∀ g < P.M.x.mat.G, ∀ c < P.M.x.N, δ ≤ V c * sig g c * ε ^ 2 := by
    rcases Nat.eq_zero_or_pos P.M.x.mat.G with h0 | h0
    · exact ⟨1, one_pos, fun g hg => by omega⟩
    rcases Nat.eq_zero_or_pos P.M.x.N with h1 | h1
    · exact ⟨1, one_pos, fun g _ c hc => by omega⟩
    · obtain ⟨⟨g, c⟩, hc, hmin⟩ := exists_min_image (range P.M.x.mat.G ×ˢ range P.M.x.N)
        (fun y => V y.2 * sig y.1 y.2 * ε ^ 2) ⟨(0, 0), mem_product.2 ⟨mem_range.2 h0, mem_range.2 h1⟩⟩
      have hc := mem_product.1 hc
      have k1 := hC.vol c (mem_range.1 hc.2)
      have k2 := hC.tot g (mem_range.1 hc.1) c (mem_range.1 hc.2)
      exact ⟨V c * sig g c * ε ^ 2, by positivity, fun g' hg' c' hc' =>
        hmin (g', c') (mem_product.2 ⟨mem_range.2 hg', mem_range.2 hc'⟩)⟩
  obtain ⟨δ, hδ, hmin⟩ := this
  refine ⟨δ, hδ, fun g hg f f' hlt c hc => ?_⟩
  have h1 : V c * sig g c * (f c - f' c) ^ 2 ≤ gErr P V sig g f f' := single_le_sum
    (f := fun c => V c * sig g c * (f c - f' c) ^ 2)
    (fun i hi => mul_nonneg (mul_pos (hC.vol i (mem_range.1 hi)) (hC.tot g hg i (mem_range.1 hi))).le (sq_nonneg _))
    (mem_range.2 hc)
  have h2 : V c * sig g c * (f c - f' c) ^ 2 < V c * sig g c * ε ^ 2 :=
    lt_of_le_of_lt h1 (lt_of_lt_of_le hlt (hmin g hg c hc))
  exact abs_lt_of_sq_lt_sq (lt_of_mul_lt_mul_left h2 (mul_pos (hC.vol c hc) (hC.tot g hg c hc)).le) hε.le

/-- Powers of a number below one become small. -/
theorem pow_small [Archimedean K] (hC : Coupled P w V sig r u m rho) (E δ : K) (hδ : 0 < δ) :
    ∃ k0, ∀ k ≥ k0, (rho ^ k) ^ 2 * E < δ := by
  have h0 := hC.rpos
  have h1 := hC.less
  have hE : 0 < |E| + 1 := by positivity
  obtain ⟨k0, hk⟩ := exists_pow_lt_of_lt_one (div_pos hδ hE) h1
  refine ⟨k0, fun k hk' => ?_⟩
  have h2 : rho ^ k ≤ rho ^ k0 := pow_le_pow_of_le_one h0.le h1.le hk'
  have h3 : rho ^ k ≤ 1 := pow_le_one₀ h0.le h1.le
  have h4 : 0 < rho ^ k := pow_pos h0 k
  have h5 : (rho ^ k) ^ 2 ≤ rho ^ k0 := by nlinarith
  have h6 : (rho ^ k) ^ 2 * E ≤ (rho ^ k) ^ 2 * (|E| + 1) :=
    mul_le_mul_of_nonneg_left (by have := le_abs_self E; linarith) (by positivity)
  have h7 := mul_le_mul_of_nonneg_right h5 hE.le
  have h8 := mul_lt_mul_of_pos_right hk hE
  rw [div_mul_cancel₀ _ hE.ne'] at h8
  linarith

/-- The fluxes approach those of the coupled groups in every group and cell. -/
theorem C129_converges [Archimedean K] (ok : OK P w Sol) (hC : Coupled P w V sig r u m rho)
    (D : AllDissipate P Sol V sig fw) (hno : Open P) (tolI : K) (n : Nat) (hn : 0 < n) (phiS : Nat → Nat → K)
    (hS : MGFlux P w Sol phiS) (l : List Nat) (hl : ∀ g, g ∈ l ↔ g < P.M.x.mat.G) (R : Run F K) (hR : Ready P R) (ε : K)
    (hε : 0 < ε) : ∃ k0, ∀ k ≥ k0, ∀ g < P.M.x.mat.G, ∀ c < P.M.x.N,
      |((P.gsPass tolI n l)^[k] R).phi g c - phiS g c| < ε := by
  obtain ⟨δ, hδ, hd⟩ := mg_small hC ε hε
  obtain ⟨E, h0, hE, _⟩ := sup_bound P.M.x.mat.G (fun g => gErr P V sig g (R.phi g) (phiS g)) u
    (fun g hg => gErr_nonneg hC hg _ _) hC.upos
  obtain ⟨k0, hk⟩ := pow_small hC ((∑ g ∈ range P.M.x.mat.G, u g ^ 2) * E) δ hδ
  refine ⟨k0, fun k hk' g hg c hc => hd g hg _ _ (lt_of_le_of_lt
    (C129_inexact ok hC D hno tolI n hn phiS hS l hl R hR E hE k g hg) (lt_of_le_of_lt ?_ (hk k hk'))) c hc⟩
  have h1 : u g ^ 2 ≤ ∑ g ∈ range P.M.x.mat.G, u g ^ 2 :=
    single_le_sum (f := fun g => u g ^ 2) (fun _ _ => sq_nonneg _) (mem_range.2 hg)
  have h2 := mul_le_mul_of_nonneg_left (mul_le_mul_of_nonneg_right h1 h0) (sq_nonneg (rho ^ k))
  linarith

/-! ## One inner pass per group, any sides but periodic -/

/-- With one pass of source iteration per group, the squared errors of all passes together stay below a bound. -/
theorem C129_total (ok : OK P w Sol) (hC : Coupled P w V sig r u m rho) (D : AllDissipate P Sol V sig fw) (tolI : K)
    (phiS : Nat → Nat → K) (hS : MGFlux P w Sol phiS) (l : List Nat) (hd : l.Nodup)
    (hl : ∀ g, g ∈ l ↔ g < P.M.x.mat.G) (R : Run F K) (hR : Ready P R) :
    ∀ g < P.M.x.mat.G, ∃ C, ∀ n, ∑ k ∈ range n, gErr P V sig g (((P.gsPass tolI 1 l)^[k + 1] R).phi g) (phiS g) ≤ C := by
  obtain ⟨pot, κ, p0, hκ, p1⟩ := one_pass ok hC D phiS hS tolI l hd hl
  have keep : ∀ k, Ready P ((P.gsPass tolI 1 l)^[k] R) := by
    intro k
    induction k with
    | zero => exact hR
    | succ k ih =>
      rw [Function.iterate_succ_apply']
      exact ready_pass ok tolI 1 l (fun g hg => (hl g).1 hg) _ ih
  intro g hg
  refine ⟨pot R / κ g, fun n => ?_⟩
  rw [le_div_iff₀ (hκ g hg)]
  have key : pot ((P.gsPass tolI 1 l)^[n] R) +
      (∑ k ∈ range n, gErr P V sig g (((P.gsPass tolI 1 l)^[k + 1] R).phi g) (phiS g)) * κ g ≤ pot R := by
    induction n with
    | zero => simp
    | succ n ih =>
      have h1 := p1 _ (keep n)
      rw [← Function.iterate_succ_apply' (P.gsPass tolI 1 l)] at h1
      have h2 : κ g * gErr P V sig g (((P.gsPass tolI 1 l)^[n + 1] R).phi g) (phiS g) ≤
          ∑ g ∈ range P.M.x.mat.G, κ g * gErr P V sig g (((P.gsPass tolI 1 l)^[n + 1] R).phi g) (phiS g) :=
        single_le_sum (f := fun g => κ g * gErr P V sig g (((P.gsPass tolI 1 l)^[n + 1] R).phi g) (phiS g))
          (fun g hg => mul_nonneg (hκ g (mem_range.1 hg)).le (gErr_nonneg hC (mem_range.1 hg) _ _)) (mem_range.2 hg)
      rw [sum_range_succ, add_mul]
      linarith
  have := p0 ((P.gsPass tolI 1 l)^[n] R)
  linarith

/-- One pass of source iteration per group is enough: the fluxes approach those of the coupled groups, with
    reflecting sides too. -/
theorem C129_reflect [Archimedean K] (ok : OK P w Sol) (hC : Coupled P w V sig r u m rho)
    (D : AllDissipate P Sol V sig fw) (tolI : K) (phiS : Nat → Nat → K) (hS : MGFlux P w Sol phiS) (l : List Nat)
    (hd : l.Nodup) (hl : ∀ g, g ∈ l ↔ g < P.M.x.mat.G) (R : Run F K) (hR : Ready P R) (ε : K) (hε : 0 < ε) :
    ∃ k0, ∀ k ≥ k0, ∀ g < P.M.x.mat.G, ∀ c < P.M.x.N, |((P.gsPass tolI 1 l)^[k] R).phi g c - phiS g c| < ε := by
  obtain ⟨δ, hδ, hsm⟩ := mg_small hC ε hε
  have each : ∀ g, ∃ n0, g < P.M.x.mat.G → ∀ k ≥ n0,
      gErr P V sig g (((P.gsPass tolI 1 l)^[k + 1] R).phi g) (phiS g) < δ := by
    intro g
    by_cases hg : g < P.M.x.mat.G
    · obtain ⟨C, hCb⟩ := C129_total ok hC D tolI phiS hS l hd hl R hR g hg
      obtain ⟨n0, h⟩ := WGReflect.small_of_bounded _ (fun k => gErr_nonneg hC hg _ _) C hCb δ hδ
      exact ⟨n0, fun _ => h⟩
    · exact ⟨0, fun h => absurd h hg⟩
  choose n0 hn0 using each
  refine ⟨∑ g ∈ range P.M.x.mat.G, n0 g + 1, fun k hk g hg c hc => ?_⟩
  obtain ⟨k, rfl⟩ : ∃ k', k = k' + 1 := ⟨k - 1, by omega⟩
  have : n0 g ≤ ∑ g ∈ range P.M.x.mat.G, n0 g := single_le_sum (fun _ _ => Nat.zero_le _) (mem_range.2 hg)
  exact hsm g hg _ _ (hn0 g hg k (by omega)) c hc

/-! ## The stopping test and the whole solve -/

/-- The outer test measures the largest change of any cell of any group of the block. -/
theorem C129_test (hN : 0 < P.M.x.N) (groups : List Nat) (old new : Nat → Nat → K) :
    (∀ g < P.M.x.mat.G, g ∈ groups → ∀ c < P.M.x.N, |new g c - old g c| ≤ P.gsError groups old new) ∧
      (P.gsError groups old new = 0 ∨ ∃ g < P.M.x.mat.G, g ∈ groups ∧ ∃ c < P.M.x.N,
        P.gsError groups old new = |new g c - old g c|) ∧ 0 ≤ P.gsError groups old new := by
  have each : ∀ g, ∃ v, Util.normResLinf ((List.range P.M.x.N).map (new g)) ((List.range P.M.x.N).map (old g)) = some v ∧
      (∀ c < P.M.x.N, |new g c - old g c| ≤ v) ∧ ∃ c < P.M.x.N, v = |new g c - old g c| := by
    intro g
    obtain ⟨v, hv, hmax, y, hy, hyv⟩ := Util.C20_normResLinf ((List.range P.M.x.N).map (new g))
      ((List.range P.M.x.N).map (old g)) (by simp) (by
        intro h0
        have := congrArg List.length h0
        simp at this
        omega)
    have hz : List.zipWith (· - ·) ((List.range P.M.x.N).map (new g)) ((List.range P.M.x.N).map (old g)) =
        (List.range P.M.x.N).map fun c => new g c - old g c := by
      rw [List.zipWith_map, List.zipWith_self]
    rw [hz] at hmax hy
    obtain ⟨c, hc, rfl⟩ := List.mem_map.1 hy
    exact ⟨v, hv, fun c hc => hmax _ (List.mem_map.2 ⟨c, List.mem_range.2 hc, rfl⟩), c, List.mem_range.1 hc, hyv.symm⟩
  choose v hv hmax hat using each
  have hl : P.gsNres groups old new = (List.range P.M.x.mat.G).map fun g => if g ∈ groups then v g else 0 := by
    unfold Prob.gsNres
    refine List.map_congr_left fun g _ => ?_
    rw [hv]
    rfl
  have hv0 : ∀ g, 0 ≤ (if g ∈ groups then v g else 0) := by
    intro g
    split
    · exact (abs_nonneg _).trans (hmax g 0 hN)
    · exact le_refl _
  unfold Prob.gsError
  rw [hl]
  rcases Nat.eq_zero_or_pos P.M.x.mat.G with h0 | h0
  · rw [h0]
    exact ⟨fun g hg => by omega, Or.inl rfl, le_refl _⟩
  obtain ⟨G, hG⟩ : ∃ G, P.M.x.mat.G = G + 1 := ⟨P.M.x.mat.G - 1, by omega⟩
  have hcons : (List.range P.M.x.mat.G).map (fun g => if g ∈ groups then v g else 0) =
      (if 0 ∈ groups then v 0 else 0) :: (List.range' 1 G).map fun g => if g ∈ groups then v g else 0 := by
    rw [hG, List.range_eq_range', List.range'_succ]
    rfl
  have hsub : ∀ y ∈ (List.range P.M.x.mat.G).map (fun g => if g ∈ groups then v g else 0),
      ∃ g < P.M.x.mat.G, y = if g ∈ groups then v g else 0 := by
    intro y hy
    obtain ⟨g, hg, rfl⟩ := List.mem_map.1 hy
    exact ⟨g, List.mem_range.1 hg, rfl⟩
  rw [hcons] at hsub
  obtain ⟨z, hz, hzm, y, hy, hyz⟩ := Util.C20_normLinf_partial (if 0 ∈ groups then v 0 else 0)
    ((List.range' 1 G).map fun g => if g ∈ groups then v g else 0) (Or.inl (hv0 0))
  rw [hcons, hz, Option.getD_some]
  refine ⟨fun g hg hgm c hc => ?_, ?_, by rw [← hyz]; exact abs_nonneg _⟩
  · have h1 := hzm (if g ∈ groups then v g else 0) (by
      rw [← hcons]
      exact List.mem_map.2 ⟨g, List.mem_range.2 hg, rfl⟩)
    rw [abs_of_nonneg (hv0 g), if_pos hgm] at h1
    exact (hmax g c hc).trans h1
  · obtain ⟨g, hg, rfl⟩ := hsub y hy
    rw [abs_of_nonneg (hv0 g)] at hyz
    by_cases hgm : g ∈ groups
    · rw [if_pos hgm] at hyz
      obtain ⟨c, hc, e⟩ := hat g
      exact Or.inr ⟨g, hg, hgm, c, hc, by rw [← hyz, e]⟩
    · rw [if_neg hgm] at hyz
      exact Or.inl hyz.symm

/-- What the outer test says about the errors when no side reflects: groups of a block that changed by at most `t` in
    the last pass are off by at most `rho / (1 - rho)` times that (root mean square, in the weights `u`), unless the
    groups outside the block were further off. -/
theorem C129_accuracy_partial (ok : OK P w Sol) (hC : Coupled P w V sig r u m rho) (D : AllDissipate P Sol V sig fw)
    (hno : Open P) (hN : 0 < P.M.x.N) (tolI : K) (n : Nat) (hn : 0 < n) (phiS : Nat → Nat → K) (l : List Nat)
    (hl : ∀ g ∈ l, g < P.M.x.mat.G ∧ GroupFlux P w Sol phiS g) (R : Run F K) (hR : Ready P R) (δ : K)
    (hδ : ∀ g < P.M.x.mat.G, g ∉ l → gErr P V sig g (R.phi g) (phiS g) ≤ u g ^ 2 * δ) (t d : K)
    (ht : P.gsError l R.phi (P.gsPass tolI n l R).phi ≤ t)
    (hd : ∀ g ∈ l, t ^ 2 * ∑ c ∈ range P.M.x.N, V c * sig g c ≤ u g ^ 2 * d) :
    (∀ g ∈ l, (1 - rho) ^ 2 * gErr P V sig g ((P.gsPass tolI n l R).phi g) (phiS g) ≤ rho ^ 2 * u g ^ 2 * d) ∨
      ∀ g ∈ l, gErr P V sig g ((P.gsPass tolI n l R).phi g) (phiS g) ≤ rho ^ 2 * u g ^ 2 * δ := by
  classical
  obtain ⟨n, rfl⟩ : ∃ n', n = n' + 1 := ⟨n - 1, by omega⟩
  have hr0 := hC.rpos
  have hr1 : 0 < 1 - rho := by linarith [hC.less]
  obtain ⟨E, h0, hE, hat⟩ := sup_bound P.M.x.mat.G
    (fun g => if g ∈ l then gErr P V sig g (R.phi g) (phiS g) else 0) u
    (fun g hg => by
      split
      · exact gErr_nonneg hC hg _ _
      · exact le_refl _) hC.upos
  have hE' : ∀ gp < P.M.x.mat.G, gErr P V sig gp (R.phi gp) (phiS gp) ≤ u gp ^ 2 * max E δ := by
    intro gp hgp
    by_cases hm : gp ∈ l
    · have := hE gp hgp
      rw [if_pos hm] at this
      exact this.trans (mul_le_mul_of_nonneg_left (le_max_left _ _) (sq_nonneg _))
    · exact (hδ gp hgp hm).trans (mul_le_mul_of_nonneg_left (le_max_right _ _) (sq_nonneg _))
  have hnew := (open_pass ok hC D hno tolI n phiS (max E δ) l hl R hR hE').2
  rcases le_total E δ with hle | hle
  · right
    rwa [max_eq_right hle] at hnew
  left
  rw [max_eq_left hle] at hnew
  have hd0 : ∀ g ∈ l, 0 ≤ u g ^ 2 * d := fun g hg => (mul_nonneg (sq_nonneg _) (sum_nonneg fun c hc =>
    (mul_pos (hC.vol c (mem_range.1 hc)) (hC.tot g (hl g hg).1 c (mem_range.1 hc))).le)).trans (hd g hg)
  have hED : ∀ g ∈ l, (1 - rho) ^ 2 * (u g ^ 2 * E) ≤ u g ^ 2 * d := by
    rcases hat with e | ⟨g0, hg0, e⟩
    · intro g hg
      rw [e, mul_zero, mul_zero]
      exact hd0 g hg
    by_cases hm : g0 ∈ l
    swap
    · rw [if_neg hm] at e
      have : E = 0 := by
        rcases mul_eq_zero.1 e.symm with h | h
        · exact absurd h (pow_pos (hC.upos g0 hg0) 2).ne'
        · exact h
      intro g hg
      rw [this, mul_zero, mul_zero]
      exact hd0 g hg
    rw [if_pos hm] at e
    have hu := pow_pos (hC.upos g0 hg0) 2
    have hdiff : gErr P V sig g0 (R.phi g0) ((P.gsPass tolI (n + 1) l R).phi g0) ≤ u g0 ^ 2 * d := by
      refine le_trans ?_ (hd g0 hm)
      unfold gErr
      rw [mul_sum]
      refine sum_le_sum fun c hc => ?_
      have hc := mem_range.1 hc
      have h1 := ((C129_test hN l R.phi (P.gsPass tolI (n + 1) l R).phi).1 g0 hg0 hm c hc).trans ht
      have h2 : (R.phi g0 c - (P.gsPass tolI (n + 1) l R).phi g0 c) ^ 2 ≤ t ^ 2 := by
        rw [abs_sub_comm] at h1
        have := abs_nonneg (R.phi g0 c - (P.gsPass tolI (n + 1) l R).phi g0 c)
        nlinarith [sq_abs (R.phi g0 c - (P.gsPass tolI (n + 1) l R).phi g0 c)]
      have := mul_le_mul_of_nonneg_left h2 (mul_pos (hC.vol c hc) (hC.tot g0 hg0 c hc)).le
      linarith
    have htri : gErr P V sig g0 (R.phi g0) (phiS g0) ≤
        1 / rho * gErr P V sig g0 ((P.gsPass tolI (n + 1) l R).phi g0) (phiS g0) +
        1 / (1 - rho) * gErr P V sig g0 (R.phi g0) ((P.gsPass tolI (n + 1) l R).phi g0) := by
      unfold gErr
      rw [mul_sum, mul_sum, ← sum_add_distrib]
      refine sum_le_sum fun c hc => ?_
      have hc := mem_range.1 hc
      have hw := mul_pos (hC.vol c hc) (hC.tot g0 hg0 c hc)
      generalize R.phi g0 c = x
      generalize (P.gsPass tolI (n + 1) l R).phi g0 c = y
      generalize phiS g0 c = z
      have : (x - z) ^ 2 ≤ 1 / rho * (y - z) ^ 2 + 1 / (1 - rho) * (x - y) ^ 2 := by
        have e : 1 / rho * (y - z) ^ 2 + 1 / (1 - rho) * (x - y) ^ 2 - (x - z) ^ 2 =
            ((1 - rho) * (y - z) - rho * (x - y)) ^ 2 / (rho * (1 - rho)) := by
          field_simp
          ring
        have : 0 ≤ ((1 - rho) * (y - z) - rho * (x - y)) ^ 2 / (rho * (1 - rho)) := by positivity
        linarith
      have := mul_le_mul_of_nonneg_left this hw.le
      linarith
    rw [e] at htri
    have h1 := mul_le_mul_of_nonneg_left (hnew g0 hm) (by positivity : 0 ≤ 1 / rho)
    have e1 : 1 / rho * (rho ^ 2 * u g0 ^ 2 * E) = rho * (u g0 ^ 2 * E) := by field_simp
    rw [e1] at h1
    have h2 := mul_le_mul_of_nonneg_left hdiff (by positivity : 0 ≤ 1 / (1 - rho))
    have h3 : (1 - rho) * (u g0 ^ 2 * E) ≤ 1 / (1 - rho) * (u g0 ^ 2 * d) := by linarith
    have h4 := mul_le_mul_of_nonneg_left h3 hr1.le
    have e2 : (1 - rho) * (1 / (1 - rho) * (u g0 ^ 2 * d)) = u g0 ^ 2 * d := by field_simp
    rw [e2] at h4
    have h5 : (1 - rho) ^ 2 * E ≤ d := by
      have : u g0 ^ 2 * ((1 - rho) ^ 2 * E) ≤ u g0 ^ 2 * d := by linarith
      exact le_of_mul_le_mul_left this hu
    intro g hg
    have := mul_le_mul_of_nonneg_left h5 (sq_nonneg (u g))
    linarith
  intro g hg
  have h1 := mul_le_mul_of_nonneg_left (hnew g hg) (sq_nonneg (1 - rho))
  have h2 := mul_le_mul_of_nonneg_left (hED g hg) (sq_nonneg rho)
  linarith

omit [IsStrictOrderedRing K] in
/-- The loop over block passes: where it stops. -/
theorem C129_loop (tolI : K) (n : Nat) (l : List Nat) (tol : K) (k : Nat) (R : Run F K) (e : K) :
    ∃ j ≤ k, P.gsLoop tolI n l tol (k + 1) R e = ((P.gsPass tolI n l)^[j + 1] R,
        P.gsError l ((P.gsPass tolI n l)^[j] R).phi ((P.gsPass tolI n l)^[j + 1] R).phi) ∧
      (j = k ∨ P.gsError l ((P.gsPass tolI n l)^[j] R).phi ((P.gsPass tolI n l)^[j + 1] R).phi < tol) ∧
      ∀ i < j, ¬ P.gsError l ((P.gsPass tolI n l)^[i] R).phi ((P.gsPass tolI n l)^[i + 1] R).phi < tol := by
  induction k generalizing R e with
  | zero =>
    refine ⟨0, le_refl _, ?_, Or.inl rfl, fun i hi => by omega⟩
    rw [Prob.gsLoop]
    split
    · rfl
    · rfl
  | succ k ih =>
    rw [Prob.gsLoop]
    split
    · next h => exact ⟨0, by omega, rfl, Or.inr h, fun i hi => by omega⟩
    · next h =>
      obtain ⟨j, hj, e1, e2, e3⟩ := ih (P.gsPass tolI n l R) (P.gsError l R.phi (P.gsPass tolI n l R).phi)
      refine ⟨j + 1, by omega, e1, ?_, fun i hi => ?_⟩
      · rcases e2 with e2 | e2
        · exact Or.inl (by omega)
        · exact Or.inr e2
      · rcases Nat.eq_zero_or_pos i with hi0 | hi0
        · rw [hi0]
          exact h
        · obtain ⟨i, rfl⟩ : ∃ i', i = i' + 1 := ⟨i - 1, by omega⟩
          exact e3 i (by omega)

/-- When no side reflects the loop over block passes stops by its own test, whatever the limits of the group solves
    (but none) and the fluxes of the groups outside the block; a larger limit changes nothing. -/
theorem C129_stops [Archimedean K] (ok : OK P w Sol) (hC : Coupled P w V sig r u m rho)
    (D : AllDissipate P Sol V sig fw) (hno : Open P) (hN : 0 < P.M.x.N) (tolI : K) (n : Nat) (hn : 0 < n) (l : List Nat)
    (hl : ∀ g ∈ l, g < P.M.x.mat.G) (R : Run F K) (hR : Ready P R) (tol : K) (ht : 0 < tol) :
    ∃ k0, ∀ k ≥ k0, ∀ e, P.gsLoop tolI n l tol k R e = P.gsLoop tolI n l tol k0 R e ∧
      (P.gsLoop tolI n l tol k R e).2 < tol := by
  obtain ⟨phiB, hB0, hB⟩ := C129_exists_block ok hC D (R.S 0) l R.phi
  obtain ⟨δ, hδ, hd⟩ := mg_small hC (tol / 2) (by linarith)
  obtain ⟨E, h0, hE, _⟩ := sup_bound P.M.x.mat.G (fun g => gErr P V sig g (R.phi g) (phiB g)) u
    (fun g hg => gErr_nonneg hC hg _ _) hC.upos
  obtain ⟨k1, hk⟩ := pow_small hC ((∑ g ∈ range P.M.x.mat.G, u g ^ 2) * E) δ hδ
  have out0 : ∀ g < P.M.x.mat.G, g ∉ l → gErr P V sig g (R.phi g) (phiB g) ≤ u g ^ 2 * 0 := fun g hg hm => by
    rw [mul_zero]
    refine le_of_eq (sum_eq_zero fun c hc => ?_)
    rw [hB0 g hg hm c (mem_range.1 hc)]
    ring
  have small : ∀ k ≥ k1, ∀ g ∈ l, ∀ c < P.M.x.N, |((P.gsPass tolI n l)^[k + 1] R).phi g c - phiB g c| < tol / 2 := by
    intro k hk' g hg
    refine hd g (hl g hg) _ _ (lt_of_le_of_lt (C129_block ok hC D hno tolI n hn phiB l
      (fun g hg => ⟨hl g hg, hB g (hl g hg) hg⟩) R hR E 0 (fun g hg => hE g (hl g hg)) out0 k g hg) ?_)
    rw [mul_zero, max_eq_left (by positivity)]
    refine lt_of_le_of_lt ?_ (hk (k + 1) (by omega))
    have h1 : u g ^ 2 ≤ ∑ g ∈ range P.M.x.mat.G, u g ^ 2 :=
      single_le_sum (f := fun g => u g ^ 2) (fun _ _ => sq_nonneg _) (mem_range.2 (hl g hg))
    have h2 := mul_le_mul_of_nonneg_left (mul_le_mul_of_nonneg_right h1 h0) (sq_nonneg (rho ^ (k + 1)))
    linarith
  have hlast : P.gsError l ((P.gsPass tolI n l)^[k1 + 1] R).phi ((P.gsPass tolI n l)^[k1 + 1 + 1] R).phi < tol := by
    rcases (C129_test hN l ((P.gsPass tolI n l)^[k1 + 1] R).phi ((P.gsPass tolI n l)^[k1 + 1 + 1] R).phi).2.1 with
      h | ⟨g, _, hg, c, hc, h⟩
    · rw [h]
      exact ht
    · rw [h]
      have h1 := abs_lt.1 (small k1 (le_refl _) g hg c hc)
      have h2 := abs_lt.1 (small (k1 + 1) (by omega) g hg c hc)
      exact abs_lt.2 ⟨by linarith [h1.2, h2.1], by linarith [h1.1, h2.2]⟩
  have stop : ∀ k ≥ k1 + 2, ∀ e, ∃ j ≤ k1 + 1, P.gsLoop tolI n l tol k R e = ((P.gsPass tolI n l)^[j + 1] R,
        P.gsError l ((P.gsPass tolI n l)^[j] R).phi ((P.gsPass tolI n l)^[j + 1] R).phi) ∧
      P.gsError l ((P.gsPass tolI n l)^[j] R).phi ((P.gsPass tolI n l)^[j + 1] R).phi < tol ∧
      ∀ i < j, ¬ P.gsError l ((P.gsPass tolI n l)^[i] R).phi ((P.gsPass tolI n l)^[i + 1] R).phi < tol := by
    intro k hk e
    obtain ⟨k, rfl⟩ : ∃ k', k = k' + 1 := ⟨k - 1, by omega⟩
    obtain ⟨j, hj, e1, e2, e3⟩ := C129_loop (P := P) tolI n l tol k R e
    have hjk : j ≤ k1 + 1 := by
      by_contra hc
      exact e3 (k1 + 1) (by omega) hlast
    refine ⟨j, hjk, e1, ?_, e3⟩
    rcases e2 with e2 | e2
    · have : j = k1 + 1 := by omega
      rw [this]
      exact hlast
    · exact e2
  refine ⟨k1 + 2, fun k hk e => ?_⟩
  obtain ⟨j, _, e1, e2, e3⟩ := stop k hk e
  obtain ⟨j', _, f1, f2, f3⟩ := stop (k1 + 2) (le_refl _) e
  have : j = j' := by
    rcases Nat.lt_trichotomy j j' with h | h | h
    · exact absurd e2 (f3 j h)
    · exact h
    · exact absurd f2 (e3 j' h)
  subst this
  exact ⟨e1.trans f1.symm, by rw [e1]; exact e2⟩

/-- The groups of the first pass and of the block, for a cutoff inside the groups. -/
theorem gs_groups (G cut : Nat) (adjoint multiply : Bool) (h0 : 0 < G) (hG : G < 2147483648) (hcut : cut < G) :
    (∀ g, g ∈ groupRange (lower G adjoint) (upper G adjoint) ↔ g < G) ∧
    (groupRange (lower G adjoint) (upper G adjoint)).Nodup ∧
    (∀ g, g ∈ groupRange (gsLowerUp G cut adjoint multiply) (upper G adjoint) ↔
      g < G ∧ (multiply = true ∨ if adjoint then g ≤ cut else cut ≤ g)) := by
  have hlow : lower G adjoint = ((if adjoint then G - 1 else 0 : Nat) : Int) := by
    unfold lower
    cases adjoint with
    | false => rfl
    | true => simp only [if_true]; omega
  have hk : (if adjoint then (if adjoint then G - 1 else 0) < G else (if adjoint then G - 1 else 0) ≤ G) := by
    cases adjoint <;> simp <;> omega
  have hall : ∀ g, g ∈ groupRange (lower G adjoint) (upper G adjoint) ↔ g < G := by
    intro g
    rw [hlow]
    have := mem_krylov G hG adjoint _ hk g
    unfold krylovGroups at this
    rw [this]
    cases adjoint <;> simp <;> omega
  refine ⟨hall, ?_, fun g => ?_⟩
  · rw [hlow]
    exact krylov_nodup G hG adjoint _ hk
  · unfold gsLowerUp
    cases multiply with
    | true => rw [if_pos rfl, hall]; simp
    | false =>
      rw [if_neg Bool.false_ne_true]
      have := mem_krylov G hG adjoint cut (by cases adjoint <;> simp <;> omega) g
      unfold krylovGroups at this
      rw [this]
      simp

/-- The whole solve of a problem whose every group is in the block (fission included, or a cutoff at the first group):
    no side reflecting, group solves limited in any way but to none.  It ends without the warning if it may take enough
    passes.  If block passes are asked for and it ends without the warning, every group's flux is off by at most
    `rho / (1 - rho)` times the tolerance. -/
theorem C129_solve [Archimedean K] (ok : OK P w Sol) (hC : Coupled P w V sig r u m rho)
    (D : AllDissipate P Sol V sig fw) (hno : Open P) (hN : 0 < P.M.x.N) (hG0 : 0 < P.M.x.mat.G)
    (hG : P.M.x.mat.G < 2147483648) (cut : Nat) (hcut : cut < P.M.x.mat.G) (ds multiply : Bool)
    (hall : multiply = true ∨ cut = if P.M.x.adjoint then P.M.x.mat.G - 1 else 0) (tolI : K) (n : Nat) (hn : 0 < n)
    (tol : K) (ht : 0 < tol) (R : Run F K) (hR : Ready P R) (phiS : Nat → Nat → K) (hS : MGFlux P w Sol phiS) :
    (∃ k0, ∀ k ≥ k0, (P.gs cut ds multiply tolI n tol k R).2 = false) ∧
      ∀ k > 0, (multiply = true ∨ ds = false ∧ 1 < P.M.x.mat.G) → (P.gs cut ds multiply tolI n tol k R).2 = false →
        ∀ d, (∀ g < P.M.x.mat.G, tol ^ 2 * ∑ c ∈ range P.M.x.N, V c * sig g c ≤ u g ^ 2 * d) → ∀ g < P.M.x.mat.G,
          (1 - rho) ^ 2 * gErr P V sig g ((P.gs cut ds multiply tolI n tol k R).1.phi g) (phiS g) ≤
            rho ^ 2 * u g ^ 2 * d := by
  obtain ⟨k1, _, k3⟩ := gs_groups P.M.x.mat.G cut P.M.x.adjoint multiply hG0 hG hcut
  set l0 := groupRange (lower P.M.x.mat.G P.M.x.adjoint) (upper P.M.x.mat.G P.M.x.adjoint) with hl0
  set l := groupRange (gsLowerUp P.M.x.mat.G cut P.M.x.adjoint multiply) (upper P.M.x.mat.G P.M.x.adjoint) with hl
  have hmem : ∀ g, g ∈ l ↔ g < P.M.x.mat.G := by
    intro g
    rw [k3]
    refine ⟨fun h => h.1, fun h => ⟨h, ?_⟩⟩
    rcases hall with h' | h'
    · exact Or.inl h'
    · right
      rw [h']
      cases P.M.x.adjoint <;> simp <;> omega
  have hR1 : Ready P (P.gsPass tolI n l0 R) := ready_pass ok tolI n l0 (fun g hg => (k1 g).1 hg) R hR
  constructor
  · obtain ⟨k0, hk0⟩ := C129_stops ok hC D hno hN tolI n hn l (fun g hg => (hmem g).1 hg) _ hR1 tol ht
    refine ⟨k0, fun k hk => ?_⟩
    unfold Prob.gs
    dsimp only
    split
    · rw [decide_eq_false_iff_not, not_lt]
      exact (hk0 k hk 0).2.le
    · rfl
  · intro k hk hit hw d hd
    unfold Prob.gs at hw ⊢
    dsimp only at hw ⊢
    have hit : gsIterate P.M.x.mat.G ds multiply k = true := by
      unfold gsIterate
      rcases hit with h | ⟨h, h'⟩
      · simp [h]
      · simp [h, h', hk]
    rw [← hl0, ← hl, if_pos hit] at hw ⊢
    rw [decide_eq_false_iff_not, not_lt] at hw
    obtain ⟨k, rfl⟩ : ∃ k', k = k' + 1 := ⟨k - 1, by omega⟩
    obtain ⟨j, _, e1, _, _⟩ := C129_loop (P := P) tolI n l tol k (P.gsPass tolI n l0 R) 0
    rw [e1] at hw ⊢
    dsimp only at hw ⊢
    have keep : ∀ j, Ready P ((P.gsPass tolI n l)^[j] (P.gsPass tolI n l0 R)) := by
      intro j
      induction j with
      | zero => exact hR1
      | succ j ih =>
        rw [Function.iterate_succ_apply']
        exact ready_pass ok tolI n l (fun g hg => (hmem g).1 hg) _ ih
    rw [Function.iterate_succ_apply'] at hw ⊢
    rcases C129_accuracy_partial ok hC D hno hN tolI n hn phiS l (fun g hg => ⟨(hmem g).1 hg, hS g ((hmem g).1 hg)⟩) _
      (keep j) 0 (fun g hg hm => absurd ((hmem g).2 hg) hm) tol d hw (fun g hg => hd g ((hmem g).1 hg)) with h | h
    · exact fun g hg => h g ((hmem g).2 hg)
    · intro g hg
      have h1 := h g ((hmem g).2 hg)
      rw [mul_zero] at h1
      have h2 : 0 ≤ u g ^ 2 * d := (mul_nonneg (sq_nonneg _) (sum_nonneg fun c hc =>
        (mul_pos (hC.vol c (mem_range.1 hc)) (hC.tot g hg c (mem_range.1 hc))).le)).trans (hd g hg)
      have h3 := mul_nonpos_of_nonneg_of_nonpos (sq_nonneg (1 - rho)) h1
      have h4 := mul_nonneg (sq_nonneg rho) h2
      linarith

/-! ## The multigroup Krylov solver -/

/-- The Krylov solver of C125, with exact group and linear solves, finds the same fluxes. -/
theorem C129_gmres (ok : OK P w Sol) (hC : Coupled P w V sig r u m rho) (D : AllDissipate P Sol V sig fw) {k : Nat}
    (hc : P.Cut k) (hb : P.M.NoBackward k) (wg : (Nat → Nat → K) → Nat → Nat → K)
    (hwg : ∀ phi, ∀ g < P.M.x.mat.G, g ∉ P.groups k → GroupFlux P w Sol (MGSolve.put phi g (wg phi g)) g)
    (hu : ∀ g < P.M.x.mat.G, g ∉ P.groups k → P.M.Uncoupled g) (tol : K) (phi : Nat → Nat → K)
    (S S' : Nat → St F K) (x : Nat → K) (phiS : Nat → Nat → K) (hS : MGFlux P w Sol phiS) :
    let phi1 := passes wg (gsGroups P.M.x.mat.G P.M.x.adjoint k) phi
    (∀ g ∈ P.groups k, Mismatch (P.W g) ((P.rhs k tol phi1 S).1 g).bdy fun _ => 0) →
    SolvesSystem P k tol phi1 S S' x →
    ∀ g < P.M.x.mat.G, ∀ c < P.M.x.N, P.fluxes k phi1 x g c = phiS g c := by
  intro phi1 hm hx
  exact C129_unique ok hC D _ _ (C125_balanced ok hc hb wg hwg hu tol phi S S' x hm hx) hS

end main

/-! ## When the coupling is small enough -/

/-- Groups that only feed later ones: weights exist as soon as every group scatters into itself less than it collides,
    however much it feeds the others. -/
theorem C129_downscatter {K : Type} [Field K] [LinearOrder K] [IsStrictOrderedRing K] (G : Nat) (r : Nat → Nat → K)
    (rho0 : K) (h0 : 0 < rho0) (h1 : rho0 < 1) (hr : ∀ g < G, ∀ gp < G, 0 ≤ r g gp)
    (hup : ∀ g < G, ∀ gp < G, g < gp → r g gp = 0) (hin : ∀ g < G, r g g ≤ rho0) :
    ∃ (u : Nat → K) (rho : K), (∀ g < G, 0 < u g) ∧ (∀ g < G, ∑ gp ∈ range G, r g gp * u gp ≤ rho * u g) ∧ 0 < rho ∧
      rho < 1 := by
  set B := ∑ g ∈ range G, ∑ gp ∈ range G, r g gp with hB
  have hB0 : 0 ≤ B := sum_nonneg fun g hg => sum_nonneg fun gp hgp => hr g (mem_range.1 hg) gp (mem_range.1 hgp)
  have hd : 0 < 1 - rho0 := by linarith
  set M := 1 + 2 * B / (1 - rho0) with hM
  have hM1 : 1 ≤ M := by
    have : 0 ≤ 2 * B / (1 - rho0) := by positivity
    linarith
  have hM0 : 0 < M := by linarith
  refine ⟨fun g => M ^ g, (1 + rho0) / 2, fun g _ => pow_pos hM0 g, fun g hg => ?_, by linarith, by linarith⟩
  have split : ∀ gp ∈ range G, r g gp * M ^ gp ≤ (if gp = g then rho0 * M ^ g else 0) + r g gp * (M ^ g / M) := by
    intro gp hgp
    have hgp := mem_range.1 hgp
    have hrn := hr g hg gp hgp
    have hq : 0 ≤ r g gp * (M ^ g / M) := by positivity
    rcases Nat.lt_trichotomy gp g with h | h | h
    · rw [if_neg (by omega), zero_add]
      refine mul_le_mul_of_nonneg_left ?_ hrn
      rw [le_div_iff₀ hM0, ← pow_succ]
      exact pow_le_pow_right₀ hM1 h
    · subst h
      rw [if_pos rfl]
      have := mul_le_mul_of_nonneg_right (hin gp hg) (pow_pos hM0 gp).le
      linarith
    · rw [hup g hg gp hgp h, if_neg (by omega)]
      simp
  refine (sum_le_sum split).trans ?_
  rw [sum_add_distrib, sum_ite_eq' (range G) g (fun _ => rho0 * M ^ g), if_pos (mem_range.2 hg), ← sum_mul]
  have hrow : ∑ gp ∈ range G, r g gp ≤ B := single_le_sum (f := fun g => ∑ gp ∈ range G, r g gp)
    (fun g hg => sum_nonneg fun gp hgp => hr g (mem_range.1 hg) gp (mem_range.1 hgp)) (mem_range.2 hg)
  have hBM : B ≤ (1 - rho0) / 2 * M := by
    have : (1 - rho0) / 2 * M = (1 - rho0) / 2 + B := by
      rw [hM]
      field_simp
    linarith
  have hp : 0 ≤ M ^ g / M := by positivity
  have k1 := mul_le_mul_of_nonneg_right (hrow.trans hBM) hp
  have k2 : (1 - rho0) / 2 * M * (M ^ g / M) = (1 - rho0) / 2 * M ^ g := by field_simp
  rw [k2] at k1
  linarith

/-- One material whose groups send out, by scattering and fission together, less than they collide: weights exist,
    whatever goes where. -/
theorem C129_conserving (M : MGSolve.Prob ℝ) (S : Nat → Nat → ℝ) (sig : Nat → ℝ) (ρ : ℝ) (h1 : ρ < 1)
    (hs : ∀ g < M.x.mat.G, 0 < sig g) (hS : ∀ g < M.x.mat.G, ∀ gp < M.x.mat.G, 0 ≤ S g gp)
    (hcp : ∀ g < M.x.mat.G, ∀ gp < M.x.mat.G, ∀ c < M.x.N, couple M g gp c = S g gp)
    (hcol : ∀ gp < M.x.mat.G, ∑ g ∈ range M.x.mat.G, S g gp ≤ ρ * sig gp) :
    ∃ (r : Nat → Nat → ℝ) (u : Nat → ℝ) (rho : ℝ), (∀ g < M.x.mat.G, ∀ gp < M.x.mat.G, 0 ≤ r g gp) ∧
      (∀ g < M.x.mat.G, ∀ gp < M.x.mat.G, ∀ c < M.x.N, couple M g gp c ^ 2 ≤ r g gp ^ 2 * (sig g * sig gp)) ∧
      (∀ g < M.x.mat.G, 0 < u g) ∧ (∀ g < M.x.mat.G, ∑ gp ∈ range M.x.mat.G, r g gp * u gp ≤ rho * u g) ∧
      0 < rho ∧ rho < 1 := by
  have hq : ∀ g < M.x.mat.G, 0 < √(sig g) := fun g hg => Real.sqrt_pos.2 (hs g hg)
  set r : Nat → Nat → ℝ := fun g gp => S g gp / (√(sig g) * √(sig gp)) with hr
  have hrn : ∀ g < M.x.mat.G, ∀ gp < M.x.mat.G, 0 ≤ r g gp := fun g hg gp hgp =>
    div_nonneg (hS g hg gp hgp) (mul_pos (hq g hg) (hq gp hgp)).le
  obtain ⟨z, zpos, hz⟩ := left_weights M.x.mat.G (fun g gp => r gp g) (fun g => √(sig g)) ρ
    (fun g hg gp hgp => hrn gp hgp g hg) hq (fun g hg => by
      have e : ∀ gp ∈ range M.x.mat.G, r gp g * √(sig gp) = S gp g / √(sig g) := fun gp hgp => by
        have := hq g hg
        have := hq gp (mem_range.1 hgp)
        simp only [hr]
        field_simp
      rw [sum_congr rfl e, ← sum_div, div_le_iff₀ (hq g hg), mul_assoc, Real.mul_self_sqrt (hs g hg).le]
      exact hcol g hg) h1
  have hZ : ∀ g < M.x.mat.G, z g ≤ ∑ g ∈ range M.x.mat.G, z g := fun g hg =>
    single_le_sum (f := z) (fun g hg => (zpos g (mem_range.1 hg)).le) (mem_range.2 hg)
  set Z := ∑ g ∈ range M.x.mat.G, z g with hZd
  have hZ0 : 0 ≤ Z := sum_nonneg fun g hg => (zpos g (mem_range.1 hg)).le
  have hZ2 : (0 : ℝ) < Z + 2 := by linarith
  have hinv : 1 / (Z + 2) ≤ 1 / 2 := one_div_le_one_div_of_le (by norm_num) (by linarith)
  refine ⟨r, z, 1 - 1 / (Z + 2), hrn, fun g hg gp hgp c hc => ?_, zpos, fun g hg => ?_, by linarith, ?_⟩
  · rw [hcp g hg gp hgp c hc]
    have := hq g hg
    have := hq gp hgp
    simp only [hr]
    rw [div_pow, mul_pow, Real.sq_sqrt (hs g hg).le, Real.sq_sqrt (hs gp hgp).le,
      div_mul_cancel₀ _ (mul_pos (hs g hg) (hs gp hgp)).ne']
  · have h2 := hz g hg
    have e : ∑ gp ∈ range M.x.mat.G, r g gp * z gp = z g - 1 := by
      rw [← h2, add_sub_cancel_right]
      exact sum_congr rfl fun gp _ => mul_comm _ _
    rw [e]
    have h3 : 1 / (Z + 2) * z g ≤ 1 := by
      rw [one_div, inv_mul_le_iff₀ hZ2, mul_one]
      have := hZ g hg
      linarith
    linarith
  · have : 0 < 1 / (Z + 2) := by positivity
    linarith

/-! ## The discretisations of the code -/

section geom
open Detran.Sweep (LinEq1 LinEq2 LinEq3 Solves1 Solves2 Solves3 dd1 sd1 sc1 sc2 dd2 sd2 dd3 C27_schemes_linear)
open Detran.WGReflect (Cell1 Cell2 dissipates1 dissipates2 dissipates3 cell_dd1 cell_sd1 cell_sc1 cell_dd2 cell_sd2 cell_sc2
  cell_dd3 exp_ok)
variable {K : Type} [Field K] [LinearOrder K] [IsStrictOrderedRing K]

/-- The coupled groups have one set of fluxes and Gauss–Seidel goes there: with one pass of source iteration per group
    whatever the sides, and with any number of them if no side reflects. -/
def GSFinds {F : Type} (P : Prob F K) (w : Nat → K)
    (Sol : Nat → (Nat → K) → Nat → Nat → (Nat → F) → (Nat → K) → Prop) : Prop :=
  ∃ phi, MGFlux P w Sol phi ∧
    (∀ phi', MGFlux P w Sol phi' → ∀ g < P.M.x.mat.G, ∀ c < P.M.x.N, phi' g c = phi g c) ∧
    ∀ (l : List Nat), l.Nodup → (∀ g, g ∈ l ↔ g < P.M.x.mat.G) → ∀ R, Ready P R → ∀ (tolI : K) (n : Nat), 0 < n →
      (n = 1 ∨ Open P) → ∀ ε > 0, ∃ k0, ∀ k ≥ k0, ∀ g < P.M.x.mat.G, ∀ c < P.M.x.N,
        |((P.gsPass tolI n l)^[k] R).phi g c - phi g c| < ε

theorem gs_finds [Archimedean K] {F : Type} {P : Prob F K} {w V : Nat → K} {sig r : Nat → Nat → K} {u : Nat → K}
    {m rho : K} {Sol : Nat → (Nat → K) → Nat → Nat → (Nat → F) → (Nat → K) → Prop}
    {fw : Nat → Nat → Nat → Nat → Nat → K} (z : F) (ok : OK P w Sol) (hC : Coupled P w V sig r u m rho)
    (D : AllDissipate P Sol V sig fw) : GSFinds P w Sol := by
  obtain ⟨phi, hphi⟩ := C129_exists ok hC D ⟨fun _ _ _ => z, fun _ => 0, fun _ _ _ => 0⟩
  refine ⟨phi, hphi, fun phi' h' => C129_unique ok hC D phi' phi h' hphi, fun l hd hl R hR tolI n hn hor ε hε => ?_⟩
  rcases hor with rfl | hno
  · exact C129_reflect ok hC D tolI phi hphi l hd hl R hR ε hε
  · exact C129_converges ok hC D hno tolI n hn phi hphi l hl R hR ε hε

/-- What is asked of the coupling. -/
structure Weak (M : MGSolve.Prob K) (sig r : Nat → Nat → K) (u : Nat → K) (rho : K) : Prop where
  tot : ∀ g < M.x.mat.G, ∀ c < M.x.N, 0 < sig g c
  rnn : ∀ g < M.x.mat.G, ∀ gp < M.x.mat.G, 0 ≤ r g gp
  ratio : ∀ g < M.x.mat.G, ∀ gp < M.x.mat.G, ∀ c < M.x.N, couple M g gp c ^ 2 ≤ r g gp ^ 2 * (sig g c * sig gp c)
  upos : ∀ g < M.x.mat.G, 0 < u g
  row : ∀ g < M.x.mat.G, ∑ gp ∈ range M.x.mat.G, r g gp * u gp ≤ rho * u g
  rpos : 0 < rho
  less : rho < 1

/-- 1-D with diamond or step differencing. -/
theorem C129_1D [Archimedean K] (M : MGSolve.Prob K) (hM : M.OK) (mu w dx : Nat → K) (sig r : Nat → Nat → K) (u : Nat → K)
    (m rho : K) (hW : Weak M sig r u rho) (na : Nat) (up : Bool) (bc : Nat → Nat → BC K) (order : List Nat)
    (hord : order.Perm (List.range 2)) (sch : Nat → Nat → Nat → K → K → K × K)
    (hsch : ∀ g a i, sch g a i = dd1 (mu a) (dx i) (sig g i) ∨ sch g a i = sd1 (mu a) (dx i) (sig g i))
    (hmu : ∀ a < na, 0 < mu a) (hw : ∀ a < na, 0 < w a) (hm : m * ∑ _o ∈ range 2, ∑ a ∈ range na, w a = 1)
    (hdx : ∀ i < M.x.N, 0 < dx i) (hr : ∀ g s, bc g s = .reflect ↔ bc 0 s = .reflect)
    (hp : ∀ g, ∀ s < 2, bc g s ≠ .periodic) :
    GSFinds (mg1 M sch w M.x.N na up bc order (fun _ _ => m) (fun _ => [])) w
      (fun g q o a b p => Solves1 M.x.N (fun i => sch g a i (q i)) o b p) := by
  have lin : ∀ g a i, LinEq1 (sch g a i) := fun g a i => by
    obtain ⟨l1, l2, _⟩ := C27_schemes_linear (fun x : K => x) (mu a) 0 0 (dx i) 0 0 (sig g i)
    rcases hsch g a i with e | e <;> rw [e] <;> assumption
  refine gs_finds 0 (V := dx) (sig := sig) (r := r) (u := u) (m := m) (rho := rho) (fw := fun _ _ a _ _ => mu a / 2)
    (C125_ok1 M hM sch lin w na up bc order hord _ _ hr hp)
    ⟨fun _ _ => hw, fun _ _ _ _ _ _ => rfl, fun _ _ => hm, fun _ _ => rfl, hdx, hW.tot, hW.rnn, hW.ratio, hW.upos,
      hW.row, hW.rpos, hW.less⟩ fun g hg => dissipates1 (sch g) w M.x.N na up (bc g) order _ _ _ _ dx (sig g)
        (fun a => mu a / 2) (fun a ha => half_pos (hmu a ha)) ?_
  intro a ha i hi
  rcases hsch g a i with e | e
  · rw [e]; exact cell_dd1 _ _ _ (hmu a ha) (hdx i hi) (hW.tot g hg i hi)
  · rw [e]; exact cell_sd1 _ _ _ (hmu a ha) (hdx i hi) (hW.tot g hg i hi)

/-- 1-D with step characteristics. -/
theorem C129_1D_sc (M : MGSolve.Prob ℝ) (hM : M.OK) (mu w dx : Nat → ℝ) (sig r : Nat → Nat → ℝ) (u : Nat → ℝ)
    (m rho : ℝ) (hW : Weak M sig r u rho) (na : Nat) (up : Bool) (bc : Nat → Nat → BC ℝ) (order : List Nat)
    (hord : order.Perm (List.range 2))
    (hmu : ∀ a < na, 0 < mu a) (hw : ∀ a < na, 0 < w a) (hm : m * ∑ _o ∈ range 2, ∑ a ∈ range na, w a = 1)
    (hdx : ∀ i < M.x.N, 0 < dx i) (hr : ∀ g s, bc g s = .reflect ↔ bc 0 s = .reflect)
    (hp : ∀ g, ∀ s < 2, bc g s ≠ .periodic) :
    let sch := fun g a i => sc1 Real.exp (mu a) (dx i) (sig g i)
    GSFinds (mg1 M sch w M.x.N na up bc order (fun _ _ => m) (fun _ => [])) w
      (fun g q o a b p => Solves1 M.x.N (fun i => sch g a i (q i)) o b p) := by
  intro sch
  refine gs_finds 0 (V := dx) (sig := sig) (r := r) (u := u) (m := m) (rho := rho) (fw := fun _ _ a _ _ => mu a / 2)
    (C125_ok1 M hM sch (fun g a i => (C27_schemes_linear Real.exp (mu a) 0 0 (dx i) 0 0 (sig g i)).2.2.1) w na up bc order
      hord _ _ hr hp)
    ⟨fun _ _ => hw, fun _ _ _ _ _ _ => rfl, fun _ _ => hm, fun _ _ => rfl, hdx, hW.tot, hW.rnn, hW.ratio, hW.upos,
      hW.row, hW.rpos, hW.less⟩ fun g hg => dissipates1 (sch g) w M.x.N na up (bc g) order _ _ _ _ dx (sig g)
        (fun a => mu a / 2) (fun a ha => half_pos (hmu a ha)) ?_
  intro a ha i hi
  have := hmu a ha
  have := hdx i hi
  have := hW.tot g hg i hi
  obtain ⟨k1, k2⟩ := exp_ok (sig g i * dx i / mu a) (by positivity)
  exact cell_sc1 Real.exp _ _ _ (hmu a ha) (hdx i hi) (hW.tot g hg i hi) k1 k2

/-- 2-D with any linear scheme whose cells make no energy. -/
theorem gs_finds2 [Archimedean K] (M : MGSolve.Prob K) (hM : M.OK) (mu eta w dx dy : Nat → K) (sig r : Nat → Nat → K)
    (u : Nat → K) (m rho : K) (hW : Weak M sig r u rho) (nx ny na : Nat) (hN : nx * ny = M.x.N) (up : Bool)
    (bc : Nat → Nat → BC (Nat → K)) (order : List Nat) (hord : order.Perm (List.range 4))
    (sch : Nat → Nat → Nat → Nat → K → K × K → K × (K × K)) (lin : ∀ g a i j, LinEq2 (sch g a i j))
    (cell : ∀ g a i j, 0 < mu a → 0 < eta a → 0 < dx i → 0 < dy j → 0 < sig g (i + j * nx) →
      Cell2 (mu a / 2 * dy j) (eta a / 2 * dx i) (dx i * dy j) (sig g (i + j * nx)) (sch g a i j))
    (hmu : ∀ a < na, 0 < mu a) (heta : ∀ a < na, 0 < eta a) (hw : ∀ a < na, 0 < w a)
    (hm : m * ∑ _o ∈ range 4, ∑ a ∈ range na, w a = 1) (hdx : ∀ i < nx, 0 < dx i) (hdy : ∀ j < ny, 0 < dy j)
    (hr : ∀ g s, bc g s = .reflect ↔ bc 0 s = .reflect) (hp : ∀ g, ∀ s < 4, bc g s ≠ .periodic) :
    GSFinds (mg2 M sch w nx ny na up bc order (fun _ _ => m) (fun _ => [])) w
      (fun g q o a b p => Solves2 nx ny (fun i j => sch g a i j (q (i + j * nx))) o b p) := by
  have fit : ∀ {i j}, i < nx → j < ny → i + j * nx < nx * ny := fun {i j} hi hj => by
    have := Nat.mul_le_mul_right nx (Nat.succ_le_of_lt hj)
    rw [Nat.succ_mul, Nat.mul_comm ny] at this
    omega
  have vol : ∀ i j, i < nx → dx ((i + j * nx) % nx) * dy ((i + j * nx) / nx) = dx i * dy j := fun i j hi => by
    rw [Nat.add_mul_mod_self_right, Nat.mod_eq_of_lt hi, Nat.add_mul_div_right _ _ (by omega : 0 < nx),
      Nat.div_eq_of_lt hi, Nat.zero_add]
  refine gs_finds (fun _ => 0) (V := fun c => dx (c % nx) * dy (c / nx)) (sig := sig) (r := r) (u := u) (m := m)
    (rho := rho) (fw := _) (C125_ok2 M hM sch lin w nx ny na up hN bc order hord _ _ hr hp)
    ⟨fun _ _ => hw, fun _ _ _ _ _ _ => rfl, fun _ _ => hm, fun _ _ => rfl, fun c hc => ?_, hW.tot, hW.rnn, hW.ratio,
      hW.upos, hW.row, hW.rpos, hW.less⟩ fun g hg => dissipates2 (sch g) w nx ny na up (bc g) order _ _ _ _ _ (sig g)
        (fun a j => mu a / 2 * dy j) (fun a i => eta a / 2 * dx i)
        (fun a ha j hj => mul_pos (half_pos (hmu a ha)) (hdy j hj))
        (fun a ha i hi => mul_pos (half_pos (heta a ha)) (hdx i hi)) ?_
  · have hc' : c < nx * ny := by rw [hN]; exact hc
    have hn : 0 < nx := Nat.pos_of_ne_zero fun h => by simp [h] at hc'
    exact mul_pos (hdx _ (Nat.mod_lt _ hn)) (hdy _ (Nat.div_lt_of_lt_mul hc'))
  · intro a ha i hi j hj
    rw [vol i j hi]
    exact cell g a i j (hmu a ha) (heta a ha) (hdx i hi) (hdy j hj) (hW.tot g hg _ (by rw [← hN]; exact fit hi hj))

/-- 2-D with diamond or step differencing. -/
theorem C129_2D [Archimedean K] (M : MGSolve.Prob K) (hM : M.OK) (mu eta w dx dy : Nat → K) (sig r : Nat → Nat → K)
    (u : Nat → K) (m rho : K) (hW : Weak M sig r u rho) (nx ny na : Nat) (hN : nx * ny = M.x.N) (up : Bool)
    (bc : Nat → Nat → BC (Nat → K)) (order : List Nat) (hord : order.Perm (List.range 4))
    (sch : Nat → Nat → Nat → Nat → K → K × K → K × (K × K))
    (hsch : ∀ g a i j, sch g a i j = dd2 (mu a) (eta a) (dx i) (dy j) (sig g (i + j * nx)) ∨
      sch g a i j = sd2 (mu a) (eta a) (dx i) (dy j) (sig g (i + j * nx)))
    (hmu : ∀ a < na, 0 < mu a) (heta : ∀ a < na, 0 < eta a) (hw : ∀ a < na, 0 < w a)
    (hm : m * ∑ _o ∈ range 4, ∑ a ∈ range na, w a = 1) (hdx : ∀ i < nx, 0 < dx i) (hdy : ∀ j < ny, 0 < dy j)
    (hr : ∀ g s, bc g s = .reflect ↔ bc 0 s = .reflect) (hp : ∀ g, ∀ s < 4, bc g s ≠ .periodic) :
    GSFinds (mg2 M sch w nx ny na up bc order (fun _ _ => m) (fun _ => [])) w
      (fun g q o a b p => Solves2 nx ny (fun i j => sch g a i j (q (i + j * nx))) o b p) := by
  refine gs_finds2 M hM mu eta w dx dy sig r u m rho hW nx ny na hN up bc order hord sch (fun g a i j => ?_)
    (fun g a i j k1 k2 k3 k4 k5 => ?_) hmu heta hw hm hdx hdy hr hp
  · obtain ⟨_, _, _, l1, l2, _⟩ :=
      C27_schemes_linear (fun x : K => x) (mu a) (eta a) 0 (dx i) (dy j) 0 (sig g (i + j * nx))
    rcases hsch g a i j with e | e <;> rw [e] <;> assumption
  · rcases hsch g a i j with e | e
    · rw [e]; exact cell_dd2 _ _ _ _ _ k1 k2 k3 k4 k5
    · rw [e]; exact cell_sd2 _ _ _ _ _ k1 k2 k3 k4 k5

/-- 2-D with step characteristics. -/
theorem C129_2D_sc (M : MGSolve.Prob ℝ) (hM : M.OK) (mu eta w dx dy : Nat → ℝ) (sig r : Nat → Nat → ℝ)
    (u : Nat → ℝ) (m rho : ℝ) (hW : Weak M sig r u rho) (nx ny na : Nat) (hN : nx * ny = M.x.N) (up : Bool)
    (bc : Nat → Nat → BC (Nat → ℝ)) (order : List Nat) (hord : order.Perm (List.range 4))
    (hmu : ∀ a < na, 0 < mu a) (heta : ∀ a < na, 0 < eta a) (hw : ∀ a < na, 0 < w a)
    (hm : m * ∑ _o ∈ range 4, ∑ a ∈ range na, w a = 1) (hdx : ∀ i < nx, 0 < dx i) (hdy : ∀ j < ny, 0 < dy j)
    (hr : ∀ g s, bc g s = .reflect ↔ bc 0 s = .reflect) (hp : ∀ g, ∀ s < 4, bc g s ≠ .periodic) :
    let sch := fun g a i j => sc2 Real.exp (mu a) (eta a) (dx i) (dy j) (sig g (i + j * nx))
    GSFinds (mg2 M sch w nx ny na up bc order (fun _ _ => m) (fun _ => [])) w
      (fun g q o a b p => Solves2 nx ny (fun i j => sch g a i j (q (i + j * nx))) o b p) := by
  intro sch
  exact gs_finds2 M hM mu eta w dx dy sig r u m rho hW nx ny na hN up bc order hord sch
    (fun g a i j => (C27_schemes_linear Real.exp (mu a) (eta a) 0 (dx i) (dy j) 0 (sig g (i + j * nx))).2.2.2.2.2.1)
    (fun g a i j k1 k2 k3 k4 k5 => cell_sc2 _ _ _ _ _ k1 k2 k3 k4 k5) hmu heta hw hm hdx hdy hr hp

/-- 3-D with diamond differencing. -/
theorem C129_3D [Archimedean K] (M : MGSolve.Prob K) (hM : M.OK) (mu eta xi w dx dy dz : Nat → K) (sig r : Nat → Nat → K)
    (u : Nat → K) (m rho : K) (hW : Weak M sig r u rho) (nx ny nz na : Nat) (hfit : nx ≤ 2 ^ 32)
    (hN : nx * ny * nz = M.x.N) (up : Bool) (bc : Nat → Nat → BC (Nat → Nat → K)) (order : List Nat)
    (hord : order.Perm (List.range 8))
    (hmu : ∀ a < na, 0 < mu a) (heta : ∀ a < na, 0 < eta a) (hxi : ∀ a < na, 0 < xi a) (hw : ∀ a < na, 0 < w a)
    (hm : m * ∑ _o ∈ range 8, ∑ a ∈ range na, w a = 1) (hdx : ∀ i < nx, 0 < dx i) (hdy : ∀ j < ny, 0 < dy j)
    (hdz : ∀ k < nz, 0 < dz k) (hr : ∀ g s, bc g s = .reflect ↔ bc 0 s = .reflect)
    (hp : ∀ g, ∀ s < 6, bc g s ≠ .periodic) :
    let sch := fun g a i j k => dd3 (mu a) (eta a) (xi a) (dx i) (dy j) (dz k) (sig g (i + j * nx + k * nx * ny))
    GSFinds (mg3 M sch w nx ny nz na up bc order (fun _ _ => m) (fun _ => [])) w
      (fun g q o a b p => Solves3 nx ny nz (fun i j k => sch g a i j k (q (i + j * nx + k * nx * ny))) o b p) := by
  intro sch
  have lin : ∀ g a i j k, LinEq3 (sch g a i j k) := fun g a i j k =>
    (C27_schemes_linear (fun x : K => x) (mu a) (eta a) (xi a) (dx i) (dy j) (dz k) _).2.2.2.2.2.2
  have fit2 : ∀ {i j}, i < nx → j < ny → i + j * nx < nx * ny := fun {i j} hi hj => by
    have := Nat.mul_le_mul_right nx (Nat.succ_le_of_lt hj)
    rw [Nat.succ_mul, Nat.mul_comm ny] at this
    omega
  have e3 : ∀ k, k * nx * ny = k * (nx * ny) := fun k => Nat.mul_assoc _ _ _
  have fit : ∀ {i j k}, i < nx → j < ny → k < nz → i + j * nx + k * nx * ny < nx * ny * nz :=
    fun {i j k} hi hj hk => by
      have := Nat.mul_le_mul_right (nx * ny) (Nat.succ_le_of_lt hk)
      rw [Nat.succ_mul, Nat.mul_comm nz] at this
      have := fit2 hi hj
      rw [e3]
      omega
  let V : Nat → K := fun c => dx (c % (nx * ny) % nx) * dy (c % (nx * ny) / nx) * dz (c / (nx * ny))
  have vol : ∀ i j k, i < nx → j < ny → V (i + j * nx + k * nx * ny) = dx i * dy j * dz k := fun i j k hi hj => by
    simp only [V]
    have hc := fit2 hi hj
    rw [e3, Nat.add_mul_mod_self_right, Nat.mod_eq_of_lt hc, Nat.add_mul_div_right _ _ (by omega : 0 < nx * ny),
      Nat.div_eq_of_lt hc, Nat.zero_add, Nat.add_mul_mod_self_right, Nat.mod_eq_of_lt hi,
      Nat.add_mul_div_right _ _ (by omega : 0 < nx), Nat.div_eq_of_lt hi, Nat.zero_add]
  refine gs_finds (fun _ _ => 0) (V := V) (sig := sig) (r := r) (u := u) (m := m) (rho := rho) (fw := _)
    (C125_ok3 M hM sch lin w nx ny nz na up hfit hN bc order hord _ _ hr hp)
    ⟨fun _ _ => hw, fun _ _ _ _ _ _ => rfl, fun _ _ => hm, fun _ _ => rfl, fun c hc => ?_, hW.tot, hW.rnn, hW.ratio,
      hW.upos, hW.row, hW.rpos, hW.less⟩ fun g hg => dissipates3 (sch g) w nx ny nz na up (bc g) order _ _ _ _ V (sig g)
        (fun a k j => mu a / 2 * (dy j * dz k)) (fun a k i => eta a / 2 * (dx i * dz k))
        (fun a j i => xi a / 2 * (dx i * dy j))
        (fun a ha k hk j hj => mul_pos (half_pos (hmu a ha)) (mul_pos (hdy j hj) (hdz k hk)))
        (fun a ha k hk i hi => mul_pos (half_pos (heta a ha)) (mul_pos (hdx i hi) (hdz k hk)))
        (fun a ha j hj i hi => mul_pos (half_pos (hxi a ha)) (mul_pos (hdx i hi) (hdy j hj))) ?_
  · have hc' : c < nx * ny * nz := by rw [hN]; exact hc
    have hn2 : 0 < nx * ny := Nat.pos_of_ne_zero fun h => by simp [h] at hc'
    have hn : 0 < nx := Nat.pos_of_ne_zero fun h => by simp [h] at hn2
    exact mul_pos (mul_pos (hdx _ (Nat.mod_lt _ hn)) (hdy _ (Nat.div_lt_of_lt_mul (Nat.mod_lt _ hn2))))
      (hdz _ (Nat.div_lt_of_lt_mul hc'))
  · intro a ha i hi j hj k hk
    rw [vol i j k hi hj]
    exact cell_dd3 _ _ _ _ _ _ _ (hmu a ha) (heta a ha) (hxi a ha) (hdx i hi) (hdy j hj) (hdz k hk)
      (hW.tot g hg _ (by rw [← hN]; exact fit hi hj hk))

end geom

/-! ## Cases -/

section cases
open Detran.Sweep (Solves1 dd1 sd1)
open Detran.WGReflect (dd half zeros half_np dissipates1 cell_dd1 dd_lin)

/-- Two groups that feed each other, the first scattering into itself too: `(to, from, cross section)`. -/
def pair : List (Material.Op ℚ) := [.setSigS 0 1 0 (1 / 4), .setSigS 0 0 1 (1 / 4), .setSigS 0 0 0 (1 / 4)]

/-- The one-cell slab with several groups between given sides; unit sources. -/
def slabB (bc : Nat → BC ℚ) (G : Nat) (ops : List (Material.Op ℚ)) : Prob ℚ ℚ :=
  mg1 (toy G ops false 0 0) (fun _ => dd) (fun _ => 1 / 2) 1 1 true (fun _ => bc) [1, 0] (fun _ _ => 1) (fun _ => [])

theorem pair_ok : (toy 2 pair false 0 0).OK := by
  refine toy_ok _ _ _ _ _ rfl ?_
  intro g gp m
  simp only [pair, Material.Mat.run, List.foldl_cons, List.foldl_nil, Material.Mat.step, Material.set3, Material.Mat.new]
  split_ifs <;> norm_num

theorem slabB_ok (bc : Nat → BC ℚ) (hp : ∀ s < 2, bc s ≠ .periodic) (G : Nat) (ops : List (Material.Op ℚ))
    (h : (toy G ops false 0 0).OK) : OK (slabB bc G ops) (fun _ => 1 / 2) eqs :=
  C125_ok1 (toy G ops false 0 0) h _ (fun _ => dd_lin) _ _ _ _ _ (by decide) _ _ (fun _ _ => Iff.rfl) (fun _ => hp)

theorem slabB_dis (bc : Nat → BC ℚ) (G : Nat) (ops : List (Material.Op ℚ)) :
    AllDissipate (slabB bc G ops) eqs (fun _ => 1) (fun _ _ => 1) fun _ _ _ _ _ => 1 / 2 := fun g _ =>
  dissipates1 dd _ 1 1 true bc [1, 0] _ _ _ _ _ _ (fun _ => 1 / 2) (fun _ _ => by norm_num) (by
    intro a _ i _ q e
    have e1 : dd a i q e = dd1 1 1 1 q e := Prod.ext (by unfold dd dd1; ring) (by unfold dd dd1; ring)
    rw [e1]
    exact cell_dd1 1 1 1 one_pos one_pos one_pos q e)

/-- The coupling is half the totals. -/
theorem pair_coupled (bc : Nat → BC ℚ) : Coupled (slabB bc 2 pair) (fun _ => 1 / 2) (fun _ => 1) (fun _ _ => 1)
    (fun _ _ => 1 / 4) (fun _ => 1) 1 (1 / 2) where
  weight := fun _ _ _ _ => by norm_num
  mtod := fun _ _ _ _ _ _ => rfl
  norm := fun _ _ => by
    change (1 : ℚ) * ∑ _o ∈ range 2, ∑ a ∈ range 1, (1 : ℚ) / 2 = 1
    norm_num
  disc := fun _ _ => rfl
  vol := fun _ _ => one_pos
  tot := fun _ _ _ _ => one_pos
  rnn := fun _ _ _ _ => by norm_num
  ratio := by
    intro g hg gp hgp c hc
    have : ∀ g < 2, ∀ gp < 2, ∀ c < 1, couple (toy 2 pair false 0 0) g gp c ^ 2 ≤ (1 / 4) ^ 2 * (1 * 1) := by
      decide +kernel
    exact this g hg gp hgp c hc
  upos := fun _ _ => one_pos
  row := fun _ _ => by
    change ∑ _gp ∈ range 2, (1 / 4 : ℚ) * 1 ≤ 1 / 2 * 1
    norm_num
  rpos := by norm_num
  less := by norm_num

theorem start_ready (bc : Nat → BC ℚ) (hb : ∀ s ps, bc s ≠ .fixed ps) (G : Nat) (ops : List (Material.Op ℚ)) :
    Ready (slabB bc G ops) start :=
  ⟨rfl, fun _ _ => ⟨fun _ _ _ _ _ _ _ _ _ _ _ => rfl, fun side _ ps h => absurd h (hb side ps)⟩⟩

/-- Between vacuum sides a group's flux is a third of its source. -/
theorem vac_flux (G : Nat) (ops : List (Material.Op ℚ)) (phi : Nat → Nat → ℚ) (g : Nat)
    (h : GroupFlux (slabB (fun _ => .vacuum) G ops) (fun _ => 1 / 2) eqs phi g) :
    phi g 0 = 1 / 3 * (toy G ops false 0 0).source phi g 0 := by
  have hsrc : ∀ o a, (slabB (fun _ => .vacuum) G ops).src phi g o a 0 = (toy G ops false 0 0).source phi g 0 := by
    intro o a
    change (toy G ops false 0 0).source phi g 0 * 1 + ([] : List ℚ).sum = _
    simp
  obtain ⟨bd, psi, hS⟩ := h
  have hS : Solution (WGReflect.prob1 dd (fun _ => 1 / 2) 1 1 true (fun _ => .vacuum) [1, 0] (fun _ _ => 0) (fun _ => 0)
    (fun _ _ => 1) []) (fun _ => 1 / 2) (eqs g) ((slabB (fun _ => .vacuum) G ops).src phi g) (phi g) (fun _ => 0)
    (fun _ => 0) bd psi := hS
  obtain ⟨V, v1, v2, v3⟩ := hS.cells 0 (by decide) 0 (by decide)
  obtain ⟨U, u1, u2, u3⟩ := hS.cells 1 (by decide) 0 (by decide)
  have e1 : bd 1 1 0 = 0 := hS.vacuum 1 (by decide) rfl 1 (by decide) (by decide) 0 (by decide) 0 0
    (by unfold InFace; decide)
  have e2 : bd 0 0 0 = 0 := hS.vacuum 0 (by decide) rfl 0 (by decide) (by decide) 0 (by decide) 0 0
    (by unfold InFace; decide)
  have e3 : phi g 0 + 0 = ∑ o ∈ range 2, ∑ a ∈ range 1, 1 / 2 * psi o a 0 := hS.flux 0 (by decide)
  have h1 : dd 0 0 ((slabB (fun _ => .vacuum) G ops).src phi g 0 0 0) (V 0) = (psi 0 0 0, V 1) := v3 0 (by decide)
  have h2 : dd 0 0 ((slabB (fun _ => .vacuum) G ops).src phi g 1 0 0) (U 0) = (psi 1 0 0, U 1) := u3 0 (by decide)
  rw [hsrc] at h1 h2
  have v1' : V 0 = bd 0 0 0 := v1
  have u1' : U 0 = bd 1 1 0 := u1
  unfold dd at h1 h2
  obtain ⟨k1, k2⟩ := Prod.mk.inj h1
  obtain ⟨k3, k4⟩ := Prod.mk.inj h2
  simp only [sum_range_succ, sum_range_zero] at e3
  linarith

theorem pair_source (phi : Nat → Nat → ℚ) : (toy 2 pair false 0 0).source phi 0 0 = 1 + phi 0 0 / 4 + phi 1 0 / 4 ∧
    (toy 2 pair false 0 0).source phi 1 0 = 1 + phi 0 0 / 4 := by
  have h : couple (toy 2 pair false 0 0) 0 0 0 = 1 / 4 ∧ couple (toy 2 pair false 0 0) 0 1 0 = 1 / 4 ∧
      couple (toy 2 pair false 0 0) 1 0 0 = 1 / 4 ∧ couple (toy 2 pair false 0 0) 1 1 0 = 0 := by decide +kernel
  have hG : (toy 2 pair false 0 0).x.mat.G = 2 := rfl
  have hq : ∀ g c, (toy 2 pair false 0 0).q g c = 1 := fun _ _ => rfl
  constructor <;> rw [source_couple, hG, hq, sum_range_succ, sum_range_succ, sum_range_zero]
  · rw [h.1, h.2.1]
    ring
  · rw [h.2.2.1, h.2.2.2]
    ring

/-- The coupled fluxes between vacuum sides. -/
theorem pair_flux (phi : Nat → Nat → ℚ) (h : MGFlux (slabB (fun _ => .vacuum) 2 pair) (fun _ => 1 / 2) eqs phi) :
    phi 0 0 = 52 / 131 ∧ phi 1 0 = 48 / 131 := by
  have h0 := vac_flux _ _ _ _ (h 0 (by decide))
  have h1 := vac_flux _ _ _ _ (h 1 (by decide))
  rw [(pair_source phi).1] at h0
  rw [(pair_source phi).2] at h1
  constructor <;> linarith

theorem vac_open (G : Nat) (ops : List (Material.Op ℚ)) : Open (slabB (fun _ => .vacuum) G ops) :=
  fun _ _ _ _ h => by cases h

/-- Between vacuum sides, three inner passes per group: the passes go to `52/131` and `48/131`. -/
example : ∃ k0, ∀ k ≥ k0,
    |(((slabB (fun _ => .vacuum) 2 pair).gsPass (1 / 10) 3 [0, 1])^[k] start).phi 0 0 - 52 / 131| < 1 / 1000000 ∧
    |(((slabB (fun _ => .vacuum) 2 pair).gsPass (1 / 10) 3 [0, 1])^[k] start).phi 1 0 - 48 / 131| < 1 / 1000000 := by
  have ok := slabB_ok (fun _ => .vacuum) (fun _ _ => by simp) 2 pair pair_ok
  have hC := pair_coupled fun _ => .vacuum
  have D := slabB_dis (fun _ => .vacuum) 2 pair
  obtain ⟨phi, hphi⟩ := C129_exists ok hC D zeros
  obtain ⟨k0, h⟩ := C129_converges ok hC D (vac_open _ _) (1 / 10) 3 (by norm_num) phi hphi [0, 1] (by
    intro g
    change g ∈ [0, 1] ↔ g < 2
    simp only [List.mem_cons, List.not_mem_nil, or_false]
    omega) start (start_ready _ (fun _ _ => by simp) _ _) (1 / 1000000) (by norm_num)
  refine ⟨k0, fun k hk => ?_⟩
  obtain ⟨p0, p1⟩ := pair_flux phi hphi
  rw [← p0, ← p1]
  exact ⟨h k hk 0 (by decide) 0 (by decide), h k hk 1 (by decide) 0 (by decide)⟩

/-- One side reflecting, one inner pass per group: there is one flux, and the passes go there. -/
example : GSFinds (slabB half 2 pair) (fun _ => 1 / 2) eqs :=
  gs_finds 0 (slabB_ok half half_np 2 pair pair_ok) (pair_coupled half) (slabB_dis half 2 pair)

/-- The first passes there. -/
example : ((((slabB half 2 pair).gsPass (1 / 10) 1 [0, 1]) start).phi 0 0,
    (((slabB half 2 pair).gsPass (1 / 10) 1 [0, 1]) start).phi 1 0,
    (((slabB half 2 pair).gsPass (1 / 10) 1 [0, 1])^[2] start).phi 0 0) = (5 / 9, 205 / 324, 8405 / 11664) := by
  decide +kernel

/-- The whole solve between vacuum sides, every group in the block: at most 100 passes are enough for `10⁻³`, no
    warning; with a limit of one pass there is one. -/
example : ((slabB (fun _ => .vacuum) 2 pair).gs 0 false false (1 / 10) 3 (1 / 1000) 100 start).2 = false ∧
    ((slabB (fun _ => .vacuum) 2 pair).gs 0 false false (1 / 10) 1 (1 / 1000) 1 start).2 = true := by decide +kernel

/-- And its fluxes are within the bound of `C129_solve`. -/
example (phi : Nat → Nat → ℚ) (h : MGFlux (slabB (fun _ => .vacuum) 2 pair) (fun _ => 1 / 2) eqs phi) :
    (1 - 1 / 2) ^ 2 * gErr (slabB (fun _ => .vacuum) 2 pair) (fun _ => 1) (fun _ _ => 1) 0
      (((slabB (fun _ => .vacuum) 2 pair).gs 0 false false (1 / 10) 3 (1 / 1000) 100 start).1.phi 0) (phi 0) ≤
        (1 / 2) ^ 2 * 1 ^ 2 * ((1 / 1000) ^ 2) :=
  (C129_solve (slabB_ok (fun _ => .vacuum) (fun _ _ => by simp) 2 pair pair_ok) (pair_coupled _) (slabB_dis _ 2 pair)
    (vac_open _ _) (by decide) (by decide) (by decide) 0 (by decide) false false (Or.inr rfl) (1 / 10) 3 (by norm_num)
    (1 / 1000) (by norm_num) start (start_ready _ (fun _ _ => by simp) _ _) phi h).2 100 (by norm_num) (Or.inr ⟨rfl, by decide⟩)
    (by decide +kernel) _ (fun g _ => by
      change (1 / 1000 : ℚ) ^ 2 * ∑ c ∈ range 1, (1 : ℚ) * 1 ≤ _
      norm_num) 0 (by decide)

/-- The two groups on `N` cells. -/
def pairN (N : Nat) : MGSolve.Prob ℚ := { toy 2 pair false 0 0 with x := ⟨(toy 2 pair false 0 0).x.mat, N, fun _ => 0, false⟩ }

theorem pairN_ok (N : Nat) : (pairN N).OK where
  fin := by
    unfold pairN toy Material.Src.ready
    simp only
    rw [Material.C22_finalize_idempotent]
  nn := pair_ok.nn
  map := fun _ _ => pair_ok.map 0 (by decide)
  add := fun g s t c => add_div _ _ _
  loc := fun g s t h c hc => by
    show s c / 2 = t c / 2
    rw [h c hc]

/-- With totals of at least one the coupling is weak, cell by cell. -/
theorem pairN_weak (N : Nat) (sig : Nat → Nat → ℚ) (h : ∀ g c, 1 ≤ sig g c) :
    Weak (pairN N) sig (fun _ _ => 1 / 4) (fun _ => 1) (1 / 2) where
  tot := fun g _ c _ => one_pos.trans_le (h g c)
  rnn := fun _ _ _ _ => by norm_num
  ratio := by
    intro g hg gp hgp c hc
    have h1 : ∀ g < 2, ∀ gp < 2, couple (pairN 1) g gp 0 ^ 2 ≤ (1 / 4) ^ 2 := by decide +kernel
    have h2 : couple (pairN N) g gp c = couple (pairN 1) g gp 0 := rfl
    have h3 : 1 ≤ sig g c * sig gp c := one_le_mul_of_one_le_of_one_le (h g c) (h gp c)
    rw [h2]
    refine (h1 g hg gp hgp).trans ?_
    linarith
  upos := fun _ _ => one_pos
  row := fun _ _ => by
    change ∑ _gp ∈ range 2, (1 / 4 : ℚ) * 1 ≤ 1 / 2 * 1
    norm_num
  rpos := by norm_num
  less := by norm_num

/-- Two cells, diamond differencing in the first and step differencing in the second, reflecting on the left, given
    flux on the right. -/
example : GSFinds (mg1 (pairN 2) (fun g _ i => if i = 0 then dd1 1 2 (g + 1) else sd1 1 3 2) (fun _ => (1 : ℚ) / 2) 2 1 true
    (fun g s => if s = 0 then .reflect else .fixed fun _ _ => g) [0, 1] (fun _ _ => 1) (fun _ => [])) (fun _ => 1 / 2)
    (fun g q o _ b p => Solves1 2 (fun i => (if i = 0 then dd1 1 2 ((g : ℚ) + 1) else sd1 1 3 2) (q i)) o b p) :=
  C129_1D (pairN 2) (pairN_ok 2) (fun _ => 1) (fun _ => 1 / 2) (fun i => if i = 0 then 2 else 3)
    (fun g i => if i = 0 then (g : ℚ) + 1 else 2) (fun _ _ => 1 / 4) (fun _ => 1) 1 (1 / 2)
    (pairN_weak 2 _ fun g c => by split_ifs <;> norm_num) 1 true _ [0, 1] (by decide) _
    (fun g a i => by by_cases hi : i = 0 <;> simp [hi]) (fun _ _ => one_pos) (fun _ _ => by norm_num)
    (by decide +kernel) (fun i _ => by split_ifs <;> norm_num) (fun g s => by by_cases h : s = 0 <;> simp [h])
    (fun _ s _ => by split_ifs <;> simp)

/-- Two by two cells, all sides reflecting, step differencing. -/
example : GSFinds (mg2 (pairN 4) (fun _ _ i _ => Sweep.sd2 1 2 (if i = 0 then 1 else 2) 1 1) (fun _ => (1 : ℚ) / 4) 2 2 1 true
    (fun _ _ => .reflect) [0, 1, 2, 3] (fun _ _ => 1) (fun _ => [])) (fun _ => 1 / 4)
    (fun _ q o _ b p => Sweep.Solves2 2 2 (fun i j => Sweep.sd2 1 2 (if i = 0 then 1 else 2) 1 1 (q (i + j * 2))) o b p) :=
  C129_2D (pairN 4) (pairN_ok 4) (fun _ => 1) (fun _ => 2) (fun _ => 1 / 4) (fun i => if i = 0 then 1 else 2) (fun _ => 1)
    (fun _ _ => 1) (fun _ _ => 1 / 4) (fun _ => 1) 1 (1 / 2) (pairN_weak 4 _ fun _ _ => le_rfl) 2 2 1 rfl true _
    [0, 1, 2, 3] (by decide) _ (fun _ _ _ _ => Or.inr rfl) (fun _ _ => one_pos) (fun _ _ => by norm_num)
    (fun _ _ => by norm_num) (by decide +kernel) (fun i _ => by split_ifs <;> norm_num) (fun _ _ => one_pos)
    (fun _ _ => Iff.rfl) (fun _ _ _ => by simp)

/-- Two by one by one cells in 3-D, vacuum on the right, the other sides reflecting. -/
example : GSFinds (mg3 (pairN 2) (fun _ _ _ _ _ => Sweep.dd3 1 1 1 1 1 1 1) (fun _ => (1 : ℚ) / 8) 2 1 1 1 true
    (fun _ s => if s = 1 then .vacuum else .reflect) [0, 1, 2, 3, 4, 5, 6, 7] (fun _ _ => 1) (fun _ => [])) (fun _ => 1 / 8)
    (fun _ q o _ b p => Sweep.Solves3 2 1 1 (fun i j k => Sweep.dd3 1 1 1 1 1 1 1 (q (i + j * 2 + k * 2 * 1))) o b p) :=
  C129_3D (pairN 2) (pairN_ok 2) (fun _ => 1) (fun _ => 1) (fun _ => 1) (fun _ => 1 / 8) (fun _ => 1) (fun _ => 1)
    (fun _ => 1) (fun _ _ => 1) (fun _ _ => 1 / 4) (fun _ => 1) 1 (1 / 2) (pairN_weak 2 _ fun _ _ => le_rfl) 2 1 1 1
    (by norm_num) rfl true _ [0, 1, 2, 3, 4, 5, 6, 7] (by decide) (fun _ _ => one_pos) (fun _ _ => one_pos)
    (fun _ _ => one_pos) (fun _ _ => by norm_num) (by decide +kernel) (fun _ _ => one_pos) (fun _ _ => one_pos)
    (fun _ _ => one_pos) (fun _ _ => Iff.rfl) (fun _ s _ => by split_ifs <;> simp)

/-- Weights for three groups that feed later ones, the second strongly. -/
example : ∃ (u : Nat → ℚ) (rho : ℚ), (∀ g < 3, 0 < u g) ∧
    (∀ g < 3, ∑ gp ∈ range 3, (if gp < g then 100 else if gp = g then 9 / 10 else 0) * u gp ≤ rho * u g) ∧ 0 < rho ∧
      rho < 1 :=
  C129_downscatter 3 (fun g gp => if gp < g then 100 else if gp = g then 9 / 10 else 0) (9 / 10) (by norm_num)
    (by norm_num) (by intro g _ gp _; split_ifs <;> norm_num)
    (by intro g _ gp _ h; rw [if_neg (by omega), if_neg (by omega)])
    (by intro g _; rw [if_neg (by omega), if_pos rfl])

/-- Full statement: fluxes returned without the warning are within a multiple of the tolerances.  Here for one group
    between vacuum sides that scatters half of its collisions, with one inner pass, inner and outer tolerance the
    same. -/
def C129Claim : Prop := ∃ C : ℚ, ∀ tol > 0, ∀ phi,
  MGFlux (slabB (fun _ => .vacuum) 1 [.setSigS 0 0 0 (1 / 2)]) (fun _ => 1 / 2) eqs phi →
  ((slabB (fun _ => .vacuum) 1 [.setSigS 0 0 0 (1 / 2)]).gs 0 false false tol 1 tol 100 start).2 = false →
  |((slabB (fun _ => .vacuum) 1 [.setSigS 0 0 0 (1 / 2)]).gs 0 false false tol 1 tol 100 start).1.phi 0 0 - phi 0 0| ≤
    C * tol

/-- The solve of a single group is one group solve, and its limit is not checked: `1/3` is returned for `2/5`. -/
theorem C129_claim_fails : ¬ C129Claim := by
  rintro ⟨C, h⟩
  have ok1 : (toy 1 [.setSigS 0 0 0 (1 / 2)] false 0 0).OK := by
    refine toy_ok _ _ _ _ _ rfl ?_
    intro g gp m
    simp only [Material.Mat.run, List.foldl_cons, List.foldl_nil, Material.Mat.step, Material.set3, Material.Mat.new]
    split_ifs <;> norm_num
  have hC : Coupled (slabB (fun _ => .vacuum) 1 [.setSigS 0 0 0 (1 / 2)]) (fun _ => 1 / 2) (fun _ => 1) (fun _ _ => 1)
      (fun _ _ => 1 / 2) (fun _ => 1) 1 (1 / 2) :=
    { weight := fun _ _ _ _ => by norm_num
      mtod := fun _ _ _ _ _ _ => rfl
      norm := fun _ _ => by
        change (1 : ℚ) * ∑ _o ∈ range 2, ∑ a ∈ range 1, (1 : ℚ) / 2 = 1
        norm_num
      disc := fun _ _ => rfl
      vol := fun _ _ => one_pos
      tot := fun _ _ _ _ => one_pos
      rnn := fun _ _ _ _ => by norm_num
      ratio := by
        intro g hg gp hgp c hc
        have : ∀ g < 1, ∀ gp < 1, ∀ c < 1, couple (toy 1 [.setSigS 0 0 0 (1 / 2)] false 0 0) g gp c ^ 2 ≤
            (1 / 2) ^ 2 * (1 * 1) := by decide +kernel
        exact this g hg gp hgp c hc
      upos := fun _ _ => one_pos
      row := fun _ _ => by
        change ∑ _gp ∈ range 1, (1 / 2 : ℚ) * 1 ≤ 1 / 2 * 1
        norm_num
      rpos := by norm_num
      less := by norm_num }
  obtain ⟨phi, hphi⟩ := C129_exists (slabB_ok (fun _ => .vacuum) (fun _ _ => by simp) 1 _ ok1) hC (slabB_dis _ 1 _) zeros
  have e1 : ∀ tol, ((slabB (fun _ => .vacuum) 1 [.setSigS 0 0 0 (1 / 2)]).gs 0 false false tol 1 tol 100 start).2 = false :=
    fun _ => rfl
  have e2 : ∀ tol : ℚ, ((slabB (fun _ => .vacuum) 1 [.setSigS 0 0 0 (1 / 2)]).gs 0 false false tol 1 tol 100
      start).1.phi 0 0 = 1 / 3 := by
    intro tol
    have : ∀ tol' : ℚ, ((slabB (fun _ => .vacuum) 1 [.setSigS 0 0 0 (1 / 2)]).gs 0 false false tol 1 tol 100
      start).1.phi 0 0 = ((slabB (fun _ => .vacuum) 1 [.setSigS 0 0 0 (1 / 2)]).gs 0 false false tol' 1 tol' 100
      start).1.phi 0 0 := by
      intro tol'
      change (siLoop _ _ tol 1 _).phi 0 = (siLoop _ _ tol' 1 _).phi 0
      unfold siLoop siLoop
      dsimp only
      rw [ite_self, ite_self]
    rw [this 1]
    decide +kernel
  have e3 := vac_flux _ _ _ _ (hphi 0 (by decide))
  have h2 : phi 0 0 = 2 / 5 := by
    rw [source_couple] at e3
    have hG : (toy 1 [.setSigS 0 0 0 (1 / 2)] false 0 0).x.mat.G = 1 := rfl
    have hq : (toy 1 [.setSigS 0 0 0 (1 / 2)] false 0 0).q 0 0 = 1 := rfl
    have hc : couple (toy 1 [.setSigS 0 0 0 (1 / 2)] false 0 0) 0 0 0 = 1 / 2 := by decide +kernel
    rw [hG, hq, sum_range_one, hc] at e3
    linarith
  have key : ∀ tol > 0, (1 : ℚ) / 15 ≤ C * tol := by
    intro tol ht
    have := h tol ht phi hphi (e1 tol)
    rw [e2, h2] at this
    norm_num [abs_of_neg] at this ⊢
    linarith
  have hC0 : 0 < C := by
    have := key 1 one_pos
    linarith
  have := key (1 / (30 * C)) (by positivity)
  rw [mul_one_div, div_mul_eq_div_div_swap, div_self hC0.ne'] at this
  norm_num at this

end cases

end Detran.MGReflect
