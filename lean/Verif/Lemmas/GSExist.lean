import Verif.Lemmas.GaussSeidel
import Verif.Lemmas.SIExist

/-!
# Coupled groups have a flux (used for C129)
-/

namespace Detran.MGReflect

open Detran.Sweep (St)
open Detran.Boundary (Bd BC Loc Enters Mirror)
open Detran.WGReflect (Sweeps Solution InFace Sides Dissipates get_comb)
open Detran.MGSolve
open Finset

section ordered
variable {F K : Type} [Field K] [LinearOrder K] [IsStrictOrderedRing K]
variable {P : Prob F K} {w V : Nat → K} {sig r : Nat → Nat → K} {u : Nat → K} {m rho : K}
  {Sol : Nat → (Nat → K) → Nat → Nat → (Nat → F) → (Nat → K) → Prop} {fw : Nat → Nat → Nat → Nat → Nat → K}

/-- `f` is the flux of group `g` with the source `t`. -/
def Answers (P : Prob F K) (w : Nat → K) (Sol : Nat → (Nat → K) → Nat → Nat → (Nat → F) → (Nat → K) → Prop) (m : K)
    (g : Nat) (t f : Nat → K) : Prop :=
  ∃ (b : Bd F) (p : Nat → Nat → Nat → K),
    (∀ o < 2 ^ (P.W g).dim, ∀ a < (P.W g).na, Sol g (fun c => t c * m) o a (fun s => b s o a) (p o a)) ∧
    (∀ c < P.M.x.N, f c = ∑ o ∈ range (2 ^ (P.W g).dim), ∑ a ∈ range (P.W g).na, w a * p o a c) ∧
    Sides (P.W g) b ∧ Mirrors (P.W g) b

theorem answers_flux (ok : OK P w Sol) (hC : Coupled P w V sig r u m rho) {g : Nat} (hg : g < P.M.x.mat.G)
    (phi : Nat → Nat → K) (h : Answers P w Sol m g (P.M.source phi g) (phi g)) : GroupFlux P w Sol phi g := by
  obtain ⟨b, p, k1, k2, k3, k4⟩ := h
  refine ⟨b, p, fun o ho a ha => sol_congr (ok.sw g hg) ho (k1 o ho a ha) fun c _ => ?_, fun c hc => ?_, k3.vacuum,
    k3.given, fun t ht hb o ho hen o' hm a ha i j hi => sub_eq_zero.2 (k4 t ht hb o ho hen o' hm a ha i j hi)⟩
  · unfold Prob.src
    rw [hC.disc g hg, hC.mtod g hg o ho a ha]
    simp only [List.map_nil, List.sum_nil]
    ring
  · rw [add_zero]
    exact k2 c (by rw [ok.cells g] at hc; exact hc)

theorem answers_exists (ok : OK P w Sol) (hC : Coupled P w V sig r u m rho) (D : AllDissipate P Sol V sig fw) (s : St F K)
    {g : Nat} (hg : g < P.M.x.mat.G) (t : Nat → K) : ∃ f, Answers P w Sol m g t f := by
  let Q : WGReflect.Prob F K := { P.W g with fixed := t, scat := fun _ _ => 0, disc := [] }
  have h := ok.sw g hg
  have hN := ok.cells g
  have hQ : Sweeps Q w (Sol g) := ⟨h.d1, h.d3, h.order, h.face, h.other, h.inc, h.solves, h.lin, h.det⟩
  have hS : WGReflect.Subcritical Q w V (sig g) (fun _ => 0) m 0 :=
    ⟨hC.weight g hg, hC.mtod g hg, hC.norm g hg, fun c hc => hC.vol c (by rw [← hN]; exact hc),
      fun c hc => hC.tot g hg c (by rw [← hN]; exact hc), fun f c _ => by simp [Q], fun c _ => by simp, le_refl _, one_pos,
      rfl, ok.np g hg⟩
  have hD : Dissipates Q (Sol g) V (sig g) (fw g) := ⟨(D g hg).1, (D g hg).2⟩
  obtain ⟨f, hf⟩ := WGReflect.exists_flux hQ hS hD s
  obtain ⟨b, p, k⟩ := (WGReflect.flux_sol hQ hS f).1 hf
  refine ⟨f, b, p, fun o ho a ha => sol_congr h ho (k.cells o ho a ha) fun c _ => ?_, fun c hc => ?_,
    ⟨k.vacuum, k.given⟩, fun t ht hb o ho hen o' hm a ha i j hi =>
      sub_eq_zero.1 (k.reflect t ht hb o ho hen o' hm a ha i j hi)⟩
  · simp [Q]
  · have := k.flux c (by rw [← hN] at hc; exact hc)
    rw [add_zero] at this
    exact this

theorem answers_unique (ok : OK P w Sol) (hC : Coupled P w V sig r u m rho) (D : AllDissipate P Sol V sig fw) {g : Nat}
    (hg : g < P.M.x.mat.G) (t t' f f' : Nat → K) (ht : ∀ c < P.M.x.N, t c = t' c) (h : Answers P w Sol m g t f)
    (h' : Answers P w Sol m g t' f') : ∀ c < P.M.x.N, f c = f' c := by
  obtain ⟨b, p, k1, k2, k3, k4⟩ := h
  obtain ⟨b', p', k1', k2', k3', k4'⟩ := h'
  refine gErr_zero hC hg f f' ((pair_error ok hC D hg t t' f f' b b' p p' k1 k2 k1' k2' k3 k4 k3' k4').trans
    (le_of_eq (sum_eq_zero fun c hc => ?_)))
  rw [ht c (mem_range.1 hc)]
  ring

theorem answers_affine (ok : OK P w Sol) {g : Nat} (hg : g < P.M.x.mat.G)
    (α β : K) (hab : α + β = 1) (t t' f f' : Nat → K) (h : Answers P w Sol m g t f) (h' : Answers P w Sol m g t' f') :
    Answers P w Sol m g (fun c => α * t c + β * t' c) (fun c => α * f c + β * f' c) := by
  obtain ⟨b, p, k1, k2, k3, k4⟩ := h
  obtain ⟨b', p', k1', k2', k3', k4'⟩ := h'
  have hw := ok.sw g hg
  have hb : ∀ x : K, x = α * x + β * x := fun x => by rw [← add_mul, hab, one_mul]
  refine ⟨(P.W g).comb α β b b', fun o a c => α * p o a c + β * p' o a c, fun o ho a ha =>
    hw.lin α β _ _ _ o a _ _ _ _ _ _ ho (k1 o ho a ha) (k1' o ho a ha) (fun c _ => by ring) (fun _ => rfl)
      (fun side hs i j hi => get_comb hw α β _ _ side hs o a i j hi), fun c hc => ?_, ⟨?_, ?_⟩, ?_⟩
  · dsimp only
    rw [k2 c hc, k2' c hc, mul_sum, mul_sum, ← sum_add_distrib]
    refine sum_congr rfl fun o _ => ?_
    rw [mul_sum, mul_sum, ← sum_add_distrib]
    exact sum_congr rfl fun a _ => by ring
  · intro side hs hv o ho he a ha i j hi
    rw [get_comb hw α β _ _ side hs o a i j hi, k3.vacuum side hs hv o ho he a ha i j hi,
      k3'.vacuum side hs hv o ho he a ha i j hi]
    ring
  · intro side hs ps hv o ho io hio a ha i j hi
    rw [get_comb hw α β _ _ side hs o a i j hi, k3.given side hs ps hv o ho io hio a ha i j hi,
      k3'.given side hs ps hv o ho io hio a ha i j hi, ← hb]
  · intro side hs hv o ho he o' hm a ha i j hi
    rw [get_comb hw α β _ _ side hs o a i j hi, get_comb hw α β _ _ side hs o' a i j hi,
      k4 side hs hv o ho he o' hm a ha i j hi, k4' side hs hv o ho he o' hm a ha i j hi]

/-- A vector over groups and cells as fluxes. -/
def ext {G N : Nat} (x : Fin G × Fin N → K) (g c : Nat) : K :=
  if h : g < G ∧ c < N then x (⟨g, h.1⟩, ⟨c, h.2⟩) else 0

theorem ext_at {G N : Nat} (x : Fin G × Fin N → K) (g : Fin G) (c : Fin N) : ext x g c = x (g, c) :=
  dif_pos (⟨g.2, c.2⟩ : g.1 < G ∧ c.1 < N)

theorem ext_comb {G N : Nat} (α β : K) (x y : Fin G × Fin N → K) (g c : Nat) :
    ext (α • x + β • y) g c = α * ext x g c + β * ext y g c := by
  unfold ext
  split
  · rfl
  · ring

theorem source_comb (M : MGSolve.Prob K) (α β : K) (hab : α + β = 1) (phi psi chi : Nat → Nat → K) (g c : Nat)
    (h : ∀ gp, chi gp c = α * phi gp c + β * psi gp c) :
    M.source chi g c = α * M.source phi g c + β * M.source psi g c := by
  rw [source_couple, source_couple, source_couple]
  have : ∑ gp ∈ range M.x.mat.G, couple M g gp c * chi gp c =
      α * ∑ gp ∈ range M.x.mat.G, couple M g gp c * phi gp c +
        β * ∑ gp ∈ range M.x.mat.G, couple M g gp c * psi gp c := by
    rw [mul_sum, mul_sum, ← sum_add_distrib]
    exact sum_congr rfl fun gp _ => by rw [h gp]; ring
  rw [this]
  have : M.q g c = α * M.q g c + β * M.q g c := by rw [← add_mul, hab, one_mul]
  linear_combination this

/-- A block of coupled groups has a flux, whatever the fluxes of the other groups. -/
theorem exists_block (ok : OK P w Sol) (hC : Coupled P w V sig r u m rho) (D : AllDissipate P Sol V sig fw) (s : St F K)
    (l : List Nat) (f0 : Nat → Nat → K) : ∃ phi, (∀ g < P.M.x.mat.G, g ∉ l → ∀ c < P.M.x.N, phi g c = f0 g c) ∧
      ∀ g < P.M.x.mat.G, g ∈ l → GroupFlux P w Sol phi g := by
  have hex : ∀ (g : Nat) (t : Nat → K), ∃ f, g < P.M.x.mat.G → Answers P w Sol m g t f := by
    intro g t
    by_cases hg : g < P.M.x.mat.G
    · obtain ⟨f, hf⟩ := answers_exists ok hC D s hg t
      exact ⟨f, fun _ => hf⟩
    · exact ⟨fun _ => 0, fun h => absurd h hg⟩
  choose J hJ using hex
  let X := Fin P.M.x.mat.G × Fin P.M.x.N → K
  let T : X → X := fun x y => if y.1.1 ∈ l then J y.1 (P.M.source (ext x) y.1) y.2 else f0 y.1 y.2
  have aff : ∀ (α β : K) (x y : X), α + β = 1 → T (α • x + β • y) = α • T x + β • T y := by
    intro α β x y hab
    funext z
    obtain ⟨g, c⟩ := z
    by_cases hgl : g.1 ∈ l
    swap
    · change T (α • x + β • y) (g, c) = α * T x (g, c) + β * T y (g, c)
      simp only [T, if_neg hgl]
      rw [← add_mul, hab, one_mul]
    change T (α • x + β • y) (g, c) = α * T x (g, c) + β * T y (g, c)
    simp only [T, if_pos hgl]
    refine answers_unique ok hC D g.2 _ _ _ _ (fun c _ => ?_) (hJ g _ g.2)
      (answers_affine ok g.2 α β hab _ _ _ _ (hJ g (P.M.source (ext x) g) g.2) (hJ g (P.M.source (ext y) g) g.2)) c c.2
    exact source_comb P.M α β hab _ _ _ g c fun gp => ext_comb α β x y gp c
  have aff0 : ∀ (a : K) (x : X), T (a • x) = a • T x + (1 - a) • T 0 := by
    intro a x
    have := aff a (1 - a) x 0 (by ring)
    rw [smul_zero, add_zero] at this
    exact this
  have affadd : ∀ x y : X, T (x + y) = T x + T y - T 0 := by
    intro x y
    have h1 := aff (1 / 2) (1 / 2) x y (by norm_num)
    have h2 := aff0 2 ((1 / 2 : K) • x + (1 / 2 : K) • y)
    rw [h1, smul_add, smul_smul, smul_smul, smul_add, smul_smul, smul_smul] at h2
    norm_num at h2
    rw [h2, sub_eq_add_neg]
  let L : X →ₗ[K] X :=
    { toFun := fun x => x - (T x - T 0)
      map_add' := by
        intro x y
        rw [affadd]
        abel
      map_smul' := by
        intro a x
        rw [aff0, RingHom.id_apply, smul_sub, smul_sub, sub_smul, one_smul]
        abel }
  have hinj : Function.Injective L := by
    rw [← LinearMap.ker_eq_bot, LinearMap.ker_eq_bot']
    intro x hx
    have hx : x - (T x - T 0) = 0 := hx
    have hxT : ∀ (g : Fin P.M.x.mat.G) (c : Fin P.M.x.N), T x (g, c) - T 0 (g, c) = x (g, c) := fun g c => by
      have := congrFun hx (g, c)
      change x (g, c) - (T x (g, c) - T 0 (g, c)) = 0 at this
      linarith
    have zero : ∀ g < P.M.x.mat.G, gErr P V sig g (ext x g) (fun _ => 0) ≤ 0 := by
      refine own_zero hC _ (fun g hg => gErr_nonneg hC hg _ _) fun E hE g hg => ?_
      by_cases hgl : g ∈ l
      swap
      · have hE0 : 0 ≤ u g ^ 2 * E := (gErr_nonneg hC hg _ _).trans (hE g hg)
        have : gErr P V sig g (ext x g) (fun _ => 0) = 0 := by
          unfold gErr
          refine sum_eq_zero fun c hc => ?_
          have hc := mem_range.1 hc
          rw [ext_at x ⟨g, hg⟩ ⟨c, hc⟩, ← hxT ⟨g, hg⟩ ⟨c, hc⟩]
          simp only [T, if_neg hgl]
          ring
        rw [this, mul_assoc]
        exact mul_nonneg (sq_nonneg _) hE0
      obtain ⟨b, p, k1, k2, k3, k4⟩ := hJ g (P.M.source (ext x) g) hg
      obtain ⟨b', p', k1', k2', k3', k4'⟩ := hJ g (P.M.source (ext (0 : X)) g) hg
      have k5 := pair_error ok hC D hg _ _ _ _ b b' p p' k1 k2 k1' k2' k3 k4 k3' k4'
      have e0 : ∀ c < P.M.x.N, J g (P.M.source (ext x) g) c - J g (P.M.source (ext (0 : X)) g) c = ext x g c := by
        intro c hc
        rw [ext_at x ⟨g, hg⟩ ⟨c, hc⟩]
        have := hxT ⟨g, hg⟩ ⟨c, hc⟩
        simp only [T, if_pos hgl] at this
        exact this
      have e1 : gErr P V sig g (J g (P.M.source (ext x) g)) (J g (P.M.source (ext (0 : X)) g)) =
          gErr P V sig g (ext x g) (fun _ => 0) := by
        unfold gErr
        exact sum_congr rfl fun c hc => by rw [e0 c (mem_range.1 hc), sub_zero]
      rw [e1] at k5
      simp only [source_diff] at k5
      have z0 : ∀ gp c, ext (0 : X) gp c = 0 := fun gp c => by
        unfold ext
        split
        · rfl
        · rfl
      simp only [z0, sub_zero] at k5
      have e2 : ∑ c ∈ range P.M.x.N, V c * (∑ gp ∈ range P.M.x.mat.G, couple P.M g gp c * ext x gp c) *
          (J g (P.M.source (ext x) g) c - J g (P.M.source (ext (0 : X)) g) c) =
          ∑ c ∈ range P.M.x.N, V c * (∑ gp ∈ range P.M.x.mat.G, couple P.M g gp c * ext x gp c) * ext x g c :=
        sum_congr rfl fun c hc => by rw [e0 c (mem_range.1 hc)]
      rw [e2] at k5
      have k6 := couple_bound hC hg (ext x) (ext x g) E (fun gp hgp => by
        have := hE gp hgp
        unfold gErr at this
        simpa using this)
      have e3 : ∑ c ∈ range P.M.x.N, V c * sig g c * ext x g c ^ 2 = gErr P V sig g (ext x g) (fun _ => 0) := by
        unfold gErr
        exact sum_congr rfl fun c _ => by rw [sub_zero]
      rw [e3] at k6
      linarith
    funext z
    obtain ⟨g, c⟩ := z
    have := gErr_zero hC g.2 _ _ (zero g g.2) c c.2
    rw [ext_at] at this
    exact this
  obtain ⟨x, hx⟩ := LinearMap.injective_iff_surjective.1 hinj (T 0)
  have hx : x - (T x - T 0) = T 0 := hx
  have hfix : x = T x := by
    have : x - T x = 0 := by
      have := sub_eq_zero.2 hx
      rw [← this]
      abel
    exact sub_eq_zero.1 this
  refine ⟨ext x, fun g hg hgl c hc => ?_, fun g hg hgl => answers_flux ok hC hg _ ?_⟩
  · rw [ext_at x ⟨g, hg⟩ ⟨c, hc⟩, congrFun hfix (⟨g, hg⟩, ⟨c, hc⟩)]
    exact if_neg hgl
  obtain ⟨b, p, k1, k2, k3, k4⟩ := hJ g (P.M.source (ext x) g) hg
  refine ⟨b, p, k1, fun c hc => ?_, k3, k4⟩
  rw [← k2 c hc, ext_at x ⟨g, hg⟩ ⟨c, hc⟩]
  rw [congrFun hfix (⟨g, hg⟩, ⟨c, hc⟩)]
  exact if_pos hgl

end ordered

end Detran.MGReflect
