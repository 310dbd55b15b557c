import Verif.Lemmas.GSExist
import Verif.Lemmas.Positive

/-!
# Positive problems have a flux (used for C132)
-/

namespace Detran.MGReflect

open Detran.Sweep (St)
open Detran.Boundary (Bd BC Loc Enters Mirror)
open Detran.WGReflect (Sweeps Solution InFace Sides Swept Incoming)
open Finset

variable {F K : Type} [Field K] [LinearOrder K] [IsStrictOrderedRing K]
variable {P : Prob F K} {w V : Nat → K} {sig : Nat → Nat → K} {u : Nat → K} {m th : K}
  {Sol : Nat → (Nat → K) → Nat → Nat → (Nat → F) → (Nat → K) → Prop} {fw : Nat → Nat → Nat → Nat → Nat → K}

/-- The problem with no coupling at all. -/
def Prob.apart (P : Prob F K) : Prob F K :=
  ⟨{ P.M with
      x := { P.M.x with mat := (Material.Mat.new P.M.x.mat.M P.M.x.mat.G).finalize }
      implicit := false }, P.W⟩

theorem apart_couple (P : Prob F K) (g gp c : Nat) : couple P.apart.M g gp c = 0 := by
  unfold couple Prob.apart Material.xs
  dsimp only
  simp [Material.Mat.finalize, Material.Mat.new]

theorem apart_ok (ok : OK P w Sol) : OK P.apart w Sol where
  src :=
    { fin := by
        unfold Prob.apart Material.Src.ready
        simp only
        rw [Material.C22_finalize_idempotent]
      nn := fun _ _ _ => le_refl _
      map := ok.src.map
      add := ok.src.add
      loc := ok.src.loc }
  cells := ok.cells
  bsize := ok.bsize
  sw := ok.sw
  np := ok.np

theorem apart_coupled (hD : Damped P w Sol sig u m th) (hw : ∀ g < P.M.x.mat.G, ∀ a < (P.W g).na, 0 < w a)
    (hV : ∀ c < P.M.x.N, 0 < V c) (hs : ∀ g < P.M.x.mat.G, ∀ c < P.M.x.N, 0 < sig g c) :
    Coupled P.apart w V sig (fun _ _ => 0) (fun _ => 1) m (1 / 2) where
  weight := hw
  mtod := hD.uniform.mtod
  norm := hD.uniform.norm
  disc := hD.uniform.disc
  vol := hV
  tot := hs
  rnn := fun _ _ _ _ => le_refl _
  ratio := fun g _ gp _ c _ => by rw [apart_couple]; simp
  upos := fun _ _ => one_pos
  row := fun _ _ => by simp
  rpos := by norm_num
  less := by norm_num

/-- Positive problems have a flux. -/
theorem positive_exists (ok : OK P w Sol) (hD : Damped P w Sol sig u m th)
    (hw : ∀ g < P.M.x.mat.G, ∀ a < (P.W g).na, 0 < w a) (hV : ∀ c < P.M.x.N, 0 < V c)
    (hs : ∀ g < P.M.x.mat.G, ∀ c < P.M.x.N, 0 < sig g c) (D : AllDissipate P Sol V sig fw) (s : St F K) :
    ∃ phi, MGFlux P w Sol phi := by
  have hC := apart_coupled (V := V) hD hw hV hs
  have oka := apart_ok ok
  have hex : ∀ (g : Nat) (t : Nat → K), ∃ f, g < P.M.x.mat.G → Answers P w Sol m g t f := by
    intro g t
    by_cases hg : g < P.M.x.mat.G
    · obtain ⟨f, hf⟩ := answers_exists oka hC D s hg t
      exact ⟨f, fun _ => hf⟩
    · exact ⟨fun _ => 0, fun h => absurd h hg⟩
  have huniq : ∀ g < P.M.x.mat.G, ∀ t t' f f' : Nat → K, (∀ c < P.M.x.N, t c = t' c) → Answers P w Sol m g t f →
      Answers P w Sol m g t' f' → ∀ c < P.M.x.N, f c = f' c := fun g hg t t' f f' ht h h' =>
    answers_unique oka hC D hg t t' f f' ht h h'
  choose J hJ using hex
  let X := Fin P.M.x.mat.G × Fin P.M.x.N → K
  let T : X → X := fun x y => J y.1 (P.M.source (ext x) y.1) y.2
  have aff : ∀ (α β : K) (x y : X), α + β = 1 → T (α • x + β • y) = α • T x + β • T y := by
    intro α β x y hab
    funext z
    obtain ⟨g, c⟩ := z
    change T (α • x + β • y) (g, c) = α * T x (g, c) + β * T y (g, c)
    refine huniq g g.2 _ _ _ _ (fun c _ => ?_) (hJ g _ g.2)
      (answers_affine ok g.2 α β hab _ _ _ _ (hJ g (P.M.source (ext x) g) g.2) (hJ g (P.M.source (ext y) g) g.2)) c c.2
    exact source_comb P.M α β hab _ _ _ g c fun gp => ext_comb α β x y gp c
  have aff0 : ∀ (a : K) (x : X), T (a • x) = a • T x + (1 - a) • T 0 := by
    intro a x
    have := aff a (1 - a) x 0 (by ring)
    rw [smul_zero, add_zero] at this
    exact this
  have affadd : ∀ x y : X, T (x + y) = T x + T y - T 0 := by
    intro x y
    have h1 := aff (1 / 2) (1 / 2) x y (by norm_num)
    have h2 := aff0 2 ((1 / 2 : K) • x + (1 / 2 : K) • y)
    rw [h1, smul_add, smul_smul, smul_smul, smul_add, smul_smul, smul_smul] at h2
    norm_num at h2
    rw [h2, sub_eq_add_neg]
  let L : X →ₗ[K] X :=
    { toFun := fun x => x - (T x - T 0)
      map_add' := by
        intro x y
        rw [affadd]
        abel
      map_smul' := by
        intro a x
        rw [aff0, RingHom.id_apply, smul_sub, smul_sub, sub_smul, one_smul]
        abel }
  obtain ⟨δ, hδ, hδ1, hG⟩ := hD.gains
  obtain ⟨k0, k1⟩ := kappa hD hδ hδ1
  have hswept : ∀ {g : Nat} {t : Nat → K} {b : Bd F} {p : Nat → Nat → Nat → K}, 
      (∀ o < 2 ^ (P.W g).dim, ∀ a < (P.W g).na, Sol g (fun c => t c * m) o a (fun s => b s o a) (p o a)) →
      Mirrors (P.W g) b → Swept (P.W g) (Sol g) (fun _ _ c => t c * m) b b p := fun k1 k4 =>
    ⟨k1, fun side hs hr o ho he o' hm a ha i j hi => ⟨fun _ => k4 side hs hr o ho he o' hm a ha i j hi,
      fun _ => k4 side hs hr o ho he o' hm a ha i j hi⟩⟩
  -- differences of answers to sources that differ by the coupling of those differences
  have main : ∀ (x y : X), (∀ (g : Fin P.M.x.mat.G) (c : Fin P.M.x.N), T x (g, c) - T y (g, c) = x (g, c) - y (g, c)) →
      ∀ (g : Fin P.M.x.mat.G) (c : Fin P.M.x.N), x (g, c) ≤ y (g, c) := by
    intro x y hxy
    have hex : ∀ (z : X) (g : Nat), ∃ bp : Bd F × (Nat → Nat → Nat → K), g < P.M.x.mat.G →
        (∀ o < 2 ^ (P.W g).dim, ∀ a < (P.W g).na,
          Sol g (fun c => P.M.source (ext z) g c * m) o a (fun s => bp.1 s o a) (bp.2 o a)) ∧
        (∀ c < P.M.x.N, J g (P.M.source (ext z) g) c =
          ∑ o ∈ range (2 ^ (P.W g).dim), ∑ a ∈ range (P.W g).na, w a * bp.2 o a c) ∧
        Sides (P.W g) bp.1 ∧ Mirrors (P.W g) bp.1 := by
      intro z g
      by_cases hg : g < P.M.x.mat.G
      · obtain ⟨b, p, k⟩ := hJ g (P.M.source (ext z) g) hg
        exact ⟨(b, p), fun _ => k⟩
      · exact ⟨(s.bdy, fun _ _ _ => 0), fun h => absurd h hg⟩
    choose B hB using hex
    let fl : X → Nat → Nat → K := fun z g => J g (P.M.source (ext z) g)
    obtain ⟨E, hE, hl⟩ := least_under (P := P) (u := u) (m := m) hD.upos (fun g hg => hD.mpos hg) (fl x) (fl y)
      (fun g => (B x g).1) (fun g => (B y g).1)
    have hU := (hl E hE).2 (le_refl _)
    have hd : ∀ g < P.M.x.mat.G, ∀ c < P.M.x.N, ext x g c - ext y g c = fl x g c - fl y g c := by
      intro g hg c hc
      rw [ext_at x ⟨g, hg⟩ ⟨c, hc⟩, ext_at y ⟨g, hg⟩ ⟨c, hc⟩]
      exact (hxy ⟨g, hg⟩ ⟨c, hc⟩).symm
    have step : ∀ g < P.M.x.mat.G, Under P u m ((1 - δ * (1 - th)) * E) g (fl x g) (B x g).1 (fl y g) (B y g).1 := by
      intro g hg
      obtain ⟨x1, x2, x3, x4⟩ := hB x g hg
      obtain ⟨y1, y2, y3, y4⟩ := hB y g hg
      refine (step_under ok hD hδ hg (hG g hg) (phi := ext x) (phi' := ext y) (psi := (B x g).2) (psi' := (B y g).2)
        ⟨_, hswept x1 x4, fun _ _ => le_refl _, x2⟩ ⟨_, hswept y1 y4, fun _ _ => le_refl _, y2⟩ hE (fun gp hgp c hc => ?_)
        (hU g hg).2 (sides_incoming ok hg x3 y3)).1
      rw [hd gp hgp c hc]
      exact (hU gp hgp).1 c hc
    have h0 : E = 0 := by
      have := (hl _ (mul_nonneg k0 hE)).1 step
      nlinarith
    subst h0
    intro g c
    have := (hU g g.2).1 c c.2
    rw [← hd g g.2 c c.2, zero_mul, ext_at, ext_at] at this
    exact sub_nonpos.1 this
  have hinj : Function.Injective L := by
    rw [← LinearMap.ker_eq_bot, LinearMap.ker_eq_bot']
    intro x hx
    have hx : x - (T x - T 0) = 0 := hx
    have hxT : ∀ (g : Fin P.M.x.mat.G) (c : Fin P.M.x.N), T x (g, c) - T 0 (g, c) = x (g, c) := fun g c => by
      have := congrFun hx (g, c)
      change x (g, c) - (T x (g, c) - T 0 (g, c)) = 0 at this
      linarith
    funext z
    obtain ⟨g, c⟩ := z
    refine le_antisymm (main x 0 (fun g c => ?_) g c) (main 0 x (fun g c => ?_) g c)
    · rw [hxT g c]
      exact (sub_zero _).symm
    · have := hxT g c
      change _ = 0 - x (g, c)
      linarith
  obtain ⟨x, hx⟩ := LinearMap.injective_iff_surjective.1 hinj (T 0)
  have hx : x - (T x - T 0) = T 0 := hx
  have hfix : x = T x := by
    have : x - T x = 0 := by
      have := sub_eq_zero.2 hx
      rw [← this]
      abel
    exact sub_eq_zero.1 this
  refine ⟨ext x, fun g hg => ?_⟩
  obtain ⟨b, p, k1, k2, k3, k4⟩ := hJ g (P.M.source (ext x) g) hg
  refine ⟨b, p, fun o ho a ha => sol_congr (ok.sw g hg) ho (k1 o ho a ha) fun c _ => ?_, fun c hc => ?_, k3.vacuum,
    k3.given, fun t ht hb o ho hen o' hm a ha i j hi => sub_eq_zero.2 (k4 t ht hb o ho hen o' hm a ha i j hi)⟩
  · unfold Prob.src
    rw [hD.uniform.disc g hg, hD.uniform.mtod g hg o ho a ha]
    simp only [List.map_nil, List.sum_nil]
    ring
  · rw [ok.cells g] at hc
    rw [add_zero, ← k2 c hc, ext_at x ⟨g, hg⟩ ⟨c, hc⟩]
    exact congrFun hfix (⟨g, hg⟩, ⟨c, hc⟩)

end Detran.MGReflect
