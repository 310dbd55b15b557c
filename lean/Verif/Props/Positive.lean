import Verif.Lemmas.PosExist

/-!
# Positive fluxes: sign, comparison, bounds and convergence (C132)
-/

namespace Detran.MGReflect

open Detran.Sweep (St)
open Detran.Boundary (Bd BC Loc Enters Mirror)
open Detran.MGSolve (toy toy_ok)
open Detran.WGReflect (Sweeps Solution InFace Sides Swept Incoming Leaving Gain)
open Finset

section main
variable {F K : Type} [Field K] [LinearOrder K] [IsStrictOrderedRing K]
variable {P : Prob F K} {w : Nat → K} {Sol : Nat → (Nat → K) → Nat → Nat → (Nat → F) → (Nat → K) → Prop}
  {sig : Nat → Nat → K} {u : Nat → K} {m th : K}

/-! ## Bounds -/

/-- Flat fluxes `v` that collide no more than they and the given sources bring in, and of which no more enters at a side
    than is given there. -/
structure Floor (P : Prob F K) (sig : Nat → Nat → K) (m : K) (v : Nat → K) : Prop where
  cells : ∀ g < P.M.x.mat.G, ∀ c < P.M.x.N,
    sig g c * v g ≤ P.M.q g c + ∑ gp ∈ range P.M.x.mat.G, couple P.M g gp c * v gp
  vacuum : ∀ g < P.M.x.mat.G, ∀ side < 2 * (P.W g).dim, (P.W g).bc side = .vacuum → v g ≤ 0
  given : ∀ g < P.M.x.mat.G, ∀ side < 2 * (P.W g).dim, ∀ ps, (P.W g).bc side = .fixed ps →
    ∀ io < 2 ^ ((P.W g).dim - 1), ∀ a < (P.W g).na, ∀ i j, InFace (P.W g) side i j →
    m * v g ≤ (P.W g).get (ps io a) i j

/-- Flat fluxes that collide no less, and of which no less enters. -/
structure Ceiling (P : Prob F K) (sig : Nat → Nat → K) (m : K) (v : Nat → K) : Prop where
  cells : ∀ g < P.M.x.mat.G, ∀ c < P.M.x.N,
    P.M.q g c + ∑ gp ∈ range P.M.x.mat.G, couple P.M g gp c * v gp ≤ sig g c * v g
  vacuum : ∀ g < P.M.x.mat.G, ∀ side < 2 * (P.W g).dim, (P.W g).bc side = .vacuum → 0 ≤ v g
  given : ∀ g < P.M.x.mat.G, ∀ side < 2 * (P.W g).dim, ∀ ps, (P.W g).bc side = .fixed ps →
    ∀ io < 2 ^ ((P.W g).dim - 1), ∀ a < (P.W g).na, ∀ i j, InFace (P.W g) side i j →
    (P.W g).get (ps io a) i j ≤ m * v g

/-- Nothing negative is given. -/
structure Given (P : Prob F K) : Prop where
  q : ∀ g < P.M.x.mat.G, ∀ c < P.M.x.N, 0 ≤ P.M.q g c
  sides : ∀ g < P.M.x.mat.G, ∀ side < 2 * (P.W g).dim, ∀ ps, (P.W g).bc side = .fixed ps →
    ∀ io < 2 ^ ((P.W g).dim - 1), ∀ a < (P.W g).na, ∀ i j, InFace (P.W g) side i j →
    0 ≤ (P.W g).get (ps io a) i j

/-- Fluxes, boundary fluxes and angular fluxes of all groups that satisfy the transport equations and side conditions. -/
def Solves (P : Prob F K) (w : Nat → K) (Sol : Nat → (Nat → K) → Nat → Nat → (Nat → F) → (Nat → K) → Prop)
    (phi : Nat → Nat → K) (bd : Nat → Bd F) (psi : Nat → Nat → Nat → Nat → K) : Prop :=
  ∀ g < P.M.x.mat.G, Solution (P.W g) w (Sol g) (P.src phi g) (phi g) (fun _ => 0) (fun _ => 0) (bd g) (psi g)

theorem solves_of_flux [Nonempty F] {phi : Nat → Nat → K} (h : MGFlux P w Sol phi) : ∃ bd psi, Solves P w Sol phi bd psi := by
  have : ∀ g, ∃ bp : Bd F × (Nat → Nat → Nat → K), g < P.M.x.mat.G →
      Solution (P.W g) w (Sol g) (P.src phi g) (phi g) (fun _ => 0) (fun _ => 0) bp.1 bp.2 := by
    intro g
    by_cases hg : g < P.M.x.mat.G
    · obtain ⟨b, p, k⟩ := h g hg
      exact ⟨(b, p), fun _ => k⟩
    · exact ⟨(fun _ _ _ => Classical.arbitrary F, fun _ _ _ => 0), fun k => absurd k hg⟩
  choose B hB using this
  exact ⟨fun g => (B g).1, fun g => (B g).2, hB⟩

/-- Cell equations keep a flat flux. -/
theorem flat_swept (ok : OK P w Sol) (hD : Damped P w Sol sig u m th) (v : Nat → K) : ∃ z : Nat → F, ∀ g < P.M.x.mat.G,
    (∀ i j, (P.W g).get (z g) i j = m * v g) ∧
    Swept (P.W g) (Sol g) (fun _ _ c => sig g c * v g * m) (fun _ _ _ => z g) (fun _ _ _ => z g) (fun _ _ _ => m * v g) ∧
    ∀ c < P.M.x.N, v g = ∑ o ∈ range (2 ^ (P.W g).dim), ∑ a ∈ range (P.W g).na, w a * (m * v g) := by
  have : ∀ g, ∃ z : F, g < P.M.x.mat.G → (∀ i j, (P.W g).get z i j = m * v g) ∧
      Swept (P.W g) (Sol g) (fun _ _ c => sig g c * v g * m) (fun _ _ _ => z) (fun _ _ _ => z) (fun _ _ _ => m * v g) := by
    intro g
    by_cases hg : g < P.M.x.mat.G
    · obtain ⟨z, z1, z2⟩ := hD.flat ok hg (m * v g)
      exact ⟨z, fun _ => ⟨z1, fun o ho a ha => z2 _ (fun c _ => by ring) o ho a ha,
        fun _ _ _ _ _ _ _ _ _ _ _ _ _ => ⟨fun _ => rfl, fun _ => rfl⟩⟩⟩
    · exact ⟨(P.W g).face fun _ _ => 0, fun k => absurd k hg⟩
  choose z hz using this
  refine ⟨z, fun g hg => ⟨(hz g hg).1, (hz g hg).2, fun c _ => ?_⟩⟩
  calc v g = v g * (m * ∑ _o ∈ range (2 ^ (P.W g).dim), ∑ a ∈ range (P.W g).na, w a) := by
        rw [hD.uniform.norm g hg, mul_one]
    _ = _ := by
      simp only [mul_sum]
      exact sum_congr rfl fun o _ => sum_congr rfl fun a _ => by ring

theorem floor_sub (ok : OK P w Sol) (hD : Damped P w Sol sig u m th) {v : Nat → K} (h : Floor P sig m v) :
    ∃ z : Nat → F, (∀ g < P.M.x.mat.G, ∀ i j, (P.W g).get (z g) i j = m * v g) ∧
    Sub P w Sol m (fun g _ => v g) (fun g _ _ _ => z g) (fun g _ _ _ => m * v g) := by
  obtain ⟨z, hz⟩ := flat_swept ok hD v
  refine ⟨z, fun g hg => (hz g hg).1, fun g hg => ⟨_, (hz g hg).2.1, fun c hc => ?_, (hz g hg).2.2⟩, ?_⟩
  · rw [source_couple]
    exact h.cells g hg c hc
  · intro g hg bd hs side hsd hr o ho he a ha i j hi
    rw [(hz g hg).1]
    cases hb : (P.W g).bc side with
    | reflect => exact absurd hb hr
    | periodic => exact absurd hb (ok.np g hg side hsd)
    | vacuum =>
      rw [hs.vacuum side hsd hb o ho he a ha i j hi]
      exact mul_nonpos_of_nonneg_of_nonpos (hD.mpos hg).le (h.vacuum g hg side hsd hb)
    | fixed ps =>
      obtain ⟨io, hl, hio⟩ := Boundary.C67_set_covers (P.W g).dim (ok.sw g hg).d1 (ok.sw g hg).d3 side hsd o ho he
      rw [hs.given side hsd ps hb o ho io hio a ha i j hi]
      exact h.given g hg side hsd ps hb io hl a ha i j hi

theorem ceiling_super (ok : OK P w Sol) (hD : Damped P w Sol sig u m th) {v : Nat → K} (h : Ceiling P sig m v) :
    ∃ z : Nat → F, (∀ g < P.M.x.mat.G, ∀ i j, (P.W g).get (z g) i j = m * v g) ∧
    Super P w Sol m (fun g _ => v g) (fun g _ _ _ => z g) (fun g _ _ _ => m * v g) := by
  obtain ⟨z, hz⟩ := flat_swept ok hD v
  refine ⟨z, fun g hg => (hz g hg).1, fun g hg => ⟨_, (hz g hg).2.1, fun c hc => ?_, (hz g hg).2.2⟩, ?_⟩
  · rw [source_couple]
    exact h.cells g hg c hc
  · intro g hg bd hs side hsd hr o ho he a ha i j hi
    rw [(hz g hg).1]
    cases hb : (P.W g).bc side with
    | reflect => exact absurd hb hr
    | periodic => exact absurd hb (ok.np g hg side hsd)
    | vacuum =>
      rw [hs.vacuum side hsd hb o ho he a ha i j hi]
      exact mul_nonneg (hD.mpos hg).le (h.vacuum g hg side hsd hb)
    | fixed ps =>
      obtain ⟨io, hl, hio⟩ := Boundary.C67_set_covers (P.W g).dim (ok.sw g hg).d1 (ok.sw g hg).d3 side hsd o ho he
      rw [hs.given side hsd ps hb o ho io hio a ha i j hi]
      exact h.given g hg side hsd ps hb io hl a ha i j hi

/-- No flux and no angular flux is below such a floor. -/
theorem C132_floor (ok : OK P w Sol) (hD : Damped P w Sol sig u m th) {v : Nat → K} (h : Floor P sig m v)
    {phi : Nat → Nat → K} {bd : Nat → Bd F} {psi : Nat → Nat → Nat → Nat → K} (hs : Solves P w Sol phi bd psi) :
    ∀ g < P.M.x.mat.G, ∀ c < P.M.x.N, v g ≤ phi g c ∧
      ∀ o < 2 ^ (P.W g).dim, ∀ a < (P.W g).na, m * v g ≤ psi g o a c := by
  obtain ⟨z, _, hsub⟩ := floor_sub ok hD h
  intro g hg c hc
  obtain ⟨_, k1, k2⟩ := sub_le_super ok hD hsub.eqs (fun g hg => (solution_both ok hD.uniform hg (hs g hg)).2.1)
    (fun g hg => hsub.sides g hg _ (solution_both ok hD.uniform hg (hs g hg)).2.2) g hg
  exact ⟨k1 c hc, fun o ho a ha => k2 o ho a ha c hc⟩

/-- None is above such a ceiling. -/
theorem C132_ceiling (ok : OK P w Sol) (hD : Damped P w Sol sig u m th) {v : Nat → K} (h : Ceiling P sig m v)
    {phi : Nat → Nat → K} {bd : Nat → Bd F} {psi : Nat → Nat → Nat → Nat → K} (hs : Solves P w Sol phi bd psi) :
    ∀ g < P.M.x.mat.G, ∀ c < P.M.x.N, phi g c ≤ v g ∧
      ∀ o < 2 ^ (P.W g).dim, ∀ a < (P.W g).na, psi g o a c ≤ m * v g := by
  obtain ⟨z, _, hsup⟩ := ceiling_super ok hD h
  intro g hg c hc
  obtain ⟨_, k1, k2⟩ := sub_le_super ok hD (fun g hg => (solution_both ok hD.uniform hg (hs g hg)).1) hsup.eqs
    (fun g hg => hsup.sides g hg _ (solution_both ok hD.uniform hg (hs g hg)).2.2) g hg
  exact ⟨k1 c hc, fun o ho a ha => k2 o ho a ha c hc⟩

theorem given_floor (h : Given P) : Floor P sig m fun _ => 0 where
  cells := fun g hg c hc => by simpa using h.q g hg c hc
  vacuum := fun _ _ _ _ _ => le_refl _
  given := fun g hg side hs ps hb io hio a ha i j hi => by
    rw [mul_zero]
    exact h.sides g hg side hs ps hb io hio a ha i j hi

/-- Without negative sources and incoming fluxes no flux and no angular flux is negative.  Missing: diamond differencing in
    cells wider than twice the direction's cosine in mean free paths, where this fails (`C132_claim_fails`), and in two
    and three dimensions. -/
theorem C132_positive_partial (ok : OK P w Sol) (hD : Damped P w Sol sig u m th) (h : Given P)
    {phi : Nat → Nat → K} {bd : Nat → Bd F} {psi : Nat → Nat → Nat → Nat → K} (hs : Solves P w Sol phi bd psi) :
    ∀ g < P.M.x.mat.G, ∀ c < P.M.x.N, 0 ≤ phi g c ∧ ∀ o < 2 ^ (P.W g).dim, ∀ a < (P.W g).na, 0 ≤ psi g o a c := by
  intro g hg c hc
  obtain ⟨k1, k2⟩ := C132_floor ok hD (given_floor h) hs g hg c hc
  exact ⟨k1, fun o ho a ha => by simpa using k2 o ho a ha⟩

/-! ## One flux -/

/-- There is at most one. -/
theorem C132_unique [Nonempty F] (ok : OK P w Sol) (hD : Damped P w Sol sig u m th) (phi phi' : Nat → Nat → K)
    (h : MGFlux P w Sol phi) (h' : MGFlux P w Sol phi') : ∀ g < P.M.x.mat.G, ∀ c < P.M.x.N, phi g c = phi' g c := by
  obtain ⟨b, p, k⟩ := solves_of_flux h
  obtain ⟨b', p', k'⟩ := solves_of_flux h'
  have both := fun g hg => solution_both ok hD.uniform hg (k g hg)
  have both' := fun g hg => solution_both ok hD.uniform hg (k' g hg)
  intro g hg c hc
  exact le_antisymm
    ((sub_le_super ok hD (fun g hg => (both g hg).1) (fun g hg => (both' g hg).2.1)
      (fun g hg => sides_incoming ok hg (both g hg).2.2 (both' g hg).2.2) g hg).2.1 c hc)
    ((sub_le_super ok hD (fun g hg => (both' g hg).1) (fun g hg => (both g hg).2.1)
      (fun g hg => sides_incoming ok hg (both' g hg).2.2 (both g hg).2.2) g hg).2.1 c hc)

/-- And there is one, for schemes that dissipate as those of C128 do. -/
theorem C132_exists {V : Nat → K} {fw : Nat → Nat → Nat → Nat → Nat → K} (ok : OK P w Sol)
    (hD : Damped P w Sol sig u m th) (hw : ∀ g < P.M.x.mat.G, ∀ a < (P.W g).na, 0 < w a) (hV : ∀ c < P.M.x.N, 0 < V c)
    (hs : ∀ g < P.M.x.mat.G, ∀ c < P.M.x.N, 0 < sig g c) (D : AllDissipate P Sol V sig fw) (s : St F K) :
    ∃ phi, MGFlux P w Sol phi := positive_exists ok hD hw hV hs D s

/-! ## More in, more out -/

/-- Group problems on the same cells, with the same quadrature and faces. -/
def SameDirs (A B : WGReflect.Prob F K) : Prop :=
  ∃ bc st od sc fx, A = { B with bc := bc, step := st, order := od, scat := sc, fixed := fx }

/-- A side that lets no less in: what is given there is no less, what was vacuum reflects or has something given. -/
def Grows (A : WGReflect.Prob F K) (side : Nat) (x y : BC F) : Prop :=
  match x, y with
  | .reflect, .reflect => True
  | .vacuum, .vacuum => True
  | .vacuum, .reflect => True
  | .vacuum, .fixed _ => True
  | .fixed ps, .fixed ps' => ∀ io < 2 ^ (A.dim - 1), ∀ a < A.na, ∀ i j, InFace A side i j →
      A.get (ps io a) i j ≤ A.get (ps' io a) i j
  | _, _ => False

/-- The second problem has no less source, no less coupling between groups, and no less comes in at its sides. -/
structure More (P P' : Prob F K) : Prop where
  groups : P'.M.x.mat.G = P.M.x.mat.G
  cells : P'.M.x.N = P.M.x.N
  dirs : ∀ g < P.M.x.mat.G, SameDirs (P'.W g) (P.W g)
  q : ∀ g < P.M.x.mat.G, ∀ c < P.M.x.N, P.M.q g c ≤ P'.M.q g c
  couple : ∀ g < P.M.x.mat.G, ∀ gp < P.M.x.mat.G, ∀ c < P.M.x.N, couple P.M g gp c ≤ couple P'.M g gp c
  sides : ∀ g < P.M.x.mat.G, ∀ side < 2 * (P.W g).dim, Grows (P.W g) side ((P.W g).bc side) ((P'.W g).bc side)

/-- More source, more scattering or fission between groups, more coming in at sides, or a reflector instead of vacuum:
    no flux and no angular flux falls. -/
theorem C132_more {u' : Nat → K} {th' : K} {P' : Prob F K} (ok : OK P w Sol) (hD : Damped P w Sol sig u m th)
    (ok' : OK P' w Sol) (hD' : Damped P' w Sol sig u' m th') (hM : More P P') (h : Given P')
    {phi phi' : Nat → Nat → K} {bd bd' : Nat → Bd F} {psi psi' : Nat → Nat → Nat → Nat → K}
    (hs : Solves P w Sol phi bd psi) (hs' : Solves P' w Sol phi' bd' psi') :
    ∀ g < P.M.x.mat.G, ∀ c < P.M.x.N, phi g c ≤ phi' g c ∧
      ∀ o < 2 ^ (P.W g).dim, ∀ a < (P.W g).na, psi g o a c ≤ psi' g o a c := by
  have hpos := C132_positive_partial ok' hD' h hs'
  rw [hM.groups, hM.cells] at hpos
  have hlv : ∀ g < P.M.x.mat.G, ∀ side < 2 * (P'.W g).dim, (P'.W g).bc side = .reflect → ∀ o < 2 ^ (P'.W g).dim,
      ¬ Enters side o → ∀ a < (P'.W g).na, ∀ i j, InFace (P'.W g) side i j → 0 ≤ (P'.W g).get (bd' g side o a) i j := by
    obtain ⟨z, hz, hsub⟩ := floor_sub ok' hD' (given_floor (sig := sig) (m := m) h)
    intro g hg side hsd hr o ho he a ha i j hi
    have hg' : g < P'.M.x.mat.G := by rw [hM.groups]; exact hg
    have := (sub_le_super ok' hD' hsub.eqs (fun g hg => (solution_both ok' hD'.uniform hg (hs' g hg)).2.1)
      (fun g hg => hsub.sides g hg _ (solution_both ok' hD'.uniform hg (hs' g hg)).2.2) g hg').1.2 side hsd hr o ho he a
        ha i j hi
    rw [hz g hg', mul_zero, zero_mul, zero_sub] at this
    linarith
  have hsrc : ∀ g < P.M.x.mat.G, ∀ c < P.M.x.N, P.M.source phi' g c ≤ P'.M.source phi' g c := by
    intro g hg c hc
    rw [source_couple, source_couple, hM.groups]
    refine add_le_add (hM.q g hg c hc) (sum_le_sum fun gp hgp => ?_)
    have hgp := mem_range.1 hgp
    exact mul_le_mul_of_nonneg_right (hM.couple g hg gp hgp c hc) (hpos gp hgp c hc).1
  have key : ∀ g < P.M.x.mat.G, Upper P w Sol m g phi' (phi' g) (bd' g) (bd' g) (psi' g) ∧
      Incoming (P.W g) (bd g) (bd' g) := by
    intro g hg
    have hg' : g < P'.M.x.mat.G := by rw [hM.groups]; exact hg
    have hS := hs' g hg'
    have hS0 := solution_both ok hD.uniform hg (hs g hg)
    obtain ⟨bc', st', od', sc', fx', e⟩ := hM.dirs g hg
    have hgr := hM.sides g hg
    have hcov := fun side hsd o ho he =>
      Boundary.C67_set_covers (P.W g).dim (ok.sw g hg).d1 (ok.sw g hg).d3 side hsd o ho he
    have hmir := fun side hsd o ho => WGReflect.mir_facts (P.W g).dim (ok.sw g hg).d1 (ok.sw g hg).d3 side hsd o ho
    have hnp := ok'.np g hg'
    have hlv := hlv g hg
    have hgv := h.sides g hg'
    have hnpP := ok.np g hg
    have hmt := hD'.uniform.mtod g hg'
    have hds := hD'.uniform.disc g hg'
    have hsr : ∀ o < 2 ^ (P'.W g).dim, ∀ a < (P'.W g).na, ∀ c, P'.src phi' g o a c = P'.M.source phi' g c * m := by
      intro o ho a ha c
      unfold Prob.src
      rw [hmt o ho a ha, hds, List.map_nil, List.sum_nil, add_zero]
    rw [e] at hgr hnp hlv hgv hsr hS
    have hsw : Swept (P.W g) (Sol g) (fun _ _ c => P'.M.source phi' g c * m) (bd' g) (bd' g) (psi' g) := by
      refine ⟨fun o ho a ha => sol_congr (ok.sw g hg) ho (hS.cells o ho a ha) fun c _ => (hsr o ho a ha c).symm, ?_⟩
      intro side hsd hr o ho he o' hm a ha i j hi
      have hr' : bc' side = .reflect := by
        have := hgr side hsd
        rw [hr] at this
        unfold Grows at this
        dsimp only at this
        split at this <;> simp_all
      have := sub_eq_zero.1 (hS.reflect side hsd hr' o ho he o' hm a ha i j hi)
      exact ⟨fun _ => this, fun _ => this⟩
    refine ⟨⟨_, hsw, fun c hc => hsrc g hg c hc, fun c hc => ?_⟩, ?_⟩
    · have := hS.flux c (by rw [← ok.cells g] at hc; exact hc)
      rwa [add_zero] at this
    · intro side hsd hr o ho he a ha i j hi
      have hgs := hgr side hsd
      dsimp only at hgs
      obtain ⟨io, hl, hio⟩ := hcov side hsd o ho he
      cases hb : (P.W g).bc side with
      | reflect => exact absurd hb hr
      | periodic => exact absurd hb (hnpP side hsd)
      | vacuum =>
        rw [hS0.2.2.vacuum side hsd hb o ho he a ha i j hi]
        cases hb' : bc' side with
        | vacuum => exact (hS.vacuum side hsd hb' o ho he a ha i j hi).ge
        | periodic => exact absurd hb' (hnp side hsd)
        | reflect =>
          obtain ⟨m1, m2, _, m4⟩ := hmir side hsd o ho
          have := hS.reflect side hsd hb' o ho he _ m2 a ha i j hi
          have h2 := hlv side hsd hb' _ m1 (fun k => (m4.1 k) he) a ha i j hi
          dsimp only at this h2
          linarith
        | fixed ps =>
          have := hS.given side hsd ps hb' o ho io hio a ha i j hi
          have h2 := hgv side hsd ps hb' io hl a ha i j hi
          dsimp only at this h2
          linarith
      | fixed ps =>
        rw [hS0.2.2.given side hsd ps hb o ho io hio a ha i j hi]
        rw [hb] at hgs
        cases hb' : bc' side with
        | vacuum => rw [hb'] at hgs; exact hgs.elim
        | periodic => rw [hb'] at hgs; exact hgs.elim
        | reflect => rw [hb'] at hgs; exact hgs.elim
        | fixed ps' =>
          rw [hb'] at hgs
          have := hS.given side hsd ps' hb' o ho io hio a ha i j hi
          have h2 := hgs io hl a ha i j hi
          dsimp only at this
          linarith
  intro g hg c hc
  obtain ⟨_, k1, k2⟩ := sub_le_super ok hD (fun g hg => (solution_both ok hD.uniform hg (hs g hg)).1)
    (fun g hg => (key g hg).1) (fun g hg => (key g hg).2) g hg
  exact ⟨k1 c hc, fun o ho a ha => k2 o ho a ha c hc⟩

/-! ## Passes over the groups -/

theorem flux_super (ok : OK P w Sol) (hD : Damped P w Sol sig u m th) {phi : Nat → Nat → K} {bd : Nat → Bd F}
    {psi : Nat → Nat → Nat → Nat → K} (hs : Solves P w Sol phi bd psi) :
    Super P w Sol m phi bd psi ∧ Sub P w Sol m phi bd psi :=
  ⟨⟨fun g hg => (solution_both ok hD.uniform hg (hs g hg)).2.1, fun g hg _ h =>
      sides_incoming ok hg h (solution_both ok hD.uniform hg (hs g hg)).2.2⟩,
    ⟨fun g hg => (solution_both ok hD.uniform hg (hs g hg)).1, fun g hg _ h =>
      sides_incoming ok hg (solution_both ok hD.uniform hg (hs g hg)).2.2 h⟩⟩

/-- The errors of successive Gauss–Seidel passes shrink geometrically, with any number of inner iterations, any inner
    tolerance, any order of the groups and any reflecting sides.  The factor depends on the problem alone. -/
theorem C132_rate [Nonempty F] (ok : OK P w Sol) (hD : Damped P w Sol sig u m th) (phi : Nat → Nat → K)
    (hphi : MGFlux P w Sol phi) : ∃ ka, 0 ≤ ka ∧ ka < 1 ∧ ∀ R, Ready P R → ∃ E, 0 ≤ E ∧
    ∀ (tolI : K) (n : Nat), 0 < n → ∀ l : List Nat, (∀ g, g ∈ l ↔ g < P.M.x.mat.G) → ∀ k, ∀ g < P.M.x.mat.G,
      ∀ c < P.M.x.N, |((P.gsPass tolI n l)^[k] R).phi g c - phi g c| ≤ ka ^ k * E * u g := by
  obtain ⟨bd, psi, hs⟩ := solves_of_flux hphi
  obtain ⟨hsup, hsub⟩ := flux_super ok hD hs
  obtain ⟨δ, hδ, hδ1, hG⟩ := hD.gains
  obtain ⟨k0, k1⟩ := kappa hD hδ hδ1
  have hP := pulls_and (pulls_super ok hD hδ hG hsup) (pulls_sub ok hD hδ hG hsub)
  refine ⟨_, k0, k1, fun R hR => ?_⟩
  obtain ⟨E, hE, hl⟩ := least_and _ _
    (least_under (P := P) (u := u) (m := m) hD.upos (fun g hg => hD.mpos hg) R.phi phi (fun g => (R.S g).bdy) bd)
    (least_under (P := P) (u := u) (m := m) hD.upos (fun g hg => hD.mpos hg) phi R.phi bd (fun g => (R.S g).bdy))
  obtain ⟨e1, e2⟩ := (hl E hE).2 (le_refl _)
  refine ⟨E, hE, fun tolI n hn l hl k g hg c hc => ?_⟩
  obtain ⟨a1, a2⟩ := (pulls_iterate ok k0 k1.le hP hE tolI n hn l hl R hR (fun g hg => ⟨e1 g hg, e2 g hg⟩) k).2 g hg
  have b1 := a1.1 c hc
  have b2 := a2.1 c hc
  rw [abs_le]
  constructor <;> linarith

/-- So they come as close to the flux as one likes. -/
theorem C132_converges [Archimedean K] [Nonempty F] (ok : OK P w Sol) (hD : Damped P w Sol sig u m th)
    (phi : Nat → Nat → K) (hphi : MGFlux P w Sol phi) (R : Run F K) (hR : Ready P R) (ε : K) (hε : 0 < ε) :
    ∃ k0, ∀ k ≥ k0, ∀ (tolI : K) (n : Nat), 0 < n → ∀ l : List Nat, (∀ g, g ∈ l ↔ g < P.M.x.mat.G) →
      ∀ g < P.M.x.mat.G, ∀ c < P.M.x.N, |((P.gsPass tolI n l)^[k] R).phi g c - phi g c| < ε := by
  obtain ⟨ka, h0, h1, h⟩ := C132_rate ok hD phi hphi
  obtain ⟨E, hE, hk⟩ := h R hR
  have hU : ∃ U, 0 < U ∧ ∀ g < P.M.x.mat.G, u g ≤ U := by
    refine ⟨1 + ∑ g ∈ range P.M.x.mat.G, u g, ?_, fun g hg => ?_⟩
    · have : 0 ≤ ∑ g ∈ range P.M.x.mat.G, u g := sum_nonneg fun g hg => (hD.upos g (mem_range.1 hg)).le
      linarith
    · have := single_le_sum (f := u) (s := range P.M.x.mat.G) (fun g hg => (hD.upos g (mem_range.1 hg)).le) (mem_range.2 hg)
      linarith
  obtain ⟨U, hU, hu⟩ := hU
  obtain ⟨k0, hk0⟩ := exists_pow_lt_of_lt_one (div_pos hε (mul_pos (by linarith : 0 < E + 1) hU)) h1
  refine ⟨k0, fun k hkk tolI n hn l hl g hg c hc => (hk tolI n hn l hl k g hg c hc).trans_lt ?_⟩
  have hp : ka ^ k ≤ ka ^ k0 := pow_le_pow_of_le_one h0 h1.le hkk
  have hn0 : 0 ≤ ka ^ k := pow_nonneg h0 k
  have h3 : ka ^ k * ((E + 1) * U) < ε := by
    have := mul_lt_mul_of_pos_right (hp.trans_lt hk0) (mul_pos (by linarith : 0 < E + 1) hU)
    rwa [div_mul_cancel₀ _ (mul_pos (by linarith : 0 < E + 1) hU).ne'] at this
  have h4 : ka ^ k * E * u g ≤ ka ^ k * ((E + 1) * U) := by
    rw [mul_assoc]
    refine mul_le_mul_of_nonneg_left ?_ hn0
    have := hu g hg
    have := hD.upos g hg
    nlinarith
  linarith

/-- Nothing leaves towards a reflecting side yet. -/
def Dark (P : Prob F K) (R : Run F K) : Prop :=
  (∀ g < P.M.x.mat.G, ∀ c < P.M.x.N, R.phi g c = 0) ∧ ∀ g < P.M.x.mat.G, ∀ side < 2 * (P.W g).dim,
    (P.W g).bc side = .reflect → ∀ o < 2 ^ (P.W g).dim, ¬ Enters side o → ∀ a < (P.W g).na, ∀ i j,
    InFace (P.W g) side i j → (P.W g).get ((R.S g).bdy side o a) i j = 0

theorem dark_rises (ok : OK P w Sol) (hD : Damped P w Sol sig u m th) (h : Given P) (R : Run F K) (hR : Ready P R)
    (hd : Dark P R) : Rising P u m R := by
  obtain ⟨z, hz, hsub⟩ := floor_sub ok hD (given_floor (sig := sig) (m := m) h)
  obtain ⟨δ, hδ, _, hG⟩ := hD.gains
  intro g hg
  obtain ⟨p, _, r⟩ := pass_both ok hD.uniform R.phi hg (R.start P g)
  have hs0 : Sides (P.W g) (R.start P g).bdy := sides_reset ok hg _ (hR.2 g hg)
  have := (step_under ok hD hδ hg (hG g hg) (hsub.eqs g hg) r (le_refl 0) (fun gp hgp c hc => ?_)
    (fun side hs hr o ho he a ha i j hi => ?_) (hsub.sides g hg _ (sides_siPass ok R.phi hg _ hs0))).1
  · rw [mul_zero] at this
    refine ⟨fun c hc => ?_, fun side hs hr o ho he a ha i j hi => ?_⟩
    · rw [hd.1 g hg c hc]
      exact this.1 c hc
    · rw [hd.2 g hg side hs hr o ho he a ha i j hi]
      have h2 := this.2 side hs hr o ho he a ha i j hi
      rwa [hz g hg, mul_zero] at h2
  · have e : MGSolve.put R.phi g (R.start P g).phi = R.phi := put_self R.phi g
    rw [e, hd.1 gp hgp c hc, sub_zero, zero_mul]
  · rw [hz g hg, mul_zero]
    unfold Run.start
    dsimp only
    rw [← set_same ok hg _ side hs hr o a, hd.2 g hg side hs hr o ho he a ha i j hi, sub_zero, zero_mul]

/-- Starting from nothing the passes raise the fluxes at every step and never exceed the solution. -/
theorem C132_iterates [Nonempty F] (ok : OK P w Sol) (hD : Damped P w Sol sig u m th) (h : Given P) (phi : Nat → Nat → K)
    (hphi : MGFlux P w Sol phi) (R : Run F K) (hR : Ready P R) (hd : Dark P R) (tolI : K) (n : Nat) (hn : 0 < n)
    (l : List Nat) (hl : ∀ g, g ∈ l ↔ g < P.M.x.mat.G) (k : Nat) : ∀ g < P.M.x.mat.G, ∀ c < P.M.x.N,
    0 ≤ ((P.gsPass tolI n l)^[k] R).phi g c ∧
    ((P.gsPass tolI n l)^[k] R).phi g c ≤ ((P.gsPass tolI n l)^[k + 1] R).phi g c ∧
    ((P.gsPass tolI n l)^[k] R).phi g c ≤ phi g c := by
  obtain ⟨bd, psi, hs⟩ := solves_of_flux hphi
  obtain ⟨hsup, _⟩ := flux_super ok hD hs
  obtain ⟨δ, hδ, hδ1, hG⟩ := hD.gains
  obtain ⟨k0, k1⟩ := kappa hD hδ hδ1
  obtain ⟨z, hz, hsub⟩ := floor_sub ok hD (given_floor (sig := sig) (m := m) h)
  have hl' : ∀ g ∈ l, g < P.M.x.mat.G := fun g hg => (hl g).1 hg
  have hrise := dark_rises ok hD h R hR hd
  have hbd := fun g hg => (sub_le_super ok hD hsub.eqs hsup.eqs
    (fun g hg => hsub.sides g hg _ (solution_both ok hD.uniform hg (hs g hg)).2.2) g hg)
  have up := pulls_iterate ok k0 k1.le (pulls_super ok hD hδ hG hsup) (le_refl 0) tolI n hn l hl R hR
    (fun g hg => ⟨fun c hc => by rw [hd.1 g hg c hc]; exact (hbd g hg).1.1 c hc,
      fun side hsd hr o ho he a ha i j hi => by
        rw [hd.2 g hg side hsd hr o ho he a ha i j hi]
        have := (hbd g hg).1.2 side hsd hr o ho he a ha i j hi
        rwa [hz g hg, mul_zero] at this⟩) k
  have dn := pulls_iterate ok k0 k1.le (pulls_sub ok hD hδ hG hsub) (le_refl 0) tolI n hn l hl R hR
    (fun g hg => ⟨fun c hc => by rw [hd.1 g hg c hc, sub_zero, zero_mul],
      fun side hsd hr o ho he a ha i j hi => by
        rw [hd.2 g hg side hsd hr o ho he a ha i j hi, hz g hg, mul_zero, sub_zero, zero_mul]⟩) k
  intro g hg c hc
  have a1 := (up.2 g hg).1 c hc
  have a2 := (dn.2 g hg).1 c hc
  obtain ⟨r1, r2⟩ := rise_iterate ok hD tolI n l hl' R hR hrise k
  have a3 := ((rise_pass ok hD tolI n l hl' _ r1 r2).1 g hg).1 c hc
  rw [← Function.iterate_succ_apply' (P.gsPass tolI n l) k R] at a3
  rw [mul_zero, zero_mul] at a1 a2
  rw [zero_mul] at a3
  exact ⟨by linarith, by linarith, by linarith⟩

theorem loop_keeps {ka : K} (k0 : 0 ≤ ka) (k1 : ka ≤ 1) (ok : OK P w Sol) {N : K → Nat → (Nat → K) → Bd F → Prop}
    (h : Pulls P ka N) (tolI : K) (n : Nat) (hn : 0 < n) (l : List Nat) (hl : ∀ g ∈ l, g < P.M.x.mat.G) (tol : K) (max : Nat)
    (R : Run F K) (e : K) (hR : Ready P R) (hN : ∀ g < P.M.x.mat.G, N 0 g (R.phi g) (R.S g).bdy) :
    ∀ g < P.M.x.mat.G, N 0 g ((P.gsLoop tolI n l tol max R e).1.phi g) ((P.gsLoop tolI n l tol max R e).1.S g).bdy := by
  induction max generalizing R e with
  | zero => exact hN
  | succ k ih =>
    have h1 := (pulls_groups ok k0 k1 h (le_refl 0) tolI n hn l hl R hR hN).1
    have h2 := ready_pass ok tolI n l hl R hR
    rw [Prob.gsLoop]
    split
    · exact h1
    · exact ih _ _ h2 h1

/-- What the Gauss–Seidel solver returns, started from nothing, lies between zero and the solution, whatever its
    tolerances and however many iterations it was allowed. -/
theorem C132_returned [Nonempty F] (ok : OK P w Sol) (hD : Damped P w Sol sig u m th) (h : Given P) (phi : Nat → Nat → K)
    (hphi : MGFlux P w Sol phi) (R : Run F K) (hR : Ready P R) (hd : Dark P R) (cut : Nat) (downscatter multiply : Bool)
    (tolI : K) (n : Nat) (hn : 0 < n) (tol : K) (max : Nat) (h0 : 0 < P.M.x.mat.G) (hG : P.M.x.mat.G < 2147483648)
    (hcut : cut < P.M.x.mat.G) : ∀ g < P.M.x.mat.G, ∀ c < P.M.x.N,
    0 ≤ (P.gs cut downscatter multiply tolI n tol max R).1.phi g c ∧
    (P.gs cut downscatter multiply tolI n tol max R).1.phi g c ≤ phi g c := by
  obtain ⟨bd, psi, hs⟩ := solves_of_flux hphi
  obtain ⟨hsup, _⟩ := flux_super ok hD hs
  obtain ⟨δ, hδ, hδ1, hGa⟩ := hD.gains
  obtain ⟨k0, k1⟩ := kappa hD hδ hδ1
  obtain ⟨z, hz, hsub⟩ := floor_sub ok hD (given_floor (sig := sig) (m := m) h)
  have hbd := fun g hg => (sub_le_super ok hD hsub.eqs hsup.eqs
    (fun g hg => hsub.sides g hg _ (solution_both ok hD.uniform hg (hs g hg)).2.2) g hg)
  have hP := pulls_and (pulls_super ok hD hδ hGa hsup) (pulls_sub ok hD hδ hGa hsub)
  have hN : ∀ g < P.M.x.mat.G, Under P u m 0 g (R.phi g) (R.S g).bdy (phi g) (bd g) ∧
      Under P u m 0 g (fun _ => 0) (fun _ _ _ => z g) (R.phi g) (R.S g).bdy := fun g hg =>
    ⟨⟨fun c hc => by rw [hd.1 g hg c hc]; exact (hbd g hg).1.1 c hc, fun side hsd hr o ho he a ha i j hi => by
        rw [hd.2 g hg side hsd hr o ho he a ha i j hi]
        have := (hbd g hg).1.2 side hsd hr o ho he a ha i j hi
        rwa [hz g hg, mul_zero] at this⟩,
      ⟨fun c hc => by rw [hd.1 g hg c hc, sub_zero, zero_mul], fun side hsd hr o ho he a ha i j hi => by
        rw [hd.2 g hg side hsd hr o ho he a ha i j hi, hz g hg, mul_zero, sub_zero, zero_mul]⟩⟩
  obtain ⟨l1, _, l2⟩ := gs_groups P.M.x.mat.G cut P.M.x.adjoint multiply h0 hG hcut
  have hl1 := fun g hg => (l1 g).1 hg
  have p1 := (pulls_groups ok k0 k1.le hP (le_refl 0) tolI n hn _ hl1 R hR hN).1
  have key : ∀ g < P.M.x.mat.G, Under P u m 0 g ((P.gs cut downscatter multiply tolI n tol max R).1.phi g)
      ((P.gs cut downscatter multiply tolI n tol max R).1.S g).bdy (phi g) (bd g) ∧
      Under P u m 0 g (fun _ => 0) (fun _ _ _ => z g) ((P.gs cut downscatter multiply tolI n tol max R).1.phi g)
      ((P.gs cut downscatter multiply tolI n tol max R).1.S g).bdy := by
    unfold Prob.gs
    dsimp only
    split
    · exact loop_keeps k0 k1.le ok hP tolI n hn _ (fun g hg => ((l2 g).1 hg).1) tol max _ _
        (ready_pass ok tolI n _ hl1 R hR) p1
    · exact p1
  intro g hg c hc
  obtain ⟨a1, a2⟩ := key g hg
  have b1 := a1.1 c hc
  have b2 := a2.1 c hc
  rw [zero_mul] at b1 b2
  exact ⟨by linarith, by linarith⟩

end main

/-! ## Geometries and schemes -/

section geom
open Detran.Sweep (LinEq1 LinEq2 LinEq3 dd1 sd1 sc1 dd2 sd2 sc2 dd3 C27_schemes_linear Solves1 Solves2 Solves3)
open Detran.WGReflect (Attenuates gain_dd1 gain_sd1 gain_sc1 gain_sd2 gain_sc2 positive1 positive2 attenuates_exp
  dissipates1 dissipates2 cell_dd1 cell_sd1 cell_sc1 cell_sd2 cell_sc2 exp_ok)
variable {K : Type} [Field K] [LinearOrder K] [IsStrictOrderedRing K]

/-- What is asked of the totals and the coupling: nothing negative couples, and weights `u` exist with which no more than
    the part `th` of what collides in a group comes in from all groups, in every cell. -/
structure Tame (M : MGSolve.Prob K) (sig : Nat → Nat → K) (u : Nat → K) (th : K) : Prop where
  tot : ∀ g < M.x.mat.G, ∀ c < M.x.N, 0 < sig g c
  couple : ∀ g < M.x.mat.G, ∀ gp < M.x.mat.G, ∀ c < M.x.N, 0 ≤ couple M g gp c
  upos : ∀ g < M.x.mat.G, 0 < u g
  row : ∀ g < M.x.mat.G, ∀ c < M.x.N, ∑ gp ∈ range M.x.mat.G, MGReflect.couple M g gp c * u gp ≤ th * (sig g c * u g)
  th0 : 0 ≤ th
  less : th < 1

/-- 1-D: step differencing, step characteristics, and diamond differencing in cells no thicker than twice the cosine, in
    any mixture. -/
theorem C132_1D (M : MGSolve.Prob K) (hM : M.OK) (ex : K → K) (hex : Attenuates ex) (mu w dx : Nat → K)
    (sig : Nat → Nat → K) (u : Nat → K) (m th : K) (hT : Tame M sig u th) (hN : 0 < M.x.N) (na : Nat) (up : Bool)
    (bc : Nat → Nat → BC K) (order : List Nat) (hord : order.Perm (List.range 2)) (sch : Nat → Nat → Nat → K → K → K × K)
    (hsch : ∀ g a i, sch g a i = dd1 (mu a) (dx i) (sig g i) ∧ sig g i * dx i ≤ 2 * mu a ∨
      sch g a i = sd1 (mu a) (dx i) (sig g i) ∨ sch g a i = sc1 ex (mu a) (dx i) (sig g i))
    (hmu : ∀ a < na, 0 < mu a) (hw : ∀ a < na, 0 ≤ w a) (hm : m * ∑ _o ∈ range 2, ∑ a ∈ range na, w a = 1)
    (hdx : ∀ i < M.x.N, 0 < dx i) (hr : ∀ g s, bc g s = .reflect ↔ bc 0 s = .reflect)
    (hp : ∀ g, ∀ s < 2, bc g s ≠ .periodic) :
    OK (mg1 M sch w M.x.N na up bc order (fun _ _ => m) (fun _ => [])) w
      (fun g q o a b p => Solves1 M.x.N (fun i => sch g a i (q i)) o b p) ∧
    Damped (mg1 M sch w M.x.N na up bc order (fun _ _ => m) (fun _ => [])) w
      (fun g q o a b p => Solves1 M.x.N (fun i => sch g a i (q i)) o b p) sig u m th := by
  have lin : ∀ g a i, LinEq1 (sch g a i) := fun g a i => by
    obtain ⟨l1, l2, l3, _⟩ := C27_schemes_linear ex (mu a) 0 0 (dx i) 0 0 (sig g i)
    rcases hsch g a i with e | e | e
    · rw [e.1]; exact l1
    · rw [e]; exact l2
    · rw [e]; exact l3
  refine ⟨C125_ok1 M hM sch lin w na up bc order hord _ _ hr hp,
    C131_1D M ex mu w dx sig m na up bc order sch (fun g a i => (hsch g a i).imp_left And.left) hmu hdx hT.tot hm,
    fun _ _ => hw, hT.couple, hT.upos, hT.row, hT.th0, hT.less, fun g hg => ?_⟩
  refine positive1 (sch g) w M.x.N na hN up (bc g) order _ _ _ _ (sig g) fun a ha i hi => ?_
  rcases hsch g a i with e | e | e
  · rw [e.1]; exact gain_dd1 _ _ _ (hmu a ha) (hdx i hi) (hT.tot g hg i hi) e.2
  · rw [e]; exact gain_sd1 _ _ _ (hmu a ha) (hdx i hi) (hT.tot g hg i hi)
  · rw [e]; exact gain_sc1 ex hex _ _ _ (hmu a ha) (hdx i hi) (hT.tot g hg i hi)

/-- 2-D: step differencing and step characteristics, in any mixture. -/
theorem C132_2D (M : MGSolve.Prob K) (hM : M.OK) (ex : K → K) (hex : Attenuates ex) (mu eta w dx dy : Nat → K)
    (sig : Nat → Nat → K) (u : Nat → K) (m th : K) (hT : Tame M sig u th) (nx ny na : Nat) (hx0 : 0 < nx) (hy0 : 0 < ny)
    (hN : nx * ny = M.x.N) (up : Bool) (bc : Nat → Nat → BC (Nat → K)) (order : List Nat)
    (hord : order.Perm (List.range 4)) (sch : Nat → Nat → Nat → Nat → K → K × K → K × (K × K))
    (hsch : ∀ g a i j, sch g a i j = sd2 (mu a) (eta a) (dx i) (dy j) (sig g (i + j * nx)) ∨
      sch g a i j = sc2 ex (mu a) (eta a) (dx i) (dy j) (sig g (i + j * nx)))
    (hmu : ∀ a < na, 0 < mu a) (heta : ∀ a < na, 0 < eta a) (hw : ∀ a < na, 0 ≤ w a)
    (hm : m * ∑ _o ∈ range 4, ∑ a ∈ range na, w a = 1) (hdx : ∀ i < nx, 0 < dx i) (hdy : ∀ j < ny, 0 < dy j)
    (hr : ∀ g s, bc g s = .reflect ↔ bc 0 s = .reflect) (hp : ∀ g, ∀ s < 4, bc g s ≠ .periodic) :
    OK (mg2 M sch w nx ny na up bc order (fun _ _ => m) (fun _ => [])) w
      (fun g q o a b p => Solves2 nx ny (fun i j => sch g a i j (q (i + j * nx))) o b p) ∧
    Damped (mg2 M sch w nx ny na up bc order (fun _ _ => m) (fun _ => [])) w
      (fun g q o a b p => Solves2 nx ny (fun i j => sch g a i j (q (i + j * nx))) o b p) sig u m th := by
  have lin : ∀ g a i j, LinEq2 (sch g a i j) := fun g a i j => by
    obtain ⟨_, _, _, _, l2, l3, _⟩ := C27_schemes_linear ex (mu a) (eta a) 0 (dx i) (dy j) 0 (sig g (i + j * nx))
    rcases hsch g a i j with e | e
    · rw [e]; exact l2
    · rw [e]; exact l3
  refine ⟨C125_ok2 M hM sch lin w nx ny na up hN bc order hord _ _ hr hp,
    C131_2D M ex mu eta w dx dy sig m nx ny na hN up bc order sch (fun g a i j => Or.inr (hsch g a i j)) hmu heta hdx hdy
      hT.tot hm, fun _ _ => hw, hT.couple, hT.upos, hT.row, hT.th0, hT.less, fun g hg => ?_⟩
  refine positive2 (sch g) w nx ny na hx0 hy0 up (bc g) order _ _ _ _ (sig g) fun a ha i hi j hj => ?_
  have ht := hT.tot g hg (i + j * nx) (by rw [← hN]; exact WGReflect.cell2_lt hi hj)
  rcases hsch g a i j with e | e
  · rw [e]; exact gain_sd2 _ _ _ _ _ (hmu a ha) (heta a ha) (hdx i hi) (hdy j hj) ht
  · rw [e]; exact gain_sc2 ex hex _ _ _ _ _ (hmu a ha) (heta a ha) (hdx i hi) (hdy j hj) ht

/-- There is one set of fluxes, and the passes reach it from anywhere, with any number of inner iterations and any
    reflecting sides. -/
def Settles {F : Type} (P : Prob F K) (w : Nat → K)
    (Sol : Nat → (Nat → K) → Nat → Nat → (Nat → F) → (Nat → K) → Prop) : Prop :=
  ∃ phi, MGFlux P w Sol phi ∧
    (∀ phi', MGFlux P w Sol phi' → ∀ g < P.M.x.mat.G, ∀ c < P.M.x.N, phi' g c = phi g c) ∧
    ∀ R, Ready P R → ∀ ε > 0, ∃ k0, ∀ k ≥ k0, ∀ (tolI : K) (n : Nat), 0 < n → ∀ l : List Nat,
      (∀ g, g ∈ l ↔ g < P.M.x.mat.G) → ∀ g < P.M.x.mat.G, ∀ c < P.M.x.N,
        |((P.gsPass tolI n l)^[k] R).phi g c - phi g c| < ε

theorem settles [Archimedean K] {F : Type} {P : Prob F K} {w V : Nat → K} {sig : Nat → Nat → K} {u : Nat → K}
    {m th : K} {Sol : Nat → (Nat → K) → Nat → Nat → (Nat → F) → (Nat → K) → Prop}
    {fw : Nat → Nat → Nat → Nat → Nat → K} (z : F) (ok : OK P w Sol) (hD : Damped P w Sol sig u m th)
    (hw : ∀ g < P.M.x.mat.G, ∀ a < (P.W g).na, 0 < w a) (hV : ∀ c < P.M.x.N, 0 < V c)
    (hs : ∀ g < P.M.x.mat.G, ∀ c < P.M.x.N, 0 < sig g c) (D : AllDissipate P Sol V sig fw) : Settles P w Sol := by
  haveI : Nonempty F := ⟨z⟩
  obtain ⟨phi, hphi⟩ := C132_exists ok hD hw hV hs D ⟨fun _ _ _ => z, fun _ => 0, fun _ _ _ => 0⟩
  exact ⟨phi, hphi, fun phi' h' => C132_unique ok hD phi' phi h' hphi, fun R hR ε hε => C132_converges ok hD phi hphi R hR ε hε⟩

/-- 1-D, the schemes in any mixture. -/
theorem C132_settles_1D (M : MGSolve.Prob ℝ) (hM : M.OK) (mu w dx : Nat → ℝ) (sig : Nat → Nat → ℝ) (u : Nat → ℝ)
    (m th : ℝ) (hT : Tame M sig u th) (hN : 0 < M.x.N) (na : Nat) (up : Bool) (bc : Nat → Nat → BC ℝ) (order : List Nat)
    (hord : order.Perm (List.range 2)) (sch : Nat → Nat → Nat → ℝ → ℝ → ℝ × ℝ)
    (hsch : ∀ g a i, sch g a i = dd1 (mu a) (dx i) (sig g i) ∧ sig g i * dx i ≤ 2 * mu a ∨
      sch g a i = sd1 (mu a) (dx i) (sig g i) ∨ sch g a i = sc1 Real.exp (mu a) (dx i) (sig g i))
    (hmu : ∀ a < na, 0 < mu a) (hw : ∀ a < na, 0 < w a) (hm : m * ∑ _o ∈ range 2, ∑ a ∈ range na, w a = 1)
    (hdx : ∀ i < M.x.N, 0 < dx i) (hr : ∀ g s, bc g s = .reflect ↔ bc 0 s = .reflect)
    (hp : ∀ g, ∀ s < 2, bc g s ≠ .periodic) :
    Settles (mg1 M sch w M.x.N na up bc order (fun _ _ => m) (fun _ => [])) w
      (fun g q o a b p => Solves1 M.x.N (fun i => sch g a i (q i)) o b p) := by
  obtain ⟨ok, hD⟩ := C132_1D M hM Real.exp attenuates_exp mu w dx sig u m th hT hN na up bc order hord sch hsch hmu
    (fun a ha => (hw a ha).le) hm hdx hr hp
  refine settles (V := dx) (fw := fun _ _ a _ _ => mu a / 2) 0 ok hD (fun _ _ => hw) hdx hT.tot fun g hg =>
    dissipates1 (sch g) w M.x.N na up (bc g) order _ _ _ _ dx (sig g) (fun a => mu a / 2)
      (fun a ha => half_pos (hmu a ha)) ?_
  intro a ha i hi
  have h1 := hmu a ha
  have h2 := hdx i hi
  have h3 := hT.tot g hg i hi
  rcases hsch g a i with e | e | e
  · rw [e.1]; exact cell_dd1 _ _ _ h1 h2 h3
  · rw [e]; exact cell_sd1 _ _ _ h1 h2 h3
  · obtain ⟨k1, k2⟩ := exp_ok (sig g i * dx i / mu a) (by positivity)
    rw [e]; exact cell_sc1 Real.exp _ _ _ h1 h2 h3 k1 k2

/-- 2-D, the schemes in any mixture. -/
theorem C132_settles_2D (M : MGSolve.Prob ℝ) (hM : M.OK) (mu eta w dx dy : Nat → ℝ) (sig : Nat → Nat → ℝ) (u : Nat → ℝ)
    (m th : ℝ) (hT : Tame M sig u th) (nx ny na : Nat) (hx0 : 0 < nx) (hy0 : 0 < ny) (hN : nx * ny = M.x.N) (up : Bool)
    (bc : Nat → Nat → BC (Nat → ℝ)) (order : List Nat) (hord : order.Perm (List.range 4))
    (sch : Nat → Nat → Nat → Nat → ℝ → ℝ × ℝ → ℝ × (ℝ × ℝ))
    (hsch : ∀ g a i j, sch g a i j = sd2 (mu a) (eta a) (dx i) (dy j) (sig g (i + j * nx)) ∨
      sch g a i j = sc2 Real.exp (mu a) (eta a) (dx i) (dy j) (sig g (i + j * nx)))
    (hmu : ∀ a < na, 0 < mu a) (heta : ∀ a < na, 0 < eta a) (hw : ∀ a < na, 0 < w a)
    (hm : m * ∑ _o ∈ range 4, ∑ a ∈ range na, w a = 1) (hdx : ∀ i < nx, 0 < dx i) (hdy : ∀ j < ny, 0 < dy j)
    (hr : ∀ g s, bc g s = .reflect ↔ bc 0 s = .reflect) (hp : ∀ g, ∀ s < 4, bc g s ≠ .periodic) :
    Settles (mg2 M sch w nx ny na up bc order (fun _ _ => m) (fun _ => [])) w
      (fun g q o a b p => Solves2 nx ny (fun i j => sch g a i j (q (i + j * nx))) o b p) := by
  obtain ⟨ok, hD⟩ := C132_2D M hM Real.exp attenuates_exp mu eta w dx dy sig u m th hT nx ny na hx0 hy0 hN up bc order hord
    sch hsch hmu heta (fun a ha => (hw a ha).le) hm hdx hdy hr hp
  have vol : ∀ i j, i < nx → dx ((i + j * nx) % nx) * dy ((i + j * nx) / nx) = dx i * dy j := fun i j hi => by
    rw [Nat.add_mul_mod_self_right, Nat.mod_eq_of_lt hi, Nat.add_mul_div_right _ _ hx0,
      Nat.div_eq_of_lt hi, Nat.zero_add]
  refine settles (V := fun c => dx (c % nx) * dy (c / nx)) (fw := _) (fun _ => 0) ok hD (fun _ _ => hw) (fun c hc => ?_) hT.tot
    fun g hg => dissipates2 (sch g) w nx ny na up (bc g) order _ _ _ _ _ (sig g)
      (fun a j => mu a / 2 * dy j) (fun a i => eta a / 2 * dx i)
      (fun a ha j hj => mul_pos (half_pos (hmu a ha)) (hdy j hj))
      (fun a ha i hi => mul_pos (half_pos (heta a ha)) (hdx i hi)) ?_
  · have hc' : c < nx * ny := by rw [hN]; exact hc
    exact mul_pos (hdx _ (Nat.mod_lt _ hx0)) (hdy _ (Nat.div_lt_of_lt_mul hc'))
  · intro a ha i hi j hj
    rw [vol i j hi]
    have ht := hT.tot g hg (i + j * nx) (by rw [← hN]; exact WGReflect.cell2_lt hi hj)
    rcases hsch g a i j with e | e
    · rw [e]; exact cell_sd2 _ _ _ _ _ (hmu a ha) (heta a ha) (hdx i hi) (hdy j hj) ht
    · rw [e]; exact cell_sc2 _ _ _ _ _ (hmu a ha) (heta a ha) (hdx i hi) (hdy j hj) ht

end geom

/-! ## Cases -/

section cases
open Detran.Sweep (Solves1 Solves2 dd1 sd1 sc1 sd2 sc2)
open Detran.WGReflect (dd half zeros half_np gain_dd1 positive1)

theorem slabB_damped (bc : Nat → BC ℚ) : Damped (slabB bc 2 pair) (fun _ => 1 / 2) eqs (fun _ _ => 1) (fun _ => 1) 1 (1 / 2) where
  uniform := slabB_uniform bc 2 pair
  weight := fun _ _ _ _ => by norm_num
  couple := by
    have : ∀ g < 2, ∀ gp < 2, ∀ c < 1, 0 ≤ couple (toy 2 pair false 0 0) g gp c := by decide +kernel
    exact this
  upos := fun _ _ => one_pos
  row := by
    have : ∀ g < 2, ∀ c < 1, ∑ gp ∈ range 2, couple (toy 2 pair false 0 0) g gp c * 1 ≤ 1 / 2 * (1 * 1) := by decide +kernel
    exact this
  th0 := by norm_num
  less := by norm_num
  gain := fun g _ => positive1 dd _ 1 1 one_pos true bc [1, 0] _ _ _ _ (fun _ => 1) fun a _ i _ => by
    have e1 : dd a i = dd1 1 1 1 := funext fun q => funext fun e => Prod.ext (by unfold dd dd1; ring) (by unfold dd dd1; ring)
    rw [e1]
    exact gain_dd1 1 1 1 one_pos one_pos one_pos (by norm_num)

theorem pair_given (bc : Nat → BC ℚ) (hb : ∀ s ps, bc s ≠ .fixed ps) : Given (slabB bc 2 pair) where
  q := fun _ _ _ _ => zero_le_one
  sides := fun _ _ side _ ps h => absurd h (hb side ps)

/-- One side reflecting, any number of inner passes: there is one set of fluxes and the passes go there. -/
example : Settles (slabB half 2 pair) (fun _ => 1 / 2) eqs :=
  settles 0 (slabB_ok half half_np 2 pair pair_ok) (slabB_damped half) (fun _ _ _ _ => by norm_num) (fun _ _ => one_pos)
    (fun _ _ _ _ => one_pos) (slabB_dis half 2 pair)

/-- Both sides reflecting, three inner passes per group. -/
example : ∃ k0, ∀ k ≥ k0,
    |(((slabB (fun _ => .reflect) 2 pair).gsPass (1 / 10) 3 [0, 1])^[k] start).phi 0 0 - 20 / 11| < 1 / 1000000 := by
  have ok := slabB_ok (fun _ => .reflect) (fun _ _ => by simp) 2 pair pair_ok
  obtain ⟨k0, h⟩ := C132_converges ok (slabB_damped _) (fun g _ => pairV g) (C131_flat (slabB_uniform _ 2 pair) pairV
    (fun _ _ _ _ => Or.inl rfl) (pair_medium _)) start (start_ready _ (fun _ _ => by simp) _ _) (1 / 1000000) (by norm_num)
  exact ⟨k0, fun k hk => h k hk (1 / 10) 3 (by norm_num) [0, 1] (by
    intro g
    change g ∈ [0, 1] ↔ g < 2
    simp only [List.mem_cons, List.not_mem_nil, or_false]
    omega) 0 (by decide) 0 (by decide)⟩

/-- From nothing the passes rise towards the solution and stay below it. -/
example (k : Nat) : 0 ≤ (((slabB (fun _ => .reflect) 2 pair).gsPass (1 / 10) 3 [0, 1])^[k] start).phi 0 0 ∧
    (((slabB (fun _ => .reflect) 2 pair).gsPass (1 / 10) 3 [0, 1])^[k] start).phi 0 0 ≤ 
    (((slabB (fun _ => .reflect) 2 pair).gsPass (1 / 10) 3 [0, 1])^[k + 1] start).phi 0 0 ∧
    (((slabB (fun _ => .reflect) 2 pair).gsPass (1 / 10) 3 [0, 1])^[k] start).phi 0 0 ≤ 20 / 11 :=
  C132_iterates (slabB_ok (fun _ => .reflect) (fun _ _ => by simp) 2 pair pair_ok) (slabB_damped _)
    (pair_given _ fun _ _ => by simp) (fun g _ => pairV g) (C131_flat (slabB_uniform _ 2 pair) pairV
    (fun _ _ _ _ => Or.inl rfl) (pair_medium _)) start (start_ready _ (fun _ _ => by simp) _ _)
    ⟨fun _ _ _ _ => rfl, fun _ _ _ _ _ _ _ _ _ _ _ _ _ => rfl⟩ (1 / 10) 3 (by norm_num) [0, 1] (by
      intro g
      change g ∈ [0, 1] ↔ g < 2
      simp only [List.mem_cons, List.not_mem_nil, or_false]
      omega) k 0 (by decide) 0 (by decide)

/-- Whatever the tolerances and limits, a solve from nothing returns no more than the solution. -/
example (tolI tol : ℚ) (max : Nat) :
    ((slabB (fun _ => .reflect) 2 pair).gs 0 false false tolI 3 tol max start).1.phi 1 0 ≤ 16 / 11 :=
  (C132_returned (slabB_ok (fun _ => .reflect) (fun _ _ => by simp) 2 pair pair_ok) (slabB_damped _)
    (pair_given _ fun _ _ => by simp) (fun g _ => pairV g) (C131_flat (slabB_uniform _ 2 pair) pairV
    (fun _ _ _ _ => Or.inl rfl) (pair_medium _)) start (start_ready _ (fun _ _ => by simp) _ _)
    ⟨fun _ _ _ _ => rfl, fun _ _ _ _ _ _ _ _ _ _ _ _ _ => rfl⟩ 0 false false tolI 3 (by norm_num) tol max (by decide)
    (by decide) (by decide) 1 (by decide) 0 (by decide)).2

/-- Reflectors instead of vacuum: the flux of any problem between vacuum sides is no larger. -/
example (phi : Nat → Nat → ℚ) (h : MGFlux (slabB (fun _ => .vacuum) 2 pair) (fun _ => 1 / 2) eqs phi) :
    0 ≤ phi 0 0 ∧ phi 0 0 ≤ 20 / 11 ∧ phi 1 0 ≤ 16 / 11 := by
  have ok := slabB_ok (fun _ => .vacuum) (fun _ _ => by simp) 2 pair pair_ok
  have ok' := slabB_ok (fun _ => .reflect) (fun _ _ => by simp) 2 pair pair_ok
  obtain ⟨bd, psi, hs⟩ := solves_of_flux h
  obtain ⟨bd', psi', hs'⟩ := solves_of_flux (C131_flat (slabB_uniform (fun _ => .reflect) 2 pair) pairV
    (fun _ _ _ _ => Or.inl rfl) (pair_medium _))
  have := C132_more ok (slabB_damped _) ok' (slabB_damped _) ⟨rfl, rfl, fun g _ => ⟨_, _, _, _, _, rfl⟩,
    fun _ _ _ _ => le_rfl, fun _ _ _ _ _ _ => le_rfl, fun _ _ _ _ => trivial⟩ (pair_given _ fun _ _ => by simp) hs hs'
  exact ⟨(C132_positive_partial ok (slabB_damped _) (pair_given _ fun _ _ => by simp) hs 0 (by decide) 0 (by decide)).1,
    (this 0 (by decide) 0 (by decide)).1, (this 1 (by decide) 0 (by decide)).1⟩

/-- Full statement: if nothing negative is given, no flux of a well-posed slab problem with diamond differencing is
    negative. -/
def C132Claim : Prop := ∀ (M : MGSolve.Prob ℚ) (mu w dx : Nat → ℚ) (sig : Nat → Nat → ℚ) (u : Nat → ℚ) (m th : ℚ) (na : Nat)
  (up : Bool) (bc : Nat → Nat → BC ℚ) (order : List Nat), M.OK → Tame M sig u th → order.Perm (List.range 2) →
  (∀ a < na, 0 < mu a) → (∀ a < na, 0 < w a) → m * ∑ _o ∈ range 2, ∑ a ∈ range na, w a = 1 → (∀ i < M.x.N, 0 < dx i) →
  (∀ g s, bc g s = .reflect ↔ bc 0 s = .reflect) → (∀ g, ∀ s < 2, bc g s ≠ .periodic) →
  Given (mg1 M (fun g a i => dd1 (mu a) (dx i) (sig g i)) w M.x.N na up bc order (fun _ _ => m) (fun _ => [])) →
  ∀ phi, MGFlux (mg1 M (fun g a i => dd1 (mu a) (dx i) (sig g i)) w M.x.N na up bc order (fun _ _ => m) (fun _ => [])) w
    (fun g q o a b p => Solves1 M.x.N (fun i => dd1 (mu a) (dx i) (sig g i) (q i)) o b p) phi →
  ∀ g < M.x.mat.G, ∀ c < M.x.N, 0 ≤ phi g c

/-- One group that only absorbs, two cells, no source. -/
def thick : MGSolve.Prob ℚ :=
  { toy 1 [] false 0 0 with x := ⟨(toy 1 [] false 0 0).x.mat, 2, fun _ => 0, false⟩, q := fun _ _ => 0 }

theorem thick_ok : thick.OK where
  fin := by
    unfold thick toy Material.Src.ready
    simp only
    rw [Material.C22_finalize_idempotent]
  nn := fun _ _ _ => le_refl (0 : ℚ)
  map := fun _ _ => show 0 < 1 by decide
  add := fun g s t c => add_div _ _ _
  loc := fun g s t h c hc => by
    show s c / 2 = t c / 2
    rw [h c hc]

/-- A unit flux given on the left, vacuum on the right. -/
def lamp (_ s : Nat) : BC ℚ := if s = 0 then .fixed fun _ _ => 1 else .vacuum

theorem thick_tame : Tame thick (fun _ _ => 1) (fun _ => 1) (1 / 2) where
  tot := fun _ _ _ _ => one_pos
  couple := by
    have : ∀ g < 1, ∀ gp < 1, ∀ c < 2, 0 ≤ couple thick g gp c := by decide +kernel
    exact this
  upos := fun _ _ => one_pos
  row := by
    have : ∀ g < 1, ∀ c < 2, ∑ gp ∈ range 1, couple thick g gp c * 1 ≤ 1 / 2 * (1 * 1) := by decide +kernel
    exact this
  th0 := by norm_num
  less := by norm_num

theorem lamp_given (sch : Nat → Nat → Nat → ℚ → ℚ → ℚ × ℚ) (w : Nat → ℚ) :
    Given (mg1 thick sch w 2 1 true lamp [0, 1] (fun _ _ => 1) (fun _ => [])) where
  q := fun _ _ _ _ => le_refl (0 : ℚ)
  sides := by
    intro g hg side hs ps h io hio a ha i j hi
    change lamp g side = .fixed ps at h
    unfold lamp at h
    split at h
    · cases h
      exact zero_le_one
    · cases h

/-- An attenuation over the rationals. -/
theorem attenuates_frac : WGReflect.Attenuates fun x : ℚ => 1 / (1 - x + x ^ 2 / 2) := by
  have hd : ∀ t : ℚ, t > 0 → 0 < 1 - -t + (-t) ^ 2 / 2 := fun t ht => by rw [sub_neg_eq_add]; positivity
  refine ⟨fun t ht => (one_div_pos.2 (hd t ht)).le, fun t ht => ?_, fun t ht => ?_, fun t ht => ?_⟩
  · rw [div_lt_one (hd t ht)]
    have : 0 < t ^ 2 := by positivity
    linarith [neg_sq t]
  · rw [lt_div_iff₀ (hd t ht)]
    have h2 : 0 < t ^ 2 := by positivity
    have h3 : 0 < t ^ 3 := by positivity
    have e : (1 - t) * (1 - -t + (-t) ^ 2 / 2) = 1 - t ^ 2 / 2 - t ^ 3 / 2 := by ring
    linarith
  · rw [div_lt_iff₀ (hd t ht)]
    have h4 : 0 < t ^ 4 := by positivity
    have e : (1 - t + t ^ 2 / 2) * (1 - -t + (-t) ^ 2 / 2) = 1 + t ^ 4 / 4 := by ring
    linarith

/-- Step differencing in the same cells gives no negative flux. -/
example (phi : Nat → Nat → ℚ) (h : MGFlux (mg1 thick (fun _ _ _ => sd1 1 4 1) (fun _ => 1 / 2) 2 1 true lamp [0, 1] (fun _ _ => 1)
    (fun _ => [])) (fun _ => 1 / 2) (fun _ q o _ b p => Solves1 2 (fun i => sd1 1 4 1 (q i)) o b p) phi) : 0 ≤ phi 0 1 := by
  obtain ⟨ok, hD⟩ := C132_1D thick thick_ok _ attenuates_frac (fun _ => 1) (fun _ => 1 / 2) (fun _ => 4)
    (fun _ _ => 1) (fun _ => 1) 1 (1 / 2) thick_tame (by decide) 1 true lamp [0, 1] (by decide) (fun _ _ _ => sd1 1 4 1)
    (fun _ _ _ => Or.inr (Or.inl rfl)) (fun _ _ => one_pos) (fun _ _ => by norm_num) (by decide +kernel) (fun _ _ => by norm_num)
    (fun _ _ => Iff.rfl) (fun _ s _ => by unfold lamp; split <;> simp)
  obtain ⟨bd, psi, hs⟩ := solves_of_flux h
  exact (C132_positive_partial ok hD (lamp_given _ _) hs 0 (by decide) 1 (by decide)).1

/-- Diamond differencing with cells of four mean free paths: the flux of the second cell is `-1/18`. -/
theorem C132_claim_fails : ¬ C132Claim := by
  intro h
  obtain ⟨phi, hphi, _⟩ := C129_1D thick thick_ok (fun _ => 1) (fun _ => 1 / 2) (fun _ => 4) (fun _ _ => 1) (fun _ _ => 0)
    (fun _ => 1) 1 (1 / 2) ⟨fun _ _ _ _ => one_pos, fun _ _ _ _ => le_rfl, by
      have : ∀ g < 1, ∀ gp < 1, ∀ c < 2, couple thick g gp c ^ 2 ≤ 0 ^ 2 * (1 * 1) := by decide +kernel
      exact this, fun _ _ => one_pos, fun _ _ => by simp, by norm_num, by norm_num⟩ 1 true lamp [0, 1] (by decide)
    (fun _ _ _ => dd1 1 4 1) (fun _ _ _ => Or.inl rfl) (fun _ _ => one_pos) (fun _ _ => by norm_num) (by decide +kernel)
    (fun _ _ => by norm_num) (fun _ _ => Iff.rfl) (fun _ s _ => by unfold lamp; split <;> simp)
  have hneg := h thick (fun _ => 1) (fun _ => 1 / 2) (fun _ => 4) (fun _ _ => 1) (fun _ => 1) 1 (1 / 2) 1 true lamp [0, 1]
    thick_ok thick_tame (by decide) (fun _ _ => one_pos) (fun _ _ => by norm_num) (by decide +kernel) (fun _ _ => by norm_num)
    (fun _ _ => Iff.rfl) (fun _ s _ => by unfold lamp; split <;> simp) (lamp_given _ _) phi hphi 0 (by decide) 1 (by decide)
  obtain ⟨bd, psi, hS⟩ := hphi 0 (by decide)
  have hsrc : ∀ o a c, (mg1 thick (fun _ _ _ => dd1 1 4 1) (fun _ => (1 : ℚ) / 2) 2 1 true lamp [0, 1] (fun _ _ => 1)
      (fun _ => [])).src phi 0 o a c = 0 := by
    intro o a c
    change thick.source phi 0 c * 1 + ([] : List ℚ).sum = 0
    rw [source_couple]
    have hc : couple thick 0 0 c = 0 := by
      have : couple thick 0 0 c = couple thick 0 0 0 := rfl
      rw [this]
      decide +kernel
    have hG : thick.x.mat.G = 1 := rfl
    rw [hG, sum_range_succ, sum_range_zero, hc]
    simp [thick]
  have hS : Solution (WGReflect.prob1 (fun _ _ => dd1 1 4 1) (fun _ => 1 / 2) 2 1 true (lamp 0) [0, 1] (fun _ _ => 0) (fun _ => 0)
    (fun _ _ => 1) []) (fun _ => 1 / 2) (fun q o _ b p => Solves1 2 (fun i => dd1 1 4 1 (q i)) o b p)
    ((mg1 thick (fun _ _ _ => dd1 1 4 1) (fun _ => (1 : ℚ) / 2) 2 1 true lamp [0, 1] (fun _ _ => 1) (fun _ => [])).src phi 0)
    (phi 0) (fun _ => 0) (fun _ => 0) bd psi := hS
  obtain ⟨V, v1, v2, v3⟩ := hS.cells 0 (by decide) 0 (by decide)
  obtain ⟨U, u1, u2, u3⟩ := hS.cells 1 (by decide) 0 (by decide)
  have e1 : bd 1 1 0 = 0 := hS.vacuum 1 (by decide) rfl 1 (by decide) (by decide) 0 (by decide) 0 0
    (by unfold InFace; decide)
  have e2 : bd 0 0 0 = 1 := hS.given 0 (by decide) (fun _ _ => 1) rfl 0 (by decide) 0 (by decide) 0 (by decide) 0 0
    (by unfold InFace; decide)
  have e3 : phi 0 1 + 0 = ∑ o ∈ range 2, ∑ a ∈ range 1, 1 / 2 * psi o a 1 := hS.flux 1 (by decide)
  have h1 : dd1 1 4 1 _ (V 0) = (psi 0 0 0, V 1) := v3 0 (by decide)
  have h2 : dd1 1 4 1 _ (V 1) = (psi 0 0 1, V 2) := v3 1 (by decide)
  have h3 : dd1 1 4 1 _ (U 0) = (psi 1 0 1, U 1) := u3 0 (by decide)
  rw [hsrc] at h1 h2 h3
  have v1' : V 0 = bd 0 0 0 := v1
  have u1' : U 0 = bd 1 1 0 := u1
  rw [v1', e2] at h1
  rw [u1', e1] at h3
  have p1 : V 1 = -1 / 3 := by rw [← (Prod.mk.inj h1).2]; norm_num [dd1]
  rw [p1] at h2
  have p2 : psi 0 0 1 = -1 / 9 := by rw [← (Prod.mk.inj h2).1]; norm_num [dd1]
  have p3 : psi 1 0 1 = 0 := by rw [← (Prod.mk.inj h3).1]; norm_num [dd1]
  simp only [sum_range_succ, sum_range_zero, p2, p3] at e3
  linarith

/-- Two by two cells, all sides reflecting, both schemes. -/
example : OK (mg2 (pairN 4) (fun _ _ i _ => if i = 0 then sd2 1 2 1 1 1 else sc2 (fun x : ℚ => 1 / (1 - x + x ^ 2 / 2)) 1 2 2 1 1)
      (fun _ => (1 : ℚ) / 4) 2 2 1 true (fun _ _ => .reflect) [0, 1, 2, 3] (fun _ _ => 1) (fun _ => [])) (fun _ => 1 / 4)
      (fun _ q o _ b p => Solves2 2 2 (fun i j => (if i = 0 then sd2 1 2 1 1 1 else
        sc2 (fun x : ℚ => 1 / (1 - x + x ^ 2 / 2)) 1 2 2 1 1) (q (i + j * 2))) o b p) ∧
    Damped (mg2 (pairN 4) (fun _ _ i _ => if i = 0 then sd2 1 2 1 1 1 else sc2 (fun x : ℚ => 1 / (1 - x + x ^ 2 / 2)) 1 2 2 1 1)
      (fun _ => (1 : ℚ) / 4) 2 2 1 true (fun _ _ => .reflect) [0, 1, 2, 3] (fun _ _ => 1) (fun _ => [])) (fun _ => 1 / 4)
      (fun _ q o _ b p => Solves2 2 2 (fun i j => (if i = 0 then sd2 1 2 1 1 1 else
        sc2 (fun x : ℚ => 1 / (1 - x + x ^ 2 / 2)) 1 2 2 1 1) (q (i + j * 2))) o b p) (fun _ _ => 1) (fun _ => 1) 1 (1 / 2) :=
  C132_2D (pairN 4) (pairN_ok 4) _ attenuates_frac (fun _ => 1) (fun _ => 2) (fun _ => 1 / 4) (fun i => if i = 0 then 1 else 2)
    (fun _ => 1) (fun _ _ => 1) (fun _ => 1) 1 (1 / 2)
    ⟨fun _ _ _ _ => one_pos, by
      have : ∀ g < 2, ∀ gp < 2, ∀ c < 4, 0 ≤ couple (pairN 4) g gp c := by decide +kernel
      exact this, fun _ _ => one_pos, by
      have : ∀ g < 2, ∀ c < 4, ∑ gp ∈ range 2, couple (pairN 4) g gp c * 1 ≤ 1 / 2 * (1 * 1) := by decide +kernel
      exact this, by norm_num, by norm_num⟩ 2 2 1 (by norm_num) (by norm_num) rfl true _
    [0, 1, 2, 3] (by decide) _ (fun _ _ i _ => by by_cases hi : i = 0 <;> simp [hi]) (fun _ _ => one_pos) (fun _ _ => by norm_num)
    (fun _ _ => by norm_num) (by decide +kernel) (fun i _ => by split_ifs <;> norm_num) (fun _ _ => one_pos)
    (fun _ _ => Iff.rfl) (fun _ _ _ => by simp)

/-- One absorbing group over the reals. -/
noncomputable def bare (N : Nat) : MGSolve.Prob ℝ where
  x := ⟨(Material.Mat.new 1 1).finalize, N, fun _ => 0, false⟩
  q := fun _ _ => 1
  implicit := false
  scale := 1
  T := fun _ s c => s c / 2
  disc := fun _ _ => 0
  bnd := fun _ _ => 0

theorem bare_ok (N : Nat) : (bare N).OK where
  fin := by
    unfold bare Material.Src.ready
    simp only
    rw [Material.C22_finalize_idempotent]
  nn := fun _ _ _ => le_refl (0 : ℝ)
  map := fun _ _ => show 0 < 1 by decide
  add := fun g s t c => add_div _ _ _
  loc := fun g s t h c hc => by
    show s c / 2 = t c / 2
    rw [h c hc]

theorem bare_tame (N : Nat) : Tame (bare N) (fun _ _ => 1) (fun _ => 1) (1 / 2) := by
  have h : ∀ g gp c, couple (bare N) g gp c = 0 := fun g gp c => by
    simp [couple, bare, Material.xs, Material.Mat.new, Material.Mat.finalize]
  refine ⟨fun _ _ _ _ => one_pos, fun g _ gp _ c _ => (h g gp c).ge, fun _ _ => one_pos, fun g _ c _ => ?_, by norm_num, by norm_num⟩
  rw [sum_eq_zero fun gp _ => by rw [h, zero_mul]]
  norm_num

/-- Step characteristics and thin diamond cells in one slab, a reflecting and an open side. -/
example : Settles (mg1 (bare 2) (fun _ _ i => if i = 0 then sc1 Real.exp 1 3 1 else dd1 1 2 1) (fun _ => (1 : ℝ) / 2) 2 1 true
    (fun _ s => if s = 0 then .reflect else .vacuum) [0, 1] (fun _ _ => 1) (fun _ => [])) (fun _ => 1 / 2)
    (fun _ q o _ b p => Solves1 2 (fun i => (if i = 0 then sc1 Real.exp 1 3 (1 : ℝ) else dd1 1 2 1) (q i)) o b p) :=
  C132_settles_1D (bare 2) (bare_ok 2) (fun _ => 1) (fun _ => 1 / 2) (fun i => if i = 0 then 3 else 2) (fun _ _ => 1) (fun _ => 1)
    1 (1 / 2) (bare_tame 2) (by show 0 < 2; decide) 1 true _ [0, 1] (by decide) _
    (fun g a i => by by_cases hi : i = 0 <;> simp [hi]) (fun _ _ => one_pos) (fun _ _ => by norm_num)
    (by simp) (fun i _ => by split_ifs <;> norm_num) (fun _ _ => Iff.rfl) (fun _ s _ => by split_ifs <;> simp)

/-- Two by one cells, step characteristics, all sides reflecting. -/
example : Settles (mg2 (bare 2) (fun _ _ _ _ => sc2 Real.exp 1 2 1 1 1) (fun _ => (1 : ℝ) / 4) 2 1 1 true
    (fun _ _ => .reflect) [0, 1, 2, 3] (fun _ _ => 1) (fun _ => [])) (fun _ => 1 / 4)
    (fun _ q o _ b p => Solves2 2 1 (fun i j => sc2 Real.exp 1 2 1 1 (1 : ℝ) (q (i + j * 2))) o b p) :=
  C132_settles_2D (bare 2) (bare_ok 2) (fun _ => 1) (fun _ => 2) (fun _ => 1 / 4) (fun _ => 1) (fun _ => 1) (fun _ _ => 1)
    (fun _ => 1) 1 (1 / 2) (bare_tame 2) 2 1 1 (by norm_num) (by norm_num) rfl true _ [0, 1, 2, 3] (by decide) _
    (fun _ _ _ _ => Or.inr rfl) (fun _ _ => one_pos) (fun _ _ => by norm_num) (fun _ _ => by norm_num)
    (by norm_num [sum_range_succ]) (fun _ _ => one_pos) (fun _ _ => one_pos) (fun _ _ => Iff.rfl) (fun _ _ _ => by simp)

end cases
end Detran.MGReflect
