import Verif.Props.Kernel
import Verif.Props.GaussSeidel

/-!
# When the linear system of coupled groups has exactly one solution (C151)
-/

namespace Detran.MGReflect

open Detran.Sweep
open Detran.Boundary (Bd BC Loc Enters Mirror faceCells)
open Detran.WGReflect (Sweeps Dissipates Silent NoneSilent InFace slot_cover slot_spec mem_locs refl_iff outDot inDot)
open Detran.MGSolve
open Finset

/-! ## Specification -/

section spec
variable {F K : Type} [Field K] [LinearOrder K]

/-- Whatever the right-hand side, the operator the multigroup Krylov solver is given (`MGTransportOperator::multiply`, for
    the groups from the cut-off `k` on) takes exactly one vector of cell fluxes and reflected fluxes of these groups to it,
    whatever the fluxes of the other groups and whatever earlier sweeps have left behind. -/
def UniquelySolvable (P : Prob F K) (k : Nat) : Prop :=
  ∀ (S : Nat → St F K) (y : Nat → K), ∃ x, ∀ (phi : Nat → Nat → K) (S' : Nat → St F K),
    let n := opSize P.M.x.mat.G P.M.x.adjoint k P.M.x.N P.bs
    (∀ p < n, (P.multiply k phi S' x).2 p = y p) ∧
    ∀ x', (∀ p < n, (P.multiply k phi S' x').2 p = y p) → ∀ p < n, x' p = x p

end spec

section main
variable {F K : Type} [Field K] [LinearOrder K] [IsStrictOrderedRing K]
variable {P : Prob F K} {w V : Nat → K} {sig r : Nat → Nat → K} {u : Nat → K} {m rho : K} {k : Nat}
  {fw : Nat → Nat → Nat → Nat → Nat → K}
  {Sol : Nat → (Nat → K) → Nat → Nat → (Nat → F) → (Nat → K) → Prop}

/-- What the groups of the block scatter into a group. -/
theorem block_couple (ok : OK P w Sol) (hc : P.Cut k) (hb : P.M.NoBackward k)
    (himp : P.M.implicit = false ∨ ∀ g < P.M.x.mat.G, g ∈ P.groups k) (f : Nat → Nat → K) {g : Nat} (hg : g ∈ P.groups k)
    {c : Nat} (hcN : c < P.M.x.N) : P.M.totalScatter f g k c =
      ∑ gp ∈ range P.M.x.mat.G, couple P.M g gp c * if gp ∈ P.groups k then f gp c else 0 := by
  let f0 : Nat → Nat → K := fun gp c => if gp ∈ P.groups k then f gp c else 0
  have hgm := (mem_groups hc g).1 hg
  have out : ∀ gp, (if P.M.x.adjoint then k < gp else gp < k) → gp ∉ P.groups k := by
    intro gp hgp hm
    have := ((mem_groups hc gp).1 hm).2
    revert this hgp
    cases P.M.x.adjoint <;> simp <;> omega
  have e1 : P.M.totalScatter f g k c = P.M.totalScatter f0 g k c :=
    total_local ok hc _ _ g hg c hcN (fun gp hgp => (if_pos hgp).symm) (himp.imp id fun h gp hgp => (if_pos (h gp hgp)).symm)
  have e2 := block_source P.M ok.src f0 (fun _ _ => 0) k g hgm.1 hgm.2 hb
    (fun gp hgp => by funext c'; exact (if_neg (out gp hgp)).symm) c hcN
  have e3 := block_source P.M ok.src (fun _ _ => 0) (fun _ _ => 0) k g hgm.1 hgm.2 hb (fun _ _ => rfl) c hcN
  have e4 := total_lin P.M 0 0 (fun _ _ => 0) (fun _ _ => 0) g k c hcN
  have e5 : (fun (_ _ : Nat) => (0 : K) * 0 + 0 * 0) = fun _ _ => 0 := by funext _ _; ring
  rw [e5, zero_mul, zero_add] at e4
  have e6 := source_diff P.M f0 (fun _ _ => 0) g c
  rw [← e2, ← e3, e4, add_zero, add_sub_cancel_left] at e6
  rw [e1, e6]
  exact sum_congr rfl fun gp _ => by simp only [f0, sub_zero]

/-- A group with its sources off. -/
def bareProb (Q : WGReflect.Prob F K) : WGReflect.Prob F K := { Q with scat := fun _ _ => 0, disc := [] }

omit [LinearOrder K] [IsStrictOrderedRing K] in
theorem bareProb_sweeps {Q : WGReflect.Prob F K} {S1 : (Nat → K) → Nat → Nat → (Nat → F) → (Nat → K) → Prop}
    (h : Sweeps Q w S1) : Sweeps (bareProb Q) w S1 :=
  ⟨h.d1, h.d3, h.order, h.face, h.other, h.inc, h.solves, h.lin, h.det⟩

theorem bareProb_subcritical (ok : OK P w Sol) (hC : Coupled P w V sig r u m rho) {g : Nat} (hg : g < P.M.x.mat.G) :
    WGReflect.Subcritical (bareProb (P.W g)) w V (sig g) (fun _ => 0) m 0 where
  weight := hC.weight g hg
  mtod := hC.mtod g hg
  norm := hC.norm g hg
  vol := fun c hcN => hC.vol c ((ok.cells g) ▸ hcN)
  tot := fun c hcN => hC.tot g hg c ((ok.cells g) ▸ hcN)
  scat := fun f c _ => (zero_mul (f c)).symm
  ratio := fun c _ => by rw [abs_zero, zero_mul]
  nonneg := le_refl _
  less := one_pos
  disc := rfl
  np := ok.np g hg

/-- The block operator takes a vector to zero exactly if none of its groups has a flux in the cells, and each has at the
    reflecting sides fluxes that go with none in the cells. -/
theorem C151_kernel (ok : OK P w Sol) (hC : Coupled P w V sig r u m rho) (D : AllDissipate P Sol V sig fw) (hc : P.Cut k)
    (hb : P.M.NoBackward k) (himp : P.M.implicit = false ∨ ∀ g < P.M.x.mat.G, g ∈ P.groups k) (phi : Nat → Nat → K)
    (S : Nat → St F K) (x : Nat → K) :
    (∀ p < opSize P.M.x.mat.G P.M.x.adjoint k P.M.x.N P.bs, (P.multiply k phi S x).2 p = 0) ↔
      ∀ g ∈ P.groups k, (∀ c < P.M.x.N, P.view k x g c = 0) ∧ ∃ pt, Silent (P.W g) (Sol g) pt ∧
        ∀ side < 2 * (P.W g).dim, (P.W g).bc side = .reflect → ∀ o < 2 ^ (P.W g).dim, Enters side o → ∀ a < (P.W g).na,
          ∀ i j, InFace (P.W g) side i j →
            P.view k x g ((P.W g).slot ⟨side, o, a, i, j⟩) = (P.W g).get (pt side o a) i j := by
  set f := P.fluxes k phi x with hf
  have views : (∀ p < opSize P.M.x.mat.G P.M.x.adjoint k P.M.x.N P.bs, (P.multiply k phi S x).2 p = 0) ↔
      ∀ g ∈ P.groups k, ∀ i < P.M.x.N + P.bs, ((P.opGroup k f g).multiply (S g) (P.view k x g)).2 i = 0 := by
    constructor
    · intro h g hg i hi
      rw [← (multiply_view ok hc phi S x g hg).2 i hi, view_inside hc _ (fun _ => 0) h g hg i hi, view_zero]
    · intro h
      refine view_cover hc _ (fun _ => 0) fun g hg i hi => ?_
      rw [(multiply_view ok hc phi S x g hg).2 i hi, view_zero]
      exact h g hg i hi
  -- without fluxes in the cells the groups are swept without source
  have still : (∀ g ∈ P.groups k, ∀ c < P.M.x.N, P.view k x g c = 0) → ∀ g ∈ P.groups k, ∀ i < P.M.x.N + P.bs,
      ((P.opGroup k f g).multiply (S g) (P.view k x g)).2 i = ((bareProb (P.W g)).multiply (S g) (P.view k x g)).2 i := by
    intro h0 g hg i hi
    have hgG := ((mem_groups hc g).1 hg).1
    have hN : (P.W g).off.N = P.M.x.N := ok.cells g
    have hB : (P.W g).off.bsize = P.bs := ok.bsize g
    have key := WGReflect.linear_core (WGReflect.sweeps_off (ok.sw g hgG)) (ok.np g hgG) rfl 1 0 (P.view k x g) (P.view k x g)
      (P.view k x g) (fun i _ => by ring) (fun _ => 0) (fun _ => 0) (P.M.totalScatter f g k) (fun c hcN => by
        rw [hN] at hcN
        rw [block_couple ok hc hb himp f hg hcN, mul_zero, mul_zero, add_zero]
        refine sum_eq_zero fun gp _ => ?_
        split
        · next hgp => rw [hf, fluxes_in phi x gp hgp c hcN, h0 gp hgp c hcN, mul_zero]
        · rw [mul_zero]) (S g) (S g) (S g) i (by rwa [hN, hB])
    rw [one_mul, zero_mul, add_zero] at key
    exact key
  have kern : ∀ g ∈ P.groups k, _ := fun g hg => WGReflect.C150_kernel (bareProb_sweeps (ok.sw g ((mem_groups hc g).1 hg).1))
    (bareProb_subcritical ok hC ((mem_groups hc g).1 hg).1)
    (fw := fw g) ⟨(D g ((mem_groups hc g).1 hg).1).pos, (D g ((mem_groups hc g).1 hg).1).energy⟩ (S g) (P.view k x g)
  have len : ∀ g, (bareProb (P.W g)).N + (bareProb (P.W g)).bsize = P.M.x.N + P.bs := fun g => by
    rw [show (bareProb (P.W g)).N = P.M.x.N from ok.cells g, show (bareProb (P.W g)).bsize = P.bs from ok.bsize g]
  rw [views]
  constructor
  · intro hz
    -- the energies of the groups vanish
    have small : ∀ g < P.M.x.mat.G, gErr P V sig g (fun c => if g ∈ P.groups k then f g c else 0) (fun _ => 0) ≤ 0 := by
      refine own_zero hC _ (fun g hg => gErr_nonneg hC hg _ _) fun E hE g hgG => ?_
      by_cases hg : g ∈ P.groups k
      · have hs := WGReflect.sweeps_off (ok.sw g hgG)
        have hN : (P.W g).off.N = P.M.x.N := ok.cells g
        have hB : (P.W g).off.bsize = P.bs := ok.bsize g
        obtain ⟨s1, ⟨s0, e1⟩, m1, m2, m3⟩ := WGReflect.multiply_spec_by hs (ok.np g hgG) (P.M.totalScatter f g k) (S g)
          (P.view k x g)
        obtain ⟨psi, c1, f1⟩ := hs.solves false ((P.W g).off.source (fun _ => 0) (P.M.totalScatter f g k)) s0
        rw [← e1] at c1 f1
        have hx : ∀ c < P.M.x.N, f g c = ∑ o ∈ range (2 ^ (P.W g).dim), ∑ a ∈ range (P.W g).na, w a * psi o a c := by
          intro c hcN
          rw [hf, fluxes_in phi x g hg c hcN]
          exact (sub_eq_zero.1 ((m1 c (by rw [hN]; exact hcN)).symm.trans (hz g hg c (by omega)))).trans
            (f1 c (by rw [hN]; exact hcN))
        have cells : ∀ o < 2 ^ (P.W g).dim, ∀ a < (P.W g).na, Sol g (fun c => P.M.totalScatter f g k c * m) o a
            (fun t => s1.bdy t o a) (psi o a) := fun o ho a ha =>
          sol_congr (ok.sw g hgG) ho (c1 o ho a ha) fun c hcN => by
            simp only [WGReflect.Prob.source, sweepSource, WGReflect.Prob.off, List.foldl_nil, hC.mtod g hgG o ho a ha,
              zero_add]
        have en := WGReflect.flux_energy (P := P.W g) (w := w) (V := V) (sig := sig g) (m := m) (fw := fw g) (Sol := Sol g)
          (hC.weight g hgG) (hC.norm g hgG) (fun c hcN => hC.vol c (by rwa [ok.cells g] at hcN))
          (fun c hcN => hC.tot g hgG c (by rwa [ok.cells g] at hcN)) (D g hgG) (P.M.totalScatter f g k) (f g) s1.bdy psi cells
          (fun c hcN => hx c (by rwa [ok.cells g] at hcN))
        have io := in_le_out (ok.sw g hgG) (D g hgG) (hC.weight g hgG) s1.bdy
          (fun side hs' hb' o ho he a ha i j hi => by
            have := m2 side hs' o ho he a ha i j hi
            rw [if_neg (fun h' => hb' ((refl_iff (P := (P.W g).off) side).1 h'))] at this
            exact this)
          (fun side hs' hb' o ho he a ha i j hi => by
            have h := ok.sw g hgG
            have hl := (mem_locs hs side o a i j).2 ⟨hs', hb', ho, he, ha, hi⟩
            have h2 := m2 side hs' o ho he a ha i j hi
            rw [if_pos ((refl_iff (P := (P.W g).off) side).2 hb')] at h2
            have h3 := m3 side hs' hb' o ho he _ (WGReflect.mir_facts (P.W g).dim h.d1 h.d3 side hs' o ho).2.1 a ha i j hi
            have hlt := (slot_spec hs _ hl).2.1
            rw [hN, hB] at hlt
            exact h2.trans (sub_eq_zero.1 (h3.symm.trans (hz g hg _ hlt))))
        have mp := hC.mpos hgG
        rw [ok.cells g] at en
        have en' : ∑ c ∈ range P.M.x.N, V c * sig g c * f g c ^ 2 ≤ ∑ c ∈ range P.M.x.N, V c * P.M.totalScatter f g k c * f g c :=
          le_of_mul_le_mul_left (by linarith) mp
        have cb := couple_bound hC hgG (fun gp c => if gp ∈ P.groups k then f gp c else 0) (f g) E (fun gp hgp => by
          have := hE gp hgp
          unfold gErr at this
          simp only [sub_zero] at this
          exact this)
        have e2 : ∑ c ∈ range P.M.x.N, V c * P.M.totalScatter f g k c * f g c = ∑ c ∈ range P.M.x.N, V c *
            (∑ gp ∈ range P.M.x.mat.G, couple P.M g gp c * if gp ∈ P.groups k then f gp c else 0) * f g c :=
          sum_congr rfl fun c hcN => by rw [block_couple ok hc hb himp f hg (mem_range.1 hcN)]
        have e3 : gErr P V sig g (fun c => if g ∈ P.groups k then f g c else 0) (fun _ => 0) =
            ∑ c ∈ range P.M.x.N, V c * sig g c * f g c ^ 2 := by
          unfold gErr
          simp only [if_pos hg, sub_zero]
        rw [e3]
        rw [e2] at en'
        linarith
      · have e0 : gErr P V sig g (fun c => if g ∈ P.groups k then f g c else 0) (fun _ => 0) = 0 := by
          unfold gErr
          exact sum_eq_zero fun c _ => by simp only [if_neg hg]; ring
        have := hE g hgG
        rw [e0] at this ⊢
        rw [mul_assoc]
        exact mul_nonneg (sq_nonneg _) this
    have zero : ∀ g ∈ P.groups k, ∀ c < P.M.x.N, P.view k x g c = 0 := by
      intro g hg c hcN
      have := gErr_zero hC ((mem_groups hc g).1 hg).1 _ _ (small g ((mem_groups hc g).1 hg).1) c hcN
      rwa [if_pos hg, hf, fluxes_in phi x g hg c hcN] at this
    intro g hg
    refine ⟨zero g hg, ?_⟩
    obtain ⟨_, pt, hpt, hx⟩ := (kern g hg).1 fun i hi => by
      rw [len] at hi
      rw [← still zero g hg i hi]
      exact hz g hg i hi
    exact ⟨pt, ⟨hpt.cells, hpt.none, hpt.mirror⟩, hx⟩
  · intro h g hg i hi
    rw [still (fun g hg => (h g hg).1) g hg i hi]
    obtain ⟨z0, pt, hpt, hx⟩ := h g hg
    exact (kern g hg).2 ⟨fun c hcN => z0 c ((ok.cells g) ▸ hcN), pt, ⟨hpt.cells, hpt.none, hpt.mirror⟩, hx⟩ i (by rwa [len])

/-- The product does not depend on the other groups nor on what earlier sweeps have left. -/
theorem op_same (ok : OK P w Sol) (hc : P.Cut k) (hb : P.M.NoBackward k)
    (himp : P.M.implicit = false ∨ ∀ g < P.M.x.mat.G, g ∈ P.groups k) (phi phi' : Nat → Nat → K) (S S' : Nat → St F K)
    (x : Nat → K) : ∀ p < opSize P.M.x.mat.G P.M.x.adjoint k P.M.x.N P.bs,
      (P.multiply k phi S x).2 p = (P.multiply k phi' S' x).2 p := by
  refine view_cover hc _ _ fun g hg i hi => ?_
  have hgG := ((mem_groups hc g).1 hg).1
  have hN : (P.W g).off.N = P.M.x.N := ok.cells g
  have hB : (P.W g).off.bsize = P.bs := ok.bsize g
  rw [(multiply_view ok hc phi S x g hg).2 i hi, (multiply_view ok hc phi' S' x g hg).2 i hi]
  have key := WGReflect.linear_core (WGReflect.sweeps_off (ok.sw g hgG)) (ok.np g hgG) rfl 1 0 (P.view k x g) (P.view k x g)
    (P.view k x g) (fun i _ => by ring) (P.M.totalScatter (P.fluxes k phi' x) g k) (fun _ => 0)
    (P.M.totalScatter (P.fluxes k phi x) g k) (fun c hcN => by
      rw [hN] at hcN
      rw [block_couple ok hc hb himp _ hg hcN, block_couple ok hc hb himp _ hg hcN, one_mul, zero_mul, add_zero]
      refine sum_congr rfl fun gp _ => ?_
      split
      · next hgp => rw [fluxes_in phi x gp hgp c hcN, fluxes_in phi' x gp hgp c hcN]
      · rfl) (S' g) (S' g) (S g) i (by rwa [hN, hB])
  rw [one_mul, zero_mul, add_zero] at key
  exact key

/-- Groups coupled less than they collide, none of which has fluxes at the sides without fluxes in the cells, give the
    solver a system with exactly one solution. -/
theorem C151_solvable (ok : OK P w Sol) (hC : Coupled P w V sig r u m rho) (D : AllDissipate P Sol V sig fw) (hc : P.Cut k)
    (hb : P.M.NoBackward k) (himp : P.M.implicit = false ∨ ∀ g < P.M.x.mat.G, g ∈ P.groups k)
    (hn : ∀ g ∈ P.groups k, NoneSilent (P.W g) (Sol g)) : UniquelySolvable P k := by
  let n := opSize P.M.x.mat.G P.M.x.adjoint k P.M.x.N P.bs
  have ker : ∀ phi S x, (∀ p < n, (P.multiply k phi S x).2 p = 0) → ∀ p < n, x p = 0 := by
    intro phi S x hx
    have h := (C151_kernel ok hC D hc hb himp phi S x).1 hx
    refine view_cover hc x (fun _ => 0) fun g hg i hi => ?_
    obtain ⟨z0, pt, hpt, hp⟩ := h g hg
    have hs := ok.sw g ((mem_groups hc g).1 hg).1
    rw [view_zero]
    by_cases hcN : i < P.M.x.N
    · exact z0 i hcN
    · obtain ⟨⟨side, o, a, i', j⟩, hl, rfl⟩ := slot_cover hs i (by rw [ok.cells g]; omega)
        (by rw [ok.cells g, ok.bsize g]; exact hi)
      obtain ⟨hs', hr, ho, he, ha, hf⟩ := (mem_locs hs side o a i' j).1 hl
      rw [hp side hs' hr o ho he a ha i' j hf, hn g hg pt hpt side hs' o ho a ha i' j hf]
  intro S y
  let ex : (Fin n → K) → Nat → K := fun v i => if hi : i < n then v ⟨i, hi⟩ else 0
  have hex : ∀ v i (hi : i < n), ex v i = v ⟨i, hi⟩ := fun v i hi => dif_pos hi
  let z : Nat → Nat → K := fun _ _ => 0
  have lin := fun α β x y t ht => C125_operator_linear ok hc himp z α β x y t ht S S S
  let L : (Fin n → K) →ₗ[K] (Fin n → K) := {
    toFun := fun v i => (P.multiply k z S (ex v)).2 i
    map_add' := fun v t => by
      funext i
      have := lin 1 1 (ex v) (ex t) (ex (v + t)) (fun i hi => by
        rw [hex _ i hi, hex _ i hi, hex _ i hi, Pi.add_apply]; ring) i i.2
      rw [one_mul, one_mul] at this
      exact this
    map_smul' := fun t v => by
      funext i
      have := lin t 0 (ex v) (ex v) (ex (t • v)) (fun i hi => by
        rw [hex _ i hi, hex _ i hi, Pi.smul_apply, smul_eq_mul]; ring) i i.2
      rw [zero_mul, add_zero] at this
      exact this }
  have inj : Function.Injective L := by
    refine (injective_iff_map_eq_zero L).2 fun v hv => ?_
    funext i
    have := ker z S (ex v) (fun i hi => congrFun hv ⟨i, hi⟩) i i.2
    rwa [hex _ _ i.2] at this
  obtain ⟨v, hv⟩ := LinearMap.injective_iff_surjective.1 inj (fun i => y i)
  have at0 : ∀ p < n, (P.multiply k z S (ex v)).2 p = y p := fun p hp => congrFun hv ⟨p, hp⟩
  refine ⟨ex v, fun phi S' => ⟨fun p hp => (op_same ok hc hb himp phi z S' S _ p hp).trans (at0 p hp), fun x' hx' p hp => ?_⟩⟩
  have hd := ker z S (fun i => x' i - ex v i) (fun p hp => by
    rw [lin 1 (-1) x' (ex v) _ (fun i _ => by ring) p hp, op_same ok hc hb himp z phi S S' x' p hp, hx' p hp, at0 p hp]
    ring) p hp
  exact sub_eq_zero.1 hd

/-- With fluxes at a reflecting side of a group that go with none in its cells, the system has several solutions or none. -/
theorem C151_singular (ok : OK P w Sol) (hC : Coupled P w V sig r u m rho) (D : AllDissipate P Sol V sig fw) (hc : P.Cut k)
    (hb : P.M.NoBackward k) (himp : P.M.implicit = false ∨ ∀ g < P.M.x.mat.G, g ∈ P.groups k) {g : Nat} (hg : g ∈ P.groups k)
    {pt : Bd F} (hpt : Silent (P.W g) (Sol g) pt) {side o a i j : Nat} (hs : side < 2 * (P.W g).dim)
    (hr : (P.W g).bc side = .reflect) (ho : o < 2 ^ (P.W g).dim) (he : Enters side o) (ha : a < (P.W g).na)
    (hi : InFace (P.W g) side i j) (hne : (P.W g).get (pt side o a) i j ≠ 0) : ¬ UniquelySolvable P k := by
  intro hu
  have sw := ok.sw g ((mem_groups hc g).1 hg).1
  -- the vector of the pattern
  let v : Nat → K := fun i => if i < (P.W g).N then 0 else
    match (P.W g).locs[i - (P.W g).N]? with
    | some l => (P.W g).flat pt l
    | none => 0
  have hv : ∀ l ∈ (P.W g).locs, v ((P.W g).slot l) = (P.W g).flat pt l := by
    intro l hl
    have : ¬ (P.W g).slot l < (P.W g).N := by have := (slot_spec sw l hl).1; omega
    simp only [v, if_neg this]
    unfold WGReflect.Prob.slot
    rw [Nat.add_sub_cancel_left, List.getElem?_idxOf hl]
  let x := P.put k true (fun _ => 0) g v
  let s : St F K := ⟨fun _ _ _ => (P.W g).face fun _ _ => 0, fun _ => 0, fun _ _ _ => 0⟩
  have nothing : ∀ g' ∈ P.groups k, ∃ pt, Silent (P.W g') (Sol g') pt ∧ ∀ side < 2 * (P.W g').dim, ∀ o a i j,
      InFace (P.W g') side i j → (P.W g').get (pt side o a) i j = 0 := by
    intro g' hg'
    have h := ok.sw g' ((mem_groups hc g').1 hg').1
    obtain ⟨psi, c1, _⟩ := h.solves false (fun _ _ _ => 0) s
    exact ⟨fun _ _ _ => (P.W g').face fun _ _ => 0,
      ⟨fun o ho a ha => ⟨fun _ => 0, fun _ _ => rfl, h.lin 0 0 _ _ _ o a _ _ _ _ _ _ ho (c1 o ho a ha) (c1 o ho a ha)
        (fun c _ => by ring) (fun c => by ring) (fun side hs i j hi => by rw [h.face side hs _ i j hi]; ring)⟩,
        fun side hs _ o _ _ a _ i j hi => h.face side hs _ i j hi, fun side hs _ o _ _ o' _ a _ i j hi => rfl⟩,
      fun side hs o a i j hi => h.face side hs _ i j hi⟩
  obtain ⟨x0, hx0⟩ := hu (fun _ => s) fun _ => 0
  have h0 := (hx0 (fun _ _ => 0) fun _ => s).2 (fun _ => 0) ((C151_kernel ok hC D hc hb himp _ _ _).2 fun g' hg' => by
    obtain ⟨pt', h1, h2⟩ := nothing g' hg'
    exact ⟨fun c _ => view_zero g' c, pt', h1, fun side hs _ o _ _ a _ i j hi => by rw [view_zero, h2 side hs o a i j hi]⟩)
  have h1 := (hx0 (fun _ _ => 0) fun _ => s).2 x ((C151_kernel ok hC D hc hb himp _ _ _).2 fun g' hg' => by
    have sw' := ok.sw g' ((mem_groups hc g').1 hg').1
    by_cases e : g' = g
    · subst e
      refine ⟨fun c hcN => ?_, pt, hpt, fun side hs hr o ho he a ha i j hi => ?_⟩
      · rw [put_view hc true _ v g' hg' c (by omega), if_pos (.inl hcN)]
        exact if_pos (by rw [ok.cells g']; exact hcN)
      · have hl := (mem_locs sw side o a i j).2 ⟨hs, hr, ho, he, ha, hi⟩
        have hlt := (slot_spec sw _ hl).2.1
        rw [ok.cells g', ok.bsize g'] at hlt
        rw [put_view hc true _ v g' hg' _ hlt, if_pos (.inr rfl)]
        exact hv _ hl
    · obtain ⟨pt', h1, h2⟩ := nothing g' hg'
      refine ⟨fun c hcN => ?_, pt', h1, fun side hs hr o ho he a ha i j hi => ?_⟩
      · rw [put_other hc true _ v g g' hg hg' e c (by omega), view_zero]
      · have hl := (mem_locs sw' side o a i j).2 ⟨hs, hr, ho, he, ha, hi⟩
        have hlt := (slot_spec sw' _ hl).2.1
        rw [ok.cells g', ok.bsize g'] at hlt
        rw [put_other hc true _ v g g' hg hg' e _ hlt, view_zero, h2 side hs o a i j hi])
  have hl := (mem_locs sw side o a i j).2 ⟨hs, hr, ho, he, ha, hi⟩
  have hlt := (slot_spec sw _ hl).2.1
  rw [ok.cells g, ok.bsize g] at hlt
  have h2 : P.view k x g ((P.W g).slot ⟨side, o, a, i, j⟩) = 0 := by
    rw [view_inside hc x (fun _ => 0) (fun p hp => (h1 p hp).trans (h0 p hp).symm) g hg _ hlt, view_zero]
  rw [put_view hc true _ v g hg _ hlt, if_pos (.inr rfl), hv _ hl] at h2
  exact hne h2

end main

/-! ## Slabs, rectangles and boxes -/

section geom
open Detran.WGReflect (prob1 prob2 prob3 Plane Brick planeSol brickSol brickSch brickProb shut shut_or shut_reflect solved_silent
  solved_nothing plane_silent Solved sweeps1 sweeps2 sweeps3 dissipates1 dissipates2 cell_dd1 cell_sd1 cell_sc1 cell_dd2 cell_sd2
  cell_sc2 exp_ok Cell1 Cell2 cell2_lt face2 face3 alternating_ne)
variable {K : Type} [Field K] [LinearOrder K] [IsStrictOrderedRing K]

/-- What is asked of the cut-off: it makes sense for the mode, the groups from it on feed none before it, and fission is left
    to the outer iteration or all groups are solved together. -/
structure Block {F : Type} (P : Prob F K) (k : Nat) : Prop where
  cut : P.Cut k
  back : P.M.NoBackward k
  imp : P.M.implicit = false ∨ ∀ g < P.M.x.mat.G, g ∈ P.groups k

/-- In slabs the system of coupled groups always has exactly one solution. -/
theorem C151_1D (M : MGSolve.Prob K) (hM : M.OK) (mu w dx : Nat → K) (sig r : Nat → Nat → K) (u : Nat → K)
    (m rho : K) (hW : Weak M sig r u rho) (na : Nat) (up : Bool) (bc : Nat → Nat → BC K) (order : List Nat)
    (hord : order.Perm (List.range 2)) (sch : Nat → Nat → Nat → K → K → K × K)
    (hsch : ∀ g a i, sch g a i = dd1 (mu a) (dx i) (sig g i) ∨ sch g a i = sd1 (mu a) (dx i) (sig g i))
    (hmu : ∀ a < na, 0 < mu a) (hw : ∀ a < na, 0 < w a) (hm : m * ∑ _o ∈ range 2, ∑ a ∈ range na, w a = 1)
    (hdx : ∀ i < M.x.N, 0 < dx i) (hr : ∀ g s, bc g s = .reflect ↔ bc 0 s = .reflect)
    (hp : ∀ g, ∀ s < 2, bc g s ≠ .periodic) (hn : 0 < M.x.N) {k : Nat}
    (hB : Block (mg1 M sch w M.x.N na up bc order (fun _ _ => m) (fun _ => [])) k) :
    UniquelySolvable (mg1 M sch w M.x.N na up bc order (fun _ _ => m) (fun _ => [])) k := by
  have lin : ∀ g a i, LinEq1 (sch g a i) := fun g a i => by
    obtain ⟨l1, l2, _⟩ := C27_schemes_linear (fun x : K => x) (mu a) 0 0 (dx i) 0 0 (sig g i)
    rcases hsch g a i with e | e <;> rw [e] <;> assumption
  refine C151_solvable (C125_ok1 M hM sch lin w na up bc order hord _ _ hr hp) (V := dx) (sig := sig) (r := r) (u := u) (m := m)
    (rho := rho) (fw := fun _ _ a _ _ => mu a / 2)
    ⟨fun _ _ => hw, fun _ _ _ _ _ _ => rfl, fun _ _ => hm, fun _ _ => rfl, hdx, hW.tot, hW.rnn, hW.ratio, hW.upos,
      hW.row, hW.rpos, hW.less⟩ (fun g hg => dissipates1 (sch g) w M.x.N na up (bc g) order _ _ _ _ dx (sig g)
        (fun a => mu a / 2) (fun a ha => half_pos (hmu a ha)) fun a ha i hi => ?_) hB.cut hB.back hB.imp fun g hg pt hpt => ?_
  · rcases hsch g a i with e | e
    · rw [e]; exact cell_dd1 _ _ _ (hmu a ha) (hdx i hi) (hW.tot g hg i hi)
    · rw [e]; exact cell_sd1 _ _ _ (hmu a ha) (hdx i hi) (hW.tot g hg i hi)
  · have hgG := ((mem_groups hB.cut g).1 hg).1
    exact WGReflect.slab_none w (fun _ => 0) (fun _ => 0) m M.x.N na up (bc g) order hord (sch g) (lin g)
      (fun k1 k2 => WGReflect.C149_1D mu w dx (sig g) (fun _ => 0) _ m 0 M.x.N na up (shut (bc g)) order hord (sch g) (hsch g)
        hmu hw hm hdx (hW.tot g hgG) (fun _ _ => by rw [abs_zero, zero_mul]) le_rfl one_pos
        (fun s _ => by rcases shut_or (bc g) s with e | e <;> rw [e] <;> simp) hn k1 k2) pt ⟨hpt.cells, hpt.none, hpt.mirror⟩

/-- The same with step characteristics. -/
theorem C151_1D_sc (M : MGSolve.Prob ℝ) (hM : M.OK) (mu w dx : Nat → ℝ) (sig r : Nat → Nat → ℝ) (u : Nat → ℝ)
    (m rho : ℝ) (hW : Weak M sig r u rho) (na : Nat) (up : Bool) (bc : Nat → Nat → BC ℝ) (order : List Nat)
    (hord : order.Perm (List.range 2))
    (hmu : ∀ a < na, 0 < mu a) (hw : ∀ a < na, 0 < w a) (hm : m * ∑ _o ∈ range 2, ∑ a ∈ range na, w a = 1)
    (hdx : ∀ i < M.x.N, 0 < dx i) (hr : ∀ g s, bc g s = .reflect ↔ bc 0 s = .reflect)
    (hp : ∀ g, ∀ s < 2, bc g s ≠ .periodic) (hn : 0 < M.x.N) {k : Nat}
    (hB : Block (mg1 M (fun g a i => sc1 Real.exp (mu a) (dx i) (sig g i)) w M.x.N na up bc order (fun _ _ => m) (fun _ => [])) k) :
    UniquelySolvable
      (mg1 M (fun g a i => sc1 Real.exp (mu a) (dx i) (sig g i)) w M.x.N na up bc order (fun _ _ => m) (fun _ => [])) k := by
  have lin : ∀ g a i, LinEq1 (sc1 Real.exp (mu a) (dx i) (sig g i)) := fun g a i =>
    (C27_schemes_linear Real.exp (mu a) 0 0 (dx i) 0 0 (sig g i)).2.2.1
  refine C151_solvable (C125_ok1 M hM _ lin w na up bc order hord _ _ hr hp) (V := dx) (sig := sig) (r := r) (u := u) (m := m)
    (rho := rho) (fw := fun _ _ a _ _ => mu a / 2)
    ⟨fun _ _ => hw, fun _ _ _ _ _ _ => rfl, fun _ _ => hm, fun _ _ => rfl, hdx, hW.tot, hW.rnn, hW.ratio, hW.upos,
      hW.row, hW.rpos, hW.less⟩ (fun g hg => dissipates1 _ w M.x.N na up (bc g) order _ _ _ _ dx (sig g)
        (fun a => mu a / 2) (fun a ha => half_pos (hmu a ha)) fun a ha i hi => ?_) hB.cut hB.back hB.imp fun g hg pt hpt => ?_
  · have c1 := hmu a ha
    have c2 := hdx i hi
    have c3 := hW.tot g hg i hi
    obtain ⟨k1, k2⟩ := exp_ok (sig g i * dx i / mu a) (by positivity)
    exact cell_sc1 Real.exp _ _ _ c1 c2 c3 k1 k2
  · have hgG := ((mem_groups hB.cut g).1 hg).1
    exact WGReflect.slab_none w (fun _ => 0) (fun _ => 0) m M.x.N na up (bc g) order hord _ (lin g)
      (fun k1 k2 => WGReflect.C149_1D_sc mu w dx (sig g) (fun _ => 0) _ m 0 M.x.N na up (shut (bc g)) order hord
        hmu hw hm hdx (hW.tot g hgG) (fun _ _ => by rw [abs_zero, zero_mul]) le_rfl one_pos
        (fun s _ => by rcases shut_or (bc g) s with e | e <;> rw [e] <;> simp) hn k1 k2) pt ⟨hpt.cells, hpt.none, hpt.mirror⟩

/-- Data of coupled groups on a rectangle. -/
structure Planes (M : MGSolve.Prob K) (mu eta w dx dy : Nat → K) (sig r : Nat → Nat → K) (u : Nat → K) (m rho : K)
    (nx ny na : Nat) (bc : Nat → Nat → BC (Nat → K)) : Prop where
  data : M.OK
  weak : Weak M sig r u rho
  cells : nx * ny = M.x.N
  hmu : ∀ a < na, 0 < mu a
  heta : ∀ a < na, 0 < eta a
  weight : ∀ a < na, 0 < w a
  norm : m * ∑ _o ∈ range 4, ∑ a ∈ range na, w a = 1
  hdx : ∀ i < nx, 0 < dx i
  hdy : ∀ j < ny, 0 < dy j
  same : ∀ g s, bc g s = .reflect ↔ bc 0 s = .reflect
  np : ∀ g, ∀ s < 4, bc g s ≠ .periodic
  hx : 0 < nx
  hy : 0 < ny

theorem Planes.group {M : MGSolve.Prob K} {mu eta w dx dy : Nat → K} {sig r : Nat → Nat → K} {u : Nat → K} {m rho : K}
    {nx ny na : Nat} {bc : Nat → Nat → BC (Nat → K)} (hP : Planes M mu eta w dx dy sig r u m rho nx ny na bc) {g : Nat}
    (hg : g < M.x.mat.G) : Plane mu eta w dx dy (sig g) (fun _ => 0) m 0 nx ny na (bc g) where
  hmu := hP.hmu
  heta := hP.heta
  weight := hP.weight
  norm := hP.norm
  hdx := hP.hdx
  hdy := hP.hdy
  hsig := fun c hc => hP.weak.tot g hg c (hP.cells ▸ hc)
  scat := fun _ _ => by rw [abs_zero, zero_mul]
  nonneg := le_rfl
  less := one_pos
  np := hP.np g
  hx := hP.hx
  hy := hP.hy

/-- Coupled groups on a rectangle. -/
abbrev planesProb (M : MGSolve.Prob K) (sch : Nat → Nat → Nat → Nat → K → K × K → K × (K × K)) (w : Nat → K) (m : K)
    (nx ny na : Nat) (up : Bool) (bc : Nat → Nat → BC (Nat → K)) (order : List Nat) : Prob (Nat → K) K :=
  mg2 M sch w nx ny na up bc order (fun _ _ => m) (fun _ => [])

theorem planes_facts {M : MGSolve.Prob K} {mu eta w dx dy : Nat → K} {sig r : Nat → Nat → K} {u : Nat → K} {m rho : K}
    {nx ny na : Nat} {bc : Nat → Nat → BC (Nat → K)} (hP : Planes M mu eta w dx dy sig r u m rho nx ny na bc) (up : Bool)
    (order : List Nat) (hord : order.Perm (List.range 4)) (sch : Nat → Nat → Nat → Nat → K → K × K → K × (K × K))
    (lin : ∀ g a i j, LinEq2 (sch g a i j))
    (cell : ∀ g a i j, 0 < mu a → 0 < eta a → 0 < dx i → 0 < dy j → 0 < sig g (i + j * nx) →
      Cell2 (mu a / 2 * dy j) (eta a / 2 * dx i) (dx i * dy j) (sig g (i + j * nx)) (sch g a i j)) :
    OK (planesProb M sch w m nx ny na up bc order) w (fun g => planeSol (sch g) nx ny) ∧
    ∃ V fw, Coupled (planesProb M sch w m nx ny na up bc order) w V sig r u m rho ∧
      AllDissipate (planesProb M sch w m nx ny na up bc order) (fun g => planeSol (sch g) nx ny) V sig fw := by
  have vol : ∀ i j, i < nx → dx ((i + j * nx) % nx) * dy ((i + j * nx) / nx) = dx i * dy j := fun i j hi => by
    rw [Nat.add_mul_mod_self_right, Nat.mod_eq_of_lt hi, Nat.add_mul_div_right _ _ (by omega : 0 < nx),
      Nat.div_eq_of_lt hi, Nat.zero_add]
  refine ⟨C125_ok2 M hP.data sch lin w nx ny na up hP.cells bc order hord _ _ hP.same hP.np,
    fun c => dx (c % nx) * dy (c / nx), _,
    ⟨fun _ _ => hP.weight, fun _ _ _ _ _ _ => rfl, fun _ _ => hP.norm, fun _ _ => rfl, fun c hc => ?_, hP.weak.tot, hP.weak.rnn,
      hP.weak.ratio, hP.weak.upos, hP.weak.row, hP.weak.rpos, hP.weak.less⟩,
    fun g hg => dissipates2 (sch g) w nx ny na up (bc g) order _ _ _ _ _ (sig g)
        (fun a j => mu a / 2 * dy j) (fun a i => eta a / 2 * dx i)
        (fun a ha j hj => mul_pos (half_pos (hP.hmu a ha)) (hP.hdy j hj))
        (fun a ha i hi => mul_pos (half_pos (hP.heta a ha)) (hP.hdx i hi)) fun a ha i hi j hj => ?_⟩
  · have hc' : c < nx * ny := by rw [hP.cells]; exact hc
    exact mul_pos (hP.hdx _ (Nat.mod_lt _ hP.hx)) (hP.hdy _ (Nat.div_lt_of_lt_mul hc'))
  · rw [vol i j hi]
    exact cell g a i j (hP.hmu a ha) (hP.heta a ha) (hP.hdx i hi) (hP.hdy j hj) (hP.weak.tot g hg _ (hP.cells ▸ cell2_lt hi hj))

theorem planes_solvable {M : MGSolve.Prob K} {mu eta w dx dy : Nat → K} {sig r : Nat → Nat → K} {u : Nat → K} {m rho : K}
    {nx ny na : Nat} {bc : Nat → Nat → BC (Nat → K)} (hP : Planes M mu eta w dx dy sig r u m rho nx ny na bc) (up : Bool)
    (order : List Nat) (hord : order.Perm (List.range 4)) (sch : Nat → Nat → Nat → Nat → K → K × K → K × (K × K))
    (lin : ∀ g a i j, LinEq2 (sch g a i j))
    (cell : ∀ g a i j, 0 < mu a → 0 < eta a → 0 < dx i → 0 < dy j → 0 < sig g (i + j * nx) →
      Cell2 (mu a / 2 * dy j) (eta a / 2 * dx i) (dx i * dy j) (sig g (i + j * nx)) (sch g a i j))
    (det : ∀ g < M.x.mat.G, ∀ {phi phi' : Nat → K} {bd bd' : Bd (Nat → K)} {psi psi' : Nat → Nat → Nat → K},
      Solved (WGReflect.planeProb (sch g) w (fun _ => 0) (fun _ => 0) m nx ny na up (shut (bc g)) order) w
        (planeSol (sch g) nx ny) phi bd psi →
      Solved (WGReflect.planeProb (sch g) w (fun _ => 0) (fun _ => 0) m nx ny na up (shut (bc g)) order) w
        (planeSol (sch g) nx ny) phi' bd' psi' →
      ∀ side < 4, ∀ o < 4, ∀ a < na, ∀ k < (if side < 2 then ny else nx), bd side o a k = bd' side o a k) {k : Nat}
    (hB : Block (planesProb M sch w m nx ny na up bc order) k) :
    UniquelySolvable (planesProb M sch w m nx ny na up bc order) k := by
  obtain ⟨ok, V, fw, hC, D⟩ := planes_facts hP up order hord sch lin cell
  refine C151_solvable ok hC D hB.cut hB.back hB.imp fun g hg pt hpt side hs o ho a ha i j hi => ?_
  obtain ⟨⟨psi, k1⟩, psi', k2⟩ := plane_silent w (fun _ => 0) (fun _ => 0) m nx ny na up (bc g) order hord (sch g) (lin g)
    (pt := pt) ⟨hpt.cells, hpt.none, hpt.mirror⟩
  exact det g ((mem_groups hB.cut g).1 hg).1 k1 k2 side hs o ho a ha i ((face2 nx ny side i j hs).1 hi).1

/-- Step differencing on rectangles gives coupled groups a system with exactly one solution. -/
theorem C151_2D_step {M : MGSolve.Prob K} {mu eta w dx dy : Nat → K} {sig r : Nat → Nat → K} {u : Nat → K} {m rho : K}
    {nx ny na : Nat} {bc : Nat → Nat → BC (Nat → K)} (hP : Planes M mu eta w dx dy sig r u m rho nx ny na bc) (up : Bool)
    (order : List Nat) (hord : order.Perm (List.range 4)) {k : Nat} :
    let P := planesProb M (fun g a i j => sd2 (mu a) (eta a) (dx i) (dy j) (sig g (i + j * nx))) w m nx ny na up bc order
    Block P k → UniquelySolvable P k :=
  planes_solvable hP up order hord _
    (fun g a i j => (C27_schemes_linear (fun x : K => x) (mu a) (eta a) 0 (dx i) (dy j) 0 _).2.2.2.2.1)
    (fun g a i j c1 c2 c3 c4 c5 => cell_sd2 _ _ _ _ _ c1 c2 c3 c4 c5)
    (fun g hg _ _ _ _ _ _ k1 k2 => WGReflect.C149_2D_step (hP.group hg).shut _ up order hord _ (fun _ _ _ => rfl) k1 k2)

/-- So do step characteristics. -/
theorem C151_2D_sc {M : MGSolve.Prob ℝ} {mu eta w dx dy : Nat → ℝ} {sig r : Nat → Nat → ℝ} {u : Nat → ℝ} {m rho : ℝ}
    {nx ny na : Nat} {bc : Nat → Nat → BC (Nat → ℝ)} (hP : Planes M mu eta w dx dy sig r u m rho nx ny na bc) (up : Bool)
    (order : List Nat) (hord : order.Perm (List.range 4)) {k : Nat} :
    let P := planesProb M (fun g a i j => sc2 Real.exp (mu a) (eta a) (dx i) (dy j) (sig g (i + j * nx))) w m nx ny na up bc order
    Block P k → UniquelySolvable P k :=
  planes_solvable hP up order hord _
    (fun g a i j => (C27_schemes_linear Real.exp (mu a) (eta a) 0 (dx i) (dy j) 0 _).2.2.2.2.2.1)
    (fun g a i j c1 c2 c3 c4 c5 => cell_sc2 _ _ _ _ _ c1 c2 c3 c4 c5)
    (fun g hg _ _ _ _ _ _ k1 k2 => WGReflect.C149_2D_sc (hP.group hg).shut _ up order hord _ (fun _ _ _ => rfl) k1 k2)

/-- Diamond differencing does if some side does not reflect. -/
theorem C151_2D_partial {M : MGSolve.Prob K} {mu eta w dx dy : Nat → K} {sig r : Nat → Nat → K} {u : Nat → K} {m rho : K}
    {nx ny na : Nat} {bc : Nat → Nat → BC (Nat → K)} (hP : Planes M mu eta w dx dy sig r u m rho nx ny na bc)
    (hopen : ∃ side < 4, bc 0 side ≠ .reflect) (up : Bool) (order : List Nat) (hord : order.Perm (List.range 4)) {k : Nat} :
    let P := planesProb M (fun g a i j => dd2 (mu a) (eta a) (dx i) (dy j) (sig g (i + j * nx))) w m nx ny na up bc order
    Block P k → UniquelySolvable P k := by
  obtain ⟨t, ht, hb⟩ := hopen
  exact planes_solvable hP up order hord _
    (fun g a i j => (C27_schemes_linear (fun x : K => x) (mu a) (eta a) 0 (dx i) (dy j) 0 _).2.2.2.1)
    (fun g a i j c1 c2 c3 c4 c5 => cell_dd2 _ _ _ _ _ c1 c2 c3 c4 c5)
    (fun g hg _ _ _ _ _ _ k1 k2 => WGReflect.C149_2D_partial (hP.group hg).shut
      ⟨t, ht, fun h => hb ((hP.same g t).1 ((shut_reflect (bc g) t).1 h))⟩ _ up order hord _ (fun _ _ _ => rfl) k1 k2)

/-- Between four mirrors, with at least one angle and one group in the block, it does not. -/
theorem C151_four_mirrors {M : MGSolve.Prob K} {mu eta w dx dy : Nat → K} {sig r : Nat → Nat → K} {u : Nat → K} {m rho : K}
    {nx ny na : Nat} {bc : Nat → Nat → BC (Nat → K)} (hP : Planes M mu eta w dx dy sig r u m rho nx ny na bc)
    (hr : ∀ side < 4, bc 0 side = .reflect) (hna : 0 < na) (up : Bool) (order : List Nat) (hord : order.Perm (List.range 4))
    {k g : Nat} :
    let P := planesProb M (fun g a i j => dd2 (mu a) (eta a) (dx i) (dy j) (sig g (i + j * nx))) w m nx ny na up bc order
    Block P k → g ∈ P.groups k → ¬ UniquelySolvable P k := by
  intro P hB hg
  obtain ⟨ok, V, fw, hC, D⟩ := planes_facts hP up order hord
    (fun g a i j => dd2 (mu a) (eta a) (dx i) (dy j) (sig g (i + j * nx)))
    (fun g a i j => (C27_schemes_linear (fun x : K => x) (mu a) (eta a) 0 (dx i) (dy j) 0 _).2.2.2.1)
    (fun g a i j c1 c2 c3 c4 c5 => cell_dd2 _ _ _ _ _ c1 c2 c3 c4 c5)
  have hr' : ∀ side < 4, bc g side = .reflect := fun side hs => (hP.same g side).2 (hr side hs)
  refine C151_singular ok hC D hB.cut hB.back hB.imp hg
    (WGReflect.C149_silent mu eta w dx dy (sig g) (fun _ => 0) (fun _ _ => 0) (fun _ _ => m) [] nx ny na up (bc g) order hord hr'
      fun _ => 1)
    (side := 0) (o := 0) (a := 0) (i := 0) (j := 0) (by change 0 < 4; omega) (hr' 0 (by omega)) (by change 0 < 4; omega)
    (by decide) hna ((face2 nx ny 0 0 0 (by omega)).2 ⟨hP.hy, rfl⟩) ?_
  change 1 * WGReflect.alternating (mu 0) (eta 0) dx dy nx ny 0 0 0 ≠ 0
  rw [one_mul]
  exact alternating_ne (hP.hmu 0 hna) (hP.heta 0 hna) hP.hdx hP.hdy (by omega) hP.hy

/-- Data of coupled groups in a box. -/
structure Bricks (M : MGSolve.Prob K) (mu eta xi w dx dy dz : Nat → K) (sig r : Nat → Nat → K) (u : Nat → K) (m rho : K)
    (nx ny nz na : Nat) (bc : Nat → Nat → BC (Nat → Nat → K)) : Prop where
  data : M.OK
  weak : Weak M sig r u rho
  cells : nx * ny * nz = M.x.N
  hmu : ∀ a < na, 0 < mu a
  heta : ∀ a < na, 0 < eta a
  hxi : ∀ a < na, 0 < xi a
  weight : ∀ a < na, 0 < w a
  norm : m * ∑ _o ∈ range 8, ∑ a ∈ range na, w a = 1
  hdx : ∀ i < nx, 0 < dx i
  hdy : ∀ j < ny, 0 < dy j
  hdz : ∀ k < nz, 0 < dz k
  same : ∀ g s, bc g s = .reflect ↔ bc 0 s = .reflect
  np : ∀ g, ∀ s < 6, bc g s ≠ .periodic
  fit : nx ≤ 2 ^ 32
  hx : 0 < nx
  hy : 0 < ny
  hz : 0 < nz

theorem Bricks.group {M : MGSolve.Prob K} {mu eta xi w dx dy dz : Nat → K} {sig r : Nat → Nat → K} {u : Nat → K} {m rho : K}
    {nx ny nz na : Nat} {bc : Nat → Nat → BC (Nat → Nat → K)} (hP : Bricks M mu eta xi w dx dy dz sig r u m rho nx ny nz na bc)
    {g : Nat} (hg : g < M.x.mat.G) : Brick mu eta xi w dx dy dz (sig g) (fun _ => 0) m 0 nx ny nz na (bc g) where
  hmu := hP.hmu
  heta := hP.heta
  hxi := hP.hxi
  weight := hP.weight
  norm := hP.norm
  hdx := hP.hdx
  hdy := hP.hdy
  hdz := hP.hdz
  hsig := fun c hc => hP.weak.tot g hg c (hP.cells ▸ hc)
  scat := fun _ _ => by rw [abs_zero, zero_mul]
  nonneg := le_rfl
  less := one_pos
  np := hP.np g
  fit := hP.fit
  hx := hP.hx
  hy := hP.hy
  hz := hP.hz

/-- Coupled groups in a box, with diamond differencing. -/
abbrev bricksProb (M : MGSolve.Prob K) (mu eta xi w dx dy dz : Nat → K) (sig : Nat → Nat → K) (m : K)
    (nx ny nz na : Nat) (up : Bool) (bc : Nat → Nat → BC (Nat → Nat → K)) (order : List Nat) : Prob (Nat → Nat → K) K :=
  mg3 M (fun g => brickSch mu eta xi dx dy dz (sig g) nx ny) w nx ny nz na up bc order (fun _ _ => m) (fun _ => [])

theorem bricks_facts {M : MGSolve.Prob K} {mu eta xi w dx dy dz : Nat → K} {sig r : Nat → Nat → K} {u : Nat → K} {m rho : K}
    {nx ny nz na : Nat} {bc : Nat → Nat → BC (Nat → Nat → K)} (hP : Bricks M mu eta xi w dx dy dz sig r u m rho nx ny nz na bc)
    (up : Bool) (order : List Nat) (hord : order.Perm (List.range 8)) :
    OK (bricksProb M mu eta xi w dx dy dz sig m nx ny nz na up bc order) w
      (fun g => brickSol (brickSch mu eta xi dx dy dz (sig g) nx ny) nx ny nz) ∧
    ∃ V fw, Coupled (bricksProb M mu eta xi w dx dy dz sig m nx ny nz na up bc order) w V sig r u m rho ∧
      AllDissipate (bricksProb M mu eta xi w dx dy dz sig m nx ny nz na up bc order)
        (fun g => brickSol (brickSch mu eta xi dx dy dz (sig g) nx ny) nx ny nz) V sig fw := by
  have e3 : ∀ k, k * nx * ny = k * (nx * ny) := fun k => Nat.mul_assoc _ _ _
  let V : Nat → K := fun c => dx (c % (nx * ny) % nx) * dy (c % (nx * ny) / nx) * dz (c / (nx * ny))
  have vol : ∀ i j k, i < nx → j < ny → V (i + j * nx + k * nx * ny) = dx i * dy j * dz k := fun i j k hi hj => by
    simp only [V]
    have hc := cell2_lt hi hj
    rw [e3, Nat.add_mul_mod_self_right, Nat.mod_eq_of_lt hc, Nat.add_mul_div_right _ _ (by omega : 0 < nx * ny),
      Nat.div_eq_of_lt hc, Nat.zero_add, Nat.add_mul_mod_self_right, Nat.mod_eq_of_lt hi,
      Nat.add_mul_div_right _ _ (by omega : 0 < nx), Nat.div_eq_of_lt hi, Nat.zero_add]
  have hn2 : 0 < nx * ny := Nat.mul_pos hP.hx hP.hy
  refine ⟨C125_ok3 M hP.data (fun g => brickSch mu eta xi dx dy dz (sig g) nx ny) (fun g a i j k =>
      (C27_schemes_linear (fun x : K => x) (mu a) (eta a) (xi a) (dx i) (dy j) (dz k) _).2.2.2.2.2.2) w nx ny nz na up hP.fit
      hP.cells bc order hord _ _ hP.same hP.np, V, _,
    ⟨fun _ _ => hP.weight, fun _ _ _ _ _ _ => rfl, fun _ _ => hP.norm, fun _ _ => rfl, fun c hc => ?_, hP.weak.tot, hP.weak.rnn,
      hP.weak.ratio, hP.weak.upos, hP.weak.row, hP.weak.rpos, hP.weak.less⟩,
    fun g hg => WGReflect.dissipates3 (brickSch mu eta xi dx dy dz (sig g) nx ny) w nx ny nz na up (bc g) order _ _ _ _ V (sig g)
        (fun a k j => mu a / 2 * (dy j * dz k)) (fun a k i => eta a / 2 * (dx i * dz k))
        (fun a j i => xi a / 2 * (dx i * dy j))
        (fun a ha k hk j hj => mul_pos (half_pos (hP.hmu a ha)) (mul_pos (hP.hdy j hj) (hP.hdz k hk)))
        (fun a ha k hk i hi => mul_pos (half_pos (hP.heta a ha)) (mul_pos (hP.hdx i hi) (hP.hdz k hk)))
        (fun a ha j hj i hi => mul_pos (half_pos (hP.hxi a ha)) (mul_pos (hP.hdx i hi) (hP.hdy j hj))) ?_⟩
  · have hc' : c < nx * ny * nz := by rw [hP.cells]; exact hc
    exact mul_pos (mul_pos (hP.hdx _ (Nat.mod_lt _ hP.hx)) (hP.hdy _ (Nat.div_lt_of_lt_mul (Nat.mod_lt _ hn2))))
      (hP.hdz _ (Nat.div_lt_of_lt_mul hc'))
  · intro a ha i hi j hj k hk
    rw [vol i j k hi hj]
    exact WGReflect.cell_dd3 _ _ _ _ _ _ _ (hP.hmu a ha) (hP.heta a ha) (hP.hxi a ha) (hP.hdx i hi) (hP.hdy j hj) (hP.hdz k hk)
      (hP.weak.tot g hg _ (hP.cells ▸ WGReflect.cell3_lt hi hj hk))

/-- In boxes coupled groups have exactly one solution if sides across two directions do not reflect. -/
theorem C151_3D_partial {M : MGSolve.Prob K} {mu eta xi w dx dy dz : Nat → K} {sig r : Nat → Nat → K} {u : Nat → K} {m rho : K}
    {nx ny nz na : Nat} {bc : Nat → Nat → BC (Nat → Nat → K)} (hP : Bricks M mu eta xi w dx dy dz sig r u m rho nx ny nz na bc)
    (hopen : ∃ s < 6, ∃ t < 6, bc 0 s ≠ .reflect ∧ bc 0 t ≠ .reflect ∧ s / 2 ≠ t / 2) (up : Bool) (order : List Nat)
    (hord : order.Perm (List.range 8)) {k : Nat}
    (hB : Block (bricksProb M mu eta xi w dx dy dz sig m nx ny nz na up bc order) k) :
    UniquelySolvable (bricksProb M mu eta xi w dx dy dz sig m nx ny nz na up bc order) k := by
  obtain ⟨ok, V, fw, hC, D⟩ := bricks_facts hP up order hord
  obtain ⟨s, hs, t, ht, b1, b2, b3⟩ := hopen
  refine C151_solvable ok hC D hB.cut hB.back hB.imp fun g hg pt hpt side hsd o ho a ha i j hi => ?_
  have hG := hP.group ((mem_groups hB.cut g).1 hg).1
  have hsw' := (WGReflect.brick_facts hG.shut (fun _ => 0) up order hord).1
  have hsc : (fun c : Nat => (0 : K) * (if c < nx * ny * nz then (0 : K) else 0)) = fun _ => 0 := by funext c; simp
  obtain ⟨psi, k1⟩ := solved_silent hsw' rfl hsc (shut_or (bc g)) (pt := pt)
    ⟨hpt.cells, fun side h1 h2 => hpt.none side h1 (mt (shut_reflect (bc g) side).2 h2),
      fun side h1 h2 => hpt.mirror side h1 ((shut_reflect (bc g) side).1 h2)⟩
  obtain ⟨psi', k2⟩ := solved_silent hsw' rfl hsc (shut_or (bc g)) (solved_nothing hsw')
  obtain ⟨hi1, hi2⟩ := (face3 nx ny nz side i j hsd).1 hi
  exact WGReflect.C149_3D_partial hG.shut ⟨s, hs, t, ht, fun h => b1 ((hP.same g s).1 ((shut_reflect (bc g) s).1 h)),
    fun h => b2 ((hP.same g t).1 ((shut_reflect (bc g) t).1 h)), b3⟩ _ up order hord k1 k2 side hsd o ho a ha i hi1 j hi2

/-- With mirrors across `y` and `z` they do not. -/
theorem C151_tube {M : MGSolve.Prob K} {mu eta xi w dx dy dz : Nat → K} {sig r : Nat → Nat → K} {u : Nat → K} {m rho : K}
    {nx ny nz na : Nat} {bc : Nat → Nat → BC (Nat → Nat → K)} (hP : Bricks M mu eta xi w dx dy dz sig r u m rho nx ny nz na bc)
    (hr : ∀ side < 6, 2 ≤ side → bc 0 side = .reflect) (hna : 0 < na) (up : Bool) (order : List Nat)
    (hord : order.Perm (List.range 8)) {k g : Nat}
    (hB : Block (bricksProb M mu eta xi w dx dy dz sig m nx ny nz na up bc order) k)
    (hg : g ∈ (bricksProb M mu eta xi w dx dy dz sig m nx ny nz na up bc order).groups k) :
    ¬ UniquelySolvable (bricksProb M mu eta xi w dx dy dz sig m nx ny nz na up bc order) k := by
  obtain ⟨ok, V, fw, hC, D⟩ := bricks_facts hP up order hord
  have hr' : ∀ side < 6, 2 ≤ side → bc g side = .reflect := fun side hs h2 => (hP.same g side).2 (hr side hs h2)
  have hl := WGReflect.layered_silent mu eta xi w dx dy dz (sig g) (fun _ => 0) (fun _ => 0) m nx ny nz na up (bc g) order hr'
    fun _ _ => 1
  refine C151_singular ok hC D hB.cut hB.back hB.imp hg ⟨hl.cells, hl.none, hl.mirror⟩
    (side := 2) (o := 0) (a := 0) (i := 0) (j := 0) (by change 2 < 6; omega) (hr' 2 (by omega) (by omega))
    (by change 0 < 8; omega) (by decide) hna ((face3 nx ny nz 2 0 0 (by omega)).2 ⟨hP.hz, hP.hx⟩) ?_
  change WGReflect.layered (eta 0) (xi 0) dy dz ny nz (fun _ => 1) 2 0 0 0 ≠ 0
  have h1 := hP.hxi 0 hna
  have h2 := hP.hdz 0 hP.hz
  have h3 : xi 0 / dz 0 ≠ 0 := (div_pos h1 h2).ne'
  simp [WGReflect.layered, octantSign, h1.ne', h2.ne']

end geom

/-! ## The claim without its exception -/

/-- On every rectangle, coupled groups have exactly one solution with diamond differencing. -/
def C151Claim : Prop :=
  ∀ (M : MGSolve.Prob ℚ) (mu eta w dx dy : Nat → ℚ) (sig r : Nat → Nat → ℚ) (u : Nat → ℚ) (m rho : ℚ) (nx ny na : Nat)
    (bc : Nat → Nat → BC (Nat → ℚ)) (up : Bool) (order : List Nat) (k : Nat),
    Planes M mu eta w dx dy sig r u m rho nx ny na bc → order.Perm (List.range 4) →
    let P := planesProb M (fun g a i j => dd2 (mu a) (eta a) (dx i) (dy j) (sig g (i + j * nx))) w m nx ny na up bc order
    Block P k → UniquelySolvable P k

/-- The two groups of C129 on six cells, with two angles. -/
theorem pair_planes (bc : Nat → Nat → BC (Nat → ℚ)) (same : ∀ g s, bc g s = .reflect ↔ bc 0 s = .reflect)
    (np : ∀ g, ∀ s < 4, bc g s ≠ .periodic) :
    Planes (pairN 6) (fun a => 1 / ((a : ℚ) + 2)) (fun a => 1 / ((a : ℚ) + 3)) (fun _ => 1 / 8) WGReflect.widths WGReflect.widths
      (fun _ _ => 1) (fun _ _ => 1 / 4) (fun _ => 1) 1 (1 / 2) 3 2 2 bc where
  data := pairN_ok 6
  weak := pairN_weak 6 _ fun _ _ => le_rfl
  cells := rfl
  hmu := fun a _ => by positivity
  heta := fun a _ => by positivity
  weight := fun _ _ => by norm_num
  norm := by decide +kernel
  hdx := fun i _ => by unfold WGReflect.widths; positivity
  hdy := fun i _ => by unfold WGReflect.widths; positivity
  same := same
  np := np
  hx := by omega
  hy := by omega

/-- They are solved together. -/
theorem pair_block {F : Type} (P : Prob F ℚ) (e : P.M = pairN 6) : Block P 0 where
  cut := by
    unfold Prob.Cut
    rw [e]
    decide +kernel
  back := by
    rw [e]
    unfold MGSolve.Prob.NoBackward
    decide +kernel
  imp := Or.inl (by rw [e]; rfl)

theorem pair_groups {F : Type} (P : Prob F ℚ) (e : P.M = pairN 6) : P.groups 0 = [0, 1] := by
  unfold Prob.groups
  rw [e]
  decide +kernel

/-- It fails for two groups between four mirrors. -/
theorem C151_claim_fails : ¬ C151Claim := by
  intro h
  have hP := pair_planes (fun _ _ => .reflect) (fun _ _ => Iff.rfl) (fun _ _ _ => by simp)
  have hB : Block (planesProb (pairN 6) (fun _ (a i j : Nat) => dd2 (1 / ((a : ℚ) + 2)) (1 / ((a : ℚ) + 3))
      (WGReflect.widths i) (WGReflect.widths j) 1) (fun _ => 1 / 8) 1 3 2 2 true (fun _ _ => .reflect) [0, 1, 2, 3]) 0 :=
    pair_block _ rfl
  have hg := pair_groups (planesProb (pairN 6) (fun _ (a i j : Nat) => dd2 (1 / ((a : ℚ) + 2)) (1 / ((a : ℚ) + 3))
      (WGReflect.widths i) (WGReflect.widths j) 1) (fun _ => 1 / 8) 1 3 2 2 true (fun _ _ => .reflect) [0, 1, 2, 3]) rfl
  have h1 := h _ _ _ _ _ _ _ _ _ _ _ _ _ _ _ true [0, 1, 2, 3] 0 hP (by decide) hB
  exact C151_four_mirrors hP (fun _ _ => rfl) (by omega) true [0, 1, 2, 3] (by decide) (k := 0) (g := 1) hB
    (by rw [hg]; decide) h1

/-- With vacuum at one side, or step differencing, they have exactly one solution for every right-hand side. -/
example : (UniquelySolvable (planesProb (pairN 6) (fun _ (a i j : Nat) => dd2 (1 / ((a : ℚ) + 2)) (1 / ((a : ℚ) + 3))
      (WGReflect.widths i) (WGReflect.widths j) 1) (fun _ => 1 / 8) 1 3 2 2 true
      (fun _ s => if s = 2 then .vacuum else .reflect) [0, 1, 2, 3]) 0) ∧
    UniquelySolvable (planesProb (pairN 6) (fun _ (a i j : Nat) => sd2 (1 / ((a : ℚ) + 2)) (1 / ((a : ℚ) + 3))
      (WGReflect.widths i) (WGReflect.widths j) 1) (fun _ => 1 / 8) 1 3 2 2 true (fun _ _ => .reflect) [0, 1, 2, 3]) 0 :=
  ⟨C151_2D_partial (pair_planes _ (fun _ _ => Iff.rfl) (fun _ s _ => by split <;> simp)) ⟨2, by omega, by simp⟩ true
    [0, 1, 2, 3] (by decide) (pair_block _ rfl),
   C151_2D_step (pair_planes _ (fun _ _ => Iff.rfl) (fun _ _ _ => by simp)) true [0, 1, 2, 3] (by decide) (pair_block _ rfl)⟩

/-- The vectors hold both groups: six cells and forty reflected fluxes each. -/
example :
    let P := planesProb (pairN 6) (fun _ (a i j : Nat) => dd2 (1 / ((a : ℚ) + 2)) (1 / ((a : ℚ) + 3))
      (WGReflect.widths i) (WGReflect.widths j) 1) (fun _ => 1 / 8) 1 3 2 2 true (fun _ _ => .reflect) [0, 1, 2, 3]
    opSize P.M.x.mat.G P.M.x.adjoint 0 P.M.x.N P.bs = 92 := by decide +kernel

/-- Six cells in a row between two mirrors, diamond differencing. -/
example : UniquelySolvable (mg1 (pairN 6) (fun _ _ i => dd1 (1 / 2) (WGReflect.widths i) 1) (fun _ => (1 : ℚ) / 2) 6 1 true
    (fun _ _ => .reflect) [0, 1] (fun _ _ => 1) (fun _ => [])) 0 :=
  C151_1D (pairN 6) (pairN_ok 6) (fun _ => 1 / 2) (fun _ => 1 / 2) WGReflect.widths (fun _ _ => 1) (fun _ _ => 1 / 4) (fun _ => 1)
    1 (1 / 2) (pairN_weak 6 _ fun _ _ => le_rfl) 1 true _ [0, 1] (by decide) _ (fun _ _ _ => Or.inl rfl)
    (fun _ _ => by norm_num) (fun _ _ => by norm_num) (by decide +kernel) (fun i _ => by unfold WGReflect.widths; positivity)
    (fun _ _ => Iff.rfl) (fun _ _ _ => by simp) (by decide) (pair_block _ rfl)

/-- Six cells in a box, three by two by one, with one angle. -/
theorem pair_bricks (bc : Nat → Nat → BC (Nat → Nat → ℚ)) (same : ∀ g s, bc g s = .reflect ↔ bc 0 s = .reflect)
    (np : ∀ g, ∀ s < 6, bc g s ≠ .periodic) :
    Bricks (pairN 6) (fun _ => 1 / 2) (fun _ => 1 / 3) (fun _ => 1 / 4) (fun _ => 1 / 8) WGReflect.widths WGReflect.widths
      WGReflect.widths (fun _ _ => 1) (fun _ _ => 1 / 4) (fun _ => 1) 1 (1 / 2) 3 2 1 1 bc where
  data := pairN_ok 6
  weak := pairN_weak 6 _ fun _ _ => le_rfl
  cells := rfl
  hmu := fun a _ => by positivity
  heta := fun a _ => by positivity
  hxi := fun a _ => by positivity
  weight := fun _ _ => by norm_num
  norm := by decide +kernel
  hdx := fun i _ => by unfold WGReflect.widths; positivity
  hdy := fun i _ => by unfold WGReflect.widths; positivity
  hdz := fun i _ => by unfold WGReflect.widths; positivity
  same := same
  np := np
  fit := by norm_num
  hx := by omega
  hy := by omega
  hz := by omega

/-- A box with vacuum at two sides across different directions, and one with mirrors across two. -/
example : UniquelySolvable (bricksProb (pairN 6) (fun _ => 1 / 2) (fun _ => 1 / 3) (fun _ => 1 / 4) (fun _ => 1 / 8)
      WGReflect.widths WGReflect.widths WGReflect.widths (fun _ _ => 1) 1 3 2 1 1 true
      (fun _ s => if s = 0 ∨ s = 3 then .vacuum else .reflect) [0, 1, 2, 3, 4, 5, 6, 7]) 0 ∧
    ¬ UniquelySolvable (bricksProb (pairN 6) (fun _ => 1 / 2) (fun _ => 1 / 3) (fun _ => 1 / 4) (fun _ => 1 / 8)
      WGReflect.widths WGReflect.widths WGReflect.widths (fun _ _ => 1) 1 3 2 1 1 true
      (fun _ s => if s < 2 then .vacuum else .reflect) [0, 1, 2, 3, 4, 5, 6, 7]) 0 :=
  ⟨C151_3D_partial (pair_bricks _ (fun _ _ => Iff.rfl) (fun _ s _ => by split <;> simp))
    ⟨0, by omega, 3, by omega, by simp, by simp, by omega⟩ true _ (by decide) (pair_block _ rfl),
   C151_tube (pair_bricks _ (fun _ _ => Iff.rfl) (fun _ s _ => by split <;> simp)) (fun side _ h => if_neg (by omega)) (by omega)
    true _ (by decide) (g := 0) (pair_block _ rfl) (by rw [pair_groups _ rfl]; decide)⟩

end Detran.MGReflect
