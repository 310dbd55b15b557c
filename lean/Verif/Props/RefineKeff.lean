import Verif.Props.Refine
import Verif.Props.KeffFlux
import Mathlib.Analysis.SpecialFunctions.Trigonometric.Basic
import Mathlib.Analysis.SpecialFunctions.Trigonometric.Deriv

/-!
# Refining the mesh of a slab that multiplies (C137)

The specification is the eigenvalue problem of the transport equation of a slab, as a differential equation.
-/

namespace Detran.MGReflect.Slab

open Detran.Sweep (St dd1 sd1 sc1 Solves1 posn entry exit)
open Detran.Boundary (Bd BC Loc Enters Mirror)
open Detran.WGReflect (Sweeps Solution InFace Sides Swept)
open Detran.EigenPI (emits makes Data Fissile Seeded fop fop_eq)
open Finset

/-- The slab with a fission source: fluxes of group `gp` make fissions at the rate `fi gp x`, these emit neutrons into group `g` at
    the rate `em g x`, and all of them are divided by `k`. -/
noncomputable def crit (S : Slab) (em fi : Nat → ℝ → ℝ) (k : ℝ) : Slab :=
  { S with coup := fun g gp x => S.coup g gp x + 1 / k * (em g x * fi gp x) }

/-- `psi` are angular fluxes of the slab that keep themselves up when fission neutrons are divided by `k`, and the scalar fluxes are
    positive. -/
structure Factor (S : Slab) (em fi : Nat → ℝ → ℝ) (k : ℝ) (psi : Nat → Nat → Nat → ℝ → ℝ) : Prop where
  pos : 0 < k
  exact : (S.crit em fi k).Exact psi
  flux : ∀ g < S.G, ∀ x ∈ Set.Icc 0 S.X, 0 < S.flux psi g x

/-- Fission data that are not negative and bounded by the collisions (to any extent), vacuum or reflecting sides. -/
structure Burns (S : Slab) (em fi : Nat → ℝ → ℝ) (u : Nat → ℝ) (b : ℝ) : Prop where
  em0 : ∀ g < S.G, ∀ x ∈ Set.Ioo 0 S.X, x ∉ S.B → 0 ≤ em g x
  fi0 : ∀ g < S.G, ∀ x ∈ Set.Ioo 0 S.X, x ∉ S.B → 0 ≤ fi g x
  b0 : 0 ≤ b
  row : ∀ g < S.G, ∀ x ∈ Set.Ioo 0 S.X, x ∉ S.B → ∑ gp ∈ range S.G, em g x * fi gp x * u gp ≤ b * (S.sig g x * u g)
  sides : ∀ g s, S.bc g s = .vacuum ∨ S.bc g s = .reflect

/-- The cells of `M` make up the slab, with its fission data; fixed sources and the use of fission in the fixed source problem of `M` do
    not matter. -/
structure Loaded (S : Slab) (em fi : Nat → ℝ → ℝ) (M : MGSolve.Prob ℝ) (sg : Nat → Nat → ℝ) (dx : Nat → ℝ) : Prop where
  mesh : Mesh S (scatters M) sg dx
  fuel : ∀ i < M.x.N, ∀ x ∈ Set.Ioo (edge dx i) (edge dx (i + 1)), ∀ g < S.G, em g x = emits M.x g i ∧ fi g x = makes M.x g i

/-- `M` as a problem with fission divided by `k`. -/
noncomputable def critical (M : MGSolve.Prob ℝ) (k : ℝ) : MGSolve.Prob ℝ :=
  { M with implicit := true, scale := 1 / k, q := fun _ _ => 0 }

section
variable {S : Slab} {em fi : Nat → ℝ → ℝ} {u : Nat → ℝ} {th b k : ℝ} {M : MGSolve.Prob ℝ} {sg : Nat → Nat → ℝ} {dx : Nat → ℝ}

theorem critical_couple (M : MGSolve.Prob ℝ) (k : ℝ) (g gp i : Nat) :
    couple (critical M k) g gp i = couple (scatters M) g gp i + 1 / k * (emits M.x g i * makes M.x gp i) := by
  unfold couple critical scatters MGSolve.fissionXs emits makes
  cases M.x.adjoint <;> simp only [if_true, if_false, Bool.false_eq_true, add_zero] <;> ring

theorem pre_crit (hS : S.OK u th) (hB : S.Burns em fi u b) (hk : 0 < k) : (S.crit em fi k).Pre u (th + b / k) where
  mu := hS.mu
  w := hS.w
  norm := hS.norm
  upos := hS.upos
  th0 := by
    have := hS.th0
    have := hB.b0
    positivity
  tot := hS.tot
  coup := fun g hg gp hgp x hx hx' => by
    have h1 := hS.coup g hg gp hgp x hx hx'
    have h2 := hB.em0 g hg x hx hx'
    have h3 := hB.fi0 gp hgp x hx hx'
    show 0 ≤ S.coup g gp x + 1 / k * (em g x * fi gp x)
    positivity
  row := fun g hg x hx hx' => by
    have h1 := hS.row g hg x hx hx'
    have h2 := mul_le_mul_of_nonneg_left (hB.row g hg x hx hx') (one_div_pos.2 hk).le
    show ∑ gp ∈ range S.G, (S.coup g gp x + 1 / k * (em g x * fi gp x)) * u gp ≤ (th + b / k) * (S.sig g x * u g)
    have e : ∑ gp ∈ range S.G, (S.coup g gp x + 1 / k * (em g x * fi gp x)) * u gp =
        ∑ gp ∈ range S.G, S.coup g gp x * u gp + 1 / k * ∑ gp ∈ range S.G, em g x * fi gp x * u gp := by
      rw [mul_sum, ← sum_add_distrib]
      exact sum_congr rfl fun _ _ => by ring
    rw [e]
    refine (add_le_add h1 h2).trans (le_of_eq ?_)
    field_simp
  refl := hS.refl
  np := hS.np

theorem Loaded.crit (hL : Loaded S em fi M sg dx) (k : ℝ) : Mesh (S.crit em fi k) (critical M k) sg dx where
  ok := ⟨hL.mesh.ok.fin, hL.mesh.ok.nn, hL.mesh.ok.map, hL.mesh.ok.add, hL.mesh.ok.loc⟩
  groups := hL.mesh.groups
  cells := hL.mesh.cells
  pos := hL.mesh.pos
  len := hL.mesh.len
  data := fun i hi x hx => by
    obtain ⟨hB, hd⟩ := hL.mesh.data i hi x hx
    refine ⟨hB, fun g hg => ⟨(hd g hg).1, (hd g hg).2.1, fun gp hgp => ?_⟩⟩
    show S.coup g gp x + 1 / k * (em g x * fi gp x) = _
    rw [critical_couple, (hd g hg).2.2 gp hgp, (hL.fuel i hi x hx g hg).1, (hL.fuel i hi x hx gp hgp).2]

theorem Loaded.ok (hL : Loaded S em fi M sg dx) : M.OK :=
  ⟨hL.mesh.ok.fin, hL.mesh.ok.nn, hL.mesh.ok.map, hL.mesh.ok.add, hL.mesh.ok.loc⟩

theorem Loaded.data (hL : Loaded S em fi M sg dx) (hB : S.Burns em fi u b) : Data M.x where
  emits := fun g hg c hc => by
    have hg : g < S.G := by rw [← hL.mesh.groups]; exact hg
    obtain ⟨x, hx⟩ := Set.nonempty_Ioo.2 (hL.mesh.edge_lt hc)
    rw [← (hL.fuel c hc x hx g hg).1]
    exact hB.em0 g hg x (hL.mesh.sub' hc hx) (hL.mesh.data c hc x hx).1
  makes := fun g hg c hc => by
    have hg : g < S.G := by rw [← hL.mesh.groups]; exact hg
    obtain ⟨x, hx⟩ := Set.nonempty_Ioo.2 (hL.mesh.edge_lt hc)
    rw [← (hL.fuel c hc x hx g hg).2]
    exact hB.fi0 g hg x (hL.mesh.sub' hc hx) (hL.mesh.data c hc x hx).1

/-- What the results about multiplication factors of transport problems assume. -/
theorem Loaded.setup (hS : S.OK u th) (hL : Loaded S em fi M sg dx) {sch : Nat → Nat → Nat → ℝ → ℝ → ℝ × ℝ}
    (hsch : Schemes S sg dx sch) (ht : Thin S M sg dx sch) (up : Bool) {order : List Nat} (hord : order.Perm (List.range 2)) :
    MGReflect.OK (S.prob M sch up order) S.w (eqs M sch) ∧
    Damped ((S.prob M sch up order).sourced fun _ _ => 0) S.w (eqs M sch) sg u S.m th ∧
    AllDissipate (S.prob M sch up order) (eqs M sch) dx sg fun _ _ a _ _ => S.mu a / 2 := by
  obtain ⟨_, hD⟩ := damped (M := scatters M) hS hL.mesh hsch ht up hord
  have hT := hL.mesh.tame hS
  have lin : ∀ g a i, Sweep.LinEq1 (sch g a i) := fun g a i => by
    obtain ⟨l1, l2, l3, _⟩ := Sweep.C27_schemes_linear Real.exp (S.mu a) 0 0 (dx i) 0 0 (sg g i)
    rcases hsch g a i with e | e | e
    · rw [e]; exact l1
    · rw [e]; exact l2
    · rw [e]; exact l3
  refine ⟨C125_ok1 M hL.ok sch lin S.w S.na up S.bc order hord _ _ hS.refl hS.np, hD, fun g hg =>
    WGReflect.dissipates1 (sch g) S.w M.x.N S.na up (S.bc g) order _ _ _ _ dx (sg g) (fun a => S.mu a / 2)
      (fun a ha => half_pos (hS.mu a ha)) ?_⟩
  intro a ha i hi
  have h1 := hS.mu a ha
  have h2 := hL.mesh.pos i hi
  have h3 := hT.tot g hg i hi
  rcases hsch g a i with e | e | e
  · rw [e]; exact WGReflect.cell_dd1 _ _ _ h1 h2 h3
  · rw [e]; exact WGReflect.cell_sd1 _ _ _ h1 h2 h3
  · obtain ⟨k1, k2⟩ := WGReflect.exp_ok (sg g i * dx i / S.mu a) (by positivity)
    rw [e]; exact WGReflect.cell_sc1 Real.exp _ _ _ h1 h2 h3 k1 k2

/-- Fluxes that nearly belong to a mesh with fission divided by `k` put its factor near `k`. -/
theorem factor_near (hS : S.OK u th) (hB : S.Burns em fi u b) (hL : Loaded S em fi M sg dx)
    {sch : Nat → Nat → Nat → ℝ → ℝ → ℝ × ℝ} (hsch : Schemes S sg dx sch) (ht : Thin S M sg dx sch) {up : Bool} {order : List Nat}
    (hord : order.Perm (List.range 2)) (hk : 0 < k) {ε δ : ℝ} (hε : 0 ≤ ε) {f : Nat → Nat → ℝ}
    (hN : (S.crit em fi k).Nearly (critical M k) sg sch up order u ε f) (hf : ∀ g < S.G, ∀ i < M.x.N, 0 < f g i)
    (hδ : ∀ g < S.G, ∀ i < M.x.N, ε / (1 - th) * u g ≤ δ * f g i) {k' : ℝ} (hk' : 0 < k') {phi : Nat → Nat → ℝ}
    (hE : Eigen (S.prob M sch up order) S.w (eqs M sch) k' phi)
    (hp : ∀ c, Fissile M.x c → 0 < (S.prob M sch up order).dens phi c) (hne : ∃ c, Fissile M.x c) : |k' - k| ≤ δ * k := by
  obtain ⟨ok, hD, hDis⟩ := hL.setup hS hsch ht up hord
  have hG := hL.mesh.groups
  have hG : M.x.mat.G = S.G := hG
  have hb : Bare (S.prob M sch up order) := fun g _ s _ => hB.sides g s
  have hT := hL.mesh.tame hS
  have hd := hL.data hB
  obtain ⟨T, hT'⟩ := C133_fluxes ok hD (fun _ _ => hS.w) hL.mesh.pos hT.tot hDis 0
  have hmode := C133_eigen_mode ok hD hb hT' hk'.ne' hE
  obtain ⟨src, bd', psi', hW, hSd, hr⟩ := hN
  -- one generation
  obtain ⟨bd, ps, hs⟩ := solves_of_flux (hT'.flux fun g c => 1 / k * (S.prob M sch up order).made f g c)
  have hst := stable (sourced_ok ok _) (sourced_damped hD _) hs (src' := src) (phi' := f) (bd' := bd') (psi' := psi')
    ⟨hW.swept, hW.flux⟩ hSd hε fun g hg o ho a ha i hi => by
      have hg' : g < S.G := by rw [← hG]; exact hg
      have e : ((S.prob M sch up order).sourced fun g c => 1 / k * (S.prob M sch up order).made f g c).M.source f g i =
          (critical M k).source f g i := by
        rw [source_couple, source_couple]
        show 1 / k * (S.prob M sch up order).made f g i + ∑ gp ∈ range M.x.mat.G, couple (scatters M) g gp i * f gp i =
          0 + ∑ gp ∈ range M.x.mat.G, couple (critical M k) g gp i * f gp i
        rw [made_dens, zero_add]
        simp only [critical_couple, add_mul, sum_add_distrib]
        rw [add_comm]
        congr 1
        unfold Prob.dens
        rw [sum_mul, mul_sum]
        exact sum_congr rfl fun gp _ => by
          show 1 / k * (makes M.x gp i * f gp i * emits M.x g i) = _
          ring
      rw [e]
      exact hr g hg' o ho a ha i hi
  have hgen : ∀ c < M.x.N, fop M.x T ((S.prob M sch up order).dens f) c = k * ∑ g ∈ range M.x.mat.G,
      makes M.x g c * T (fun g c => 1 / k * (S.prob M sch up order).made f g c) g c := by
    intro c hc
    rw [fop_eq M.x T _ hc, mul_sum]
    refine sum_congr rfl fun g hg => ?_
    have h2 := flux_smul ok hD hb hT' k (fun g c => 1 / k * (S.prob M sch up order).made f g c) (mem_range.1 hg) hc
    have e2 : (fun g c => (S.prob M sch up order).dens f c * emits M.x g c) =
        fun g c => k * (1 / k * (S.prob M sch up order).made f g c) := by
      funext g c
      rw [made_dens]
      show _ = k * (1 / k * ((S.prob M sch up order).dens f c * emits M.x g c))
      field_simp
    rw [e2, h2]
    ring
  have two : ∀ g < M.x.mat.G, ∀ c < M.x.N, (1 - δ) * f g c ≤ T (fun g c => 1 / k * (S.prob M sch up order).made f g c) g c ∧
      T (fun g c => 1 / k * (S.prob M sch up order).made f g c) g c ≤ (1 + δ) * f g c := by
    intro g hg c hc
    have h1 := abs_le.1 ((hst g hg c hc).1.trans (hδ g (by rw [← hG]; exact hg) c hc))
    constructor <;> linarith [h1.1, h1.2]
  have hnn : ∀ g < M.x.mat.G, ∀ c < M.x.N, 0 ≤ makes M.x g c := hd.makes
  have q := EigenPI.C133_quotients (C133_flux_solver ok hD hb hT') hd (lo := k * (1 - δ)) (hi := k * (1 + δ))
    (f := (S.prob M sch up order).dens f) hmode hk' hp hne (fun c hc => ?_) (fun c hc hF => ?_) (fun c hc => ?_) fun c hc => ?_
  · rw [abs_le]
    constructor <;> linarith [q.1, q.2]
  · obtain ⟨hc, g, hg, hm⟩ := hc
    refine sum_pos' (fun g hg => ?_) ⟨g, mem_range.2 hg, ?_⟩
    · have hg := mem_range.1 hg
      exact mul_nonneg (hnn g hg c hc) (hf g (by rw [← hG]; exact hg) c hc).le
    · exact mul_pos (lt_of_le_of_ne (hnn g hg c hc) hm.symm) (hf g (by rw [← hG]; exact hg) c hc)
  · refine sum_eq_zero fun g hg => ?_
    have : makes M.x g c = 0 := by
      by_contra h
      exact hF ⟨hc, g, mem_range.1 hg, h⟩
    show makes M.x g c * _ = 0
    rw [this, zero_mul]
  · refine le_trans (le_of_eq ?_) (le_of_le_of_eq (mul_le_mul_of_nonneg_left (sum_le_sum fun g hg =>
      mul_le_mul_of_nonneg_left (two g (mem_range.1 hg) c hc.1).1 (hnn g (mem_range.1 hg) c hc.1)) hk.le) (hgen c hc.1).symm)
    show k * (1 - δ) * ∑ g ∈ range M.x.mat.G, makes M.x g c * f g c = _
    rw [mul_assoc, mul_sum]
    congr 1
    exact sum_congr rfl fun g _ => by ring
  · refine le_trans (le_of_eq_of_le (hgen c hc.1) (mul_le_mul_of_nonneg_left (sum_le_sum fun g hg =>
      mul_le_mul_of_nonneg_left (two g (mem_range.1 hg) c hc.1).2 (hnn g (mem_range.1 hg) c hc.1)) hk.le)) (le_of_eq ?_)
    show _ = k * (1 + δ) * ∑ g ∈ range M.x.mat.G, makes M.x g c * f g c
    rw [mul_assoc, mul_sum (a := 1 + δ)]
    congr 1
    exact sum_congr rfl fun g _ => by ring

/-- The scalar fluxes are bounded away from zero. -/
theorem Factor.floor {psi : Nat → Nat → Nat → ℝ → ℝ} (hF : S.Factor em fi k psi) : ∃ c > 0, ∀ g < S.G, ∀ x ∈ Set.Icc 0 S.X,
    c ≤ S.flux psi g x := by
  have one : ∀ g, ∃ c > 0, g < S.G → ∀ x ∈ Set.Icc 0 S.X, c ≤ S.flux psi g x := by
    intro g
    by_cases hg : g < S.G
    · rcases (Set.Icc (0 : ℝ) S.X).eq_empty_or_nonempty with he | he
      · refine ⟨1, one_pos, fun _ x hx => ?_⟩
        rw [he] at hx
        exact absurd hx (Set.notMem_empty x)
      · have hc : ContinuousOn (fun x => S.flux psi g x) (Set.Icc 0 S.X) := by
          unfold Slab.flux
          exact continuousOn_finset_sum _ fun o ho => continuousOn_finset_sum _ fun a ha =>
            continuousOn_const.mul (hF.exact.cont g hg o (mem_range.1 ho) a (mem_range.1 ha))
        obtain ⟨y, hy, hmin⟩ := isCompact_Icc.exists_isMinOn he hc
        exact ⟨_, hF.flux g hg y hy, fun _ x hx => hmin hx⟩
    · exact ⟨1, one_pos, fun h => absurd h hg⟩
  choose c hc h using one
  obtain ⟨c0, h0, h1⟩ := floor_of (n := S.G) (f := c) fun i _ => hc i
  exact ⟨c0, h0, fun g hg x hx => (h1 g hg).trans (h g hg x hx)⟩

/-- How close fluxes `f` that differ from those of the slab by `δ u` put the factor. -/
theorem factor_of_near (hS : S.OK u th) (hB : S.Burns em fi u b) (hL : Loaded S em fi M sg dx)
    {sch : Nat → Nat → Nat → ℝ → ℝ → ℝ × ℝ} (hsch : Schemes S sg dx sch) (ht : Thin S M sg dx sch) {up : Bool} {order : List Nat}
    (hord : order.Perm (List.range 2)) (hk : 0 < k) {c U ε δ : ℝ} (hc : 0 < c) (hU0 : 0 ≤ U) (hU : ∀ g < S.G, u g ≤ U)
    (hε : 0 ≤ ε) (hδ : 0 ≤ δ) (hδc : δ * U ≤ c / 2)
    {f : Nat → Nat → ℝ} (hN : (S.crit em fi k).Nearly (critical M k) sg sch up order u ε f) {y : Nat → Nat → ℝ}
    (hy : ∀ g < S.G, ∀ i < M.x.N, c ≤ y g i) (hf : ∀ g < S.G, ∀ i < M.x.N, |f g i - y g i| ≤ δ * u g)
    {k' : ℝ} (hk' : 0 < k') {phi : Nat → Nat → ℝ} (hE : Eigen (S.prob M sch up order) S.w (eqs M sch) k' phi)
    (hp : ∀ c, Fissile M.x c → 0 < (S.prob M sch up order).dens phi c) (hne : ∃ c, Fissile M.x c) :
    |k' - k| ≤ ε * (2 * U / c / (1 - th) * k) := by
  have hl : 0 < 1 - th := by linarith [hS.less]
  have half : ∀ g < S.G, ∀ i < M.x.N, c / 2 ≤ f g i := by
    intro g hg i hi
    have h1 := (abs_le.1 (hf g hg i hi)).1
    have h2 := hy g hg i hi
    have h3 := mul_le_mul_of_nonneg_left (hU g hg) hδ
    linarith
  have := factor_near hS hB hL hsch ht hord hk hε (δ := ε / (1 - th) * U / (c / 2)) hN
    (fun g hg i hi => (half_pos hc).trans_le (half g hg i hi)) (fun g hg i hi => by
      have h1 := half g hg i hi
      have h2 : ε / (1 - th) * u g ≤ ε / (1 - th) * U := mul_le_mul_of_nonneg_left (hU g hg) (by positivity)
      refine h2.trans ?_
      have e : ε / (1 - th) * U / (c / 2) * f g i = ε / (1 - th) * U * f g i / (c / 2) := by ring
      rw [e, le_div_iff₀ (half_pos hc)]
      exact mul_le_mul_of_nonneg_left h1 (by positivity)) hk' hE hp hne
  refine this.trans (le_of_eq ?_)
  field_simp

theorem burns_bounded (hB' : S.Bounded) (k : ℝ) : (S.crit em fi k).Bounded := hB'

/-- The factor of every mesh that is fine enough is within a constant times the largest cell of the factor of the slab, for every
    mixture of the schemes. -/
theorem C137_rate (hS : S.OK u th) (hT : S.Bounded) (hB : S.Burns em fi u b) {psi : Nat → Nat → Nat → ℝ → ℝ}
    (hF : S.Factor em fi k psi) : ∃ C, ∃ h0 > 0,
    ∀ {M : MGSolve.Prob ℝ} {sg : Nat → Nat → ℝ} {dx : Nat → ℝ}, Loaded S em fi M sg dx →
    ∀ {sch : Nat → Nat → Nat → ℝ → ℝ → ℝ × ℝ}, Schemes S sg dx sch → ∀ h ≤ h0, (∀ i < M.x.N, dx i ≤ h) →
    ∀ (up : Bool) {order : List Nat}, order.Perm (List.range 2) → (∃ c, Fissile M.x c) → ∀ k' > 0, ∀ phi,
    Eigen (S.prob M sch up order) S.w (eqs M sch) k' phi → (∀ c, Fissile M.x c → 0 < (S.prob M sch up order).dens phi c) →
    |k' - k| ≤ C * h := by
  have hP := pre_crit hS hB hF.pos
  obtain ⟨L, hL0, R, hR0, hLR⟩ := slopes hP (burns_bounded hT k) hF.exact
  obtain ⟨U, hU0, hU⟩ := ceil_of S.G u
  obtain ⟨c, hc, hfl⟩ := hF.floor
  have hth := hP.th0
  have hA : 0 ≤ (1 + (th + b / k)) * L * U := by positivity
  refine ⟨(1 + (th + b / k)) ^ 2 * L * (2 * U / c / (1 - th) * k), min (2 / (R + 1)) (c / 2 / ((1 + (th + b / k)) * L * U + 1)),
    lt_min (by positivity) (by positivity), fun {M sg dx} hL {sch} hsch h hh hdx up {order} hord hne k' hk' phi hE hp => ?_⟩
  have hM := hL.crit k
  have h0 : 0 ≤ h := (hM.pos 0 hM.cells).le.trans (hdx 0 hM.cells)
  have ht : Thin S M sg dx sch := thin hP hM hR0 (fun g hg a ha i hi => (hLR hM g hg a ha i hi).1)
    (fun i hi => (hdx i hi).trans (hh.trans (min_le_left _ _))) sch
  obtain ⟨f, hN, hf⟩ := near hP hM hsch up order hF.exact (η := L * h) (by positivity) fun g hg o ho a ha i hi =>
    change hP hM hF.exact (fun g hg o ho a ha i hi x hx => (hLR hM g hg a ha i hi).2 o ho x hx) hL0 (hdx i hi) hi g hg o ho a ha
  have hx : ∀ i < M.x.N, edge dx i ∈ Set.Icc (edge dx i) (edge dx (i + 1)) := fun i hi => Set.left_mem_Icc.2 (hM.edge_lt hi).le
  have := factor_of_near hS hB hL hsch ht hord hF.pos hc hU0 hU (by positivity) (δ := (1 + (th + b / k)) * (L * h)) (by positivity) (by
    have := hh.trans (min_le_right _ _)
    rw [le_div_iff₀ (by positivity)] at this
    linarith) hN (y := fun g i => S.flux psi g (edge dx i)) (fun g hg i hi => hfl g hg _ (hM.sub hi (hx i hi)))
    (fun g hg i hi => hf g hg i hi _ (hx i hi)) hk' hE hp hne
  refine this.trans (le_of_eq (by ring))

/-- With diamond differencing and step characteristics, in any mixture, within a constant times the square of the largest cell. -/
theorem C137_second (hS : S.OK u th) (hT : S.Bounded) (hB : S.Burns em fi u b) {psi : Nat → Nat → Nat → ℝ → ℝ}
    (hF : S.Factor em fi k psi) : ∃ C, ∃ h0 > 0,
    ∀ {M : MGSolve.Prob ℝ} {sg : Nat → Nat → ℝ} {dx : Nat → ℝ}, Loaded S em fi M sg dx →
    ∀ {sch : Nat → Nat → Nat → ℝ → ℝ → ℝ × ℝ}, (∀ g a i, sch g a i = dd1 (S.mu a) (dx i) (sg g i) ∨
      sch g a i = sc1 Real.exp (S.mu a) (dx i) (sg g i)) →
    ∀ h ≤ h0, (∀ i < M.x.N, dx i ≤ h) →
    ∀ (up : Bool) {order : List Nat}, order.Perm (List.range 2) → (∃ c, Fissile M.x c) → ∀ k' > 0, ∀ phi,
    Eigen (S.prob M sch up order) S.w (eqs M sch) k' phi → (∀ c, Fissile M.x c → 0 < (S.prob M sch up order).dens phi c) →
    |k' - k| ≤ C * h ^ 2 := by
  have hP := pre_crit hS hB hF.pos
  obtain ⟨L, hL0, R, hR0, hLR⟩ := slopes hP (burns_bounded hT k) hF.exact
  obtain ⟨U, hU0, hU⟩ := ceil_of S.G u
  obtain ⟨c, hc, hfl⟩ := hF.floor
  have hth := hP.th0
  have hA : 0 ≤ 9 / 4 * (1 + (th + b / k)) * R * L * U := by positivity
  refine ⟨3 / 2 * (1 + (th + b / k)) ^ 2 * R * L * (2 * U / c / (1 - th) * k),
    min (2 / (R + 1)) (min 1 (c / 2 / (9 / 4 * (1 + (th + b / k)) * R * L * U + 1))),
    lt_min (by positivity) (lt_min one_pos (by positivity)),
    fun {M sg dx} hL {sch} hsch h hh hdx up {order} hord hne k' hk' phi hE hp => ?_⟩
  have hM := hL.crit k
  have h0 : 0 ≤ h := (hM.pos 0 hM.cells).le.trans (hdx 0 hM.cells)
  have h1 : h ≤ 1 := hh.trans ((min_le_right _ _).trans (min_le_left _ _))
  have ht : Thin S M sg dx sch := thin hP hM hR0 (fun g hg a ha i hi => (hLR hM g hg a ha i hi).1)
    (fun i hi => (hdx i hi).trans (hh.trans (min_le_left _ _))) sch
  obtain ⟨f, hN, hf⟩ := near_second hP hM hF.exact hL0 hR0 (hLR hM) hsch up order hdx
  have := factor_of_near hS hB hL (fun g a i => (hsch g a i).imp_right Or.inr) ht hord hF.pos hc hU0 hU (by positivity)
    (δ := 9 / 4 * (1 + (th + b / k)) * R * L * h ^ 2) (by positivity) (by
    have h2 := hh.trans ((min_le_right _ _).trans (min_le_right _ _))
    rw [le_div_iff₀ (by positivity)] at h2
    have h3 : h ^ 2 ≤ h := by nlinarith
    have h4 := mul_le_mul_of_nonneg_left h3 hA
    linarith) hN (y := fun g i => S.flux psi g ((edge dx i + edge dx (i + 1)) / 2)) (fun g hg i hi => hfl g hg _ (hM.sub hi (by
      have := (hM.edge_lt hi).le
      constructor <;> linarith))) hf hk' hE hp hne
  refine this.trans (le_of_eq (by ring))

/-- On fine meshes there is a factor, power iteration finds it and it is as close to that of the slab as one likes. -/
theorem C137_converges (hS : S.OK u th) (hT : S.Bounded) (hB : S.Burns em fi u b) {psi : Nat → Nat → Nat → ℝ → ℝ}
    (hF : S.Factor em fi k psi) (ε : ℝ) (hε : 0 < ε) : ∃ h > 0,
    ∀ {M : MGSolve.Prob ℝ} {sg : Nat → Nat → ℝ} {dx : Nat → ℝ}, Loaded S em fi M sg dx →
    ∀ {sch : Nat → Nat → Nat → ℝ → ℝ → ℝ × ℝ}, Schemes S sg dx sch → (∀ i < M.x.N, dx i ≤ h) →
    ∀ (up : Bool) {order : List Nat}, order.Perm (List.range 2) → Seeded M.x → Linked (S.prob M sch up order) →
    ∃ T, Exactly (S.prob M sch up order) S.w (eqs M sch) T ∧ ∀ phi0, ∃ t0 > 0, ∀ tol, 0 < tol → tol ≤ t0 → ∃ n0, ∀ n, n0 ≤ n → ∃ r,
      (power (S.prob M sch up order) T n tol).run phi0 = some r ∧ r.warned = false ∧ |r.keff - k| < ε := by
  have hP := pre_crit hS hB hF.pos
  obtain ⟨C, h0, hh0, H⟩ := C137_rate hS hT hB hF
  obtain ⟨L, hL0, R, hR0, hLR⟩ := slopes hP (burns_bounded hT k) hF.exact
  have hC1 : 0 < |C| + 1 := by positivity
  refine ⟨min (2 / (R + 1)) (min h0 (ε / 2 / (|C| + 1))), lt_min (by positivity) (lt_min hh0 (by positivity)),
    fun {M sg dx} hL {sch} hsch hdx up {order} hord hx hLk => ?_⟩
  have hM := hL.crit k
  have strict : ∀ g < S.G, ∀ a < S.na, ∀ i < M.x.N, sg g i * dx i < 2 * S.mu a := by
    intro g hg a ha i hi
    have h1 := (hLR hM g hg a ha i hi).1
    have h2 := (hdx i hi).trans (min_le_left _ _)
    have hmu := hS.mu a ha
    have h3 := hM.pos i hi
    rw [le_div_iff₀ (by positivity)] at h2
    calc sg g i * dx i ≤ R * S.mu a * dx i := mul_le_mul_of_nonneg_right h1 h3.le
      _ < S.mu a * (dx i * (R + 1)) := by
        have : 0 < S.mu a * dx i := by positivity
        linarith
      _ ≤ S.mu a * 2 := mul_le_mul_of_nonneg_left h2 hmu.le
      _ = _ := by ring
  obtain ⟨ok, hD, hDis⟩ := hL.setup hS hsch (fun g hg a ha i hi _ => (strict g hg a ha i hi).le) up hord
  have hTm := hL.mesh.tame hS
  have hmul : Multiplies (S.prob M sch up order) S.w (eqs M sch) := by
    refine multiplies (V := dx) 0 ok hD (fun g _ s _ => hB.sides g s) (hL.data hB) (fun _ _ => hS.w) hM.pos hTm.tot hDis
      (reaches_of_linked (fun g hg c hc c' hc' => ?_) hLk) hx
    refine WGReflect.lights1 (sch g) S.w M.x.N S.na up (S.bc g) order _ _ _ _ (fun a ha i hi => ?_) c c' hc hc'
    have h1 := hS.mu a ha
    have h2 := hM.pos i hi
    have h3 := hTm.tot g hg i hi
    rcases hsch g a i with e | e | e
    · rw [e]; exact WGReflect.strict_dd1 _ _ _ h1 h2 h3 (strict g (by rw [← hL.mesh.groups]; exact hg) a ha i hi)
    · rw [e]; exact WGReflect.strict_sd1 _ _ _ h1 h2 h3
    · rw [e]; exact WGReflect.strict_sc1 Real.exp WGReflect.attenuates_exp (fun t _ => Real.exp_pos _) _ _ _ h1 h2 h3
  obtain ⟨T, hT', k', hk', ⟨phi, hE, hp⟩, _, _, hrun⟩ := hmul
  have hne : ∃ c, Fissile M.x c := by
    obtain ⟨c, hc, _⟩ := hx
    exact ⟨c, hc⟩
  have near : |k' - k| ≤ ε / 2 := by
    have k1 := H hL hsch _ (min_le_left _ _) (fun i hi => (hdx i hi).trans (min_le_right _ _)) up hord hne k' hk' phi hE hp
    refine k1.trans ?_
    have hmin : 0 ≤ min h0 (ε / 2 / (|C| + 1)) := le_min hh0.le (by positivity)
    calc C * min h0 (ε / 2 / (|C| + 1)) ≤ |C| * min h0 (ε / 2 / (|C| + 1)) := mul_le_mul_of_nonneg_right (le_abs_self C) hmin
      _ ≤ |C| * (ε / 2 / (|C| + 1)) := mul_le_mul_of_nonneg_left (min_le_right _ _) (abs_nonneg C)
      _ ≤ ε / 2 := by
        rw [mul_div_assoc', div_le_iff₀ hC1]
        linarith
  refine ⟨T, hT', fun phi0 => ?_⟩
  obtain ⟨D, hD0, t0, ht0, hr⟩ := hrun phi0
  refine ⟨min t0 (ε / 4 / D), lt_min ht0 (by positivity), fun tol h1 h2 => ?_⟩
  obtain ⟨n0, hn⟩ := hr tol h1 (h2.trans (min_le_left _ _))
  refine ⟨n0, fun n hn0 => ?_⟩
  obtain ⟨r, e1, e2, e3⟩ := hn n hn0
  refine ⟨r, e1, e2, ?_⟩
  have h3 := h2.trans (min_le_right _ _)
  rw [le_div_iff₀ hD0] at h3
  refine lt_of_le_of_lt (abs_sub_le _ k' _) ?_
  linarith

end

/-! ## Cases -/

section cases

/-- One group: half of the collisions scatter, three neutrons are made per collision. -/
noncomputable def reactor (N : Nat) : MGSolve.Prob ℝ where
  x := ⟨((Material.Mat.new 1 1).run [.setSigS 0 0 0 (1 / 2), .setNu 0 0 2, .setSigF 0 0 (3 / 2), .setChi 0 0 1]).finalize, N,
    fun _ => 0, false⟩
  q := fun _ _ => 0
  implicit := false
  scale := 1
  T := fun _ s c => s c / 2
  disc := fun _ _ => 0
  bnd := fun _ _ => 0

theorem reactor_ok (N : Nat) : (scatters (reactor N)).OK where
  fin := by
    unfold scatters reactor Material.Src.ready
    simp only
    rw [Material.C22_finalize_idempotent]
  nn := fun g gp m => by
    simp only [scatters, reactor, Material.Mat.new, Material.Mat.run, Material.Mat.step, Material.Mat.finalize, Material.set3,
      List.foldl_cons, List.foldl_nil]
    split_ifs <;> norm_num
  map := fun _ _ => show 0 < 1 by decide
  add := fun g s t c => add_div _ _ _
  loc := fun g s t h c hc => by
    show s c / 2 = t c / 2
    rw [h c hc]

theorem reactor_couple (N i : Nat) : couple (scatters (reactor N)) 0 0 i = 1 / 2 := by
  simp [couple, scatters, reactor, Material.xs, Material.Mat.new, Material.Mat.run, Material.Mat.step, Material.Mat.finalize, Material.set3]

theorem reactor_emits (N i : Nat) : emits (reactor N).x 0 i = 1 := by
  simp [emits, reactor, Material.Mat.finalize, Material.Mat.run, Material.Mat.step, Material.set2, Material.set3, Material.Mat.new]

theorem reactor_makes (N i : Nat) : makes (reactor N).x 0 i = 3 := by
  simp [makes, reactor, Material.Mat.finalize, Material.Mat.run, Material.Mat.step, Material.set2, Material.set3, Material.Mat.new]
  norm_num

/-- Two directions and a quarter of a wave between open sides. -/
noncomputable def pile : Slab where
  G := 1
  na := 1
  X := Real.pi / 2
  mu := fun _ => 1
  w := fun _ => 1
  m := 1 / 2
  sig := fun _ _ => 1
  coup := fun _ _ _ => 1 / 2
  q := fun _ _ => 0
  bc := fun _ _ => .vacuum
  B := ∅

theorem pile_ok : pile.OK (fun _ => 1) (1 / 2) where
  mu := fun _ _ => one_pos
  w := fun _ _ => one_pos
  norm := by simp [pile]
  upos := fun _ _ => one_pos
  th0 := by norm_num
  less := by norm_num
  tot := fun _ _ _ _ _ => one_pos
  coup := fun _ _ _ _ _ _ _ => by
    show (0 : ℝ) ≤ 1 / 2
    norm_num
  row := fun _ _ _ _ _ => by simp [pile]
  refl := fun _ _ => by simp [pile]
  np := fun _ _ _ => by simp [pile]

theorem pile_bounded : pile.Bounded := ⟨1, fun _ _ _ _ _ => ⟨le_refl _, by simp [pile]⟩⟩

theorem pile_burns : pile.Burns (fun _ _ => 1) (fun _ _ => 3) (fun _ => 1) 3 where
  em0 := fun _ _ _ _ _ => zero_le_one
  fi0 := fun _ _ _ _ _ => by norm_num
  b0 := by norm_num
  row := fun _ _ _ _ _ => by simp [pile]
  sides := fun _ _ => Or.inl rfl

/-- Its angular fluxes are a sine and a cosine, and the factor is two. -/
theorem pile_factor : pile.Factor (fun _ _ => 1) (fun _ _ => 3) 2 (fun _ o _ x => if o = 0 then Real.sin x else Real.cos x) where
  pos := by norm_num
  exact :=
    { cont := fun g _ o _ a _ => by
        by_cases h : o = 0
        · simp only [h, if_true]
          exact Real.continuous_sin.continuousOn
        · simp only [h, if_false]
          exact Real.continuous_cos.continuousOn
      eq := fun g hg o ho a ha x _ _ => by
        obtain rfl | rfl : o = 0 ∨ o = 1 := by omega
        · refine ⟨Real.cos x, Real.hasDerivAt_sin x, ?_⟩
          simp [crit, pile, Slab.flux, dir, sum_range_succ]
          ring
        · refine ⟨-Real.sin x, Real.hasDerivAt_cos x, ?_⟩
          simp [crit, pile, Slab.flux, dir, sum_range_succ]
          ring
      vacuum := fun g hg s hs _ a ha => by
        obtain rfl | rfl : s = 0 ∨ s = 1 := by omega
        · simp [place]
        · simp [place, crit, pile]
      reflect := fun _ _ _ _ h => by simp [crit, pile] at h
      given := fun _ _ _ _ _ h => by simp [crit, pile] at h }
  flux := fun g _ x hx => by
    have hx : 0 ≤ x ∧ x ≤ Real.pi / 2 := hx
    have e : pile.flux (fun _ o _ x => if o = 0 then Real.sin x else Real.cos x) g x = Real.sin x + Real.cos x := by
      simp [Slab.flux, pile, sum_range_succ]
    rw [e]
    have h1 : 0 ≤ Real.sin x := Real.sin_nonneg_of_nonneg_of_le_pi hx.1 (by linarith [Real.pi_pos])
    have h2 : 0 ≤ Real.cos x := Real.cos_nonneg_of_neg_pi_div_two_le_of_le (by linarith [Real.pi_pos]) hx.2
    nlinarith [Real.sin_sq_add_cos_sq x]

theorem pile_loaded (N : Nat) (hN : 0 < N) :
    Loaded pile (fun _ _ => 1) (fun _ _ => 3) (reactor N) (fun _ _ => 1) (fun _ => Real.pi / 2 / N) where
  mesh :=
    { ok := reactor_ok N
      groups := rfl
      cells := hN
      pos := fun _ _ => by
        have := Real.pi_pos
        positivity
      len := by
        have : (0 : ℝ) < N := Nat.cast_pos.2 hN
        simp only [edge, scatters, reactor, pile, sum_const, card_range, nsmul_eq_mul]
        field_simp
      data := fun i _ x _ => ⟨Set.notMem_empty _, fun g hg => ⟨rfl, rfl, fun gp hgp => by
        obtain rfl : g = 0 := Nat.lt_one_iff.1 hg
        obtain rfl : gp = 0 := Nat.lt_one_iff.1 hgp
        exact (reactor_couple N i).symm⟩⟩ }
  fuel := fun i _ x _ g hg => by
    obtain rfl : g = 0 := Nat.lt_one_iff.1 hg
    exact ⟨(reactor_emits N i).symm, (reactor_makes N i).symm⟩

theorem reactor_fissile (N i : Nat) (hi : i < N) : Fissile (reactor N).x i :=
  ⟨hi, 0, (by show 0 < 1; decide), by rw [reactor_makes]; norm_num⟩

theorem reactor_seeded (N : Nat) (hN : 0 < N) : Seeded (reactor N).x := by
  refine ⟨0, reactor_fissile N 0 hN, ?_⟩
  change ∑ g ∈ range 1, makes (reactor N).x g 0 ≠ 0
  rw [sum_range_one, reactor_makes]
  norm_num

theorem reactor_linked {F : Type} (N : Nat) (W : Nat → WGReflect.Prob F ℝ) : Linked (⟨reactor N, W⟩ : Prob F ℝ) := by
  intro c _ c' _
  exact ⟨0, (by show 0 < 1; decide), (by show emits (reactor N).x 0 c ≠ 0; rw [reactor_emits]; norm_num), 0, (by show 0 < 1; decide),
    (by show makes (reactor N).x 0 c' ≠ 0; rw [reactor_makes]; norm_num), Relation.ReflTransGen.refl⟩

/-- Power iteration with step differencing and diamond differencing in turn finds a factor near two in fine meshes. -/
example (ε : ℝ) (hε : 0 < ε) : ∃ N0 : Nat, ∀ N : Nat, N0 < N → ∃ T,
    Exactly (pile.prob (reactor N) (fun _ _ i => if i % 2 = 0 then sd1 1 (Real.pi / 2 / N) 1 else dd1 1 (Real.pi / 2 / N) 1) true [0, 1])
      pile.w (eqs (reactor N) (fun _ _ i => if i % 2 = 0 then sd1 1 (Real.pi / 2 / N) 1 else dd1 1 (Real.pi / 2 / N) 1)) T ∧
    ∀ phi0, ∃ t0 > 0, ∀ tol, 0 < tol → tol ≤ t0 → ∃ n0, ∀ n, n0 ≤ n → ∃ r,
      (power (pile.prob (reactor N) (fun _ _ i => if i % 2 = 0 then sd1 1 (Real.pi / 2 / N) 1 else dd1 1 (Real.pi / 2 / N) 1) true [0, 1])
        T n tol).run phi0 = some r ∧ r.warned = false ∧ |r.keff - 2| < ε := by
  obtain ⟨h, hh, H⟩ := C137_converges pile_ok pile_bounded pile_burns pile_factor ε hε
  obtain ⟨N0, hN0⟩ := exists_nat_gt (Real.pi / 2 / h)
  refine ⟨N0, fun N hN => ?_⟩
  have hNpos : 0 < N := by omega
  have hNr : (0 : ℝ) < N := Nat.cast_pos.2 hNpos
  refine H (pile_loaded N hNpos) (fun g a i => ?_) (fun i _ => ?_) true (by decide) (reactor_seeded N hNpos) (reactor_linked N _)
  · by_cases h : i % 2 = 0
    · exact Or.inr (Or.inl (if_pos h))
    · exact Or.inl (if_neg h)
  · have : (N0 : ℝ) < N := Nat.cast_lt.2 hN
    rw [div_le_iff₀ hNr]
    rw [div_lt_iff₀ hh] at hN0
    nlinarith

end cases

end Detran.MGReflect.Slab
