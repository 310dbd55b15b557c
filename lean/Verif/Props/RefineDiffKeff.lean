import Verif.Props.RefineDiff

/-!
# Refining the mesh of a diffusing slab that multiplies (C139)

The specification is the eigenvalue problem of the diffusion equation of a slab, as differential equations.
-/

namespace Detran.Diffusion.Rod

open Detran.Matrix Finset
open Detran.MGReflect.Slab (edge edge_succ floor_of ceil_of)
open Detran.EigenPI (Solver Data Fissile Mode Seeded emits makes fop fop_eq)

/-- The slab with a fission source: fluxes of group `gp` make fissions at the rate `fi gp x`, these emit neutrons into group `g` at
    the rate `em g x`, and all of them are divided by `k`; nothing comes in at the sides. -/
noncomputable def crit (S : Rod) (em fi : Nat → ℝ → ℝ) (k : ℝ) : Rod :=
  { S with
    coup := fun g gp x => S.coup g gp x + 1 / k * (em g x * fi gp x)
    jin := fun _ _ => 0 }

/-- `phi` and `J` are fluxes and currents of the slab that keep themselves up when fission neutrons are divided by `k`, and the
    fluxes are positive. -/
structure Factor (S : Rod) (em fi : Nat → ℝ → ℝ) (k : ℝ) (phi J : Nat → ℝ → ℝ) : Prop where
  pos : 0 < k
  exact : (S.crit em fi k).Exact phi J
  flux : ∀ g < S.G, ∀ x ∈ Set.Icc 0 S.X, 0 < phi g x

/-- Fission data that are not negative and bounded by the collisions (to any extent). -/
structure Burns (S : Rod) (em fi : Nat → ℝ → ℝ) (u : Nat → ℝ) (b : ℝ) : Prop where
  em0 : ∀ g < S.G, ∀ x ∈ Set.Ioo 0 S.X, x ∉ S.B → 0 ≤ em g x
  fi0 : ∀ g < S.G, ∀ x ∈ Set.Ioo 0 S.X, x ∉ S.B → 0 ≤ fi g x
  b0 : 0 ≤ b
  row : ∀ g < S.G, ∀ x ∈ Set.Ioo 0 S.X, x ∉ S.B → ∑ gp ∈ range S.G, em g x * fi gp x * u gp ≤ b * (S.sig g x * u g)

/-- A problem of the code, with fission outside the operator, that is the slab cut into cells. -/
structure Loaded (S : Rod) (em fi : Nat → ℝ → ℝ) (L : Loss ℝ) : Prop where
  ok : (L.fed fun _ _ => 0).OK
  outside : L.fission = false
  pos : L.Pos
  mesh : S.Mesh L L.inXs fun _ _ => 0
  fuel : ∀ i < L.M.nx, ∀ x ∈ Set.Ioo (edge (L.M.h 0) i) (edge (L.M.h 0) (i + 1)), ∀ g < S.G, em g x = emits L.src g i ∧ fi g x = makes L.src g i

section
variable {S : Rod} {em fi : Nat → ℝ → ℝ} {u : Nat → ℝ} {th b k : ℝ} {L : Loss ℝ}

theorem pre_crit (hS : S.OK u th) (hB : S.Burns em fi u b) (hk : 0 < k) : (S.crit em fi k).Pre u (th + b / k) where
  upos := hS.upos
  th0 := by
    have := hS.th0
    have := hB.b0
    positivity
  dif := hS.dif
  tot := hS.tot
  coup := fun g hg gp hgp x hx hx' => by
    have h1 := hS.coup g hg gp hgp x hx hx'
    have h2 := hB.em0 g hg x hx hx'
    have h3 := hB.fi0 gp hgp x hx hx'
    show 0 ≤ S.coup g gp x + 1 / k * (em g x * fi gp x)
    positivity
  row := fun g hg x hx hx' => by
    have h1 := hS.row g hg x hx hx'
    have h2 := mul_le_mul_of_nonneg_left (hB.row g hg x hx hx') (one_div_pos.2 hk).le
    show ∑ gp ∈ range S.G, (S.coup g gp x + 1 / k * (em g x * fi gp x)) * u gp ≤ (th + b / k) * (S.sig g x * u g)
    have e : ∑ gp ∈ range S.G, (S.coup g gp x + 1 / k * (em g x * fi gp x)) * u gp =
        ∑ gp ∈ range S.G, S.coup g gp x * u gp + 1 / k * ∑ gp ∈ range S.G, em g x * fi gp x * u gp := by
      rw [mul_sum, ← sum_add_distrib]
      exact sum_congr rfl fun _ _ => by ring
    rw [e]
    refine (add_le_add h1 h2).trans (le_of_eq ?_)
    field_simp

theorem Loaded.crit (hL : S.Loaded em fi L) (k : ℝ) :
    (S.crit em fi k).Mesh L (fun g gp i => L.inXs g gp i + 1 / k * (emits L.src g i * makes L.src gp i)) fun _ _ => 0 where
  line := hL.mesh.line
  groups := hL.mesh.groups
  cells := hL.mesh.cells
  pos := hL.mesh.pos
  len := hL.mesh.len
  data := fun i hi x hx => by
    obtain ⟨hB, hd⟩ := hL.mesh.data i hi x hx
    refine ⟨hB, fun g hg => ⟨(hd g hg).1, (hd g hg).2.1, (hd g hg).2.2.1, fun gp hgp => ?_⟩⟩
    show S.coup g gp x + 1 / k * (em g x * fi gp x) = _
    rw [(hd g hg).2.2.2 gp hgp, (hL.fuel i hi x hx g hg).1, (hL.fuel i hi x hx gp hgp).2]
  side := hL.mesh.side

theorem Loaded.sub (hS : S.OK u th) (hL : S.Loaded em fi L) : Subcritical L u where
  ok := hL.ok
  outside := hL.outside
  pos := hL.pos
  weak := weak (F := L.fed fun _ _ => 0) hS hL.ok hL.mesh

theorem Loaded.data (hL : S.Loaded em fi L) (hB : S.Burns em fi u b) : Data L.src where
  emits := fun g hg c hc => by
    have hg : g < S.G := by rw [← hL.mesh.groups]; exact hg
    have hc : c < L.M.nx := by rw [← hL.mesh.line.size]; exact hc
    obtain ⟨x, hx⟩ := Set.nonempty_Ioo.2 (hL.mesh.edge_lt hc)
    rw [← (hL.fuel c hc x hx g hg).1]
    exact hB.em0 g hg x (hL.mesh.sub' hc hx) (hL.mesh.data c hc x hx).1
  makes := fun g hg c hc => by
    have hg : g < S.G := by rw [← hL.mesh.groups]; exact hg
    have hc : c < L.M.nx := by rw [← hL.mesh.line.size]; exact hc
    obtain ⟨x, hx⟩ := Set.nonempty_Ioo.2 (hL.mesh.edge_lt hc)
    rw [← (hL.fuel c hc x hx g hg).2]
    exact hB.fi0 g hg x (hL.mesh.sub' hc hx) (hL.mesh.data c hc x hx).1

/-- Fluxes that nearly belong to a mesh with fission divided by `k` put its factor near `k`. -/
theorem factor_near (hS : S.OK u th) (hB : S.Burns em fi u b) (hL : S.Loaded em fi L) {srt : List (Trip ℝ) → List (Trip ℝ)} (hs : IsSort srt)
    {Cm : CSR ℝ} {bs : List Bool} (hC : L.sys.make srt = .ok (some Cm, bs)) (hk : 0 < k) {ε δ : ℝ} (hε : 0 ≤ ε) {f : Nat → Nat → ℝ}
    (hN : (S.crit em fi k).Nearly L (fun g gp i => L.inXs g gp i + 1 / k * (emits L.src g i * makes L.src gp i)) (fun _ _ => 0) u ε f)
    (hf : ∀ g < S.G, ∀ i < L.M.nx, 0 < f g i) (hδ : ∀ g < S.G, ∀ i < L.M.nx, ε / (1 - th) * u g ≤ δ * f g i) {k' : ℝ} (hk' : 0 < k')
    {x : Nat → ℝ} (hE : DiffEigen L Cm k' x) (hp : ∀ c, Fissile L.src c → 0 < L.dens x c) (hne : ∃ c, Fissile L.src c) :
    |k' - k| ≤ δ * k := by
  have hSub := hL.sub hS
  have hd := hL.data hB
  have hG := hL.mesh.groups
  have hsz := hL.mesh.line.size
  obtain ⟨T, hT⟩ := C133_diffusion_fluxes hSub srt hs hC
  have hmode := C133_diffusion_mode hSub srt hs hC hT hk'.ne' hE
  -- one generation
  let d : Nat → ℝ := fun c => ∑ g ∈ range L.mat.G, makes L.src g c * f g c
  obtain ⟨z, z1, _, _, z2⟩ := finds_lhs hSub srt hs hC hT fun g c => 1 / k * (d c * emits L.src g c)
  have hpos : ∀ g c, L.pos g c = c + g * L.M.nx := fun g c => (hSub.ok.pos g c).trans (by show c + g * L.M.size = _; rw [hsz])
  have hst := close (F := L.fed fun _ _ => 0) hS hL.ok hL.pos hL.mesh hε (x := z) (y := f)
    (r := fun g c => 1 / k * (d c * emits L.src g c)) (fun g hg i hi => z2 g (by rw [hG]; exact hg) i (by rw [hsz]; exact hi))
    fun g hg i hi => by
      have k1 := hN g hg i hi
      have k2 := lhs_vec (F := L.fed fun _ _ => 0) hL.ok hL.mesh f (g := g) hi
      rw [k2]
      refine le_of_eq_of_le (congrArg abs ?_) k1
      unfold resid net fed
      have e : ∑ gp ∈ range (S.crit em fi k).G, (L.inXs g gp i + 1 / k * (emits L.src g i * makes L.src gp i)) * f gp i =
          ∑ gp ∈ range S.G, L.inXs g gp i * f gp i + 1 / k * (d i * emits L.src g i) := by
        show ∑ gp ∈ range S.G, _ = _
        simp only [d, add_mul, sum_add_distrib]
        rw [hG, sum_mul, mul_sum]
        congr 1
        exact sum_congr rfl fun _ _ => by ring
      rw [e]
      simp only [crit, mul_zero, zero_div, ite_self, sub_zero]
      show (L.low g (f g) i + L.high g (f g) i) / L.M.h 0 i - (∑ gp ∈ range S.G, L.inXs g gp i * f gp i - L.mat.sigT g (L.mmap i) * f g i) - _ = _
      ring
  have two : ∀ g < L.mat.G, ∀ c < L.M.size, (1 - δ) * f g c ≤ T (fun g c => 1 / k * (d c * emits L.src g c)) g c ∧
      T (fun g c => 1 / k * (d c * emits L.src g c)) g c ≤ (1 + δ) * f g c := by
    intro g hg c hc
    rw [z1 g hg c hc, hpos]
    rw [hsz] at hc
    rw [hG] at hg
    have h1 := abs_le.1 ((hst g hg c hc).trans (hδ g hg c hc))
    have h1 : -(δ * f g c) ≤ z (c + g * L.M.nx) - f g c ∧ z (c + g * L.M.nx) - f g c ≤ δ * f g c := h1
    constructor <;> linarith [h1.1, h1.2]
  have hgen : ∀ c < L.M.size, fop L.src T d c = k * ∑ g ∈ range L.mat.G,
      makes L.src g c * T (fun g c => 1 / k * (d c * emits L.src g c)) g c := by
    intro c hc
    rw [fop_eq L.src T _ hc, mul_sum]
    refine sum_congr rfl fun g hg => ?_
    have h2 := finds_smul hSub srt hs hC hT k (fun g c => 1 / k * (d c * emits L.src g c)) (mem_range.1 hg) hc
    have e2 : (fun g c => d c * emits L.src g c) = fun g c => k * (1 / k * (d c * emits L.src g c)) := by
      funext g c
      field_simp
    rw [e2, h2]
    ring
  have hnn : ∀ g < L.mat.G, ∀ c < L.M.size, 0 ≤ makes L.src g c := hd.makes
  have hfp : ∀ g < L.mat.G, ∀ c < L.M.size, 0 < f g c := fun g hg c hc => hf g (by rw [← hG]; exact hg) c (by rw [← hsz]; exact hc)
  have q := EigenPI.C133_quotients (C133_diffusion_solver hSub srt hs hC hT) hd (lo := k * (1 - δ)) (hi := k * (1 + δ))
    (f := d) hmode hk' hp hne (fun c hc => ?_) (fun c hc hF => ?_) (fun c hc => ?_) fun c hc => ?_
  · rw [abs_le]
    constructor <;> linarith [q.1, q.2]
  · obtain ⟨hc, g, hg, hm⟩ := hc
    refine sum_pos' (fun g hg => ?_) ⟨g, mem_range.2 hg, ?_⟩
    · have hg := mem_range.1 hg
      exact mul_nonneg (hnn g hg c hc) (hfp g hg c hc).le
    · exact mul_pos (lt_of_le_of_ne (hnn g hg c hc) hm.symm) (hfp g hg c hc)
  · refine sum_eq_zero fun g hg => ?_
    have : makes L.src g c = 0 := by
      by_contra h
      exact hF ⟨hc, g, mem_range.1 hg, h⟩
    rw [this, zero_mul]
  · refine le_trans (le_of_eq ?_) (le_of_le_of_eq (mul_le_mul_of_nonneg_left (sum_le_sum fun g hg =>
      mul_le_mul_of_nonneg_left (two g (mem_range.1 hg) c hc.1).1 (hnn g (mem_range.1 hg) c hc.1)) hk.le) (hgen c hc.1).symm)
    show k * (1 - δ) * ∑ g ∈ range L.mat.G, makes L.src g c * f g c = _
    rw [mul_assoc, mul_sum]
    congr 1
    exact sum_congr rfl fun g _ => by ring
  · refine le_trans (le_of_eq_of_le (hgen c hc.1) (mul_le_mul_of_nonneg_left (sum_le_sum fun g hg =>
      mul_le_mul_of_nonneg_left (two g (mem_range.1 hg) c hc.1).2 (hnn g (mem_range.1 hg) c hc.1)) hk.le)) (le_of_eq ?_)
    show _ = k * (1 + δ) * ∑ g ∈ range L.mat.G, makes L.src g c * f g c
    rw [mul_assoc, mul_sum (a := 1 + δ)]
    congr 1
    exact sum_congr rfl fun g _ => by ring

/-- The fluxes are bounded away from zero. -/
theorem Factor.floor {phi J : Nat → ℝ → ℝ} (hF : S.Factor em fi k phi J) : ∃ c > 0, ∀ g < S.G, ∀ x ∈ Set.Icc 0 S.X, c ≤ phi g x := by
  have one : ∀ g, ∃ c > 0, g < S.G → ∀ x ∈ Set.Icc 0 S.X, c ≤ phi g x := by
    intro g
    by_cases hg : g < S.G
    · rcases (Set.Icc (0 : ℝ) S.X).eq_empty_or_nonempty with he | he
      · refine ⟨1, one_pos, fun _ x hx => ?_⟩
        rw [he] at hx
        exact absurd hx (Set.notMem_empty x)
      · obtain ⟨y, hy, hmin⟩ := isCompact_Icc.exists_isMinOn he (hF.exact.cphi g hg)
        exact ⟨_, hF.flux g hg y hy, fun _ x hx => hmin hx⟩
    · exact ⟨1, one_pos, fun h => absurd h hg⟩
  choose c hc h using one
  obtain ⟨c0, h0, h1⟩ := floor_of (n := S.G) (f := c) fun i _ => hc i
  exact ⟨c0, h0, fun g hg x hx => (h1 g hg).trans (h g hg x hx)⟩

/-- The factor of every mesh that is fine enough is within a constant times the square of the largest cell of the factor of the
    slab. -/
theorem C139_second (hS : S.OK u th) (hT : S.Bounded) (hB : S.Burns em fi u b) {phi J : Nat → ℝ → ℝ}
    (hF : S.Factor em fi k phi J) : ∃ A, ∃ h0 > 0, ∀ {L : Loss ℝ}, S.Loaded em fi L →
    ∀ {srt : List (Trip ℝ) → List (Trip ℝ)}, IsSort srt → ∀ {Cm : CSR ℝ} {bs : List Bool}, L.sys.make srt = .ok (some Cm, bs) →
    ∀ h ≤ h0, (∀ i < L.M.nx, L.M.h 0 i ≤ h) → (∃ c, Fissile L.src c) → ∀ k' > 0, ∀ x, DiffEigen L Cm k' x →
    (∀ c, Fissile L.src c → 0 < L.dens x c) → |k' - k| ≤ A * h ^ 2 := by
  have hP := pre_crit hS hB hF.pos
  have hk := hF.pos
  obtain ⟨T, hT0, A, hA, P, hP0, hb⟩ := bounds hP hT hF.exact
  obtain ⟨U, hU0, hU⟩ := ceil_of S.G u
  obtain ⟨c, hc, hfl⟩ := hF.floor
  have hth := hP.th0
  have hl : 0 < 1 - th := by linarith [hS.less]
  have eX : (S.crit em fi k).X = S.X := rfl
  rcases le_or_gt S.X 0 with hX | hX
  · exact ⟨0, 1, one_pos, fun {L} hL => absurd hL.mesh.X_pos (not_lt.2 hX)⟩
  set E := (1 + (th + b / k)) * T * P / 2 + (1 + (th + b / k)) * ((1 + (th + b / k)) * T ^ 3 * A * S.X + T * P / 4) +
    (1 + (th + b / k)) * T ^ 3 * A / 2 * S.X with hE
  set W := (1 + (th + b / k)) * T ^ 3 * A * S.X + T * P / 2 with hW
  have hE0 : 0 ≤ E := by positivity
  have hW0 : 0 ≤ W := by positivity
  refine ⟨E / (1 - th) * U / (c / 2) * k, min 1 (c / 2 / (W * U + 1)), lt_min one_pos (by positivity),
    fun {L} hL {srt} hs {Cm bs} hC h hh hdx hne k' hk' x hEig hp => ?_⟩
  have hM := hL.crit k
  have h0 : 0 < h := (hM.pos 0 hM.cells).trans_le (hdx 0 hM.cells)
  obtain ⟨f, hN, hf⟩ := near hP hM hF.exact hT0 hA hP0 (hb hM) hdx
  rw [eX] at hN hf
  have hh2 : h ^ 2 ≤ h := by
    have := hh.trans (min_le_left _ _)
    nlinarith
  have hh3 : W * U * h ^ 2 ≤ c / 2 := by
    have := hh.trans (min_le_right _ _)
    rw [le_div_iff₀ (by positivity)] at this
    have h1 : W * U * h ^ 2 ≤ W * U * h := mul_le_mul_of_nonneg_left hh2 (by positivity)
    linarith
  have half : ∀ g < S.G, ∀ i < L.M.nx, c / 2 ≤ f g i := by
    intro g hg i hi
    have h1 : -(W * h ^ 2 * u g) ≤ f g i - phi g ((edge (L.M.h 0) i + edge (L.M.h 0) (i + 1)) / 2) := (abs_le.1 (hf g hg i hi)).1
    have hlt := hM.edge_lt hi
    have h2 := hfl g hg ((edge (L.M.h 0) i + edge (L.M.h 0) (i + 1)) / 2) (hM.sub hi ⟨by linarith, by linarith⟩)
    have h3 : W * h ^ 2 * u g ≤ W * h ^ 2 * U := mul_le_mul_of_nonneg_left (hU g hg) (by positivity)
    have h4 : W * h ^ 2 * U = W * U * h ^ 2 := by ring
    linarith
  have := factor_near hS hB hL hs hC hk (ε := E * h ^ 2) (by positivity) (δ := E * h ^ 2 / (1 - th) * U / (c / 2)) hN
    (fun g hg i hi => (half_pos hc).trans_le (half g hg i hi)) (fun g hg i hi => by
      have h1 := half g hg i hi
      have h2 : E * h ^ 2 / (1 - th) * u g ≤ E * h ^ 2 / (1 - th) * U := mul_le_mul_of_nonneg_left (hU g hg) (by positivity)
      refine h2.trans ?_
      have e : E * h ^ 2 / (1 - th) * U / (c / 2) * f g i = E * h ^ 2 / (1 - th) * U * f g i / (c / 2) := by ring
      rw [e, le_div_iff₀ (half_pos hc)]
      exact mul_le_mul_of_nonneg_left h1 (by positivity)) hk' hEig hp hne
  refine this.trans (le_of_eq (by ring))

/-- On fine meshes power iteration, started with any flux, returns a factor as close to that of the slab as one likes if its tolerance
    is small and iterations suffice. -/
theorem C139_converges (hS : S.OK u th) (hT : S.Bounded) (hB : S.Burns em fi u b) {phi J : Nat → ℝ → ℝ}
    (hF : S.Factor em fi k phi J) (ε : ℝ) (hε : 0 < ε) : ∃ h > 0, ∀ {L : Loss ℝ}, S.Loaded em fi L →
    ∀ {srt : List (Trip ℝ) → List (Trip ℝ)}, IsSort srt → (∀ i < L.M.nx, L.M.h 0 i ≤ h) → L.Linked → Seeded L.src →
    ∃ Cm bs, L.sys.make srt = .ok (some Cm, bs) ∧ ∃ Z, Finds L Cm Z ∧ ∀ phi0, ∃ t0 > 0, ∀ tol, 0 < tol → tol ≤ t0 →
      ∃ n0, ∀ n, n0 ≤ n → ∃ r, (L.power Z n tol).run phi0 = some r ∧ r.warned = false ∧ |r.keff - k| < ε := by
  obtain ⟨A, h0, hh0, H⟩ := C139_second hS hT hB hF
  have hA1 : 0 < |A| + 1 := by positivity
  refine ⟨min h0 (min 1 (ε / 2 / (|A| + 1))), lt_min hh0 (lt_min one_pos (by positivity)), fun {L} hL {srt} hs hdx hlk hsd => ?_⟩
  set h := min h0 (min 1 (ε / 2 / (|A| + 1))) with hdef
  have hpos : 0 < h := lt_min hh0 (lt_min one_pos (by positivity))
  have h2 : h ≤ 1 := (min_le_right _ _).trans (min_le_left _ _)
  have h3 : h ≤ ε / 2 / (|A| + 1) := (min_le_right _ _).trans (min_le_right _ _)
  obtain ⟨Cm, hC, _⟩ := rows L hL.ok.op srt hs
  refine ⟨Cm, _, hC, ?_⟩
  obtain ⟨Fm, hG, _⟩ := C51_rows L.mat L.mmap L.M.size L.adjoint srt hs
  obtain ⟨Z, hZ, k', hk', ⟨x, hx, hxp⟩, _, hrun⟩ := C134_diffusion (hL.sub hS) srt hs hC hG (hL.data hB) hlk hsd
  refine ⟨Z, hZ, fun phi0 => ?_⟩
  have hne : ∃ c, Fissile L.src c := by
    obtain ⟨c, hc, _⟩ := hsd
    exact ⟨c, hc⟩
  have near : |k' - k| ≤ ε / 2 := by
    have k1 := H hL hs hC h (min_le_left _ _) hdx hne k' hk' x
      ((C133_diffusion_matrices (hL.sub hS) srt hs hC hG hk'.ne' x).2 hx) hxp
    refine k1.trans ?_
    calc A * h ^ 2 ≤ |A| * h := by
          have : A * h ^ 2 ≤ |A| * h ^ 2 := mul_le_mul_of_nonneg_right (le_abs_self A) (by positivity)
          refine this.trans (mul_le_mul_of_nonneg_left ?_ (abs_nonneg A))
          nlinarith
      _ ≤ (|A| + 1) * h := by linarith
      _ ≤ (|A| + 1) * (ε / 2 / (|A| + 1)) := mul_le_mul_of_nonneg_left h3 hA1.le
      _ = ε / 2 := by field_simp
  obtain ⟨D, hD0, t0, ht0, hr⟩ := hrun phi0
  refine ⟨min t0 (ε / 4 / D), lt_min ht0 (by positivity), fun tol h1 h2 => ?_⟩
  obtain ⟨n0, hn⟩ := hr tol h1 (h2.trans (min_le_left _ _))
  refine ⟨n0, fun n hn0 => ?_⟩
  obtain ⟨r, e1, e2, e3⟩ := hn n hn0
  refine ⟨r, e1, e2, ?_⟩
  have h3 := h2.trans (min_le_right _ _)
  rw [le_div_iff₀ hD0] at h3
  refine lt_of_le_of_lt (abs_sub_le _ k' _) ?_
  linarith

end

/-! ## Cases -/

section cases

/-- A quarter of pi of fuel in front of a mirror. -/
theorem core_loaded {N : Nat} (hN : 0 < N) :
    (rod (Real.pi / 4) 0).Loaded (fun _ _ => 1) (fun _ _ => 1) (rodLoss 1 (Real.pi / 4) N) where
  ok := by
    refine ⟨rod_loss _ _ N, rfl, fun s hs => ?_, fun s h2 _ => ?_⟩
    · have hs : s < 2 := hs
      show (if s = 1 then (0 : ℝ) else 1) = 0 ∨ (if s = 1 then (0 : ℝ) else 1) = 1 ∧ ∀ g u v, (0 : ℝ) = 0
      interval_cases s <;> simp
    · have h2 : 2 ≤ s := h2
      show (if s = 1 then (0 : ℝ) else 1) = 1
      rw [if_neg (by omega)]
  outside := rfl
  pos := rod_pos _ (by positivity) hN
  mesh := rod_mesh _ _ _ (by positivity) hN
  fuel := fun i _ x _ g hg => by
    simp [emits, makes, Loss.src, rodLoss, rodMat, Material.Mat.finalize]

theorem core_burns : (rod (Real.pi / 4) 0).Burns (fun _ _ => 1) (fun _ _ => 1) (fun _ => 1) 1 where
  em0 := fun _ _ _ _ _ => zero_le_one
  fi0 := fun _ _ _ _ _ => zero_le_one
  b0 := zero_le_one
  row := fun _ _ _ _ _ => by simp [rod]

/-- Its flux is a cosine and it is critical. -/
theorem core_factor : (rod (Real.pi / 4) 0).Factor (fun _ _ => 1) (fun _ _ => 1) 1 (fun _ => Real.cos) fun _ x => Real.sin x / 2 where
  pos := one_pos
  exact :=
    { cphi := fun _ _ => Real.continuous_cos.continuousOn
      cJ := fun _ _ => (Real.continuous_sin.div_const 2).continuousOn
      fick := fun _ _ x _ _ => ⟨_, Real.hasDerivAt_cos x, by show Real.sin x / 2 = -(1 / 2 * -Real.sin x); ring⟩
      balance := fun _ _ x _ _ => ⟨_, (Real.hasDerivAt_sin x).div_const 2, by
        show Real.cos x / 2 + 1 * Real.cos x = 0 + ∑ gp ∈ range 1, (1 / 2 + 1 / 1 * (1 * 1)) * Real.cos x
        rw [sum_range_one]
        ring⟩
      closed := fun g _ s hs h => by
        have : s = 0 := by
          interval_cases s
          · rfl
          · simp [crit, rod] at h
        subst this
        show Real.sin (if 0 = 0 then 0 else Real.pi / 4) / 2 = 0
        simp
      given := fun g _ s hs h => by
        have : s = 1 := by simpa [crit, rod] using h
        subst this
        show Real.cos (if 1 = 0 then 0 else Real.pi / 4) / 4 + (if 1 = 0 then 1 else -1) * (Real.sin (if 1 = 0 then 0 else Real.pi / 4) / 2) / 2 = 0
        simp only [one_ne_zero, if_false, Real.cos_pi_div_four, Real.sin_pi_div_four]
        ring }
  flux := fun g _ x hx => by
    have hx : 0 ≤ x ∧ x ≤ Real.pi / 4 := hx
    have := Real.pi_pos
    exact Real.cos_pos_of_mem_Ioo ⟨by linarith, by linarith⟩

theorem core_makes' (N g c : Nat) : makes (rodLoss 1 (Real.pi / 4) N).src g c = 1 := by
  simp [makes, Loss.src, rodLoss, rodMat, Material.Mat.finalize]

theorem core_emits' (N g c : Nat) : emits (rodLoss 1 (Real.pi / 4) N).src g c = 1 := by
  simp [emits, Loss.src, rodLoss, rodMat, Material.Mat.finalize]

/-- Power iteration finds factors near one on fine meshes. -/
example (ε : ℝ) (hε : 0 < ε) {srt : List (Trip ℝ) → List (Trip ℝ)} (hs : IsSort srt) : ∃ N0 : Nat, ∀ N : Nat, N0 < N →
    ∃ Cm bs, (rodLoss 1 (Real.pi / 4) N).sys.make srt = .ok (some Cm, bs) ∧ ∃ Z, Finds (rodLoss 1 (Real.pi / 4) N) Cm Z ∧
    ∀ phi0, ∃ t0 > 0, ∀ tol, 0 < tol → tol ≤ t0 → ∃ n0, ∀ n, n0 ≤ n → ∃ r,
      ((rodLoss 1 (Real.pi / 4) N).power Z n tol).run phi0 = some r ∧ r.warned = false ∧ |r.keff - 1| < ε := by
  obtain ⟨h, hh, H⟩ := C139_converges (rod_ok _ _) (rod_bounded _ _) core_burns core_factor ε hε
  obtain ⟨N0, hN0⟩ := exists_nat_gt (Real.pi / 4 / h)
  refine ⟨N0, fun N hN => ?_⟩
  have hNpos : 0 < N := by omega
  have hNr : (0 : ℝ) < N := Nat.cast_pos.2 hNpos
  have size : (rodLoss 1 (Real.pi / 4) N).M.size = N := by
    show N * 1 * 1 = N
    omega
  refine H (core_loaded hNpos) hs (fun i _ => ?_) (fun c _ c' _ => ?_) ⟨0, ⟨by show 0 < N * 1 * 1; omega, 0, by show 0 < 1; decide, ?_⟩, ?_⟩
  · have : (N0 : ℝ) < N := Nat.cast_lt.2 hN
    show Real.pi / 4 / N ≤ h
    rw [div_le_iff₀ hNr]
    rw [div_lt_iff₀ hh] at hN0
    nlinarith
  · exact ⟨0, by show 0 < 1; decide, by rw [core_emits']; norm_num, 0, by show 0 < 1; decide, by rw [core_makes']; norm_num,
      Relation.ReflTransGen.refl⟩
  · rw [core_makes']
    norm_num
  · show ∑ g ∈ range 1, makes (rodLoss 1 (Real.pi / 4) N).src g 0 ≠ 0
    rw [sum_range_one, core_makes']
    norm_num

end cases

end Detran.Diffusion.Rod
