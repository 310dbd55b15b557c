import Verif.Lemmas.RefineDiff
import Mathlib.Analysis.SpecialFunctions.Trigonometric.Basic
import Mathlib.Analysis.SpecialFunctions.Trigonometric.Deriv
import Mathlib.Analysis.SpecialFunctions.Trigonometric.DerivHyp

/-!
# Refining the mesh of a diffusing slab (C138)

The specification is the multigroup diffusion equation of a slab as a pair of differential equations for flux and current; nothing of it
is taken from the code.
-/

namespace Detran.Diffusion

open Detran.Matrix Finset
open Detran.MGReflect.Slab (edge edge_succ floor_of ceil_of)
open Detran.MGReflect (trapezoid middle)

/-- A slab from `0` to `X`: diffusion coefficients, total cross sections, transfer between groups and sources as functions of
    position, which sides are open (0 left, 1 right) with the partial currents that come in there, and the places where the
    data change. -/
structure Rod where
  G : Nat
  X : ℝ
  D : Nat → ℝ → ℝ
  sig : Nat → ℝ → ℝ
  coup : Nat → Nat → ℝ → ℝ
  q : Nat → ℝ → ℝ
  opened : Nat → Bool
  jin : Nat → Nat → ℝ
  B : Set ℝ

namespace Rod

/-- Where a side is. -/
noncomputable def place (S : Rod) (s : Nat) : ℝ := if s = 0 then 0 else S.X

/-- The direction into the slab. -/
noncomputable def inward (s : Nat) : ℝ := if s = 0 then 1 else -1

/-- Fluxes and currents of the slab: both are continuous, Fick's law and the balance hold where the data do not change, no current
    crosses a closed side, and the partial current into the slab at an open side is the given one. -/
structure Exact (S : Rod) (phi J : Nat → ℝ → ℝ) : Prop where
  cphi : ∀ g < S.G, ContinuousOn (phi g) (Set.Icc 0 S.X)
  cJ : ∀ g < S.G, ContinuousOn (J g) (Set.Icc 0 S.X)
  fick : ∀ g < S.G, ∀ x ∈ Set.Ioo 0 S.X, x ∉ S.B → ∃ d, HasDerivAt (phi g) d x ∧ J g x = -(S.D g x * d)
  balance : ∀ g < S.G, ∀ x ∈ Set.Ioo 0 S.X, x ∉ S.B → ∃ d, HasDerivAt (J g) d x ∧
    d + S.sig g x * phi g x = S.q g x + ∑ gp ∈ range S.G, S.coup g gp x * phi gp x
  closed : ∀ g < S.G, ∀ s < 2, S.opened s = false → J g (S.place s) = 0
  given : ∀ g < S.G, ∀ s < 2, S.opened s = true → phi g (S.place s) / 4 + inward s * J g (S.place s) / 2 = S.jin s g

/-- What is asked of the data: scattering (and fission) with some group fluxes `u` no more than `th` times the collisions. -/
structure Pre (S : Rod) (u : Nat → ℝ) (th : ℝ) : Prop where
  upos : ∀ g < S.G, 0 < u g
  th0 : 0 ≤ th
  dif : ∀ g < S.G, ∀ x ∈ Set.Ioo 0 S.X, x ∉ S.B → 0 < S.D g x
  tot : ∀ g < S.G, ∀ x ∈ Set.Ioo 0 S.X, x ∉ S.B → 0 < S.sig g x
  coup : ∀ g < S.G, ∀ gp < S.G, ∀ x ∈ Set.Ioo 0 S.X, x ∉ S.B → 0 ≤ S.coup g gp x
  row : ∀ g < S.G, ∀ x ∈ Set.Ioo 0 S.X, x ∉ S.B → ∑ gp ∈ range S.G, S.coup g gp x * u gp ≤ th * (S.sig g x * u g)

/-- Scattering (and fission) is less than a fraction of the collisions. -/
structure OK (S : Rod) (u : Nat → ℝ) (th : ℝ) : Prop extends S.Pre u th where
  less : th < 1

/-- The data are bounded, diffusion coefficients from below. -/
def Bounded (S : Rod) : Prop := ∃ T > 0, ∀ g < S.G, ∀ x ∈ Set.Ioo 0 S.X, x ∉ S.B → S.sig g x ≤ T ∧ 1 ≤ T * S.D g x ∧ |S.q g x| ≤ T

/-- The cells of the mesh make up the slab, and their materials, transfer `C` and sources `Q` are those of the slab inside each. -/
structure Mesh (S : Rod) (L : Loss ℝ) (C : Nat → Nat → Nat → ℝ) (Q : Nat → Nat → ℝ) : Prop where
  line : L.Line
  groups : L.mat.G = S.G
  cells : 0 < L.M.nx
  pos : ∀ i < L.M.nx, 0 < L.M.h 0 i
  len : edge (L.M.h 0) L.M.nx = S.X
  data : ∀ i < L.M.nx, ∀ x ∈ Set.Ioo (edge (L.M.h 0) i) (edge (L.M.h 0) (i + 1)), x ∉ S.B ∧ ∀ g < S.G, S.D g x = L.dc g i ∧
    S.sig g x = L.mat.sigT g (L.mmap i) ∧ S.q g x = Q g i ∧ ∀ gp < S.G, S.coup g gp x = C g gp i
  side : ∀ s < 2, L.al s = if S.opened s then 0 else 1

section
variable {S : Rod} {u : Nat → ℝ} {th : ℝ} {L : Loss ℝ} {C : Nat → Nat → Nat → ℝ} {Q : Nat → Nat → ℝ}

theorem Mesh.edge_mono (hM : S.Mesh L C Q) {i j : Nat} (hij : i ≤ j) (hj : j ≤ L.M.nx) : edge (L.M.h 0) i ≤ edge (L.M.h 0) j := by
  induction j, hij using Nat.le_induction with
  | base => exact le_refl _
  | succ j _ ih =>
    rw [edge_succ]
    linarith [ih (by omega), hM.pos j (by omega)]

theorem Mesh.edge_lt (hM : S.Mesh L C Q) {i : Nat} (hi : i < L.M.nx) : edge (L.M.h 0) i < edge (L.M.h 0) (i + 1) := by
  rw [edge_succ]
  linarith [hM.pos i hi]

theorem edge_zero (dx : Nat → ℝ) : edge dx 0 = 0 := by simp [edge]

theorem Mesh.at (hM : S.Mesh L C Q) {i : Nat} (hi : i ≤ L.M.nx) : edge (L.M.h 0) i ∈ Set.Icc 0 S.X := by
  have h0 := hM.edge_mono (Nat.zero_le i) hi
  have h1 := hM.edge_mono hi (le_refl _)
  rw [hM.len] at h1
  rw [edge_zero] at h0
  exact ⟨h0, h1⟩

/-- Cells lie in the slab. -/
theorem Mesh.sub (hM : S.Mesh L C Q) {i : Nat} (hi : i < L.M.nx) :
    Set.Icc (edge (L.M.h 0) i) (edge (L.M.h 0) (i + 1)) ⊆ Set.Icc 0 S.X :=
  Set.Icc_subset_Icc (hM.at hi.le).1 (hM.at hi).2

theorem Mesh.sub' (hM : S.Mesh L C Q) {i : Nat} (hi : i < L.M.nx) :
    Set.Ioo (edge (L.M.h 0) i) (edge (L.M.h 0) (i + 1)) ⊆ Set.Ioo 0 S.X :=
  Set.Ioo_subset_Ioo (hM.at hi.le).1 (hM.at hi).2

theorem Mesh.X_pos (hM : S.Mesh L C Q) : 0 < S.X := by
  have := hM.edge_lt hM.cells
  rw [edge_zero] at this
  exact this.trans_le (hM.at hM.cells).2

theorem Mesh.inside (hM : S.Mesh L C Q) {i : Nat} (hi : i < L.M.nx) : ∃ x ∈ Set.Ioo 0 S.X, x ∉ S.B ∧ ∀ g < S.G, S.D g x = L.dc g i ∧
    S.sig g x = L.mat.sigT g (L.mmap i) ∧ S.q g x = Q g i ∧ ∀ gp < S.G, S.coup g gp x = C g gp i := by
  obtain ⟨x, hx⟩ := Set.nonempty_Ioo.2 (hM.edge_lt hi)
  exact ⟨x, hM.sub' hi hx, hM.data i hi x hx⟩

theorem Mesh.tot (hM : S.Mesh L C Q) (hS : S.Pre u th) {g i : Nat} (hg : g < S.G) (hi : i < L.M.nx) :
    0 < L.mat.sigT g (L.mmap i) := by
  obtain ⟨x, hx, hB, h⟩ := hM.inside hi
  rw [← (h g hg).2.1]
  exact hS.tot g hg x hx hB

theorem Mesh.dif (hM : S.Mesh L C Q) (hS : S.Pre u th) {g i : Nat} (hg : g < S.G) (hi : i < L.M.nx) : 0 < L.dc g i := by
  obtain ⟨x, hx, hB, h⟩ := hM.inside hi
  rw [← (h g hg).1]
  exact hS.dif g hg x hx hB

theorem Mesh.coup (hM : S.Mesh L C Q) (hS : S.Pre u th) {g gp i : Nat} (hg : g < S.G) (hgp : gp < S.G) (hi : i < L.M.nx) :
    0 ≤ C g gp i := by
  obtain ⟨x, hx, hB, h⟩ := hM.inside hi
  rw [← (h g hg).2.2.2 gp hgp]
  exact hS.coup g hg gp hgp x hx hB

theorem Mesh.row (hM : S.Mesh L C Q) (hS : S.Pre u th) {g i : Nat} (hg : g < S.G) (hi : i < L.M.nx) :
    ∑ gp ∈ range S.G, C g gp i * u gp ≤ th * (L.mat.sigT g (L.mmap i) * u g) := by
  obtain ⟨x, hx, hB, h⟩ := hM.inside hi
  have := hS.row g hg x hx hB
  rw [(h g hg).2.1] at this
  refine le_trans (le_of_eq (sum_congr rfl fun gp hgp => ?_)) this
  rw [(h g hg).2.2.2 gp (mem_range.1 hgp)]

/-- Gain less loss of a cell. -/
noncomputable def net (S : Rod) (L : Loss ℝ) (C : Nat → Nat → Nat → ℝ) (i : Nat) (F : Nat → ℝ) (g : Nat) : ℝ :=
  ∑ gp ∈ range S.G, C g gp i * F gp - L.mat.sigT g (L.mmap i) * F g

theorem net_le (hS : S.Pre u th) (hM : S.Mesh L C Q) {i : Nat} (hi : i < L.M.nx) {F : Nat → ℝ} {η : ℝ} (hη : 0 ≤ η)
    (h : ∀ g < S.G, |F g| ≤ η * u g) {g : Nat} (hg : g < S.G) :
    |net S L C i F g| ≤ (1 + th) * η * (L.mat.sigT g (L.mmap i) * u g) := by
  have hsg := hM.tot hS hg hi
  have h1 : |∑ gp ∈ range S.G, C g gp i * F gp| ≤ η * ∑ gp ∈ range S.G, C g gp i * u gp := by
    rw [mul_sum]
    refine (abs_sum_le_sum_abs _ _).trans (sum_le_sum fun gp hgp => ?_)
    have hgp := mem_range.1 hgp
    have hc := hM.coup hS hg hgp hi
    rw [abs_mul, abs_of_nonneg hc]
    exact (mul_le_mul_of_nonneg_left (h gp hgp) hc).trans (le_of_eq (by ring))
  have h2 := mul_le_mul_of_nonneg_left (hM.row hS hg hi) hη
  have h3 : |L.mat.sigT g (L.mmap i) * F g| ≤ L.mat.sigT g (L.mmap i) * (η * u g) := by
    rw [abs_mul, abs_of_pos hsg]
    exact mul_le_mul_of_nonneg_left (h g hg) hsg.le
  unfold net
  exact (abs_sub _ _).trans ((add_le_add (h1.trans h2) h3).trans (le_of_eq (by ring)))

theorem net_sub (i : Nat) (F F' : Nat → ℝ) (g : Nat) : net S L C i F g - net S L C i F' g = net S L C i (fun g => F g - F' g) g := by
  unfold net
  simp only [mul_sub, sum_sub_distrib]
  ring

theorem net_deriv (i : Nat) {F : Nat → ℝ → ℝ} {F' : Nat → ℝ} {x : ℝ} (h : ∀ g < S.G, HasDerivAt (F g) (F' g) x) {g : Nat} (hg : g < S.G) :
    HasDerivAt (fun x => net S L C i (fun g => F g x) g) (net S L C i F' g) x := by
  unfold net
  exact HasDerivAt.sub (HasDerivAt.fun_sum fun gp hgp => (h gp (mem_range.1 hgp)).const_mul _) ((h g hg).const_mul _)

theorem net_cont (i : Nat) {F : Nat → ℝ → ℝ} {s : Set ℝ} (h : ∀ g < S.G, ContinuousOn (F g) s) {g : Nat} (hg : g < S.G) :
    ContinuousOn (fun x => net S L C i (fun g => F g x) g) s := by
  unfold net
  exact ContinuousOn.sub (continuousOn_finset_sum _ fun gp hgp => continuousOn_const.mul (h gp (mem_range.1 hgp)))
    (continuousOn_const.mul (h g hg))

/-- Fick's law in a cell. -/
theorem Mesh.fick (hM : S.Mesh L C Q) (hS : S.Pre u th) {phi J : Nat → ℝ → ℝ} (hE : S.Exact phi J) {g i : Nat} (hg : g < S.G)
    (hi : i < L.M.nx) {x : ℝ} (hx : x ∈ Set.Ioo (edge (L.M.h 0) i) (edge (L.M.h 0) (i + 1))) :
    HasDerivAt (phi g) (-(J g x) / L.dc g i) x := by
  obtain ⟨hB, hd⟩ := hM.data i hi x hx
  obtain ⟨d, h1, h2⟩ := hE.fick g hg x (hM.sub' hi hx) hB
  have := hM.dif hS hg hi
  convert h1 using 1
  rw [h2, (hd g hg).1]
  field_simp

/-- The balance in a cell. -/
theorem Mesh.balance (hM : S.Mesh L C Q) {phi J : Nat → ℝ → ℝ} (hE : S.Exact phi J) {g i : Nat} (hg : g < S.G)
    (hi : i < L.M.nx) {x : ℝ} (hx : x ∈ Set.Ioo (edge (L.M.h 0) i) (edge (L.M.h 0) (i + 1))) :
    HasDerivAt (J g) (Q g i + net S L C i (fun g => phi g x) g) x := by
  obtain ⟨hB, hd⟩ := hM.data i hi x hx
  obtain ⟨d, h1, h2⟩ := hE.balance g hg x (hM.sub' hi hx) hB
  convert h1 using 1
  rw [(hd g hg).2.1, (hd g hg).2.2.1] at h2
  unfold net
  have e : ∑ gp ∈ range S.G, S.coup g gp x * phi gp x = ∑ gp ∈ range S.G, C g gp i * phi gp x :=
    sum_congr rfl fun gp hgp => by rw [(hd g hg).2.2.2 gp (mem_range.1 hgp)]
  rw [e] at h2
  linarith

/-- A function with a bounded slope changes little. -/
theorem change {f f' : ℝ → ℝ} {a b κ : ℝ} (hf : ContinuousOn f (Set.Icc a b)) (df : ∀ x ∈ Set.Ioo a b, HasDerivAt f (f' x) x)
    (hk : ∀ x ∈ Set.Ioo a b, |f' x| ≤ κ) (h0 : 0 ≤ κ) {x y : ℝ} (hx : x ∈ Set.Icc a b) (hy : y ∈ Set.Icc a b) :
    |f x - f y| ≤ κ * (b - a) := by
  wlog hxy : y ≤ x generalizing x y
  · rw [abs_sub_comm]
    exact this hy hx (not_le.1 hxy).le
  have hab : 0 ≤ b - a := by linarith [hx.1, hx.2]
  rcases hxy.eq_or_lt with rfl | hxy
  · rw [sub_self, abs_zero]
    positivity
  obtain ⟨ξ, hξ, e⟩ := exists_hasDerivAt_eq_slope f f' hxy (hf.mono (Set.Icc_subset_Icc hy.1 hx.2))
    fun z hz => df z ⟨hy.1.trans_lt hz.1, hz.2.trans_le hx.2⟩
  have hpos : 0 < x - y := sub_pos.2 hxy
  rw [eq_div_iff hpos.ne'] at e
  rw [← e, abs_mul, abs_of_pos hpos]
  exact mul_le_mul (hk ξ ⟨hy.1.trans_lt hξ.1, hξ.2.trans_le hx.2⟩) (by linarith [hx.2, hy.1]) hpos.le h0

/-- Currents that come in at a side through the face of a cell, as the code has them. -/
noncomputable def fed (S : Rod) (L : Loss ℝ) (g i s : Nat) : ℝ :=
  if S.opened s then 8 * L.dc g i * S.jin s g / (4 * L.dc g i + L.M.h 0 i) else 0

/-- What the mesh makes of cell fluxes `f`: leakage, loss and gain, less what comes in at the sides. -/
noncomputable def resid (S : Rod) (L : Loss ℝ) (C : Nat → Nat → Nat → ℝ) (f : Nat → Nat → ℝ) (g i : Nat) : ℝ :=
  (L.low g (f g) i + L.high g (f g) i - (if i = 0 then S.fed L g i 0 else 0) - if i + 1 = L.M.nx then S.fed L g i 1 else 0) /
    L.M.h 0 i - net S L C i (fun g => f g i) g

/-- The loss at the far side of a flux `v`. -/
noncomputable def far (L : Loss ℝ) (g i : Nat) (v : ℝ) : ℝ :=
  if i + 1 = L.M.nx then dBoundary (L.dc g i) (L.al 1) (L.M.h 0 i) * v / L.M.h 0 i else 0

/-- Cell fluxes `f` satisfy the equations of the mesh up to the part `ε` of what the fluxes `u` collide, and lose at the far side. -/
def Nearly (S : Rod) (L : Loss ℝ) (C : Nat → Nat → Nat → ℝ) (Q : Nat → Nat → ℝ) (u : Nat → ℝ) (ε : ℝ) (f : Nat → Nat → ℝ) : Prop :=
  ∀ g < S.G, ∀ i < L.M.nx, |S.resid L C f g i - Q g i| ≤ ε * (L.mat.sigT g (L.mmap i) * u g + far L g i (u g))

/-- Bounds of the fluxes, the currents and the data. -/
theorem bounds (hS : S.Pre u th) (hB : S.Bounded) {phi J : Nat → ℝ → ℝ} (hE : S.Exact phi J) : ∃ T > 0, ∃ A ≥ 0, ∃ P ≥ 0,
    ∀ {L : Loss ℝ} {C : Nat → Nat → Nat → ℝ} {Q : Nat → Nat → ℝ}, S.Mesh L C Q → ∀ g < S.G, ∀ i < L.M.nx,
      L.mat.sigT g (L.mmap i) ≤ T ∧ 1 ≤ T * L.dc g i ∧ ∀ x ∈ Set.Icc (edge (L.M.h 0) i) (edge (L.M.h 0) (i + 1)),
        |phi g x| ≤ A * u g ∧ |J g x| ≤ A * u g ∧ |Q g i + net S L C i (fun g => phi g x) g| ≤ P * u g := by
  obtain ⟨T, hT, hb⟩ := hB
  obtain ⟨u0, hu0, hu⟩ := floor_of (n := S.G) (f := u) hS.upos
  have hth := hS.th0
  have one : ∀ f : Nat → ℝ → ℝ, (∀ g < S.G, ContinuousOn (f g) (Set.Icc 0 S.X)) → ∃ A ≥ 0, ∀ g < S.G, ∀ x ∈ Set.Icc 0 S.X,
      |f g x| ≤ A * u g := by
    intro f hf
    have h1 : ∀ g, ∃ A, g < S.G → ∀ x ∈ Set.Icc 0 S.X, |f g x| ≤ A := by
      intro g
      by_cases hg : g < S.G
      · obtain ⟨A, hA⟩ := isCompact_Icc.exists_bound_of_continuousOn (hf g hg)
        exact ⟨A, fun _ x hx => hA x hx⟩
      · exact ⟨0, fun h => absurd h hg⟩
    choose A hA using h1
    obtain ⟨c, hc, h2⟩ := ceil_of S.G A
    refine ⟨c / u0, by positivity, fun g hg x hx => ?_⟩
    have := hu g hg
    calc |f g x| ≤ c := (hA g hg x hx).trans (h2 g hg)
      _ = c / u0 * u0 := by field_simp
      _ ≤ c / u0 * u g := by gcongr
  obtain ⟨A1, h1, k1⟩ := one phi hE.cphi
  obtain ⟨A2, h2, k2⟩ := one J hE.cJ
  refine ⟨T, hT, A1 + A2, by positivity, T / u0 + (1 + th) * A1 * T, by positivity, fun {L C Q} hM g hg i hi => ?_⟩
  obtain ⟨x, hx, hxB, hd⟩ := hM.inside hi
  obtain ⟨b1, b2, b3⟩ := hb g hg x hx hxB
  obtain ⟨d1, d2, d3, _⟩ := hd g hg
  rw [d2] at b1
  rw [d1] at b2
  rw [d3] at b3
  have hug := hS.upos g hg
  refine ⟨b1, b2, fun x hx => ⟨(k1 g hg x (hM.sub hi hx)).trans (by gcongr; linarith),
    (k2 g hg x (hM.sub hi hx)).trans (by gcongr; linarith), ?_⟩⟩
  have h3 := net_le hS hM hi (F := fun g => phi g x) h1 (fun g hg => k1 g hg x (hM.sub hi hx)) hg
  have h4 : (1 + th) * A1 * (L.mat.sigT g (L.mmap i) * u g) ≤ (1 + th) * A1 * (T * u g) := by gcongr
  have h5 : T ≤ T / u0 * u g := by
    calc T = T / u0 * u0 := by field_simp
      _ ≤ T / u0 * u g := by have := hu g hg; gcongr
  calc _ ≤ |Q g i| + |net S L C i (fun g => phi g x) g| := abs_add_le _ _
    _ ≤ T / u0 * u g + (1 + th) * A1 * (T * u g) := add_le_add (b3.trans h5) (h3.trans h4)
    _ = _ := by ring

theorem fed_low {g i : Nat} {f : ℝ} (hd : 0 < L.dc g i) (hh : 0 < L.M.h 0 i) {s : Nat} (ha : L.al s = if S.opened s then 0 else 1) {p j : ℝ}
    (hc : S.opened s = false → j = 0) (ho : S.opened s = true → p / 4 - j / 2 = S.jin s g)
    (hf : f = p + j * L.M.h 0 i / (2 * L.dc g i)) :
    dBoundary (L.dc g i) (L.al s) (L.M.h 0 i) * f - S.fed L g i s = j := by
  unfold fed dBoundary
  cases h : S.opened s
  · rw [ha, h, hc h]
    simp
  · rw [ha, h]
    simp only [if_true, sub_zero, mul_one, add_zero, one_mul]
    rw [← ho h, hf]
    field_simp
    ring

/-- The fluxes of the slab nearly belong to the mesh. -/
theorem near (hS : S.Pre u th) (hM : S.Mesh L C Q) {phi J : Nat → ℝ → ℝ} (hE : S.Exact phi J) {T A P : ℝ} (hT : 0 < T) (hA : 0 ≤ A)
    (hP : 0 ≤ P) (hb : ∀ g < S.G, ∀ i < L.M.nx, L.mat.sigT g (L.mmap i) ≤ T ∧ 1 ≤ T * L.dc g i ∧
      ∀ x ∈ Set.Icc (edge (L.M.h 0) i) (edge (L.M.h 0) (i + 1)),
        |phi g x| ≤ A * u g ∧ |J g x| ≤ A * u g ∧ |Q g i + net S L C i (fun g => phi g x) g| ≤ P * u g)
    {h : ℝ} (hh : ∀ i < L.M.nx, L.M.h 0 i ≤ h) :
    ∃ f, S.Nearly L C Q u (((1 + th) * T * P / 2 + (1 + th) * ((1 + th) * T ^ 3 * A * S.X + T * P / 4) +
        (1 + th) * T ^ 3 * A / 2 * S.X) * h ^ 2) f ∧
      ∀ g < S.G, ∀ i < L.M.nx, |f g i - phi g ((edge (L.M.h 0) i + edge (L.M.h 0) (i + 1)) / 2)| ≤
        ((1 + th) * T ^ 3 * A * S.X + T * P / 2) * h ^ 2 * u g := by
  have hth := hS.th0
  have h0 : 0 < h := (hM.pos 0 hM.cells).trans_le (hh 0 hM.cells)
  have hX := hM.X_pos
  have hw : ∀ i, edge (L.M.h 0) (i + 1) - edge (L.M.h 0) i = L.M.h 0 i := fun i => by rw [edge_succ]; ring
  have inv : ∀ g < S.G, ∀ i < L.M.nx, ∀ v z : ℝ, |v| ≤ z → |v / L.dc g i| ≤ T * z := by
    intro g hg i hi v z hv
    have hd := hM.dif hS hg hi
    have hz := (abs_nonneg v).trans hv
    rw [abs_div, abs_of_pos hd, div_le_iff₀ hd]
    have := mul_le_mul_of_nonneg_right (hb g hg i hi).2.1 hz
    linarith
  have hin := fun (i : Nat) (x : ℝ) (hx : x ∈ Set.Ioo (edge (L.M.h 0) i) (edge (L.M.h 0) (i + 1))) => Set.Ioo_subset_Icc_self hx
  have cp : ∀ g < S.G, ∀ i < L.M.nx, ContinuousOn (phi g) (Set.Icc (edge (L.M.h 0) i) (edge (L.M.h 0) (i + 1))) :=
    fun g hg i hi => (hE.cphi g hg).mono (hM.sub hi)
  have cJ : ∀ g < S.G, ∀ i < L.M.nx, ContinuousOn (J g) (Set.Icc (edge (L.M.h 0) i) (edge (L.M.h 0) (i + 1))) :=
    fun g hg i hi => (hE.cJ g hg).mono (hM.sub hi)
  -- changes within a cell
  have op : ∀ g < S.G, ∀ i < L.M.nx, ∀ x ∈ Set.Icc (edge (L.M.h 0) i) (edge (L.M.h 0) (i + 1)),
      ∀ y ∈ Set.Icc (edge (L.M.h 0) i) (edge (L.M.h 0) (i + 1)), |phi g x - phi g y| ≤ T * A * h * u g := by
    intro g hg i hi x hx y hy
    have hu := hS.upos g hg
    refine (change (cp g hg i hi) (fun x hx => hM.fick hS hE hg hi hx) (κ := T * (A * u g)) (fun x hx => ?_) (by positivity) hx hy).trans ?_
    · refine inv g hg i hi _ _ ?_
      rw [abs_neg]
      exact ((hb g hg i hi).2.2 x (hin i x hx)).2.1
    · rw [hw]
      calc T * (A * u g) * L.M.h 0 i ≤ T * (A * u g) * h := mul_le_mul_of_nonneg_left (hh i hi) (by positivity)
        _ = _ := by ring
  have oJ : ∀ g < S.G, ∀ i < L.M.nx, ∀ x ∈ Set.Icc (edge (L.M.h 0) i) (edge (L.M.h 0) (i + 1)),
      ∀ y ∈ Set.Icc (edge (L.M.h 0) i) (edge (L.M.h 0) (i + 1)), |J g x - J g y| ≤ P * h * u g := by
    intro g hg i hi x hx y hy
    have hu := hS.upos g hg
    refine (change (cJ g hg i hi) (fun x hx => hM.balance hE hg hi hx) (κ := P * u g) (fun x hx =>
      ((hb g hg i hi).2.2 x (hin i x hx)).2.2) (by positivity) hx hy).trans ?_
    rw [hw]
    calc P * u g * L.M.h 0 i ≤ P * u g * h := mul_le_mul_of_nonneg_left (hh i hi) (by positivity)
      _ = _ := by ring
  have oF : ∀ g < S.G, ∀ i < L.M.nx, ∀ x ∈ Set.Icc (edge (L.M.h 0) i) (edge (L.M.h 0) (i + 1)),
      ∀ y ∈ Set.Icc (edge (L.M.h 0) i) (edge (L.M.h 0) (i + 1)), |-(J g x) / L.dc g i - -(J g y) / L.dc g i| ≤ T * P * h * u g := by
    intro g hg i hi x hx y hy
    rw [← sub_div]
    refine (inv g hg i hi _ (P * h * u g) ?_).trans (le_of_eq (by ring))
    rw [neg_sub_neg, abs_sub_comm]
    exact oJ g hg i hi x hx y hy
  have oj : ∀ g < S.G, ∀ i < L.M.nx, ∀ x ∈ Set.Icc (edge (L.M.h 0) i) (edge (L.M.h 0) (i + 1)),
      ∀ y ∈ Set.Icc (edge (L.M.h 0) i) (edge (L.M.h 0) (i + 1)),
      |net S L C i (fun g => phi g x) g - net S L C i (fun g => phi g y) g| ≤ (1 + th) * T ^ 2 * A * h * u g := by
    intro g hg i hi x hx y hy
    have hu := hS.upos g hg
    rw [net_sub]
    refine (net_le hS hM hi (η := T * A * h) (by positivity) (fun g hg => op g hg i hi x hx y hy) hg).trans ?_
    have := (hb g hg i hi).1
    calc (1 + th) * (T * A * h) * (L.mat.sigT g (L.mmap i) * u g) ≤ (1 + th) * (T * A * h) * (T * u g) := by gcongr
      _ = _ := by ring
  -- trapezoids
  have tr1 : ∀ g < S.G, ∀ i < L.M.nx, |fromLow (fun i => phi g (edge (L.M.h 0) i)) (fun i => J g (edge (L.M.h 0) i)) (L.dc g) (L.M.h 0) i -
      fromHigh (fun i => phi g (edge (L.M.h 0) i)) (fun i => J g (edge (L.M.h 0) i)) (L.dc g) (L.M.h 0) i| ≤
      (1 + th) * T ^ 3 * A / 2 * h ^ 2 * u g * L.M.h 0 i := by
    intro g hg i hi
    have hu := hS.upos g hg
    have hd := hM.dif hS hg hi
    have hx := hM.pos i hi
    have k := trapezoid (hM.edge_lt hi) (cp g hg i hi) ((cJ g hg i hi).neg.div_const (L.dc g i))
      (fun x hx => hM.fick hS hE hg hi hx) (fun x hx => (hM.balance hE hg hi hx).neg.div_const (L.dc g i))
      (κ := T * ((1 + th) * T ^ 2 * A * h * u g)) (fun x hx y hy => by
        rw [← sub_div]
        refine inv g hg i hi _ _ ?_
        rw [neg_sub_neg, add_sub_add_left_eq_sub]
        exact oj g hg i hi y (hin i y hy) x (hin i x hx))
    rw [hw] at k
    have e : fromLow (fun i => phi g (edge (L.M.h 0) i)) (fun i => J g (edge (L.M.h 0) i)) (L.dc g) (L.M.h 0) i -
        fromHigh (fun i => phi g (edge (L.M.h 0) i)) (fun i => J g (edge (L.M.h 0) i)) (L.dc g) (L.M.h 0) i =
        -(phi g (edge (L.M.h 0) (i + 1)) - phi g (edge (L.M.h 0) i) - L.M.h 0 i / 2 *
          ((-J g (edge (L.M.h 0) i)) / L.dc g i + (-J g (edge (L.M.h 0) (i + 1))) / L.dc g i)) := by
      unfold fromLow fromHigh
      field_simp
      ring
    rw [e, abs_neg]
    refine k.trans ?_
    calc L.M.h 0 i ^ 2 / 2 * (T * ((1 + th) * T ^ 2 * A * h * u g)) =
          (1 + th) * T ^ 3 * A / 2 * (h * L.M.h 0 i) * u g * L.M.h 0 i := by ring
      _ ≤ (1 + th) * T ^ 3 * A / 2 * (h * h) * u g * L.M.h 0 i := by have := hh i hi; gcongr
      _ = _ := by ring
  have sl : ∀ g < S.G, ∀ i ≤ L.M.nx, |slip (fun i => phi g (edge (L.M.h 0) i)) (fun i => J g (edge (L.M.h 0) i)) (L.dc g) (L.M.h 0) i| ≤
      (1 + th) * T ^ 3 * A / 2 * h ^ 2 * u g * S.X := by
    intro g hg i hi
    have hu := hS.upos g hg
    rw [← hM.len]
    exact slip_le (fun i hi => (hM.pos i hi).le) (tr1 g hg) (by positivity) hi
  have tr2 : ∀ g < S.G, ∀ i < L.M.nx, |(J g (edge (L.M.h 0) (i + 1)) - J g (edge (L.M.h 0) i)) / L.M.h 0 i -
      (Q g i + net S L C i (fun g => (phi g (edge (L.M.h 0) i) + phi g (edge (L.M.h 0) (i + 1))) / 2) g)| ≤
      (1 + th) * T * P / 2 * h ^ 2 * (L.mat.sigT g (L.mmap i) * u g) := by
    intro g hg i hi
    have hu := hS.upos g hg
    have hsg := hM.tot hS hg hi
    have hx := hM.pos i hi
    have k := trapezoid (hM.edge_lt hi) (cJ g hg i hi) ((continuousOn_const (c := Q g i)).add (net_cont (L := L) (C := C) i
        (F := fun g => phi g) (fun g hg => cp g hg i hi) hg)) (fun x hx => hM.balance hE hg hi hx)
      (fun x hx => (net_deriv (L := L) (C := C) i (F := fun g => phi g) (F' := fun g => -(J g x) / L.dc g i)
        (fun g hg => hM.fick hS hE hg hi hx) hg).const_add (Q g i))
      (κ := (1 + th) * (T * P * h) * (L.mat.sigT g (L.mmap i) * u g)) (fun x hx y hy => by
        rw [net_sub]
        exact net_le hS hM hi (by positivity) (fun g hg => oF g hg i hi x (hin i x hx) y (hin i y hy)) hg)
    rw [hw] at k
    have e1 : net S L C i (fun g => (phi g (edge (L.M.h 0) i) + phi g (edge (L.M.h 0) (i + 1))) / 2) g =
        (net S L C i (fun g => phi g (edge (L.M.h 0) i)) g + net S L C i (fun g => phi g (edge (L.M.h 0) (i + 1))) g) / 2 := by
      unfold net
      have : ∑ gp ∈ range S.G, C g gp i * ((phi gp (edge (L.M.h 0) i) + phi gp (edge (L.M.h 0) (i + 1))) / 2) =
          (∑ gp ∈ range S.G, C g gp i * phi gp (edge (L.M.h 0) i) +
            ∑ gp ∈ range S.G, C g gp i * phi gp (edge (L.M.h 0) (i + 1))) / 2 := by
        rw [← sum_add_distrib, sum_div]
        exact sum_congr rfl fun _ _ => by ring
      rw [this]
      ring
    have e : (J g (edge (L.M.h 0) (i + 1)) - J g (edge (L.M.h 0) i)) / L.M.h 0 i -
        (Q g i + net S L C i (fun g => (phi g (edge (L.M.h 0) i) + phi g (edge (L.M.h 0) (i + 1))) / 2) g) =
        (J g (edge (L.M.h 0) (i + 1)) - J g (edge (L.M.h 0) i) - L.M.h 0 i / 2 *
          (Q g i + net S L C i (fun g => phi g (edge (L.M.h 0) i)) g +
            (Q g i + net S L C i (fun g => phi g (edge (L.M.h 0) (i + 1))) g))) / L.M.h 0 i := by
      rw [e1]
      field_simp
      ring
    rw [e, abs_div, abs_of_pos hx, div_le_iff₀ hx]
    refine k.trans ?_
    calc L.M.h 0 i ^ 2 / 2 * ((1 + th) * (T * P * h) * (L.mat.sigT g (L.mmap i) * u g)) =
          (1 + th) * T * P / 2 * (h * L.M.h 0 i) * (L.mat.sigT g (L.mmap i) * u g) * L.M.h 0 i := by ring
      _ ≤ (1 + th) * T * P / 2 * (h * h) * (L.mat.sigT g (L.mmap i) * u g) * L.M.h 0 i := by have := hh i hi; gcongr
      _ = _ := by ring
  -- the reference and the mean of the edges
  let f : Nat → Nat → ℝ := fun g => refer (fun i => phi g (edge (L.M.h 0) i)) (fun i => J g (edge (L.M.h 0) i)) (L.dc g) (L.M.h 0)
  have mean : ∀ g < S.G, ∀ i < L.M.nx, |f g i - (phi g (edge (L.M.h 0) i) + phi g (edge (L.M.h 0) (i + 1))) / 2| ≤
      ((1 + th) * T ^ 3 * A * S.X + T * P / 4) * h ^ 2 * u g := by
    intro g hg i hi
    have hu := hS.upos g hg
    have hd := hM.dif hS hg hi
    have hx := hM.pos i hi
    have hxX : L.M.h 0 i ≤ S.X := by
      have h1 := (hM.at hi.le).1
      have h2 := (hM.at (i := i + 1) hi).2
      rw [edge_succ] at h2
      linarith
    have e := refer_mean (phi := fun i => phi g (edge (L.M.h 0) i)) (J := fun i => J g (edge (L.M.h 0) i)) (D := L.dc g)
      (dx := L.M.h 0) (i := i)
    have a1 := sl g hg i hi.le
    have a2 := (tr1 g hg i hi).trans (mul_le_mul_of_nonneg_left hxX (by positivity))
    have a3 : |L.M.h 0 i / (4 * L.dc g i) * (J g (edge (L.M.h 0) (i + 1)) - J g (edge (L.M.h 0) i))| ≤ T * P / 4 * h ^ 2 * u g := by
      have k := inv g hg i hi _ _ (oJ g hg i hi _ (Set.right_mem_Icc.2 (hM.edge_lt hi).le) _ (Set.left_mem_Icc.2 (hM.edge_lt hi).le))
      have e : L.M.h 0 i / (4 * L.dc g i) * (J g (edge (L.M.h 0) (i + 1)) - J g (edge (L.M.h 0) i)) =
          L.M.h 0 i / 4 * ((J g (edge (L.M.h 0) (i + 1)) - J g (edge (L.M.h 0) i)) / L.dc g i) := by
        field_simp
      rw [e, abs_mul, abs_of_pos (by positivity)]
      calc _ ≤ h / 4 * (T * (P * h * u g)) := by have := hh i hi; gcongr
        _ = _ := by ring
    show |refer _ _ _ _ i - _| ≤ _
    rw [e]
    have a4 : |(fromLow (fun i => phi g (edge (L.M.h 0) i)) (fun i => J g (edge (L.M.h 0) i)) (L.dc g) (L.M.h 0) i -
      fromHigh (fun i => phi g (edge (L.M.h 0) i)) (fun i => J g (edge (L.M.h 0) i)) (L.dc g) (L.M.h 0) i) / 2| ≤
        (1 + th) * T ^ 3 * A / 2 * h ^ 2 * u g * S.X := by
      rw [abs_div, abs_two]
      have : 0 ≤ (1 + th) * T ^ 3 * A / 2 * h ^ 2 * u g * S.X := by positivity
      linarith
    refine (abs_add_le _ _).trans ((add_le_add ((abs_add_le _ _).trans (add_le_add a1 a4)) a3).trans (le_of_eq (by ring)))
  refine ⟨f, fun g hg i hi => ?_, fun g hg i hi => ?_⟩
  · have hu := hS.upos g hg
    have hsg := hM.tot hS hg hi
    have hx := hM.pos i hi
    have hd := hM.dif hS hg hi
    have elow : L.low g (f g) i - (if i = 0 then S.fed L g i 0 else 0) = -J g (edge (L.M.h 0) i) := by
      unfold Loss.low
      by_cases hi0 : i = 0
      · subst hi0
        rw [if_pos rfl, if_pos rfl]
        refine fed_low hd hx (hM.side 0 (by decide)) (p := phi g 0) (fun hc => ?_) (fun ho => ?_) ?_
        · have := hE.closed g hg 0 (by decide) hc
          rw [place, if_pos rfl] at this
          rw [edge_zero, this, neg_zero]
        · have := hE.given g hg 0 (by decide) ho
          rw [place, if_pos rfl, inward, if_pos rfl] at this
          rw [edge_zero, ← this]
          ring
        · simp only [f, refer, fromLow, slip, sum_range_zero, edge_zero]
          ring
      · obtain ⟨j, rfl⟩ := Nat.exists_eq_succ_of_ne_zero hi0
        have hj : j < L.M.nx := by omega
        rw [if_neg hi0, if_neg hi0, Nat.succ_eq_add_one, Nat.add_sub_cancel, sub_zero, dInterior_comm]
        have := refer_step (phi := fun i => phi g (edge (L.M.h 0) i)) (J := fun i => J g (edge (L.M.h 0) i))
          (hM.dif hS hg hj) hd (hM.pos j hj) hx
        rw [← this]
        ring
    have ehigh : L.high g (f g) i - (if i + 1 = L.M.nx then S.fed L g i 1 else 0) = J g (edge (L.M.h 0) (i + 1)) +
        L.M.h 0 i * far L g i (slip (fun i => phi g (edge (L.M.h 0) i)) (fun i => J g (edge (L.M.h 0) i)) (L.dc g) (L.M.h 0) (i + 1)) := by
      unfold Loss.high far
      by_cases hiN : i + 1 = L.M.nx
      · rw [if_pos hiN, if_pos hiN, if_pos hiN]
        have k := fed_low (S := S) (f := fromHigh (fun i => phi g (edge (L.M.h 0) i)) (fun i => J g (edge (L.M.h 0) i)) (L.dc g) (L.M.h 0) i)
          hd hx (hM.side 1 (by decide)) (p := phi g (edge (L.M.h 0) (i + 1))) (j := J g (edge (L.M.h 0) (i + 1))) (fun hc => by
            have := hE.closed g hg 1 (by decide) hc
            rw [place, if_neg one_ne_zero] at this
            rw [hiN, hM.len, this]) (fun ho => by
            have := hE.given g hg 1 (by decide) ho
            rw [place, if_neg one_ne_zero, inward, if_neg one_ne_zero] at this
            rw [hiN, hM.len, ← this]
            ring) rfl
        show dBoundary _ _ _ * refer _ _ _ _ i - _ = _
        rw [refer_high]
        linear_combination k - dBoundary (L.dc g i) (L.al 1) (L.M.h 0 i) *
          slip (fun i => phi g (edge (L.M.h 0) i)) (fun i => J g (edge (L.M.h 0) i)) (L.dc g) (L.M.h 0) (i + 1) *
          (mul_inv_cancel₀ hx.ne')
      · have hj : i + 1 < L.M.nx := by omega
        rw [if_neg hiN, if_neg hiN, if_neg hiN, mul_zero, add_zero, sub_zero]
        exact refer_step (phi := fun i => phi g (edge (L.M.h 0) i)) (J := fun i => J g (edge (L.M.h 0) i))
          hd (hM.dif hS hg hj) hx (hM.pos _ hj)
    have e : S.resid L C f g i - Q g i = ((J g (edge (L.M.h 0) (i + 1)) - J g (edge (L.M.h 0) i)) / L.M.h 0 i -
        (Q g i + net S L C i (fun g => (phi g (edge (L.M.h 0) i) + phi g (edge (L.M.h 0) (i + 1))) / 2) g)) -
        net S L C i (fun g => f g i - (phi g (edge (L.M.h 0) i) + phi g (edge (L.M.h 0) (i + 1))) / 2) g +
        far L g i (slip (fun i => phi g (edge (L.M.h 0) i)) (fun i => J g (edge (L.M.h 0) i)) (L.dc g) (L.M.h 0) (i + 1)) := by
      rw [← net_sub (F := fun g => f g i)]
      unfold resid
      have e1 : L.low g (f g) i + L.high g (f g) i - (if i = 0 then S.fed L g i 0 else 0) - (if i + 1 = L.M.nx then S.fed L g i 1 else 0) =
          J g (edge (L.M.h 0) (i + 1)) - J g (edge (L.M.h 0) i) + L.M.h 0 i *
          far L g i (slip (fun i => phi g (edge (L.M.h 0) i)) (fun i => J g (edge (L.M.h 0) i)) (L.dc g) (L.M.h 0) (i + 1)) := by
        linear_combination elow + ehigh
      rw [e1]
      field_simp
      ring
    have b1 := tr2 g hg i hi
    have b2 := net_le (C := C) hS hM hi (F := fun g => f g i - (phi g (edge (L.M.h 0) i) + phi g (edge (L.M.h 0) (i + 1))) / 2)
      (by positivity) (fun g hg => mean g hg i hi) hg
    have b3 : |far L g i (slip (fun i => phi g (edge (L.M.h 0) i)) (fun i => J g (edge (L.M.h 0) i)) (L.dc g) (L.M.h 0) (i + 1))| ≤
        (1 + th) * T ^ 3 * A / 2 * S.X * h ^ 2 * far L g i (u g) := by
      unfold far
      split
      · have hal : L.al 1 = 0 ∨ L.al 1 = 1 := by
          rw [hM.side 1 (by decide)]
          split
          · exact .inl rfl
          · exact .inr rfl
        have k0 : 0 ≤ dBoundary (L.dc g i) (L.al 1) (L.M.h 0 i) :=
          dBoundary_nonneg hd hx (by rcases hal with e | e <;> rw [e] <;> norm_num) (by rcases hal with e | e <;> rw [e]; norm_num)
        rw [abs_div, abs_mul, abs_of_nonneg k0, abs_of_pos hx]
        have k1 := sl g hg (i + 1) hi
        calc _ ≤ dBoundary (L.dc g i) (L.al 1) (L.M.h 0 i) * ((1 + th) * T ^ 3 * A / 2 * h ^ 2 * u g * S.X) / L.M.h 0 i := by gcongr
          _ = _ := by ring
      · rw [abs_zero, mul_zero]
    rw [e]
    have hf : 0 ≤ far L g i (u g) := by
      unfold far
      split
      · have hal : L.al 1 = 0 ∨ L.al 1 = 1 := by
          rw [hM.side 1 (by decide)]
          split
          · exact .inl rfl
          · exact .inr rfl
        have k0 : 0 ≤ dBoundary (L.dc g i) (L.al 1) (L.M.h 0 i) :=
          dBoundary_nonneg hd hx (by rcases hal with e | e <;> rw [e] <;> norm_num) (by rcases hal with e | e <;> rw [e]; norm_num)
        positivity
      · exact le_rfl
    refine (abs_add_le _ _).trans ((add_le_add ((abs_sub _ _).trans (add_le_add b1 b2)) b3).trans ?_)
    have p1 : 0 ≤ ((1 + th) * T * P / 2 + (1 + th) * ((1 + th) * T ^ 3 * A * S.X + T * P / 4)) * h ^ 2 * far L g i (u g) := by positivity
    have p2 : 0 ≤ (1 + th) * T ^ 3 * A / 2 * S.X * h ^ 2 * (L.mat.sigT g (L.mmap i) * u g) := by positivity
    linear_combination p1 + p2
  · have hu := hS.upos g hg
    have k := middle (hM.edge_lt hi) (cp g hg i hi) (fun x hx => hM.fick hS hE hg hi hx)
      (fun x hx y hy => oF g hg i hi x (hin i x hx) y (hin i y hy))
    rw [hw] at k
    have k2 : L.M.h 0 i / 4 * (T * P * h * u g) ≤ T * P / 4 * h ^ 2 * u g := by
      calc _ ≤ h / 4 * (T * P * h * u g) := by have := hh i hi; gcongr
        _ = _ := by ring
    exact (abs_sub_le _ _ _).trans ((add_le_add (mean g hg i hi) (k.trans k2)).trans (le_of_eq (by ring)))

/-! ## Stability -/

/-- A problem of the code that is the slab cut into cells. -/
structure Fits (S : Rod) (F : FixedSrc ℝ) : Prop where
  ok : F.OK
  pos : F.L.Pos
  mesh : S.Mesh F.L F.L.inXs F.given
  jin : ∀ s < 2, S.opened s = true → ∀ g i j, F.jin s g i j = S.jin s g

/-- Cell fluxes as a vector. -/
def vec (n : Nat) (y : Nat → Nat → ℝ) (p : Nat) : ℝ := y (p / n) (p % n)

theorem vec_at {n : Nat} (y : Nat → Nat → ℝ) {g c : Nat} (hc : c < n) : vec n y (c + g * n) = y g c := by
  have hn : 0 < n := by omega
  unfold vec
  rw [Nat.add_mul_div_right _ _ hn, Nat.div_eq_of_lt hc, Nat.zero_add, Nat.add_mul_mod_self_right, Nat.mod_eq_of_lt hc]

variable {F : FixedSrc ℝ}

theorem low_congr {g c : Nat} (hc : c < L.M.nx) {f f' : Nat → ℝ} (h : ∀ c < L.M.nx, f c = f' c) : L.low g f c = L.low g f' c := by
  unfold Loss.low
  split
  · rw [h c hc]
  · rw [h c hc, h (c - 1) (by omega)]

theorem high_congr {g c : Nat} (hc : c < L.M.nx) {f f' : Nat → ℝ} (h : ∀ c < L.M.nx, f c = f' c) : L.high g f c = L.high g f' c := by
  unfold Loss.high
  split
  · rw [h c hc]
  · rw [h c hc, h (c + 1) (by omega)]

/-- The equations of the mesh for cell fluxes. -/
theorem lhs_vec (ok : F.OK) (hM : S.Mesh F.L F.L.inXs Q) (y : Nat → Nat → ℝ) {g i : Nat} (hi : i < F.L.M.nx) :
    F.L.lhs (vec F.L.M.nx y) g i = (F.L.low g (y g) i + F.L.high g (y g) i) / F.L.M.h 0 i - net S F.L F.L.inXs i (fun g => y g i) g := by
  have hp : ∀ g c, F.L.pos g c = c + g * F.L.M.nx := fun g c => by rw [ok.pos, hM.line.size]
  have ha : F.L.active = range S.G := by rw [ok.active, hM.groups]
  rw [lhs_slab hM.line _ hi, ha]
  have e : ∀ c < F.L.M.nx, vec F.L.M.nx y (F.L.pos g c) = y g c := fun c hc => by rw [hp, vec_at y hc]
  rw [low_congr hi e, high_congr hi e, e i hi]
  unfold net
  have : ∑ gp ∈ range S.G, F.L.inXs g gp i * vec F.L.M.nx y (F.L.pos gp i) = ∑ gp ∈ range S.G, F.L.inXs g gp i * y gp i :=
    sum_congr rfl fun gp _ => by rw [hp, vec_at y hi]
  rw [this]
  ring

theorem weak (hS : S.OK u th) (ok : F.OK) (hM : S.Mesh F.L F.L.inXs Q) : F.L.Weak u := by
  have ha : F.L.active = range S.G := by rw [ok.active, hM.groups]
  have hs : ∀ c, c < F.L.M.size → c < F.L.M.nx := fun c h => by rwa [← hM.line.size]
  refine ⟨fun g hg => ?_, fun g hg gp hgp c hc => ?_, fun g hg c hc => ?_⟩
  · rw [ha, mem_range] at hg
    exact hS.upos g hg
  · rw [ha, mem_range] at hg hgp
    exact hM.coup hS.toPre hg hgp (hs c hc)
  · rw [ha, mem_range] at hg
    have h1 := hM.row hS.toPre hg (hs c hc)
    have h2 := hM.tot hS.toPre hg (hs c hc)
    have h3 := hS.upos g hg
    have h4 := hS.less
    rw [ha]
    refine h1.trans_lt ?_
    have : 0 < F.L.mat.sigT g (F.L.mmap c) * u g := by positivity
    nlinarith

theorem far_nonneg (hM : S.Mesh L C Q) (hS : S.Pre u th) {g i : Nat} (hg : g < S.G) (hi : i < L.M.nx) {v : ℝ} (hv : 0 ≤ v) : 0 ≤ far L g i v := by
  have hd := hM.dif hS hg hi
  have hx := hM.pos i hi
  unfold far
  split
  · have hal : L.al 1 = 0 ∨ L.al 1 = 1 := by
      rw [hM.side 1 (by decide)]
      split
      · exact .inl rfl
      · exact .inr rfl
    have k0 : 0 ≤ dBoundary (L.dc g i) (L.al 1) (L.M.h 0 i) :=
      dBoundary_nonneg hd hx (by rcases hal with e | e <;> rw [e] <;> norm_num) (by rcases hal with e | e <;> rw [e]; norm_num)
    positivity
  · exact le_rfl

/-- Cell fluxes that nearly satisfy the equations are near the solution. -/
theorem close (hS : S.OK u th) (ok : F.OK) (hp : F.L.Pos) (hM : S.Mesh F.L F.L.inXs Q) {r y : Nat → Nat → ℝ} {x : Nat → ℝ} {ε : ℝ}
    (hε : 0 ≤ ε) (hx : ∀ g < S.G, ∀ i < F.L.M.nx, F.L.lhs x g i = r g i)
    (hy : ∀ g < S.G, ∀ i < F.L.M.nx, |F.L.lhs (vec F.L.M.nx y) g i - r g i| ≤
      ε * (F.L.mat.sigT g (F.L.mmap i) * u g + far F.L g i (u g))) :
    ∀ g < S.G, ∀ i < F.L.M.nx, |x (i + g * F.L.M.nx) - y g i| ≤ ε / (1 - th) * u g := by
  have hl : 0 < 1 - th := by linarith [hS.less]
  have hth := hS.th0
  have hW := weak hS ok hM
  have hpos : ∀ g c, F.L.pos g c = c + g * F.L.M.nx := fun g c => by rw [ok.pos, hM.line.size]
  have ha : F.L.active = range S.G := by rw [ok.active, hM.groups]
  have bar : ∀ g < S.G, ∀ i < F.L.M.nx, ε * (F.L.mat.sigT g (F.L.mmap i) * u g + far F.L g i (u g)) ≤
      F.L.lhs (vec F.L.M.nx fun g _ => ε / (1 - th) * u g) g i := by
    intro g hg i hi
    have hu := hS.upos g hg
    have hx := hM.pos i hi
    have hsg := hM.tot hS.toPre hg hi
    rw [lhs_vec ok hM _ hi]
    have h1 : 0 ≤ F.L.low g (fun _ => ε / (1 - th) * u g) i := by
      unfold Loss.low
      split
      · exact mul_nonneg (dBoundary_nonneg (hp.dc _ _) (hp.h _ _) (hp.al _).1 (hp.al _).2) (by positivity)
      · rw [sub_self, mul_zero]
    have h2 : F.L.high g (fun _ => ε / (1 - th) * u g) i = F.L.M.h 0 i * (ε / (1 - th) * far F.L g i (u g)) := by
      unfold Loss.high far
      split
      · field_simp
      · rw [sub_self, mul_zero, mul_zero, mul_zero]
    have h3 : ε * (F.L.mat.sigT g (F.L.mmap i) * u g) ≤ -net S F.L F.L.inXs i (fun g => ε / (1 - th) * u g) g := by
      have e : -net S F.L F.L.inXs i (fun g => ε / (1 - th) * u g) g = ε / (1 - th) *
          (F.L.mat.sigT g (F.L.mmap i) * u g - ∑ gp ∈ range S.G, F.L.inXs g gp i * u gp) := by
        unfold net
        have : ∑ gp ∈ range S.G, F.L.inXs g gp i * (ε / (1 - th) * u gp) = ε / (1 - th) * ∑ gp ∈ range S.G, F.L.inXs g gp i * u gp := by
          rw [mul_sum]
          exact sum_congr rfl fun _ _ => by ring
        rw [this]
        ring
      rw [e]
      have := hM.row hS.toPre hg hi
      calc ε * (F.L.mat.sigT g (F.L.mmap i) * u g) = ε / (1 - th) * ((1 - th) * (F.L.mat.sigT g (F.L.mmap i) * u g)) := by field_simp
        _ ≤ _ := mul_le_mul_of_nonneg_left (by linarith) (by positivity)
    have h4 : ε * far F.L g i (u g) ≤ ε / (1 - th) * far F.L g i (u g) := by
      refine mul_le_mul_of_nonneg_right ?_ (far_nonneg hM hS.toPre hg hi hu.le)
      rw [le_div_iff₀ hl]
      nlinarith
    have h5 : (F.L.low g (fun _ => ε / (1 - th) * u g) i + F.L.high g (fun _ => ε / (1 - th) * u g) i) / F.L.M.h 0 i =
        F.L.low g (fun _ => ε / (1 - th) * u g) i / F.L.M.h 0 i + ε / (1 - th) * far F.L g i (u g) := by
      rw [h2]
      field_simp
    have h6 : 0 ≤ F.L.low g (fun _ => ε / (1 - th) * u g) i / F.L.M.h 0 i := by positivity
    rw [h5]
    linarith
  intro g hg i hi
  have size : ∀ c, c < F.L.M.size → c < F.L.M.nx := fun c h => by rwa [← hM.line.size]
  have k1 := lhs_mono F.L hp hW x (fun p => 1 * vec F.L.M.nx y p + 1 * vec F.L.M.nx (fun g _ => ε / (1 - th) * u g) p) (fun g hg c hc => by
    rw [ha, mem_range] at hg
    have h1 := abs_le.1 (hy g hg c (size c hc))
    have h2 := bar g hg c (size c hc)
    rw [lhs_comb, hx g hg c (size c hc)]
    linarith [h1.1]) g (by rw [ha, mem_range]; exact hg) i (by rw [hM.line.size]; exact hi)
  have k2 := lhs_mono F.L hp hW (fun p => 1 * vec F.L.M.nx y p + -1 * vec F.L.M.nx (fun g _ => ε / (1 - th) * u g) p) x (fun g hg c hc => by
    rw [ha, mem_range] at hg
    have h1 := abs_le.1 (hy g hg c (size c hc))
    have h2 := bar g hg c (size c hc)
    rw [lhs_comb, hx g hg c (size c hc)]
    linarith [h1.2]) g (by rw [ha, mem_range]; exact hg) i (by rw [hM.line.size]; exact hi)
  rw [hpos, vec_at y hi, vec_at _ hi] at k1 k2
  rw [abs_le]
  constructor <;> linarith

/-- The right hand side. -/
theorem rhs_slab (hF : S.Fits F) {g i : Nat} (hg : g < S.G) (hi : i < F.L.M.nx) : F.rhs (i + g * F.L.M.size) =
    F.given g i + ((if i = 0 then S.fed F.L g i 0 else 0) + if i + 1 = F.L.M.nx then S.fed F.L g i 1 else 0) / F.L.M.h 0 i := by
  have hM := hF.mesh
  have hd : 0 < F.L.dc g i := hF.pos.dc _ _
  have hx := hM.pos i hi
  obtain ⟨c0, c1, c2⟩ := hM.line.coord hi
  rw [C101_source F hF.ok.op.grid.dim_le (by rw [hM.groups]; exact hg) (by rw [hM.line.size]; exact hi), hM.line.dim]
  congr 1
  have w0 : F.L.M.width i 0 = F.L.M.h 0 i := by unfold Grid.width; rw [c0]
  have b0 : F.L.M.onBoundary i 0 = decide (i = 0) := by
    unfold Grid.onBoundary
    simp [c0]
  have b1 : F.L.M.onBoundary i 1 = decide (i + 1 = F.L.M.nx) := by
    unfold Grid.onBoundary Grid.count
    simp only [c0, show 1 / 2 = 0 from rfl, show 1 % 2 = 1 from rfl, one_ne_zero, if_false]
    exact decide_eq_decide.2 (by omega)
  have one : ∀ s < 2, 8 * F.L.dc g i * F.jinAt g i s / ((4 * F.L.dc g i + F.L.M.h 0 i) * F.L.M.h 0 i) =
      S.fed F.L g i s / F.L.M.h 0 i := by
    intro s hs
    unfold fed FixedSrc.jinAt
    cases h : S.opened s
    · have := hF.ok.side s (by rw [hM.line.dim]; exact hs)
      rw [hM.side s hs, h] at this
      have hj : ∀ g u v, F.jin s g u v = 0 := by simpa using this
      rw [hj]
      simp
    · rw [hF.jin s hs h]
      simp only [if_true]
      field_simp
  simp only [Nat.mul_one, sum_range_succ, sum_range_zero, zero_add, show 0 / 2 = 0 from rfl, show 1 / 2 = 0 from rfl, w0, b0, b1,
    decide_eq_true_eq, one 0 (by decide), one 1 (by decide), add_div]
  congr 1 <;> split <;> simp

/-! ## Convergence -/

/-- The mesh has one set of fluxes. -/
theorem C138_solution (hS : S.OK u th) (hF : S.Fits F) (srt : List (Trip ℝ) → List (Trip ℝ)) (hs : IsSort srt) :
    ∃ Cm bs, F.L.sys.make srt = .ok (some Cm, bs) ∧ ∃ x : Nat → ℝ, (∀ p < S.G * F.L.M.nx, Cm.multiply x p = F.rhs p) ∧
      ∀ y : Nat → ℝ, (∀ p < S.G * F.L.M.nx, Cm.multiply y p = F.rhs p) → ∀ p < S.G * F.L.M.nx, y p = x p := by
  obtain ⟨Cm, h1, _⟩ := rows F.L hF.ok.op srt hs
  refine ⟨Cm, _, h1, ?_⟩
  have := C132_diffusion_one F hF.ok hF.pos srt hs Cm _ h1 (weak hS hF.ok hF.mesh)
  rwa [hF.mesh.line.size, hF.mesh.groups] at this

/-- Fluxes of every mesh are within a constant times the square of the largest cell of the fluxes of the slab in the middle of the
    cells. -/
theorem C138_second (hS : S.OK u th) (hB : S.Bounded) {phi J : Nat → ℝ → ℝ} (hE : S.Exact phi J) : ∃ A, ∀ {F : FixedSrc ℝ}, S.Fits F →
    ∀ {srt : List (Trip ℝ) → List (Trip ℝ)}, IsSort srt → ∀ {Cm : CSR ℝ} {bs : List Bool}, F.L.sys.make srt = .ok (some Cm, bs) →
    ∀ h, (∀ i < F.L.M.nx, F.L.M.h 0 i ≤ h) → ∀ x : Nat → ℝ, (∀ p < S.G * F.L.M.nx, Cm.multiply x p = F.rhs p) →
    ∀ g < S.G, ∀ i < F.L.M.nx, |x (i + g * F.L.M.nx) - phi g ((edge (F.L.M.h 0) i + edge (F.L.M.h 0) (i + 1)) / 2)| ≤ A * h ^ 2 := by
  obtain ⟨T, hT, A, hA, P, hP, hb⟩ := bounds hS.toPre hB hE
  obtain ⟨U, hU0, hU⟩ := ceil_of S.G u
  have hl : 0 < 1 - th := by linarith [hS.less]
  have hth := hS.th0
  refine ⟨(((1 + th) * T * P / 2 + (1 + th) * ((1 + th) * T ^ 3 * A * S.X + T * P / 4) + (1 + th) * T ^ 3 * A / 2 * S.X) / (1 - th) +
    ((1 + th) * T ^ 3 * A * S.X + T * P / 2)) * U, fun {F} hF {srt} hs {Cm bs} hC h hh x hx g hg i hi => ?_⟩
  have hX := hF.mesh.X_pos
  obtain ⟨f, hN, hf⟩ := near hS.toPre hF.mesh hE hT hA hP (hb hF.mesh) hh
  have h1 := (solves_iff F hF.ok srt hs Cm bs hC x).1 (by rw [hF.mesh.line.size, hF.mesh.groups]; exact hx)
  rw [hF.mesh.groups, hF.mesh.line.size] at h1
  have k1 := close hS hF.ok hF.pos hF.mesh (x := x) (y := f) (r := fun g i => F.rhs (i + g * F.L.M.nx))
    (ε := ((1 + th) * T * P / 2 + (1 + th) * ((1 + th) * T ^ 3 * A * S.X + T * P / 4) + (1 + th) * T ^ 3 * A / 2 * S.X) * h ^ 2)
    (by positivity) h1 (fun g hg i hi => by
      have := hN g hg i hi
      have e := rhs_slab hF hg hi
      rw [hF.mesh.line.size] at e
      rw [lhs_vec hF.ok hF.mesh _ hi, e]
      refine le_of_eq_of_le (congrArg abs ?_) this
      unfold resid
      ring) g hg i hi
  have k2 := hf g hg i hi
  refine (abs_sub_le _ _ _).trans ((add_le_add k1 k2).trans ?_)
  calc _ = (((1 + th) * T * P / 2 + (1 + th) * ((1 + th) * T ^ 3 * A * S.X + T * P / 4) + (1 + th) * T ^ 3 * A / 2 * S.X) / (1 - th) +
        ((1 + th) * T ^ 3 * A * S.X + T * P / 2)) * h ^ 2 * u g := by ring
    _ ≤ (((1 + th) * T * P / 2 + (1 + th) * ((1 + th) * T ^ 3 * A * S.X + T * P / 4) + (1 + th) * T ^ 3 * A / 2 * S.X) / (1 - th) +
        ((1 + th) * T ^ 3 * A * S.X + T * P / 2)) * h ^ 2 * U := mul_le_mul_of_nonneg_left (hU g hg) (by positivity)
    _ = _ := by ring

/-- Fine meshes bring the fluxes as close to those of the slab as one likes, everywhere in each cell. -/
theorem C138_converges (hS : S.OK u th) (hB : S.Bounded) {phi J : Nat → ℝ → ℝ} (hE : S.Exact phi J) (ε : ℝ) (hε : 0 < ε) : ∃ h > 0,
    ∀ {F : FixedSrc ℝ}, S.Fits F → ∀ {srt : List (Trip ℝ) → List (Trip ℝ)}, IsSort srt → ∀ {Cm : CSR ℝ} {bs : List Bool},
    F.L.sys.make srt = .ok (some Cm, bs) → (∀ i < F.L.M.nx, F.L.M.h 0 i ≤ h) → ∀ x : Nat → ℝ,
    (∀ p < S.G * F.L.M.nx, Cm.multiply x p = F.rhs p) → ∀ g < S.G, ∀ i < F.L.M.nx,
    ∀ z ∈ Set.Icc (edge (F.L.M.h 0) i) (edge (F.L.M.h 0) (i + 1)), |x (i + g * F.L.M.nx) - phi g z| < ε := by
  obtain ⟨A, hA⟩ := C138_second hS hB hE
  have uc : ∀ g, ∃ d > 0, g < S.G → ∀ x ∈ Set.Icc 0 S.X, ∀ y ∈ Set.Icc 0 S.X, |x - y| < d → |phi g x - phi g y| < ε / 2 := by
    intro g
    by_cases hg : g < S.G
    · have := Metric.uniformContinuousOn_iff.1 (isCompact_Icc.uniformContinuousOn_of_continuous (hE.cphi g hg)) (ε / 2) (half_pos hε)
      obtain ⟨d, hd, h⟩ := this
      exact ⟨d, hd, fun _ x hx y hy hxy => h x hx y hy hxy⟩
    · exact ⟨1, one_pos, fun h => absurd h hg⟩
  choose d hd hu using uc
  obtain ⟨c, hc, hdc⟩ := floor_of (n := S.G) (f := d) fun i _ => hd i
  have hA1 : 0 < |A| + 1 := by positivity
  refine ⟨min (c / 2) (min 1 (ε / 2 / (|A| + 1))), lt_min (by positivity) (lt_min one_pos (by positivity)),
    fun {F} hF {srt} hs {Cm bs} hC hh x hx g hg i hi z hz => ?_⟩
  set h := min (c / 2) (min 1 (ε / 2 / (|A| + 1))) with hdef
  have h0 : 0 < h := lt_min (by positivity) (lt_min one_pos (by positivity))
  have h1 : h ≤ c / 2 := min_le_left _ _
  have h2 : h ≤ 1 := (min_le_right _ _).trans (min_le_left _ _)
  have h3 : h ≤ ε / 2 / (|A| + 1) := (min_le_right _ _).trans (min_le_right _ _)
  have hlt := hF.mesh.edge_lt hi
  have hw : edge (F.L.M.h 0) (i + 1) - edge (F.L.M.h 0) i = F.L.M.h 0 i := by rw [edge_succ]; ring
  have k1 := hA hF hs hC h hh x hx g hg i hi
  have k2 := hu g hg ((edge (F.L.M.h 0) i + edge (F.L.M.h 0) (i + 1)) / 2) (hF.mesh.sub hi ⟨by linarith, by linarith⟩) z (hF.mesh.sub hi hz) (by
    have := hh i hi
    have := hdc g hg
    rw [abs_lt]
    constructor <;> linarith [hz.1, hz.2])
  have k3 : A * h ^ 2 < ε / 2 := by
    calc A * h ^ 2 ≤ |A| * h := by
          have : A * h ^ 2 ≤ |A| * h ^ 2 := mul_le_mul_of_nonneg_right (le_abs_self A) (by positivity)
          refine this.trans (mul_le_mul_of_nonneg_left ?_ (abs_nonneg A))
          nlinarith
      _ < (|A| + 1) * h := by linarith
      _ ≤ (|A| + 1) * (ε / 2 / (|A| + 1)) := mul_le_mul_of_nonneg_left h3 hA1.le
      _ = ε / 2 := by field_simp
  exact lt_of_le_of_lt (abs_sub_le _ _ _) (by linarith)

end

/-! ## Cases -/

section cases

/-- A material that scatters half of what collides, with any fission cross section. -/
noncomputable def rodMat (f : ℝ) : Material.Mat ℝ :=
  { Material.Mat.new 1 1 with
    sigT := fun _ _ => 1
    sigS := fun _ _ _ => 1 / 2
    diff := fun _ _ => 1 / 2
    nu := fun _ _ => 1
    sigF := fun _ _ => f
    chi := fun _ _ => 1 }

/-- `N` cells of it, reflecting on the left and open on the right. -/
noncomputable def rodLoss (f X : ℝ) (N : Nat) : Loss ℝ where
  M := ⟨1, N, 1, 1, fun _ _ => X / N⟩
  mat := (rodMat f).finalize
  mmap := fun _ => 0
  al := fun s => if s = 1 then 0 else 1
  adjoint := false
  cutoff := 0
  fission := false
  sf := 0
  keff := 1

theorem rod_inXs (f X : ℝ) (N g gp c : Nat) : (rodLoss f X N).inXs g gp c = 1 / 2 := by
  simp [Loss.inXs, Loss.scatXs, rodLoss, rodMat, Material.Mat.finalize]

theorem rod_loss (f X : ℝ) (N : Nat) : (rodLoss f X N).OK := by
  refine ⟨⟨show 1 ≤ 3 by decide, ?_⟩, ⟨rodMat f, rfl⟩, ?_, fun c _ => (by show 0 < 1; decide), Nat.zero_le _⟩
  · intro a h1 h2
    have : a = 1 ∨ a = 2 := by
      have : 1 ≤ a := h1
      omega
    rcases this with rfl | rfl <;> rfl
  · intro g gp m
    show (0 : ℝ) ≤ 1 / 2
    norm_num

theorem rod_pos (f : ℝ) {X : ℝ} (hX : 0 < X) {N : Nat} (hN : 0 < N) : (rodLoss f X N).Pos := by
  refine ⟨fun _ _ => ?_, fun _ _ => ?_, fun s => ?_⟩
  · show 0 < X / N
    positivity
  · show (0 : ℝ) < 1 / 2
    norm_num
  · show -1 ≤ (if s = 1 then (0 : ℝ) else 1) ∧ (if s = 1 then (0 : ℝ) else 1) ≤ 1
    split <;> norm_num

/-- The slab, with the partial current `j` coming in on the right. -/
noncomputable def rod (X j : ℝ) : Rod where
  G := 1
  X := X
  D := fun _ _ => 1 / 2
  sig := fun _ _ => 1
  coup := fun _ _ _ => 1 / 2
  q := fun _ _ => 0
  opened := fun s => s == 1
  jin := fun _ _ => j
  B := ∅

theorem rod_ok (X j : ℝ) : (rod X j).OK (fun _ => 1) (1 / 2) where
  upos := fun _ _ => one_pos
  th0 := by norm_num
  dif := fun _ _ _ _ _ => by show (0 : ℝ) < 1 / 2; norm_num
  tot := fun _ _ _ _ _ => one_pos
  coup := fun _ _ _ _ _ _ _ => by show (0 : ℝ) ≤ 1 / 2; norm_num
  row := fun g hg x hx hB => by
    show ∑ gp ∈ range 1, (1 / 2 : ℝ) * 1 ≤ 1 / 2 * (1 * 1)
    simp
  less := by norm_num

theorem rod_bounded (X j : ℝ) : (rod X j).Bounded :=
  ⟨2, by norm_num, fun _ _ _ _ _ => ⟨by show (1 : ℝ) ≤ 2; norm_num, by show (1 : ℝ) ≤ 2 * (1 / 2); norm_num, by
    show |(0 : ℝ)| ≤ 2
    norm_num⟩⟩

theorem rod_mesh (f X j : ℝ) (hX : 0 < X) {N : Nat} (hN : 0 < N) :
    (rod X j).Mesh (rodLoss f X N) (rodLoss f X N).inXs fun _ _ => 0 where
  line := ⟨rfl, (rod_loss f X N).grid, fun s h2 _ => if_neg (by omega)⟩
  groups := rfl
  cells := hN
  pos := fun _ _ => by
    show 0 < X / N
    positivity
  len := by
    show ∑ _i ∈ range N, X / N = X
    have : (N : ℝ) ≠ 0 := by positivity
    rw [sum_const, card_range, nsmul_eq_mul]
    field_simp
  data := fun i _ x _ => ⟨Set.notMem_empty x, fun g _ => ⟨rfl, rfl, rfl, fun gp _ => (rod_inXs f X N g gp i).symm⟩⟩
  side := fun s hs => by
    interval_cases s
    · show (if 0 = 1 then (0 : ℝ) else 1) = if (0 == 1) then 0 else 1
      simp
    · show (if 1 = 1 then (0 : ℝ) else 1) = if (1 == 1) then 0 else 1
      simp

/-- A wall with a beam on its right side. -/
noncomputable def wall (N : Nat) : FixedSrc ℝ := ⟨rodLoss 0 1 N, [], none, fun s _ _ _ => if s = 1 then Real.exp 1 / 4 else 0⟩

theorem wall_fits {N : Nat} (hN : 0 < N) : (rod 1 (Real.exp 1 / 4)).Fits (wall N) where
  ok := by
    refine ⟨rod_loss 0 1 N, rfl, fun s hs => ?_, fun s h2 _ => ?_⟩
    · have hs : s < 2 := hs
      show (if s = 1 then (0 : ℝ) else 1) = 0 ∨ (if s = 1 then (0 : ℝ) else 1) = 1 ∧ ∀ g u v, (if s = 1 then Real.exp 1 / 4 else 0) = 0
      interval_cases s <;> simp
    · have h2 : 2 ≤ s := h2
      show (if s = 1 then (0 : ℝ) else 1) = 1
      rw [if_neg (by omega)]
  pos := rod_pos 0 one_pos hN
  mesh := by
    have e : (wall N).given = fun _ _ => 0 := by
      funext g c
      simp [FixedSrc.given, wall]
    rw [e]
    exact rod_mesh 0 1 _ one_pos hN
  jin := fun s _ hs g i j => by
    have : s = 1 := by simpa [rod] using hs
    subst this
    rfl

/-- The flux is a hyperbolic cosine. -/
theorem wall_exact : (rod 1 (Real.exp 1 / 4)).Exact (fun _ => Real.cosh) fun _ x => -(Real.sinh x / 2) where
  cphi := fun _ _ => Real.continuous_cosh.continuousOn
  cJ := fun _ _ => (Real.continuous_sinh.div_const 2).neg.continuousOn
  fick := fun _ _ x _ _ => ⟨_, Real.hasDerivAt_cosh x, by show -(Real.sinh x / 2) = -(1 / 2 * Real.sinh x); ring⟩
  balance := fun _ _ x _ _ => ⟨_, ((Real.hasDerivAt_sinh x).div_const 2).neg, by
    show -(Real.cosh x / 2) + 1 * Real.cosh x = 0 + ∑ gp ∈ range 1, 1 / 2 * Real.cosh x
    rw [sum_range_one]
    ring⟩
  closed := fun g _ s hs h => by
    have : s = 0 := by
      interval_cases s
      · rfl
      · simp [rod] at h
    subst this
    show -(Real.sinh (if 0 = 0 then 0 else 1) / 2) = 0
    simp
  given := fun g _ s hs h => by
    have : s = 1 := by simpa [rod] using h
    subst this
    show Real.cosh (if 1 = 0 then 0 else 1) / 4 + (if 1 = 0 then 1 else -1) * -(Real.sinh (if 1 = 0 then 0 else 1) / 2) / 2 = Real.exp 1 / 4
    simp only [one_ne_zero, if_false]
    rw [← Real.cosh_add_sinh 1]
    ring

/-- With `N` cells the flux in the middle of cell `i` is within a constant over the square of `N` of that cosine. -/
example : ∃ A, ∀ N > 0, ∀ {srt : List (Trip ℝ) → List (Trip ℝ)}, IsSort srt → ∀ {Cm : CSR ℝ} {bs : List Bool},
    (wall N).L.sys.make srt = .ok (some Cm, bs) → ∀ x : Nat → ℝ, (∀ p < 1 * N, Cm.multiply x p = (wall N).rhs p) →
    ∀ i < N, |x i - Real.cosh ((edge (fun _ => 1 / (N : ℝ)) i + edge (fun _ => 1 / (N : ℝ)) (i + 1)) / 2)| ≤ A * (1 / N) ^ 2 := by
  obtain ⟨A, h⟩ := C138_second (rod_ok _ _) (rod_bounded _ _) wall_exact
  refine ⟨A, fun N hN srt hs Cm bs hC x hx i hi => ?_⟩
  have := h (wall_fits hN) hs hC (1 / N) (fun i _ => le_refl _) x hx 0 (by decide) i hi
  rwa [Nat.zero_mul, Nat.add_zero] at this

end cases

end Rod

end Detran.Diffusion
