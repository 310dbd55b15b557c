import Verif.Lemmas.RefineCell
import Mathlib.Tactic.IntervalCases

/-!
# Refining the mesh of a slab (C136)

The specification is the discrete ordinates transport equation of a slab as a differential equation; nothing of it is taken
from the code.
-/

namespace Detran.MGReflect

open Detran.Sweep (St dd1 sd1 sc1 Solves1 posn entry exit)
open Detran.Boundary (Bd BC Loc Enters Mirror)
open Detran.WGReflect (Sweeps Solution InFace Sides Swept)
open Finset

/-- A slab from `0` to `X`: cosines and weights of the directions of one half, the factor that makes a source isotropic, total
    cross sections, transfer between groups and sources as functions of position, side conditions (0 left, 1 right), and
    the places where the data change. -/
structure Slab where
  G : Nat
  na : Nat
  X : ℝ
  mu : Nat → ℝ
  w : Nat → ℝ
  m : ℝ
  sig : Nat → ℝ → ℝ
  coup : Nat → Nat → ℝ → ℝ
  q : Nat → ℝ → ℝ
  bc : Nat → Nat → BC ℝ
  B : Set ℝ

namespace Slab

/-- Direction `0` goes right, `1` left. -/
noncomputable def dir (o : Nat) : ℝ := if o = 0 then 1 else -1

/-- Where a side is. -/
noncomputable def place (S : Slab) (s : Nat) : ℝ := if s = 0 then 0 else S.X

/-- The scalar flux. -/
noncomputable def flux (S : Slab) (psi : Nat → Nat → Nat → ℝ → ℝ) (g : Nat) (x : ℝ) : ℝ :=
  ∑ o ∈ range 2, ∑ a ∈ range S.na, S.w a * psi g o a x

/-- The transport equations: `psi g o a` are continuous, satisfy them where the data do not change, and the side
    conditions; direction `s` enters at side `s`. -/
structure Exact (S : Slab) (psi : Nat → Nat → Nat → ℝ → ℝ) : Prop where
  cont : ∀ g < S.G, ∀ o < 2, ∀ a < S.na, ContinuousOn (psi g o a) (Set.Icc 0 S.X)
  eq : ∀ g < S.G, ∀ o < 2, ∀ a < S.na, ∀ x ∈ Set.Ioo 0 S.X, x ∉ S.B → ∃ d, HasDerivAt (psi g o a) d x ∧
    dir o * S.mu a * d + S.sig g x * psi g o a x =
      S.m * (S.q g x + ∑ gp ∈ range S.G, S.coup g gp x * S.flux psi gp x)
  vacuum : ∀ g < S.G, ∀ s < 2, S.bc g s = .vacuum → ∀ a < S.na, psi g s a (S.place s) = 0
  reflect : ∀ g < S.G, ∀ s < 2, S.bc g s = .reflect → ∀ a < S.na, psi g s a (S.place s) = psi g (1 - s) a (S.place s)
  given : ∀ g < S.G, ∀ s < 2, ∀ ps, S.bc g s = .fixed ps → ∀ a < S.na, psi g s a (S.place s) = ps 0 a

/-- What is asked of the data: directions with positive weights that add up, scattering (and fission) with some group fluxes
    `u` no more than `th` times the collisions. -/
structure Pre (S : Slab) (u : Nat → ℝ) (th : ℝ) : Prop where
  mu : ∀ a < S.na, 0 < S.mu a
  w : ∀ a < S.na, 0 < S.w a
  norm : S.m * ∑ _o ∈ range 2, ∑ a ∈ range S.na, S.w a = 1
  upos : ∀ g < S.G, 0 < u g
  th0 : 0 ≤ th
  tot : ∀ g < S.G, ∀ x ∈ Set.Ioo 0 S.X, x ∉ S.B → 0 < S.sig g x
  coup : ∀ g < S.G, ∀ gp < S.G, ∀ x ∈ Set.Ioo 0 S.X, x ∉ S.B → 0 ≤ S.coup g gp x
  row : ∀ g < S.G, ∀ x ∈ Set.Ioo 0 S.X, x ∉ S.B → ∑ gp ∈ range S.G, S.coup g gp x * u gp ≤ th * (S.sig g x * u g)
  refl : ∀ g s, S.bc g s = .reflect ↔ S.bc 0 s = .reflect
  np : ∀ g, ∀ s < 2, S.bc g s ≠ .periodic

/-- Scattering (and fission) is less than a fraction of the collisions. -/
structure OK (S : Slab) (u : Nat → ℝ) (th : ℝ) : Prop extends S.Pre u th where
  less : th < 1

/-- The edge below cell `i`. -/
noncomputable def edge (dx : Nat → ℝ) (i : Nat) : ℝ := ∑ j ∈ range i, dx j

/-- The cells of `M`, with widths `dx` and total cross sections `sg`, make up the slab, and their materials and sources are those
    of the slab inside each. -/
structure Mesh (S : Slab) (M : MGSolve.Prob ℝ) (sg : Nat → Nat → ℝ) (dx : Nat → ℝ) : Prop where
  ok : M.OK
  groups : M.x.mat.G = S.G
  cells : 0 < M.x.N
  pos : ∀ i < M.x.N, 0 < dx i
  len : edge dx M.x.N = S.X
  data : ∀ i < M.x.N, ∀ x ∈ Set.Ioo (edge dx i) (edge dx (i + 1)), x ∉ S.B ∧ ∀ g < S.G, S.sig g x = sg g i ∧
    S.q g x = M.q g i ∧ ∀ gp < S.G, S.coup g gp x = couple M g gp i

/-- The cell equations of the three schemes, in any mixture. -/
def Schemes (S : Slab) (sg : Nat → Nat → ℝ) (dx : Nat → ℝ) (sch : Nat → Nat → Nat → ℝ → ℝ → ℝ × ℝ) : Prop :=
  ∀ g a i, sch g a i = dd1 (S.mu a) (dx i) (sg g i) ∨ sch g a i = sd1 (S.mu a) (dx i) (sg g i) ∨
    sch g a i = sc1 Real.exp (S.mu a) (dx i) (sg g i)

/-- Diamond differencing only in cells no thicker than twice the cosine. -/
def Thin (S : Slab) (M : MGSolve.Prob ℝ) (sg : Nat → Nat → ℝ) (dx : Nat → ℝ) (sch : Nat → Nat → Nat → ℝ → ℝ → ℝ × ℝ) : Prop :=
  ∀ g < S.G, ∀ a < S.na, ∀ i < M.x.N, sch g a i = dd1 (S.mu a) (dx i) (sg g i) → sg g i * dx i ≤ 2 * S.mu a

/-- The problem the code solves on the mesh. -/
noncomputable def prob (S : Slab) (M : MGSolve.Prob ℝ) (sch : Nat → Nat → Nat → ℝ → ℝ → ℝ × ℝ) (up : Bool) (order : List Nat) : Prob ℝ ℝ :=
  mg1 M sch S.w M.x.N S.na up S.bc order (fun _ _ => S.m) fun _ => []

/-- Its cell equations. -/
def eqs (M : MGSolve.Prob ℝ) (sch : Nat → Nat → Nat → ℝ → ℝ → ℝ × ℝ) (g : Nat) (q : Nat → ℝ) (o a : Nat) (b p : Nat → ℝ) : Prop :=
  Solves1 M.x.N (fun i => sch g a i (q i)) o b p

section
variable {S : Slab} {u : Nat → ℝ} {th : ℝ} {M : MGSolve.Prob ℝ} {sg : Nat → Nat → ℝ} {dx : Nat → ℝ}

theorem edge_succ (i : Nat) : edge dx (i + 1) = edge dx i + dx i := sum_range_succ _ _

theorem Mesh.edge_mono (hM : Mesh S M sg dx) {i j : Nat} (hij : i ≤ j) (hj : j ≤ M.x.N) : edge dx i ≤ edge dx j := by
  induction j, hij using Nat.le_induction with
  | base => exact le_refl _
  | succ j _ ih =>
    rw [edge_succ]
    linarith [ih (by omega), hM.pos j (by omega)]

theorem Mesh.edge_lt (hM : Mesh S M sg dx) {i : Nat} (hi : i < M.x.N) : edge dx i < edge dx (i + 1) := by
  rw [edge_succ]
  linarith [hM.pos i hi]

/-- Cells lie in the slab. -/
theorem Mesh.sub (hM : Mesh S M sg dx) {i : Nat} (hi : i < M.x.N) :
    Set.Icc (edge dx i) (edge dx (i + 1)) ⊆ Set.Icc 0 S.X := by
  intro x hx
  have h0 := hM.edge_mono (Nat.zero_le i) hi.le
  have h1 := hM.edge_mono hi (le_refl _)
  rw [hM.len] at h1
  have : edge dx 0 = 0 := by simp [edge]
  exact ⟨by linarith [hx.1], hx.2.trans h1⟩

theorem Mesh.sub' (hM : Mesh S M sg dx) {i : Nat} (hi : i < M.x.N) :
    Set.Ioo (edge dx i) (edge dx (i + 1)) ⊆ Set.Ioo 0 S.X := by
  intro x hx
  have h0 := hM.edge_mono (Nat.zero_le i) hi.le
  have h1 := hM.edge_mono hi (le_refl _)
  rw [hM.len] at h1
  have : edge dx 0 = 0 := by simp [edge]
  exact ⟨by linarith [hx.1], lt_of_lt_of_le hx.2 h1⟩

/-- Some place inside a cell. -/
theorem Mesh.inside (hM : Mesh S M sg dx) {i : Nat} (hi : i < M.x.N) : ∃ x ∈ Set.Ioo 0 S.X, x ∉ S.B ∧ ∀ g < S.G,
    S.sig g x = sg g i ∧ S.q g x = M.q g i ∧ ∀ gp < S.G, S.coup g gp x = couple M g gp i := by
  obtain ⟨x, hx⟩ := Set.nonempty_Ioo.2 (hM.edge_lt hi)
  exact ⟨x, hM.sub' hi hx, hM.data i hi x hx⟩

theorem Mesh.tot (hM : Mesh S M sg dx) (hS : S.Pre u th) {g i : Nat} (hg : g < S.G) (hi : i < M.x.N) : 0 < sg g i := by
  obtain ⟨x, hx, hB, h⟩ := hM.inside hi
  rw [← (h g hg).1]
  exact hS.tot g hg x hx hB

theorem Mesh.coup (hM : Mesh S M sg dx) (hS : S.Pre u th) {g gp i : Nat} (hg : g < S.G) (hgp : gp < S.G) (hi : i < M.x.N) :
    0 ≤ couple M g gp i := by
  obtain ⟨x, hx, hB, h⟩ := hM.inside hi
  rw [← (h g hg).2.2 gp hgp]
  exact hS.coup g hg gp hgp x hx hB

theorem Mesh.row (hM : Mesh S M sg dx) (hS : S.Pre u th) {g i : Nat} (hg : g < S.G) (hi : i < M.x.N) :
    ∑ gp ∈ range S.G, couple M g gp i * u gp ≤ th * (sg g i * u g) := by
  obtain ⟨x, hx, hB, h⟩ := hM.inside hi
  have := hS.row g hg x hx hB
  rw [(h g hg).1] at this
  refine le_trans (le_of_eq (sum_congr rfl fun gp hgp => ?_)) this
  rw [(h g hg).2.2 gp (mem_range.1 hgp)]

/-- The data of the cells are those of the slab. -/
theorem Mesh.tame (hS : S.OK u th) (hM : Mesh S M sg dx) : Tame M sg u th where
  tot := fun g hg c hc => hM.tot hS.toPre (by rw [← hM.groups]; exact hg) hc
  couple := fun g hg gp hgp c hc => hM.coup hS.toPre (by rw [← hM.groups]; exact hg) (by rw [← hM.groups]; exact hgp) hc
  upos := fun g hg => hS.upos g (by rw [← hM.groups]; exact hg)
  row := fun g hg c hc => by
    rw [hM.groups] at hg ⊢
    exact hM.row hS.toPre hg hc
  th0 := hS.th0
  less := hS.less

theorem damped (hS : S.OK u th) (hM : Mesh S M sg dx) {sch : Nat → Nat → Nat → ℝ → ℝ → ℝ × ℝ} (hsch : Schemes S sg dx sch)
    (ht : Thin S M sg dx sch) (up : Bool) {order : List Nat} (hord : order.Perm (List.range 2)) :
    MGReflect.OK (S.prob M sch up order) S.w (eqs M sch) ∧ Damped (S.prob M sch up order) S.w (eqs M sch) sg u S.m th := by
  have hT := hM.tame hS
  have lin : ∀ g a i, Sweep.LinEq1 (sch g a i) := fun g a i => by
    obtain ⟨l1, l2, l3, _⟩ := Sweep.C27_schemes_linear Real.exp (S.mu a) 0 0 (dx i) 0 0 (sg g i)
    rcases hsch g a i with e | e | e
    · rw [e]; exact l1
    · rw [e]; exact l2
    · rw [e]; exact l3
  refine ⟨C125_ok1 M hM.ok sch lin S.w S.na up S.bc order hord _ _ hS.refl hS.np,
    C131_1D M Real.exp S.mu S.w dx sg S.m S.na up S.bc order sch hsch hS.mu hM.pos hT.tot hS.norm,
    fun _ _ a ha => (hS.w a ha).le, hT.couple, hT.upos, hT.row, hT.th0, hT.less, fun g hg => ?_⟩
  refine WGReflect.positive1 (sch g) S.w M.x.N S.na hM.cells up (S.bc g) order _ _ _ _ (sg g) fun a ha i hi => ?_
  rcases hsch g a i with e | e | e
  · have := ht g (by rw [← hM.groups]; exact hg) a ha i hi e
    rw [e]; exact WGReflect.gain_dd1 _ _ _ (hS.mu a ha) (hM.pos i hi) (hT.tot g hg i hi) this
  · rw [e]; exact WGReflect.gain_sd1 _ _ _ (hS.mu a ha) (hM.pos i hi) (hT.tot g hg i hi)
  · rw [e]; exact WGReflect.gain_sc1 Real.exp WGReflect.attenuates_exp _ _ _ (hS.mu a ha) (hM.pos i hi) (hT.tot g hg i hi)

/-- Angular fluxes of one cell, in travel order. -/
theorem cell_exact (hS : S.Pre u th) (hM : Mesh S M sg dx) {sch : Nat → Nat → Nat → ℝ → ℝ → ℝ × ℝ} (hsch : Schemes S sg dx sch)
    {psi : Nat → Nat → Nat → ℝ → ℝ} (hE : S.Exact psi) {g o a i : Nat} (hg : g < S.G) (ho : o < 2) (ha : a < S.na)
    (hi : i < M.x.N) {η ζ : ℝ}
    (hη : ∀ x ∈ Set.Icc (edge dx i) (edge dx (i + 1)), ∀ y ∈ Set.Icc (edge dx i) (edge dx (i + 1)),
      |psi g o a x - psi g o a y| ≤ η)
    (hζ : ∀ x ∈ Set.Icc (edge dx i) (edge dx (i + 1)), ∀ y ∈ Set.Icc (edge dx i) (edge dx (i + 1)),
      |S.m * (M.q g i + ∑ gp ∈ range S.G, couple M g gp i * S.flux psi gp x) -
        S.m * (M.q g i + ∑ gp ∈ range S.G, couple M g gp i * S.flux psi gp y)| ≤ ζ) :
    ∃ s c, sch g a i s (psi g o a (edge dx (i + o))) = (c, psi g o a (edge dx (i + (1 - o)))) ∧
      (∀ x ∈ Set.Icc (edge dx i) (edge dx (i + 1)), |c - psi g o a x| ≤ η + ζ / sg g i) ∧
      ∀ x ∈ Set.Icc (edge dx i) (edge dx (i + 1)),
        |s - S.m * (M.q g i + ∑ gp ∈ range S.G, couple M g gp i * S.flux psi gp x)| ≤ ζ + sg g i * η := by
  have hlt := hM.edge_lt hi
  have hmu := hS.mu a ha
  have hsg : 0 < sg g i := hM.tot hS hg hi
  have hw : edge dx (i + 1) - edge dx i = dx i := by rw [edge_succ]; ring
  have hder : ∀ x ∈ Set.Ioo (edge dx i) (edge dx (i + 1)), ∃ d, HasDerivAt (psi g o a) d x ∧
      dir o * S.mu a * d + sg g i * psi g o a x =
        S.m * (M.q g i + ∑ gp ∈ range S.G, couple M g gp i * S.flux psi gp x) := by
    intro x hx
    obtain ⟨hB, hd⟩ := hM.data i hi x hx
    obtain ⟨d, h1, h2⟩ := hE.eq g hg o ho a ha x (hM.sub' hi hx) hB
    refine ⟨d, h1, ?_⟩
    rw [(hd g hg).1, (hd g hg).2.1] at h2
    rw [h2]
    congr 2
    exact sum_congr rfl fun gp hgp => by rw [(hd g hg).2.2 gp (mem_range.1 hgp)]
  have hct : ContinuousOn (psi g o a) (Set.Icc (edge dx i) (edge dx (i + 1))) := (hE.cont g hg o ho a ha).mono (hM.sub hi)
  obtain rfl | rfl : o = 0 ∨ o = 1 := by omega
  · refine cell_near (f := psi g 0 a) (q := fun x => S.m * (M.q g i + ∑ gp ∈ range S.G, couple M g gp i * S.flux psi gp x))
      hmu hsg hlt ?_ hct (fun x hx => ?_) hη hζ
    · show _ = dd1 _ (edge dx (i + 1) - edge dx i) _ ∨ _ = sd1 _ (edge dx (i + 1) - edge dx i) _ ∨
        _ = sc1 _ _ (edge dx (i + 1) - edge dx i) _
      rw [hw]
      exact hsch g a i
    · obtain ⟨d, h1, h2⟩ := hder x hx
      convert h1 using 1
      rw [← h2, dir, if_pos rfl]
      field_simp
      ring
  · have hneg : ∀ x, x ∈ Set.Icc (-edge dx (i + 1)) (-edge dx i) ↔ -x ∈ Set.Icc (edge dx i) (edge dx (i + 1)) := fun x => by
      simp only [Set.mem_Icc]
      constructor <;> rintro ⟨h1, h2⟩ <;> constructor <;> linarith
    obtain ⟨s, c, k1, k2, k3⟩ := cell_near (sch := sch g a i) (f := fun x => psi g 1 a (-x))
      (q := fun x => S.m * (M.q g i + ∑ gp ∈ range S.G, couple M g gp i * S.flux psi gp (-x))) (η := η) (ζ := ζ)
      hmu hsg (neg_lt_neg hlt) (by
        have : -edge dx i - -edge dx (i + 1) = dx i := by rw [← hw]; ring
        rw [this]
        exact hsch g a i)
      (hct.comp continuousOn_neg fun x hx => (hneg x).1 hx) (fun x hx => by
        obtain ⟨d, h1, h2⟩ := hder (-x) ⟨by linarith [hx.2], by linarith [hx.1]⟩
        have h3 : HasDerivAt (fun x => psi g 1 a (-x)) (d * -1) x := h1.comp x (hasDerivAt_neg x)
        convert h3 using 1
        rw [← h2, dir, if_neg one_ne_zero]
        field_simp
        ring)
      (fun x hx y hy => hη _ ((hneg x).1 hx) _ ((hneg y).1 hy)) (fun x hx y hy => hζ _ ((hneg x).1 hx) _ ((hneg y).1 hy))
    simp only [neg_neg] at k1
    refine ⟨s, c, k1, fun x hx => ?_, fun x hx => ?_⟩
    · have := k2 (-x) ((hneg (-x)).2 (by rwa [neg_neg]))
      simpa only [neg_neg] using this
    · have := k3 (-x) ((hneg (-x)).2 (by rwa [neg_neg]))
      simpa only [neg_neg] using this

theorem place_zero : S.place 0 = 0 := if_pos rfl

theorem place_one : S.place 1 = S.X := if_neg one_ne_zero

/-- Values of the exact angular fluxes at the edges, with cell fluxes `c` that the scheme gives for sources `s`. -/
theorem reference (hM : Mesh S M sg dx) {sch : Nat → Nat → Nat → ℝ → ℝ → ℝ × ℝ} {psi : Nat → Nat → Nat → ℝ → ℝ}
    (hE : S.Exact psi) (up : Bool) (order : List Nat) (s c : Nat → Nat → Nat → Nat → ℝ)
    (h : ∀ g < S.G, ∀ o < 2, ∀ a < S.na, ∀ i < M.x.N, sch g a i (s g o a i) (psi g o a (edge dx (i + o))) =
      (c g o a i, psi g o a (edge dx (i + (1 - o))))) :
    With (S.prob M sch up order) S.w (eqs M sch) s (fun g i => ∑ o ∈ range 2, ∑ a ∈ range S.na, S.w a * c g o a i)
      (fun g f o a => psi g o a (S.place f)) c ∧
    ∀ g < (S.prob M sch up order).M.x.mat.G, Sides ((S.prob M sch up order).W g) fun f o a => psi g o a (S.place f) := by
  have e0 : edge dx 0 = 0 := by simp [edge]
  refine ⟨⟨fun g hg => ⟨fun o ho a ha => ?_, fun side hsd hr o ho he o' hm a ha i j hi => ?_⟩, fun g hg i hi => rfl⟩,
    fun g hg => ⟨fun side hsd hb o ho he a ha i j hi => ?_, fun side hsd ps hb o ho io hio a ha i j hi => ?_⟩⟩
  · have hg' : g < S.G := by rw [← hM.groups]; exact hg
    obtain rfl | rfl : o = 0 ∨ o = 1 := by
      have : o < 2 := ho
      omega
    · refine ⟨fun p => psi g 0 a (edge dx p), ?_, ?_, fun p hp => ?_⟩
      · show psi g 0 a (edge dx 0) = psi g 0 a (S.place 0)
        rw [place_zero, e0]
      · show psi g 0 a (S.place 1) = psi g 0 a (edge dx M.x.N)
        rw [place_one, hM.len]
      · exact h g hg' 0 (by decide) a ha p hp
    · refine ⟨fun p => psi g 1 a (edge dx (M.x.N - p)), ?_, ?_, fun p hp => ?_⟩
      · show psi g 1 a (edge dx M.x.N) = psi g 1 a (S.place 1)
        rw [place_one, hM.len]
      · show psi g 1 a (S.place 0) = psi g 1 a (edge dx (M.x.N - M.x.N))
        rw [place_zero, Nat.sub_self, e0]
      · have := h g hg' 1 (by decide) a ha (M.x.N - 1 - p) (by omega)
        have e1 : M.x.N - 1 - p + 1 = M.x.N - p := by omega
        have e2 : M.x.N - 1 - p + (1 - 1) = M.x.N - (p + 1) := by omega
        rw [e1, e2] at this
        exact this
  · have hg' : g < S.G := by rw [← hM.groups]; exact hg
    have key : psi g o a (S.place side) = psi g o' a (S.place side) := by
      have ho : o < 2 := ho
      have hsd : side < 2 := hsd
      have hm : Mirror 1 side o o' := hm
      have ho' : o' < 2 := hm.1
      have : side = o ∧ o' = 1 - o := by
        revert he hm
        interval_cases side <;> interval_cases o <;> interval_cases o' <;> decide
      obtain ⟨rfl, rfl⟩ := this
      exact hE.reflect g hg' side hsd hr a ha
    exact ⟨fun _ => key, fun _ => key⟩
  · have hg' : g < S.G := by rw [← hM.groups]; exact hg
    have ho : o < 2 := ho
    have hsd : side < 2 := hsd
    have : side = o := by
      revert he
      interval_cases side <;> interval_cases o <;> decide
    obtain rfl := this
    exact hE.vacuum g hg' side hsd hb a ha
  · have hg' : g < S.G := by rw [← hM.groups]; exact hg
    have hsd : side < 2 := hsd
    have : (Sweep.incidentOctants 1 side)[io]? = some o → o = side ∧ io = 0 := by
      interval_cases side <;> rcases io with _ | io <;> simp [Sweep.incidentOctants] <;> omega
    obtain ⟨rfl, rfl⟩ := this hio
    exact hE.given g hg' o hsd ps hb a ha

/-- Flat bounds of angular fluxes bound the scalar flux. -/
theorem flux_near (hS : S.Pre u th) {p p' : Nat → Nat → ℝ} {v : ℝ} (h : ∀ o < 2, ∀ a < S.na, |p o a - p' o a| ≤ S.m * v) :
    |∑ o ∈ range 2, ∑ a ∈ range S.na, S.w a * p o a - ∑ o ∈ range 2, ∑ a ∈ range S.na, S.w a * p' o a| ≤ v := by
  rw [← sum_sub_distrib]
  calc |∑ o ∈ range 2, (∑ a ∈ range S.na, S.w a * p o a - ∑ a ∈ range S.na, S.w a * p' o a)|
      ≤ ∑ o ∈ range 2, ∑ a ∈ range S.na, S.w a * (S.m * v) := by
        refine (abs_sum_le_sum_abs _ _).trans (sum_le_sum fun o ho => ?_)
        rw [← sum_sub_distrib]
        refine (abs_sum_le_sum_abs _ _).trans (sum_le_sum fun a ha => ?_)
        have hw := (hS.w a (mem_range.1 ha)).le
        rw [← mul_sub, abs_mul, abs_of_nonneg hw]
        exact mul_le_mul_of_nonneg_left (h o (mem_range.1 ho) a (mem_range.1 ha)) hw
    _ = v * (S.m * ∑ _o ∈ range 2, ∑ a ∈ range S.na, S.w a) := by
        simp only [mul_sum]
        exact sum_congr rfl fun o _ => sum_congr rfl fun a _ => by ring
    _ = v := by rw [hS.norm, mul_one]

theorem Pre.m_pos (hS : S.Pre u th) : 0 < S.m := by
  have h := hS.norm
  have h0 : 0 ≤ ∑ _o ∈ range 2, ∑ a ∈ range S.na, S.w a :=
    sum_nonneg fun _ _ => sum_nonneg fun a ha => (hS.w a (mem_range.1 ha)).le
  by_contra hm
  have := mul_nonpos_of_nonpos_of_nonneg (not_lt.1 hm) h0
  linarith

/-- What a change of the scalar fluxes by parts `η` of `u` does to the emission of a cell. -/
theorem emission_near (hS : S.Pre u th) (hM : Mesh S M sg dx) {g i : Nat} (hg : g < S.G) (hi : i < M.x.N) {f f' : Nat → ℝ} {η : ℝ}
    (hη : 0 ≤ η) (h : ∀ gp < S.G, |f gp - f' gp| ≤ η * u gp) :
    |S.m * (M.q g i + ∑ gp ∈ range S.G, couple M g gp i * f gp) -
      S.m * (M.q g i + ∑ gp ∈ range S.G, couple M g gp i * f' gp)| ≤ th * (sg g i * (η * (S.m * u g))) := by
  have hm := hS.m_pos
  have e : S.m * (M.q g i + ∑ gp ∈ range S.G, couple M g gp i * f gp) -
      S.m * (M.q g i + ∑ gp ∈ range S.G, couple M g gp i * f' gp) =
      S.m * ∑ gp ∈ range S.G, couple M g gp i * (f gp - f' gp) := by
    simp only [mul_sub, sum_sub_distrib]
    ring
  rw [e, abs_mul, abs_of_pos hm]
  have h1 : |∑ gp ∈ range S.G, couple M g gp i * (f gp - f' gp)| ≤ η * ∑ gp ∈ range S.G, couple M g gp i * u gp := by
    rw [mul_sum]
    refine (abs_sum_le_sum_abs _ _).trans (sum_le_sum fun gp hgp => ?_)
    have hgp := mem_range.1 hgp
    have hc : 0 ≤ couple M g gp i := hM.coup hS hg hgp hi
    rw [abs_mul, abs_of_nonneg hc]
    calc couple M g gp i * |f gp - f' gp| ≤ couple M g gp i * (η * u gp) := mul_le_mul_of_nonneg_left (h gp hgp) hc
      _ = _ := by ring
  have h2 := hM.row hS hg hi
  have h3 := mul_le_mul_of_nonneg_left h2 hη
  have h4 := mul_le_mul_of_nonneg_left (h1.trans h3) hm.le
  refine h4.trans (le_of_eq (by ring))

/-- The source of the code in a cell. -/
theorem source_eq' (hM : Mesh S M sg dx) (phi : Nat → Nat → ℝ) (g i : Nat) :
    M.source phi g i = M.q g i + ∑ gp ∈ range S.G, couple M g gp i * phi gp i := by
  rw [source_couple, hM.groups]

/-- Scalar fluxes `phi` belong to cell equations with sources that differ from what `phi` give by no more than the part `ε` of
    what the fluxes `u` collide. -/
def Nearly (S : Slab) (M : MGSolve.Prob ℝ) (sg : Nat → Nat → ℝ) (sch : Nat → Nat → Nat → ℝ → ℝ → ℝ × ℝ) (up : Bool) (order : List Nat)
    (u : Nat → ℝ) (ε : ℝ) (phi : Nat → Nat → ℝ) : Prop :=
  ∃ src bd psi, With (S.prob M sch up order) S.w (eqs M sch) src phi bd psi ∧
    (∀ g < (S.prob M sch up order).M.x.mat.G, Sides ((S.prob M sch up order).W g) (bd g)) ∧
    ∀ g < S.G, ∀ o < 2, ∀ a < S.na, ∀ i < M.x.N, |src g o a i - S.m * M.source phi g i| ≤ ε * (sg g i * (S.m * u g))

/-- The fluxes of the mesh are near. -/
theorem Nearly.close (hS : S.OK u th) (hM : Mesh S M sg dx) {sch : Nat → Nat → Nat → ℝ → ℝ → ℝ × ℝ} (hsch : Schemes S sg dx sch)
    (ht : Thin S M sg dx sch) {up : Bool} {order : List Nat} (hord : order.Perm (List.range 2)) {ε : ℝ} (hε : 0 ≤ ε)
    {phi phi' : Nat → Nat → ℝ} (h : S.Nearly M sg sch up order u ε phi') (hphi : MGFlux (S.prob M sch up order) S.w (eqs M sch) phi) :
    ∀ g < S.G, ∀ i < M.x.N, |phi g i - phi' g i| ≤ ε / (1 - th) * u g := by
  obtain ⟨src, bd', psi', hW, hSd, hr⟩ := h
  obtain ⟨ok, hD⟩ := damped hS hM hsch ht up hord
  obtain ⟨bd, ps, hs⟩ := solves_of_flux hphi
  intro g hg i hi
  exact (stable ok hD hs hW hSd hε (fun g hg o ho a ha i hi => hr g (by rw [← hM.groups]; exact hg) o ho a ha i hi) g
    (show g < M.x.mat.G by rw [hM.groups]; exact hg) i hi).1

/-- The fluxes of the slab nearly belong to the mesh. -/
theorem near (hS : S.Pre u th) (hM : Mesh S M sg dx) {sch : Nat → Nat → Nat → ℝ → ℝ → ℝ × ℝ} (hsch : Schemes S sg dx sch)
    (up : Bool) (order : List Nat)
    {psi : Nat → Nat → Nat → ℝ → ℝ} (hE : S.Exact psi) {η : ℝ} (hη0 : 0 ≤ η)
    (hη : ∀ g < S.G, ∀ o < 2, ∀ a < S.na, ∀ i < M.x.N, ∀ x ∈ Set.Icc (edge dx i) (edge dx (i + 1)),
      ∀ y ∈ Set.Icc (edge dx i) (edge dx (i + 1)), |psi g o a x - psi g o a y| ≤ η * (S.m * u g)) :
    ∃ phi, S.Nearly M sg sch up order u ((1 + th) ^ 2 * η) phi ∧
    ∀ g < S.G, ∀ i < M.x.N, ∀ x ∈ Set.Icc (edge dx i) (edge dx (i + 1)), |phi g i - S.flux psi g x| ≤ (1 + th) * η * u g := by
  have hm := hS.m_pos
  have hth := hS.th0
  have hfl : ∀ g < S.G, ∀ i < M.x.N, ∀ x ∈ Set.Icc (edge dx i) (edge dx (i + 1)),
      ∀ y ∈ Set.Icc (edge dx i) (edge dx (i + 1)), |S.flux psi g x - S.flux psi g y| ≤ η * u g := by
    intro g hg i hi x hx y hy
    refine flux_near hS (p := fun o a => psi g o a x) (p' := fun o a => psi g o a y) fun o ho a ha => ?_
    refine (hη g hg o ho a ha i hi x hx y hy).trans (le_of_eq (by ring))
  have cell : ∀ g o a i, ∃ sc : ℝ × ℝ, g < S.G → o < 2 → a < S.na → i < M.x.N →
      sch g a i sc.1 (psi g o a (edge dx (i + o))) = (sc.2, psi g o a (edge dx (i + (1 - o)))) ∧
      (∀ x ∈ Set.Icc (edge dx i) (edge dx (i + 1)), |sc.2 - psi g o a x| ≤ (1 + th) * η * (S.m * u g)) ∧
      ∀ x ∈ Set.Icc (edge dx i) (edge dx (i + 1)),
        |sc.1 - S.m * (M.q g i + ∑ gp ∈ range S.G, couple M g gp i * S.flux psi gp x)| ≤
          (1 + th) * η * (sg g i * (S.m * u g)) := by
    intro g o a i
    by_cases hc : g < S.G ∧ o < 2 ∧ a < S.na ∧ i < M.x.N
    · obtain ⟨hg, ho, ha, hi⟩ := hc
      have hsg : 0 < sg g i := hM.tot hS hg hi
      obtain ⟨s, c, k1, k2, k3⟩ := cell_exact hS hM hsch hE hg ho ha hi (hη g hg o ho a ha i hi)
        (ζ := th * (sg g i * (η * (S.m * u g)))) (fun x hx y hy => emission_near hS hM hg hi hη0
          (f := fun gp => S.flux psi gp x) (f' := fun gp => S.flux psi gp y) fun gp hgp => hfl gp hgp i hi x hx y hy)
      refine ⟨(s, c), fun _ _ _ _ => ⟨k1, fun x hx => (k2 x hx).trans (le_of_eq ?_), fun x hx =>
        (k3 x hx).trans (le_of_eq (by ring))⟩⟩
      field_simp
    · exact ⟨(0, 0), fun a1 a2 a3 a4 => absurd ⟨a1, a2, a3, a4⟩ hc⟩
  choose sc hsc using cell
  obtain ⟨hW, hSd⟩ := reference (sch := sch) hM hE up order (fun g o a i => (sc g o a i).1) (fun g o a i => (sc g o a i).2)
    fun g hg o ho a ha i hi => (hsc g o a i hg ho ha hi).1
  have href : ∀ g < S.G, ∀ i < M.x.N, ∀ x ∈ Set.Icc (edge dx i) (edge dx (i + 1)),
      |∑ o ∈ range 2, ∑ a ∈ range S.na, S.w a * (sc g o a i).2 - S.flux psi g x| ≤ (1 + th) * η * u g := by
    intro g hg i hi x hx
    refine flux_near hS (p' := fun o a => psi g o a x) fun o ho a ha => ?_
    refine ((hsc g o a i hg ho ha hi).2.1 x hx).trans (le_of_eq (by ring))
  refine ⟨_, ⟨_, _, _, hW, hSd, fun g hg o ho a ha i hi => ?_⟩, href⟩
  have hx : edge dx i ∈ Set.Icc (edge dx i) (edge dx (i + 1)) := Set.left_mem_Icc.2 (hM.edge_lt hi).le
  have k1 := (hsc g o a i hg ho ha hi).2.2 _ hx
  have k2 := emission_near hS hM hg hi (η := (1 + th) * η) (by positivity)
    (f := fun gp => ∑ o ∈ range 2, ∑ a ∈ range S.na, S.w a * (sc gp o a i).2)
    (f' := fun gp => S.flux psi gp (edge dx i)) fun gp hgp => href gp hgp i hi _ hx
  have e : M.source
      (fun g i => ∑ o ∈ range 2, ∑ a ∈ range S.na, S.w a * (sc g o a i).2) g i = _ :=
    source_eq' hM (fun g i => ∑ o ∈ range 2, ∑ a ∈ range S.na, S.w a * (sc g o a i).2) g i
  rw [e]
  rw [abs_sub_comm] at k2
  refine (abs_sub_le _ _ _).trans ((add_le_add k1 k2).trans (le_of_eq (by ring)))

/-- The error of the scalar fluxes is no more than a multiple of the change of the exact angular fluxes across a cell. -/
theorem C136_error (hS : S.OK u th) (hM : Mesh S M sg dx) {sch : Nat → Nat → Nat → ℝ → ℝ → ℝ × ℝ} (hsch : Schemes S sg dx sch)
    (ht : Thin S M sg dx sch) (up : Bool) {order : List Nat} (hord : order.Perm (List.range 2))
    {psi : Nat → Nat → Nat → ℝ → ℝ} (hE : S.Exact psi) {η : ℝ} (hη0 : 0 ≤ η)
    (hη : ∀ g < S.G, ∀ o < 2, ∀ a < S.na, ∀ i < M.x.N, ∀ x ∈ Set.Icc (edge dx i) (edge dx (i + 1)),
      ∀ y ∈ Set.Icc (edge dx i) (edge dx (i + 1)), |psi g o a x - psi g o a y| ≤ η * (S.m * u g))
    {phi : Nat → Nat → ℝ} (hphi : MGFlux (S.prob M sch up order) S.w (eqs M sch) phi) :
    ∀ g < S.G, ∀ i < M.x.N, ∀ x ∈ Set.Icc (edge dx i) (edge dx (i + 1)),
      |phi g i - S.flux psi g x| ≤ 2 * (1 + th) / (1 - th) * η * u g := by
  have hth := hS.th0
  have hl : 0 < 1 - th := by linarith [hS.less]
  obtain ⟨phi', hN, hf⟩ := near hS.toPre hM hsch up order hE hη0 hη
  intro g hg i hi x hx
  have h1 := hN.close hS hM hsch ht hord (by positivity) hphi g hg i hi
  have h2 := hf g hg i hi x hx
  refine (abs_sub_le _ _ _).trans ((add_le_add h1 h2).trans (le_of_eq ?_))
  field_simp
  ring

/-- Total cross sections and sources do not grow without bound. -/
def Bounded (S : Slab) : Prop := ∃ T, ∀ g < S.G, ∀ x ∈ Set.Ioo 0 S.X, x ∉ S.B → S.sig g x ≤ T ∧ |S.q g x| ≤ T

/-- A positive lower bound of finitely many positive numbers. -/
theorem floor_of {n : Nat} {f : Nat → ℝ} (h : ∀ i < n, 0 < f i) : ∃ c > 0, ∀ i < n, c ≤ f i := by
  induction n with
  | zero => exact ⟨1, one_pos, fun i hi => absurd hi (Nat.not_lt_zero i)⟩
  | succ n ih =>
    obtain ⟨c, hc, k⟩ := ih fun i hi => h i (by omega)
    refine ⟨min c (f n), lt_min hc (h n (by omega)), fun i hi => ?_⟩
    rcases Nat.lt_succ_iff_lt_or_eq.1 hi with h' | rfl
    · exact (min_le_left _ _).trans (k i h')
    · exact min_le_right _ _

/-- An upper bound of finitely many numbers. -/
theorem ceil_of (n : Nat) (f : Nat → ℝ) : ∃ c ≥ 0, ∀ i < n, f i ≤ c := by
  induction n with
  | zero => exact ⟨0, le_refl _, fun i hi => absurd hi (Nat.not_lt_zero i)⟩
  | succ n ih =>
    obtain ⟨c, hc, k⟩ := ih
    refine ⟨max c (f n), hc.trans (le_max_left _ _), fun i hi => ?_⟩
    rcases Nat.lt_succ_iff_lt_or_eq.1 hi with h' | rfl
    · exact (k i h').trans (le_max_left _ _)
    · exact le_max_right _ _

/-- The exact angular fluxes are bounded. -/
theorem Exact.bounded (hS : S.Pre u th) {psi : Nat → Nat → Nat → ℝ → ℝ} (hE : S.Exact psi) : ∃ p ≥ 0, ∀ g < S.G, ∀ o < 2, ∀ a < S.na,
    ∀ x ∈ Set.Icc 0 S.X, |psi g o a x| ≤ p * (S.m * u g) := by
  have hm := hS.m_pos
  have one : ∀ g o a, ∃ c, g < S.G → o < 2 → a < S.na → ∀ x ∈ Set.Icc 0 S.X, |psi g o a x| ≤ c * (S.m * u g) := by
    intro g o a
    by_cases hc : g < S.G ∧ o < 2 ∧ a < S.na
    · obtain ⟨hg, ho, ha⟩ := hc
      obtain ⟨c, hc⟩ := isCompact_Icc.exists_bound_of_continuousOn (hE.cont g hg o ho a ha)
      have hu := hS.upos g hg
      refine ⟨c / (S.m * u g), fun _ _ _ x hx => ?_⟩
      rw [div_mul_cancel₀ _ (by positivity)]
      exact hc x hx
    · exact ⟨0, fun a1 a2 a3 => absurd ⟨a1, a2, a3⟩ hc⟩
  choose c hc using one
  choose ca _ ha using fun g o => ceil_of S.na (c g o)
  choose co _ ho using fun g => ceil_of 2 (ca g)
  obtain ⟨p, hp, hg⟩ := ceil_of S.G co
  refine ⟨p, hp, fun g h1 o h2 a h3 x hx => (hc g o a h1 h2 h3 x hx).trans ?_⟩
  exact mul_le_mul_of_nonneg_right (((ha g o a h3).trans (ho g o h2)).trans (hg g h1)) (by
    have := hS.upos g h1
    positivity)

/-- Slope of the exact angular flux in a cell, times the cosine, in travel direction. -/
noncomputable def slope (S : Slab) (M : MGSolve.Prob ℝ) (sg : Nat → Nat → ℝ) (psi : Nat → Nat → Nat → ℝ → ℝ) (g o a i : Nat) (x : ℝ) : ℝ :=
  S.m * (M.q g i + ∑ gp ∈ range S.G, couple M g gp i * S.flux psi gp x) - sg g i * psi g o a x

/-- Bounds of the slopes and optical thicknesses, for all meshes. -/
theorem slopes (hS : S.Pre u th) (hB : S.Bounded) {psi : Nat → Nat → Nat → ℝ → ℝ} (hE : S.Exact psi) : ∃ L ≥ 0, ∃ R ≥ 0,
    ∀ {M : MGSolve.Prob ℝ} {sg : Nat → Nat → ℝ} {dx : Nat → ℝ}, Mesh S M sg dx → ∀ g < S.G, ∀ a < S.na, ∀ i < M.x.N,
      sg g i ≤ R * S.mu a ∧ ∀ o < 2, ∀ x ∈ Set.Icc (edge dx i) (edge dx (i + 1)),
        |slope S M sg psi g o a i x| ≤ L * (S.mu a * (S.m * u g)) := by
  have hm := hS.m_pos
  obtain ⟨T, hT⟩ := hB
  obtain ⟨p, hp, hpsi⟩ := hE.bounded hS
  obtain ⟨mu0, hmu0, hmu⟩ := floor_of hS.mu
  obtain ⟨u0, hu0, hu⟩ := floor_of hS.upos
  have hmax : 0 ≤ max T 0 := le_max_right _ _
  have hth := hS.th0
  refine ⟨max T 0 / u0 / mu0 + (1 + th) * p * (max T 0 / mu0), by positivity, max T 0 / mu0, by positivity, ?_⟩
  intro M sg dx hM g hg a ha i hi
  obtain ⟨y, hy, hyB, hd⟩ := hM.inside hi
  obtain ⟨d1, d2, _⟩ := hd g hg
  have hsg : 0 < sg g i := hM.tot hS hg hi
  have hug := hS.upos g hg
  have hR : sg g i ≤ max T 0 / mu0 * S.mu a := by
    have h1 : sg g i ≤ max T 0 := by
      rw [← d1]
      exact (hT g hg y hy hyB).1.trans (le_max_left _ _)
    refine h1.trans ?_
    rw [div_mul_eq_mul_div, le_div_iff₀ hmu0]
    exact mul_le_mul_of_nonneg_left (hmu a ha) hmax
  refine ⟨hR, fun o ho x hx => ?_⟩
  have hx' := hM.sub hi hx
  have k1 : |S.m * (M.q g i + ∑ gp ∈ range S.G, couple M g gp i * S.flux psi gp x) -
      S.m * (M.q g i + ∑ gp ∈ range S.G, couple M g gp i * (fun _ => (0 : ℝ)) gp)| ≤ th * (sg g i * (p * (S.m * u g))) :=
    emission_near hS hM hg hi hp fun gp hgp => by
      have := flux_near hS (p := fun o a => psi gp o a x) (p' := fun _ _ => 0) (v := p * u gp) fun o ho a ha => by
        rw [sub_zero]
        refine (hpsi gp hgp o ho a ha x hx').trans (le_of_eq (by ring))
      simp only [mul_zero, sum_const_zero] at this
      exact this
  simp only [mul_zero, sum_const_zero, add_zero] at k1
  have k2 : |S.m * M.q g i| ≤ max T 0 / u0 / mu0 * (S.mu a * (S.m * u g)) := by
    rw [abs_mul, abs_of_pos hm, ← d2]
    have h1 : |S.q g y| ≤ max T 0 := (hT g hg y hy hyB).2.trans (le_max_left _ _)
    have h2 : u0 * mu0 ≤ u g * S.mu a := mul_le_mul (hu g hg) (hmu a ha) hmu0.le hug.le
    have h3 : max T 0 ≤ max T 0 / u0 / mu0 * (u g * S.mu a) := by
      rw [div_div, div_mul_eq_mul_div, le_div_iff₀ (by positivity)]
      exact mul_le_mul_of_nonneg_left h2 hmax
    refine (mul_le_mul_of_nonneg_left (h1.trans h3) hm.le).trans (le_of_eq (by ring))
  have k3 : |sg g i * psi g o a x| ≤ sg g i * (p * (S.m * u g)) := by
    rw [abs_mul, abs_of_pos hsg]
    exact mul_le_mul_of_nonneg_left (hpsi g hg o ho a ha x hx') hsg.le
  have k4 : sg g i * ((1 + th) * (p * (S.m * u g))) ≤ max T 0 / mu0 * S.mu a * ((1 + th) * (p * (S.m * u g))) :=
    mul_le_mul_of_nonneg_right hR (by positivity)
  have e : slope S M sg psi g o a i x = (S.m * (M.q g i + ∑ gp ∈ range S.G, couple M g gp i * S.flux psi gp x) -
      S.m * M.q g i) + S.m * M.q g i - sg g i * psi g o a x := by
    unfold slope
    ring
  rw [e]
  refine (abs_sub _ _).trans ((add_le_add ((abs_add_le _ _).trans (add_le_add k1 k2)) k3).trans ?_)
  linear_combination k4

/-- The exact angular fluxes satisfy the transport equation with the data of the cell. -/
theorem Mesh.deriv (hS : S.Pre u th) (hM : Mesh S M sg dx) {psi : Nat → Nat → Nat → ℝ → ℝ} (hE : S.Exact psi) {g o a i : Nat}
    (hg : g < S.G) (ho : o < 2) (ha : a < S.na) (hi : i < M.x.N) {x : ℝ} (hx : x ∈ Set.Ioo (edge dx i) (edge dx (i + 1))) :
    HasDerivAt (psi g o a) (dir o * slope S M sg psi g o a i x / S.mu a) x := by
  obtain ⟨hB, hd⟩ := hM.data i hi x hx
  obtain ⟨d, h1, h2⟩ := hE.eq g hg o ho a ha x (hM.sub' hi hx) hB
  have hmu := hS.mu a ha
  convert h1 using 1
  rw [(hd g hg).1, (hd g hg).2.1, sum_congr rfl fun gp hgp => by rw [(hd g hg).2.2 gp (mem_range.1 hgp)]] at h2
  unfold slope
  rw [← h2]
  have : dir o * dir o = 1 := by unfold dir; split <;> norm_num
  field_simp
  linear_combination d * S.mu a * this

theorem Mesh.cont (hM : Mesh S M sg dx) {psi : Nat → Nat → Nat → ℝ → ℝ} (hE : S.Exact psi) {g o a i : Nat}
    (hg : g < S.G) (ho : o < 2) (ha : a < S.na) (hi : i < M.x.N) :
    ContinuousOn (psi g o a) (Set.Icc (edge dx i) (edge dx (i + 1))) := (hE.cont g hg o ho a ha).mono (hM.sub hi)

/-- Angular fluxes change across a cell by no more than the slope times its width. -/
theorem change (hS : S.Pre u th) (hM : Mesh S M sg dx) {psi : Nat → Nat → Nat → ℝ → ℝ} (hE : S.Exact psi) {L : ℝ}
    (hL : ∀ g < S.G, ∀ o < 2, ∀ a < S.na, ∀ i < M.x.N, ∀ x ∈ Set.Icc (edge dx i) (edge dx (i + 1)),
      |slope S M sg psi g o a i x| ≤ L * (S.mu a * (S.m * u g))) {h : ℝ} (hL0 : 0 ≤ L) {i : Nat} (hh : dx i ≤ h) (hi : i < M.x.N) :
    ∀ g < S.G, ∀ o < 2, ∀ a < S.na, ∀ x ∈ Set.Icc (edge dx i) (edge dx (i + 1)),
      ∀ y ∈ Set.Icc (edge dx i) (edge dx (i + 1)), |psi g o a x - psi g o a y| ≤ L * h * (S.m * u g) := by
  intro g hg o ho a ha x hx y hy
  have hmu := hS.mu a ha
  have hm := hS.m_pos
  have hu := hS.upos g hg
  wlog hxy : y ≤ x generalizing x y
  · rw [abs_sub_comm]
    exact this y hy x hx (not_le.1 hxy).le
  rcases hxy.eq_or_lt with rfl | hxy
  · rw [sub_self, abs_zero]
    have := (hM.pos i hi).le.trans hh
    positivity
  have hsub : Set.Icc y x ⊆ Set.Icc (edge dx i) (edge dx (i + 1)) := Set.Icc_subset_Icc hy.1 hx.2
  have hsub' : Set.Ioo y x ⊆ Set.Ioo (edge dx i) (edge dx (i + 1)) := Set.Ioo_subset_Ioo hy.1 hx.2
  obtain ⟨ξ, hξ, e⟩ := exists_hasDerivAt_eq_slope (psi g o a) _ hxy ((hM.cont hE hg ho ha hi).mono hsub)
    fun z hz => hM.deriv hS hE hg ho ha hi (hsub' hz)
  have hpos : 0 < x - y := sub_pos.2 hxy
  rw [eq_div_iff hpos.ne'] at e
  rw [← e, abs_mul, abs_div, abs_mul, abs_of_pos hpos, abs_of_pos hmu]
  have hd : |dir o| = 1 := by unfold dir; split <;> norm_num
  rw [hd, one_mul]
  have k := hL g hg o ho a ha i hi ξ (Set.Ioo_subset_Icc_self (hsub' hξ))
  have k1 : |slope S M sg psi g o a i ξ| / S.mu a ≤ L * (S.m * u g) := by
    rw [div_le_iff₀ hmu]
    exact k.trans (le_of_eq (by ring))
  have hw : x - y ≤ h := by
    have : edge dx (i + 1) - edge dx i = dx i := by rw [edge_succ]; ring
    linarith [hx.2, hy.1]
  calc _ ≤ L * (S.m * u g) * h := mul_le_mul k1 hw hpos.le (by positivity)
    _ = _ := by ring

/-- The scalar fluxes of every mesh are within a constant times the largest cell of the fluxes of the slab, for every
    mixture of the schemes. -/
theorem C136_rate (hS : S.OK u th) (hB : S.Bounded) {psi : Nat → Nat → Nat → ℝ → ℝ} (hE : S.Exact psi) : ∃ C,
    ∀ {M : MGSolve.Prob ℝ} {sg : Nat → Nat → ℝ} {dx : Nat → ℝ}, Mesh S M sg dx → ∀ {sch : Nat → Nat → Nat → ℝ → ℝ → ℝ × ℝ},
    Schemes S sg dx sch → Thin S M sg dx sch → ∀ (up : Bool) {order : List Nat}, order.Perm (List.range 2) →
    ∀ h, (∀ i < M.x.N, dx i ≤ h) → ∀ phi, MGFlux (S.prob M sch up order) S.w (eqs M sch) phi →
    ∀ g < S.G, ∀ i < M.x.N, ∀ x ∈ Set.Icc (edge dx i) (edge dx (i + 1)), |phi g i - S.flux psi g x| ≤ C * h := by
  obtain ⟨L, hL0, R, hR0, hLR⟩ := slopes hS.toPre hB hE
  obtain ⟨U, hU0, hU⟩ := ceil_of S.G u
  have hl : 0 < 1 - th := by linarith [hS.less]
  have hth := hS.th0
  refine ⟨2 * (1 + th) / (1 - th) * L * U, fun {M sg dx} hM {sch} hsch ht up {order} hord h hh phi hphi g hg i hi x hx => ?_⟩
  have h0 : 0 ≤ h := (hM.pos 0 hM.cells).le.trans (hh 0 hM.cells)
  have := C136_error hS hM hsch ht up hord hE (η := L * h) (by positivity) (fun g hg o ho a ha i hi =>
    change hS.toPre hM hE (fun g hg o ho a ha i hi x hx => (hLR hM g hg a ha i hi).2 o ho x hx) hL0 (hh i hi) hi g hg o ho a ha)
    hphi g hg i hi x hx
  refine this.trans ?_
  have : 2 * (1 + th) / (1 - th) * (L * h) * u g ≤ 2 * (1 + th) / (1 - th) * (L * h) * U :=
    mul_le_mul_of_nonneg_left (hU g hg) (by positivity)
  exact this.trans (le_of_eq (by ring))

/-- Cells that are thin enough for diamond differencing. -/
theorem thin (hS : S.Pre u th) (hM : Mesh S M sg dx) {R : ℝ} (hR0 : 0 ≤ R) (hR : ∀ g < S.G, ∀ a < S.na, ∀ i < M.x.N, sg g i ≤ R * S.mu a)
    (hh : ∀ i < M.x.N, dx i ≤ 2 / (R + 1)) (sch : Nat → Nat → Nat → ℝ → ℝ → ℝ × ℝ) : Thin S M sg dx sch := by
  intro g hg a ha i hi _
  have h1 := hR g hg a ha i hi
  have h2 := hh i hi
  have hmu := hS.mu a ha
  have h3 := (hM.pos i hi).le
  rw [le_div_iff₀ (by positivity)] at h2
  calc sg g i * dx i ≤ R * S.mu a * dx i := mul_le_mul_of_nonneg_right h1 h3
    _ ≤ S.mu a * (dx i * (R + 1)) := by
      have : 0 ≤ S.mu a * dx i := by positivity
      linarith
    _ ≤ S.mu a * 2 := mul_le_mul_of_nonneg_left h2 hmu.le
    _ = _ := by ring

/-- Fine meshes bring the scalar fluxes as close to those of the slab as one likes, in every mixture of the schemes; cells are
    then thin enough for diamond differencing. -/
theorem C136_converges (hS : S.OK u th) (hB : S.Bounded) {psi : Nat → Nat → Nat → ℝ → ℝ} (hE : S.Exact psi) (ε : ℝ) (hε : 0 < ε) :
    ∃ h > 0, ∀ {M : MGSolve.Prob ℝ} {sg : Nat → Nat → ℝ} {dx : Nat → ℝ}, Mesh S M sg dx →
    (∀ i < M.x.N, dx i ≤ h) → ∀ {sch : Nat → Nat → Nat → ℝ → ℝ → ℝ × ℝ}, Schemes S sg dx sch → Thin S M sg dx sch ∧
    ∀ (up : Bool) {order : List Nat}, order.Perm (List.range 2) → ∀ phi, MGFlux (S.prob M sch up order) S.w (eqs M sch) phi →
    ∀ g < S.G, ∀ i < M.x.N, ∀ x ∈ Set.Icc (edge dx i) (edge dx (i + 1)), |phi g i - S.flux psi g x| < ε := by
  obtain ⟨C, hC⟩ := C136_rate hS hB hE
  obtain ⟨L, _, R, hR0, hLR⟩ := slopes hS.toPre hB hE
  have hC1 : 0 < |C| + 1 := by positivity
  refine ⟨min (2 / (R + 1)) (ε / (|C| + 1)), lt_min (by positivity) (by positivity), fun {M sg dx} hM hh {sch} hsch => ?_⟩
  have ht := thin hS.toPre hM hR0 (fun g hg a ha i hi => (hLR hM g hg a ha i hi).1) (fun i hi => (hh i hi).trans (min_le_left _ _)) sch
  refine ⟨ht, fun up {order} hord phi hphi g hg i hi x hx => ?_⟩
  refine lt_of_le_of_lt (hC hM hsch ht up hord _ hh phi hphi g hg i hi x hx) ?_
  have hmin : 0 ≤ min (2 / (R + 1)) (ε / (|C| + 1)) := le_min (by positivity) (by positivity)
  calc C * min (2 / (R + 1)) (ε / (|C| + 1)) ≤ |C| * min (2 / (R + 1)) (ε / (|C| + 1)) :=
        mul_le_mul_of_nonneg_right (le_abs_self C) hmin
    _ ≤ |C| * (ε / (|C| + 1)) := mul_le_mul_of_nonneg_left (min_le_right _ _) (abs_nonneg C)
    _ < ε := by
        rw [mul_div_assoc', div_lt_iff₀ hC1]
        linarith

/-- The mesh has one set of fluxes and the solver reaches it. -/
theorem settled (hS : S.OK u th) (hM : Mesh S M sg dx) {sch : Nat → Nat → Nat → ℝ → ℝ → ℝ × ℝ} (hsch : Schemes S sg dx sch)
    (ht : Thin S M sg dx sch) (up : Bool) {order : List Nat} (hord : order.Perm (List.range 2)) :
    Settles (S.prob M sch up order) S.w (eqs M sch) := by
  obtain ⟨ok, hD⟩ := damped hS hM hsch ht up hord
  have hT := hM.tame hS
  refine settles (V := dx) (fw := fun _ _ a _ _ => S.mu a / 2) 0 ok hD (fun _ _ => hS.w) hM.pos hT.tot fun g hg =>
    WGReflect.dissipates1 (sch g) S.w M.x.N S.na up (S.bc g) order _ _ _ _ dx (sg g) (fun a => S.mu a / 2)
      (fun a ha => half_pos (hS.mu a ha)) ?_
  intro a ha i hi
  have h1 := hS.mu a ha
  have h2 := hM.pos i hi
  have h3 := hT.tot g hg i hi
  rcases hsch g a i with e | e | e
  · rw [e]; exact WGReflect.cell_dd1 _ _ _ h1 h2 h3
  · rw [e]; exact WGReflect.cell_sd1 _ _ _ h1 h2 h3
  · obtain ⟨k1, k2⟩ := WGReflect.exp_ok (sg g i * dx i / S.mu a) (by positivity)
    rw [e]; exact WGReflect.cell_sc1 Real.exp _ _ _ h1 h2 h3 k1 k2

/-- On fine meshes the Gauss–Seidel solver reaches the fluxes of the slab, from whatever it is started and with any number of
    inner iterations. -/
theorem C136_passes (hS : S.OK u th) (hB : S.Bounded) {psi : Nat → Nat → Nat → ℝ → ℝ} (hE : S.Exact psi) (ε : ℝ) (hε : 0 < ε) :
    ∃ h > 0, ∀ {M : MGSolve.Prob ℝ} {sg : Nat → Nat → ℝ} {dx : Nat → ℝ}, Mesh S M sg dx →
    (∀ i < M.x.N, dx i ≤ h) → ∀ {sch : Nat → Nat → Nat → ℝ → ℝ → ℝ × ℝ}, Schemes S sg dx sch →
    ∀ (up : Bool) {order : List Nat}, order.Perm (List.range 2) → ∀ R, Ready (S.prob M sch up order) R →
    ∃ k0, ∀ k ≥ k0, ∀ (tolI : ℝ) (n : Nat), 0 < n → ∀ l : List Nat, (∀ g, g ∈ l ↔ g < S.G) →
    ∀ g < S.G, ∀ i < M.x.N, ∀ x ∈ Set.Icc (edge dx i) (edge dx (i + 1)),
      |(((S.prob M sch up order).gsPass tolI n l)^[k] R).phi g i - S.flux psi g x| < ε := by
  obtain ⟨h, hh0, H⟩ := C136_converges hS hB hE (ε / 2) (half_pos hε)
  refine ⟨h, hh0, fun {M sg dx} hM hh {sch} hsch up {order} hord R hR => ?_⟩
  obtain ⟨ht, H⟩ := H hM hh hsch
  obtain ⟨phi, hphi, _, hc⟩ := settled hS hM hsch ht up hord
  obtain ⟨k0, hk⟩ := hc R hR (ε / 2) (half_pos hε)
  refine ⟨k0, fun k hk0 tolI n hn l hl g hg i hi x hx => ?_⟩
  have k1 := hk k hk0 tolI n hn l (fun g => by rw [hl g, ← hM.groups]; rfl) g (show g < M.x.mat.G by rw [hM.groups]; exact hg) i hi
  have k2 := H up hord phi hphi g hg i hi x hx
  exact lt_of_le_of_lt (abs_sub_le _ _ _) (by linarith)

/-- Gain less loss of a cell. -/
noncomputable def net (S : Slab) (M : MGSolve.Prob ℝ) (sg : Nat → Nat → ℝ) (i : Nat) (F : Nat → Nat → Nat → ℝ) (g o a : Nat) : ℝ :=
  S.m * ∑ gp ∈ range S.G, couple M g gp i * (∑ o ∈ range 2, ∑ a ∈ range S.na, S.w a * F gp o a) - sg g i * F g o a

theorem net_near (hS : S.Pre u th) (hM : Mesh S M sg dx) {i : Nat} (hi : i < M.x.N) {F F' : Nat → Nat → Nat → ℝ} {η : ℝ} (hη : 0 ≤ η)
    (h : ∀ g < S.G, ∀ o < 2, ∀ a < S.na, |F g o a - F' g o a| ≤ η * (S.m * u g)) {g o a : Nat} (hg : g < S.G) (ho : o < 2)
    (ha : a < S.na) : |net S M sg i F g o a - net S M sg i F' g o a| ≤ (1 + th) * η * (sg g i * (S.m * u g)) := by
  have hsg : 0 < sg g i := hM.tot hS hg hi
  have k1 := emission_near hS hM hg hi hη (f := fun gp => ∑ o ∈ range 2, ∑ a ∈ range S.na, S.w a * F gp o a)
    (f' := fun gp => ∑ o ∈ range 2, ∑ a ∈ range S.na, S.w a * F' gp o a) fun gp hgp =>
      flux_near hS (p := F gp) (p' := F' gp) fun o ho a ha => (h gp hgp o ho a ha).trans (le_of_eq (by ring))
  have k2 := mul_le_mul_of_nonneg_left (h g hg o ho a ha) hsg.le
  rw [← abs_of_pos hsg, ← abs_mul, abs_of_pos hsg] at k2
  have e : net S M sg i F g o a - net S M sg i F' g o a =
      (S.m * (M.q g i + ∑ gp ∈ range S.G, couple M g gp i * ∑ o ∈ range 2, ∑ a ∈ range S.na, S.w a * F gp o a) -
      S.m * (M.q g i + ∑ gp ∈ range S.G, couple M g gp i * ∑ o ∈ range 2, ∑ a ∈ range S.na, S.w a * F' gp o a)) -
      sg g i * (F g o a - F' g o a) := by
    unfold net
    ring
  rw [e]
  exact (abs_sub _ _).trans ((add_le_add k1 k2).trans (le_of_eq (by ring)))

theorem net_deriv (i : Nat) {F : Nat → Nat → Nat → ℝ → ℝ} {F' : Nat → Nat → Nat → ℝ} {x : ℝ}
    (h : ∀ g < S.G, ∀ o < 2, ∀ a < S.na, HasDerivAt (F g o a) (F' g o a) x) {g o a : Nat} (hg : g < S.G) (ho : o < 2)
    (ha : a < S.na) : HasDerivAt (fun x => net S M sg i (fun g o a => F g o a x) g o a) (net S M sg i F' g o a) x := by
  unfold net
  refine HasDerivAt.sub (HasDerivAt.const_mul _ (HasDerivAt.fun_sum fun gp hgp => HasDerivAt.const_mul _
    (HasDerivAt.fun_sum fun o ho => HasDerivAt.fun_sum fun a ha => HasDerivAt.const_mul _ ?_))) ((h g hg o ho a ha).const_mul _)
  exact h gp (mem_range.1 hgp) o (mem_range.1 ho) a (mem_range.1 ha)

theorem net_cont (i : Nat) {F : Nat → Nat → Nat → ℝ → ℝ} {s : Set ℝ}
    (h : ∀ g < S.G, ∀ o < 2, ∀ a < S.na, ContinuousOn (F g o a) s) {g o a : Nat} (hg : g < S.G) (ho : o < 2)
    (ha : a < S.na) : ContinuousOn (fun x => net S M sg i (fun g o a => F g o a x) g o a) s := by
  unfold net
  refine ContinuousOn.sub (continuousOn_const.mul (continuousOn_finset_sum _ fun gp hgp => continuousOn_const.mul
    (continuousOn_finset_sum _ fun o ho => continuousOn_finset_sum _ fun a ha => continuousOn_const.mul ?_)))
    (continuousOn_const.mul (h g hg o ho a ha))
  exact h gp (mem_range.1 hgp) o (mem_range.1 ho) a (mem_range.1 ha)

theorem slope_net (psi : Nat → Nat → Nat → ℝ → ℝ) (g o a i : Nat) (x : ℝ) :
    slope S M sg psi g o a i x = S.m * M.q g i + net S M sg i (fun g o a => psi g o a x) g o a := by
  unfold slope net flux
  ring

theorem net_mean (i : Nat) (A B : Nat → Nat → Nat → ℝ) (d : ℝ) (g o a : Nat) :
    net S M sg i (fun g o a => (A g o a - B g o a) / d) g o a = (net S M sg i A g o a - net S M sg i B g o a) / d := by
  unfold net
  have e1 : ∀ gp, ∑ o ∈ range 2, ∑ a ∈ range S.na, S.w a * ((A gp o a - B gp o a) / d) =
      (∑ o ∈ range 2, ∑ a ∈ range S.na, S.w a * A gp o a - ∑ o ∈ range 2, ∑ a ∈ range S.na, S.w a * B gp o a) / d := by
    intro gp
    simp only [← sum_sub_distrib, sum_div]
    exact sum_congr rfl fun _ _ => sum_congr rfl fun _ _ => by ring
  have e2 : ∑ gp ∈ range S.G, couple M g gp i * ((∑ o ∈ range 2, ∑ a ∈ range S.na, S.w a * A gp o a -
      ∑ o ∈ range 2, ∑ a ∈ range S.na, S.w a * B gp o a) / d) =
      (∑ gp ∈ range S.G, couple M g gp i * ∑ o ∈ range 2, ∑ a ∈ range S.na, S.w a * A gp o a -
        ∑ gp ∈ range S.G, couple M g gp i * ∑ o ∈ range 2, ∑ a ∈ range S.na, S.w a * B gp o a) / d := by
    rw [← sum_sub_distrib, sum_div]
    exact sum_congr rfl fun _ _ => by ring
  simp only [e1, e2]
  ring

/-- With diamond differencing and step characteristics, in any mixture, the fluxes of the slab belong to the mesh up to the square of the largest cell. -/
theorem near_second (hS : S.Pre u th) (hM : Mesh S M sg dx) {psi : Nat → Nat → Nat → ℝ → ℝ} (hE : S.Exact psi) {L R : ℝ} (hL0 : 0 ≤ L)
    (hR0 : 0 ≤ R) (hLR : ∀ g < S.G, ∀ a < S.na, ∀ i < M.x.N, sg g i ≤ R * S.mu a ∧ ∀ o < 2,
      ∀ x ∈ Set.Icc (edge dx i) (edge dx (i + 1)), |slope S M sg psi g o a i x| ≤ L * (S.mu a * (S.m * u g)))
    {sch : Nat → Nat → Nat → ℝ → ℝ → ℝ × ℝ} (hsch : ∀ g a i, sch g a i = dd1 (S.mu a) (dx i) (sg g i) ∨
      sch g a i = sc1 Real.exp (S.mu a) (dx i) (sg g i)) (up : Bool) (order : List Nat)
    {h : ℝ} (hh : ∀ i < M.x.N, dx i ≤ h) :
    ∃ phi, S.Nearly M sg sch up order u (3 / 2 * (1 + th) ^ 2 * R * L * h ^ 2) phi ∧ ∀ g < S.G, ∀ i < M.x.N,
      |phi g i - S.flux psi g ((edge dx i + edge dx (i + 1)) / 2)| ≤ 9 / 4 * (1 + th) * R * L * h ^ 2 * u g := by
  have hth := hS.th0
  have hm := hS.m_pos
  have h0 : 0 ≤ h := (hM.pos 0 hM.cells).le.trans (hh 0 hM.cells)
  have hdir : ∀ o, |dir o| = 1 := fun o => by unfold dir; split <;> norm_num
  -- slopes of the angular fluxes in a cell and how they change
  let D : Nat → Nat → Nat → Nat → ℝ → ℝ := fun i g o a x => dir o * slope S M sg psi g o a i x / S.mu a
  have dpsi : ∀ i < M.x.N, ∀ g < S.G, ∀ o < 2, ∀ a < S.na, ∀ x ∈ Set.Ioo (edge dx i) (edge dx (i + 1)),
      HasDerivAt (psi g o a) (D i g o a x) x := fun i hi g hg o ho a ha x hx => hM.deriv hS hE hg ho ha hi hx
  have dD : ∀ i < M.x.N, ∀ g < S.G, ∀ o < 2, ∀ a < S.na, ∀ x ∈ Set.Ioo (edge dx i) (edge dx (i + 1)),
      HasDerivAt (D i g o a) (dir o * net S M sg i (fun g o a => D i g o a x) g o a / S.mu a) x := by
    intro i hi g hg o ho a ha x hx
    have k := (net_deriv (M := M) (sg := sg) i (F := fun g o a => psi g o a) (F' := fun g o a => D i g o a x)
      (fun g hg o ho a ha => dpsi i hi g hg o ho a ha x hx) hg ho ha).const_add (S.m * M.q g i)
    have e : D i g o a = fun x => dir o * (S.m * M.q g i + net S M sg i (fun g o a => psi g o a x) g o a) / S.mu a := by
      funext x
      simp only [D, slope_net]
    rw [e]
    exact (k.const_mul (dir o)).div_const (S.mu a)
  have cD : ∀ i < M.x.N, ∀ g < S.G, ∀ o < 2, ∀ a < S.na, ContinuousOn (D i g o a) (Set.Icc (edge dx i) (edge dx (i + 1))) := by
    intro i hi g hg o ho a ha
    have k := (continuousOn_const (c := S.m * M.q g i)).add (net_cont (M := M) (sg := sg) i (F := fun g o a => psi g o a)
      (fun g hg o ho a ha => hM.cont hE hg ho ha hi) hg ho ha)
    have e : D i g o a = fun x => dir o * (S.m * M.q g i + net S M sg i (fun g o a => psi g o a x) g o a) / S.mu a := by
      funext x
      simp only [D, slope_net]
    rw [e]
    exact (continuousOn_const.mul k).div_const (S.mu a)
  have opsi : ∀ i < M.x.N, ∀ g < S.G, ∀ o < 2, ∀ a < S.na, ∀ x ∈ Set.Icc (edge dx i) (edge dx (i + 1)),
      ∀ y ∈ Set.Icc (edge dx i) (edge dx (i + 1)), |psi g o a x - psi g o a y| ≤ L * h * (S.m * u g) := fun i hi =>
    change hS hM hE (fun g hg o ho a ha i hi x hx => (hLR g hg a ha i hi).2 o ho x hx) hL0 (hh i hi) hi
  have over : ∀ g < S.G, ∀ a < S.na, ∀ i < M.x.N, ∀ o, ∀ v w z : ℝ, 0 ≤ z → |v - w| ≤ z * (sg g i * (S.m * u g)) →
      |dir o * v / S.mu a - dir o * w / S.mu a| ≤ z * R * (S.m * u g) := by
    intro g hg a ha i hi o v w z hz hv
    have hmu := hS.mu a ha
    have hu := hS.upos g hg
    rw [← sub_div, ← mul_sub, abs_div, abs_mul, hdir, one_mul, abs_of_pos hmu, div_le_iff₀ hmu]
    have := mul_le_mul_of_nonneg_right (hLR g hg a ha i hi).1 (show 0 ≤ z * (S.m * u g) by positivity)
    linarith
  have oD : ∀ i < M.x.N, ∀ g < S.G, ∀ o < 2, ∀ a < S.na, ∀ x ∈ Set.Icc (edge dx i) (edge dx (i + 1)),
      ∀ y ∈ Set.Icc (edge dx i) (edge dx (i + 1)), |D i g o a x - D i g o a y| ≤ (1 + th) * (L * h) * R * (S.m * u g) := by
    intro i hi g hg o ho a ha x hx y hy
    refine over g hg a ha i hi o _ _ ((1 + th) * (L * h)) (by positivity) ?_
    have := net_near (sg := sg) hS hM hi (F := fun g o a => psi g o a x) (F' := fun g o a => psi g o a y) (η := L * h)
      (by positivity) (fun g hg o ho a ha => opsi i hi g hg o ho a ha x hx y hy) hg ho ha
    rw [slope_net, slope_net, add_sub_add_left_eq_sub]
    exact this
  -- antiderivatives and mean values of the angular fluxes in the cells
  have ex : ∀ i g o a, ∃ F : ℝ → ℝ, i < M.x.N → g < S.G → o < 2 → a < S.na → ContinuousOn F (Set.Icc (edge dx i) (edge dx (i + 1))) ∧
      ∀ x ∈ Set.Ioo (edge dx i) (edge dx (i + 1)), HasDerivAt F (psi g o a x) x := by
    intro i g o a
    by_cases hall : i < M.x.N ∧ g < S.G ∧ o < 2 ∧ a < S.na
    · obtain ⟨hi, hg, ho, ha⟩ := hall
      obtain ⟨F, h1, h2⟩ := antiderivative (hM.edge_lt hi) (hM.cont hE hg ho ha hi)
      exact ⟨F, fun _ _ _ _ => ⟨h1, h2⟩⟩
    · exact ⟨fun _ => 0, fun h1 h2 h3 h4 => absurd ⟨h1, h2, h3, h4⟩ hall⟩
  choose F hF using ex
  have hw : ∀ i, edge dx (i + 1) - edge dx i = dx i := fun i => by rw [edge_succ]; ring
  let mean : Nat → Nat → Nat → Nat → ℝ := fun i g o a => (F i g o a (edge dx (i + 1)) - F i g o a (edge dx i)) / dx i
  have balance : ∀ i < M.x.N, ∀ g < S.G, ∀ o < 2, ∀ a < S.na,
      dir o * S.mu a * (psi g o a (edge dx (i + 1)) - psi g o a (edge dx i)) / dx i =
        S.m * M.q g i + net S M sg i (mean i) g o a := by
    intro i hi g hg o ho a ha
    have hmu := hS.mu a ha
    have hdx := hM.pos i hi
    have k := same_change (f := fun x => dir o * S.mu a * psi g o a x)
      (g := fun x => S.m * M.q g i * x + net S M sg i (fun g o a => F i g o a x) g o a)
      (k := fun x => slope S M sg psi g o a i x) (hM.edge_lt hi) (continuousOn_const.mul (hM.cont hE hg ho ha hi))
      ((continuousOn_const.mul continuousOn_id).add (net_cont (M := M) (sg := sg) i (F := F i)
        (fun g hg o ho a ha => (hF i g o a hi hg ho ha).1) hg ho ha))
      (fun x hx => by
        refine ((dpsi i hi g hg o ho a ha x hx).const_mul (dir o * S.mu a)).congr_deriv ?_
        have : dir o * dir o = 1 := by unfold dir; split <;> norm_num
        simp only [D]
        field_simp
        linear_combination slope S M sg psi g o a i x * this)
      (fun x hx => by
        refine (((hasDerivAt_id x).const_mul (S.m * M.q g i)).add (net_deriv (M := M) (sg := sg) i (F := F i)
          (F' := fun g o a => psi g o a x) (fun g hg o ho a ha => (hF i g o a hi hg ho ha).2 x hx) hg ho ha)).congr_deriv ?_
        rw [slope_net, mul_one])
    have e := net_mean (S := S) (M := M) (sg := sg) i (fun g o a => F i g o a (edge dx (i + 1)))
      (fun g o a => F i g o a (edge dx i)) (dx i) g o a
    simp only [mean]
    rw [e, div_eq_iff hdx.ne', add_mul, div_mul_cancel₀ _ hdx.ne']
    have hw := hw i
    linear_combination k + S.m * M.q g i * hw
  -- cell fluxes of the schemes
  have cell : ∀ g o a i, ∃ c, g < S.G → o < 2 → a < S.na → i < M.x.N →
      sch g a i (S.mu a * (psi g o a (edge dx (i + (1 - o))) - psi g o a (edge dx (i + o))) / dx i + sg g i * c)
        (psi g o a (edge dx (i + o))) = (c, psi g o a (edge dx (i + (1 - o)))) ∧
      |c - mean i g o a| ≤ 3 / 2 * (1 + th) * R * L * h ^ 2 * (S.m * u g) := by
    intro g o a i
    by_cases hall : g < S.G ∧ o < 2 ∧ a < S.na ∧ i < M.x.N
    swap
    · exact ⟨0, fun h1 h2 h3 h4 => absurd ⟨h1, h2, h3, h4⟩ hall⟩
    obtain ⟨hg, ho, ha, hi⟩ := hall
    have hmu := hS.mu a ha
    have hdx := hM.pos i hi
    have hu := hS.upos g hg
    have hsg : 0 < sg g i := hM.tot hS hg hi
    have fin : ∀ c, |c - mean i g o a| ≤ dx i * ((1 + th) * (L * h) * R * (S.m * u g) / 2 + th * (L * h) * R * (S.m * u g)) →
        |c - mean i g o a| ≤ 3 / 2 * (1 + th) * R * L * h ^ 2 * (S.m * u g) := by
      intro c hc
      refine hc.trans ?_
      have h1 := hh i hi
      calc dx i * ((1 + th) * (L * h) * R * (S.m * u g) / 2 + th * (L * h) * R * (S.m * u g)) ≤
          h * ((1 + th) * (L * h) * R * (S.m * u g) / 2 + th * (L * h) * R * (S.m * u g)) := by gcongr
        _ ≤ h * ((1 + th) * (L * h) * R * (S.m * u g) / 2 + (1 + th) * (L * h) * R * (S.m * u g)) := by
            gcongr
            linarith
        _ = _ := by ring
    let q : ℝ → ℝ := fun x => S.m * (M.q g i + ∑ gp ∈ range S.G, couple M g gp i * S.flux psi gp x)
    have hq : ∀ x ∈ Set.Icc (edge dx i) (edge dx (i + 1)), ∀ y ∈ Set.Icc (edge dx i) (edge dx (i + 1)),
        |q x - q y| ≤ th * (L * h) * R * (S.m * u g) * S.mu a := by
      intro x hx y hy
      have k := emission_near hS hM hg hi (f := fun gp => S.flux psi gp x) (f' := fun gp => S.flux psi gp y) (η := L * h)
        (by positivity) fun gp hgp => flux_near hS (p := fun o a => psi gp o a x) (p' := fun o a => psi gp o a y) fun o ho a ha =>
          (opsi i hi gp hgp o ho a ha x hx y hy).trans (le_of_eq (by ring))
      refine k.trans ?_
      have := mul_le_mul_of_nonneg_right (hLR g hg a ha i hi).1 (show 0 ≤ th * (L * h * (S.m * u g)) by positivity)
      linarith
    have hs : ∀ x, slope S M sg psi g o a i x = q x - sg g i * psi g o a x := fun x => rfl
    have hk : ∀ x ∈ Set.Icc (edge dx i) (edge dx (i + 1)), ∀ y ∈ Set.Icc (edge dx i) (edge dx (i + 1)),
        |(q x - sg g i * psi g o a x) / S.mu a - (q y - sg g i * psi g o a y) / S.mu a| ≤ (1 + th) * (L * h) * R * (S.m * u g) := by
      intro x hx y hy
      have k := oD i hi g hg o ho a ha x hx y hy
      simp only [D, hs] at k
      rw [mul_div_assoc, mul_div_assoc, ← mul_sub, abs_mul, hdir, one_mul] at k
      exact k
    have sub := Set.Ioo_subset_Icc_self (a := edge dx i) (b := edge dx (i + 1))
    obtain rfl | rfl : o = 0 ∨ o = 1 := by omega
    · obtain ⟨c, k1, k2⟩ := cell_second (sch := sch g a i) (f := psi g 0 a) (F := F i g 0 a) (q := q) hmu hsg (hM.edge_lt hi)
        (by rw [hw]; exact hsch g a i) (hM.cont hE hg ho ha hi)
        (fun x hx => (dpsi i hi g hg 0 ho a ha x hx).congr_deriv (by simp only [D, hs, dir, if_true, one_mul]))
        (hF i g 0 a hi hg ho ha).1 (hF i g 0 a hi hg ho ha).2 (fun x hx y hy => hk x (sub hx) y (sub hy))
        (fun x hx y hy => hq x (sub hx) y (sub hy))
      rw [hw] at k1 k2
      exact ⟨c, fun _ _ _ _ => ⟨k1, fin c k2⟩⟩
    · have hneg : ∀ x, x ∈ Set.Icc (-edge dx (i + 1)) (-edge dx i) ↔ -x ∈ Set.Icc (edge dx i) (edge dx (i + 1)) := fun x => by
        simp only [Set.mem_Icc]
        constructor <;> rintro ⟨h1, h2⟩ <;> constructor <;> linarith
      have hneg' : ∀ x ∈ Set.Ioo (-edge dx (i + 1)) (-edge dx i), -x ∈ Set.Ioo (edge dx i) (edge dx (i + 1)) := fun x hx =>
        ⟨by linarith [hx.2], by linarith [hx.1]⟩
      have hw' : -edge dx i - -edge dx (i + 1) = dx i := by rw [← hw i]; ring
      obtain ⟨c, k1, k2⟩ := cell_second (sch := sch g a i) (f := fun x => psi g 1 a (-x)) (F := fun x => -F i g 1 a (-x))
        (q := fun x => q (-x)) hmu hsg (neg_lt_neg (hM.edge_lt hi)) (by rw [hw']; exact hsch g a i)
        ((hM.cont hE hg ho ha hi).comp continuousOn_neg fun x hx => (hneg x).1 hx)
        (fun x hx => ((dpsi i hi g hg 1 ho a ha (-x) (hneg' x hx)).comp x (hasDerivAt_neg x)).congr_deriv (by
          simp only [D, hs, dir, if_neg one_ne_zero]
          ring))
        (((hF i g 1 a hi hg ho ha).1.comp continuousOn_neg fun x hx => (hneg x).1 hx).neg)
        (fun x hx => (((hF i g 1 a hi hg ho ha).2 (-x) (hneg' x hx)).comp x (hasDerivAt_neg x)).neg.congr_deriv (by ring))
        (fun x hx y hy => hk _ (sub (hneg' x hx)) _ (sub (hneg' y hy))) (fun x hx y hy => hq _ (sub (hneg' x hx)) _ (sub (hneg' y hy)))
      simp only [neg_neg, hw'] at k1 k2
      rw [show -F i g 1 a (edge dx i) - -F i g 1 a (edge dx (i + 1)) = F i g 1 a (edge dx (i + 1)) - F i g 1 a (edge dx i) by ring] at k2
      exact ⟨c, fun _ _ _ _ => ⟨k1, fin c k2⟩⟩
  choose c hc using cell
  obtain ⟨hW, hSd⟩ := reference (sch := sch) hM hE up order
    (fun g o a i => S.mu a * (psi g o a (edge dx (i + (1 - o))) - psi g o a (edge dx (i + o))) / dx i + sg g i * c g o a i) c
    (fun g hg o ho a ha i hi => (hc g o a i hg ho ha hi).1)
  refine ⟨_, ⟨_, _, _, hW, hSd, fun g hg o ho a ha i hi => ?_⟩, fun g hg i hi => ?_⟩
  · have hdx := hM.pos i hi
    have hu := hS.upos g hg
    have e : M.source (fun g i => ∑ o ∈ range 2, ∑ a ∈ range S.na, S.w a * c g o a i) g i = _ :=
      source_eq' hM (fun g i => ∑ o ∈ range 2, ∑ a ∈ range S.na, S.w a * c g o a i) g i
    rw [e]
    have k := net_near (sg := sg) hS hM hi (F := mean i) (F' := fun g o a => c g o a i) (η := 3 / 2 * (1 + th) * R * L * h ^ 2)
      (by positivity) (fun g hg o ho a ha => by rw [abs_sub_comm]; exact (hc g o a i hg ho ha hi).2) hg ho ha
    have b := balance i hi g hg o ho a ha
    have e2 : S.mu a * (psi g o a (edge dx (i + (1 - o))) - psi g o a (edge dx (i + o))) / dx i =
        dir o * S.mu a * (psi g o a (edge dx (i + 1)) - psi g o a (edge dx i)) / dx i := by
      obtain rfl | rfl : o = 0 ∨ o = 1 := by omega
      all_goals
        simp only [dir, Nat.sub_zero, Nat.sub_self, Nat.add_zero, if_true, one_ne_zero, if_false]
        ring
    have e3 : S.mu a * (psi g o a (edge dx (i + (1 - o))) - psi g o a (edge dx (i + o))) / dx i + sg g i * c g o a i -
        S.m * (M.q g i + ∑ gp ∈ range S.G, couple M g gp i * ∑ o ∈ range 2, ∑ a ∈ range S.na, S.w a * c gp o a i) =
        net S M sg i (mean i) g o a - net S M sg i (fun g o a => c g o a i) g o a := by
      rw [e2, b]
      unfold net
      ring
    rw [e3]
    exact k.trans (le_of_eq (by ring))
  · have hu := hS.upos g hg
    refine flux_near hS (p := fun o a => c g o a i)
      (p' := fun o a => psi g o a ((edge dx i + edge dx (i + 1)) / 2)) (v := 9 / 4 * (1 + th) * R * L * h ^ 2 * u g) fun o ho a ha => by
        have hdx := hM.pos i hi
        have osc : ∀ x ∈ Set.Ioo (edge dx i) (edge dx (i + 1)), ∀ y ∈ Set.Ioo (edge dx i) (edge dx (i + 1)),
            |D i g o a x - D i g o a y| ≤ (1 + th) * (L * h) * R * (S.m * u g) := fun x hx y hy =>
          oD i hi g hg o ho a ha x (Set.Ioo_subset_Icc_self hx) y (Set.Ioo_subset_Icc_self hy)
        have k1 := middle (hM.edge_lt hi) (hM.cont hE hg ho ha hi) (dpsi i hi g hg o ho a ha) osc
        have k2 := trapezoid (hM.edge_lt hi) (hF i g o a hi hg ho ha).1 (hM.cont hE hg ho ha hi) (hF i g o a hi hg ho ha).2
          (dpsi i hi g hg o ho a ha) osc
        have k3 := (hc g o a i hg ho ha hi).2
        have k4 : |mean i g o a - (psi g o a (edge dx i) + psi g o a (edge dx (i + 1))) / 2| ≤
            dx i / 2 * ((1 + th) * (L * h) * R * (S.m * u g)) := by
          have e : mean i g o a - (psi g o a (edge dx i) + psi g o a (edge dx (i + 1))) / 2 =
              (F i g o a (edge dx (i + 1)) - F i g o a (edge dx i) - (edge dx (i + 1) - edge dx i) / 2 *
                (psi g o a (edge dx i) + psi g o a (edge dx (i + 1)))) / dx i := by
            simp only [mean]
            rw [hw]
            field_simp
          rw [e, abs_div, abs_of_pos hdx, div_le_iff₀ hdx]
          rw [hw] at k2 ⊢
          exact k2.trans (le_of_eq (by ring))
        rw [hw] at k1
        have h1 := hh i hi
        have k5 : dx i / 2 * ((1 + th) * (L * h) * R * (S.m * u g)) + dx i / 4 * ((1 + th) * (L * h) * R * (S.m * u g)) ≤
            h / 2 * ((1 + th) * (L * h) * R * (S.m * u g)) + h / 4 * ((1 + th) * (L * h) * R * (S.m * u g)) := by gcongr
        refine (abs_sub_le _ (mean i g o a) _).trans ((add_le_add k3 ((abs_sub_le _ _ _).trans (add_le_add k4 k1))).trans ?_)
        linarith

/-- With diamond differencing and step characteristics, in any mixture, the scalar fluxes are within a constant times the square of the largest cell of the fluxes in
    the middle of the cells. -/
theorem C136_second (hS : S.OK u th) (hB : S.Bounded) {psi : Nat → Nat → Nat → ℝ → ℝ} (hE : S.Exact psi) : ∃ C,
    ∀ {M : MGSolve.Prob ℝ} {sg : Nat → Nat → ℝ} {dx : Nat → ℝ}, Mesh S M sg dx → ∀ {sch : Nat → Nat → Nat → ℝ → ℝ → ℝ × ℝ},
    (∀ g a i, sch g a i = dd1 (S.mu a) (dx i) (sg g i) ∨ sch g a i = sc1 Real.exp (S.mu a) (dx i) (sg g i)) → Thin S M sg dx sch → ∀ (up : Bool) {order : List Nat},
    order.Perm (List.range 2) → ∀ h, (∀ i < M.x.N, dx i ≤ h) → ∀ phi, MGFlux (S.prob M sch up order) S.w (eqs M sch) phi →
    ∀ g < S.G, ∀ i < M.x.N, |phi g i - S.flux psi g ((edge dx i + edge dx (i + 1)) / 2)| ≤ C * h ^ 2 := by
  obtain ⟨L, hL0, R, hR0, hLR⟩ := slopes hS.toPre hB hE
  obtain ⟨U, hU0, hU⟩ := ceil_of S.G u
  have hl : 0 < 1 - th := by linarith [hS.less]
  have hth := hS.th0
  refine ⟨(3 / 2 * (1 + th) ^ 2 * R * L / (1 - th) + 9 / 4 * (1 + th) * R * L) * U,
    fun {M sg dx} hM {sch} hsch ht up {order} hord h hh phi hphi => ?_⟩
  obtain ⟨phi', hN, hf⟩ := near_second hS.toPre hM hE hL0 hR0 (hLR hM) hsch up order hh
  intro g hg i hi
  have k1 := hN.close hS hM (fun g a i => (hsch g a i).imp_right Or.inr) ht hord (by positivity) hphi g hg i hi
  have k2 := hf g hg i hi
  refine (abs_sub_le _ _ _).trans ((add_le_add k1 k2).trans ?_)
  have e : 3 / 2 * (1 + th) ^ 2 * R * L * h ^ 2 / (1 - th) * u g + 9 / 4 * (1 + th) * R * L * h ^ 2 * u g =
      (3 / 2 * (1 + th) ^ 2 * R * L / (1 - th) + 9 / 4 * (1 + th) * R * L) * h ^ 2 * u g := by
    field_simp
  rw [e]
  calc _ ≤ (3 / 2 * (1 + th) ^ 2 * R * L / (1 - th) + 9 / 4 * (1 + th) * R * L) * h ^ 2 * U :=
        mul_le_mul_of_nonneg_left (hU g hg) (by positivity)
    _ = _ := by ring

end

/-! ## Cases -/

section cases

/-- One group that scatters the part `c` and has no source, in `N` cells. -/
noncomputable def medium (c : ℝ) (N : Nat) : MGSolve.Prob ℝ where
  x := ⟨((Material.Mat.new 1 1).run [.setSigS 0 0 0 c]).finalize, N, fun _ => 0, false⟩
  q := fun _ _ => 0
  implicit := false
  scale := 1
  T := fun _ s c => s c / 2
  disc := fun _ _ => 0
  bnd := fun _ _ => 0

theorem medium_couple (c : ℝ) (N i : Nat) : couple (medium c N) 0 0 i = c := by
  simp [couple, medium, Material.xs, Material.Mat.new, Material.Mat.run, Material.Mat.step, Material.Mat.finalize, Material.set3]

theorem medium_ok (c : ℝ) (hc : 0 ≤ c) (N : Nat) : (medium c N).OK where
  fin := by
    unfold medium Material.Src.ready
    simp only
    rw [Material.C22_finalize_idempotent]
  nn := fun g gp m => by
    simp only [medium, Material.Mat.new, Material.Mat.run, Material.Mat.step, Material.Mat.finalize, Material.set3, List.foldl_cons,
      List.foldl_nil]
    split_ifs
    · exact hc
    · exact le_refl _
  map := fun _ _ => show 0 < 1 by decide
  add := fun g s t c => add_div _ _ _
  loc := fun g s t h c hc => by
    show s c / 2 = t c / 2
    rw [h c hc]

/-- Two directions, a slab of one mean free path, given fluxes at both sides. -/
noncomputable def lit (c l r : ℝ) : Slab where
  G := 1
  na := 1
  X := 1
  mu := fun _ => 1
  w := fun _ => 1
  m := 1 / 2
  sig := fun _ _ => 1
  coup := fun _ _ _ => c
  q := fun _ _ => 0
  bc := fun _ s => .fixed fun _ _ => if s = 0 then l else r
  B := ∅

theorem lit_ok (c l r : ℝ) (hc : 0 ≤ c) (hc1 : c < 1) : (lit c l r).OK (fun _ => 1) c where
  mu := fun _ _ => one_pos
  w := fun _ _ => one_pos
  norm := by simp [lit]
  upos := fun _ _ => one_pos
  th0 := hc
  less := hc1
  tot := fun _ _ _ _ _ => one_pos
  coup := fun _ _ _ _ _ _ _ => hc
  row := fun _ _ _ _ _ => by simp [lit]
  refl := fun _ _ => by simp [lit]
  np := fun _ _ _ => by simp [lit]

theorem lit_bounded (c l r : ℝ) : (lit c l r).Bounded :=
  ⟨1, fun _ _ _ _ _ => ⟨le_refl _, by simp [lit]⟩⟩

theorem lit_mesh (c l r : ℝ) (hc : 0 ≤ c) (N : Nat) (hN : 0 < N) :
    Mesh (lit c l r) (medium c N) (fun _ _ => 1) (fun _ => 1 / (N : ℝ)) where
  ok := medium_ok c hc N
  groups := rfl
  cells := hN
  pos := fun _ _ => by positivity
  len := by
    have : (0 : ℝ) < N := Nat.cast_pos.2 hN
    simp only [edge, medium, lit, sum_const, card_range, nsmul_eq_mul]
    field_simp
  data := fun i _ x _ => ⟨Set.notMem_empty _, fun g hg => ⟨rfl, rfl, fun gp hgp => by
    obtain rfl : g = 0 := Nat.lt_one_iff.1 hg
    obtain rfl : gp = 0 := Nat.lt_one_iff.1 hgp
    exact (medium_couple c N i).symm⟩⟩

/-- Three quarters scattering: the angular fluxes fall by a factor `e` every two mean free paths, three times as much going right as
    left. -/
noncomputable def glow (_ o _ : Nat) (x : ℝ) : ℝ := (if o = 0 then 3 else 1) * Real.exp (-x / 2)

theorem glow_exact : (lit (3 / 4) 3 (Real.exp (-1 / 2))).Exact glow where
  cont := fun g _ o _ a _ => by
    unfold glow
    fun_prop
  eq := fun g hg o ho a ha x _ _ => by
    have hd : HasDerivAt (fun x : ℝ => Real.exp (-x / 2)) (Real.exp (-x / 2) * (-1 / 2)) x :=
      ((hasDerivAt_neg x).div_const 2).exp
    refine ⟨_, hd.const_mul _, ?_⟩
    obtain rfl | rfl : o = 0 ∨ o = 1 := by omega
    all_goals
      simp [lit, flux, glow, dir, sum_range_succ]
      ring
  vacuum := fun _ _ _ _ h => by simp [lit] at h
  reflect := fun _ _ _ _ h => by simp [lit] at h
  given := fun g hg s hs ps h a ha => by
    have e : ps = fun _ _ => if s = 0 then 3 else Real.exp (-1 / 2) := by
      simp only [lit, BC.fixed.injEq] at h
      exact h.symm
    rw [e]
    obtain rfl | rfl : s = 0 ∨ s = 1 := by omega
    · simp [glow, place]
    · simp [glow, place, lit]

/-- The fluxes of the three schemes in equal cells approach `4 exp (-x / 2)`. -/
example (ε : ℝ) (hε : 0 < ε) : ∃ N0 : Nat, ∀ N : Nat, N0 < N → ∀ phi,
    MGFlux ((lit (3 / 4) 3 (Real.exp (-1 / 2))).prob (medium (3 / 4) N) (fun _ _ i => if i % 3 = 0 then dd1 1 (1 / N) 1 else
      if i % 3 = 1 then sd1 1 (1 / N) 1 else sc1 Real.exp 1 (1 / N) 1) true [0, 1]) (fun _ => 1)
      (eqs (medium (3 / 4) N) (fun _ _ i => if i % 3 = 0 then dd1 1 (1 / N) 1 else
      if i % 3 = 1 then sd1 1 (1 / N) 1 else sc1 Real.exp 1 (1 / N) 1)) phi →
    ∀ i < N, |phi 0 i - 4 * Real.exp (-(i / N) / 2)| < ε := by
  obtain ⟨h, hh, H⟩ := C136_converges (lit_ok (3 / 4) 3 (Real.exp (-1 / 2)) (by norm_num) (by norm_num)) (lit_bounded _ _ _) glow_exact ε hε
  obtain ⟨N0, hN0⟩ := exists_nat_gt (1 / h)
  refine ⟨N0, fun N hN phi hphi i hi => ?_⟩
  have hNpos : 0 < N := by omega
  have hNr : (0 : ℝ) < N := Nat.cast_pos.2 hNpos
  have hM := lit_mesh (3 / 4) 3 (Real.exp (-1 / 2)) (by norm_num) N hNpos
  have := (H hM (fun i _ => by
    have : (N0 : ℝ) < N := Nat.cast_lt.2 hN
    rw [div_le_iff₀ hNr]
    rw [div_lt_iff₀ hh] at hN0
    nlinarith) (fun g a i => by
      rcases h0 : i % 3 with _ | _ | _
      · exact Or.inl (if_pos rfl)
      · exact Or.inr (Or.inl ((if_neg one_ne_zero).trans (if_pos rfl)))
      · exact Or.inr (Or.inr ((if_neg (by omega)).trans (if_neg (by omega)))))).2 true (order := [0, 1]) (by decide) phi hphi 0 one_pos i hi (edge (fun _ => 1 / (N : ℝ)) i)
    (Set.left_mem_Icc.2 (hM.edge_lt hi).le)
  have e : (lit (3 / 4) 3 (Real.exp (-1 / 2))).flux glow 0 (edge (fun _ => 1 / (N : ℝ)) i) = 4 * Real.exp (-(i / N) / 2) := by
    simp [flux, lit, glow, sum_range_succ, edge, div_eq_mul_inv]
    ring
  rwa [e] at this

/-- With diamond differencing and step characteristics in turn the error falls with the square of the number of cells. -/
example : ∃ C : ℝ, ∀ N : Nat, 0 < N → ∀ phi,
    MGFlux ((lit (3 / 4) 3 (Real.exp (-1 / 2))).prob (medium (3 / 4) N) (fun _ _ i => if i % 2 = 0 then dd1 1 (1 / N) 1 else
      sc1 Real.exp 1 (1 / N) 1) true [0, 1]) (fun _ => 1)
      (eqs (medium (3 / 4) N) (fun _ _ i => if i % 2 = 0 then dd1 1 (1 / N) 1 else sc1 Real.exp 1 (1 / N) 1)) phi →
    ∀ i < N, |phi 0 i - 4 * Real.exp (-((i + 1 / 2) / N) / 2)| ≤ C / N ^ 2 := by
  obtain ⟨C, H⟩ := C136_second (lit_ok (3 / 4) 3 (Real.exp (-1 / 2)) (by norm_num) (by norm_num)) (lit_bounded _ _ _) glow_exact
  refine ⟨C, fun N hN phi hphi i hi => ?_⟩
  have hNr : (1 : ℝ) ≤ N := Nat.one_le_cast.2 hN
  have hN0 : (0 : ℝ) < N := by linarith
  have hM := lit_mesh (3 / 4) 3 (Real.exp (-1 / 2)) (by norm_num) N hN
  have := H hM (sch := fun _ _ i => if i % 2 = 0 then dd1 1 (1 / N) 1 else sc1 Real.exp 1 (1 / N) 1) (fun g a i => by
      by_cases h0 : i % 2 = 0
      · exact Or.inl (if_pos h0)
      · exact Or.inr (if_neg h0)) (fun g _ a _ i _ _ => by
      change (1 : ℝ) * (1 / N) ≤ 2 * 1
      rw [one_mul, div_le_iff₀ hN0]
      linarith) true (order := [0, 1]) (by decide) (1 / N) (fun _ _ => le_refl _) phi hphi 0 one_pos i hi
  have e : (lit (3 / 4) 3 (Real.exp (-1 / 2))).flux glow 0 ((edge (fun _ => 1 / (N : ℝ)) i + edge (fun _ => 1 / (N : ℝ)) (i + 1)) / 2) =
      4 * Real.exp (-((i + 1 / 2) / N) / 2) := by
    have e0 : (edge (fun _ => 1 / (N : ℝ)) i + edge (fun _ => 1 / (N : ℝ)) (i + 1)) / 2 = (i + 1 / 2) / N := by
      simp [edge]
      field_simp
      ring
    rw [e0]
    simp [flux, lit, glow, sum_range_succ]
    ring
  rw [e, one_div_pow, ← div_eq_mul_one_div] at this
  exact this

/-- No scattering and light from the left: the angular flux falls by a factor `e` every mean free path. -/
noncomputable def beam (_ o _ : Nat) (x : ℝ) : ℝ := if o = 0 then Real.exp (-x) else 0

theorem beam_exact : (lit 0 1 0).Exact beam where
  cont := fun g _ o _ a _ => by
    obtain rfl | h := Nat.eq_zero_or_pos o
    · have e : beam g 0 a = fun x => Real.exp (-x) := funext fun x => if_pos rfl
      rw [e]
      fun_prop
    · have e : beam g o a = fun _ => 0 := funext fun x => if_neg h.ne'
      rw [e]
      exact continuousOn_const
  eq := fun g hg o ho a ha x _ _ => by
    obtain rfl | rfl : o = 0 ∨ o = 1 := by omega
    · refine ⟨Real.exp (-x) * -1, (hasDerivAt_neg x).exp, ?_⟩
      simp [lit, beam, dir]
    · refine ⟨0, hasDerivAt_const x _, ?_⟩
      simp [lit, beam, dir]
  vacuum := fun _ _ _ _ h => by simp [lit] at h
  reflect := fun _ _ _ _ h => by simp [lit] at h
  given := fun g hg s hs ps h a ha => by
    have e : ps = fun _ _ => if s = 0 then 1 else 0 := by
      simp only [lit, BC.fixed.injEq] at h
      exact h.symm
    rw [e]
    obtain rfl | rfl : s = 0 ∨ s = 1 := by omega
    · simp [beam, place]
    · simp [beam]

/-- Step differencing is of first order only: the error of the first cell of a beam is more than any multiple of the square of the
    cell width. -/
theorem C136_step_first_order (C : ℝ) : ∃ N > 0, ∃ phi,
    MGFlux ((lit 0 1 0).prob (medium 0 N) (fun _ _ _ => sd1 1 (1 / N) 1) true [0, 1]) (fun _ => 1)
      (eqs (medium 0 N) fun _ _ _ => sd1 1 (1 / N) 1) phi ∧
    C * (1 / N) ^ 2 < |phi 0 0 - (lit 0 1 0).flux beam 0 ((edge (fun _ => 1 / (N : ℝ)) 0 + edge (fun _ => 1 / (N : ℝ)) 1) / 2)| := by
  obtain ⟨N, hN⟩ := exists_nat_gt (4 * |C| + 2)
  have hNr : (0 : ℝ) < N := lt_of_le_of_lt (by positivity) hN
  have hNpos : 0 < N := Nat.cast_pos.1 hNr
  obtain ⟨phi, hphi, _⟩ := settled (lit_ok 0 1 0 (le_refl _) one_pos) (lit_mesh 0 1 0 (le_refl _) N hNpos)
    (sch := fun _ _ _ => sd1 1 (1 / N) 1) (fun _ _ _ => Or.inr (Or.inl rfl)) (fun g hg a ha i hi _ => by
      show 1 * (1 / (N : ℝ)) ≤ 2 * 1
      have : (1 : ℝ) ≤ N := by linarith [abs_nonneg C]
      rw [one_mul, div_le_iff₀ hNr]
      linarith) true (order := [0, 1]) (by decide)
  refine ⟨N, hNpos, phi, hphi, ?_⟩
  obtain ⟨bd, psi, hs⟩ := hphi 0 one_pos
  have hfl := hs.flux 0 hNpos
  have c0 : Solves1 N _ 0 (fun f => bd f 0 0) (psi 0 0) := hs.cells 0 (by show 0 < 2; decide) 0 one_pos
  have c1 : Solves1 N _ 1 (fun f => bd f 1 0) (psi 1 0) := hs.cells 1 (by show 1 < 2; decide) 0 one_pos
  have g0 : bd 0 0 0 = 1 := (hs.given 0 (by show 0 < 2; decide) _ rfl 0 (by show 0 < 2; decide) 0 rfl 0 one_pos 0 0
    ⟨by show 0 < 1; decide, by show 0 < 1; decide⟩).trans (show (if (0 : Nat) = 0 then (1 : ℝ) else 0) = 1 from if_pos rfl)
  have g1 : bd 1 1 0 = 0 := (hs.given 1 (by show 1 < 2; decide) _ rfl 1 (by show 1 < 2; decide) 0 rfl 0 one_pos 0 0
    ⟨by show 0 < 1; decide, by show 0 < 1; decide⟩).trans (show (if (1 : Nat) = 0 then (1 : ℝ) else 0) = 0 from if_neg one_ne_zero)
  have src0 : ∀ o i, (MGReflect.Prob.src ((lit 0 1 0).prob (medium 0 N) (fun _ _ _ => sd1 1 (1 / N) 1) true [0, 1]) phi 0) o 0 i = 0 := by
    intro o i
    unfold MGReflect.Prob.src
    have e : (medium 0 N).source phi 0 i = 0 := by
      rw [source_couple]
      have : ∑ gp ∈ range 1, couple (medium 0 N) 0 gp i * phi gp i = 0 := by
        rw [sum_range_one, medium_couple, zero_mul]
      exact (zero_add _).trans this
    show (medium 0 N).source phi 0 i * _ + _ = 0
    rw [e, zero_mul, zero_add]
    rfl
  obtain ⟨V, v0, _, v2⟩ := c0
  obtain ⟨W, w0, _, w2⟩ := c1
  have p0 : psi 0 0 0 = N / (1 + N) := by
    have := (Prod.ext_iff.1 (v2 0 hNpos)).1
    have e : posn N 0 0 0 = 0 := rfl
    have e2 : V 0 = 1 := v0.trans g0
    rw [e, e2] at this
    simp only [sd1, src0] at this
    rw [← this]
    field_simp
    simp
  have hW : ∀ p ≤ N, W p = 0 := by
    intro p
    induction p with
    | zero =>
      intro _
      rw [w0]
      exact g1
    | succ p ih =>
      intro hp
      have := (Prod.ext_iff.1 (w2 p (by omega))).2
      simp only [sd1, src0, ih (by omega)] at this
      rw [← this]
      simp
  have p1 : psi 1 0 0 = 0 := by
    have := (Prod.ext_iff.1 (w2 (N - 1) (by omega))).1
    have e : posn N 1 0 (N - 1) = 0 := by
      show N - 1 - (N - 1) = 0
      omega
    rw [e] at this
    simp only [sd1, src0, hW (N - 1) (by omega)] at this
    rw [← this]
    simp
  have ephi : phi 0 0 = N / (1 + N) := by
    have e : ∑ o ∈ range 2, ∑ a ∈ range 1, (1 : ℝ) * psi o a 0 = N / (1 + N) := by
      simp [sum_range_succ, p0, p1]
    have h2 := hfl.trans e
    rwa [add_zero] at h2
  have eflux : (lit 0 1 0).flux beam 0 ((edge (fun _ => 1 / (N : ℝ)) 0 + edge (fun _ => 1 / (N : ℝ)) 1) / 2) =
      Real.exp (-(1 / (2 * N))) := by
    simp [flux, lit, beam, edge, sum_range_succ]
    field_simp
  rw [ephi, eflux]
  have h1 := Real.add_one_le_exp (-(1 / (2 * (N : ℝ))))
  have h2 : C * (1 / (N : ℝ)) ^ 2 < Real.exp (-(1 / (2 * N))) - N / (1 + N) := by
    refine lt_of_lt_of_le ?_ (sub_le_sub_right h1 _)
    have e : -(1 / (2 * (N : ℝ))) + 1 - N / (1 + N) - C * (1 / N) ^ 2 = (N * (N - 1) - 2 * C * (1 + N)) / (2 * N ^ 2 * (1 + N)) := by
      field_simp
      ring
    have : 0 < (N * (N - 1) - 2 * C * (1 + N)) / (2 * (N : ℝ) ^ 2 * (1 + N)) := by
      refine div_pos ?_ (by positivity)
      have a1 : C ≤ |C| := le_abs_self C
      have a2 := abs_nonneg C
      have a3 : (1 : ℝ) ≤ N := by linarith
      have a4 : C * (1 + N) ≤ |C| * (1 + N) := mul_le_mul_of_nonneg_right a1 (by positivity)
      have a5 : N * (4 * |C| + 1) ≤ N * ((N : ℝ) - 1) := mul_le_mul_of_nonneg_left (by linarith) hNr.le
      have a6 : |C| * 1 ≤ |C| * N := mul_le_mul_of_nonneg_left a3 a2
      linarith
    linarith
  exact lt_of_lt_of_le h2 (by rw [abs_sub_comm]; exact le_abs_self _)

end cases

end Slab

end Detran.MGReflect
