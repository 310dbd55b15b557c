import Verif.Props.Keff
import Verif.Props.DiffSigns
import Verif.Props.EigenDiff
import Mathlib.Logic.Relation
import Mathlib.Tactic.IntervalCases

/-!
# The multiplication factor of diffusion problems (C133, C134)
-/

namespace Detran.Diffusion

open Detran.Matrix Finset
open Detran.EigenPI (Solver Data Fissile Mode Mixing Sound Seeded Below emits makes fop_eq PI Exact)

section main
variable {K : Type} [Field K] [LinearOrder K] [IsStrictOrderedRing K]

/-! ## Specification -/

/-- What the fission source of a diffusion problem reads. -/
def Loss.src (L : Loss K) : Material.Src K := ⟨L.mat, L.M.size, L.mmap, L.adjoint⟩

/-- The fixed source problem of one power iteration: the fission source is all there is. -/
def Loss.fed (L : Loss K) (q : Nat → Nat → K) : FixedSrc K := ⟨L, [], some q, fun _ _ _ _ => 0⟩

/-- `S q` is the flux `MGDiffusionSolver` leaves in a cleared state if its linear solver solves the system of source `q`. -/
def Finds (L : Loss K) (C : CSR K) (S : (Nat → Nat → K) → Nat → Nat → K) : Prop :=
  ∀ q, ∃ x : Nat → K, (∀ p < L.mat.G * L.M.size, C.multiply x p = (L.fed q).rhs p) ∧
    S q = fillState L.mat.G L.M.size x fun _ _ => 0

/-- What is asked of a problem: fission is a source, sides are vacuum or reflect, the data are positive, and weights show
    that scattering is weaker than the collisions. -/
structure Subcritical (L : Loss K) (u : Nat → K) : Prop where
  ok : (L.fed fun _ _ => 0).OK
  outside : L.fission = false
  pos : L.Pos
  weak : L.Weak u

/-- Fission density of a solution vector. -/
def Loss.dens (L : Loss K) (x : Nat → K) (c : Nat) : K := ∑ g ∈ range L.mat.G, makes L.src g c * x (c + g * L.M.size)

/-- The eigenvalue problem: the flux that its own fissions, divided by `k`, feed. -/
def DiffEigen (L : Loss K) (C : CSR K) (k : K) (x : Nat → K) : Prop :=
  ∀ p < L.mat.G * L.M.size, C.multiply x p = (L.fed fun g c => 1 / k * (L.dens x c * emits L.src g c)).rhs p

/-! ## Lemmas -/

theorem fed_ok {L : Loss K} {u : Nat → K} (h : Subcritical L u) (q : Nat → Nat → K) : (L.fed q).OK :=
  ⟨h.ok.op, h.ok.full, h.ok.side, h.ok.flat⟩

theorem fed_rhs {L : Loss K} {u : Nat → K} (h : Subcritical L u) (q : Nat → Nat → K) {g c : Nat} (hg : g < L.mat.G)
    (hc : c < L.M.size) : (L.fed q).rhs (c + g * L.M.size) = q g c := by
  have e := C101_source (L.fed q) h.ok.op.grid.dim_le hg hc
  have e0 : ∀ leak, (L.fed q).jinAt g c leak = 0 := fun _ => rfl
  have e1 : (L.fed q).given g c = q g c := by
    unfold FixedSrc.given Loss.fed
    simp [h.outside]
  rw [e1] at e
  refine e.trans ?_
  rw [sum_eq_zero fun leak _ => by simp [e0], add_zero]

theorem lhs_comb (L : Loss K) (s t : K) (x y : Nat → K) (g c : Nat) :
    L.lhs (fun p => s * x p + t * y p) g c = s * L.lhs x g c + t * L.lhs y g c := by
  unfold Loss.lhs
  rw [local_eq, local_eq, local_eq]
  have e1 : ∀ leak, L.faceTerm g (fun c => s * x (L.pos g c) + t * y (L.pos g c)) c leak =
      s * L.faceTerm g (fun c => x (L.pos g c)) c leak + t * L.faceTerm g (fun c => y (L.pos g c)) c leak := fun leak => by
    unfold Loss.faceTerm
    split <;> ring
  have e2 : ∑ gp ∈ L.active, L.inXs g gp c * (s * x (L.pos gp c) + t * y (L.pos gp c)) =
      s * ∑ gp ∈ L.active, L.inXs g gp c * x (L.pos gp c) + t * ∑ gp ∈ L.active, L.inXs g gp c * y (L.pos gp c) := by
    rw [mul_sum, mul_sum, ← sum_add_distrib]
    exact sum_congr rfl fun _ _ => by ring
  simp only [e1]
  rw [e2]
  have e3 : ∑ leak ∈ range 6, (s * L.faceTerm g (fun c => x (L.pos g c)) c leak +
      t * L.faceTerm g (fun c => y (L.pos g c)) c leak) / L.M.width c (leak / 2) =
      s * ∑ leak ∈ range 6, L.faceTerm g (fun c => x (L.pos g c)) c leak / L.M.width c (leak / 2) +
      t * ∑ leak ∈ range 6, L.faceTerm g (fun c => y (L.pos g c)) c leak / L.M.width c (leak / 2) := by
    rw [mul_sum, mul_sum, ← sum_add_distrib]
    exact sum_congr rfl fun _ _ => by ring
  rw [e3]
  ring

theorem dtilde_interior (L : Loss K) (hp : L.Pos) {g c leak : Nat} (hb : L.M.onBoundary c leak = false) : 0 < L.dtilde g c leak := by
  unfold Loss.dtilde
  rw [hb, if_neg Bool.false_ne_true]
  unfold dInterior Loss.dc
  have h1 := hp.dc g (L.mmap c)
  have h2 := hp.dc g (L.mmap (L.M.neighbour c leak))
  have h3 : 0 < L.M.width c (leak / 2) := hp.h _ _
  have h4 : 0 < L.M.width (L.M.neighbour c leak) (leak / 2) := hp.h _ _
  positivity

/-- Where a flux without negative values and with a left hand side without negative values is zero, so are the left hand
    side, the flux of the neighbours, and that of the groups which scatter there. -/
theorem zero_spreads (L : Loss K) (hp : L.Pos) {u : Nat → K} (hW : L.Weak u) (x : Nat → K)
    (hx : ∀ g ∈ L.active, ∀ c < L.M.size, 0 ≤ x (L.pos g c)) {g c : Nat} (hg : g ∈ L.active) (hc : c < L.M.size)
    (hl : 0 ≤ L.lhs x g c) (h0 : x (L.pos g c) = 0) : L.lhs x g c = 0 ∧
    (∀ leak < 6, L.M.onBoundary c leak = false → x (L.pos g (L.M.neighbour c leak)) = 0) ∧
    ∀ gp ∈ L.active, L.inXs g gp c * x (L.pos gp c) = 0 := by
  have f : ∀ leak ∈ range 6, L.faceTerm g (fun c => x (L.pos g c)) c leak / L.M.width c (leak / 2) ≤ 0 := by
    intro leak hlk
    have hw : 0 < L.M.width c (leak / 2) := hp.h _ _
    refine div_nonpos_of_nonpos_of_nonneg ?_ hw.le
    unfold Loss.faceTerm
    by_cases hb : L.M.onBoundary c leak = true
    · rw [if_pos hb]
      dsimp only
      rw [h0, mul_zero]
    · have hb : L.M.onBoundary c leak = false := by simpa using hb
      rw [hb, if_neg Bool.false_ne_true]
      dsimp only
      rw [h0, zero_sub, mul_neg]
      exact neg_nonpos.2 (mul_nonneg (dtilde_interior L hp hb).le (hx g hg _ (neighbour_lt L.M hc (mem_range.1 hlk) hb)))
  have i : ∀ gp ∈ L.active, 0 ≤ L.inXs g gp c * x (L.pos gp c) := fun gp hgp => mul_nonneg (hW.nn g hg gp hgp c hc) (hx gp hgp c hc)
  have sf := sum_nonpos f
  have si := sum_nonneg i
  have e : L.lhs x g c = (∑ leak ∈ range 6, L.faceTerm g (fun c => x (L.pos g c)) c leak / L.M.width c (leak / 2)) -
      ∑ gp ∈ L.active, L.inXs g gp c * x (L.pos gp c) := by
    unfold Loss.lhs
    rw [local_eq, h0, mul_zero, zero_sub, sub_eq_add_neg]
  have z1 : ∑ leak ∈ range 6, L.faceTerm g (fun c => x (L.pos g c)) c leak / L.M.width c (leak / 2) = 0 := by linarith
  have z2 : ∑ gp ∈ L.active, L.inXs g gp c * x (L.pos gp c) = 0 := by linarith
  refine ⟨by rw [e, z1, z2, sub_zero], fun leak hlk hb => ?_, (sum_eq_zero_iff_of_nonneg i).1 z2⟩
  have := (sum_eq_zero_iff_of_nonpos f).1 z1 leak (mem_range.2 hlk)
  have hw : L.M.width c (leak / 2) ≠ 0 := (hp.h _ _).ne'
  rw [div_eq_zero_iff, or_iff_left hw] at this
  unfold Loss.faceTerm at this
  rw [hb, if_neg Bool.false_ne_true] at this
  dsimp only at this
  rw [h0, zero_sub, mul_eq_zero, or_iff_right (dtilde_interior L hp hb).ne', neg_eq_zero] at this
  exact this

omit [LinearOrder K] [IsStrictOrderedRing K] in
/-- What passes from each cell to its neighbours holds everywhere once it holds somewhere. -/
theorem spread_all (M : Grid K) (Q : Nat → Prop)
    (h : ∀ c < M.size, ∀ leak < 6, M.onBoundary c leak = false → Q (M.neighbour c leak) → Q c) {c c' : Nat} (hc : c < M.size)
    (hc' : c' < M.size) (hq : Q c) : Q c' := by
  have line : ∀ a < 3, ∀ u < M.count (other a).1, ∀ v < M.count (other a).2, ∀ s k, s + k < M.count a →
      (Q (M.cellA a s u v) → Q (M.cellA a (s + k) u v)) ∧ (Q (M.cellA a (s + k) u v) → Q (M.cellA a s u v)) := by
    intro a ha u hu v hv s k
    induction k with
    | zero => exact fun _ => ⟨id, id⟩
    | succ k ih =>
      intro hk
      obtain ⟨i1, i2⟩ := ih (by omega)
      obtain ⟨k1, _, _, k4⟩ := cellA_coord M a ha (show s + k < M.count a by omega) hu hv
      obtain ⟨m1, _, _, m4⟩ := cellA_coord M a ha (show s + (k + 1) < M.count a by omega) hu hv
      refine ⟨fun q => h _ m4 (2 * a) (by omega) ?_ ?_, fun q => i2 (h _ k4 (2 * a + 1) (by omega) ?_ ?_)⟩
      · rw [boundary_low, m1]
        simp
      · rw [neighbour_low M a ha hk hu hv, show s + (k + 1) - 1 = s + k by omega]
        exact i1 q
      · rw [boundary_high, k1]
        simp only [decide_eq_false_iff_not]
        omega
      · rw [neighbour_high M a ha (by omega) hu hv]
        exact q
  have move : ∀ a < 3, ∀ u < M.count (other a).1, ∀ v < M.count (other a).2, ∀ s < M.count a, ∀ s' < M.count a,
      Q (M.cellA a s u v) → Q (M.cellA a s' u v) := by
    intro a ha u hu v hv s hs s' hs' q
    rcases le_total s s' with l | l
    · have := (line a ha u hu v hv s (s' - s) (by omega)).1 q
      rwa [Nat.add_sub_cancel' l] at this
    · have := (line a ha u hu v hv s' (s - s') (by omega)).2
      rw [Nat.add_sub_cancel' l] at this
      exact this q
  rw [← index_coord M c] at hq
  rw [← index_coord M c']
  have b := fun a => coord_lt M hc a
  have b' := fun a => coord_lt M hc' a
  have q1 := move 0 (by decide) _ (b 1) _ (b 2) _ (b 0) _ (b' 0) hq
  have q2 := move 1 (by decide) _ (b' 0) _ (b 2) _ (b 1) _ (b' 1) q1
  exact move 2 (by decide) _ (b' 0) _ (b' 1) _ (b 2) _ (b' 2) q2

section
variable {L : Loss K} {u : Nat → K} (h : Subcritical L u) (srt : List (Trip K) → List (Trip K)) (hs : IsSort srt) {C : CSR K}
  {bs : List Bool} (hC : L.sys.make srt = .ok (some C, bs)) {S : (Nat → Nat → K) → Nat → Nat → K}
include h hs hC

/-! ## The solver -/

/-- The solver of C133 and C134 exists. -/
theorem C133_diffusion_fluxes : ∃ S, Finds L C S := by
  have : ∀ q, ∃ x : Nat → K, ∀ p < L.mat.G * L.M.size, C.multiply x p = (L.fed q).rhs p := fun q => by
    obtain ⟨x, hx, _⟩ := C132_diffusion_one (L.fed q) (fed_ok h q) h.pos srt hs C bs hC h.weak
    exact ⟨x, hx⟩
  choose x hx using this
  exact ⟨fun q => fillState L.mat.G L.M.size (x q) fun _ _ => 0, fun q => ⟨x q, hx q, rfl⟩⟩

theorem finds_lhs (hS : Finds L C S) (q : Nat → Nat → K) : ∃ x : Nat → K, (∀ g < L.mat.G, ∀ c < L.M.size, S q g c = x (L.pos g c)) ∧
    (∀ g c, ¬ (g < L.mat.G ∧ c < L.M.size) → S q g c = 0) ∧
    (∀ p < L.mat.G * L.M.size, C.multiply x p = (L.fed q).rhs p) ∧
    ∀ g < L.mat.G, ∀ c < L.M.size, L.lhs x g c = q g c := by
  obtain ⟨x, hx, e⟩ := hS q
  obtain ⟨f1, f2⟩ := C101_flux L.mat.G L.M.size x fun _ _ => 0
  refine ⟨x, fun g hg c hc => ?_, fun g c hn => ?_, hx, fun g hg c hc => ?_⟩
  · rw [e, f1 g hg c hc]
    exact (congrArg x (h.ok.pos g c)).symm
  · rw [e, f2 g c (by omega)]
  · rw [← fed_rhs h q hg hc]
    exact (solves_iff (L.fed q) (fed_ok h q) srt hs C bs hC x).1 hx g hg c hc

theorem finds_eq (hS : Finds L C S) {q : Nat → Nat → K} {y : Nat → K} (hy : ∀ g < L.mat.G, ∀ c < L.M.size, L.lhs y g c = q g c) :
    ∀ g < L.mat.G, ∀ c < L.M.size, S q g c = y (L.pos g c) := by
  intro g hg c hc
  obtain ⟨x, x1, _, _, x3⟩ := finds_lhs h srt hs hC hS q
  have act := fun {g} => in_active (g := g) (fed_ok h q)
  have k1 := lhs_mono L h.pos h.weak x y (fun g hg c hc => (by
    rw [x3 g (act.1 hg) c hc, hy g (act.1 hg) c hc])) g (act.2 hg) c hc
  have k2 := lhs_mono L h.pos h.weak y x (fun g hg c hc => (by
    rw [x3 g (act.1 hg) c hc, hy g (act.1 hg) c hc])) g (act.2 hg) c hc
  rw [x1 g hg c hc]
  exact le_antisymm k1 k2

/-- It is linear and gives no negative flux. -/
theorem C133_diffusion_solver (hS : Finds L C S) : Solver L.src S where
  lin := by
    intro s t q q' g hg c hc
    obtain ⟨x, x1, _, _, x3⟩ := finds_lhs h srt hs hC hS q
    obtain ⟨y, y1, _, _, y3⟩ := finds_lhs h srt hs hC hS q'
    rw [finds_eq h srt hs hC hS (y := fun p => s * x p + t * y p) (fun g hg c hc => by
      rw [lhs_comb, x3 g hg c hc, y3 g hg c hc]) g hg c hc, x1 g hg c hc, y1 g hg c hc]
  pos := by
    intro q hq g hg c hc
    obtain ⟨x, x1, _, _, x3⟩ := finds_lhs h srt hs hC hS q
    have act := fun {g} => in_active (g := g) (fed_ok h q)
    rw [x1 g hg c hc]
    exact lhs_nonneg L h.pos h.weak x (fun g hg c hc => by
      rw [x3 g (act.1 hg) c hc]
      exact hq g (act.1 hg) c hc) g (act.2 hg) c hc

theorem finds_smul (hS : Finds L C S) (a : K) (q : Nat → Nat → K) {g c : Nat} (hg : g < L.mat.G) (hc : c < L.M.size) :
    S (fun g c => a * q g c) g c = a * S q g c := by
  have := (C133_diffusion_solver h srt hs hC hS).lin a 0 q q g hg c hc
  simpa using this

/-! ## Modes and the eigenvalue problem -/

theorem eigen_lhs {k : K} {x : Nat → K} (hx : DiffEigen L C k x) : ∀ g < L.mat.G, ∀ c < L.M.size,
    L.lhs x g c = 1 / k * (L.dens x c * emits L.src g c) := by
  intro g hg c hc
  exact ((solves_iff (L.fed _) (fed_ok h _) srt hs C bs hC x).1 hx g hg c hc).trans (fed_rhs h _ hg hc)

/-- The density of a solution of the eigenvalue problem is a mode. -/
theorem C133_diffusion_mode (hS : Finds L C S) {k : K} (hk : k ≠ 0) {x : Nat → K} (hx : DiffEigen L C k x) :
    Mode L.src S k (L.dens x) := by
  intro c hc
  have hc' : c < L.M.size := hc
  rw [fop_eq _ _ _ hc]
  have e : ∀ g < L.mat.G, S (fun g c => L.dens x c * emits L.src g c) g c = k * x (c + g * L.M.size) := by
    intro g hg
    have h1 := finds_eq h srt hs hC hS (q := fun g c => 1 / k * (L.dens x c * emits L.src g c)) (eigen_lhs h srt hs hC hx) g hg c hc
    have h2 := finds_smul h srt hs hC hS k (fun g c => 1 / k * (L.dens x c * emits L.src g c)) hg hc'
    have e2 : (fun g c => L.dens x c * emits L.src g c) = fun g c => k * (1 / k * (L.dens x c * emits L.src g c)) := by
      funext g c
      field_simp
    rw [e2, h2, h1]
    exact congrArg (fun p => k * x p) (h.ok.pos g c)
  have : ∀ g ∈ range L.mat.G, S (fun g c => L.dens x c * emits L.src g c) g c * makes L.src g c =
      k * (makes L.src g c * x (c + g * L.M.size)) := fun g hg => by
    rw [e g (mem_range.1 hg)]
    ring
  show ∑ g ∈ range L.mat.G, _ = _
  rw [sum_congr rfl this, ← mul_sum]
  rfl

/-- And the flux of a mode solves the eigenvalue problem. -/
theorem C133_diffusion_eigen (hS : Finds L C S) {k : K} (hk : k ≠ 0) {d : Nat → K} (hm : Mode L.src S k d) :
    ∃ x, DiffEigen L C k x ∧ (∀ g < L.mat.G, ∀ c < L.M.size, S (fun g c => 1 / k * (d c * emits L.src g c)) g c = x (c + g * L.M.size)) ∧
      ∀ c < L.M.size, L.dens x c = d c := by
  obtain ⟨x, x1, _, x2, _⟩ := finds_lhs h srt hs hC hS fun g c => 1 / k * (d c * emits L.src g c)
  have hpos : ∀ g c, L.pos g c = c + g * L.M.size := h.ok.pos
  have hd : ∀ c < L.M.size, L.dens x c = d c := by
    intro c hc
    have h1 := hm c hc
    rw [fop_eq _ _ _ hc] at h1
    have h1 : ∑ g ∈ range L.mat.G, S (fun g c => d c * emits L.src g c) g c * makes L.src g c = k * d c := h1
    have : ∀ g ∈ range L.mat.G, makes L.src g c * x (c + g * L.M.size) =
        1 / k * (S (fun g c => d c * emits L.src g c) g c * makes L.src g c) := by
      intro g hg
      have hg := mem_range.1 hg
      rw [← hpos, ← x1 g hg c hc, finds_smul h srt hs hC hS (1 / k) (fun g c => d c * emits L.src g c) hg hc]
      ring
    show ∑ g ∈ range L.mat.G, _ = _
    rw [sum_congr rfl this, ← mul_sum, h1]
    field_simp
  refine ⟨x, (solves_iff (L.fed _) (fed_ok h _) srt hs C bs hC x).2 ?_, fun g hg c hc => by rw [x1 g hg c hc, hpos], hd⟩
  have k1 := (solves_iff (L.fed _) (fed_ok h _) srt hs C bs hC x).1 x2
  intro g hg c hc
  refine (k1 g hg c hc).trans ((fed_rhs h _ hg hc).trans (Eq.trans ?_ (fed_rhs h _ hg hc).symm))
  rw [hd c hc]

/-- It is the problem of the loss and gain matrices. -/
theorem C133_diffusion_matrices {Fm : CSR K} {bF : List Bool} (hF : gain L.mat L.mmap L.M.size L.adjoint srt = .ok (some Fm, bF)) {k : K}
    (hk : k ≠ 0) (x : Nat → K) :
    DiffEigen L C k x ↔ ∀ p < L.mat.G * L.M.size, Fm.multiply x p = k * C.multiply x p := by
  obtain ⟨F', f1, _, _, f2⟩ := C51_rows L.mat L.mmap L.M.size L.adjoint srt hs
  rw [f1, Out.ok.injEq, Prod.mk.injEq, Option.some.injEq] at hF
  obtain ⟨rfl, _⟩ := hF
  have f3 : ∀ g < L.mat.G, ∀ c < L.M.size, F'.multiply x (c + g * L.M.size) = L.dens x c * emits L.src g c := by
    intro g hg c hc
    rw [f2 x g hg c hc]
    unfold Loss.dens emits makes Loss.src
    split <;> rw [mul_comm]
  have split : ∀ p < L.mat.G * L.M.size, p / L.M.size < L.mat.G ∧ p % L.M.size < L.M.size ∧
      p % L.M.size + p / L.M.size * L.M.size = p := fun p hlt => by
    have hn : 0 < L.M.size := Nat.pos_of_ne_zero fun h => by simp [h] at hlt
    exact ⟨(Nat.div_lt_iff_lt_mul hn).2 hlt, Nat.mod_lt p hn, Nat.mod_add_div' p _⟩
  refine forall₂_congr fun p hlt => ?_
  obtain ⟨a, b, e⟩ := split p hlt
  have r1 := f3 _ a _ b
  have r2 := fed_rhs h (fun g c => 1 / k * (L.dens x c * emits L.src g c)) a b
  rw [e] at r1 r2
  rw [r1, r2]
  constructor
  · intro e
    rw [e]
    field_simp
  · intro e
    rw [e]
    field_simp

/-! ## Bounds and comparison -/

/-- Flat group fluxes that no cell's medium can sustain with factor `kk` bound every factor. -/
theorem C133_diffusion_ceiling (hS : Finds L C S) (hd : Data L.src) {k kk : K} (hk : k ≠ 0) (hkk : 0 < kk) {x : Nat → K}
    (hx : DiffEigen L C k x) (hne : ∃ c < L.M.size, L.dens x c ≠ 0) (v : Nat → K) (hv : ∀ g < L.mat.G, 0 < v g)
    (hc : ∀ g < L.mat.G, ∀ c < L.M.size, 1 / kk * ((∑ gp ∈ range L.mat.G, makes L.src gp c * v gp) * emits L.src g c) +
      ∑ gp ∈ range L.mat.G, L.inXs g gp c * v gp ≤ L.mat.sigT g (L.mmap c) * v g) : |k| ≤ kk := by
  refine EigenPI.C133_above (C133_diffusion_solver h srt hs hC hS) hd (C133_diffusion_mode h srt hs hC hS hk hx) hk hne hkk
    (fun g _ => v g) (fun g hg _ _ => hv g hg) fun g hg c hc' => ?_
  obtain ⟨y, y1, _, y2, _⟩ := finds_lhs h srt hs hC hS fun g c =>
    1 / kk * ((∑ gp ∈ range L.mat.G, makes L.src gp c * v gp) * emits L.src g c)
  have e : S (fun g c => 1 / kk * ((∑ gp ∈ range L.src.mat.G, makes L.src gp c * v gp) * emits L.src g c)) g c = _ := y1 g hg c hc'
  have hp : L.pos g c = c + g * L.M.size := h.ok.pos g c
  rw [e, hp]
  exact C132_diffusion_ceiling (L.fed _) (fed_ok h _) h.pos srt hs C bs hC h.weak v (fun g hg c hc' => by
    have := hc g hg c hc'
    have e1 : (L.fed fun g c => 1 / kk * ((∑ gp ∈ range L.mat.G, makes L.src gp c * v gp) * emits L.src g c)).given g c =
        1 / kk * ((∑ gp ∈ range L.mat.G, makes L.src gp c * v gp) * emits L.src g c) := by
      unfold FixedSrc.given Loss.fed
      simp [h.outside]
    rw [e1]
    exact this) (fun leak _ _ g hg _ _ => div_nonneg (hv g hg).le (by norm_num)) y y2 hg hc'

/-- Flat group fluxes that every cell's medium does sustain bound it from below, between reflecting sides. -/
theorem C133_diffusion_floor (hr : ∀ leak < 2 * L.M.dim, L.al leak = 1) (hS : Finds L C S) (hd : Data L.src) {k kk : K} (hk : 0 < k)
    (hkk : 0 < kk) {x : Nat → K} (hx : DiffEigen L C k x) (hp : ∀ c, Fissile L.src c → 0 < L.dens x c) (hne : ∃ c, Fissile L.src c)
    (v : Nat → K) (hv : ∀ g < L.mat.G, 0 < v g)
    (hc : ∀ g < L.mat.G, ∀ c < L.M.size, L.mat.sigT g (L.mmap c) * v g ≤
      1 / kk * ((∑ gp ∈ range L.mat.G, makes L.src gp c * v gp) * emits L.src g c) +
      ∑ gp ∈ range L.mat.G, L.inXs g gp c * v gp) : kk ≤ k := by
  refine EigenPI.C133_under (C133_diffusion_solver h srt hs hC hS) hd (C133_diffusion_mode h srt hs hC hS hk.ne' hx) hk hp hne hkk
    (fun g _ => v g) (fun g hg _ _ => hv g hg) fun g hg c hc' => ?_
  obtain ⟨y, y1, _, y2, _⟩ := finds_lhs h srt hs hC hS fun g c =>
    1 / kk * ((∑ gp ∈ range L.mat.G, makes L.src gp c * v gp) * emits L.src g c)
  have e : S (fun g c => 1 / kk * ((∑ gp ∈ range L.src.mat.G, makes L.src gp c * v gp) * emits L.src g c)) g c = _ := y1 g hg c hc'
  have hpos : L.pos g c = c + g * L.M.size := h.ok.pos g c
  rw [e, hpos]
  exact C132_diffusion_floor (L.fed _) (fed_ok h _) h.pos srt hs C bs hC h.weak v (fun g hg c hc' => by
    have := hc g hg c hc'
    have e1 : (L.fed fun g c => 1 / kk * ((∑ gp ∈ range L.mat.G, makes L.src gp c * v gp) * emits L.src g c)).given g c =
        1 / kk * ((∑ gp ∈ range L.mat.G, makes L.src gp c * v gp) * emits L.src g c) := by
      unfold FixedSrc.given Loss.fed
      simp [h.outside]
    rw [e1]
    exact this) (fun leak hl ha => absurd ((hr leak hl).symm.trans ha) one_ne_zero) y y2 hg hc'

/-! ## Where fissions are felt -/

omit h hs hC in
/-- Group `g` scatters into group `g'` in some cell. -/
def Loss.Downs (L : Loss K) (g g' : Nat) : Prop := g' < L.mat.G ∧ ∃ c < L.M.size, 0 < L.inXs g' g c

omit h hs hC in
/-- Neutrons are born in some group from which some group that fissions is reached by scattering. -/
def Loss.Linked (L : Loss K) : Prop := ∀ c, Fissile L.src c → ∀ c', Fissile L.src c' → ∃ g < L.mat.G, emits L.src g c ≠ 0 ∧
  ∃ g' < L.mat.G, makes L.src g' c' ≠ 0 ∧ Relation.ReflTransGen L.Downs g g'

/-- Then fissions in one fissile cell make fissions in every other. -/
theorem C133_diffusion_mixing (hS : Finds L C S) (hd : Data L.src) (hl : L.Linked) : Mixing L.src S := by
  intro c hc c' hc'
  obtain ⟨g, hg, he, g', hg', hm, hr⟩ := hl c hc c' hc'
  obtain ⟨x, x1, _, _, x3⟩ := finds_lhs h srt hs hC hS fun g i => (if i = c then 1 else 0) * emits L.src g i
  have hq : ∀ g < L.mat.G, ∀ i < L.M.size, 0 ≤ (if i = c then 1 else 0) * emits L.src g i := fun g hg i hi =>
    mul_nonneg (by split <;> norm_num) (hd.emits g hg i hi)
  have act := fun {g} => in_active (g := g) (fed_ok h fun _ _ => 0)
  have l0 : ∀ g ∈ L.active, ∀ i < L.M.size, 0 ≤ L.lhs x g i := fun g hg i hi => by
    rw [x3 g (act.1 hg) i hi]
    exact hq g (act.1 hg) i hi
  have nn := lhs_nonneg L h.pos h.weak x l0
  have stay : ∀ y < L.mat.G, ∀ i < L.M.size, x (L.pos y i) ≠ 0 → ∀ j < L.M.size, x (L.pos y j) ≠ 0 := by
    intro y hy i hi h0 j hj
    refine spread_all L.M (fun i => x (L.pos y i) ≠ 0) (fun i hi leak hlk hb hn hz => hn ?_) hi hj h0
    exact (zero_spreads L h.pos h.weak x nn (act.2 hy) hi (l0 y (act.2 hy) i hi) hz).2.1 leak hlk hb
  have walk : ∀ y, Relation.ReflTransGen L.Downs g y → y < L.mat.G ∧ ∀ j < L.M.size, x (L.pos y j) ≠ 0 := by
    intro y hy
    induction hy with
    | refl =>
      refine ⟨hg, fun j hj => stay g hg c hc.1 (fun hz => ?_) j hj⟩
      have := (zero_spreads L h.pos h.weak x nn (act.2 hg) hc.1 (l0 g (act.2 hg) c hc.1) hz).1
      rw [x3 g hg c hc.1, if_pos rfl, one_mul] at this
      exact he this
    | @tail y z _ hz ih =>
      obtain ⟨z1, i, hi, z2⟩ := hz
      refine ⟨z1, fun j hj => stay z z1 i hi (fun hz => ?_) j hj⟩
      have := (zero_spreads L h.pos h.weak x nn (act.2 z1) hi (l0 z (act.2 z1) i hi) hz).2.2 y (act.2 ih.1)
      exact mul_ne_zero z2.ne' (ih.2 i hi) this
  rw [fop_eq _ _ _ hc'.1]
  have hS0 : ∀ g < L.mat.G, 0 ≤ S (fun g i => (if i = c then 1 else 0) * emits L.src g i) g c' := fun g hg => by
    rw [x1 g hg c' hc'.1]
    exact nn g (act.2 hg) c' hc'.1
  refine sum_pos' (fun g hg => mul_nonneg (hS0 g (mem_range.1 hg)) (hd.makes g (mem_range.1 hg) c' hc'.1)) ⟨g', mem_range.2 hg', ?_⟩
  refine mul_pos ?_ (lt_of_le_of_ne (hd.makes g' hg' c' hc'.1) (Ne.symm hm))
  rw [x1 g' hg' c' hc'.1]
  exact lt_of_le_of_ne (nn g' (act.2 hg') c' hc'.1) (Ne.symm ((walk g' hr).2 c' hc'.1))

/-! ## Power iteration -/

omit h hs hC in
/-- Power iteration with these fluxes. -/
def Loss.power (L : Loss K) (S : (Nat → Nat → K) → Nat → Nat → K) (n : Nat) (tol : K) : PI K := ⟨L.src, fun q _ => S q, n, tol, 1⟩

/-- Everything C134 asks for holds. -/
theorem C134_diffusion_sound (hS : Finds L C S) (hd : Data L.src) (hl : L.Linked) (hx : Seeded L.src) (n : Nat) (tol : K) :
    Sound (L.power S n tol) S where
  exact := {
    solve := fun _ _ => rfl
    hom := fun a q => by
      funext g c
      by_cases hb : g < L.mat.G ∧ c < L.M.size
      · exact finds_smul h srt hs hC hS a q hb.1 hb.2
      · obtain ⟨_, _, x2, _⟩ := finds_lhs h srt hs hC hS fun g c => a * q g c
        obtain ⟨_, _, y2, _⟩ := finds_lhs h srt hs hC hS q
        rw [x2 g c hb, y2 g c hb, mul_zero] }
  solver := C133_diffusion_solver h srt hs hC hS
  data := hd
  mixing := C133_diffusion_mixing h srt hs hC hS hd hl
  seeded := hx
  unrelaxed := rfl

end

/-! ## Comparison -/

/-- Problem `L'` leaks and absorbs no more than `L`, and scatters and fissions no less, in every cell of the same mesh. -/
structure Loss.Less (L L' : Loss K) : Prop where
  M : L'.M = L.M
  G : L'.mat.G = L.mat.G
  dc : ∀ g < L.mat.G, ∀ c < L.M.size, L'.dc g c = L.dc g c
  al : ∀ s, L.al s ≤ L'.al s
  sigT : ∀ g < L.mat.G, ∀ c < L.M.size, L'.mat.sigT g (L'.mmap c) ≤ L.mat.sigT g (L.mmap c)
  inXs : ∀ g < L.mat.G, ∀ gp < L.mat.G, ∀ c < L.M.size, L.inXs g gp c ≤ L'.inXs g gp c
  emits : ∀ g < L.mat.G, ∀ c < L.M.size, emits L.src g c ≤ emits L'.src g c
  makes : ∀ g < L.mat.G, ∀ c < L.M.size, makes L.src g c ≤ makes L'.src g c

theorem active_eq {L : Loss K} {u : Nat → K} (h : Subcritical L u) : L.active = range L.mat.G :=
  Finset.ext fun g => (in_active (fed_ok h fun _ _ => 0)).trans mem_range.symm

theorem lhs_less {L L' : Loss K} {u u' : Nat → K} (h : Subcritical L u) (h' : Subcritical L' u') (hL : L.Less L') (x : Nat → K)
    (hx : ∀ g < L.mat.G, ∀ c < L.M.size, 0 ≤ x (L.pos g c)) {g c : Nat} (hg : g < L.mat.G) (hc : c < L.M.size) :
    L'.lhs x g c ≤ L.lhs x g c := by
  have hpos : ∀ g c, L'.pos g c = L.pos g c := fun g c => by
    have e1 : L.pos g c = c + g * L.M.size := h.ok.pos g c
    have e2 : L'.pos g c = c + g * L'.M.size := h'.ok.pos g c
    rw [e1, e2, hL.M]
  unfold Loss.lhs
  rw [local_eq, local_eq, active_eq h, active_eq h', hL.G, hL.M]
  simp only [hpos]
  refine add_le_add (sum_le_sum fun leak hl => ?_) (sub_le_sub (mul_le_mul_of_nonneg_right (hL.sigT g hg c hc) (hx g hg c hc))
    (sum_le_sum fun gp hgp => mul_le_mul_of_nonneg_right (hL.inXs g hg gp (mem_range.1 hgp) c hc) (hx gp (mem_range.1 hgp) c hc)))
  have hw : 0 < L.M.width c (leak / 2) := h.pos.h _ _
  refine div_le_div_of_nonneg_right ?_ hw.le
  unfold Loss.faceTerm Loss.dtilde
  rw [hL.M, hL.dc g hg c hc]
  by_cases hb : L.M.onBoundary c leak = true
  · rw [if_pos hb, if_pos hb, if_pos hb, if_pos hb]
    exact mul_le_mul_of_nonneg_right (dBoundary_anti (h.pos.dc _ _) hw (h.pos.al _).1 (hL.al _) (h'.pos.al _).2) (hx g hg c hc)
  · rw [if_neg hb, if_neg hb, if_neg hb, if_neg hb,
      hL.dc g hg _ (neighbour_lt L.M hc (mem_range.1 hl) (by simpa using hb))]

/-- Less leakage or absorption, or more scattering or fission: no smaller factor. -/
theorem C133_diffusion_more {L L' : Loss K} {u u' : Nat → K} (h : Subcritical L u) (h' : Subcritical L' u') (hL : L.Less L')
    (srt : List (Trip K) → List (Trip K)) (hs : IsSort srt) {C C' : CSR K} {bs bs' : List Bool}
    (hC : L.sys.make srt = .ok (some C, bs)) (hC' : L'.sys.make srt = .ok (some C', bs')) (hd : Data L.src) {k k' : K} (h0 : k ≠ 0)
    (h0' : k' ≠ 0) {x x' : Nat → K} (hx : DiffEigen L C k x) (hne : ∃ c < L.M.size, L.dens x c ≠ 0) (hx' : DiffEigen L' C' k' x')
    (hp' : ∀ c, Fissile L'.src c → 0 < L'.dens x' c) : |k| ≤ k' := by
  obtain ⟨S, hS⟩ := C133_diffusion_fluxes h srt hs hC
  obtain ⟨S', hS'⟩ := C133_diffusion_fluxes h' srt hs hC'
  have so := C133_diffusion_solver h srt hs hC hS
  have so' := C133_diffusion_solver h' srt hs hC' hS'
  have hN : L'.src.N = L.src.N := congrArg Grid.size hL.M
  have hN' : L'.M.size = L.M.size := hN
  have hG' : L'.src.mat.G = L.src.mat.G := hL.G
  have hd' : Data L'.src := ⟨fun g hg c hc => by
      rw [hG'] at hg; rw [hN] at hc
      exact (hd.emits g hg c hc).trans (hL.emits g hg c hc), fun g hg c hc => by
      rw [hG'] at hg; rw [hN] at hc
      exact (hd.makes g hg c hc).trans (hL.makes g hg c hc)⟩
  refine EigenPI.C133_more so hd so' hd' hN (fun d hd0 c hc => ?_) (fun c hc => ?_)
    (C133_diffusion_mode h srt hs hC hS h0 hx) h0 hne (C133_diffusion_mode h' srt hs hC' hS' h0' hx') h0' hp'
  · have hc1 : c < L.M.size := hc
    rw [fop_eq _ _ _ hc, fop_eq _ _ _ (by rw [hN]; exact hc), hG']
    have p := so.pos (fun g c => d c * emits L.src g c) fun g hg c hc => mul_nonneg (hd0 c hc) (hd.emits g hg c hc)
    refine sum_le_sum fun g hg => ?_
    have hg := mem_range.1 hg
    have hg1 : g < L.mat.G := hg
    refine mul_le_mul ?_ (hL.makes g hg c hc) (hd.makes g hg c hc) ?_
    · obtain ⟨y, y1, _, _, y2⟩ := finds_lhs h srt hs hC hS fun g c => d c * emits L.src g c
      obtain ⟨z, z1, _, _, z2⟩ := finds_lhs h' srt hs hC' hS' fun g c => d c * emits L'.src g c
      have e1 : L.pos g c = c + g * L.M.size := h.ok.pos g c
      have e2 : L'.pos g c = c + g * L'.M.size := h'.ok.pos g c
      rw [y1 g hg1 c hc1, z1 g (by rw [hL.G]; exact hg) c (by rw [hN']; exact hc1)]
      have act := fun {g} => in_active (g := g) (fed_ok h' fun _ _ => 0)
      have := lhs_mono L' h'.pos h'.weak y z (fun g hg c hc => by
        have hg' := act.1 hg
        rw [z2 g hg' c hc]
        have hg2 : g < L.mat.G := hL.G ▸ hg'
        have hc2 : c < L.M.size := hN' ▸ hc
        refine (lhs_less h h' hL y (fun g hg c hc => ?_) hg2 hc2).trans ?_
        · rw [← y1 g hg c hc]
          exact p g hg c hc
        · rw [y2 g hg2 c hc2]
          exact mul_le_mul_of_nonneg_left (hL.emits g hg2 c hc2) (hd0 c hc2)) g (act.2 (by
            show g < L'.mat.G
            rw [hL.G]; exact hg1)) c (by rw [hN']; exact hc1)
      rw [e2, hN'] at this
      rwa [e1, e2, hN']
    · refine so'.pos _ (fun g hg c hc => mul_nonneg (hd0 c (by rw [← hN]; exact hc)) (hd'.emits g hg c hc)) g (by rw [hG']; exact hg) c
        (by rw [hN]; exact hc)
  · obtain ⟨h1, g, hg, hm⟩ := hc
    refine ⟨by rw [hN]; exact h1, g, by rw [hG']; exact hg, fun e => hm (le_antisymm ?_ (hd.makes g hg c h1))⟩
    rw [← e]
    exact hL.makes g hg c h1

end main

/-- There is a multiplication factor with a solution of the loss and gain matrices that makes fissions in every fissile cell; no
    other exceeds it, and power iteration from any flux finds it. -/
theorem C134_diffusion {L : Loss ℝ} {u : Nat → ℝ} (h : Subcritical L u) (srt : List (Trip ℝ) → List (Trip ℝ)) (hs : IsSort srt)
    {C Fm : CSR ℝ} {bs bF : List Bool} (hC : L.sys.make srt = .ok (some C, bs))
    (hF : gain L.mat L.mmap L.M.size L.adjoint srt = .ok (some Fm, bF)) (hd : Data L.src) (hl : L.Linked) (hx : Seeded L.src) :
    ∃ S, Finds L C S ∧ ∃ k > 0,
      (∃ x, (∀ p < L.mat.G * L.M.size, Fm.multiply x p = k * C.multiply x p) ∧ ∀ c, Fissile L.src c → 0 < L.dens x c) ∧
      (∀ k' x', k' ≠ 0 → (∀ p < L.mat.G * L.M.size, Fm.multiply x' p = k' * C.multiply x' p) →
        (∃ c < L.M.size, L.dens x' c ≠ 0) → |k'| ≤ k) ∧
      ∀ phi0, ∃ A > 0, ∃ t0 > 0, ∀ tol, 0 < tol → tol ≤ t0 → ∃ n0, ∀ n, n0 ≤ n → ∃ r,
        (L.power S n tol).run phi0 = some r ∧ r.warned = false ∧ |r.keff - k| ≤ A * tol := by
  obtain ⟨S, hS⟩ := C133_diffusion_fluxes h srt hs hC
  have sound := C134_diffusion_sound h srt hs hC hS hd hl hx
  have hFis : ∃ c, Fissile L.src c := by
    obtain ⟨c, h, _⟩ := hx
    exact ⟨c, h⟩
  obtain ⟨k, k0, d, hm, hp⟩ := EigenPI.C133_exists (sound 0 0).solver hd (sound 0 0).mixing hFis
  refine ⟨S, hS, k, k0, ?_, fun k' x' h0 h' hne => ?_, fun phi0 => EigenPI.C134_returned (sound 0 0) phi0 hm k0 hp⟩
  · obtain ⟨x, e1, _, e2⟩ := C133_diffusion_eigen h srt hs hC hS k0.ne' hm
    exact ⟨x, (C133_diffusion_matrices h srt hs hC hF k0.ne' x).1 e1, fun c hc => by rw [e2 c hc.1]; exact hp c hc⟩
  · exact EigenPI.C133_dominant (sound 0 0).solver hd hm k0.ne' hp
      (C133_diffusion_mode h srt hs hC hS h0 ((C133_diffusion_matrices h srt hs hC hF h0 x').2 h')) h0 hne

/-! ## Cases -/

section cases
variable (K : Type) [Field K] [LinearOrder K]

/-- Fuel and moderator: neutrons are born fast, and fission slow ones. -/
def coreMat : Material.Mat K :=
  { Material.Mat.new 2 2 with
    sigT := fun _ _ => 1
    sigS := fun g gp _ => if g = gp then 1 / 2 else if g = 1 then 1 / 4 else 0
    diff := fun g m => if g = m then 1 else 1 / 2
    nu := fun _ _ => 2
    sigF := fun g m => if g = 1 ∧ m = 0 then 1 / 4 else 0
    chi := fun g _ => if g = 0 then 1 else 0 }

/-- Arranged in any way on a 3 by 2 mesh with unequal widths, with the same albedo on its four sides. -/
def core (mm : Nat → Nat) (al : K) : Loss K where
  M := ⟨2, 3, 2, 1, fun _ i => 1 + i⟩
  mat := (coreMat K).finalize
  mmap := mm
  al := fun s => if s < 4 then al else 1
  adjoint := false
  cutoff := 0
  fission := false
  sf := 0
  keff := 1

variable {K} [IsStrictOrderedRing K]

theorem core_inXs (mm : Nat → Nat) (al : K) (g gp c : Nat) :
    (core K mm al).inXs g gp c = if g = gp then 1 / 2 else if g = 1 then 1 / 4 else 0 := by
  simp [Loss.inXs, Loss.scatXs, core, coreMat, Material.Mat.finalize]

theorem core_makes (mm : Nat → Nat) (al : K) (g c : Nat) :
    makes (core K mm al).src g c = if g = 1 ∧ mm c = 0 then 1 / 2 else 0 := by
  by_cases h : g = 1 ∧ mm c = 0 <;>
    simp [makes, Loss.src, core, coreMat, Material.Mat.finalize, h] <;> norm_num

theorem core_emits (mm : Nat → Nat) (al : K) (g c : Nat) : emits (core K mm al).src g c = if g = 0 then 1 else 0 := by
  simp [emits, Loss.src, core, coreMat, Material.Mat.finalize]

theorem core_data (mm : Nat → Nat) (al : K) : Data (core K mm al).src :=
  ⟨fun g _ c _ => by rw [core_emits]; split <;> norm_num, fun g _ c _ => by rw [core_makes]; split <;> norm_num⟩

theorem core_ok (mm : Nat → Nat) (hm : ∀ c, mm c < 2) (al : K) (ha : al = 0 ∨ al = 1) :
    ((core K mm al).fed fun _ _ => 0).OK := by
  refine ⟨⟨⟨show 2 ≤ 3 by decide, ?_⟩, ⟨coreMat K, rfl⟩, ?_, fun c _ => hm c, Nat.zero_le _⟩, rfl, fun leak hl => ?_, fun leak hl _ => ?_⟩
  · intro a h1 h2
    have : a = 2 := by
      have : 2 ≤ a := h1
      omega
    subst this
    rfl
  · intro g gp m
    show (0 : K) ≤ if g = gp then 1 / 2 else if g = 1 then 1 / 4 else 0
    split_ifs <;> norm_num
  · have hl : leak < 4 := hl
    show (if leak < 4 then al else 1) = 0 ∨ (if leak < 4 then al else 1) = 1 ∧ _
    rw [if_pos hl]
    rcases ha with h | h
    · exact .inl h
    · exact .inr ⟨h, fun _ _ _ => rfl⟩
  · have hl : 4 ≤ leak := hl
    show (if leak < 4 then al else 1) = 1
    rw [if_neg (by omega)]

theorem core_sub (mm : Nat → Nat) (hm : ∀ c, mm c < 2) (al : K) (ha : al = 0 ∨ al = 1) :
    Subcritical (core K mm al) fun g => if g = 0 then 1 else 3 / 4 where
  ok := core_ok mm hm al ha
  outside := rfl
  pos := ⟨fun a i => by
      show (0 : K) < 1 + (i : K)
      positivity, fun g m => by
      show (0 : K) < if g = m then 1 else 1 / 2
      split <;> norm_num, fun s => by
      show -1 ≤ (if s < 4 then al else 1) ∧ (if s < 4 then al else 1) ≤ 1
      rcases ha with rfl | rfl <;> split <;> norm_num⟩
  weak := by
    have act : (core K mm al).active = range 2 :=
      Finset.ext fun g => (in_active (core_ok mm hm al ha)).trans (mem_range (n := 2)).symm
    refine ⟨fun g _ => by split <;> norm_num, fun g _ gp _ c _ => by rw [core_inXs]; split_ifs <;> norm_num, fun g hg c _ => ?_⟩
    rw [act] at hg ⊢
    have hg := mem_range.1 hg
    show _ < (1 : K) * _
    rw [sum_range_succ, sum_range_one, core_inXs, core_inXs]
    interval_cases g <;> norm_num

theorem core_fissile (mm : Nat → Nat) (al : K) (c : Nat) : Fissile (core K mm al).src c ↔ c < 6 ∧ mm c = 0 := by
  constructor
  · rintro ⟨h, g, hg, hm⟩
    rw [core_makes] at hm
    exact ⟨h, by by_contra hn; exact hm (if_neg fun h => hn h.2)⟩
  · rintro ⟨h, h0⟩
    exact ⟨h, 1, (by show 1 < 2; decide), by rw [core_makes, if_pos ⟨rfl, h0⟩]; norm_num⟩

theorem core_linked (mm : Nat → Nat) (al : K) : (core K mm al).Linked := by
  intro c hc c' hc'
  refine ⟨0, (by show 0 < 2; decide), by rw [core_emits]; norm_num, 1, (by show 1 < 2; decide), ?_,
    Relation.ReflTransGen.single ⟨(by show 1 < 2; decide), c, hc.1, by rw [core_inXs]; norm_num⟩⟩
  rw [core_makes, if_pos ⟨rfl, ((core_fissile mm al c').1 hc').2⟩]
  norm_num

theorem core_seeded (mm : Nat → Nat) (al : K) (h0 : mm 0 = 0) : Seeded (core K mm al).src := by
  refine ⟨0, (core_fissile mm al 0).2 ⟨by decide, h0⟩, ?_⟩
  have : ∀ g, (core K mm al).src.mat.nuSigF g ((core K mm al).src.mmap 0) = makes (core K mm al).src g 0 := fun g => rfl
  show ∑ g ∈ range 2, _ ≠ _
  simp only [this, core_makes, sum_range_succ, sum_range_zero, h0]
  norm_num

/-- Fluxes two and one: fuel sustains them with the factor one half, moderator loses more. -/
theorem core_balance (mm : Nat → Nat) (al : K) : ∀ g < 2, ∀ c, 1 / (1 / 2 : K) *
      ((∑ gp ∈ range 2, makes (core K mm al).src gp c * if gp = 0 then 2 else 1) * emits (core K mm al).src g c) +
      ∑ gp ∈ range 2, (core K mm al).inXs g gp c * (if gp = 0 then 2 else 1) =
      (1 * if g = 0 then 2 else 1) - if mm c = 0 then 0 else if g = 0 then 1 else 0 := by
  intro g hg c
  simp only [sum_range_succ, sum_range_zero, core_makes, core_emits, core_inXs]
  by_cases h : mm c = 0 <;> interval_cases g <;> simp [h] <;> norm_num

end cases

/-- Every second cell fuel, vacuum outside: there is a factor, power iteration finds it, and it is at most a half. -/
example (srt : List (Trip ℝ) → List (Trip ℝ)) (hs : IsSort srt) {C Fm : CSR ℝ} {bs bF : List Bool}
    (hC : (core ℝ (· % 2) 0).sys.make srt = .ok (some C, bs))
    (hF : gain (core ℝ (· % 2) 0).mat (core ℝ (· % 2) 0).mmap (core ℝ (· % 2) 0).M.size false srt = .ok (some Fm, bF)) (phi0 : Nat → Nat → ℝ) :
    ∃ S, Finds (core ℝ (· % 2) 0) C S ∧ ∃ k, 0 < k ∧ k ≤ 1 / 2 ∧ ∃ A > 0, ∃ t0 > 0, ∀ tol, 0 < tol → tol ≤ t0 → ∃ n0, ∀ n, n0 ≤ n →
      ∃ r, ((core ℝ (· % 2) 0).power S n tol).run phi0 = some r ∧ r.warned = false ∧ |r.keff - k| ≤ A * tol := by
  have sub := core_sub (K := ℝ) (· % 2) (fun c => Nat.mod_lt c (by decide)) 0 (.inl rfl)
  have data := core_data (K := ℝ) (· % 2) 0
  obtain ⟨S, hS, k, k0, ⟨x, hx, hp⟩, _, run⟩ := C134_diffusion sub srt hs hC hF data (core_linked _ _) (core_seeded _ _ rfl)
  refine ⟨S, hS, k, k0, ?_, run phi0⟩
  have f0 : Fissile (core ℝ (· % 2) 0).src 0 := (core_fissile _ _ 0).2 ⟨by decide, rfl⟩
  have := C133_diffusion_ceiling sub srt hs hC hS data k0.ne' (show (0 : ℝ) < 1 / 2 by norm_num)
    ((C133_diffusion_matrices sub srt hs hC hF k0.ne' x).2 hx) ⟨0, f0.1, (hp 0 f0).ne'⟩ (fun g => if g = 0 then 2 else 1)
    (fun g _ => by split <;> norm_num) fun g hg c _ => (core_balance (· % 2) 0 g hg c).le.trans (sub_le_self _ (by
      split_ifs <;> norm_num))
  rwa [abs_of_pos k0] at this

/-- Fuel everywhere between mirrors: a half exactly. -/
example (srt : List (Trip ℝ) → List (Trip ℝ)) (hs : IsSort srt) {C Fm : CSR ℝ} {bs bF : List Bool}
    (hC : (core ℝ (fun _ => 0) 1).sys.make srt = .ok (some C, bs))
    (hF : gain (core ℝ (fun _ => 0) 1).mat (core ℝ (fun _ => 0) 1).mmap (core ℝ (fun _ => 0) 1).M.size false srt = .ok (some Fm, bF)) :
    ∃ x, (∀ p < 12, Fm.multiply x p = 1 / 2 * C.multiply x p) ∧ ∀ c < 6, 0 < (core ℝ (fun _ => 0) 1).dens x c := by
  have sub := core_sub (K := ℝ) (fun _ => 0) (fun c => by decide) 1 (.inr rfl)
  have data := core_data (K := ℝ) (fun _ => 0) 1
  obtain ⟨S, hS, k, k0, ⟨x, hx, hp⟩, _, _⟩ := C134_diffusion sub srt hs hC hF data (core_linked _ _) (core_seeded _ _ rfl)
  have f0 : ∀ c < 6, Fissile (core ℝ (fun _ => 0) 1).src c := fun c hc => (core_fissile _ _ c).2 ⟨hc, rfl⟩
  have eig := (C133_diffusion_matrices sub srt hs hC hF k0.ne' x).2 hx
  have up := C133_diffusion_ceiling sub srt hs hC hS data k0.ne' (show (0 : ℝ) < 1 / 2 by norm_num) eig
    ⟨0, (f0 0 (by decide)).1, (hp 0 (f0 0 (by decide))).ne'⟩ (fun g => if g = 0 then 2 else 1)
    (fun g _ => by split <;> norm_num) fun g hg c _ => ((core_balance (fun _ => 0) 1 g hg c).trans (by rw [if_pos rfl, sub_zero]; rfl)).le
  have lo := C133_diffusion_floor sub srt hs hC (fun leak hl => if_pos hl) hS data k0 (show (0 : ℝ) < 1 / 2 by norm_num) eig hp
    ⟨0, f0 0 (by decide)⟩ (fun g => if g = 0 then 2 else 1) (fun g _ => by split <;> norm_num) fun g hg c _ => ((core_balance (fun _ => 0) 1 g hg c).trans (by rw [if_pos rfl, sub_zero]; rfl)).ge
  rw [abs_of_pos k0] at up
  have : k = 1 / 2 := le_antisymm up lo
  subst this
  exact ⟨x, hx, fun c hc => hp c (f0 c hc)⟩

/-- Mirrors put around a core do not lower its factor. -/
example (srt : List (Trip ℚ) → List (Trip ℚ)) (hs : IsSort srt) {C C' : CSR ℚ} {bs bs' : List Bool}
    (hC : (core ℚ (· % 2) 0).sys.make srt = .ok (some C, bs)) (hC' : (core ℚ (· % 2) 1).sys.make srt = .ok (some C', bs')) {k k' : ℚ}
    (h0 : k ≠ 0) (h0' : k' ≠ 0) {x x' : Nat → ℚ} (hx : DiffEigen (core ℚ (· % 2) 0) C k x)
    (hne : ∃ c < 6, (core ℚ (· % 2) 0).dens x c ≠ 0) (hx' : DiffEigen (core ℚ (· % 2) 1) C' k' x')
    (hp' : ∀ c, Fissile (core ℚ (· % 2) 1).src c → 0 < (core ℚ (· % 2) 1).dens x' c) : |k| ≤ k' :=
  C133_diffusion_more (core_sub _ (fun c => Nat.mod_lt c (by decide)) 0 (.inl rfl)) (core_sub _ (fun c => Nat.mod_lt c (by decide)) 1 (.inr rfl))
    ⟨rfl, rfl, fun _ _ _ _ => rfl, fun s => by
      show (if s < 4 then (0 : ℚ) else 1) ≤ if s < 4 then 1 else 1
      split <;> norm_num, fun _ _ _ _ => le_rfl, fun _ _ _ _ _ _ => le_rfl, fun _ _ _ _ => le_rfl,
      fun _ _ _ _ => le_rfl⟩ srt hs hC hC' (core_data _ _) h0 h0' hx hne hx' hp'

end Detran.Diffusion
