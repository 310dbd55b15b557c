import Verif.Props.MGKernel
import Verif.Props.Gmres
import Mathlib.LinearAlgebra.FiniteDimensional.Basic
import Mathlib.LinearAlgebra.StdBasis
import Mathlib.Analysis.Real.Sqrt

/-!
# GMRES run on the system of a group or of coupled groups (C152)

`WGSolverGMRES::solve` and `MGSolverGMRES::solve` hand `WGTransportOperator` and `MGTransportOperator` to the restarted GMRES
of callow.  Here the model of that solver (`Model/Gmres`) is run on the models of those operators.
-/

namespace Detran.Gmres

open Finset Detran.Solver

section run
variable {K : Type} [Field K] [LinearOrder K] [IsStrictOrderedRing K] {n : Nat}

/-- `Vector::dot`, callow/vector/Vector.i.hh:189-200. -/
def dotN (a b : Fin n → K) : K := ∑ i, a i * b i

theorem dotN_isDot : IsDot (K := K) (E := Fin n → K) dotN where
  add a b c := by simp only [dotN, Pi.add_apply, add_mul, sum_add_distrib]
  smul t a c := by simp only [dotN, Pi.smul_apply, smul_eq_mul, mul_assoc, mul_sum]
  comm a b := sum_congr rfl fun i _ => mul_comm _ _
  pos a ha := by
    obtain ⟨i, hi⟩ := Function.ne_iff.1 ha
    exact sum_pos' (fun i _ => mul_self_nonneg _) ⟨i, mem_univ i, mul_self_pos.2 hi⟩

/-- A run of the solver for right-hand side `b`, whatever the tolerances, limits, starting vector and what the solver object
    holds from before: it ends without a division by zero and does not report divergence; if it reports success, the entries
    asked for are as close to those of `y` as the tolerances allow, up to a factor `C`; it reports success within `n` inner
    iterations if it is allowed that many without restart. -/
def RunsTo (S : Sys (Fin n → K)) (C : K) (b : Fin n → K) (asked : Fin n → Prop) (y : Fin n → K) : Prop :=
  ∀ (sq : K → K), IsSqrt sq → ∀ (re restart : Nat) (par : Par K), 0 < par.atol → 0 < par.maxit → restart > 2 →
    ∀ (x0 : Fin n → K) (ls : LS K) (z : Cyc K (Fin n → K)),
    ∃ x ls' k, solve par restart S dotN sq re b x0 ls z = some (x, ls', k) ∧ ls'.status ≠ .diverge ∧
      (ls'.status = .success → ∀ i, asked i →
        |x i - y i| ≤ C * max (par.rtol * sq (dotN (residual S b x0) (residual S b x0))) par.atol) ∧
      (n ≤ restart → n + 2 ≤ par.maxit → ls'.status = .success ∧ k ≤ n)

theorem abs_le_norm {sq : K → K} (hsq : IsSqrt sq) (v : Fin n → K) (i : Fin n) : |v i| ≤ sq (dotN v v) := by
  obtain ⟨h1, h2⟩ := hsq (dotN v v) (sum_nonneg fun i _ => mul_self_nonneg _)
  refine abs_le_of_sq_le_sq ?_ h1
  rw [pow_two, pow_two, h2]
  exact single_le_sum (f := fun i => v i * v i) (fun i _ => mul_self_nonneg _) (mem_univ i)

/-- An injective linear map does not shrink vectors without bound. -/
theorem bounded_below (L : (Fin n → K) →ₗ[K] (Fin n → K)) (inj : ∀ x, L x = 0 → x = 0) :
    ∃ C : K, 0 ≤ C ∧ ∀ sq, IsSqrt sq → ∀ x i, |x i| ≤ C * sq (dotN (L x) (L x)) := by
  have hi : Function.Injective L := (injective_iff_map_eq_zero L).2 inj
  let e := LinearEquiv.ofInjectiveEndo L hi
  refine ⟨∑ i, ∑ j, |e.symm (Pi.single j 1) i|, sum_nonneg fun _ _ => sum_nonneg fun _ _ => abs_nonneg _,
    fun sq hsq x i => ?_⟩
  have hx : x = e.symm (L x) := (e.symm_apply_apply x).symm
  have hs : L x = ∑ j, L x j • (Pi.single j 1 : Fin n → K) := by
    funext j
    simp [Finset.sum_apply, Pi.single_apply]
  have hxi : x i = ∑ j, L x j * e.symm (Pi.single j 1) i := by
    conv_lhs => rw [hx, hs, map_sum]
    simp [Finset.sum_apply]
  obtain ⟨nn, _⟩ := hsq (dotN (L x) (L x)) (sum_nonneg fun i _ => mul_self_nonneg _)
  calc |x i| ≤ ∑ j, |L x j * e.symm (Pi.single j 1) i| := by rw [hxi]; exact abs_sum_le_sum_abs _ _
    _ ≤ ∑ j, sq (dotN (L x) (L x)) * |e.symm (Pi.single j 1) i| := sum_le_sum fun j _ => by
        rw [abs_mul]
        exact mul_le_mul_of_nonneg_right (abs_le_norm hsq _ j) (abs_nonneg _)
    _ = (∑ j, |e.symm (Pi.single j 1) i|) * sq (dotN (L x) (L x)) := by rw [← mul_sum, mul_comm]
    _ ≤ _ := mul_le_mul_of_nonneg_right
        (single_le_sum (f := fun i => ∑ j, |e.symm (Pi.single j 1) i|) (fun _ _ => sum_nonneg fun _ _ => abs_nonneg _)
          (mem_univ i)) nn

/-- On a nonsingular system, with any nonsingular preconditioner, every run goes to the solution. -/
theorem runs (S : Sys (Fin n → K)) (hS : Regular K S) :
    ∃ C : K, 0 ≤ C ∧ ∀ b y, S.A y = b → RunsTo S C b (fun _ => True) y := by
  have lp := hS.pc_lin .left
  let L : (Fin n → K) →ₗ[K] (Fin n → K) := (lp.mk' _).comp (hS.linA.mk' _)
  obtain ⟨C, c0, hC⟩ := bounded_below L fun x hx => hS.injA x (hS.pc_inj .left _ hx)
  refine ⟨C, c0, fun b y hy sq hsq re restart par hat hmax hre x0 ls z => ?_⟩
  obtain ⟨x, ls', k, m, e, ho, _⟩ := C95_outcome dotN_isDot hsq re hS hat hmax hre b x0 ls z
  refine ⟨x, ls', k, e, (C95_no_growth dotN_isDot hsq re hS hat hmax hre b x0 ls z e).2, fun hs i _ => ?_, fun h1 h2 => ?_⟩
  · have h1 := C95_success dotN_isDot hsq re hS hat hmax hre b x0 ls z e hs
    have h2 : residual S b x = L (y - x) := by
      change pc S .left (-(S.A x - b)) = pc S .left (S.A (y - x))
      rw [← hy, hS.linA.map_sub, neg_sub]
    have h3 := hC sq hsq (y - x) i
    rw [← h2] at h3
    rw [abs_sub_comm]
    exact h3.trans (mul_le_mul_of_nonneg_left h1.le c0)
  · have hf : Module.finrank K (Fin n → K) = n := by simp
    obtain ⟨x', l', k', e', s1, s2⟩ := C95_terminates dotN_isDot hsq re hS hat hre (by rw [hf]; exact h1)
      (by rw [hf]; exact h2) b x0 ls z
    rw [e] at e'
    obtain ⟨rfl, rfl, rfl⟩ : x = x' ∧ ls' = l' ∧ k = k' := by simpa using e'
    exact ⟨s1, hf ▸ s2⟩

/-- The first `n` entries of a vector. -/
def cut (n : Nat) (x : Nat → K) : Fin n → K := fun i => x i

/-- A vector of `n` entries, zero beyond them. -/
def fill (x : Fin n → K) : Nat → K := fun p => if h : p < n then x ⟨p, h⟩ else 0

omit [LinearOrder K] [IsStrictOrderedRing K] in
theorem fill_cut (x : Nat → K) {p : Nat} (h : p < n) : fill (cut n x) p = x p := dif_pos h

omit [LinearOrder K] [IsStrictOrderedRing K] in
theorem fill_at (x : Fin n → K) (i : Fin n) : fill x i = x i := dif_pos i.2

end run
end Detran.Gmres

namespace Detran.WGReflect

open Detran.Gmres (RunsTo Regular Sys cut fill fill_cut fill_at)
open Detran.Sweep (St)
open Finset

section group
variable {F K : Type} [Field K] [LinearOrder K] [IsStrictOrderedRing K]

/-- The linear solver of a group, WGSolverGMRES.cc:31-62 and 112: its matrix is `WGTransportOperator`, each application starting from whatever
    earlier ones have left in boundary and fluxes; its preconditioner, if any, is linear and nonsingular. -/
structure Solver (P : Prob F K) (S : Sys (Fin (P.N + P.bsize) → K)) : Prop where
  matrix : ∀ x, ∃ s, S.A x = cut _ (P.multiply s (fill x)).2
  linP : ∀ Q, S.P = some Q → IsLinearMap K Q
  injP : ∀ Q, S.P = some Q → ∀ v, Q v = 0 → v = 0

variable {P : Prob F K} {w ss : Nat → K} {Sol : (Nat → K) → Nat → Nat → (Nat → F) → (Nat → K) → Prop}

theorem solver_linear (h : Sweeps P w Sol) (hp : ∀ s < 2 * P.dim, P.bc s ≠ .periodic) (hd : P.disc = [])
    (hscat : ∀ f, ∀ c < P.N, P.scat f c = ss c * f c) {S : Sys (Fin (P.N + P.bsize) → K)} (hS : Solver P S) (α β : K)
    (x y : Fin (P.N + P.bsize) → K) : S.A (α • x + β • y) = α • S.A x + β • S.A y := by
  obtain ⟨s1, e1⟩ := hS.matrix x
  obtain ⟨s2, e2⟩ := hS.matrix y
  obtain ⟨s3, e3⟩ := hS.matrix (α • x + β • y)
  have hz : ∀ i < P.N + P.bsize, fill (α • x + β • y) i = α * fill x i + β * fill y i := fun i hi => by
    simp only [fill, dif_pos hi, Pi.add_apply, Pi.smul_apply, smul_eq_mul]
  funext i
  rw [e3, e1, e2]
  exact C124_operator_linear h hp hd α β (fill x) (fill y) (fill (α • x + β • y)) hz (fun c hc => by
    rw [hscat _ c hc, hscat _ c hc, hscat _ c hc]
    unfold Prob.moments
    simp only [if_pos hc]
    rw [hz c (by omega)]
    ring) s1 s2 s3 i i.2

theorem solver_regular (h : Sweeps P w Sol) (hp : ∀ s < 2 * P.dim, P.bc s ≠ .periodic) (hd : P.disc = [])
    (hscat : ∀ f, ∀ c < P.N, P.scat f c = ss c * f c) (hu : UniquelySolvable P) {S : Sys (Fin (P.N + P.bsize) → K)}
    (hS : Solver P S) : Regular K S := by
  have lin := solver_linear h hp hd hscat hS
  refine ⟨⟨fun x y => by simpa using lin 1 1 x y, fun c x => by simpa using lin c 0 x 0⟩, fun v hv => ?_, hS.linP, hS.injP⟩
  obtain ⟨s, e⟩ := hS.matrix v
  obtain ⟨s0, e0⟩ := hS.matrix 0
  have z0 : S.A 0 = 0 := by simpa using lin 0 0 0 0
  obtain ⟨x, _, hx⟩ := hu s fun _ => 0
  have k1 := hx s (fill v) fun i hi => by
    have := congrFun e ⟨i, hi⟩
    rw [hv] at this
    exact this.symm
  have k2 := hx s0 (fill 0) fun i hi => by
    have := congrFun e0 ⟨i, hi⟩
    rw [z0] at this
    exact this.symm
  funext i
  have := (k1 i i.2).trans (k2 i i.2).symm
  rw [fill_at, fill_at] at this
  exact this

/-- Every run of GMRES on the group ends, with success given room for as many inner iterations as the vectors have entries;
    after success the cell fluxes are those of the group up to the tolerance times a factor that depends on the group and the
    preconditioner only, whatever the sources, the starting vector and the state.  (`Mismatch`: the reflection of the uncollided
    fluxes has settled when the right-hand side is built, as in C124; nothing is asked if no side reflects.) -/
def GmresFinds (P : Prob F K) (w : Nat → K) (Sol : (Nat → K) → Nat → Nat → (Nat → F) → (Nat → K) → Prop) : Prop :=
  ∀ S, Solver P S → ∃ C : K, 0 ≤ C ∧ ∀ fixed tol s phi,
    Mismatch P (Prob.rhsState { P with fixed := fixed } tol s).bdy (fun _ => 0) →
    IsFlux { P with fixed := fixed } w Sol phi →
    RunsTo S C (cut _ (Prob.rhs { P with fixed := fixed } tol s)) (fun i => (i : Nat) < P.N) (cut _ phi)

/-- The cell fluxes of the group belong to a solution of its system. -/
theorem flux_solves (h : Sweeps P w Sol) (hp : ∀ s < 2 * P.dim, P.bc s ≠ .periodic) (hd : P.disc = [])
    (hscat : ∀ f, ∀ c < P.N, P.scat f c = ss c * f c) {S : Sys (Fin (P.N + P.bsize) → K)} (hS : Solver P S)
    (fixed : Nat → K) (tol : K) (s : St F K) (phi : Nat → K)
    (hm : Mismatch P (Prob.rhsState { P with fixed := fixed } tol s).bdy fun _ => 0)
    (hphi : IsFlux { P with fixed := fixed } w Sol phi) :
    ∃ x, S.A (cut _ x) = cut _ (Prob.rhs { P with fixed := fixed } tol s) ∧ ∀ c < P.N, x c = phi c := by
  have h' : Sweeps { P with fixed := fixed } w Sol :=
    ⟨h.d1, h.d3, h.order, h.face, h.other, h.inc, h.solves, h.lin, h.det⟩
  obtain ⟨x, hx, hx2⟩ := C124_complete h' hp hd tol s s phi hm hphi
  have hx1 : ∀ i < P.N + P.bsize, (P.multiply s x).2 i = Prob.rhs { P with fixed := fixed } tol s i := hx
  obtain ⟨s1, e1⟩ := hS.matrix (cut _ x)
  refine ⟨x, ?_, hx2⟩
  rw [e1]
  funext i
  change (P.multiply s1 (fill (cut _ x))).2 i = Prob.rhs { P with fixed := fixed } tol s i
  rw [← hx1 i i.2]
  have := C124_operator_linear h hp hd 1 0 x x (fill (cut _ x)) (fun i hi => by rw [fill_cut x hi]; ring)
    (fun c hc => by
      rw [hscat _ c hc, hscat _ c hc]
      unfold Prob.moments
      simp only [if_pos hc]
      rw [fill_cut x (by omega)]
      ring) s s s1 i i.2
  rw [this]
  ring

/-- It does if the system of the group has exactly one solution (C150). -/
theorem C152_group (h : Sweeps P w Sol) (hp : ∀ s < 2 * P.dim, P.bc s ≠ .periodic) (hd : P.disc = [])
    (hscat : ∀ f, ∀ c < P.N, P.scat f c = ss c * f c) (hu : UniquelySolvable P) : GmresFinds P w Sol := by
  intro S hS
  obtain ⟨C, c0, hC⟩ := Gmres.runs S (solver_regular h hp hd hscat hu hS)
  refine ⟨C, c0, fun fixed tol s phi hm hphi => ?_⟩
  obtain ⟨x, hA, hx2⟩ := flux_solves h hp hd hscat hS fixed tol s phi hm hphi
  intro sq hsq re restart par hat hmax hre x0 ls z
  obtain ⟨y, ls', k, e, h1, h2, h3⟩ := hC _ _ hA sq hsq re restart par hat hmax hre x0 ls z
  refine ⟨y, ls', k, e, h1, fun hs i hi => ?_, h3⟩
  have := h2 hs i trivial
  change |y i - x i| ≤ _ at this
  rw [hx2 i hi] at this
  exact this

/-- In a group that scatters less than it collides there is such a flux for every source, so that without reflecting sides the
    solver finds it. -/
theorem C152_open {V sig : Nat → K} {m r : K} {fw : Nat → Nat → Nat → Nat → K} (h : Sweeps P w Sol)
    (hS : Subcritical P w V sig ss m r) (D : Dissipates P Sol V sig fw) (hu : UniquelySolvable P)
    (hr : ∀ side < 2 * P.dim, P.bc side ≠ .reflect) (S : Sys (Fin (P.N + P.bsize) → K)) (hL : Solver P S) (s0 : St F K) :
    ∃ C : K, 0 ≤ C ∧ ∀ fixed, ∃ phi, IsFlux { P with fixed := fixed } w Sol phi ∧
      ∀ tol s, RunsTo S C (cut _ (Prob.rhs { P with fixed := fixed } tol s)) (fun i => (i : Nat) < P.N) (cut _ phi) := by
  obtain ⟨C, c0, hC⟩ := C152_group h hS.np hS.disc hS.scat hu S hL
  refine ⟨C, c0, fun fixed => ?_⟩
  obtain ⟨phi, hphi⟩ := C128_exists (P := { P with fixed := fixed })
    ⟨h.d1, h.d3, h.order, h.face, h.other, h.inc, h.solves, h.lin, h.det⟩
    ⟨hS.weight, hS.mtod, hS.norm, hS.vol, hS.tot, hS.scat, hS.ratio, hS.nonneg, hS.less, hS.disc, hS.np⟩ ⟨D.pos, D.energy⟩ s0
  exact ⟨phi, hphi, fun tol s => hC fixed tol s phi (fun side hs hb => absurd hb (hr side hs)) hphi⟩

/-- The solver without preconditioner. -/
theorem solver_plain (P : Prob F K) (s : St F K) : Solver P ⟨fun x => cut _ (P.multiply s (fill x)).2, none, .none⟩ where
  matrix := fun _ => ⟨s, rfl⟩
  linP := fun _ h => nomatch h
  injP := fun _ h => nomatch h

end group

section geom
open Detran.Sweep (LinEq1 LinEq2 LinEq3 Solves1 dd1 sd1 sc1 sc2 dd2 sd2 dd3 C27_schemes_linear)
open Detran.Boundary (BC)
variable {K : Type} [Field K] [LinearOrder K] [IsStrictOrderedRing K]

/-- Slabs with diamond or step differencing. -/
theorem C152_1D (mu w dx sig ss fixed : Nat → K) (m r : K) (nx na : Nat) (up : Bool)
    (bc : Nat → BC K) (order : List Nat) (hord : order.Perm (List.range 2)) (sch : Nat → Nat → K → K → K × K)
    (hsch : ∀ a i, sch a i = dd1 (mu a) (dx i) (sig i) ∨ sch a i = sd1 (mu a) (dx i) (sig i))
    (hmu : ∀ a < na, 0 < mu a) (hw : ∀ a < na, 0 < w a) (hm : m * ∑ _o ∈ range 2, ∑ a ∈ range na, w a = 1)
    (hdx : ∀ i < nx, 0 < dx i) (hsig : ∀ i < nx, 0 < sig i) (hss : ∀ i < nx, |ss i| ≤ r * sig i) (h0 : 0 ≤ r)
    (h1 : r < 1) (hp : ∀ s < 2, bc s ≠ .periodic) (hn : 0 < nx) :
    GmresFinds (prob1 sch w nx na up bc order (fun f c => ss c * f c) fixed (fun _ _ => m) []) w
      (fun q o a b p => Solves1 nx (fun i => sch a i (q i)) o b p) := by
  have lin : ∀ a i, LinEq1 (sch a i) := fun a i => by
    obtain ⟨l1, l2, _⟩ := C27_schemes_linear (fun x : K => x) (mu a) 0 0 (dx i) 0 0 (sig i)
    rcases hsch a i with e | e <;> rw [e] <;> assumption
  exact C152_group (ss := ss) (sweeps1 sch lin w nx na up bc order hord _ _ _ _) hp rfl (fun _ _ _ => rfl)
    (C150_1D mu w dx sig ss fixed m r nx na up bc order hord sch hsch hmu hw hm hdx hsig hss h0 h1 hp hn)

/-- Slabs with step characteristics. -/
theorem C152_1D_sc (mu w dx sig ss fixed : Nat → ℝ) (m r : ℝ) (nx na : Nat) (up : Bool)
    (bc : Nat → BC ℝ) (order : List Nat) (hord : order.Perm (List.range 2))
    (hmu : ∀ a < na, 0 < mu a) (hw : ∀ a < na, 0 < w a) (hm : m * ∑ _o ∈ range 2, ∑ a ∈ range na, w a = 1)
    (hdx : ∀ i < nx, 0 < dx i) (hsig : ∀ i < nx, 0 < sig i) (hss : ∀ i < nx, |ss i| ≤ r * sig i) (h0 : 0 ≤ r)
    (h1 : r < 1) (hp : ∀ s < 2, bc s ≠ .periodic) (hn : 0 < nx) :
    GmresFinds (prob1 (fun a i => sc1 Real.exp (mu a) (dx i) (sig i)) w nx na up bc order (fun f c => ss c * f c) fixed
      (fun _ _ => m) []) w (fun q o a b p => Solves1 nx (fun i => sc1 Real.exp (mu a) (dx i) (sig i) (q i)) o b p) :=
  C152_group (ss := ss) (sweeps1 (fun a i => sc1 Real.exp (mu a) (dx i) (sig i))
    (fun a i => (C27_schemes_linear Real.exp (mu a) 0 0 (dx i) 0 0 (sig i)).2.2.1) w nx na up bc order hord _ _ _ _) hp rfl
    (fun _ _ _ => rfl) (C150_1D_sc mu w dx sig ss fixed m r nx na up bc order hord hmu hw hm hdx hsig hss h0 h1 hp hn)

/-- Rectangles with step differencing. -/
theorem C152_2D_step {mu eta w dx dy sig ss : Nat → K} {m r : K} {nx ny na : Nat} {bc : Nat → BC (Nat → K)}
    (hP : Plane mu eta w dx dy sig ss m r nx ny na bc) (fixed : Nat → K) (up : Bool) (order : List Nat)
    (hord : order.Perm (List.range 4)) :
    let sch := fun a i j => sd2 (mu a) (eta a) (dx i) (dy j) (sig (i + j * nx))
    GmresFinds (planeProb sch w ss fixed m nx ny na up bc order) w (planeSol sch nx ny) :=
  C152_group (ss := ss) (sweeps2 _
    (fun a i j => (C27_schemes_linear (fun x : K => x) (mu a) (eta a) 0 (dx i) (dy j) 0 _).2.2.2.2.1) w nx ny na up bc order hord
    _ _ _ _) hP.np rfl (fun _ _ _ => rfl) (C150_2D_step hP fixed up order hord)

/-- Rectangles with step characteristics. -/
theorem C152_2D_sc {mu eta w dx dy sig ss : Nat → ℝ} {m r : ℝ} {nx ny na : Nat} {bc : Nat → BC (Nat → ℝ)}
    (hP : Plane mu eta w dx dy sig ss m r nx ny na bc) (fixed : Nat → ℝ) (up : Bool) (order : List Nat)
    (hord : order.Perm (List.range 4)) :
    let sch := fun a i j => sc2 Real.exp (mu a) (eta a) (dx i) (dy j) (sig (i + j * nx))
    GmresFinds (planeProb sch w ss fixed m nx ny na up bc order) w (planeSol sch nx ny) :=
  C152_group (ss := ss) (sweeps2 _
    (fun a i j => (C27_schemes_linear Real.exp (mu a) (eta a) 0 (dx i) (dy j) 0 _).2.2.2.2.2.1) w nx ny na up bc order hord
    _ _ _ _) hP.np rfl (fun _ _ _ => rfl) (C150_2D_sc hP fixed up order hord)

/-- Rectangles with diamond differencing and a side that does not reflect. -/
theorem C152_2D {mu eta w dx dy sig ss : Nat → K} {m r : K} {nx ny na : Nat} {bc : Nat → BC (Nat → K)}
    (hP : Plane mu eta w dx dy sig ss m r nx ny na bc) (hopen : ∃ side < 4, bc side ≠ .reflect) (fixed : Nat → K) (up : Bool)
    (order : List Nat) (hord : order.Perm (List.range 4)) :
    let sch := fun a i j => dd2 (mu a) (eta a) (dx i) (dy j) (sig (i + j * nx))
    GmresFinds (planeProb sch w ss fixed m nx ny na up bc order) w (planeSol sch nx ny) :=
  C152_group (ss := ss) (sweeps2 _
    (fun a i j => (C27_schemes_linear (fun x : K => x) (mu a) (eta a) 0 (dx i) (dy j) 0 _).2.2.2.1) w nx ny na up bc order hord
    _ _ _ _) hP.np rfl (fun _ _ _ => rfl) (C150_2D_partial hP hopen fixed up order hord)

/-- Boxes with sides across two directions that do not reflect. -/
theorem C152_3D {mu eta xi w dx dy dz sig ss : Nat → K} {m r : K} {nx ny nz na : Nat}
    {bc : Nat → BC (Nat → Nat → K)} (hP : Brick mu eta xi w dx dy dz sig ss m r nx ny nz na bc)
    (hopen : ∃ s < 6, ∃ t < 6, bc s ≠ .reflect ∧ bc t ≠ .reflect ∧ s / 2 ≠ t / 2) (fixed : Nat → K) (up : Bool)
    (order : List Nat) (hord : order.Perm (List.range 8)) :
    GmresFinds (brickProb mu eta xi w dx dy dz sig ss fixed m nx ny nz na up bc order) w
      (brickSol (brickSch mu eta xi dx dy dz sig nx ny) nx ny nz) :=
  C152_group (ss := ss) (brick_facts hP fixed up order hord).1 hP.np rfl (fun _ _ _ => rfl)
    (C150_3D_partial hP hopen fixed up order hord)

end geom
end Detran.WGReflect

namespace Detran.MGReflect

open Detran.Gmres (RunsTo Regular Sys cut fill fill_cut fill_at)
open Detran.WGReflect (Mismatch)
open Detran.Sweep (St)
open Detran.MGSolve
open Finset

section groups
variable {F K : Type} [Field K] [LinearOrder K] [IsStrictOrderedRing K]

/-- The length of the vectors, MGTransportOperator.cc:73. -/
abbrev size (P : Prob F K) (k : Nat) : Nat := opSize P.M.x.mat.G P.M.x.adjoint k P.M.x.N P.bs

/-- The linear solver of coupled groups, MGSolverGMRES.cc:91-125: its matrix is `MGTransportOperator`, each application starting from whatever earlier
    ones have left; its preconditioner, if any, is linear and nonsingular. -/
structure Solver (P : Prob F K) (k : Nat) (S : Sys (Fin (size P k) → K)) : Prop where
  matrix : ∀ x, ∃ phi s, S.A x = cut _ (P.multiply k phi s (fill x)).2
  linP : ∀ Q, S.P = some Q → IsLinearMap K Q
  injP : ∀ Q, S.P = some Q → ∀ v, Q v = 0 → v = 0

variable {P : Prob F K} {w : Nat → K} {k : Nat}
  {Sol : Nat → (Nat → K) → Nat → Nat → (Nat → F) → (Nat → K) → Prop}

theorem solver_linear (ok : OK P w Sol) (hB : Block P k) {S : Sys (Fin (size P k) → K)} (hS : Solver P k S) (α β : K)
    (x y : Fin (size P k) → K) : S.A (α • x + β • y) = α • S.A x + β • S.A y := by
  obtain ⟨f1, s1, e1⟩ := hS.matrix x
  obtain ⟨f2, s2, e2⟩ := hS.matrix y
  obtain ⟨f3, s3, e3⟩ := hS.matrix (α • x + β • y)
  have hz : ∀ i < size P k, fill (α • x + β • y) i = α * fill x i + β * fill y i := fun i hi => by
    simp only [fill, dif_pos hi, Pi.add_apply, Pi.smul_apply, smul_eq_mul]
  funext i
  rw [e3, e1, e2]
  change (P.multiply k f3 s3 _).2 i = α * (P.multiply k f1 s1 (fill x)).2 i + β * (P.multiply k f2 s2 (fill y)).2 i
  rw [op_same ok hB.cut hB.back hB.imp f2 f1 s2 s1 (fill y) i i.2, op_same ok hB.cut hB.back hB.imp f3 f1 s3 s1 _ i i.2]
  exact C125_operator_linear ok hB.cut hB.imp f1 α β (fill x) (fill y) (fill (α • x + β • y)) hz s1 s1 s1 i i.2

theorem solver_regular (ok : OK P w Sol) (hB : Block P k) (hu : UniquelySolvable P k) {S : Sys (Fin (size P k) → K)}
    (hS : Solver P k S) : Regular K S := by
  have lin := solver_linear ok hB hS
  refine ⟨⟨fun x y => by simpa using lin 1 1 x y, fun c x => by simpa using lin c 0 x 0⟩, fun v hv => ?_, hS.linP, hS.injP⟩
  obtain ⟨f, s, e⟩ := hS.matrix v
  obtain ⟨f0, s0, e0⟩ := hS.matrix 0
  have z0 : S.A 0 = 0 := by simpa using lin 0 0 0 0
  obtain ⟨x, hx⟩ := hu s fun _ => 0
  have k1 := (hx f s).2 (fill v) fun i hi => by
    have := congrFun e ⟨i, hi⟩
    rw [hv] at this
    exact this.symm
  have k2 := (hx f0 s0).2 (fill 0) fun i hi => by
    have := congrFun e0 ⟨i, hi⟩
    rw [z0] at this
    exact this.symm
  funext i
  have := (k1 i i.2).trans (k2 i i.2).symm
  rw [fill_at, fill_at] at this
  exact this

/-- The entries of a vector that are cell fluxes. -/
def IsFluxEntry (P : Prob F K) (k : Nat) (i : Fin (size P k)) : Prop :=
  ∃ g ∈ P.groups k, ∃ c < P.M.x.N, (i : Nat) = (momentPos P.M.x.adjoint k P.M.x.N g c).toNat

/-- The same for coupled groups: every run ends, with success given room for as many inner iterations as the vectors have
    entries, and after success the cell fluxes of all groups of the block are right up to the tolerance times a factor. -/
def GmresFinds (P : Prob F K) (k : Nat) (w : Nat → K)
    (Sol : Nat → (Nat → K) → Nat → Nat → (Nat → F) → (Nat → K) → Prop) : Prop :=
  ∀ S, Solver P k S → ∃ C : K, 0 ≤ C ∧ ∀ tol phi s f v,
    (∀ g ∈ P.groups k, Mismatch (P.W g) ((P.rhs k tol phi s).1 g).bdy fun _ => 0) →
    (∀ gp, gp ∉ P.groups k → f gp = phi gp) → (∀ g ∈ P.groups k, GroupFlux P w Sol f g) →
    (∀ g ∈ P.groups k, ∀ c < P.M.x.N, v (momentPos P.M.x.adjoint k P.M.x.N g c).toNat = f g c) →
    RunsTo S C (cut _ (P.rhs k tol phi s).2) (IsFluxEntry P k) (cut _ v)

/-- The cell fluxes of coupled groups belong to a solution of their system. -/
theorem flux_solves (ok : OK P w Sol) (hB : Block P k) {S : Sys (Fin (size P k) → K)} (hS : Solver P k S) (tol : K)
    (phi : Nat → Nat → K) (s : Nat → St F K) (f : Nat → Nat → K) (v : Nat → K)
    (hm : ∀ g ∈ P.groups k, Mismatch (P.W g) ((P.rhs k tol phi s).1 g).bdy fun _ => 0)
    (hout : ∀ gp, gp ∉ P.groups k → f gp = phi gp) (hf : ∀ g ∈ P.groups k, GroupFlux P w Sol f g)
    (hv : ∀ g ∈ P.groups k, ∀ c < P.M.x.N, v (momentPos P.M.x.adjoint k P.M.x.N g c).toNat = f g c) :
    ∃ x, S.A (cut _ x) = cut _ (P.rhs k tol phi s).2 ∧ ∀ i : Fin (size P k), IsFluxEntry P k i → x i = v i := by
  obtain ⟨x, hx1, hx2⟩ := C125_complete ok hB.cut hB.back tol phi f s s hm hout hf
  obtain ⟨f1, s1, e1⟩ := hS.matrix (cut _ x)
  refine ⟨x, ?_, ?_⟩
  · rw [e1]
    funext i
    change (P.multiply k f1 s1 (fill (cut _ x))).2 i = (P.rhs k tol phi s).2 i
    rw [← hx1 i i.2, op_same ok hB.cut hB.back hB.imp f1 phi s1 s _ i i.2,
      C125_operator_linear ok hB.cut hB.imp phi 1 0 x x (fill (cut _ x)) (fun i hi => by rw [fill_cut x hi]; ring) s s s i i.2]
    ring
  · rintro i ⟨g, hg, c, hcN, hic⟩
    have e1 := hx2 g hg c hcN
    rw [fluxes_in phi x g hg c hcN, Prob.view, if_pos hcN, ← hic, ← hv g hg c hcN, ← hic] at e1
    exact e1

/-- It does so if their system has exactly one solution (C151). -/
theorem C152_groups (ok : OK P w Sol) (hB : Block P k) (hu : UniquelySolvable P k) : GmresFinds P k w Sol := by
  intro S hS
  obtain ⟨C, c0, hC⟩ := Gmres.runs S (solver_regular ok hB hu hS)
  refine ⟨C, c0, fun tol phi s f v hm hout hf hv => ?_⟩
  obtain ⟨x, hA, hx2⟩ := flux_solves ok hB hS tol phi s f v hm hout hf hv
  intro sq hsq re restart par hat hmax hre x0 ls z
  obtain ⟨y, ls', l, e, h1, h2, h3⟩ := hC _ _ hA sq hsq re restart par hat hmax hre x0 ls z
  refine ⟨y, ls', l, e, h1, fun hs i hi => ?_, h3⟩
  have := h2 hs i trivial
  change |y i - x i| ≤ _ at this
  rw [hx2 i hi] at this
  exact this

/-- The solver without preconditioner. -/
theorem solver_plain (P : Prob F K) (k : Nat) (phi : Nat → Nat → K) (s : Nat → St F K) :
    Solver P k ⟨fun x => cut _ (P.multiply k phi s (fill x)).2, none, .none⟩ where
  matrix := fun _ => ⟨phi, s, rfl⟩
  linP := fun _ h => nomatch h
  injP := fun _ h => nomatch h

end groups

section geom
open Detran.Sweep (LinEq1 LinEq2 LinEq3 Solves1 dd1 sd1 sc1 sc2 dd2 sd2 dd3 C27_schemes_linear)
open Detran.Boundary (BC)
open Detran.WGReflect (planeSol brickSol brickSch cell_dd2 cell_sd2 cell_sc2)
variable {K : Type} [Field K] [LinearOrder K] [IsStrictOrderedRing K]

/-- Coupled groups in slabs. -/
theorem C152_groups_1D (M : MGSolve.Prob K) (hM : M.OK) (mu w dx : Nat → K) (sig r : Nat → Nat → K) (u : Nat → K)
    (m rho : K) (hW : Weak M sig r u rho) (na : Nat) (up : Bool) (bc : Nat → Nat → BC K) (order : List Nat)
    (hord : order.Perm (List.range 2)) (sch : Nat → Nat → Nat → K → K → K × K)
    (hsch : ∀ g a i, sch g a i = dd1 (mu a) (dx i) (sig g i) ∨ sch g a i = sd1 (mu a) (dx i) (sig g i))
    (hmu : ∀ a < na, 0 < mu a) (hw : ∀ a < na, 0 < w a) (hm : m * ∑ _o ∈ range 2, ∑ a ∈ range na, w a = 1)
    (hdx : ∀ i < M.x.N, 0 < dx i) (hr : ∀ g s, bc g s = .reflect ↔ bc 0 s = .reflect)
    (hp : ∀ g, ∀ s < 2, bc g s ≠ .periodic) (hn : 0 < M.x.N) {k : Nat}
    (hB : Block (mg1 M sch w M.x.N na up bc order (fun _ _ => m) (fun _ => [])) k) :
    GmresFinds (mg1 M sch w M.x.N na up bc order (fun _ _ => m) (fun _ => [])) k w
      (fun g q o a b p => Solves1 M.x.N (fun i => sch g a i (q i)) o b p) := by
  have lin : ∀ g a i, LinEq1 (sch g a i) := fun g a i => by
    obtain ⟨l1, l2, _⟩ := C27_schemes_linear (fun x : K => x) (mu a) 0 0 (dx i) 0 0 (sig g i)
    rcases hsch g a i with e | e <;> rw [e] <;> assumption
  exact C152_groups (C125_ok1 M hM sch lin w na up bc order hord _ _ hr hp) hB
    (C151_1D M hM mu w dx sig r u m rho hW na up bc order hord sch hsch hmu hw hm hdx hr hp hn hB)

/-- On rectangles, with step differencing. -/
theorem C152_groups_2D_step {M : MGSolve.Prob K} {mu eta w dx dy : Nat → K} {sig r : Nat → Nat → K} {u : Nat → K} {m rho : K}
    {nx ny na : Nat} {bc : Nat → Nat → BC (Nat → K)} (hP : Planes M mu eta w dx dy sig r u m rho nx ny na bc) (up : Bool)
    (order : List Nat) (hord : order.Perm (List.range 4)) {k : Nat} :
    let sch := fun g a i j => sd2 (mu a) (eta a) (dx i) (dy j) (sig g (i + j * nx))
    let P := planesProb M sch w m nx ny na up bc order
    Block P k → GmresFinds P k w (fun g => planeSol (sch g) nx ny) := fun hB =>
  C152_groups (planes_facts hP up order hord _
    (fun g a i j => (C27_schemes_linear (fun x : K => x) (mu a) (eta a) 0 (dx i) (dy j) 0 _).2.2.2.2.1)
    (fun g a i j c1 c2 c3 c4 c5 => cell_sd2 _ _ _ _ _ c1 c2 c3 c4 c5)).1 hB (C151_2D_step hP up order hord hB)

/-- With step characteristics. -/
theorem C152_groups_2D_sc {M : MGSolve.Prob ℝ} {mu eta w dx dy : Nat → ℝ} {sig r : Nat → Nat → ℝ} {u : Nat → ℝ} {m rho : ℝ}
    {nx ny na : Nat} {bc : Nat → Nat → BC (Nat → ℝ)} (hP : Planes M mu eta w dx dy sig r u m rho nx ny na bc) (up : Bool)
    (order : List Nat) (hord : order.Perm (List.range 4)) {k : Nat} :
    let sch := fun g a i j => sc2 Real.exp (mu a) (eta a) (dx i) (dy j) (sig g (i + j * nx))
    let P := planesProb M sch w m nx ny na up bc order
    Block P k → GmresFinds P k w (fun g => planeSol (sch g) nx ny) := fun hB =>
  C152_groups (planes_facts hP up order hord _
    (fun g a i j => (C27_schemes_linear Real.exp (mu a) (eta a) 0 (dx i) (dy j) 0 _).2.2.2.2.2.1)
    (fun g a i j c1 c2 c3 c4 c5 => cell_sc2 _ _ _ _ _ c1 c2 c3 c4 c5)).1 hB (C151_2D_sc hP up order hord hB)

/-- With diamond differencing and a side that does not reflect. -/
theorem C152_groups_2D {M : MGSolve.Prob K} {mu eta w dx dy : Nat → K} {sig r : Nat → Nat → K} {u : Nat → K} {m rho : K}
    {nx ny na : Nat} {bc : Nat → Nat → BC (Nat → K)} (hP : Planes M mu eta w dx dy sig r u m rho nx ny na bc)
    (hopen : ∃ side < 4, bc 0 side ≠ .reflect) (up : Bool) (order : List Nat) (hord : order.Perm (List.range 4)) {k : Nat} :
    let sch := fun g a i j => dd2 (mu a) (eta a) (dx i) (dy j) (sig g (i + j * nx))
    let P := planesProb M sch w m nx ny na up bc order
    Block P k → GmresFinds P k w (fun g => planeSol (sch g) nx ny) := fun hB =>
  C152_groups (planes_facts hP up order hord _
    (fun g a i j => (C27_schemes_linear (fun x : K => x) (mu a) (eta a) 0 (dx i) (dy j) 0 _).2.2.2.1)
    (fun g a i j c1 c2 c3 c4 c5 => cell_dd2 _ _ _ _ _ c1 c2 c3 c4 c5)).1 hB (C151_2D_partial hP hopen up order hord hB)

/-- In boxes with sides across two directions that do not reflect. -/
theorem C152_groups_3D {M : MGSolve.Prob K} {mu eta xi w dx dy dz : Nat → K} {sig r : Nat → Nat → K} {u : Nat → K} {m rho : K}
    {nx ny nz na : Nat} {bc : Nat → Nat → BC (Nat → Nat → K)} (hP : Bricks M mu eta xi w dx dy dz sig r u m rho nx ny nz na bc)
    (hopen : ∃ s < 6, ∃ t < 6, bc 0 s ≠ .reflect ∧ bc 0 t ≠ .reflect ∧ s / 2 ≠ t / 2) (up : Bool) (order : List Nat)
    (hord : order.Perm (List.range 8)) {k : Nat}
    (hB : Block (bricksProb M mu eta xi w dx dy dz sig m nx ny nz na up bc order) k) :
    GmresFinds (bricksProb M mu eta xi w dx dy dz sig m nx ny nz na up bc order) k w
      (fun g => brickSol (brickSch mu eta xi dx dy dz (sig g) nx ny) nx ny nz) :=
  C152_groups (bricks_facts hP up order hord).1 hB (C151_3D_partial hP hopen up order hord hB)

end geom

end Detran.MGReflect

/-! ## A case -/

namespace Detran.WGReflect

open Detran.Sweep (dd1)
open Detran.Gmres (IsSqrt RunsTo cut fill)

/-- Three cells between two mirrors, scattering half of what they collide, with the square root of the real numbers. -/
example : IsSqrt Real.sqrt ∧ ∃ w Sol, GmresFinds (prob1 (fun _ i => dd1 (1 / 2) ((i : ℝ) + 1) 1) (fun _ => 1 / 2) 3 1 true
    (fun _ => .reflect) [0, 1] (fun f c => 1 / 2 * f c) (fun _ => 1) (fun _ _ => (1 : ℝ)) []) w Sol :=
  ⟨fun a h => ⟨Real.sqrt_nonneg a, Real.mul_self_sqrt h⟩, _, _,
    C152_1D (fun _ => 1 / 2) (fun _ => 1 / 2) (fun i => (i : ℝ) + 1) (fun _ => 1) (fun _ => 1 / 2) (fun _ => 1) 1 (1 / 2) 3 1
    true (fun _ => .reflect) [0, 1] (by decide) _
    (fun _ _ => Or.inl rfl) (fun _ _ => by norm_num) (fun _ _ => by norm_num) (by norm_num)
    (fun i _ => by positivity) (fun _ _ => one_pos) (fun _ _ => by rw [abs_of_pos] <;> norm_num) (by norm_num) (by norm_num)
    (fun _ _ => by simp) (by omega)⟩

/-- Three cells with vacuum at both sides: there is a flux for every source, and the solver without preconditioner finds it. -/
example (s0 : Detran.Sweep.St ℝ ℝ) :
    let P := prob1 (fun _ i => dd1 (1 / 2) ((i : ℝ) + 1) 1) (fun _ => 1 / 2) 3 1 true
      (fun _ => .vacuum) [0, 1] (fun f c => 1 / 2 * f c) (fun _ => 1) (fun _ _ => (1 : ℝ)) []
    ∃ C, 0 ≤ C ∧ ∀ fixed, ∃ phi, IsFlux { P with fixed := fixed } (fun _ => 1 / 2)
        (fun q o _ b p => Detran.Sweep.Solves1 3 (fun i => dd1 (1 / 2) ((i : ℝ) + 1) 1 (q i)) o b p) phi ∧
      ∀ tol s, RunsTo ⟨fun x => cut (P.N + P.bsize) (P.multiply s0 (fill x)).2, none, .none⟩ C
        (cut _ (Prob.rhs { P with fixed := fixed } tol s)) (fun i => (i : Nat) < 3) (cut _ phi) := by
  intro P
  have lin : ∀ i : Nat, Detran.Sweep.LinEq1 (dd1 (1 / 2) ((i : ℝ) + 1) 1) := fun i =>
    (Detran.Sweep.C27_schemes_linear (fun x : ℝ => x) (1 / 2) 0 0 ((i : ℝ) + 1) 0 0 1).1
  have hm : (1 : ℝ) * ∑ _o ∈ Finset.range 2, ∑ a ∈ Finset.range 1, (1 / 2 : ℝ) = 1 := by norm_num
  exact C152_open (P := P) (w := fun _ => 1 / 2) (ss := fun _ => 1 / 2) (V := fun i => (i : ℝ) + 1) (sig := fun _ => 1) (m := 1)
    (r := 1 / 2) (sweeps1 _ (fun _ i => lin i) _ 3 1 true _ [0, 1] (by decide) _ _ _ _)
    ⟨fun _ _ => by norm_num, fun _ _ _ _ => rfl, hm, fun i _ => by positivity, fun _ _ => one_pos, fun _ _ _ => rfl,
      fun _ _ => by rw [abs_of_pos] <;> norm_num, by norm_num, by norm_num, rfl, fun _ _ => by simp [P, prob1]⟩
    (dissipates1 _ _ 3 1 true _ [0, 1] _ _ _ _ (fun i => (i : ℝ) + 1) (fun _ => 1) (fun _ => 1 / 2 / 2)
      (fun _ _ => by norm_num) fun a _ i _ => cell_dd1 _ _ _ (by norm_num) (by positivity) one_pos)
    (C150_1D (fun _ => 1 / 2) (fun _ => 1 / 2) (fun i => (i : ℝ) + 1) (fun _ => 1) (fun _ => 1 / 2) (fun _ => 1) 1 (1 / 2) 3 1
      true (fun _ => .vacuum) [0, 1] (by decide) _ (fun _ _ => Or.inl rfl) (fun _ _ => by norm_num) (fun _ _ => by norm_num) hm
      (fun i _ => by positivity) (fun _ _ => one_pos) (fun _ _ => by rw [abs_of_pos] <;> norm_num) (by norm_num) (by norm_num)
      (fun _ _ => by simp) (by omega))
    (fun _ _ => by simp [P, prob1]) _ (solver_plain P s0) s0

end Detran.WGReflect
