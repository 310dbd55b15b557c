import Verif.Props.KrylovRun
import Verif.Lemmas.Unsettled
import Mathlib.LinearAlgebra.Projection
import Mathlib.LinearAlgebra.FiniteDimensional.Lemmas

/-!
# GMRES run on a system that mirrors make singular (C153)

Between facing mirrors the operators of `WGTransportOperator` and `MGTransportOperator` may send nonzero boundary fluxes to
zero (C150, C151).  Their systems still have solutions, and without preconditioner the restarted GMRES of callow finds the
fluxes of the cells.
-/

namespace Detran.Gmres

open Finset Detran.Solver

/-! ## Two systems that agree on a subspace that keeps the search -/

section same
variable {K E : Type} [Field K] [LinearOrder K] [AddCommGroup E] [Module K E]

theorem foldl_mem (W : Submodule K E) (v : Nat → E) (f : E × (Nat → K) → Nat → K) (g : E × (Nat → K) → Nat → (Nat → K))
    (l : List Nat) (hv : ∀ j ∈ l, v j ∈ W) : ∀ p : E × (Nat → K), p.1 ∈ W →
      (l.foldl (fun p j => (p.1 + (-(f p j)) • v j, g p j)) p).1 ∈ W := by
  induction l with
  | nil => exact fun p hp => hp
  | cons j l ih =>
    intro p hp
    rw [List.foldl_cons]
    exact ih (fun i hi => hv i (List.mem_cons_of_mem _ hi)) _
      (W.add_mem hp (W.smul_mem _ (hv j List.mem_cons_self)))

theorem ortho_mem (W : Submodule K E) (dot : E → E → K) (sq : K → K) (re : Nat) (v : Nat → E) (k : Nat) (a : E) (h : Nat → K)
    (hv : ∀ j ≤ k, v j ∈ W) (ha : a ∈ W) : (ortho dot sq re v k a h).1 ∈ W := by
  have h1 : (mgs dot v k a h).1 ∈ W :=
    foldl_mem W v (fun p j => dot p.1 (v j)) (fun p j => set p.2 j (dot p.1 (v j))) (List.range (k + 1))
      (fun j hj => hv j (by have := List.mem_range.1 hj; omega)) (a, h) ha
  unfold ortho
  dsimp only
  split
  · exact foldl_mem W v (fun p j => dot (v j) p.1) (fun p j => set p.2 j (p.2 j + dot (v j) p.1)) (List.range k)
      (fun j hj => hv j (by have := List.mem_range.1 hj; omega)) _ h1
  · exact h1

variable {S S' : Sys E} {W : Submodule K E}

theorem pc_none (hP : S.P = none) (sd : Side) (x : E) : pc S sd x = x := by
  unfold pc
  rw [hP]

theorem op_none (hP : S.P = none) (x : E) : op S x = S.A x := by
  unfold op
  rw [pc_none hP, pc_none hP]

theorem step_same (hP : S.P = none) (hP' : S'.P = none) (hA : ∀ x ∈ W, S.A x = S'.A x) (hW : ∀ x, S.A x ∈ W)
    (dot : E → E → K) (sq : K → K) (re : Nat) (z : Cyc K E) (k : Nat) (hv : ∀ j ≤ k, z.v j ∈ W) :
    step S' dot sq re z k = step S dot sq re z k ∧
      ∀ z', step S dot sq re z k = some z' → ∀ j ≤ k + 1, z'.v j ∈ W := by
  constructor
  · unfold step
    rw [op_none hP, op_none hP', hA _ (hv k le_rfl)]
  · intro z' hz j hj
    unfold step at hz
    dsimp only at hz
    have hm := ortho_mem W dot sq re z.v k (op S (z.v k)) (fun i => z.H i k) hv (by rw [op_none hP]; exact hW _)
    rw [Option.ite_none_left_eq_some] at hz
    obtain ⟨_, hz⟩ := hz
    cases hz
    dsimp only
    by_cases e : j = k + 1
    · rw [e]
      unfold set
      rw [if_pos rfl]
      split
      · exact W.smul_mem _ hm
      · exact hm
    · rw [set_ne _ _ e]
      exact hv j (by omega)

theorem inner_same (hP : S.P = none) (hP' : S'.P = none) (hA : ∀ x ∈ W, S.A x = S'.A x) (hW : ∀ x, S.A x ∈ W)
    (par : Par K) (dot : E → E → K) (sq : K → K) (re : Nat) : ∀ (n k it : Nat) (ls : LS K) (z : Cyc K E),
    (∀ j ≤ k, z.v j ∈ W) → inner par S' dot sq re n k it ls z = inner par S dot sq re n k it ls z ∧
      ∀ q, inner par S dot sq re n k it ls z = some q → ∀ j ≤ q.k, q.z.v j ∈ W := by
  intro n
  induction n with
  | zero =>
    intro k it ls z hv
    refine ⟨rfl, fun q hq => ?_⟩
    cases hq
    exact hv
  | succ n ih =>
    intro k it ls z hv
    obtain ⟨h1, h2⟩ := step_same hP hP' hA hW dot sq re z k hv
    unfold inner
    rw [h1]
    split
    · refine ⟨rfl, fun q hq => ?_⟩
      cases hq
      exact hv
    · cases hs : step S dot sq re z k with
      | none => exact ⟨rfl, fun q hq => nomatch hq⟩
      | some z' =>
        have hv' := h2 z' hs
        dsimp only
        obtain ⟨ls', d⟩ := monitor par ls (it + 1) |z'.g (k + 1)|
        cases d
        · exact ih (k + 1) (it + 1) ls' z' hv'
        · refine ⟨rfl, fun q hq => ?_⟩
          cases hq
          exact hv'

theorem comb_mem (v : Nat → E) (y : Nat → K) (l : List Nat) (hv : ∀ j ∈ l, v j ∈ W) : ∀ x ∈ W,
    l.foldl (fun x i => x + y i • v i) x ∈ W := by
  induction l with
  | nil => exact fun x hx => hx
  | cons j l ih =>
    intro x hx
    exact ih (fun i hi => hv i (List.mem_cons_of_mem _ hi)) _ (W.add_mem hx (W.smul_mem _ (hv j List.mem_cons_self)))

theorem outer_same (hP : S.P = none) (hP' : S'.P = none) (hA : ∀ x ∈ W, S.A x = S'.A x) (hW : ∀ x, S.A x ∈ W)
    (par : Par K) (restart : Nat) (dot : E → E → K) (sq : K → K) (re : Nat) (b b' x0 : E)
    (hr : ∀ x, x - x0 ∈ W → residual S b x = residual S' b' x ∧ residual S b x ∈ W) :
    ∀ (f it : Nat) (ls : LS K) (z : Cyc K E) (y : Nat → K) (x : E), x - x0 ∈ W →
      outer par restart S' dot sq re b' f it ls z y x = outer par restart S dot sq re b f it ls z y x := by
  intro f
  induction f with
  | zero => intros; rfl
  | succ f ih =>
    intro it ls z y x hx
    obtain ⟨r1, r2⟩ := hr x hx
    unfold outer
    rw [← r1]
    split
    · dsimp only
      generalize (if it = 0 then monitorInit par ls (sq (dot (residual S b x) (residual S b x))) else (ls, false)) = m
      split
      · rfl
      · split
        · rfl
        · set z1 := start restart z (residual S b x) (sq (dot (residual S b x) (residual S b x))) with hz1
          have hv : ∀ j ≤ 0, z1.v j ∈ W := by
            intro j hj
            have : j = 0 := by omega
            rw [this, hz1]
            exact W.smul_mem _ r2
          obtain ⟨h1, h2⟩ := inner_same hP hP' hA hW par dot sq re restart 0 it m.1 z1 hv
          rw [h1]
          cases hq : inner par S dot sq re restart 0 it m.1 z1 with
          | none => rfl
          | some q =>
            have hu : ∀ T : Sys E, T.P = none → ∀ y, update T q.z q.k y x =
                (List.range q.k).foldl (fun x i => x + y i • q.z.v i) 0 + x := fun T hT y => by
              unfold update
              rw [pc_none hT]
            dsimp only
            rw [hu S hP, hu S' hP']
            split
            · rfl
            · refine ih _ _ _ _ _ ?_
              rw [add_sub_assoc]
              exact W.add_mem (comb_mem _ _ _ (fun j hj => h2 q hq j (by have := List.mem_range.1 hj; omega)) _ W.zero_mem) hx
    · rfl

end same

/-! ## Singular systems -/

section singular
variable {K : Type} [Field K] [LinearOrder K] [IsStrictOrderedRing K] {n : Nat}

/-- A run as in `RunsTo` for a vector `y` that solves the system up to `M` in each entry. -/
def RunsNear (S : Sys (Fin n → K)) (C M : K) (b : Fin n → K) (asked : Fin n → Prop) (y : Fin n → K) : Prop :=
  ∀ (sq : K → K), IsSqrt sq → ∀ (re restart : Nat) (par : Par K), 0 < par.atol → 0 < par.maxit → restart > 2 →
    ∀ (x0 : Fin n → K) (ls : LS K) (z : Cyc K (Fin n → K)),
    ∃ x ls' k, solve par restart S dotN sq re b x0 ls z = some (x, ls', k) ∧ ls'.status ≠ .diverge ∧
      (ls'.status = .success → ∀ i, asked i →
        |x i - y i| ≤ C * (max (par.rtol * sq (dotN (residual S b x0) (residual S b x0))) par.atol + M)) ∧
      (n ≤ restart → n + 2 ≤ par.maxit → ls'.status = .success ∧ k ≤ n)

theorem norm_le {sq : K → K} (hsq : IsSqrt sq) (v : Fin n → K) {M : K} (h0 : 0 ≤ M) (hv : ∀ i, |v i| ≤ M) :
    sq (dotN v v) ≤ n * M := by
  obtain ⟨h1, h2⟩ := hsq (dotN v v) (sum_nonneg fun i _ => mul_self_nonneg _)
  have hn : (0 : K) ≤ n := Nat.cast_nonneg n
  refine abs_le_of_sq_le_sq' ?_ (mul_nonneg hn h0) |>.2
  rw [pow_two, h2]
  have h3 : dotN v v ≤ ∑ _i : Fin n, M * M := sum_le_sum fun i _ => by
    rw [← abs_mul_abs_self (v i)]
    exact mul_le_mul (hv i) (hv i) (abs_nonneg _) h0
  rw [sum_const, card_univ, Fintype.card_fin, nsmul_eq_mul] at h3
  have h4 : (n : K) ≤ n * n := by exact_mod_cast Nat.le_mul_self n
  nlinarith [mul_nonneg h0 h0]

/-- A system whose right-hand side is zero outside the entries `cell`, and whose operator sends to zero only vectors that vanish
    there and are not what it leaves of another outside them: every run without preconditioner goes in these entries to
    every vector that solves the system, or nearly does. -/
theorem runs_singular (S : Sys (Fin n → K)) (hP : S.P = none) (lin : IsLinearMap K S.A) (cell : Fin n → Prop)
    (hz : ∀ v, S.A v = 0 → ∀ i, cell i → v i = 0)
    (hk : ∀ u v, S.A v = 0 → (∀ i, ¬ cell i → S.A u i = v i) → v = 0) :
    ∃ C : K, 0 ≤ C ∧ ∀ b, (∀ i, ¬ cell i → b i = 0) → ∀ y M, (∀ i, |S.A y i - b i| ≤ M) → RunsNear S C M b cell y := by
  have idx : ∀ u, S.A (S.A u) = 0 → S.A u = 0 := fun u hu => hk u _ hu fun _ _ => rfl
  let L : (Fin n → K) →ₗ[K] (Fin n → K) := lin.mk' _
  have hL : ∀ x, L x = S.A x := fun _ => rfl
  have dis : Disjoint (LinearMap.ker L) (LinearMap.range L) := by
    rw [Submodule.disjoint_def]
    rintro v hv ⟨u, rfl⟩
    rw [LinearMap.mem_ker] at hv
    exact idx u hv
  have top : LinearMap.ker L ⊔ LinearMap.range L = ⊤ :=
    Submodule.eq_top_of_disjoint _ _ (by rw [add_comm]; exact (LinearMap.finrank_range_add_finrank_ker L).ge) dis
  have hc : IsCompl (LinearMap.ker L) (LinearMap.range L) := ⟨dis, codisjoint_iff.2 top⟩
  let Q := (LinearMap.ker L).projection (LinearMap.range L) hc
  have q1 : ∀ x, S.A (Q x) = 0 := fun x => LinearMap.mem_ker.1 (Submodule.projection_apply_mem hc x)
  have q2 : ∀ x, Q (S.A x) = 0 := fun x => (Submodule.projection_apply_eq_zero_iff hc).2 ⟨x, rfl⟩
  have q3 : ∀ x, Q (Q x) = Q x := fun x => Submodule.projection_apply_of_mem_left hc (Submodule.projection_apply_mem hc x)
  let S' : Sys (Fin n → K) := ⟨fun x => S.A x + Q x, none, .none⟩
  have linL : IsLinearMap K S'.A := (L + Q).isLinear
  have inj : ∀ v, S'.A v = 0 → v = 0 := by
    intro v hv
    change S.A v + Q v = 0 at hv
    have h1 : Q v = 0 := by
      have := congrArg Q hv
      rwa [map_add, q2, q3, zero_add, map_zero] at this
    rw [h1, add_zero] at hv
    have := Submodule.projection_apply_of_mem_left hc (LinearMap.mem_ker.2 hv : v ∈ LinearMap.ker L)
    rw [← this]
    exact h1
  obtain ⟨C, c0, hC⟩ := runs S' ⟨linL, inj, fun _ h => (nomatch h), fun _ h => (nomatch h)⟩
  obtain ⟨C', c0', hC'⟩ := bounded_below (L + Q) inj
  refine ⟨C + C' * n, add_nonneg c0 (mul_nonneg c0' (Nat.cast_nonneg n)),
    fun b hb w M hw sq hsq re restart par hat hmax hre x0 ls z => ?_⟩
  -- the system has a solution
  obtain ⟨y, hy⟩ : ∃ y, S.A y = b := by
    obtain ⟨y, hy⟩ : b - Q b ∈ LinearMap.range L :=
      (Submodule.projection_apply_eq_zero_iff hc).1 (by
        change Q (b - Q b) = 0
        rw [map_sub, q3, sub_self])
    have h0 : Q b = 0 := hk (-y) (Q b) (q1 b) fun i hi => by
      rw [← hL, map_neg, hy, Pi.neg_apply, Pi.sub_apply, hb i hi]
      ring
    exact ⟨y, by rw [← hL, hy, h0, sub_zero]⟩
  have hy' : S'.A (y - Q y + Q x0) = b + Q x0 := by
    change L (y - Q y + Q x0) + Q (y - Q y + Q x0) = _
    rw [map_add, map_sub, map_add, map_sub, q3, q3, hL, hL, hL, q1, q1, hy]
    abel
  have res : ∀ x, x - x0 ∈ LinearMap.range L →
      residual S b x = residual S' (b + Q x0) x ∧ residual S b x ∈ LinearMap.range L := by
    rintro x hx
    have hq : Q x = Q x0 := by
      have := (Submodule.projection_apply_eq_zero_iff hc).2 hx
      exact sub_eq_zero.1 ((map_sub Q x x0).symm.trans this)
    unfold residual
    rw [pc_none hP, pc_none (S := S') rfl]
    refine ⟨?_, ⟨y - x, ?_⟩⟩
    · change _ = -(S.A x + Q x - (b + Q x0))
      rw [hq]
      abel
    · rw [map_sub, hL, hL, hy, neg_sub]
  have hrun : solve par restart S' dotN sq re (b + Q x0) x0 ls z = solve par restart S dotN sq re b x0 ls z :=
    outer_same (W := LinearMap.range L) hP rfl (by
        intro x hx
        change S.A x = S.A x + Q x
        rw [(Submodule.projection_apply_eq_zero_iff hc).2 hx, add_zero]) (fun x => ⟨x, rfl⟩)
      par restart dotN sq re b (b + Q x0) x0 res _ _ _ _ _ _ (by rw [sub_self]; exact Submodule.zero_mem _)
  obtain ⟨x, ls', k, e, h1, h2, h3⟩ := hC _ _ hy' sq hsq re restart par hat hmax hre x0 ls z
  rw [hrun] at e
  refine ⟨x, ls', k, e, h1, fun hs i hi => ?_, h3⟩
  have near := h2 hs i trivial
  rw [← (res x0 (by rw [sub_self]; exact Submodule.zero_mem _)).1] at near
  have e1 : (y - Q y + Q x0) i = y i := by
    rw [Pi.add_apply, Pi.sub_apply, hz _ (q1 y) i hi, hz _ (q1 x0) i hi]
    ring
  rw [e1] at near
  have m0 : 0 ≤ M := (abs_nonneg _).trans (hw i)
  have far : |y i - w i| ≤ C' * (n * M) := by
    have h4 := hC' sq hsq ((y - w) - Q (y - w)) i
    have h5 : (L + Q) ((y - w) - Q (y - w)) = b - S.A w := by
      generalize hd : y - w = d
      rw [LinearMap.add_apply, map_sub, map_sub, q3, sub_self, add_zero, hL (Q _), q1, sub_zero, ← hd, map_sub, hL, hL, hy]
    rw [h5] at h4
    have h6 : ((y - w) - Q (y - w)) i = y i - w i := by
      rw [Pi.sub_apply, hz _ (q1 (y - w)) i hi, Pi.sub_apply, sub_zero]
    rw [h6] at h4
    refine h4.trans (mul_le_mul_of_nonneg_left (norm_le hsq _ m0 fun j => ?_) c0')
    rw [Pi.sub_apply, abs_sub_comm]
    exact hw j
  have t0 : 0 ≤ max (par.rtol * sq (dotN (residual S b x0) (residual S b x0))) par.atol := hat.le.trans (le_max_right _ _)
  have n0 : (0 : K) ≤ n := Nat.cast_nonneg n
  have h7 := abs_sub_le (x i) (y i) (w i)
  have h8 : 0 ≤ C * M := mul_nonneg c0 m0
  have h9 := mul_nonneg (mul_nonneg c0' n0) t0
  linarith

end singular
end Detran.Gmres

namespace Detran.WGReflect

open Detran.Gmres (RunsNear Sys cut fill fill_cut fill_at runs_singular)
open Detran.Sweep (St)
open Detran.Boundary (Bd Enters Mirror)
open Finset

section chain
variable {F K : Type} [Field K] [LinearOrder K] [IsStrictOrderedRing K]
variable {P : Prob F K} {w V sig ss : Nat → K} {m r : K} {fw : Nat → Nat → Nat → Nat → K}
  {Sol : (Nat → K) → Nat → Nat → (Nat → F) → (Nat → K) → Prop}

theorem outDot_comb (h : Sweeps P w Sol) (t : K) (b b' : Bd F) : outDot P w fw (P.comb t 1 b b') (P.comb t 1 b b') =
    t ^ 2 * outDot P w fw b b + 2 * t * outDot P w fw b b' + outDot P w fw b' b' := by
  unfold outDot
  rw [mul_sum, mul_sum, ← sum_add_distrib, ← sum_add_distrib]
  refine sum_congr rfl fun o _ => ?_
  rw [mul_sum, mul_sum, ← sum_add_distrib, ← sum_add_distrib]
  refine sum_congr rfl fun a _ => ?_
  rw [mul_left_comm (t ^ 2), mul_left_comm (2 * t), ← mul_add, ← mul_add]
  congr 1
  rw [mul_sum, mul_sum, ← sum_add_distrib, ← sum_add_distrib]
  refine sum_congr rfl fun s hs => ?_
  split
  · ring
  · exact faceDot_comb h (mem_range.1 hs) a t _ _ _ fun i j hi => by
      rw [get_comb h t 1 b b' s (mem_range.1 hs) o a i j hi, one_mul]

theorem inDot_comb (h : Sweeps P w Sol) (t : K) (b b' : Bd F) : inDot P w fw (P.comb t 1 b b') (P.comb t 1 b b') =
    t ^ 2 * inDot P w fw b b + 2 * t * inDot P w fw b b' + inDot P w fw b' b' := by
  unfold inDot
  rw [mul_sum, mul_sum, ← sum_add_distrib, ← sum_add_distrib]
  refine sum_congr rfl fun o _ => ?_
  rw [mul_sum, mul_sum, ← sum_add_distrib, ← sum_add_distrib]
  refine sum_congr rfl fun a _ => ?_
  rw [mul_left_comm (t ^ 2), mul_left_comm (2 * t), ← mul_add, ← mul_add]
  congr 1
  rw [mul_sum, mul_sum, ← sum_add_distrib, ← sum_add_distrib]
  refine sum_congr rfl fun s hs => ?_
  split
  · exact faceDot_comb h (mem_range.1 hs) a t _ _ _ fun i j hi => by
      rw [get_comb h t 1 b b' s (mem_range.1 hs) o a i j hi, one_mul]
  · ring

/-- What solves the cell equations with some source falls short of its own mirror image by a pattern without flux in the cells
    only if that pattern vanishes at the mirrors: such patterns carry nothing from source to mirror. -/
theorem no_chain (h : Sweeps P w Sol) (hS : Subcritical P w V sig ss m r) (D : Dissipates P Sol V sig fw) {pt : Bd F}
    (hpt : Silent P Sol pt) (q : Nat → Nat → Nat → K) (b : Bd F) (p : Nat → Nat → Nat → K)
    (hb : ∀ o < 2 ^ P.dim, ∀ a < P.na, Sol (q o a) o a (fun f => b f o a) (p o a))
    (hm : ∀ side < 2 * P.dim, P.bc side = .reflect → ∀ o < 2 ^ P.dim, Enters side o → ∀ a < P.na, ∀ i j,
      InFace P side i j → P.get (b side (mir P.dim side o) a) i j = P.get (b side o a) i j - P.get (pt side o a) i j) :
    ∀ side < 2 * P.dim, P.bc side = .reflect → ∀ o < 2 ^ P.dim, Enters side o → ∀ a < P.na, ∀ i j,
      InFace P side i j → P.get (pt side o a) i j = 0 := by
  classical
  have ptm : ∀ side < 2 * P.dim, P.bc side = .reflect → ∀ o < 2 ^ P.dim, Enters side o → ∀ a < P.na, ∀ i j,
      InFace P side i j → P.get (pt side o a) i j = P.get (pt side (mir P.dim side o) a) i j :=
    fun side hs hr o ho he a ha i j hi =>
      (hpt.mirror side hs hr o ho he _ (mir_facts P.dim h.d1 h.d3 side hs o ho).2.1 a ha i j hi).symm
  have cells : ∀ o < 2 ^ P.dim, ∀ a < P.na, Sol (fun _ => 0) o a (fun f => pt f o a)
      ((fun o a => if ha : o < 2 ^ P.dim ∧ a < P.na then (hpt.cells o ha.1 a ha.2).choose else fun _ => 0) o a) := by
    intro o ho a ha
    dsimp only
    rw [dif_pos ⟨ho, ha⟩]
    exact (hpt.cells o ho a ha).choose_spec.2
  have pz : ∀ o < 2 ^ P.dim, ∀ a < P.na, ∀ c < P.N,
      (fun o a => if ha : o < 2 ^ P.dim ∧ a < P.na then (hpt.cells o ha.1 a ha.2).choose else fun _ => (0 : K)) o a c = 0 := by
    intro o ho a ha
    dsimp only
    rw [dif_pos ⟨ho, ha⟩]
    exact (hpt.cells o ho a ha).choose_spec.1
  generalize (fun o a => if ha : o < 2 ^ P.dim ∧ a < P.na then (hpt.cells o ha.1 a ha.2).choose else fun _ => (0 : K)) = pp
    at cells pz
  obtain ⟨_, g2, _, g4⟩ := homogeneous hS D h (fun _ => 0) pt pp
    (fun o ho a ha => h.src_congr ho (fun c _ => by ring) (cells o ho a ha))
    (fun c hc => (sum_eq_zero fun o ho => sum_eq_zero fun a ha => by
      rw [pz o (mem_range.1 ho) a (mem_range.1 ha) c hc, mul_zero]).symm) hpt.none ptm
  -- nothing the pattern carries is lost or gained
  have cross : outDot P w fw pt b - inDot P w fw pt b = 0 := by
    refine linear_zero _ (inDot P w fw b b - outDot P w fw b b +
      ∑ o ∈ range (2 ^ P.dim), ∑ a ∈ range P.na, w a * ∑ c ∈ range P.N, V c * q o a c * p o a c -
      ∑ o ∈ range (2 ^ P.dim), ∑ a ∈ range P.na, w a * ∑ c ∈ range P.N, V c * sig c * p o a c ^ 2) fun t => ?_
    have te := total_energy D hS.weight q (P.comb t 1 pt b) (fun o a c => t * pp o a c + 1 * p o a c) (by
      intro o ho a ha
      exact h.lin t 1 _ _ _ o a _ _ _ _ _ _ ho (cells o ho a ha) (hb o ho a ha) (fun i hi => by ring) (fun _ => rfl)
        (fun side hs i j hi => get_comb h t 1 _ _ side hs o a i j hi))
    rw [outDot_comb h, inDot_comb h, g2] at te
    have s1 : ∑ o ∈ range (2 ^ P.dim), ∑ a ∈ range P.na, w a * ∑ c ∈ range P.N, V c * sig c *
        (t * pp o a c + 1 * p o a c) ^ 2 =
        ∑ o ∈ range (2 ^ P.dim), ∑ a ∈ range P.na, w a * ∑ c ∈ range P.N, V c * sig c * p o a c ^ 2 :=
      sum_congr rfl fun o ho => sum_congr rfl fun a ha => by
        congr 1
        refine sum_congr rfl fun c hc => ?_
        rw [pz o (mem_range.1 ho) a (mem_range.1 ha) c (mem_range.1 hc)]
        ring
    have s2 : ∑ o ∈ range (2 ^ P.dim), ∑ a ∈ range P.na, w a * ∑ c ∈ range P.N, V c * q o a c *
        (t * pp o a c + 1 * p o a c) =
        ∑ o ∈ range (2 ^ P.dim), ∑ a ∈ range P.na, w a * ∑ c ∈ range P.N, V c * q o a c * p o a c :=
      sum_congr rfl fun o ho => sum_congr rfl fun a ha => by
        congr 1
        refine sum_congr rfl fun c hc => ?_
        rw [pz o (mem_range.1 ho) a (mem_range.1 ha) c (mem_range.1 hc)]
        ring
    rw [s1, s2] at te
    linarith
  have split : inDot P w fw pt b = outDot P w fw pt b +
      pickSum P w fun s o a => if P.bc s = .reflect then faceDot P fw s a (pt s o a) (pt s o a) else 0 := by
    rw [outDot_mirror h.d1 h.d3, inDot_eq, ← pickSum_add]
    refine pickSum_congr fun s hs o ho he a ha => ?_
    by_cases hr : P.bc s = .reflect
    · rw [if_pos hr]
      unfold faceDot
      rw [← sum_add_distrib]
      refine sum_congr rfl fun i hi => ?_
      rw [← sum_add_distrib]
      refine sum_congr rfl fun j hj => ?_
      have hf : InFace P s i j := ⟨mem_range.1 hi, mem_range.1 hj⟩
      rw [hm s hs hr o ho he a ha i j hf, ← ptm s hs hr o ho he a ha i j hf]
      ring
    · rw [if_neg hr, faceDot_zero (hpt.none s hs hr o ho he a ha), faceDot_zero (g4 s hs hr o ho he a ha), add_zero]
  intro side hs hr o ho he a ha
  have := pickSum_zero hS.weight (f := fun s o a => if P.bc s = .reflect then faceDot P fw s a (pt s o a) (pt s o a) else 0)
    (fun s hs o ho he a ha => by
      split
      · exact faceDot_nonneg D hs ha _
      · exact le_refl _) (by linarith) side hs o ho he a ha
  rw [if_pos hr] at this
  exact faceDot_pos D hs ha _ this

/-- The fluxes entering at reflecting sides differ from those of the mirror directions by at most `M`. -/
def OffBy (P : Prob F K) (bd : Bd F) (M : K) : Prop :=
  ∀ side < 2 * P.dim, P.bc side = .reflect → ∀ o < 2 ^ P.dim, Enters side o → ∀ o', Mirror P.dim side o o' →
    ∀ a < P.na, ∀ i j, InFace P side i j → |P.get (bd side o a) i j - P.get (bd side o' a) i j| ≤ M

/-- Without preconditioner, every run of GMRES on the group ends, with success given room for as many inner iterations as the
    vectors have entries; after success the cell fluxes are those of the group up to the tolerance and `M`, times a factor that
    depends on the group only.  `M`: by how much reflection was off in the uncollided fluxes when the right-hand side was
    built. -/
def PlainGmresFinds (P : Prob F K) (w : Nat → K) (Sol : (Nat → K) → Nat → Nat → (Nat → F) → (Nat → K) → Prop) : Prop :=
  ∀ S, Solver P S → S.P = none → ∃ C : K, 0 ≤ C ∧ ∀ fixed tol s phi M, 0 ≤ M →
    OffBy P (Prob.rhsState { P with fixed := fixed } tol s).bdy M → IsFlux { P with fixed := fixed } w Sol phi →
    RunsNear S C M (cut _ (Prob.rhs { P with fixed := fixed } tol s)) (fun i => (i : Nat) < P.N) (cut _ phi)

/-- It does in every group that scatters less than it collides, singular or not. -/
theorem C153_group (h : Sweeps P w Sol) (hC : Subcritical P w V sig ss m r) (D : Dissipates P Sol V sig fw) :
    PlainGmresFinds P w Sol := by
  intro S hS hP
  have lin := solver_linear h hC.np hC.disc hC.scat hS
  have kern : ∀ v, S.A v = 0 → ∃ s, ∀ i < P.N + P.bsize, (P.multiply s (fill v)).2 i = 0 := by
    intro v hv
    obtain ⟨s, e⟩ := hS.matrix v
    refine ⟨s, fun i hi => ?_⟩
    have := congrFun e ⟨i, hi⟩
    rw [hv] at this
    exact this.symm
  have flat : ∀ v, S.A v = 0 → ∀ i : Fin (P.N + P.bsize), (i : Nat) < P.N → v i = 0 := by
    intro v hv i hi
    obtain ⟨s, e⟩ := kern v hv
    rw [← fill_at v i]
    exact ((C150_kernel h hC D s (fill v)).1 e).1 i hi
  obtain ⟨C, c0, hrun⟩ := runs_singular S hP ⟨fun x y => by simpa using lin 1 1 x y, fun c x => by simpa using lin c 0 x 0⟩
    (fun i => (i : Nat) < P.N) flat (by
    intro u v hv huv
    obtain ⟨s, e⟩ := kern _ hv
    obtain ⟨k0, pt, hpt, k1⟩ := (C150_kernel h hC D s (fill v)).1 e
    obtain ⟨s1, e1⟩ := hS.matrix u
    obtain ⟨b, p, c, _, _, k2⟩ := multiply_pass h hC s1 (fill u)
    have val : ∀ l ∈ P.locs, fill v (P.slot l) = (P.multiply s1 (fill u)).2 (P.slot l) := fun l hl => by
      obtain ⟨l1, l2, _⟩ := slot_spec h l hl
      have := huv ⟨P.slot l, l2⟩ (by simp only; omega)
      rw [e1, ← fill_at v] at this
      exact this.symm
    have still := no_chain h hC D hpt _ b p c (fun side hs hr o ho he a ha i j hi => by
      obtain ⟨l1, l2⟩ := k2 side hs hr o ho he a ha i j hi
      rw [← k1 side hs hr o ho he a ha i j hi, val _ ((mem_locs h side o a i j).2 ⟨hs, hr, ho, he, ha, hi⟩), ← l1, l2])
    funext i
    rw [Pi.zero_apply, ← fill_at v]
    by_cases hi : (i : Nat) < P.N
    · exact k0 i hi
    · obtain ⟨⟨side, o, a, i', j⟩, hl, e2⟩ := slot_cover h i (by omega) i.2
      obtain ⟨l1, l2, l3, l4, l5, l6⟩ := (mem_locs h side o a i' j).1 hl
      rw [← e2, k1 side l1 l2 o l3 l4 a l5 i' j l6]
      exact still side l1 l2 o l3 l4 a l5 i' j l6)
  refine ⟨C, c0, fun fixed tol s phi M m0 hm hphi => ?_⟩
  have h' : Sweeps { P with fixed := fixed } w Sol :=
    ⟨h.d1, h.d3, h.order, h.face, h.other, h.inc, h.solves, h.lin, h.det⟩
  set R := Prob.rhsState { P with fixed := fixed } tol s with hR
  obtain ⟨bd, psi, hsol⟩ := hphi
  have es : Prob.source { P with fixed := fixed } fixed (P.scat (P.moments phi))
      = fun o a c => (fixed c + P.scat (P.moments phi) c) * P.mtod o a := by
    funext o a
    exact source_eq (P := { P with fixed := fixed }) hC.disc _ _ o a
  obtain ⟨x, x1, x2, x3⟩ := complete_off h' hC.np R (rhs_of h' hC.np tol s) s phi
    (fun l => P.get (R.bdy l.side l.octant l.angle) l.i l.j - P.get (R.bdy l.side (mir P.dim l.side l.octant) l.angle) l.i l.j)
    (fun side hs hb o ho he o' hmm a ha i j hi => by
      rw [mirror_unique P.dim h.d1 h.d3 side hs o ho o' _ hmm (mir_facts P.dim h.d1 h.d3 side hs o ho).2.1]) bd psi (by
      rw [show Prob.source { P with fixed := fixed } fixed (Prob.scat { P with fixed := fixed }
        (Prob.moments { P with fixed := fixed } phi)) = _ from es]
      exact hsol)
  rw [off_eq (P := { P with fixed := fixed }) hC.disc] at x1 x2
  have x1' : ∀ c < P.N, (P.multiply s x).2 c = R.phi c := x1
  have x2' : ∀ l ∈ P.locs, (P.multiply s x).2 (P.slot l) =
      -(P.get (R.bdy l.side l.octant l.angle) l.i l.j - P.get (R.bdy l.side (mir P.dim l.side l.octant) l.angle) l.i l.j) := x2
  have val : ∀ i : Fin (P.N + P.bsize), S.A (cut _ x) i = (P.multiply s x).2 i := by
    intro i
    obtain ⟨s1, e1⟩ := hS.matrix (cut _ x)
    rw [e1]
    have := C124_operator_linear h hC.np hC.disc 1 0 x x (fill (cut _ x)) (fun i hi => by rw [fill_cut x hi]; ring)
      (fun c hc => by
        rw [hC.scat _ c hc, hC.scat _ c hc]
        unfold Prob.moments
        simp only [if_pos hc]
        rw [fill_cut x (by omega)]
        ring) s s s1 i i.2
    change (P.multiply s1 (fill (cut _ x))).2 i = _
    rw [this]
    ring
  have hrhs : ∀ i : Fin (P.N + P.bsize), cut _ (Prob.rhs { P with fixed := fixed } tol s) i =
      if (i : Nat) < P.N then R.phi i else 0 := fun i => rfl
  have run := hrun (cut _ (Prob.rhs { P with fixed := fixed } tol s)) (fun i hi => by rw [hrhs, if_neg hi]) (cut _ x) M
    fun i => by
      rw [val, hrhs]
      by_cases hi : (i : Nat) < P.N
      · rw [if_pos hi, x1' i hi, sub_self, abs_zero]
        exact m0
      · obtain ⟨⟨side, o, a, i', j⟩, hl, e2⟩ := slot_cover h i (by omega) i.2
        obtain ⟨l1, l2, l3, l4, l5, l6⟩ := (mem_locs h side o a i' j).1 hl
        rw [if_neg hi, ← e2, x2' _ hl, sub_zero, abs_neg]
        exact hm side l1 l2 o l3 l4 _ (mir_facts P.dim h.d1 h.d3 side l1 o l3).2.1 a l5 i' j l6
  intro sq hsq re restart par hat hmax hre x0 ls z
  obtain ⟨y, ls', k, e, h1, h2, h3⟩ := run sq hsq re restart par hat hmax hre x0 ls z
  refine ⟨y, ls', k, e, h1, fun hs i hi => ?_, h3⟩
  have := h2 hs i hi
  change |y i - x i| ≤ _ at this
  rw [x3 i hi] at this
  exact this

end chain

section geom
open Detran.Sweep (LinEq2 LinEq3 dd2 C27_schemes_linear)
open Detran.Boundary (BC)
variable {K : Type} [Field K] [LinearOrder K] [IsStrictOrderedRing K]

/-- Rectangles with diamond differencing, whatever sides reflect. -/
theorem C153_2D {mu eta w dx dy sig ss : Nat → K} {m r : K} {nx ny na : Nat} {bc : Nat → BC (Nat → K)}
    (hP : Plane mu eta w dx dy sig ss m r nx ny na bc) (fixed : Nat → K) (up : Bool) (order : List Nat)
    (hord : order.Perm (List.range 4)) :
    let sch := fun a i j => dd2 (mu a) (eta a) (dx i) (dy j) (sig (i + j * nx))
    PlainGmresFinds (planeProb sch w ss fixed m nx ny na up bc order) w (planeSol sch nx ny) := by
  intro sch
  have vol : ∀ i j, i < nx → dx ((i + j * nx) % nx) * dy ((i + j * nx) / nx) = dx i * dy j := fun i j hi => by
    rw [Nat.add_mul_mod_self_right, Nat.mod_eq_of_lt hi, Nat.add_mul_div_right _ _ (by omega : 0 < nx),
      Nat.div_eq_of_lt hi, Nat.zero_add]
  have lin : ∀ a i j, LinEq2 (dd2 (mu a) (eta a) (dx i) (dy j) (sig (i + j * nx))) := fun a i j =>
    (C27_schemes_linear (fun x : K => x) (mu a) (eta a) 0 (dx i) (dy j) 0 _).2.2.2.1
  exact C153_group (sweeps2 _ lin w nx ny na up bc order hord (fun f c => ss c * f c) fixed (fun _ _ => m) [])
    (V := fun c => dx (c % nx) * dy (c / nx)) (sig := sig) (ss := ss) (m := m) (r := r)
    ⟨hP.weight, fun _ _ _ _ => rfl, hP.norm, fun c hc => mul_pos (hP.hdx _ (Nat.mod_lt _ hP.hx))
      (hP.hdy _ (Nat.div_lt_of_lt_mul hc)), hP.hsig, fun _ _ _ => rfl, hP.scat, hP.nonneg, hP.less, rfl, hP.np⟩
    (dissipates2 _ w nx ny na up bc order _ _ _ _ _ sig (fun a j => mu a / 2 * dy j) (fun a i => eta a / 2 * dx i)
      (fun a ha j hj => mul_pos (half_pos (hP.hmu a ha)) (hP.hdy j hj))
      (fun a ha i hi => mul_pos (half_pos (hP.heta a ha)) (hP.hdx i hi)) fun a ha i hi j hj => by
        rw [vol i j hi]
        exact cell_dd2 _ _ _ _ _ (hP.hmu a ha) (hP.heta a ha) (hP.hdx i hi) (hP.hdy j hj) (hP.hsig _ (cell2_lt hi hj)))

/-- Boxes with diamond differencing, whatever sides reflect. -/
theorem C153_3D {mu eta xi w dx dy dz sig ss : Nat → K} {m r : K} {nx ny nz na : Nat}
    {bc : Nat → BC (Nat → Nat → K)} (hP : Brick mu eta xi w dx dy dz sig ss m r nx ny nz na bc) (fixed : Nat → K) (up : Bool)
    (order : List Nat) (hord : order.Perm (List.range 8)) :
    PlainGmresFinds (brickProb mu eta xi w dx dy dz sig ss fixed m nx ny nz na up bc order) w
      (brickSol (brickSch mu eta xi dx dy dz sig nx ny) nx ny nz) := by
  obtain ⟨hsw, V, fw, hS, D⟩ := brick_facts hP fixed up order hord
  exact C153_group hsw hS D

end geom
end Detran.WGReflect

namespace Detran.MGReflect

open Detran.Gmres (RunsNear Sys cut fill fill_cut fill_at runs_singular)
open Detran.WGReflect (Mismatch Dissipates slot_cover slot_spec mem_locs refl_iff InFace OffBy no_chain mir mir_facts mirror_unique)
open Detran.Boundary (Bd BC Enters Mirror)
open Detran.Sweep (St)
open Detran.MGSolve
open Finset

section groups
variable {F K : Type} [Field K] [LinearOrder K] [IsStrictOrderedRing K]
variable {P : Prob F K} {w : Nat → K} {V : Nat → K} {sig r : Nat → Nat → K} {u : Nat → K} {m rho : K}
  {fw : Nat → Nat → Nat → Nat → Nat → K} {k : Nat} {Sol : Nat → (Nat → K) → Nat → Nat → (Nat → F) → (Nat → K) → Prop}

/-- Without preconditioner, every run of GMRES on coupled groups ends and finds their cell fluxes, as for one group. -/
def PlainGmresFinds (P : Prob F K) (k : Nat) (w : Nat → K)
    (Sol : Nat → (Nat → K) → Nat → Nat → (Nat → F) → (Nat → K) → Prop) : Prop :=
  ∀ S, Solver P k S → S.P = none → ∃ C : K, 0 ≤ C ∧ ∀ tol phi s f v M, 0 ≤ M →
    (∀ g ∈ P.groups k, OffBy (P.W g) ((P.rhs k tol phi s).1 g).bdy M) →
    (∀ gp, gp ∉ P.groups k → f gp = phi gp) → (∀ g ∈ P.groups k, GroupFlux P w Sol f g) →
    (∀ g ∈ P.groups k, ∀ c < P.M.x.N, v (momentPos P.M.x.adjoint k P.M.x.N g c).toNat = f g c) →
    RunsNear S C M (cut _ (P.rhs k tol phi s).2) (IsFluxEntry P k) (cut _ v)

/-- Every entry of a vector is seen by a group. -/
theorem view_at (hc : P.Cut k) (p : Nat) (hp : p < size P k) :
    ∃ g ∈ P.groups k, ∃ i < P.M.x.N + P.bs, ∀ x : Nat → K, P.view k x g i = x p := by
  by_contra hn
  have := view_cover hc (fun q => if q = p then (1 : K) else 0) (fun _ => 0) (fun g hg i hi => by
    rw [view_zero]
    by_contra hv
    refine hn ⟨g, hg, i, hi, fun x => ?_⟩
    unfold Prob.view at hv ⊢
    by_cases hN : i < P.M.x.N
    · rw [if_pos hN] at hv ⊢
      rw [(ite_ne_right_iff.1 hv).1]
    · rw [if_neg hN] at hv ⊢
      rw [(ite_ne_right_iff.1 hv).1]) p hp
  simp at this

/-- What a group has behind its cell fluxes are no cell fluxes of another. -/
theorem slot_at (hc : P.Cut k) (g : Nat) (hg : g ∈ P.groups k) (i : Nat) (hN : ¬ i < P.M.x.N) (hi : i < P.M.x.N + P.bs) :
    ∃ p : Fin (size P k), ¬ IsFluxEntry P k p ∧ ∀ x : Nat → K, P.view k x g i = x p := by
  obtain ⟨l1, l2, _, _⟩ := C57_layout P.M.x.mat.G hc.1 P.M.x.adjoint k hc.2 P.M.x.N P.bs
  obtain ⟨p1, p2⟩ := l2 g hg (i - P.M.x.N) (by omega)
  have p0 : (0 : Int) ≤ ((krylovGroups P.M.x.mat.G P.M.x.adjoint k).length : Int) * P.M.x.N := by positivity
  refine ⟨⟨(boundaryPos P.M.x.mat.G P.M.x.adjoint k P.M.x.N P.bs g (i - P.M.x.N)).toNat,
    (Int.toNat_lt (p0.trans p1)).2 p2⟩, ?_, fun x => if_neg hN⟩
  rintro ⟨g', hg', c, hcN, e⟩
  obtain ⟨q1, q2⟩ := l1 g' hg' c hcN
  simp only at e
  omega

/-- It does for all groups that scatter less than they collide, singular or not. -/
theorem C153_groups (ok : OK P w Sol) (hC : Coupled P w V sig r u m rho) (D : AllDissipate P Sol V sig fw) (hB : Block P k) :
    PlainGmresFinds P k w Sol := by
  intro S hS hP
  have lin := solver_linear ok hB hS
  have kern : ∀ v, S.A v = 0 → ∃ f s, ∀ i < size P k, (P.multiply k f s (fill v)).2 i = 0 := by
    intro v hv
    obtain ⟨f, s, e⟩ := hS.matrix v
    refine ⟨f, s, fun i hi => ?_⟩
    have := congrFun e ⟨i, hi⟩
    rw [hv] at this
    exact this.symm
  have flat : ∀ v, S.A v = 0 → ∀ i, IsFluxEntry P k i → v i = 0 := by
    rintro v hv i ⟨g, hg, c, hcN, hic⟩
    obtain ⟨f, s, e⟩ := kern v hv
    have := ((C151_kernel ok hC D hB.cut hB.back hB.imp f s (fill v)).1 e g hg).1 c hcN
    rw [Prob.view, if_pos hcN, ← hic, fill_at] at this
    exact this
  obtain ⟨C, c0, hrun⟩ := runs_singular S hP ⟨fun x y => by simpa using lin 1 1 x y, fun c x => by simpa using lin c 0 x 0⟩
    (IsFluxEntry P k) flat (by
    intro x v hv hxv
    obtain ⟨f0, s0, e0⟩ := kern _ hv
    obtain ⟨f1, s1, e1⟩ := hS.matrix x
    have kk := (C151_kernel ok hC D hB.cut hB.back hB.imp f0 s0 (fill v)).1 e0
    have val : ∀ g ∈ P.groups k, ∀ i < P.M.x.N + P.bs, ¬ i < P.M.x.N → P.view k (fill v) g i =
        ((P.opGroup k (P.fluxes k f1 (fill x)) g).multiply (s1 g) (P.view k (fill x) g)).2 i := by
      intro g hg i hi hN
      rw [← (multiply_view ok hB.cut f1 s1 (fill x) g hg).2 i hi]
      obtain ⟨p, hp, e⟩ := slot_at hB.cut g hg i hN hi
      rw [e, e, fill_at, ← hxv p hp, e1]
      rfl
    have all := view_cover hB.cut (fill v) (fun _ => 0) fun g hg i hi => by
      obtain ⟨k0, pt, hpt, k1⟩ := kk g hg
      have hgG := ((mem_groups hB.cut g).1 hg).1
      have hs := WGReflect.sweeps_off (ok.sw g hgG)
      have hN : (P.W g).N = P.M.x.N := ok.cells g
      have hBs : (P.W g).bsize = P.bs := ok.bsize g
      rw [view_zero]
      by_cases hcN : i < P.M.x.N
      · exact k0 i hcN
      · obtain ⟨b, ⟨b0, e2⟩, _, m2, m3⟩ := WGReflect.multiply_spec_by hs (ok.np g hgG)
          (P.M.totalScatter (P.fluxes k f1 (fill x)) g k) (s1 g) (P.view k (fill x) g)
        obtain ⟨psi, c1, _⟩ := hs.solves false
          ((P.W g).off.source (fun _ => 0) (P.M.totalScatter (P.fluxes k f1 (fill x)) g k)) b0
        rw [← e2] at c1
        have still := no_chain (bareProb_sweeps (ok.sw g hgG)) (bareProb_subcritical ok hC hgG)
          (fw := fw g) ⟨(D g hgG).pos, (D g hgG).energy⟩ (pt := pt) ⟨hpt.cells, hpt.none, hpt.mirror⟩ _ b.bdy psi c1
          (fun side hsd hr o ho he a ha i j hi => by
            have hl := (mem_locs (ok.sw g hgG) side o a i j).2 ⟨hsd, hr, ho, he, ha, hi⟩
            obtain ⟨hge, hlt, _⟩ := slot_spec (ok.sw g hgG) _ hl
            have v1 := (m2 side hsd o ho he a ha i j hi).trans (if_pos ((refl_iff (P := (P.W g).off) side).2 hr))
            have v2 := m3 side hsd hr o ho he _ (mir_facts _ hs.d1 hs.d3 side hsd o ho).2.1 a ha i j hi
            have v3 := k1 side hsd hr o ho he a ha i j hi
            rw [val g hg _ (by rw [← hN, ← hBs]; exact hlt) (by rw [← hN]; omega)] at v3
            have v4 := v2.symm.trans v3
            rw [← v1] at v4
            change _ = (P.W g).get (b.bdy side o a) i j - (P.W g).get (pt side o a) i j
            rw [← v4]
            exact (sub_sub_cancel _ _).symm)
        obtain ⟨⟨side, o, a, i', j⟩, hl, rfl⟩ := slot_cover (ok.sw g hgG) i (by rw [hN]; omega) (by rw [hN, hBs]; exact hi)
        obtain ⟨l1, l2, l3, l4, l5, l6⟩ := (mem_locs (ok.sw g hgG) side o a i' j).1 hl
        rw [k1 side l1 l2 o l3 l4 a l5 i' j l6]
        exact still side l1 l2 o l3 l4 a l5 i' j l6
    funext i
    rw [Pi.zero_apply, ← fill_at v]
    exact all i i.2)
  refine ⟨C, c0, fun tol phi s f v M m0 hm hout hf hv => ?_⟩
  let eB : Nat → Detran.Boundary.Loc → K := fun g l =>
    (P.W g).get (((P.rhs k tol phi s).1 g).bdy l.side l.octant l.angle) l.i l.j
      - (P.W g).get (((P.rhs k tol phi s).1 g).bdy l.side (mir (P.W g).dim l.side l.octant) l.angle) l.i l.j
  obtain ⟨x, hx1, hx2⟩ := block_off ok hB.cut hB.back tol phi f s s eB
    (fun g hg side hs hb o ho he o' hmm a ha i j hi => by
      have hw := ok.sw g ((mem_groups hB.cut g).1 hg).1
      simp only [eB]
      rw [mirror_unique _ hw.d1 hw.d3 side hs o ho o' _ hmm (mir_facts _ hw.d1 hw.d3 side hs o ho).2.1]) hout hf
  have val : ∀ i : Fin (size P k), S.A (cut _ x) i = (P.multiply k phi s x).2 i := by
    intro i
    obtain ⟨f1, s1, e1⟩ := hS.matrix (cut _ x)
    rw [e1]
    change (P.multiply k f1 s1 (fill (cut _ x))).2 i = _
    rw [op_same ok hB.cut hB.back hB.imp f1 phi s1 s _ i i.2,
      C125_operator_linear ok hB.cut hB.imp phi 1 0 x x (fill (cut _ x)) (fun i hi => by rw [fill_cut x hi]; ring) s s s i i.2]
    ring
  have run := hrun (cut _ (P.rhs k tol phi s).2) (fun i hi => by
    obtain ⟨g, hg, j, hj, e⟩ := view_at hB.cut i i.2
    have h1 := (rhs_view hB.cut tol phi s g hg).2 j hj
    rw [e] at h1
    change (P.rhs k tol phi s).2 i = 0
    rw [h1, if_neg fun hN => hi ⟨g, hg, j, hN, ?_⟩]
    have h2 := e fun q => if q = (i : Nat) then (1 : K) else 0
    simp only [Prob.view, if_pos hN, if_true] at h2
    by_contra h3
    rw [if_neg fun h4 => h3 h4.symm] at h2
    exact zero_ne_one h2) (cut _ x) M fun i => by
      rw [val]
      change |(P.multiply k phi s x).2 i - (P.rhs k tol phi s).2 i| ≤ M
      obtain ⟨g, hg, j, hj, e⟩ := view_at hB.cut i i.2
      have hgG := ((mem_groups hB.cut g).1 hg).1
      have hN : (P.W g).N = P.M.x.N := ok.cells g
      have hBs : (P.W g).bsize = P.bs := ok.bsize g
      have hw := ok.sw g hgG
      obtain ⟨h1, h2⟩ := hx1 g hg
      by_cases hj' : j < P.M.x.N
      · rw [← e (P.multiply k phi s x).2, ← e (P.rhs k tol phi s).2, h1 j hj', sub_self, abs_zero]
        exact m0
      · have h3 := (rhs_view hB.cut tol phi s g hg).2 j hj
        rw [if_neg hj'] at h3
        rw [← e (P.multiply k phi s x).2, ← e (P.rhs k tol phi s).2, h3, sub_zero]
        obtain ⟨⟨side, o, a, i', j'⟩, hl, rfl⟩ := slot_cover hw j (by rw [hN]; omega) (by rw [hN, hBs]; exact hj)
        obtain ⟨l1, l2, l3, l4, l5, l6⟩ := (mem_locs hw side o a i' j').1 hl
        rw [h2 _ hl, abs_neg]
        exact hm g hg side l1 l2 o l3 l4 _ (mir_facts _ hw.d1 hw.d3 side l1 o l3).2.1 a l5 i' j' l6
  intro sq hsq re restart par hat hmax hre x0 ls z
  obtain ⟨y, ls', l, e, h1, h2, h3⟩ := run sq hsq re restart par hat hmax hre x0 ls z
  refine ⟨y, ls', l, e, h1, fun hs i hi => ?_, h3⟩
  have := h2 hs i hi
  obtain ⟨g, hg, c, hcN, hic⟩ := hi
  have e1 := hx2 g hg c hcN
  rw [fluxes_in phi x g hg c hcN, Prob.view, if_pos hcN, ← hic, ← hv g hg c hcN, ← hic] at e1
  change |y i - x i| ≤ _ at this
  rw [e1] at this
  exact this

end groups

section geom
open Detran.Sweep (dd2 C27_schemes_linear)
open Detran.WGReflect (planeSol brickSol brickSch cell_dd2)
variable {K : Type} [Field K] [LinearOrder K] [IsStrictOrderedRing K]

/-- On rectangles with diamond differencing, whatever their sides do. -/
theorem C153_groups_2D {M : MGSolve.Prob K} {mu eta w dx dy : Nat → K} {sig r : Nat → Nat → K} {u : Nat → K} {m rho : K}
    {nx ny na : Nat} {bc : Nat → Nat → BC (Nat → K)} (hP : Planes M mu eta w dx dy sig r u m rho nx ny na bc) (up : Bool)
    (order : List Nat) (hord : order.Perm (List.range 4)) {k : Nat} :
    let sch := fun g a i j => dd2 (mu a) (eta a) (dx i) (dy j) (sig g (i + j * nx))
    let P := planesProb M sch w m nx ny na up bc order
    Block P k → PlainGmresFinds P k w (fun g => planeSol (sch g) nx ny) := by
  intro sch P hB
  obtain ⟨ok, V, fw, hC, D⟩ := planes_facts hP up order hord sch
    (fun g a i j => (C27_schemes_linear (fun x : K => x) (mu a) (eta a) 0 (dx i) (dy j) 0 _).2.2.2.1)
    (fun g a i j c1 c2 c3 c4 c5 => cell_dd2 _ _ _ _ _ c1 c2 c3 c4 c5)
  exact C153_groups ok hC D hB

/-- In boxes. -/
theorem C153_groups_3D {M : MGSolve.Prob K} {mu eta xi w dx dy dz : Nat → K} {sig r : Nat → Nat → K} {u : Nat → K} {m rho : K}
    {nx ny nz na : Nat} {bc : Nat → Nat → BC (Nat → Nat → K)} (hP : Bricks M mu eta xi w dx dy dz sig r u m rho nx ny nz na bc)
    (up : Bool) (order : List Nat) (hord : order.Perm (List.range 8)) {k : Nat}
    (hB : Block (bricksProb M mu eta xi w dx dy dz sig m nx ny nz na up bc order) k) :
    PlainGmresFinds (bricksProb M mu eta xi w dx dy dz sig m nx ny nz na up bc order) k w
      (fun g => brickSol (brickSch mu eta xi dx dy dz (sig g) nx ny) nx ny nz) := by
  obtain ⟨ok, V, fw, hC, D⟩ := bricks_facts hP up order hord
  exact C153_groups ok hC D hB

end geom
end Detran.MGReflect

/-! ## A case -/

namespace Detran.WGReflect

open Detran.Sweep (dd2 posn posn_lt)
open Detran.Gmres (RunsNear IsSqrt cut fill)
open Detran.Boundary (BC)
open Finset

theorem mirror_plane : Plane (fun a => 1 / ((a : ℝ) + 2)) (fun a => 1 / ((a : ℝ) + 3)) (fun _ => 1 / 8)
    (fun i => (i : ℝ) + 1) (fun i => (i : ℝ) + 1) (fun _ => 1) (fun _ => 1 / 2) (1 : ℝ) (1 / 2) 3 2 2 (fun _ => .reflect) where
  hmu := fun a _ => by positivity
  heta := fun a _ => by positivity
  weight := fun _ _ => by norm_num
  norm := by norm_num
  hdx := fun i _ => by positivity
  hdy := fun i _ => by positivity
  hsig := fun _ _ => one_pos
  scat := fun _ _ => by norm_num
  nonneg := by norm_num
  less := by norm_num
  np := fun s _ => by simp
  hx := by omega
  hy := by omega

/-- Three columns and two rows between four mirrors, where the operator is singular (C150): with a source of one, GMRES ends
    with two in every cell. -/
example (s0 : Detran.Sweep.St (Nat → ℝ) ℝ) :
    let sch := fun (a i j : Nat) => dd2 (1 / ((a : ℝ) + 2)) (1 / ((a : ℝ) + 3)) ((i : ℝ) + 1) ((j : ℝ) + 1) 1
    let P := planeProb sch (fun _ => 1 / 8) (fun _ => 1 / 2) (fun _ => 1) 1 3 2 2 true (fun _ => .reflect) [0, 1, 2, 3]
    IsSqrt Real.sqrt ∧ ∃ C, 0 ≤ C ∧ ∀ tol s M, 0 ≤ M → OffBy P (P.rhsState tol s).bdy M →
      RunsNear ⟨fun x => cut (P.N + P.bsize) (P.multiply s0 (fill x)).2, none, .none⟩ C M (cut _ (P.rhs tol s))
        (fun i => (i : Nat) < 6) (fun _ => 2) := by
  intro sch P
  refine ⟨fun a h => ⟨Real.sqrt_nonneg a, Real.mul_self_sqrt h⟩, ?_⟩
  obtain ⟨C, c0, hC⟩ := C153_2D mirror_plane (fun _ => 1) true [0, 1, 2, 3] (by decide) _ (solver_plain P s0) rfl
  refine ⟨C, c0, fun tol s M m0 hm => hC (fun _ => 1) tol s (fun _ => 2) M m0 hm ⟨fun _ _ _ _ => 2, fun _ _ _ => 2, ?_⟩⟩
  refine ⟨fun o ho a ha => ⟨fun _ _ => 2, fun _ _ => 2, fun _ _ => ⟨rfl, rfl⟩, fun _ _ => ⟨rfl, rfl⟩,
    fun p hp q hq => ?_⟩, fun c hc => ?_, fun side hs hb => (nomatch hb), fun side hs ps hb => (nomatch hb),
    fun side hs hb o ho he o' hm a ha i j hi => sub_self _⟩
  · have hc := cell2_lt (posn_lt (o := o) (d := 0) hp) (posn_lt (o := o) (d := 1) hq)
    have e : (1 + 1 / 2 * (if posn 3 o 0 p + posn 2 o 1 q * 3 < 3 * 2 then (2 : ℝ) else 0)) * 1 = 2 := by
      rw [if_pos hc]; norm_num
    have val : ∀ cx cy : ℝ, 0 < cx → 0 < cy → 1 / (1 + cx + cy) * (2 + cx * 2 + cy * 2) = 2 := fun cx cy h1 h2 => by
      have : (1 + cx + cy) ≠ 0 := by positivity
      field_simp
    have v := val (2 * (1 / ((a : ℝ) + 2)) / ((posn 3 o 0 p : ℝ) + 1)) (2 * (1 / ((a : ℝ) + 3)) / ((posn 2 o 1 q : ℝ) + 1))
      (by positivity) (by positivity)
    change dd2 _ _ _ _ 1 ((1 + 1 / 2 * (if posn 3 o 0 p + posn 2 o 1 q * 3 < 3 * 2 then (2 : ℝ) else 0)) * 1) (2, 2) = _
    rw [e]
    simp only [dd2]
    rw [v]
    norm_num
  · change (2 : ℝ) + 0 = ∑ o ∈ range 4, ∑ a ∈ range 2, 1 / 8 * 2
    norm_num

end Detran.WGReflect
