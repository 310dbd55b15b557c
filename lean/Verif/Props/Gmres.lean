import Verif.Lemmas.GmresStep
import Mathlib.LinearAlgebra.Dimension.Finite
import Mathlib.LinearAlgebra.Dimension.Constructions
import Mathlib.LinearAlgebra.FiniteDimensional.Basic
import Mathlib.Analysis.SpecialFunctions.Pow.Real
import Mathlib.Data.Rat.Cast.Order

/-!
# Properties C95 and C96: restarted GMRES

The statements are about `solve`, `inner` and `update` of the model; they compare the vector the
solver returns with the residual of the linear system, with the textbook Krylov space and with the
recorded residual norms.
-/
namespace Detran.Gmres

open Finset Detran.Solver

variable {K E : Type} [Field K] [LinearOrder K] [IsStrictOrderedRing K]
  [AddCommGroup E] [Module K E]

/-- A linear system the solver can be asked to solve: linear, nonsingular matrix and
    preconditioner. -/
structure Regular (K : Type) {E : Type} [Field K] [AddCommGroup E] [Module K E] (S : Sys E) : Prop where
  linA : IsLinearMap K S.A
  injA : ∀ w, S.A w = 0 → w = 0
  linP : ∀ P, S.P = some P → IsLinearMap K P
  injP : ∀ P, S.P = some P → ∀ w, P w = 0 → w = 0

theorem Regular.pc_lin {S : Sys E} (h : Regular K S) (sd : Side) : IsLinearMap K (pc S sd) := by
  unfold pc
  rcases hP : S.P with _ | P
  · exact ⟨fun _ _ => rfl, fun _ _ => rfl⟩
  · simp only
    split
    · exact h.linP P hP
    · exact ⟨fun _ _ => rfl, fun _ _ => rfl⟩

theorem Regular.pc_inj {S : Sys E} (h : Regular K S) (sd : Side) (w : E) (hw : pc S sd w = 0) : w = 0 := by
  unfold pc at hw
  rcases hP : S.P with _ | P
  · rw [hP] at hw; exact hw
  · rw [hP] at hw
    simp only at hw
    split at hw
    · exact h.injP P hP w hw
    · exact hw

theorem Regular.op_lin {S : Sys E} (h : Regular K S) : IsLinearMap K (op S) := by
  refine ⟨fun a b => ?_, fun t a => ?_⟩
  · unfold op
    rw [(h.pc_lin .right).map_add, h.linA.map_add, (h.pc_lin .left).map_add]
  · unfold op
    rw [(h.pc_lin .right).map_smul, h.linA.map_smul, (h.pc_lin .left).map_smul]

theorem Regular.op_inj {S : Sys E} (h : Regular K S) (w : E) (hw : op S w = 0) : w = 0 :=
  h.pc_inj .right w (h.injA _ (h.pc_inj .left _ hw))

/-- The residual after adding a correction. -/
theorem Regular.residual_add {S : Sys E} (h : Regular K S) (b x w : E) :
    residual S b (pc S .right w + x) = residual S b x - op S w := by
  unfold residual op
  rw [h.linA.map_add, ← (h.pc_lin .left).map_sub]
  congr 1
  abel

theorem foldl_comb (v : Nat → E) (y : Nat → K) (k : Nat) :
    (List.range k).foldl (fun x i => x + y i • v i) 0 = ∑ i ∈ range k, y i • v i := by
  induction k with
  | zero => simp
  | succ k ih => rw [List.range_succ, List.foldl_append, ih, Finset.sum_range_succ]; simp

/-- The data at the start of a cycle. -/
theorem start_inv {dot : E → E → K} (hd : IsDot dot) {sq : K → K} (hsq : IsSqrt sq) (f : E → E)
    (restart : Nat) (z : Cyc K E) (r : E) (hr : sq (dot r r) ≠ 0) :
    Inv dot f r (start restart z r (sq (dot r r))) 0 := by
  have hn := (hsq _ (hd.nonneg r)).2
  generalize sq (dot r r) = rho at hn hr
  have hv : (start restart z r rho).v 0 = (1 / rho) • r := by simp [start]
  have hg : (start restart z r rho).g 0 = rho := by simp [start]
  have hnv : dot ((1 / rho) • r) ((1 / rho) • r) = 1 := by
    rw [hd.smul, hd.smul', ← hn]; field_simp
  refine ⟨⟨?_, ?_, ?_, ?_, ?_, ?_, ?_, ?_, ?_, ?_⟩, ?_, ?_⟩
  · intro i hi; omega
  · intro i hi; omega
  · intro i hi; omega
  · simp only [Finset.range_zero, Finset.sum_empty, zero_add, qc, hg, hv]
    rw [smul_smul]; field_simp; simp
  · intro i hi
    simp [start, set, show i ≠ 0 by omega]
  · intro i j hi; omega
  · intro i hi; omega
  · simp only [qc, hv, hg]; rw [hnv, mul_one]
  · intro i hi; omega
  · exact ⟨rho, by rw [hv, smul_smul]; field_simp; simp⟩
  · intro i j hi hj
    have h1 : i = 0 := by omega
    have h2 : j = 0 := by omega
    subst h1; subst h2
    rw [hv, hnv]; simp
  · rw [hv]
    exact Submodule.smul_mem _ _ (Submodule.subset_span ⟨0, by omega, rfl⟩)

/-- The iterate of a cycle that made `k` inner iterations: its residual norm squared is
    `g[k]^2`, and no combination of the Krylov vectors does better. -/
theorem Tri.update {dot : E → E → K} (hd : IsDot dot) {S : Sys E} (hS : Regular K S) {b x : E}
    {z : Cyc K E} {k : Nat} (h : Tri dot (op S) (residual S b x) z k) (y : Nat → K) :
    dot (residual S b (update S z k (computeY z.H z.g k y) x))
        (residual S b (update S z k (computeY z.H z.g k y) x)) = z.g k * z.g k ∧
    ∀ a : Nat → K, z.g k * z.g k ≤
      dot (residual S b (pc S .right (∑ j ∈ range k, a j • z.v j) + x))
        (residual S b (pc S .right (∑ j ∈ range k, a j • z.v j) + x)) := by
  constructor
  · unfold Gmres.update
    rw [foldl_comb, hS.residual_add, h.resid hS.op_lin, h.norm hd]
    rw [Finset.sum_eq_zero, zero_add]
    intro i hi
    rw [computeY_spec _ _ _ _ h.diag i (Finset.mem_range.1 hi)]
    simp
  · intro a
    rw [hS.residual_add, h.resid hS.op_lin, h.norm hd]
    have := Finset.sum_nonneg (s := range k)
      (f := fun i => (z.g i - ∑ j ∈ Ico i k, z.H i j * a j) * (z.g i - ∑ j ∈ Ico i k, z.H i j * a j))
      (fun i _ => mul_self_nonneg _)
    linarith

/-- Elements of the span of the first vectors are combinations of them. -/
theorem exists_comb (v : Nat → E) (k : Nat) (w : E)
    (hw : w ∈ Submodule.span K {u | ∃ i, i < k ∧ u = v i}) : ∃ y : Nat → K, w = ∑ j ∈ range k, y j • v j := by
  induction hw using Submodule.span_induction with
  | mem u hu =>
    obtain ⟨i, hi, rfl⟩ := hu
    refine ⟨fun j => if j = i then 1 else 0, ?_⟩
    rw [Finset.sum_eq_single i]
    · simp
    · intro j _ hne; simp [hne]
    · intro hn; exact absurd (Finset.mem_range.2 hi) hn
  | zero => exact ⟨fun _ => 0, by simp⟩
  | add a b _ _ ha hb =>
    obtain ⟨y1, rfl⟩ := ha
    obtain ⟨y2, rfl⟩ := hb
    exact ⟨fun j => y1 j + y2 j, by rw [← Finset.sum_add_distrib]; simp only [add_smul]⟩
  | smul t a _ ha =>
    obtain ⟨y1, rfl⟩ := ha
    exact ⟨fun j => t * y1 j, by rw [Finset.smul_sum]; simp only [smul_smul]⟩

theorem Tri.krylov_comb {dot : E → E → K} {f : E → E} (hf : IsLinearMap K f) {r0 : E} {z : Cyc K E}
    {k : Nat} (h : Tri dot f r0 z k) {w : E} (hw : w ∈ krylov K f r0 k) :
    ∃ y : Nat → K, w = ∑ j ∈ range k, y j • z.v j := by
  let V : Nat → Submodule K E := fun m => Submodule.span K {u | ∃ i, i < m ∧ u = z.v i}
  have hV : ∀ m i, i < m → z.v i ∈ V m := fun m i hi => Submodule.subset_span ⟨i, hi, rfl⟩
  have hmono : ∀ m n, m ≤ n → V m ≤ V n := fun m n hmn =>
    Submodule.span_mono fun _ ⟨i, hi, e⟩ => ⟨i, by omega, e⟩
  have hqf : ∀ m i, i + 1 < m → qf z.v z.c z.s i ∈ V m := by
    intro m i hi
    unfold qf
    refine Submodule.sub_mem _ (Submodule.smul_mem _ _ (qc_mem _ _ _ _ _ fun j hj => hV m j (by omega)))
      (Submodule.smul_mem _ _ (hV m _ hi))
  have hmap : ∀ m, m < k → ∀ u ∈ V (m + 1), f u ∈ V (m + 2) := by
    intro m hm u hu
    have : V (m + 1) ≤ (V (m + 2)).comap (hf.mk' f) := by
      refine Submodule.span_le.2 ?_
      rintro _ ⟨i, hi, rfl⟩
      show f (z.v i) ∈ V (m + 2)
      rw [h.rep i (by omega)]
      refine Submodule.sum_mem _ fun j hj => Submodule.smul_mem _ _ (hqf _ _ ?_)
      have := Finset.mem_range.1 hj
      omega
    exact this hu
  have hit : ∀ j, j < k → f^[j] r0 ∈ V (j + 1) := by
    intro j
    induction j with
    | zero =>
      intro _
      obtain ⟨t, ht⟩ := h.base
      rw [Function.iterate_zero_apply, ht]
      exact Submodule.smul_mem _ _ (hV _ _ (by omega))
    | succ j ih =>
      intro hj
      rw [Function.iterate_succ_apply']
      exact hmap j (by omega) _ (ih (by omega))
  have : krylov K f r0 k ≤ V k := by
    refine Submodule.span_le.2 ?_
    rintro _ ⟨j, hj, rfl⟩
    exact hmono (j + 1) k (by omega) (hit j hj)
  exact exists_comb z.v k w (this hw)

/-! ### The inner loop -/

theorem monitor_eq (par : Par K) (ls : LS K) (it : Nat) (hit : 0 < it) (r : K)
    (hlim : it + 1 ≠ par.maxit) (hmon : r ≤ ls.res (it - 1)) :
    monitor par ls it r =
      if r < max (par.rtol * ls.res 0) par.atol then
        (⟨.success, it, upd ls.res it r⟩, true) else (⟨.running, it, upd ls.res it r⟩, false) := by
  unfold monitor
  have h0 : upd ls.res it r 0 = ls.res 0 := by simp [upd]; intro h; omega
  have h1 : upd ls.res it r (it - 1) = ls.res (it - 1) := by
    simp only [upd]; rw [if_neg (by omega)]
  simp only [h0, h1]
  by_cases hc : r < max (par.rtol * ls.res 0) par.atol
  · rw [if_pos hc, if_pos hc]
  · rw [if_neg hc, if_neg hc, if_neg (by rintro ⟨_, _, h⟩; linarith), if_neg hlim]

/-- What the status data hold after `m` inner iterations: the solver is running and the recorded
    residual norms do not increase. -/
def Hist (par : Par K) (ls : LS K) (m : Nat) : Prop :=
  (∀ i j, i ≤ j → j ≤ m → ls.res j ≤ ls.res i) ∧ (0 < m → ls.numIt = m) ∧
  par.atol ≤ ls.res m ∧ (0 < m → max (par.rtol * ls.res 0) par.atol ≤ ls.res m)

theorem inner_spec {dot : E → E → K} (hd : IsDot dot) {sq : K → K} (hsq : IsSqrt sq) (re : Nat)
    {S : Sys E} (hS : Regular K S) {par : Par K} (hat : 0 < par.atol) {r0 : E} (n k it : Nat)
    (ls : LS K) (z : Cyc K E) (hI : Inv dot (op S) r0 z k)
    (hH : Hist par ls it) (hrun : ls.status = .running) (hg : |z.g k| = ls.res it) :
    ∃ q, inner par S dot sq re n k it ls z = some q ∧ Tri dot (op S) r0 q.z q.k ∧
      k ≤ q.k ∧ q.k ≤ k + n ∧ it + n ≥ q.it ∧ (∀ j, j ≤ it → q.ls.res j = ls.res j) ∧
      ∃ m, it ≤ m ∧ m = it + (q.k - k) ∧ |q.z.g q.k| = q.ls.res m ∧
        (∀ i j, i ≤ j → j ≤ m → q.ls.res j ≤ q.ls.res i) ∧ (0 < m → q.ls.numIt = m) ∧
        (0 < n → (m + 2 ≤ par.maxit ∨ m = it)) ∧
        ((q.done = true ∧ q.ls.status = .success ∧ q.it = m ∧ it < m ∧
            q.ls.res m < max (par.rtol * q.ls.res 0) par.atol) ∨
         (q.done = true ∧ q.ls.status = .running ∧ q.it = m + 1 ∧ par.maxit ≤ m + 2 ∧
            par.atol ≤ q.ls.res m ∧ (0 < m → max (par.rtol * q.ls.res 0) par.atol ≤ q.ls.res m)) ∨
         (q.done = false ∧ q.ls.status = .running ∧ q.it = m ∧ m = it + n ∧
            par.atol ≤ q.ls.res m ∧ (0 < m → max (par.rtol * q.ls.res 0) par.atol ≤ q.ls.res m))) := by
  induction n generalizing k it ls z with
  | zero =>
    exact ⟨_, rfl, hI.toTri, le_rfl, by simp, by simp, fun _ _ => rfl, it, le_rfl, by simp, hg, hH.1, hH.2.1,
      by simp, Or.inr (Or.inr ⟨rfl, hrun, rfl, rfl, hH.2.2⟩)⟩
  | succ n ih =>
    by_cases hlim : par.maxit ≤ it + 1 + 1
    · refine ⟨⟨k, it + 1, true, ls, z⟩, by simp [inner, hlim], hI.toTri, le_rfl, by simp, by simp, fun _ _ => rfl, it,
        le_rfl, by simp, hg, hH.1, hH.2.1, by simp, Or.inr (Or.inl ⟨rfl, hrun, rfl, hlim, hH.2.2⟩)⟩
    · obtain ⟨z', hz', hT, hInv, hle⟩ := step_spec hd hsq re hS.op_lin hS.op_inj hI
      have habs : |z'.g (k + 1)| ≤ ls.res it := by
        rw [← hg]
        exact abs_le_abs_of_sq_le_sq' hle
      have hm := monitor_eq par ls (it + 1) (by omega) |z'.g (k + 1)| (by omega) (by simpa using habs)
      have hres : ∀ j, j ≤ it → upd ls.res (it + 1) |z'.g (k + 1)| j = ls.res j := by
        intro j hj; simp only [upd]; rw [if_neg (by omega)]
      have hres1 : upd ls.res (it + 1) |z'.g (k + 1)| (it + 1) = |z'.g (k + 1)| := by simp [upd]
      have hanti : ∀ i j, i ≤ j → j ≤ it + 1 →
          upd ls.res (it + 1) |z'.g (k + 1)| j ≤ upd ls.res (it + 1) |z'.g (k + 1)| i := by
        intro i j hij hj
        by_cases hj1 : j = it + 1
        · by_cases hi1 : i = it + 1
          · rw [hi1, hj1]
          · rw [hj1, hres1, hres i (by omega)]
            exact habs.trans (hH.1 i it (by omega) le_rfl)
        · rw [hres j (by omega), hres i (by omega)]
          exact hH.1 i j hij (by omega)
      by_cases hconv : |z'.g (k + 1)| < max (par.rtol * ls.res 0) par.atol
      · rw [if_pos hconv] at hm
        refine ⟨⟨k + 1, it + 1, true, ⟨.success, it + 1, upd ls.res (it + 1) |z'.g (k + 1)|⟩, z'⟩, by simp only [inner, if_neg hlim, hz', hm], hT,
          by show k ≤ k + 1; omega, by show k + 1 ≤ k + (n + 1); omega,
          by show it + 1 ≤ it + (n + 1); omega, hres, it + 1, by omega,
          by show it + 1 = it + (k + 1 - k); omega, hres1.symm, hanti, fun _ => rfl,
          fun _ => Or.inl (by omega), Or.inl ⟨rfl, rfl, rfl, by omega, ?_⟩⟩
        simp only [hres1, hres 0 (by omega)]
        exact hconv
      · rw [if_neg hconv] at hm
        have hpos : 0 < |z'.g (k + 1)| :=
          lt_of_lt_of_le (lt_of_lt_of_le hat (le_max_right _ _)) (not_lt.1 hconv)
        have hne : z'.g (k + 1) ≠ 0 := abs_pos.1 hpos
        obtain ⟨q, hq, c1, c2, c3, c4, c5, m, d1, d2, d3, d4, d5, d6, d7⟩ := ih (k + 1) (it + 1)
          ⟨.running, it + 1, upd ls.res (it + 1) |z'.g (k + 1)|⟩ z' (hInv hne)
          ⟨hanti, fun _ => rfl, by
            simp only [hres1, hres 0 (by omega)]
            exact ⟨(le_max_right _ _).trans (not_lt.1 hconv), fun _ => not_lt.1 hconv⟩⟩ rfl hres1.symm
        refine ⟨q, by simp only [inner, if_neg hlim, hz', hm]; exact hq, c1, by omega, by omega, by omega, ?_, m,
          by omega, by omega, d3, d4, d5, ?_, ?_⟩
        · intro j hj; exact (c5 j (by omega)).trans (hres j hj)
        · intro _
          by_cases hn : 0 < n
          · rcases d6 hn with h | h
            · exact Or.inl h
            · exact Or.inl (by omega)
          · have : n = 0 := by omega
            subst this
            exact Or.inl (by omega)
        · rcases d7 with ⟨e1, e2, e3, e4, e5⟩ | ⟨e1, e2, e3, e4, e5⟩ | ⟨e1, e2, e3, e4, e5⟩
          · exact Or.inl ⟨e1, e2, e3, by omega, e5⟩
          · exact Or.inr (Or.inl ⟨e1, e2, e3, e4, e5⟩)
          · exact Or.inr (Or.inr ⟨e1, e2, e3, by omega, e5⟩)
where
  abs_le_abs_of_sq_le_sq' {a b : K} (h : a * a ≤ b * b) : |a| ≤ |b| := by
    rw [← abs_mul_abs_self a, ← abs_mul_abs_self b] at h
    exact abs_le_abs_of_mul_self (abs_nonneg a) (abs_nonneg b) h
  abs_le_abs_of_mul_self {a b : K} (ha : 0 ≤ a) (hb : 0 ≤ b) (h : a * a ≤ b * b) : a ≤ b := by
    by_contra hc
    push Not at hc
    nlinarith

/-! ### The outer loop -/

/-- What a finished solve leaves, `m` being the number of inner iterations carried out. -/
structure Outcome (nrm : E → K) (par : Par K) (S : Sys E) (b x0 : E) (x : E) (ls : LS K) (m : Nat) :
    Prop where
  first : ls.res 0 = nrm (residual S b x0)
  last : ls.res m = nrm (residual S b x)
  mono : ∀ i j, i ≤ j → j ≤ m → ls.res j ≤ ls.res i
  count : 0 < m → ls.numIt = m
  limit : m = 0 ∨ m + 2 ≤ par.maxit
  status : (ls.status = .success ∧
      nrm (residual S b x) < max (par.rtol * nrm (residual S b x0)) par.atol) ∨
    (ls.status = .running ∧ par.maxit ≤ m + 2 ∧ par.atol ≤ nrm (residual S b x) ∧
      (0 < m → max (par.rtol * nrm (residual S b x0)) par.atol ≤ nrm (residual S b x)))

theorem outer_spec {dot : E → E → K} (hd : IsDot dot) {sq : K → K} (hsq : IsSqrt sq) (re : Nat)
    {S : Sys E} (hS : Regular K S) {par : Par K} (hat : 0 < par.atol) (hmax : 0 < par.maxit)
    {restart : Nat} (hre : 0 < restart) (b x0 : E) (f it : Nat) (ls : LS K) (z : Cyc K E) (y : Nat → K)
    (x : E) (hf : par.maxit + 1 ≤ f + it) (hrun : ls.status = .running)
    (hit : (it = 0 ∧ x = x0) ∨ (0 < it ∧ it + 2 ≤ par.maxit ∧ Hist par ls it ∧
      ls.res it = sq (dot (residual S b x) (residual S b x)) ∧
      ls.res 0 = sq (dot (residual S b x0) (residual S b x0)))) :
    ∃ x' ls' n m, outer par restart S dot sq re b f it ls z y x = some (x', ls', n) ∧
      Outcome (fun w => sq (dot w w)) par S b x0 x' ls' m ∧ n ≤ m + 1 := by
  induction f generalizing it ls z y x with
  | zero =>
    exfalso
    rcases hit with ⟨h, _⟩ | ⟨_, h, _⟩ <;> omega
  | succ f ih =>
    have hlt : it < par.maxit := by rcases hit with ⟨h, _⟩ | ⟨_, h, _⟩ <;> omega
    have hnn : 0 ≤ sq (dot (residual S b x) (residual S b x)) := (hsq _ (hd.nonneg _)).1
    -- the residual data at the head of the pass
    generalize hm1 : (if it = 0 then monitorInit par ls (sq (dot (residual S b x) (residual S b x)))
      else (ls, false)) = mm
    by_cases hstop : mm.2 = true
    · -- the first residual is small
      have h0 : it = 0 := by
        by_contra h; rw [if_neg h] at hm1; rw [← hm1] at hstop; simp at hstop
      subst h0
      have hx : x = x0 := by rcases hit with ⟨_, h⟩ | ⟨h, _⟩; exact h; omega
      subst hx
      rw [if_pos rfl] at hm1
      unfold monitorInit at hm1
      by_cases hs : sq (dot (residual S b x) (residual S b x)) < par.atol
      · simp only [if_pos hs] at hm1
        refine ⟨x, mm.1, 0, 0, ?_, ⟨?_, ?_, ?_, by simp, by simp, Or.inl ⟨?_, ?_⟩⟩, by simp⟩
        · simp only [outer, if_pos hlt]
          rw [← hm1]
          simp only [monitorInit, if_true, if_pos hs]
        · rw [← hm1]; simp [upd]
        · rw [← hm1]; simp [upd]
        · intro i j hij hj
          have : i = j := by omega
          rw [this]
        · rw [← hm1]
        · exact lt_of_lt_of_le hs (le_max_right _ _)
      · simp only [if_neg hs] at hm1
        rw [← hm1] at hstop; simp at hstop
    · -- a cycle is run
      have hkey : mm.1.status = .running ∧ Hist par mm.1 it ∧
          mm.1.res it = sq (dot (residual S b x) (residual S b x)) ∧
          mm.1.res 0 = sq (dot (residual S b x0) (residual S b x0)) := by
        rcases hit with ⟨h0, hx⟩ | ⟨h0, h1, h2, h3, h4⟩
        · subst h0; subst hx
          rw [if_pos rfl] at hm1
          unfold monitorInit at hm1
          by_cases hs : sq (dot (residual S b x) (residual S b x)) < par.atol
          · simp only [if_pos hs] at hm1
            rw [← hm1] at hstop; simp at hstop
          · simp only [if_neg hs] at hm1
            rw [← hm1]
            refine ⟨hrun, ⟨?_, by simp, ?_, by simp⟩, by simp [upd], by simp [upd]⟩
            · intro i j hij hj
              have : i = j := by omega
              rw [this]
            · simp only [upd, if_true]; exact not_lt.1 hs
        · rw [if_neg (by omega)] at hm1
          rw [← hm1]
          exact ⟨hrun, h2, h3, h4⟩
      obtain ⟨k1, k2, k3, k4⟩ := hkey
      have hrho : sq (dot (residual S b x) (residual S b x)) ≠ 0 := by
        rw [← k3]; exact (lt_of_lt_of_le hat k2.2.2.1).ne'
      obtain ⟨q, hq, c1, c2, c3, c4, c5, m, d1, d2, d3, d4, d5, d6, d7⟩ :=
        inner_spec hd hsq re hS hat restart 0 it mm.1
          (start restart z (residual S b x) (sq (dot (residual S b x) (residual S b x))))
          (start_inv hd hsq (op S) restart z _ hrho) k2 k1
          (by rw [k3]; simp only [start, set_same]; exact abs_of_nonneg hnn)
      have hup := (c1.update hd hS y).1
      have hnew : sq (dot (residual S b (update S q.z q.k (computeY q.z.H q.z.g q.k y) x))
          (residual S b (update S q.z q.k (computeY q.z.H q.z.g q.k y) x))) = q.ls.res m := by
        rw [hup, ← d3]
        exact hsq.unique (abs_nonneg _) (abs_mul_abs_self _)
      have hr0 : q.ls.res 0 = sq (dot (residual S b x0) (residual S b x0)) := by
        rw [c5 0 (by omega), k4]
      have hout : outer par restart S dot sq re b (f + 1) it ls z y x =
          if q.done then some (update S q.z q.k (computeY q.z.H q.z.g q.k y) x, q.ls, q.it)
          else outer par restart S dot sq re b f q.it q.ls q.z (computeY q.z.H q.z.g q.k y)
            (update S q.z q.k (computeY q.z.H q.z.g q.k y) x) := by
        rw [outer]
        simp only [if_pos hlt, hm1, hrho, hq, if_false]
        rw [if_neg hstop]
      have hlim : m = 0 ∨ m + 2 ≤ par.maxit := by
        rcases d6 hre with h | h
        · exact Or.inr h
        · rcases hit with ⟨h0, _⟩ | ⟨_, h1, _⟩
          · exact Or.inl (by omega)
          · exact Or.inr (by omega)
      rcases d7 with ⟨e1, e2, e3, e4, e5⟩ | ⟨e1, e2, e3, e4, e5, e6⟩ | ⟨e1, e2, e3, e4, e5, e6⟩
      · refine ⟨_, q.ls, q.it, m, by rw [hout, if_pos e1], ⟨hr0, hnew.symm, d4, d5, hlim, Or.inl ⟨e2, ?_⟩⟩, by omega⟩
        rw [hnew, ← hr0]; exact e5
      · refine ⟨_, q.ls, q.it, m, by rw [hout, if_pos e1],
          ⟨hr0, hnew.symm, d4, d5, hlim, Or.inr ⟨e2, e4, ?_, ?_⟩⟩, by omega⟩
        · simp only [hnew]; exact e5
        · simp only [hnew, ← hr0]; exact e6
      · rw [hout, if_neg (by simp [e1])]
        refine ih q.it q.ls q.z _ _ (by omega) e2 (Or.inr ⟨by omega, ?_, ⟨?_, ?_, ?_, ?_⟩, ?_, hr0⟩)
        · rw [e3]; rcases hlim with h | h <;> omega
        · rw [e3]; exact d4
        · rw [e3]; exact d5
        · rw [e3]; exact e5
        · rw [e3]; exact e6
        · rw [e3]; exact hnew.symm

/-- **C95, the outcome of a solve.**  For every regular system, right-hand side and initial guess,
    every iteration limit and restart, and whatever the object's arrays held before: the solve ends
    without a division by zero.  The recorded norms start at the norm of the initial residual,
    never increase, and the last of them is the norm of the (left-preconditioned) residual of the
    vector returned.  Success is reported only when that norm is below the tolerance; otherwise
    the iteration limit was reached and the norm is not below the tolerance. -/
theorem C95_outcome {dot : E → E → K} (hd : IsDot dot) {sq : K → K} (hsq : IsSqrt sq) (re : Nat)
    {S : Sys E} (hS : Regular K S) {par : Par K} (hat : 0 < par.atol) (hmax : 0 < par.maxit)
    {restart : Nat} (hre : restart > 2) (b x0 : E) (ls : LS K) (z : Cyc K E) :
    ∃ x ls' n m, solve par restart S dot sq re b x0 ls z = some (x, ls', n) ∧
      Outcome (fun w => sq (dot w w)) par S b x0 x ls' m ∧ n ≤ m + 1 :=
  outer_spec hd hsq re hS hat hmax (by omega) b x0 _ 0 _ _ _ x0 (by omega) rfl (Or.inl ⟨rfl, rfl⟩)

/-- **C95, success is truthful.** -/
theorem C95_success {dot : E → E → K} (hd : IsDot dot) {sq : K → K} (hsq : IsSqrt sq) (re : Nat)
    {S : Sys E} (hS : Regular K S) {par : Par K} (hat : 0 < par.atol) (hmax : 0 < par.maxit)
    {restart : Nat} (hre : restart > 2) (b x0 : E) (ls : LS K) (z : Cyc K E) {x : E} {ls' : LS K} {n : Nat}
    (h : solve par restart S dot sq re b x0 ls z = some (x, ls', n)) (hs : ls'.status = .success) :
    sq (dot (residual S b x) (residual S b x)) <
      max (par.rtol * sq (dot (residual S b x0) (residual S b x0))) par.atol := by
  obtain ⟨x1, l1, n1, m, e, ho, _⟩ := C95_outcome hd hsq re hS hat hmax hre b x0 ls z
  rw [h] at e
  obtain ⟨rfl, rfl, rfl⟩ : x = x1 ∧ ls' = l1 ∧ n = n1 := by simpa using e
  rcases ho.status with ⟨_, h1⟩ | ⟨h1, _⟩
  · exact h1
  · rw [hs] at h1; cases h1

/-- **C95, the residual never grows** and divergence is never reported. -/
theorem C95_no_growth {dot : E → E → K} (hd : IsDot dot) {sq : K → K} (hsq : IsSqrt sq) (re : Nat)
    {S : Sys E} (hS : Regular K S) {par : Par K} (hat : 0 < par.atol) (hmax : 0 < par.maxit)
    {restart : Nat} (hre : restart > 2) (b x0 : E) (ls : LS K) (z : Cyc K E) {x : E} {ls' : LS K} {n : Nat}
    (h : solve par restart S dot sq re b x0 ls z = some (x, ls', n)) :
    sq (dot (residual S b x) (residual S b x)) ≤ sq (dot (residual S b x0) (residual S b x0)) ∧
      ls'.status ≠ .diverge := by
  obtain ⟨x1, l1, n1, m, e, ho, _⟩ := C95_outcome hd hsq re hS hat hmax hre b x0 ls z
  rw [h] at e
  obtain ⟨rfl, rfl, rfl⟩ : x = x1 ∧ ls' = l1 ∧ n = n1 := by simpa using e
  constructor
  · rw [← ho.first, ← ho.last]
    exact ho.mono 0 m (by omega) le_rfl
  · rcases ho.status with ⟨h1, _⟩ | ⟨h1, _⟩ <;> rw [h1] <;> decide

/-- **C95, the iterate of a cycle is optimal.**  A cycle that starts at `x` and makes `q.k` inner
    iterations moves to `x + P w` with `w` in the Krylov space of the (preconditioned) operator and
    the starting residual, and no other `w` of that space gives a smaller residual. -/
theorem C95_optimal {dot : E → E → K} (hd : IsDot dot) {sq : K → K} (hsq : IsSqrt sq) (re : Nat)
    {S : Sys E} (hS : Regular K S) {par : Par K} (hat : 0 < par.atol) (restart : Nat) (b x : E) (it : Nat)
    (ls : LS K) (z : Cyc K E) (y : Nat → K) (hrun : ls.status = .running) (hH : Hist par ls it)
    (hres : ls.res it = sq (dot (residual S b x) (residual S b x))) {q : Inner K E}
    (hq : inner par S dot sq re restart 0 it ls
      (start restart z (residual S b x) (sq (dot (residual S b x) (residual S b x)))) = some q) :
    (∃ w ∈ krylov K (op S) (residual S b x) q.k,
      update S q.z q.k (computeY q.z.H q.z.g q.k y) x = pc S .right w + x) ∧
    ∀ w ∈ krylov K (op S) (residual S b x) q.k,
      dot (residual S b (update S q.z q.k (computeY q.z.H q.z.g q.k y) x))
          (residual S b (update S q.z q.k (computeY q.z.H q.z.g q.k y) x)) ≤
        dot (residual S b (pc S .right w + x)) (residual S b (pc S .right w + x)) := by
  have hnn : 0 ≤ sq (dot (residual S b x) (residual S b x)) := (hsq _ (hd.nonneg _)).1
  have hrho : sq (dot (residual S b x) (residual S b x)) ≠ 0 := by
    rw [← hres]; exact (lt_of_lt_of_le hat hH.2.2.1).ne'
  obtain ⟨q', hq', c1, _⟩ := inner_spec hd hsq re hS hat restart 0 it ls
    (start restart z (residual S b x) (sq (dot (residual S b x) (residual S b x))))
    (start_inv hd hsq (op S) restart z _ hrho) hH hrun
    (by rw [hres]; simp only [start, set_same]; exact abs_of_nonneg hnn)
  rw [hq] at hq'
  obtain rfl : q = q' := by simpa using hq'
  refine ⟨⟨∑ i ∈ range q.k, computeY q.z.H q.z.g q.k y i • q.z.v i, ?_, ?_⟩, ?_⟩
  · refine Submodule.sum_mem _ fun i hi => Submodule.smul_mem _ _ ?_
    have := Finset.mem_range.1 hi
    exact krylov_mono _ _ (by omega) (c1.kry i this)
  · unfold update; rw [foldl_comb]
  · intro w hw
    obtain ⟨a, rfl⟩ := c1.krylov_comb hS.op_lin hw
    rw [(c1.update hd hS y).1]
    exact (c1.update hd hS y).2 a

/-! ### Finite termination -/

theorem Ortho.linearIndependent {dot : E → E → K} (hd : IsDot dot) {v : Nat → E} {n : Nat}
    (ho : Ortho dot v n) : LinearIndependent K (fun i : Fin n => v i) := by
  rw [Fintype.linearIndependent_iff]
  intro g hg i
  have h1 : dot (∑ j : Fin n, g j • v j) (v i) = 0 := by rw [hg, hd.zero_left]
  have h2 : ∀ s : Finset (Fin n), dot (∑ j ∈ s, g j • v j) (v i) = ∑ j ∈ s, g j * dot (v j) (v i) := by
    intro s
    induction s using Finset.induction_on with
    | empty => simp [hd.zero_left]
    | insert a s ha ih => rw [Finset.sum_insert ha, Finset.sum_insert ha, hd.add, hd.smul, ih]
  rw [h2, Finset.sum_eq_single i] at h1
  · rw [ho i i i.2 i.2] at h1; simpa using h1
  · intro j _ hne
    rw [ho j i j.2 i.2, if_neg (fun h => hne (Fin.ext h)), mul_zero]
  · intro hn; exact absurd (Finset.mem_univ i) hn

theorem inner_finite [Module.Finite K E] {dot : E → E → K} (hd : IsDot dot) {sq : K → K} (hsq : IsSqrt sq)
    (re : Nat) {S : Sys E} (hS : Regular K S) {par : Par K} (hat : 0 < par.atol)
    (hmax : Module.finrank K E + 2 ≤ par.maxit) {r0 : E} (n k : Nat)
    (ls : LS K) (z : Cyc K E) (hI : Inv dot (op S) r0 z k) (hn : Module.finrank K E ≤ n + k)
    (hH : Hist par ls k) (hrun : ls.status = .running) (hg : |z.g k| = ls.res k) :
    ∃ q, inner par S dot sq re n k k ls z = some q ∧ q.done = true ∧ q.ls.status = .success ∧
      q.it ≤ Module.finrank K E := by
  have hcard : k + 1 ≤ Module.finrank K E := by
    simpa using (hI.orth.linearIndependent hd).fintype_card_le_finrank
  obtain ⟨n, rfl⟩ : ∃ n', n = n' + 1 := ⟨n - 1, by omega⟩
  induction n generalizing k ls z with
  | zero =>
    have hlim : ¬ par.maxit ≤ k + 1 + 1 := by omega
    obtain ⟨z', hz', hT, hInv, hle⟩ := step_spec hd hsq re hS.op_lin hS.op_inj hI
    have h0 : z'.g (k + 1) = 0 := by
      by_contra hne
      have := ((hInv hne).orth.linearIndependent hd).fintype_card_le_finrank
      simp at this; omega
    have hm := monitor_eq par ls (k + 1) (by omega) |z'.g (k + 1)| (by omega)
      (by rw [h0, abs_zero]; simp only [Nat.add_sub_cancel]; rw [← hg]; exact abs_nonneg _)
    rw [if_pos (by rw [h0, abs_zero]; exact lt_of_lt_of_le hat (le_max_right _ _))] at hm
    exact ⟨_, by simp only [inner, if_neg hlim, hz', hm]; rfl, rfl, rfl, hcard⟩
  | succ n ih =>
    have hlim : ¬ par.maxit ≤ k + 1 + 1 := by omega
    obtain ⟨z', hz', hT, hInv, hle⟩ := step_spec hd hsq re hS.op_lin hS.op_inj hI
    have habs : |z'.g (k + 1)| ≤ ls.res k := by
      rw [← hg]; exact inner_spec.abs_le_abs_of_sq_le_sq' hle
    have hm := monitor_eq par ls (k + 1) (by omega) |z'.g (k + 1)| (by omega) (by simpa using habs)
    have hres : ∀ j, j ≤ k → upd ls.res (k + 1) |z'.g (k + 1)| j = ls.res j := by
      intro j hj; simp only [upd]; rw [if_neg (by omega)]
    have hres1 : upd ls.res (k + 1) |z'.g (k + 1)| (k + 1) = |z'.g (k + 1)| := by simp [upd]
    by_cases hconv : |z'.g (k + 1)| < max (par.rtol * ls.res 0) par.atol
    · rw [if_pos hconv] at hm
      exact ⟨_, by simp only [inner, if_neg hlim, hz', hm]; rfl, rfl, rfl, hcard⟩
    · rw [if_neg hconv] at hm
      have hpos : 0 < |z'.g (k + 1)| :=
        lt_of_lt_of_le (lt_of_lt_of_le hat (le_max_right _ _)) (not_lt.1 hconv)
      have hI' := hInv (abs_pos.1 hpos)
      have hcard' : k + 1 + 1 ≤ Module.finrank K E := by
        simpa using (hI'.orth.linearIndependent hd).fintype_card_le_finrank
      have hH' : Hist par ⟨.running, k + 1, upd ls.res (k + 1) |z'.g (k + 1)|⟩ (k + 1) := by
        refine ⟨?_, fun _ => rfl, ?_⟩
        · intro i j hij hj
          by_cases hj1 : j = k + 1
          · by_cases hi1 : i = k + 1
            · rw [hi1, hj1]
            · simp only [hj1, hres1, hres i (by omega)]
              exact habs.trans (hH.1 i k (by omega) le_rfl)
          · simp only [hres j (by omega), hres i (by omega)]
            exact hH.1 i j hij (by omega)
        · simp only [hres1, hres 0 (by omega)]
          exact ⟨(le_max_right _ _).trans (not_lt.1 hconv), fun _ => not_lt.1 hconv⟩
      obtain ⟨q, hq, e1, e2, e3⟩ := ih (k + 1) ⟨.running, k + 1, upd ls.res (k + 1) |z'.g (k + 1)|⟩ z' hI'
        hH' rfl hres1.symm hcard' (by omega)
      exact ⟨q, by rw [inner]; simp only [if_neg hlim, hz', hm]; exact hq, e1, e2, e3⟩

/-- **C95, finite termination.**  On a system with `n` unknowns, a restart of at least `n` and a
    limit of at least `n + 2` always give success, after at most `n` inner iterations. -/
theorem C95_terminates [Module.Finite K E] {dot : E → E → K} (hd : IsDot dot) {sq : K → K}
    (hsq : IsSqrt sq) (re : Nat) {S : Sys E} (hS : Regular K S) {par : Par K} (hat : 0 < par.atol)
    {restart : Nat} (hre : restart > 2) (hdim : Module.finrank K E ≤ restart)
    (hmax : Module.finrank K E + 2 ≤ par.maxit) (b x0 : E) (ls : LS K) (z : Cyc K E) :
    ∃ x ls' n, solve par restart S dot sq re b x0 ls z = some (x, ls', n) ∧ ls'.status = .success ∧
      n ≤ Module.finrank K E := by
  unfold solve
  rw [outer, if_pos (by omega)]
  simp only [if_true]
  have hnn : 0 ≤ sq (dot (residual S b x0) (residual S b x0)) := (hsq _ (hd.nonneg _)).1
  unfold monitorInit
  by_cases hs : sq (dot (residual S b x0) (residual S b x0)) < par.atol
  · simp only [if_pos hs]
    exact ⟨_, _, _, rfl, rfl, by omega⟩
  · simp only [if_neg hs]
    have hrho : sq (dot (residual S b x0) (residual S b x0)) ≠ 0 :=
      (lt_of_lt_of_le hat (not_lt.1 hs)).ne'
    obtain ⟨q, hq, e1, e2, e3⟩ := inner_finite hd hsq re hS hat hmax restart 0
      { status := .running, numIt := ls.numIt,
        res := upd ls.res 0 (sq (dot (residual S b x0) (residual S b x0))) }
      (start restart { z with v := fun _ => 0, c := fun _ => 0, s := fun _ => 0 } (residual S b x0)
        (sq (dot (residual S b x0) (residual S b x0))))
      (start_inv hd hsq (op S) restart _ _ hrho) (by omega)
      ⟨by intro i j hij hj; have : i = j := by omega
          rw [this], by simp, by simp only [upd, if_true]; exact not_lt.1 hs, by simp⟩ rfl
      (by simp only [start, set_same, upd, if_true]; exact abs_of_nonneg hnn)
    simp only [hrho, if_false, hq, e1, if_true, Bool.false_eq_true]
    exact ⟨_, _, _, rfl, e2, e3⟩

/-! ### Concrete cases -/

/-- The usual inner product of two-vectors. -/
def dot2 {K : Type} [Field K] (a b : Fin 2 → K) : K := a 0 * b 0 + a 1 * b 1

theorem isDot_dot2 : IsDot (dot2 : (Fin 2 → K) → (Fin 2 → K) → K) := by
  refine ⟨fun a b c => ?_, fun t a c => ?_, fun a b => ?_, fun a ha => ?_⟩
  · simp only [dot2, Pi.add_apply]; ring
  · simp only [dot2, Pi.smul_apply, smul_eq_mul]; ring
  · simp only [dot2]; ring
  · have h : a 0 ≠ 0 ∨ a 1 ≠ 0 := by
      by_contra h
      push Not at h
      refine ha (funext fun i => ?_)
      fin_cases i
      · exact h.1
      · exact h.2
    unfold dot2
    rcases h with h | h
    · have := mul_self_pos.2 h; have := mul_self_nonneg (a 1); linarith
    · have := mul_self_pos.2 h; have := mul_self_nonneg (a 0); linarith

/-- The matrix `[[2,1],[0,3]]`. -/
def upper2 {K : Type} [Field K] (w : Fin 2 → K) : Fin 2 → K := ![2 * w 0 + w 1, 3 * w 1]

theorem regular_upper2 : Regular ℝ (⟨upper2, none, .none⟩ : Sys (Fin 2 → ℝ)) := by
  refine ⟨⟨fun a b => ?_, fun t a => ?_⟩, fun w hw => ?_, by simp, by simp⟩
  · funext i; fin_cases i <;> simp [upper2] <;> ring
  · funext i; fin_cases i <;> simp [upper2] <;> ring
  · have h0 := congrFun hw 0
    have h1 := congrFun hw 1
    simp [upper2] at h0 h1
    funext i
    fin_cases i
    · simp; rw [h1] at h0; linarith
    · simp; exact h1

theorem isSqrt_real : IsSqrt Real.sqrt := fun a ha => ⟨Real.sqrt_nonneg a, Real.mul_self_sqrt ha⟩

/-- The hypotheses of the theorems above hold of a two-by-two system over the reals. -/
example (b x0 : Fin 2 → ℝ) (ls : LS ℝ) (z : Cyc ℝ (Fin 2 → ℝ)) :
    ∃ x ls' n, solve ⟨1 / 10, 1 / 10, 4, true⟩ 3 ⟨upper2, none, .none⟩ dot2 Real.sqrt 1 b x0 ls z =
        some (x, ls', n) ∧ ls'.status = .success ∧ n ≤ 2 := by
  have hfr : Module.finrank ℝ (Fin 2 → ℝ) = 2 := by simp
  have := C95_terminates isDot_dot2 isSqrt_real 1 regular_upper2 (par := ⟨1 / 10, 1 / 10, 4, true⟩)
    (by norm_num) (restart := 3) (by omega) (by rw [hfr]; omega) (by rw [hfr]) b x0 ls z
  rwa [hfr] at this

/-- A quarter turn: the matrix `[[0,-1],[1,0]]`. -/
def turn {K : Type} [Field K] (w : Fin 2 → K) : Fin 2 → K := ![-w 1, w 0]

/-- A square root that is right on the numbers the runs below meet. -/
def sq01 (a : ℚ) : ℚ := a

/-- The initial data of the runs below. -/
def ls0 : LS ℚ := ⟨.running, 0, fun _ => 0⟩
/-- The initial data of the runs below. -/
def z0 : Cyc ℚ (Fin 2 → ℚ) := ⟨fun _ => 0, fun _ _ => 0, fun _ => 0, fun _ => 0, fun _ => 0⟩

/-- A run with a first step that makes no progress and a "happy breakdown" in the second. -/
theorem turn_run : (solve ⟨1 / 100, 1 / 100, 4, true⟩ 3 ⟨turn, none, .none⟩ dot2 sq01 1
    ![1, 0] ![0, 0] ls0 z0).map (fun r => (r.1 0, r.1 1, r.2.1.status, r.2.1.numIt, r.2.2)) =
      some (0, -1, .success, 2, 2) := by decide +kernel

/-- The vector of that run solves the system. -/
example : turn (![0, -1] : Fin 2 → ℚ) = ![1, 0] := by decide +kernel

/-! ### C96: what the user asked for and what the solver reports -/

/-- **C96, full statement.**  A solve ends in a definite status, and a limit of `maxit` allows
    `maxit` inner iterations: if it stops short of the tolerance, it reports the limit and has
    carried out at least that many. -/
def C96Claim : Prop :=
  ∀ (par : Par ℝ) (S : Sys (Fin 2 → ℝ)) (b x0 x : Fin 2 → ℝ) (ls ls' : LS ℝ)
    (z : Cyc ℝ (Fin 2 → ℝ)) (n : Nat),
    Regular ℝ S → 0 < par.atol → 0 < par.maxit →
    solve par 3 S dot2 Real.sqrt 1 b x0 ls z = some (x, ls', n) →
    ls'.status = .success ∨ (ls'.status = .maxit ∧ ls'.numIt = par.maxit)

theorem regular_turn : Regular ℚ (⟨turn, none, .none⟩ : Sys (Fin 2 → ℚ)) := by
  refine ⟨⟨fun a b => ?_, fun t a => ?_⟩, fun w hw => ?_, by simp, by simp⟩
  · funext i; fin_cases i <;> simp [turn] <;> ring
  · funext i; fin_cases i <;> simp [turn]
  · have h0 := congrFun hw 0
    have h1 := congrFun hw 1
    simp [turn] at h0 h1
    funext i
    fin_cases i
    · exact h1
    · exact h0

/-- The same system with a limit of 3: one inner iteration is made, the guess is returned as it
    was, and the status is still "running". -/
theorem turn_limit : (solve ⟨1 / 100, 1 / 100, 3, true⟩ 3 ⟨turn, none, .none⟩ dot2 sq01 1
    ![1, 0] ![0, 0] ls0 z0).map (fun r => (r.1 0, r.1 1, r.2.1.status, r.2.1.numIt, r.2.2)) =
      some (0, 0, .running, 1, 2) := by decide +kernel

theorem C96_claim_fails : ¬ C96Claim := by
  intro h
  obtain ⟨x, ls', n, m, e, ho, _⟩ := C95_outcome (par := ⟨1 / 100, 1 / 100, 2, true⟩) isDot_dot2 isSqrt_real 1
    regular_upper2 (by norm_num) (by norm_num) (restart := 3) (by omega) ![1, 0] ![0, 0]
    ⟨.running, 0, fun _ => 0⟩ ⟨fun _ => 0, fun _ _ => 0, fun _ => 0, fun _ => 0, fun _ => 0⟩
  have hm : m = 0 := by
    rcases ho.limit with h1 | h1
    · exact h1
    · simpa using h1
  subst hm
  have h1 : Real.sqrt (dot2 (residual ⟨upper2, none, .none⟩ ![1, 0] ![0, 0])
      (residual ⟨upper2, none, .none⟩ ![1, 0] (![0, 0] : Fin 2 → ℝ))) = 1 := by
    simp [dot2, residual, pc, upper2]
  have h2 := ho.first.symm.trans ho.last
  simp only [h1] at h2
  have h3 := ho.status
  simp only [h1, ← h2] at h3
  rcases h _ _ _ _ _ _ _ _ _ regular_upper2 (by norm_num) (by norm_num) e with h4 | ⟨h4, _⟩
  · rcases h3 with ⟨_, h5⟩ | ⟨h5, _⟩
    · norm_num at h5
    · rw [h4] at h5; cases h5
  · rcases h3 with ⟨h5, _⟩ | ⟨h5, _⟩ <;> rw [h4] at h5 <;> cases h5

/-- **C96, what does hold.**  The status is "success" or "running", never "limit reached"; when it
    is "running" the limit is what stopped the solve, and at most `maxit - 2` inner iterations were
    made. -/
theorem C96_status_partial {dot : E → E → K} (hd : IsDot dot) {sq : K → K} (hsq : IsSqrt sq) (re : Nat)
    {S : Sys E} (hS : Regular K S) {par : Par K} (hat : 0 < par.atol) (hmax : 0 < par.maxit)
    {restart : Nat} (hre : restart > 2) (b x0 : E) (ls : LS K) (z : Cyc K E) {x : E} {ls' : LS K} {n : Nat}
    (h : solve par restart S dot sq re b x0 ls z = some (x, ls', n)) :
    ls'.status = .success ∨ (ls'.status = .running ∧
      (ls'.numIt + 2 = par.maxit ∨ par.maxit ≤ 2) ∧
      par.atol ≤ sq (dot (residual S b x) (residual S b x))) := by
  obtain ⟨x1, l1, n1, m, e, ho, _⟩ := C95_outcome hd hsq re hS hat hmax hre b x0 ls z
  rw [h] at e
  obtain ⟨rfl, rfl, rfl⟩ : x = x1 ∧ ls' = l1 ∧ n = n1 := by simpa using e
  rcases ho.status with ⟨h1, _⟩ | ⟨h1, h2, h3, _⟩
  · exact Or.inl h1
  · refine Or.inr ⟨h1, ?_, h3⟩
    rcases ho.limit with h4 | h4
    · exact Or.inr (by omega)
    · by_cases hm : 0 < m
      · rw [ho.count hm]; exact Or.inl (by omega)
      · exact Or.inr (by omega)

/-- **C96, an exact initial guess with no absolute tolerance is not recognised**: the solve goes on
    to divide by the norm zero. -/
theorem C96_exact_guess {dot : E → E → K} (hd : IsDot dot) {sq : K → K} (hsq : IsSqrt sq) (re : Nat)
    {S : Sys E} {par : Par K} (hat : par.atol = 0) (hmax : 0 < par.maxit) (restart : Nat) (b x0 : E)
    (ls : LS K) (z : Cyc K E) (hx : residual S b x0 = 0) :
    solve par restart S dot sq re b x0 ls z = none := by
  unfold solve
  rw [outer, if_pos hmax]
  have h0 : sq (dot (residual S b x0) (residual S b x0)) = 0 := by
    rw [hx, hd.zero_left]; exact hsq.zero
  simp only [h0, if_true, monitorInit, hat, lt_irrefl, if_false]
  simp

/-- ... such a guess exists. -/
example : residual (⟨turn, none, .none⟩ : Sys (Fin 2 → ℚ)) ![1, 0] ![0, -1] = 0 := by decide +kernel

/-- **C96, a preconditioner chosen in the database is never applied**: whatever preconditioner and
    side the database names, the solve is the unpreconditioned one. -/
theorem C96_database_preconditioner (A P : E → E) (sd : Option Side) (par : Par K) (restart : Nat)
    (dot : E → E → K) (sq : K → K) (re : Nat) (b x0 : E) (ls : LS K) (z : Cyc K E) :
    solve par restart (setOperators empty A (some P) sd) dot sq re b x0 ls z =
      solve par restart (setOperators empty A none none) dot sq re b x0 ls z := by
  have hpc : ∀ sd', sd' ≠ Side.none → pc (setOperators empty A (some P) sd) sd' =
      pc (setOperators empty A none none) sd' := by
    intro sd' h
    funext w
    simp only [pc, setOperators, empty]
    exact if_neg (Ne.symm h)
  have hop : op (setOperators empty A (some P) sd) = op (setOperators empty A none none) := by
    funext w
    unfold op
    rw [hpc .left (by decide), hpc .right (by decide)]
    rfl
  have hres : ∀ b, residual (setOperators empty A (some P) sd) b =
      residual (setOperators empty A none none) b := by
    intro b; funext x
    unfold residual
    rw [hpc .left (by decide)]
    rfl
  have hstep : ∀ z : Cyc K E, step (setOperators empty A (some P) sd) dot sq re z =
      step (setOperators empty A none none) dot sq re z := by
    intro z; funext k; unfold step; rw [hop]
  have hin : ∀ n k it (ls : LS K) (z : Cyc K E),
      inner par (setOperators empty A (some P) sd) dot sq re n k it ls z =
        inner par (setOperators empty A none none) dot sq re n k it ls z := by
    intro n
    induction n with
    | zero => intros; rfl
    | succ n ih =>
      intro k it ls z
      simp only [inner, hstep, ih]
  have hup : ∀ z k y x, update (setOperators empty A (some P) sd) z k y x =
      update (setOperators empty A none none) (K := K) z k y x := by
    intro z k y x; unfold update; rw [hpc .right (by decide)]
  have hout : ∀ f it (ls : LS K) (z : Cyc K E) y x,
      outer par restart (setOperators empty A (some P) sd) dot sq re b f it ls z y x =
        outer par restart (setOperators empty A none none) dot sq re b f it ls z y x := by
    intro f
    induction f with
    | zero => intros; rfl
    | succ f ih =>
      intro it ls z y x
      simp only [outer, hres, hin, hup, ih]
  exact hout _ _ _ _ _ _

/-- A preconditioner handed over with `set_preconditioner` is applied on the side asked for: the
    operator the Krylov space is built from, and the residual that is minimised. -/
theorem C96_set_preconditioner (S : Sys E) (P : E → E) (b x w : E) :
    op (setPreconditioner S P .left) w = P (S.A w) ∧
    residual (setPreconditioner S P .left) b x = P (-(S.A x - b)) ∧
    op (setPreconditioner S P .right) w = S.A (P w) ∧
    residual (setPreconditioner S P .right) b x = -(S.A x - b) := ⟨rfl, rfl, rfl, rfl⟩

/-- ... and this makes a difference: with a preconditioner the operator is another one. -/
example : op (setPreconditioner ⟨turn, none, .none⟩ turn .left) (![1, 0] : Fin 2 → ℚ) ≠
    op (setOperators empty turn (some turn) (some .left)) ![1, 0] := by decide +kernel

end Detran.Gmres
