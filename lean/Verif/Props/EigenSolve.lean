import Verif.Model.EigenSolve
import Mathlib.Algebra.Module.LinearMap.End
import Mathlib.Algebra.Order.BigOperators.Group.Finset
import Mathlib.Algebra.Order.Ring.Abs
import Mathlib.Analysis.SpecificLimits.Basic
import Mathlib.Tactic.Linarith
import Mathlib.Tactic.FieldSimp
import Mathlib.Tactic.Module
import Mathlib.Tactic.Positivity

/-!
# Properties of callow's power iteration (C98)
-/

namespace Detran.EigenSolve

open Detran.Solver (Status)

section field
variable {K E : Type} [Field K] [LinearOrder K] [IsStrictOrderedRing K] [AddCommGroup E] [Module K E]

/-- What is asked of `Vector::norm`. -/
structure IsNorm (nrm : E → K) : Prop where
  smul : ∀ (a : K) v, nrm (a • v) = |a| * nrm v
  add : ∀ v w, nrm (v + w) ≤ nrm v + nrm w
  pos : ∀ v, v ≠ 0 → 0 < nrm v

namespace IsNorm
variable {nrm : E → K} (h : IsNorm nrm)
include h

theorem zero : nrm 0 = 0 := by simpa using h.smul 0 0

theorem nonneg (v : E) : 0 ≤ nrm v := by
  by_cases hv : v = 0
  · rw [hv, h.zero]
  · exact (h.pos v hv).le

theorem eq_zero {v : E} (hv : nrm v = 0) : v = 0 := by
  by_contra hne
  exact (h.pos v hne).ne' hv

theorem neg (v : E) : nrm (-v) = nrm v := by simpa using h.smul (-1) v

theorem sub_comm (v w : E) : nrm (v - w) = nrm (w - v) := by rw [← h.neg, neg_sub]

theorem sub_le (v w : E) : nrm (v - w) ≤ nrm v + nrm w := by
  rw [sub_eq_add_neg]; exact (h.add _ _).trans (by rw [h.neg])

theorem abs_sub (v w : E) : |nrm v - nrm w| ≤ nrm (v - w) := by
  rw [abs_le]
  constructor
  · have := h.add (w - v) v
    rw [sub_add_cancel] at this
    rw [h.sub_comm]; linarith
  · have := h.add (v - w) w
    rw [sub_add_cancel] at this
    linarith

theorem sum {ι : Type} (s : Finset ι) (f : ι → E) : nrm (∑ i ∈ s, f i) ≤ ∑ i ∈ s, nrm (f i) := by
  classical
  induction s using Finset.induction_on with
  | empty => simp [h.zero]
  | insert a s ha ih =>
    rw [Finset.sum_insert ha, Finset.sum_insert ha]
    exact (h.add _ _).trans (by linarith)

end IsNorm

/-- The L1 norm of vectors with `n` entries is such a norm. -/
theorem l1_isNorm (n : Nat) : IsNorm (fun x : Fin n → K => ∑ i, |x i|) where
  smul a v := by simp [abs_mul, Finset.mul_sum]
  add v w := by
    rw [← Finset.sum_add_distrib]
    exact Finset.sum_le_sum fun i _ => abs_add_le _ _
  pos v hv := by
    obtain ⟨i, hi⟩ := Function.ne_iff.1 hv
    exact Finset.sum_pos' (fun _ _ => abs_nonneg _) ⟨i, Finset.mem_univ _, abs_pos.2 hi⟩

/-! ## What is specified: powers of the operator -/

/-- The normalised power of the guess. -/
def iter (nrm : E → K) (T : E →ₗ[K] E) (g : E) (k : Nat) : E := (1 / nrm ((T ^ k) g)) • (T ^ k) g

/-- The eigenvalue estimate after `k` passes: the growth of the norm (before the first pass, the norm of the guess). -/
def est (nrm : E → K) (T : E →ₗ[K] E) (g : E) : Nat → K
  | 0 => nrm g
  | k + 1 => nrm ((T ^ (k + 1)) g) / nrm ((T ^ k) g)

/-- The residual formed in pass `k + 1`: of the iterate before it, with the estimate before it. -/
def resid (nrm : E → K) (T : E →ₗ[K] E) (g : E) (k : Nat) : K :=
  nrm (T (iter nrm T g k) - est nrm T g k • iter nrm T g k)

variable {nrm : E → K} {T : E →ₗ[K] E} {g : E}

theorem pow_succ_apply' (T : E →ₗ[K] E) (k : Nat) (g : E) : (T ^ (k + 1)) g = T ((T ^ k) g) := by
  rw [pow_succ']; rfl

theorem iter_norm (h : IsNorm nrm) (k : Nat) (hk : (T ^ k) g ≠ 0) : nrm (iter nrm T g k) = 1 := by
  have := h.pos _ hk
  rw [iter, h.smul, abs_of_pos (by positivity)]
  field_simp

theorem T_iter (h : IsNorm nrm) (k : Nat) (hk : (T ^ k) g ≠ 0) (hk' : (T ^ (k + 1)) g ≠ 0) :
    T (iter nrm T g k) = est nrm T g (k + 1) • iter nrm T g (k + 1) := by
  have h1 := (h.pos _ hk).ne'
  have h2 := (h.pos _ hk').ne'
  rw [iter, map_smul, ← pow_succ_apply', est, iter, smul_smul]
  congr 1
  field_simp

theorem est_nonneg (h : IsNorm nrm) (k : Nat) : 0 ≤ est nrm T g k := by
  cases k with
  | zero => exact h.nonneg _
  | succ k => exact div_nonneg (h.nonneg _) (h.nonneg _)

/-- The change of the estimate is at most the residual. -/
theorem est_diff (h : IsNorm nrm) (k : Nat) (hk : (T ^ k) g ≠ 0) (hk' : (T ^ (k + 1)) g ≠ 0) :
    |est nrm T g (k + 1) - est nrm T g k| ≤ resid nrm T g k := by
  have e1 : nrm (T (iter nrm T g k)) = est nrm T g (k + 1) := by
    rw [T_iter h k hk hk', h.smul, iter_norm h _ hk', abs_of_nonneg (est_nonneg h _), mul_one]
  have e2 : nrm (est nrm T g k • iter nrm T g k) = est nrm T g k := by
    rw [h.smul, iter_norm h _ hk, abs_of_nonneg (est_nonneg h _), mul_one]
  have := h.abs_sub (T (iter nrm T g k)) (est nrm T g k • iter nrm T g k)
  rwa [e1, e2] at this

/-! ## The loop -/

/-- What the locals hold after `i` passes. -/
def At (nrm : E → K) (T : E →ₗ[K] E) (g : E) (i : Nat) (s : PSt K E) : Prop :=
  s.x0 = iter nrm T g i ∧ s.lam = est nrm T g i ∧ (0 < i → s.x = s.x0)

theorem pass_spec (par : Par K) (h : IsNorm nrm) (A : E → E) (B : Option (E → E → E))
    (hT : ∀ v t, (power A B v t).1 = T v) (i : Nat) (s : PSt K E) (hs : At nrm T g i s) (hi : (T ^ i) g ≠ 0) :
    ((T ^ (i + 1)) g = 0 → pass par nrm A B i s = none) ∧
    ((T ^ (i + 1)) g ≠ 0 → ∃ t, pass par nrm A B i s =
        (monitor par s.log i (resid nrm T g i)).map fun m =>
          (⟨iter nrm T g (i + 1), iter nrm T g (i + 1), t, est nrm T g (i + 1), m.1⟩, m.2)) := by
  obtain ⟨h1, h2, -⟩ := hs
  have hq : (power A B s.x0 s.temp).1 = T (iter nrm T g i) := by rw [hT, h1]
  constructor
  · intro h0
    have : T (iter nrm T g i) = 0 := by
      rw [iter, map_smul, ← pow_succ_apply', h0, smul_zero]
    simp [pass, hq, this, h.zero]
  · intro h0
    have hTi := T_iter h i hi h0
    have hn : nrm (T (iter nrm T g i)) = est nrm T g (i + 1) := by
      rw [hTi, h.smul, iter_norm h _ h0, abs_of_nonneg (est_nonneg h _), mul_one]
    have hpos : 0 < est nrm T g (i + 1) := div_pos (h.pos _ h0) (h.pos _ hi)
    refine ⟨(power A B s.x0 s.temp).2, ?_⟩
    simp only [pass, hq, hn, if_neg hpos.ne']
    have hx : (1 / est nrm T g (i + 1)) • T (iter nrm T g i) = iter nrm T g (i + 1) := by
      rw [hTi, smul_smul, one_div, inv_mul_cancel₀ hpos.ne', one_smul]
    have hr : nrm ((-s.lam) • s.x0 + T (iter nrm T g i)) = resid nrm T g i := by
      rw [h1, h2, resid]; congr 1; module
    rw [hx, hr]

/-- Every way the loop can end. -/
theorem passes_spec (par : Par K) (h : IsNorm nrm) (A : E → E) (B : Option (E → E → E))
    (hT : ∀ v t, (power A B v t).1 = T v) (n i : Nat) (hn : i + n = par.maxit) (s : PSt K E)
    (hs : At nrm T g i s) (hi : (T ^ i) g ≠ 0) (hst : s.log.status = .maxit)
    (hnum : 0 < i → s.log.numIt = i - 1) (hres : ∀ j, j < i → s.log.res j = resid nrm T g j)
    (htol : ∀ j, j < i → par.tol ≤ resid nrm T g j) :
    (∀ r, passes par nrm A B n i s = some r → ∃ k, k ≤ par.maxit ∧ At nrm T g k r ∧ (T ^ k) g ≠ 0 ∧
        (∀ j, j < k → r.log.res j = resid nrm T g j) ∧ (0 < k → r.log.numIt = k - 1) ∧
        ((r.log.status = .success ∧ 0 < k ∧ resid nrm T g (k - 1) < par.tol ∧
            ∀ j, j + 1 < k → par.tol ≤ resid nrm T g j) ∨
         (r.log.status = .maxit ∧ k = par.maxit ∧ ∀ j, j < k → par.tol ≤ resid nrm T g j))) ∧
    ((∀ k, k ≤ par.maxit → (T ^ k) g ≠ 0) → par.maxit ≤ par.len → (passes par nrm A B n i s).isSome) := by
  induction n generalizing i s with
  | zero =>
    refine ⟨fun r hr => ?_, fun _ _ => rfl⟩
    simp only [passes, Option.some.injEq] at hr
    subst hr
    exact ⟨i, by omega, hs, hi, hres, hnum, Or.inr ⟨hst, by omega, htol⟩⟩
  | succ n ih =>
    obtain ⟨p1, p2⟩ := pass_spec par h A B hT i s hs hi
    by_cases h0 : (T ^ (i + 1)) g = 0
    · refine ⟨fun r hr => ?_, fun hk _ => absurd h0 (hk (i + 1) (by omega))⟩
      simp [passes, p1 h0] at hr
    · obtain ⟨t, ht⟩ := p2 h0
      by_cases hlen : i < par.len
      · have hne : i ≠ par.maxit := by omega
        by_cases hlt : resid nrm T g i < par.tol
        · have hp : passes par nrm A B (n + 1) i s = some ⟨iter nrm T g (i + 1), iter nrm T g (i + 1), t,
              est nrm T g (i + 1), { status := .success, numIt := i, res := Gmres.set s.log.res i (resid nrm T g i) }⟩ := by
            simp [passes, ht, monitor, hlen, hne, hlt]
          refine ⟨fun r hr => ?_, fun _ _ => by rw [hp]; rfl⟩
          rw [hp, Option.some.injEq] at hr
          subst hr
          refine ⟨i + 1, by omega, ⟨rfl, rfl, fun _ => rfl⟩, h0, ?_, fun _ => rfl, Or.inl ⟨rfl, by omega, ?_, ?_⟩⟩
          · intro j hj
            simp only [Gmres.set]
            split
            · rename_i hji; rw [hji]
            · exact hres j (by omega)
          · simpa using hlt
          · intro j hj; exact htol j (by omega)
        · have hp : passes par nrm A B (n + 1) i s = passes par nrm A B n (i + 1) ⟨iter nrm T g (i + 1),
              iter nrm T g (i + 1), t, est nrm T g (i + 1),
              { status := s.log.status, numIt := i, res := Gmres.set s.log.res i (resid nrm T g i) }⟩ := by
            simp [passes, ht, monitor, hlen, hne, hlt]
          rw [hp]
          refine ih (i + 1) (by omega) _ ⟨rfl, rfl, fun _ => rfl⟩ h0 hst (fun _ => rfl) ?_ ?_
          · intro j hj
            simp only [Gmres.set]
            split
            · rename_i hji; rw [hji]
            · exact hres j (by omega)
          · intro j hj
            by_cases hji : j = i
            · rw [hji]; exact not_lt.1 hlt
            · exact htol j (by omega)
      · refine ⟨fun r hr => ?_, fun _ hl => by omega⟩
        simp [passes, ht, monitor, hlen] at hr

/-! ## C98 -/

/-- What a solve that returns leaves, for an exact inner solve (`hT`: one pass applies the linear
    operator `T`, which is `A`, or `B⁻¹A` for a generalised problem).  After `k` passes the vector is the normalised
    `k`-th power applied to the guess, the eigenvalue the last growth factor, the recorded numbers are the residuals of
    the iterates, the count is `k - 1`.  Success is reported at the first residual below the tolerance and only then;
    otherwise the limit is reported after exactly the limit's number of passes. -/
theorem C98_outcome (par : Par K) (h : IsNorm nrm) (A : E → E) (B : Option (E → E → E))
    (hT : ∀ v t, (power A B v t).1 = T v) (ones x : E) (guess : Option E) (log : Log K) (r : PSt K E)
    (hr : powerSolve par nrm A B ones x guess log = some r) :
    let g := guess.getD ones
    g ≠ 0 ∧ ∃ k, k ≤ par.maxit ∧ (T ^ k) g ≠ 0 ∧ r.x0 = iter nrm T g k ∧ r.lam = est nrm T g k ∧
      (0 < k → r.x = iter nrm T g k ∧ nrm r.x = 1 ∧ r.log.numIt = k - 1) ∧
      (∀ j, j < k → r.log.res j = resid nrm T g j) ∧
      ((r.log.status = .success ∧ 0 < k ∧ resid nrm T g (k - 1) < par.tol ∧
          ∀ j, j + 1 < k → par.tol ≤ resid nrm T g j) ∨
       (r.log.status = .maxit ∧ k = par.maxit ∧ ∀ j, j < k → par.tol ≤ resid nrm T g j)) := by
  intro g
  simp only [powerSolve] at hr
  split at hr
  · cases hr
  · rename_i h0
    have hg : g ≠ 0 := fun hg => h0 (by rw [show guess.getD ones = 0 from hg, h.zero])
    refine ⟨hg, ?_⟩
    obtain ⟨q, -⟩ := passes_spec (T := T) (g := g) par h A B hT par.maxit 0 (by omega)
      ⟨x, (1 / nrm g) • g, g, nrm g, { log with status := .maxit }⟩ ⟨by simp [iter], rfl, fun h => absurd h (by simp)⟩
      (by simpa using hg) rfl (fun h => absurd h (by simp)) (fun j hj => absurd hj (by simp))
      (fun j hj => absurd hj (by simp))
    obtain ⟨k, k1, ⟨k2, k3, k4⟩, k5, k6, k7, k8⟩ := q r hr
    refine ⟨k, k1, k5, k2, k3, fun hk => ?_, k6, k8⟩
    rw [k4 hk, k2]
    exact ⟨rfl, iter_norm h k k5, k7 hk⟩

/-- A solve is defined when the guess and its images under the operator do not vanish and the
    residual array is long enough, as it is for the limit given at construction. -/
theorem C98_defined (par : Par K) (h : IsNorm nrm) (A : E → E) (B : Option (E → E → E))
    (hT : ∀ v t, (power A B v t).1 = T v) (ones x : E) (guess : Option E) (log : Log K)
    (hne : ∀ k, k ≤ par.maxit → (T ^ k) (guess.getD ones) ≠ 0) (hl : par.maxit ≤ par.len) :
    (powerSolve par nrm A B ones x guess log).isSome := by
  have hg : guess.getD ones ≠ 0 := by simpa using hne 0 (by omega)
  simp only [powerSolve, if_neg (h.pos _ hg).ne']
  exact (passes_spec (T := T) (g := guess.getD ones) par h A B hT par.maxit 0 (by omega) _
    ⟨by simp [iter], rfl, fun h => absurd h (by simp)⟩ (by simpa using hg) rfl (fun h => absurd h (by simp))
    (fun j hj => absurd hj (by simp)) (fun j hj => absurd hj (by simp))).2 hne hl

/-- What success means: the vector before the last pass is normalised and, with the returned
    eigenvalue, an eigenpair up to twice the tolerance; the returned vector is its normalised image and, times the
    eigenvalue, no further from it than that. -/
theorem C98_success (par : Par K) (h : IsNorm nrm) (A : E → E) (B : Option (E → E → E))
    (hT : ∀ v t, (power A B v t).1 = T v) (ones x : E) (guess : Option E) (log : Log K) (r : PSt K E)
    (hr : powerSolve par nrm A B ones x guess log = some r) (hs : r.log.status = .success) :
    0 < r.lam ∧ nrm r.x = 1 ∧ ∃ v, nrm v = 1 ∧ T v = r.lam • r.x ∧ nrm (T v - r.lam • v) < 2 * par.tol ∧
      r.lam * nrm (r.x - v) < 2 * par.tol := by
  obtain ⟨hg, k, k1, k2, k3, k4, k5, k6, k7⟩ := C98_outcome par h A B hT ones x guess log r hr
  rcases k7 with ⟨-, p1, p2, p3⟩ | ⟨q, -⟩
  · obtain ⟨k, rfl⟩ : ∃ j, k = j + 1 := ⟨k - 1, by omega⟩
    obtain ⟨e1, e2, -⟩ := k5 p1
    simp only [Nat.add_sub_cancel] at p2
    have hk : (T ^ k) (guess.getD ones) ≠ 0 := fun h0 => k2 (by rw [pow_succ_apply', h0, map_zero])
    have hTi := T_iter h k hk k2
    have hd := est_diff h k hk k2
    have hpos : 0 < r.lam := by rw [k4]; exact div_pos (h.pos _ k2) (h.pos _ hk)
    have hmain : nrm (T (iter nrm T (guess.getD ones) k) - r.lam • iter nrm T (guess.getD ones) k) < 2 * par.tol := by
      have := h.add (T (iter nrm T (guess.getD ones) k) - est nrm T (guess.getD ones) k • iter nrm T (guess.getD ones) k)
        ((est nrm T (guess.getD ones) k - est nrm T (guess.getD ones) (k + 1)) • iter nrm T (guess.getD ones) k)
      rw [h.smul, iter_norm h k hk, abs_sub_comm, mul_one] at this
      have e : T (iter nrm T (guess.getD ones) k) - r.lam • iter nrm T (guess.getD ones) k =
        (T (iter nrm T (guess.getD ones) k) - est nrm T (guess.getD ones) k • iter nrm T (guess.getD ones) k) +
        ((est nrm T (guess.getD ones) k - est nrm T (guess.getD ones) (k + 1)) • iter nrm T (guess.getD ones) k) := by
        rw [k4]; module
      rw [e]
      refine lt_of_le_of_lt this ?_
      unfold resid at p2 hd
      linarith
    refine ⟨hpos, e2, iter nrm T (guess.getD ones) k, iter_norm h k hk, by rw [hTi, e1, k4], hmain, ?_⟩
    have : r.lam * nrm (r.x - iter nrm T (guess.getD ones) k) =
        nrm (T (iter nrm T (guess.getD ones) k) - r.lam • iter nrm T (guess.getD ones) k) := by
      rw [hTi, e1, k4, ← smul_sub, h.smul, abs_of_pos (by rw [← k4]; exact hpos)]
    rw [this]; exact hmain
  · rw [q] at hs; cases hs

/-- An eigenvector with a positive eigenvalue is found in at most two passes, exactly. -/
theorem C98_eigenvector_partial (par : Par K) (h : IsNorm nrm) (A : E → E) (B : Option (E → E → E))
    (hT : ∀ v t, (power A B v t).1 = T v) (ones x g : E) (log : Log K) (mu : K) (hmu : 0 < mu) (hg : g ≠ 0)
    (he : T g = mu • g) (htol : 0 < par.tol) (hmax : 2 ≤ par.maxit) (hl : par.maxit ≤ par.len) :
    ∃ r, powerSolve par nrm A B ones x (some g) log = some r ∧ r.log.status = .success ∧ r.lam = mu ∧
      r.x = (1 / nrm g) • g ∧ r.log.numIt ≤ 1 := by
  have hpow : ∀ k, (T ^ k) g = mu ^ k • g := by
    intro k
    induction k with
    | zero => simp
    | succ k ih => rw [pow_succ_apply', ih, map_smul, he, smul_smul, pow_succ]
  have hne : ∀ k, (T ^ k) g ≠ 0 := fun k => by
    rw [hpow]; exact smul_ne_zero (pow_ne_zero _ hmu.ne') hg
  have hn := h.pos g hg
  have hit : ∀ k, iter nrm T g k = (1 / nrm g) • g := by
    intro k
    rw [iter, hpow, h.smul, smul_smul, abs_of_pos (pow_pos hmu k)]
    congr 1
    have := (pow_pos hmu k).ne'
    field_simp
  have hest : ∀ k, est nrm T g (k + 1) = mu := by
    intro k
    rw [est, hpow, hpow, h.smul, h.smul, abs_of_pos (pow_pos hmu _), abs_of_pos (pow_pos hmu _), pow_succ]
    have := (pow_pos hmu k).ne'
    field_simp
  have hres : ∀ k, resid nrm T g (k + 1) = 0 := by
    intro k
    rw [resid, hit, hest, map_smul, he, smul_smul, smul_smul, mul_comm, sub_self, h.zero]
  obtain ⟨r, hr⟩ := Option.isSome_iff_exists.1 (C98_defined par h A B hT ones x (some g) log (fun k _ => hne k) hl)
  obtain ⟨-, k, k1, k2, k3, k4, k5, k6, k7⟩ := C98_outcome par h A B hT ones x (some g) log r hr
  simp only [Option.getD_some] at *
  rcases k7 with ⟨p0, p1, p2, p3⟩ | ⟨q1, q2, q3⟩
  · obtain ⟨e1, e2, e3⟩ := k5 p1
    obtain ⟨k, rfl⟩ : ∃ j, k = j + 1 := ⟨k - 1, by omega⟩
    refine ⟨r, hr, p0, by rw [k4, hest], by rw [e1, hit], ?_⟩
    by_contra hc
    have := p3 1 (by omega)
    rw [hres] at this
    linarith
  · have := q3 1 (by omega)
    rw [hres] at this
    linarith

/-- The full statement: started at an eigenvector of any non-zero eigenvalue, the solver reports it. -/
def C98Claim (K : Type) [Field K] [LinearOrder K] : Prop :=
  ∀ (lam tol : K) (maxit : Nat), lam ≠ 0 → 0 < tol → 2 ≤ maxit → ∃ r,
    powerSolve (Par.new tol maxit) (fun x : K => |x|) (fun x => lam * x) none 1 0 (some 1) ⟨.running, 0, fun _ => 0⟩ =
      some r ∧ r.log.status = .success ∧ r.lam = lam

/-- A negative eigenvalue is never reported: every estimate is a norm. -/
theorem C98_never_negative (par : Par K) (h : IsNorm nrm) (A : E → E) (B : Option (E → E → E))
    (hT : ∀ v t, (power A B v t).1 = T v) (ones x : E) (guess : Option E) (log : Log K) (r : PSt K E)
    (hr : powerSolve par nrm A B ones x guess log = some r) : 0 < r.lam := by
  obtain ⟨hg, k, k1, k2, k3, k4, -⟩ := C98_outcome par h A B hT ones x guess log r hr
  rw [k4]
  cases k with
  | zero => exact h.pos _ hg
  | succ k =>
    exact div_pos (h.pos _ k2) (h.pos _ fun h0 => k2 (by rw [pow_succ_apply', h0, map_zero]))

theorem C98_claim_fails : ¬ C98Claim ℚ := by
  intro hc
  obtain ⟨r, hr, -, h3⟩ := hc (-1) 1 2 (by norm_num) (by norm_num) le_rfl
  have := C98_never_negative (T := (-1 : ℚ) • LinearMap.id) (Par.new (1 : ℚ) 2)
    (⟨fun a v => by simp [abs_mul], fun v w => abs_add_le _ _, fun v hv => abs_pos.2 hv⟩ : IsNorm fun x : ℚ => |x|)
    (fun x => (-1 : ℚ) * x) none (fun v t => by simp [power]) 1 0 (some 1) ⟨.running, 0, fun _ => 0⟩ r hr
  rw [h3] at this
  norm_num at this

/-- From an eigenvector of a negative eigenvalue the residual stays at twice its size, so the limit
    is reported, with the eigenvalue's absolute value. -/
theorem C98_negative (par : Par K) (h : IsNorm nrm) (A : E → E) (B : Option (E → E → E))
    (hT : ∀ v t, (power A B v t).1 = T v) (ones x g : E) (log : Log K) (mu : K) (hmu : 0 < mu) (hg : g ≠ 0)
    (he : T g = (-mu) • g) (htol : par.tol ≤ 2 * mu) (htol' : par.tol ≤ mu + nrm g) (hmax : 0 < par.maxit)
    (hl : par.maxit ≤ par.len) :
    ∃ r, powerSolve par nrm A B ones x (some g) log = some r ∧ r.log.status = .maxit ∧ r.lam = mu := by
  have hpow : ∀ k, (T ^ k) g = (-mu) ^ k • g := by
    intro k
    induction k with
    | zero => simp
    | succ k ih => rw [pow_succ_apply', ih, map_smul, he, smul_smul, pow_succ]
  have hmu' : (-mu) ≠ 0 := neg_ne_zero.2 hmu.ne'
  have hne : ∀ k, (T ^ k) g ≠ 0 := fun k => by
    rw [hpow]; exact smul_ne_zero (pow_ne_zero _ hmu') hg
  have hn := h.pos g hg
  have habs : ∀ k, |(-mu) ^ k| = mu ^ k := fun k => by rw [abs_pow, abs_neg, abs_of_pos hmu]
  have hTit : ∀ k, T (iter nrm T g k) = (-mu) • iter nrm T g k := by
    intro k
    rw [iter, map_smul, hpow, map_smul, he]
    module
  have hest : ∀ k, est nrm T g (k + 1) = mu := by
    intro k
    rw [est, hpow, hpow, h.smul, h.smul, habs, habs, pow_succ]
    have := (pow_pos hmu k).ne'
    field_simp
  have hresid : ∀ k, resid nrm T g k = mu + est nrm T g k := by
    intro k
    have : T (iter nrm T g k) - est nrm T g k • iter nrm T g k = (-(mu + est nrm T g k)) • iter nrm T g k := by
      rw [hTit]; module
    rw [resid, this, h.smul, iter_norm h k (hne k), abs_neg, mul_one, abs_of_nonneg]
    have := est_nonneg (T := T) (g := g) h k
    linarith
  have hge : ∀ k, par.tol ≤ resid nrm T g k := by
    intro k
    rw [hresid]
    cases k with
    | zero => exact htol'
    | succ k => rw [hest]; linarith
  obtain ⟨r, hr⟩ := Option.isSome_iff_exists.1 (C98_defined par h A B hT ones x (some g) log (fun k _ => hne k) hl)
  obtain ⟨-, k, k1, k2, k3, k4, k5, k6, k7⟩ := C98_outcome par h A B hT ones x (some g) log r hr
  simp only [Option.getD_some] at *
  rcases k7 with ⟨p0, p1, p2, p3⟩ | ⟨q1, q2, q3⟩
  · exact absurd p2 (not_lt.2 (hge _))
  · obtain ⟨k, rfl⟩ : ∃ j, k = j + 1 := ⟨k - 1, by omega⟩
    exact ⟨r, hr, q1, by rw [k4, hest]⟩

/-- With a residual array shorter than the limit, unless the iteration stops before, it writes past the
    end of the array. -/
theorem short_array (par : Par K) (h : IsNorm nrm) (A : E → E) (B : Option (E → E → E))
    (hT : ∀ v t, (power A B v t).1 = T v) (ones x : E) (guess : Option E) (log : Log K)
    (hmax : par.len < par.maxit) (hge : ∀ j, j < par.len → par.tol ≤ resid nrm T (guess.getD ones) j) :
    powerSolve par nrm A B ones x guess log = none := by
  cases hr : powerSolve par nrm A B ones x guess log with
  | none => rfl
  | some r =>
    exfalso
    simp only [powerSolve] at hr
    split at hr
    · cases hr
    · rename_i h0
      have hg : guess.getD ones ≠ 0 := fun hg => h0 (by rw [hg, h.zero])
      have key : ∀ n i (s : PSt K E), i + n = par.maxit → i ≤ par.len → At nrm T (guess.getD ones) i s →
          (T ^ i) (guess.getD ones) ≠ 0 → passes par nrm A B n i s ≠ some r := by
        intro n
        induction n with
        | zero => intro i s h1 h2; omega
        | succ n ih =>
          intro i s h1 h2 h3 h4 h5
          obtain ⟨p1, p2⟩ := pass_spec par h A B hT i s h3 h4
          by_cases hz : (T ^ (i + 1)) (guess.getD ones) = 0
          · simp [passes, p1 hz] at h5
          · obtain ⟨t, ht⟩ := p2 hz
            by_cases hlen : i < par.len
            · have hne : i ≠ par.maxit := by omega
              have hnl := not_lt.2 (hge i hlen)
              simp only [passes, ht, monitor, hlen, hne, hnl, if_true, if_false, Option.map_some] at h5
              exact ih (i + 1) _ (by omega) (by omega) ⟨rfl, rfl, fun _ => rfl⟩ hz h5
            · simp [passes, ht, monitor, hlen] at h5
      exact key par.maxit 0 _ (by omega) (by omega) ⟨by simp [iter], rfl, fun h => absurd h (by simp)⟩
        (by simpa using hg) hr

/-- A limit raised by `set_tolerances` does not lengthen the residual array made by the constructor for
    its limit `m`: unless the iteration stops before, it writes past its end. -/
theorem C98_raised_limit (tol0 tol : K) (m maxit : Nat) (h : IsNorm nrm) (A : E → E) (B : Option (E → E → E))
    (hT : ∀ v t, (power A B v t).1 = T v) (ones x : E) (guess : Option E) (log : Log K)
    (hmax : m + 1 < maxit) (hge : ∀ j, j < m + 1 → tol ≤ resid nrm T (guess.getD ones) j) :
    powerSolve ((Par.new tol0 m).setTolerances tol maxit) nrm A B ones x guess log = none :=
  short_array _ h A B hT ones x guess log hmax hge

/-- Zero guesses, and guesses that the operator maps to zero, divide by a zero norm. -/
theorem C98_zero (par : Par K) (h : IsNorm nrm) (A : E → E) (B : Option (E → E → E))
    (hT : ∀ v t, (power A B v t).1 = T v) (ones x g : E) (log : Log K) (hmax : 0 < par.maxit)
    (hz : T g = 0) : powerSolve par nrm A B ones x (some g) log = none := by
  cases hr : powerSolve par nrm A B ones x (some g) log with
  | none => rfl
  | some r =>
    exfalso
    simp only [powerSolve, Option.getD_some] at hr
    split at hr
    · cases hr
    · rename_i h0
      have hg : g ≠ 0 := fun hg => h0 (by rw [hg, h.zero])
      obtain ⟨m, hm⟩ : ∃ m, par.maxit = m + 1 := ⟨par.maxit - 1, by omega⟩
      have := (pass_spec (T := T) (g := g) par h A B hT 0 ⟨x, (1 / nrm g) • g, g, nrm g, { log with status := .maxit }⟩
        ⟨by simp [iter], rfl, fun h => absurd h (by simp)⟩ (by simpa using hg)).1 (by simpa using hz)
      rw [hm] at hr
      simp only [passes, this] at hr
      cases hr

/-- Without a second operator a pass applies the first; with an exact linear solver of the second it
    applies `B⁻¹A`. -/
theorem C98_operator (A : E → E) (T : E →ₗ[K] E) :
    ((∀ v, A v = T v) → ∀ v t, (power A none v t).1 = T v) ∧
    (∀ (B : E →ₗ[K] E) (s : E → E → E), Function.Injective B → (∀ v, B (T v) = A v) → (∀ b t, B (s b t) = b) →
      ∀ v t, (power A (some s) v t).1 = T v) := by
  refine ⟨fun h v t => by simp [power, h], fun B s hB hT hs v t => ?_⟩
  apply hB
  simp [power, hs, hT]

/-! ### Operators held -/

/-- After a generalised problem, setting a new operator alone still solves with the old second one. -/
theorem C98_stale_B (o : Ops E) (A A' B : E → E) : ((o.set A (some B)).set A' none).B = some B := rfl

/-- What a user expects: the operators given last are those held. -/
def C98OpsClaim (E : Type) : Prop :=
  ∀ (o : Ops E) (A : E → E) (B : Option (E → E)), (o.set A B).A = some A ∧ (o.set A B).B = B

omit [AddCommGroup E] [Module K E] [LinearOrder K] [IsStrictOrderedRing K] [Field K] in
theorem C98_ops_claim_fails : ¬ C98OpsClaim E := fun h => by
  have := (h ⟨none, some id⟩ id none).2
  simp [Ops.set] at this

/-- It holds when a second operator is given, when none was held, and always for Davidson (with the identity for an
    absent one). -/
theorem C98_ops_partial (o : Ops E) (A B : E → E) :
    (o.set A (some B)).A = some A ∧ (o.set A (some B)).B = some B ∧ (o.B = none → (o.set A none).B = none) ∧
    (o.setDavidson A (some B)).B = some B ∧ (o.setDavidson A none).B = some id ∧
    (o.setDavidson A none).A = some A := ⟨rfl, rfl, fun h => h, rfl, rfl, rfl⟩

/-- A preconditioner for a standard problem is passed on through a null pointer. -/
theorem C98_preconditioner_null (A : E → E) : ((⟨none, none⟩ : Ops E).set A none).setPreconditioner = none := rfl

end field

/-! ## Convergence -/

section real
open Filter Topology

variable {E : Type} [AddCommGroup E] [Module ℝ E] {nrm : E → ℝ} {T : E →ₗ[ℝ] E}

/-- When the guess is an eigenvector `v` of a positive eigenvalue plus a part whose images grow more
    slowly, the estimates converge to the eigenvalue, the vectors to the normalised eigenvector, the residuals to zero, and
    for every positive tolerance a large enough limit makes the solver report success. -/
theorem C98_converges (h : IsNorm nrm) (v w : E) (mu rho C : ℝ) (hv : v ≠ 0) (hmu : 0 < mu) (he : T v = mu • v)
    (hrho : 0 ≤ rho) (hlt : rho < mu) (hw : ∀ k, nrm ((T ^ k) w) ≤ C * rho ^ k) :
    Tendsto (est nrm T (v + w)) atTop (𝓝 mu) ∧
    Tendsto (fun k => nrm (iter nrm T (v + w) k - (1 / nrm v) • v)) atTop (𝓝 0) ∧
    Tendsto (resid nrm T (v + w)) atTop (𝓝 0) ∧
    ∀ tol, 0 < tol → ∃ M, ∀ maxit, M ≤ maxit → ∀ (A : E → E) (B : Option (E → E → E)),
      (∀ u t, (power A B u t).1 = T u) → ∀ ones x log, ∃ r,
        powerSolve (Par.new tol maxit) nrm A B ones x (some (v + w)) log = some r ∧ r.log.status = .success := by
  set g := v + w with hgdef
  have hpow : ∀ k, (T ^ k) v = mu ^ k • v := by
    intro k
    induction k with
    | zero => simp
    | succ k ih => rw [pow_succ_apply', ih, map_smul, he, smul_smul, pow_succ]
  set wk : ℕ → E := fun k => (1 / mu ^ k) • (T ^ k) w with hwk
  have hmk : ∀ k : ℕ, 0 < mu ^ k := fun k => pow_pos hmu k
  have hpg : ∀ k, (T ^ k) g = mu ^ k • (v + wk k) := by
    intro k
    have := (hmk k).ne'
    rw [hgdef, map_add, hpow, smul_add, hwk, smul_smul]
    congr 1
    rw [mul_one_div, div_self this, one_smul]
  have hwk0 : Tendsto (fun k => nrm (wk k)) atTop (𝓝 0) := by
    have hb : ∀ k, nrm (wk k) ≤ C * (rho / mu) ^ k := by
      intro k
      have := hmk k
      rw [hwk]
      simp only
      rw [h.smul, abs_of_pos (by positivity), div_pow]
      have := hw k
      rw [one_div, inv_mul_le_iff₀ (hmk k)]
      calc _ ≤ C * rho ^ k := this
        _ = _ := by field_simp
    have ht : Tendsto (fun k : ℕ => C * (rho / mu) ^ k) atTop (𝓝 (C * 0)) :=
      (tendsto_pow_atTop_nhds_zero_of_lt_one (div_nonneg hrho hmu.le) ((div_lt_one hmu).2 hlt)).const_mul C
    rw [mul_zero] at ht
    exact squeeze_zero (fun k => h.nonneg _) hb ht
  have ha : Tendsto (fun k => nrm (v + wk k)) atTop (𝓝 (nrm v)) := by
    have hb : ∀ k, dist (nrm (v + wk k)) (nrm v) ≤ nrm (wk k) := by
      intro k
      rw [Real.dist_eq]
      have := h.abs_sub (v + wk k) v
      rwa [add_sub_cancel_left] at this
    rw [tendsto_iff_dist_tendsto_zero]
    exact squeeze_zero (fun _ => dist_nonneg) hb hwk0
  have hn := h.pos v hv
  -- no power of the guess vanishes
  have hne : ∀ k, (T ^ k) g ≠ 0 := by
    intro k hk
    have hz : ∀ j, (T ^ (k + j)) g = 0 := by
      intro j
      induction j with
      | zero => exact hk
      | succ j ih => rw [← Nat.add_assoc, pow_succ_apply', ih, map_zero]
    have hz' : ∀ j, nrm (v + wk (k + j)) = 0 := by
      intro j
      have := hz j
      rw [hpg, smul_eq_zero] at this
      rcases this with h1 | h1
      · exact absurd h1 (hmk _).ne'
      · rw [h1, h.zero]
    have h1 : Tendsto (fun j => nrm (v + wk (k + j))) atTop (𝓝 (nrm v)) := by
      have := (tendsto_add_atTop_iff_nat k).2 ha
      simpa [add_comm] using this
    simp only [hz'] at h1
    exact hn.ne (tendsto_nhds_unique tendsto_const_nhds h1)
  have hpos : ∀ k, 0 < nrm (v + wk k) := fun k => by
    refine h.pos _ fun h0 => hne k ?_
    rw [hpg, h0, smul_zero]
  have hest' : ∀ k, est nrm T g (k + 1) = mu * (nrm (v + wk (k + 1)) / nrm (v + wk k)) := by
    intro k
    have := hpos k
    have := hmk k
    rw [est, hpg, hpg, h.smul, h.smul, abs_of_pos (hmk _), abs_of_pos (hmk _), pow_succ]
    field_simp
  have hiter : ∀ k, iter nrm T g k = (1 / nrm (v + wk k)) • (v + wk k) := by
    intro k
    have := (hpos k).ne'
    have := (hmk k).ne'
    rw [iter, hpg, h.smul, abs_of_pos (hmk _), smul_smul]
    congr 1
    field_simp
  have hestT : Tendsto (est nrm T g) atTop (𝓝 mu) := by
    rw [← tendsto_add_atTop_iff_nat 1]
    simp only [hest']
    have h1 : Tendsto (fun k => nrm (v + wk (k + 1))) atTop (𝓝 (nrm v)) := (tendsto_add_atTop_iff_nat 1).2 ha
    have := (h1.div ha hn.ne').const_mul mu
    rwa [div_self hn.ne', mul_one] at this
  have hiterT : Tendsto (fun k => nrm (iter nrm T g k - (1 / nrm v) • v)) atTop (𝓝 0) := by
    have hb : ∀ k, nrm (iter nrm T g k - (1 / nrm v) • v) ≤
        |1 / nrm (v + wk k) - 1 / nrm v| * nrm v + 1 / nrm (v + wk k) * nrm (wk k) := by
      intro k
      have e : iter nrm T g k - (1 / nrm v) • v =
          (1 / nrm (v + wk k) - 1 / nrm v) • v + (1 / nrm (v + wk k)) • wk k := by rw [hiter]; module
      rw [e]
      refine (h.add _ _).trans ?_
      rw [h.smul, h.smul, abs_of_pos (one_div_pos.2 (hpos k))]
    have hinv : Tendsto (fun k => 1 / nrm (v + wk k)) atTop (𝓝 (1 / nrm v)) := tendsto_const_nhds.div ha hn.ne'
    have h1 : Tendsto (fun k => |1 / nrm (v + wk k) - 1 / nrm v| * nrm v) atTop (𝓝 0) := by
      have := ((hinv.sub_const (1 / nrm v)).abs).mul_const (nrm v)
      simpa using this
    have h2 := hinv.mul hwk0
    rw [mul_zero] at h2
    have h3 := h1.add h2
    rw [add_zero] at h3
    exact squeeze_zero (fun _ => h.nonneg _) hb h3
  have hresT : Tendsto (resid nrm T g) atTop (𝓝 0) := by
    have hb : ∀ k, resid nrm T g k ≤ |est nrm T g (k + 1) - est nrm T g k| +
        |est nrm T g k| * (nrm (iter nrm T g (k + 1) - (1 / nrm v) • v) + nrm (iter nrm T g k - (1 / nrm v) • v)) := by
      intro k
      have e : T (iter nrm T g k) - est nrm T g k • iter nrm T g k =
          (est nrm T g (k + 1) - est nrm T g k) • iter nrm T g (k + 1) + est nrm T g k •
          ((iter nrm T g (k + 1) - (1 / nrm v) • v) - (iter nrm T g k - (1 / nrm v) • v)) := by
        rw [T_iter h k (hne k) (hne _)]; module
      rw [resid, e]
      refine (h.add _ _).trans ?_
      rw [h.smul, h.smul, iter_norm h _ (hne _), mul_one]
      exact add_le_add le_rfl (mul_le_mul_of_nonneg_left (h.sub_le _ _) (abs_nonneg _))
    have e1 : Tendsto (fun k => est nrm T g (k + 1)) atTop (𝓝 mu) := (tendsto_add_atTop_iff_nat 1).2 hestT
    have e2 : Tendsto (fun k => nrm (iter nrm T g (k + 1) - (1 / nrm v) • v)) atTop (𝓝 0) :=
      (tendsto_add_atTop_iff_nat 1).2 hiterT
    have h1 := (e1.sub hestT).abs
    have h2 := hestT.abs.mul (e2.add hiterT)
    have h3 := h1.add h2
    simp only [sub_self, abs_zero, add_zero, mul_zero] at h3
    exact squeeze_zero (fun _ => h.nonneg _) hb h3
  refine ⟨hestT, hiterT, hresT, fun tol htol => ?_⟩
  obtain ⟨M, hM⟩ := (hresT.eventually (gt_mem_nhds htol)).exists
  refine ⟨M + 1, fun maxit hm A B hT ones x log => ?_⟩
  obtain ⟨r, hr⟩ := Option.isSome_iff_exists.1 (C98_defined (Par.new tol maxit) h A B hT ones x (some g) log
    (fun k _ => hne k) (by simp [Par.new]))
  refine ⟨r, hr, ?_⟩
  obtain ⟨-, k, k1, k2, k3, k4, k5, k6, k7⟩ := C98_outcome (Par.new tol maxit) h A B hT ones x (some g) log r hr
  rcases k7 with ⟨p0, -⟩ | ⟨q1, q2, q3⟩
  · exact p0
  · have := q3 M (by simp only [Par.new] at q2; omega)
    simp only [Option.getD_some, Par.new] at this
    linarith

/-- In particular when the guess is a sum of eigenvectors with one eigenvalue positive and strictly
    larger in size than the others. -/
theorem C98_dominant (h : IsNorm nrm) (v : E) (mu rho : ℝ) (m : Nat) (w : Fin m → E) (nu : Fin m → ℝ) (hv : v ≠ 0)
    (hmu : 0 < mu) (he : T v = mu • v) (hw : ∀ i, T (w i) = nu i • w i) (hrho : 0 ≤ rho) (hlt : rho < mu)
    (hnu : ∀ i, |nu i| ≤ rho) :
    Tendsto (est nrm T (v + ∑ i, w i)) atTop (𝓝 mu) ∧
    ∀ tol, 0 < tol → ∃ M, ∀ maxit, M ≤ maxit → ∀ (A : E → E) (B : Option (E → E → E)),
      (∀ u t, (power A B u t).1 = T u) → ∀ ones x log, ∃ r,
        powerSolve (Par.new tol maxit) nrm A B ones x (some (v + ∑ i, w i)) log = some r ∧ r.log.status = .success := by
  have hpow : ∀ i k, (T ^ k) (w i) = nu i ^ k • w i := by
    intro i k
    induction k with
    | zero => simp
    | succ k ih => rw [pow_succ_apply', ih, map_smul, hw, smul_smul, pow_succ]
  have := C98_converges h v (∑ i, w i) mu rho (∑ i, nrm (w i)) hv hmu he hrho hlt fun k => by
    rw [map_sum, Finset.sum_mul]
    refine (h.sum _ _).trans (Finset.sum_le_sum fun i _ => ?_)
    rw [hpow, h.smul, abs_pow, mul_comm]
    exact mul_le_mul_of_nonneg_left (pow_le_pow_left₀ (abs_nonneg _) (hnu i) k) (h.nonneg _)
  exact ⟨this.1, this.2.2.2⟩

end real

/-! ## Cases meeting the hypotheses -/

/-- The matrix (2 1; 1 2) with eigenvalues 3 and 1 on a guess that is no eigenvector. -/
def two (x : ℚ × ℚ) : ℚ × ℚ := (2 * x.1 + x.2, x.1 + 2 * x.2)

def l1 (x : ℚ × ℚ) : ℚ := |x.1| + |x.2|

example : (powerSolve (Par.new (1 / 10) 10) l1 two none (1, 1) (0, 0) (some (1, 0)) ⟨.running, 7, fun _ => 0⟩).map
    (fun r => (r.log.status, r.lam, r.log.numIt, r.x)) = some (.success, 3, 3, (41 / 81, 40 / 81)) := by decide +kernel

example : (powerSolve (Par.new (1 / 10) 3) l1 two none (1, 1) (0, 0) (some (1, 0)) ⟨.running, 7, fun _ => 0⟩).map
    (fun r => (r.log.status, r.lam, r.log.numIt)) = some (.maxit, 3, 2) := by decide +kernel

/-- A limit raised from 1 to 10 writes out of bounds. -/
example : (powerSolve ((Par.new (1 / 10) 1).setTolerances (1 / 10) 10) l1 two none (1, 1) (0, 0) (some (1, 0))
    ⟨.running, 7, fun _ => 0⟩).isSome = false := by decide +kernel

end Detran.EigenSolve
