import Verif.Model.EigenSolve
import Verif.Lemmas.Gmres
import Mathlib.Algebra.Module.LinearMap.Defs
import Mathlib.Algebra.BigOperators.Fin
import Mathlib.Topology.Instances.Real.Lemmas
import Mathlib.Analysis.Normed.Group.Constructions
import Mathlib.Topology.MetricSpace.ProperSpace.Real
import Mathlib.Topology.MetricSpace.ProperSpace
import Mathlib.Topology.Order.Compact
import Mathlib.Analysis.Normed.Field.Basic

/-!
# Properties of callow's Davidson, Eispack wrapper and solver creators (C99, C100)
-/

namespace Detran.EigenSolve

open Detran.Solver (Status)
open Detran.Gmres (IsDot IsSqrt Ortho set_same set_ne)
open Finset

variable {K E : Type} [Field K] [LinearOrder K] [IsStrictOrderedRing K] [AddCommGroup E] [Module K E]

/-! ## Helpers -/

theorem foldl_sum (f : Nat → E) (k : Nat) (w : E) :
    (List.range k).foldl (fun w j => w + f j) w = w + ∑ j ∈ range k, f j := by
  induction k with
  | zero => simp
  | succ k ih => rw [List.range_succ, List.foldl_append, ih, Finset.sum_range_succ]; simp [add_assoc]

theorem comb_eq (k : Nat) (a : Nat → K) (V : Nat → E) : comb k a V = ∑ j ∈ range k, a j • V j := by
  rw [comb, foldl_sum (fun j => a j • V j), zero_add]

theorem dot_comb {dot : E → E → K} (hd : IsDot dot) {V : Nat → E} {k : Nat} (ho : Ortho dot V k) (a : Nat → K) (i : Nat)
    (hi : i < k) : dot (∑ j ∈ range k, a j • V j) (V i) = a i := by
  rw [hd.sum, Finset.sum_eq_single i]
  · rw [hd.smul, ho i i hi hi]; simp
  · intro j hj hji
    rw [hd.smul, ho j i (Finset.mem_range.1 hj) hi, if_neg hji, mul_zero]
  · intro h; exact absurd (Finset.mem_range.2 hi) h

theorem dot_comb_comb {dot : E → E → K} (hd : IsDot dot) {V : Nat → E} {k : Nat} (ho : Ortho dot V k) (a : Nat → K) :
    dot (∑ j ∈ range k, a j • V j) (∑ j ∈ range k, a j • V j) = ∑ j ∈ range k, a j * a j := by
  rw [hd.comm, hd.sum]
  refine Finset.sum_congr rfl fun i hi => ?_
  rw [hd.smul, hd.comm, dot_comb hd ho a i (Finset.mem_range.1 hi)]

/-! ## What is specified -/

variable (d : Dav K E) (TA TB : E →ₗ[K] E)

/-- The bases hold orthonormal vectors and their images. -/
def Inv (i : Nat) (s : DSt K E) : Prop :=
  Ortho d.dot s.V (i + 1) ∧ ∀ j, j < i + 1 → s.Va j = TA (s.V j) ∧ s.Vb j = TB (s.V j)

/-- The projected solver returns normalised vectors, as `Eispack` does (`C99_eispack`). -/
def UnitProj : Prop := ∀ n M N, 0 < n → ∑ j ∈ range n, (d.proj n M N).1 j * (d.proj n M N).1 j = 1

variable {d TA TB}

theorem ritz_u (i : Nat) (s : DSt K E) : (d.ritz i s).2.2.1 = ∑ j ∈ range (i + 1), (d.ritz i s).1 j • s.V j := by
  simp only [Dav.ritz, comb_eq]

/-- The residual formed from the stored images is that of the Ritz pair. -/
theorem C99_residual (i : Nat) (s : DSt K E) (hs : Inv d TA TB i s) :
    (d.ritz i s).2.2.2 = TA (d.ritz i s).2.2.1 - (d.ritz i s).2.1 • TB (d.ritz i s).2.2.1 := by
  rw [ritz_u]
  generalize hy : (d.ritz i s).1 = y
  generalize hl : (d.ritz i s).2.1 = l
  have : (d.ritz i s).2.2.2 = (List.range (i + 1)).foldl (fun w j => w + y j • s.Va j + (-l * y j) • s.Vb j) 0 := by
    rw [← hy, ← hl]; rfl
  rw [this]
  simp only [add_assoc]
  rw [foldl_sum (fun j => y j • s.Va j + (-l * y j) • s.Vb j), zero_add, map_sum, map_sum, Finset.smul_sum,
    ← Finset.sum_sub_distrib]
  refine Finset.sum_congr rfl fun j hj => ?_
  obtain ⟨h1, h2⟩ := hs.2 j (Finset.mem_range.1 hj)
  rw [h1, h2, map_smul, map_smul]
  module

/-- Galerkin: where the projected pair is exact, the residual is orthogonal to the subspace. -/
theorem C99_galerkin (hd : IsDot d.dot) (i : Nat) (s : DSt K E) (hs : Inv d TA TB i s)
    (hy : ∀ r, r < i + 1 → ∑ c ∈ range (i + 1), d.dot (s.V r) (s.Va c) * (d.ritz i s).1 c =
      (d.ritz i s).2.1 * ∑ c ∈ range (i + 1), d.dot (s.V r) (s.Vb c) * (d.ritz i s).1 c) (r : Nat) (hr : r < i + 1) :
    d.dot (s.V r) (d.ritz i s).2.2.2 = 0 := by
  rw [C99_residual i s hs, ritz_u, hd.sub', hd.smul', map_sum, map_sum, hd.comm, hd.comm (s.V r) (∑ j ∈ _, _), hd.sum,
    hd.sum, sub_eq_zero]
  have := hy r hr
  convert this using 1
  · refine Finset.sum_congr rfl fun j hj => ?_
    rw [map_smul, hd.smul, hd.comm, (hs.2 j (Finset.mem_range.1 hj)).1, mul_comm]
  · congr 1
    refine Finset.sum_congr rfl fun j hj => ?_
    rw [map_smul, hd.smul, hd.comm, (hs.2 j (Finset.mem_range.1 hj)).2, mul_comm]

theorem ritz_norm (hd : IsDot d.dot) (hsq : IsSqrt d.sq) (hu : UnitProj d) (i : Nat) (s : DSt K E)
    (hs : Ortho d.dot s.V (i + 1)) : d.dot (d.ritz i s).2.2.1 (d.ritz i s).2.2.1 = 1 ∧ d.norm (d.ritz i s).2.2.1 = 1 := by
  have : d.dot (d.ritz i s).2.2.1 (d.ritz i s).2.2.1 = 1 := by
    rw [ritz_u, dot_comb_comb hd hs]
    exact hu _ _ _ (by omega)
  exact ⟨this, hsq.unique zero_le_one (by rw [this, mul_one])⟩

/-- The direction is the preconditioned residual less its part in the subspace. -/
theorem C99_direction (hd : IsDot d.dot) (i : Nat) (V : Nat → E) (hV : Ortho d.dot V (i + 1)) (lam : K) (r u : E) :
    (∃ c : Nat → K, d.direction i V lam r u = d.pc lam r u - ∑ j ∈ range (i + 1), c j • V j) ∧
    ∀ j, j < i + 1 → d.dot (d.direction i V lam r u) (V j) = 0 := by
  have e : d.direction i V lam r u =
      d.pc lam r u - ∑ j ∈ range (i + 1), d.dot (V j) (d.pc lam r u) • V j := by
    simp only [Dav.direction]
    rw [foldl_sum (fun j => (-d.dot (V j) (d.pc lam r u)) • V j), sub_eq_add_neg, ← Finset.sum_neg_distrib]
    simp
  refine ⟨⟨_, e⟩, fun j hj => ?_⟩
  rw [e, hd.sub, dot_comb hd hV _ j hj, hd.comm, sub_self]

/-- Growing the subspace keeps the invariant. -/
theorem inv_grow (hd : IsDot d.dot) (hsq : IsSqrt d.sq) (hA : ∀ v, d.A v = TA v) (hB : ∀ v, d.B v = TB v) (i : Nat)
    (s s' : DSt K E) (hs : Inv d TA TB i s) (w : E) (hw : ∀ j, j < i + 1 → d.dot w (s.V j) = 0) (hw0 : d.norm w ≠ 0)
    (hV : s'.V = Gmres.set s.V (i + 1) ((1 / d.norm w) • w))
    (hVa : s'.Va = Gmres.set s.Va (i + 1) (d.A ((1 / d.norm w) • w)))
    (hVb : s'.Vb = Gmres.set s.Vb (i + 1) (d.B ((1 / d.norm w) • w))) : Inv d TA TB (i + 1) s' := by
  constructor
  · intro a b ha hb
    rw [hV]
    have hnn : d.norm w * d.norm w = d.dot w w := (hsq _ (hd.nonneg w)).2
    by_cases h1 : a = i + 1
    · by_cases h2 : b = i + 1
      · rw [h1, h2, set_same, hd.smul, hd.smul', if_pos rfl, ← hnn]
        field_simp
      · rw [h1, set_same, set_ne _ _ h2, hd.smul, hw b (by omega), mul_zero, if_neg (fun h => h2 h.symm)]
    · by_cases h2 : b = i + 1
      · rw [h2, set_same, set_ne _ _ h1, hd.smul', hd.comm, hw a (by omega), mul_zero, if_neg h1]
      · rw [set_ne _ _ h1, set_ne _ _ h2]
        exact hs.1 a b (by omega) (by omega)
  · intro j hj
    rw [hV, hVa, hVb]
    by_cases h1 : j = i + 1
    · rw [h1, set_same, set_same, set_same, hA, hB]
      exact ⟨rfl, rfl⟩
    · rw [set_ne _ _ h1, set_ne _ _ h1, set_ne _ _ h1]
      exact hs.2 j (by omega)

/-- What holds of the data after a monitored pass. -/
def Post (d : Dav K E) (TA TB : E →ₗ[K] E) (par : Par K) (s : DSt K E) (stop : Bool) : Prop :=
  s.log.res s.log.numIt = d.norm (TA s.u - s.lam • TB s.u) ∧ d.norm s.u = 1 ∧ 0 < s.log.numIt ∧
  (stop = true → (s.log.status = .success ∧ d.norm (TA s.u - s.lam • TB s.u) < par.tol ∧ s.log.numIt < par.maxit) ∨
    (s.log.status = .maxit ∧ s.log.numIt = par.maxit)) ∧
  (stop = false → s.log.status = .maxit ∧ par.tol ≤ d.norm (TA s.u - s.lam • TB s.u) ∧ s.t = s.u ∧
    s.log.numIt < par.maxit ∧ 0 < s.it ∧ s.it ≤ par.maxit)

/-- Why a solve can fail to return: the preconditioned residual of an unconverged Ritz pair lies in the subspace. -/
def Breakdown (d : Dav K E) (TA TB : E →ₗ[K] E) (par : Par K) : Prop :=
  ∃ i V, ∃ lam : K, ∃ u : E, ∃ c : Nat → K, Ortho d.dot V (i + 1) ∧ d.norm u = 1 ∧
    par.tol ≤ d.norm (TA u - lam • TB u) ∧
    d.pc lam (TA u - lam • TB u) u = ∑ j ∈ range (i + 1), c j • V j

theorem inner_spec (hd : IsDot d.dot) (hsq : IsSqrt d.sq) (hu : UnitProj d) (hA : ∀ v, d.A v = TA v)
    (hB : ∀ v, d.B v = TB v) (par : Par K) (n i : Nat) (s : DSt K E) (hs : Inv d TA TB i s) (hit : 0 < s.it ∧ s.it ≤ par.maxit)
    (hst : s.log.status = .maxit) (hn : 0 < n) :
    (∀ s' b, d.inner par n i s = some (s', b) → Post d TA TB par s' b) ∧
    (d.inner par n i s = none → par.len ≤ par.maxit ∨ Breakdown d TA TB par) := by
  induction n generalizing i s with
  | zero => omega
  | succ n ih =>
    have hr := C99_residual i s hs
    obtain ⟨-, hnu⟩ := ritz_norm hd hsq hu i s hs.1
    rw [Dav.inner]
    generalize d.ritz i s = q at hr hnu
    by_cases hlen : s.it < par.len
    · by_cases hmax : s.it = par.maxit
      · simp only [monitor, if_pos hlen, if_pos hmax]
        refine ⟨fun s' b h => ?_, fun h => by cases h⟩
        obtain ⟨rfl, rfl⟩ := Prod.mk.inj (Option.some.inj h)
        exact ⟨by simp [hr], hnu, hit.1, fun _ => Or.inr ⟨rfl, hmax⟩, fun h => by cases h⟩
      · by_cases htol : d.norm q.2.2.2 < par.tol
        · simp only [monitor, if_pos hlen, if_neg hmax, if_pos htol]
          refine ⟨fun s' b h => ?_, fun h => by cases h⟩
          obtain ⟨rfl, rfl⟩ := Prod.mk.inj (Option.some.inj h)
          refine ⟨by simp [hr], hnu, hit.1, fun _ => Or.inl ⟨rfl, by rw [← hr]; exact htol, ?_⟩, fun h => by cases h⟩
          simp only; omega
        · simp only [monitor, if_pos hlen, if_neg hmax, if_neg htol]
          by_cases hn0 : n = 0
          · rw [if_pos hn0]
            refine ⟨fun s' b h => ?_, fun h => by cases h⟩
            obtain ⟨rfl, rfl⟩ := Prod.mk.inj (Option.some.inj h)
            refine ⟨by simp [hr], hnu, hit.1, fun h => by (cases h), fun _ => ⟨hst, ?_, rfl, ?_, hit⟩⟩
            · rw [← hr]; exact not_lt.1 htol
            · simp only; omega
          · rw [if_neg hn0]
            obtain ⟨⟨c, hc⟩, ho⟩ := C99_direction hd i s.V hs.1 q.2.1 q.2.2.2 q.2.2.1
            by_cases hw0 : d.norm (d.direction i s.V q.2.1 q.2.2.2 q.2.2.1) = 0
            · rw [if_pos hw0]
              refine ⟨fun s' b h => by (cases h), fun _ => Or.inr ⟨i, s.V, q.2.1, q.2.2.1, c, hs.1, hnu, ?_, ?_⟩⟩
              · rw [← hr]; exact not_lt.1 htol
              · rw [← hr, ← sub_eq_zero, ← hc]
                exact hd.eq_zero (hsq.eq_zero (hd.nonneg _) hw0)
            · rw [if_neg hw0]
              refine ih (i + 1) _ ?_ ?_ hst (by omega)
              · exact inv_grow hd hsq hA hB i s _ hs _ ho hw0 rfl rfl rfl
              · simp only; omega
    · simp only [monitor, if_neg hlen]
      exact ⟨fun s' b h => by (cases h), fun _ => Or.inl (by omega)⟩

theorem restart_inv (hd : IsDot d.dot) (hsq : IsSqrt d.sq) (hA : ∀ v, d.A v = TA v) (hB : ∀ v, d.B v = TB v) (s : DSt K E)
    (ht : d.norm s.t = 1) : Inv d TA TB 0 (d.restart s) := by
  have hdot : d.dot s.t s.t = 1 := by
    have := (hsq _ (hd.nonneg s.t)).2
    rw [show d.sq (d.dot s.t s.t) = 1 from ht] at this
    linarith
  constructor
  · intro a b ha hb
    obtain rfl : a = 0 := by omega
    obtain rfl : b = 0 := by omega
    simpa [Dav.restart] using hdot
  · intro j hj
    obtain rfl : j = 0 := by omega
    simp [Dav.restart, hA, hB]

theorem outer_spec (hd : IsDot d.dot) (hsq : IsSqrt d.sq) (hu : UnitProj d) (hA : ∀ v, d.A v = TA v)
    (hB : ∀ v, d.B v = TB v) (par : Par K) (size : Nat) (hsz : 0 < size) (n : Nat) (s : DSt K E)
    (hs : Inv d TA TB 0 s) (hit : 0 < s.it ∧ s.it ≤ par.maxit) (hst : s.log.status = .maxit) (hn : 0 < n) :
    (∀ s', d.outer par size n s = some s' → ∃ s'' b, Post d TA TB par s'' b ∧ s'.u = s''.u ∧ s'.lam = s''.lam ∧
      s'.log = s''.log) ∧
    (d.outer par size n s = none → par.len ≤ par.maxit ∨ Breakdown d TA TB par) := by
  induction n generalizing s with
  | zero => omega
  | succ n ih =>
    obtain ⟨h1, h2⟩ := inner_spec hd hsq hu hA hB par size 0 s hs hit hst hsz
    rw [Dav.outer]
    cases hi : d.inner par size 0 s with
    | none => exact ⟨fun s' h => by (cases h), fun _ => h2 hi⟩
    | some q =>
      obtain ⟨s1, b⟩ := q
      have hp := h1 s1 b hi
      cases b with
      | true =>
        refine ⟨fun s' h => ?_, fun h => by cases h⟩
        cases h
        exact ⟨s1, true, hp, rfl, rfl, rfl⟩
      | false =>
        obtain ⟨p1, p2, -, -, p4⟩ := hp
        obtain ⟨q1, q2, q3, q4, q5⟩ := p4 rfl
        by_cases hn0 : n = 0
        · subst hn0
          refine ⟨fun s' h => ?_, fun h => by cases h⟩
          simp only [Dav.outer, Option.some.injEq] at h
          subst h
          exact ⟨s1, false, h1 s1 false hi, rfl, rfl, rfl⟩
        · exact ih (d.restart s1) (restart_inv hd hsq hA hB s1 (by rw [q3]; exact p2)) q5 q1 (by omega)

theorem start_inv (hd : IsDot d.dot) (hsq : IsSqrt d.sq) (hA : ∀ v, d.A v = TA v) (hB : ∀ v, d.B v = TB v) (s : DSt K E)
    (x0 : E) (h0 : d.norm x0 ≠ 0) (hV : s.V 0 = (1 / d.norm x0) • x0) (hVa : s.Va 0 = d.A ((1 / d.norm x0) • x0))
    (hVb : s.Vb 0 = d.B ((1 / d.norm x0) • x0)) : Inv d TA TB 0 s := by
  have hnn : d.norm x0 * d.norm x0 = d.dot x0 x0 := (hsq _ (hd.nonneg x0)).2
  constructor
  · intro a b ha hb
    obtain rfl : a = 0 := by omega
    obtain rfl : b = 0 := by omega
    rw [hV, hd.smul, hd.smul', ← hnn, if_pos rfl]
    field_simp
  · intro j hj
    obtain rfl : j = 0 := by omega
    rw [hV, hVa, hVb, hA, hB]
    exact ⟨rfl, rfl⟩

/-- What a solve that returns leaves: a normalised vector, and at the recorded iteration the recorded
    number is the residual norm of the returned pair.  Success is only reported with that residual below the tolerance, at
    an iteration before the limit; without success the residual is not below it, or the limit itself was reached. -/
theorem C99_outcome (hd : IsDot d.dot) (hsq : IsSqrt d.sq) (hu : UnitProj d) (hA : ∀ v, d.A v = TA v)
    (hB : ∀ v, d.B v = TB v) (par : Par K) (hmax : 0 < par.maxit) (size : Nat) (l0 : K) (x0 : E) (log : Log K)
    (r : DSt K E) (hr : d.solve par size l0 x0 log = some r) :
    d.norm r.u = 1 ∧ r.log.res r.log.numIt = d.norm (TA r.u - r.lam • TB r.u) ∧ 0 < r.log.numIt ∧
    r.log.numIt ≤ par.maxit ∧ ((r.log.status = .success ∧ d.norm (TA r.u - r.lam • TB r.u) < par.tol ∧ r.log.numIt < par.maxit) ∨
     (r.log.status = .maxit ∧ (par.tol ≤ d.norm (TA r.u - r.lam • TB r.u) ∨ r.log.numIt = par.maxit))) := by
  simp only [Dav.solve] at hr
  split at hr
  · cases hr
  · rename_i h0
    push Not at h0
    obtain ⟨s'', b, ⟨p1, p2, p0, p3, p4⟩, e1, e2, e3⟩ := (outer_spec hd hsq hu hA hB par size (by omega) _ _
      (start_inv hd hsq hA hB _ x0 h0.2 (by simp) (by simp) (by simp)) ⟨by simp, by exact hmax⟩ rfl (Nat.succ_pos _)).1 r hr
    rw [e1, e2, e3]
    refine ⟨p2, p1, p0, ?_, ?_⟩
    · cases b with
      | true => rcases p3 rfl with h | h <;> omega
      | false => have := p4 rfl; omega
    · cases b with
      | true =>
        rcases p3 rfl with h | h
        · exact Or.inl h
        · exact Or.inr ⟨h.1, Or.inr h.2⟩
      | false =>
        obtain ⟨q1, q2, -⟩ := p4 rfl
        exact Or.inr ⟨q1, Or.inl q2⟩

/-- A solve returns unless the subspace size or the guess is zero, or the preconditioned residual of
    an unconverged pair lies in the subspace; the residual array is long enough for the limit given at construction. -/
theorem C99_defined (hd : IsDot d.dot) (hsq : IsSqrt d.sq) (hu : UnitProj d) (hA : ∀ v, d.A v = TA v)
    (hB : ∀ v, d.B v = TB v) (tol : K) (maxit : Nat) (hmax : 0 < maxit) (size : Nat) (hsz : 0 < size) (l0 : K) (x0 : E)
    (hx : x0 ≠ 0) (log : Log K) (hb : ¬ Breakdown d TA TB (Par.new tol maxit)) :
    (d.solve (Par.new tol maxit) size l0 x0 log).isSome := by
  cases hr : d.solve (Par.new tol maxit) size l0 x0 log with
  | some r => rfl
  | none =>
    exfalso
    have h0 : d.norm x0 ≠ 0 := fun h => hx (hd.eq_zero (hsq.eq_zero (hd.nonneg _) h))
    simp only [Dav.solve] at hr
    rw [if_neg (by push Not; exact ⟨by omega, h0⟩)] at hr
    rcases (outer_spec hd hsq hu hA hB (Par.new tol maxit) size hsz _ _
      (start_inv hd hsq hA hB _ x0 h0 (by simp) (by simp) (by simp)) ⟨by simp, by exact hmax⟩ rfl (Nat.succ_pos _)).2 hr with h | h
    · simp [Par.new] at h
    · exact hb h

/-! ### Symmetric standard problems -/

/-- What the projected solver finds for the largest eigenvalue of a symmetric problem: the largest
    Rayleigh quotient, with a vector attaining it. -/
def MaxProj (d : Dav K E) : Prop :=
  ∀ n M N, 0 < n → (d.proj n M N).2 = ∑ r ∈ range n, ∑ c ∈ range n, (d.proj n M N).1 r * M r c * (d.proj n M N).1 c ∧
    ∀ z : Nat → K, ∑ j ∈ range n, z j * z j = 1 →
      ∑ r ∈ range n, ∑ c ∈ range n, z r * M r c * z c ≤ (d.proj n M N).2

theorem quad_form (hd : IsDot d.dot) (i : Nat) (s : DSt K E) (hs : Inv d TA TB i s) (z : Nat → K) :
    ∑ r ∈ range (i + 1), ∑ c ∈ range (i + 1), z r * d.dot (s.V r) (s.Va c) * z c =
      d.dot (∑ j ∈ range (i + 1), z j • s.V j) (TA (∑ j ∈ range (i + 1), z j • s.V j)) := by
  rw [hd.sum]
  refine Finset.sum_congr rfl fun r hr => ?_
  rw [hd.smul, map_sum, hd.comm, hd.sum, Finset.mul_sum]
  refine Finset.sum_congr rfl fun c hc => ?_
  rw [map_smul, hd.smul, (hs.2 c (Finset.mem_range.1 hc)).1, hd.comm]
  ring

/-- Rayleigh–Ritz: the eigenvalue is the Rayleigh quotient of the Ritz vector and the largest over
    the subspace. -/
theorem C99_rayleigh_ritz (hd : IsDot d.dot) (hm : MaxProj d) (i : Nat) (s : DSt K E) (hs : Inv d TA TB i s) :
    (d.ritz i s).2.1 = d.dot (d.ritz i s).2.2.1 (TA (d.ritz i s).2.2.1) ∧
    ∀ z : Nat → K, ∑ j ∈ range (i + 1), z j * z j = 1 →
      d.dot (∑ j ∈ range (i + 1), z j • s.V j) (TA (∑ j ∈ range (i + 1), z j • s.V j)) ≤ (d.ritz i s).2.1 := by
  obtain ⟨h1, h2⟩ := hm (i + 1) (fun r c => d.dot (s.V r) (s.Va c)) (fun r c => d.dot (s.V r) (s.Vb c)) (by omega)
  constructor
  · rw [ritz_u, ← quad_form hd i s hs]; exact h1
  · intro z hz
    rw [← quad_form hd i s hs]; exact h2 z hz

/-- The subspace holds a unit vector with Rayleigh quotient at least `rho`. -/
def Holds (d : Dav K E) (TA : E →ₗ[K] E) (rho : K) (i : Nat) (s : DSt K E) : Prop :=
  ∃ z : Nat → K, ∑ j ∈ range (i + 1), z j * z j = 1 ∧
    rho ≤ d.dot (∑ j ∈ range (i + 1), z j • s.V j) (TA (∑ j ∈ range (i + 1), z j • s.V j))

theorem inner_rayleigh (hd : IsDot d.dot) (hsq : IsSqrt d.sq) (hm : MaxProj d) (hA : ∀ v, d.A v = TA v)
    (hB : ∀ v, d.B v = TB v) (par : Par K) (rho : K) (n i : Nat) (s : DSt K E) (hs : Inv d TA TB i s)
    (hrho : Holds d TA rho i s) (hn : 0 < n) (s' : DSt K E) (b : Bool) (h : d.inner par n i s = some (s', b)) :
    rho ≤ s'.lam ∧ s'.lam = d.dot s'.u (TA s'.u) ∧ (b = false → s'.t = s'.u) := by
  induction n generalizing i s with
  | zero => omega
  | succ n ih =>
    obtain ⟨h1, h2⟩ := C99_rayleigh_ritz hd hm i s hs
    obtain ⟨z, hz1, hz2⟩ := hrho
    have hle := hz2.trans (h2 z hz1)
    rw [Dav.inner] at h
    generalize d.ritz i s = q at h h1 hle
    cases hmon : monitor par s.log s.it (d.norm q.2.2.2) with
    | none => simp [hmon] at h
    | some m =>
      obtain ⟨lg, b'⟩ := m
      simp only [hmon] at h
      cases b' with
      | true =>
        obtain ⟨rfl, rfl⟩ := Prod.mk.inj (Option.some.inj h)
        exact ⟨hle, h1, fun h => by cases h⟩
      | false =>
        simp only at h
        split at h
        · obtain ⟨rfl, rfl⟩ := Prod.mk.inj (Option.some.inj h)
          exact ⟨hle, h1, fun _ => rfl⟩
        · rename_i hn0
          split at h
          · cases h
          · rename_i hw0
            obtain ⟨-, ho⟩ := C99_direction hd i s.V hs.1 q.2.1 q.2.2.2 q.2.2.1
            refine ih (i + 1) _ (inv_grow hd hsq hA hB i s _ hs _ ho hw0 rfl rfl rfl) ?_ (by omega) h
            have e : ∀ (M : Nat → E) (v : E), ∑ j ∈ range (i + 1 + 1),
                (fun j => if j < i + 1 then z j else 0) j • Gmres.set M (i + 1) v j =
                ∑ j ∈ range (i + 1), z j • M j := by
              intro M v
              rw [Finset.sum_range_succ, set_same]
              simp only [lt_irrefl, if_false, zero_smul, add_zero]
              refine Finset.sum_congr rfl fun j hj => ?_
              have := Finset.mem_range.1 hj
              rw [if_pos this, set_ne _ _ (by omega)]
            refine ⟨fun j => if j < i + 1 then z j else 0, ?_, ?_⟩
            · rw [Finset.sum_range_succ]
              simp only [lt_irrefl, if_false, mul_zero, add_zero]
              rw [← hz1]
              refine Finset.sum_congr rfl fun j hj => ?_
              rw [if_pos (Finset.mem_range.1 hj)]
            · simp only at e ⊢
              rw [e]; exact hz2

/-- For a standard problem the returned eigenvalue is the Rayleigh quotient of the returned vector, and
    neither growing the subspace nor restarting ever loses ground: it is at least that of the guess. -/
theorem C99_rayleigh (hd : IsDot d.dot) (hsq : IsSqrt d.sq) (hu : UnitProj d) (hm : MaxProj d) (hA : ∀ v, d.A v = TA v)
    (hB : ∀ v, d.B v = TB v) (par : Par K) (hmax : 0 < par.maxit) (size : Nat) (l0 : K) (x0 : E) (log : Log K)
    (r : DSt K E) (hr : d.solve par size l0 x0 log = some r) :
    r.lam = d.dot r.u (TA r.u) ∧ d.dot x0 (TA x0) ≤ r.lam * d.dot x0 x0 := by
  simp only [Dav.solve] at hr
  split at hr
  · cases hr
  · rename_i h0
    push Not at h0
    have hnn : d.norm x0 * d.norm x0 = d.dot x0 x0 := (hsq _ (hd.nonneg x0)).2
    have key : ∀ (rho : K) n (s : DSt K E), 0 < n → Inv d TA TB 0 s → Holds d TA rho 0 s → 0 < s.it ∧ s.it ≤ par.maxit →
        s.log.status = .maxit → d.outer par size n s = some r → r.lam = d.dot r.u (TA r.u) ∧ rho ≤ r.lam := by
      intro rho n
      induction n with
      | zero => intro s h; omega
      | succ n ih =>
        intro s _ hs hh hit hst h
        rw [Dav.outer] at h
        cases hi : d.inner par size 0 s with
        | none => simp [hi] at h
        | some q =>
          obtain ⟨s1, b⟩ := q
          obtain ⟨g1, g2, g3⟩ := inner_rayleigh hd hsq hm hA hB par rho size 0 s hs hh (by omega) s1 b hi
          have hp := (inner_spec hd hsq hu hA hB par size 0 s hs hit hst (by omega)).1 s1 b hi
          simp only [hi] at h
          cases b with
          | true =>
            cases h
            exact ⟨g2, g1⟩
          | false =>
            obtain ⟨-, p2, -, -, p4⟩ := hp
            obtain ⟨q1, q2, q3, q4, q5⟩ := p4 rfl
            by_cases hn0 : n = 0
            · subst hn0
              simp only [Dav.outer, Option.some.injEq] at h
              subst h
              exact ⟨g2, g1⟩
            · have ht : d.norm s1.t = 1 := by rw [q3]; exact p2
              refine ih (d.restart s1) (by omega) (restart_inv hd hsq hA hB s1 ht) ?_ q5 q1 h
              refine ⟨fun _ => 1, by simp, ?_⟩
              simp only [zero_add, Finset.range_one, Finset.sum_singleton, one_smul, Dav.restart, if_true]
              rw [q3, ← g2]; exact g1
    have hn0 := h0.2
    obtain ⟨k1, k2⟩ := key (d.dot ((1 / d.norm x0) • x0) (TA ((1 / d.norm x0) • x0))) _ _ (Nat.succ_pos _)
      (start_inv hd hsq hA hB _ x0 h0.2 (by simp) (by simp) (by simp))
      ⟨fun _ => 1, by simp, by simp⟩ ⟨by simp, by exact hmax⟩ rfl hr
    refine ⟨k1, ?_⟩
    have hpos : 0 < d.norm x0 := lt_of_le_of_ne (hsq _ (hd.nonneg x0)).1 (Ne.symm hn0)
    rw [map_smul, hd.smul, hd.smul'] at k2
    have : d.dot x0 (TA x0) = (1 / d.norm x0 * (1 / d.norm x0 * d.dot x0 (TA x0))) * (d.norm x0 * d.norm x0) := by
      field_simp
    rw [this, ← hnn]
    exact mul_le_mul_of_nonneg_right k2 (mul_nonneg hpos.le hpos.le)

/-! ### Where it goes wrong -/

/-- An exact solve of `A - λB` as preconditioner returns the Ritz vector itself, which lies in the
    subspace: the new direction is zero and is divided by its zero norm. -/
theorem C99_exact_preconditioner (hd : IsDot d.dot) (hsq : IsSqrt d.sq) (i : Nat) (s : DSt K E)
    (hs : Inv d TA TB i s) (hinj : Function.Injective fun z => TA z - (d.ritz i s).2.1 • TB z)
    (hpc : ∀ r u, (fun z => TA z - (d.ritz i s).2.1 • TB z) (d.pc (d.ritz i s).2.1 r u) = r) (par : Par K) (n : Nat)
    (hn : 0 < n) (hlen : s.it < par.len) (hmax : s.it ≠ par.maxit) (htol : par.tol ≤ d.norm (d.ritz i s).2.2.2) :
    d.inner par (n + 1) i s = none := by
  have hz : ∀ u, d.pc (d.ritz i s).2.1 (d.ritz i s).2.2.2 u = (d.ritz i s).2.2.1 := fun u =>
    hinj ((hpc _ _).trans (C99_residual i s hs))
  have e : ∀ u, d.direction i s.V (d.ritz i s).2.1 (d.ritz i s).2.2.2 u = 0 := by
    intro u
    simp only [Dav.direction]
    rw [foldl_sum (fun j => (-d.dot (s.V j) (d.pc (d.ritz i s).2.1 (d.ritz i s).2.2.2 u)) • s.V j), hz, ritz_u,
      ← Finset.sum_add_distrib]
    refine Finset.sum_eq_zero fun j hj => ?_
    rw [hd.comm, dot_comb hd hs.1 _ j (Finset.mem_range.1 hj)]
    module
  have h0 : d.norm 0 = 0 := by rw [Dav.norm, hd.zero_left, hsq.zero]
  rw [Dav.inner]
  simp only [monitor, if_pos hlen, if_neg hmax, if_neg (not_lt.2 htol), e, h0, if_true]
  rw [if_neg (by omega)]

/-- A cycle that nothing stops raises the counter by one less than its passes, and reports the counter. -/
theorem cycle_count (par : Par K) (n i : Nat) (s s' : DSt K E) (h : d.inner par (n + 1) i s = some (s', false)) :
    s'.it = s.it + n ∧ s'.log.numIt = s.it + n := by
  induction n generalizing i s with
  | zero =>
    rw [Dav.inner] at h
    simp only [monitor] at h
    split_ifs at h <;> simp_all
    subst h; simp
  | succ n ih =>
    rw [Dav.inner] at h
    simp only [monitor] at h
    split_ifs at h <;> simp_all
    obtain ⟨h1, h2⟩ := ih _ _ h
    simp only at h1 h2
    exact ⟨by omega, by omega⟩

/-- A cycle that is stopped was stopped by the limit or by the residual. -/
theorem cycle_stop (par : Par K) (n i : Nat) (s s' : DSt K E) (h : d.inner par n i s = some (s', true)) :
    s'.log.status = .success ∨ s'.log.numIt = par.maxit := by
  induction n generalizing i s with
  | zero => simp [Dav.inner] at h
  | succ n ih =>
    rw [Dav.inner] at h
    simp only [monitor] at h
    split_ifs at h <;> simp only [Option.some.injEq, Prod.mk.injEq, reduceCtorEq, and_false, and_true] at h
    all_goals first
      | exact ih _ _ h
      | (subst h; first | exact .inl rfl | exact .inr (by assumption))

/-- The number of iterations reported: without a stop there are `maxit / size + 1` cycles, each counting one
    less than the size of the subspace. -/
theorem C99_counts (par : Par K) (size : Nat) (l0 : K) (x0 : E) (log : Log K) (r : DSt K E)
    (hr : d.solve par size l0 x0 log = some r) :
    r.log.status = .success ∨ r.log.numIt = par.maxit ∨
      r.log.numIt = 1 + (par.maxit / size + 1) * (size - 1) := by
  rw [Dav.solve] at hr
  split_ifs at hr with h0
  push Not at h0
  obtain ⟨m, rfl⟩ : ∃ m, size = m + 1 := ⟨size - 1, by omega⟩
  have key : ∀ n (s : DSt K E), d.outer par (m + 1) (n + 1) s = some r →
      r.log.status = .success ∨ r.log.numIt = par.maxit ∨ r.log.numIt = s.it + (n + 1) * m := by
    intro n
    induction n with
    | zero =>
      intro s h
      rw [Dav.outer] at h
      cases hi : d.inner par (m + 1) 0 s with
      | none => simp [hi] at h
      | some q =>
        obtain ⟨s1, b⟩ := q
        simp only [hi] at h
        cases b with
        | true => cases h; exact (cycle_stop par _ _ _ _ hi).imp id Or.inl
        | false =>
          simp only [Dav.outer] at h
          cases h
          refine .inr (.inr ?_)
          simpa [Dav.restart] using (cycle_count par _ _ _ _ hi).2
    | succ n ih =>
      intro s h
      rw [Dav.outer] at h
      cases hi : d.inner par (m + 1) 0 s with
      | none => simp [hi] at h
      | some q =>
        obtain ⟨s1, b⟩ := q
        simp only [hi] at h
        cases b with
        | true => cases h; exact (cycle_stop par _ _ _ _ hi).imp id Or.inl
        | false =>
          have e := (cycle_count par _ _ _ _ hi).1
          rcases ih _ h with h | h | h
          · exact .inl h
          · exact .inr (.inl h)
          · refine .inr (.inr ?_)
            rw [h]
            simp only [Dav.restart, e]
            ring
  simpa using key _ _ hr

/-- With a subspace of size one nothing is ever added: the vector stays a multiple of the guess. -/
theorem C99_size_one (par : Par K) (l0 : K) (x0 : E) (log : Log K) (r : DSt K E)
    (hr : d.solve par 1 l0 x0 log = some r) : ∃ a : K, r.u = a • x0 := by
  have inner1 : ∀ (s s' : DSt K E) b, d.inner par 1 0 s = some (s', b) → (∃ a : K, s'.u = a • s.V 0) ∧
      (b = false → ∃ a : K, s'.t = a • s.V 0) := by
    intro s s' b h
    have hu : (d.ritz 0 s).2.2.1 = (d.ritz 0 s).1 0 • s.V 0 := by rw [ritz_u]; simp
    rw [Dav.inner] at h
    cases hmon : monitor par s.log s.it (d.norm (d.ritz 0 s).2.2.2) with
    | none => simp [hmon] at h
    | some m =>
      obtain ⟨lg, b'⟩ := m
      simp only [hmon] at h
      cases b' with
      | true =>
        obtain ⟨rfl, rfl⟩ := Prod.mk.inj (Option.some.inj h)
        exact ⟨⟨_, hu⟩, fun h => by cases h⟩
      | false =>
        simp only [if_true] at h
        obtain ⟨rfl, rfl⟩ := Prod.mk.inj (Option.some.inj h)
        exact ⟨⟨_, hu⟩, fun _ => ⟨_, hu⟩⟩
  have key : ∀ n (s : DSt K E), (∃ a : K, s.u = a • x0) → (∃ a : K, s.V 0 = a • x0) → d.outer par 1 n s = some r →
      ∃ a : K, r.u = a • x0 := by
    intro n
    induction n with
    | zero => intro s hu _ h; cases h; exact hu
    | succ n ih =>
      intro s _ hV h
      obtain ⟨a, ha⟩ := hV
      rw [Dav.outer] at h
      cases hi : d.inner par 1 0 s with
      | none => simp [hi] at h
      | some q =>
        obtain ⟨s1, b⟩ := q
        obtain ⟨⟨c, hc⟩, ht⟩ := inner1 s s1 b hi
        simp only [hi] at h
        cases b with
        | true => cases h; exact ⟨c * a, by rw [hc, ha, smul_smul]⟩
        | false =>
          obtain ⟨e, he⟩ := ht rfl
          refine ih (d.restart s1) ⟨c * a, by simp [Dav.restart, hc, ha, smul_smul]⟩ ⟨e * a, ?_⟩ h
          simp [Dav.restart, he, ha, smul_smul]
  simp only [Dav.solve] at hr
  split at hr
  · cases hr
  · exact key _ _ ⟨1, by simp⟩ ⟨1 / d.norm x0, by simp⟩ hr

/-- The full statement: a returned pair within tolerance is reported as success. -/
def C99Claim : Prop :=
  ∀ (d : Dav ℚ ℚ) (lam tol : ℚ) (maxit : Nat), (∀ v, d.A v = lam * v) → (∀ v, d.B v = v) → (∀ a b, d.dot a b = a * b) →
    0 < tol → 0 < maxit → ∀ r, d.solve (Par.new tol maxit) 20 0 1 ⟨.running, 0, fun _ => 0⟩ = some r →
      d.norm (d.A r.u - r.lam * d.B r.u) < tol → r.log.status = .success

/-- It fails at the limit: there the limit is tested first. -/
def davDemo : Dav ℚ ℚ where
  A v := 3 * v
  B v := v
  dot a b := a * b
  sq a := if a = 0 then 0 else if a = 4 then 2 else 1
  proj _ M _ := (fun _ => 1, M 0 0)
  pc _ r _ := r

theorem C99_claim_fails : ¬ C99Claim := by
  intro h
  have h1 : (davDemo.solve (Par.new 1 1) 20 0 1 ⟨.running, 0, fun _ => 0⟩).map
      (fun r => (r.lam, r.u, r.log.status)) = some (3, 1, .maxit) := by decide +kernel
  cases hr : davDemo.solve (Par.new 1 1) 20 0 1 ⟨.running, 0, fun _ => 0⟩ with
  | none => simp [hr] at h1
  | some r =>
    simp only [hr, Option.map_some, Option.some.injEq, Prod.mk.injEq] at h1
    obtain ⟨e1, e2, e3⟩ := h1
    have := h davDemo 3 1 1 (fun _ => rfl) (fun _ => rfl) (fun _ _ => rfl) (by norm_num) (by norm_num) r hr (by
      rw [e1, e2]; decide +kernel)
    rw [e3] at this
    cases this

/-- At the limit success is never reported; in particular never with a limit of one. -/
theorem C99_limit_one (hd : IsDot d.dot) (hsq : IsSqrt d.sq) (hu : UnitProj d) (hA : ∀ v, d.A v = TA v)
    (hB : ∀ v, d.B v = TB v) (tol : K) (size : Nat) (l0 : K) (x0 : E) (log : Log K) (r : DSt K E)
    (hr : d.solve (Par.new tol 1) size l0 x0 log = some r) : r.log.status = .maxit := by
  obtain ⟨-, -, h2, h3, h4⟩ := C99_outcome hd hsq hu hA hB (Par.new tol 1) (by simp [Par.new]) size l0 x0 log r hr
  rcases h4 with ⟨-, -, h⟩ | ⟨h, -⟩
  · simp only [Par.new] at h; omega
  · exact h

/-- A subspace of size zero divides the limit by zero. -/
theorem C99_size_zero (par : Par K) (l0 : K) (x0 : E) (log : Log K) : d.solve par 0 l0 x0 log = none := by
  simp [Dav.solve]

/-! ### Eispack -/

/-- `pick` returns the first of the largest (`which = 1`) or smallest (`which = 0`) real parts. -/
theorem C99_pick (er : Nat → K) (m : Nat) (hm : 0 < m) :
    ((pick 1 er m).1 = er (pick 1 er m).2 ∧ (pick 1 er m).2 < m ∧ (∀ j, j < m → er j ≤ (pick 1 er m).1) ∧
      ∀ j, j < (pick 1 er m).2 → er j < (pick 1 er m).1) ∧
    ((pick 0 er m).1 = er (pick 0 er m).2 ∧ (pick 0 er m).2 < m ∧ (∀ j, j < m → (pick 0 er m).1 ≤ er j) ∧
      ∀ j, j < (pick 0 er m).2 → (pick 0 er m).1 < er j) := by
  obtain ⟨n, rfl⟩ : ∃ n, m = n + 1 := ⟨m - 1, by omega⟩
  clear hm
  have step : ∀ which n, pick which er (n + 1 + 1) =
      if (er (n + 1) > (pick which er (n + 1)).1 ∧ which = 1) ∨ (er (n + 1) < (pick which er (n + 1)).1 ∧ which = 0)
      then (er (n + 1), n + 1) else pick which er (n + 1) := by
    intro which n
    simp only [pick, Nat.add_sub_cancel, List.range_succ, List.foldl_append, List.foldl_cons, List.foldl_nil]
  constructor
  · induction n with
    | zero => simp [pick]
    | succ n ih =>
      obtain ⟨h1, h2, h3, h4⟩ := ih
      rw [step]
      by_cases hc : er (n + 1) > (pick 1 er (n + 1)).1
      · rw [if_pos (Or.inl ⟨hc, rfl⟩)]
        refine ⟨rfl, by simp, fun j hj => ?_, fun j hj => lt_of_le_of_lt (h3 j hj) hc⟩
        by_cases hj' : j = n + 1
        · rw [hj']
        · exact (h3 j (by omega)).trans hc.le
      · rw [if_neg (by simp [hc])]
        refine ⟨h1, by omega, fun j hj => ?_, h4⟩
        by_cases hj' : j = n + 1
        · rw [hj']; exact not_lt.1 hc
        · exact h3 j (by omega)
  · induction n with
    | zero => simp [pick]
    | succ n ih =>
      obtain ⟨h1, h2, h3, h4⟩ := ih
      rw [step]
      by_cases hc : er (n + 1) < (pick 0 er (n + 1)).1
      · rw [if_pos (Or.inr ⟨hc, rfl⟩)]
        refine ⟨rfl, by simp, fun j hj => ?_, fun j hj => lt_of_lt_of_le hc (h3 j hj)⟩
        by_cases hj' : j = n + 1
        · rw [hj']
        · exact hc.le.trans (h3 j (by omega))
      · rw [if_neg (by simp [hc])]
        refine ⟨h1, by omega, fun j hj => ?_, h4⟩
        by_cases hj' : j = n + 1
        · rw [hj']; exact not_lt.1 hc
        · exact h3 j (by omega)

/-- EISPACK's convention: column `j` of a real eigenvalue is its vector; of a complex pair the columns
    `j`, `j + 1` are the real and imaginary parts of the vector of the one with positive imaginary part. -/
def Columns (T : E →ₗ[K] E) (m : Nat) (er ei : Nat → K) (v : Nat → E) : Prop :=
  ∀ j, j < m → (ei j = 0 → T (v j) = er j • v j) ∧
    (0 < ei j → j + 1 < m ∧ er (j + 1) = er j ∧ ei (j + 1) = -ei j ∧ T (v j) = er j • v j - ei j • v (j + 1) ∧
      T (v (j + 1)) = er j • v (j + 1) + ei j • v j)

/-- What `Eispack` returns: a normalised vector which is an eigenvector when the eigenvalue chosen is
    real; the status never says success. -/
theorem C99_eispack {nrm : E → K} (T : E →ₗ[K] E) (hs : ∀ (a : K) v, nrm (a • v) = |a| * nrm v) (hpos : ∀ v, 0 ≤ nrm v)
    (m : Nat) (hm : 0 < m) (er ei : Nat → K) (v : Nat → E) (hc : Columns T m er ei v) (lam : K) (x : E) (st : Status)
    (h : eispack nrm 1 m er v = some (lam, x, st)) :
    nrm x = 1 ∧ st = .maxit ∧ (∀ j, j < m → er j ≤ lam) ∧
      ∃ i, i < m ∧ lam = er i ∧ (ei i = 0 → T x = lam • x) ∧
        (0 < ei i → v (i + 1) ≠ 0 → T x ≠ lam • x) := by
  obtain ⟨⟨p1, p2, p3, -⟩, -⟩ := C99_pick er m hm
  simp only [eispack] at h
  split at h
  · cases h
  · rename_i h0
    simp only [Option.some.injEq, Prod.mk.injEq] at h
    obtain ⟨rfl, rfl, rfl⟩ := h
    have hp : 0 < nrm (v (pick 1 er m).2) := lt_of_le_of_ne (hpos _) (Ne.symm h0)
    refine ⟨?_, rfl, p3, (pick 1 er m).2, p2, p1, fun hi => ?_, fun hi hv => ?_⟩
    · rw [hs, abs_of_pos (by positivity)]
      field_simp
    · rw [map_smul, (hc _ p2).1 hi, p1, smul_comm]
    · obtain ⟨-, -, -, q, -⟩ := (hc _ p2).2 hi
      rw [map_smul, q, smul_comm, ← p1]
      intro he
      rw [← sub_eq_zero, ← smul_sub, smul_eq_zero] at he
      rcases he with he | he
      · exact (one_div_pos.2 hp).ne' he
      · have : ei (pick 1 er m).2 • v ((pick 1 er m).2 + 1) = 0 := by
          have e2 : ei (pick 1 er m).2 • v ((pick 1 er m).2 + 1) =
            -((pick 1 er m).1 • v (pick 1 er m).2 - ei (pick 1 er m).2 • v ((pick 1 er m).2 + 1) -
              (pick 1 er m).1 • v (pick 1 er m).2) := by module
          rw [e2, he, neg_zero]
        rcases smul_eq_zero.1 this with h | h
        · exact hi.ne' h
        · exact hv h

/-! ## Creators (C100) -/

omit [IsStrictOrderedRing K] [AddCommGroup E] [Module K E] in
/-- Without a database the defaults are built. -/
theorem C100_defaults :
    createLinear (none : Option (Db K)) = some ⟨.gmres 30, 1 / 10 ^ 8, 1 / 10 ^ 8, 100, false, 0⟩ ∧
    createEigen (none : Option (Db K)) = some ⟨.power, 1 / 10 ^ 5, 100, 0⟩ := by
  constructor
  · unfold createLinear look
    simp only [Option.bind_none, Option.getD_none]
    rfl
  · unfold createEigen look
    simp only [Option.bind_none, Option.getD_none]
    rfl

/-- The entries a linear solver of each name takes its parameters from, and those only. -/
def linSpec (db : Db K) : Option (LinKind K) :=
  match (db.str "linear_solver_type").getD "gmres" with
  | "richardson" => some (.richardson ((db.dbl "linear_solver_richardson_omega").getD 1))
  | "jacobi" => some .jacobi
  | "gauss-seidel" => some (.gaussSeidel 1)
  | "sor" => some (.gaussSeidel ((db.dbl "linear_solver_sor_omega").getD 1))
  | "gmres" =>
    if 2 < (db.int "linear_solver_gmres_restart").getD 30 then
      some (.gmres ((db.int "linear_solver_gmres_restart").getD 30)) else none
  | _ => none

omit [IsStrictOrderedRing K] [AddCommGroup E] [Module K E] in
/-- What the linear creator builds: the named method, its own parameter, and tolerances, limit and
    monitor settings from their entries; an unknown name or a GMRES restart of at most two is an error. -/
theorem C100_linear (db : Db K) :
    (createLinear (some db)).map (·.kind) = linSpec db ∧
    ∀ s, createLinear (some db) = some s →
      s.atol = (db.dbl "linear_solver_atol").getD (1 / 10 ^ 8) ∧
      s.rtol = (db.dbl "linear_solver_rtol").getD (1 / 10 ^ 8) ∧
      s.maxit = (db.int "linear_solver_maxit").getD 100 ∧
      s.level = (db.int "linear_solver_monitor_level").getD 0 ∧
      (s.diverge = true ↔ ∃ n, db.int "linear_solver_monitor_diverge" = some n ∧ n ≠ 0) := by
  constructor
  · unfold createLinear look linSpec
    simp only [Option.bind_some, Option.map_map]
    generalize (db.str "linear_solver_type").getD "gmres" = t
    by_cases h1 : t = "richardson"
    · subst h1; simp
    by_cases h2 : t = "jacobi"
    · subst h2; simp
    by_cases h3 : t = "gauss-seidel"
    · subst h3; simp
    by_cases h4 : t = "sor"
    · subst h4; simp
    by_cases h5 : t = "gmres"
    · subst h5
      by_cases h6 : 2 < (db.int "linear_solver_gmres_restart").getD 30
      · simp [h6]
      · simp [h6]
    simp only [if_neg h1, if_neg h2, if_neg h3, if_neg h4, if_neg h5, Option.map_none]
  · intro s hs
    unfold createLinear look at hs
    simp only [Option.bind_some, Option.map_eq_some_iff] at hs
    obtain ⟨k, -, rfl⟩ := hs
    refine ⟨rfl, rfl, rfl, rfl, ?_⟩
    simp only [decide_eq_true_eq]
    cases db.int "linear_solver_monitor_diverge" <;> simp

omit [IsStrictOrderedRing K] [AddCommGroup E] [Module K E] in
/-- The linear creator fails for unknown names only, apart from small GMRES restarts. -/
theorem C100_linear_error (db : Db K) : createLinear (some db) = none ↔
    ((db.str "linear_solver_type").getD "gmres" ∉ ["richardson", "jacobi", "gauss-seidel", "sor", "gmres"]) ∨
    ((db.str "linear_solver_type").getD "gmres" = "gmres" ∧ (db.int "linear_solver_gmres_restart").getD 30 ≤ 2) := by
  have h : createLinear (some db) = none ↔ linSpec db = none := by
    rw [← (C100_linear db).1, Option.map_eq_none_iff]
  rw [h]
  unfold linSpec
  generalize (db.str "linear_solver_type").getD "gmres" = t
  split <;> simp_all

omit [IsStrictOrderedRing K] [AddCommGroup E] [Module K E] in
/-- What the eigenvalue creator builds; unknown names are errors. -/
theorem C100_eigen (db : Db K) :
    (createEigen (some db) = none ↔ (db.str "eigen_solver_type").getD "power" ∉ ["power", "gd", "eispack"]) ∧
    ∀ s, createEigen (some db) = some s →
      s.tol = (db.dbl "eigen_solver_tol").getD (1 / 10 ^ 5) ∧ s.maxit = (db.int "eigen_solver_maxit").getD 100 ∧
      s.level = (db.int "eigen_solver_monitor_level").getD 0 ∧
      ((db.str "eigen_solver_type").getD "power" = "power" → s.kind = .power) ∧
      ((db.str "eigen_solver_type").getD "power" = "gd" →
        s.kind = .davidson ((db.int "eigen_solver_subspace_size").getD 20)) ∧
      ((db.str "eigen_solver_type").getD "power" = "eispack" → s.kind = .eispack 1) := by
  unfold createEigen look
  simp only [Option.bind_some, Option.map_eq_none_iff, Option.map_eq_some_iff]
  constructor
  · by_cases h1 : (db.str "eigen_solver_type").getD "power" = "power"
    · simp [h1]
    · by_cases h2 : (db.str "eigen_solver_type").getD "power" = "gd"
      · simp [h2]
      · by_cases h3 : (db.str "eigen_solver_type").getD "power" = "eispack"
        · simp [h3]
        · simp [h1, h2, h3]
  · rintro s ⟨k, hk, rfl⟩
    refine ⟨rfl, rfl, rfl, fun h => ?_, fun h => ?_, fun h => ?_⟩ <;> simp only [h] at hk <;> simpa using hk.symm

/-- The full statement: the relaxation entry applies to Gauss–Seidel, of which "sor" is the relaxed form, and an
    absent divergence entry leaves the solvers' own default, which is to watch for divergence. -/
def C100Claim (K : Type) [Field K] [LinearOrder K] : Prop :=
  ∀ (db : Db K) s, createLinear (some db) = some s → db.int "linear_solver_monitor_diverge" = none → s.diverge = true

/-- The creator turns the divergence check off unless asked. -/
theorem C100_claim_fails : ¬ C100Claim ℚ := by
  intro h
  have := h ⟨fun _ => none, fun _ => none, fun _ => none⟩ ⟨.gmres 30, 1 / 10 ^ 8, 1 / 10 ^ 8, 100, false, 0⟩
    (by decide +kernel) rfl
  cases this

/-! ## Cases meeting the hypotheses -/

example : (davDemo.solve (Par.new 1 5) 20 0 2 ⟨.running, 0, fun _ => 0⟩).map
    (fun r => (r.lam, r.log.status, r.log.numIt)) = some (3, .success, 1) := by decide +kernel

/-- Two unknowns, `A` = (9 12; 12 16) with largest eigenvalue 25; started at (1,0) the residual (0,12)
    extends the subspace to the whole plane, where the largest Ritz value is exact. -/
def davTwo : Dav ℚ (ℚ × ℚ) where
  A v := (9 * v.1 + 12 * v.2, 12 * v.1 + 16 * v.2)
  B v := v
  dot a b := a.1 * b.1 + a.2 * b.2
  sq a := if a = 0 then 0 else if a = 144 then 12 else 1
  proj n M _ := if n = 1 then (fun _ => 1, M 0 0) else (fun j => if j = 0 then 3 / 5 else 4 / 5, 25)
  pc _ r _ := r

example : (davTwo.solve (Par.new (1 / 2) 10) 5 0 (1, 0) ⟨.running, 0, fun _ => 0⟩).map
    (fun r => (r.lam, r.u, r.log.status, r.log.numIt)) = some (25, (3 / 5, 4 / 5), .success, 2) := by decide +kernel

/-- Over the reals there are a square root and a projected solver as supposed, for every pair of
    operators, inner product and preconditioner. -/
theorem proj_exists : ∃ proj : Nat → (Nat → Nat → ℝ) → (Nat → Nat → ℝ) → (Nat → ℝ) × ℝ,
    ∀ n M N, 0 < n → ∑ j ∈ range n, (proj n M N).1 j * (proj n M N).1 j = 1 ∧
      (proj n M N).2 = ∑ r ∈ range n, ∑ c ∈ range n, (proj n M N).1 r * M r c * (proj n M N).1 c ∧
      ∀ z : Nat → ℝ, ∑ j ∈ range n, z j * z j = 1 →
        ∑ r ∈ range n, ∑ c ∈ range n, z r * M r c * z c ≤ (proj n M N).2 := by
  have key : ∀ n (M : Nat → Nat → ℝ), ∃ q : (Nat → ℝ) × ℝ, 0 < n → ∑ j ∈ range n, q.1 j * q.1 j = 1 ∧
      q.2 = ∑ r ∈ range n, ∑ c ∈ range n, q.1 r * M r c * q.1 c ∧
      ∀ z : Nat → ℝ, ∑ j ∈ range n, z j * z j = 1 → ∑ r ∈ range n, ∑ c ∈ range n, z r * M r c * z c ≤ q.2 := by
    intro n M
    by_cases hn : 0 < n
    swap
    · exact ⟨(0, 0), fun h => absurd h hn⟩
    let S : Set (Fin n → ℝ) := {y | ∑ j, y j * y j = 1}
    let f : (Fin n → ℝ) → ℝ := fun y => ∑ r : Fin n, ∑ c : Fin n, y r * M r c * y c
    have hS : IsCompact S := by
      refine Metric.isCompact_of_isClosed_isBounded (isClosed_eq (continuous_finsetSum _ fun j _ => (continuous_apply j).mul (continuous_apply j)) continuous_const) ?_
      refine (Metric.isBounded_iff_subset_closedBall 0).2 ⟨1, fun y hy => ?_⟩
      rw [mem_closedBall_zero_iff, pi_norm_le_iff_of_nonneg zero_le_one]
      intro i
      have h1 : y i * y i ≤ 1 := by
        rw [← show ∑ j, y j * y j = 1 from hy]
        exact Finset.single_le_sum (f := fun j => y j * y j) (fun j _ => mul_self_nonneg _) (Finset.mem_univ i)
      rw [Real.norm_eq_abs, abs_le]
      constructor <;> nlinarith
    have hne : S.Nonempty := ⟨fun j => if j = ⟨0, hn⟩ then 1 else 0, by simp [S]⟩
    obtain ⟨y, hy, hmax⟩ := hS.exists_isMaxOn hne (f := f) (Continuous.continuousOn (continuous_finsetSum _ fun r _ => continuous_finsetSum _ fun c _ =>
      ((continuous_apply r).mul continuous_const).mul (continuous_apply c)))
    refine ⟨(fun j => if h : j < n then y ⟨j, h⟩ else 0, f y), fun _ => ⟨?_, ?_, fun z hz => ?_⟩⟩
    · rw [Finset.sum_range]; simpa [S] using hy
    · rw [Finset.sum_range]
      simp only [Finset.sum_range, f]
      simp
    · have hz' : (fun j : Fin n => z j) ∈ S := by
        rw [Finset.sum_range] at hz; exact hz
      have := hmax hz'
      rw [Finset.sum_range]
      simp only [Finset.sum_range]
      exact this
  choose q hq using key
  exact ⟨fun n M _ => q n M, fun n M _ hn => hq n M hn⟩

/-- A rotation: the real part 0 of the complex pair ±i is returned as an eigenvalue, with status MAXIT. -/
example : eispack (fun v : ℚ × ℚ => |v.1| + |v.2|) 1 2 (fun _ => 0) (fun j => if j = 0 then (1, 0) else (0, -1)) =
    some (0, (1, 0), .maxit) := by decide +kernel

example : createLinear (some ⟨fun k => if k = "linear_solver_type" then some "gauss-seidel" else none, fun _ => none,
    fun k => if k = "linear_solver_sor_omega" then some (3 / 2 : ℚ) else none⟩) =
    some ⟨.gaussSeidel 1, 1 / 10 ^ 8, 1 / 10 ^ 8, 100, false, 0⟩ := by decide +kernel

end Detran.EigenSolve
