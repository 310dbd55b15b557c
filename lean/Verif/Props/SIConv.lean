import Verif.Lemmas.SIExist
import Verif.Props.SweepSign
import Mathlib.Algebra.Order.Archimedean.Basic

/-!
# Source iteration finds the group's only flux (C128)
-/

namespace Detran.WGReflect

open Detran.Sweep (St)
open Detran.Boundary (Bd BC Loc Enters Mirror faceCells)
open Finset

section main
variable {F K : Type} [Field K] [LinearOrder K] [IsStrictOrderedRing K]
variable {P : Prob F K} {w V sig ss : Nat → K} {m r : K} {fw : Nat → Nat → Nat → Nat → K}
  {Sol : (Nat → K) → Nat → Nat → (Nat → F) → (Nat → K) → Prop}

/-! ## One flux -/

/-- A group that scatters less than it collides has at most one scalar flux. -/
theorem C128_unique (h : Sweeps P w Sol) (hS : Subcritical P w V sig ss m r) (D : Dissipates P Sol V sig fw)
    (phi phi' : Nat → K) (h1 : IsFlux P w Sol phi) (h2 : IsFlux P w Sol phi') : ∀ c < P.N, phi c = phi' c := by
  obtain ⟨b1, p1, k1⟩ := (flux_sol h hS phi).1 h1
  obtain ⟨b2, p2, k2⟩ := (flux_sol h hS phi').1 h2
  have zin : ∀ side < 2 * P.dim, P.bc side ≠ .reflect → ∀ o < 2 ^ P.dim, Enters side o → ∀ a < P.na, ∀ i j,
      InFace P side i j → P.get (errBd P b1 b2 side o a) i j = 0 := by
    intro side hs hb o ho he a ha i j hi
    exact enter_error h hS ⟨k1.vacuum, k1.given⟩ k2 side hs hb o ho he a ha i j hi
  obtain ⟨e0, _⟩ := homogeneous hS D h (fun c => phi c - phi' c) (errBd P b1 b2)
    (fun o a c => 1 * p1 o a c + (-1) * p2 o a c)
    (fun o ho a ha => h.lin 1 (-1) _ _ _ o a _ _ _ _ _ _ ho (k1.cells o ho a ha) (k2.cells o ho a ha)
      (fun c _ => by ring) (fun _ => rfl) (fun side hs i j hi => get_comb h 1 (-1) _ _ side hs o a i j hi))
    (fun c hc => by
      have e1 := k1.flux c hc
      have e2 := k2.flux c hc
      rw [add_zero] at e1 e2
      rw [e1, e2, ← sum_sub_distrib]
      refine sum_congr rfl fun o _ => ?_
      rw [← sum_sub_distrib]
      exact sum_congr rfl fun a _ => by ring)
    zin
    (fun side hs hb o ho he a ha i j hi => by
      obtain ⟨_, hm, _, _⟩ := mir_facts P.dim h.d1 h.d3 side hs o ho
      rw [get_errBd h _ _ side hs _ _ _ _ hi, get_errBd h _ _ side hs _ _ _ _ hi]
      have e1 := k1.reflect side hs hb o ho he _ hm a ha i j hi
      have e2 := k2.reflect side hs hb o ho he _ hm a ha i j hi
      linarith)
  intro c hc
  exact sub_eq_zero.1 (e0 c hc)

/-- And it has one. -/
theorem C128_exists (h : Sweeps P w Sol) (hS : Subcritical P w V sig ss m r) (D : Dissipates P Sol V sig fw)
    (s : St F K) : ∃ phi, IsFlux P w Sol phi := exists_flux h hS D s

/-! ## Source iteration -/

theorem sides_pass (h : Sweeps P w Sol) (hS : Subcritical P w V sig ss m r) (s : St F K) (hs : Sides P s.bdy)
    (n : Nat) : Sides P (P.siPass^[n] s).bdy := by
  induction n with
  | zero => exact hs
  | succ n ih =>
    rw [Function.iterate_succ_apply']
    exact sides_sweep h hS.np true _ _ ih

/-- The squared errors of all passes together stay below a bound, from any fluxes and any boundary left by earlier
    solves that meets the side conditions. -/
theorem C128_total (h : Sweeps P w Sol) (hS : Subcritical P w V sig ss m r) (D : Dissipates P Sol V sig fw)
    (phi : Nat → K) (hphi : IsFlux P w Sol phi) (s : St F K) (hs : Sides P s.bdy) :
    ∃ C, ∀ n, ∑ k ∈ range n, errSum P V sig (P.siPass^[k + 1] s).phi phi ≤ C := by
  obtain ⟨bd, psi, hsol⟩ := (flux_sol h hS phi).1 hphi
  obtain ⟨pot, p0, p1⟩ := potential h hS D phi bd psi hsol
  have hc : 0 < m / 2 * (1 - r ^ 2) := by
    have := hS.mpos
    have : 0 < 1 - r ^ 2 := by nlinarith [hS.nonneg, hS.less]
    positivity
  refine ⟨pot s / (m / 2 * (1 - r ^ 2)), fun n => ?_⟩
  rw [le_div_iff₀ hc]
  have key : pot (P.siPass^[n] s) +
      (∑ k ∈ range n, errSum P V sig (P.siPass^[k + 1] s).phi phi) * (m / 2 * (1 - r ^ 2)) ≤ pot s := by
    induction n with
    | zero => simp
    | succ n ih =>
      have := p1 (P.siPass^[n] s) (sides_pass h hS s hs n)
      rw [← Function.iterate_succ_apply' P.siPass] at this
      rw [sum_range_succ, add_mul]
      linarith
  have := p0 (P.siPass^[n] s)
  linarith

/-- Terms whose sums stay bounded become small. -/
theorem small_of_bounded [Archimedean K] (a : Nat → K) (ha : ∀ n, 0 ≤ a n) (C : K)
    (hC : ∀ n, ∑ k ∈ range n, a k ≤ C) (δ : K) (hδ : 0 < δ) : ∃ n0, ∀ n ≥ n0, a n < δ := by
  by_contra hcon
  push Not at hcon
  have big : ∀ M : Nat, ∃ n, (M : K) * δ ≤ ∑ k ∈ range n, a k := by
    intro M
    induction M with
    | zero => exact ⟨0, by simp⟩
    | succ M ih =>
      obtain ⟨n, hn⟩ := ih
      obtain ⟨n', h1, h2⟩ := hcon n
      refine ⟨n' + 1, ?_⟩
      rw [sum_range_succ]
      have : ∑ k ∈ range n, a k ≤ ∑ k ∈ range n', a k :=
        sum_le_sum_of_subset_of_nonneg (range_mono h1) fun k _ _ => ha k
      push_cast
      linarith
  obtain ⟨M, hM⟩ := Archimedean.arch (C + δ) hδ
  obtain ⟨n, hn⟩ := big M
  rw [nsmul_eq_mul] at hM
  have := hC n
  linarith

theorem cells_small (hS : Subcritical P w V sig ss m r) (ε : K) (hε : 0 < ε) : ∃ δ > 0, ∀ f g : Nat → K,
    errSum P V sig f g < δ → ∀ c < P.N, |f c - g c| < ε := by
  have : ∃ δ > 0, ∀ c < P.N, δ ≤ V c * sig c * ε ^ 2 := by
    rcases Nat.eq_zero_or_pos P.N with h0 | h0
    · exact ⟨1, one_pos, fun c hc => by omega⟩
    · obtain ⟨c, hc, hmin⟩ := exists_min_image (range P.N) (fun c => V c * sig c * ε ^ 2) ⟨0, mem_range.2 h0⟩
      have h1 := hS.vol c (mem_range.1 hc)
      have h2 := hS.tot c (mem_range.1 hc)
      exact ⟨_, by positivity, fun c' hc' => hmin c' (mem_range.2 hc')⟩
  obtain ⟨δ, hδ, hmin⟩ := this
  refine ⟨δ, hδ, fun f g hlt c hc => ?_⟩
  have h1 : V c * sig c * (f c - g c) ^ 2 ≤ errSum P V sig f g := single_le_sum
    (f := fun c => V c * sig c * (f c - g c) ^ 2)
    (fun i hi => mul_nonneg (mul_pos (hS.vol i (mem_range.1 hi)) (hS.tot i (mem_range.1 hi))).le (sq_nonneg _))
    (mem_range.2 hc)
  have h2 : V c * sig c * (f c - g c) ^ 2 < V c * sig c * ε ^ 2 := lt_of_le_of_lt h1 (lt_of_lt_of_le hlt (hmin c hc))
  exact abs_lt_of_sq_lt_sq (lt_of_mul_lt_mul_left h2 (mul_pos (hS.vol c hc) (hS.tot c hc)).le) hε.le

/-- The fluxes of source iteration approach the flux of the group in every cell, with reflecting sides too. -/
theorem C128_converges [Archimedean K] (h : Sweeps P w Sol) (hS : Subcritical P w V sig ss m r)
    (D : Dissipates P Sol V sig fw) (phi : Nat → K) (hphi : IsFlux P w Sol phi) (s : St F K) (hs : Sides P s.bdy)
    (ε : K) (hε : 0 < ε) : ∃ n0, ∀ n ≥ n0, ∀ c < P.N, |(P.siPass^[n] s).phi c - phi c| < ε := by
  obtain ⟨C, hC⟩ := C128_total h hS D phi hphi s hs
  obtain ⟨δ, hδ, hd⟩ := cells_small hS ε hε
  obtain ⟨n0, hn⟩ := small_of_bounded _ (fun n => errSum_nonneg hS _ _) C hC δ hδ
  refine ⟨n0 + 1, fun n hn0 => hd _ _ ?_⟩
  obtain ⟨n', rfl⟩ : ∃ n', n = n' + 1 := ⟨n - 1, by omega⟩
  exact hn n' (by omega)

omit [IsStrictOrderedRing K] in
/-- The stopping test compares all cells. -/
theorem C128_test (hN : 0 < P.N) [IsStrictOrderedRing K] (tol : K) (old new : Nat → K) :
    P.close tol old new = true ↔ ∀ c < P.N, |old c - new c| < tol := by
  obtain ⟨v, hv, hmax, y, hy, hyv⟩ := Util.C20_normResLinf ((List.range P.N).map old) ((List.range P.N).map new)
    (by simp) (by
      intro h0
      have := congrArg List.length h0
      simp at this
      omega)
  have hz : List.zipWith (· - ·) ((List.range P.N).map old) ((List.range P.N).map new) =
      (List.range P.N).map fun c => old c - new c := by
    rw [List.zipWith_map, List.zipWith_self]
  rw [hz] at hmax hy
  unfold Prob.close
  rw [hv]
  dsimp only
  rw [decide_eq_true_iff]
  constructor
  · intro hlt c hc
    exact lt_of_le_of_lt (hmax _ (List.mem_map.2 ⟨c, List.mem_range.2 hc, rfl⟩)) hlt
  · intro hall
    obtain ⟨c, hc, rfl⟩ := List.mem_map.1 hy
    rw [← hyv]
    exact hall c (List.mem_range.1 hc)

omit [IsStrictOrderedRing K] in
theorem siLoop_at (tol : K) (n : Nat) (s : St F K)
    (hn : ∀ j < n, P.close tol (P.siPass^[j] s).phi (P.siPass^[j + 1] s).phi = false)
    (hc : P.close tol (P.siPass^[n] s).phi (P.siPass^[n + 1] s).phi = true) (k : Nat) (hk : n < k) :
    P.siLoop tol k s = P.siPass^[n + 1] s := by
  induction n generalizing s k with
  | zero =>
    obtain ⟨k, rfl⟩ : ∃ k', k = k' + 1 := ⟨k - 1, by omega⟩
    rw [Prob.siLoop]
    have hc' : P.close tol s.phi (P.siPass s).phi = true := hc
    rw [if_pos hc']
    rfl
  | succ n ih =>
    obtain ⟨k, rfl⟩ : ∃ k', k = k' + 1 := ⟨k - 1, by omega⟩
    rw [Prob.siLoop]
    have h0 : P.close tol s.phi (P.siPass s).phi = false := hn 0 (by omega)
    rw [h0, if_neg Bool.false_ne_true, ih (P.siPass s) (fun j hj => hn (j + 1) (by omega)) hc k (by omega)]
    rfl

/-- Source iteration stops by its own test after finitely many passes, with fluxes that no longer change by the
    tolerance; a larger limit on the number of passes changes nothing. -/
theorem C128_stops [Archimedean K] (h : Sweeps P w Sol) (hS : Subcritical P w V sig ss m r)
    (D : Dissipates P Sol V sig fw) (hN : 0 < P.N) (s : St F K) (hs : Sides P s.bdy) (tol : K) (ht : 0 < tol) :
    ∃ n, (∀ k > n, P.siLoop tol k s = P.siPass^[n + 1] s) ∧
      (∀ c < P.N, |(P.siPass^[n] s).phi c - (P.siPass^[n + 1] s).phi c| < tol) ∧
      ∀ j < n, ¬ ∀ c < P.N, |(P.siPass^[j] s).phi c - (P.siPass^[j + 1] s).phi c| < tol := by
  classical
  obtain ⟨phi, hphi⟩ := C128_exists h hS D s
  obtain ⟨n0, hn⟩ := C128_converges h hS D phi hphi s hs (tol / 2) (by linarith)
  have hex : ∃ n, ∀ c < P.N, |(P.siPass^[n] s).phi c - (P.siPass^[n + 1] s).phi c| < tol := by
    refine ⟨n0, fun c hc => ?_⟩
    have h1 := abs_lt.1 (hn n0 (le_refl _) c hc)
    have h2 := abs_lt.1 (hn (n0 + 1) (by omega) c hc)
    exact abs_lt.2 ⟨by linarith [h1.1, h2.2], by linarith [h1.2, h2.1]⟩
  refine ⟨Nat.find hex, fun k hk => ?_, Nat.find_spec hex, fun j hj => Nat.find_min hex hj⟩
  refine siLoop_at tol (Nat.find hex) s (fun j hj => ?_) ((C128_test hN _ _ _).2 (Nat.find_spec hex)) k hk
  cases hcl : P.close tol (P.siPass^[j] s).phi (P.siPass^[j + 1] s).phi with
  | false => rfl
  | true => exact absurd ((C128_test hN _ _ _).1 hcl) (Nat.find_min hex hj)

/-! ## Without reflecting sides -/

theorem open_pass (h : Sweeps P w Sol) (hS : Subcritical P w V sig ss m r) (D : Dissipates P Sol V sig fw)
    (hno : ∀ side < 2 * P.dim, P.bc side ≠ .reflect) (phi : Nat → K) (hphi : IsFlux P w Sol phi) (s : St F K)
    (hs : Sides P s.bdy) : errSum P V sig (P.siPass s).phi phi ≤
      ∑ c ∈ range P.N, V c * ss c * (s.phi c - phi c) * ((P.siPass s).phi c - phi c) := by
  obtain ⟨bd, psi, hsol⟩ := (flux_sol h hS phi).1 hphi
  obtain ⟨p, hc, he⟩ := pass_error h hS s phi bd psi hsol
  have key := pass_energy hS D (fun c => s.phi c - phi c) (fun c => (P.siPass s).phi c - phi c)
    (errBd P (P.siPass s).bdy bd) p hc he
  have hin : inDot P w fw (errBd P (P.siPass s).bdy bd) (errBd P (P.siPass s).bdy bd) = 0 := by
    rw [inDot_eq]
    unfold pickSum
    refine sum_eq_zero fun o ho => sum_eq_zero fun a ha => ?_
    rw [mul_eq_zero]
    right
    refine sum_eq_zero fun t ht => ?_
    split
    · next hen =>
      exact faceDot_zero fun i j hi => enter_error h hS (sides_sweep h hS.np true _ s hs) hsol t (mem_range.1 ht)
        (hno t (mem_range.1 ht)) o (mem_range.1 ho) hen a (mem_range.1 ha) i j hi
    · rfl
  have hout : 0 ≤ outDot P w fw (errBd P (P.siPass s).bdy bd) (errBd P (P.siPass s).bdy bd) := by
    rw [outDot_mirror h.d1 h.d3]
    exact pickSum_nonneg hS.weight fun t ht o ho hen a ha => faceDot_nonneg D ht ha _
  rw [hin, zero_add] at key
  have hm := hS.mpos
  exact le_of_mul_le_mul_left (by unfold errSum; linarith) hm

/-- Each pass multiplies the error (weighted root mean square) by at most the scattering ratio. -/
theorem C128_contract (h : Sweeps P w Sol) (hS : Subcritical P w V sig ss m r) (D : Dissipates P Sol V sig fw)
    (hno : ∀ side < 2 * P.dim, P.bc side ≠ .reflect) (phi : Nat → K) (hphi : IsFlux P w Sol phi) (s : St F K)
    (hs : Sides P s.bdy) (n : Nat) :
    errSum P V sig (P.siPass^[n] s).phi phi ≤ (r ^ n) ^ 2 * errSum P V sig s.phi phi := by
  induction n with
  | zero => simp
  | succ n ih =>
    have h1 := open_pass h hS D hno phi hphi (P.siPass^[n] s) (sides_pass h hS s hs n)
    have h2 := source_bound hS (fun c => (P.siPass^[n] s).phi c - phi c)
      (fun c => (P.siPass (P.siPass^[n] s)).phi c - phi c)
    rw [Function.iterate_succ_apply']
    have h3 : errSum P V sig (P.siPass (P.siPass^[n] s)).phi phi ≤ r ^ 2 * errSum P V sig (P.siPass^[n] s).phi phi := by
      unfold errSum at h1 ⊢
      linarith
    have h4 := mul_le_mul_of_nonneg_left ih (sq_nonneg r)
    calc _ ≤ _ := h3
      _ ≤ _ := h4
      _ = _ := by ring

/-- What the stopping test says about the error: fluxes that change by less than the tolerance are off by at most
    `r / (1 - r)` times the tolerance (root mean square). -/
theorem C128_accuracy_partial (h : Sweeps P w Sol) (hS : Subcritical P w V sig ss m r) (D : Dissipates P Sol V sig fw)
    (hno : ∀ side < 2 * P.dim, P.bc side ≠ .reflect) (hN : 0 < P.N) (phi : Nat → K) (hphi : IsFlux P w Sol phi)
    (s : St F K) (hs : Sides P s.bdy) (tol : K) (hc : P.close tol s.phi (P.siPass s).phi = true) :
    (1 - r) ^ 2 * errSum P V sig (P.siPass s).phi phi ≤ (r * tol) ^ 2 * ∑ c ∈ range P.N, V c * sig c := by
  have h1 := open_pass h hS D hno phi hphi s hs
  have ht := (C128_test hN _ _ _).1 hc
  have hr1 : 0 < 1 - r := by linarith [hS.less]
  have hb : ∀ c ∈ range P.N, (1 - r) * (V c * ss c * (s.phi c - phi c) * ((P.siPass s).phi c - phi c)) ≤
      (1 - r) * (V c * sig c * (r * ((P.siPass s).phi c - phi c) ^ 2)) +
      (1 - r) ^ 2 / 2 * (V c * sig c * ((P.siPass s).phi c - phi c) ^ 2) +
      r ^ 2 / 2 * (V c * sig c * tol ^ 2) := by
    intro c hc
    have hc := mem_range.1 hc
    have hv := hS.vol c hc
    have hsg := hS.tot c hc
    have hra := abs_le.1 (hS.ratio c hc)
    have htc := ht c hc
    generalize he' : (P.siPass s).phi c - phi c = e' at *
    have hd : s.phi c - phi c = (s.phi c - (P.siPass s).phi c) + e' := by rw [← he']; ring
    rw [hd]
    generalize s.phi c - (P.siPass s).phi c = d at *
    have hd2 : d ^ 2 ≤ tol ^ 2 := by
      have := abs_nonneg d
      nlinarith [sq_abs d]
    -- ss e'^2 ≤ r sig e'^2 and ss d e' ≤ r sig |d| |e'|
    have a1 : ss c * e' ^ 2 ≤ r * sig c * e' ^ 2 := mul_le_mul_of_nonneg_right hra.2 (sq_nonneg _)
    have a2 : ss c * (d * e') ≤ r * sig c * |d * e'| := by
      calc ss c * (d * e') ≤ |ss c * (d * e')| := le_abs_self _
        _ = |ss c| * |d * e'| := abs_mul _ _
        _ ≤ _ := mul_le_mul_of_nonneg_right (hS.ratio c hc) (abs_nonneg _)
    have a3 : (1 - r) * (r * |d * e'|) ≤ (1 - r) ^ 2 / 2 * e' ^ 2 + r ^ 2 / 2 * d ^ 2 := by
      rw [abs_mul]
      nlinarith [sq_nonneg ((1 - r) * |e'| - r * |d|), sq_abs d, sq_abs e']
    have a4 : (1 - r) * (ss c * (d + e') * e') ≤
        (1 - r) * (sig c * (r * e' ^ 2)) + sig c * ((1 - r) ^ 2 / 2 * e' ^ 2 + r ^ 2 / 2 * tol ^ 2) := by
      have b1 := mul_le_mul_of_nonneg_left a1 hr1.le
      have b2 := mul_le_mul_of_nonneg_left a2 hr1.le
      have b3 := mul_le_mul_of_nonneg_left a3 hsg.le
      have b4 := mul_le_mul_of_nonneg_left hd2 (mul_nonneg hsg.le (by positivity : 0 ≤ r ^ 2 / 2))
      nlinarith
    have := mul_le_mul_of_nonneg_left a4 hv.le
    nlinarith
  have h2 := mul_le_mul_of_nonneg_left h1 hr1.le
  rw [mul_sum] at h2
  have h3 := h2.trans (sum_le_sum hb)
  rw [sum_add_distrib, sum_add_distrib, ← mul_sum, ← mul_sum, ← mul_sum] at h3
  have e1 : ∑ c ∈ range P.N, V c * sig c * (r * ((P.siPass s).phi c - phi c) ^ 2) =
      r * errSum P V sig (P.siPass s).phi phi := by
    unfold errSum
    rw [mul_sum]
    exact sum_congr rfl fun c _ => by ring
  have e2 : ∑ c ∈ range P.N, V c * sig c * tol ^ 2 = tol ^ 2 * ∑ c ∈ range P.N, V c * sig c := by
    rw [← sum_mul]; ring
  rw [e1, e2] at h3
  change _ ≤ _ + (1 - r) ^ 2 / 2 * errSum P V sig (P.siPass s).phi phi + _ at h3
  nlinarith

/-! ## The linear system of GMRES -/

/-- The system GMRES is given always has a solution, settled reflection or not, and all its solutions have the same
    fluxes in the cells. -/
theorem C128_system (h : Sweeps P w Sol) (hS : Subcritical P w V sig ss m r) (D : Dissipates P Sol V sig fw)
    (tol : K) (s s' : St F K) : (∃ x, SolvesSystem P tol s s' x) ∧
      ∀ x x', SolvesSystem P tol s s' x → SolvesSystem P tol s s' x' → ∀ c < P.N, x c = x' c := by
  constructor
  · refine solve_system h hS D s' (P.rhs tol s) fun x hx => sum_eq_zero fun i hi => ?_
    obtain ⟨_, _, _, _, _, g1, _⟩ := kernel_facts h hS D s' x hx
    by_cases hc : i < P.N
    · rw [g1 i hc]; ring
    · unfold Prob.rhs
      rw [if_neg hc]; ring
  · intro x x' hx hx' c hc
    have hl := C124_operator_linear h hS.np hS.disc 1 (-1) x x' (fun i => x i - x' i) (fun i _ => by ring)
      (fun c hc => by
        rw [hS.scat _ c hc, hS.scat _ c hc, hS.scat _ c hc]
        unfold Prob.moments
        simp only [if_pos hc]
        ring) s' s' s'
    obtain ⟨_, _, _, _, _, g1, _⟩ := kernel_facts h hS D s' (fun i => x i - x' i) (fun i hi => by
      rw [hl i hi, hx i hi, hx' i hi]; ring)
    exact sub_eq_zero.1 (g1 c hc)

/-- With settled reflection GMRES' exact solution and the limit of source iteration are the same flux. -/
theorem C128_gmres [Archimedean K] (h : Sweeps P w Sol) (hS : Subcritical P w V sig ss m r)
    (D : Dissipates P Sol V sig fw) (tol : K) (s s' t : St F K) (hm : Mismatch P (P.rhsState tol s).bdy fun _ => 0)
    (ht : Sides P t.bdy) (x : Nat → K) (hx : SolvesSystem P tol s s' x) (ε : K) (hε : 0 < ε) :
    ∃ n0, ∀ n ≥ n0, ∀ c < P.N, |(P.siPass^[n] t).phi c - x c| < ε :=
  C128_converges h hS D x (C124_solution h hS.np hS.disc tol s s' x hm hx) t ht ε hε

end main

/-! ## The three geometries -/

section geom
open Detran.Sweep (LinEq1 LinEq2 LinEq3 Solves1 Solves2 Solves3 dd1 sd1 sc1 sc2 dd2 sd2 dd3 C27_schemes_linear)
variable {K : Type} [Field K] [LinearOrder K] [IsStrictOrderedRing K]

/-- The group has one flux and source iteration goes there. -/
def Finds {F : Type} (P : Prob F K) (w : Nat → K)
    (Sol : (Nat → K) → Nat → Nat → (Nat → F) → (Nat → K) → Prop) : Prop :=
  ∃ phi, IsFlux P w Sol phi ∧ (∀ phi', IsFlux P w Sol phi' → ∀ c < P.N, phi' c = phi c) ∧
    ∀ s, Sides P s.bdy → ∀ ε > 0, ∃ n0, ∀ n ≥ n0, ∀ c < P.N, |(P.siPass^[n] s).phi c - phi c| < ε

theorem finds [Archimedean K] {F : Type} {P : Prob F K} {w V sig ss : Nat → K} {m r : K} {fw}
    {Sol : (Nat → K) → Nat → Nat → (Nat → F) → (Nat → K) → Prop} (z : F) (h : Sweeps P w Sol)
    (hS : Subcritical P w V sig ss m r) (D : Dissipates P Sol V sig fw) : Finds P w Sol := by
  obtain ⟨phi, hphi⟩ := C128_exists h hS D ⟨fun _ _ _ => z, fun _ => 0, fun _ _ _ => 0⟩
  exact ⟨phi, hphi, fun phi' h' => C128_unique h hS D phi' phi h' hphi,
    fun s hs ε hε => C128_converges h hS D phi hphi s hs ε hε⟩

/-- 1-D with diamond or step differencing: any cells, any positive angles and weights, any total cross sections with
    less scattering, any sides but periodic, any start. -/
theorem C128_1D [Archimedean K] (mu w dx sig ss fixed : Nat → K) (m r : K) (nx na : Nat) (up : Bool)
    (bc : Nat → BC K) (order : List Nat) (hord : order.Perm (List.range 2)) (sch : Nat → Nat → K → K → K × K)
    (hsch : ∀ a i, sch a i = dd1 (mu a) (dx i) (sig i) ∨ sch a i = sd1 (mu a) (dx i) (sig i))
    (hmu : ∀ a < na, 0 < mu a) (hw : ∀ a < na, 0 < w a) (hm : m * ∑ _o ∈ range 2, ∑ a ∈ range na, w a = 1)
    (hdx : ∀ i < nx, 0 < dx i) (hsig : ∀ i < nx, 0 < sig i) (hss : ∀ i < nx, |ss i| ≤ r * sig i) (h0 : 0 ≤ r)
    (h1 : r < 1) (hp : ∀ s < 2, bc s ≠ .periodic) :
    Finds (prob1 sch w nx na up bc order (fun f c => ss c * f c) fixed (fun _ _ => m) []) w
      (fun q o a b p => Solves1 nx (fun i => sch a i (q i)) o b p) := by
  have lin : ∀ a i, LinEq1 (sch a i) := fun a i => by
    obtain ⟨l1, l2, _⟩ := C27_schemes_linear (fun x : K => x) (mu a) 0 0 (dx i) 0 0 (sig i)
    rcases hsch a i with e | e <;> rw [e] <;> assumption
  refine finds 0 (V := dx) (sig := sig) (ss := ss) (m := m) (r := r) (sweeps1 sch lin w nx na up bc order hord _ _ _ _)
    ⟨hw, fun _ _ _ _ => rfl, hm, hdx, hsig, fun _ _ _ => rfl, hss, h0, h1, rfl, hp⟩
    (dissipates1 sch w nx na up bc order _ _ _ _ dx sig (fun a => mu a / 2) (fun a ha => half_pos (hmu a ha)) ?_)
  intro a ha i hi
  rcases hsch a i with e | e
  · rw [e]; exact cell_dd1 _ _ _ (hmu a ha) (hdx i hi) (hsig i hi)
  · rw [e]; exact cell_sd1 _ _ _ (hmu a ha) (hdx i hi) (hsig i hi)

/-- 1-D with step characteristics. -/
theorem C128_1D_sc (mu w dx sig ss fixed : Nat → ℝ) (m r : ℝ) (nx na : Nat) (up : Bool)
    (bc : Nat → BC ℝ) (order : List Nat) (hord : order.Perm (List.range 2))
    (hmu : ∀ a < na, 0 < mu a) (hw : ∀ a < na, 0 < w a) (hm : m * ∑ _o ∈ range 2, ∑ a ∈ range na, w a = 1)
    (hdx : ∀ i < nx, 0 < dx i) (hsig : ∀ i < nx, 0 < sig i) (hss : ∀ i < nx, |ss i| ≤ r * sig i) (h0 : 0 ≤ r)
    (h1 : r < 1) (hp : ∀ s < 2, bc s ≠ .periodic) :
    Finds (prob1 (fun a i => sc1 Real.exp (mu a) (dx i) (sig i)) w nx na up bc order (fun f c => ss c * f c) fixed
      (fun _ _ => m) []) w (fun q o a b p => Solves1 nx (fun i => sc1 Real.exp (mu a) (dx i) (sig i) (q i)) o b p) := by
  refine finds 0 (V := dx) (sig := sig) (ss := ss) (m := m) (r := r)
    (sweeps1 _ (fun a i => (C27_schemes_linear Real.exp (mu a) 0 0 (dx i) 0 0 (sig i)).2.2.1) w nx na up bc order hord _ _ _ _)
    ⟨hw, fun _ _ _ _ => rfl, hm, hdx, hsig, fun _ _ _ => rfl, hss, h0, h1, rfl, hp⟩
    (dissipates1 _ w nx na up bc order _ _ _ _ dx sig (fun a => mu a / 2) (fun a ha => half_pos (hmu a ha)) ?_)
  intro a ha i hi
  have := hmu a ha
  have := hdx i hi
  have := hsig i hi
  obtain ⟨k1, k2⟩ := exp_ok (sig i * dx i / mu a) (by positivity)
  exact cell_sc1 Real.exp _ _ _ (hmu a ha) (hdx i hi) (hsig i hi) k1 k2

/-- 2-D with any linear scheme whose cells make no energy. -/
theorem finds2 [Archimedean K] (mu eta w dx dy sig ss fixed : Nat → K) (m r : K) (nx ny na : Nat) (up : Bool)
    (bc : Nat → BC (Nat → K)) (order : List Nat) (hord : order.Perm (List.range 4))
    (sch : Nat → Nat → Nat → K → K × K → K × (K × K)) (lin : ∀ a i j, LinEq2 (sch a i j))
    (cell : ∀ a i j, 0 < mu a → 0 < eta a → 0 < dx i → 0 < dy j → 0 < sig (i + j * nx) →
      Cell2 (mu a / 2 * dy j) (eta a / 2 * dx i) (dx i * dy j) (sig (i + j * nx)) (sch a i j))
    (hmu : ∀ a < na, 0 < mu a) (heta : ∀ a < na, 0 < eta a) (hw : ∀ a < na, 0 < w a)
    (hm : m * ∑ _o ∈ range 4, ∑ a ∈ range na, w a = 1) (hdx : ∀ i < nx, 0 < dx i) (hdy : ∀ j < ny, 0 < dy j)
    (hsig : ∀ c < nx * ny, 0 < sig c) (hss : ∀ c < nx * ny, |ss c| ≤ r * sig c) (h0 : 0 ≤ r) (h1 : r < 1)
    (hp : ∀ s < 4, bc s ≠ .periodic) :
    Finds (prob2 sch w nx ny na up bc order (fun f c => ss c * f c) fixed (fun _ _ => m) []) w
      (fun q o a b p => Solves2 nx ny (fun i j => sch a i j (q (i + j * nx))) o b p) := by
  have fit : ∀ {i j}, i < nx → j < ny → i + j * nx < nx * ny := fun {i j} hi hj => by
    have := Nat.mul_le_mul_right nx (Nat.succ_le_of_lt hj)
    rw [Nat.succ_mul, Nat.mul_comm ny] at this
    omega
  have vol : ∀ i j, i < nx → dx ((i + j * nx) % nx) * dy ((i + j * nx) / nx) = dx i * dy j := fun i j hi => by
    rw [Nat.add_mul_mod_self_right, Nat.mod_eq_of_lt hi, Nat.add_mul_div_right _ _ (by omega : 0 < nx),
      Nat.div_eq_of_lt hi, Nat.zero_add]
  refine finds (fun _ => 0) (V := fun c => dx (c % nx) * dy (c / nx)) (sig := sig) (ss := ss) (m := m) (r := r)
    (sweeps2 sch lin w nx ny na up bc order hord _ _ _ _)
    ⟨hw, fun _ _ _ _ => rfl, hm, fun c hc => ?_, hsig, fun _ _ _ => rfl, hss, h0, h1, rfl, hp⟩
    (dissipates2 sch w nx ny na up bc order _ _ _ _ _ sig (fun a j => mu a / 2 * dy j) (fun a i => eta a / 2 * dx i)
      (fun a ha j hj => mul_pos (half_pos (hmu a ha)) (hdy j hj))
      (fun a ha i hi => mul_pos (half_pos (heta a ha)) (hdx i hi)) ?_)
  · have hc' : c < nx * ny := hc
    have hn : 0 < nx := Nat.pos_of_ne_zero fun h => by simp [h] at hc'
    exact mul_pos (hdx _ (Nat.mod_lt _ hn)) (hdy _ (Nat.div_lt_of_lt_mul hc'))
  · intro a ha i hi j hj
    rw [vol i j hi]
    exact cell a i j (hmu a ha) (heta a ha) (hdx i hi) (hdy j hj) (hsig _ (fit hi hj))

/-- 2-D with diamond or step differencing. -/
theorem C128_2D [Archimedean K] (mu eta w dx dy sig ss fixed : Nat → K) (m r : K) (nx ny na : Nat) (up : Bool)
    (bc : Nat → BC (Nat → K)) (order : List Nat) (hord : order.Perm (List.range 4))
    (sch : Nat → Nat → Nat → K → K × K → K × (K × K))
    (hsch : ∀ a i j, sch a i j = dd2 (mu a) (eta a) (dx i) (dy j) (sig (i + j * nx)) ∨
      sch a i j = sd2 (mu a) (eta a) (dx i) (dy j) (sig (i + j * nx)))
    (hmu : ∀ a < na, 0 < mu a) (heta : ∀ a < na, 0 < eta a) (hw : ∀ a < na, 0 < w a)
    (hm : m * ∑ _o ∈ range 4, ∑ a ∈ range na, w a = 1) (hdx : ∀ i < nx, 0 < dx i) (hdy : ∀ j < ny, 0 < dy j)
    (hsig : ∀ c < nx * ny, 0 < sig c) (hss : ∀ c < nx * ny, |ss c| ≤ r * sig c) (h0 : 0 ≤ r) (h1 : r < 1)
    (hp : ∀ s < 4, bc s ≠ .periodic) :
    Finds (prob2 sch w nx ny na up bc order (fun f c => ss c * f c) fixed (fun _ _ => m) []) w
      (fun q o a b p => Solves2 nx ny (fun i j => sch a i j (q (i + j * nx))) o b p) := by
  refine finds2 mu eta w dx dy sig ss fixed m r nx ny na up bc order hord sch (fun a i j => ?_) (fun a i j k1 k2 k3 k4 k5 => ?_)
    hmu heta hw hm hdx hdy hsig hss h0 h1 hp
  · obtain ⟨_, _, _, l1, l2, _⟩ :=
      C27_schemes_linear (fun x : K => x) (mu a) (eta a) 0 (dx i) (dy j) 0 (sig (i + j * nx))
    rcases hsch a i j with e | e <;> rw [e] <;> assumption
  · rcases hsch a i j with e | e
    · rw [e]; exact cell_dd2 _ _ _ _ _ k1 k2 k3 k4 k5
    · rw [e]; exact cell_sd2 _ _ _ _ _ k1 k2 k3 k4 k5

/-- 2-D with step characteristics. -/
theorem C128_2D_sc (mu eta w dx dy sig ss fixed : Nat → ℝ) (m r : ℝ) (nx ny na : Nat) (up : Bool)
    (bc : Nat → BC (Nat → ℝ)) (order : List Nat) (hord : order.Perm (List.range 4))
    (hmu : ∀ a < na, 0 < mu a) (heta : ∀ a < na, 0 < eta a) (hw : ∀ a < na, 0 < w a)
    (hm : m * ∑ _o ∈ range 4, ∑ a ∈ range na, w a = 1) (hdx : ∀ i < nx, 0 < dx i) (hdy : ∀ j < ny, 0 < dy j)
    (hsig : ∀ c < nx * ny, 0 < sig c) (hss : ∀ c < nx * ny, |ss c| ≤ r * sig c) (h0 : 0 ≤ r) (h1 : r < 1)
    (hp : ∀ s < 4, bc s ≠ .periodic) :
    let sch := fun a i j => sc2 Real.exp (mu a) (eta a) (dx i) (dy j) (sig (i + j * nx))
    Finds (prob2 sch w nx ny na up bc order (fun f c => ss c * f c) fixed (fun _ _ => m) []) w
      (fun q o a b p => Solves2 nx ny (fun i j => sch a i j (q (i + j * nx))) o b p) := by
  intro sch
  exact finds2 mu eta w dx dy sig ss fixed m r nx ny na up bc order hord sch
    (fun a i j => (C27_schemes_linear Real.exp (mu a) (eta a) 0 (dx i) (dy j) 0 (sig (i + j * nx))).2.2.2.2.2.1)
    (fun a i j k1 k2 k3 k4 k5 => cell_sc2 _ _ _ _ _ k1 k2 k3 k4 k5) hmu heta hw hm hdx hdy hsig hss h0 h1 hp

/-- 3-D with diamond differencing. -/
theorem C128_3D [Archimedean K] (mu eta xi w dx dy dz sig ss fixed : Nat → K) (m r : K) (nx ny nz na : Nat)
    (hfit : nx ≤ 2 ^ 32) (up : Bool) (bc : Nat → BC (Nat → Nat → K)) (order : List Nat)
    (hord : order.Perm (List.range 8))
    (hmu : ∀ a < na, 0 < mu a) (heta : ∀ a < na, 0 < eta a) (hxi : ∀ a < na, 0 < xi a) (hw : ∀ a < na, 0 < w a)
    (hm : m * ∑ _o ∈ range 8, ∑ a ∈ range na, w a = 1) (hdx : ∀ i < nx, 0 < dx i) (hdy : ∀ j < ny, 0 < dy j)
    (hdz : ∀ k < nz, 0 < dz k) (hsig : ∀ c < nx * ny * nz, 0 < sig c)
    (hss : ∀ c < nx * ny * nz, |ss c| ≤ r * sig c) (h0 : 0 ≤ r) (h1 : r < 1) (hp : ∀ s < 6, bc s ≠ .periodic) :
    let sch := fun a i j k => dd3 (mu a) (eta a) (xi a) (dx i) (dy j) (dz k) (sig (i + j * nx + k * nx * ny))
    Finds (prob3 sch w nx ny nz na up bc order (fun f c => ss c * f c) fixed (fun _ _ => m) []) w
      (fun q o a b p => Solves3 nx ny nz (fun i j k => sch a i j k (q (i + j * nx + k * nx * ny))) o b p) := by
  intro sch
  have lin : ∀ a i j k, LinEq3 (sch a i j k) := fun a i j k =>
    (C27_schemes_linear (fun x : K => x) (mu a) (eta a) (xi a) (dx i) (dy j) (dz k) _).2.2.2.2.2.2
  have fit2 : ∀ {i j}, i < nx → j < ny → i + j * nx < nx * ny := fun {i j} hi hj => by
    have := Nat.mul_le_mul_right nx (Nat.succ_le_of_lt hj)
    rw [Nat.succ_mul, Nat.mul_comm ny] at this
    omega
  have e3 : ∀ k, k * nx * ny = k * (nx * ny) := fun k => Nat.mul_assoc _ _ _
  have fit : ∀ {i j k}, i < nx → j < ny → k < nz → i + j * nx + k * nx * ny < nx * ny * nz :=
    fun {i j k} hi hj hk => by
      have := Nat.mul_le_mul_right (nx * ny) (Nat.succ_le_of_lt hk)
      rw [Nat.succ_mul, Nat.mul_comm nz] at this
      have := fit2 hi hj
      rw [e3]
      omega
  let V : Nat → K := fun c => dx (c % (nx * ny) % nx) * dy (c % (nx * ny) / nx) * dz (c / (nx * ny))
  have vol : ∀ i j k, i < nx → j < ny → V (i + j * nx + k * nx * ny) = dx i * dy j * dz k := fun i j k hi hj => by
    simp only [V]
    have hc := fit2 hi hj
    rw [e3, Nat.add_mul_mod_self_right, Nat.mod_eq_of_lt hc, Nat.add_mul_div_right _ _ (by omega : 0 < nx * ny),
      Nat.div_eq_of_lt hc, Nat.zero_add, Nat.add_mul_mod_self_right, Nat.mod_eq_of_lt hi,
      Nat.add_mul_div_right _ _ (by omega : 0 < nx), Nat.div_eq_of_lt hi, Nat.zero_add]
  refine finds (fun _ _ => 0) (V := V) (sig := sig) (ss := ss) (m := m) (r := r)
    (sweeps3 sch lin w nx ny nz na hfit up bc order hord _ _ _ _)
    ⟨hw, fun _ _ _ _ => rfl, hm, fun c hc => ?_, hsig, fun _ _ _ => rfl, hss, h0, h1, rfl, hp⟩
    (dissipates3 sch w nx ny nz na up bc order _ _ _ _ V sig (fun a k j => mu a / 2 * (dy j * dz k))
      (fun a k i => eta a / 2 * (dx i * dz k)) (fun a j i => xi a / 2 * (dx i * dy j))
      (fun a ha k hk j hj => mul_pos (half_pos (hmu a ha)) (mul_pos (hdy j hj) (hdz k hk)))
      (fun a ha k hk i hi => mul_pos (half_pos (heta a ha)) (mul_pos (hdx i hi) (hdz k hk)))
      (fun a ha j hj i hi => mul_pos (half_pos (hxi a ha)) (mul_pos (hdx i hi) (hdy j hj))) ?_)
  · have hc' : c < nx * ny * nz := hc
    have hn2 : 0 < nx * ny := Nat.pos_of_ne_zero fun h => by simp [h] at hc'
    have hn : 0 < nx := Nat.pos_of_ne_zero fun h => by simp [h] at hn2
    exact mul_pos (mul_pos (hdx _ (Nat.mod_lt _ hn)) (hdy _ (Nat.div_lt_of_lt_mul (Nat.mod_lt _ hn2))))
      (hdz _ (Nat.div_lt_of_lt_mul hc'))
  · intro a ha i hi j hj k hk
    rw [vol i j k hi hj]
    exact cell_dd3 _ _ _ _ _ _ _ (hmu a ha) (heta a ha) (hxi a ha) (hdx i hi) (hdy j hj) (hdz k hk)
      (hsig _ (fit hi hj hk))

end geom

/-! ## Concrete cases -/

section cases
open Detran.Sweep (Solves1 dd1 dd2)

/-- The slab of C124 with scattering ratio one half is subcritical. -/
theorem half_sub : Subcritical (slab half (1 / 2)) (fun _ => 1 / 2) (fun _ => 1) (fun _ => 1) (fun _ => 1 / 2) 1
    (1 / 2) where
  weight := fun _ _ => by norm_num
  mtod := fun _ _ _ _ => rfl
  norm := by decide +kernel
  vol := fun _ _ => by norm_num
  tot := fun _ _ => by norm_num
  scat := fun _ _ _ => rfl
  ratio := fun _ _ => by norm_num
  nonneg := by norm_num
  less := by norm_num
  disc := rfl
  np := half_np

theorem half_dis : Dissipates (slab half (1 / 2)) (fun q o a b p => Solves1 1 (fun i => dd a i (q i)) o b p)
    (fun _ => 1) (fun _ => 1) (fun _ _ _ _ => 1 / 2) :=
  dissipates1 dd _ 1 1 true half [1, 0] _ _ _ _ _ _ (fun _ => 1 / 2) (fun _ _ => by norm_num) (by
    intro a _ i _ q e
    have e1 : dd a i q e = dd1 1 1 1 q e := Prod.ext (by unfold dd dd1; ring) (by unfold dd dd1; ring)
    rw [e1]
    exact cell_dd1 1 1 1 one_pos one_pos one_pos q e)

theorem zeros_sides : Sides (slab half (1 / 2)) zeros.bdy where
  vacuum := fun _ _ _ _ _ _ _ _ _ _ _ => rfl
  given := by
    intro side _ ps hb
    have : half side = .fixed ps := hb
    unfold half at this
    split at this <;> cases this

/-- Source iteration from zero goes to `10/13`. -/
example : ∃ n0, ∀ n ≥ n0, |((slab half (1 / 2)).siPass^[n] zeros).phi 0 - 10 / 13| < 1 / 1000000 := by
  obtain ⟨phi, hphi⟩ := C128_exists (slab_sweeps half (1 / 2)) half_sub half_dis zeros
  obtain ⟨n0, h⟩ := C128_converges (slab_sweeps half (1 / 2)) half_sub half_dis phi hphi zeros zeros_sides
    (1 / 1000000) (by norm_num)
  refine ⟨n0, fun n hn => ?_⟩
  have := h n hn 0 one_pos
  rwa [half_flux phi hphi] at this

/-- The first passes: `4/9`, then closer. -/
example : (zeros.phi 0, ((slab half (1 / 2)).siPass zeros).phi 0, ((slab half (1 / 2)).siPass^[2] zeros).phi 0) =
    (0, 5 / 9, 115 / 162) := by decide +kernel

/-- GMRES' solution of the slab is where source iteration goes. -/
example : ∃ n0, ∀ n ≥ n0, ∀ c < 1, |((slab half (1 / 2)).siPass^[n] zeros).phi c -
    (if c = 0 then 10 / 13 else 10 / 39)| < 1 / 1000 :=
  C128_gmres (slab_sweeps half (1 / 2)) half_sub half_dis (1 / 1000) zeros zeros zeros half_settled zeros_sides
    (fun i => if i = 0 then 10 / 13 else 10 / 39) (by unfold SolvesSystem; decide +kernel) (1 / 1000) (by norm_num)

/-- The slab between vacuum sides: each pass halves the error at least, and the stopping test bounds it. -/
example : (∀ phi, IsFlux (slab (fun _ => .vacuum) (1 / 2)) (fun _ => 1 / 2)
      (fun q o a b p => Solves1 1 (fun i => dd a i (q i)) o b p) phi → ∀ n,
      (((slab (fun _ => .vacuum) (1 / 2)).siPass^[n] zeros).phi 0 - phi 0) ^ 2 ≤
        ((1 / 2) ^ n) ^ 2 * (0 - phi 0) ^ 2) := by
  intro phi hphi n
  have sub : Subcritical (slab (fun _ => .vacuum) (1 / 2)) (fun _ => 1 / 2) (fun _ => 1) (fun _ => 1) (fun _ => 1 / 2)
      1 (1 / 2) := ⟨fun _ _ => by norm_num, fun _ _ _ _ => rfl, by decide +kernel, fun _ _ => one_pos,
        fun _ _ => one_pos, fun _ _ _ => rfl, fun _ _ => by norm_num, by norm_num, by norm_num, rfl,
        fun _ _ => by simp [slab, prob1]⟩
  have dis : Dissipates (slab (fun _ => .vacuum) (1 / 2))
      (fun q o a b p => Solves1 1 (fun i => dd a i (q i)) o b p) (fun _ => 1) (fun _ => 1) (fun _ _ _ _ => 1 / 2) :=
    ⟨half_dis.pos, half_dis.energy⟩
  have := C128_contract (slab_sweeps _ (1 / 2)) sub dis (fun _ _ => by simp [slab, prob1]) phi hphi zeros
    ⟨fun _ _ _ _ _ _ _ _ _ _ _ => rfl, fun _ _ _ hb => by cases hb⟩ n
  unfold errSum at this
  have hN : (slab (fun _ => .vacuum) (1 / 2)).N = 1 := rfl
  rw [hN, sum_range_one, sum_range_one, one_mul, one_mul, one_mul] at this
  exact this

/-- Two passes of that slab differ by less than one half, so the stopping test with tolerance one half is met. -/
example : (slab (fun _ => .vacuum) (1 / 2)).close (1 / 2) ((slab (fun _ => .vacuum) (1 / 2)).siPass zeros).phi
    ((slab (fun _ => .vacuum) (1 / 2)).siPass^[2] zeros).phi = true := by decide +kernel

/-- Two cells, diamond differencing in the first and step differencing in the second, reflecting on the left, given
    flux on the right, scattering up to half the total. -/
example : Finds (prob1 (fun a i => if i = 0 then dd1 1 2 1 else Sweep.sd1 1 3 2) (fun _ => (1 : ℚ) / 2) 2 1 true
    (fun s => if s = 0 then .reflect else .fixed fun _ _ => 5) [0, 1] (fun f c => (if c = 0 then 1 / 2 else 1) * f c)
    (fun _ => 1) (fun _ _ => 1) []) (fun _ => 1 / 2)
    (fun q o a b p => Solves1 2 (fun i => (if i = 0 then dd1 1 2 1 else Sweep.sd1 1 3 2) (q i)) o b p) :=
  C128_1D (fun _ => 1) (fun _ => 1 / 2) (fun i => if i = 0 then 2 else 3) (fun i => if i = 0 then 1 else 2)
    (fun c => if c = 0 then 1 / 2 else 1) (fun _ => 1) 1 (1 / 2) 2 1 true _ [0, 1] (by decide) _
    (fun a i => by by_cases hi : i = 0 <;> simp [hi]) (fun _ _ => one_pos) (fun _ _ => by norm_num)
    (by decide +kernel) (fun i _ => by split <;> norm_num) (fun i _ => by split <;> norm_num)
    (fun i _ => by split <;> norm_num) (by norm_num) (by norm_num) (fun s _ => by split <;> simp)

/-- Two by two cells of unequal width, two angles, reflecting below and on the left, step characteristics. -/
example : Finds (prob2 (fun a i j => Sweep.sc2 Real.exp (if a = 0 then 1 / 3 else 2 / 3) (if a = 0 then 2 / 3 else 1 / 3)
      (if i = 0 then 1 else 2) (if j = 0 then 3 else 1) 1) (fun _ => (1 : ℝ) / 8) 2 2 2 true
    (fun s => if s = 0 ∨ s = 2 then .reflect else .vacuum) [0, 1, 2, 3] (fun f c => 9 / 10 * f c) (fun _ => 1)
    (fun _ _ => 1) []) (fun _ => 1 / 8)
    (fun q o a b p => Sweep.Solves2 2 2 (fun i j => Sweep.sc2 Real.exp (if a = 0 then 1 / 3 else 2 / 3)
      (if a = 0 then 2 / 3 else 1 / 3) (if i = 0 then 1 else 2) (if j = 0 then 3 else 1) 1 (q (i + j * 2))) o b p) :=
  C128_2D_sc (fun a => if a = 0 then 1 / 3 else 2 / 3) (fun a => if a = 0 then 2 / 3 else 1 / 3) (fun _ => 1 / 8)
    (fun i => if i = 0 then 1 else 2) (fun j => if j = 0 then 3 else 1) (fun _ => 1) (fun _ => 9 / 10) (fun _ => 1) 1
    (9 / 10) 2 2 2 true _ [0, 1, 2, 3] (by decide) (fun a _ => by split <;> norm_num)
    (fun a _ => by split <;> norm_num) (fun _ _ => by norm_num) (by norm_num)
    (fun i _ => by split <;> norm_num) (fun j _ => by split <;> norm_num) (fun _ _ => one_pos)
    (fun _ _ => by norm_num [abs_of_pos]) (by norm_num) (by norm_num) (fun s _ => by split <;> simp)

/-- Two cells in a row, all six sides reflecting, diamond differencing in 3-D. -/
example : Finds (prob3 (fun _ i _ _ => Sweep.dd3 1 1 1 (if i = 0 then 1 else 2) 1 1 1) (fun _ => (1 : ℚ) / 8) 2 1 1 1 true
    (fun _ => .reflect) [0, 1, 2, 3, 4, 5, 6, 7] (fun f c => 1 / 2 * f c) (fun _ => 1) (fun _ _ => 1) [])
    (fun _ => 1 / 8)
    (fun q o a b p => Sweep.Solves3 2 1 1 (fun i j k => Sweep.dd3 1 1 1 (if i = 0 then 1 else 2) 1 1 1
      (q (i + j * 2 + k * 2 * 1))) o b p) :=
  C128_3D (fun _ => 1) (fun _ => 1) (fun _ => 1) (fun _ => 1 / 8) (fun i => if i = 0 then 1 else 2) (fun _ => 1)
    (fun _ => 1) (fun _ => 1) (fun _ => 1 / 2) (fun _ => 1) 1 (1 / 2) 2 1 1 1 (by norm_num) true _
    [0, 1, 2, 3, 4, 5, 6, 7] (by decide) (fun _ _ => one_pos) (fun _ _ => one_pos) (fun _ _ => one_pos)
    (fun _ _ => by norm_num) (by decide +kernel) (fun i _ => by split <;> norm_num) (fun _ _ => one_pos)
    (fun _ _ => one_pos) (fun _ _ => one_pos) (fun _ _ => by norm_num) (by norm_num) (by norm_num)
    (fun _ _ => by simp)

/-- The box of C128: one cell of width `h`, both sides reflecting, total cross section one, no scattering, unit
    source. -/
def box (h : ℚ) : Prob ℚ ℚ :=
  prob1 (fun _ _ => dd1 1 h 1) (fun _ => 1 / 2) 1 1 true (fun _ => .reflect) [1, 0] (fun phi c => 0 * phi c)
    (fun _ => 1) (fun _ _ => 1) []

/-- The accuracy the stopping test promises without reflecting sides, for the box: with no scattering, fluxes that
    change by less than the tolerance would be exact.  Weaker: they would be within some multiple of the
    tolerance. -/
def C128Claim : Prop := ∃ C : ℚ, ∀ h tol : ℚ, 0 < h → 0 < tol →
  (box h).close tol zeros.phi ((box h).siPass zeros).phi = true → ∀ phi,
  IsFlux (box h) (fun _ => 1 / 2) (fun q o a b p => Solves1 1 (fun i => dd1 1 h 1 (q i)) o b p) phi →
  |((box h).siPass zeros).phi 0 - phi 0| ≤ C * tol

theorem box_pass (h : ℚ) : ((box h).siPass zeros).phi 0 =
    0 + 1 / 2 * (dd1 1 h 1 ((1 + 0 * 0) * 1) 0).1 +
      1 / 2 * (dd1 1 h 1 ((1 + 0 * 0) * 1) (dd1 1 h 1 ((1 + 0 * 0) * 1) 0).2).1 := by
  rfl

theorem box_one (h : ℚ) (hh : 0 < h) :
    IsFlux (box h) (fun _ => 1 / 2) (fun q o a b p => Solves1 1 (fun i => dd1 1 h 1 (q i)) o b p) (fun _ => 1) := by
  have e : dd1 1 h 1 (1 : ℚ) 1 = (1, 1) := by
    have hc : (1 : ℚ) + 2 * 1 / h ≠ 0 := by positivity
    unfold dd1
    dsimp only
    have : 1 / (1 + 2 * 1 / h) * (1 + 2 * 1 / h * 1) = 1 := by field_simp
    rw [this]
    norm_num
  refine ⟨fun _ _ _ => 1, fun _ _ _ => 1, ?_, ?_, ?_, ?_, ?_⟩
  · intro o ho a ha
    refine ⟨fun _ => 1, rfl, rfl, fun p hp => ?_⟩
    have : (fun c : Nat => ((box h).fixed c + (box h).scat ((box h).moments fun _ => 1) c) * (box h).mtod o a) =
        fun _ => (1 : ℚ) := by
      funext c
      change ((1 : ℚ) + 0 * _) * 1 = 1
      ring
    rw [this]
    exact e
  · intro c hc
    change (1 : ℚ) + 0 = ∑ o ∈ range 2, ∑ a ∈ range 1, 1 / 2 * 1
    decide +kernel
  · intro side hs hb; cases hb
  · intro side hs ps hb; cases hb
  · intro side hs hb o ho he o' hm a ha i j hi
    change (1 : ℚ) - 1 = 0
    norm_num

/-- It fails with reflecting sides: in a thin box the first pass changes nothing much, the iteration stops, and the
    flux is nearly zero instead of one. -/
theorem C128_claim_fails : ¬ C128Claim := by
  rintro ⟨C, hC⟩
  let h : ℚ := 1 / (2 * |C| + 2)
  have hpos : 0 < 2 * |C| + 2 := by positivity
  have hh : 0 < h := by positivity
  have hCh : h * (2 * |C| + 2) = 1 := by simp only [h]; field_simp
  have hp2 : 0 < h + 2 := by linarith
  have val : ((box h).siPass zeros).phi 0 = (h + 2 * h / (h + 2)) / (h + 2) := by
    rw [box_pass]
    unfold dd1
    dsimp only
    have hc : (1 : ℚ) + 2 * 1 / h ≠ 0 := by positivity
    field_simp
    ring
  have le : ((box h).siPass zeros).phi 0 ≤ h := by
    rw [val, div_le_iff₀ hp2]
    have : 2 * h / (h + 2) ≤ h := by
      rw [div_le_iff₀ hp2]
      nlinarith
    nlinarith
  have ge : 0 ≤ ((box h).siPass zeros).phi 0 := by
    rw [val]
    positivity
  have := hC h (2 * h) hh (by linarith) ((C128_test (P := box h) one_pos _ _ _).2 (by
    intro c hc
    have hc' : c < 1 := hc
    obtain rfl : c = 0 := by omega
    change |(0 : ℚ) - _| < _
    rw [zero_sub, abs_neg, abs_of_nonneg ge]
    linarith)) _ (box_one h hh)
  rw [abs_le] at this
  have h1 : C ≤ |C| := le_abs_self C
  have h2 : C * (2 * h) ≤ |C| * (2 * h) := mul_le_mul_of_nonneg_right h1 (by linarith)
  nlinarith [this.1]

/-- One square cell with diamond differencing and four reflecting sides. -/
def box2 : Prob (Nat → ℚ) ℚ :=
  prob2 (fun _ _ _ => dd2 1 1 1 1 1) (fun _ => 1 / 4) 1 1 1 true (fun _ => .reflect) [0, 1, 2, 3]
    (fun phi c => 1 / 2 * phi c) (fun _ => 1) (fun _ _ => 1) []

def zeros2 : St (Nat → ℚ) ℚ := ⟨fun _ _ _ _ => 0, fun _ => 0, fun _ _ _ => 0⟩

/-- Entering fluxes of alternating sign. -/
def checker (i : Nat) : ℚ :=
  match box2.locs[i - 1]? with
  | some l => if i = 0 then 0 else (if l.octant % 2 = 0 then 1 else -1) * (if l.side < 2 then 1 else -1)
  | none => 0

theorem box2_sweeps : Sweeps box2 (fun _ => 1 / 4)
    (fun q o a b p => Sweep.Solves2 1 1 (fun i j => dd2 1 1 1 1 1 (q (i + j * 1))) o b p) :=
  sweeps2 (fun _ _ _ => dd2 1 1 1 1 1)
    (fun _ _ _ => (Sweep.C27_schemes_linear (fun x : ℚ => x) 1 1 0 1 1 0 1).2.2.2.1) _ 1 1 1 true _ [0, 1, 2, 3]
    (by decide) _ _ _ _

theorem box2_sub : Subcritical box2 (fun _ => 1 / 4) (fun _ => 1 * 1) (fun _ => 1) (fun _ => 1 / 2) 1 (1 / 2) :=
  ⟨fun _ _ => by norm_num, fun _ _ _ _ => rfl, by decide +kernel, fun _ _ => by norm_num, fun _ _ => one_pos,
    fun _ _ _ => rfl, fun _ _ => by norm_num, by norm_num, by norm_num, rfl, fun _ _ => by simp [box2, prob2]⟩

theorem box2_dis : Dissipates box2
    (fun q o a b p => Sweep.Solves2 1 1 (fun i j => dd2 1 1 1 1 1 (q (i + j * 1))) o b p) (fun _ => 1 * 1)
    (fun _ => 1) (fun side _ _ _ => if side < 2 then 1 / 2 * 1 else 1 / 2 * 1) :=
  dissipates2 _ _ 1 1 1 true _ [0, 1, 2, 3] _ _ _ _ _ _ (fun _ _ => 1 / 2 * 1) (fun _ _ => 1 / 2 * 1)
    (fun _ _ _ _ => by norm_num) (fun _ _ _ _ => by norm_num)
    fun _ _ _ _ _ _ => cell_dd2 1 1 1 1 1 one_pos one_pos one_pos one_pos one_pos

/-- The fluxes in the cells are determined, the unknowns at the sides need not be: with four reflecting sides and
    diamond differencing the matrix GMRES works with is singular, and every right-hand side it is given has several
    solutions. -/
theorem C128_singular : (∀ s, ∀ i < box2.N + box2.bsize, (box2.multiply s checker).2 i = 0) ∧
    ∀ tol s s', ∃ x x', SolvesSystem box2 tol s s' x ∧ SolvesSystem box2 tol s s' x' ∧
      (∃ i < box2.N + box2.bsize, x i ≠ x' i) ∧ ∀ c < box2.N, x c = x' c := by
  have hz : ∀ s, ∀ i < box2.N + box2.bsize, (box2.multiply s checker).2 i = 0 := by
    intro s i hi
    rw [C124_operator_pure box2_sweeps box2_sub.np s zeros2 checker i hi]
    revert i
    decide +kernel
  refine ⟨hz, fun tol s s' => ?_⟩
  obtain ⟨⟨x, hx⟩, huni⟩ := C128_system box2_sweeps box2_sub box2_dis tol s s'
  have hl := C124_operator_linear box2_sweeps box2_sub.np rfl 1 1 x checker (fun i => x i + checker i)
    (fun i _ => by ring) (fun c hc => by
      rw [box2_sub.scat _ c hc, box2_sub.scat _ c hc, box2_sub.scat _ c hc]
      unfold Prob.moments
      simp only [if_pos hc]
      ring) s' s' s'
  have hx' : SolvesSystem box2 tol s s' fun i => x i + checker i := by
    intro i hi
    rw [hl i hi, hx i hi, hz s' i hi]
    ring
  refine ⟨x, _, hx, hx', ⟨1, by decide +kernel, fun he => ?_⟩, huni _ _ hx hx'⟩
  have : checker 1 = 0 := by
    have he : x 1 = x 1 + checker 1 := he
    linarith
  exact absurd this (by decide +kernel)

end cases

end Detran.WGReflect
