import Verif.Props.Positive
import Mathlib.Analysis.Calculus.MeanValue
import Mathlib.Analysis.SpecialFunctions.ExpDeriv

/-!
# Stability of positive schemes and consistency of the 1-D cell equations (for C136)
-/

namespace Detran.MGReflect

open Detran.Sweep (St dd1 sd1 sc1)
open Detran.Boundary (Bd BC Loc Enters Mirror)
open Detran.WGReflect (Sweeps Solution InFace Sides Swept Incoming Leaving Gain swept_le)
open Finset

section stable
variable {F K : Type} [Field K] [LinearOrder K] [IsStrictOrderedRing K]
variable {P : Prob F K} {w : Nat → K} {Sol : Nat → (Nat → K) → Nat → Nat → (Nat → F) → (Nat → K) → Prop}
  {sig : Nat → Nat → K} {u : Nat → K} {m th : K}

/-- Fluxes that satisfy the cell equations with sources `src`. -/
structure With (P : Prob F K) (w : Nat → K) (Sol : Nat → (Nat → K) → Nat → Nat → (Nat → F) → (Nat → K) → Prop)
    (src : Nat → Nat → Nat → Nat → K) (f : Nat → Nat → K) (b : Nat → Bd F) (psi : Nat → Nat → Nat → Nat → K) : Prop where
  swept : ∀ g < P.M.x.mat.G, Swept (P.W g) (Sol g) (src g) (b g) (b g) (psi g)
  flux : ∀ g < P.M.x.mat.G, ∀ c < P.M.x.N, f g c = ∑ o ∈ range (2 ^ (P.W g).dim), ∑ a ∈ range (P.W g).na, w a * psi g o a c

/-- What flat bounds of angular fluxes say of scalar fluxes. -/
theorem flux_le (hD : Damped P w Sol sig u m th) {g : Nat} (hg : g < P.M.x.mat.G) {p p' : Nat → Nat → K} {v : K}
    (h : ∀ o < 2 ^ (P.W g).dim, ∀ a < (P.W g).na, p o a - p' o a ≤ m * v) :
    ∑ o ∈ range (2 ^ (P.W g).dim), ∑ a ∈ range (P.W g).na, w a * p o a -
      ∑ o ∈ range (2 ^ (P.W g).dim), ∑ a ∈ range (P.W g).na, w a * p' o a ≤ v := by
  rw [← sum_sub_distrib]
  calc ∑ o ∈ range (2 ^ (P.W g).dim), (∑ a ∈ range (P.W g).na, w a * p o a - ∑ a ∈ range (P.W g).na, w a * p' o a)
      ≤ ∑ o ∈ range (2 ^ (P.W g).dim), ∑ a ∈ range (P.W g).na, w a * (m * v) := by
        refine sum_le_sum fun o ho => ?_
        rw [← sum_sub_distrib]
        refine sum_le_sum fun a ha => ?_
        rw [← mul_sub]
        exact mul_le_mul_of_nonneg_left (h o (mem_range.1 ho) a (mem_range.1 ha)) (hD.weight g hg a (mem_range.1 ha))
    _ = v * (m * ∑ _o ∈ range (2 ^ (P.W g).dim), ∑ a ∈ range (P.W g).na, w a) := by
        simp only [mul_sum]
        exact sum_congr rfl fun o _ => sum_congr rfl fun a _ => by ring
    _ = v := by rw [hD.uniform.norm g hg, mul_one]

/-- Fluxes whose sources exceed others by no more than what the fluxes themselves bring and `ε` times the total exceed
    them by no more than `ε / (1 - th)`. -/
theorem near_le (ok : OK P w Sol) (hD : Damped P w Sol sig u m th) {src src' : Nat → Nat → Nat → Nat → K}
    {f f' : Nat → Nat → K} {b b' : Nat → Bd F} {psi psi' : Nat → Nat → Nat → Nat → K} (h1 : With P w Sol src f b psi)
    (h2 : With P w Sol src' f' b' psi') {ε : K} (hε : 0 ≤ ε)
    (hs : ∀ g < P.M.x.mat.G, ∀ o < 2 ^ (P.W g).dim, ∀ a < (P.W g).na, ∀ c < P.M.x.N, src g o a c - src' g o a c ≤
      m * ∑ gp ∈ range P.M.x.mat.G, couple P.M g gp c * (f gp c - f' gp c) + ε * (sig g c * (m * u g)))
    (hin : ∀ g < P.M.x.mat.G, Incoming (P.W g) (b g) (b' g)) : ∀ g < P.M.x.mat.G, ∀ c < P.M.x.N,
    f g c - f' g c ≤ ε / (1 - th) * u g ∧
    ∀ o < 2 ^ (P.W g).dim, ∀ a < (P.W g).na, psi g o a c - psi' g o a c ≤ ε / (1 - th) * (m * u g) := by
  obtain ⟨δ, hδ, hδ1, hG⟩ := hD.gains
  have hth : 0 < 1 - th := by linarith [hD.less]
  have hth1 : 1 - th ≤ 1 := by linarith [hD.th0]
  -- one sweep from a bound `E`
  have step : ∀ E, 0 ≤ E → ε ≤ (1 - th) * E → (∀ g < P.M.x.mat.G, Under P u m E g (f g) (b g) (f' g) (b' g)) →
      ∀ g < P.M.x.mat.G, (∀ o < 2 ^ (P.W g).dim, ∀ a < (P.W g).na, ∀ c < P.M.x.N,
        psi g o a c - psi' g o a c ≤ m * ((E - δ * ((1 - th) * E - ε)) * u g)) ∧
        Under P u m (E - δ * ((1 - th) * E - ε)) g (f g) (b g) (f' g) (b' g) := by
    intro E hE hEε hU g hg
    have hm := hD.mpos hg
    have hu := hD.upos g hg
    have hv : 0 ≤ E * (m * u g) := by positivity
    have ht : 0 ≤ ((1 - th) * E - ε) * (m * u g) := mul_nonneg (by linarith) (by positivity)
    have hN := ok.cells g
    obtain ⟨k1, k2⟩ := swept_le (ok.sw g hg) (hG g hg) hδ.le (hD.flat ok hg) (h1.swept g hg) (h2.swept g hg) _ _ hv ht
      (fun o ho a ha c hc => by
        rw [hN] at hc
        refine (hs g hg o ho a ha c hc).trans ?_
        have a3 : ∑ gp ∈ range P.M.x.mat.G, couple P.M g gp c * (f gp c - f' gp c) ≤ E * (th * (sig g c * u g)) := by
          calc ∑ gp ∈ range P.M.x.mat.G, couple P.M g gp c * (f gp c - f' gp c)
              ≤ ∑ gp ∈ range P.M.x.mat.G, couple P.M g gp c * (E * u gp) := sum_le_sum fun gp hgp =>
                mul_le_mul_of_nonneg_left ((hU gp (mem_range.1 hgp)).1 c hc) (hD.couple g hg gp (mem_range.1 hgp) c hc)
            _ = E * ∑ gp ∈ range P.M.x.mat.G, couple P.M g gp c * u gp := by
                rw [mul_sum]
                exact sum_congr rfl fun _ _ => by ring
            _ ≤ _ := mul_le_mul_of_nonneg_left (hD.row g hg c hc) hE
        have e3 := mul_le_mul_of_nonneg_left a3 hm.le
        have e4 : (E * (m * u g) - ((1 - th) * E - ε) * (m * u g)) * sig g c =
          m * (E * (th * (sig g c * u g))) + ε * (sig g c * (m * u g)) := by ring
        rw [e4]
        linarith) (hU g hg).2 (hin g hg)
    have ek : E * (m * u g) - δ * (((1 - th) * E - ε) * (m * u g)) = m * ((E - δ * ((1 - th) * E - ε)) * u g) := by ring
    rw [ek] at k1 k2
    refine ⟨fun o ho a ha c hc => k1 o ho a ha c (by rw [hN]; exact hc), fun c hc => ?_, ?_⟩
    · rw [h1.flux g hg c hc, h2.flux g hg c hc]
      exact flux_le hD hg fun o ho a ha => k1 o ho a ha c (by rw [hN]; exact hc)
    · have : m * ((E - δ * ((1 - th) * E - ε)) * u g) = (E - δ * ((1 - th) * E - ε)) * (m * u g) := by ring
      rw [← this]
      exact k2
  obtain ⟨E, hE, hl⟩ := least_under (P := P) (u := u) (m := m) hD.upos (fun g hg => hD.mpos hg) f f' b b'
  have hU := (hl E hE).2 (le_refl _)
  have hEle : E ≤ ε / (1 - th) := by
    by_contra hlt
    rw [not_le, div_lt_iff₀ hth] at hlt
    have e1 : ε ≤ (1 - th) * E := by linarith
    have e2 : 0 ≤ E - δ * ((1 - th) * E - ε) := by
      have : δ * ((1 - th) * E - ε) ≤ 1 * ((1 - th) * E - ε) := mul_le_mul_of_nonneg_right hδ1 (by linarith)
      have : (1 - th) * E ≤ 1 * E := mul_le_mul_of_nonneg_right hth1 hE
      linarith
    have := (hl _ e2).1 fun g hg => (step E hE e1 hU g hg).2
    have : 0 < δ * ((1 - th) * E - ε) := mul_pos hδ (by linarith)
    linarith
  have hE0 : 0 ≤ ε / (1 - th) := by positivity
  have e0 : (1 - th) * (ε / (1 - th)) = ε := by field_simp
  have hU0 := (hl _ hE0).2 hEle
  intro g hg c hc
  refine ⟨(hU0 g hg).1 c hc, fun o ho a ha => ?_⟩
  have := (step _ hE0 e0.ge hU0 g hg).1 o ho a ha c hc
  rw [e0, sub_self, mul_zero, sub_zero] at this
  refine this.trans (le_of_eq (by ring))

/-- Fluxes that satisfy the cell and side equations up to `ε` times the total are within `ε / (1 - th)` of the solution. -/
theorem stable (ok : OK P w Sol) (hD : Damped P w Sol sig u m th) {phi : Nat → Nat → K} {bd : Nat → Bd F}
    {psi : Nat → Nat → Nat → Nat → K} (hs : Solves P w Sol phi bd psi) {src' : Nat → Nat → Nat → Nat → K}
    {phi' : Nat → Nat → K} {bd' : Nat → Bd F} {psi' : Nat → Nat → Nat → Nat → K} (h' : With P w Sol src' phi' bd' psi')
    (hS' : ∀ g < P.M.x.mat.G, Sides (P.W g) (bd' g)) {ε : K} (hε : 0 ≤ ε)
    (hr : ∀ g < P.M.x.mat.G, ∀ o < 2 ^ (P.W g).dim, ∀ a < (P.W g).na, ∀ c < P.M.x.N,
      |src' g o a c - m * P.M.source phi' g c| ≤ ε * (sig g c * (m * u g))) : ∀ g < P.M.x.mat.G, ∀ c < P.M.x.N,
    |phi g c - phi' g c| ≤ ε / (1 - th) * u g ∧
    ∀ o < 2 ^ (P.W g).dim, ∀ a < (P.W g).na, |psi g o a c - psi' g o a c| ≤ ε / (1 - th) * (m * u g) := by
  have hW : With P w Sol (fun g _ _ c => m * P.M.source phi g c) phi bd psi := by
    refine ⟨fun g hg => ?_, fun g hg c hc => ?_⟩
    · refine ⟨fun o ho a ha => sol_congr (ok.sw g hg) ho ((hs g hg).cells o ho a ha) fun c _ => ?_, ?_⟩
      · unfold Prob.src
        rw [hD.uniform.mtod g hg o ho a ha, hD.uniform.disc g hg, List.map_nil, List.sum_nil, add_zero, mul_comm]
      · intro side hsd hr o ho he o' hm a ha i j hi
        have := sub_eq_zero.1 ((hs g hg).reflect side hsd hr o ho he o' hm a ha i j hi)
        exact ⟨fun _ => this, fun _ => this⟩
    · rw [← (hs g hg).flux c (by rw [ok.cells g]; exact hc), add_zero]
  have hSd := fun g hg => (solution_both ok hD.uniform hg (hs g hg)).2.2
  have key : ∀ (f f' : Nat → Nat → K) (g c : Nat), P.M.source f g c - P.M.source f' g c =
      ∑ gp ∈ range P.M.x.mat.G, couple P.M g gp c * (f gp c - f' gp c) := by
    intro f f' g c
    rw [source_couple, source_couple, add_sub_add_left_eq_sub, ← sum_sub_distrib]
    exact sum_congr rfl fun _ _ => by ring
  have h1 := near_le ok hD hW h' hε (fun g hg o ho a ha c hc => by
    have := (abs_le.1 (hr g hg o ho a ha c hc)).1
    rw [← key phi phi' g c]
    linarith) fun g hg => sides_incoming ok hg (hSd g hg) (hS' g hg)
  have h2 := near_le ok hD h' hW hε (fun g hg o ho a ha c hc => by
    have := (abs_le.1 (hr g hg o ho a ha c hc)).2
    rw [← key phi' phi g c]
    linarith) fun g hg => sides_incoming ok hg (hS' g hg) (hSd g hg)
  intro g hg c hc
  refine ⟨abs_le.2 ⟨by linarith [(h2 g hg c hc).1], (h1 g hg c hc).1⟩, fun o ho a ha => abs_le.2 ⟨?_, (h1 g hg c hc).2 o ho a ha⟩⟩
  linarith [(h2 g hg c hc).2 o ho a ha]

end stable

/-! ## Cells -/

/-- One cell of a direction of cosine `mu`, between its inflow edge `a` and its outflow edge `b`: every scheme takes the exact
    inflow to the exact outflow with some source near the exact ones, and its cell flux is near the exact ones.  `η` and `ζ`
    bound how far the angular flux and the source vary in the cell. -/
theorem cell_near {sch : ℝ → ℝ → ℝ × ℝ} {mu sg a b η ζ : ℝ} {f q : ℝ → ℝ} (hmu : 0 < mu) (hsg : 0 < sg) (hab : a < b)
    (hsch : sch = dd1 mu (b - a) sg ∨ sch = sd1 mu (b - a) sg ∨ sch = sc1 Real.exp mu (b - a) sg)
    (hc : ContinuousOn f (Set.Icc a b)) (hd : ∀ x ∈ Set.Ioo a b, HasDerivAt f ((q x - sg * f x) / mu) x)
    (hη : ∀ x ∈ Set.Icc a b, ∀ y ∈ Set.Icc a b, |f x - f y| ≤ η) (hζ : ∀ x ∈ Set.Icc a b, ∀ y ∈ Set.Icc a b, |q x - q y| ≤ ζ) :
    ∃ s c, sch s (f a) = (c, f b) ∧ (∀ x ∈ Set.Icc a b, |c - f x| ≤ η + ζ / sg) ∧
      ∀ x ∈ Set.Icc a b, |s - q x| ≤ ζ + sg * η := by
  have hh : 0 < b - a := sub_pos.2 hab
  have ha : a ∈ Set.Icc a b := Set.left_mem_Icc.2 hab.le
  have hb : b ∈ Set.Icc a b := Set.right_mem_Icc.2 hab.le
  have hη0 : 0 ≤ η := (abs_nonneg _).trans (hη a ha a ha)
  have hζ0 : 0 ≤ ζ := (abs_nonneg _).trans (hζ a ha a ha)
  have hζs : 0 ≤ ζ / sg := by positivity
  have hse : 0 ≤ sg * η := by positivity
  obtain ⟨ξ, hξ, e⟩ := exists_hasDerivAt_eq_slope f _ hab hc hd
  have hξ' := Set.Ioo_subset_Icc_self hξ
  have e1 : mu * (f b - f a) / (b - a) = q ξ - sg * f ξ := by
    rw [mul_div_assoc, ← e]
    field_simp
  -- a cell flux and the source that balances it
  have near : ∀ c, (∀ x ∈ Set.Icc a b, |c - f x| ≤ η) → ∀ x ∈ Set.Icc a b,
      |mu * (f b - f a) / (b - a) + sg * c - q x| ≤ ζ + sg * η := by
    intro c hc x hx
    rw [e1]
    have : q ξ - sg * f ξ + sg * c - q x = (q ξ - q x) + sg * (c - f ξ) := by ring
    rw [this]
    refine (abs_add_le _ _).trans (add_le_add (hζ ξ hξ' x hx) ?_)
    rw [abs_mul, abs_of_pos hsg]
    exact mul_le_mul_of_nonneg_left (hc ξ hξ') hsg.le
  have h1 : sg + 2 * mu / (b - a) ≠ 0 := by positivity
  have h2 : sg + mu / (b - a) ≠ 0 := by positivity
  rcases hsch with rfl | rfl | rfl
  · have hm : ∀ x ∈ Set.Icc a b, |(f a + f b) / 2 - f x| ≤ η := fun x hx => by
      have k1 := abs_le.1 (hη a ha x hx)
      have k2 := abs_le.1 (hη b hb x hx)
      exact abs_le.2 ⟨by linarith, by linarith⟩
    refine ⟨mu * (f b - f a) / (b - a) + sg * ((f a + f b) / 2), (f a + f b) / 2, ?_, fun x hx => ?_, near _ hm⟩
    · unfold dd1
      have : 1 / (sg + 2 * mu / (b - a)) * (mu * (f b - f a) / (b - a) + sg * ((f a + f b) / 2) + 2 * mu / (b - a) * f a) =
          (f a + f b) / 2 := by
        rw [one_div_mul_eq_div, div_eq_iff h1]
        field_simp
        ring
      simp only [this, Prod.mk.injEq, true_and]
      ring
    · linarith [hm x hx]
  · have hm : ∀ x ∈ Set.Icc a b, |f b - f x| ≤ η := fun x hx => hη b hb x hx
    refine ⟨mu * (f b - f a) / (b - a) + sg * f b, f b, ?_, fun x hx => ?_, near _ hm⟩
    · unfold sd1
      have : 1 / (sg + mu / (b - a)) * (mu * (f b - f a) / (b - a) + sg * f b + mu / (b - a) * f a) = f b := by
        rw [one_div_mul_eq_div, div_eq_iff h2]
        field_simp
        ring
      simp only [this]
    · linarith [hm x hx]
  · -- the mean value theorem for `exp (sg x / mu) f` against `exp (sg x / mu)`
    have hE : ∀ x, HasDerivAt (fun x => Real.exp (sg * (x - a) / mu)) (Real.exp (sg * (x - a) / mu) * (sg / mu)) x := by
      intro x
      have h0 : HasDerivAt (fun x => sg * (x - a) / mu) (sg / mu) x := by
        have := (((hasDerivAt_id x).sub_const a).const_mul sg).div_const mu
        simpa using this
      exact h0.exp
    obtain ⟨ρ, hρ, e2⟩ := exists_ratio_hasDerivAt_eq_ratio_slope (fun x => Real.exp (sg * (x - a) / mu) * f x)
      (fun x => Real.exp (sg * (x - a) / mu) * (sg / mu) * f x + Real.exp (sg * (x - a) / mu) * ((q x - sg * f x) / mu)) hab
      (ContinuousOn.mul (fun x _ => (hE x).continuousAt.continuousWithinAt) hc) (fun x hx => (hE x).mul (hd x hx))
      (fun x => Real.exp (sg * (x - a) / mu)) (fun x => Real.exp (sg * (x - a) / mu) * (sg / mu))
      (fun x _ => (hE x).continuousAt.continuousWithinAt) fun x _ => hE x
    have hρ' := Set.Ioo_subset_Icc_self hρ
    have hT : 0 < Real.exp (sg * (ρ - a) / mu) := Real.exp_pos _
    rw [sub_self, mul_zero, zero_div, Real.exp_zero, one_mul] at e2
    have hτ : 0 < sg * (b - a) / mu := by positivity
    set T := Real.exp (sg * (b - a) / mu) with hTd
    have hT1 : 1 < T := Real.one_lt_exp_iff.2 hτ
    have e3 : (T - 1) * q ρ = (T * f b - f a) * sg := by
      have h3 : (T - 1) * (Real.exp (sg * (ρ - a) / mu) * (sg / mu) * f ρ +
          Real.exp (sg * (ρ - a) / mu) * ((q ρ - sg * f ρ) / mu)) = Real.exp (sg * (ρ - a) / mu) / mu * ((T - 1) * q ρ) := by ring
      have h4 : (T * f b - f a) * (Real.exp (sg * (ρ - a) / mu) * (sg / mu)) =
          Real.exp (sg * (ρ - a) / mu) / mu * ((T * f b - f a) * sg) := by ring
      rw [h3, h4] at e2
      exact mul_left_cancel₀ (by positivity) e2
    have hA : Real.exp (-(sg * (b - a) / mu)) = 1 / T := by rw [Real.exp_neg, one_div]
    have hT0 : T ≠ 0 := by positivity
    have e4 : 1 / T * f a + q ρ * (1 - 1 / T) / sg = f b := by
      have : q ρ * (1 - 1 / T) = (T - 1) * q ρ / T := by field_simp
      rw [this, e3]
      field_simp
      ring
    refine ⟨q ρ, f ξ + (q ρ - q ξ) / sg, ?_, fun x hx => ?_, fun x hx => ?_⟩
    · unfold sc1
      simp only [hA, e4, Prod.mk.injEq, and_true]
      have e5 : f a * (1 - 1 / T) / (sg * (b - a) / mu) + q ρ * (sg * (b - a) + mu * (1 / T - 1)) / (sg * sg * (b - a)) =
          q ρ / sg - mu * ((1 / T * f a + q ρ * (1 - 1 / T) / sg) - f a) / (b - a) / sg := by
        field_simp
        ring
      rw [e5, e4, e1]
      field_simp
      ring
    · have : f ξ + (q ρ - q ξ) / sg - f x = (f ξ - f x) + (q ρ - q ξ) / sg := by ring
      rw [this]
      refine (abs_add_le _ _).trans (add_le_add (hη ξ hξ' x hx) ?_)
      rw [abs_div, abs_of_pos hsg]
      exact div_le_div_of_nonneg_right (hζ ρ hρ' ξ hξ') hsg.le
    · linarith [hζ ρ hρ' x hx]

end Detran.MGReflect
