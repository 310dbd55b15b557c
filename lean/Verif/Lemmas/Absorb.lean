import Verif.Props.KeffFlux
import Mathlib.Analysis.SpecialFunctions.Integrals.Basic
import Mathlib.MeasureTheory.Integral.IntervalIntegral.FundThmCalculus

/-!
# Cells with more absorption (used for C145)
-/

namespace Detran.WGReflect

open Detran.Sweep (St dd1 sd1 sc1 sd2 sc2 Solves1 Solves2 posn entry exit)
open Detran.Boundary (Bd BC Loc Enters Mirror faceCells)
open Finset

section cell
variable {K : Type} [Field K] [LinearOrder K] [IsStrictOrderedRing K]

/-- With nothing negative entering and no negative source the first cell lets out nothing negative, and holds and lets out no more than the
    second does with no less entering. -/
def Less1 (sch sch' : K → K → K × K) : Prop := ∀ q e e', 0 ≤ q → 0 ≤ e → e ≤ e' →
  0 ≤ (sch q e).2 ∧ (sch q e).1 ≤ (sch' q e').1 ∧ (sch q e).2 ≤ (sch' q e').2

def Less2 (sch sch' : K → K × K → K × (K × K)) : Prop := ∀ q e e', 0 ≤ q → 0 ≤ e.1 → 0 ≤ e.2 → e.1 ≤ e'.1 → e.2 ≤ e'.2 →
  (0 ≤ (sch q e).2.1 ∧ 0 ≤ (sch q e).2.2) ∧ (sch q e).1 ≤ (sch' q e').1 ∧ (sch q e).2.1 ≤ (sch' q e').2.1 ∧
    (sch q e).2.2 ≤ (sch' q e').2.2

/-- What step characteristics use of the exponential, besides `Attenuates`: that it and its averages along a path fall with the length of
    the path. -/
structure Declines (ex : K → K) : Prop where
  fall : ∀ s t, 0 < s → s ≤ t → ex (-t) ≤ ex (-s)
  mean : ∀ s t, 0 < s → s ≤ t → (1 - ex (-t)) / t ≤ (1 - ex (-s)) / s
  twice : ∀ s t, 0 < s → s ≤ t → (t - 1 + ex (-t)) / t ^ 2 ≤ (s - 1 + ex (-s)) / s ^ 2
  thrice : ∀ s t, 0 < s → s ≤ t → (t ^ 2 - 2 * t + 2 - 2 * ex (-t)) / t ^ 3 ≤ (s ^ 2 - 2 * s + 2 - 2 * ex (-s)) / s ^ 3

theorem two_less {A B A' B' q e e' : K} (hA : 0 ≤ A) (hB : 0 ≤ B) (h1 : A ≤ A') (h2 : B ≤ B') (hq : 0 ≤ q) (he : 0 ≤ e) (h : e ≤ e') :
    0 ≤ A * q + B * e ∧ A * q + B * e ≤ A' * q + B' * e' :=
  ⟨by positivity, add_le_add (mul_le_mul_of_nonneg_right h1 hq) (mul_le_mul h2 h he (hB.trans h2))⟩

theorem three_less {A B C A' B' C' q e f e' f' : K} (hA : 0 ≤ A) (hB : 0 ≤ B) (hC : 0 ≤ C) (h1 : A ≤ A') (h2 : B ≤ B') (h3 : C ≤ C')
    (hq : 0 ≤ q) (he : 0 ≤ e) (hf : 0 ≤ f) (h : e ≤ e') (h' : f ≤ f') :
    0 ≤ A * q + B * e + C * f ∧ A * q + B * e + C * f ≤ A' * q + B' * e' + C' * f' :=
  ⟨by positivity, add_le_add (two_less hA hB h1 h2 hq he h).2 (mul_le_mul h3 h' hf (hC.trans h3))⟩

theorem less_sd1 {mu dx sig sig' : K} (hmu : 0 < mu) (hdx : 0 < dx) (hs' : 0 < sig') (h : sig' ≤ sig) :
    Less1 (sd1 mu dx sig) (sd1 mu dx sig') := by
  intro q e e' hq he hee
  have hs : 0 < sig := hs'.trans_le h
  have hc : 0 < mu / dx := by positivity
  have h1 : 1 / (sig + mu / dx) ≤ 1 / (sig' + mu / dx) := one_div_le_one_div_of_le (by positivity) (by linarith)
  obtain ⟨k1, k2⟩ := two_less (A := 1 / (sig + mu / dx)) (B := 1 / (sig + mu / dx) * (mu / dx)) (by positivity) (by positivity) h1
    (mul_le_mul_of_nonneg_right h1 hc.le) hq he hee
  have e1 : ∀ s x : K, 1 / (s + mu / dx) * (q + mu / dx * x) = 1 / (s + mu / dx) * q + 1 / (s + mu / dx) * (mu / dx) * x := fun s x => by ring
  simp only [sd1, e1]
  exact ⟨k1, k2, k2⟩

theorem less_dd1 {mu dx sig sig' : K} (hmu : 0 < mu) (hdx : 0 < dx) (hs' : 0 < sig') (h : sig' ≤ sig) (hthin : sig * dx ≤ 2 * mu) :
    Less1 (dd1 mu dx sig) (dd1 mu dx sig') := by
  intro q e e' hq he hee
  have hs : 0 < sig := hs'.trans_le h
  have hc : 0 < 2 * mu / dx := by positivity
  have h1 : 1 / (sig + 2 * mu / dx) ≤ 1 / (sig' + 2 * mu / dx) := one_div_le_one_div_of_le (by positivity) (by linarith)
  have h2 := mul_le_mul_of_nonneg_right h1 hc.le
  obtain ⟨_, k2⟩ := two_less (A := 1 / (sig + 2 * mu / dx)) (B := 1 / (sig + 2 * mu / dx) * (2 * mu / dx)) (by positivity) (by positivity) h1
    h2 hq he hee
  have ht : sig ≤ 2 * mu / dx := by
    rw [le_div_iff₀ hdx]
    exact hthin
  have h3 : 0 ≤ 2 * (1 / (sig + 2 * mu / dx) * (2 * mu / dx)) - 1 := by
    have : 2 * (1 / (sig + 2 * mu / dx) * (2 * mu / dx)) - 1 = (2 * mu / dx - sig) / (sig + 2 * mu / dx) := by
      have : sig + 2 * mu / dx ≠ 0 := by positivity
      field_simp
      ring
    rw [this]
    exact div_nonneg (by linarith) (by positivity)
  obtain ⟨k3, k4⟩ := two_less (A := 2 * (1 / (sig + 2 * mu / dx))) (B := 2 * (1 / (sig + 2 * mu / dx) * (2 * mu / dx)) - 1)
    (A' := 2 * (1 / (sig' + 2 * mu / dx))) (B' := 2 * (1 / (sig' + 2 * mu / dx) * (2 * mu / dx)) - 1) (by positivity) h3
    (by linarith) (by linarith) hq he hee
  have e1 : ∀ s x : K, 1 / (s + 2 * mu / dx) * (q + 2 * mu / dx * x) =
      1 / (s + 2 * mu / dx) * q + 1 / (s + 2 * mu / dx) * (2 * mu / dx) * x := fun s x => by ring
  have e2 : ∀ s x : K, 2 * (1 / (s + 2 * mu / dx) * q + 1 / (s + 2 * mu / dx) * (2 * mu / dx) * x) - x =
      2 * (1 / (s + 2 * mu / dx)) * q + (2 * (1 / (s + 2 * mu / dx) * (2 * mu / dx)) - 1) * x := fun s x => by ring
  simp only [dd1, e1, e2]
  exact ⟨k3, k2, k4⟩

/-- The averages are not negative. -/
theorem averages {ex : K → K} (hex : Attenuates ex) {t : K} (ht : 0 < t) : 0 ≤ ex (-t) ∧ 0 ≤ (1 - ex (-t)) / t ∧
    0 ≤ (t - 1 + ex (-t)) / t ^ 2 ∧ 0 ≤ (t ^ 2 - 2 * t + 2 - 2 * ex (-t)) / t ^ 3 := by
  have h1 := hex.less t ht
  have h2 := hex.lower t ht
  have h3 := hex.upper t ht
  exact ⟨hex.nonneg t ht, div_nonneg (by linarith) ht.le, div_nonneg (by linarith) (by positivity), div_nonneg (by linarith) (by positivity)⟩

theorem less_sc1 {ex : K → K} (hex : Attenuates ex) (hd : Declines ex) {mu dx sig sig' : K} (hmu : 0 < mu) (hdx : 0 < dx) (hs' : 0 < sig')
    (h : sig' ≤ sig) : Less1 (sc1 ex mu dx sig) (sc1 ex mu dx sig') := by
  intro q e e' hq he hee
  have hs : 0 < sig := hs'.trans_le h
  have ht' : 0 < sig' * dx / mu := by positivity
  have ht : 0 < sig * dx / mu := by positivity
  have hl : sig' * dx / mu ≤ sig * dx / mu := by gcongr
  obtain ⟨a1, a2, a3, _⟩ := averages hex ht
  have ha : 0 < dx / mu := by positivity
  obtain ⟨_, k1⟩ := two_less (A := dx / mu * ((sig * dx / mu - 1 + ex (-(sig * dx / mu))) / (sig * dx / mu) ^ 2))
    (B := (1 - ex (-(sig * dx / mu))) / (sig * dx / mu)) (mul_nonneg ha.le a3) a2
    (mul_le_mul_of_nonneg_left (hd.twice _ _ ht' hl) ha.le) (hd.mean _ _ ht' hl) hq he hee
  obtain ⟨k2, k3⟩ := two_less (A := dx / mu * ((1 - ex (-(sig * dx / mu))) / (sig * dx / mu))) (B := ex (-(sig * dx / mu)))
    (mul_nonneg ha.le a2) a1 (mul_le_mul_of_nonneg_left (hd.mean _ _ ht' hl) ha.le) (hd.fall _ _ ht' hl) hq he hee
  have e1 : ∀ s x : K, 0 < s → sc1 ex mu dx s q x =
      (dx / mu * ((s * dx / mu - 1 + ex (-(s * dx / mu))) / (s * dx / mu) ^ 2) * q + (1 - ex (-(s * dx / mu))) / (s * dx / mu) * x,
       dx / mu * ((1 - ex (-(s * dx / mu))) / (s * dx / mu)) * q + ex (-(s * dx / mu)) * x) := by
    intro s x h0
    simp only [sc1]
    generalize ex (-(s * dx / mu)) = A
    refine Prod.ext ?_ ?_ <;> field_simp <;> ring
  rw [e1 _ _ hs, e1 _ _ hs']
  exact ⟨k2, k1, k3⟩

theorem less_sd2 {mu eta dx dy sig sig' : K} (hmu : 0 < mu) (heta : 0 < eta) (hdx : 0 < dx) (hdy : 0 < dy) (hs' : 0 < sig') (h : sig' ≤ sig) :
    Less2 (sd2 mu eta dx dy sig) (sd2 mu eta dx dy sig') := by
  intro q e e' hq he hf hee hff
  have hs : 0 < sig := hs'.trans_le h
  have hc : 0 < mu / dx := by positivity
  have hc' : 0 < eta / dy := by positivity
  have h1 : 1 / (sig + mu / dx + eta / dy) ≤ 1 / (sig' + mu / dx + eta / dy) := one_div_le_one_div_of_le (by positivity) (by linarith)
  obtain ⟨k1, k2⟩ := three_less (A := 1 / (sig + mu / dx + eta / dy)) (B := 1 / (sig + mu / dx + eta / dy) * (mu / dx))
    (C := 1 / (sig + mu / dx + eta / dy) * (eta / dy)) (by positivity) (by positivity) (by positivity) h1
    (mul_le_mul_of_nonneg_right h1 hc.le) (mul_le_mul_of_nonneg_right h1 hc'.le) hq he hf hee hff
  have e1 : ∀ s x y : K, 1 / (s + mu / dx + eta / dy) * (q + mu / dx * x + eta / dy * y) =
      1 / (s + mu / dx + eta / dy) * q + 1 / (s + mu / dx + eta / dy) * (mu / dx) * x + 1 / (s + mu / dx + eta / dy) * (eta / dy) * y :=
    fun s x y => by ring
  simp only [sd2, e1]
  exact ⟨⟨k1, k1⟩, k2, k2, k2⟩

/-- Step characteristics of a rectangle, as a flat cell: `a` the way through it, `r` the part of the far side that the near side lights. -/
def flatCell (a r E o p t : K) (q v h : K) : K × (K × K) :=
  (a * ((1 - r) * p + r * t) * q + ((1 - r) * o + r * p) * v + r * p * h,
    (a * ((1 - r) * o + r * p) * q + (1 - r) * E * v + r * o * h, a * p * q + o * v + 0 * h))

theorem less_flat {a r E o p t E' o' p' t' q v h v' h' : K} (ha : 0 < a) (hr : 0 ≤ r) (hr1 : r ≤ 1) (hE : 0 ≤ E) (ho : 0 ≤ o) (hp : 0 ≤ p)
    (ht : 0 ≤ t) (lE : E ≤ E') (lo : o ≤ o') (lp : p ≤ p') (lt : t ≤ t') (hq : 0 ≤ q) (hv : 0 ≤ v) (hh : 0 ≤ h) (lv : v ≤ v') (lh : h ≤ h') :
    (0 ≤ (flatCell a r E o p t q v h).2.1 ∧ 0 ≤ (flatCell a r E o p t q v h).2.2) ∧
    (flatCell a r E o p t q v h).1 ≤ (flatCell a r E' o' p' t' q v' h').1 ∧
    (flatCell a r E o p t q v h).2.1 ≤ (flatCell a r E' o' p' t' q v' h').2.1 ∧
    (flatCell a r E o p t q v h).2.2 ≤ (flatCell a r E' o' p' t' q v' h').2.2 := by
  have hr2 : 0 ≤ 1 - r := by linarith
  have m : ∀ x y x' y' : K, x ≤ x' → y ≤ y' → (1 - r) * x + r * y ≤ (1 - r) * x' + r * y' := fun x y x' y' h1 h2 =>
    add_le_add (mul_le_mul_of_nonneg_left h1 hr2) (mul_le_mul_of_nonneg_left h2 hr)
  obtain ⟨_, k1⟩ := three_less (A := a * ((1 - r) * p + r * t)) (B := (1 - r) * o + r * p) (C := r * p) (by positivity) (by positivity)
    (by positivity) (mul_le_mul_of_nonneg_left (m _ _ _ _ lp lt) ha.le) (m _ _ _ _ lo lp) (mul_le_mul_of_nonneg_left lp hr) hq hv hh lv lh
  obtain ⟨k2, k3⟩ := three_less (A := a * ((1 - r) * o + r * p)) (B := (1 - r) * E) (C := r * o) (by positivity) (by positivity)
    (by positivity) (mul_le_mul_of_nonneg_left (m _ _ _ _ lo lp) ha.le) (mul_le_mul_of_nonneg_left lE hr2)
    (mul_le_mul_of_nonneg_left lo hr) hq hv hh lv lh
  obtain ⟨k4, k5⟩ := three_less (A := a * p) (B := o) (C := (0 : K)) (by positivity) (by positivity)
    le_rfl (mul_le_mul_of_nonneg_left lp ha.le) lo (le_refl (0 : K)) hq hv hh lv lh
  exact ⟨⟨k2, k4⟩, k1, k3, k5⟩

theorem sc2_flat (ex : K → K) {mu eta dx dy s : K} (hmu : 0 < mu) (heta : 0 < eta) (hdx : 0 < dx) (hdy : 0 < dy) (h0 : 0 < s) (q v h : K) :
    sc2 ex mu eta dx dy s q (v, h) =
      if dx / mu / (dy / eta) ≤ 1 then
        let t := s * (dx / mu)
        flatCell (dx / mu) (dx / mu / (dy / eta)) (ex (-t)) ((1 - ex (-t)) / t) ((t - 1 + ex (-t)) / t ^ 2)
          ((t ^ 2 - 2 * t + 2 - 2 * ex (-t)) / t ^ 3) q v h
      else
        let t := s * (dy / eta)
        let z := flatCell (dy / eta) (dy / eta / (dx / mu)) (ex (-t)) ((1 - ex (-t)) / t) ((t - 1 + ex (-t)) / t ^ 2)
          ((t ^ 2 - 2 * t + 2 - 2 * ex (-t)) / t ^ 3) q h v
        (z.1, (z.2.2, z.2.1)) := by
  have ha : 0 < dx / mu := by positivity
  have hb : 0 < dy / eta := by positivity
  have e0 : s * (dx / mu) / (s * (dy / eta)) = dx / mu / (dy / eta) := by
    rw [mul_div_mul_left _ _ h0.ne']
  unfold sc2
  simp only [e0]
  generalize dx / mu = a at *
  generalize dy / eta = b at *
  split_ifs with hr
  · simp only [flatCell]
    generalize ex (-(s * a)) = E
    refine Prod.ext ?_ (Prod.ext ?_ ?_) <;> simp only <;> field_simp <;> ring
  · simp only [flatCell]
    generalize ex (-(s * b)) = E
    refine Prod.ext ?_ (Prod.ext ?_ ?_) <;> simp only <;> field_simp <;> ring

theorem less_sc2 {ex : K → K} (hex : Attenuates ex) (hd : Declines ex) {mu eta dx dy sig sig' : K} (hmu : 0 < mu) (heta : 0 < eta)
    (hdx : 0 < dx) (hdy : 0 < dy) (hs' : 0 < sig') (h : sig' ≤ sig) : Less2 (sc2 ex mu eta dx dy sig) (sc2 ex mu eta dx dy sig') := by
  rintro q ⟨v, g⟩ ⟨v', g'⟩ hq hv hg lv lg
  have hs : 0 < sig := hs'.trans_le h
  have ha : 0 < dx / mu := by positivity
  have hb : 0 < dy / eta := by positivity
  rw [sc2_flat ex hmu heta hdx hdy hs, sc2_flat ex hmu heta hdx hdy hs']
  generalize dx / mu = a at *
  generalize dy / eta = b at *
  split_ifs with hr
  · obtain ⟨a1, a2, a3, a4⟩ := averages hex (mul_pos hs ha)
    have t' := mul_pos hs' ha
    have tl := mul_le_mul_of_nonneg_right h ha.le
    exact less_flat ha (by positivity) hr a1 a2 a3 a4 (hd.fall _ _ t' tl) (hd.mean _ _ t' tl) (hd.twice _ _ t' tl) (hd.thrice _ _ t' tl)
      hq hv hg lv lg
  · obtain ⟨a1, a2, a3, a4⟩ := averages hex (mul_pos hs hb)
    have t' := mul_pos hs' hb
    have tl := mul_le_mul_of_nonneg_right h hb.le
    have hr' : b / a ≤ 1 := by
      push Not at hr
      rw [lt_div_iff₀ hb] at hr
      rw [div_le_one ha]
      linarith
    obtain ⟨⟨k1, k2⟩, k3, k4, k5⟩ := less_flat hb (by positivity) hr' a1 a2 a3 a4 (hd.fall _ _ t' tl) (hd.mean _ _ t' tl)
      (hd.twice _ _ t' tl) (hd.thrice _ _ t' tl) hq hg hv lg lv
    exact ⟨⟨k2, k1⟩, k3, k5, k4⟩

end cell

/-! ### The exponential -/

section exponential
open MeasureTheory intervalIntegral

theorem integral_falls (w : ℝ → ℝ) (hw : Continuous w) (h0 : ∀ x ∈ Set.Icc (0 : ℝ) 1, 0 ≤ w x) {s t : ℝ} (h : s ≤ t) :
    ∫ x in (0 : ℝ)..1, w x * Real.exp (-(t * x)) ≤ ∫ x in (0 : ℝ)..1, w x * Real.exp (-(s * x)) := by
  refine integral_mono_on zero_le_one ?_ ?_ fun x hx => ?_
  · exact (by fun_prop : Continuous fun x => w x * Real.exp (-(t * x))).intervalIntegrable _ _
  · exact (by fun_prop : Continuous fun x => w x * Real.exp (-(s * x))).intervalIntegrable _ _
  · refine mul_le_mul_of_nonneg_left (Real.exp_le_exp.2 ?_) (h0 x hx)
    have := mul_le_mul_of_nonneg_right h hx.1
    linarith

theorem exp_deriv (t x : ℝ) : HasDerivAt (fun x : ℝ => Real.exp (-(t * x))) (-t * Real.exp (-(t * x))) x := by
  have h1 : HasDerivAt (fun x : ℝ => -(t * x)) (-t) x := by
    have := ((hasDerivAt_id x).const_mul t).neg
    exact this.congr_deriv (by simp)
  exact h1.exp.congr_deriv (by ring)

theorem integral_exp0 {t : ℝ} (ht : 0 < t) : ∫ x in (0 : ℝ)..1, 1 * Real.exp (-(t * x)) = (1 - Real.exp (-t)) / t := by
  rw [integral_eq_sub_of_hasDerivAt (f := fun x => -Real.exp (-(t * x)) / t)]
  · simp
    field_simp
    ring
  · intro x _
    refine ((exp_deriv t x).neg.div_const t).congr_deriv ?_
    field_simp
  · exact (by fun_prop : Continuous fun x => 1 * Real.exp (-(t * x))).intervalIntegrable _ _

theorem integral_exp1 {t : ℝ} (ht : 0 < t) :
    ∫ x in (0 : ℝ)..1, (1 - x) * Real.exp (-(t * x)) = (t - 1 + Real.exp (-t)) / t ^ 2 := by
  rw [integral_eq_sub_of_hasDerivAt (f := fun x => (-(1 - x) / t + 1 / t ^ 2) * Real.exp (-(t * x)))]
  · simp
    field_simp
    ring
  · intro x _
    have h1 : HasDerivAt (fun x : ℝ => -(1 - x) / t + 1 / t ^ 2) (1 / t) x := by
      have := ((((hasDerivAt_id x).const_sub 1).neg.div_const t).add_const (1 / t ^ 2))
      exact this.congr_deriv (by simp)
    refine (h1.mul (exp_deriv t x)).congr_deriv ?_
    field_simp
    ring
  · exact (by fun_prop : Continuous fun x => (1 - x) * Real.exp (-(t * x))).intervalIntegrable _ _

theorem integral_exp2 {t : ℝ} (ht : 0 < t) :
    ∫ x in (0 : ℝ)..1, (1 - x) ^ 2 * Real.exp (-(t * x)) = (t ^ 2 - 2 * t + 2 - 2 * Real.exp (-t)) / t ^ 3 := by
  rw [integral_eq_sub_of_hasDerivAt (f := fun x => (-(1 - x) ^ 2 / t + 2 * (1 - x) / t ^ 2 - 2 / t ^ 3) * Real.exp (-(t * x)))]
  · simp
    field_simp
    ring
  · intro x _
    have h0 : HasDerivAt (fun x : ℝ => 1 - x) (-1) x := (hasDerivAt_id x).const_sub 1
    have h1 : HasDerivAt (fun x : ℝ => -(1 - x) ^ 2 / t + 2 * (1 - x) / t ^ 2 - 2 / t ^ 3) (2 * (1 - x) / t - 2 / t ^ 2) x := by
      have := (((h0.pow 2).neg.div_const t).add ((h0.const_mul 2).div_const (t ^ 2))).sub_const (2 / t ^ 3)
      exact this.congr_deriv (by simp; ring)
    refine (h1.mul (exp_deriv t x)).congr_deriv ?_
    field_simp
    ring
  · exact (by fun_prop : Continuous fun x => (1 - x) ^ 2 * Real.exp (-(t * x))).intervalIntegrable _ _

/-- The real exponential declines in the sense above. -/
theorem declines_exp : Declines Real.exp where
  fall s t _ h := Real.exp_le_exp.2 (by linarith)
  mean s t hs h := by
    rw [← integral_exp0 hs, ← integral_exp0 (hs.trans_le h)]
    exact integral_falls (fun _ => 1) (by fun_prop) (fun _ _ => zero_le_one) h
  twice s t hs h := by
    rw [← integral_exp1 hs, ← integral_exp1 (hs.trans_le h)]
    exact integral_falls (fun x => 1 - x) (by fun_prop) (fun x hx => sub_nonneg.2 hx.2) h
  thrice s t hs h := by
    rw [← integral_exp2 hs, ← integral_exp2 (hs.trans_le h)]
    exact integral_falls (fun x => (1 - x) ^ 2) (by fun_prop) (fun x _ => sq_nonneg _) h

end exponential

/-! ### Directions -/

section geom
variable {K : Type} [Field K] [LinearOrder K] [IsStrictOrderedRing K]

/-- With the same sources, none negative, and no less and nothing negative entering, the fluxes of a direction that satisfy the second cell
    equations are nowhere below those that satisfy the first. -/
def Absorbs {F : Type} (P : Prob F K) (Sol Sol' : (Nat → K) → Nat → Nat → (Nat → F) → (Nat → K) → Prop) : Prop :=
  ∀ q o a b p b' p', o < 2 ^ P.dim → a < P.na → Sol q o a b p → Sol' q o a b' p' → (∀ c < P.N, 0 ≤ q c) →
    (∀ side < 2 * P.dim, Enters side o → ∀ i j, InFace P side i j →
      0 ≤ P.get (b side) i j ∧ P.get (b side) i j ≤ P.get (b' side) i j) →
    (∀ c < P.N, p c ≤ p' c) ∧
    ∀ side < 2 * P.dim, ¬ Enters side o → ∀ i j, InFace P side i j → P.get (b side) i j ≤ P.get (b' side) i j

theorem absorbs1 (sch sch' : Nat → Nat → K → K → K × K) (w : Nat → K) (nx na : Nat) (h0 : 0 < nx) (up : Bool) (bc : Nat → BC K)
    (order : List Nat) (scat fixed mtod disc) (hc : ∀ a < na, ∀ i < nx, Less1 (sch a i) (sch' a i)) :
    Absorbs (prob1 sch w nx na up bc order scat fixed mtod disc)
      (fun q o a b p => Solves1 nx (fun i => sch a i (q i)) o b p) (fun q o a b p => Solves1 nx (fun i => sch' a i (q i)) o b p) := by
  rintro q o a b p b' p' ho ha ⟨E, e1, e2, e3⟩ ⟨E', e1', e2', e3'⟩ hq hin
  have ho' : o < 2 ^ 1 := ho
  have ha' : a < na := ha
  have hq' : ∀ c < nx, 0 ≤ q c := hq
  obtain ⟨x1, x2, x3, x4, x5, x6⟩ := entry_facts 1 (by decide) (by decide) o ho' 0 (by decide)
  have face : ∀ side < 2, ∀ i j, InFace (prob1 sch w nx na up bc order scat fixed mtod disc) side i j ↔ i = 0 ∧ j = 0 := by
    intro side hs i j
    change i < faceCells 1 side (fun _ => nx) 0 ∧ j < faceCells 1 side (fun _ => nx) 1 ↔ _
    have : ∀ k, faceCells 1 side (fun _ => nx) k = 1 := by
      intro k
      interval_cases side <;> simp [faceCells, List.range, List.range.loop, List.filter]
    rw [this, this]
    omega
  have s0 : 0 ≤ E 0 ∧ E 0 ≤ E' 0 := by
    rw [e1, e1']
    exact hin _ x1 x3 0 0 ((face _ x1 0 0).2 ⟨rfl, rfl⟩)
  have step : ∀ n < nx, 0 ≤ E n → E n ≤ E' n →
      0 ≤ E (n + 1) ∧ p (posn nx o 0 n) ≤ p' (posn nx o 0 n) ∧ E (n + 1) ≤ E' (n + 1) := by
    intro n hn hE hE'
    have hi := posn_lt (o := o) (d := 0) hn
    have := hc a ha' _ hi (q (posn nx o 0 n)) (E n) (E' n) (hq' _ hi) hE hE'
    have h3 := e3 n hn
    have h3' := e3' n hn
    dsimp only at h3 h3'
    rw [h3, h3'] at this
    exact this
  have nn : ∀ n ≤ nx, 0 ≤ E n ∧ E n ≤ E' n := by
    intro n
    induction n with
    | zero => exact fun _ => s0
    | succ n ih =>
      intro hn
      obtain ⟨i1, i2⟩ := ih (by omega)
      have := step n (by omega) i1 i2
      exact ⟨this.1, this.2.2⟩
  refine ⟨fun c hc => ?_, fun side hs hl i j hi => ?_⟩
  · have hc : c < nx := hc
    have hn := nn _ (posn_lt (o := o) (d := 0) hc).le
    have := (step (posn nx o 0 c) (posn_lt hc) hn.1 hn.2).2.1
    rwa [posn_posn hc] at this
  · obtain ⟨_, hx⟩ := leaves_exit 1 (by decide) (by decide) side o hs ho' hl
    have hz : side / 2 = 0 := by have : side < 2 := hs; omega
    rw [hz] at hx
    change b side ≤ b' side
    rw [hx, e2, e2']
    exact (nn nx le_rfl).2

theorem absorbs2 (sch sch' : Nat → Nat → Nat → K → K × K → K × (K × K)) (w : Nat → K) (nx ny na : Nat) (hx0 : 0 < nx)
    (hy0 : 0 < ny) (up : Bool) (bc : Nat → BC (Nat → K)) (order : List Nat) (scat fixed mtod disc)
    (hc : ∀ a < na, ∀ i < nx, ∀ j < ny, Less2 (sch a i j) (sch' a i j)) :
    Absorbs (prob2 sch w nx ny na up bc order scat fixed mtod disc)
      (fun q o a b p => Solves2 nx ny (fun i j => sch a i j (q (i + j * nx))) o b p)
      (fun q o a b p => Solves2 nx ny (fun i j => sch' a i j (q (i + j * nx))) o b p) := by
  rintro q o a b p b' p' ho ha ⟨V, H, e1, e2, e3⟩ ⟨V', H', e1', e2', e3'⟩ hq hin
  have ho' : o < 2 ^ 2 := ho
  have ha' : a < na := ha
  have hq' : ∀ c < nx * ny, 0 ≤ q c := hq
  obtain ⟨x1, x2, x3, x4, x5, x6⟩ := entry_facts 2 (by decide) (by decide) o ho' 0 (by decide)
  obtain ⟨y1, y2, y3, y4, y5, y6⟩ := entry_facts 2 (by decide) (by decide) o ho' 1 (by decide)
  have v0 : ∀ r < ny, 0 ≤ V 0 r ∧ V 0 r ≤ V' 0 r := by
    intro r hr
    rw [(e1 r hr).1, (e1' r hr).1]
    exact hin _ x1 x3 _ 0 ((face2 nx ny _ _ 0 x1).2 ⟨by rw [if_pos (by omega)]; exact posn_lt hr, rfl⟩)
  have h0 : ∀ s < nx, 0 ≤ H s 0 ∧ H s 0 ≤ H' s 0 := by
    intro s hs
    rw [(e2 s hs).1, (e2' s hs).1]
    exact hin _ y1 y3 _ 0 ((face2 nx ny _ _ 0 y1).2 ⟨by rw [if_neg (by omega)]; exact posn_lt hs, rfl⟩)
  have step : ∀ s < nx, ∀ r < ny, 0 ≤ V s r ∧ V s r ≤ V' s r → 0 ≤ H s r ∧ H s r ≤ H' s r →
      p (posn nx o 0 s + posn ny o 1 r * nx) ≤ p' (posn nx o 0 s + posn ny o 1 r * nx) ∧
      (0 ≤ V (s + 1) r ∧ V (s + 1) r ≤ V' (s + 1) r) ∧ 0 ≤ H s (r + 1) ∧ H s (r + 1) ≤ H' s (r + 1) := by
    intro s hs r hr hV hH
    have hi := posn_lt (o := o) (d := 0) hs
    have hj := posn_lt (o := o) (d := 1) hr
    have := hc a ha' _ hi _ hj (q (posn nx o 0 s + posn ny o 1 r * nx)) (V s r, H s r) (V' s r, H' s r) (hq' _ (cell2_lt hi hj))
      hV.1 hH.1 hV.2 hH.2
    have h3 := e3 s hs r hr
    have h3' := e3' s hs r hr
    dsimp only at h3 h3'
    rw [h3, h3'] at this
    exact ⟨this.2.1, ⟨this.1.1, this.2.2.1⟩, this.1.2, this.2.2.2⟩
  have nn : ∀ r ≤ ny, (∀ s < nx, 0 ≤ H s r ∧ H s r ≤ H' s r) ∧ (r < ny → ∀ s ≤ nx, 0 ≤ V s r ∧ V s r ≤ V' s r) := by
    have row : ∀ r < ny, (∀ s < nx, 0 ≤ H s r ∧ H s r ≤ H' s r) → ∀ s ≤ nx, 0 ≤ V s r ∧ V s r ≤ V' s r := by
      intro r hr hH s
      induction s with
      | zero => exact fun _ => v0 r hr
      | succ s ih => exact fun hs => (step s (by omega) r hr (ih (by omega)) (hH s (by omega))).2.1
    intro r
    induction r with
    | zero => exact fun _ => ⟨h0, fun hr => row 0 hr h0⟩
    | succ r ih =>
      intro hr
      obtain ⟨i1, i2⟩ := ih (by omega)
      have hH : ∀ s < nx, 0 ≤ H s (r + 1) ∧ H s (r + 1) ≤ H' s (r + 1) := fun s hs =>
        (step s hs r (by omega) (i2 (by omega) s hs.le) (i1 s hs)).2.2
      exact ⟨hH, fun h => row (r + 1) h hH⟩
  have all : ∀ s < nx, ∀ r < ny, _ := fun s hs r hr => step s hs r hr ((nn r hr.le).2 hr s hs.le) ((nn r hr.le).1 s hs)
  refine ⟨fun c hc => ?_, fun side hs hl i j hi => ?_⟩
  · have hc : c < nx * ny := hc
    have hi : c % nx < nx := Nat.mod_lt _ hx0
    have hj : c / nx < ny := Nat.div_lt_of_lt_mul hc
    have := (all (posn nx o 0 (c % nx)) (posn_lt hi) (posn ny o 1 (c / nx)) (posn_lt hj)).1
    rw [posn_posn hi, posn_posn hj] at this
    have e : c % nx + c / nx * nx = c := by rw [mul_comm]; exact Nat.mod_add_div c nx
    rwa [e] at this
  · obtain ⟨hd, hx⟩ := leaves_exit 2 (by decide) (by decide) side o hs ho' hl
    have hs : side < 4 := hs
    obtain ⟨hi, _⟩ := (face2 nx ny side i j hs).1 hi
    change b side i ≤ b' side i
    by_cases h : side < 2
    · have hz : side / 2 = 0 := by omega
      rw [if_pos h] at hi
      have := (all (nx - 1) (by omega) (posn ny o 1 i) (posn_lt hi)).2.1.2
      rw [Nat.sub_add_cancel hx0, ← (e1 _ (posn_lt hi)).2, ← (e1' _ (posn_lt hi)).2, posn_posn hi] at this
      rwa [hx, hz]
    · have hz : side / 2 = 1 := by omega
      rw [if_neg h] at hi
      have := (all (posn nx o 0 i) (posn_lt hi) (ny - 1) (by omega)).2.2.2
      rw [Nat.sub_add_cancel hy0, ← (e2 _ (posn_lt hi)).2, ← (e2' _ (posn_lt hi)).2, posn_posn hi] at this
      rwa [hx, hz]

end geom

end Detran.WGReflect
