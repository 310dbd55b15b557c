import Verif.Props.Kinetics
import Mathlib.Analysis.SpecialFunctions.Exp
import Mathlib.Analysis.SpecialFunctions.Log.Basic
import Mathlib.Analysis.Complex.ExponentialBounds
import Mathlib.Algebra.Order.Floor.Semiring
import Mathlib.Algebra.Order.Archimedean.Basic
import Mathlib.Data.List.Perm.Basic

/-!
# The time stepper: history (C48), steps (C72), pulsed sources (C76), iterations (C78)
-/

namespace Detran.Kin

variable {V : Type}

/-! ## C48 -/

theorem shift_length (slots : List Nat) (L m : Nat) :
    ((List.range m).foldl (fun s i => s.set (L - i - 1) (s.getD (L - i - 1 - 1) 0)) slots).length =
      slots.length := by
  induction m with
  | zero => rfl
  | succ m ih =>
    rw [List.range_succ, List.foldl_append]
    simp only [List.foldl_cons, List.foldl_nil, List.length_set]
    exact ih

theorem moved_spec (slots : List Nat) (m : Nat) (hm : m ≤ slots.length - 1) (j : Nat) :
    ((List.range m).foldl (fun s i => s.set (slots.length - i - 1) (s.getD (slots.length - i - 1 - 1) 0))
      slots)[j]? =
      if slots.length - m ≤ j ∧ j < slots.length then slots[j - 1]? else slots[j]? := by
  induction m generalizing j with
  | zero =>
    rw [if_neg (by omega)]
    rfl
  | succ m ih =>
    rw [List.range_succ, List.foldl_append]
    simp only [List.foldl_cons, List.foldl_nil]
    have ih := fun j => ih (by omega) j
    generalize hs : (List.range m).foldl (fun s i => s.set (slots.length - i - 1)
      (s.getD (slots.length - i - 1 - 1) 0)) slots = s at ih
    have hlen : s.length = slots.length := by
      rw [← hs]
      exact shift_length slots slots.length m
    rw [List.getElem?_set]
    by_cases h : slots.length - m - 1 = j
    · rw [if_pos h, if_pos (by omega), if_pos (by omega), List.getD_eq_getElem?_getD, ih,
        if_neg (by omega), h, List.getElem?_eq_getElem (show j - 1 < slots.length by omega)]
      rfl
    · rw [if_neg h, ih j]
      by_cases h2 : slots.length - m ≤ j ∧ j < slots.length
      · rw [if_pos h2, if_pos (by omega)]
      · rw [if_neg h2, if_neg (by omega)]

/-- **C48.**  Cycling moves the last object to the front and every other one place on. -/
theorem C48_cycle (h : Hist V) (hne : h.slots ≠ []) :
    h.cycle.slots = h.slots.getLast hne :: h.slots.dropLast ∧ h.cycle.heap = h.heap := by
  refine ⟨?_, rfl⟩
  have hl : 0 < h.slots.length := List.length_pos_of_ne_nil hne
  refine List.ext_getElem? fun j => ?_
  show (List.set _ 0 _)[j]? = _
  rw [List.getElem?_set, moved_spec h.slots (h.slots.length - 1) le_rfl j]
  have hlen : ((List.range (h.slots.length - 1)).foldl (fun s i => s.set (h.slots.length - i - 1)
      (s.getD (h.slots.length - i - 1 - 1) 0)) h.slots).length = h.slots.length :=
    shift_length h.slots _ _
  by_cases h0 : 0 = j
  · subst h0
    rw [if_pos rfl, if_pos (by rw [hlen]; exact hl), List.getElem?_cons_zero, List.getLast_eq_getElem,
      List.getD_eq_getElem?_getD, List.getElem?_eq_getElem (by omega)]
    rfl
  · obtain ⟨i, rfl⟩ : ∃ i, j = i + 1 := ⟨j - 1, by omega⟩
    rw [if_neg h0, List.getElem?_cons_succ, List.getElem?_dropLast]
    by_cases h1 : i + 1 < h.slots.length
    · rw [if_pos (by omega), if_pos (by omega)]
      rfl
    · rw [if_neg (by omega), if_neg (by omega), List.getElem?_eq_none (by omega)]

/-- **C48.**  The objects stay distinct. -/
theorem C48_distinct (h : Hist V) (hne : h.slots ≠ []) : h.cycle.slots.Perm h.slots := by
  rw [(C48_cycle h hne).1]
  have := List.dropLast_append_getLast hne
  conv_rhs => rw [← this]
  exact (List.perm_append_singleton _ _).symm

/-- The solutions of the steps taken, newest first: the recursion the scheme is meant to be. -/
def solutions (dOrder : Nat) (adv : Nat → Nat → List V → V) (init : V) : Nat → List V
  | 0 => [init]
  | n + 1 =>
    adv (n + 1) (min (n + 1) dOrder) ((solutions dOrder adv init n).take (min (n + 1) dOrder)) ::
      solutions dOrder adv init n

theorem solutions_length (d : Nat) (adv : Nat → Nat → List V → V) (init : V) (n : Nat) :
    (solutions d adv init n).length = n + 1 := by
  induction n with
  | zero => rfl
  | succ n ih => rw [solutions, List.length_cons, ih]

/-- **C48.**  The order of a step. -/
theorem C48_order (d i : Nat) : stepOrder d i = min i d := by
  unfold stepOrder; split <;> omega

theorem store_contents (h : Hist V) (v : V) (a : Nat) (rest : List Nat) (hs : h.slots = a :: rest)
    (hnd : h.slots.Nodup) : (h.store v).contents = v :: rest.map h.heap := by
  unfold Hist.contents Hist.store
  rw [hs] at hnd
  rw [hs]
  simp only [List.getD_cons_zero, List.map_cons, if_true]
  congr 1
  refine List.map_congr_left fun b hb => ?_
  rw [if_neg]
  rintro rfl
  exact (List.nodup_cons.1 hnd).1 hb

/-- **C48.**  After any number of steps the slots hold distinct objects and slot `j` holds the solution
    of `j` steps ago. -/
theorem C48_history (d : Nat) (hd : 1 ≤ d) (adv : Nat → Nat → List V → V) (junk init : V) (n : Nat) :
    let h := Hist.run d adv junk init n
    h.slots.Perm (List.range d) ∧ ∀ j, j < d → j ≤ n →
      h.contents[j]? = (solutions d adv init n)[j]? := by
  induction n with
  | zero =>
    refine ⟨List.Perm.refl _, fun j _ h0 => ?_⟩
    obtain rfl : j = 0 := by omega
    obtain ⟨e, rfl⟩ : ∃ e, d = e + 1 := ⟨d - 1, by omega⟩
    show ((Hist.new (e + 1) junk).store init).contents[0]? = _
    rw [store_contents (Hist.new (e + 1) junk) init 0 ((List.range e).map Nat.succ)
      (by simp [Hist.new, List.range_succ_eq_map]) (by simp [Hist.new, List.nodup_range])]
    rfl
  | succ n ih =>
    intro h
    have hstep : h = (Hist.run d adv junk init n).step adv (n + 1) := by
      show Hist.run d adv junk init (n + 1) = _
      unfold Hist.run
      rw [List.range_succ, List.foldl_append]
      rfl
    obtain ⟨ih1, ih2⟩ := ih
    generalize Hist.run d adv junk init n = p at hstep ih1 ih2
    have hlen : p.slots.length = d := by rw [ih1.length_eq, List.length_range]
    have hne : p.slots ≠ [] := by
      intro e; rw [e] at hlen; simp at hlen; omega
    have hnd : p.slots.Nodup := ih1.nodup_iff.2 List.nodup_range
    obtain ⟨c1, c2⟩ := C48_cycle p hne
    have hv : p.contents.take (stepOrder p.slots.length (n + 1)) =
        (solutions d adv init n).take (min (n + 1) d) := by
      rw [hlen, C48_order]
      refine List.ext_getElem? fun j => ?_
      rw [List.getElem?_take, List.getElem?_take]
      by_cases hj : j < min (n + 1) d
      · rw [if_pos hj, if_pos hj]
        exact ih2 j (by omega) (by omega)
      · rw [if_neg hj, if_neg hj]
    have hc : h.contents =
        adv (n + 1) (min (n + 1) d) ((solutions d adv init n).take (min (n + 1) d)) ::
          p.slots.dropLast.map p.heap := by
      rw [hstep]
      unfold Hist.step
      simp only [hv]
      rw [hlen, C48_order, store_contents _ _ _ _ c1 ((C48_distinct p hne).nodup_iff.2 hnd), c2]
    refine ⟨?_, fun j hj hjn => ?_⟩
    · rw [hstep]
      exact (C48_distinct p hne).trans ih1
    · rw [hc, solutions]
      cases j with
      | zero => rfl
      | succ j =>
        rw [List.getElem?_cons_succ, List.getElem?_cons_succ, List.getElem?_map, List.getElem?_dropLast,
          if_pos (by omega), ← ih2 j (by omega) (by omega)]
        exact (List.getElem?_map ..).symm

/-- Each solution is computed from the solutions before it, the newest first, as many as the order. -/
example : solutions 2 (fun i o l => (i, o, l.map (·.1))) (0, 0, []) 3 =
    [(3, 2, [2, 1]), (2, 2, [1, 0]), (1, 1, [0]), (0, 0, [])] := by decide
example : (Hist.run 3 (fun i _ (_ : List Nat) => i * 10) 7 1 5).contents = [50, 40, 30] := by decide

/-! ## C72 -/

/-- **C72.**  The fewest steps that reach the final time (unless limited by the user). -/
theorem C72_steps (T dt : ℚ) (hdt : 0 < dt) (hT : 0 < T) :
    T ≤ numberSteps ⌈T / dt⌉₊ none * dt ∧ ∀ n : Nat, T ≤ n * dt → numberSteps ⌈T / dt⌉₊ none ≤ n := by
  constructor
  · have := Nat.le_ceil (T / dt)
    rwa [div_le_iff₀ hdt] at this
  · intro n hn
    exact Nat.ceil_le.2 ((div_le_iff₀ hdt).2 hn)

/-- **C72.**  A limit is respected and otherwise changes nothing. -/
theorem C72_limit (n k : Nat) : numberSteps n (some k) = min n k := by
  unfold numberSteps; simp only; split <;> omega

/-- **C72.**  Step `i` is evaluated at `i` steps from the start, or half a step before. -/
theorem C72_time {K : Type} [Field K] (dt : K) (f : Bool) (i : Nat) :
    stepTime dt f i = if f then (i * dt - 1 / 2 * dt, 1 / 2 * dt) else (i * dt, dt) := by
  have : (List.range i).foldl (fun t _ => t + dt) 0 = i * dt := by
    induction i with
    | zero => simp
    | succ n ih =>
      rw [List.range_succ, List.foldl_append, ih]
      simp only [List.foldl_cons, List.foldl_nil]
      push_cast
      ring
  unfold stepTime
  rw [this]

/-- **C72.**  Half steps are taken always by the midpoint scheme, in the first step of a higher-order
    scheme unless switched off, and never otherwise. -/
theorem C72_half_steps (scheme i : Nat) (off : Bool) (hi : 1 ≤ i) :
    flag scheme (orderOf scheme) (stepOrder (orderOf scheme) i) off = true ↔
      scheme = 0 ∨ (2 ≤ scheme ∧ i = 1 ∧ off = false) := by
  rw [C48_order]
  unfold flag orderOf
  by_cases hs : scheme = 0
  · subst hs; simp
  · rw [if_neg hs]
    cases off
    · simp [hs]; omega
    · simp [hs]

example : numberSteps ⌈(1 : ℚ) / (3 / 10)⌉₊ none = 4 := by
  have : ⌈(1 : ℚ) / (3 / 10)⌉₊ = 4 := by rw [Nat.ceil_eq_iff (by norm_num)]; norm_num
  rw [this]; rfl

/-! ## C76 -/

/-- The factor with the real exponential. -/
noncomputable def pulseR (peak fwhm t : ℝ) : ℝ := pulse Real.exp peak fwhm t

/-- **C76.**  Between zero and one, one exactly at the peak, even about it. -/
theorem C76_shape (peak fwhm t : ℝ) (hw : fwhm ≠ 0) :
    0 < pulseR peak fwhm t ∧ pulseR peak fwhm t ≤ 1 ∧ (pulseR peak fwhm t = 1 ↔ t = peak) ∧
      ∀ d, pulseR peak fwhm (peak + d) = pulseR peak fwhm (peak - d) := by
  unfold pulseR pulse
  have hden : 0 < 2 * (fwhm / (2354820045030949 / 1000000000000000)) ^ 2 := by positivity
  refine ⟨Real.exp_pos _, ?_, ?_, ?_⟩
  · rw [Real.exp_le_one_iff]
    exact div_nonpos_of_nonpos_of_nonneg (by nlinarith [sq_nonneg (t - peak)]) hden.le
  · rw [Real.exp_eq_one_iff, div_eq_zero_iff]
    constructor
    · rintro (h | h)
      · have : (t - peak) ^ 2 = 0 := by linarith
        have := pow_eq_zero_iff (two_ne_zero) |>.1 this
        linarith
      · exact absurd h (ne_of_gt hden)
    · rintro rfl; left; simp
  · intro d
    have : ∀ a b : ℝ, a = b → Real.exp a = Real.exp b := fun a b h => by rw [h]
    refine this _ _ ?_
    ring

/-- **C76.**  Decreasing away from the peak. -/
theorem C76_decreasing (peak fwhm s t : ℝ) (hw : fwhm ≠ 0) (h : |s - peak| < |t - peak|) :
    pulseR peak fwhm t < pulseR peak fwhm s := by
  unfold pulseR pulse
  have hden : 0 < 2 * (fwhm / (2354820045030949 / 1000000000000000)) ^ 2 := by positivity
  rw [Real.exp_lt_exp]
  refine div_lt_div_of_pos_right ?_ hden
  have := sq_lt_sq.2 h
  linarith

/-- **C76.**  Half the peak half a width away, to nine digits. -/
theorem C76_half_maximum (peak fwhm : ℝ) (hw : fwhm ≠ 0) :
    |pulseR peak fwhm (peak + fwhm / 2) - 1 / 2| ≤ 1 / 1000000000 := by
  unfold pulseR pulse
  have e : -((peak + fwhm / 2 - peak) ^ 2) / (2 * (fwhm / (2354820045030949 / 1000000000000000)) ^ 2) =
      -((2354820045030949 / 1000000000000000 : ℝ) ^ 2 / 8) := by
    field_simp
    ring
  simp only [e]
  have hlo := Real.log_two_gt_d9
  have hhi := Real.log_two_lt_d9
  have h2 : (1 / 2 : ℝ) = Real.exp (-Real.log 2) := by
    rw [Real.exp_neg, Real.exp_log (by norm_num)]; norm_num
  set x : ℝ := (2354820045030949 / 1000000000000000 : ℝ) ^ 2 / 8 with hx
  have hxlo : x > 0.693147180 := by rw [hx]; norm_num
  have hxhi : x < 0.693147181 := by rw [hx]; norm_num
  have h3 : Real.exp (-x) = 1 / 2 * Real.exp (Real.log 2 - x) := by
    rw [h2, ← Real.exp_add]; congr 1; ring
  have hb : |Real.log 2 - x| ≤ 1 / 1000000000 := by
    rw [abs_le]; constructor <;> linarith
  have hb1 : |Real.log 2 - x| ≤ 1 := le_trans hb (by norm_num)
  have h4 := Real.abs_exp_sub_one_le hb1
  rw [h3]
  have : (1 / 2 * Real.exp (Real.log 2 - x) - 1 / 2) = 1 / 2 * (Real.exp (Real.log 2 - x) - 1) := by ring
  rw [this, abs_mul, abs_of_pos (by norm_num : (0 : ℝ) < 1 / 2)]
  calc 1 / 2 * |Real.exp (Real.log 2 - x) - 1| ≤ 1 / 2 * (2 * |Real.log 2 - x|) :=
        mul_le_mul_of_nonneg_left h4 (by norm_num)
    _ = |Real.log 2 - x| := by ring
    _ ≤ _ := hb

/-! ## C78 -/

/-- **C78.**  A step makes between one and the allowed number of iterations, returns the last iterate, and
    stops early only when the last two iterates agree. -/
theorem C78_iterations (iter : V → V) (conv : V → V → Bool) (n : Nat) (v : V) (k : Nat) :
    ∃ j, iterate iter conv n v k = (iter^[j] v, k + j) ∧ j ≤ n ∧ (1 ≤ n → 1 ≤ j) ∧
      (∀ i, i + 1 < j → conv (iter^[i] v) (iter^[i + 1] v) = false) ∧
      (j < n → 1 ≤ j ∧ conv (iter^[j - 1] v) (iter^[j] v) = true) := by
  induction n generalizing v k with
  | zero => exact ⟨0, rfl, le_rfl, by omega, by omega, by omega⟩
  | succ n ih =>
    rw [iterate]
    by_cases h : (conv v (iter v) || decide (n = 0)) = true
    · refine ⟨1, by simp only [h, if_true, Function.iterate_one], by omega, by omega, by omega, ?_⟩
      intro hn
      refine ⟨le_rfl, ?_⟩
      have : decide (n = 0) = false := by simp; omega
      rw [this, Bool.or_false] at h
      simpa using h
    · obtain ⟨j, h1, h2, h3, h4, h5⟩ := ih (iter v) (k + 1)
      have hc : conv v (iter v) = false := by
        cases hcv : conv v (iter v) <;> simp_all
      have hn : n ≠ 0 := by
        intro hn; simp [hn] at h
      refine ⟨j + 1, ?_, by omega, by omega, ?_, ?_⟩
      · simp only [h, Bool.false_eq_true, if_false]
        rw [h1, Function.iterate_succ_apply]
        congr 1
        omega
      · intro i hi
        cases i with
        | zero => simpa using hc
        | succ i =>
          rw [Function.iterate_succ_apply, Function.iterate_succ_apply]
          exact h4 i (by omega)
      · intro hj
        obtain ⟨a, b⟩ := h5 (by omega)
        refine ⟨by omega, ?_⟩
        rw [Nat.add_sub_cancel, Function.iterate_succ_apply]
        obtain ⟨i, rfl⟩ : ∃ i, j = i + 1 := ⟨j - 1, by omega⟩
        rw [Function.iterate_succ_apply]
        simpa using b

/-- The claim that the stepper reports the residual it last computed. -/
def C78ResidualClaim : Prop := ∀ member tol res : ℚ, (checkConvergence member tol res).2 = res

/-- The residual is computed in a local variable: the one reported stays zero. -/
theorem C78_residual_never_reported : ¬ C78ResidualClaim := by
  intro h
  have := h 0 1 2
  revert this
  decide +kernel

example : iterate (fun x : Nat => x / 2) (fun a b => a = b) 10 8 0 = (0, 5) := by decide
example : iterate (fun x : Nat => x / 2) (fun a b => a = b) 2 8 0 = (2, 2) := by decide

end Detran.Kin
