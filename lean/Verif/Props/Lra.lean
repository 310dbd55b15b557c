import Mathlib.Data.Rat.Cast.Order
import Mathlib.Tactic.Linarith
import Mathlib.Tactic.Positivity
import Mathlib.Tactic.Ring
import Mathlib.Tactic.FieldSimp
import Mathlib.Tactic.IntervalCases
import Mathlib.Tactic.NormNum
import Verif.Model.Lra

/-!
# C117: the material of the LRA benchmark
-/

namespace Detran.Lra

open Detran.Kin

variable {K : Type} [Field K] [LinearOrder K] [IsStrictOrderedRing K]

/-! ## Specification -/

/-- Factor of the rod's thermal absorption at time `t`. -/
def ramp (t : K) : K := if t ≤ 2 then 1 - 606184 / 10000000 * t else 878763 / 1000000

/-- Absorption of region `m` in group `g` at time `t` and temperature `T`, without leakage. -/
def absorb (sqrt : K → K) (steady : Bool) (m g : Nat) (T t : K) : K :=
  if g = 0 then
    if steady = true ∨ m = 4 then tab A1 m else tab A1 m * (1 + 3034 / 1000000 * (sqrt T - sqrt 300))
  else if steady = true ∨ m ≠ 5 then tab A2 m else tab A2 m * ramp t

/-- What a material should hold for a cell in region `m` at time `t` and temperature `T`, apart from the defect `d` of the
    total. -/
structure Holds (sqrt : K → K) (M : KMat K) (transport steady : Bool) (i m : Nat) (T t k s0 s1 c d : K) : Prop where
  absorption : ∀ g, g < 2 → M.sa i g = absorb sqrt steady m g T t + 1 / 10000 * M.dc i g
  diffusion : M.dc i 0 = tab D1 m ∧ M.dc i 1 = tab D2 m
  down : M.ss i 1 0 = tab S21 m
  up : M.ss i 0 1 = 0
  within : M.ss i 0 0 = (if transport then tab S11 m else 0) ∧ M.ss i 1 1 = (if transport then tab S22 m else 0)
  total0 : M.st i 0 = M.sa i 0 + M.ss i 0 0 + M.ss i 1 0 + d + s0
  total1 : M.st i 1 = M.sa i 1 + M.ss i 0 1 + M.ss i 1 1 + s1
  fission : M.sf i 0 = tab F1 m / k ∧ M.sf i 1 = tab F2 m / k
  production : ∀ g, g < 2 → M.nsf i g = 243 / 100 * M.sf i g
  spectrum : M.chi i 0 = c ∧ M.chi i 1 = 0
  delayed : M.beta i 0 = 54 / 10000 ∧ M.beta i 1 = 10873 / 10000000 ∧ M.lambda 0 = 654 / 10000 ∧ M.lambda 1 = 135 / 100 ∧
    M.chid i 0 0 = 1 ∧ M.chid i 1 0 = 1 ∧ M.chid i 0 1 = 0 ∧ M.chid i 1 1 = 0
  velocity : M.velocity 0 = 30000000 ∧ M.velocity 1 = 300000

/-- Synthetic part of the spectrum for step `dt` and leading coefficient `a`. -/
def synChi (a dt : K) : K :=
  1 - (54 / 10000 + 10873 / 10000000) + 654 / 10000 * dt * (54 / 10000) / (a + dt * (654 / 10000))
    + 135 / 100 * dt * (10873 / 10000000) / (a + dt * (135 / 100))

/-! ## Tables -/

theorem lambda_val : tab (K := K) LAMBDA 0 = 654 / 10000 ∧ tab (K := K) LAMBDA 1 = 135 / 100 := by
  constructor <;> · simp only [tab, LAMBDA, List.getD_cons_zero, List.getD_cons_succ]; norm_num

theorem beta_val : tab (K := K) BETA 0 = 54 / 10000 ∧ tab (K := K) BETA 1 = 10873 / 10000000 := by
  constructor <;> · simp only [tab, BETA, List.getD_cons_zero, List.getD_cons_succ]; norm_num

theorem velocity_val : tab (K := K) VELOCITY 0 = 30000000 ∧ tab (K := K) VELOCITY 1 = 300000 := by
  constructor <;> · simp only [tab, VELOCITY, List.getD_cons_zero, List.getD_cons_succ]; norm_num

theorem mu_val (m : Nat) (hm : m < 6) : tab (K := K) mu0 m = 0 ∧ tab (K := K) mu1 m = 0 := by
  constructor <;> · interval_cases m <;> simp [tab, mu0, mu1]

theorem fast_balance (m : Nat) (hm : m < 6) :
    tab (K := K) T1 m = tab A1 m + tab S11 m + tab S21 m + (if m = 4 then 9 / 10 ^ 15 else 0) := by
  have h : ∀ m, m < 6 → T1.getD m 0 = A1.getD m 0 + S11.getD m 0 + S21.getD m 0 + (if m = 4 then 9 / 10 ^ 15 else 0) := by
    decide +kernel
  rw [tab, tab, tab, tab, h m hm]
  push_cast
  split <;> simp

theorem thermal_balance (m : Nat) (hm : m < 6) : tab (K := K) T2 m = tab A2 m + tab S22 m := by
  have h : ∀ m, m < 6 → T2.getD m 0 = A2.getD m 0 + S22.getD m 0 := by decide +kernel
  rw [tab, tab, tab, h m hm]
  push_cast
  rfl

theorem rod_val (t : K) : rod t = tab A2 5 * ramp t := by
  rw [rod, ramp]
  split
  · norm_num [ROD]
  · rw [mul_comm]; norm_num [ROD]

/-! ## One update -/

/-- Entries the class never sets. -/
def Clean (n : Nat) (transport : Bool) (M : KMat K) : Prop :=
  ∀ i, i < n → M.chi i 1 = 0 ∧ M.ss i 0 1 = 0 ∧ M.chid i 0 1 = 0 ∧ M.chid i 1 1 = 0 ∧
    (transport = false → M.ss i 0 0 = 0 ∧ M.ss i 1 1 = 0)

theorem impl_holds (sqrt : K → K) (n : Nat) (region : Nat → Nat) (transport steady : Bool) (T : Nat → K) (t : K)
    (M : KMat K) (hM : Clean n transport M) (i : Nat) (hi : i < n) (hm : region i < 6) :
    Holds sqrt (setNsf (impl sqrt n region transport steady T t M)) transport steady i (region i) (T i) t 1 0 0 1
      (if transport = true ∧ region i = 4 then 9 / 10 ^ 15 else 0) := by
  obtain ⟨c1, c2, c3, c4, c5⟩ := hM i hi
  obtain ⟨l0, l1⟩ := lambda_val (K := K)
  obtain ⟨b0, b1⟩ := beta_val (K := K)
  obtain ⟨v0, v1⟩ := velocity_val (K := K)
  obtain ⟨m0, m1⟩ := mu_val (K := K) _ hm
  have f := fast_balance (K := K) _ hm
  have g := thermal_balance (K := K) _ hm
  have hB : (B : K) = 1 / 10000 := by norm_num [B]
  have hN : (NU : K) = 243 / 100 := by norm_num [NU]
  have hG : (GAMMA : K) = 3034 / 1000000 := by norm_num [GAMMA]
  have hN0 : ∀ g, g < 2 → (impl sqrt n region transport steady T t M).nu i g = 243 / 100 := by
    intro g hg
    interval_cases g <;> cases steady <;> simp [impl, fillMat, setNsf, setAll, hi, hN]
  have hsa : ∀ g, g < 2 → (impl sqrt n region transport steady T t M).sa i g =
      absorb sqrt steady (region i) g (T i) t + 1 / 10000 * (impl sqrt n region transport steady T t M).dc i g := by
    intro g hg
    interval_cases g
    · cases steady
      · by_cases h4 : region i = 4 <;>
          simp [impl, fillMat, setNsf, setAll, hi, hB, hG, absorb, REFLECTOR, h4]
      · simp [impl, fillMat, setNsf, setAll, hi, hB, absorb]
    · cases steady
      · by_cases h5 : region i = 5 <;>
          simp [impl, fillMat, setNsf, setAll, hi, hB, absorb, ROD, rod_val, h5]
      · simp [impl, fillMat, setNsf, setAll, hi, hB, absorb]
  refine ⟨hsa, ?_, ?_, ?_, ?_, ?_, ?_, ?_, ?_, ?_, ?_, ?_⟩
  · cases steady <;> simp [impl, fillMat, setNsf, setAll, hi]
  · cases steady <;> cases transport <;> simp [impl, fillMat, setNsf, setAll2, hi]
  · cases steady <;> cases transport <;> simp [impl, fillMat, setNsf, setAll2, hi, c2]
  · cases steady <;> cases transport <;> simp [impl, fillMat, setNsf, setAll2, hi, m0, m1, c5]
  · cases steady <;> cases transport
    · by_cases h4 : region i = 4 <;>
        simp [impl, fillMat, setNsf, setAll, setAll2, hi, REFLECTOR, h4, c5] <;> ring
    · by_cases h4 : region i = 4
      · rw [h4] at f m0
        simp [impl, fillMat, setNsf, setAll, setAll2, hi, REFLECTOR, h4, m0, f]
        ring
      · rw [if_neg h4] at f
        simp [impl, fillMat, setNsf, setAll, setAll2, hi, REFLECTOR, h4, m0, f]
        ring
    · simp [impl, fillMat, setNsf, setAll, setAll2, hi, c5]
      ring
    · simp [impl, fillMat, setNsf, setAll, setAll2, hi, m0, f]
      ring
  · cases steady <;> cases transport
    · by_cases h5 : region i = 5 <;> simp [impl, fillMat, setNsf, setAll, setAll2, hi, ROD, h5, c5, c2]
    · by_cases h5 : region i = 5
      · rw [h5] at g m1
        simp [impl, fillMat, setNsf, setAll, setAll2, hi, ROD, h5, m1, g, c2]
        ring
      · simp [impl, fillMat, setNsf, setAll, setAll2, hi, ROD, h5, m1, g, c2]
        ring
    · simp [impl, fillMat, setNsf, setAll, setAll2, hi, c5, c2]
    · simp [impl, fillMat, setNsf, setAll, setAll2, hi, m1, g, c2]
      ring
  · cases steady <;> simp [impl, fillMat, setNsf, setAll, hi]
  · intro g hg
    show (impl sqrt n region transport steady T t M).nu i g * _ = _
    rw [hN0 g hg]
    rfl
  · cases steady <;> simp [impl, fillMat, setNsf, setAll, hi, c1]
  · cases steady <;> simp [impl, fillMat, setNsf, setAll, setAll2, hi, b0, b1, l0, l1, c3, c4]
  · cases steady <;> simp [impl, fillMat, setNsf, v0, v1]

theorem impl_clean (sqrt : K → K) (n : Nat) (region : Nat → Nat) (transport steady : Bool) (T : Nat → K) (t : K)
    (M : KMat K) (hM : Clean n transport M) : Clean n transport (impl sqrt n region transport steady T t M) := by
  intro i hi
  obtain ⟨c1, c2, c3, c4, c5⟩ := hM i hi
  cases steady <;> cases transport <;> simp [impl, fillMat, setNsf, setAll, setAll2, hi, c1, c2, c3, c4, c5]

theorem impl_const (sqrt : K → K) (n : Nat) (region : Nat → Nat) (transport steady : Bool) (T : Nat → K) (t : K)
    (M : KMat K) : (∀ j, j < 2 → 0 < (impl sqrt n region transport steady T t M).lambda j) ∧
      (∀ g, g < 2 → 0 < (impl sqrt n region transport steady T t M).velocity g) := by
  obtain ⟨l0, l1⟩ := lambda_val (K := K)
  obtain ⟨v0, v1⟩ := velocity_val (K := K)
  constructor <;>
  · intro j hj
    interval_cases j <;> cases steady <;> simp [impl, fillMat, setNsf, l0, l1, v0, v1] <;> norm_num

theorem adjust_const (np : Nat) (a dt k : K) (syn : Bool) (M : KMat K) :
    (adjust np a dt k syn M).lambda = M.lambda ∧ (adjust np a dt k syn M).velocity = M.velocity := by
  cases syn <;> exact ⟨rfl, rfl⟩

theorem update_some (sqrt : K → K) (x : Lra K) (t dt : K) (order : Nat) (syn : Bool) :
    x.update sqrt t dt order syn = some { x with
      mat := setNsf (adjust 2 (bdf order 0) dt x.kcrit syn
        (impl sqrt x.n x.region x.transport x.steady x.T t x.mat)) } := by
  obtain ⟨h1, h2⟩ := adjust_const 2 (bdf order 0) dt x.kcrit syn
    (impl sqrt x.n x.region x.transport x.steady x.T t x.mat)
  rw [Lra.update, Kin.update, Kin.finalize, if_pos, Option.map_some]
  rw [h1, h2]
  exact impl_const ..

theorem adjust_holds (sqrt : K → K) (M : KMat K) (transport steady : Bool) (i m : Nat) (T t d a dt k : K) (syn : Bool)
    (h : Holds sqrt (setNsf M) transport steady i m T t 1 0 0 1 d) :
    Holds sqrt (setNsf (adjust 2 a dt k syn M)) transport steady i m T t k
      (if syn then a / (30000000 * dt) else 0) (if syn then a / (300000 * dt) else 0) (if syn then synChi a dt else 1) d := by
  obtain ⟨h1, h2, h3, h4, h5, h6, h7, h8, h9, h10, h11, h12⟩ := h
  have hnu : ∀ g, g < 2 → M.nu i g * M.sf i g = 243 / 100 * M.sf i g := h9
  cases syn
  · refine ⟨h1, h2, h3, h4, h5, h6, h7, ?_, ?_, h10, h11, h12⟩
    · have := h8.1; have := h8.2
      simp only [setNsf, div_one] at *
      simp [adjust, *]
    · intro g hg
      show M.nu i g * (M.sf i g / k) = 243 / 100 * (M.sf i g / k)
      rw [← mul_div_assoc, hnu g hg, mul_div_assoc]
  · refine ⟨h1, h2, h3, h4, h5, ?_, ?_, ?_, ?_, ?_, h11, h12⟩
    · show M.st i 0 + a / (M.velocity 0 * dt) = M.sa i 0 + M.ss i 0 0 + M.ss i 1 0 + d + a / (30000000 * dt)
      rw [show M.velocity 0 = 30000000 from h12.1, show M.st i 0 = M.sa i 0 + M.ss i 0 0 + M.ss i 1 0 + d + 0 from h6, add_zero]
    · show M.st i 1 + a / (M.velocity 1 * dt) = M.sa i 1 + M.ss i 0 1 + M.ss i 1 1 + a / (300000 * dt)
      rw [show M.velocity 1 = 300000 from h12.2, show M.st i 1 = M.sa i 1 + M.ss i 0 1 + M.ss i 1 1 + 0 from h7, add_zero]
    · have e0 : M.sf i 0 = tab F1 m / 1 := h8.1
      have e1 : M.sf i 1 = tab F2 m / 1 := h8.2
      show M.sf i 0 / k = _ ∧ M.sf i 1 / k = _
      rw [e0, e1, div_one, div_one]
      exact ⟨rfl, rfl⟩
    · intro g hg
      show M.nu i g * (M.sf i g / k) = 243 / 100 * (M.sf i g / k)
      rw [← mul_div_assoc, hnu g hg, mul_div_assoc]
    · obtain ⟨q1, q2, q3, q4, q5, q6, q7, q8⟩ := h11
      obtain ⟨r1, r2⟩ := h10
      simp only [setNsf] at q1 q2 q3 q4 q5 q6 q7 q8 r1 r2
      simp only [setNsf, adjust, if_true, KMat.betaTotal, List.range_succ, List.range_zero, List.nil_append,
        List.cons_append, List.foldl_cons, List.foldl_nil, q1, q2, q3, q4, q5, q6, q7, q8, r1, r2, synChi]
      constructor
      · ring
      · ring

theorem adjust_clean (n : Nat) (transport : Bool) (a dt k : K) (syn : Bool) (M : KMat K) (h : Clean n transport M) :
    Clean n transport (setNsf (adjust 2 a dt k syn M)) := by
  intro i hi
  obtain ⟨c1, c2, c3, c4, c5⟩ := h i hi
  cases syn
  · exact ⟨c1, c2, c3, c4, c5⟩
  · refine ⟨?_, c2, c3, c4, c5⟩
    simp [setNsf, adjust, List.range_succ, c1, c3, c4]

/-! ## All sequences of calls -/

/-- What stays the same. -/
structure Inv (n : Nat) (region : Nat → Nat) (volume : Nat → K) (transport steady : Bool) (x : Lra K) : Prop where
  cells : x.n = n
  map : x.region = region
  mode : x.transport = transport
  kind : x.steady = steady
  clean : Clean n transport x.mat
  old : ∀ i, x.dT i = 300
  area : x.area = (Lra.new n region volume transport steady).area

theorem new_inv (n : Nat) (region : Nat → Nat) (volume : Nat → K) (transport steady : Bool) :
    Inv n region volume transport steady (Lra.new n region volume transport steady) := by
  refine ⟨rfl, rfl, rfl, rfl, ?_, fun _ => rfl, rfl⟩
  intro i hi
  cases transport <;> simp [Lra.new, fillMat, setNsf, setAll, setAll2, blank]

theorem step_inv (sqrt : K → K) {n : Nat} {region : Nat → Nat} {volume : Nat → K} {transport steady : Bool} {x : Lra K}
    (h : Inv n region volume transport steady x) (c : Call K) :
    ∃ y, x.step sqrt c = some y ∧ Inv n region volume transport steady y := by
  obtain ⟨rfl, rfl, rfl, rfl, hc, ho, ha⟩ := h
  cases c with
  | update t dt order syn =>
    exact ⟨_, update_some .., rfl, rfl, rfl, rfl, adjust_clean _ _ _ _ _ _ _ (impl_clean _ _ _ _ _ _ _ _ hc), ho, ha⟩
  | updatePT t phi0 phi1 => exact ⟨_, rfl, rfl, rfl, rfl, rfl, hc, ho, ha⟩
  | setT T => exact ⟨_, rfl, rfl, rfl, rfl, rfl, hc, ho, ha⟩
  | setK k => exact ⟨_, rfl, rfl, rfl, rfl, rfl, hc, ho, ha⟩

theorem run_inv (sqrt : K → K) {n : Nat} {region : Nat → Nat} {volume : Nat → K} {transport steady : Bool} (cs : List (Call K)) :
    ∀ {x : Lra K}, Inv n region volume transport steady x →
      ∃ y, x.run sqrt cs = some y ∧ Inv n region volume transport steady y := by
  induction cs with
  | nil => intro x h; exact ⟨x, rfl, h⟩
  | cons c cs ih =>
    intro x h
    obtain ⟨y, hy, hi⟩ := step_inv sqrt h c
    obtain ⟨z, hz, hj⟩ := ih hi
    exact ⟨z, by rw [Lra.run, hy, Option.bind_some, hz], hj⟩

/-- **C117 (values).**  After any calls, an update to time `t` leaves the benchmark data of that time and of the temperatures
    now stored, whatever was updated before; the totals balance but for `9e-15` in the fast group of the reflector in
    transport mode. -/
theorem C117_update (sqrt : K → K) (n : Nat) (region : Nat → Nat) (volume : Nat → K) (transport steady : Bool)
    (cs : List (Call K)) (t dt : K) (order : Nat) (syn : Bool) :
    ∃ x y, (Lra.new n region volume transport steady).run sqrt cs = some x ∧ x.update sqrt t dt order syn = some y ∧
      y.T = x.T ∧ ∀ i, i < n → region i < 6 →
      Holds sqrt y.mat transport steady i (region i) (x.T i) t x.kcrit
        (if syn then bdf order 0 / (30000000 * dt) else 0) (if syn then bdf order 0 / (300000 * dt) else 0)
        (if syn then synChi (bdf order 0) dt else 1) (if transport = true ∧ region i = 4 then 9 / 10 ^ 15 else 0) := by
  obtain ⟨x, hx, h⟩ := run_inv sqrt cs (new_inv n region volume transport steady)
  obtain ⟨rfl, rfl, rfl, rfl, hc, _, _⟩ := h
  exact ⟨x, _, hx, update_some .., rfl, fun i hi hm => adjust_holds _ _ _ _ _ _ _ _ _ _ _ _ _
    (impl_holds _ _ _ _ _ _ _ _ hc i hi hm)⟩

/-- **C117.**  Full statement on balance: total is absorption and scattering out. -/
def C117Claim (K : Type) [Field K] [LinearOrder K] : Prop :=
  ∀ (sqrt : K → K) (n : Nat) (region : Nat → Nat) (volume : Nat → K) (transport steady : Bool) (cs : List (Call K)) (t dt : K)
    (order : Nat), (∀ i, i < n → region i < 6) →
    ∃ x y, (Lra.new n region volume transport steady).run sqrt cs = some x ∧ x.update sqrt t dt order false = some y ∧
      ∀ i g, i < n → g < 2 → y.mat.st i g = y.mat.sa i g + y.mat.ss i 0 g + y.mat.ss i 1 g

/-- **C117.**  It fails in the reflector. -/
theorem C117_claim_fails : ¬ C117Claim K := by
  intro h
  obtain ⟨x, y, hx, hy, hb⟩ := h id 1 (fun _ => 4) (fun _ => 1) true true [] 0 1 1 (fun _ _ => by decide)
  obtain ⟨x', y', hx', hy', _, hh⟩ := C117_update (K := K) id 1 (fun _ => 4) (fun _ => 1) true true [] 0 1 1 false
  obtain rfl : x = x' := by rw [hx] at hx'; exact Option.some_inj.1 hx'
  obtain rfl : y = y' := by rw [hy] at hy'; exact Option.some_inj.1 hy'
  have e := (hh 0 (by decide) (by decide)).total0
  rw [hb 0 0 (by decide) (by decide)] at e
  simp at e

/-- **C117 (balance), partial.**  Everywhere else it holds. -/
theorem C117_balance_partial (sqrt : K → K) (n : Nat) (region : Nat → Nat) (volume : Nat → K) (transport steady : Bool)
    (cs : List (Call K)) (t dt : K) (order : Nat) (hr : ∀ i, i < n → region i < 6) :
    ∃ x y, (Lra.new n region volume transport steady).run sqrt cs = some x ∧ x.update sqrt t dt order false = some y ∧
      ∀ i g, i < n → g < 2 → (transport = true → region i = 4 → g = 1) →
        y.mat.st i g = y.mat.sa i g + y.mat.ss i 0 g + y.mat.ss i 1 g := by
  obtain ⟨x, y, hx, hy, _, hh⟩ := C117_update sqrt n region volume transport steady cs t dt order false
  refine ⟨x, y, hx, hy, fun i g hi hg hd => ?_⟩
  have := hh i hi (hr i hi)
  interval_cases g
  · rw [this.total0, if_neg (fun h => by have := hd h.1 h.2; omega)]
    simp
  · rw [this.total1]
    simp

/-- **C117 (reflector).**  Fuel fissions in both groups and the reflector in none. -/
theorem C117_fission (sqrt : K → K) (n : Nat) (region : Nat → Nat) (volume : Nat → K) (transport steady : Bool)
    (cs : List (Call K)) (t dt : K) (order : Nat) (hr : ∀ i, i < n → region i < 6) :
    ∃ x y, (Lra.new n region volume transport steady).run sqrt cs = some x ∧ x.update sqrt t dt order false = some y ∧
      ∀ i g, i < n → g < 2 → (region i = 4 → y.mat.sf i g = 0) ∧ (region i ≠ 4 → 0 < x.kcrit → 0 < y.mat.sf i g) := by
  obtain ⟨x, y, hx, hy, _, hh⟩ := C117_update sqrt n region volume transport steady cs t dt order false
  refine ⟨x, y, hx, hy, fun i g hi hg => ?_⟩
  have hf := (hh i hi (hr i hi)).fission
  have hm := hr i hi
  generalize region i = m at hf hm
  constructor
  · rintro rfl
    interval_cases g
    · rw [hf.1]; norm_num [tab, F1]
    · rw [hf.2]; norm_num [tab, F2]
  · intro h4 hk
    interval_cases g
    · rw [hf.1]
      refine div_pos ?_ hk
      interval_cases m <;> first | exact absurd rfl h4 | norm_num [tab, F1]
    · rw [hf.2]
      refine div_pos ?_ hk
      interval_cases m <;> first | exact absurd rfl h4 | norm_num [tab, F2]

/-- **C117 (start).**  At time zero with all temperatures at 300 the transient material is the steady one. -/
theorem C117_steady (sqrt : K → K) (m g : Nat) : absorb sqrt false m g 300 0 = absorb sqrt true m g 300 (0 : K) := by
  unfold absorb ramp
  simp

/-- **C117 (rod).**  The rod's absorption falls with time and stays above 87 per cent of what it was. -/
theorem C117_ramp (s t : K) (h : s ≤ t) : ramp t ≤ ramp s ∧ 87 / 100 < ramp t ∧ (0 ≤ t → ramp t ≤ 1) := by
  unfold ramp
  refine ⟨?_, ?_, ?_⟩
  · split <;> split <;> linarith
  · split
    · linarith
    · norm_num
  · intro h0
    split
    · linarith
    · norm_num

/-- **C117 (rod, jump).**  It is not continuous: at two seconds it drops by `2e-7`. -/
theorem C117_ramp_jump (t : K) (h : 2 < t) : ramp t = ramp (2 : K) - 2 / 10 ^ 7 := by
  unfold ramp
  rw [if_neg (not_le.2 h), if_pos le_rfl]
  norm_num

theorem A_pos (m : Nat) (hm : m < 6) : (0 : K) < tab A1 m ∧ (0 : K) < tab A2 m ∧ (0 : K) ≤ tab S11 m ∧ (0 : K) ≤ tab S21 m ∧
    (0 : K) ≤ tab S22 m ∧ (0 : K) < tab D1 m ∧ (0 : K) < tab D2 m := by
  have h : ∀ m, m < 6 → 0 < A1.getD m 0 ∧ 0 < A2.getD m 0 ∧ 0 ≤ S11.getD m 0 ∧ 0 ≤ S21.getD m 0 ∧ 0 ≤ S22.getD m 0 ∧
    0 < D1.getD m 0 ∧ 0 < D2.getD m 0 := by decide +kernel
  obtain ⟨h1, h2, h3, h4, h5, h6, h7⟩ := h m hm
  unfold tab
  exact ⟨by exact_mod_cast h1, by exact_mod_cast h2, by exact_mod_cast h3, by exact_mod_cast h4, by exact_mod_cast h5,
    by exact_mod_cast h6, by exact_mod_cast h7⟩

/-- **C117 (signs).**  Absorption and totals are positive at every time and temperature; a higher temperature absorbs more,
    except in the reflector. -/
theorem C117_positive (sqrt : K → K) (hs : ∀ x, 0 ≤ x → 0 ≤ sqrt x) (h3 : sqrt 300 * sqrt 300 = 300)
    (n : Nat) (region : Nat → Nat) (volume : Nat → K) (transport steady : Bool) (cs : List (Call K)) (t dt : K) (order : Nat)
    (syn : Bool) (hdt : 0 < dt) (ho : (0 : K) ≤ bdf order 0) (x y : Lra K)
    (hx : (Lra.new n region volume transport steady).run sqrt cs = some x) (hy : x.update sqrt t dt order syn = some y)
    (i g : Nat) (hi : i < n) (hg : g < 2) (hm : region i < 6) (hT : 0 ≤ x.T i) :
    0 < y.mat.sa i g ∧ y.mat.sa i g ≤ y.mat.st i g := by
  obtain ⟨x', y', hx', hy', _, hh⟩ := C117_update sqrt n region volume transport steady cs t dt order syn
  obtain rfl : x = x' := by rw [hx] at hx'; exact Option.some_inj.1 hx'
  obtain rfl : y = y' := by rw [hy] at hy'; exact Option.some_inj.1 hy'
  obtain ⟨h1, h2, h4, h5, h6, h7, h8, _⟩ := hh i hi hm
  obtain ⟨p1, p2, p3, p4, p5, p6, p7⟩ := A_pos (K := K) _ hm
  have s3 : 0 ≤ sqrt 300 := hs _ (by norm_num)
  have s18 : sqrt 300 ≤ 18 := by nlinarith
  have sT := hs _ hT
  have r := (C117_ramp t t le_rfl).2.1
  have ab : 0 < absorb sqrt steady (region i) g (x.T i) t := by
    unfold absorb
    split
    · split
      · exact p1
      · exact mul_pos p1 (by linarith)
    · split
      · exact p2
      · exact mul_pos p2 (by linarith)
  have d : 0 ≤ y.mat.dc i g := by
    interval_cases g
    · rw [h2.1]; exact p6.le
    · rw [h2.2]; exact p7.le
  refine ⟨by rw [h1 g hg]; linarith, ?_⟩
  have q0 : 0 ≤ (if syn then bdf order 0 / (30000000 * dt) else (0 : K)) := by
    split
    · positivity
    · exact le_rfl
  have q1 : 0 ≤ (if syn then bdf order 0 / (300000 * dt) else (0 : K)) := by
    split
    · positivity
    · exact le_rfl
  have q2 : 0 ≤ (if transport = true ∧ region i = 4 then 9 / 10 ^ 15 else (0 : K)) := by
    split
    · positivity
    · exact le_rfl
  have w0 : 0 ≤ y.mat.ss i 0 0 := by rw [h6.1]; split <;> first | exact p3 | exact le_rfl
  have w1 : 0 ≤ y.mat.ss i 1 1 := by rw [h6.2]; split <;> first | exact p5 | exact le_rfl
  interval_cases g
  · rw [h7, h4]; linarith
  · rw [h8, h5]; linarith

/-- **C117 (feedback).**  A higher temperature absorbs more in the fast group outside the reflector, and changes nothing
    else. -/
theorem C117_feedback (sqrt : K → K) (m : Nat) (hm : m < 6) (T T' t : K) (h : sqrt T < sqrt T') :
    (m ≠ 4 → absorb sqrt false m 0 T t < absorb sqrt false m 0 T' t) ∧ absorb sqrt false 4 0 T t = absorb sqrt false 4 0 T' t ∧
    absorb sqrt false m 1 T t = absorb sqrt false m 1 T' t ∧ absorb sqrt true m 0 T t = absorb sqrt true m 0 T' t := by
  unfold absorb
  refine ⟨fun h4 => ?_, by simp, by simp, by simp⟩
  simp only [if_true, Bool.false_eq_true, false_or, if_neg h4]
  exact mul_lt_mul_of_pos_left (by linarith) (A_pos m hm).1

/-- **C117 (power and heating).**  After an update the power of a cell is proportional to its fission rate; at positive times
    the working temperature is the heating rate, as the stepper expects, and at time zero it is left alone.  The rate is that
    of the scaled cross sections. -/
theorem C117_power (sqrt : K → K) (n : Nat) (region : Nat → Nat) (volume : Nat → K) (transport steady : Bool)
    (cs : List (Call K)) (t dt : K) (order : Nat) (syn : Bool) (s : K) (phi0 phi1 : Nat → K) (i : Nat) (hi : i < n)
    (hm : region i < 6) :
    ∃ x y, (Lra.new n region volume transport steady).run sqrt cs = some x ∧ x.update sqrt t dt order syn = some y ∧
      (y.updatePT s phi0 phi1).P i =
        3204 / 10 ^ 14 * ((tab F1 (region i) * phi0 i + tab F2 (region i) * phi1 i) / x.kcrit) ∧
      (0 < s → (y.updatePT s phi0 phi1).T i =
        3830 / 10 ^ 14 * ((tab F1 (region i) * phi0 i + tab F2 (region i) * phi1 i) / x.kcrit)) ∧
      (s ≤ 0 → (y.updatePT s phi0 phi1).T i = x.T i) := by
  obtain ⟨x, y, hx, hy, hT, hh⟩ := C117_update sqrt n region volume transport steady cs t dt order syn
  obtain ⟨f0, f1⟩ := (hh i hi hm).fission
  have hn : y.n = n := by
    obtain ⟨x', hx', hi'⟩ := run_inv sqrt cs (new_inv n region volume transport steady)
    obtain rfl : x = x' := by rw [hx] at hx'; exact Option.some_inj.1 hx'
    rw [update_some] at hy
    cases hy
    exact hi'.cells
  refine ⟨x, y, hx, hy, ?_, ?_, ?_⟩
  · simp only [Lra.updatePT, hn, hi, if_true, f0, f1, KAPPA]
    push_cast
    ring
  · intro h
    simp only [Lra.updatePT, hn, hi, h, and_self, if_true, f0, f1, ALPHA]
    push_cast
    ring
  · intro h
    simp only [Lra.updatePT, if_neg (fun (c : i < y.n ∧ 0 < s) => absurd c.2 (not_lt.2 h)), hT]

/-- Specification.  The eigenvalue that fission is divided by: the last one set, or one. -/
def lastK (k : K) : List (Call K) → K
  | [] => k
  | .setK k' :: cs => lastK k' cs
  | _ :: cs => lastK k cs

/-- **C117 (state).**  The eigenvalue is the one set last, or one; the temperatures are 300 until they are set or heating is
    computed. -/
theorem C117_state (sqrt : K → K) (n : Nat) (region : Nat → Nat) (volume : Nat → K) (transport steady : Bool)
    (cs : List (Call K)) : ∃ x, (Lra.new n region volume transport steady).run sqrt cs = some x ∧ x.kcrit = lastK 1 cs ∧
      ((∀ c ∈ cs, (∀ T, c ≠ .setT T) ∧ ∀ t a b, c ≠ .updatePT t a b) → ∀ i, x.T i = 300) := by
  have key : ∀ (cs : List (Call K)) (x : Lra K), ∃ y, x.run sqrt cs = some y ∧ y.kcrit = lastK x.kcrit cs ∧
      ((∀ c ∈ cs, (∀ T, c ≠ .setT T) ∧ ∀ t a b, c ≠ .updatePT t a b) → y.T = x.T) := by
    intro cs
    induction cs with
    | nil => intro x; exact ⟨x, rfl, rfl, fun _ => rfl⟩
    | cons c cs ih =>
      intro x
      cases c with
      | update t dt order syn =>
        obtain ⟨z, hz, hk, hT⟩ : ∃ z, x.update sqrt t dt order syn = some z ∧ z.kcrit = x.kcrit ∧ z.T = x.T :=
          ⟨_, update_some sqrt x t dt order syn, rfl, rfl⟩
        obtain ⟨y, h1, h2, h3⟩ := ih z
        refine ⟨y, ?_, ?_, fun h => ?_⟩
        · rw [Lra.run]
          show (x.update sqrt t dt order syn).bind _ = _
          rw [hz, Option.bind_some, h1]
        · rw [h2, hk]; rfl
        · rw [h3 fun c hc => h c (List.mem_cons_of_mem _ hc), hT]
      | updatePT t a b =>
        obtain ⟨y, h1, h2, _⟩ := ih (x.updatePT t a b)
        exact ⟨y, h1, h2, fun h => absurd rfl ((h _ List.mem_cons_self).2 t a b)⟩
      | setT T =>
        obtain ⟨y, h1, h2, _⟩ := ih { x with T := T }
        exact ⟨y, h1, h2, fun h => absurd rfl ((h _ List.mem_cons_self).1 T)⟩
      | setK k =>
        obtain ⟨y, h1, h2, h3⟩ := ih { x with kcrit := k }
        exact ⟨y, h1, h2, fun h => h3 fun c hc => h c (List.mem_cons_of_mem _ hc)⟩
  obtain ⟨y, h1, h2, h3⟩ := key cs (Lra.new n region volume transport steady)
  exact ⟨y, h1, h2, fun h i => by rw [h3 h]; rfl⟩

/-- **C117 (temperatures reported).**  `T()` is 300 everywhere, always: the vector it returns is never written. -/
theorem C117_T_stale (sqrt : K → K) (n : Nat) (region : Nat → Nat) (volume : Nat → K) (transport steady : Bool)
    (cs : List (Call K)) : ∃ x, (Lra.new n region volume transport steady).run sqrt cs = some x ∧ ∀ i, x.getT i = 300 := by
  obtain ⟨x, hx, h⟩ := run_inv sqrt cs (new_inv n region volume transport steady)
  exact ⟨x, hx, h.old⟩

/-- **C117 (area).**  The area is that of the cells outside the reflector. -/
theorem C117_area (sqrt : K → K) (n : Nat) (region : Nat → Nat) (volume : Nat → K) (transport steady : Bool)
    (cs : List (Call K)) : ∃ x, (Lra.new n region volume transport steady).run sqrt cs = some x ∧
      x.area = (((List.range n).filter fun i => decide (region i ≠ 4)).map volume).sum := by
  obtain ⟨x, hx, h⟩ := run_inv sqrt cs (new_inv n region volume transport steady)
  refine ⟨x, hx, h.area.trans ?_⟩
  have key : ∀ (l : List Nat) (a : K), l.foldl (fun a i => if region i ≠ REFLECTOR then a + volume i else a) a =
      a + ((l.filter fun i => decide (region i ≠ 4)).map volume).sum := by
    intro l
    induction l with
    | nil => intro a; simp
    | cons j l ih =>
      intro a
      rw [List.foldl_cons, ih]
      by_cases hj : region j = 4
      · simp [hj, REFLECTOR]
      · simp [hj, REFLECTOR, add_assoc]
  show (List.range n).foldl _ 0 = _
  rw [key, zero_add]

/-! ## Example -/

/-- Two cells, rod and reflector, transport, two updates with other temperatures in between: the rod's data at one second. -/
example : ((Lra.new 2 (fun i => if i = 0 then 5 else 4) (fun _ => (1 : ℚ)) true false).run (fun x => x / 20)
      [.update (1 / 2) (1 / 10) 1 true, .setT (fun _ => 400), .update 1 (1 / 10) 1 false]).map
        (fun x => (x.mat.sa 0 1, x.mat.sa 0 0, x.mat.sa 1 0, x.mat.chi 0 0, x.area)) =
    some (0.08344 * (1 - 0.0606184) + 0.0001 * 0.2091, 0.008002 * (1 + 0.003034 * 5) + 0.0001 * 1.259,
      0.0006024 + 0.0001 * 1.257, 1, 1) := by
  decide +kernel

end Detran.Lra
