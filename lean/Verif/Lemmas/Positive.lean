import Verif.Lemmas.GaussSeidel
import Verif.Props.Infinite

/-!
# Sweeps that keep fluxes positive (used for C132)
-/

namespace Detran.WGReflect

open Detran.Sweep
open Detran.Boundary (Bd BC Loc Enters Mirror faceCells)
open Finset

section cells
variable {K : Type} [Field K] [LinearOrder K] [IsStrictOrderedRing K]

/-- With nothing negative entering and a source of at least `t` times the total, a 1-D cell holds and lets out at
    least `δ * t`. -/
def Gain1 (δ sig : K) (sch : K → K → K × K) : Prop := ∀ q e t, 0 ≤ e → 0 ≤ t → t * sig ≤ q →
  δ * t ≤ (sch q e).1 ∧ δ * t ≤ (sch q e).2

def Gain2 (δ sig : K) (sch : K → K × K → K × (K × K)) : Prop := ∀ q e t, 0 ≤ e.1 → 0 ≤ e.2 → 0 ≤ t → t * sig ≤ q →
  δ * t ≤ (sch q e).1 ∧ δ * t ≤ (sch q e).2.1 ∧ δ * t ≤ (sch q e).2.2

/-- What positivity of step characteristics uses of the exponential. -/
structure Attenuates (ex : K → K) : Prop where
  nonneg : ∀ t > 0, 0 ≤ ex (-t)
  less : ∀ t > 0, ex (-t) < 1
  lower : ∀ t > 0, 1 - t < ex (-t)
  upper : ∀ t > 0, ex (-t) < 1 - t + t ^ 2 / 2

theorem gain_sd1 (mu dx sig : K) (hmu : 0 < mu) (hdx : 0 < dx) (hs : 0 < sig) :
    ∃ δ > 0, Gain1 δ sig (sd1 mu dx sig) := by
  refine ⟨1 / (sig + mu / dx) * sig, by positivity, fun q e t he ht hq => ?_⟩
  have h1 : 0 ≤ mu / dx * e := by positivity
  have h2 : 0 ≤ 1 / (sig + mu / dx) := by positivity
  have h3 := mul_le_mul_of_nonneg_left (by linarith : t * sig ≤ q + mu / dx * e) h2
  unfold sd1
  dsimp only
  constructor <;> linarith

/-- Diamond differencing in cells no thicker than two flight paths. -/
theorem gain_dd1 (mu dx sig : K) (hmu : 0 < mu) (hdx : 0 < dx) (hs : 0 < sig) (hthin : sig * dx ≤ 2 * mu) :
    ∃ δ > 0, Gain1 δ sig (dd1 mu dx sig) := by
  refine ⟨1 / (sig + 2 * mu / dx) * sig, by positivity, fun q e t he ht hq => ?_⟩
  have h1 : 0 ≤ 2 * mu / dx * e := by positivity
  have h2 : 0 < 1 / (sig + 2 * mu / dx) := by positivity
  have h3 := mul_le_mul_of_nonneg_left (by linarith : t * sig ≤ q + 2 * mu / dx * e) h2.le
  have h4 : sig ≤ 2 * mu / dx := by rw [le_div_iff₀ hdx]; exact hthin
  have h5 : 0 ≤ t * sig := by positivity
  have e1 : e = 1 / (sig + 2 * mu / dx) * ((sig + 2 * mu / dx) * e) := by field_simp
  have h6 : 0 ≤ 1 / (sig + 2 * mu / dx) * (2 * (q + 2 * mu / dx * e) - (sig + 2 * mu / dx) * e - t * sig) := by
    refine mul_nonneg h2.le ?_
    have := mul_nonneg (sub_nonneg.2 h4) he
    nlinarith
  unfold dd1
  dsimp only
  constructor
  · linarith
  · nlinarith [h6, e1]

theorem gain_sc1 (ex : K → K) (hex : Attenuates ex) (mu dx sig : K) (hmu : 0 < mu) (hdx : 0 < dx) (hs : 0 < sig) :
    ∃ δ > 0, Gain1 δ sig (sc1 ex mu dx sig) := by
  have ht : 0 < sig * dx / mu := by positivity
  have a0 := hex.nonneg _ ht
  have a1 := hex.less _ ht
  have a2 := hex.lower _ ht
  have hx : sc1 ex mu dx sig = fun s pin => (pin * (1 - ex (-(sig * dx / mu))) / (sig * dx / mu) +
      s * (sig * dx + mu * (ex (-(sig * dx / mu)) - 1)) / (sig * sig * dx),
      ex (-(sig * dx / mu)) * pin + s * (1 - ex (-(sig * dx / mu))) / sig) := rfl
  rw [hx]
  generalize ex (-(sig * dx / mu)) = A at *
  have b1 : 0 < sig * dx + mu * (A - 1) := by
    have : mu * (1 - A) < mu * (sig * dx / mu) := mul_lt_mul_of_pos_left (by linarith) hmu
    rw [mul_div_cancel₀ _ hmu.ne'] at this
    linarith
  have d1 : 0 < (sig * dx + mu * (A - 1)) / (sig * dx) := by positivity
  have d2 : 0 < 1 - A := by linarith
  refine ⟨min ((sig * dx + mu * (A - 1)) / (sig * dx)) (1 - A), lt_min d1 d2, fun q e t he ht' hq => ?_⟩
  have m1 := mul_le_mul_of_nonneg_right (min_le_left ((sig * dx + mu * (A - 1)) / (sig * dx)) (1 - A)) ht'
  have m2 := mul_le_mul_of_nonneg_right (min_le_right ((sig * dx + mu * (A - 1)) / (sig * dx)) (1 - A)) ht'
  have hd : 0 ≤ q / sig - t := by rw [sub_nonneg, le_div_iff₀ hs]; exact hq
  have k1 : 0 ≤ e * (1 - A) / (sig * dx / mu) := by positivity
  have k2 := mul_nonneg d1.le hd
  have k3 := mul_nonneg d2.le hd
  have k4 := mul_nonneg a0 he
  have e1 : q * (sig * dx + mu * (A - 1)) / (sig * sig * dx) = (sig * dx + mu * (A - 1)) / (sig * dx) * (q / sig) := by
    field_simp
  have e2 : q * (1 - A) / sig = (1 - A) * (q / sig) := by field_simp
  dsimp only
  rw [e1, e2]
  constructor <;> linarith

theorem gain_sd2 (mu eta dx dy sig : K) (hmu : 0 < mu) (heta : 0 < eta) (hdx : 0 < dx) (hdy : 0 < dy) (hs : 0 < sig) :
    ∃ δ > 0, Gain2 δ sig (sd2 mu eta dx dy sig) := by
  refine ⟨1 / (sig + mu / dx + eta / dy) * sig, by positivity, fun q e t he hf ht hq => ?_⟩
  have h1 : 0 ≤ mu / dx * e.1 := by positivity
  have h1' : 0 ≤ eta / dy * e.2 := by positivity
  have h2 : 0 ≤ 1 / (sig + mu / dx + eta / dy) := by positivity
  have h3 := mul_le_mul_of_nonneg_left (by linarith : t * sig ≤ q + mu / dx * e.1 + eta / dy * e.2) h2
  unfold sd2
  dsimp only
  refine ⟨?_, ?_, ?_⟩ <;> linarith

/-- The branch of 2-D step characteristics in which the near face is the one of `x`. -/
theorem gain_sc2_half (al rho e o : K) (hal : 0 < al) (hr : 0 < rho) (hr1 : rho ≤ 1) (he0 : 0 ≤ e) (he1 : e < 1)
    (ho : al * o = 1 - e) (hl : 1 - al < e) (hu : e < 1 - al + al ^ 2 / 2) :
    ∃ δ > 0, ∀ Q x y t, 0 ≤ x → 0 ≤ y → 0 ≤ t → t ≤ Q →
      let o1 := Q + (x - Q) * (1 - rho) * e + (y - Q) * rho * o
      let o2 := Q + (x - Q) * o
      δ * t ≤ o1 ∧ δ * t ≤ o2 ∧ δ * t ≤ Q - (o1 - x) / al - rho * (o2 - y) / al := by
  have o0 : 0 < o := by
    have : 0 < al * o := by rw [ho]; linarith
    exact (pos_iff_pos_of_mul_pos this).1 hal
  have o1 : o < 1 := by
    have : al * o < al * 1 := by rw [ho]; linarith
    exact lt_of_mul_lt_mul_left this hal.le
  have o2 : 2 * (1 - o) < al := by
    have : al * (2 * (1 - o)) < al * al := by nlinarith
    exact lt_of_mul_lt_mul_left this hal.le
  have d1 : 0 < 1 - (1 - rho) * e - rho * o := by
    have h1 : 0 ≤ (1 - rho) * (1 - e) := mul_nonneg (by linarith) (by linarith)
    have h2 : 0 < rho * (1 - o) := mul_pos hr (by linarith)
    nlinarith
  have d2 : 0 < 1 - o := by linarith
  have d3 : 0 < 1 - 2 * rho * (1 - o) / al - (1 - rho) * o := by
    have h1 : 2 * rho * (1 - o) / al < rho := by
      rw [div_lt_iff₀ hal]
      have := mul_lt_mul_of_pos_left o2 hr
      linarith
    have h2 : 0 ≤ (1 - rho) * (1 - o) := mul_nonneg (by linarith) d2.le
    nlinarith
  have c1 : 0 ≤ (1 - (1 - rho) * e - rho * o) / al := (div_pos d1 hal).le
  have c2 : 0 ≤ rho * (1 - o) / al := by positivity
  refine ⟨min (1 - (1 - rho) * e - rho * o) (min (1 - o) (1 - 2 * rho * (1 - o) / al - (1 - rho) * o)),
    lt_min d1 (lt_min d2 d3), fun Q x y t hx hy ht hq => ?_⟩
  have m1 := mul_le_mul_of_nonneg_right (min_le_left (1 - (1 - rho) * e - rho * o)
    (min (1 - o) (1 - 2 * rho * (1 - o) / al - (1 - rho) * o))) ht
  have m2 := mul_le_mul_of_nonneg_right ((min_le_right (1 - (1 - rho) * e - rho * o)
    (min (1 - o) (1 - 2 * rho * (1 - o) / al - (1 - rho) * o))).trans (min_le_left _ _)) ht
  have m3 := mul_le_mul_of_nonneg_right ((min_le_right (1 - (1 - rho) * e - rho * o)
    (min (1 - o) (1 - 2 * rho * (1 - o) / al - (1 - rho) * o))).trans (min_le_right _ _)) ht
  have q1 := mul_nonneg d1.le (sub_nonneg.2 hq)
  have q2 := mul_nonneg d2.le (sub_nonneg.2 hq)
  have q3 := mul_nonneg d3.le (sub_nonneg.2 hq)
  have x1 : 0 ≤ x * (1 - rho) * e := mul_nonneg (mul_nonneg hx (by linarith)) he0
  have x2 : 0 ≤ y * rho * o := by positivity
  have x3 : 0 ≤ x * o := by positivity
  have x4 := mul_nonneg hx c1
  have x5 := mul_nonneg hy c2
  dsimp only
  refine ⟨by nlinarith, by nlinarith, ?_⟩
  have id : Q - (Q + (x - Q) * (1 - rho) * e + (y - Q) * rho * o - x) / al - rho * (Q + (x - Q) * o - y) / al =
      (1 - 2 * rho * (1 - o) / al - (1 - rho) * o) * Q + x * ((1 - (1 - rho) * e - rho * o) / al) +
        y * (rho * (1 - o) / al) := by
    have he : e = 1 - al * o := by linarith
    rw [he]
    field_simp
    ring
  rw [id]
  linarith

theorem gain_sc2 (ex : K → K) (hex : Attenuates ex) (mu eta dx dy sig : K) (hmu : 0 < mu) (heta : 0 < eta) (hdx : 0 < dx)
    (hdy : 0 < dy) (hs : 0 < sig) : ∃ δ > 0, Gain2 δ sig (sc2 ex mu eta dx dy sig) := by
  have ha : 0 < sig * (dx / mu) := by positivity
  have hb : 0 < sig * (dy / eta) := by positivity
  by_cases hr : sig * (dx / mu) / (sig * (dy / eta)) ≤ 1
  · have hx : sc2 ex mu eta dx dy sig = fun s pin =>
        let Q := s / sig
        let alpha := sig * (dx / mu)
        let beta := sig * (dy / eta)
        let o := (1 - ex (-alpha)) / alpha
        let o1 := Q + (pin.1 - Q) * (1 - alpha / beta) * ex (-alpha) + (pin.2 - Q) * (alpha / beta) * o
        let o2 := Q + (pin.1 - Q) * o
        (Q - (o1 - pin.1) / alpha - (o2 - pin.2) / beta, (o1, o2)) := by
      funext s pin
      unfold sc2
      simp only [if_pos hr]
    have a0 := hex.nonneg _ ha
    have a1 := hex.less _ ha
    have a2 := hex.lower _ ha
    have a3 := hex.upper _ ha
    rw [hx]
    clear hx
    dsimp only
    generalize sig * (dx / mu) = al at *
    generalize sig * (dy / eta) = be at *
    generalize ex (-al) = e at *
    obtain ⟨δ, hδ, k⟩ := gain_sc2_half al (al / be) e ((1 - e) / al) ha (div_pos ha hb) hr a0 a1
      (mul_div_cancel₀ _ ha.ne') a2 a3
    refine ⟨δ, hδ, fun q p t h1 h2 ht hq => ?_⟩
    obtain ⟨k1, k2, k3⟩ := k (q / sig) p.1 p.2 t h1 h2 ht (by rw [le_div_iff₀ hs]; exact hq)
    dsimp only
    refine ⟨?_, k1, k2⟩
    refine k3.trans (le_of_eq ?_)
    congr 1
    field_simp
  · have hx : sc2 ex mu eta dx dy sig = fun s pin =>
        let Q := s / sig
        let alpha := sig * (dx / mu)
        let beta := sig * (dy / eta)
        let rho := alpha / beta
        let o := (1 - ex (-beta)) / beta
        let o1 := Q + (pin.2 - Q) * o
        let o2 := Q + (pin.1 - Q) * o / rho + (pin.2 - Q) * (1 - 1 / rho) * ex (-beta)
        (Q - (o1 - pin.1) / alpha - (o2 - pin.2) / beta, (o1, o2)) := by
      funext s pin
      unfold sc2
      simp only [if_neg hr]
    have a0 := hex.nonneg _ hb
    have a1 := hex.less _ hb
    have a2 := hex.lower _ hb
    have a3 := hex.upper _ hb
    rw [hx]
    clear hx
    dsimp only
    generalize sig * (dx / mu) = al at *
    generalize sig * (dy / eta) = be at *
    generalize ex (-be) = e at *
    have hr' : be / al ≤ 1 := by
      rw [div_le_one ha]
      by_contra h
      exact hr (by rw [div_le_one hb]; exact (not_le.1 h).le)
    obtain ⟨δ, hδ, k⟩ := gain_sc2_half be (be / al) e ((1 - e) / be) hb (div_pos hb ha) hr' a0 a1
      (mul_div_cancel₀ _ hb.ne') a2 a3
    refine ⟨δ, hδ, fun q p t h1 h2 ht hq => ?_⟩
    obtain ⟨k1, k2, k3⟩ := k (q / sig) p.2 p.1 t h2 h1 ht (by rw [le_div_iff₀ hs]; exact hq)
    dsimp only
    have e2 : q / sig + (p.1 - q / sig) * ((1 - e) / be) / (al / be) + (p.2 - q / sig) * (1 - 1 / (al / be)) * e =
        q / sig + (p.2 - q / sig) * (1 - be / al) * e + (p.1 - q / sig) * (be / al) * ((1 - e) / be) := by
      field_simp
      ring
    rw [e2]
    refine ⟨?_, k2, k1⟩
    refine k3.trans (le_of_eq ?_)
    rw [sub_right_comm]
    congr 2
    field_simp

theorem attenuates_exp : Attenuates Real.exp where
  nonneg := fun t _ => (Real.exp_pos _).le
  less := fun t ht => by rw [Real.exp_lt_one_iff]; linarith
  lower := fun t ht => by
    have := Real.add_one_lt_exp (x := -t) (by linarith)
    linarith
  upper := fun t ht => by
    have h1 := Real.quadratic_le_exp_of_nonneg ht.le
    have h2 : 0 < Real.exp (-t) := Real.exp_pos _
    have h3 : Real.exp (-t) * Real.exp t = 1 := by rw [← Real.exp_add]; simp
    have h4 : Real.exp (-t) * (1 + t + t ^ 2 / 2) ≤ 1 :=
      (mul_le_mul_of_nonneg_left h1 h2.le).trans h3.le
    have h5 : 0 < 1 + t + t ^ 2 / 2 := by positivity
    have h6 : 1 < (1 - t + t ^ 2 / 2) * (1 + t + t ^ 2 / 2) := by
      have : (1 - t + t ^ 2 / 2) * (1 + t + t ^ 2 / 2) = 1 + t ^ 4 / 4 := by ring
      rw [this]
      have : 0 < t ^ 4 := by positivity
      linarith
    exact lt_of_mul_lt_mul_right (h4.trans_lt h6) h5.le

/-- One bound for finitely many cases. -/
theorem unify (n : Nat) (C : Nat → K → Prop) (hC : ∀ i δ δ', δ' ≤ δ → C i δ → C i δ')
    (h : ∀ i < n, ∃ δ > 0, C i δ) : ∃ δ > 0, ∀ i < n, C i δ := by
  induction n with
  | zero => exact ⟨1, one_pos, fun i hi => by omega⟩
  | succ n ih =>
    obtain ⟨δ, hδ, k⟩ := ih fun i hi => h i (by omega)
    obtain ⟨δ', hδ', k'⟩ := h n (by omega)
    refine ⟨min δ δ', lt_min hδ hδ', fun i hi => ?_⟩
    rcases Nat.lt_succ_iff_lt_or_eq.1 hi with e | e
    · exact hC i _ _ (min_le_left _ _) (k i e)
    · exact hC i _ _ (min_le_right _ _) (e ▸ k')

theorem gain1_mono {δ δ' sig : K} {sch : K → K → K × K} (h : δ' ≤ δ) (k : Gain1 δ sig sch) : Gain1 δ' sig sch :=
  fun q e t he ht hq => by
    have := mul_le_mul_of_nonneg_right h ht
    exact ⟨this.trans (k q e t he ht hq).1, this.trans (k q e t he ht hq).2⟩

theorem gain2_mono {δ δ' sig : K} {sch : K → K × K → K × (K × K)} (h : δ' ≤ δ) (k : Gain2 δ sig sch) :
    Gain2 δ' sig sch :=
  fun q e t he hf ht hq => by
    have := mul_le_mul_of_nonneg_right h ht
    obtain ⟨h1, h2, h3⟩ := k q e t he hf ht hq
    exact ⟨this.trans h1, this.trans h2, this.trans h3⟩

end cells

/-! ## Directions -/

section dirs
variable {F K : Type} [Field K] [LinearOrder K] [IsStrictOrderedRing K]

/-- With nothing negative entering and sources of at least `t` times the total `sig`, a direction has at least `δ * t`
    in every cell and leaving through every face. -/
def Gain (P : Prob F K) (Sol : (Nat → K) → Nat → Nat → (Nat → F) → (Nat → K) → Prop) (sig : Nat → K) (δ : K) : Prop :=
  ∀ q o a b p t, o < 2 ^ P.dim → a < P.na → Sol q o a b p → 0 ≤ t → (∀ c < P.N, t * sig c ≤ q c) →
    (∀ side < 2 * P.dim, Enters side o → ∀ i j, InFace P side i j → 0 ≤ P.get (b side) i j) →
    (∀ c < P.N, δ * t ≤ p c) ∧
    ∀ side < 2 * P.dim, ¬ Enters side o → ∀ i j, InFace P side i j → δ * t ≤ P.get (b side) i j

theorem gain_mono {P : Prob F K} {Sol} {sig : Nat → K} {δ δ' : K} (h : δ' ≤ δ) (k : Gain P Sol sig δ) :
    Gain P Sol sig δ' := fun q o a b p t ho ha hsol ht hq he => by
  have := mul_le_mul_of_nonneg_right h ht
  obtain ⟨k1, k2⟩ := k q o a b p t ho ha hsol ht hq he
  exact ⟨fun c hc => this.trans (k1 c hc), fun s hs hl i j hi => this.trans (k2 s hs hl i j hi)⟩

variable {P : Prob F K} {w : Nat → K} {Sol : (Nat → K) → Nat → Nat → (Nat → F) → (Nat → K) → Prop} {sig : Nat → K} {δ : K}

/-- Flat angular fluxes satisfy the cell equations with sources of total times flux. -/
def KeepsFlat (P : Prob F K) (Sol : (Nat → K) → Nat → Nat → (Nat → F) → (Nat → K) → Prop) (sig : Nat → K) : Prop :=
  ∀ v : K, ∃ b : F, (∀ i j, P.get b i j = v) ∧ ∀ q : Nat → K, (∀ c < P.N, q c = sig c * v) →
    ∀ o < 2 ^ P.dim, ∀ a < P.na, Sol q o a (fun _ => b) (fun _ => v)

/-- Two solutions of a direction: where the first exceeds the second by at most `v` on entry, and its sources by at most
    `v - t` times the total, it exceeds it by at most `v - δ * t` elsewhere. -/
theorem dir_le (h : Sweeps P w Sol) (hg : Gain P Sol sig δ) (hf : KeepsFlat P Sol sig) (q1 q2 : Nat → K) (o a : Nat)
    (ho : o < 2 ^ P.dim) (ha : a < P.na) (b1 b2 : Nat → F) (p1 p2 : Nat → K) (h1 : Sol q1 o a b1 p1)
    (h2 : Sol q2 o a b2 p2) (v t : K) (ht : 0 ≤ t) (hs : ∀ c < P.N, q1 c - q2 c ≤ (v - t) * sig c)
    (he : ∀ side < 2 * P.dim, Enters side o → ∀ i j, InFace P side i j →
      P.get (b1 side) i j - P.get (b2 side) i j ≤ v) :
    (∀ c < P.N, p1 c - p2 c ≤ v - δ * t) ∧ ∀ side < 2 * P.dim, ¬ Enters side o → ∀ i j, InFace P side i j →
      P.get (b1 side) i j - P.get (b2 side) i j ≤ v - δ * t := by
  obtain ⟨bv, hbv, kv⟩ := hf v
  let bd : Nat → F := fun s => P.face fun i j => 1 * P.get (b1 s) i j + -1 * P.get (b2 s) i j
  have hd : Sol (fun c => 1 * q1 c + -1 * q2 c) o a bd (fun c => 1 * p1 c + -1 * p2 c) :=
    h.lin 1 (-1) q1 q2 _ o a b1 b2 bd p1 p2 _ ho h1 h2 (fun _ _ => rfl) (fun _ => rfl)
      fun s hs i j hi => h.face s hs _ i j hi
  let be : Nat → F := fun s => P.face fun i j => 1 * P.get bv i j + -1 * P.get (bd s) i j
  have hk : Sol (fun c => 1 * (sig c * v) + -1 * (1 * q1 c + -1 * q2 c)) o a be
      (fun c => 1 * v + -1 * (1 * p1 c + -1 * p2 c)) :=
    h.lin 1 (-1) (fun c => sig c * v) _ _ o a (fun _ => bv) bd be (fun _ => v) _ _ ho (kv _ (fun _ _ => rfl) o ho a ha) hd
      (fun _ _ => rfl) (fun _ => rfl) fun s hs i j hi => h.face s hs _ i j hi
  have eb : ∀ s < 2 * P.dim, ∀ i j, InFace P s i j →
      P.get (be s) i j = v - (P.get (b1 s) i j - P.get (b2 s) i j) := by
    intro s hs i j hi
    change P.get (P.face _) i j = _
    rw [h.face s hs _ i j hi, hbv]
    change _ + -1 * P.get (P.face _) i j = _
    rw [h.face s hs _ i j hi]
    ring
  obtain ⟨k1, k2⟩ := hg _ o a be _ t ho ha hk ht (fun c hc => by have := hs c hc; linarith)
    fun s hs' hes i j hi => by
      rw [eb s hs' i j hi]
      have := he s hs' hes i j hi
      linarith
  refine ⟨fun c hc => ?_, fun s hs' hl i j hi => ?_⟩
  · have := k1 c hc
    linarith
  · have := k2 s hs' hl i j hi
    rw [eb s hs' i j hi] at this
    linarith

/-! ## Sweeps -/

/-- When a direction is swept. -/
def turn (P : Prob F K) (o a : Nat) : Nat := (pairs P.order P.na).idxOf (o, a)

/-- A direction's flux is found from those of earlier directions as they are after the sweep, and of later ones as they
    were before. -/
theorem sweep_order (h : Sweeps P w Sol) (upd : Bool) (src) (s : St F K) (o a : Nat) (ho : o < 2 ^ P.dim) (ha : a < P.na) :
    ∃ m : St F K, (∀ f, (P.sweep upd src s).bdy f o a = (P.step upd src m o a).bdy f o a) ∧
      ∀ o' < 2 ^ P.dim, o' ≠ o → (turn P o' a < turn P o a → ∀ f, m.bdy f o' a = (P.sweep upd src s).bdy f o' a) ∧
        (¬ turn P o' a < turn P o a → ∀ f, m.bdy f o' a = s.bdy f o' a) := by
  have hnd : (pairs P.order P.na).Nodup := pairs_nodup (h.order.nodup_iff.2 List.nodup_range) P.na
  have hmem : ∀ o' < 2 ^ P.dim, (o', a) ∈ pairs P.order P.na := fun o' ho' =>
    mem_pairs.2 ⟨h.order.mem_iff.2 (List.mem_range.2 ho'), ha⟩
  obtain ⟨L1, L2, hL⟩ := List.append_of_mem (hmem o ho)
  have keep : ∀ (L : List (Nat × Nat)) (s : St F K) (q : Nat × Nat), q ∉ L → ∀ f,
      (L.foldl (fun s p => P.step upd src s p.1 p.2) s).bdy f q.1 q.2 = s.bdy f q.1 q.2 := by
    intro L
    induction L with
    | nil => intros; rfl
    | cons p L ih =>
      intro s q hq f
      rw [List.foldl_cons, ih _ q (fun h' => hq (by simp [h'])) f]
      exact h.other upd src s p q (fun e => hq (by simp [e])) f
  have es : P.sweep upd src s = (pairs P.order P.na).foldl (fun s p => P.step upd src s p.1 p.2)
      { s with phi := fun _ => 0 } := sweepWith_eq _ _ _ _
  rw [hL] at hnd es
  rw [List.foldl_append, List.foldl_cons] at es
  have hn := List.nodup_append.1 hnd
  have hn2 := List.nodup_cons.1 hn.2.1
  have hself : (o, a) ∉ L1 := fun h' => hn.2.2 _ h' (o, a) (by simp) rfl
  have ht : turn P o a = L1.length := by
    unfold turn
    rw [hL, List.idxOf_append_of_notMem hself, List.idxOf_cons_self, Nat.add_zero]
  have early : ∀ o', (o', a) ∈ L1 ↔ turn P o' a < turn P o a := by
    intro o'
    rw [ht]
    unfold turn
    rw [hL]
    constructor
    · intro hm
      rw [List.idxOf_append_of_mem hm]
      exact List.idxOf_lt_length_of_mem hm
    · intro hlt
      by_contra hm
      rw [List.idxOf_append_of_notMem hm] at hlt
      omega
  refine ⟨L1.foldl (fun s p => P.step upd src s p.1 p.2) { s with phi := fun _ => 0 }, ?_, ?_⟩
  · intro f
    rw [es]
    exact keep L2 _ (o, a) hn2.1 f
  · intro o' ho' hne
    constructor
    · intro hlt f
      have h1 := (early o').2 hlt
      rw [es]
      have h2 : (o', a) ∉ L2 := fun h' => hn.2.2 _ h1 (o', a) (by simp [h']) rfl
      rw [keep L2 _ (o', a) h2 f]
      exact (h.other upd src _ (o, a) (o', a) (fun e => hne (Prod.mk.inj e).1) f).symm
    · intro hlt f
      exact keep L1 { s with phi := fun _ => 0 } (o', a) (fun h' => hlt ((early o').1 h')) f

/-- `b` and `psi` satisfy the cell equations with sources `src`; what enters at reflecting sides left there in `b`, if
    the mirror direction is swept earlier, and in `b0` if it is swept later. -/
structure Swept (P : Prob F K) (Sol : (Nat → K) → Nat → Nat → (Nat → F) → (Nat → K) → Prop) (src : Nat → Nat → Nat → K)
    (b0 b : Bd F) (psi : Nat → Nat → Nat → K) : Prop where
  cells : ∀ o < 2 ^ P.dim, ∀ a < P.na, Sol (src o a) o a (fun f => b f o a) (psi o a)
  mirror : ∀ side < 2 * P.dim, P.bc side = .reflect → ∀ o < 2 ^ P.dim, Enters side o → ∀ o', Mirror P.dim side o o' →
    ∀ a < P.na, ∀ i j, InFace P side i j →
    (turn P o' a < turn P o a → P.get (b side o a) i j = P.get (b side o' a) i j) ∧
    (¬ turn P o' a < turn P o a → P.get (b side o a) i j = P.get (b0 side o' a) i j)

theorem swept_sweep (h : Sweeps P w Sol) (hp : ∀ s < 2 * P.dim, P.bc s ≠ .periodic) (src) (s : St F K) :
    ∃ psi, Swept P Sol src s.bdy (P.sweep true src s).bdy psi ∧
      ∀ c < P.N, (P.sweep true src s).phi c = ∑ o ∈ range (2 ^ P.dim), ∑ a ∈ range P.na, w a * psi o a c := by
  obtain ⟨psi, c1, f1⟩ := h.solves true src s
  refine ⟨psi, ⟨c1, fun f hf hr o ho he o' hm a ha i j hi => ?_⟩, f1⟩
  obtain ⟨m, h1, h3⟩ := sweep_order h true src s o a ho ha
  have hne : o' ≠ o := fun e => Boundary.mirror_leaves P.dim h.d1 h.d3 f hf o o' ho he hm (e ▸ he)
  have hu : (P.sweep true src s).bdy f o a = m.bdy f o' a := by
    rw [h1, h.inc true src m o ho a f hf he]
    refine Boundary.C30_boundary_angle P.dim h.d1 h.d3 P.bc m.bdy f o o' a hf ho he hm hr ?_
    exact hp _ (Boundary.opp_facts P.dim h.d1 h.d3 f hf).1
  obtain ⟨k1, k2⟩ := h3 o' hm.1 hne
  exact ⟨fun hl => by rw [hu, k1 hl], fun hl => by rw [hu, k2 hl]⟩

/-- Fluxes leaving towards reflecting sides: those of `b` exceed those of `b'` by at most `v`. -/
def Leaving (P : Prob F K) (b b' : Bd F) (v : K) : Prop :=
  ∀ side < 2 * P.dim, P.bc side = .reflect → ∀ o < 2 ^ P.dim, ¬ Enters side o → ∀ a < P.na, ∀ i j, InFace P side i j →
    P.get (b side o a) i j - P.get (b' side o a) i j ≤ v

/-- What enters at the other sides: no more in `b` than in `b'`. -/
def Incoming (P : Prob F K) (b b' : Bd F) : Prop :=
  ∀ side < 2 * P.dim, P.bc side ≠ .reflect → ∀ o < 2 ^ P.dim, Enters side o → ∀ a < P.na, ∀ i j, InFace P side i j →
    P.get (b side o a) i j ≤ P.get (b' side o a) i j

/-- Two sweeps. -/
theorem swept_le (h : Sweeps P w Sol) (hg : Gain P Sol sig δ) (hδ : 0 ≤ δ) (hf : KeepsFlat P Sol sig)
    {src src' : Nat → Nat → Nat → K}
    {b0 b b0' b' : Bd F} {psi psi' : Nat → Nat → Nat → K} (h1 : Swept P Sol src b0 b psi)
    (h2 : Swept P Sol src' b0' b' psi') (v t : K) (hv : 0 ≤ v) (ht : 0 ≤ t)
    (hs : ∀ o < 2 ^ P.dim, ∀ a < P.na, ∀ c < P.N, src o a c - src' o a c ≤ (v - t) * sig c)
    (h0 : Leaving P b0 b0' v) (hin : Incoming P b b') :
    (∀ o < 2 ^ P.dim, ∀ a < P.na, ∀ c < P.N, psi o a c - psi' o a c ≤ v - δ * t) ∧ Leaving P b b' (v - δ * t) := by
  have main : ∀ n, ∀ o < 2 ^ P.dim, ∀ a < P.na, turn P o a = n →
      (∀ c < P.N, psi o a c - psi' o a c ≤ v - δ * t) ∧ ∀ side < 2 * P.dim, ¬ Enters side o → ∀ i j, InFace P side i j →
        P.get (b side o a) i j - P.get (b' side o a) i j ≤ v - δ * t := by
    intro n
    induction n using Nat.strong_induction_on with
    | _ n ih =>
      intro o ho a ha hn
      refine dir_le h hg hf _ _ o a ho ha _ _ _ _ (h1.cells o ho a ha) (h2.cells o ho a ha) v t ht (hs o ho a ha) ?_
      intro side hsd he i j hi
      by_cases hr : P.bc side = .reflect
      · obtain ⟨hm1, hm2, _, hm4⟩ := mir_facts P.dim h.d1 h.d3 side hsd o ho
        have hl : ¬ Enters side (mir P.dim side o) := fun h' => hm4.1 h' he
        obtain ⟨a1, a2⟩ := h1.mirror side hsd hr o ho he _ hm2 a ha i j hi
        obtain ⟨b1, b2⟩ := h2.mirror side hsd hr o ho he _ hm2 a ha i j hi
        by_cases hlt : turn P (mir P.dim side o) a < turn P o a
        · rw [a1 hlt, b1 hlt]
          have := (ih _ (hn ▸ hlt) _ hm1 a ha rfl).2 side hsd hl i j hi
          have := mul_nonneg hδ ht
          linarith
        · rw [a2 hlt, b2 hlt]
          exact h0 side hsd hr _ hm1 hl a ha i j hi
      · have := hin side hsd hr o ho he a ha i j hi
        linarith
  exact ⟨fun o ho a ha => (main _ o ho a ha rfl).1, fun side hsd _ o ho hl a ha => (main _ o ho a ha rfl).2 side hsd hl⟩

end dirs

section geom
variable {K : Type} [Field K] [LinearOrder K] [IsStrictOrderedRing K]

theorem positive1 (sch : Nat → Nat → K → K → K × K) (w : Nat → K) (nx na : Nat) (h0 : 0 < nx) (up : Bool) (bc : Nat → BC K)
    (order : List Nat) (scat fixed mtod disc) (sig : Nat → K)
    (hc : ∀ a < na, ∀ i < nx, ∃ δ > 0, Gain1 δ (sig i) (sch a i)) :
    ∃ δ > 0, Gain (prob1 sch w nx na up bc order scat fixed mtod disc)
      (fun q o a b p => Solves1 nx (fun i => sch a i (q i)) o b p) sig δ := by
  obtain ⟨δ, hδ, k⟩ := unify na (fun a δ => ∀ i < nx, Gain1 δ (sig i) (sch a i))
    (fun _ _ _ h k i hi => gain1_mono h (k i hi)) fun a ha =>
      unify nx (fun i δ => Gain1 δ (sig i) (sch a i)) (fun _ _ _ h k => gain1_mono h k) (hc a ha)
  refine ⟨δ, hδ, ?_⟩
  rintro q o a b p t ho ha ⟨E, e1, e2, e3⟩ ht hq hin
  have ho' : o < 2 ^ 1 := ho
  have ha' : a < na := ha
  have hq' : ∀ c < nx, t * sig c ≤ q c := hq
  obtain ⟨x1, x2, x3, x4, x5, x6⟩ := entry_facts 1 (by decide) (by decide) o ho' 0 (by decide)
  have face : ∀ side < 2, ∀ i j, InFace (prob1 sch w nx na up bc order scat fixed mtod disc) side i j ↔ i = 0 ∧ j = 0 := by
    intro side hs i j
    change i < faceCells 1 side (fun _ => nx) 0 ∧ j < faceCells 1 side (fun _ => nx) 1 ↔ _
    have : ∀ k, faceCells 1 side (fun _ => nx) k = 1 := by
      intro k
      interval_cases side <;> simp [faceCells, List.range, List.range.loop, List.filter]
    rw [this, this]
    omega
  have s0 : 0 ≤ E 0 := by
    rw [e1]
    exact hin _ x1 x3 0 0 ((face _ x1 0 0).2 ⟨rfl, rfl⟩)
  have step : ∀ n < nx, 0 ≤ E n → δ * t ≤ p (posn nx o 0 n) ∧ δ * t ≤ E (n + 1) := by
    intro n hn hE
    have hi := posn_lt (o := o) (d := 0) hn
    have := k a ha' _ hi (q (posn nx o 0 n)) (E n) t hE ht (hq' _ hi)
    have h3 := e3 n hn
    dsimp only at h3
    rw [h3] at this
    exact this
  have nn : ∀ n ≤ nx, 0 ≤ E n := by
    intro n
    induction n with
    | zero => exact fun _ => s0
    | succ n ih => exact fun hn => (mul_nonneg hδ.le ht).trans (step n (by omega) (ih (by omega))).2
  refine ⟨fun c hc => ?_, fun side hs hl i j hi => ?_⟩
  · have hc : c < nx := hc
    have := (step (posn nx o 0 c) (posn_lt hc) (nn _ (posn_lt hc).le)).1
    rwa [posn_posn hc] at this
  · obtain ⟨_, hx⟩ := leaves_exit 1 (by decide) (by decide) side o hs ho' hl
    have hz : side / 2 = 0 := by have : side < 2 := hs; omega
    rw [hz] at hx
    change δ * t ≤ b side
    rw [hx, e2]
    have := (step (nx - 1) (by omega) (nn _ (by omega))).2
    rwa [Nat.sub_add_cancel h0] at this

theorem positive2 (sch : Nat → Nat → Nat → K → K × K → K × (K × K)) (w : Nat → K) (nx ny na : Nat) (hx0 : 0 < nx)
    (hy0 : 0 < ny) (up : Bool) (bc : Nat → BC (Nat → K)) (order : List Nat) (scat fixed mtod disc) (sig : Nat → K)
    (hc : ∀ a < na, ∀ i < nx, ∀ j < ny, ∃ δ > 0, Gain2 δ (sig (i + j * nx)) (sch a i j)) :
    ∃ δ > 0, Gain (prob2 sch w nx ny na up bc order scat fixed mtod disc)
      (fun q o a b p => Solves2 nx ny (fun i j => sch a i j (q (i + j * nx))) o b p) sig δ := by
  obtain ⟨δ, hδ, k⟩ := unify na (fun a δ => ∀ i < nx, ∀ j < ny, Gain2 δ (sig (i + j * nx)) (sch a i j))
    (fun _ _ _ h k i hi j hj => gain2_mono h (k i hi j hj)) fun a ha =>
      unify nx (fun i δ => ∀ j < ny, Gain2 δ (sig (i + j * nx)) (sch a i j))
        (fun _ _ _ h k j hj => gain2_mono h (k j hj)) fun i hi =>
        unify ny (fun j δ => Gain2 δ (sig (i + j * nx)) (sch a i j)) (fun _ _ _ h k => gain2_mono h k) (hc a ha i hi)
  refine ⟨δ, hδ, ?_⟩
  rintro q o a b p t ho ha ⟨V, H, e1, e2, e3⟩ ht hq hin
  have ho' : o < 2 ^ 2 := ho
  have ha' : a < na := ha
  have hq' : ∀ c < nx * ny, t * sig c ≤ q c := hq
  obtain ⟨x1, x2, x3, x4, x5, x6⟩ := entry_facts 2 (by decide) (by decide) o ho' 0 (by decide)
  obtain ⟨y1, y2, y3, y4, y5, y6⟩ := entry_facts 2 (by decide) (by decide) o ho' 1 (by decide)
  have v0 : ∀ r < ny, 0 ≤ V 0 r := by
    intro r hr
    rw [(e1 r hr).1]
    exact hin _ x1 x3 _ 0 ((face2 nx ny _ _ 0 x1).2 ⟨by rw [if_pos (by omega)]; exact posn_lt hr, rfl⟩)
  have h0 : ∀ s < nx, 0 ≤ H s 0 := by
    intro s hs
    rw [(e2 s hs).1]
    exact hin _ y1 y3 _ 0 ((face2 nx ny _ _ 0 y1).2 ⟨by rw [if_neg (by omega)]; exact posn_lt hs, rfl⟩)
  have step : ∀ s < nx, ∀ r < ny, 0 ≤ V s r → 0 ≤ H s r →
      δ * t ≤ p (posn nx o 0 s + posn ny o 1 r * nx) ∧ δ * t ≤ V (s + 1) r ∧ δ * t ≤ H s (r + 1) := by
    intro s hs r hr hV hH
    have hi := posn_lt (o := o) (d := 0) hs
    have hj := posn_lt (o := o) (d := 1) hr
    have := k a ha' _ hi _ hj (q (posn nx o 0 s + posn ny o 1 r * nx)) (V s r, H s r) t hV hH ht (hq' _ (cell2_lt hi hj))
    have h3 := e3 s hs r hr
    dsimp only at h3
    rw [h3] at this
    exact this
  have dt := mul_nonneg hδ.le ht
  have nn : ∀ r ≤ ny, (∀ s < nx, 0 ≤ H s r) ∧ (r < ny → ∀ s ≤ nx, 0 ≤ V s r) := by
    have row : ∀ r < ny, (∀ s < nx, 0 ≤ H s r) → ∀ s ≤ nx, 0 ≤ V s r := by
      intro r hr hH s
      induction s with
      | zero => exact fun _ => v0 r hr
      | succ s ih => exact fun hs => dt.trans (step s (by omega) r hr (ih (by omega)) (hH s (by omega))).2.1
    intro r
    induction r with
    | zero => exact fun _ => ⟨h0, fun hr => row 0 hr h0⟩
    | succ r ih =>
      intro hr
      obtain ⟨i1, i2⟩ := ih (by omega)
      have hH : ∀ s < nx, 0 ≤ H s (r + 1) := fun s hs =>
        dt.trans (step s hs r (by omega) (i2 (by omega) s hs.le) (i1 s hs)).2.2
      exact ⟨hH, fun h => row (r + 1) h hH⟩
  have all : ∀ s < nx, ∀ r < ny, _ := fun s hs r hr => step s hs r hr ((nn r hr.le).2 hr s hs.le) ((nn r hr.le).1 s hs)
  refine ⟨fun c hc => ?_, fun side hs hl i j hi => ?_⟩
  · have hc : c < nx * ny := hc
    have hi : c % nx < nx := Nat.mod_lt _ hx0
    have hj : c / nx < ny := Nat.div_lt_of_lt_mul hc
    have := (all (posn nx o 0 (c % nx)) (posn_lt hi) (posn ny o 1 (c / nx)) (posn_lt hj)).1
    rw [posn_posn hi, posn_posn hj] at this
    have e : c % nx + c / nx * nx = c := by rw [mul_comm]; exact Nat.mod_add_div c nx
    rwa [e] at this
  · obtain ⟨hd, hx⟩ := leaves_exit 2 (by decide) (by decide) side o hs ho' hl
    have hs : side < 4 := hs
    obtain ⟨hi, _⟩ := (face2 nx ny side i j hs).1 hi
    change δ * t ≤ b side i
    by_cases h : side < 2
    · have hz : side / 2 = 0 := by omega
      rw [if_pos h] at hi
      have := (all (nx - 1) (by omega) (posn ny o 1 i) (posn_lt hi)).2.1
      rw [Nat.sub_add_cancel hx0, ← (e1 _ (posn_lt hi)).2, posn_posn hi] at this
      rwa [hx, hz]
    · have hz : side / 2 = 1 := by omega
      rw [if_neg h] at hi
      have := (all (posn nx o 0 i) (posn_lt hi) (ny - 1) (by omega)).2.2
      rw [Nat.sub_add_cancel hy0, ← (e2 _ (posn_lt hi)).2, posn_posn hi] at this
      rwa [hx, hz]

end geom

end Detran.WGReflect

namespace Detran.MGReflect

open Detran.Sweep (St)
open Detran.Boundary (Bd BC Loc Enters Mirror)
open Detran.WGReflect (Sweeps Solution InFace Sides Gain KeepsFlat Swept Leaving Incoming swept_sweep swept_le)
open Finset

variable {F K : Type} [Field K] [LinearOrder K] [IsStrictOrderedRing K]

/-- What C132 assumes: flat fluxes are kept, angular weights are not negative, sweeps are positive, and so is the coupling
    of the groups, with weights `u` against which it makes up at most the part `th < 1` of the total in every cell. -/
structure Damped (P : Prob F K) (w : Nat → K) (Sol : Nat → (Nat → K) → Nat → Nat → (Nat → F) → (Nat → K) → Prop)
    (sig : Nat → Nat → K) (u : Nat → K) (m th : K) : Prop where
  uniform : Uniform P w Sol sig m
  weight : ∀ g < P.M.x.mat.G, ∀ a < (P.W g).na, 0 ≤ w a
  couple : ∀ g < P.M.x.mat.G, ∀ gp < P.M.x.mat.G, ∀ c < P.M.x.N, 0 ≤ couple P.M g gp c
  upos : ∀ g < P.M.x.mat.G, 0 < u g
  row : ∀ g < P.M.x.mat.G, ∀ c < P.M.x.N,
    ∑ gp ∈ range P.M.x.mat.G, MGReflect.couple P.M g gp c * u gp ≤ th * (sig g c * u g)
  th0 : 0 ≤ th
  less : th < 1
  gain : ∀ g < P.M.x.mat.G, ∃ δ > 0, Gain (P.W g) (Sol g) (sig g) δ

variable {P : Prob F K} {w : Nat → K} {Sol : Nat → (Nat → K) → Nat → Nat → (Nat → F) → (Nat → K) → Prop}
  {sig : Nat → Nat → K} {u : Nat → K} {m th : K}

theorem Damped.mpos (hD : Damped P w Sol sig u m th) {g : Nat} (hg : g < P.M.x.mat.G) : 0 < m := by
  have h0 : 0 ≤ ∑ _o ∈ range (2 ^ (P.W g).dim), ∑ a ∈ range (P.W g).na, w a :=
    sum_nonneg fun _ _ => sum_nonneg fun a ha => hD.weight g hg a (mem_range.1 ha)
  by_contra hm
  have := mul_nonpos_of_nonpos_of_nonneg (not_lt.1 hm) h0
  rw [hD.uniform.norm g hg] at this
  linarith

theorem Damped.flat (ok : OK P w Sol) (hD : Damped P w Sol sig u m th) {g : Nat} (hg : g < P.M.x.mat.G) :
    KeepsFlat (P.W g) (Sol g) (sig g) := by
  intro v
  obtain ⟨b, h1, h2⟩ := hD.uniform.flat g hg v
  refine ⟨b, h1, fun q hq => h2 q fun c hc => hq c ?_⟩
  rw [ok.cells g]
  exact hc

/-- One gain for all groups, at most one. -/
theorem Damped.gains (hD : Damped P w Sol sig u m th) :
    ∃ δ, 0 < δ ∧ δ ≤ 1 ∧ ∀ g < P.M.x.mat.G, Gain (P.W g) (Sol g) (sig g) δ := by
  obtain ⟨δ, h0, h1⟩ := WGReflect.unify P.M.x.mat.G (fun g δ => Gain (P.W g) (Sol g) (sig g) δ)
    (fun _ _ _ h k => WGReflect.gain_mono h k) hD.gain
  exact ⟨min δ 1, lt_min h0 one_pos, min_le_right _ _, fun g hg => WGReflect.gain_mono (min_le_left _ _) (h1 g hg)⟩

/-- Fluxes and leaving boundary fluxes of a group exceed others by at most `E`, in units of `u`. -/
def Under (P : Prob F K) (u : Nat → K) (m E : K) (g : Nat) (f : Nat → K) (b : Bd F) (f' : Nat → K) (b' : Bd F) : Prop :=
  (∀ c < P.M.x.N, f c - f' c ≤ E * u g) ∧ Leaving (P.W g) b b' (E * (m * u g))

/-- A sweep of group `g` that leaves `f` and `b` with sources of at most those of `phi`. -/
def Lower (P : Prob F K) (w : Nat → K) (Sol : Nat → (Nat → K) → Nat → Nat → (Nat → F) → (Nat → K) → Prop) (m : K) (g : Nat)
    (phi : Nat → Nat → K) (f : Nat → K) (b0 b : Bd F) (psi : Nat → Nat → Nat → K) : Prop :=
  ∃ S : Nat → K, Swept (P.W g) (Sol g) (fun _ _ c => S c * m) b0 b psi ∧ (∀ c < P.M.x.N, S c ≤ P.M.source phi g c) ∧
    ∀ c < P.M.x.N, f c = ∑ o ∈ range (2 ^ (P.W g).dim), ∑ a ∈ range (P.W g).na, w a * psi o a c

/-- The same with sources of at least those of `phi`. -/
def Upper (P : Prob F K) (w : Nat → K) (Sol : Nat → (Nat → K) → Nat → Nat → (Nat → F) → (Nat → K) → Prop) (m : K) (g : Nat)
    (phi : Nat → Nat → K) (f : Nat → K) (b0 b : Bd F) (psi : Nat → Nat → Nat → K) : Prop :=
  ∃ S : Nat → K, Swept (P.W g) (Sol g) (fun _ _ c => S c * m) b0 b psi ∧ (∀ c < P.M.x.N, P.M.source phi g c ≤ S c) ∧
    ∀ c < P.M.x.N, f c = ∑ o ∈ range (2 ^ (P.W g).dim), ∑ a ∈ range (P.W g).na, w a * psi o a c

theorem step_under (ok : OK P w Sol) (hD : Damped P w Sol sig u m th) {δ : K} (hδ : 0 < δ) {g : Nat}
    (hg : g < P.M.x.mat.G) (hG : Gain (P.W g) (Sol g) (sig g) δ) {phi phi' : Nat → Nat → K} {f f' : Nat → K}
    {b0 b b0' b' : Bd F} {psi psi' : Nat → Nat → Nat → K} (h1 : Lower P w Sol m g phi f b0 b psi)
    (h2 : Upper P w Sol m g phi' f' b0' b' psi') {E : K} (hE : 0 ≤ E)
    (hphi : ∀ gp < P.M.x.mat.G, ∀ c < P.M.x.N, phi gp c - phi' gp c ≤ E * u gp)
    (h0 : Leaving (P.W g) b0 b0' (E * (m * u g))) (hin : Incoming (P.W g) b b') :
    Under P u m ((1 - δ * (1 - th)) * E) g f b f' b' ∧
    ∀ o < 2 ^ (P.W g).dim, ∀ a < (P.W g).na, ∀ c < P.M.x.N,
      psi o a c - psi' o a c ≤ (1 - δ * (1 - th)) * E * (m * u g) := by
  obtain ⟨S, s1, s2, s3⟩ := h1
  obtain ⟨S', s1', s2', s3'⟩ := h2
  have hm := hD.mpos hg
  have hu := hD.upos g hg
  have hv : 0 ≤ E * (m * u g) := by positivity
  have ht : 0 ≤ (1 - th) * (E * (m * u g)) := mul_nonneg (by linarith [hD.less]) hv
  have hN := ok.cells g
  obtain ⟨k1, k2⟩ := swept_le (ok.sw g hg) hG hδ.le (hD.flat ok hg) s1 s1' _ _ hv ht
    (fun o _ a _ c hc => by
      rw [hN] at hc
      have e1 : S c - S' c ≤ ∑ gp ∈ range P.M.x.mat.G, couple P.M g gp c * (E * u gp) := by
        have a1 := s2 c hc
        have a2 := s2' c hc
        rw [source_couple] at a1 a2
        have a3 : ∑ gp ∈ range P.M.x.mat.G, couple P.M g gp c * phi gp c -
            ∑ gp ∈ range P.M.x.mat.G, couple P.M g gp c * phi' gp c ≤
            ∑ gp ∈ range P.M.x.mat.G, couple P.M g gp c * (E * u gp) := by
          rw [← sum_sub_distrib]
          refine sum_le_sum fun gp hgp => ?_
          rw [← mul_sub]
          exact mul_le_mul_of_nonneg_left (hphi gp (mem_range.1 hgp) c hc) (hD.couple g hg gp (mem_range.1 hgp) c hc)
        linarith
      have e2 : ∑ gp ∈ range P.M.x.mat.G, couple P.M g gp c * (E * u gp) ≤ E * (th * (sig g c * u g)) := by
        have : ∑ gp ∈ range P.M.x.mat.G, couple P.M g gp c * (E * u gp) =
            E * ∑ gp ∈ range P.M.x.mat.G, couple P.M g gp c * u gp := by
          rw [mul_sum]
          exact sum_congr rfl fun _ _ => by ring
        rw [this]
        exact mul_le_mul_of_nonneg_left (hD.row g hg c hc) hE
      have e3 := mul_le_mul_of_nonneg_right (e1.trans e2) hm.le
      have e4 : (E * (m * u g) - (1 - th) * (E * (m * u g))) * sig g c = E * (th * (sig g c * u g)) * m := by ring
      rw [e4]
      linarith) h0 hin
  have ek : E * (m * u g) - δ * ((1 - th) * (E * (m * u g))) = (1 - δ * (1 - th)) * E * (m * u g) := by ring
  rw [ek] at k1 k2
  have k1' : ∀ o < 2 ^ (P.W g).dim, ∀ a < (P.W g).na, ∀ c < P.M.x.N,
      psi o a c - psi' o a c ≤ (1 - δ * (1 - th)) * E * (m * u g) :=
    fun o ho a ha c hc => k1 o ho a ha c (by rw [hN]; exact hc)
  refine ⟨⟨fun c hc => ?_, k2⟩, k1'⟩
  rw [s3 c hc, s3' c hc, ← sum_sub_distrib]
  calc ∑ o ∈ range (2 ^ (P.W g).dim), (∑ a ∈ range (P.W g).na, w a * psi o a c - ∑ a ∈ range (P.W g).na, w a * psi' o a c)
      ≤ ∑ o ∈ range (2 ^ (P.W g).dim), ∑ a ∈ range (P.W g).na, w a * ((1 - δ * (1 - th)) * E * (m * u g)) := by
        refine sum_le_sum fun o ho => ?_
        rw [← sum_sub_distrib]
        refine sum_le_sum fun a ha => ?_
        rw [← mul_sub]
        exact mul_le_mul_of_nonneg_left (k1' o (mem_range.1 ho) a (mem_range.1 ha) c hc) (hD.weight g hg a (mem_range.1 ha))
    _ = (1 - δ * (1 - th)) * E * u g * (m * ∑ _o ∈ range (2 ^ (P.W g).dim), ∑ a ∈ range (P.W g).na, w a) := by
        simp only [mul_sum]
        exact sum_congr rfl fun o _ => sum_congr rfl fun a _ => by ring
    _ = (1 - δ * (1 - th)) * E * u g := by rw [hD.uniform.norm g hg, mul_one]

/-! ## Least bounds -/

/-- The bounds that are not negative and satisfy `C` are those from some number on. -/
def HasLeast (C : K → Prop) : Prop := ∃ E, 0 ≤ E ∧ ∀ E', 0 ≤ E' → (C E' ↔ E ≤ E')

theorem least_one (x y : K) (hy : 0 < y) : HasLeast fun E => x ≤ E * y :=
  ⟨max 0 (x / y), le_max_left _ _, fun E' hE => by
    rw [max_le_iff, div_le_iff₀ hy]
    exact ⟨fun h => ⟨hE, h⟩, fun h => h.2⟩⟩

theorem least_imp (p : Prop) (C : K → Prop) (h : p → HasLeast C) : HasLeast fun E => p → C E := by
  by_cases hp : p
  · obtain ⟨E, h0, h1⟩ := h hp
    exact ⟨E, h0, fun E' hE => ⟨fun k => (h1 E' hE).1 (k hp), fun k _ => (h1 E' hE).2 k⟩⟩
  · exact ⟨0, le_refl _, fun E' hE => ⟨fun _ => hE, fun _ k => absurd k hp⟩⟩

theorem least_and (C D : K → Prop) (h : HasLeast C) (h' : HasLeast D) : HasLeast fun E => C E ∧ D E := by
  obtain ⟨E, h0, h1⟩ := h
  obtain ⟨E2, _, h1'⟩ := h'
  exact ⟨max E E2, le_max_of_le_left h0, fun E' hE => by
    rw [max_le_iff, ← h1 E' hE, ← h1' E' hE]⟩

theorem least_all (n : Nat) (C : Nat → K → Prop) (h : ∀ i < n, HasLeast (C i)) : HasLeast fun E => ∀ i < n, C i E := by
  induction n with
  | zero => exact ⟨0, le_refl _, fun E' hE => ⟨fun _ => hE, fun _ i hi => by omega⟩⟩
  | succ n ih =>
    obtain ⟨E, h0, h1⟩ := least_and _ _ (ih fun i hi => h i (by omega)) (h n (by omega))
    refine ⟨E, h0, fun E' hE => ?_⟩
    rw [← h1 E' hE]
    constructor
    · exact fun k => ⟨fun i hi => k i (by omega), k n (by omega)⟩
    · rintro ⟨k1, k2⟩ i hi
      rcases Nat.lt_succ_iff_lt_or_eq.1 hi with e | e
      · exact k1 i e
      · exact e ▸ k2

theorem least_under (hu : ∀ g < P.M.x.mat.G, 0 < u g) (hm : ∀ g < P.M.x.mat.G, 0 < m) (f f' : Nat → Nat → K)
    (b b' : Nat → Bd F) : HasLeast fun E => ∀ g < P.M.x.mat.G, Under P u m E g (f g) (b g) (f' g) (b' g) := by
  refine least_all _ _ fun g hg => least_and _ _ (least_all _ _ fun c _ => least_one _ _ (hu g hg)) ?_
  have key : HasLeast fun E => ∀ side < 2 * (P.W g).dim, (P.W g).bc side = .reflect → ∀ o < 2 ^ (P.W g).dim,
      ¬ Enters side o → ∀ a < (P.W g).na, ∀ i < Boundary.faceCells (P.W g).dim side (P.W g).n 0,
      ∀ j < Boundary.faceCells (P.W g).dim side (P.W g).n 1,
      (P.W g).get (b g side o a) i j - (P.W g).get (b' g side o a) i j ≤ E * (m * u g) :=
    least_all _ _ fun side _ => least_imp _ _ fun _ => least_all _ _ fun o _ => least_imp _ _ fun _ =>
      least_all _ _ fun a _ => least_all _ _ fun i _ => least_all _ _ fun j _ =>
        least_one _ _ (mul_pos (hm g hg) (hu g hg))
  obtain ⟨E, h0, h1⟩ := key
  refine ⟨E, h0, fun E' hE => ?_⟩
  rw [← h1 E' hE]
  exact ⟨fun k s hs hr o ho he a ha i hi j hj => k s hs hr o ho he a ha i j ⟨hi, hj⟩,
    fun k s hs hr o ho he a ha i j hi => k s hs hr o ho he a ha i hi.1 j hi.2⟩

/-! ## Fluxes with too little and with too much source -/

/-- Fluxes of all groups that satisfy the cell equations, with no more source than theirs and no more incoming. -/
structure Sub (P : Prob F K) (w : Nat → K) (Sol : Nat → (Nat → K) → Nat → Nat → (Nat → F) → (Nat → K) → Prop) (m : K)
    (f : Nat → Nat → K) (b : Nat → Bd F) (psi : Nat → Nat → Nat → Nat → K) : Prop where
  eqs : ∀ g < P.M.x.mat.G, Lower P w Sol m g f (f g) (b g) (b g) (psi g)
  sides : ∀ g < P.M.x.mat.G, ∀ bd, Sides (P.W g) bd → Incoming (P.W g) (b g) bd

/-- With no less source and no less incoming. -/
structure Super (P : Prob F K) (w : Nat → K) (Sol : Nat → (Nat → K) → Nat → Nat → (Nat → F) → (Nat → K) → Prop) (m : K)
    (f : Nat → Nat → K) (b : Nat → Bd F) (psi : Nat → Nat → Nat → Nat → K) : Prop where
  eqs : ∀ g < P.M.x.mat.G, Upper P w Sol m g f (f g) (b g) (b g) (psi g)
  sides : ∀ g < P.M.x.mat.G, ∀ bd, Sides (P.W g) bd → Incoming (P.W g) bd (b g)

theorem kappa (hD : Damped P w Sol sig u m th) {δ : K} (h0 : 0 < δ) (h1 : δ ≤ 1) :
    0 ≤ 1 - δ * (1 - th) ∧ 1 - δ * (1 - th) < 1 := by
  have := hD.th0
  have := hD.less
  constructor <;> nlinarith

/-- The first never exceed the second. -/
theorem sub_le_super (ok : OK P w Sol) (hD : Damped P w Sol sig u m th) {f f' : Nat → Nat → K} {b b' : Nat → Bd F}
    {psi psi' : Nat → Nat → Nat → Nat → K} (h1 : ∀ g < P.M.x.mat.G, Lower P w Sol m g f (f g) (b g) (b g) (psi g))
    (h2 : ∀ g < P.M.x.mat.G, Upper P w Sol m g f' (f' g) (b' g) (b' g) (psi' g))
    (hin : ∀ g < P.M.x.mat.G, Incoming (P.W g) (b g) (b' g)) : ∀ g < P.M.x.mat.G,
    Under P u m 0 g (f g) (b g) (f' g) (b' g) ∧ (∀ c < P.M.x.N, f g c ≤ f' g c) ∧
    ∀ o < 2 ^ (P.W g).dim, ∀ a < (P.W g).na, ∀ c < P.M.x.N, psi g o a c ≤ psi' g o a c := by
  obtain ⟨δ, hδ, hδ1, hG⟩ := hD.gains
  obtain ⟨k0, k1⟩ := kappa hD hδ hδ1
  obtain ⟨E, hE, hl⟩ := least_under (P := P) (u := u) (m := m) hD.upos (fun g hg => hD.mpos hg) f f' b b'
  have hU := (hl E hE).2 (le_refl _)
  have step : ∀ E, 0 ≤ E → (∀ g < P.M.x.mat.G, Under P u m E g (f g) (b g) (f' g) (b' g)) → ∀ g (hg : g < P.M.x.mat.G), _ :=
    fun E hE hU g hg => step_under ok hD hδ hg (hG g hg) (h1 g hg) (h2 g hg) hE (fun gp hgp => (hU gp hgp).1)
      (hU g hg).2 (hin g hg)
  have h0 : E = 0 := by
    have := (hl _ (mul_nonneg k0 hE)).1 fun g hg => (step E hE hU g hg).1
    nlinarith
  subst h0
  intro g hg
  have := step 0 (le_refl _) hU g hg
  rw [mul_zero, zero_mul] at this
  refine ⟨this.1, fun c hc => ?_, fun o ho a ha c hc => sub_nonpos.1 (this.2 o ho a ha c hc)⟩
  have := this.1.1 c hc
  rw [zero_mul] at this
  exact sub_nonpos.1 this

theorem sides_incoming (ok : OK P w Sol) {g : Nat} (hg : g < P.M.x.mat.G) {b bd : Bd F} (hb : Sides (P.W g) b)
    (hd : Sides (P.W g) bd) : Incoming (P.W g) b bd := by
  intro side hs hr o ho he a ha i j hi
  have := WGReflect.enter_zero (ok.sw g hg) (ok.np g hg) hb hd side hs hr o ho he a ha i j hi
  rw [WGReflect.get_errBd (ok.sw g hg) b bd side hs o a i j hi] at this
  exact (sub_eq_zero.1 this).le

/-- A solution satisfies the equations with its own source. -/
theorem solution_both (ok : OK P w Sol) (hU : Uniform P w Sol sig m) {phi : Nat → Nat → K} {g : Nat} (hg : g < P.M.x.mat.G)
    {bd : Bd F} {psi : Nat → Nat → Nat → K}
    (h : Solution (P.W g) w (Sol g) (P.src phi g) (phi g) (fun _ => 0) (fun _ => 0) bd psi) :
    Lower P w Sol m g phi (phi g) bd bd psi ∧ Upper P w Sol m g phi (phi g) bd bd psi ∧ Sides (P.W g) bd := by
  have hsw : Swept (P.W g) (Sol g) (fun _ _ c => P.M.source phi g c * m) bd bd psi := by
    refine ⟨fun o ho a ha => sol_congr (ok.sw g hg) ho (h.cells o ho a ha) fun c hc => ?_, ?_⟩
    · unfold Prob.src
      rw [hU.mtod g hg o ho a ha, hU.disc g hg, List.map_nil, List.sum_nil, add_zero]
    · intro side hs hr o ho he o' hm a ha i j hi
      have := sub_eq_zero.1 (h.reflect side hs hr o ho he o' hm a ha i j hi)
      exact ⟨fun _ => this, fun _ => this⟩
  have hf : ∀ c < P.M.x.N, phi g c = ∑ o ∈ range (2 ^ (P.W g).dim), ∑ a ∈ range (P.W g).na, w a * psi o a c := by
    intro c hc
    rw [← h.flux c (by rw [ok.cells g]; exact hc), add_zero]
  exact ⟨⟨_, hsw, fun _ _ => le_refl _, hf⟩, ⟨_, hsw, fun _ _ => le_refl _, hf⟩, ⟨h.vacuum, h.given⟩⟩

/-! ## Passes -/

theorem pass_both (ok : OK P w Sol) (hU : Uniform P w Sol sig m) (phi : Nat → Nat → K) {g : Nat} (hg : g < P.M.x.mat.G)
    (s : St F K) : ∃ psi,
    Lower P w Sol m g (MGSolve.put phi g s.phi) (siPass (P.siGroup phi g) true s).phi s.bdy
      (siPass (P.siGroup phi g) true s).bdy psi ∧
    Upper P w Sol m g (MGSolve.put phi g s.phi) (siPass (P.siGroup phi g) true s).phi s.bdy
      (siPass (P.siGroup phi g) true s).bdy psi := by
  have hN := ok.cells g
  let Q := P.siGroup phi g
  have hQ : Sweeps Q w (Sol g) := sweeps_si ok phi hg
  obtain ⟨p, hp, f⟩ := swept_sweep hQ (ok.np g hg) (Q.source Q.fixed (Q.scat (Q.moments s.phi))) s
  have hsw : Swept (P.W g) (Sol g) (fun _ _ c => P.M.source (MGSolve.put phi g s.phi) g c * m) s.bdy
      (siPass (P.siGroup phi g) true s).bdy p := by
    refine ⟨fun o ho a ha => sol_congr (ok.sw g hg) ho (hp.cells o ho a ha) fun i hi => ?_, hp.mirror⟩
    rw [hN] at hi
    rw [WGReflect.source_eq (P := Q) (hU.disc g hg)]
    change P.M.source _ g i * m = (P.M.fixedWithScatter phi g i + P.M.withinScatter g ((P.W g).moments s.phi) i) *
      (P.W g).mtod o a
    rw [hU.mtod g hg o ho a ha, MGSolve.fixed_plus_within P.M ok.src phi g hg _ i hi]
    congr 1
    refine source_point _ _ _ _ _ fun gp _ => ?_
    unfold MGSolve.put
    split
    · unfold WGReflect.Prob.moments
      rw [if_pos (by rw [hN]; exact hi)]
    · rfl
  have hf : ∀ c < P.M.x.N, (siPass (P.siGroup phi g) true s).phi c =
      ∑ o ∈ range (2 ^ (P.W g).dim), ∑ a ∈ range (P.W g).na, w a * p o a c :=
    fun c hc => f c (by rw [← hN] at hc; exact hc)
  exact ⟨p, ⟨_, hsw, fun _ _ => le_refl _, hf⟩, ⟨_, hsw, fun _ _ => le_refl _, hf⟩⟩

theorem under_mono (hD : Damped P w Sol sig u m th) {E E' : K} (h : E ≤ E') {g : Nat} (hg : g < P.M.x.mat.G)
    {f f' : Nat → K} {b b' : Bd F} (k : Under P u m E g f b f' b') : Under P u m E' g f b f' b' := by
  have hu := hD.upos g hg
  have hm := hD.mpos hg
  refine ⟨fun c hc => (k.1 c hc).trans (mul_le_mul_of_nonneg_right h hu.le), fun s hs hr o ho he a ha i j hi =>
    (k.2 s hs hr o ho he a ha i j hi).trans (mul_le_mul_of_nonneg_right h (mul_pos hm hu).le)⟩

theorem put_under {phi phi' : Nat → Nat → K} {g : Nat} {f f' : Nat → K} {E : K}
    (h : ∀ gp < P.M.x.mat.G, gp ≠ g → ∀ c < P.M.x.N, phi gp c - phi' gp c ≤ E * u gp)
    (hg : ∀ c < P.M.x.N, f c - f' c ≤ E * u g) :
    ∀ gp < P.M.x.mat.G, ∀ c < P.M.x.N, MGSolve.put phi g f gp c - MGSolve.put phi' g f' gp c ≤ E * u gp := by
  intro gp hgp c hc
  unfold MGSolve.put
  split
  · next e => rw [e]; exact hg c hc
  · next e => exact h gp hgp e c hc

theorem put_self (phi : Nat → Nat → K) (g : Nat) : MGSolve.put phi g (phi g) = phi := by
  funext gp
  unfold MGSolve.put
  split
  · next e => rw [e]
  · rfl

/-- Passes of source iteration from states in order. -/
theorem pass_pass (ok : OK P w Sol) (hD : Damped P w Sol sig u m th) (phi phi' : Nat → Nat → K) {g : Nat}
    (hg : g < P.M.x.mat.G) (s s' : St F K) (hs : Sides (P.W g) s.bdy) (hs' : Sides (P.W g) s'.bdy)
    (ho : ∀ gp < P.M.x.mat.G, gp ≠ g → ∀ c < P.M.x.N, phi gp c ≤ phi' gp c)
    (h : Under P u m 0 g s.phi s.bdy s'.phi s'.bdy) :
    Under P u m 0 g (siPass (P.siGroup phi g) true s).phi (siPass (P.siGroup phi g) true s).bdy
      (siPass (P.siGroup phi' g) true s').phi (siPass (P.siGroup phi' g) true s').bdy := by
  obtain ⟨δ, hδ, _, hG⟩ := hD.gains
  obtain ⟨p, l, _⟩ := pass_both ok hD.uniform phi hg s
  obtain ⟨p', _, r⟩ := pass_both ok hD.uniform phi' hg s'
  have := (step_under ok hD hδ hg (hG g hg) l r (le_refl 0)
    (put_under (fun gp hgp hne c hc => by rw [zero_mul]; exact sub_nonpos.2 (ho gp hgp hne c hc)) h.1) h.2
    (sides_incoming ok hg (sides_siPass ok phi hg s hs) (sides_siPass ok phi' hg s' hs'))).1
  rwa [mul_zero] at this

/-- What a group has and leaves is within `E` of something the passes settle on: `N E` contains what the passes need. -/
structure Pulls (P : Prob F K) (ka : K) (N : K → Nat → (Nat → K) → Bd F → Prop) : Prop where
  mono : ∀ E E', E ≤ E' → ∀ g < P.M.x.mat.G, ∀ f b, N E g f b → N E' g f b
  same : ∀ E, ∀ g < P.M.x.mat.G, ∀ f b b', (∀ side < 2 * (P.W g).dim, (P.W g).bc side = .reflect → ∀ o a, b side o a = b' side o a) →
    N E g f b → N E g f b'
  pass : ∀ E, 0 ≤ E → ∀ (phi : Nat → Nat → K) (B : Nat → Bd F), ∀ g < P.M.x.mat.G, ∀ s : St F K, Sides (P.W g) s.bdy →
    (∀ gp < P.M.x.mat.G, gp ≠ g → N E gp (phi gp) (B gp)) → N E g s.phi s.bdy →
    N (ka * E) g (siPass (P.siGroup phi g) true s).phi (siPass (P.siGroup phi g) true s).bdy

theorem pulls_super (ok : OK P w Sol) (hD : Damped P w Sol sig u m th) {δ : K} (hδ : 0 < δ)
    (hG : ∀ g < P.M.x.mat.G, Gain (P.W g) (Sol g) (sig g) δ) {f : Nat → Nat → K} {b : Nat → Bd F}
    {psi : Nat → Nat → Nat → Nat → K} (h : Super P w Sol m f b psi) :
    Pulls P (1 - δ * (1 - th)) fun E g x y => Under P u m E g x y (f g) (b g) where
  mono := fun _ _ h g hg _ _ k => under_mono hD h hg k
  same := fun E g hg x y y' e k => ⟨k.1, fun side hs hr o ho he a ha i j hi => by
    rw [← e side hs hr o a]
    exact k.2 side hs hr o ho he a ha i j hi⟩
  pass := by
    intro E hE phi B g hg s hs ho k
    obtain ⟨p, l, _⟩ := pass_both ok hD.uniform phi hg s
    refine (step_under ok hD hδ hg (hG g hg) l (h.eqs g hg) hE ?_ k.2
      (h.sides g hg _ (sides_siPass ok phi hg s hs))).1
    have := put_under (phi := phi) (phi' := f) (fun gp hgp hne => (ho gp hgp hne).1) k.1
    rwa [put_self] at this

theorem pulls_sub (ok : OK P w Sol) (hD : Damped P w Sol sig u m th) {δ : K} (hδ : 0 < δ)
    (hG : ∀ g < P.M.x.mat.G, Gain (P.W g) (Sol g) (sig g) δ) {f : Nat → Nat → K} {b : Nat → Bd F}
    {psi : Nat → Nat → Nat → Nat → K} (h : Sub P w Sol m f b psi) :
    Pulls P (1 - δ * (1 - th)) fun E g x y => Under P u m E g (f g) (b g) x y where
  mono := fun _ _ h g hg _ _ k => under_mono hD h hg k
  same := fun E g hg x y y' e k => ⟨k.1, fun side hs hr o ho he a ha i j hi => by
    rw [← e side hs hr o a]
    exact k.2 side hs hr o ho he a ha i j hi⟩
  pass := by
    intro E hE phi B g hg s hs ho k
    obtain ⟨p, _, l⟩ := pass_both ok hD.uniform phi hg s
    refine (step_under ok hD hδ hg (hG g hg) (h.eqs g hg) l hE ?_ k.2
      (h.sides g hg _ (sides_siPass ok phi hg s hs))).1
    have := put_under (phi := f) (phi' := phi) (fun gp hgp hne => (ho gp hgp hne).1) k.1
    rwa [put_self] at this

theorem pulls_and {ka : K} {N N' : K → Nat → (Nat → K) → Bd F → Prop} (h : Pulls P ka N) (h' : Pulls P ka N') :
    Pulls P ka fun E g x y => N E g x y ∧ N' E g x y where
  mono := fun E E' e g hg f b k => ⟨h.mono E E' e g hg f b k.1, h'.mono E E' e g hg f b k.2⟩
  same := fun E g hg f b b' e k => ⟨h.same E g hg f b b' e k.1, h'.same E g hg f b b' e k.2⟩
  pass := fun E hE phi B g hg s hs ho k =>
    ⟨h.pass E hE phi B g hg s hs (fun gp hgp hne => (ho gp hgp hne).1) k.1,
      h'.pass E hE phi B g hg s hs (fun gp hgp hne => (ho gp hgp hne).2) k.2⟩

theorem set_same (ok : OK P w Sol) {g : Nat} (hg : g < P.M.x.mat.G) (b : Bd F) :
    ∀ side < 2 * (P.W g).dim, (P.W g).bc side = .reflect → ∀ o a,
      b side o a = Boundary.set (P.W g).dim (P.W g).na (P.W g).bc b side o a := by
  intro side hs hr o a
  refine ((Boundary.C67_set (P.W g).dim (ok.sw g hg).d1 (ok.sw g hg).d3 (P.W g).na (P.W g).bc b).2 side o a ?_).symm
  rintro ⟨_, ⟨ps, h'⟩, _⟩
  rw [hr] at h'
  cases h'

/-- Any number of passes in a group. -/
theorem pulls_loop (ok : OK P w Sol) {ka : K} (k0 : 0 ≤ ka) (k1 : ka ≤ 1) {N : K → Nat → (Nat → K) → Bd F → Prop}
    (h : Pulls P ka N) {E : K} (hE : 0 ≤ E) (phi : Nat → Nat → K) (B : Nat → Bd F) {g : Nat} (hg : g < P.M.x.mat.G)
    (ho : ∀ gp < P.M.x.mat.G, gp ≠ g → N E gp (phi gp) (B gp)) (tolI : K) (n : Nat) (s : St F K)
    (hs : Sides (P.W g) s.bdy) (hN : N E g s.phi s.bdy) :
    N (ka * E) g (siLoop (P.siGroup phi g) true tolI (n + 1) s).phi
      (siLoop (P.siGroup phi g) true tolI (n + 1) s).bdy := by
  have down : ka * E ≤ E := by nlinarith
  induction n generalizing s with
  | zero =>
    have h1 := h.pass E hE phi B g hg s hs ho hN
    unfold siLoop
    dsimp only
    split <;> exact h1
  | succ n ih =>
    have h1 := h.pass E hE phi B g hg s hs ho hN
    rw [siLoop]
    split
    · exact h1
    · exact ih _ (sides_siPass ok phi hg s hs) (h.mono _ _ down g hg _ _ h1)

theorem pulls_solve (ok : OK P w Sol) {ka : K} (k0 : 0 ≤ ka) (k1 : ka ≤ 1) {N : K → Nat → (Nat → K) → Bd F → Prop}
    (h : Pulls P ka N) {E : K} (hE : 0 ≤ E) (tolI : K) (n : Nat) (hn : 0 < n) (R : Run F K) (hR : Ready P R) {g : Nat}
    (hg : g < P.M.x.mat.G) (hN : ∀ gp < P.M.x.mat.G, N E gp (R.phi gp) (R.S gp).bdy) :
    N (ka * E) g ((P.siSolve tolI n R g).phi g) ((P.siSolve tolI n R g).S g).bdy ∧
    ∀ gp, gp ≠ g → (P.siSolve tolI n R g).phi gp = R.phi gp ∧ (P.siSolve tolI n R g).S gp = R.S gp := by
  obtain ⟨n, rfl⟩ : ∃ k, n = k + 1 := ⟨n - 1, by omega⟩
  refine ⟨?_, fun gp hne => ⟨if_neg hne, if_neg hne⟩⟩
  unfold Prob.siSolve upd
  dsimp only
  rw [if_pos rfl, if_pos rfl, hR.1]
  exact pulls_loop ok k0 k1 h hE R.phi (fun g => (R.S g).bdy) hg (fun gp hgp _ => hN gp hgp) tolI n _
    (sides_reset ok hg _ (hR.2 g hg)) (h.same E g hg _ _ _ (set_same ok hg _) (hN g hg))

/-- A pass over groups. -/
theorem pulls_groups (ok : OK P w Sol) {ka : K} (k0 : 0 ≤ ka) (k1 : ka ≤ 1) {N : K → Nat → (Nat → K) → Bd F → Prop}
    (h : Pulls P ka N) {E : K} (hE : 0 ≤ E) (tolI : K) (n : Nat) (hn : 0 < n) (l : List Nat)
    (hl : ∀ g ∈ l, g < P.M.x.mat.G) (R : Run F K) (hR : Ready P R)
    (hN : ∀ gp < P.M.x.mat.G, N E gp (R.phi gp) (R.S gp).bdy) :
    (∀ g < P.M.x.mat.G, N E g ((P.gsPass tolI n l R).phi g) ((P.gsPass tolI n l R).S g).bdy) ∧
    ∀ g < P.M.x.mat.G, (g ∈ l ∨ N (ka * E) g (R.phi g) (R.S g).bdy) →
      N (ka * E) g ((P.gsPass tolI n l R).phi g) ((P.gsPass tolI n l R).S g).bdy := by
  have down : ka * E ≤ E := by nlinarith
  unfold Prob.gsPass
  induction l generalizing R with
  | nil => exact ⟨hN, fun g _ k => k.resolve_left (by simp)⟩
  | cons a l ih =>
    rw [List.foldl_cons]
    have ha := hl a (by simp)
    obtain ⟨s1, s2⟩ := pulls_solve ok k0 k1 h hE tolI n hn R hR ha hN
    obtain ⟨i1, i2⟩ := ih (fun g hg => hl g (by simp [hg])) _ (ready_si ok tolI n R hR ha) fun gp hgp => by
      by_cases e : gp = a
      · rw [e]; exact h.mono _ _ down a ha _ _ s1
      · rw [(s2 gp e).1, (s2 gp e).2]; exact hN gp hgp
    refine ⟨i1, fun g hg k => i2 g hg ?_⟩
    by_cases e : g = a
    · right; rw [e]; exact s1
    · rcases k with k | k
      · left
        rcases List.mem_cons.1 k with k | k
        · exact absurd k e
        · exact k
      · right
        rw [(s2 g e).1, (s2 g e).2]
        exact k

/-- Repeated passes over all groups. -/
theorem pulls_iterate (ok : OK P w Sol) {ka : K} (k0 : 0 ≤ ka) (k1 : ka ≤ 1) {N : K → Nat → (Nat → K) → Bd F → Prop}
    (h : Pulls P ka N) {E : K} (hE : 0 ≤ E) (tolI : K) (n : Nat) (hn : 0 < n) (l : List Nat)
    (hl : ∀ g, g ∈ l ↔ g < P.M.x.mat.G) (R : Run F K) (hR : Ready P R)
    (hN : ∀ gp < P.M.x.mat.G, N E gp (R.phi gp) (R.S gp).bdy) (k : Nat) :
    Ready P ((P.gsPass tolI n l)^[k] R) ∧ ∀ g < P.M.x.mat.G, N (ka ^ k * E) g (((P.gsPass tolI n l)^[k] R).phi g)
      (((P.gsPass tolI n l)^[k] R).S g).bdy := by
  induction k with
  | zero => exact ⟨hR, fun g hg => by rw [pow_zero, one_mul]; exact hN g hg⟩
  | succ k ih =>
    rw [Function.iterate_succ_apply']
    refine ⟨ready_pass ok tolI n l (fun g hg => (hl g).1 hg) _ ih.1, fun g hg => ?_⟩
    have := (pulls_groups ok k0 k1 h (mul_nonneg (pow_nonneg k0 k) hE) tolI n hn l (fun g hg => (hl g).1 hg) _ ih.1 ih.2).2 g
      hg (Or.inl ((hl g).2 hg))
    rwa [pow_succ', mul_assoc]

/-! ## Rising fluxes -/

/-- The state a group solve starts from, WGSolverSI.i.hh:30-36. -/
def Run.start (P : Prob F K) (R : Run F K) (g : Nat) : St F K :=
  ⟨Boundary.set (P.W g).dim (P.W g).na (P.W g).bc (R.S g).bdy, R.phi g, (R.S g).psi⟩

/-- A pass in any group would lower no flux. -/
def Rising (P : Prob F K) (u : Nat → K) (m : K) (R : Run F K) : Prop :=
  ∀ g < P.M.x.mat.G, Under P u m 0 g (R.phi g) (R.S g).bdy (siPass (P.siGroup R.phi g) true (R.start P g)).phi
    (siPass (P.siGroup R.phi g) true (R.start P g)).bdy

theorem under_refl (g : Nat) (f : Nat → K) (b : Bd F) : Under P u m 0 g f b f b :=
  ⟨fun c _ => by rw [sub_self, zero_mul], fun s _ _ o _ _ a _ i j _ => by rw [sub_self, zero_mul]⟩

theorem under_trans {g : Nat} {f f' f'' : Nat → K} {b b' b'' : Bd F} (h : Under P u m 0 g f b f' b')
    (h' : Under P u m 0 g f' b' f'' b'') : Under P u m 0 g f b f'' b'' := by
  refine ⟨fun c hc => ?_, fun s hs hr o ho he a ha i j hi => ?_⟩
  · have := h.1 c hc
    have := h'.1 c hc
    linarith
  · have := h.2 s hs hr o ho he a ha i j hi
    have := h'.2 s hs hr o ho he a ha i j hi
    linarith

theorem rise_loop (ok : OK P w Sol) (hD : Damped P w Sol sig u m th) (phi : Nat → Nat → K) {g : Nat}
    (hg : g < P.M.x.mat.G) (tolI : K) (n : Nat) (s : St F K) (hs : Sides (P.W g) s.bdy)
    (h : Under P u m 0 g s.phi s.bdy (siPass (P.siGroup phi g) true s).phi (siPass (P.siGroup phi g) true s).bdy) :
    let e := siLoop (P.siGroup phi g) true tolI n s
    Under P u m 0 g s.phi s.bdy e.phi e.bdy ∧ Sides (P.W g) e.bdy ∧
    Under P u m 0 g e.phi e.bdy (siPass (P.siGroup phi g) true e).phi (siPass (P.siGroup phi g) true e).bdy := by
  induction n generalizing s with
  | zero => exact ⟨under_refl g _ _, hs, h⟩
  | succ n ih =>
    have hs' := sides_siPass ok phi hg s hs
    have h2 := pass_pass ok hD phi phi hg s _ hs hs' (fun _ _ _ _ _ => le_refl _) h
    dsimp only
    rw [siLoop]
    split
    · exact ⟨h, hs', h2⟩
    · obtain ⟨i1, i2, i3⟩ := ih _ hs' h2
      exact ⟨under_trans h i1, i2, i3⟩

theorem rise_solve (ok : OK P w Sol) (hD : Damped P w Sol sig u m th) (tolI : K) (n : Nat) (R : Run F K) (hR : Ready P R)
    (h : Rising P u m R) {g : Nat} (hg : g < P.M.x.mat.G) :
    (∀ gp < P.M.x.mat.G, Under P u m 0 gp (R.phi gp) (R.S gp).bdy ((P.siSolve tolI n R g).phi gp)
      ((P.siSolve tolI n R g).S gp).bdy) ∧ Rising P u m (P.siSolve tolI n R g) := by
  set e := siLoop (P.siGroup R.phi g) true tolI n (R.start P g) with he
  have hphi : (P.siSolve tolI n R g).phi = upd R.phi g e.phi := by
    unfold Prob.siSolve
    rw [hR.1]
    rfl
  have hS : (P.siSolve tolI n R g).S = upd R.S g e := by
    unfold Prob.siSolve
    rw [hR.1]
    rfl
  have same : ∀ gp (hgp : gp < P.M.x.mat.G) (b : Bd F) f f' b', Under P u m 0 gp f b f' b' →
      Under P u m 0 gp f (Boundary.set (P.W gp).dim (P.W gp).na (P.W gp).bc b) f' b' := fun gp hgp b f f' b' k =>
    ⟨k.1, fun side hs hr o ho hl a ha i j hi => by
      rw [← set_same ok hgp b side hs hr o a]
      exact k.2 side hs hr o ho hl a ha i j hi⟩
  have same' : ∀ gp (hgp : gp < P.M.x.mat.G) (b : Bd F) f f' b', Under P u m 0 gp f b' f' b →
      Under P u m 0 gp f b' f' (Boundary.set (P.W gp).dim (P.W gp).na (P.W gp).bc b) := fun gp hgp b f f' b' k =>
    ⟨k.1, fun side hs hr o ho hl a ha i j hi => by
      rw [← set_same ok hgp b side hs hr o a]
      exact k.2 side hs hr o ho hl a ha i j hi⟩
  obtain ⟨r1, r2, r3⟩ := rise_loop ok hD R.phi hg tolI n (R.start P g) (sides_reset ok hg _ (hR.2 g hg))
    (same g hg _ _ _ _ (h g hg))
  rw [← he] at r1 r2 r3
  have up : ∀ gp < P.M.x.mat.G, Under P u m 0 gp (R.phi gp) (R.S gp).bdy ((P.siSolve tolI n R g).phi gp)
      ((P.siSolve tolI n R g).S gp).bdy := by
    intro gp hgp
    rw [hphi, hS]
    unfold upd
    split
    · next e' =>
      subst e'
      refine ⟨r1.1, fun side hs hr o ho hl a ha i j hi => ?_⟩
      rw [set_same ok hgp (R.S gp).bdy side hs hr o a]
      exact r1.2 side hs hr o ho hl a ha i j hi
    · exact under_refl gp _ _
  refine ⟨up, fun gp hgp => ?_⟩
  have hR' := ready_si ok tolI n R hR hg
  have hle : ∀ gq < P.M.x.mat.G, gq ≠ gp → ∀ c < P.M.x.N, R.phi gq c ≤ (P.siSolve tolI n R g).phi gq c := by
    intro gq hgq _ c hc
    have := (up gq hgq).1 c hc
    rw [zero_mul] at this
    exact sub_nonpos.1 this
  by_cases e' : gp = g
  · subst e'
    have a1 : (P.siSolve tolI n R gp).phi gp = e.phi := by rw [hphi]; exact if_pos rfl
    have a2 : (P.siSolve tolI n R gp).S gp = e := by rw [hS]; exact if_pos rfl
    rw [a1, a2]
    refine under_trans r3 ?_
    refine pass_pass ok hD R.phi _ hgp e _ r2 (sides_reset ok hgp _ (hR'.2 gp hgp)) hle ?_
    unfold Run.start
    rw [a1, a2]
    exact same' gp hgp _ _ _ _ (under_refl gp _ _)
  · have a1 : (P.siSolve tolI n R g).phi gp = R.phi gp := by rw [hphi]; exact if_neg e'
    have a2 : (P.siSolve tolI n R g).S gp = R.S gp := by rw [hS]; exact if_neg e'
    rw [a1, a2]
    refine under_trans (h gp hgp) ?_
    have a3 : (P.siSolve tolI n R g).start P gp = R.start P gp := by
      unfold Run.start
      rw [a1, a2]
    rw [a3]
    exact pass_pass ok hD R.phi _ hgp _ _ (sides_reset ok hgp _ (hR.2 gp hgp)) (sides_reset ok hgp _ (hR.2 gp hgp)) hle
      (under_refl gp _ _)

theorem rise_pass (ok : OK P w Sol) (hD : Damped P w Sol sig u m th) (tolI : K) (n : Nat) (l : List Nat)
    (hl : ∀ g ∈ l, g < P.M.x.mat.G) (R : Run F K) (hR : Ready P R) (h : Rising P u m R) :
    (∀ g < P.M.x.mat.G, Under P u m 0 g (R.phi g) (R.S g).bdy ((P.gsPass tolI n l R).phi g)
      ((P.gsPass tolI n l R).S g).bdy) ∧ Rising P u m (P.gsPass tolI n l R) := by
  unfold Prob.gsPass
  induction l generalizing R with
  | nil => exact ⟨fun g _ => under_refl g _ _, h⟩
  | cons a l ih =>
    rw [List.foldl_cons]
    have ha := hl a (by simp)
    obtain ⟨s1, s2⟩ := rise_solve ok hD tolI n R hR h ha
    obtain ⟨i1, i2⟩ := ih (fun g hg => hl g (by simp [hg])) _ (ready_si ok tolI n R hR ha) s2
    exact ⟨fun g hg => under_trans (s1 g hg) (i1 g hg), i2⟩

theorem rise_iterate (ok : OK P w Sol) (hD : Damped P w Sol sig u m th) (tolI : K) (n : Nat) (l : List Nat)
    (hl : ∀ g ∈ l, g < P.M.x.mat.G) (R : Run F K) (hR : Ready P R) (h : Rising P u m R) (k : Nat) :
    Ready P ((P.gsPass tolI n l)^[k] R) ∧ Rising P u m ((P.gsPass tolI n l)^[k] R) := by
  induction k with
  | zero => exact ⟨hR, h⟩
  | succ k ih =>
    rw [Function.iterate_succ_apply']
    exact ⟨ready_pass ok tolI n l hl _ ih.1, (rise_pass ok hD tolI n l hl _ ih.1 ih.2).2⟩

end Detran.MGReflect
