import Verif.Lemmas.SIConv
import Verif.Props.WGReflect

/-!
# What one pass of source iteration does to the error (used for C128)
-/

namespace Detran.WGReflect

open Detran.Sweep (St)
open Detran.Boundary (Bd BC Loc Enters Mirror faceCells)
open Finset

/-! ## Mirror octants -/

/-- The octant that mirrors `o` at `side`. -/
def mir (dim side o : Nat) : Nat := ((List.range (2 ^ dim)).find? fun o' => decide (Mirror dim side o o')).getD 0

theorem mir_facts (dim : Nat) (h1 : 1 ≤ dim) (h3 : dim ≤ 3) (side : Nat) (hs : side < 2 * dim) (o : Nat)
    (ho : o < 2 ^ dim) : mir dim side o < 2 ^ dim ∧ Mirror dim side o (mir dim side o) ∧
      mir dim side (mir dim side o) = o ∧ (Enters side (mir dim side o) ↔ ¬ Enters side o) := by
  have k : ∀ o < 2 ^ dim, mir dim side o < 2 ^ dim ∧ Mirror dim side o (mir dim side o) ∧
      mir dim side (mir dim side o) = o ∧ (Enters side (mir dim side o) ↔ ¬ Enters side o) := by
    interval_cases dim <;> interval_cases side <;> decide +kernel
  exact k o ho

theorem mirror_unique (dim : Nat) (h1 : 1 ≤ dim) (h3 : dim ≤ 3) (side : Nat) (hs : side < 2 * dim) (o : Nat)
    (ho : o < 2 ^ dim) (o' o'' : Nat) (h' : Mirror dim side o o') (h'' : Mirror dim side o o'') : o' = o'' := by
  have k : ∀ o < 2 ^ dim, ∀ o' < 2 ^ dim, ∀ o'' < 2 ^ dim, Mirror dim side o o' → Mirror dim side o o'' → o' = o'' := by
    interval_cases dim <;> interval_cases side <;> decide +kernel
  exact k o ho o' h'.1 o'' h''.1 h' h''

section field
variable {F K : Type} [Field K]

/-- A sum over the directions that leave through a side, as one over the directions that enter there. -/
theorem sum_mirror (dim : Nat) (h1 : 1 ≤ dim) (h3 : dim ≤ 3) (side : Nat) (hs : side < 2 * dim) (f : Nat → K) :
    ∑ o ∈ range (2 ^ dim), (if Enters side o then 0 else f o) =
      ∑ o ∈ range (2 ^ dim), (if Enters side o then f (mir dim side o) else 0) := by
  refine sum_nbij' (mir dim side) (mir dim side) ?_ ?_ ?_ ?_ ?_
  · intro o ho; exact mem_range.2 (mir_facts dim h1 h3 side hs o (mem_range.1 ho)).1
  · intro o ho; exact mem_range.2 (mir_facts dim h1 h3 side hs o (mem_range.1 ho)).1
  · intro o ho; exact (mir_facts dim h1 h3 side hs o (mem_range.1 ho)).2.2.1
  · intro o ho; exact (mir_facts dim h1 h3 side hs o (mem_range.1 ho)).2.2.1
  · intro o ho
    obtain ⟨_, _, k3, k4⟩ := mir_facts dim h1 h3 side hs o (mem_range.1 ho)
    by_cases he : Enters side o
    · rw [if_pos he, if_neg (fun h' => (k4.1 h') he)]
    · rw [if_neg he, if_pos (k4.2 he), k3]

/-- Weighted product over a face. -/
def faceDot (P : Prob F K) (fw : Nat → Nat → Nat → Nat → K) (side a : Nat) (f g : F) : K :=
  ∑ i ∈ range (faceCells P.dim side P.n 0), ∑ j ∈ range (faceCells P.dim side P.n 1),
    fw side a i j * (P.get f i j * P.get g i j)

/-- Sum over the leaving faces of all directions. -/
def outDot (P : Prob F K) (w : Nat → K) (fw : Nat → Nat → Nat → Nat → K) (b b' : Bd F) : K :=
  ∑ o ∈ range (2 ^ P.dim), ∑ a ∈ range P.na, w a *
    ∑ s ∈ range (2 * P.dim), (if Enters s o then 0 else faceDot P fw s a (b s o a) (b' s o a))

/-- Sum over the entering faces of all directions. -/
def inDot (P : Prob F K) (w : Nat → K) (fw : Nat → Nat → Nat → Nat → K) (b b' : Bd F) : K :=
  ∑ o ∈ range (2 ^ P.dim), ∑ a ∈ range P.na, w a *
    ∑ s ∈ range (2 * P.dim), (if Enters s o then faceDot P fw s a (b s o a) (b' s o a) else 0)

/-- Sum over given faces of the entering directions. -/
def pickSum (P : Prob F K) (w : Nat → K) (f : Nat → Nat → Nat → K) : K :=
  ∑ o ∈ range (2 ^ P.dim), ∑ a ∈ range P.na, w a * ∑ s ∈ range (2 * P.dim), (if Enters s o then f s o a else 0)

theorem outDot_mirror {P : Prob F K} {w : Nat → K} (h1 : 1 ≤ P.dim) (h3 : P.dim ≤ 3) (fw) (b b' : Bd F) :
    outDot P w fw b b' = pickSum P w fun s o a =>
      faceDot P fw s a (b s (mir P.dim s o) a) (b' s (mir P.dim s o) a) := by
  unfold outDot pickSum
  rw [sum_comm, sum_comm (s := range (2 ^ P.dim))]
  refine sum_congr rfl fun a _ => ?_
  rw [← mul_sum, ← mul_sum, sum_comm, sum_comm (s := range (2 ^ P.dim))]
  congr 1
  refine sum_congr rfl fun s hs => ?_
  exact sum_mirror P.dim h1 h3 s (mem_range.1 hs) fun o => faceDot P fw s a (b s o a) (b' s o a)

theorem faceDot_congr {P : Prob F K} {fw} {side a : Nat} {f g f' g' : F}
    (h : ∀ i j, InFace P side i j → P.get f i j = P.get f' i j)
    (h' : ∀ i j, InFace P side i j → P.get g i j = P.get g' i j) :
    faceDot P fw side a f g = faceDot P fw side a f' g' := by
  unfold faceDot
  refine sum_congr rfl fun i hi => sum_congr rfl fun j hj => ?_
  rw [h i j ⟨mem_range.1 hi, mem_range.1 hj⟩, h' i j ⟨mem_range.1 hi, mem_range.1 hj⟩]

theorem faceDot_zero {P : Prob F K} {fw} {side a : Nat} {f g : F}
    (h : ∀ i j, InFace P side i j → P.get f i j = 0) : faceDot P fw side a f g = 0 := by
  unfold faceDot
  refine sum_eq_zero fun i hi => sum_eq_zero fun j hj => ?_
  rw [h i j ⟨mem_range.1 hi, mem_range.1 hj⟩]
  ring

theorem faceDot_zero' {P : Prob F K} {fw} {side a : Nat} {f g : F}
    (h : ∀ i j, InFace P side i j → P.get g i j = 0) : faceDot P fw side a f g = 0 := by
  unfold faceDot
  refine sum_eq_zero fun i hi => sum_eq_zero fun j hj => ?_
  rw [h i j ⟨mem_range.1 hi, mem_range.1 hj⟩]
  ring

theorem faceDot_comb {P : Prob F K} {w Sol} (h : Sweeps P w Sol) {fw} {side : Nat} (hs : side < 2 * P.dim) (a : Nat)
    (t : K) (f g k : F) (hk : ∀ i j, InFace P side i j → P.get k i j = t * P.get f i j + P.get g i j) :
    faceDot P fw side a k k = t ^ 2 * faceDot P fw side a f f + 2 * t * faceDot P fw side a f g +
      faceDot P fw side a g g := by
  have _ := h
  unfold faceDot
  rw [mul_sum, mul_sum, ← sum_add_distrib, ← sum_add_distrib]
  refine sum_congr rfl fun i hi => ?_
  rw [mul_sum, mul_sum, ← sum_add_distrib, ← sum_add_distrib]
  refine sum_congr rfl fun j hj => ?_
  rw [hk i j ⟨mem_range.1 hi, mem_range.1 hj⟩]
  ring

theorem pickSum_congr {P : Prob F K} {w} {f g : Nat → Nat → Nat → K}
    (h : ∀ s < 2 * P.dim, ∀ o < 2 ^ P.dim, Enters s o → ∀ a < P.na, f s o a = g s o a) :
    pickSum P w f = pickSum P w g := by
  unfold pickSum
  refine sum_congr rfl fun o ho => sum_congr rfl fun a ha => ?_
  congr 1
  refine sum_congr rfl fun s hs => ?_
  split
  · next he => exact h s (mem_range.1 hs) o (mem_range.1 ho) he a (mem_range.1 ha)
  · rfl

theorem pickSum_add {P : Prob F K} {w} (f g : Nat → Nat → Nat → K) :
    pickSum P w (fun s o a => f s o a + g s o a) = pickSum P w f + pickSum P w g := by
  unfold pickSum
  rw [← sum_add_distrib]
  refine sum_congr rfl fun o _ => ?_
  rw [← sum_add_distrib]
  refine sum_congr rfl fun a _ => ?_
  rw [← mul_add, ← sum_add_distrib]
  congr 1
  refine sum_congr rfl fun s _ => ?_
  split <;> simp

theorem inDot_eq (P : Prob F K) (w fw) (b b' : Bd F) :
    inDot P w fw b b' = pickSum P w fun s o a => faceDot P fw s a (b s o a) (b' s o a) := rfl

end field

/-! ## Energy of all directions -/

variable {F K : Type} [Field K] [LinearOrder K] [IsStrictOrderedRing K]

/-- What C128 assumes of a group: positive angular weights, isotropic normalised moments, positive volumes and
    total cross sections `sig`, within-group scattering `ss` at most `r < 1` times the total, no discrete
    sources and no periodic sides. -/
structure Subcritical (P : Prob F K) (w V sig ss : Nat → K) (m r : K) : Prop where
  weight : ∀ a < P.na, 0 < w a
  mtod : ∀ o < 2 ^ P.dim, ∀ a < P.na, P.mtod o a = m
  norm : m * ∑ _o ∈ range (2 ^ P.dim), ∑ a ∈ range P.na, w a = 1
  vol : ∀ c < P.N, 0 < V c
  tot : ∀ c < P.N, 0 < sig c
  scat : ∀ f, ∀ c < P.N, P.scat f c = ss c * f c
  ratio : ∀ c < P.N, |ss c| ≤ r * sig c
  nonneg : 0 ≤ r
  less : r < 1
  disc : P.disc = []
  np : ∀ s < 2 * P.dim, P.bc s ≠ .periodic

/-- Squared error weighted with volumes and total cross sections. -/
def errSum (P : Prob F K) (V sig f g : Nat → K) : K := ∑ c ∈ range P.N, V c * sig c * (f c - g c) ^ 2

variable {P : Prob F K} {w V sig ss : Nat → K} {m r : K} {fw : Nat → Nat → Nat → Nat → K}
  {Sol : (Nat → K) → Nat → Nat → (Nat → F) → (Nat → K) → Prop}

theorem Subcritical.mpos (hS : Subcritical P w V sig ss m r) : 0 < m := by
  have h0 : 0 ≤ ∑ _o ∈ range (2 ^ P.dim), ∑ a ∈ range P.na, w a :=
    sum_nonneg fun _ _ => sum_nonneg fun a ha => (hS.weight a (mem_range.1 ha)).le
  by_contra hm
  have := mul_nonpos_of_nonpos_of_nonneg (not_lt.1 hm) h0
  rw [hS.norm] at this
  linarith

theorem faceSum_eq (side a : Nat) (f : F) : faceSum P fw side a f = faceDot P fw side a f f := by
  unfold faceSum faceDot
  exact sum_congr rfl fun i _ => sum_congr rfl fun j _ => by ring

theorem faceDot_nonneg (D : Dissipates P Sol V sig fw) {side : Nat} (hs : side < 2 * P.dim) {a : Nat} (ha : a < P.na)
    (f : F) : 0 ≤ faceDot P fw side a f f :=
  sum_nonneg fun i hi => sum_nonneg fun j hj =>
    mul_nonneg (D.pos side hs a ha i j ⟨mem_range.1 hi, mem_range.1 hj⟩).le (mul_self_nonneg _)

theorem faceDot_pos (D : Dissipates P Sol V sig fw) {side : Nat} (hs : side < 2 * P.dim) {a : Nat} (ha : a < P.na)
    (f : F) (h : faceDot P fw side a f f = 0) : ∀ i j, InFace P side i j → P.get f i j = 0 := by
  intro i j hi
  unfold faceDot at h
  rw [sum_eq_zero_iff_of_nonneg (fun i hi => sum_nonneg fun j hj =>
    mul_nonneg (D.pos side hs a ha i j ⟨mem_range.1 hi, mem_range.1 hj⟩).le (mul_self_nonneg _))] at h
  have h2 := h i (mem_range.2 hi.1)
  rw [sum_eq_zero_iff_of_nonneg (fun j hj =>
    mul_nonneg (D.pos side hs a ha i j ⟨hi.1, mem_range.1 hj⟩).le (mul_self_nonneg _))] at h2
  have h3 := h2 j (mem_range.2 hi.2)
  rcases mul_eq_zero.1 h3 with h4 | h4
  · exact absurd h4 (D.pos side hs a ha i j hi).ne'
  · exact mul_self_eq_zero.1 h4

theorem pickSum_mono (hw : ∀ a < P.na, 0 < w a) {f g : Nat → Nat → Nat → K}
    (h : ∀ s < 2 * P.dim, ∀ o < 2 ^ P.dim, Enters s o → ∀ a < P.na, f s o a ≤ g s o a) :
    pickSum P w f ≤ pickSum P w g := by
  unfold pickSum
  refine sum_le_sum fun o ho => sum_le_sum fun a ha => ?_
  refine mul_le_mul_of_nonneg_left (sum_le_sum fun s hs => ?_) (hw a (mem_range.1 ha)).le
  split
  · next he => exact h s (mem_range.1 hs) o (mem_range.1 ho) he a (mem_range.1 ha)
  · exact le_refl _

theorem pickSum_nonneg (hw : ∀ a < P.na, 0 < w a) {f : Nat → Nat → Nat → K}
    (h : ∀ s < 2 * P.dim, ∀ o < 2 ^ P.dim, Enters s o → ∀ a < P.na, 0 ≤ f s o a) : 0 ≤ pickSum P w f := by
  have := pickSum_mono (P := P) (w := w) hw (f := fun _ _ _ => 0) (g := f) h
  have e : pickSum P w (fun _ _ _ => 0) = 0 := by
    unfold pickSum
    refine sum_eq_zero fun o _ => sum_eq_zero fun a _ => ?_
    simp
  rwa [e] at this

theorem pickSum_zero (hw : ∀ a < P.na, 0 < w a) {f : Nat → Nat → Nat → K}
    (h : ∀ s < 2 * P.dim, ∀ o < 2 ^ P.dim, Enters s o → ∀ a < P.na, 0 ≤ f s o a) (h0 : pickSum P w f ≤ 0) :
    ∀ s < 2 * P.dim, ∀ o < 2 ^ P.dim, Enters s o → ∀ a < P.na, f s o a = 0 := by
  have hin : ∀ o ∈ range (2 ^ P.dim), ∀ a ∈ range P.na, ∀ s ∈ range (2 * P.dim),
      0 ≤ (if Enters s o then f s o a else 0) := by
    intro o ho a ha s hs
    split
    · next he => exact h s (mem_range.1 hs) o (mem_range.1 ho) he a (mem_range.1 ha)
    · exact le_refl _
  have hin2 : ∀ o ∈ range (2 ^ P.dim), ∀ a ∈ range P.na,
      0 ≤ w a * ∑ s ∈ range (2 * P.dim), (if Enters s o then f s o a else 0) := fun o ho a ha =>
    mul_nonneg (hw a (mem_range.1 ha)).le (sum_nonneg (hin o ho a ha))
  have h0 : pickSum P w f = 0 := le_antisymm h0 (pickSum_nonneg hw h)
  unfold pickSum at h0
  rw [sum_eq_zero_iff_of_nonneg (fun o ho => sum_nonneg (hin2 o ho))] at h0
  intro s hs o ho he a ha
  have h1 := h0 o (mem_range.2 ho)
  rw [sum_eq_zero_iff_of_nonneg (hin2 o (mem_range.2 ho))] at h1
  have h2 := h1 a (mem_range.2 ha)
  rcases mul_eq_zero.1 h2 with h3 | h3
  · exact absurd h3 (hw a ha).ne'
  · rw [sum_eq_zero_iff_of_nonneg (hin o (mem_range.2 ho) a (mem_range.2 ha))] at h3
    have := h3 s (mem_range.2 hs)
    rwa [if_pos he] at this

/-- The energy inequality summed over directions, with any sources. -/
theorem total_energy (D : Dissipates P Sol V sig fw) (hw : ∀ a < P.na, 0 < w a) (q : Nat → Nat → Nat → K)
    (b : Bd F) (p : Nat → Nat → Nat → K)
    (hc : ∀ o < 2 ^ P.dim, ∀ a < P.na, Sol (q o a) o a (fun f => b f o a) (p o a)) :
    outDot P w fw b b + ∑ o ∈ range (2 ^ P.dim), ∑ a ∈ range P.na, w a * ∑ c ∈ range P.N, V c * sig c * p o a c ^ 2 ≤
    inDot P w fw b b + ∑ o ∈ range (2 ^ P.dim), ∑ a ∈ range P.na, w a * ∑ c ∈ range P.N, V c * q o a c * p o a c := by
  unfold outDot inDot
  rw [← sum_add_distrib, ← sum_add_distrib]
  refine sum_le_sum fun o ho => ?_
  rw [← sum_add_distrib, ← sum_add_distrib]
  refine sum_le_sum fun a ha => ?_
  rw [← mul_add, ← mul_add]
  refine mul_le_mul_of_nonneg_left ?_ (hw a (mem_range.1 ha)).le
  have := D.energy _ o a _ _ (mem_range.1 ho) (mem_range.1 ha) (hc o (mem_range.1 ho) a (mem_range.1 ha))
  simp only [faceSum_eq] at this
  exact this

omit [LinearOrder K] [IsStrictOrderedRing K] in
theorem swap_sums (P : Prob F K) (w : Nat → K) (g : Nat → Nat → Nat → K) :
    ∑ o ∈ range (2 ^ P.dim), ∑ a ∈ range P.na, w a * ∑ c ∈ range P.N, g o a c =
      ∑ c ∈ range P.N, ∑ o ∈ range (2 ^ P.dim), ∑ a ∈ range P.na, w a * g o a c := by
  rw [sum_comm]
  simp only [mul_sum]
  rw [sum_comm]
  rw [sum_comm (s := range P.N)]
  refine sum_congr rfl fun o _ => ?_
  rw [sum_comm]

/-- Isotropic sources `m t` and scalar flux `e'`. -/
theorem flux_energy (hw : ∀ a < P.na, 0 < w a) (hn : m * ∑ _o ∈ range (2 ^ P.dim), ∑ a ∈ range P.na, w a = 1)
    (hV : ∀ c < P.N, 0 < V c) (hT : ∀ c < P.N, 0 < sig c) (D : Dissipates P Sol V sig fw) (t e' : Nat → K)
    (b : Bd F) (p : Nat → Nat → Nat → K)
    (hc : ∀ o < 2 ^ P.dim, ∀ a < P.na, Sol (fun c => t c * m) o a (fun f => b f o a) (p o a))
    (he : ∀ c < P.N, e' c = ∑ o ∈ range (2 ^ P.dim), ∑ a ∈ range P.na, w a * p o a c) :
    outDot P w fw b b + m * ∑ c ∈ range P.N, V c * sig c * e' c ^ 2 ≤
      inDot P w fw b b + m * ∑ c ∈ range P.N, V c * t c * e' c := by
  have h1 := total_energy D hw _ b p hc
  have h2 : ∑ o ∈ range (2 ^ P.dim), ∑ a ∈ range P.na, w a *
      ∑ c ∈ range P.N, V c * (t c * m) * p o a c = m * ∑ c ∈ range P.N, V c * t c * e' c := by
    rw [swap_sums, mul_sum]
    refine sum_congr rfl fun c hc => ?_
    rw [he c (mem_range.1 hc), mul_sum, mul_sum]
    refine sum_congr rfl fun o _ => ?_
    rw [mul_sum, mul_sum]
    exact sum_congr rfl fun a _ => by ring
  have h3 : m * ∑ c ∈ range P.N, V c * sig c * e' c ^ 2 ≤ ∑ o ∈ range (2 ^ P.dim), ∑ a ∈ range P.na, w a *
      ∑ c ∈ range P.N, V c * sig c * p o a c ^ 2 := by
    rw [swap_sums, mul_sum]
    refine sum_le_sum fun c hc => ?_
    have hc := mem_range.1 hc
    have hv : 0 ≤ V c * sig c := (mul_pos (hV c hc) (hT c hc)).le
    have hvar : 0 ≤ ∑ o ∈ range (2 ^ P.dim), ∑ a ∈ range P.na, w a * (p o a c - m * e' c) ^ 2 :=
      sum_nonneg fun o _ => sum_nonneg fun a ha => mul_nonneg (hw a (mem_range.1 ha)).le (sq_nonneg _)
    have hexp : ∑ o ∈ range (2 ^ P.dim), ∑ a ∈ range P.na, w a * (p o a c - m * e' c) ^ 2 =
        ∑ o ∈ range (2 ^ P.dim), ∑ a ∈ range P.na, w a * p o a c ^ 2 - 2 * (m * e' c) * e' c +
          (m * e' c) ^ 2 * ∑ _o ∈ range (2 ^ P.dim), ∑ a ∈ range P.na, w a := by
      conv_rhs => rw [show 2 * (m * e' c) * e' c = 2 * (m * e' c) *
        ∑ o ∈ range (2 ^ P.dim), ∑ a ∈ range P.na, w a * p o a c from by rw [← he c hc]]
      rw [mul_sum, mul_sum, ← sum_sub_distrib, ← sum_add_distrib]
      refine sum_congr rfl fun o _ => ?_
      rw [mul_sum, mul_sum, ← sum_sub_distrib, ← sum_add_distrib]
      exact sum_congr rfl fun a _ => by ring
    have hn' : (m * e' c) ^ 2 * ∑ _o ∈ range (2 ^ P.dim), ∑ a ∈ range P.na, w a = m * e' c ^ 2 := by
      linear_combination m * e' c ^ 2 * hn
    rw [hexp, hn'] at hvar
    have h5 : m * e' c ^ 2 ≤ ∑ o ∈ range (2 ^ P.dim), ∑ a ∈ range P.na, w a * p o a c ^ 2 := by nlinarith
    have h6 := mul_le_mul_of_nonneg_left h5 hv
    have h7 : V c * sig c * ∑ o ∈ range (2 ^ P.dim), ∑ a ∈ range P.na, w a * p o a c ^ 2 =
        ∑ o ∈ range (2 ^ P.dim), ∑ a ∈ range P.na, w a * (V c * sig c * p o a c ^ 2) := by
      rw [mul_sum]
      refine sum_congr rfl fun o _ => ?_
      rw [mul_sum]
      exact sum_congr rfl fun a _ => by ring
    rw [h7] at h6
    linarith
  rw [h2] at h1
  linarith

/-- The pass: with sources `m ss e` and scalar flux `e'`. -/
theorem pass_energy (hS : Subcritical P w V sig ss m r) (D : Dissipates P Sol V sig fw) (e e' : Nat → K)
    (b : Bd F) (p : Nat → Nat → Nat → K)
    (hc : ∀ o < 2 ^ P.dim, ∀ a < P.na, Sol (fun c => ss c * e c * m) o a (fun f => b f o a) (p o a))
    (he : ∀ c < P.N, e' c = ∑ o ∈ range (2 ^ P.dim), ∑ a ∈ range P.na, w a * p o a c) :
    outDot P w fw b b + m * ∑ c ∈ range P.N, V c * sig c * e' c ^ 2 ≤
      inDot P w fw b b + m * ∑ c ∈ range P.N, V c * ss c * e c * e' c := by
  have h1 := flux_energy hS.weight hS.norm hS.vol hS.tot D (fun c => ss c * e c) e' b p hc he
  have h2 : ∑ c ∈ range P.N, V c * (ss c * e c) * e' c = ∑ c ∈ range P.N, V c * ss c * e c * e' c :=
    sum_congr rfl fun c _ => by ring
  rw [h2] at h1
  exact h1

/-- The source term is at most half of what is collided before and after. -/
theorem source_bound (hS : Subcritical P w V sig ss m r) (e e' : Nat → K) :
    ∑ c ∈ range P.N, V c * ss c * e c * e' c ≤
      (r ^ 2 * ∑ c ∈ range P.N, V c * sig c * e c ^ 2 + ∑ c ∈ range P.N, V c * sig c * e' c ^ 2) / 2 := by
  rw [mul_sum, ← sum_add_distrib, sum_div]
  refine sum_le_sum fun c hc => ?_
  have hc := mem_range.1 hc
  have hv := hS.vol c hc
  have hs := hS.tot c hc
  have h1 : ss c * e c * e' c ≤ r * sig c * (|e c| * |e' c|) := by
    calc ss c * e c * e' c ≤ |ss c * e c * e' c| := le_abs_self _
      _ = |ss c| * (|e c| * |e' c|) := by rw [abs_mul, abs_mul, mul_assoc]
      _ ≤ r * sig c * (|e c| * |e' c|) :=
        mul_le_mul_of_nonneg_right (hS.ratio c hc) (mul_nonneg (abs_nonneg _) (abs_nonneg _))
  have h2 : r * (|e c| * |e' c|) ≤ (r ^ 2 * e c ^ 2 + e' c ^ 2) / 2 := by
    rw [← sq_abs (e c), ← sq_abs (e' c)]
    nlinarith [sq_nonneg (r * |e c| - |e' c|)]
  have h3 := mul_le_mul_of_nonneg_left h1 hv.le
  have h4 := mul_le_mul_of_nonneg_left h2 (mul_pos hv hs).le
  nlinarith

theorem pass_bound (hS : Subcritical P w V sig ss m r) (D : Dissipates P Sol V sig fw) (e e' : Nat → K)
    (b : Bd F) (p : Nat → Nat → Nat → K)
    (hc : ∀ o < 2 ^ P.dim, ∀ a < P.na, Sol (fun c => ss c * e c * m) o a (fun f => b f o a) (p o a))
    (he : ∀ c < P.N, e' c = ∑ o ∈ range (2 ^ P.dim), ∑ a ∈ range P.na, w a * p o a c) :
    outDot P w fw b b + m / 2 * ∑ c ∈ range P.N, V c * sig c * e' c ^ 2 ≤
      inDot P w fw b b + m / 2 * (r ^ 2 * ∑ c ∈ range P.N, V c * sig c * e c ^ 2) := by
  have h1 := pass_energy hS D e e' b p hc he
  have h2 := mul_le_mul_of_nonneg_left (source_bound hS e e') hS.mpos.le
  linarith

theorem errSum_nonneg (hS : Subcritical P w V sig ss m r) (f g : Nat → K) : 0 ≤ errSum P V sig f g :=
  sum_nonneg fun c hc => mul_nonneg (mul_pos (hS.vol c (mem_range.1 hc)) (hS.tot c (mem_range.1 hc))).le (sq_nonneg _)

theorem sum_sq_zero (hS : Subcritical P w V sig ss m r) (e : Nat → K)
    (h : ∑ c ∈ range P.N, V c * sig c * e c ^ 2 ≤ 0) : ∀ c < P.N, e c = 0 := by
  have hn : ∀ c ∈ range P.N, 0 ≤ V c * sig c * e c ^ 2 := fun c hc =>
    mul_nonneg (mul_pos (hS.vol c (mem_range.1 hc)) (hS.tot c (mem_range.1 hc))).le (sq_nonneg _)
  have h0 := le_antisymm h (sum_nonneg hn)
  rw [sum_eq_zero_iff_of_nonneg hn] at h0
  intro c hc
  rcases mul_eq_zero.1 (h0 c (mem_range.2 hc)) with h1 | h1
  · exact absurd h1 (mul_pos (hS.vol c hc) (hS.tot c hc)).ne'
  · exact pow_eq_zero_iff (two_ne_zero) |>.1 h1

/-! ## The error of a state -/

/-- Faces of the error: those of a state less those of a solution. -/
def errBd (P : Prob F K) (b bd : Bd F) : Bd F := P.comb 1 (-1) b bd

theorem get_errBd (h : Sweeps P w Sol) (b bd : Bd F) (side : Nat) (hs : side < 2 * P.dim) (o a i j : Nat)
    (hi : InFace P side i j) :
    P.get (errBd P b bd side o a) i j = P.get (b side o a) i j - P.get (bd side o a) i j := by
  rw [errBd, get_comb h 1 (-1) b bd side hs o a i j hi]
  ring

/-- The solution a flux comes from, with its sources written out. -/
def SolOf (P : Prob F K) (w ss : Nat → K) (m : K)
    (Sol : (Nat → K) → Nat → Nat → (Nat → F) → (Nat → K) → Prop) (phi : Nat → K) (bd : Bd F)
    (psi : Nat → Nat → Nat → K) : Prop :=
  Solution P w Sol (fun _ _ c => (P.fixed c + ss c * phi c) * m) phi (fun _ => 0) (fun _ => 0) bd psi

theorem Sweeps.src_congr (h : Sweeps P w Sol) {q q' : Nat → K} {o a : Nat} (ho : o < 2 ^ P.dim) {b p}
    (hq : ∀ c < P.N, q' c = q c) (hs : Sol q o a b p) : Sol q' o a b p :=
  h.lin 1 0 q q q' o a b b b p p p ho hs hs (fun c hc => by rw [hq c hc]; ring) (fun c => by ring)
    (fun _ _ _ _ _ => by ring)

theorem flux_sol (h : Sweeps P w Sol) (hS : Subcritical P w V sig ss m r) (phi : Nat → K) :
    IsFlux P w Sol phi ↔ ∃ bd psi, SolOf P w ss m Sol phi bd psi := by
  have key : ∀ o < 2 ^ P.dim, ∀ a < P.na, ∀ c < P.N,
      (P.fixed c + P.scat (P.moments phi) c) * P.mtod o a = (P.fixed c + ss c * phi c) * m := by
    intro o ho a ha c hc
    rw [hS.scat _ c hc, hS.mtod o ho a ha]
    unfold Prob.moments
    rw [if_pos hc]
  constructor
  · rintro ⟨bd, psi, k1, k2, k3, k4, k5⟩
    exact ⟨bd, psi, fun o ho a ha => h.src_congr ho (fun c hc => (key o ho a ha c hc).symm) (k1 o ho a ha), k2, k3, k4, k5⟩
  · rintro ⟨bd, psi, k1, k2, k3, k4, k5⟩
    exact ⟨bd, psi, fun o ho a ha => h.src_congr ho (fun c hc => key o ho a ha c hc) (k1 o ho a ha), k2, k3, k4, k5⟩

/-- A pass of source iteration, seen as a pass on the error. -/
theorem pass_error (h : Sweeps P w Sol) (hS : Subcritical P w V sig ss m r) (s : St F K) (phi : Nat → K) (bd : Bd F)
    (psi : Nat → Nat → Nat → K) (hsol : SolOf P w ss m Sol phi bd psi) :
    ∃ p : Nat → Nat → Nat → K,
      (∀ o < 2 ^ P.dim, ∀ a < P.na, Sol (fun c => ss c * (s.phi c - phi c) * m) o a
        (fun f => errBd P (P.siPass s).bdy bd f o a) (p o a)) ∧
      ∀ c < P.N, (P.siPass s).phi c - phi c = ∑ o ∈ range (2 ^ P.dim), ∑ a ∈ range P.na, w a * p o a c := by
  obtain ⟨p, c, f⟩ := h.solves true (P.source P.fixed (P.scat (P.moments s.phi))) s
  refine ⟨fun o a c => 1 * p o a c + (-1) * psi o a c, fun o ho a ha => ?_, fun i hi => ?_⟩
  · refine h.lin 1 (-1) _ _ _ o a _ _ _ _ _ _ ho (c o ho a ha) (hsol.cells o ho a ha) ?_ (fun _ => rfl)
      (fun side hs i j hi => get_comb h 1 (-1) _ _ side hs o a i j hi)
    intro i hi
    rw [source_eq hS.disc]
    dsimp only
    rw [hS.scat _ i hi, hS.mtod o ho a ha]
    unfold Prob.moments
    rw [if_pos hi]
    ring
  · have h1 := hsol.flux i hi
    rw [add_zero] at h1
    unfold Prob.siPass
    rw [f i hi, h1, ← sum_sub_distrib]
    refine sum_congr rfl fun o _ => ?_
    rw [← sum_sub_distrib]
    exact sum_congr rfl fun a _ => by ring

/-- Entering errors vanish at sides that do not reflect. -/
theorem enter_zero (h : Sweeps P w Sol) (np : ∀ s < 2 * P.dim, P.bc s ≠ .periodic) {b bd : Bd F} (hb : Sides P b)
    (hd : Sides P bd) (side : Nat) (hs : side < 2 * P.dim) (hr : P.bc side ≠ .reflect) (o : Nat) (ho : o < 2 ^ P.dim)
    (he : Enters side o) (a : Nat) (ha : a < P.na) (i j : Nat) (hi : InFace P side i j) :
    P.get (errBd P b bd side o a) i j = 0 := by
  rw [get_errBd h b bd side hs o a i j hi]
  cases hbb : P.bc side with
  | reflect => exact absurd hbb hr
  | periodic => exact absurd hbb (np side hs)
  | vacuum => rw [hb.vacuum side hs hbb o ho he a ha i j hi, hd.vacuum side hs hbb o ho he a ha i j hi, sub_zero]
  | fixed ps =>
    obtain ⟨io, _, hio⟩ := Boundary.C67_set_covers P.dim h.d1 h.d3 side hs o ho he
    rw [hb.given side hs ps hbb o ho io hio a ha i j hi, hd.given side hs ps hbb o ho io hio a ha i j hi, sub_self]

theorem enter_error (h : Sweeps P w Sol) (hS : Subcritical P w V sig ss m r) {b : Bd F} (hb : Sides P b)
    {phi : Nat → K} {bd : Bd F} {psi : Nat → Nat → Nat → K} (hsol : SolOf P w ss m Sol phi bd psi)
    (side : Nat) (hs : side < 2 * P.dim) (hr : P.bc side ≠ .reflect) (o : Nat) (ho : o < 2 ^ P.dim)
    (he : Enters side o) (a : Nat) (ha : a < P.na) (i j : Nat) (hi : InFace P side i j) :
    P.get (errBd P b bd side o a) i j = 0 :=
  enter_zero h hS.np hb ⟨hsol.vacuum, hsol.given⟩ side hs hr o ho he a ha i j hi

/-- What enters in a sweep is what was under way at reflecting sides before, and what leaves again; the part of it
    that comes later in the sweep is under way afterwards. -/
theorem pass_sides (h : Sweeps P w Sol) (np : ∀ s < 2 * P.dim, P.bc s ≠ .periodic) (D : Dissipates P Sol V sig fw)
    (hw : ∀ a < P.na, 0 < w a) : ∃ under : Bd F → Bd F → K, (∀ b bd, 0 ≤ under b bd) ∧
      (∀ b b' bd, (∀ side < 2 * P.dim, P.bc side = .reflect → ∀ o a, b side o a = b' side o a) →
        under b bd = under b' bd) ∧
      ∀ (src : Nat → Nat → Nat → K) (s : St F K) (bd : Bd F), Sides P s.bdy → Sides P bd →
        (∀ side < 2 * P.dim, P.bc side = .reflect → ∀ o < 2 ^ P.dim, Enters side o → ∀ o', Mirror P.dim side o o' →
          ∀ a < P.na, ∀ i j, InFace P side i j → P.get (bd side o a) i j = P.get (bd side o' a) i j) →
        under (P.sweep true src s).bdy bd +
          inDot P w fw (errBd P (P.sweep true src s).bdy bd) (errBd P (P.sweep true src s).bdy bd) ≤
        under s.bdy bd +
          outDot P w fw (errBd P (P.sweep true src s).bdy bd) (errBd P (P.sweep true src s).bdy bd) := by
  classical
  obtain ⟨late, hl⟩ := sweep_reflect_late h np
  let under : Bd F → Bd F → K := fun b bd => pickSum P w fun s o a =>
    if P.bc s = .reflect ∧ late o a (mir P.dim s o) then
      faceDot P fw s a (errBd P b bd s (mir P.dim s o) a) (errBd P b bd s (mir P.dim s o) a) else 0
  refine ⟨under, fun b bd => pickSum_nonneg hw fun s hs o ho he a ha => ?_, fun b b' bd hbb => ?_,
    fun src s bd hs hd hr => ?_⟩
  · split
    · exact faceDot_nonneg D hs ha _
    · exact le_refl _
  · refine pickSum_congr fun t ht o ho hen a ha => ?_
    by_cases hb : P.bc t = .reflect
    · have e : ∀ i j, InFace P t i j → P.get (errBd P b bd t (mir P.dim t o) a) i j =
          P.get (errBd P b' bd t (mir P.dim t o) a) i j := fun i j hi => by
        rw [get_errBd h _ _ t ht _ _ _ _ hi, get_errBd h _ _ t ht _ _ _ _ hi, hbb t ht hb]
      rw [faceDot_congr e e]
    · rw [if_neg (fun x => hb x.1), if_neg (fun x => hb x.1)]
  · have hs' : Sides P (P.sweep true src s).bdy := sides_sweep h np true _ s hs
    rw [outDot_mirror h.d1 h.d3, inDot_eq]
    let fresh : K := pickSum P w fun t o a => if P.bc t = .reflect ∧ ¬ late o a (mir P.dim t o) then
      faceDot P fw t a (errBd P (P.sweep true src s).bdy bd t (mir P.dim t o) a)
        (errBd P (P.sweep true src s).bdy bd t (mir P.dim t o) a) else 0
    have h1 : under (P.sweep true src s).bdy bd + fresh ≤ pickSum P w fun t o a =>
        faceDot P fw t a (errBd P (P.sweep true src s).bdy bd t (mir P.dim t o) a)
          (errBd P (P.sweep true src s).bdy bd t (mir P.dim t o) a) := by
      simp only [under, fresh]
      rw [← pickSum_add]
      refine pickSum_mono hw fun t ht o ho hen a ha => ?_
      have := faceDot_nonneg D ht ha (errBd P (P.sweep true src s).bdy bd t (mir P.dim t o) a)
      by_cases hb : P.bc t = .reflect
      · by_cases hk : late o a (mir P.dim t o)
        · rw [if_pos ⟨hb, hk⟩, if_neg (fun x => x.2 hk), add_zero]
        · rw [if_neg (fun x => hk x.2), if_pos ⟨hb, hk⟩, zero_add]
      · rw [if_neg (fun x => hb x.1), if_neg (fun x => hb x.1), add_zero]
        exact this
    have h2 : (pickSum P w fun t o a => faceDot P fw t a (errBd P (P.sweep true src s).bdy bd t o a)
        (errBd P (P.sweep true src s).bdy bd t o a)) = under s.bdy bd + fresh := by
      simp only [under, fresh]
      rw [← pickSum_add]
      refine pickSum_congr fun t ht o ho hen a ha => ?_
      by_cases hb : P.bc t = .reflect
      · obtain ⟨_, hm, _, _⟩ := mir_facts P.dim h.d1 h.d3 t ht o ho
        obtain ⟨l1, l2⟩ := hl src s o _ a ho ha t ht hen hb hm
        have hbd : ∀ i j, InFace P t i j → P.get (bd t o a) i j = P.get (bd t (mir P.dim t o) a) i j :=
          fun i j hi => hr t ht hb o ho hen _ hm a ha i j hi
        by_cases hk : late o a (mir P.dim t o)
        · rw [if_pos ⟨hb, hk⟩, if_neg (fun x => x.2 hk), add_zero]
          have e : ∀ i j, InFace P t i j → P.get (errBd P (P.sweep true src s).bdy bd t o a) i j =
              P.get (errBd P s.bdy bd t (mir P.dim t o) a) i j := fun i j hi => by
            rw [get_errBd h _ _ t ht _ _ _ _ hi, get_errBd h _ _ t ht _ _ _ _ hi, hbd i j hi]
            rw [show (P.sweep true src s).bdy t o a = s.bdy t (mir P.dim t o) a from l1 hk]
          exact faceDot_congr e e
        · rw [if_neg (fun x => hk x.2), if_pos ⟨hb, hk⟩, zero_add]
          have e : ∀ i j, InFace P t i j → P.get (errBd P (P.sweep true src s).bdy bd t o a) i j =
              P.get (errBd P (P.sweep true src s).bdy bd t (mir P.dim t o) a) i j := fun i j hi => by
            rw [get_errBd h _ _ t ht _ _ _ _ hi, get_errBd h _ _ t ht _ _ _ _ hi, hbd i j hi]
            rw [show (P.sweep true src s).bdy t o a = (P.sweep true src s).bdy t (mir P.dim t o) a from l2 hk]
          exact faceDot_congr e e
      · rw [if_neg (fun x => hb x.1), if_neg (fun x => hb x.1), add_zero]
        exact faceDot_zero fun i j hi => enter_zero h np hs' hd t ht hb o ho hen a ha i j hi
    rw [h2]
    linarith

/-- A quantity that each pass lowers by at least a multiple of the error it leaves: what is under way at reflecting
    sides plus the error in the cells. -/
theorem potential (h : Sweeps P w Sol) (hS : Subcritical P w V sig ss m r) (D : Dissipates P Sol V sig fw)
    (phi : Nat → K) (bd : Bd F) (psi : Nat → Nat → Nat → K) (hsol : SolOf P w ss m Sol phi bd psi) :
    ∃ pot : St F K → K, (∀ s, 0 ≤ pot s) ∧ ∀ s, Sides P s.bdy →
      pot (P.siPass s) + m / 2 * (1 - r ^ 2) * errSum P V sig (P.siPass s).phi phi ≤ pot s := by
  obtain ⟨under, un, _, hu⟩ := pass_sides h hS.np D hS.weight
  refine ⟨fun s => under s.bdy bd + m / 2 * (r ^ 2 * errSum P V sig s.phi phi), fun s => ?_, fun s hs => ?_⟩
  · have := errSum_nonneg hS s.phi phi
    have := hS.mpos
    have := un s.bdy bd
    positivity
  · obtain ⟨p, hc, he⟩ := pass_error h hS s phi bd psi hsol
    have key := pass_bound hS D (fun c => s.phi c - phi c) (fun c => (P.siPass s).phi c - phi c) _ p hc he
    have k2 := hu (P.source P.fixed (P.scat (P.moments s.phi))) s bd hs ⟨hsol.vacuum, hsol.given⟩
      fun t ht hb o ho hen o' hm a ha i j hi => sub_eq_zero.1 (hsol.reflect t ht hb o ho hen o' hm a ha i j hi)
    change under (P.siPass s).bdy bd + inDot P w fw (errBd P (P.siPass s).bdy bd) (errBd P (P.siPass s).bdy bd) ≤
      under s.bdy bd + outDot P w fw (errBd P (P.siPass s).bdy bd) (errBd P (P.siPass s).bdy bd) at k2
    have e1 : ∑ c ∈ range P.N, V c * sig c * ((P.siPass s).phi c - phi c) ^ 2 = errSum P V sig (P.siPass s).phi phi := rfl
    have e2 : ∑ c ∈ range P.N, V c * sig c * (s.phi c - phi c) ^ 2 = errSum P V sig s.phi phi := rfl
    rw [e1, e2] at key
    dsimp only
    nlinarith

/-- A solution of the homogeneous equations with its own reflection has no flux, and nothing leaves through sides
    that do not reflect. -/
theorem homogeneous (hS : Subcritical P w V sig ss m r) (D : Dissipates P Sol V sig fw)
    (h : Sweeps P w Sol) (e : Nat → K) (b : Bd F) (p : Nat → Nat → Nat → K)
    (hc : ∀ o < 2 ^ P.dim, ∀ a < P.na, Sol (fun c => ss c * e c * m) o a (fun f => b f o a) (p o a))
    (he : ∀ c < P.N, e c = ∑ o ∈ range (2 ^ P.dim), ∑ a ∈ range P.na, w a * p o a c)
    (hout : ∀ side < 2 * P.dim, P.bc side ≠ .reflect → ∀ o < 2 ^ P.dim, Enters side o → ∀ a < P.na, ∀ i j,
      InFace P side i j → P.get (b side o a) i j = 0)
    (href : ∀ side < 2 * P.dim, P.bc side = .reflect → ∀ o < 2 ^ P.dim, Enters side o → ∀ a < P.na, ∀ i j,
      InFace P side i j → P.get (b side o a) i j = P.get (b side (mir P.dim side o) a) i j) :
    (∀ c < P.N, e c = 0) ∧ outDot P w fw b b = inDot P w fw b b ∧
    (∀ o < 2 ^ P.dim, ∀ a < P.na, ∀ c < P.N, p o a c = 0) ∧
    ∀ side < 2 * P.dim, P.bc side ≠ .reflect → ∀ o < 2 ^ P.dim, Enters side o → ∀ a < P.na, ∀ i j,
      InFace P side i j → P.get (b side (mir P.dim side o) a) i j = 0 := by
  classical
  have key := pass_bound hS D e e b p hc he
  have k2 := total_energy D hS.weight _ b p hc
  let rest : K := pickSum P w fun t o a => if P.bc t = .reflect then 0 else
      faceDot P fw t a (b t (mir P.dim t o) a) (b t (mir P.dim t o) a)
  have rn : ∀ s < 2 * P.dim, ∀ o < 2 ^ P.dim, Enters s o → ∀ a < P.na, 0 ≤ (if P.bc s = .reflect then 0 else
      faceDot P fw s a (b s (mir P.dim s o) a) (b s (mir P.dim s o) a)) := by
    intro s hs o ho hen a ha
    split
    · exact le_refl _
    · exact faceDot_nonneg D hs ha _
  have h1 : outDot P w fw b b = inDot P w fw b b + rest := by
    rw [outDot_mirror h.d1 h.d3, inDot_eq]
    simp only [rest]
    rw [← pickSum_add]
    refine pickSum_congr fun t ht o ho hen a ha => ?_
    by_cases hb : P.bc t = .reflect
    · rw [if_pos hb, add_zero]
      exact (faceDot_congr (href t ht hb o ho hen a ha) (href t ht hb o ho hen a ha)).symm
    · rw [if_neg hb, faceDot_zero (f := b t o a) (hout t ht hb o ho hen a ha), zero_add]
  have hrest : 0 ≤ rest := pickSum_nonneg hS.weight rn
  have hm := hS.mpos
  have hr : r ^ 2 < 1 := by nlinarith [hS.nonneg, hS.less]
  have ha : ∑ c ∈ range P.N, V c * sig c * e c ^ 2 ≤ 0 := by
    by_contra hcon
    have hcon := not_le.1 hcon
    have : 0 < m / 2 * (1 - r ^ 2) * ∑ c ∈ range P.N, V c * sig c * e c ^ 2 := by
      have : 0 < 1 - r ^ 2 := by linarith
      positivity
    nlinarith
  have he0 := sum_sq_zero hS e ha
  have hq : ∑ o ∈ range (2 ^ P.dim), ∑ a ∈ range P.na, w a *
      ∑ c ∈ range P.N, V c * (ss c * e c * m) * p o a c = 0 := by
    refine sum_eq_zero fun o _ => sum_eq_zero fun a _ => ?_
    rw [sum_eq_zero, mul_zero]
    intro c hc'
    rw [he0 c (mem_range.1 hc')]
    ring
  rw [hq, add_zero, h1] at k2
  have pn : ∀ o, ∀ a ∈ range P.na, 0 ≤ w a * ∑ c ∈ range P.N, V c * sig c * p o a c ^ 2 := fun o a ha' =>
    mul_nonneg (hS.weight a (mem_range.1 ha')).le (sum_nonneg fun c hc' =>
      mul_nonneg (mul_pos (hS.vol c (mem_range.1 hc')) (hS.tot c (mem_range.1 hc'))).le (sq_nonneg _))
  have pn2 : 0 ≤ ∑ o ∈ range (2 ^ P.dim), ∑ a ∈ range P.na, w a *
      ∑ c ∈ range P.N, V c * sig c * p o a c ^ 2 := sum_nonneg fun o _ => sum_nonneg (pn o)
  have hr0 : rest ≤ 0 := by linarith
  refine ⟨he0, by linarith, ?_, ?_⟩
  · have hp0 : ∑ o ∈ range (2 ^ P.dim), ∑ a ∈ range P.na, w a *
      ∑ c ∈ range P.N, V c * sig c * p o a c ^ 2 = 0 := by linarith
    rw [sum_eq_zero_iff_of_nonneg (fun o _ => sum_nonneg (pn o))] at hp0
    intro o ho a ha'
    have h2 := hp0 o (mem_range.2 ho)
    rw [sum_eq_zero_iff_of_nonneg (pn o)] at h2
    rcases mul_eq_zero.1 (h2 a (mem_range.2 ha')) with h3 | h3
    · exact absurd h3 (hS.weight a ha').ne'
    · exact sum_sq_zero hS (p o a) h3.le
  · intro side hs hb o ho hen a ha'
    have := pickSum_zero hS.weight rn hr0 side hs o ho hen a ha'
    rw [if_neg hb] at this
    exact faceDot_pos D hs ha' _ this

end Detran.WGReflect
