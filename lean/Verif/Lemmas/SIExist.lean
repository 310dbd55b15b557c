import Verif.Lemmas.SIPass
import Mathlib.LinearAlgebra.FiniteDimensional.Lemmas
import Mathlib.LinearAlgebra.Dimension.Constructions

/-!
# Every subcritical group has a flux (used for C128)
-/

namespace Detran.WGReflect

open Detran.Sweep (St)
open Detran.Boundary (Bd BC Loc Enters Mirror faceCells)
open Finset

/-! ## Linear algebra -/

section lin
variable {K : Type} [Field K] [LinearOrder K] [IsStrictOrderedRing K]

theorem linear_zero (α β : K) (h : ∀ t : K, 2 * t * α ≤ β) : α = 0 := by
  by_contra hne
  have h1 := h ((β + 1) / (2 * α))
  have : 2 * ((β + 1) / (2 * α)) * α = β + 1 := by field_simp
  rw [this] at h1
  linarith

/-- `x - T x = b` can be solved when `T` lengthens no vector (in a weighted norm) and `b` is orthogonal to the vectors
    `T` leaves alone. -/
theorem solve_nonexpansive {n : Nat} (wt : Fin n → K) (hwt : ∀ i, 0 < wt i) (T : (Fin n → K) →ₗ[K] (Fin n → K))
    (hT : ∀ x, ∑ i, wt i * (T x i * T x i) ≤ ∑ i, wt i * (x i * x i)) (b : Fin n → K)
    (hb : ∀ x, T x = x → ∑ i, wt i * (x i * b i) = 0) : ∃ x, x - T x = b := by
  let A : (Fin n → K) →ₗ[K] (Fin n → K) := LinearMap.id - T
  have hA : ∀ x, A x = x - T x := fun x => rfl
  let W := LinearMap.ker A
  have hW : ∀ x, x ∈ W ↔ T x = x := fun x => by
    rw [LinearMap.mem_ker, hA, sub_eq_zero]
    exact ⟨Eq.symm, Eq.symm⟩
  let O : Submodule K (Fin n → K) :=
    { carrier := {y | ∀ x ∈ W, ∑ i, wt i * (x i * y i) = 0}
      add_mem' := by
        intro y z hy hz x hx
        have := hy x hx
        have := hz x hx
        simp only [Pi.add_apply, mul_add, sum_add_distrib]
        linarith
      zero_mem' := by intro x _; simp
      smul_mem' := by
        intro t y hy x hx
        have := hy x hx
        have e : ∑ i, wt i * (x i * (t • y) i) = t * ∑ i, wt i * (x i * y i) := by
          rw [mul_sum]
          exact sum_congr rfl fun i _ => by simp only [Pi.smul_apply, smul_eq_mul]; ring
        rw [e, this, mul_zero] }
  have hRO : LinearMap.range A ≤ O := by
    rintro _ ⟨y, rfl⟩ x hx
    have hx' := (hW x).1 hx
    have e : ∀ t : K, 2 * t * (∑ i, wt i * (x i * T y i) - ∑ i, wt i * (x i * y i)) ≤
        ∑ i, wt i * (y i * y i) - ∑ i, wt i * (T y i * T y i) := by
      intro t
      have h1 := hT (t • x + y)
      rw [map_add, map_smul, hx'] at h1
      have ex : ∀ z : Fin n → K, ∑ i, wt i * ((t • x + z) i * (t • x + z) i) =
          t ^ 2 * ∑ i, wt i * (x i * x i) + 2 * t * ∑ i, wt i * (x i * z i) + ∑ i, wt i * (z i * z i) := by
        intro z
        rw [mul_sum, mul_sum, ← sum_add_distrib, ← sum_add_distrib]
        refine sum_congr rfl fun i _ => ?_
        simp only [Pi.add_apply, Pi.smul_apply, smul_eq_mul]
        ring
      rw [ex, ex] at h1
      linarith
    have h2 := linear_zero _ _ e
    have e3 : ∑ i, wt i * (x i * (A y) i) = ∑ i, wt i * (x i * y i) - ∑ i, wt i * (x i * T y i) := by
      rw [← sum_sub_distrib]
      refine sum_congr rfl fun i _ => ?_
      rw [hA, Pi.sub_apply]
      ring
    rw [e3]
    linarith
  have hdis : Disjoint W O := by
    rw [Submodule.disjoint_def]
    intro x hx hxo
    have h0 := hxo x hx
    rw [sum_eq_zero_iff_of_nonneg (fun i _ => mul_nonneg (hwt i).le (mul_self_nonneg _))] at h0
    funext i
    rcases mul_eq_zero.1 (h0 i (mem_univ i)) with h1 | h1
    · exact absurd h1 (hwt i).ne'
    · exact mul_self_eq_zero.1 h1
  have hd := Submodule.finrank_add_finrank_le_of_disjoint hdis
  have hrk := LinearMap.finrank_range_add_finrank_ker A
  have hEq : LinearMap.range A = O := Submodule.eq_of_le_of_finrank_le hRO (by
    change Module.finrank K W + _ ≤ _ at hd
    change _ + Module.finrank K W = _ at hrk
    omega)
  have hbO : b ∈ O := fun x hx => hb x ((hW x).1 hx)
  rw [← hEq] at hbO
  obtain ⟨x, hx⟩ := hbO
  exact ⟨x, hx⟩

end lin

/-! ## Sums over the entries of a Krylov vector -/

section field
variable {F K : Type} [Field K] {P : Prob F K} {w : Nat → K}
  {Sol : (Nat → K) → Nat → Nat → (Nat → F) → (Nat → K) → Prop}

theorem getD_get {α : Type} {l : List α} {k : Nat} (d : α) (hk : k < l.length) : l.getD k d = l[k] := by
  rw [List.getD_eq_getElem?_getD, List.getElem?_eq_getElem hk, Option.getD_some]

open Classical in
theorem sum_slots (h : Sweeps P w Sol) (G : Nat → K) :
    ∑ i ∈ range (P.N + P.bsize), G i = ∑ c ∈ range P.N, G c +
      ∑ o ∈ range (2 ^ P.dim), ∑ a ∈ range P.na, ∑ s ∈ range (2 * P.dim),
        (if Enters s o then (if P.bc s = .reflect then
          ∑ i ∈ range (faceCells P.dim s P.n 0), ∑ j ∈ range (faceCells P.dim s P.n 1), G (P.slot ⟨s, o, a, i, j⟩)
          else 0) else 0) := by
  rw [sum_range_add]
  congr 1
  have h1 : ∑ k ∈ range P.bsize, G (P.N + k) = ∑ l ∈ P.locs.toFinset, G (P.slot l) := by
    rw [bsize_eq h]
    refine (sum_nbij' (fun l => P.locs.idxOf l) (fun k => P.locs.getD k ⟨0, 0, 0, 0, 0⟩) ?_ ?_ ?_ ?_ ?_).symm
    · intro l hl
      exact mem_range.2 (List.idxOf_lt_length_of_mem (List.mem_toFinset.1 hl))
    · intro k hk
      have hk := mem_range.1 hk
      rw [List.mem_toFinset, getD_get _ hk]
      exact List.getElem_mem hk
    · intro l hl
      have hl := List.idxOf_lt_length_of_mem (List.mem_toFinset.1 hl)
      rw [getD_get _ hl, List.getElem_idxOf]
    · intro k hk
      have hk := mem_range.1 hk
      rw [getD_get _ hk]
      exact (locs_nodup h).idxOf_getElem k hk
    · intro l _
      rfl
  rw [h1]
  let S : Finset (Nat × Nat × Nat) := range (2 ^ P.dim) ×ˢ range P.na ×ˢ range (2 * P.dim)
  let f : (x : Nat × Nat × Nat) → Finset (Nat × Nat) := fun x =>
    if Enters x.2.2 x.1 then (if P.bc x.2.2 = .reflect then
      range (faceCells P.dim x.2.2 P.n 0) ×ˢ range (faceCells P.dim x.2.2 P.n 1) else ∅) else ∅
  have h2 : ∑ l ∈ P.locs.toFinset, G (P.slot l) =
      ∑ y ∈ S.sigma f, G (P.slot ⟨y.1.2.2, y.1.1, y.1.2.1, y.2.1, y.2.2⟩) := by
    refine sum_nbij' (fun l => ⟨(l.octant, l.angle, l.side), (l.i, l.j)⟩)
      (fun y => ⟨y.1.2.2, y.1.1, y.1.2.1, y.2.1, y.2.2⟩) ?_ ?_ ?_ ?_ ?_
    · rintro ⟨s, o, a, i, j⟩ hl
      obtain ⟨k1, k2, k3, k4, k5, k6⟩ := (mem_locs h s o a i j).1 (List.mem_toFinset.1 hl)
      rw [mem_sigma]
      refine ⟨by simp only [S, mem_product, mem_range]; exact ⟨k3, k5, k1⟩, ?_⟩
      simp only [f, if_pos k4, if_pos k2, mem_product, mem_range]
      exact k6
    · rintro ⟨⟨o, a, s⟩, ⟨i, j⟩⟩ hy
      rw [mem_sigma] at hy
      obtain ⟨hy1, hy2⟩ := hy
      simp only [S, mem_product, mem_range] at hy1
      by_cases k4 : Enters s o
      · by_cases k2 : P.bc s = .reflect
        · simp only [f, if_pos k4, if_pos k2, mem_product, mem_range] at hy2
          exact List.mem_toFinset.2 ((mem_locs h s o a i j).2 ⟨hy1.2.2, k2, hy1.1, k4, hy1.2.1, hy2⟩)
        · simp only [f, if_pos k4, if_neg k2] at hy2
          exact absurd hy2 (notMem_empty _)
      · simp only [f, if_neg k4] at hy2
        exact absurd hy2 (notMem_empty _)
    · intro l _; rfl
    · intro y _; rfl
    · intro l _; rfl
  rw [h2, sum_sigma, sum_product]
  refine sum_congr rfl fun o _ => ?_
  rw [sum_product]
  refine sum_congr rfl fun a _ => sum_congr rfl fun s _ => ?_
  by_cases k4 : Enters s o
  · by_cases k2 : P.bc s = .reflect
    · simp only [f, if_pos k4, if_pos k2]
      rw [sum_product]
    · simp only [f, if_pos k4, if_neg k2, sum_empty]
  · simp only [f, if_neg k4, sum_empty]

end field

/-! ## Existence -/

variable {F K : Type} [Field K] [LinearOrder K] [IsStrictOrderedRing K]
variable {P : Prob F K} {w V sig ss : Nat → K} {m r : K} {fw : Nat → Nat → Nat → Nat → K}
  {Sol : (Nat → K) → Nat → Nat → (Nat → F) → (Nat → K) → Prop}

/-- The state the uncollided fluxes are in when nothing is reflected yet. -/
def once (P : Prob F K) (z : St F K) : St F K :=
  P.sweep false (P.source P.fixed (fun _ => 0)) ⟨Boundary.set P.dim P.na P.bc (P.clear z.bdy), fun _ => 0, z.psi⟩

theorem once_in (h : Sweeps P w Sol) (z : St F K) (side : Nat) (hs : side < 2 * P.dim) (hb : P.bc side = .reflect)
    (o : Nat) (ho : o < 2 ^ P.dim) (he : Enters side o) (a : Nat) (ha : a < P.na) (i j : Nat)
    (hi : InFace P side i j) : P.get ((once P z).bdy side o a) i j = 0 := by
  unfold once
  rw [sweep_off h _ _ o a ho ha side hs he]
  dsimp only
  rw [(Boundary.C67_set P.dim h.d1 h.d3 P.na P.bc _).2 side o a (by
    rintro ⟨_, ⟨ps, h'⟩, _⟩; rw [hb] at h'; cases h')]
  exact get_clear h _ _ _ _ _ _ hs ho ha hi

/-- A vector padded with zeros. -/
def pad {n : Nat} (x : Fin n → K) : Nat → K := fun i => if h : i < n then x ⟨i, h⟩ else 0

omit [LinearOrder K] [IsStrictOrderedRing K] in
theorem pad_at {n : Nat} (x : Fin n → K) (i : Nat) (h : i < n) : pad x i = x ⟨i, h⟩ := dif_pos h

/-- What the operator subtracts, as a linear map. -/
def passMap (h : Sweeps P w Sol) (hS : Subcritical P w V sig ss m r) (z : St F K) :
    (Fin (P.N + P.bsize) → K) →ₗ[K] (Fin (P.N + P.bsize) → K) where
  toFun x := fun i => x i - (P.multiply z (pad x)).2 i
  map_add' := by
    intro x y
    funext i
    have := C124_operator_linear h hS.np hS.disc 1 1 (pad x) (pad y) (pad (x + y))
      (fun i hi => by simp only [pad_at _ i hi, Pi.add_apply]; ring)
      (fun c hc => by
        rw [hS.scat _ c hc, hS.scat _ c hc, hS.scat _ c hc]
        unfold Prob.moments
        simp only [if_pos hc, pad_at _ c (by omega : c < P.N + P.bsize), Pi.add_apply]
        ring) z z z i i.2
    simp only [Pi.add_apply]
    rw [this]
    ring
  map_smul' := by
    intro t x
    funext i
    have := C124_operator_linear h hS.np hS.disc t 0 (pad x) (pad x) (pad (t • x))
      (fun i hi => by simp only [pad_at _ i hi, Pi.smul_apply, smul_eq_mul]; ring)
      (fun c hc => by
        rw [hS.scat _ c hc, hS.scat _ c hc]
        unfold Prob.moments
        simp only [if_pos hc, pad_at _ c (by omega : c < P.N + P.bsize), Pi.smul_apply, smul_eq_mul]
        ring) z z z i i.2
    simp only [Pi.smul_apply, smul_eq_mul, RingHom.id_apply]
    rw [this]
    ring

/-- Weights of the norm: half the collisions in the cells, face weights at the reflecting sides. -/
def slotWeight (P : Prob F K) (w V sig : Nat → K) (m : K) (fw : Nat → Nat → Nat → Nat → K) (i : Nat) : K :=
  if i < P.N then m / 2 * (V i * sig i) else
    match P.locs[i - P.N]? with
    | some l => w l.angle * fw l.side l.angle l.i l.j
    | none => 1

omit [LinearOrder K] [IsStrictOrderedRing K] in
theorem slotWeight_slot (h : Sweeps P w Sol) (l : Loc) (hl : l ∈ P.locs) :
    slotWeight P w V sig m fw (P.slot l) = w l.angle * fw l.side l.angle l.i l.j := by
  have := (slot_spec h l hl).1
  unfold slotWeight
  rw [if_neg (by omega)]
  unfold Prob.slot
  rw [Nat.add_sub_cancel_left, List.getElem?_idxOf hl]

theorem slotWeight_pos (h : Sweeps P w Sol) (hS : Subcritical P w V sig ss m r) (D : Dissipates P Sol V sig fw)
    (i : Nat) (hi : i < P.N + P.bsize) : 0 < slotWeight P w V sig m fw i := by
  by_cases hc : i < P.N
  · unfold slotWeight
    rw [if_pos hc]
    have := hS.mpos
    have := hS.vol i hc
    have := hS.tot i hc
    positivity
  · obtain ⟨l, hl, rfl⟩ := slot_cover h i (by omega) hi
    rw [slotWeight_slot h l hl]
    obtain ⟨side, o, a, i', j⟩ := l
    obtain ⟨k1, k2, k3, k4, k5, k6⟩ := (mem_locs h side o a i' j).1 hl
    exact mul_pos (hS.weight a k5) (D.pos side k1 a k5 i' j k6)

open Classical in
/-- The weighted product of two vectors: cells, plus faces when the vectors hold given faces at the reflecting
    sides. -/
theorem norm_split (h : Sweeps P w Sol) (x y : Nat → K) (fx fy : Nat → Nat → Nat → F)
    (hx : ∀ s < 2 * P.dim, P.bc s = .reflect → ∀ o < 2 ^ P.dim, Enters s o → ∀ a < P.na, ∀ i j, InFace P s i j →
      x (P.slot ⟨s, o, a, i, j⟩) = P.get (fx s o a) i j)
    (hy : ∀ s < 2 * P.dim, P.bc s = .reflect → ∀ o < 2 ^ P.dim, Enters s o → ∀ a < P.na, ∀ i j, InFace P s i j →
      y (P.slot ⟨s, o, a, i, j⟩) = P.get (fy s o a) i j) :
    ∑ i ∈ range (P.N + P.bsize), slotWeight P w V sig m fw i * (x i * y i) =
      m / 2 * ∑ c ∈ range P.N, V c * sig c * (x c * y c) +
      pickSum P w fun s o a => if P.bc s = .reflect then faceDot P fw s a (fx s o a) (fy s o a) else 0 := by
  rw [sum_slots h]
  congr 1
  · rw [mul_sum]
    refine sum_congr rfl fun c hc => ?_
    unfold slotWeight
    rw [if_pos (mem_range.1 hc)]
    ring
  · unfold pickSum
    refine sum_congr rfl fun o ho => sum_congr rfl fun a ha => ?_
    rw [mul_sum]
    refine sum_congr rfl fun s hs => ?_
    by_cases k4 : Enters s o
    · by_cases k2 : P.bc s = .reflect
      · rw [if_pos k4, if_pos k4, if_pos k2]
        dsimp only
        rw [if_pos k2]
        unfold faceDot
        rw [mul_sum]
        refine sum_congr rfl fun i hi => ?_
        rw [mul_sum]
        refine sum_congr rfl fun j hj => ?_
        have hf : InFace P s i j := ⟨mem_range.1 hi, mem_range.1 hj⟩
        have hl := (mem_locs h s o a i j).2 ⟨mem_range.1 hs, k2, mem_range.1 ho, k4, mem_range.1 ha, hf⟩
        rw [slotWeight_slot h _ hl, hx s (mem_range.1 hs) k2 o (mem_range.1 ho) k4 a (mem_range.1 ha) i j hf,
          hy s (mem_range.1 hs) k2 o (mem_range.1 ho) k4 a (mem_range.1 ha) i j hf]
        ring
      · rw [if_pos k4, if_pos k4, if_neg k2]
        dsimp only
        rw [if_neg k2, mul_zero]
    · rw [if_neg k4, if_neg k4, mul_zero]

/-- What an operator application does, in the terms used here. -/
theorem multiply_pass (h : Sweeps P w Sol) (hS : Subcritical P w V sig ss m r) (z : St F K) (x : Nat → K) :
    ∃ (b : Bd F) (p : Nat → Nat → Nat → K),
      (∀ o < 2 ^ P.dim, ∀ a < P.na, Sol (fun c => ss c * x c * m) o a (fun f => b f o a) (p o a)) ∧
      (∀ c < P.N, x c - (P.multiply z x).2 c = ∑ o ∈ range (2 ^ P.dim), ∑ a ∈ range P.na, w a * p o a c) ∧
      (∀ side < 2 * P.dim, P.bc side ≠ .reflect → ∀ o < 2 ^ P.dim, Enters side o → ∀ a < P.na, ∀ i j,
        InFace P side i j → P.get (b side o a) i j = 0) ∧
      (∀ side < 2 * P.dim, P.bc side = .reflect → ∀ o < 2 ^ P.dim, Enters side o → ∀ a < P.na, ∀ i j,
        InFace P side i j → x (P.slot ⟨side, o, a, i, j⟩) = P.get (b side o a) i j ∧
        x (P.slot ⟨side, o, a, i, j⟩) - (P.multiply z x).2 (P.slot ⟨side, o, a, i, j⟩) =
          P.get (b side (mir P.dim side o) a) i j) := by
  obtain ⟨s1, ⟨s0, e1⟩, m1, m2, m3⟩ := multiply_spec h hS.np z x
  obtain ⟨p, c, f⟩ := h.solves false (P.source (fun _ => 0) (P.scat (P.moments x))) s0
  rw [← e1] at c f
  refine ⟨s1.bdy, p, fun o ho a ha => ?_, fun i hi => ?_, ?_, ?_⟩
  · refine h.src_congr ho (fun i hi => ?_) (c o ho a ha)
    rw [source_eq hS.disc]
    dsimp only
    rw [hS.scat _ i hi, hS.mtod o ho a ha]
    unfold Prob.moments
    rw [if_pos hi]
    ring
  · rw [m1 i hi, ← f i hi]
    ring
  · intro side hs hb o ho he a ha i j hi
    rw [m2 side hs o ho he a ha i j hi, if_neg (fun h' => hb ((refl_iff side).1 h'))]
  · intro side hs hb o ho he a ha i j hi
    obtain ⟨_, hm, _, _⟩ := mir_facts P.dim h.d1 h.d3 side hs o ho
    refine ⟨?_, ?_⟩
    · rw [m2 side hs o ho he a ha i j hi, if_pos ((refl_iff side).2 hb)]
    · rw [m3 side hs hb o ho he _ hm a ha i j hi]
      ring

/-- A vector the operator sends to zero has no flux; its faces are a standing pattern orthogonal to everything
    that leaves. -/
theorem kernel_facts (h : Sweeps P w Sol) (hS : Subcritical P w V sig ss m r) (D : Dissipates P Sol V sig fw)
    (z : St F K) (x : Nat → K) (hx : ∀ i < P.N + P.bsize, (P.multiply z x).2 i = 0) :
    ∃ (b : Bd F) (p : Nat → Nat → Nat → K),
      (∀ o < 2 ^ P.dim, ∀ a < P.na, Sol (fun c => ss c * x c * m) o a (fun f => b f o a) (p o a)) ∧
      (∀ side < 2 * P.dim, P.bc side ≠ .reflect → ∀ o < 2 ^ P.dim, Enters side o → ∀ a < P.na, ∀ i j,
        InFace P side i j → P.get (b side o a) i j = 0) ∧
      (∀ side < 2 * P.dim, P.bc side = .reflect → ∀ o < 2 ^ P.dim, Enters side o → ∀ a < P.na, ∀ i j,
        InFace P side i j → x (P.slot ⟨side, o, a, i, j⟩) = P.get (b side o a) i j ∧
        P.get (b side o a) i j = P.get (b side (mir P.dim side o) a) i j) ∧
      (∀ c < P.N, x c = 0) ∧ outDot P w fw b b = inDot P w fw b b ∧
      (∀ o < 2 ^ P.dim, ∀ a < P.na, ∀ c < P.N, p o a c = 0) ∧
      ∀ side < 2 * P.dim, P.bc side ≠ .reflect → ∀ o < 2 ^ P.dim, Enters side o → ∀ a < P.na, ∀ i j,
        InFace P side i j → P.get (b side (mir P.dim side o) a) i j = 0 := by
  obtain ⟨b, p, c, f, k1, k2⟩ := multiply_pass h hS z x
  have k3 : ∀ side < 2 * P.dim, P.bc side = .reflect → ∀ o < 2 ^ P.dim, Enters side o → ∀ a < P.na, ∀ i j,
      InFace P side i j → x (P.slot ⟨side, o, a, i, j⟩) = P.get (b side o a) i j ∧
        P.get (b side o a) i j = P.get (b side (mir P.dim side o) a) i j := by
    intro side hs hb o ho he a ha i j hi
    obtain ⟨h1, h2⟩ := k2 side hs hb o ho he a ha i j hi
    refine ⟨h1, ?_⟩
    rw [hx _ (slot_spec h _ ((mem_locs h side o a i j).2 ⟨hs, hb, ho, he, ha, hi⟩)).2.1, sub_zero] at h2
    rw [← h1, h2]
  obtain ⟨g1, g2, g3, g4⟩ := homogeneous hS D h x b p c (fun i hi => by
    rw [← f i hi, hx i (by omega), sub_zero]) k1 (fun side hs hb o ho he a ha i j hi =>
      (k3 side hs hb o ho he a ha i j hi).2)
  exact ⟨b, p, c, k1, k3, g1, g2, g3, g4⟩

/-- The linear system has a solution for every right-hand side orthogonal to what the operator sends to zero. -/
theorem solve_system (h : Sweeps P w Sol) (hS : Subcritical P w V sig ss m r) (D : Dissipates P Sol V sig fw)
    (z : St F K) (b0 : Nat → K)
    (ho : ∀ x, (∀ i < P.N + P.bsize, (P.multiply z x).2 i = 0) →
      ∑ i ∈ range (P.N + P.bsize), slotWeight P w V sig m fw i * (x i * b0 i) = 0) :
    ∃ x, ∀ i < P.N + P.bsize, (P.multiply z x).2 i = b0 i := by
  classical
  obtain ⟨x, hx⟩ := solve_nonexpansive (fun i : Fin (P.N + P.bsize) => slotWeight P w V sig m fw i)
    (fun i => slotWeight_pos h hS D i i.2) (passMap h hS z) (by
      intro x
      obtain ⟨b, p, c, f, k1, k2⟩ := multiply_pass h hS z (pad x)
      have e1 : ∑ i : Fin (P.N + P.bsize), slotWeight P w V sig m fw i * (x i * x i) =
          ∑ i ∈ range (P.N + P.bsize), slotWeight P w V sig m fw i * (pad x i * pad x i) := by
        rw [sum_range]
        exact sum_congr rfl fun i _ => by rw [pad_at x i i.2]
      let y : Nat → K := fun i => pad x i - (P.multiply z (pad x)).2 i
      have e2 : ∑ i : Fin (P.N + P.bsize), slotWeight P w V sig m fw i * (passMap h hS z x i * passMap h hS z x i) =
          ∑ i ∈ range (P.N + P.bsize), slotWeight P w V sig m fw i * (y i * y i) := by
        rw [sum_range]
        refine sum_congr rfl fun i _ => ?_
        simp only [y]
        rw [pad_at x i i.2]
        rfl
      rw [e1, e2, norm_split h (pad x) (pad x) b b
          (fun s hs hb o ho he a ha i j hi => (k2 s hs hb o ho he a ha i j hi).1)
          (fun s hs hb o ho he a ha i j hi => (k2 s hs hb o ho he a ha i j hi).1),
        norm_split h y y (fun s o a => b s (mir P.dim s o) a) (fun s o a => b s (mir P.dim s o) a)
          (fun s hs hb o ho he a ha i j hi => (k2 s hs hb o ho he a ha i j hi).2)
          (fun s hs hb o ho he a ha i j hi => (k2 s hs hb o ho he a ha i j hi).2)]
      have key := pass_bound hS D (pad x) y b p c f
      rw [outDot_mirror h.d1 h.d3, inDot_eq] at key
      have i1 : (pickSum P w fun s o a => faceDot P fw s a (b s o a) (b s o a)) =
          pickSum P w fun s o a => if P.bc s = .reflect then faceDot P fw s a (b s o a) (b s o a) else 0 := by
        refine pickSum_congr fun s hs o ho he a ha => ?_
        split
        · rfl
        · next hb => exact faceDot_zero (k1 s hs hb o ho he a ha)
      have i2 : (pickSum P w fun s o a => if P.bc s = .reflect then
            faceDot P fw s a (b s (mir P.dim s o) a) (b s (mir P.dim s o) a) else 0) ≤
          pickSum P w fun s o a => faceDot P fw s a (b s (mir P.dim s o) a) (b s (mir P.dim s o) a) := by
        refine pickSum_mono hS.weight fun s hs o ho he a ha => ?_
        split
        · exact le_refl _
        · exact faceDot_nonneg D hs ha _
      rw [i1] at key
      have sq : ∀ u : Nat → K, ∑ c ∈ range P.N, V c * sig c * (u c * u c) = ∑ c ∈ range P.N, V c * sig c * u c ^ 2 :=
        fun u => sum_congr rfl fun c _ => by ring
      rw [sq, sq]
      have hn : 0 ≤ ∑ c ∈ range P.N, V c * sig c * pad x c ^ 2 := sum_nonneg fun c hc =>
        mul_nonneg (mul_pos (hS.vol c (mem_range.1 hc)) (hS.tot c (mem_range.1 hc))).le (sq_nonneg _)
      have hr : r ^ 2 ≤ 1 := by nlinarith [hS.nonneg, hS.less]
      have h6 := mul_le_mul_of_nonneg_left (mul_le_mul_of_nonneg_right hr hn) (half_pos hS.mpos).le
      linarith)
    (fun i => b0 i) (by
      intro x hx
      have e1 : ∑ i : Fin (P.N + P.bsize), slotWeight P w V sig m fw i * (x i * b0 i) =
          ∑ i ∈ range (P.N + P.bsize), slotWeight P w V sig m fw i * (pad x i * b0 i) := by
        rw [sum_range]
        exact sum_congr rfl fun i _ => by rw [pad_at x i i.2]
      rw [e1]
      refine ho _ fun i hi => ?_
      have := congrFun hx ⟨i, hi⟩
      change x ⟨i, hi⟩ - (P.multiply z (pad x)).2 i = x ⟨i, hi⟩ at this
      linarith)
  refine ⟨pad x, fun i hi => ?_⟩
  have := congrFun hx ⟨i, hi⟩
  change x ⟨i, hi⟩ - (x ⟨i, hi⟩ - (P.multiply z (pad x)).2 i) = b0 i at this
  linarith

theorem exists_flux (h : Sweeps P w Sol) (hS : Subcritical P w V sig ss m r) (D : Dissipates P Sol V sig fw)
    (z : St F K) : ∃ phi, IsFlux P w Sol phi := by
  classical
  let R := once P z
  have hR : RhsOf P R := ⟨false, _, z.bdy, rfl, fun _ _ _ _ _ _ _ _ => rfl⟩
  let b0 : Nat → K := fun i => if i < P.N then R.phi i else
    match P.locs[i - P.N]? with
    | some l => P.get (R.bdy l.side (mir P.dim l.side l.octant) l.angle) l.i l.j
    | none => 0
  have b0c : ∀ c < P.N, b0 c = R.phi c := fun c hc => if_pos hc
  have b0l : ∀ s < 2 * P.dim, P.bc s = .reflect → ∀ o < 2 ^ P.dim, Enters s o → ∀ a < P.na, ∀ i j, InFace P s i j →
      b0 (P.slot ⟨s, o, a, i, j⟩) = P.get (R.bdy s (mir P.dim s o) a) i j := by
    intro s hs hb o ho he a ha i j hi
    have hl := (mem_locs h s o a i j).2 ⟨hs, hb, ho, he, ha, hi⟩
    have : ¬ P.slot ⟨s, o, a, i, j⟩ < P.N := by have := (slot_spec h _ hl).1; omega
    simp only [b0, if_neg this]
    unfold Prob.slot
    rw [Nat.add_sub_cancel_left, List.getElem?_idxOf hl]
  obtain ⟨x, hm⟩ := solve_system h hS D z b0 (by
      intro x hx
      obtain ⟨b, p, c, k1, k3, g1, g2, g3, g4⟩ := kernel_facts h hS D z x hx
      rw [norm_split h x b0 b (fun s o a => R.bdy s (mir P.dim s o) a)
        (fun s hs hb o ho he a ha i j hi => (k3 s hs hb o ho he a ha i j hi).1) b0l]
      have z1 : ∑ c ∈ range P.N, V c * sig c * (x c * b0 c) = 0 :=
        sum_eq_zero fun c hc => by rw [g1 c (mem_range.1 hc)]; ring
      rw [z1, mul_zero, zero_add]
      -- the product with what leaves in the uncollided state
      obtain ⟨pR, cR, fR⟩ := h.solves false (P.source P.fixed (fun _ => 0))
        ⟨Boundary.set P.dim P.na P.bc (P.clear z.bdy), fun _ => 0, z.psi⟩
      have e2 : (pickSum P w fun s o a => if P.bc s = .reflect then
          faceDot P fw s a (b s o a) (R.bdy s (mir P.dim s o) a) else 0) = outDot P w fw b R.bdy := by
        rw [outDot_mirror h.d1 h.d3]
        refine pickSum_congr fun s hs o ho he a ha => ?_
        split
        · next hb => exact faceDot_congr (fun i j hi => (k3 s hs hb o ho he a ha i j hi).2) (fun _ _ _ => rfl)
        · next hb => exact (faceDot_zero (g4 s hs hb o ho he a ha)).symm
      have e3 : inDot P w fw b R.bdy = 0 := by
        rw [inDot_eq]
        have : (pickSum P w fun s o a => faceDot P fw s a (b s o a) (R.bdy s o a)) = pickSum P w fun _ _ _ => 0 := by
          refine pickSum_congr fun s hs o ho he a ha => ?_
          by_cases hb : P.bc s = .reflect
          · exact faceDot_zero' fun i j hi => once_in h z s hs hb o ho he a ha i j hi
          · exact faceDot_zero (k1 s hs hb o ho he a ha)
        rw [this]
        unfold pickSum
        exact sum_eq_zero fun o _ => sum_eq_zero fun a _ => by simp
      rw [e2]
      have comb2 : ∀ t : K, outDot P w fw (P.comb t 1 b R.bdy) (P.comb t 1 b R.bdy) =
          t ^ 2 * outDot P w fw b b + 2 * t * outDot P w fw b R.bdy + outDot P w fw R.bdy R.bdy ∧
          inDot P w fw (P.comb t 1 b R.bdy) (P.comb t 1 b R.bdy) =
          t ^ 2 * inDot P w fw b b + 2 * t * inDot P w fw b R.bdy + inDot P w fw R.bdy R.bdy := by
        intro t
        have fd : ∀ s < 2 * P.dim, ∀ o a, faceDot P fw s a (P.comb t 1 b R.bdy s o a) (P.comb t 1 b R.bdy s o a) =
            t ^ 2 * faceDot P fw s a (b s o a) (b s o a) + 2 * t * faceDot P fw s a (b s o a) (R.bdy s o a) +
            faceDot P fw s a (R.bdy s o a) (R.bdy s o a) := fun s hs o a =>
          faceDot_comb h hs a t _ _ _ fun i j hi => by rw [get_comb h t 1 b R.bdy s hs o a i j hi, one_mul]
        constructor
        · unfold outDot
          rw [mul_sum, mul_sum, ← sum_add_distrib, ← sum_add_distrib]
          refine sum_congr rfl fun o _ => ?_
          rw [mul_sum, mul_sum, ← sum_add_distrib, ← sum_add_distrib]
          refine sum_congr rfl fun a _ => ?_
          rw [mul_left_comm (t ^ 2), mul_left_comm (2 * t), ← mul_add, ← mul_add]
          congr 1
          rw [mul_sum, mul_sum, ← sum_add_distrib, ← sum_add_distrib]
          refine sum_congr rfl fun s hs => ?_
          split
          · ring
          · exact fd s (mem_range.1 hs) o a
        · unfold inDot
          rw [mul_sum, mul_sum, ← sum_add_distrib, ← sum_add_distrib]
          refine sum_congr rfl fun o _ => ?_
          rw [mul_sum, mul_sum, ← sum_add_distrib, ← sum_add_distrib]
          refine sum_congr rfl fun a _ => ?_
          rw [mul_left_comm (t ^ 2), mul_left_comm (2 * t), ← mul_add, ← mul_add]
          congr 1
          rw [mul_sum, mul_sum, ← sum_add_distrib, ← sum_add_distrib]
          refine sum_congr rfl fun s hs => ?_
          split
          · exact fd s (mem_range.1 hs) o a
          · ring
      refine linear_zero _ (inDot P w fw R.bdy R.bdy - outDot P w fw R.bdy R.bdy +
        ∑ o ∈ range (2 ^ P.dim), ∑ a ∈ range P.na, w a * ∑ c ∈ range P.N, V c *
          P.source P.fixed (fun _ => 0) o a c * pR o a c -
        ∑ o ∈ range (2 ^ P.dim), ∑ a ∈ range P.na, w a * ∑ c ∈ range P.N, V c * sig c * pR o a c ^ 2) fun t => ?_
      have te := total_energy D hS.weight (P.source P.fixed (fun _ => 0)) (P.comb t 1 b R.bdy)
        (fun o a c => t * p o a c + 1 * pR o a c) (by
          intro o ho a ha
          refine h.lin t 1 _ _ _ o a _ _ _ _ _ _ ho (c o ho a ha) (cR o ho a ha) ?_ (fun _ => rfl)
            (fun side hs i j hi => get_comb h t 1 _ _ side hs o a i j hi)
          intro i hi
          rw [g1 i hi]
          ring)
      rw [(comb2 t).1, (comb2 t).2, e3, g2] at te
      have s1 : ∑ o ∈ range (2 ^ P.dim), ∑ a ∈ range P.na, w a * ∑ c ∈ range P.N, V c * sig c *
          (t * p o a c + 1 * pR o a c) ^ 2 =
          ∑ o ∈ range (2 ^ P.dim), ∑ a ∈ range P.na, w a * ∑ c ∈ range P.N, V c * sig c * pR o a c ^ 2 :=
        sum_congr rfl fun o ho => sum_congr rfl fun a ha => by
          congr 1
          refine sum_congr rfl fun c hc => ?_
          rw [g3 o (mem_range.1 ho) a (mem_range.1 ha) c (mem_range.1 hc)]
          ring
      have s2 : ∑ o ∈ range (2 ^ P.dim), ∑ a ∈ range P.na, w a * ∑ c ∈ range P.N, V c *
          P.source P.fixed (fun _ => 0) o a c * (t * p o a c + 1 * pR o a c) =
          ∑ o ∈ range (2 ^ P.dim), ∑ a ∈ range P.na, w a * ∑ c ∈ range P.N, V c *
          P.source P.fixed (fun _ => 0) o a c * pR o a c :=
        sum_congr rfl fun o ho => sum_congr rfl fun a ha => by
          congr 1
          refine sum_congr rfl fun c hc => ?_
          rw [g3 o (mem_range.1 ho) a (mem_range.1 ha) c (mem_range.1 hc)]
          ring
      rw [s1, s2] at te
      linarith)
  have hoff := off_eq hS.disc
  let eB : Loc → K := fun l => - P.get (R.bdy l.side (mir P.dim l.side l.octant) l.angle) l.i l.j
  have hmis : Mismatch P R.bdy eB := by
    intro side hs hb o ho he o' hmm a ha i j hi
    rw [once_in h z side hs hb o ho he a ha i j hi]
    obtain ⟨_, hm2, _, _⟩ := mir_facts P.dim h.d1 h.d3 side hs o ho
    have : o' = mir P.dim side o := mirror_unique P.dim h.d1 h.d3 side hs o ho o' _ hmm hm2
    rw [this]
    simp only [eB]
    ring
  obtain ⟨bd, psi, hsol, _⟩ := residual_core h hS.np R hR z x eB hmis
  rw [hoff] at hsol
  refine ⟨x, bd, psi, ?_, ?_, hsol.vacuum, hsol.given, ?_⟩
  · intro o ho a ha
    rw [← source_eq hS.disc]
    exact hsol.cells o ho a ha
  · intro c hc
    rw [← hsol.flux c hc, hm c (by omega), b0c c hc]
    unfold Prob.rhsVec
    rw [if_pos hc]
    ring
  · intro side hs hb o ho he o' hmm a ha i j hi
    rw [hsol.reflect side hs hb o ho he o' hmm a ha i j hi]
    have hl := (mem_locs h side o a i j).2 ⟨hs, hb, ho, he, ha, hi⟩
    dsimp only
    rw [hm _ (slot_spec h _ hl).2.1, b0l side hs hb o ho he a ha i j hi]
    unfold Prob.rhsVec
    rw [if_neg (by have := (slot_spec h _ hl).1; omega)]
    simp only [eB]
    ring

end Detran.WGReflect
