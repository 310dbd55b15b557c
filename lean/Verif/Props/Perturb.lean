import Verif.Props.KeffDiff

/-!
# Importance and perturbation theory in diffusion (C147)
-/

namespace Detran.Diffusion
open Detran.Matrix Finset
open Detran.EigenPI (emits makes)

variable {K : Type} [Field K] [LinearOrder K] [IsStrictOrderedRing K]

/-! ## Specification -/

/-- The adjoint problem on the same mesh: what the solvers set up for `adjoint` true, with all groups. -/
def Loss.turned (L : Loss K) : Loss K := { L with adjoint := true, cutoff := L.mat.G - 1 }

/-- The problem with other materials, other arrangement and other albedos on the same mesh. -/
def Loss.changed (L : Loss K) (mat : Material.Mat K) (mm : Nat → Nat) (al : Nat → K) : Loss K := { L with mat := mat, mmap := mm, al := al }

/-- An operator the diffusion solvers set up: admissible, scattering inside, fission outside. -/
structure Plain (L : Loss K) : Prop where
  ok : (L.fed fun _ _ => 0).OK
  outside : L.fission = false
  inside : L.sf = 0

/-- Neutrons born in a group per volume. -/
def born (L : Loss K) (x : Nat → K) (g c : Nat) : K :=
  L.mat.chi g (L.mmap c) * ∑ gp ∈ range L.mat.G, L.mat.nuSigF gp (L.mmap c) * x (c + gp * L.M.size)

/-- Integral over all groups and cells of a density times an importance. -/
def total (L : Loss K) (y : Nat → K) (q : Nat → Nat → K) : K :=
  ∑ g ∈ range L.mat.G, ∑ c ∈ range L.M.size, L.M.volume c * (y (c + g * L.M.size) * q g c)

/-! ## Lemmas -/

section lemmas
variable {L : Loss K}

theorem total_add (y : Nat → K) (q r : Nat → Nat → K) : total L y (fun g c => q g c + r g c) = total L y q + total L y r := by
  unfold total
  simp only [mul_add, sum_add_distrib]

theorem total_sub (y : Nat → K) (q r : Nat → Nat → K) : total L y (fun g c => q g c - r g c) = total L y q - total L y r := by
  unfold total
  simp only [mul_sub, sum_sub_distrib]

theorem total_smul (y : Nat → K) (a : K) (q : Nat → Nat → K) : total L y (fun g c => a * q g c) = a * total L y q := by
  unfold total
  simp only [mul_sum]
  exact sum_congr rfl fun g _ => sum_congr rfl fun c _ => by ring

theorem total_congr (y : Nat → K) {q r : Nat → Nat → K} (h : ∀ g < L.mat.G, ∀ c < L.M.size, q g c = r g c) : total L y q = total L y r :=
  sum_congr rfl fun g hg => sum_congr rfl fun c hc => by rw [h g (mem_range.1 hg) c (mem_range.1 hc)]

theorem total_nonneg (hp : L.Pos) {y : Nat → K} {q : Nat → Nat → K} (h : ∀ g < L.mat.G, ∀ c < L.M.size, 0 ≤ y (c + g * L.M.size) * q g c) :
    0 ≤ total L y q :=
  sum_nonneg fun g hg => sum_nonneg fun c hc =>
    mul_nonneg (mul_nonneg (mul_nonneg (hp.h _ _).le (hp.h _ _).le) (hp.h _ _).le) (h g (mem_range.1 hg) c (mem_range.1 hc))

theorem total_pos (hp : L.Pos) {y : Nat → K} {q : Nat → Nat → K} (h : ∀ g < L.mat.G, ∀ c < L.M.size, 0 ≤ y (c + g * L.M.size) * q g c)
    {g c : Nat} (hg : g < L.mat.G) (hc : c < L.M.size) (hpos : 0 < y (c + g * L.M.size) * q g c) : 0 < total L y q := by
  have hV : ∀ c, 0 < L.M.volume c := fun c => mul_pos (mul_pos (hp.h _ _) (hp.h _ _)) (hp.h _ _)
  refine lt_of_lt_of_le (mul_pos (hV c) hpos) ((single_le_sum (f := fun c => L.M.volume c * (y (c + g * L.M.size) * q g c))
    (fun c hc => mul_nonneg (hV c).le (h g hg c (mem_range.1 hc))) (mem_range.2 hc)).trans ?_)
  exact single_le_sum (f := fun g => ∑ c ∈ range L.M.size, L.M.volume c * (y (c + g * L.M.size) * q g c))
    (fun g hg => sum_nonneg fun c hc => mul_nonneg (hV c).le (h g (mem_range.1 hg) c (mem_range.1 hc))) (mem_range.2 hg)

theorem plain_inXs (h : Plain L) (g gp c : Nat) : L.inXs g gp c = L.scatXs g gp c := by
  unfold Loss.inXs
  simp [h.outside, h.inside]

theorem plain_lhs (h : Plain L) (x : Nat → K) (g c : Nat) : L.lhs x g c =
    (∑ leak ∈ range 6, L.faceTerm g (fun c => x (c + g * L.M.size)) c leak / L.M.width c (leak / 2)) +
      (L.mat.sigT g (L.mmap c) * x (c + g * L.M.size) - ∑ gp ∈ range L.mat.G, L.scatXs g gp c * x (c + gp * L.M.size)) := by
  have ac : L.active = range L.mat.G := h.ok.active
  have po : ∀ g c, L.pos g c = c + g * L.M.size := h.ok.pos
  unfold Loss.lhs
  rw [local_eq, ac]
  simp only [po, plain_inXs h]

/-- Leakage weighted with any function is leakage of that function weighted with the flux. -/
theorem leak_symm (hh : ∀ a i, L.M.h a i ≠ 0) (x y : Nat → K) :
    total L y (fun g c => ∑ leak ∈ range 6, L.faceTerm g (fun c => x (c + g * L.M.size)) c leak / L.M.width c (leak / 2)) =
      total L x (fun g c => ∑ leak ∈ range 6, L.faceTerm g (fun c => y (c + g * L.M.size)) c leak / L.M.width c (leak / 2)) := by
  refine sum_congr rfl fun g _ => ?_
  rcases Nat.eq_zero_or_pos L.M.size with h0 | h0
  · simp [h0]
  have k1 := leak_form L hh h0 g (fun c => x (c + g * L.M.size)) fun c => y (c + g * L.M.size)
  have k2 := leak_form L hh h0 g (fun c => y (c + g * L.M.size)) fun c => x (c + g * L.M.size)
  rw [form_symm L g 0, form_symm L g 1, form_symm L g 2] at k1
  simp only [← mul_assoc]
  exact k1.trans k2.symm

/-- The adjoint operator is the transposed one. -/
theorem green (hh : ∀ a i, L.M.h a i ≠ 0) (hf : L.adjoint = false) (h : Plain L) (h' : Plain L.turned) (x y : Nat → K) :
    total L y (L.lhs x) = total L x (L.turned.lhs y) := by
  have e : ∀ g gp c, L.turned.scatXs g gp c = L.scatXs gp g c := fun g gp c => by
    unfold Loss.scatXs
    rw [hf]
    rfl
  rw [total_congr y fun g _ c _ => plain_lhs h x g c, total_congr x fun g _ c _ => plain_lhs h' y g c, total_add, total_add, total_sub,
    total_sub]
  congr 1
  · exact leak_symm hh x y
  congr 1
  · exact sum_congr rfl fun g _ => sum_congr rfl fun c _ => by
      show _ = L.M.volume c * (x (c + g * L.M.size) * (L.mat.sigT g (L.mmap c) * y (c + g * L.M.size)))
      ring
  · unfold total
    simp only [mul_sum]
    rw [sum_comm, sum_comm (s := range L.mat.G)]
    refine sum_congr rfl fun c _ => ?_
    rw [sum_comm]
    refine sum_congr rfl fun g _ => sum_congr rfl fun gp _ => ?_
    rw [e]
    show _ = L.M.volume c * (x (c + g * L.M.size) * (L.scatXs gp g c * y (c + gp * L.M.size)))
    ring

theorem plain_fed (h : Plain L) (q : Nat → Nat → K) : (L.fed q).OK := ⟨h.ok.op, h.ok.full, h.ok.side, h.ok.flat⟩

theorem plain_rhs (h : Plain L) (q : Nat → Nat → K) {g c : Nat} (hg : g < L.mat.G) (hc : c < L.M.size) :
    (L.fed q).rhs (c + g * L.M.size) = q g c := by
  have e := C101_source (L.fed q) h.ok.op.grid.dim_le hg hc
  have e0 : ∀ leak, (L.fed q).jinAt g c leak = 0 := fun _ => rfl
  have e1 : (L.fed q).given g c = q g c := by
    unfold FixedSrc.given Loss.fed
    simp [h.outside]
  rw [e1] at e
  refine e.trans ?_
  rw [sum_eq_zero fun leak _ => by simp [e0], add_zero]

theorem plain_eigen (h : Plain L) (srt : List (Trip K) → List (Trip K)) (hs : IsSort srt) {C : CSR K} {bs : List Bool}
    (hC : L.sys.make srt = .ok (some C, bs)) {k : K} {x : Nat → K} (hx : DiffEigen L C k x) {g c : Nat} (hg : g < L.mat.G) (hc : c < L.M.size) :
    L.lhs x g c = 1 / k * (L.dens x c * emits L.src g c) :=
  ((solves_iff (L.fed _) (plain_fed h _) srt hs C bs hC x).1 hx g hg c hc).trans (plain_rhs h _ hg hc)

theorem born_forward (hf : L.adjoint = false) (x : Nat → K) (g c : Nat) : L.dens x c * emits L.src g c = born L x g c := by
  unfold Loss.dens born emits makes Loss.src
  rw [hf]
  simp only [Bool.false_eq_true, if_false]
  rw [mul_comm]

/-- Births weighted with an importance are adjoint births weighted with the flux. -/
theorem born_turned (x y : Nat → K) : total L x (fun g c => L.turned.dens y c * emits L.turned.src g c) = total L y (born L x) := by
  unfold total born
  rw [sum_comm, sum_comm (s := range L.mat.G)]
  refine sum_congr rfl fun c _ => ?_
  have e : ∀ g, L.turned.dens y c * emits L.turned.src g c =
      (∑ gp ∈ range L.mat.G, L.mat.chi gp (L.mmap c) * y (c + gp * L.M.size)) * L.mat.nuSigF g (L.mmap c) := fun g => rfl
  simp only [e]
  have a1 : ∑ g ∈ range L.mat.G, L.M.volume c * (x (c + g * L.M.size) *
      ((∑ gp ∈ range L.mat.G, L.mat.chi gp (L.mmap c) * y (c + gp * L.M.size)) * L.mat.nuSigF g (L.mmap c))) =
      L.M.volume c * ((∑ gp ∈ range L.mat.G, L.mat.chi gp (L.mmap c) * y (c + gp * L.M.size)) *
        ∑ g ∈ range L.mat.G, L.mat.nuSigF g (L.mmap c) * x (c + g * L.M.size)) := by
    rw [mul_sum, mul_sum]
    exact sum_congr rfl fun g _ => by ring
  rw [a1, sum_mul, mul_sum]
  exact sum_congr rfl fun g _ => by ring

end lemmas

/-! ## Importance -/

/-- A detector's response to sources and incident currents is what they are worth by the adjoint flux of the detector. -/
theorem C147_importance {S S' : FixedSrc K} (ok : S.OK) (ok' : S'.OK) (hp : S.L.Pos) (hf : S.L.adjoint = false) (hi : S.L.fission = false)
    (h0 : S.L.sf = 0) (hS : S'.L = S.L.turned) (srt : List (Trip K) → List (Trip K)) (hs : IsSort srt) (C C' : CSR K) (bs bs' : List Bool)
    (hC : S.L.sys.make srt = .ok (some C, bs)) (hC' : S'.L.sys.make srt = .ok (some C', bs')) (x y : Nat → K)
    (hx : ∀ p < S.L.mat.G * S.L.M.size, C.multiply x p = S.rhs p) (hy : ∀ p < S.L.mat.G * S.L.M.size, C'.multiply y p = S'.rhs p) :
    ∑ g ∈ range S.L.mat.G, ∑ c ∈ range S.L.M.size, S.L.M.volume c * (x (c + g * S.L.M.size) * S'.rhs (c + g * S.L.M.size)) =
      ∑ g ∈ range S.L.mat.G, ∑ c ∈ range S.L.M.size, S.L.M.volume c * (y (c + g * S.L.M.size) * S.rhs (c + g * S.L.M.size)) := by
  obtain ⟨L', q, q', j⟩ := S'
  obtain rfl : L' = S.L.turned := hS
  have P : Plain S.L := ⟨⟨ok.op, ok.full, fun l hl => (ok.side l hl).imp id fun h => ⟨h.1, fun _ _ _ => rfl⟩, ok.flat⟩, hi, h0⟩
  have P' : Plain S.L.turned :=
    ⟨⟨ok'.op, ok'.full, fun l hl => (ok'.side l hl).imp id fun h => ⟨h.1, fun _ _ _ => rfl⟩, ok'.flat⟩, hi, h0⟩
  have e1 := (solves_iff S ok srt hs C bs hC x).1 hx
  have e2 := (solves_iff _ ok' srt hs C' bs' hC' y).1 hy
  have g1 := green (fun a i => (hp.h a i).ne') hf P P' x y
  rw [total_congr y e1, total_congr (L := S.L) (q := S.L.turned.lhs y) x fun g hg c hc => e2 g hg c hc] at g1
  exact g1.symm

section modes
variable {L : Loss K} (hp : L.Pos) (hf : L.adjoint = false) (h : Plain L) (h' : Plain L.turned) (srt : List (Trip K) → List (Trip K))
  (hs : IsSort srt) {C' : CSR K} {bs' : List Bool} (hC' : L.turned.sys.make srt = .ok (some C', bs'))
include hp hf h h' hs hC'

/-- What an adjoint mode makes of any distribution: removal and births balance in the mean weighted with it. -/
theorem adjoint_balance {k : K} {y : Nat → K} (hy : DiffEigen L.turned C' k y) (x : Nat → K) :
    total L y (L.lhs x) = 1 / k * total L y (born L x) := by
  rw [green (fun a i => (hp.h a i).ne') hf h h' x y, ← born_turned x y, ← total_smul]
  exact total_congr x fun g hg c hc => plain_eigen h' srt hs hC' hy hg hc

/-- Forward and adjoint modes with different factors are orthogonal. -/
theorem C147_orthogonal {C : CSR K} {bs : List Bool} (hC : L.sys.make srt = .ok (some C, bs)) {k k' : K} (h0 : k ≠ 0) (h0' : k' ≠ 0)
    {x y : Nat → K} (hx : DiffEigen L C k x) (hy : DiffEigen L.turned C' k' y) : k = k' ∨ total L y (born L x) = 0 := by
  have b := adjoint_balance hp hf h h' srt hs hC' hy x
  rw [total_congr y (r := fun g c => 1 / k * born L x g c) fun g hg c hc => by
    rw [plain_eigen h srt hs hC hx hg hc, born_forward hf], total_smul] at b
  by_cases e : total L y (born L x) = 0
  · exact Or.inr e
  · left
    have := mul_right_cancel₀ e b
    field_simp at this
    exact this.symm

/-- Non-negative forward and adjoint modes that meet in a fissile cell have the same factor. -/
theorem C147_keff {C : CSR K} {bs : List Bool} (hC : L.sys.make srt = .ok (some C, bs)) {k k' : K} (h0 : k ≠ 0) (h0' : k' ≠ 0)
    {x y : Nat → K} (hx : DiffEigen L C k x) (hy : DiffEigen L.turned C' k' y)
    (hchi : ∀ g < L.mat.G, ∀ c < L.M.size, 0 ≤ L.mat.chi g (L.mmap c)) (hnu : ∀ g < L.mat.G, ∀ c < L.M.size, 0 ≤ L.mat.nuSigF g (L.mmap c))
    (x0 : ∀ g < L.mat.G, ∀ c < L.M.size, 0 ≤ x (c + g * L.M.size)) (y0 : ∀ g < L.mat.G, ∀ c < L.M.size, 0 ≤ y (c + g * L.M.size))
    {g gp c : Nat} (hg : g < L.mat.G) (hgp : gp < L.mat.G) (hc : c < L.M.size) (hb : 0 < L.mat.chi g (L.mmap c) * y (c + g * L.M.size))
    (hm : 0 < L.mat.nuSigF gp (L.mmap c) * x (c + gp * L.M.size)) : k = k' := by
  refine (C147_orthogonal hp hf h h' srt hs hC' hC h0 h0' hx hy).resolve_right (ne_of_gt ?_)
  have n : ∀ c < L.M.size, 0 ≤ ∑ gp ∈ range L.mat.G, L.mat.nuSigF gp (L.mmap c) * x (c + gp * L.M.size) := fun c hc =>
    sum_nonneg fun gp hgp => mul_nonneg (hnu gp (mem_range.1 hgp) c hc) (x0 gp (mem_range.1 hgp) c hc)
  refine total_pos hp (fun g hg c hc => mul_nonneg (y0 g hg c hc) (mul_nonneg (hchi g hg c hc) (n c hc))) hg hc ?_
  have p : 0 < ∑ gp ∈ range L.mat.G, L.mat.nuSigF gp (L.mmap c) * x (c + gp * L.M.size) :=
    sum_pos' (fun gp hgp => mul_nonneg (hnu gp (mem_range.1 hgp) c hc) (x0 gp (mem_range.1 hgp) c hc)) ⟨gp, mem_range.2 hgp, hm⟩
  have := mul_pos hb p
  show 0 < y (c + g * L.M.size) * (L.mat.chi g (L.mmap c) * _)
  rw [← mul_assoc, mul_comm (y _)]
  exact this

/-! ## Perturbation theory -/

variable {mat : Material.Mat K} {mm : Nat → Nat} {al : Nat → K} (hG : mat.G = L.mat.G) (h1 : Plain (L.changed mat mm al))
  (hp1 : (L.changed mat mm al).Pos)
include hG h1 hp1

/-- The change of reactivity, exactly: with the adjoint flux of the one and the flux of the other problem, the births gained, less leakage and
    collisions gained, plus scattering gained. -/
theorem C147_exact {C1 : CSR K} {bs1 : List Bool} (hC1 : (L.changed mat mm al).sys.make srt = .ok (some C1, bs1)) {k0 k1 : K}
    {x y : Nat → K} (hx : DiffEigen (L.changed mat mm al) C1 k1 x) (hy : DiffEigen L.turned C' k0 y) (J0 J1 : Nat → Nat → Nat → K)
    (hJ0 : ∀ g < L.mat.G, ∀ c < L.M.size, ∀ leak < 6, L.IsCurrent g (fun c => x (c + g * L.M.size)) c leak (J0 g c leak))
    (hJ1 : ∀ g < L.mat.G, ∀ c < L.M.size, ∀ leak < 6, (L.changed mat mm al).IsCurrent g (fun c => x (c + g * L.M.size)) c leak (J1 g c leak)) :
    (1 / k0 - 1 / k1) * total L y (born (L.changed mat mm al) x) =
      1 / k0 * total L y (fun g c => born (L.changed mat mm al) x g c - born L x g c) -
      total L y (fun g c => ∑ leak ∈ range 6, (J1 g c leak - J0 g c leak) / L.M.width c (leak / 2)) -
      total L y (fun g c => (mat.sigT g (mm c) - L.mat.sigT g (L.mmap c)) * x (c + g * L.M.size)) +
      total L y (fun g c => ∑ gp ∈ range L.mat.G, (mat.sigS g gp (mm c) - L.mat.sigS g gp (L.mmap c)) * x (c + gp * L.M.size)) := by
  have b := adjoint_balance hp hf h h' srt hs hC' hy x
  have b1 : total L y ((L.changed mat mm al).lhs x) = 1 / k1 * total L y (born (L.changed mat mm al) x) := by
    rw [← total_smul]
    refine total_congr y fun g hg c hc => ?_
    rw [plain_eigen h1 srt hs hC1 hx (show g < mat.G by rw [hG]; exact hg) hc, born_forward (L := L.changed mat mm al) hf]
  have d : total L y (fun g c => (L.changed mat mm al).lhs x g c - L.lhs x g c) =
      total L y (fun g c => ∑ leak ∈ range 6, (J1 g c leak - J0 g c leak) / L.M.width c (leak / 2)) +
      total L y (fun g c => (mat.sigT g (mm c) - L.mat.sigT g (L.mmap c)) * x (c + g * L.M.size)) -
      total L y (fun g c => ∑ gp ∈ range L.mat.G, (mat.sigS g gp (mm c) - L.mat.sigS g gp (L.mmap c)) * x (c + gp * L.M.size)) := by
    rw [← total_add, ← total_sub]
    refine total_congr y fun g hg c hc => ?_
    rw [plain_lhs h1, plain_lhs h]
    have s1 : ∀ gp, (L.changed mat mm al).scatXs g gp c = mat.sigS g gp (mm c) := fun gp => by
      unfold Loss.scatXs Loss.changed
      simp [hf]
    have s0 : ∀ gp, L.scatXs g gp c = L.mat.sigS g gp (L.mmap c) := fun gp => by
      unfold Loss.scatXs
      simp [hf]
    have t : ∑ leak ∈ range 6, (J1 g c leak - J0 g c leak) / L.M.width c (leak / 2) =
        (∑ leak ∈ range 6, (L.changed mat mm al).faceTerm g (fun c => x (c + g * L.M.size)) c leak / L.M.width c (leak / 2)) -
        ∑ leak ∈ range 6, L.faceTerm g (fun c => x (c + g * L.M.size)) c leak / L.M.width c (leak / 2) := by
      rw [← sum_sub_distrib]
      refine sum_congr rfl fun leak hl => ?_
      rw [(isCurrent_iff _ hp1 _ _ _ _ _).1 (hJ1 g hg c hc leak (mem_range.1 hl)), (isCurrent_iff _ hp _ _ _ _ _).1 (hJ0 g hg c hc leak (mem_range.1 hl)),
        sub_div]
    rw [t]
    show (_ + (mat.sigT g (mm c) * x (c + g * L.M.size) - ∑ gp ∈ range mat.G, (L.changed mat mm al).scatXs g gp c * x (c + gp * L.M.size))) - _ = _
    simp only [s1, s0, hG, sub_mul, sum_sub_distrib]
    show (∑ leak ∈ range 6, (L.changed mat mm al).faceTerm g (fun c => x (c + g * L.M.size)) c leak / L.M.width c (leak / 2) + _) - _ = _
    ring
  rw [total_sub, b, b1] at d
  rw [total_sub]
  linear_combination -d

/-- With any other flux, such as that of the unchanged problem, in place of the flux of the changed one the error is the change of the
    operators applied to the difference of the fluxes: of second order. -/
theorem C147_second {C1 : CSR K} {bs1 : List Bool} (hC1 : (L.changed mat mm al).sys.make srt = .ok (some C1, bs1)) {k0 k1 : K}
    {x y : Nat → K} (x0 : Nat → K) (hx : DiffEigen (L.changed mat mm al) C1 k1 x) (hy : DiffEigen L.turned C' k0 y) :
    (1 / k0 - 1 / k1) * total L y (born (L.changed mat mm al) x0) =
      1 / k0 * total L y (fun g c => born (L.changed mat mm al) x0 g c - born L x0 g c) -
      total L y (fun g c => (L.changed mat mm al).lhs x0 g c - L.lhs x0 g c) +
      (total L y (fun g c => (L.changed mat mm al).lhs (fun p => x0 p - x p) g c - L.lhs (fun p => x0 p - x p) g c) -
       total L y (fun g c => 1 / k1 * born (L.changed mat mm al) (fun p => x0 p - x p) g c - 1 / k0 * born L (fun p => x0 p - x p) g c)) := by
  have b := adjoint_balance hp hf h h' srt hs hC' hy (fun p => x0 p - x p)
  have b0 : total L y (L.lhs x0) = 1 / k0 * total L y (born L x0) := adjoint_balance hp hf h h' srt hs hC' hy x0
  have b1 : total L y ((L.changed mat mm al).lhs x) = 1 / k1 * total L y (born (L.changed mat mm al) x) := by
    rw [← total_smul]
    refine total_congr y fun g hg c hc => ?_
    rw [plain_eigen h1 srt hs hC1 hx (show g < mat.G by rw [hG]; exact hg) hc, born_forward (L := L.changed mat mm al) hf]
  have l1 : total L y ((L.changed mat mm al).lhs (fun p => x0 p - x p)) =
      total L y ((L.changed mat mm al).lhs x0) - total L y ((L.changed mat mm al).lhs x) := by
    rw [← total_sub]
    refine total_congr y fun g _ c _ => ?_
    have := lhs_comb (L.changed mat mm al) 1 (-1) x0 x g c
    simp only [one_mul, neg_mul, ← sub_eq_add_neg] at this
    exact this
  have l2 : total L y (born (L.changed mat mm al) (fun p => x0 p - x p)) =
      total L y (born (L.changed mat mm al) x0) - total L y (born (L.changed mat mm al) x) := by
    rw [← total_sub]
    refine total_congr y fun g _ c _ => ?_
    unfold born
    simp only [mul_sub, sum_sub_distrib]
  simp only [total_sub, total_smul]
  linear_combination -b0 + b + b1 - l1 + 1 / k1 * l2

/-- With the same leakage, more collisions, less scattering and fewer births lower the factor, by a positive amount if any of these happens where flux and
    importance are positive. -/
theorem C147_worse {C1 : CSR K} {bs1 : List Bool} (hC1 : (L.changed mat mm al).sys.make srt = .ok (some C1, bs1)) {k0 k1 : K} (h0 : 0 < k0)
    (h01 : 0 < k1) {x y : Nat → K} (hx : DiffEigen (L.changed mat mm al) C1 k1 x) (hy : DiffEigen L.turned C' k0 y)
    (hal : al = L.al) (hdc : ∀ g < L.mat.G, ∀ c < L.M.size, mat.diff g (mm c) = L.mat.diff g (L.mmap c))
    (x0 : ∀ g < L.mat.G, ∀ c < L.M.size, 0 ≤ x (c + g * L.M.size)) (y0 : ∀ g < L.mat.G, ∀ c < L.M.size, 0 ≤ y (c + g * L.M.size))
    (ht : ∀ g < L.mat.G, ∀ c < L.M.size, L.mat.sigT g (L.mmap c) ≤ mat.sigT g (mm c))
    (hsc : ∀ g < L.mat.G, ∀ gp < L.mat.G, ∀ c < L.M.size, mat.sigS g gp (mm c) ≤ L.mat.sigS g gp (L.mmap c))
    (hfi : ∀ g < L.mat.G, ∀ gp < L.mat.G, ∀ c < L.M.size,
      mat.chi g (mm c) * mat.nuSigF gp (mm c) ≤ L.mat.chi g (L.mmap c) * L.mat.nuSigF gp (L.mmap c))
    (hB : 0 < total L y (born (L.changed mat mm al) x)) :
    k1 ≤ k0 ∧ ∀ g < L.mat.G, ∀ gp < L.mat.G, ∀ c < L.M.size, 0 < y (c + g * L.M.size) → 0 < x (c + gp * L.M.size) →
      (mat.sigS g gp (mm c) < L.mat.sigS g gp (L.mmap c) ∨
        mat.chi g (mm c) * mat.nuSigF gp (mm c) < L.mat.chi g (L.mmap c) * L.mat.nuSigF gp (L.mmap c) ∨
        g = gp ∧ L.mat.sigT g (L.mmap c) < mat.sigT g (mm c)) → k1 < k0 := by
  have ex := C147_exact hp hf h h' srt hs hC' hG h1 hp1 hC1 hx hy
    (fun g c leak => L.faceTerm g (fun c => x (c + g * L.M.size)) c leak)
    (fun g c leak => (L.changed mat mm al).faceTerm g (fun c => x (c + g * L.M.size)) c leak)
    (fun g _ c _ leak _ => (isCurrent_iff L hp _ _ _ _ _).2 rfl) (fun g _ c _ leak _ => (isCurrent_iff _ hp1 _ _ _ _ _).2 rfl)
  have z : total L y (fun g c => ∑ leak ∈ range 6, ((L.changed mat mm al).faceTerm g (fun c => x (c + g * L.M.size)) c leak -
      L.faceTerm g (fun c => x (c + g * L.M.size)) c leak) / L.M.width c (leak / 2)) = total L y fun _ _ => 0 := by
    refine total_congr y fun g hg c hc => sum_eq_zero fun leak hl => ?_
    have d1 : (L.changed mat mm al).dc g c = L.dc g c := hdc g hg c hc
    by_cases hb : L.M.onBoundary c leak = true
    · have : (L.changed mat mm al).faceTerm g (fun c => x (c + g * L.M.size)) c leak = L.faceTerm g (fun c => x (c + g * L.M.size)) c leak := by
        unfold Loss.faceTerm Loss.dtilde
        show (if L.M.onBoundary c leak then (if L.M.onBoundary c leak then dBoundary ((L.changed mat mm al).dc g c) (al leak) _ else _) * _ else _) = _
        rw [if_pos hb, if_pos hb, if_pos hb, if_pos hb, d1, hal]
        rfl
      rw [this, sub_self, zero_div]
    · have hn := (neighbour_spec L.M hc (mem_range.1 hl) (Bool.eq_false_iff.2 hb)).1
      have d2 : (L.changed mat mm al).dc g (L.M.neighbour c leak) = L.dc g (L.M.neighbour c leak) := hdc g hg _ hn
      have : (L.changed mat mm al).faceTerm g (fun c => x (c + g * L.M.size)) c leak = L.faceTerm g (fun c => x (c + g * L.M.size)) c leak := by
        unfold Loss.faceTerm Loss.dtilde
        show (if L.M.onBoundary c leak then _ else
          (if L.M.onBoundary c leak then _ else dInterior ((L.changed mat mm al).dc g c) ((L.changed mat mm al).dc g (L.M.neighbour c leak)) _ _) * _) = _
        rw [if_neg hb, if_neg hb, if_neg hb, if_neg hb, d1, d2]
        rfl
      rw [this, sub_self, zero_div]
  have z0 : total L y (fun _ _ => 0) = 0 := by unfold total; simp
  rw [z, z0, sub_zero] at ex
  -- the loss of reactivity as one integral of nonnegative terms
  have nb : ∀ g c, born L x g c - born (L.changed mat mm al) x g c =
      ∑ gp ∈ range L.mat.G, (L.mat.chi g (L.mmap c) * L.mat.nuSigF gp (L.mmap c) - mat.chi g (mm c) * mat.nuSigF gp (mm c)) * x (c + gp * L.M.size) := by
    intro g c
    unfold born
    show _ - mat.chi g (mm c) * ∑ gp ∈ range mat.G, mat.nuSigF gp (mm c) * x (c + gp * L.M.size) = _
    rw [hG, mul_sum, mul_sum, ← sum_sub_distrib]
    exact sum_congr rfl fun gp _ => by ring
  let W : Nat → Nat → K := fun g c => 1 / k0 * (born L x g c - born (L.changed mat mm al) x g c) +
    ((mat.sigT g (mm c) - L.mat.sigT g (L.mmap c)) * x (c + g * L.M.size) +
      ∑ gp ∈ range L.mat.G, (L.mat.sigS g gp (L.mmap c) - mat.sigS g gp (mm c)) * x (c + gp * L.M.size))
  have eW : (1 / k1 - 1 / k0) * total L y (born (L.changed mat mm al) x) = total L y W := by
    have e3 : total L y (fun g c => ∑ gp ∈ range L.mat.G, (L.mat.sigS g gp (L.mmap c) - mat.sigS g gp (mm c)) * x (c + gp * L.M.size)) =
        -total L y (fun g c => ∑ gp ∈ range L.mat.G, (mat.sigS g gp (mm c) - L.mat.sigS g gp (L.mmap c)) * x (c + gp * L.M.size)) := by
      rw [eq_neg_iff_add_eq_zero, ← total_add, ← z0]
      refine total_congr y fun g _ c _ => ?_
      rw [← sum_add_distrib]
      exact sum_eq_zero fun gp _ => by ring
    have : total L y W = _ := total_add y _ _
    rw [this, total_smul, total_add, e3, total_sub]
    rw [total_sub] at ex
    linear_combination -ex
  have n1 : ∀ g < L.mat.G, ∀ c < L.M.size, 0 ≤ (mat.sigT g (mm c) - L.mat.sigT g (L.mmap c)) * x (c + g * L.M.size) := fun g hg c hc =>
    mul_nonneg (sub_nonneg.2 (ht g hg c hc)) (x0 g hg c hc)
  have n2 : ∀ g < L.mat.G, ∀ c < L.M.size, ∀ gp ∈ range L.mat.G,
      0 ≤ (L.mat.sigS g gp (L.mmap c) - mat.sigS g gp (mm c)) * x (c + gp * L.M.size) := fun g hg c hc gp hgp =>
    mul_nonneg (sub_nonneg.2 (hsc g hg gp (mem_range.1 hgp) c hc)) (x0 gp (mem_range.1 hgp) c hc)
  have n3 : ∀ g < L.mat.G, ∀ c < L.M.size, ∀ gp ∈ range L.mat.G,
      0 ≤ (L.mat.chi g (L.mmap c) * L.mat.nuSigF gp (L.mmap c) - mat.chi g (mm c) * mat.nuSigF gp (mm c)) * x (c + gp * L.M.size) :=
    fun g hg c hc gp hgp => mul_nonneg (sub_nonneg.2 (hfi g hg gp (mem_range.1 hgp) c hc)) (x0 gp (mem_range.1 hgp) c hc)
  have k0' : 0 < 1 / k0 := by positivity
  have nW : ∀ g < L.mat.G, ∀ c < L.M.size, 0 ≤ W g c := fun g hg c hc => by
    refine add_nonneg (mul_nonneg k0'.le ?_) (add_nonneg (n1 g hg c hc) (sum_nonneg (n2 g hg c hc)))
    rw [nb]
    exact sum_nonneg (n3 g hg c hc)
  have conv : ∀ {a : K}, (1 / k1 - 1 / k0) * total L y (born (L.changed mat mm al) x) = a → (0 ≤ a → k1 ≤ k0) ∧ (0 < a → k1 < k0) := fun {a} e => by
    constructor
    · intro ha
      rw [← e] at ha
      have := nonneg_of_mul_nonneg_left ha hB
      exact (one_div_le_one_div h0 h01).1 (by linarith)
    · intro ha
      rw [← e] at ha
      have := (mul_pos_iff_of_pos_right hB).1 ha
      exact (one_div_lt_one_div h0 h01).1 (by linarith)
  refine ⟨(conv eW).1 (total_nonneg hp fun g hg c hc => mul_nonneg (y0 g hg c hc) (nW g hg c hc)), fun g hg gp hgp c hc yp xp hd => (conv eW).2 ?_⟩
  refine total_pos hp (fun g hg c hc => mul_nonneg (y0 g hg c hc) (nW g hg c hc)) hg hc (mul_pos yp ?_)
  have nB : 0 ≤ 1 / k0 * (born L x g c - born (L.changed mat mm al) x g c) := by
    rw [nb]
    exact mul_nonneg k0'.le (sum_nonneg (n3 g hg c hc))
  rcases hd with hd | hd | ⟨rfl, hd⟩
  · have := single_le_sum (n2 g hg c hc) (mem_range.2 hgp)
    have q : 0 < (L.mat.sigS g gp (L.mmap c) - mat.sigS g gp (mm c)) * x (c + gp * L.M.size) := mul_pos (sub_pos.2 hd) xp
    exact add_pos_of_nonneg_of_pos nB (add_pos_of_nonneg_of_pos (n1 g hg c hc) (q.trans_le this))
  · have := single_le_sum (n3 g hg c hc) (mem_range.2 hgp)
    have q : 0 < (L.mat.chi g (L.mmap c) * L.mat.nuSigF gp (L.mmap c) - mat.chi g (mm c) * mat.nuSigF gp (mm c)) * x (c + gp * L.M.size) :=
      mul_pos (sub_pos.2 hd) xp
    refine add_pos_of_pos_of_nonneg (mul_pos k0' ?_) (add_nonneg (n1 g hg c hc) (sum_nonneg (n2 g hg c hc)))
    rw [nb]
    exact q.trans_le this
  · exact add_pos_of_nonneg_of_pos nB (add_pos_of_pos_of_nonneg (mul_pos (sub_pos.2 hd) xp) (sum_nonneg (n2 g hg c hc)))

end modes

/-! ## Concrete case -/

theorem flat_eigen {L : Loss K} (h : Plain L) (hp : L.Pos) (srt : List (Trip K) → List (Trip K)) (hs : IsSort srt) {C : CSR K} {bs : List Bool}
    (hC : L.sys.make srt = .ok (some C, bs)) (hal : ∀ leak < 2 * L.M.dim, L.al leak = 1) {k : K} (v : Nat → K)
    (hv : ∀ g < L.mat.G, ∀ c < L.M.size, L.mat.sigT g (L.mmap c) * v g =
      1 / k * (L.dens (fun p => v (p / L.M.size)) c * emits L.src g c) + ∑ gp ∈ range L.mat.G, L.inXs g gp c * v gp) :
    DiffEigen L C k (fun p => v (p / L.M.size)) := fun p hlt =>
  C131_diffusion (L.fed _) (plain_fed h _) hp srt hs C bs hC v (fun l hl => .inl (hal l hl)) (fun g hg c hc => by
    have e : (L.fed fun g c => 1 / k * (L.dens (fun p => v (p / L.M.size)) c * emits L.src g c)).given g c =
        1 / k * (L.dens (fun p => v (p / L.M.size)) c * emits L.src g c) := by
      unfold FixedSrc.given Loss.fed
      simp [h.outside]
    rw [e]
    exact hv g hg c hc) p hlt

section cases

/-- Fuel between mirrors (C134), and the same with more slow collisions. -/
def pin : Loss ℚ := core ℚ (fun _ => 0) 1
def poisoned : Material.Mat ℚ := { coreMat ℚ with sigT := fun g _ => if g = 1 then 3 / 2 else 1 }

theorem pin_plain : Plain pin := ⟨core_ok _ (fun _ => by decide) 1 (.inr rfl), rfl, rfl⟩

theorem pin_turned : Plain pin.turned := by
  have h := core_ok (K := ℚ) (fun _ => 0) (fun _ => by decide) 1 (.inr rfl)
  exact ⟨⟨⟨h.op.grid, h.op.fin, h.op.nn, h.op.mm, show (1 : Nat) < 2 by decide⟩, rfl, h.side, h.flat⟩, rfl, rfl⟩

theorem pin_changed : Plain (pin.changed poisoned.finalize (fun _ => 0) pin.al) := by
  have h := core_ok (K := ℚ) (fun _ => 0) (fun _ => by decide) 1 (.inr rfl)
  exact ⟨⟨⟨h.op.grid, ⟨poisoned, rfl⟩, h.op.nn, h.op.mm, Nat.zero_le _⟩, rfl, h.side, h.flat⟩, rfl, rfl⟩

theorem pin_pos : pin.Pos := (core_sub (K := ℚ) (fun _ => 0) (fun _ => by decide) 1 (.inr rfl)).pos

theorem pin_changed_pos : (pin.changed poisoned.finalize (fun _ => 0) pin.al).Pos := ⟨pin_pos.h, pin_pos.dc, pin_pos.al⟩

/-- Fluxes of the poisoned fuel and of the fuel's adjoint. -/
def slow (p : Nat) : ℚ := if p / 6 = 0 then 4 else 1
def worthy (p : Nat) : ℚ := if p / 6 = 0 then 1 else 2

/-- The modes are there, with factors a quarter and a half, and perturbation theory accounts for the difference. -/
example (srt : List (Trip ℚ) → List (Trip ℚ)) (hs : IsSort srt) {C' C1 : CSR ℚ} {bs' bs1 : List Bool}
    (hC' : pin.turned.sys.make srt = .ok (some C', bs'))
    (hC1 : (pin.changed poisoned.finalize (fun _ => 0) pin.al).sys.make srt = .ok (some C1, bs1)) :
    DiffEigen pin.turned C' (1 / 2) worthy ∧ DiffEigen (pin.changed poisoned.finalize (fun _ => 0) pin.al) C1 (1 / 4) slow ∧
    (1 / (1 / 2) - 1 / (1 / 4)) * total pin worthy (born (pin.changed poisoned.finalize (fun _ => 0) pin.al) slow) = -18 ∧
    total pin worthy (fun g c => (poisoned.finalize.sigT g 0 - pin.mat.sigT g 0) * slow (c + g * 6)) = 18 ∧ (1 / 4 : ℚ) < 1 / 2 := by
  have m0 : DiffEigen pin.turned C' (1 / 2) worthy :=
    flat_eigen pin_turned ⟨pin_pos.h, pin_pos.dc, pin_pos.al⟩ srt hs hC' (by decide +kernel) (fun g => if g = 0 then 1 else 2) (by
      have : ∀ g < 2, ∀ c < 6, pin.turned.mat.sigT g (pin.turned.mmap c) * (if g = 0 then 1 else 2) =
        1 / (1 / 2) * (pin.turned.dens (fun p => if p / 6 = 0 then 1 else 2) c * emits pin.turned.src g c) +
          ∑ gp ∈ range 2, pin.turned.inXs g gp c * (if gp = 0 then 1 else 2) := by decide +kernel
      exact this)
  have m1 : DiffEigen (pin.changed poisoned.finalize (fun _ => 0) pin.al) C1 (1 / 4) slow :=
    flat_eigen pin_changed pin_changed_pos srt hs hC1 (by decide +kernel) (fun g => if g = 0 then 4 else 1) (by
      have : ∀ g < 2, ∀ c < 6, (pin.changed poisoned.finalize (fun _ => 0) pin.al).mat.sigT g 0 * (if g = 0 then 4 else 1) =
        1 / (1 / 4) * ((pin.changed poisoned.finalize (fun _ => 0) pin.al).dens (fun p => if p / 6 = 0 then 4 else 1) c *
          emits (pin.changed poisoned.finalize (fun _ => 0) pin.al).src g c) +
          ∑ gp ∈ range 2, (pin.changed poisoned.finalize (fun _ => 0) pin.al).inXs g gp c * (if gp = 0 then 4 else 1) := by decide +kernel
      exact this)
  refine ⟨m0, m1, by decide +kernel, by decide +kernel, ?_⟩
  refine (C147_worse (mat := poisoned.finalize) (mm := fun _ => 0) (al := pin.al) pin_pos rfl pin_plain pin_turned srt hs hC' rfl pin_changed pin_changed_pos hC1 (by norm_num) (by norm_num) m1 m0 rfl
    (fun _ _ _ _ => rfl) ?_ ?_ ?_ (fun _ _ _ _ _ _ => le_rfl) (fun _ _ _ _ _ _ => le_rfl) (by decide +kernel)).2 1 (by decide) 1 (by decide) 0 (by decide)
    (by decide +kernel) (by decide +kernel) (.inr (.inr ⟨rfl, by decide +kernel⟩))
  · intro g _ c _
    unfold slow
    split <;> norm_num
  · intro g _ c _
    unfold worthy
    split <;> norm_num
  · intro g _ c _
    show (1 : ℚ) ≤ if g = 1 then 3 / 2 else 1
    split <;> norm_num

end cases

end Detran.Diffusion
