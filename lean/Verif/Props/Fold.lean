import Verif.Lemmas.Fold
import Verif.Props.Recip

/-!
# Mirror symmetry, halves of symmetric problems (C140), and fewer dimensions (C141)
-/

namespace Detran.WGReflect

open Detran.Sweep (St incidentOctants fx xpos xneg fd sd sx)
open Detran.Boundary (Bd BC Loc Enters Mirror)
open Finset

section main
variable {F F' K : Type} [Field K]

/-! ## Specification -/

/-- A side of one problem is conditioned like a side of another: both vacuum, both reflecting, or both with the same
    given fluxes.  Place `(i, j)` of the first is place `ρ i j` of the second, where octant `o` is octant `ω i j o`
    and angle `a` is angle `τ a`. -/
def SameSide (P : Prob F K) (P' : Prob F' K) (s s' : Nat) (ω : Nat → Nat → Nat → Nat) (τ : Nat → Nat)
    (ρ : Nat → Nat → Nat × Nat) : Prop :=
  match P.bc s, P'.bc s' with
  | .vacuum, .vacuum => True
  | .reflect, .reflect => True
  | .fixed ps, .fixed ps' => ∀ io o io' i j, (incidentOctants P.dim s)[io]? = some o →
      (incidentOctants P'.dim s')[io']? = some (ω i j o) → ∀ a < P.na,
      P.get (ps io a) i j = P'.get (ps' io' (τ a)) (ρ i j).1 (ρ i j).2
  | _, _ => False

/-- What the fluxes at a side have to satisfy. -/
structure SideOK (P : Prob F K) (bd : Bd F) (s : Nat) : Prop where
  vacuum : P.bc s = .vacuum → ∀ o < 2 ^ P.dim, Enters s o → ∀ a < P.na, ∀ i j, InFace P s i j → P.get (bd s o a) i j = 0
  given : ∀ ps, P.bc s = .fixed ps → ∀ o < 2 ^ P.dim, ∀ io, (incidentOctants P.dim s)[io]? = some o → ∀ a < P.na, ∀ i j,
    InFace P s i j → P.get (bd s o a) i j = P.get (ps io a) i j
  reflect : P.bc s = .reflect → ∀ o < 2 ^ P.dim, Enters s o → ∀ o', Mirror P.dim s o o' → ∀ a < P.na, ∀ i j,
    InFace P s i j → P.get (bd s o a) i j = P.get (bd s o' a) i j

/-- Fluxes of the second problem are fluxes of the first, with cell `c` taken from cell `κ c`, octant `o` there from
    octant `ω c o` and angle `a` from angle `τ a`. -/
def Carries (P : Prob F K) (w : Nat → K) (Sol : (Nat → K) → Nat → Nat → (Nat → F) → (Nat → K) → Prop)
    (P' : Prob F' K) (w' : Nat → K) (Sol' : (Nat → K) → Nat → Nat → (Nat → F') → (Nat → K) → Prop) (κ : Nat → Nat)
    (ω : Nat → Nat → Nat) (τ : Nat → Nat) : Prop :=
  ∀ src src' phi phi' bd' psi', (∀ o < 2 ^ P.dim, ∀ a < P.na, ∀ c < P.N, src o a c = src' (ω c o) (τ a) (κ c)) →
    (∀ c < P.N, phi c = phi' (κ c)) →
    Solution P' w' Sol' src' phi' (fun _ => 0) (fun _ => 0) bd' psi' →
    ∃ bd psi, Solution P w Sol src phi (fun _ => 0) (fun _ => 0) bd psi ∧
      ∀ o < 2 ^ P.dim, ∀ a < P.na, ∀ c < P.N, psi o a c = psi' (ω c o) (τ a) (κ c)

/-! ## Lemmas -/

variable {P : Prob F K} {P' : Prob F' K}

theorem side_of {w : Nat → K} {Sol : (Nat → K) → Nat → Nat → (Nat → F) → (Nat → K) → Prop} {src phi bd psi}
    (h : Solution P w Sol src phi (fun _ => 0) (fun _ => 0) bd psi) (s : Nat) (hs : s < 2 * P.dim) : SideOK P bd s :=
  ⟨h.vacuum s hs, h.given s hs, fun hb o ho he o' hm a ha i j hi => sub_eq_zero.1 (h.reflect s hs hb o ho he o' hm a ha i j hi)⟩

theorem mk_solution {w : Nat → K} {Sol : (Nat → K) → Nat → Nat → (Nat → F) → (Nat → K) → Prop} {src phi bd psi}
    (hc : ∀ o < 2 ^ P.dim, ∀ a < P.na, Sol (src o a) o a (fun f => bd f o a) (psi o a))
    (hf : ∀ c < P.N, phi c = ∑ o ∈ range (2 ^ P.dim), ∑ a ∈ range P.na, w a * psi o a c)
    (hs : ∀ s < 2 * P.dim, SideOK P bd s) : Solution P w Sol src phi (fun _ => 0) (fun _ => 0) bd psi :=
  ⟨hc, fun c hc => by rw [add_zero]; exact hf c hc, fun s h => (hs s h).vacuum, fun s h => (hs s h).given,
    fun s h hb o ho he o' hm a ha i j hi => by rw [(hs s h).reflect hb o ho he o' hm a ha i j hi, sub_self]⟩

theorem side_lift (h1 : 1 ≤ P.dim) (h3 : P.dim ≤ 3) (h1' : 1 ≤ P'.dim) (h3' : P'.dim ≤ 3) {s s' : Nat} (hs : s < 2 * P.dim)
    (hs' : s' < 2 * P'.dim) {ω : Nat → Nat → Nat → Nat} {τ : Nat → Nat} {ρ : Nat → Nat → Nat × Nat} {bd : Bd F} {bd' : Bd F'}
    (hS : SameSide P P' s s' ω τ ρ) (hτ : ∀ a < P.na, τ a < P'.na)
    (hρ : ∀ i j, InFace P s i j → InFace P' s' (ρ i j).1 (ρ i j).2)
    (hω : ∀ i j, InFace P s i j → ∀ o < 2 ^ P.dim, ω i j o < 2 ^ P'.dim ∧ (Enters s o → Enters s' (ω i j o)) ∧
      ∀ o', Mirror P.dim s o o' → Mirror P'.dim s' (ω i j o) (ω i j o'))
    (hg : ∀ o < 2 ^ P.dim, ∀ a < P.na, ∀ i j, InFace P s i j →
      P.get (bd s o a) i j = P'.get (bd' s' (ω i j o) (τ a)) (ρ i j).1 (ρ i j).2)
    (h : SideOK P' bd' s') : SideOK P bd s := by
  unfold SameSide at hS
  constructor
  · intro hb o ho he a ha i j hi
    obtain ⟨w1, w2, _⟩ := hω i j hi o ho
    rw [hg o ho a ha i j hi]
    rw [hb] at hS
    cases hb' : P'.bc s' with
    | vacuum => exact h.vacuum hb' _ w1 (w2 he) _ (hτ a ha) _ _ (hρ i j hi)
    | reflect => rw [hb'] at hS; exact hS.elim
    | fixed ps => rw [hb'] at hS; exact hS.elim
    | periodic => rw [hb'] at hS; exact hS.elim
  · intro ps hb o ho io hio a ha i j hi
    obtain ⟨w1, w2, _⟩ := hω i j hi o ho
    have he : Enters s o := by
      obtain ⟨_, _, _, _, hm⟩ := Angle.C33_tables P.dim h1 h3 s hs
      exact ((hm o).1.1 (List.mem_of_getElem? hio)).2
    rw [hg o ho a ha i j hi]
    rw [hb] at hS
    cases hb' : P'.bc s' with
    | vacuum => rw [hb'] at hS; exact hS.elim
    | reflect => rw [hb'] at hS; exact hS.elim
    | periodic => rw [hb'] at hS; exact hS.elim
    | fixed ps' =>
      rw [hb'] at hS
      obtain ⟨_, _, _, _, hm⟩ := Angle.C33_tables P'.dim h1' h3' s' hs'
      obtain ⟨io', hio'⟩ := List.mem_iff_getElem?.1 ((hm (ω i j o)).1.2 ⟨w1, w2 he⟩)
      rw [hS io o io' i j hio hio' a ha, h.given ps' hb' _ w1 io' hio' _ (hτ a ha) _ _ (hρ i j hi)]
  · intro hb o ho he o' hm a ha i j hi
    obtain ⟨w1, w2, w3⟩ := hω i j hi o ho
    rw [hg o ho a ha i j hi, hg o' hm.1 a ha i j hi]
    rw [hb] at hS
    cases hb' : P'.bc s' with
    | vacuum => rw [hb'] at hS; exact hS.elim
    | reflect => exact h.reflect hb' _ w1 (w2 he) _ (w3 o' hm) _ (hτ a ha) _ _ (hρ i j hi)
    | fixed ps => rw [hb'] at hS; exact hS.elim
    | periodic => rw [hb'] at hS; exact hS.elim

end main

/-! ## Mirrors and folds of the geometries -/

section geom
open Detran.Sweep (Solves1 Solves2 Solves3 flip1 flip2 fold1 fold2 turn2 swapEq entry exit)
variable {K : Type} [Field K]

theorem sum2_fx (f : Nat → K) : ∑ o ∈ range (2 ^ 1), f (fx o) = ∑ o ∈ range (2 ^ 1), f o := by
  simp only [show (2 : Nat) ^ 1 = 2 from rfl, sum_range_succ, range_zero, sum_empty]
  show 0 + f 1 + f 0 = _
  ring

theorem sum4_fx (f : Nat → K) : ∑ o ∈ range (2 ^ 2), f (fx o) = ∑ o ∈ range (2 ^ 2), f o := by
  simp only [show (2 : Nat) ^ 2 = 4 from rfl, sum_range_succ, range_zero, sum_empty]
  show 0 + f 1 + f 0 + f 3 + f 2 = _
  ring

theorem sum4_fd (f : Nat → K) : ∑ o ∈ range (2 ^ 2), f (fd o) = ∑ o ∈ range (2 ^ 2), f o := by
  simp only [show (2 : Nat) ^ 2 = 4 from rfl, sum_range_succ, range_zero, sum_empty]
  show 0 + f 0 + f 3 + f 2 + f 1 = _
  ring

/-- A 1-D problem with cell equations `sch`, as far as its fluxes go. -/
def eqs1 (sch : Nat → Nat → K → K → K × K) (n : Nat) (q : Nat → K) (o a : Nat) (b p : Nat → K) : Prop :=
  Solves1 n (fun i => sch a i (q i)) o b p

def eqs2 (sch : Nat → Nat → Nat → K → K × K → K × (K × K)) (nx ny : Nat) (q : Nat → K) (o a : Nat) (b : Nat → Nat → K)
    (p : Nat → K) : Prop := Solves2 nx ny (fun i j => sch a i j (q (i + j * nx))) o b p

theorem sx_lt : (∀ s < 2, sx s < 2) ∧ ∀ s < 4, sx s < 4 := by decide

theorem faceDim1 {n : Nat → Nat} {s : Nat} (hs : s < 2) :
    Boundary.faceCells 1 s n 0 = 1 ∧ Boundary.faceCells 1 s n 1 = 1 := by
  interval_cases s <;> exact ⟨rfl, rfl⟩

theorem faceDim2 {n : Nat → Nat} {s : Nat} (hs : s < 4) :
    Boundary.faceCells 2 s n 0 = (if s < 2 then n 1 else n 0) ∧ Boundary.faceCells 2 s n 1 = 1 := by
  interval_cases s <;> exact ⟨rfl, rfl⟩

theorem faceDim3 {n : Nat → Nat} {s : Nat} (hs : s < 6) :
    Boundary.faceCells 3 s n 0 = (if s < 4 then n 2 else n 1) ∧
      Boundary.faceCells 3 s n 1 = (if s < 2 then n 1 else n 0) := by
  interval_cases s <;> exact ⟨rfl, rfl⟩

/-- A slab and its mirror image. -/
theorem carries_flip1 {sch sch' : Nat → Nat → K → K → K × K} {w w' : Nat → K} {n na : Nat} {up up' : Bool}
    {bc bc' : Nat → BC K} {order order' scat scat' fixed fixed' mtod mtod' disc disc'}
    (hsch : ∀ a < na, ∀ i < n, sch a i = sch' a (n - 1 - i)) (hw : ∀ a < na, w a = w' a)
    (hbc : ∀ s < 2, SameSide (prob1 sch w n na up bc order scat fixed mtod disc)
      (prob1 sch' w' n na up' bc' order' scat' fixed' mtod' disc') s (sx s) (fun _ _ => fx) id fun i j => (i, j)) :
    Carries (prob1 sch w n na up bc order scat fixed mtod disc) w (eqs1 sch n)
      (prob1 sch' w' n na up' bc' order' scat' fixed' mtod' disc') w' (eqs1 sch' n) (fun c => n - 1 - c) (fun _ => fx) id := by
  intro src src' phi phi' bd' psi' hsrc hphi h
  refine ⟨fun s o a => bd' (sx s) (fx o) a, fun o a c => psi' (fx o) a (n - 1 - c), mk_solution ?_ ?_ ?_, fun _ _ _ _ _ _ => rfl⟩
  · intro o ho a ha
    have hc := h.cells (fx o) ((Sweep.fx_lt o).1 ho).1 a ha
    unfold eqs1 at hc ⊢
    refine flip1 ho (fun i hi => ?_) (fun i _ => rfl) (fun s _ => rfl) hc
    rw [hsch a ha i hi, hsrc o ho a ha i hi]
    rfl
  · intro c hc
    have hf := h.flux (n - 1 - c) (by change c < n at hc; show n - 1 - c < n; omega)
    rw [add_zero] at hf
    rw [hphi c hc, hf]
    refine (sum2_fx (fun o => ∑ a ∈ range na, w' a * psi' o a (n - 1 - c))).symm.trans ?_
    exact sum_congr rfl fun o _ => sum_congr rfl fun a ha => by rw [hw a (mem_range.1 ha)]
  · intro s hs
    have hx := sx_lt.1 s hs
    refine side_lift (le_refl 1) (by show 1 ≤ 3; omega) (le_refl 1) (by show 1 ≤ 3; omega) hs hx (hbc s hs) (fun a ha => ha)
      (fun i j hi => ?_) (fun i j _ => ?_) (fun o ho a ha i j hi => rfl) (side_of h (sx s) hx)
    · unfold InFace at hi ⊢
      exact ⟨hi.1.trans_eq ((faceDim1 hs).1.trans (faceDim1 hx).1.symm), hi.2.trans_eq ((faceDim1 hs).2.trans (faceDim1 hx).2.symm)⟩
    · have : ∀ s < 2, ∀ o < 2, fx o < 2 ∧ (Enters s o → Enters (sx s) (fx o)) ∧
          ∀ o' < 2, Mirror 1 s o o' → Mirror 1 (sx s) (fx o) (fx o') := by decide
      intro o ho
      obtain ⟨k1, k2, k3⟩ := this s hs o ho
      exact ⟨k1, k2, fun o' hm => k3 o' hm.1 hm⟩

/-- A symmetric slab of `2 n` cells and the half of it that ends at a reflecting side in the middle. -/
theorem carries_fold1 {sch sch' : Nat → Nat → K → K → K × K} {w w' : Nat → K} {n na : Nat} {up up' : Bool}
    {bc bc' : Nat → BC K} {order order' scat scat' fixed fixed' mtod mtod' disc disc'} (hn : 0 < n)
    (hsch : ∀ a < na, ∀ i < 2 * n, sch a i = sch' a (if i < n then i else 2 * n - 1 - i)) (hw : ∀ a < na, w a = w' a)
    (hr : bc' 1 = .reflect)
    (hbc : ∀ s < 2, SameSide (prob1 sch w (2 * n) na up bc order scat fixed mtod disc)
      (prob1 sch' w' n na up' bc' order' scat' fixed' mtod' disc') s 0 (fun _ _ o => if s = 0 then o else fx o) id
      fun i j => (i, j)) :
    Carries (prob1 sch w (2 * n) na up bc order scat fixed mtod disc) w (eqs1 sch (2 * n))
      (prob1 sch' w' n na up' bc' order' scat' fixed' mtod' disc') w' (eqs1 sch' n)
      (fun c => if c < n then c else 2 * n - 1 - c) (fun c o => if c < n then o else fx o) id := by
  intro src src' phi phi' bd' psi' hsrc hphi h
  refine ⟨fun s o a => bd' 0 (if s = 0 then o else fx o) a,
    fun o a c => psi' (if c < n then o else fx o) a (if c < n then c else 2 * n - 1 - c), mk_solution ?_ ?_ ?_,
    fun _ _ _ _ _ _ => rfl⟩
  · intro o ho a ha
    obtain ⟨-, l2, l3⟩ := (Sweep.fx_lt o).1 ho
    have hP := h.cells (xpos o) l2 a ha
    have hN := h.cells (xneg o) l3 a ha
    unfold eqs1 at hP hN ⊢
    refine fold1 (eq' := fun o i => sch' a i (src' o a i)) (b' := fun o s => bd' s o a) (p' := fun o c => psi' o a c) hn ho
      (fun i hi => ?_) (fun i _ => rfl) ?_ ?_ ?_ hP hN
    · rw [hsch a ha i hi, hsrc o ho a ha i hi]
      rfl
    · have : ∀ o < 2, (if entry o 0 = 0 then o else fx o) = xpos o := by decide
      rw [this o ho]
    · have : ∀ o < 2, (if exit o 0 = 0 then o else fx o) = xneg o := by decide
      rw [this o ho]
    · have k : ∀ o < 2, Enters 1 (xneg o) ∧ Mirror 1 1 (xneg o) (xpos o) := by decide
      exact (side_of h 1 (by show 1 < 2; decide)).reflect hr (xneg o) l3 (k o ho).1 (xpos o) (k o ho).2 a ha 0 0
        ⟨Nat.one_pos.trans_eq (faceDim1 (by decide)).1.symm, Nat.one_pos.trans_eq (faceDim1 (by decide)).2.symm⟩
  · intro c hc
    have hc' : c < 2 * n := hc
    have hf := h.flux (if c < n then c else 2 * n - 1 - c) (by show _ < n; split <;> omega)
    rw [add_zero] at hf
    rw [hphi c hc, hf]
    by_cases hcn : c < n
    · simp only [if_pos hcn]
      exact sum_congr rfl fun o _ => sum_congr rfl fun a ha => by rw [hw a (mem_range.1 ha)]
    · simp only [if_neg hcn]
      refine (sum2_fx (fun o => ∑ a ∈ range na, w' a * psi' o a (2 * n - 1 - c))).symm.trans ?_
      exact sum_congr rfl fun o _ => sum_congr rfl fun a ha => by rw [hw a (mem_range.1 ha)]
  · intro s hs
    refine side_lift (le_refl 1) (by show 1 ≤ 3; omega) (le_refl 1) (by show 1 ≤ 3; omega) hs (by show 0 < 2; decide) (hbc s hs)
      (fun a ha => ha) (fun i j hi => ?_) (fun i j _ => ?_) (fun o ho a ha i j hi => rfl) (side_of h 0 (by show 0 < 2; decide))
    · unfold InFace at hi ⊢
      exact ⟨hi.1.trans_eq ((faceDim1 hs).1.trans (faceDim1 (by decide)).1.symm),
        hi.2.trans_eq ((faceDim1 hs).2.trans (faceDim1 (by decide)).2.symm)⟩
    · have : ∀ s < 2, ∀ o < 2, (if s = 0 then o else fx o) < 2 ∧ (Enters s o → Enters 0 (if s = 0 then o else fx o)) ∧
          ∀ o' < 2, Mirror 1 s o o' → Mirror 1 0 (if s = 0 then o else fx o) (if s = 0 then o' else fx o') := by decide
      intro o ho
      obtain ⟨k1, k2, k3⟩ := this s hs o ho
      exact ⟨k1, k2, fun o' hm => k3 o' hm.1 hm⟩

/-- A rectangle and its mirror image in `x`. -/
theorem carries_flip2 {sch sch' : Nat → Nat → Nat → K → K × K → K × (K × K)} {w w' : Nat → K} {nx ny na : Nat}
    {up up' : Bool} {bc bc' : Nat → BC (Nat → K)} {order order' scat scat' fixed fixed' mtod mtod' disc disc'}
    (hsch : ∀ a < na, ∀ i < nx, ∀ j < ny, sch a i j = sch' a (nx - 1 - i) j) (hw : ∀ a < na, w a = w' a)
    (hbc : ∀ s < 4, SameSide (prob2 sch w nx ny na up bc order scat fixed mtod disc)
      (prob2 sch' w' nx ny na up' bc' order' scat' fixed' mtod' disc') s (sx s) (fun _ _ => fx) id
      fun i j => (if s < 2 then i else nx - 1 - i, j)) :
    Carries (prob2 sch w nx ny na up bc order scat fixed mtod disc) w (eqs2 sch nx ny)
      (prob2 sch' w' nx ny na up' bc' order' scat' fixed' mtod' disc') w' (eqs2 sch' nx ny)
      (fun c => nx - 1 - c % nx + c / nx * nx) (fun _ => fx) id := by
  intro src src' phi phi' bd' psi' hsrc hphi h
  refine ⟨fun s o a i => bd' (sx s) (fx o) a (if s < 2 then i else nx - 1 - i),
    fun o a c => psi' (fx o) a (nx - 1 - c % nx + c / nx * nx), mk_solution ?_ ?_ ?_, fun _ _ _ _ _ _ => rfl⟩
  · intro o ho a ha
    have hc := h.cells (fx o) ((Sweep.fx_lt o).2.1 ho).1 a ha
    unfold eqs2 at hc ⊢
    refine flip2 ho (fun i hi j hj => ?_) (fun i hi j hj => ?_) (fun s hs j _ => ?_) (fun s h2 h4 i _ => ?_) hc
    · rw [hsch a ha i hi j hj, hsrc o ho a ha (i + j * nx) (cell2_lt hi hj)]
      obtain ⟨e1, e2⟩ := Sweep.idx (j := j) hi
      dsimp only; rw [e1, e2]; rfl
    · obtain ⟨e1, e2⟩ := Sweep.idx (j := j) hi
      rw [e1, e2]
    · rw [if_pos hs]
    · have : ∀ s < 4, 2 ≤ s → sx s = s := by decide
      rw [if_neg (by omega), this s h4 h2]
  · intro c hc
    have hc : c < nx * ny := hc
    have hx : 0 < nx := Nat.pos_of_ne_zero fun e => by rw [e, Nat.zero_mul] at hc; omega
    have hm := Nat.mod_lt c hx
    have hf := h.flux (nx - 1 - c % nx + c / nx * nx) (cell2_lt (by omega) (Nat.div_lt_of_lt_mul hc))
    rw [add_zero] at hf
    rw [hphi c hc, hf]
    refine (sum4_fx (fun o => ∑ a ∈ range na, w' a * psi' o a (nx - 1 - c % nx + c / nx * nx))).symm.trans ?_
    exact sum_congr rfl fun o _ => sum_congr rfl fun a ha => by rw [hw a (mem_range.1 ha)]
  · intro s hs
    have hx := sx_lt.2 s hs
    refine side_lift (by show 1 ≤ 2; omega) (by show 2 ≤ 3; omega) (by show 1 ≤ 2; omega) (by show 2 ≤ 3; omega) hs hx
      (hbc s hs) (fun a ha => ha) (fun i j hi => ?_) (fun i j _ => ?_) (fun o ho a ha i j hi => rfl) (side_of h (sx s) hx)
    · unfold InFace at hi ⊢
      obtain ⟨i1, i2⟩ := hi
      have i1 := i1.trans_eq (faceDim2 hs).1
      have k : ∀ s < 4, (sx s < 2 ↔ s < 2) := by decide
      refine ⟨?_, i2.trans_eq ((faceDim2 hs).2.trans (faceDim2 hx).2.symm)⟩
      refine lt_of_lt_of_eq ?_ (faceDim2 hx).1.symm
      simp only [k s hs]
      by_cases h2 : s < 2
      · simp only [if_pos h2] at i1 ⊢
        exact i1
      · simp only [if_neg h2] at i1 ⊢
        change i < nx at i1
        show nx - 1 - i < nx
        omega
    · have : ∀ s < 4, ∀ o < 4, fx o < 4 ∧ (Enters s o → Enters (sx s) (fx o)) ∧
          ∀ o' < 4, Mirror 2 s o o' → Mirror 2 (sx s) (fx o) (fx o') := by decide
      intro o ho
      obtain ⟨k1, k2, k3⟩ := this s hs o ho
      exact ⟨k1, k2, fun o' hm => k3 o' hm.1 hm⟩

/-- A rectangle and its image in the diagonal; angles go to the angles with their cosines exchanged. -/
theorem carries_turn2 {sch sch' : Nat → Nat → Nat → K → K × K → K × (K × K)} {w w' : Nat → K} {nx ny na : Nat}
    {up up' : Bool} {bc bc' : Nat → BC (Nat → K)} {order order' scat scat' fixed fixed' mtod mtod' disc disc'}
    {τ : Nat → Nat} (hτ : ∀ a < na, τ a < na)
    (hsch : ∀ a < na, ∀ i < nx, ∀ j < ny, ∀ q, sch a i j q = swapEq (sch' (τ a) j i q))
    (hw : ∀ f : Nat → K, ∑ a ∈ range na, w a * f (τ a) = ∑ a ∈ range na, w' a * f a)
    (hbc : ∀ s < 4, SameSide (prob2 sch w nx ny na up bc order scat fixed mtod disc)
      (prob2 sch' w' ny nx na up' bc' order' scat' fixed' mtod' disc') s (sd s) (fun _ _ => fd) τ fun i j => (i, j)) :
    Carries (prob2 sch w nx ny na up bc order scat fixed mtod disc) w (eqs2 sch nx ny)
      (prob2 sch' w' ny nx na up' bc' order' scat' fixed' mtod' disc') w' (eqs2 sch' ny nx)
      (fun c => c / nx + c % nx * ny) (fun _ => fd) τ := by
  intro src src' phi phi' bd' psi' hsrc hphi h
  refine ⟨fun s o a => bd' (sd s) (fd o) (τ a), fun o a c => psi' (fd o) (τ a) (c / nx + c % nx * ny), mk_solution ?_ ?_ ?_,
    fun _ _ _ _ _ _ => rfl⟩
  · intro o ho a ha
    have hc := h.cells (fd o) (Sweep.fd_side o ho).1 (τ a) (hτ a ha)
    unfold eqs2 at hc ⊢
    refine turn2 ho (fun i hi j hj => ?_) (fun i hi j hj => ?_) (fun s hs i _ => rfl) hc
    · rw [hsch a ha i hi j hj, hsrc o ho a ha (i + j * nx) (cell2_lt hi hj)]
      obtain ⟨e1, e2⟩ := Sweep.idx (j := j) hi
      dsimp only; rw [e1, e2]
    · obtain ⟨e1, e2⟩ := Sweep.idx (j := j) hi
      rw [e1, e2]
  · intro c hc
    have hc : c < nx * ny := hc
    have hx : 0 < nx := Nat.pos_of_ne_zero fun e => by rw [e, Nat.zero_mul] at hc; omega
    have hf := h.flux (c / nx + c % nx * ny) (cell2_lt (Nat.div_lt_of_lt_mul hc) (Nat.mod_lt c hx))
    rw [add_zero] at hf
    rw [hphi c hc, hf]
    refine (sum4_fd (fun o => ∑ a ∈ range na, w' a * psi' o a (c / nx + c % nx * ny))).symm.trans ?_
    exact sum_congr rfl fun o _ => (hw fun a => psi' (fd o) a (c / nx + c % nx * ny)).symm
  · intro s hs
    have lt : ∀ s < 4, sd s < 4 := by decide
    have hx := lt s hs
    refine side_lift (by show 1 ≤ 2; omega) (by show 2 ≤ 3; omega) (by show 1 ≤ 2; omega) (by show 2 ≤ 3; omega) hs hx
      (hbc s hs) hτ (fun i j hi => ?_) (fun i j _ => ?_) (fun o ho a ha i j hi => rfl) (side_of h (sd s) hx)
    · unfold InFace at hi ⊢
      obtain ⟨i1, i2⟩ := hi
      have i1 := i1.trans_eq (faceDim2 hs).1
      have k : ∀ s < 4, (sd s < 2 ↔ ¬ s < 2) := by decide
      refine ⟨?_, i2.trans_eq ((faceDim2 hs).2.trans (faceDim2 hx).2.symm)⟩
      refine lt_of_lt_of_eq ?_ (faceDim2 hx).1.symm
      simp only [k s hs]
      by_cases h2 : s < 2
      · simp only [if_pos h2, not_true, if_false, h2] at i1 ⊢
        exact i1
      · simp only [if_neg h2, not_false_eq_true, if_true, h2] at i1 ⊢
        exact i1
    · have : ∀ s < 4, ∀ o < 4, fd o < 4 ∧ (Enters s o → Enters (sd s) (fd o)) ∧
          ∀ o' < 4, Mirror 2 s o o' → Mirror 2 (sd s) (fd o) (fd o') := by decide
      intro o ho
      obtain ⟨k1, k2, k3⟩ := this s hs o ho
      exact ⟨k1, k2, fun o' hm => k3 o' hm.1 hm⟩

/-- A symmetric rectangle with `2 n` columns and the half of it that ends at a reflecting side in the middle. -/
theorem carries_fold2 {sch sch' : Nat → Nat → Nat → K → K × K → K × (K × K)} {w w' : Nat → K} {n ny na : Nat}
    {up up' : Bool} {bc bc' : Nat → BC (Nat → K)} {order order' scat scat' fixed fixed' mtod mtod' disc disc'} (hn : 0 < n)
    (hsch : ∀ a < na, ∀ i < 2 * n, ∀ j < ny, sch a i j = sch' a (if i < n then i else 2 * n - 1 - i) j)
    (hw : ∀ a < na, w a = w' a) (hr : bc' 1 = .reflect)
    (hbc : ∀ s < 2, SameSide (prob2 sch w (2 * n) ny na up bc order scat fixed mtod disc)
      (prob2 sch' w' n ny na up' bc' order' scat' fixed' mtod' disc') s 0 (fun _ _ o => if s = 0 then o else fx o) id
      fun i j => (i, j))
    (hbc2 : ∀ s, 2 ≤ s → s < 4 → SameSide (prob2 sch w (2 * n) ny na up bc order scat fixed mtod disc)
      (prob2 sch' w' n ny na up' bc' order' scat' fixed' mtod' disc') s s (fun i _ o => if i < n then o else fx o) id
      fun i j => (if i < n then i else 2 * n - 1 - i, j)) :
    Carries (prob2 sch w (2 * n) ny na up bc order scat fixed mtod disc) w (eqs2 sch (2 * n) ny)
      (prob2 sch' w' n ny na up' bc' order' scat' fixed' mtod' disc') w' (eqs2 sch' n ny)
      (fun c => (if c % (2 * n) < n then c % (2 * n) else 2 * n - 1 - c % (2 * n)) + c / (2 * n) * n)
      (fun c o => if c % (2 * n) < n then o else fx o) id := by
  intro src src' phi phi' bd' psi' hsrc hphi h
  refine ⟨fun s o a i => if s < 2 then bd' 0 (if s = 0 then o else fx o) a i else
      bd' s (if i < n then o else fx o) a (if i < n then i else 2 * n - 1 - i),
    fun o a c => psi' (if c % (2 * n) < n then o else fx o) a
      ((if c % (2 * n) < n then c % (2 * n) else 2 * n - 1 - c % (2 * n)) + c / (2 * n) * n), mk_solution ?_ ?_ ?_,
    fun _ _ _ _ _ _ => rfl⟩
  · intro o ho a ha
    obtain ⟨-, l2, l3⟩ := (Sweep.fx_lt o).2.1 ho
    have hP := h.cells (xpos o) l2 a ha
    have hN := h.cells (xneg o) l3 a ha
    unfold eqs2 at hP hN ⊢
    have en : ∀ o < 4, entry o 0 < 2 ∧ exit o 0 < 2 ∧ (if entry o 0 = 0 then o else fx o) = xpos o ∧
      (if exit o 0 = 0 then o else fx o) = xneg o ∧ Enters 1 (xneg o) ∧ Mirror 2 1 (xneg o) (xpos o) := by decide
    obtain ⟨n1, n2, n3, n4, n5, n6⟩ := en o ho
    refine fold2 (eq' := fun o i j => sch' a i j (src' o a (i + j * n))) (b' := fun o s => bd' s o a)
      (p' := fun o c => psi' o a c) hn ho (fun i hi j hj => ?_) (fun i hi j hj => ?_) (fun j _ => ?_) (fun j _ => ?_)
      (fun j hj => ?_) (fun s h2 h4 i _ => ?_) hP hN
    · rw [hsch a ha i hi j hj, hsrc o ho a ha (i + j * (2 * n)) (cell2_lt hi hj)]
      obtain ⟨e1, e2⟩ := Sweep.idx (j := j) hi
      dsimp only; rw [e1, e2]; rfl
    · obtain ⟨e1, e2⟩ := Sweep.idx (j := j) hi
      rw [e1, e2]
    · rw [if_pos n1, n3]
    · rw [if_pos n2, n4]
    · exact (side_of h 1 (by show 1 < 4; decide)).reflect hr (xneg o) l3 n5 (xpos o) n6 a ha j 0
        ⟨by show j < Boundary.faceCells 2 1 (fun d => if d = 0 then n else ny) 0; rw [(faceDim2 (by decide)).1]; exact hj, Nat.one_pos.trans_eq (faceDim2 (by decide)).2.symm⟩
    · rw [if_neg (by omega)]
  · intro c hc
    have hc : c < 2 * n * ny := hc
    have hm := Nat.mod_lt c (show 0 < 2 * n by omega)
    have hd : c / (2 * n) < ny := Nat.div_lt_of_lt_mul hc
    have hf := h.flux ((if c % (2 * n) < n then c % (2 * n) else 2 * n - 1 - c % (2 * n)) + c / (2 * n) * n)
      (cell2_lt (by split <;> omega) hd)
    rw [add_zero] at hf
    rw [hphi c hc, hf]
    by_cases hcn : c % (2 * n) < n
    · simp only [if_pos hcn]
      exact sum_congr rfl fun o _ => sum_congr rfl fun a ha => by rw [hw a (mem_range.1 ha)]
    · simp only [if_neg hcn]
      refine (sum4_fx (fun o => ∑ a ∈ range na, w' a * psi' o a (2 * n - 1 - c % (2 * n) + c / (2 * n) * n))).symm.trans ?_
      exact sum_congr rfl fun o _ => sum_congr rfl fun a ha => by rw [hw a (mem_range.1 ha)]
  · intro s hs
    by_cases h2 : s < 2
    · refine side_lift (by show 1 ≤ 2; omega) (by show 2 ≤ 3; omega) (by show 1 ≤ 2; omega) (by show 2 ≤ 3; omega) hs
        (by show 0 < 4; decide) (hbc s h2) (fun a ha => ha) (fun i j hi => ?_) (fun i j _ => ?_)
        (fun o ho a ha i j hi => ?_) (side_of h 0 (by show 0 < 4; decide))
      · unfold InFace at hi ⊢
        obtain ⟨i1, i2⟩ := hi
        have i1 := i1.trans_eq (faceDim2 hs).1
        rw [if_pos h2] at i1
        exact ⟨lt_of_lt_of_eq i1 (faceDim2 (s := 0) (by decide)).1.symm, i2.trans_eq ((faceDim2 hs).2.trans (faceDim2 (by decide)).2.symm)⟩
      · have : ∀ s < 2, ∀ o < 4, (if s = 0 then o else fx o) < 4 ∧ (Enters s o → Enters 0 (if s = 0 then o else fx o)) ∧
            ∀ o' < 4, Mirror 2 s o o' → Mirror 2 0 (if s = 0 then o else fx o) (if s = 0 then o' else fx o') := by decide
        intro o ho
        obtain ⟨k1, k2, k3⟩ := this s h2 o ho
        exact ⟨k1, k2, fun o' hm => k3 o' hm.1 hm⟩
      · show (if s < 2 then _ else _) = _
        rw [if_pos h2]; rfl
    · have h2 : 2 ≤ s := by omega
      refine side_lift (by show 1 ≤ 2; omega) (by show 2 ≤ 3; omega) (by show 1 ≤ 2; omega) (by show 2 ≤ 3; omega) hs
        (s' := s) (by exact hs) (hbc2 s h2 hs) (fun a ha => ha) (fun i j hi => ?_) (fun i j _ => ?_)
        (fun o ho a ha i j hi => ?_) (side_of h s hs)
      · unfold InFace at hi ⊢
        obtain ⟨i1, i2⟩ := hi
        have i1 := i1.trans_eq (faceDim2 hs).1
        rw [if_neg (by omega)] at i1
        change i < 2 * n at i1
        refine ⟨lt_of_lt_of_eq ?_ (faceDim2 hs).1.symm, i2.trans_eq ((faceDim2 hs).2.trans (faceDim2 hs).2.symm)⟩
        simp only [if_neg (show ¬ s < 2 by omega)]
        show (if i < n then i else 2 * n - 1 - i) < n
        split <;> omega
      · have : ∀ t < 2, ∀ o < 4, fx o < 4 ∧ (Enters (t + 2) o → Enters (t + 2) (fx o)) ∧
            ∀ o' < 4, Mirror 2 (t + 2) o o' → Mirror 2 (t + 2) (fx o) (fx o') := by decide
        intro o ho
        have hs4 : s < 4 := hs
        obtain ⟨k1, k2, k3⟩ := this (s - 2) (by omega) o ho
        rw [show s - 2 + 2 = s by omega] at k2 k3
        by_cases hin : i < n
        · simp only [if_pos hin]
          exact ⟨ho, fun h => h, fun _ h => h⟩
        · simp only [if_neg hin]
          exact ⟨k1, k2, fun o' hm => k3 o' hm.1 hm⟩
      · show (if s < 2 then _ else _) = _
        rw [if_neg (by omega)]; rfl

/-! ## Fewer dimensions -/

open Detran.Sweep (xr spread2 spread3)

/-- A rectangle that does not vary in `y`, between reflecting sides, and the slab it is drawn out from. -/
theorem carries_spread2 {sch : Nat → Nat → Nat → K → K × K → K × (K × K)} {sch' : Nat → Nat → K → K → K × K} {w w' : Nat → K}
    {nx ny na na' : Nat} {up up' : Bool} {bc : Nat → BC (Nat → K)} {bc' : Nat → BC K}
    {order order' scat scat' fixed fixed' mtod mtod' disc disc'} {τ : Nat → Nat} (hτ : ∀ a < na, τ a < na')
    (hsch : ∀ a < na, ∀ i < nx, ∀ j < ny, ∀ q v, sch a i j q (v, (sch' (τ a) i q v).1) =
      ((sch' (τ a) i q v).1, ((sch' (τ a) i q v).2, (sch' (τ a) i q v).1)))
    (hw : ∀ f : Nat → K, 2 * ∑ a ∈ range na, w a * f (τ a) = ∑ a ∈ range na', w' a * f a)
    (hy : bc 2 = .reflect ∧ bc 3 = .reflect)
    (hbc : ∀ s < 2, SameSide (prob2 sch w nx ny na up bc order scat fixed mtod disc)
      (prob1 sch' w' nx na' up' bc' order' scat' fixed' mtod' disc') s s (fun _ _ => xr) τ fun _ _ => (0, 0)) :
    Carries (prob2 sch w nx ny na up bc order scat fixed mtod disc) w (eqs2 sch nx ny)
      (prob1 sch' w' nx na' up' bc' order' scat' fixed' mtod' disc') w' (eqs1 sch' nx) (fun c => c % nx) (fun _ => xr) τ := by
  intro src src' phi phi' bd' psi' hsrc hphi h
  refine ⟨fun s o a i => if s < 2 then bd' s (xr o) (τ a) else psi' (xr o) (τ a) i,
    fun o a c => psi' (xr o) (τ a) (c % nx), mk_solution ?_ ?_ ?_, fun _ _ _ _ _ _ => rfl⟩
  · intro o ho a ha
    have hc := h.cells (xr o) (Sweep.xr_facts o ho).1 (τ a) (hτ a ha)
    unfold eqs1 at hc
    unfold eqs2
    refine spread2 ho (fun i hi j hj v => ?_) (fun i hi j hj => ?_) (fun s hs j _ => ?_) (fun s h2 h4 i _ => ?_) hc
    · have e := hsrc o ho a ha (i + j * nx) (cell2_lt hi hj)
      dsimp only at e
      rw [(Sweep.idx (j := j) hi).1] at e
      rw [e]
      exact hsch a ha i hi j hj _ v
    · rw [(Sweep.idx (j := j) hi).1]
    · rw [if_pos hs]
    · rw [if_neg (by omega)]
  · intro c hc
    have hc : c < nx * ny := hc
    have hx : 0 < nx := Nat.pos_of_ne_zero fun e => by rw [e, Nat.zero_mul] at hc; omega
    have hf := h.flux (c % nx) (Nat.mod_lt c hx)
    rw [add_zero] at hf
    rw [hphi c hc, hf]
    have e : ∀ o, ∑ a ∈ range na', w' a * psi' o a (c % nx) = 2 * ∑ a ∈ range na, w a * psi' o (τ a) (c % nx) :=
      fun o => (hw fun a => psi' o a (c % nx)).symm
    show ∑ o ∈ range 2, ∑ a ∈ range na', w' a * psi' o a (c % nx) =
      ∑ o ∈ range 4, ∑ a ∈ range na, w a * psi' (xr o) (τ a) (c % nx)
    simp only [e, sum_range_succ _ 1, sum_range_succ _ 2, sum_range_succ _ 3, sum_range_succ _ 0, range_zero, sum_empty]
    show 0 + 2 * _ + 2 * _ = 0 + ∑ a ∈ range na, w a * psi' 0 (τ a) (c % nx) + ∑ a ∈ range na, w a * psi' 1 (τ a) (c % nx) +
      ∑ a ∈ range na, w a * psi' 1 (τ a) (c % nx) + ∑ a ∈ range na, w a * psi' 0 (τ a) (c % nx)
    ring
  · intro s hs
    by_cases h2 : s < 2
    · refine side_lift (by show 1 ≤ 2; omega) (by show 2 ≤ 3; omega) (le_refl 1) (by show 1 ≤ 3; omega) hs
        (by exact h2) (hbc s h2) hτ (fun i j hi => ?_) (fun i j _ => ?_) (fun o ho a ha i j hi => ?_) (side_of h s (by exact h2))
      · exact ⟨Nat.one_pos.trans_eq (faceDim1 h2).1.symm, Nat.one_pos.trans_eq (faceDim1 h2).2.symm⟩
      · have : ∀ s < 2, ∀ o < 4, xr o < 2 ∧ (Enters s o → Enters s (xr o)) ∧
            ∀ o' < 4, Mirror 2 s o o' → Mirror 1 s (xr o) (xr o') := by decide
        intro o ho
        obtain ⟨k1, k2, k3⟩ := this s h2 o ho
        exact ⟨k1, k2, fun o' hm => k3 o' hm.1 hm⟩
      · show (if s < 2 then _ else _) = _
        rw [if_pos h2]; rfl
    · have hs4 : s < 4 := hs
      have hb : bc s = .reflect := by
        rcases (by omega : s = 2 ∨ s = 3) with rfl | rfl
        · exact hy.1
        · exact hy.2
      refine ⟨fun e => ?_, fun ps e => ?_, fun _ o ho _ o' hm a ha i j hi => ?_⟩
      · change bc s = _ at e; rw [hb] at e; cases e
      · change bc s = _ at e; rw [hb] at e; cases e
      · have : ∀ t < 2, ∀ o < 4, ∀ o' < 4, Mirror 2 (t + 2) o o' → xr o = xr o' := by decide
        have e := this (s - 2) (by omega) o ho o' hm.1 (by rw [show s - 2 + 2 = s by omega]; exact hm)
        show (if s < 2 then _ else _) = (if s < 2 then _ else _)
        rw [if_neg h2, if_neg h2, e]

def eqs3 (sch : Nat → Nat → Nat → Nat → K → K × K × K → K × (K × K × K)) (nx ny nz : Nat) (q : Nat → K) (o a : Nat)
    (b : Nat → Nat → Nat → K) (p : Nat → K) : Prop :=
  Solves3 nx ny nz (fun i j k => sch a i j k (q (i + j * nx + k * nx * ny))) o b p

theorem idx3 {nx ny i j k : Nat} (hi : i < nx) (hj : j < ny) : (i + j * nx + k * nx * ny) % (nx * ny) = i + j * nx := by
  rw [Nat.mul_assoc, Nat.add_mul_mod_self_right, Nat.mod_eq_of_lt (cell2_lt hi hj)]

/-- A box that does not vary in `z`, between reflecting sides, and the rectangle it is drawn out from. -/
theorem carries_spread3 {sch : Nat → Nat → Nat → Nat → K → K × K × K → K × (K × K × K)}
    {sch' : Nat → Nat → Nat → K → K × K → K × (K × K)} {w w' : Nat → K}
    {nx ny nz na na' : Nat} {up up' : Bool} {bc : Nat → BC (Nat → Nat → K)} {bc' : Nat → BC (Nat → K)}
    {order order' scat scat' fixed fixed' mtod mtod' disc disc'} {τ : Nat → Nat} (hτ : ∀ a < na, τ a < na')
    (hsch : ∀ a < na, ∀ i < nx, ∀ j < ny, ∀ k < nz, ∀ q v, sch a i j k q (v.1, v.2, (sch' (τ a) i j q v).1) =
      ((sch' (τ a) i j q v).1, ((sch' (τ a) i j q v).2.1, (sch' (τ a) i j q v).2.2, (sch' (τ a) i j q v).1)))
    (hw : ∀ f : Nat → K, 2 * ∑ a ∈ range na, w a * f (τ a) = ∑ a ∈ range na', w' a * f a)
    (hz : bc 4 = .reflect ∧ bc 5 = .reflect)
    (hbc : ∀ s < 4, SameSide (prob3 sch w nx ny nz na up bc order scat fixed mtod disc)
      (prob2 sch' w' nx ny na' up' bc' order' scat' fixed' mtod' disc') s s (fun _ _ o => o % 4) τ fun _ j => (j, 0)) :
    Carries (prob3 sch w nx ny nz na up bc order scat fixed mtod disc) w (eqs3 sch nx ny nz)
      (prob2 sch' w' nx ny na' up' bc' order' scat' fixed' mtod' disc') w' (eqs2 sch' nx ny) (fun c => c % (nx * ny))
      (fun _ o => o % 4) τ := by
  intro src src' phi phi' bd' psi' hsrc hphi h
  refine ⟨fun s o a i j => if s < 4 then bd' s (o % 4) (τ a) j else psi' (o % 4) (τ a) (j + i * nx),
    fun o a c => psi' (o % 4) (τ a) (c % (nx * ny)), mk_solution ?_ ?_ ?_, fun _ _ _ _ _ _ => rfl⟩
  · intro o ho a ha
    have hc := h.cells (o % 4) (Nat.mod_lt _ (by decide)) (τ a) (hτ a ha)
    unfold eqs2 at hc
    unfold eqs3
    refine spread3 ho (fun i hi j hj k hk v => ?_) (fun i hi j hj k hk => ?_) (fun s hs k _ j _ => ?_)
      (fun s h2 h4 k _ i _ => ?_) (fun s h4 h6 j _ i _ => ?_) hc
    · have e := hsrc o ho a ha (i + j * nx + k * nx * ny) (cell3_lt hi hj hk)
      dsimp only at e
      rw [idx3 hi hj] at e
      rw [e]
      exact hsch a ha i hi j hj k hk _ v
    · rw [idx3 hi hj]
    · rw [if_pos (by omega)]
    · rw [if_pos h4]
    · rw [if_neg (by omega)]
  · intro c hc
    have hc : c < nx * ny * nz := hc
    have hx : 0 < nx * ny := Nat.pos_of_ne_zero fun e => by rw [e, Nat.zero_mul] at hc; omega
    have hf := h.flux (c % (nx * ny)) (Nat.mod_lt c hx)
    rw [add_zero] at hf
    rw [hphi c hc, hf]
    generalize c % (nx * ny) = d
    have e : ∀ o, ∑ a ∈ range na', w' a * psi' o a d = 2 * ∑ a ∈ range na, w a * psi' o (τ a) d :=
      fun o => (hw fun a => psi' o a d).symm
    show ∑ o ∈ range 4, ∑ a ∈ range na', w' a * psi' o a d = ∑ o ∈ range 8, ∑ a ∈ range na, w a * psi' (o % 4) (τ a) d
    simp only [e, sum_range_succ _ 1, sum_range_succ _ 2, sum_range_succ _ 3, sum_range_succ _ 0, sum_range_succ _ 4,
      sum_range_succ _ 5, sum_range_succ _ 6, sum_range_succ _ 7, range_zero, sum_empty, show (0 : Nat) % 4 = 0 from rfl,
      show (1 : Nat) % 4 = 1 from rfl, show (2 : Nat) % 4 = 2 from rfl, show (3 : Nat) % 4 = 3 from rfl,
      show (4 : Nat) % 4 = 0 from rfl, show (5 : Nat) % 4 = 1 from rfl, show (6 : Nat) % 4 = 2 from rfl,
      show (7 : Nat) % 4 = 3 from rfl]
    ring
  · intro s hs
    by_cases h4 : s < 4
    · refine side_lift (by show 1 ≤ 3; omega) (by show 3 ≤ 3; omega) (by show 1 ≤ 2; omega) (by show 2 ≤ 3; omega) hs
        (by exact h4) (hbc s h4) hτ (fun i j hi => ?_) (fun i j _ => ?_) (fun o ho a ha i j hi => ?_) (side_of h s (by exact h4))
      · unfold InFace at hi ⊢
        have i2 := hi.2.trans_eq (faceDim3 hs).2
        refine ⟨lt_of_lt_of_eq ?_ (faceDim2 h4).1.symm, Nat.one_pos.trans_eq (faceDim2 h4).2.symm⟩
        exact i2
      · have : ∀ s < 4, ∀ o < 8, o % 4 < 4 ∧ (Enters s o → Enters s (o % 4)) ∧
            ∀ o' < 8, Mirror 3 s o o' → Mirror 2 s (o % 4) (o' % 4) := by decide
        intro o ho
        obtain ⟨k1, k2, k3⟩ := this s h4 o ho
        exact ⟨k1, k2, fun o' hm => k3 o' hm.1 hm⟩
      · show (if s < 4 then _ else _) = _
        rw [if_pos h4]; rfl
    · have hs6 : s < 6 := hs
      have hb : bc s = .reflect := by
        rcases (by omega : s = 4 ∨ s = 5) with rfl | rfl
        · exact hz.1
        · exact hz.2
      refine ⟨fun e => ?_, fun ps e => ?_, fun _ o ho _ o' hm a ha i j hi => ?_⟩
      · change bc s = _ at e; rw [hb] at e; cases e
      · change bc s = _ at e; rw [hb] at e; cases e
      · have : ∀ t < 2, ∀ o < 8, ∀ o' < 8, Mirror 3 (t + 4) o o' → o % 4 = o' % 4 := by decide
        have e := this (s - 4) (by omega) o ho o' hm.1 (by rw [show s - 4 + 4 = s by omega]; exact hm)
        show (if s < 4 then _ else _) = (if s < 4 then _ else _)
        rw [if_neg h4, if_neg h4, e]

/-! ## One after the other -/

theorem Carries.trans {F'' : Type} {Q : Prob F K} {Q' : Prob F' K} {Q'' : Prob F'' K} {w w' w'' : Nat → K}
    {S : (Nat → K) → Nat → Nat → (Nat → F) → (Nat → K) → Prop} {S' : (Nat → K) → Nat → Nat → (Nat → F') → (Nat → K) → Prop}
    {S'' : (Nat → K) → Nat → Nat → (Nat → F'') → (Nat → K) → Prop} {κ κ' : Nat → Nat} {ω ω' : Nat → Nat → Nat} {τ τ' : Nat → Nat}
    (h : Carries Q w S Q' w' S' κ ω τ) (h' : Carries Q' w' S' Q'' w'' S'' κ' ω' τ')
    (hκ : ∀ c < Q.N, κ c < Q'.N) (hω : ∀ o < 2 ^ Q.dim, ∀ c < Q.N, ω c o < 2 ^ Q'.dim) (hτ : ∀ a < Q.na, τ a < Q'.na) :
    Carries Q w S Q'' w'' S'' (fun c => κ' (κ c)) (fun c o => ω' (κ c) (ω c o)) (fun a => τ' (τ a)) := by
  intro src src' phi phi' bd' psi' hs hp hS
  obtain ⟨bd1, psi1, h1, e1⟩ := h' (fun o a c => src' (ω' c o) (τ' a) (κ' c)) src' (fun c => phi' (κ' c)) phi' bd' psi'
    (fun _ _ _ _ _ _ => rfl) (fun _ _ => rfl) hS
  obtain ⟨bd2, psi2, h2, e2⟩ := h src (fun o a c => src' (ω' c o) (τ' a) (κ' c)) phi (fun c => phi' (κ' c)) bd1 psi1 hs hp h1
  exact ⟨bd2, psi2, h2, fun o ho a ha c hc => by rw [e2 o ho a ha c hc, e1 _ (hω o ho c hc) _ (hτ a ha) _ (hκ c hc)]⟩

theorem Carries.congr {Q : Prob F K} {Q' : Prob F' K} {w w' : Nat → K}
    {S : (Nat → K) → Nat → Nat → (Nat → F) → (Nat → K) → Prop} {S' : (Nat → K) → Nat → Nat → (Nat → F') → (Nat → K) → Prop}
    {κ κ' : Nat → Nat} {ω ω' : Nat → Nat → Nat} {τ : Nat → Nat} (h : Carries Q w S Q' w' S' κ ω τ)
    (hκ : ∀ c < Q.N, κ c = κ' c) (hω : ∀ c < Q.N, ω c = ω' c) : Carries Q w S Q' w' S' κ' ω' τ := by
  intro src src' phi phi' bd' psi' hs hp hS
  obtain ⟨bd, psi, h1, e⟩ := h src src' phi phi' bd' psi' (fun o ho a ha c hc => by rw [hs o ho a ha c hc, hκ c hc, hω c hc])
    (fun c hc => by rw [hp c hc, hκ c hc]) hS
  exact ⟨bd, psi, h1, fun o ho a ha c hc => by rw [e o ho a ha c hc, hκ c hc, hω c hc]⟩

/-- Sides without given fluxes. -/
theorem plain {Q : Prob F K} {Q' : Prob F' K} {s s' : Nat} {ω : Nat → Nat → Nat → Nat} {τ : Nat → Nat}
    {ρ : Nat → Nat → Nat × Nat} (h : Q.bc s = .vacuum ∧ Q'.bc s' = .vacuum ∨ Q.bc s = .reflect ∧ Q'.bc s' = .reflect) :
    SameSide Q Q' s s' ω τ ρ := by
  unfold SameSide
  rcases h with ⟨a, b⟩ | ⟨a, b⟩ <;> rw [a, b] <;> trivial

theorem both {F₁ F₂ : Type} {b : BC F₁} {b' : BC F₂} (h : b = .vacuum ∧ b' = .vacuum ∨ b = .reflect ∧ b' = .reflect) :
    b' = .vacuum ∧ b' = .vacuum ∨ b' = .reflect ∧ b' = .reflect := by
  rcases h with h | h
  · exact Or.inl ⟨h.2, h.2⟩
  · exact Or.inr ⟨h.2, h.2⟩

theorem twice_swap (f : K × K → K × (K × K)) : f = swapEq (swapEq f) := rfl

/-- A rectangle symmetric about a line along the first axis. -/
theorem carries_fold2y {sch sch' : Nat → Nat → Nat → K → K × K → K × (K × K)} {w w' : Nat → K} {nx n na : Nat}
    {up up' : Bool} {bc bc' : Nat → BC (Nat → K)} {order order' scat scat' fixed fixed' mtod mtod' disc disc'} (hn : 0 < n)
    (hsch : ∀ a < na, ∀ i < nx, ∀ j < 2 * n, sch a i j = sch' a i (if j < n then j else 2 * n - 1 - j))
    (hw : ∀ a < na, w a = w' a) (hr : bc' 3 = .reflect)
    (hbc : ∀ s < 2, bc s = .vacuum ∧ bc' s = .vacuum ∨ bc s = .reflect ∧ bc' s = .reflect)
    (hbc2 : ∀ s, 2 ≤ s → s < 4 → bc s = .vacuum ∧ bc' 2 = .vacuum ∨ bc s = .reflect ∧ bc' 2 = .reflect) :
    Carries (prob2 sch w nx (2 * n) na up bc order scat fixed mtod disc) w (eqs2 sch nx (2 * n))
      (prob2 sch' w' nx n na up' bc' order' scat' fixed' mtod' disc') w' (eqs2 sch' nx n)
      (fun c => c % nx + (if c / nx < n then c / nx else 2 * n - 1 - c / nx) * nx)
      (fun c o => if c / nx < n then fd (fd o) else fd (fx (fd o))) id := by
  have hself : ∀ s < 4, bc s = .vacuum ∧ bc s = .vacuum ∨ bc s = .reflect ∧ bc s = .reflect := fun s hs => by
    rcases Nat.lt_or_ge s 2 with h | h
    · rcases hbc s h with e | e
      · exact Or.inl ⟨e.1, e.1⟩
      · exact Or.inr ⟨e.1, e.1⟩
    · rcases hbc2 s h hs with e | e
      · exact Or.inl ⟨e.1, e.1⟩
      · exact Or.inr ⟨e.1, e.1⟩
  have hsd : ∀ s < 4, sd (sd s) = s ∧ sd s < 4 := by decide
  have t1 : Carries (prob2 sch w nx (2 * n) na up bc order scat fixed mtod disc) w (eqs2 sch nx (2 * n))
      (prob2 (fun a i j q => swapEq (sch a j i q)) w (2 * n) nx na up (fun s => bc (sd s)) order scat fixed mtod disc) w
      (eqs2 (fun a i j q => swapEq (sch a j i q)) (2 * n) nx) _ _ id :=
    carries_turn2 (fun _ h => h) (fun _ _ _ _ _ _ _ => rfl) (fun _ => rfl) (fun s hs => plain (by
      show bc s = .vacuum ∧ bc (sd (sd s)) = .vacuum ∨ bc s = .reflect ∧ bc (sd (sd s)) = .reflect
      rw [(hsd s hs).1]; exact hself s hs))
  have t2 : Carries
      (prob2 (fun a i j q => swapEq (sch a j i q)) w (2 * n) nx na up (fun s => bc (sd s)) order scat fixed mtod disc) w
      (eqs2 (fun a i j q => swapEq (sch a j i q)) (2 * n) nx)
      (prob2 (fun a i j q => swapEq (sch' a j i q)) w' n nx na up (fun s => bc' (sd s)) order scat fixed mtod disc) w'
      (eqs2 (fun a i j q => swapEq (sch' a j i q)) n nx) _ _ id :=
    carries_fold2 hn (fun a ha i hi j hj => by funext q; rw [hsch a ha j hj i hi]) hw hr
      (fun s hs => plain (by
        have h2 : ∀ s < 2, 2 ≤ sd s ∧ sd s < 4 := by decide
        exact hbc2 (sd s) (h2 s hs).1 (h2 s hs).2))
      (fun s h2 hs => plain (by
        have h3 : ∀ t < 2, sd (t + 2) < 2 := by decide
        have := h3 (s - 2) (by omega)
        rw [show s - 2 + 2 = s by omega] at this
        exact hbc (sd s) this))
  have hself' : ∀ s < 4, bc' s = .vacuum ∧ bc' s = .vacuum ∨ bc' s = .reflect ∧ bc' s = .reflect := fun s hs => by
    rcases Nat.lt_or_ge s 2 with h | h
    · exact both (hbc s h)
    · rcases (show s = 2 ∨ s = 3 by omega) with e | e
      · rw [e]; exact both (hbc2 2 le_rfl (by decide))
      · rw [e]; exact Or.inr ⟨hr, hr⟩
  have t3 : Carries
      (prob2 (fun a i j q => swapEq (sch' a j i q)) w' n nx na up (fun s => bc' (sd s)) order scat fixed mtod disc) w'
      (eqs2 (fun a i j q => swapEq (sch' a j i q)) n nx)
      (prob2 sch' w' nx n na up' bc' order' scat' fixed' mtod' disc') w' (eqs2 sch' nx n) _ _ id :=
    carries_turn2 (fun _ h => h) (fun _ _ _ _ _ _ _ => rfl) (fun _ => rfl) (fun s hs => plain (hself' (sd s) (hsd s hs).2))
  have fdl : ∀ o < 4, fd o < 4 ∧ fx o < 4 := by decide
  have geo : ∀ c < nx * (2 * n), (c / nx + c % nx * (2 * n)) % (2 * n) = c / nx ∧
      (c / nx + c % nx * (2 * n)) / (2 * n) = c % nx ∧ c / nx < 2 * n ∧ c % nx < nx := fun c hc => by
    have h0 : c / nx < 2 * n := Nat.div_lt_of_lt_mul hc
    have hx : 0 < nx := Nat.pos_of_ne_zero fun h => by simp [h] at hc
    obtain ⟨e1, e2⟩ := Sweep.idx (j := c % nx) h0
    exact ⟨e1, e2, h0, Nat.mod_lt _ hx⟩
  refine (t1.trans (t2.trans t3 (fun c hc => ?_) (fun o ho c hc => ?_) fun _ h => h) (fun c hc => ?_) (fun o ho c _ => (fdl o ho).1)
    fun _ h => h).congr (fun c hc => ?_) (fun c hc => ?_)
  · change c < 2 * n * nx at hc
    have hx : 0 < nx := Nat.pos_of_ne_zero fun h => by simp [h] at hc
    have h1 : c / (2 * n) < nx := Nat.div_lt_of_lt_mul hc
    have h2 : c % (2 * n) < 2 * n := Nat.mod_lt _ (by omega)
    exact cell2_lt (show (if c % (2 * n) < n then c % (2 * n) else 2 * n - 1 - c % (2 * n)) < n by split <;> omega) h1
  · change o < 4 at ho
    show (if _ then o else fx o) < 4
    split
    · exact ho
    · exact (fdl o ho).2
  · obtain ⟨_, _, h1, h2⟩ := geo c hc
    exact cell2_lt h1 h2
  · obtain ⟨e1, e2, h1, h2⟩ := geo c hc
    have hk : (if c / nx < n then c / nx else 2 * n - 1 - c / nx) < n := by split <;> omega
    obtain ⟨e3, e4⟩ := Sweep.idx (j := c % nx) hk
    rw [e1, e2, e3, e4]
  · obtain ⟨e1, e2, h1, h2⟩ := geo c hc
    funext o
    rw [e1]
    split <;> rfl

/-- A rectangle symmetric about both middle lines. -/
theorem carries_quarter2 {sch sch' : Nat → Nat → Nat → K → K × K → K × (K × K)} {w w' : Nat → K} {n l na : Nat}
    {up up' : Bool} {bc bc' : Nat → BC (Nat → K)} {order order' scat scat' fixed fixed' mtod mtod' disc disc'} (hn : 0 < n)
    (hl : 0 < l) (hsch : ∀ a < na, ∀ i < 2 * n, ∀ j < 2 * l,
      sch a i j = sch' a (if i < n then i else 2 * n - 1 - i) (if j < l then j else 2 * l - 1 - j))
    (hw : ∀ a < na, w a = w' a) (hr : bc' 1 = .reflect ∧ bc' 3 = .reflect)
    (hbc : ∀ s < 4, bc s = .vacuum ∧ bc' (2 * (s / 2)) = .vacuum ∨ bc s = .reflect ∧ bc' (2 * (s / 2)) = .reflect) :
    ∃ ω, Carries (prob2 sch w (2 * n) (2 * l) na up bc order scat fixed mtod disc) w (eqs2 sch (2 * n) (2 * l))
      (prob2 sch' w' n l na up' bc' order' scat' fixed' mtod' disc') w' (eqs2 sch' n l)
      (fun c => (if c % (2 * n) < n then c % (2 * n) else 2 * n - 1 - c % (2 * n)) +
        (if c / (2 * n) < l then c / (2 * n) else 2 * l - 1 - c / (2 * n)) * n) ω id := by
  have h0 := hbc 0 (by decide)
  have h1 := hbc 1 (by decide)
  have h2 := hbc 2 (by decide)
  have h3 := hbc 3 (by decide)
  let sm : Nat → Nat → Nat → K → K × K → K × (K × K) := fun a i j => sch' a i (if j < l then j else 2 * l - 1 - j)
  let bm : Nat → BC (Nat → K) := fun s => if s = 3 then bc' 2 else bc' s
  have t1 : Carries (prob2 sch w (2 * n) (2 * l) na up bc order scat fixed mtod disc) w (eqs2 sch (2 * n) (2 * l))
      (prob2 sm w n (2 * l) na up bm order scat fixed mtod disc) w (eqs2 sm n (2 * l)) _ _ id :=
    carries_fold2 hn hsch (fun _ _ => rfl) hr.1
      (fun s hs => plain (by
        rcases (show s = 0 ∨ s = 1 by omega) with e | e <;> subst e
        · exact h0
        · exact h1))
      (fun s h hs => plain (by
        rcases (show s = 2 ∨ s = 3 by omega) with e | e <;> subst e
        · exact h2
        · exact h3))
  have t2 : Carries (prob2 sm w n (2 * l) na up bm order scat fixed mtod disc) w (eqs2 sm n (2 * l))
      (prob2 sch' w' n l na up' bc' order' scat' fixed' mtod' disc') w' (eqs2 sch' n l) _ _ id :=
    carries_fold2y hl (fun _ _ _ _ _ _ => rfl) hw hr.2
      (fun s hs => by
        rcases (show s = 0 ∨ s = 1 by omega) with e | e <;> subst e
        · exact both h0
        · exact Or.inr ⟨hr.1, hr.1⟩)
      (fun s h hs => by
        rcases (show s = 2 ∨ s = 3 by omega) with e | e <;> subst e
        · exact both h2
        · exact both h2)
  have fdl : ∀ o < 4, fd o < 4 ∧ fx o < 4 := by decide
  have pos : ∀ c < 2 * n * (2 * l), (if c % (2 * n) < n then c % (2 * n) else 2 * n - 1 - c % (2 * n)) < n ∧ c / (2 * n) < 2 * l :=
    fun c hc => by
      have h2 : c % (2 * n) < 2 * n := Nat.mod_lt _ (by omega)
      exact ⟨by split <;> omega, Nat.div_lt_of_lt_mul hc⟩
  refine ⟨_, (t1.trans t2 (fun c hc => ?_) (fun o ho c hc => ?_) fun _ h => h).congr (fun c hc => ?_) fun _ _ => rfl⟩
  · obtain ⟨k1, k2⟩ := pos c hc
    exact cell2_lt k1 k2
  · change o < 4 at ho
    show (if _ then o else fx o) < 4
    split
    · exact ho
    · exact (fdl o ho).2
  · obtain ⟨k1, k2⟩ := pos c hc
    obtain ⟨e1, e2⟩ := Sweep.idx (j := c / (2 * n)) k1
    rw [e1, e2]

end geom
end Detran.WGReflect
